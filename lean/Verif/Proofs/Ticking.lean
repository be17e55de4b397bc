import Verif.Spec.Ticking
import Verif.Proofs.ExactSys
import Verif.Props.Keys
/-!
Commands under a moving clock, on the view of databases.
-/
set_option linter.unusedSectionVars false
set_option linter.unusedSimpArgs false
set_option linter.unusedVariables false
namespace Metis.TickSim
open Metis Metis.Spec Metis.Ticking
open _root_.Metis.Spec.Exact (Forward)
variable {hash : Bytes → Nat} {e : Env} {clk : Clock} {s : AS} {X Y : Bytes → Bool} {k : Bytes}

/-- Some keys removed. -/
def drop (X : Bytes → Bool) (s : AS) : AS := ⟨fun k => if X k then none else s.v k, fun k => if X k then none else s.t k⟩

/-- The deadline passes while the command runs. -/
def Pass (clk : Clock) (s : AS) (k : Bytes) : Prop := ∃ d i, s.t k = some d ∧ clk 0 ≤ d ∧ d < clk i

theorem drop_none : drop (fun _ => false) s = s := rfl
theorem drop_v (h : X k = false) : (drop X s).v k = s.v k := by simp [drop, h]
theorem drop_t (h : X k = false) : (drop X s).t k = s.t k := by simp [drop, h]
theorem expired_drop (h : X k = false) : A.expired e (drop X s) k = A.expired e s k := by unfold A.expired; rw [drop_t h]

theorem expired_at (h : Forward clk) (i : Nat) (hx : A.expired (atTime e (clk 0)) s k = true) : A.expired (atTime e (clk i)) s k = true := by
  have := h 0 i (Nat.zero_le i)
  unfold A.expired at hx ⊢
  cases ht : s.t k with
  | none => rw [ht] at hx; cases hx
  | some d =>
    rw [ht] at hx
    have hx : d < clk 0 := of_decide_eq_true hx
    exact decide_eq_true (show d < clk i by omega)

/-- A look at the i-th reading is a look at the first one in a database that may lack the key. -/
theorem look_at (hf : Forward clk) (i : Nat) (s : AS) (k : Bytes) : ∃ X0 : Bool, (X0 = true → Pass clk s k ∧ A.expired (atTime e (clk i)) s k = true) ∧
    ∀ X', X' k = false → A.exp (atTime e (clk 0)) (drop (fun x => (decide (x = k) && X0) || X' x) s) k = drop X' (A.exp (atTime e (clk i)) s k) ∧
      (X0 = true → drop (fun x => (decide (x = k) && X0) || X' x) s = drop X' (A.exp (atTime e (clk i)) s k)) := by
  cases hx : A.expired (atTime e (clk i)) s k with
  | false =>
    have hx0 : A.expired (atTime e (clk 0)) s k = false := by
      cases h : A.expired (atTime e (clk 0)) s k with
      | false => rfl
      | true => rw [expired_at hf i h] at hx; cases hx
    refine ⟨false, (fun h => by cases h), fun X' h' => ⟨?_, fun h => by cases h⟩⟩
    simp only [Bool.and_false, Bool.false_or]
    unfold A.exp
    rw [hx, expired_drop (X := fun x => X' x) h', hx0]
    rfl
  | true =>
    have he : A.exp (atTime e (clk i)) s k = ⟨upd s.v k none, upd s.t k none⟩ := by unfold A.exp; rw [if_pos hx]
    cases hx0 : A.expired (atTime e (clk 0)) s k with
    | true =>
      refine ⟨false, (fun h => by cases h), fun X' h' => ⟨?_, fun h => by cases h⟩⟩
      simp only [Bool.and_false, Bool.false_or]
      rw [he]
      unfold A.exp
      rw [if_pos (by rw [expired_drop (X := fun x => X' x) h', hx0])]
      unfold drop upd
      simp only [AS.mk.injEq]
      constructor <;> funext y <;> (by_cases hy : k = y <;> simp [hy])
    | false =>
      refine ⟨true, fun _ => ⟨?_, rfl⟩, fun X' h' => ?_⟩
      · unfold A.expired at hx hx0
        cases ht : s.t k with
        | none => rw [ht] at hx; cases hx
        | some d =>
          rw [ht] at hx hx0
          have hx : d < clk i := of_decide_eq_true hx
          have hx0 : ¬ d < clk 0 := of_decide_eq_false hx0
          exact ⟨d, i, ht, by omega, hx⟩
      · have hd : drop (fun x => (decide (x = k) && true) || X' x) s = drop X' (A.exp (atTime e (clk i)) s k) := by
          rw [he]
          unfold drop upd
          simp only [AS.mk.injEq]
          constructor <;> funext y <;> (by_cases hy : k = y <;> [simp [hy]; simp [hy, show ¬ y = k from fun h => hy h.symm]])
        refine ⟨?_, fun _ => hd⟩
        rw [hd, he]
        unfold A.exp
        rw [if_neg]
        unfold A.expired
        have : (drop X' (⟨upd s.v k none, upd s.t k none⟩ : AS)).t k = none := by
          rw [drop_t h']; simp [upd]
        rw [this]; simp

theorem pass_exp {i : Nat} {k' : Bytes} (h : Pass clk (A.exp (atTime e (clk i)) s k) k') : Pass clk s k' := by
  obtain ⟨d, j, h1, h2⟩ := h
  refine ⟨d, j, ?_, h2⟩
  unfold A.exp at h1
  split at h1
  · simp only [upd] at h1
    split at h1
    · cases h1
    · exact h1
  · exact h1

theorem look_drop {β : Type} {as : AObj → Option β} (h : X k = false) : A.look as (drop X s) k = A.look as s k := by
  unfold A.look; rw [drop_v h]

/-! ### SDIFF, SINTER, SUNION -/

/-- `A.opLoop` with the clock moving. -/
def opLoopA (clk : Clock) (f : Bool → Bool → Bool) (stop : Bool) (e : Env) : Nat → List Bytes → Fn Unit → AS → (Fn Unit ⊕ List Bytes) × AS
  | _, [], h, s => (.inl h, s)
  | i, key :: rest, h, s =>
    let s := A.exp (atTime e (clk i)) s key
    match A.look AObj.asSet s key with
    | .missing => if stop then (.inr Reply.empty, s) else opLoopA clk f stop e (i + 1) rest h s
    | .wrong => (.inr (Reply.error Reply.errWrongType), s)
    | .found g => opLoopA clk f stop e (i + 1) rest (fun x => if f (h x).isSome (g x).isSome then some () else none) s

/-- `A.setOp` with the clock moving. -/
def setOpA (clk : Clock) (f : Bool → Bool → Bool) (stop : Bool) (e : Env) (args : List Bytes) (s : AS) : Option AOut := do
  let key ← args[1]?
  let s := A.exp (atTime e (clk 0)) s key
  match A.look AObj.asSet s key with
  | .missing => some ⟨s, 0, A.ex Reply.empty⟩
  | .wrong => some ⟨s, 0, A.ex (Reply.error Reply.errWrongType)⟩
  | .found h =>
    match opLoopA clk f stop e 1 (args.drop 2) h s with
    | (.inr r, s) => some ⟨s, 0, A.ex r⟩
    | (.inl h, s) => some ⟨s, 0, A.dom h⟩

/-- the local variable of SDIFF/SINTER/SUNION -/
def CurAt (hash : Bytes → Nat) (s : AS) : Cmds.Cur → Fn Unit → Prop
  | .fresh a, h => Dict.Good hash a ∧ a.abs = h
  | .stored k a, h => Dict.Good hash a ∧ a.abs = h ∧ s.v k = some (.set h)

theorem exp_ne {k' : Bytes} (h : k' ≠ k) : (A.exp e s k).v k' = s.v k' := by
  unfold A.exp
  split
  · exact upd_ne _ _ h
  · rfl

theorem opLoop_tick (he : e.hash = hash) {op : Cmds.SetOp} {f : Bool → Bool → Bool} (ho : OpRel hash op f) :
    ∀ (rest : List Bytes) (i : Nat) (cur : Cmds.Cur) (h : Fn Unit) (db : Db), db.Good hash → CurAt hash db.view cur h →
    ∃ r db', Ticking.opLoop clk op e i rest cur db = some (r, db') ∧ db'.Good hash ∧ db'.view = (opLoopA clk f op.stopIfMissing e i rest h db.view).2 ∧
      ((∃ x, r = .inr x ∧ (opLoopA clk f op.stopIfMissing e i rest h db.view).1 = .inr x) ∨
       ∃ c' h', r = .inl c' ∧ (opLoopA clk f op.stopIfMissing e i rest h db.view).1 = .inl h' ∧ CurAt hash db'.view c' h')
  | [], i, cur, h, db, g, hc => by
    refine ⟨_, db, rfl, g, rfl, Or.inr ⟨cur, h, rfl, rfl, ?_⟩⟩
    exact hc
  | key :: rest, i, cur, h, db, g, hc => by
    obtain ⟨l, db1, h1, g1, v1, hl⟩ := look_ref (atTime e (clk i)) he g cast_set key
    unfold Ticking.opLoop opLoopA
    simp only [h1, Option.bind_eq_bind, Option.bind_some]
    rcases hl with ⟨rfl, hl⟩ | ⟨rfl, hl⟩ | ⟨a, b, rfl, hl, ⟨ga, rfl⟩, hk⟩
    · simp only [hl]
      cases hst : op.stopIfMissing with
      | true =>
        simp only [if_true]
        exact ⟨_, db1, rfl, g1, v1, Or.inl ⟨_, rfl, rfl⟩⟩
      | false =>
        have hc1 : CurAt hash db1.view (Ticking.lost key cur) h := by
          cases cur with
          | fresh a => exact hc
          | stored k a =>
            obtain ⟨c1, c2, c3⟩ := hc
            by_cases hk : k = key
            · simp only [Ticking.lost, if_pos hk]; exact ⟨c1, c2⟩
            · simp only [Ticking.lost, if_neg hk]; exact ⟨c1, c2, by rw [v1, exp_ne hk, c3]⟩
        have := opLoop_tick he ho rest (i + 1) (Ticking.lost key cur) h db1 g1 hc1
        rw [hst, v1] at this
        simpa using this
    · simp only [hl]
      exact ⟨_, db1, rfl, g1, v1, Or.inl ⟨_, rfl, rfl⟩⟩
    · simp only [hl]
      have step : ∃ c2 db2, Cmds.applyOp op e db1 cur key a = some (c2, db2) ∧ db2.Good hash ∧ db2.view = db1.view ∧
          CurAt hash db2.view c2 (fun x => if f (h x).isSome (a.abs x).isSome then some () else none) := by
        unfold Cmds.applyOp
        cases cur with
        | fresh s =>
          obtain ⟨gs, rfl⟩ := hc
          obtain ⟨s', a', r, e1, e2, e3, e4, e5, e6, e7⟩ := ho.two s a gs ga
          obtain ⟨p1, p2⟩ := put_same e he g1 key (.set a') e4 (by rw [hk]; simp [Obj.view, e5])
          refine ⟨.fresh r, Db.put e db1 key (.set a'), ?_, p1, p2, e6, e7⟩
          simp only [he, e1, Option.bind_eq_bind, Option.bind_some]
        | stored k1 s =>
          obtain ⟨gs, rfl, hk1⟩ := hc
          by_cases hkk : k1 = key
          · subst hkk
            have hk2 : db.view.v k1 = some (.set a.abs) := by
              rw [← hk, v1]
              unfold A.exp
              split
              next hx =>
                exfalso
                rw [v1] at hk
                unfold A.exp at hk
                rw [if_pos hx] at hk
                simp [upd] at hk
              · rfl
            rw [hk2] at hk1
            simp only [Option.some.injEq, AObj.set.injEq] at hk1
            obtain ⟨r, e1, e2, e3⟩ := ho.self s gs
            obtain ⟨p1, p2⟩ := put_same e he g1 k1 (.set s) gs (by rw [hk]; simp [Obj.view, hk1])
            refine ⟨.fresh r, Db.put e db1 k1 (.set s), ?_, p1, p2, e2, ?_⟩
            · simp only [he, e1, Option.bind_eq_bind, Option.bind_some, if_true]
            · rw [e3, hk1]
          · have hk2 : db1.view.v k1 = some (.set s.abs) := by rw [v1, exp_ne hkk, hk1]
            obtain ⟨s', a', r, e1, e2, e3, e4, e5, e6, e7⟩ := ho.two s a gs ga
            obtain ⟨p1, p2⟩ := put_same e he g1 key (.set a') e4 (by rw [hk]; simp [Obj.view, e5])
            obtain ⟨q1, q2⟩ := put_same e he p1 k1 (.set s') e2 (by rw [p2, hk2]; simp [Obj.view, e3])
            refine ⟨.fresh r, Db.put e (Db.put e db1 key (.set a')) k1 (.set s'), ?_, q1, by rw [q2, p2], e6, e7⟩
            simp only [he, e1, Option.bind_eq_bind, Option.bind_some, if_neg hkk]
      obtain ⟨c2, db2, s1, s2, s3, s4⟩ := step
      have := opLoop_tick he ho rest (i + 1) c2 _ db2 s2 s4
      rw [s3, v1] at this
      simp only [s1, Option.bind_some]
      exact this

theorem setOp_tick (he : e.hash = hash) {db : Db} (g : db.Good hash) {args : List Bytes} {op : Cmds.SetOp} {f : Bool → Bool → Bool} (ho : OpRel hash op f) :
    Ref hash (Ticking.setOpCmd op clk e args db) (setOpA clk f op.stopIfMissing e args db.view) := by
  unfold Ticking.setOpCmd setOpA
  cases hk0 : args[1]? with
  | none => trivial
  | some key =>
    simp only [Option.bind_eq_bind, Option.bind_some]
    obtain ⟨l, db', h0, g', hv, hl⟩ := look_ref (atTime e (clk 0)) he g cast_set key
    simp only [h0, Option.bind_some]
    rcases hl with ⟨rfl, hl⟩ | ⟨rfl, hl⟩ | ⟨a, b, rfl, hl, ⟨ga, rfl⟩, hk⟩
    · simp only [hl]; exact rel_ex g' hv
    · simp only [hl]; exact rel_ex g' hv
    · obtain ⟨r, db2, h1, g2, v2, hr⟩ := opLoop_tick (clk := clk) he ho (args.drop 2) 1 (.stored key a) a.abs db' g' ⟨ga, rfl, hk⟩
      rw [hv] at v2 hr
      simp only [hl, h1, Option.bind_some]
      generalize opLoopA clk f op.stopIfMissing e 1 (args.drop 2) a.abs (A.exp (atTime e (clk 0)) db.view key) = res at v2 hr ⊢
      obtain ⟨res, s2⟩ := res
      simp only at v2 hr
      rcases hr with ⟨x, rfl, rfl⟩ | ⟨c', h', rfl, rfl, hc⟩
      · exact rel_ex g2 v2
      · cases c' with
        | fresh s =>
          obtain ⟨gs, rfl⟩ := hc
          obtain ⟨r, e1, e2⟩ := reply_set gs
          simp only [e1, Option.bind_some]
          exact ⟨g2, v2, rfl, e2⟩
        | stored k s =>
          obtain ⟨gs, rfl, hk'⟩ := hc
          obtain ⟨r, e1, e2⟩ := reply_set gs
          obtain ⟨p1, p2⟩ := put_same e he g2 k (.set s) gs (by rw [hk']; rfl)
          simp only [e1, Option.bind_some]
          exact ⟨p1, by rw [p2, v2], rfl, e2⟩

/-! ### RANDOMGET -/

theorem randomLoop_tick (he : e.hash = hash) (hf : Forward clk) : ∀ (fuel i : Nat) (draws : List Nat) (db : Db), db.Good hash → ∀ o,
    Ticking.randomLoop clk e fuel i draws db = some o →
    ∃ X picks a, (∀ k, X k = true → Pass clk db.view k) ∧ A.randomGet (atTime e (clk 0)) picks (drop X db.view) = some a ∧ Rel hash o a
  | 0, _, _, _, _, _, h => by cases h
  | fuel + 1, i, draws, db, g, o, h => by
    unfold Ticking.randomLoop at h
    obtain ⟨out, d', rest, e1, e2, e3, e4, e5, e6, e7, e8⟩ := Dict.getRandomKey_spec db.dict g.dict.inv draws
    simp only [he, e1, Option.bind_eq_bind, Option.bind_some] at h
    have gd : Dict.Good hash d' := ⟨e2, by rw [e4, g.dict.idle]⟩
    have ad : d'.abs = db.dict.abs := Dict.abs_perm g.dict.inv e3
    have g1 := good_dict g gd ad
    have v1 : Db.view { db with dict := d' } = db.view := view_dict ad
    cases out with
    | nil =>
      simp only [Option.some.injEq] at h; subst h
      refine ⟨fun _ => false, [], _, (fun k h => by cases h), rfl, g1, v1, rfl, ?_, rfl⟩
      intro k
      have := e6.1 rfl
      rw [drop_none, view_none, Dict.abs_eq_none, this]; simp
    | spin => cases h
    | entry p =>
      obtain ⟨k, v⟩ := p
      have hin := e7 _ rfl
      have hk : (db.view.v k).isNone = false := by
        have := (Dict.abs_eq_some g.dict.inv k v).2 hin
        simp [Db.view, this]
      obtain ⟨db2, h2, g2, v2⟩ := exp_ref (atTime e (clk i)) he g1 k
      rw [v1] at h2 v2
      simp only [h2, Option.bind_some] at h
      cases hx : A.expired (atTime e (clk i)) db.view k with
      | false =>
        simp only [hx, Bool.false_eq_true, if_false, Option.some.injEq] at h
        subst h
        have hx0 : A.expired (atTime e (clk 0)) db.view k = false := by
          cases h : A.expired (atTime e (clk 0)) db.view k with
          | false => rfl
          | true => rw [expired_at hf i h] at hx; cases hx
        refine ⟨fun _ => false, [k], ⟨db.view, 0, A.ex (Reply.bulk k)⟩, (fun k h => by cases h), ?_, g2, ?_, rfl, rfl⟩
        · unfold A.randomGet
          simp [drop_none, hk, hx0]
        · rw [v2]; simp [A.exp, hx]
      | true =>
        simp only [hx, if_true] at h
        obtain ⟨X', picks, a, q0, q1, q2⟩ := randomLoop_tick he hf fuel (i + 1) rest db2 g2 o h
        rw [v2] at q0 q1
        have h0 : X' k = false := by
          cases hh : X' k with
          | false => rfl
          | true =>
            obtain ⟨d, j, w1, _⟩ := q0 k hh
            unfold A.exp at w1
            rw [if_pos hx] at w1
            simp [upd] at w1
        obtain ⟨X0, p0, p1⟩ := look_at (e := e) hf i db.view k
        obtain ⟨p2, p3⟩ := p1 X' h0
        have hX : ∀ x, ((decide (x = k) && X0) || X' x) = true → Pass clk db.view x := by
          intro x hh
          simp only [Bool.or_eq_true, Bool.and_eq_true, decide_eq_true_eq] at hh
          rcases hh with ⟨rfl, hh⟩ | hh
          · exact (p0 hh).1
          · exact pass_exp (q0 x hh)
        cases hX0 : X0 with
        | true =>
          subst hX0
          exact ⟨_, picks, a, hX, by rw [p3 rfl]; exact q1, q2⟩
        | false =>
          subst hX0
          refine ⟨_, k :: picks, a, hX, ?_, q2⟩
          simp only [Bool.and_false, Bool.false_or] at p2 ⊢
          unfold A.randomGet
          have hx0 : A.expired (atTime e (clk 0)) (drop (fun x => X' x) db.view) k = true := by
            cases hh : A.expired (atTime e (clk 0)) (drop (fun x => X' x) db.view) k with
            | true => rfl
            | false =>
              exfalso
              unfold A.exp at p2
              rw [if_neg (by rw [hh]; decide), if_pos hx] at p2
              have := congrFun (congrArg AS.v p2) k
              rw [drop_v (X := fun x => X' x) h0, drop_v h0] at this
              simp only [upd, if_true] at this
              rw [this] at hk; cases hk
          rw [if_neg (by rw [drop_v (X := fun x => X' x) h0, hk]; decide), if_pos hx0, p2]
          exact q1

/-! ### the timer -/

theorem swept_at (hf : Forward clk) {i j : Nat} (h : i ≤ j) {s s' : AS} (hs : Swept (atTime e (clk i)) s s') : Swept (atTime e (clk j)) s s' := by
  intro k
  rcases hs k with hs | ⟨h1, h2⟩
  · exact Or.inl hs
  · refine Or.inr ⟨?_, h2⟩
    have := hf i j h
    unfold A.expired at h1 ⊢
    cases ht : s.t k with
    | none => rw [ht] at h1; cases h1
    | some d =>
      rw [ht] at h1
      have h1 : d < clk i := of_decide_eq_true h1
      exact decide_eq_true (show d < clk j by omega)

theorem cronDb_tick (he : e.hash = hash) (hf : Forward clk) : ∀ (fuel i : Nat) (draws : List Nat) (db : Db), db.Good hash → ∀ {db' rest j},
    Ticking.cronDb clk e fuel i draws db = some (db', rest, j) → db'.Good hash ∧ i ≤ j ∧ Swept (atTime e (clk j)) db.view db'.view
  | 0, _, _, _, g, _, _, _, h => by cases h; exact ⟨g, Nat.le_refl _, swept_refl⟩
  | fuel + 1, i, draws, db, g, db', rest, j, h => by
    unfold Ticking.cronDb at h
    obtain ⟨out, x', dr, e1, e2, e3, e4, e5, e6, e7, e8⟩ := Dict.getRandomKey_spec db.expire g.expire.inv draws
    simp only [he, e1, Option.bind_eq_bind, Option.bind_some] at h
    have gx : Dict.Good hash x' := ⟨e2, by rw [e4, g.expire.idle]⟩
    have ax : x'.abs = db.expire.abs := Dict.abs_perm g.expire.inv e3
    have g1 := good_expire g gx
    have v1 : Db.view { db with expire := x' } = db.view := by simp [Db.view, ax]
    cases out with
    | nil => cases h; exact ⟨g1, Nat.le_refl _, by rw [v1]; exact swept_refl⟩
    | spin => cases h
    | entry p =>
      obtain ⟨k, dl⟩ := p
      have hin := (Dict.abs_eq_some g.expire.inv k dl).2 (e7 _ rfl)
      simp only at h
      split at h
      · next hd =>
        obtain ⟨r1, d1, q1, g2, a1, _⟩ := Dict.delete_map g.dict k
        obtain ⟨r2, x2, q2, g3, a2, _⟩ := Dict.delete_map gx k
        simp only [q1, q2, Option.bind_some] at h
        have gg : Db.Good hash ⟨d1, x2⟩ := by
          refine ⟨g2, g3, ?_⟩
          intro k' o ho
          simp only [a1] at ho
          split at ho
          · cases ho
          · exact g.objs _ _ ho
        obtain ⟨r, hj, sw⟩ := cronDb_tick he hf fuel (i + 1) dr _ gg h
        refine ⟨r, by omega, swept_trans ?_ sw⟩
        intro y
        by_cases hy : k = y
        · subst hy
          refine Or.inr ⟨?_, ?_, ?_⟩
          · have := hf i j (by omega)
            simp only [A.expired, Db.view, hin]
            exact decide_eq_true (show dl < clk j by omega)
          · simp [Db.view, a1]
          · simp [Db.view, a2]
        · refine Or.inl ⟨?_, ?_⟩
          · simp [Db.view, a1, hy]
          · simp [Db.view, a2, hy, ax]
      · obtain ⟨r, hj, sw⟩ := cronDb_tick he hf fuel (i + 1) dr _ g1 h
        exact ⟨r, by omega, by rw [v1] at sw; exact sw⟩

theorem cronDbs_tick (he : e.hash = hash) (hf : Forward clk) : ∀ (dbs : List Db) (i : Nat) (draws : List Nat),
    (∀ (i : Nat) (db : Db), dbs[i]? = some db → db.Good hash) → ∀ {dbs'}, Ticking.cronDbs clk e i draws dbs = some dbs' → dbs'.length = dbs.length ∧ ∃ j, i ≤ j ∧
      ∀ (i : Nat) (db : Db), dbs[i]? = some db → ∃ db', dbs'[i]? = some db' ∧ db'.Good hash ∧ Swept (atTime e (clk j)) db.view db'.view
  | [], i, _, _, _, h => by cases h; exact ⟨rfl, i, Nat.le_refl _, by simp⟩
  | db :: rest, i, draws, g, dbs', h => by
    unfold Ticking.cronDbs at h
    simp only [Option.bind_eq_bind, Option.bind_eq_some_iff] at h
    obtain ⟨⟨db1, dr, i1⟩, h1, l, h2, h3⟩ := h
    cases h3
    obtain ⟨a, hi1, b⟩ := cronDb_tick he hf _ _ _ _ (g 0 db rfl) h1
    obtain ⟨k1, j, hj, k2⟩ := cronDbs_tick he hf rest i1 dr (fun i d h => g (i + 1) d h) h2
    refine ⟨by simp [k1], j, by omega, ?_⟩
    intro i d hd
    cases i with
    | zero =>
      cases hd
      exact ⟨db1, rfl, a, swept_at hf hj b⟩
    | succ i => exact k2 i d hd

/-! ### KEYS -/

/-- the keys a pass of KEYS has removed after the entries `done`, if it took those of `x` for dead -/
def goneX (x m : Bytes → Bool) (done : List (Bytes × Obj)) (k : Bytes) : Bool := (done.map Prod.fst).contains k && (m k && x k)

theorem goneX_ne {x m : Bytes → Bool} {done : List (Bytes × Obj)} {en : Bytes × Obj} {k : Bytes} (h : k ≠ en.1 ∨ m en.1 = false ∨ x en.1 = false) :
    goneX x m (done ++ [en]) k = goneX x m done k := by
  unfold goneX
  by_cases hk : k = en.1
  · subst hk
    rcases h with h | h | h
    · exact absurd rfl h
    · simp [h]
    · simp [h]
  · have : k ∈ List.map Prod.fst (done ++ [en]) ↔ k ∈ List.map Prod.fst done := by
      rw [List.map_append, List.mem_append]; simp only [List.map_cons, List.map_nil, List.mem_singleton]
      exact ⟨fun h => h.resolve_right hk, Or.inl⟩
    have hb : (List.map Prod.fst (done ++ [en])).contains k = (List.map Prod.fst done).contains k := by
      rw [Bool.eq_iff_iff, List.contains_iff_mem, List.contains_iff_mem, this]
    rw [hb]

/-- what a pass of KEYS has done after the entries `done` -/
def KInvX (e : Env) (db : Db) (x m : Bytes → Bool) (done : List (Bytes × Obj)) (d : Dict Bytes Obj) (st : (Dict Bytes Int × List Bytes × Bool) × Nat) : Prop :=
  Dict.Good e.hash st.1.1 ∧
  (∀ k, d.abs k = if goneX x m done k = true then none else db.dict.abs k) ∧
  (∀ k, st.1.1.abs k = if goneX x m done k = true then none else db.expire.abs k) ∧
  st.1.2.1 = (done.map Prod.fst).filter (fun k => m k && !x k) ∧ st.1.2.2 = false ∧ st.2 = done.length

/-- the keys dead at the turn at which KEYS comes to them -/
def seenDead (clk : Clock) (e : Env) (db : Db) (k : Bytes) : Bool := A.expired (atTime e (clk ((db.dict.toList.map Prod.fst).idxOf k))) db.view k

theorem idxOf_mid {l r : List Bytes} {k : Bytes} (h : k ∉ l) : (l ++ k :: r).idxOf k = l.length := by
  rw [List.idxOf_append, if_neg h]; simp

/-- what is taken away beforehand -/
def early (e : Env) (x m : Bytes → Bool) (s : AS) (k : Bytes) : Bool := m k && x k && (s.v k).isSome && !A.expired e s k

theorem sweep_early {x m : Bytes → Bool} (hx : ∀ k, A.expired e s k = true → x k = true) :
    A.sweep e m (drop (early e x m s) s) =
      ⟨fun k => if m k && x k then none else s.v k, fun k => if m k && x k && (s.v k).isSome then none else s.t k⟩ := by
  unfold A.sweep
  simp only [AS.mk.injEq]
  have hd : ∀ k, early e x m s k = true → (drop (early e x m s) s).v k = none ∧ (drop (early e x m s) s).t k = none ∧ A.expired e (drop (early e x m s) s) k = false := by
    intro k h
    have : (drop (early e x m s) s).t k = none := by simp [drop, h]
    refine ⟨by simp [drop, h], this, ?_⟩
    unfold A.expired; rw [this]
  constructor
  · funext k
    cases h : early e x m s k with
    | true =>
      obtain ⟨h1, h2, h3⟩ := hd k h
      rw [h1, h3]
      simp only [early, Bool.and_eq_true] at h
      simp [h.1.1.1, h.1.1.2]
    | false =>
      rw [drop_v h, expired_drop h]
      have := hx k
      simp only [early] at h
      cases hm : m k <;> cases hxk : x k <;> cases hs : s.v k <;> cases he : A.expired e s k <;> simp_all
  · funext k
    cases h : early e x m s k with
    | true =>
      obtain ⟨h1, h2, h3⟩ := hd k h
      rw [h1, h2, h3]
      simp only [early, Bool.and_eq_true] at h
      simp [h.1.1.1, h.1.1.2, h.1.2]
    | false =>
      rw [drop_v h, drop_t h, expired_drop h]
      have := hx k
      simp only [early] at h
      cases hm : m k <;> cases hxk : x k <;> cases hs : s.v k <;> cases he : A.expired e s k <;> simp_all

theorem keys_tick {args : List Bytes} {db : Db} (he : e.hash = hash) (hf : Forward clk) (g : db.Good hash) {pattern : Bytes} (ha : args[1]? = some pattern) :
    ∃ X, (∀ k, X k = true → (∃ m, A.pat e pattern = some m ∧ m k = true) ∧ Pass clk db.view k) ∧
      Ref hash (Ticking.keys clk e args db) (A.keys (atTime e (clk 0)) args (drop X db.view)) := by
  have h0 : db.dict.iterators = 0 := g.dict.idle
  cases hp : A.pat e pattern with
  | none =>
    refine ⟨fun _ => false, (fun k h => by cases h), ?_⟩
    unfold Ticking.keys A.keys
    simp only [ha, Option.bind_eq_bind, Option.bind_some, drop_none]
    rw [show A.pat (atTime e (clk 0)) pattern = none from hp]
    obtain ⟨d2, st, h1, h2, h3⟩ := Dict.forEach_spec (hash := hash) db.dict g.dict.inv (Int.le_of_eq h0.symm) (fun _ => h0) ((db.expire, [], false), 0)
      (Ticking.keysBody clk e pattern)
      (fun done d st => d = { db.dict with iterators := db.dict.iterators + 1 } ∧ st.1 = (db.expire, [], !done.isEmpty))
      (by
        rintro done en rest d1 ⟨s, n⟩ _ ⟨rfl, rfl⟩ _ _ _
        have : Cmds.keysBody (atTime e (clk n)) pattern en { db.dict with iterators := db.dict.iterators + 1 } (db.expire, [], !done.isEmpty) =
            some ({ db.dict with iterators := db.dict.iterators + 1 }, (db.expire, [], true)) := by
          unfold Cmds.keysBody
          unfold A.pat at hp
          rw [show (if pattern = b!"*" then some (fun _ => true) else (atTime e (clk n)).compile pattern) = none from hp]
          cases done <;> rfl
        refine ⟨_, ((db.expire, [], true), n + 1), ?_, Or.inl rfl, rfl, ?_⟩
        · unfold Ticking.keysBody
          simp only [this, Option.bind_eq_bind, Option.bind_some]
        · cases done <;> rfl)
      ⟨rfl, rfl⟩
    obtain ⟨st, n⟩ := st
    obtain ⟨rfl, h4⟩ := h3
    simp only at h4
    subst h4
    simp only [h1, Option.bind_eq_bind, Option.bind_some]
    cases ht : db.dict.toList with
    | nil =>
      simp only [List.isEmpty_nil, Bool.not_true, Bool.false_eq_true, if_false]
      refine ⟨g, rfl, rfl, Or.inl ⟨fun k => ?_, rfl⟩⟩
      rw [view_none, Dict.abs_eq_none, ht]; simp
    | cons x xs =>
      simp only [List.isEmpty_cons, Bool.not_false, if_true]
      refine ⟨g, rfl, rfl, Or.inr ⟨⟨x.1, ?_⟩, rfl⟩⟩
      have := (Dict.abs_eq_some g.dict.inv x.1 x.2).2 (by rw [ht]; simp)
      simp [Db.view, this]
  | some m =>
    subst he
    have hx0 : ∀ k, A.expired (atTime e (clk 0)) db.view k = true → seenDead clk e db k = true := fun k h => expired_at hf _ h
    refine ⟨early (atTime e (clk 0)) (seenDead clk e db) m db.view, fun k hk => ⟨⟨m, rfl, ?_⟩, ?_⟩, ?_⟩
    · simp only [early, Bool.and_eq_true] at hk; exact hk.1.1.1
    · simp only [early, Bool.and_eq_true, Bool.not_eq_true'] at hk
      obtain ⟨⟨⟨_, h1⟩, _⟩, h2⟩ := hk
      unfold seenDead at h1
      unfold A.expired at h1 h2
      cases ht : db.view.t k with
      | none => rw [ht] at h1; cases h1
      | some d =>
        rw [ht] at h1 h2
        exact ⟨d, _, ht, by have h2 : ¬ d < clk 0 := of_decide_eq_false h2; omega, of_decide_eq_true h1⟩
    unfold Ticking.keys A.keys
    simp only [ha, Option.bind_eq_bind, Option.bind_some]
    rw [show A.pat (atTime e (clk 0)) pattern = some m from hp]
    simp only [sweep_early hx0]
    obtain ⟨d2, st, h1, h2, h3⟩ := Dict.forEach_spec (hash := e.hash) db.dict g.dict.inv (Int.le_of_eq h0.symm) (fun _ => h0) ((db.expire, [], false), 0)
      (Ticking.keysBody clk e pattern) (KInvX e db (seenDead clk e db) m)
      (by
        rintro done en rest d1 ⟨⟨ex, ks, bad⟩, n⟩ hsp ⟨i1, i2, i3, i4, i5, i6⟩ hinv hit hin
        simp only at i1 i2 i3 i4 i5 i6
        subst i5 i6
        have hnd := g.dict.inv.nodup
        rw [← hsp] at hnd
        have hnotin : en.1 ∉ done.map Prod.fst := by
          simp only [List.map_append, List.map_cons, List.nodup_append, List.mem_cons] at hnd
          intro hc; exact hnd.2.2 _ hc _ (Or.inl rfl) rfl
        have hsd : seenDead clk e db en.1 = A.expired (atTime e (clk done.length)) db.view en.1 := by
          unfold seenDead
          rw [← hsp, List.map_append, List.map_cons, idxOf_mid hnotin, List.length_map]
        -- what the turn does
        have body : ∀ d' ex' ks', Cmds.keysBody (atTime e (clk done.length)) pattern en d1 (ex, ks, false) = some (d', (ex', ks', false)) →
            Ticking.keysBody clk e pattern en d1 ((ex, ks, false), done.length) = some (d', ((ex', ks', false), done.length + 1)) := by
          intro d' ex' ks' h
          unfold Ticking.keysBody
          simp only [h, Option.bind_eq_bind, Option.bind_some]
        have hkb : Cmds.keysBody (atTime e (clk done.length)) pattern en d1 (ex, ks, false) =
            (if m en.1 then do
              let (expired, db) ← Db.expireIfNeeded (atTime e (clk done.length)) { dict := d1, expire := ex } en.1
              some (db.dict, (db.expire, if expired then ks else ks ++ [en.1], false))
            else some (d1, (ex, ks, false))) := by
          unfold Cmds.keysBody
          unfold A.pat at hp
          rw [show (if pattern = b!"*" then some (fun _ => true) else (atTime e (clk done.length)).compile pattern) = some m from hp]
          rfl
        by_cases hm : m en.1 = true
        · rw [if_pos hm] at hkb
          obtain ⟨ex1, f1, f2, f3, _⟩ := Dict.find_map i1 en.1
          have f1 : Dict.find (atTime e (clk done.length)).hash ex en.1 = some (ex.abs en.1 |>.map fun v => (en.1, v), ex1) := f1
          have hexp : ex.abs en.1 = db.view.t en.1 := by
            rw [i3, if_neg (by simp only [goneX, Bool.and_eq_true, List.contains_iff_mem]; exact fun h => hnotin h.1)]; rfl
          unfold Db.expireIfNeeded at hkb
          simp only [f1, Option.bind_eq_bind, Option.bind_some, hexp] at hkb
          cases hx : seenDead clk e db en.1 with
          | true =>
            have hx' := hx
            rw [hsd] at hx
            unfold A.expired at hx
            cases ht : db.view.t en.1 with
            | none => rw [ht] at hx; cases hx
            | some dl =>
              rw [ht] at hx hkb
              simp only [decide_eq_true_eq] at hx
              obtain ⟨d', q1, q2, q3⟩ := delete_inv hinv (k := en.1) (v := en.2) ((Dict.abs_eq_some hinv _ _).2 hin)
              obtain ⟨r2, d3, w1, w2, w3, _⟩ := Dict.delete_map f2 en.1
              have q1' : Dict.delete (atTime e (clk done.length)).hash d1 en.1 = _ := q1
              have w1' : Dict.delete (atTime e (clk done.length)).hash ex1 en.1 = _ := w1
              simp only [Option.map_some, if_pos hx, q1', w1', Option.bind_some, if_true] at hkb
              refine ⟨_, _, body _ _ _ hkb, Or.inr ⟨none, q1⟩, w2, ?_, ?_, ?_, rfl, by simp⟩
              · intro k; rw [q3]; simp only [i2]
                by_cases hk : en.1 = k
                · subst hk; simp [goneX, hm, hx']
                · rw [if_neg hk, goneX_ne (Or.inl (Ne.symm hk))]
              · intro k; simp only [w3, f3, i3]
                by_cases hk : en.1 = k
                · subst hk; simp [goneX, hm, hx']
                · rw [if_neg hk, goneX_ne (Or.inl (Ne.symm hk))]
              · simp [i4, hx']
          | false =>
            have hx' := hx
            rw [hsd] at hx
            unfold A.expired at hx
            have main : KInvX e db (seenDead clk e db) m (done ++ [en]) d1 ((ex1, ks ++ [en.1], false), done.length + 1) := by
              refine ⟨f2, ?_, ?_, ?_, rfl, by simp⟩
              · intro k; rw [i2, goneX_ne (Or.inr (Or.inr hx'))]
              · intro k; simp only [f3, i3]; rw [goneX_ne (Or.inr (Or.inr hx'))]
              · simp [i4, hm, hx']
            cases ht : db.view.t en.1 with
            | none =>
              rw [ht] at hkb
              exact ⟨d1, _, body _ _ _ hkb, Or.inl rfl, main⟩
            | some dl =>
              rw [ht] at hx hkb
              simp only [decide_eq_false_iff_not] at hx
              simp only [Option.map_some, if_neg hx, Option.bind_some] at hkb
              exact ⟨d1, _, body _ _ _ hkb, Or.inl rfl, main⟩
        · rw [if_neg hm] at hkb
          refine ⟨d1, _, body _ _ _ hkb, Or.inl rfl, i1, ?_, ?_, ?_, rfl, by simp⟩
          · intro k; rw [i2, goneX_ne (Or.inr (Or.inl (by simpa using hm)))]
          · intro k; simp only [i3]; rw [goneX_ne (Or.inr (Or.inl (by simpa using hm)))]
          · simp [i4, hm])
      ⟨g.expire, fun _ => rfl, fun _ => rfl, rfl, rfl, rfl⟩
    obtain ⟨⟨ex, ks, bad⟩, n⟩ := st
    obtain ⟨i1, i2, i3, i4, i5, -⟩ := h3
    simp only at i1 i2 i3 i4 i5
    subst i5
    simp only [h1, Option.bind_eq_bind, Option.bind_some, Bool.false_eq_true, if_false]
    have hmem : ∀ k, k ∈ db.dict.toList.map Prod.fst ↔ (db.dict.abs k).isSome = true := (enum_toList g.dict).2
    have a2 : ({ d2 with iterators := db.dict.iterators } : Dict Bytes Obj).abs = d2.abs := rfl
    have gd2 : Dict.Good e.hash ({ d2 with iterators := db.dict.iterators } : Dict Bytes Obj) := by
      refine ⟨?_, h0⟩
      cases h2 with
      | empty => constructor <;> assumption
      | stable t0 => exact .stable t0 (by assumption) (by assumption) (by assumption) (by assumption) (by assumption)
      | rehashing t0 t1 r => exact .rehashing t0 t1 r (by assumption) (by assumption) (by assumption) (by assumption) (by assumption) (by assumption) (by assumption) (by assumption) (by assumption)
    have hc : ∀ k, (db.dict.toList.map Prod.fst).contains k = (db.view.v k).isSome := by
      intro k
      rw [Bool.eq_iff_iff, List.contains_iff_mem, hmem]
      simp [Db.view]
    refine ⟨⟨gd2, i1, ?_⟩, ?_, rfl, ?_⟩
    · intro k o ho
      rw [a2, i2] at ho
      split at ho
      · cases ho
      · exact g.objs k o ho
    · have e1 : Db.view { dict := { d2 with iterators := db.dict.iterators }, expire := ex } = ⟨fun k => (d2.abs k).map Obj.view, ex.abs⟩ := rfl
      rw [e1]
      simp only [AS.mk.injEq]
      constructor
      · funext k
        rw [i2]
        unfold goneX
        rw [hc]
        have hvk : db.view.v k = (db.dict.abs k).map Obj.view := rfl
        rw [hvk]
        cases db.dict.abs k with
        | none => simp
        | some o => cases m k <;> cases seenDead clk e db k <;> simp
      · funext k
        rw [i3]
        unfold goneX
        rw [hc]
        cases (db.view.v k).isSome <;> cases m k <;> cases seenDead clk e db k <;> simp [Db.view]
    · refine ⟨ks, ⟨?_, ?_⟩, rfl⟩
      · rw [i4]; exact List.Pairwise.filter _ g.dict.inv.nodup
      · intro x
        rw [i4, List.mem_filter, hmem]
        simp only [Db.view, Bool.and_eq_true, Bool.not_eq_true']
        cases hmx : m x <;> cases hex : seenDead clk e db x <;> simp_all [Db.view]

/-! ### the server -/

open Metis.ExactSim
open _root_.Metis.Props.KeysP (accepts_iff)
variable {S : Exact.Store} {R : Exact.State} {sy sy' : Sys}

theorem shows_drop (h : Shows s S) : Shows (drop X s) (S.without X) := by
  refine ⟨?_, ?_, ?_⟩
  · simp only [Exact.Store.without, h.base]
    unfold drop RefSim.store
    simp only [Ref.Store.mk.injEq, and_true]
    funext k
    split <;> rfl
  · intro k q hq
    cases hX : X k with
    | true => simp [drop, hX] at hq
    | false => rw [drop_v hX] at hq; exact h.list k q hq
  · intro k q hq
    cases hX : X k with
    | true => simp [drop, hX] at hq
    | false => rw [drop_v hX] at hq; exact h.zset k q hq

theorem passing_shows (h : Shows s S) (hp : Pass clk s k) : Exact.Passing clk S k := by
  obtain ⟨d, i, h1, h2⟩ := hp
  exact ⟨d, i, by rw [h.base]; exact h1, h2⟩

theorem without_none : S.without (fun _ => false) = S := rfl

theorem store_self {i : Nat} : R.store i (R.dbs i) = R := by
  unfold Exact.State.store
  cases R with
  | mk dbs client =>
    simp only [Exact.State.mk.injEq, and_true]
    funext x
    split
    next h => rw [h]
    · rfl

theorem store_twice {i : Nat} {S S' : Exact.Store} : (R.store i S).store i S' = R.store i S' := by
  unfold Exact.State.store
  simp only [Exact.State.mk.injEq, and_true]
  funext x
  split <;> rfl

/-- The database function of a command that reads the clock several times. -/
def looker (clk : Clock) : Cmd → Option (Env → List Bytes → Db → Option Out)
  | .keys => some (Ticking.keys clk)
  | .randomget => some (Ticking.randomGet clk)
  | .sdiff => some (Ticking.sdiff clk)
  | .sinter => some (Ticking.sinter clk)
  | .sunion => some (Ticking.sunion clk)
  | _ => none

theorem proc_looker {c : Cmd} {f} (h : looker clk c = some f) : Ticking.proc clk c = Server.onDb f := by
  cases c <;> first | (cases h; done) | (cases h; rfl)

theorem proc_plain {c : Cmd} (h : looker clk c = none) (e : Env) : Ticking.proc clk c e = Server.proc c (atTime e (clk 0)) := by
  cases c <;> first | (cases h; done) | rfl

theorem ref_some {o : Out} {x : Option AOut} (h : Ref hash (some o) x) : ∃ a, x = some a ∧ Rel hash o a := by
  cases x with
  | none => exact absurd h id
  | some a => exact ⟨a, rfl, h⟩

theorem randomGet_dirty : ∀ {ks : List Bytes} {s : AS} {a : AOut}, A.randomGet e ks s = some a → a.dirty = 0
  | [], s, a, h => by unfold A.randomGet at h; cases h; rfl
  | k :: ks, s, a, h => by
    unfold A.randomGet at h
    split at h
    · cases h
    · split at h
      · exact randomGet_dirty h
      · cases h; rfl

theorem keys_dirty {args : List Bytes} {a : AOut} (h : A.keys e args s = some a) : a.dirty = 0 := by
  unfold A.keys at h
  simp only [Option.bind_eq_bind, Option.bind_eq_some_iff] at h
  obtain ⟨key, _, h⟩ := h
  split at h <;> (cases h; rfl)

theorem looker_ref {c : Cmd} {f} (hl : looker clk c = some f) (hcomb : Exact.combination c = none) (he : e.hash = hash) (hf : Forward clk) {args : List Bytes} {db : Db} (g : db.Good hash)
    (hacc : accepts c args.length) {o : Out} (ho : f e args db = some o) :
    ∃ X a, (∀ k, X k = true → Pass clk db.view k ∧ Exact.looksAt e c (args.drop 1) k) ∧ AStep (atTime e (clk 0)) args (drop X db.view) c a ∧ Rel hash o a ∧ a.dirty = 0 := by
  cases c <;> first | (cases hl; done) | (cases hcomb; done) | (cases hl)
  case keys =>
    match args, hacc, ho with
    | [n, p], _, ho =>
      obtain ⟨X, h1, h2⟩ := keys_tick (args := [n, p]) he hf g rfl
      rw [ho] at h2
      obtain ⟨a, h3, h4⟩ := ref_some h2
      exact ⟨X, a, fun k hk => ⟨(h1 k hk).2, (h1 k hk).1⟩, .det rfl h3, h4, keys_dirty h3⟩
  case randomget =>
    obtain ⟨X, ks, a, h1, h2, h3⟩ := randomLoop_tick he hf _ _ _ _ g _ ho
    exact ⟨X, a, fun k hk => ⟨h1 k hk, trivial⟩, .randomget h2, h3, randomGet_dirty h2⟩

/-- SDIFF, SINTER and SUNION on the view. -/
theorem setter_ref {c : Cmd} {f op all} (hl : looker clk c = some f) (hcomb : Exact.combination c = some (op, all)) (he : e.hash = hash) {args : List Bytes}
    {db : Db} (g : db.Good hash) : Ref hash (f e args db) (setOpA clk op all e args db.view) := by
  cases c <;> first | (cases hl; done) | (cases hcomb; done) | (cases hl; cases hcomb)
  case sdiff => exact setOp_tick (clk := clk) (e := e) he g (op_select false (fun a b => a && !b) (by intro a b; cases a <;> cases b <;> rfl) false)
  case sinter => exact setOp_tick (clk := clk) (e := e) he g (op_select true (fun a b => a && b) (by intro a b; cases a <;> cases b <;> rfl) true)
  case sunion => exact setOp_tick (clk := clk) (e := e) he g op_union

section
open _root_.Metis.RefSim (Sim sim_dom sim_gives sim_fails store store_exp store_val done)

theorem sim_combineAt {op : Bool → Bool → Bool} {all : Bool} : ∀ (ks : List Bytes) (i : Nat) (h : Fn Unit) (p : Bytes → Bool) (s : AS), (∀ x, (h x).isSome = p x) →
    Sim (Exact.combineAt op all clk i ks p (store s)) (done (opLoopA clk op all e i ks h s))
  | [], i, h, p, s, hp => sim_dom (fun x => by rw [hp])
  | k :: ks, i, h, p, s, hp => by
    unfold opLoopA Exact.combineAt
    have hx : Ref.fresh (clk i) (store s) k = store (A.exp (atTime e (clk i)) s k) := (store_exp (atTime e (clk i)) s k).symm
    simp only [hx]
    generalize A.exp (atTime e (clk i)) s k = s1
    rw [store_val]; unfold A.look
    rcases s1.v k with _ | (x | x | x | x | x)
    · simp only [Option.map]
      cases all
      · exact sim_combineAt ks (i + 1) h p s1 hp
      · exact sim_gives says_empty
    · exact sim_fails
    · exact sim_fails
    · exact sim_fails
    · refine sim_combineAt ks (i + 1) _ _ s1 (fun y => ?_)
      rw [← hp]
      cases op (h y).isSome (x y).isSome <;> rfl
    · exact sim_fails

theorem sim_setopAt {op : Bool → Bool → Bool} {all : Bool} {n : Bytes} {w : List Bytes} :
    Sim (Exact.setopAt op all clk w (store s)) (setOpA clk op all e (n :: w) s) := by
  match w with
  | [] => intro a h; cases h
  | k :: rest =>
    unfold setOpA Exact.setopAt
    have hx : Ref.fresh (clk 0) (store s) k = store (A.exp (atTime e (clk 0)) s k) := (store_exp (atTime e (clk 0)) s k).symm
    simp only [List.getElem?_cons_succ, List.getElem?_cons_zero, Option.bind_eq_bind, Option.bind_some, hx, List.drop_succ_cons, List.drop_zero]
    generalize A.exp (atTime e (clk 0)) s k = s1
    rw [store_val]; unfold A.look
    rcases s1.v k with _ | (x | x | x | x | x)
    · exact sim_gives says_empty
    · exact sim_fails
    · exact sim_fails
    · exact sim_fails
    · have := sim_combineAt (clk := clk) (e := e) (op := op) (all := all) rest 1 x (fun y => (x y).isSome) s1 (fun _ => rfl)
      simp only [AObj.asSet, Option.map]
      exact this
    · exact sim_fails

end

theorem kept_trans {s1 s2 s3 : AS} (h : Kept s1 s2) (h' : Kept s2 s3) : Kept s1 s3 :=
  fun k => ⟨fun q hq => (h k).1 q ((h' k).1 q hq), fun q hq => (h k).2 q ((h' k).2 q hq)⟩

theorem kept_opLoopA {op : Bool → Bool → Bool} {all : Bool} : ∀ (ks : List Bytes) (i : Nat) (h : Fn Unit) (s : AS), Kept s (opLoopA clk op all e i ks h s).2
  | [], i, h, s => Kept.refl
  | k :: ks, i, h, s => by
    have h1 : Kept s (A.exp (atTime e (clk i)) s k) := kept_swept swept_exp
    unfold opLoopA
    simp only
    split
    · split
      · exact h1
      · exact kept_trans h1 (kept_opLoopA ks (i + 1) _ _)
    · exact h1
    · exact kept_trans h1 (kept_opLoopA ks (i + 1) _ _)

theorem kept_setOpA {op : Bool → Bool → Bool} {all : Bool} {args : List Bytes} {a : AOut} (h : setOpA clk op all e args s = some a) : Kept s a.s ∧ a.dirty = 0 := by
  unfold setOpA at h
  simp only [Option.bind_eq_bind, Option.bind_eq_some_iff] at h
  obtain ⟨k, _, h⟩ := h
  have h1 : Kept s (A.exp (atTime e (clk 0)) s k) := kept_swept swept_exp
  split at h
  · cases h; exact ⟨h1, rfl⟩
  · cases h; exact ⟨h1, rfl⟩
  next g _ =>
    have h2 := kept_opLoopA (clk := clk) (op := op) (all := all) (e := e) (args.drop 2) 1 g (A.exp (atTime e (clk 0)) s k)
    split at h
    next hq => cases h; rw [hq] at h2; exact ⟨kept_trans h1 h2, rfl⟩
    next hq => cases h; rw [hq] at h2; exact ⟨kept_trans h1 h2, rfl⟩

/-- A record is written at any time or at none. -/
theorem feed_any {t t' : Int} {name : Bytes} {i : Nat} {args : List Bytes} {srv srv' : Server} (h : Aof.feed (atTime e t) name i args srv = some srv') :
    ∃ srv2, Aof.feed (atTime e t') name i args srv = some srv2 ∧ srv2.dbs = srv'.dbs ∧ srv2.password = srv'.password := by
  have hr : ∀ x, Aof.record (atTime e t) name args = some x → ∃ y, Aof.record (atTime e t') name args = some y := by
    intro x hx
    have hc : ∀ {as : List Bytes} {x}, Aof.catExpire (atTime e t) as = some x → ∃ y, Aof.catExpire (atTime e t') as = some y := by
      intro as x hx
      unfold Aof.catExpire at hx ⊢
      simp only [Option.bind_eq_bind, Option.bind_eq_some_iff] at hx ⊢
      obtain ⟨a, ha, n, hn, _⟩ := hx
      exact ⟨_, a, ha, n, hn, rfl⟩
    unfold Aof.record at hx ⊢
    split
    next h1 => rw [if_pos h1] at hx; exact hc hx
    next h1 =>
      rw [if_neg h1] at hx
      split
      next h2 =>
        rw [if_pos h2] at hx
        simp only [Option.bind_eq_bind, Option.bind_eq_some_iff] at hx ⊢
        obtain ⟨k, hk, v, hv, n, hn, x, hx, _⟩ := hx
        obtain ⟨y, hy⟩ := hc hx
        exact ⟨_, k, hk, v, hv, n, hn, y, hy, rfl⟩
      next h2 => exact ⟨_, rfl⟩
  unfold Aof.feed at h ⊢
  simp only [Option.bind_eq_bind, Option.bind_eq_some_iff] at h ⊢
  obtain ⟨x, hx, h⟩ := h
  cases h
  obtain ⟨y, hy⟩ := hr x hx
  exact ⟨_, ⟨y, hy, rfl⟩, rfl, rfl⟩

theorem call_plain {entry : CmdEntry} (hl : looker clk entry.proc = none) {args : List Bytes} {srv srv' : Server} {c c' : Session} {r : List Bytes}
    (h : Ticking.call clk e entry args srv c = some (srv', c', r)) :
    ∃ srv2, Server.call (atTime e (clk 0)) entry args srv c = some (srv2, c', r) ∧ srv2.dbs = srv'.dbs ∧ srv2.password = srv'.password := by
  unfold Ticking.call at h
  unfold Server.call
  rw [proc_plain hl] at h
  cases hp : Server.proc entry.proc (atTime e (clk 0)) args srv c with
  | none => rw [hp] at h; cases h
  | some x =>
    obtain ⟨srv1, c1, r1⟩ := x
    rw [hp] at h
    simp only [Option.bind_eq_bind, Option.bind_some] at h ⊢
    split at h
    next hh =>
      simp only [Option.bind_eq_some_iff] at h
      obtain ⟨srv3, h3, h4⟩ := h
      cases h4
      obtain ⟨srv2, h5, h6, h7⟩ := feed_any (t' := clk 0) h3
      refine ⟨srv2, ?_, h6, h7⟩
      rw [if_pos hh, h5]; rfl
    next hh =>
      cases h
      exact ⟨srv', by rw [if_neg hh], rfl, rfl⟩

theorem shows_same {srv srv2 : Server} {sess} (h : srv2.dbs = srv.dbs) (hR : ShowsSys ⟨srv2, sess⟩ R) : ShowsSys ⟨srv, sess⟩ R :=
  ⟨hR.client, fun i d hd => hR.db i d (by rw [← hd]; exact congrArg (·[i]?) h)⟩

theorem good_same {srv srv2 : Server} {sess} (h : srv2.dbs = srv.dbs) (hR : SysGood hash ⟨srv2, sess⟩) : SysGood hash ⟨srv, sess⟩ := by
  refine ⟨fun i d hd => hR.srv i d (by rw [← hd]; exact congrArg (·[i]?) h), fun fd c hc => ?_⟩
  have := hR.sess fd c hc
  simp only [h] at this
  exact this

theorem scores_at {t : Int} : ∀ w : List Bytes, Ref.scores (atTime e t) w = Ref.scores e w
  | [] => rfl
  | [_] => rfl
  | a :: b :: l => by
    unfold Ref.scores
    simp only [show (atTime e t).parseFloat = e.parseFloat from rfl, scores_at l]

theorem usual_at {t : Int} {c : Cmd} {w : List Bytes} (h : Exact.Usual e c w) : Exact.Usual (atTime e t) c w := by
  unfold Exact.Usual at h ⊢
  simp only [scores_at]
  exact h

/-- What an event leaves as it was. -/
def Settled (hash : Bytes → Nat) (sy sy' : Sys) : Prop :=
  SysGood hash sy' ∧ sy'.srv.password = sy.srv.password ∧ sy'.srv.dbs.length = sy.srv.dbs.length

theorem tick_request {fd : Nat} {args : List Bytes} {r : List Bytes} {c : Session} (g : SysGood hash sy) (he : e.hash = hash)
    (hR : ShowsSys sy R) (hc : sy.sess fd = some c) (h : Ticking.step sy (.request fd e clk args) = some (sy', r))
    (hst : Exact.Steadily (.request fd e clk args)) :
    ∃ R' v, Exact.Ticks sy.srv.dbs.length sy.srv.password R (.request fd e clk args) R' (some v) ∧ Says r v ∧ ShowsSys sy' R' ∧ Settled hash sy sy' := by
  have hcl : R.client fd = some ⟨c.db, c.auth⟩ := by rw [hR.client, hc]; rfl
  obtain ⟨hf, hcov⟩ := hst
  simp only [Ticking.step, hc, Option.bind_eq_bind, Option.bind_some, Option.bind_eq_some_iff] at h
  obtain ⟨⟨srv', c', r'⟩, hp, h⟩ := h
  simp only [Option.some.injEq, Prod.mk.injEq] at h
  obtain ⟨rfl, rfl⟩ := h
  -- a command of one reading, or none
  have plain : (∃ srv2, Server.processCommand (atTime e (clk 0)) args sy.srv c = some (srv2, c', r') ∧ srv2.dbs = srv'.dbs ∧ srv2.password = srv'.password) →
      (∀ cmd, Exact.Granted sy.srv.password ⟨c.db, c.auth⟩ e args cmd → Exact.combination cmd = none) →
      ∃ R' v, Exact.Ticks sy.srv.dbs.length sy.srv.password R (.request fd e clk args) R' (some v) ∧ Says r' v ∧
        ShowsSys ⟨srv', fun x => if x = fd then some c' else sy.sess x⟩ R' ∧ Settled hash sy ⟨srv', fun x => if x = fd then some c' else sy.sess x⟩ := by
    rintro ⟨srv2, h1, h2, h3⟩ hno
    have hs : Sys.step sy (.request fd (atTime e (clk 0)) args) = some (⟨srv2, fun x => if x = fd then some c' else sy.sess x⟩, r') := by
      simp only [Sys.step, hc, Option.bind_eq_bind, Option.bind_some, h1]
    obtain ⟨R', v, q1, q2, q3⟩ := xs_request (e := atTime e (clk 0)) g he hR hc hs (fun cmd hcmd => usual_at (hcov cmd hcmd))
    obtain ⟨g1, e1, _, e2, _⟩ := step_db g (show EvOk hash (.request fd (atTime e (clk 0)) args) from he) hs
    refine ⟨R', v, ⟨_, hcl, Or.inr ⟨hno, fun _ => false, (fun k h => by cases h), ?_⟩⟩, q2, shows_same h2 q3, good_same h2 g1, ?_, ?_⟩
    · rw [without_none, store_self]
      unfold Exact.Moves
      simp only [hcl]
      exact ⟨v, q1, rfl⟩
    · simp only at e1 ⊢; rw [← h3]; exact e1
    · simp only at e2 ⊢; rw [← h2]; exact e2
  cases hcmd : commandOf e args with
  | none =>
    refine plain ?_ (fun cmd hg => by have := hg.1; rw [hcmd] at this; cases this)
    unfold Ticking.processCommand at hp
    unfold Server.processCommand
    unfold commandOf at hcmd
    cases ha : args[0]? with
    | none => rw [ha] at hp; cases hp
    | some a0 =>
      rw [ha] at hcmd
      simp only [ha, Option.bind_eq_bind, Option.bind_some] at hp hcmd ⊢
      rw [← lookup_named] at hcmd
      have hl : lookupCommand (e.lower a0) = none := by
        cases hl : lookupCommand (e.lower a0) with
        | none => rfl
        | some x => rw [hl] at hcmd; cases hcmd
      rw [show lookupCommand ((atTime e (clk 0)).lower a0) = none from hl]
      simp only [hl] at hp
      cases hp
      exact ⟨_, rfl, rfl, rfl⟩
  | some cmd =>
    obtain ⟨a0, entry, h1, h2, h3, h4, h5⟩ := named_lookup hcmd
    have h2' : lookupCommand ((atTime e (clk 0)).lower a0) = some entry := h2
    have hname : entry.name = b!"auth" ↔ cmd = .auth := by
      rw [← h3]; exact table_auth entry (lookup_mem h2).1
    have hsp : ∀ x, Server.processCommand (atTime e (clk 0)) args sy.srv c = x ↔
        (if Server.badArity args.length (arity cmd) then some (sy.srv, c, Reply.error b!"wrong number of arguments")
         else if sy.srv.password ≠ [] ∧ c.auth = false ∧ e.lower a0 ≠ b!"auth" then some (sy.srv, c, Reply.error b!"operation not permitted")
         else Server.call (atTime e (clk 0)) entry args sy.srv c) = x := by
      intro x
      unfold Server.processCommand
      simp only [h1, h2', h4, Option.bind_eq_bind, Option.bind_some]
      exact Iff.rfl
    unfold Ticking.processCommand at hp
    simp only [h1, h2, h4, Option.bind_eq_bind, Option.bind_some] at hp
    by_cases hb : Server.badArity args.length (arity cmd) = true
    · rw [if_pos hb] at hp
      cases hp
      exact plain ⟨_, (hsp _).2 (by rw [if_pos hb]), rfl, rfl⟩ (fun cmd' hg => by
        have := hg.1; rw [hcmd] at this; cases this
        exact absurd ((accepts_iff cmd _).2 hg.2.1) (by simpa using hb))
    · rw [if_neg hb] at hp
      by_cases hl : sy.srv.password ≠ [] ∧ c.auth = false ∧ e.lower a0 ≠ b!"auth"
      · rw [if_pos hl] at hp
        cases hp
        exact plain ⟨_, (hsp _).2 (by rw [if_neg hb, if_pos hl]), rfl, rfl⟩ (fun cmd' hg => by
          rcases hg.2.2 with hh | hh
          · exact absurd hh hl.1
          · rw [hl.2.1] at hh; cases hh)
      · rw [if_neg hl] at hp
        cases hlk : looker clk cmd with
        | none =>
          obtain ⟨srv2, k1, k2, k3⟩ := call_plain (by rw [h3]; exact hlk) hp
          exact plain ⟨srv2, (hsp _).2 (by rw [if_neg hb, if_neg hl]; exact k1), k2, k3⟩ (fun cmd' hg => by
            have := hg.1; rw [hcmd] at this; cases this
            cases cmd <;> first | rfl | (cases hlk; done))
        | some f =>
          clear plain hsp
          have hacc : accepts cmd args.length := (accepts_iff cmd _).1 (by simpa using hb)
          have hna : cmd ≠ .auth := by rintro rfl; cases hlk
          have hauth : sy.srv.password = [] ∨ c.auth = true := by
            by_cases hpw : sy.srv.password = []
            · exact Or.inl hpw
            · cases ha : c.auth with
              | true => exact Or.inr rfl
              | false => exact absurd ⟨hpw, ha, by rw [← h5]; exact fun hh => hna (hname.1 hh)⟩ hl
          unfold Ticking.call at hp
          rw [h3, proc_looker hlk] at hp
          unfold Server.onDb at hp
          simp only [Option.bind_eq_bind, Option.bind_eq_some_iff] at hp
          obtain ⟨⟨srv1, c1, r1⟩, ⟨d, hd, o, ho, hh⟩, hp⟩ := hp
          cases hh
          have gd := g.srv _ _ hd
          have hsh := hR.db _ d hd
          have fin : ∀ {a : AOut} {R' : Exact.State} {S' : Exact.Store} {v : Value}, Rel hash o a → a.dirty = 0 → Says o.reply v → Shows a.s S' →
              Exact.Ticks sy.srv.dbs.length sy.srv.password R (.request fd e clk args) (R.store c.db S') (some v) →
              ∃ R' v, Exact.Ticks sy.srv.dbs.length sy.srv.password R (.request fd e clk args) R' (some v) ∧ Says r' v ∧
                ShowsSys ⟨srv', fun x => if x = fd then some c' else sy.sess x⟩ R' ∧ Settled hash sy ⟨srv', fun x => if x = fd then some c' else sy.sess x⟩ := by
            intro a _ S' v hrel hdirty hv1 hv3 ht
            have hod : o.dirty = 0 := by rw [hrel.dirty, hdirty]
            rw [if_neg (by simp only [hod]; rintro ⟨_, hh⟩; exact hh (by simp))] at hp
            simp only [Option.some.injEq, Prod.mk.injEq] at hp
            obtain ⟨rfl, rfl, rfl⟩ := hp
            refine ⟨R.store c.db S', v, ht, hv1, ?_, ?_, rfl, ?_⟩
            · exact rel_set (rel_same hR hc) hd rfl (by rw [hrel.view]; exact hv3)
            · refine ⟨fun i d' hd' => ?_, fun x cx hx => ?_⟩
              · simp only at hd'
                by_cases hi : c.db = i
                · subst hi
                  rw [List.getElem?_set_self (by
                    rcases Nat.lt_or_ge c.db sy.srv.dbs.length with h | h
                    · exact h
                    · rw [List.getElem?_eq_none h] at hd; cases hd)] at hd'
                  cases hd'; exact hrel.good
                · rw [List.getElem?_set_ne hi] at hd'
                  exact g.srv i d' hd'
              · simp only [List.length_set]
                simp only at hx
                split at hx
                · cases hx; exact g.sess fd c hc
                · exact g.sess x cx hx
            · simp only [List.length_set]
          have hgr : Exact.Granted sy.srv.password ⟨c.db, c.auth⟩ e args cmd := ⟨hcmd, hacc, hauth⟩
          cases hcomb : Exact.combination cmd with
          | some x =>
            obtain ⟨op, all⟩ := x
            have href := setter_ref hlk hcomb he gd (args := args)
            rw [ho] at href
            obtain ⟨a, ha, hrel⟩ := ref_some href
            obtain ⟨hk, hdirty⟩ := kept_setOpA ha
            have ha' : setOpA clk op all e (a0 :: args.drop 1) d.view = some a := by
              match args, h1, ha with
              | n0 :: w, h1, ha => cases h1; exact ha
            obtain ⟨S', v, q1, q2, q3⟩ := on_sim (args := args) (c := cmd) hsh hk (P := Exact.setopAt op all clk (args.drop 1)) (sim_setopAt _ ha' _ hrel.reply)
            exact fin (R' := R) hrel hdirty q1 q3 ⟨_, hcl, Or.inl ⟨cmd, op, all, S', v, hgr, hcomb, q2, rfl, rfl⟩⟩
          | none =>
            obtain ⟨X, a, hX, hs, hrel, hdirty⟩ := looker_ref hlk hcomb he hf gd hacc ho
            obtain ⟨S', v, hv1, hv2, hv3⟩ := xs_step hs hacc (usual_at (hcov cmd hcmd)) (shows_drop (X := X) hsh) hrel.reply
            refine fin (R' := R) hrel hdirty hv1 hv3 ⟨_, hcl, Or.inr ⟨fun cmd' hg => ?_, X, fun k hk => ⟨passing_shows hsh (hX k hk).1, cmd, hgr, (hX k hk).2⟩, ?_⟩⟩
            · have := hg.1; rw [hcmd] at this; cases this; exact hcomb
            · unfold Exact.Moves
              have hcl' : (R.store c.db ((R.dbs c.db).without X)).client fd = some ⟨c.db, c.auth⟩ := hcl
              simp only [hcl']
              refine ⟨v, ?_, rfl⟩
              unfold Exact.answers
              have : commandOf (atTime e (clk 0)) args = some cmd := hcmd
              simp only [this, if_neg (not_not.2 hacc)]
              rw [if_neg (by
                rintro ⟨q1, q2, _⟩
                rcases hauth with hh | hh
                · exact q1 hh
                · rw [q2] at hh; cases hh)]
              have hp' : ∃ S1, Exact.perform (atTime e (clk 0)) cmd (args.drop 1) ((R.store c.db ((R.dbs c.db).without X)).dbs c.db) S1 v ∧
                  R.store c.db S' = (R.store c.db ((R.dbs c.db).without X)).store c.db S1 := by
                refine ⟨S', ?_, store_twice.symm⟩
                simp only [Exact.State.store, if_true]
                exact hv2
              cases cmd <;> first | exact hp' | (cases hlk; done)

/-- A crash of a command of one reading is a crash at that reading. -/
theorem call_none {entry : CmdEntry} (hl : looker clk entry.proc = none) {args : List Bytes} {srv : Server} {c : Session}
    (h : Ticking.call clk e entry args srv c = none) : Server.call (atTime e (clk 0)) entry args srv c = none := by
  unfold Ticking.call at h
  unfold Server.call
  rw [proc_plain hl] at h
  cases hp : Server.proc entry.proc (atTime e (clk 0)) args srv c with
  | none => rfl
  | some x =>
    obtain ⟨srv1, c1, r1⟩ := x
    rw [hp] at h
    simp only [Option.bind_eq_bind, Option.bind_some] at h ⊢
    split at h
    next hh =>
      rw [if_pos hh]
      cases h3 : Aof.feed (atTime e (clk 0)) entry.name c1.db args srv1 with
      | none => rfl
      | some srv2 =>
        obtain ⟨srv3, h4, _⟩ := feed_any (t' := clk 1) h3
        rw [h4] at h; cases h
    next hh => cases h

/-- The commands that read the clock several times and draw no random numbers do not crash. -/
theorem looker_some {c : Cmd} {f} (hl : looker clk c = some f) (hr : c ≠ .randomget) (he : e.hash = hash) (hf : Forward clk) {args : List Bytes} {db : Db} (g : db.Good hash)
    (hacc : accepts c args.length) : ∃ o a, f e args db = some o ∧ Rel hash o a ∧ a.dirty = 0 := by
  have fin : ∀ {x : Option Out} {y : Option AOut}, Ref hash x y → (∃ a, y = some a) → (∀ a, y = some a → a.dirty = 0) → ∃ o a, x = some o ∧ Rel hash o a ∧ a.dirty = 0 := by
    rintro x y h ⟨a, rfl⟩ hd
    cases x with
    | none => exact absurd h id
    | some o => exact ⟨o, a, rfl, h, hd a rfl⟩
  have hargs : ∃ k, args[1]? = some k := by
    match args, hacc with
    | [], h => cases c <;> simp [accepts] at h
    | [n], h => cases c <;> first | (cases hl; done) | exact absurd rfl hr | (simp [accepts] at h; done)
    | n :: k :: w, _ => exact ⟨k, rfl⟩
  obtain ⟨k, hk⟩ := hargs
  cases hcomb : Exact.combination c with
  | some x =>
    obtain ⟨op, all⟩ := x
    refine fin (setter_ref hl hcomb he g (args := args)) ?_ (fun a ha => (kept_setOpA ha).2)
    unfold setOpA
    simp only [hk, Option.bind_eq_bind, Option.bind_some]
    split
    · exact ⟨_, rfl⟩
    · exact ⟨_, rfl⟩
    · split <;> exact ⟨_, rfl⟩
  | none =>
    cases c <;> first | (cases hl; done) | (cases hcomb; done) | exact absurd rfl hr | (cases hl)
    obtain ⟨X, _, h2⟩ := keys_tick (args := args) he hf g hk
    refine fin h2 ?_ (fun a ha => keys_dirty ha)
    unfold A.keys
    simp only [hk, Option.bind_eq_bind, Option.bind_some]
    split <;> (try split) <;> exact ⟨_, rfl⟩

/-- A request that crashes reads the clock once, and crashes at that reading. -/
theorem tick_none {fd : Nat} {args : List Bytes} {c : Session} (g : SysGood hash sy) (he : e.hash = hash) (hc : sy.sess fd = some c) (h0 : args ≠ [])
    (hf : Forward clk) (hr : ∀ cmd, commandOf e args = some cmd → cmd ≠ .randomget) (h : Ticking.step sy (.request fd e clk args) = none) :
    Sys.step sy (.request fd (atTime e (clk 0)) args) = none ∧ ∀ cmd, Exact.Granted sy.srv.password ⟨c.db, c.auth⟩ e args cmd → looker clk cmd = none := by
  simp only [Ticking.step, Sys.step, hc, Option.bind_eq_bind, Option.bind_some] at h ⊢
  cases hp : Ticking.processCommand clk e args sy.srv c with
  | some x => rw [hp] at h; cases h
  | none =>
    suffices Server.processCommand (atTime e (clk 0)) args sy.srv c = none ∧ ∀ cmd, Exact.Granted sy.srv.password ⟨c.db, c.auth⟩ e args cmd → looker clk cmd = none by
      exact ⟨by rw [this.1]; rfl, this.2⟩
    cases hcmd : commandOf e args with
    | none =>
      exfalso
      unfold Ticking.processCommand at hp
      unfold commandOf at hcmd
      cases ha : args[0]? with
      | none => exact h0 (by cases args with | nil => rfl | cons a l => cases ha)
      | some a0 =>
        rw [ha] at hcmd
        simp only [ha, Option.bind_eq_bind, Option.bind_some] at hp hcmd
        rw [← lookup_named] at hcmd
        cases hl : lookupCommand (e.lower a0) with
        | none => simp only [hl] at hp; cases hp
        | some x => rw [hl] at hcmd; cases hcmd
    | some cmd =>
      obtain ⟨a0, entry, h1, h2, h3, h4, h5⟩ := named_lookup hcmd
      have h2' : lookupCommand ((atTime e (clk 0)).lower a0) = some entry := h2
      unfold Ticking.processCommand at hp
      unfold Server.processCommand
      simp only [h1, h2, h2', h4, Option.bind_eq_bind, Option.bind_some] at hp ⊢
      by_cases hb : Server.badArity args.length (arity cmd) = true
      · rw [if_pos hb] at hp; cases hp
      · rw [if_neg hb] at hp ⊢
        by_cases hl : sy.srv.password ≠ [] ∧ c.auth = false ∧ e.lower a0 ≠ b!"auth"
        · rw [if_pos hl] at hp; cases hp
        · rw [if_neg hl] at hp
          rw [if_neg (show ¬ (sy.srv.password ≠ [] ∧ c.auth = false ∧ (atTime e (clk 0)).lower a0 ≠ b!"auth") from hl)]
          have hacc : accepts cmd args.length := (accepts_iff cmd _).1 (by simpa using hb)
          cases hlk : looker clk cmd with
          | none =>
            refine ⟨call_none (by rw [h3]; exact hlk) hp, fun cmd' hg => ?_⟩
            have h9 := hg.1.symm.trans hcmd
            rw [Option.some.inj h9]; exact hlk
          | some f =>
            exfalso
            obtain ⟨d, hd⟩ := get_lt (g.sess fd c hc)
            obtain ⟨o, a, ho, hrel, hdirty⟩ := looker_some hlk (hr cmd hcmd) he hf (g.srv _ d hd) hacc
            have hod : o.dirty = 0 := by rw [hrel.dirty, hdirty]
            unfold Ticking.call at hp
            rw [h3, proc_looker hlk] at hp
            unfold Server.onDb at hp
            simp only [hd, ho, Option.bind_eq_bind, Option.bind_some] at hp
            rw [if_neg (by simp only [hod]; rintro ⟨_, hh⟩; exact hh (by simp))] at hp
            cases hp

/-- The hash function is that of the process. -/
def SameHash (hash : Bytes → Nat) : Ticking.Event → Prop
  | .request _ e _ _ => e.hash = hash
  | .cron e _ => e.hash = hash
  | _ => True

theorem tick_event {ev : Ticking.Event} {r : List Bytes} (g : SysGood hash sy) (he : SameHash hash ev) (hR : ShowsSys sy R)
    (h : Ticking.step sy ev = some (sy', r)) (hf : Exact.Steadily ev) :
    ∃ R' v, Exact.Ticks sy.srv.dbs.length sy.srv.password R ev R' v ∧ Ref.Told r v ∧ ShowsSys sy' R' ∧ Settled hash sy sy' := by
  cases ev with
  | connect fd =>
    obtain ⟨R', v, h1, h2, h3⟩ := xs_event (ev := .connect fd) g trivial hR h trivial
    obtain ⟨g1, e1, _, e2, _⟩ := step_db (ev := .connect fd) g trivial h
    exact ⟨R', v, h1, h2, h3, g1, e1, e2⟩
  | close fd =>
    obtain ⟨R', v, h1, h2, h3⟩ := xs_event (ev := .close fd) g trivial hR h trivial
    obtain ⟨g1, e1, _, e2, _⟩ := step_db (ev := .close fd) g trivial h
    exact ⟨R', v, h1, h2, h3, g1, e1, e2⟩
  | request fd e clk args =>
    cases hc : sy.sess fd with
    | none => simp [Ticking.step, hc] at h
    | some c =>
      have hcl : R.client fd = some ⟨c.db, c.auth⟩ := by rw [hR.client, hc]; rfl
      obtain ⟨R', v, h2, h3, h4, h5⟩ := tick_request g he hR hc h hf
      exact ⟨R', some v, h2, h3, h4, h5⟩
  | cron e clk =>
    simp only [Ticking.step, Option.bind_eq_bind, Option.bind_eq_some_iff] at h
    obtain ⟨dbs', h1, h2⟩ := h
    cases h2
    obtain ⟨hlen, j, _, hsw⟩ := cronDbs_tick he hf _ _ _ g.srv h1
    have hold : ∀ (i : Nat) (d' : Db), dbs'[i]? = some d' → ∃ d, sy.srv.dbs[i]? = some d := by
      intro i d' hd'
      have hi : i < sy.srv.dbs.length := by
        rw [← hlen]
        rcases Nat.lt_or_ge i dbs'.length with h | h
        · exact h
        · rw [List.getElem?_eq_none h] at hd'; cases hd'
      exact ⟨_, List.getElem?_eq_getElem hi⟩
    refine ⟨⟨fun i => match dbs'[i]? with | some d => { R.dbs i with base := RefSim.store d.view } | none => R.dbs i, R.client⟩, none,
      ⟨j, fun i => ?_, rfl, rfl⟩, rfl, ⟨hR.client, fun i d' hd' => ?_⟩, ⟨fun i d' hd' => ?_, fun fd c hc => ?_⟩, rfl, hlen⟩
    · cases hd : sy.srv.dbs[i]? with
      | none =>
        have hd' : dbs'[i]? = none := by
          rw [List.getElem?_eq_none_iff] at hd ⊢; omega
        simp only [hd']
        exact ⟨fun k => Or.inl ⟨rfl, rfl⟩, trivial, trivial⟩
      | some d =>
        obtain ⟨d', q1, _, q2⟩ := hsw i d hd
        simp only [q1, and_true]
        rw [(hR.db i d hd).base]
        exact RefSim.swept_store q2
    · simp only at hd'
      obtain ⟨d, hd⟩ := hold i d' hd'
      obtain ⟨d2, q1, _, q2⟩ := hsw i d hd
      rw [hd'] at q1; cases q1
      simp only [hd']
      exact shows_swept (hR.db i d hd) q2
    · simp only at hd'
      obtain ⟨d, hd⟩ := hold i d' hd'
      obtain ⟨d2, q1, q3, _⟩ := hsw i d hd
      rw [hd'] at q1; cases q1
      exact q3
    · have := g.sess fd c hc
      simp only at this ⊢
      omega

theorem tick_run : ∀ (evs : List Ticking.Event) {sy sy' : Sys} {R : Exact.State} {rs : List (List Bytes)}, SysGood hash sy → ShowsSys sy R →
    (∀ ev ∈ evs, SameHash hash ev) → (∀ ev ∈ evs, Exact.Steadily ev) → Ticking.run sy evs = some (sy', rs) →
    ∃ R' vs, Exact.TickRuns sy.srv.dbs.length sy.srv.password R evs R' vs ∧ List.Forall₂ Ref.Told rs vs ∧ ShowsSys sy' R' ∧ Settled hash sy sy'
  | [], sy, sy', R, rs, g, hR, _, _, h => by
    cases h
    exact ⟨R, [], .nil, .nil, hR, g, rfl, rfl⟩
  | ev :: evs, sy, sy', R, rs, g, hR, he, hf, h => by
    simp only [Ticking.run, Option.bind_eq_bind, Option.bind_eq_some_iff] at h
    obtain ⟨⟨s1, r⟩, h1, ⟨s2, rs2⟩, h2, h3⟩ := h
    cases h3
    obtain ⟨R1, v, m, t, hR1, g1, e1, e2⟩ := tick_event g (he ev (by simp)) hR h1 (hf ev (by simp))
    obtain ⟨R', vs, q1, q2, q3, q4⟩ := tick_run evs g1 hR1 (fun x hx => he x (by simp [hx])) (fun x hx => hf x (by simp [hx])) h2
    rw [e1, e2] at q1
    exact ⟨R', v :: vs, .cons m q1, .cons t q2, q3, q4.1, q4.2.1.trans e1, q4.2.2.trans e2⟩

theorem fresh_still {t0 t : Int} {s : Ref.Store} {k : Bytes} (ht : t0 ≤ t) (h : ∀ d, s.due k = some d → t0 ≤ d → t ≤ d) : Ref.fresh t s k = Ref.fresh t0 s k := by
  unfold Ref.fresh
  have : Ref.late t s k ↔ Ref.late t0 s k := by
    constructor
    · rintro ⟨d, h1, h2⟩
      refine ⟨d, h1, ?_⟩
      by_contra h3
      have := h d h1 (by omega)
      omega
    · rintro ⟨d, h1, h2⟩
      exact ⟨d, h1, by omega⟩
  by_cases hl : Ref.late t0 s k
  · rw [if_pos hl, if_pos (this.2 hl)]
  · rw [if_neg hl, if_neg (fun h => hl (this.1 h))]

theorem fresh_due {t d : Int} {s : Ref.Store} {k k' : Bytes} (h : (Ref.fresh t s k).due k' = some d) : s.due k' = some d := by
  unfold Ref.fresh at h
  split at h
  · simp only [Ref.put] at h
    split at h
    · cases h
    · exact h
  · exact h

theorem combineAt_still {op : Bool → Bool → Bool} {all : Bool} (hf : Forward clk) (he : e.now = clk 0) : ∀ (ks : List Bytes) (i : Nat) (p : Bytes → Bool) (s : Ref.Store),
    (∀ k ∈ ks, ∀ d j, s.due k = some d → clk 0 ≤ d → clk j ≤ d) → Exact.combineAt op all clk i ks p s = Ref.combine op all e ks p s
  | [], i, p, s, _ => rfl
  | k :: ks, i, p, s, h => by
    unfold Exact.combineAt Ref.combine
    have h1 : Ref.fresh (clk i) s k = Ref.fresh e.now s k := by
      rw [he]; exact fresh_still (hf 0 i (Nat.zero_le i)) (fun d hd h0 => h k (by simp) d i hd h0)
    have h2 : ∀ k' ∈ ks, ∀ d j, (Ref.fresh e.now s k).due k' = some d → clk 0 ≤ d → clk j ≤ d :=
      fun k' hk d j hd => h k' (by simp [hk]) d j (fresh_due hd)
    simp only [h1]
    rcases hv : (Ref.fresh e.now s k).val k with _ | (x | x | x | x | x)
    · cases all with
      | true => rfl
      | false => exact combineAt_still hf he ks (i + 1) p _ h2
    · rfl
    · rfl
    · rfl
    · exact combineAt_still hf he ks (i + 1) _ _ h2
    · rfl

theorem setopAt_still {op : Bool → Bool → Bool} {all : Bool} (hf : Forward clk) {w : List Bytes} {S : Exact.Store} (h : ∀ k ∈ w, Exact.Passing clk S k → False) (he : e.now = clk 0) :
    Exact.setopAt op all clk w S.base = Ref.setop op all e w S.base := by
  unfold Exact.setopAt Ref.setop
  match w, h with
  | [], _ => rfl
  | k :: ks, h =>
    simp only [← he]
    rcases hv : (Ref.fresh e.now S.base k).val k with _ | (x | x | x | x | x)
    · rfl
    · rfl
    · rfl
    · rfl
    · refine combineAt_still hf he ks 1 _ _ (fun k' hk d j hd h0 => ?_)
      by_contra hlt
      exact h k' (by simp [hk]) ⟨d, j, fresh_due hd, h0, by omega⟩
    · rfl

/-- Where no deadline passes, every event is one of the reference at one moment. -/
theorem still_moves {n : Nat} {pw : Bytes} {ev : Ticking.Event} {R R' : Exact.State} {v : Option Value} (h : Exact.Ticks n pw R ev R' v) (hs : Exact.Still R ev) (hf : Exact.Steadily ev) :
    ∃ ev', Exact.Moment ev ev' ∧ Exact.Moves n pw R ev' R' v := by
  cases ev with
  | connect fd => exact ⟨_, .connect, h⟩
  | close fd => exact ⟨_, .close, h⟩
  | cron e clk => obtain ⟨i, h⟩ := h; exact ⟨_, .cron (hf 0 i (Nat.zero_le i)) (Int.le_refl _), h⟩
  | request fd e clk args =>
    refine ⟨_, .request (i := 0) (Int.le_refl _) (Int.le_refl _), ?_⟩
    obtain ⟨c, h1, ⟨cmd, op, all, S, v, g, hcomb, q, rfl, rfl⟩ | ⟨hno, X, h2, h3⟩⟩ := h
    · unfold Exact.Moves
      simp only [h1]
      refine ⟨v, ?_, rfl⟩
      have hl : ∀ k ∈ args.drop 1, ¬ Exact.Passing clk (R.dbs c.db) k := by
        intro k hk
        refine hs c cmd k h1 g.1 ?_
        cases cmd <;> first | exact hk | (cases hcomb; done)
      rw [setopAt_still (e := atTime e (clk 0)) hf.1 (fun k hk hp => hl k hk hp) rfl] at q
      unfold Exact.answers
      have : commandOf (atTime e (clk 0)) args = some cmd := g.1
      simp only [this, if_neg (not_not.2 g.2.1)]
      rw [if_neg (by
        rintro ⟨q1, q2, _⟩
        rcases g.2.2 with hh | hh
        · exact q1 hh
        · rw [q2] at hh; cases hh)]
      cases cmd <;> first | (cases hcomb; done) | (cases hcomb; exact ⟨S, q, rfl⟩)
    · have hX : X = fun _ => false := by
        funext k
        cases hx : X k with
        | false => rfl
        | true =>
          obtain ⟨p, cmd, q1, q2⟩ := h2 k hx
          exact absurd p (hs c cmd k h1 q1.1 q2)
      subst hX
      rw [without_none, store_self] at h3
      exact h3

theorem still_runs {n : Nat} {pw : Bytes} : ∀ {evs : List Ticking.Event} {R R' : Exact.State} {vs : List (Option Value)}, Exact.TickRuns n pw R evs R' vs →
    Exact.Stills n pw R evs → (∀ ev ∈ evs, Exact.Steadily ev) → ∃ evs', Exact.Moments evs evs' ∧ Exact.Runs n pw R evs' R' vs := by
  intro evs R R' vs h
  induction h with
  | nil => exact fun _ _ => ⟨[], .nil, .nil⟩
  | cons m _ ih =>
    rintro ⟨h1, h2⟩ hf
    obtain ⟨ev', q1, q2⟩ := still_moves m h1 (hf _ (by simp))
    obtain ⟨evs', q3, q4⟩ := ih (h2 _ _ m) (fun ev h => hf ev (by simp [h]))
    exact ⟨_, .cons q1 q3, .cons q2 q4⟩

/-! ### a command that is logged -/

theorem logged {fd : Nat} {args : List Bytes} {c : Session} {cmd : Cmd} {f f' : _} {a : AOut} {b n0 : Bytes} (g : SysGood hash sy) (he : e.hash = hash)
    (hc : sy.sess fd = some c) (hal : Allowed sy.srv c) (haof : sy.srv.aofEnable = true) (hcmd : commandOf e args = some cmd)
    (hok : Server.badArity args.length (arity cmd) = false) (hl : looker clk cmd = none) (hf : dbProc cmd = some f) (hf' : aFn cmd = some f')
    {d : Db} (hd : sy.srv.dbs[c.db]? = some d) (ha : f' (atTime e (clk 0)) args d.view = some a) (hdirty : a.dirty ≠ 0) (h0 : args[0]? = some n0)
    (hrec : Aof.record (atTime e (clk 1)) (e.lower n0) args = some b) :
    ∃ sy' r, Ticking.step sy (.request fd e clk args) = some (sy', r) ∧ a.reply r ∧ (∀ k, sy'.deadline c.db k = a.s.t k) ∧ (∀ k, sy'.val c.db k = a.s.v k) ∧
      sy'.srv.aofBuf = sy.srv.aofBuf ++ ((if sy.srv.aofSelect ≠ c.db then Aof.cat [b!"select", itoa c.db] else []) ++ b) := by
  obtain ⟨a0, entry, p1, p2, p3, p4, p5⟩ := named_lookup hcmd
  rw [h0] at p1; cases p1
  have hr := det_ref (atTime e (clk 0)) he args (g.srv _ _ hd) hf hf'
  rw [ha] at hr
  cases ho : f (atTime e (clk 0)) args d with
  | none => rw [ho] at hr; exact hr.elim
  | some o =>
    rw [ho] at hr
    have hr : Rel hash o a := hr
    have hna : cmd ≠ .auth := by rintro rfl; cases hf
    have hi : c.db < sy.srv.dbs.length := g.sess fd c hc
    simp only [Ticking.step, hc, Option.bind_eq_bind, Option.bind_some, Option.bind_eq_some_iff]
    unfold Ticking.processCommand
    simp only [h0, p2, p4, hok, Option.bind_eq_bind, Option.bind_some, Bool.false_eq_true, if_false]
    rw [if_neg (by
      rintro ⟨q1, q2, _⟩
      rcases hal with h | h
      · exact q1 h
      · rw [h] at q2; cases q2)]
    unfold Ticking.call
    rw [p3, proc_plain hl, proc_db hf]
    unfold Server.onDb
    simp only [hd, ho, Option.bind_eq_bind, Option.bind_some]
    rw [if_pos ⟨haof, by
      have := hr.dirty
      show sy.srv.dirty + (o.dirty : Int) - sy.srv.dirty ≠ 0
      omega⟩]
    unfold Aof.feed
    rw [p5]
    simp only [hrec, Option.bind_eq_bind, Option.bind_some, Option.some.injEq, exists_eq_left', Prod.mk.injEq]
    refine ⟨_, _, ⟨rfl, rfl⟩, hr.reply, fun k => ?_, fun k => ?_, rfl⟩
    · simp only [Sys.deadline, List.getElem?_set_self hi, Option.bind_some, hr.view]
    · simp only [Sys.val, List.getElem?_set_self hi, Option.bind_some, hr.view]

end Metis.TickSim
