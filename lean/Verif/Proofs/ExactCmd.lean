import Verif.Proofs.ExactList
/-!
The commands that the exact reference treats in its own way.
-/
set_option linter.unusedSectionVars false
set_option linter.unusedSimpArgs false
set_option linter.unusedVariables false
namespace Metis.ExactSim
open Metis Metis.Spec
open _root_.Metis.RefSim (val store store_val map_upd store_put late_iff store_exp swept_store orNew_fail scores_eq)

/-- The database `s` is the database `S` of the reference. -/
structure Shows (s : AS) (S : Exact.Store) : Prop where
  base : S.base = store s
  list : ∀ k q, s.v k = some (.list q) → Quicklist.Wf pageSize q ∧ S.sizes k = pageSizes q
  zset : ∀ k z, s.v k = some (.zset z) → Holds z ⟨z.f, S.entries k⟩

/-- A crash is a request without outcome; what the reply says and what the database has become is possible in the reference. -/
def XSim (P : Exact.Effect) : Option AOut → Prop
  | none => ∀ S v, ¬ P S v
  | some a => ∀ r, a.reply r → ∃ S v, Says r v ∧ P S v ∧ Shows a.s S

section
variable {e : Env} {s : AS} {S : Exact.Store} {n k a b : Bytes} {rest : List Bytes} {m : Nat}

theorem Shows.lok (h : Shows s S) : LOk s := fun k q hq => (h.list k q hq).1

theorem xs_gives (h : Shows s S) {r : List Bytes} {v : Value} (hr : Says r v) : XSim (Exact.gives S v) (some ⟨s, m, A.ex r⟩) := by
  intro x hx; cases hx; exact ⟨S, v, hr, ⟨rfl, rfl⟩, h⟩

theorem xs_fails (h : Shows s S) {t : Bytes} : XSim (Exact.fails S) (some ⟨s, m, A.ex (Reply.error t)⟩) := by
  intro x hx; cases hx; exact ⟨S, _, says_error t, ⟨rfl, _, rfl⟩, h⟩

theorem xs_crash : XSim Exact.crash none := fun _ _ h => h

theorem shows_swept {s' : AS} (h : Shows s S) (hw : Swept e s s') : Shows s' { S with base := store s' } := by
  refine ⟨rfl, fun k q hq => ?_, fun k z hz => ?_⟩
  · rcases hw k with ⟨h1, _⟩ | ⟨_, h1, _⟩
    · exact h.list k q (h1 ▸ hq)
    · rw [h1] at hq; cases hq
  · rcases hw k with ⟨h1, _⟩ | ⟨_, h1, _⟩
    · exact h.zset k z (h1 ▸ hz)
    · rw [h1] at hz; cases hz

theorem shows_exp (h : Shows s S) : Shows (A.exp e s k) (Exact.fresh e.now S k) := by
  have := shows_swept h (swept_exp (e := e) (s := s) (k := k))
  rw [store_exp, ← h.base] at this
  exact this

theorem shows_list (h : Shows s S) {q : Quicklist Bytes} (w : Quicklist.Wf pageSize q) :
    Shows (A.put s k (.list q)) (Exact.holdList S k q.pages.flatten (pageSizes q)) := by
  refine ⟨?_, fun x q' hq => ?_, fun x z hz => ?_⟩
  · simp only [Exact.holdList, store_put, h.base]; rfl
  · unfold A.put upd at hq
    simp only [Exact.holdList] at hq ⊢
    by_cases hx : k = x
    · subst hx; simp only [if_true] at hq ⊢; cases hq; exact ⟨w, rfl⟩
    · rw [if_neg hx] at hq; rw [if_neg (fun h => hx h.symm)]; exact h.list x q' hq
  · unfold A.put upd at hz
    simp only [Exact.holdList] at hz ⊢
    by_cases hx : k = x
    · subst hx; simp only [if_true] at hz; cases hz
    · rw [if_neg hx] at hz; exact h.zset x z hz

theorem shows_zset (h : Shows s S) {z : AZ} {t : Tally} (hz : Holds z t) : Shows (A.put s k (.zset z)) (Exact.holdZset S k t) := by
  refine ⟨?_, fun x q hq => ?_, fun x z' hz' => ?_⟩
  · simp only [Exact.holdZset, store_put, h.base, ← hz.scores]; rfl
  · unfold A.put upd at hq
    simp only [Exact.holdZset] at hq ⊢
    by_cases hx : k = x
    · subst hx; simp only [if_true] at hq; cases hq
    · rw [if_neg hx] at hq; exact h.list x q hq
  · unfold A.put upd at hz'
    simp only [Exact.holdZset] at hz' ⊢
    by_cases hx : k = x
    · subst hx; simp only [if_true] at hz' ⊢; cases hz'
      rw [hz.scores]; exact hz
    · rw [if_neg hx] at hz'; rw [if_neg (fun h => hx h.symm)]; exact h.zset x z' hz'

theorem shows_due (h : Shows s S) (o : Option Int) : Shows { s with t := upd s.t k o } { S with base := { S.base with due := Ref.put S.base.due k o } } := by
  refine ⟨?_, h.list, h.zset⟩
  simp only [h.base]; rfl

theorem shows_str (h : Shows s S) (o : Option Int) {x : Bytes} : Shows ⟨upd s.v k (some (.str x)), upd s.t k o⟩
    { S with base := ⟨Ref.put S.base.val k (some (.str x)), Ref.put S.base.due k o⟩ } := by
  refine ⟨?_, fun y q hq => ?_, fun y z hz => ?_⟩
  · simp only [h.base]
    unfold store
    simp only [map_upd]
    rfl
  · unfold upd at hq
    simp only at hq ⊢
    by_cases hx : k = y
    · rw [if_pos hx] at hq; cases hq
    · rw [if_neg hx] at hq; exact h.list y q hq
  · unfold upd at hz
    simp only at hz ⊢
    by_cases hx : k = y
    · rw [if_pos hx] at hz; cases hz
    · rw [if_neg hx] at hz; exact h.zset y z hz

/-! ### deadlines -/

theorem xs_expire (h : Shows s S) : XSim (Exact.expire e (k :: a :: rest) S) (A.expire e (n :: k :: a :: rest) s) := by
  simp only [A.expire, Exact.expire, List.getElem?_cons_succ, List.getElem?_cons_zero, Option.bind_eq_bind, Option.bind_some]
  cases hi : atoi a with
  | none => exact xs_fails h
  | some i => exact xs_gives (shows_due h _) says_ok

theorem xs_expireat (h : Shows s S) : XSim (Exact.expireat (k :: a :: rest) S) (A.expireAt e (n :: k :: a :: rest) s) := by
  simp only [A.expireAt, Exact.expireat, List.getElem?_cons_succ, List.getElem?_cons_zero, Option.bind_eq_bind, Option.bind_some]
  cases hi : atoi a with
  | none => exact xs_fails h
  | some i => exact xs_gives (shows_due h _) says_ok

theorem xs_setex (h : Shows s S) : XSim (Exact.setex e (k :: a :: b :: rest) S) (A.setEx e (n :: k :: a :: b :: rest) s) := by
  simp only [A.setEx, Exact.setex, List.getElem?_cons_succ, List.getElem?_cons_zero, Option.bind_eq_bind, Option.bind_some]
  cases hi : atoi a with
  | none => exact xs_fails h
  | some i => exact xs_gives (shows_str h _) says_ok

theorem xs_ttl (h : Shows s S) : XSim (Exact.ttl e (k :: rest) S) (A.ttl e (n :: k :: rest) s) := by
  simp only [A.ttl, Exact.ttl, List.getElem?_cons_succ, List.getElem?_cons_zero, Option.bind_eq_bind, Option.bind_some, h.base, store_val]
  have hd : (store s).due k = s.t k := rfl
  rw [hd]
  cases s.v k with
  | none => exact xs_gives h (says_int _)
  | some o =>
    cases ht : s.t k with
    | none => exact xs_gives h (says_int _)
    | some d => exact xs_gives h (says_int _)

/-! ### lists -/

/-- Opens a command that looks up its first key. -/
macro "xlook" : tactic => `(tactic| (
  simp only [List.getElem?_cons_succ, List.getElem?_cons_zero, Option.bind_eq_bind, Option.bind_some, List.drop_succ_cons, List.drop_zero]))

theorem orNew_pages (h : Shows s S) {l : List Bytes} (hl : Ref.listOr ((store s).val k) = some l) :
    ∃ q s1, A.orNew AObj.asList (.list Quicklist.new) s k = (some q, s1) ∧ q.pages.flatten = l ∧ Quicklist.Wf pageSize q ∧
      pageSizes q = (if ((store s).val k).isNone then [] else S.sizes k) ∧ ∀ o, A.put s1 k o = A.put s k o := by
  unfold A.orNew
  rw [store_val] at hl ⊢
  rcases hv : s.v k with _ | (x | x | x | x | x) <;> rw [hv] at hl <;> first | (cases hl; done) | skip
  · cases hl
    exact ⟨_, _, rfl, rfl, Quicklist.new_wf _, rfl, fun o => put_put (Or.inr ⟨_, rfl⟩) o⟩
  · cases hl
    exact ⟨_, _, rfl, rfl, (h.list k x hv).1, (h.list k x hv).2.symm, fun o => rfl⟩

theorem xs_lpush (h : Shows s S) : XSim (Exact.push true (k :: rest) S) (A.lpush e (n :: k :: rest) s) := by
  unfold A.lpush Exact.push; xlook
  rw [h.base]
  cases hh : Ref.listOr ((store s).val k) with
  | none =>
    unfold A.orNew
    rw [store_val] at hh
    rcases hv : s.v k with _ | (x | x | x | x | x) <;> rw [hv] at hh <;> first | (cases hh; done) | exact xs_fails h
  | some l =>
    obtain ⟨q, s1, h1, h2, h3, h4, h5⟩ := orNew_pages h hh
    obtain ⟨q', p1, p2, p3, p4⟩ := sizes_lpush rest h3
    simp only [h1, p1, h5, Option.bind_some, if_true]
    rw [← h2, ← p3, ← h4, ← p4]
    refine xs_gives (shows_list h p2) ?_
    have hl : q'.length = q'.pages.flatten.length := p2.len
    unfold Quicklist.len
    rw [hl, p3, show ((rest.reverse ++ q.pages.flatten).length : Int) = q.pages.flatten.length + rest.length by
      rw [List.length_append, List.length_reverse]; omega]
    exact says_int _

theorem xs_rpush (h : Shows s S) : XSim (Exact.push false (k :: rest) S) (A.rpush e (n :: k :: rest) s) := by
  unfold A.rpush Exact.push; xlook
  rw [h.base]
  cases hh : Ref.listOr ((store s).val k) with
  | none =>
    unfold A.orNew
    rw [store_val] at hh
    rcases hv : s.v k with _ | (x | x | x | x | x) <;> rw [hv] at hh <;> first | (cases hh; done) | exact xs_fails h
  | some l =>
    obtain ⟨q, s1, h1, h2, h3, h4, h5⟩ := orNew_pages h hh
    obtain ⟨p2, p3, p4⟩ := sizes_rpush rest h3
    simp only [h1, h5, Option.bind_some, Bool.false_eq_true, if_false]
    rw [← h2, ← p3, ← h4, ← p4]
    refine xs_gives (shows_list h p2) ?_
    have hl : (Cmds.rpushLoop rest q).length = (Cmds.rpushLoop rest q).pages.flatten.length := p2.len
    unfold Quicklist.len
    rw [hl, p3, show ((q.pages.flatten ++ rest).length : Int) = q.pages.flatten.length + rest.length by
      rw [List.length_append]; omega]
    exact says_int _

theorem xs_lpop (h : Shows s S) : XSim (Exact.lpop e (k :: rest) S) (A.lpop e (n :: k :: rest) s) := by
  have hs1 := shows_exp (e := e) (k := k) h
  unfold A.lpop A.popCmd Exact.lpop; xlook
  revert hs1
  generalize A.exp e s k = s1
  generalize Exact.fresh e.now S k = S1
  intro hs1
  rw [hs1.base, store_val]; unfold A.look
  rcases hv : s1.v k with _ | (x | x | x | x | x)
  · exact xs_gives hs1 says_null
  · exact xs_fails hs1
  · obtain ⟨w, hz⟩ := hs1.list k x hv
    simp only [AObj.asList, val, Option.map]
    obtain ⟨q', h1, h2, h3⟩ := Quicklist.popFront_spec x w
    unfold Quicklist.elems at h1 h3
    have hlen : x.length = x.pages.flatten.length := w.len
    cases hl : x.pages.flatten with
    | nil =>
      rw [hl] at hlen
      rw [if_pos (show Quicklist.len x = 0 by simp [Quicklist.len, hlen])]
      exact xs_gives hs1 says_null
    | cons y l =>
      have hsz := sizes_popFront w (by rw [hl]; simp) h1
      rw [hl] at hlen h1 h3
      rw [if_neg (show ¬ Quicklist.len x = 0 by simp only [Quicklist.len, hlen, List.length_cons]; omega), h1]
      simp only [Option.bind_some, List.head?_cons]
      simp only [List.tail_cons] at h3
      rw [← h3, hz, ← hsz]
      exact xs_gives (shows_list hs1 h2) (says_bulk _)
  · exact xs_fails hs1
  · exact xs_fails hs1
  · exact xs_fails hs1

theorem xs_rpop (h : Shows s S) : XSim (Exact.rpop e (k :: rest) S) (A.rpop e (n :: k :: rest) s) := by
  have hs1 := shows_exp (e := e) (k := k) h
  unfold A.rpop A.popCmd Exact.rpop; xlook
  revert hs1
  generalize A.exp e s k = s1
  generalize Exact.fresh e.now S k = S1
  intro hs1
  rw [hs1.base, store_val]; unfold A.look
  rcases hv : s1.v k with _ | (x | x | x | x | x)
  · exact xs_gives hs1 says_null
  · exact xs_fails hs1
  · obtain ⟨w, hz⟩ := hs1.list k x hv
    simp only [AObj.asList, val, Option.map]
    have hlen : x.length = x.pages.flatten.length := w.len
    cases hl : x.pages.flatten.getLast? with
    | none =>
      rw [List.getLast?_eq_none_iff] at hl
      rw [hl] at hlen
      rw [if_pos (show Quicklist.len x = 0 by simp [Quicklist.len, hlen])]
      exact xs_gives hs1 says_null
    | some y =>
      have hne : x.pages.flatten ≠ [] := by intro h; rw [h] at hl; cases hl
      rw [if_neg (show ¬ Quicklist.len x = 0 by
        unfold Quicklist.len
        have := List.length_pos_iff.2 hne
        omega)]
      rw [show (S1.sizes k).length = x.pages.length by rw [hz]; simp [pageSizes]]
      by_cases hp : 2 ≤ x.pages.length
      · rw [Quicklist.popBack_panics x w hp]
        simp only [if_pos hp]
        exact xs_crash
      · obtain ⟨q', h1, h2, h3⟩ := Quicklist.popBack_onepage x w (by omega)
        unfold Quicklist.elems at h1 h3
        have hsz := sizes_popBack w hne hp h1
        rw [h1, hl]
        simp only [if_neg hp, Option.bind_some]
        rw [← h3, hz, ← hsz]
        exact xs_gives (shows_list hs1 h2) (says_bulk _)
  · exact xs_fails hs1
  · exact xs_fails hs1
  · exact xs_fails hs1

theorem xs_lindex (h : Shows s S) : XSim (Exact.lindex e (k :: a :: rest) S) (A.lindex e (n :: k :: a :: rest) s) := by
  have hs1 := shows_exp (e := e) (k := k) h
  unfold A.lindex Exact.lindex; xlook
  revert hs1
  generalize A.exp e s k = s1
  generalize Exact.fresh e.now S k = S1
  intro hs1
  rw [hs1.base, store_val]; unfold A.look
  rcases hv : s1.v k with _ | (x | x | x | x | x)
  · exact xs_gives hs1 says_null
  · exact xs_fails hs1
  · obtain ⟨w, hz⟩ := hs1.list k x hv
    simp only [AObj.asList, val, Option.map]
    cases atoi a with
    | none => exact xs_fails hs1
    | some i =>
      simp only
      by_cases hin : 0 ≤ i ∧ i < (x.pages.flatten.length : Int)
      · rw [if_pos hin]
        obtain ⟨p, rfl⟩ : ∃ p : Nat, i = p := ⟨i.toNat, by omega⟩
        have hg := get_lands x w p (by omega)
        rw [hg.1, hz, Int.toNat_natCast]
        change XSim (match lands (x.pages.map List.length) p with | none => _ | some m => _) _
        cases hm : lands (x.pages.map List.length) p with
        | none => exact xs_crash
        | some m =>
          have := hg.2 m hm
          simp only [Option.map_some, Option.bind_some, List.getElem?_eq_getElem this]
          exact xs_gives hs1 (says_bulk _)
      · rw [if_neg hin]
        have : Quicklist.get x i = some none := by
          unfold Quicklist.get
          rw [Quicklist.getPos_none x w i (by
            rcases Int.lt_or_le i 0 with h | h
            · exact Or.inl h
            · exact Or.inr (by unfold Quicklist.elems; omega))]
        rw [this]
        exact xs_gives hs1 says_null
  · exact xs_fails hs1
  · exact xs_fails hs1
  · exact xs_fails hs1

theorem bounds_lt {n : Nat} {i j : Int} {x y : Nat} (h : bounds n i j = some (x, y)) : x < n ∧ x ≤ y := by
  unfold bounds at h
  split at h
  · cases h
  · cases h; omega

theorem xs_lrange (h : Shows s S) : XSim (Exact.lrange e (k :: a :: b :: rest) S) (A.lrange e (n :: k :: a :: b :: rest) s) := by
  have hs1 := shows_exp (e := e) (k := k) h
  unfold A.lrange Exact.lrange; xlook
  revert hs1
  generalize A.exp e s k = s1
  generalize Exact.fresh e.now S k = S1
  intro hs1
  rw [hs1.base, store_val]; unfold A.look
  rcases hv : s1.v k with _ | (x | x | x | x | x)
  · exact xs_gives hs1 says_empty
  · exact xs_fails hs1
  · obtain ⟨w, hz⟩ := hs1.list k x hv
    simp only [AObj.asList, val, Option.map]
    cases atoi a with
    | none => exact xs_fails hs1
    | some i =>
      cases hb : atoi b with
      | none => exact xs_fails hs1
      | some j =>
        simp only [range_lands x w i j, hz]
        cases hbd : bounds x.pages.flatten.length i j with
        | none => exact xs_gives hs1 says_null
        | some p =>
          obtain ⟨p, y⟩ := p
          obtain ⟨b1, b2⟩ := bounds_lt hbd
          simp only [pageSizes]
          cases hm : lands (x.pages.map List.length) p with
          | none => exact xs_crash
          | some m =>
            have hlt := (get_lands x w p b1).2 m hm
            simp only
            by_cases hc : y - p < 2 ^ 44
            · rw [if_pos hc]
              simp only [if_pos hc, Option.bind_some]
              rw [if_neg (by
                intro h
                have := congrArg List.length h
                rw [List.length_take, List.length_drop, List.length_nil] at this
                omega)]
              exact xs_gives hs1 (says_array _)
            · rw [if_neg hc]
              simp only [if_neg hc]
              exact xs_crash
  · exact xs_fails hs1
  · exact xs_fails hs1
  · exact xs_fails hs1

/-! ### sorted sets -/

theorem tally_base (h : Shows s S) : Exact.tally S k = match (s.v k).map val with | none => some Tally.none | some (.zset f) => some ⟨f, S.entries k⟩ | some _ => none := by
  unfold Exact.tally; rw [h.base, store_val]
  cases hv : (s.v k).map val with
  | none => rfl
  | some o => cases o <;> rfl

/-- The loop of ZADD, whether or not all scores are numbers. -/
theorem zaddLoop_tally (hlv : ∀ j, 1 ≤ e.level j ∧ e.level j ≤ 32) : ∀ (args : List Bytes) (i : Nat) {z : AZ} {t : Tally} (c : Nat), Holds z t →
    (∀ p ∈ (Ref.scores e args).1, p.1.isNaN = false) → ∃ z' m bad, A.zaddLoop e args i z c = some (z', m, c + t.fresh (Ref.scores e args).1, bad) ∧
      Holds z' (t.addAll (Ref.scores e args).1) ∧ bad.isSome = (Ref.scores e args).2
  | [], i, z, t, c, h, _ => ⟨z, i, none, rfl, h, rfl⟩
  | [x], i, z, t, c, h, _ => ⟨z, i, none, rfl, h, rfl⟩
  | sc :: m :: rest, i, z, t, c, h, hn => by
    unfold Ref.scores at hn ⊢
    unfold A.zaddLoop
    cases hp : e.parseFloat sc with
    | none => exact ⟨z, i, some sc, rfl, h, rfl⟩
    | some x =>
      simp only [hp] at hn ⊢
      obtain ⟨z1, e1, h1⟩ := h.add (hlv i) (m := m) (hn (x, m) (by simp))
      obtain ⟨z2, m2, bad, e2, h2, b2⟩ := zaddLoop_tally hlv rest (i + 1) (if (t.scores m).isNone then c + 1 else c) h1
        (fun p hp => hn p (by simp [hp]))
      refine ⟨z2, m2, bad, ?_, h2, b2⟩
      simp only [e1, Option.bind_eq_bind, Option.bind_some, e2, Tally.fresh]
      refine congrArg some (Prod.ext rfl (Prod.ext rfl (Prod.ext ?_ rfl)))
      simp only
      split <;> omega

theorem xs_zadd (h : Shows s S) (hlv : ∀ j, 1 ≤ e.level j ∧ e.level j ≤ 32) (hn : ∀ p ∈ (Ref.scores e rest).1, p.1.isNaN = false) :
    XSim (Exact.zadd e (k :: rest) S) (A.zadd e (n :: k :: rest) s) := by
  unfold A.zadd Exact.zadd
  by_cases hp : rest.length % 2 = 1
  · rw [if_pos (by simp only [List.length_cons]; omega)]
    simp only [if_pos hp]; exact xs_fails h
  · rw [if_neg (by simp only [List.length_cons]; omega)]
    simp only [if_neg hp]
    xlook
    rw [tally_base h]
    rcases hv : s.v k with _ | (x | x | x | x | x)
    all_goals first
      | (rw [orNew_fail hv rfl]; exact xs_fails h)
      | skip
    · obtain ⟨z', m, bad, h5, h6, h7⟩ := zaddLoop_tally (e := e) hlv rest 0 0 holds_new hn
      have ho : A.orNew AObj.asZset (.zset A.zNew) s k = (some A.zNew, A.put s k (.zset A.zNew)) := by unfold A.orNew; simp only [hv]; rfl
      have h2 : ∀ o, A.put (A.put s k (.zset A.zNew)) k o = A.put s k o := fun o => put_put (Or.inr ⟨_, rfl⟩) o
      simp only [ho, h5, h2, Option.bind_some, Option.map_none, ← h7]
      cases bad with
      | none => simp only [Option.isSome_none, Bool.false_eq_true, if_false]; rw [Nat.zero_add]; exact xs_gives (shows_zset h h6) (says_int _)
      | some sc => simp only [Option.isSome_some, if_true]; exact xs_fails (shows_zset h h6)
    · obtain ⟨z', m, bad, h5, h6, h7⟩ := zaddLoop_tally (e := e) hlv rest 0 0 (h.zset k x hv) hn
      have ho : A.orNew AObj.asZset (.zset A.zNew) s k = (some x, s) := by unfold A.orNew; simp only [hv]; rfl
      simp only [ho, h5, Option.bind_some, Option.map_some, val, ← h7]
      cases bad with
      | none => simp only [Option.isSome_none, Bool.false_eq_true, if_false]; rw [Nat.zero_add]; exact xs_gives (shows_zset h h6) (says_int _)
      | some sc => simp only [Option.isSome_some, if_true]; exact xs_fails (shows_zset h h6)

theorem xs_zcard (h : Shows s S) : XSim (Exact.zcard e (k :: rest) S) (A.zcard e (n :: k :: rest) s) := by
  have hs1 := shows_exp (e := e) (k := k) h
  unfold A.zcard Exact.zcard; xlook
  revert hs1
  generalize A.exp e s k = s1
  generalize Exact.fresh e.now S k = S1
  intro hs1
  rw [tally_base hs1]; unfold A.look
  rcases hv : s1.v k with _ | (x | x | x | x | x)
  · exact xs_gives hs1 (says_int _)
  · exact xs_fails hs1
  · exact xs_fails hs1
  · exact xs_fails hs1
  · exact xs_fails hs1
  · simp only [AObj.asZset, val, Option.map, (hs1.zset k x hv).length]
    exact xs_gives hs1 (says_int _)

theorem xs_zcount (h : Shows s S) (hn : ∀ x y, e.parseFloat a = some x → e.parseFloat b = some y → x.isNaN = false ∧ y.isNaN = false) :
    XSim (Exact.zcount e (k :: a :: b :: rest) S) (A.zcount e (n :: k :: a :: b :: rest) s) := by
  have hs1 := shows_exp (e := e) (k := k) h
  unfold A.zcount Exact.zcount; xlook
  cases ha : e.parseFloat a with
  | none => exact xs_fails h
  | some x =>
    cases hb : e.parseFloat b with
    | none => exact xs_fails h
    | some y =>
      revert hs1
      simp only
      generalize A.exp e s k = s1
      generalize Exact.fresh e.now S k = S1
      intro hs1
      rw [tally_base hs1]; unfold A.look
      rcases hv : s1.v k with _ | (z | z | z | z | z)
      · exact xs_gives hs1 (says_int _)
      · exact xs_fails hs1
      · exact xs_fails hs1
      · exact xs_fails hs1
      · exact xs_fails hs1
      · simp only [AObj.asZset, val, Option.map, (hs1.zset k z hv).count (hn x y ha hb).1 (hn x y ha hb).2, Option.bind_some]
        exact xs_gives hs1 (says_int _)

theorem xs_ranged {a0 a1 a2 a3 : Bytes} {t : Tally} (h : Shows s S) (sel : List Entry) :
    XSim (Exact.ranged e rest t sel S) ((Reply.zset e (a0 :: a1 :: a2 :: a3 :: rest) (Tally.elems t sel)).bind (fun r => some ⟨s, 0, A.ex r⟩)) := by
  unfold Exact.ranged
  have hnone : ∀ ws, t.told sel = none → Reply.zElems e ws (Tally.elems t sel) = none := fun ws hl => zElems_none (elems_untold hl)
  cases rest with
  | nil =>
    simp only
    cases hl : t.told sel with
    | none =>
      rw [show Reply.zset e [a0, a1, a2, a3] (Tally.elems t sel) = none from by simp [Reply.zset, hnone _ hl]]
      exact xs_crash
    | some ps =>
      obtain ⟨r, h1, h2⟩ := Props.SortedP.says_zset (e := e) (rest := []) (ws := false) (a0 := a0) (a1 := a1) (a2 := a2) (a3 := a3) rfl (Or.inl ⟨rfl, rfl⟩) ps
      rw [elems_told hl, h1]; exact xs_gives h h2
  | cons o t' =>
    simp only
    split
    next ho =>
      cases hl : t.told sel with
      | none =>
        rw [show Reply.zset e (a0 :: a1 :: a2 :: a3 :: o :: t') (Tally.elems t sel) = none from by simp [Reply.zset, hnone _ hl, ho]]
        exact xs_crash
      | some ps =>
        obtain ⟨r, h1, h2⟩ := Props.SortedP.says_zset (e := e) (rest := o :: t') (ws := true) (a0 := a0) (a1 := a1) (a2 := a2) (a3 := a3) rfl (Or.inr ⟨o, t', rfl, ho, rfl⟩) ps
        rw [elems_told hl, h1]; exact xs_gives h h2
    next ho =>
      rw [show Reply.zset e (a0 :: a1 :: a2 :: a3 :: o :: t') (Tally.elems t sel) = some (Reply.error (b!"invalid option: %s" ++ o)) from by simp [Reply.zset, ho]]
      exact xs_fails h

theorem xs_iff {P P' : Exact.Effect} {o : Option AOut} (h : ∀ S v, P S v ↔ P' S v) (hx : XSim P o) : XSim P' o := by
  cases o with
  | none => exact fun S v hp => hx S v ((h S v).2 hp)
  | some a => exact fun r hr => by obtain ⟨S, v, q1, q2, q3⟩ := hx r hr; exact ⟨S, v, q1, (h S v).1 q2, q3⟩

theorem xs_zrange (h : Shows s S) : XSim (Exact.zrange e (k :: a :: b :: rest) S) (A.zrange e (n :: k :: a :: b :: rest) s) := by
  have hs1 := shows_exp (e := e) (k := k) h
  unfold A.zrange Exact.zrange; xlook
  cases ha : atoi a with
  | none => exact xs_fails h
  | some i =>
    cases hb : atoi b with
    | none => exact xs_fails h
    | some j =>
      revert hs1
      simp only
      generalize A.exp e s k = s1
      generalize Exact.fresh e.now S k = S1
      intro hs1
      rw [hs1.base, store_val]; unfold A.look
      rcases hv : s1.v k with _ | (z | z | z | z | z)
      · exact xs_gives hs1 says_null
      · exact xs_fails hs1
      · exact xs_fails hs1
      · exact xs_fails hs1
      · exact xs_fails hs1
      · have hz := hs1.zset k z hv
        obtain ⟨l, hl⟩ := hz.ordered
        simp only [AObj.asZset, val, Option.map, hz.byRank hl i j]
        cases hr : ranks l i j with
        | none =>
          rintro S' v ⟨l', sel, q1, q2, _⟩
          rw [inOrder_unique q1 hl, hr] at q2; cases q2
        | some sel =>
          refine xs_iff (fun S' v => ?_) (xs_ranged (a0 := n) (a1 := k) (a2 := a) (a3 := b) hs1 sel)
          constructor
          · exact fun hp => ⟨l, sel, hl, hr, hp⟩
          · rintro ⟨l', sel', q1, q2, q3⟩
            rw [inOrder_unique q1 hl, hr] at q2; cases q2; exact q3

theorem xs_zrangebyscore (h : Shows s S) (hn : ∀ x y, e.parseFloat a = some x → e.parseFloat b = some y → x.isNaN = false ∧ y.isNaN = false) :
    XSim (Exact.zrangebyscore e (k :: a :: b :: rest) S) (A.zrangeByScore e (n :: k :: a :: b :: rest) s) := by
  have hs1 := shows_exp (e := e) (k := k) h
  unfold A.zrangeByScore Exact.zrangebyscore; xlook
  cases ha : e.parseFloat a with
  | none => exact xs_fails h
  | some x =>
    cases hb : e.parseFloat b with
    | none => exact xs_fails h
    | some y =>
      revert hs1
      simp only
      generalize A.exp e s k = s1
      generalize Exact.fresh e.now S k = S1
      intro hs1
      rw [hs1.base, store_val]; unfold A.look
      rcases hv : s1.v k with _ | (z | z | z | z | z)
      · exact xs_gives hs1 says_null
      · exact xs_fails hs1
      · exact xs_fails hs1
      · exact xs_fails hs1
      · exact xs_fails hs1
      · have hz := hs1.zset k z hv
        obtain ⟨l, hl⟩ := hz.ordered
        simp only [AObj.asZset, val, Option.map, hz.byScore hl (hn x y ha hb).1 (hn x y ha hb).2, Option.bind_some]
        refine xs_iff (fun S' v => ?_) (xs_ranged (a0 := n) (a1 := k) (a2 := a) (a3 := b) hs1 (l.filter (within x y)))
        constructor
        · exact fun hp => ⟨l, hl, hp⟩
        · rintro ⟨l', q1, q3⟩
          rw [inOrder_unique q1 hl] at q3; exact q3

theorem xs_zrem (h : Shows s S) : XSim (Exact.zrem e (k :: rest) S) (A.zrem e (n :: k :: rest) s) := by
  have hs1 := shows_exp (e := e) (k := k) h
  unfold A.zrem Exact.zrem; xlook
  revert hs1
  generalize A.exp e s k = s1
  generalize Exact.fresh e.now S k = S1
  intro hs1
  rw [hs1.base, store_val]; unfold A.look
  rcases hv : s1.v k with _ | (x | x | x | x | x)
  · exact xs_gives hs1 (says_int _)
  · exact xs_fails hs1
  · exact xs_fails hs1
  · exact xs_fails hs1
  · exact xs_fails hs1
  · obtain ⟨z', h1, h2⟩ := (hs1.zset k x hv).zrem rest 0
    simp only [AObj.asZset, val, Option.map, h1, Option.bind_some, Nat.zero_add]
    exact xs_gives (shows_zset hs1 h2) (says_int _)

theorem xs_zremrangebyscore (h : Shows s S) (hn : ∀ x y, e.parseFloat a = some x → e.parseFloat b = some y → x.isNaN = false ∧ y.isNaN = false) :
    XSim (Exact.zremrangebyscore e (k :: a :: b :: rest) S) (A.zremRangeByScore e (n :: k :: a :: b :: rest) s) := by
  have hs1 := shows_exp (e := e) (k := k) h
  unfold A.zremRangeByScore Exact.zremrangebyscore; xlook
  cases ha : e.parseFloat a with
  | none => exact xs_fails h
  | some x =>
    cases hb : e.parseFloat b with
    | none => exact xs_fails h
    | some y =>
      revert hs1
      simp only
      generalize A.exp e s k = s1
      generalize Exact.fresh e.now S k = S1
      intro hs1
      rw [hs1.base, store_val]; unfold A.look
      rcases hv : s1.v k with _ | (z | z | z | z | z)
      · exact xs_gives hs1 (says_int _)
      · exact xs_fails hs1
      · exact xs_fails hs1
      · exact xs_fails hs1
      · exact xs_fails hs1
      · obtain ⟨es, z', h1, h2, h3⟩ := (hs1.zset k z hv).cut (hn x y ha hb).1 (hn x y ha hb).2
        simp only [AObj.asZset, val, Option.map, h1, Option.bind_some]
        simp only at h2
        rw [← h2]
        exact xs_gives (shows_zset hs1 h3) (says_int _)

theorem xs_zremrangebyrank (h : Shows s S) (hn : ∀ i j, atoi a = some i → atoi b = some j → i ≤ 0 ∨ j < i) :
    XSim (Exact.zremrangebyrank e (k :: a :: b :: rest) S) (A.zremRangeByRank e (n :: k :: a :: b :: rest) s) := by
  have hs1 := shows_exp (e := e) (k := k) h
  unfold A.zremRangeByRank Exact.zremrangebyrank; xlook
  cases ha : atoi a with
  | none => exact xs_fails h
  | some x =>
    cases hb : atoi b with
    | none => exact xs_fails h
    | some y =>
      revert hs1
      simp only
      generalize A.exp e s k = s1
      generalize Exact.fresh e.now S k = S1
      intro hs1
      rw [hs1.base, store_val]; unfold A.look
      rcases hv : s1.v k with _ | (z | z | z | z | z)
      · exact xs_gives hs1 (says_int _)
      · exact xs_fails hs1
      · exact xs_fails hs1
      · exact xs_fails hs1
      · exact xs_fails hs1
      · have ho := hs1.zset k z hv
        obtain ⟨l, hl⟩ := ho.ordered
        obtain ⟨es, z', h1, h2, h3⟩ := ho.shed hl (hn x y ha hb) (atoi_lt ha)
        simp only [AObj.asZset, val, Option.map, h1, Option.bind_some]
        rw [h2]
        intro r hr
        obtain ⟨S', v, q1, q2, q3⟩ := xs_gives (shows_zset hs1 h3) (says_int ((picked l x y).length : Int)) r hr
        exact ⟨S', v, q1, ⟨l, hl, q2⟩, q3⟩

end
end Metis.ExactSim
