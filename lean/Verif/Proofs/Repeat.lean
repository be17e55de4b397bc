import Verif.Proofs.Refused
/-!
Commands that do nothing the second time (C118).
-/
set_option linter.unusedSectionVars false
set_option linter.unusedSimpArgs false
set_option linter.unusedVariables false
namespace Metis.RepeatSim
open Metis
open Metis.Spec
variable {hash : Bytes → Nat} {e e' : Env} {args : List Bytes} {s : AS} {a a' : AOut}

/-! ### The loops -/

theorem hsetLoop_lays : ∀ (l : List Bytes), ∃ g : Bytes → Option Bytes, (∀ (h : Fn Bytes) (n : Nat) (x : Bytes), (A.hsetLoop l h n).1 x = (g x).or (h x)) ∧
    ∀ (h : Fn Bytes) (n : Nat), (∀ x, (g x).isSome = true → (h x).isSome = true) → (A.hsetLoop l h n).2 = n
  | [] => ⟨fun _ => none, fun _ _ _ => rfl, fun _ _ _ => rfl⟩
  | [_] => ⟨fun _ => none, fun _ _ _ => rfl, fun _ _ _ => rfl⟩
  | f :: v :: rest => by
    obtain ⟨g, h1, h2⟩ := hsetLoop_lays rest
    refine ⟨fun x => (g x).or (if x = f then some v else none), fun h n x => ?_, fun h n hx => ?_⟩
    · show (A.hsetLoop rest (upd h f (some v)) _).1 x = _
      rw [h1]
      unfold upd
      by_cases hxf : x = f
      · simp [hxf, Option.or_assoc]
      · simp [hxf, show ¬ f = x from fun h => hxf h.symm, Option.or_assoc]
    · show (A.hsetLoop rest (upd h f (some v)) _).2 = _
      have hf : (h f).isSome = true := hx f (by cases g f <;> simp)
      have hn : (h f).isNone = false := by cases hh : h f <;> simp_all
      rw [h2]
      · simp [hn]
      · intro x hg
        unfold upd
        split
        · rfl
        · exact hx x (by cases hh : g x <;> simp_all)

theorem hsetLoop_again (l : List Bytes) (h : Fn Bytes) : A.hsetLoop l (A.hsetLoop l h 0).1 0 = ((A.hsetLoop l h 0).1, 0) := by
  obtain ⟨g, h1, h2⟩ := hsetLoop_lays l
  refine Prod.ext (funext fun x => ?_) ?_
  · simp only [h1]
    cases g x <;> rfl
  · exact h2 _ _ fun x hx => by
      rw [h1]; cases hg : g x <;> simp_all

theorem saddLoop_lays : ∀ (l : List Bytes) (h : Fn Unit) (n : Nat), (∀ x, (A.saddLoop l h n).1 x = if x ∈ l then some () else h x) ∧
    ((∀ x ∈ l, h x = some ()) → A.saddLoop l h n = (h, n))
  | [], h, n => ⟨fun x => by simp [A.saddLoop], fun _ => rfl⟩
  | m :: rest, h, n => by
    obtain ⟨h1, _⟩ := saddLoop_lays rest (upd h m (some ())) (if (h m).isNone then n + 1 else n)
    refine ⟨fun x => ?_, fun hx => ?_⟩
    · show (A.saddLoop rest _ _).1 x = _
      rw [h1]
      unfold upd
      by_cases hxm : x = m
      · subst hxm; simp
      · simp [hxm, show ¬ m = x from fun h => hxm h.symm]
    · show A.saddLoop rest (upd h m (some ())) _ = _
      have hm := hx m (by simp)
      rw [upd_same _ _ _ hm, hm]
      exact (saddLoop_lays rest h n).2 fun x hr => hx x (by simp [hr])

theorem saddLoop_again (l : List Bytes) (h : Fn Unit) : A.saddLoop l (A.saddLoop l h 0).1 0 = ((A.saddLoop l h 0).1, 0) :=
  (saddLoop_lays l _ _).2 fun x hx => by rw [(saddLoop_lays l h 0).1, if_pos hx]

theorem delLoop_lays {V : Type} : ∀ (l : List Bytes) (h : Fn V) (n : Nat), (∀ x, (A.delLoop l h n).1 x = if x ∈ l then none else h x) ∧
    ((∀ x ∈ l, h x = none) → A.delLoop l h n = (h, n))
  | [], h, n => ⟨fun x => by simp [A.delLoop], fun _ => rfl⟩
  | m :: rest, h, n => by
    obtain ⟨h1, _⟩ := delLoop_lays rest (upd h m none) (if (h m).isSome then n + 1 else n)
    refine ⟨fun x => ?_, fun hx => ?_⟩
    · show (A.delLoop rest _ _).1 x = _
      rw [h1]
      unfold upd
      by_cases hxm : x = m
      · subst hxm; simp
      · simp [hxm, show ¬ m = x from fun h => hxm h.symm]
    · show A.delLoop rest (upd h m none) _ = _
      have hm := hx m (by simp)
      rw [upd_same _ _ _ hm, hm]
      exact (delLoop_lays rest h n).2 fun x hr => hx x (by simp [hr])

theorem delLoop_again {V : Type} (l : List Bytes) (h : Fn V) : A.delLoop l (A.delLoop l h 0).1 0 = ((A.delLoop l h 0).1, 0) :=
  (delLoop_lays l _ _).2 fun x hx => by rw [(delLoop_lays l h 0).1, if_pos hx]

theorem zdelete_f {z z' : AZ} {m : Bytes} {b : Bool} (h : AZ.delete z m = some (b, z')) : z'.f m = none ∧ ∀ x, z.f x = none → z'.f x = none := by
  unfold AZ.delete at h
  split at h
  · next hm => cases h; exact ⟨hm, fun _ h => h⟩
  · simp only [Option.bind_eq_bind, Option.bind_eq_some_iff] at h
    obtain ⟨_, _, h⟩ := h
    cases h
    refine ⟨by simp [upd], fun x hx => ?_⟩
    simp only [upd]
    split
    · rfl
    · exact hx

theorem zremLoop_gone : ∀ (l : List Bytes) (z : AZ) (n : Nat) {z' n'}, A.zremLoop l z n = some (z', n') → (∀ m ∈ l, z'.f m = none) ∧ ∀ x, z.f x = none → z'.f x = none
  | [], z, n, z', n', h => by cases h; exact ⟨by simp, fun _ h => h⟩
  | m :: l, z, n, z', n', h => by
    unfold A.zremLoop at h
    simp only [Option.bind_eq_bind, Option.bind_eq_some_iff] at h
    obtain ⟨⟨b, z1⟩, h1, h2⟩ := h
    obtain ⟨p1, p2⟩ := zdelete_f h1
    obtain ⟨q1, q2⟩ := zremLoop_gone l _ _ h2
    refine ⟨fun x hx => ?_, fun x hx => q2 x (p2 x hx)⟩
    simp only [List.mem_cons] at hx
    rcases hx with rfl | hx
    · exact q2 _ p1
    · exact q1 x hx

theorem zremLoop_idle : ∀ (l : List Bytes) (z : AZ) (n : Nat), (∀ m ∈ l, z.f m = none) → A.zremLoop l z n = some (z, n)
  | [], z, n, _ => rfl
  | m :: l, z, n, h => by
    unfold A.zremLoop AZ.delete
    simp only [h m (by simp), Option.bind_eq_bind, Option.bind_some]
    exact zremLoop_idle l z n fun x hx => h x (by simp [hx])

/-! ### The commands -/

/-- The second time: nothing but the removal of expired keys, and the reply is an error or says zero. -/
def Idle (e' : Env) (a a' : AOut) : Prop := Swept e' a.s a'.s ∧ ∀ r, a'.reply r → isError r ∨ r = Reply.int 0

theorem put_v {s : AS} {k : Bytes} {o : AObj} : (A.put s k o).v k = some o := by simp [A.put, upd]

theorem orNew_some {β : Type} {as : AObj → Option β} {fr o : AObj} {s : AS} {k : Bytes} (h : s.v k = some o) : A.orNew as fr s k = (as o, s) := by
  unfold A.orNew; rw [h]

theorem again_hset (h : A.hset e args s = some a) (h' : A.hset e' args a.s = some a') : Idle e' a a' := by
  unfold A.hset at h h'
  by_cases hl : args.length % 2 ≠ 0
  · rw [if_pos hl] at h'; cases h'
    exact ⟨swept_refl, fun r hr => .inl (by cases hr; exact error_isError _)⟩
  · rw [if_neg hl] at h h'
    simp only [Option.bind_eq_bind, Option.bind_eq_some_iff] at h h'
    obtain ⟨k, hk, h⟩ := h
    obtain ⟨k', hk', h'⟩ := h'
    rw [hk] at hk'; cases hk'
    split at h
    · next hn =>
      cases h
      rw [orNew_none rfl hn] at h'
      simp only [hn, orNew_none rfl hn] at h'
      cases h'
      exact ⟨by simp only [orNew_none rfl hn]; exact swept_refl, fun r hr => .inl (by cases hr; exact error_isError _)⟩
    · next f hf =>
      cases h
      simp only [orNew_some put_v, AObj.asHash, hsetLoop_again] at h'
      cases h'
      exact ⟨by simp only [put_same' put_v]; exact swept_refl, fun r hr => .inr hr⟩

theorem again_sadd (h : A.sadd e args s = some a) (h' : A.sadd e' args a.s = some a') : Idle e' a a' := by
  unfold A.sadd at h h'
  simp only [Option.bind_eq_bind, Option.bind_eq_some_iff] at h h'
  obtain ⟨k, hk, h⟩ := h
  obtain ⟨k', hk', h'⟩ := h'
  rw [hk] at hk'; cases hk'
  split at h
  · next hn =>
    cases h
    rw [orNew_none rfl hn] at h'
    simp only [hn, orNew_none rfl hn] at h'
    cases h'
    exact ⟨by simp only [orNew_none rfl hn]; exact swept_refl, fun r hr => .inl (by cases hr; exact error_isError _)⟩
  · next f hf =>
    cases h
    simp only [orNew_some put_v, AObj.asSet, saddLoop_again] at h'
    cases h'
    exact ⟨by simp only [put_same' put_v]; exact swept_refl, fun r hr => .inr hr⟩

theorem look_missing {β : Type} {as : AObj → Option β} {s : AS} {k : Bytes} (h : A.look as s k = .missing) : s.v k = none := by
  unfold A.look at h
  split at h
  · assumption
  · split at h <;> cases h

theorem exp_at {s : AS} {k : Bytes} : (A.exp e s k).v k = s.v k ∨ (A.exp e s k).v k = none := by
  unfold A.exp
  split
  · right; simp [upd]
  · left; rfl

theorem again_hdel (h : A.hdel e args s = some a) (h' : A.hdel e' args a.s = some a') : Idle e' a a' := by
  unfold A.hdel at h h'
  simp only [Option.bind_eq_bind, Option.bind_eq_some_iff] at h h'
  obtain ⟨k, hk, h⟩ := h
  obtain ⟨k', hk', h'⟩ := h'
  rw [hk] at hk'; cases hk'
  split at h'
  · cases h'; exact ⟨swept_exp, fun r hr => .inr hr⟩
  · cases h'; exact ⟨swept_exp, fun r hr => .inl (by cases hr; exact error_isError _)⟩
  · next f' hf' =>
    have hv := look_hash hf'
    have hs : a.s.v k = some (.hash f') := by
      rcases exp_at (e := e') (s := a.s) (k := k) with q | q <;> rw [q] at hv
      · exact hv
      · cases hv
    have key : A.delLoop (args.drop 2) f' 0 = (f', 0) := by
      split at h
      · next hm => cases h; rw [look_missing hm] at hs; cases hs
      · next hm => cases h; unfold A.look at hm; rw [hs] at hm; cases hm
      · cases h
        rw [put_v] at hs
        cases hs
        exact delLoop_again _ _
    rw [key] at h'
    cases h'
    exact ⟨by simp only [put_same' hv]; exact swept_exp, fun r hr => .inr hr⟩

theorem again_srem (h : A.srem e args s = some a) (h' : A.srem e' args a.s = some a') : Idle e' a a' := by
  unfold A.srem at h h'
  simp only [Option.bind_eq_bind, Option.bind_eq_some_iff] at h h'
  obtain ⟨k, hk, h⟩ := h
  obtain ⟨k', hk', h'⟩ := h'
  rw [hk] at hk'; cases hk'
  split at h'
  · cases h'; exact ⟨swept_exp, fun r hr => .inr hr⟩
  · cases h'; exact ⟨swept_exp, fun r hr => .inl (by cases hr; exact error_isError _)⟩
  · next f' hf' =>
    have hv := look_set hf'
    have hs : a.s.v k = some (.set f') := by
      rcases exp_at (e := e') (s := a.s) (k := k) with q | q <;> rw [q] at hv
      · exact hv
      · cases hv
    have key : A.delLoop (args.drop 2) f' 0 = (f', 0) := by
      split at h
      · next hm => cases h; rw [look_missing hm] at hs; cases hs
      · next hm => cases h; unfold A.look at hm; rw [hs] at hm; cases hm
      · cases h
        rw [put_v] at hs
        cases hs
        exact delLoop_again _ _
    rw [key] at h'
    cases h'
    exact ⟨by simp only [put_same' hv]; exact swept_exp, fun r hr => .inr hr⟩

theorem again_zrem (h : A.zrem e args s = some a) (h' : A.zrem e' args a.s = some a') : Idle e' a a' := by
  unfold A.zrem at h h'
  simp only [Option.bind_eq_bind, Option.bind_eq_some_iff] at h h'
  obtain ⟨k, hk, h⟩ := h
  obtain ⟨k', hk', h'⟩ := h'
  rw [hk] at hk'; cases hk'
  split at h'
  · cases h'; exact ⟨swept_exp, fun r hr => .inr hr⟩
  · cases h'; exact ⟨swept_exp, fun r hr => .inl (by cases hr; exact error_isError _)⟩
  · next f' hf' =>
    have hv := look_zset hf'
    have hs : a.s.v k = some (.zset f') := by
      rcases exp_at (e := e') (s := a.s) (k := k) with q | q <;> rw [q] at hv
      · exact hv
      · cases hv
    have key : A.zremLoop (args.drop 2) f' 0 = some (f', 0) := by
      split at h
      · next hm => cases h; rw [look_missing hm] at hs; cases hs
      · next hm => cases h; unfold A.look at hm; rw [hs] at hm; cases hm
      · simp only [Option.bind_eq_some_iff] at h
        obtain ⟨⟨z1, n1⟩, h1, h⟩ := h
        cases h
        rw [put_v] at hs
        cases hs
        exact zremLoop_idle _ _ _ (zremLoop_gone _ _ _ h1).1
    simp only [key, Option.bind_some] at h'
    cases h'
    exact ⟨by simp only [put_same' hv]; exact swept_exp, fun r hr => .inr hr⟩

theorem again_set (h : A.set e args s = some a) (h' : A.set e' args a.s = some a') : a'.s = a.s := by
  unfold A.set at h h'
  simp only [Option.bind_eq_bind, Option.bind_eq_some_iff] at h h'
  obtain ⟨k, hk, v, hv, h⟩ := h
  obtain ⟨k', hk', v', hv', h'⟩ := h'
  rw [hk] at hk'; cases hk'
  rw [hv] at hv'; cases hv'
  cases h; cases h'
  simp only [upd_same (upd _ _ _) _ _ (show upd _ _ _ _ = _ from if_pos rfl)]

theorem again_expireAt (h : A.expireAt e args s = some a) (h' : A.expireAt e' args a.s = some a') : a'.s = a.s := by
  unfold A.expireAt at h h'
  simp only [Option.bind_eq_bind, Option.bind_eq_some_iff] at h h'
  obtain ⟨k, hk, v, hv, h⟩ := h
  obtain ⟨k', hk', v', hv', h'⟩ := h'
  rw [hk] at hk'; cases hk'
  rw [hv] at hv'; cases hv'
  split at h
  · next hn => rw [hn] at h'; cases h; cases h'; rfl
  · next n hn =>
    rw [hn] at h'
    cases h; cases h'
    simp only [upd_same (upd _ _ _) _ _ (show upd _ _ _ _ = _ from if_pos rfl)]

/-! ### ZADD -/

/-- The members of a list of scores and members. -/
def seconds : List Bytes → List Bytes
  | _ :: m :: rest => m :: seconds rest
  | _ => []

/-- Every member is named once, and no score is NaN (which is not equal to itself). -/
def Settles (e : Env) : List Bytes → Prop
  | sc :: m :: rest => (∀ x, e.parseFloat sc = some x → x.eq x = true) ∧ m ∉ seconds rest ∧ Settles e rest
  | _ => True

theorem zadd_f {z z' : AZ} {lv : Nat} {x : F64} {m : Bytes} {b : Bool} (h : AZ.add z lv x m = some (b, z')) (hx : x.eq x = true) :
    (∃ v, z'.f m = some v ∧ x.eq v = true) ∧ ∀ y, y ≠ m → z'.f y = z.f y := by
  have other : ∀ {f : Fn F64} {v : Option F64} y, y ≠ m → upd f m v y = f y := fun y hy => by
    unfold upd; rw [if_neg (fun h => hy h.symm)]
  have self : ∀ {f : Fn F64} {v : Option F64}, upd f m v m = v := fun {f v} => by unfold upd; rw [if_pos rfl]
  unfold AZ.add at h
  split at h
  · next v hv =>
    split at h
    · simp only [Option.bind_eq_bind, Option.bind_eq_some_iff] at h
      obtain ⟨_, _, _, _, h⟩ := h
      cases h
      exact ⟨⟨x, self, hx⟩, other⟩
    · next hne =>
      cases h
      exact ⟨⟨v, hv, by simpa using hne⟩, fun _ _ => rfl⟩
  · simp only [Option.bind_eq_bind, Option.bind_eq_some_iff] at h
    obtain ⟨_, _, h⟩ := h
    cases h
    exact ⟨⟨x, self, hx⟩, other⟩

theorem zaddLoop_other : ∀ (l : List Bytes) (i : Nat) (z : AZ) (c : Nat) {z' n c' b}, Settles e l → A.zaddLoop e l i z c = some (z', n, c', b) → ∀ y, y ∉ seconds l → z'.f y = z.f y
  | [], i, z, c, z', n, c', b, _, h, y, _ => by cases h; rfl
  | [_], i, z, c, z', n, c', b, _, h, y, _ => by cases h; rfl
  | sc :: m :: rest, i, z, c, z', n, c', b, hs, h, y, hy => by
    obtain ⟨s1, s2, s3⟩ := hs
    simp only [seconds, List.mem_cons, not_or] at hy
    unfold A.zaddLoop at h
    split at h
    · cases h; rfl
    · next x hx =>
      simp only [Option.bind_eq_bind, Option.bind_eq_some_iff] at h
      obtain ⟨⟨nw, z1⟩, h1, h2⟩ := h
      rw [zaddLoop_other rest _ _ _ s3 h2 y hy.2]
      exact (zadd_f h1 (s1 x hx)).2 y hy.1

theorem zaddLoop_again (hp : e'.parseFloat = e.parseFloat) : ∀ (l : List Bytes) (i : Nat) (z : AZ) (c : Nat) {z' n c' b}, Settles e l → A.zaddLoop e l i z c = some (z', n, c', b) →
    ∀ c2, A.zaddLoop e' l i z' c2 = some (z', n, c2, b)
  | [], i, z, c, z', n, c', b, _, h, c2 => by cases h; rfl
  | [_], i, z, c, z', n, c', b, _, h, c2 => by cases h; rfl
  | sc :: m :: rest, i, z, c, z', n, c', b, hs, h, c2 => by
    obtain ⟨s1, s2, s3⟩ := hs
    unfold A.zaddLoop at h ⊢
    rw [hp]
    cases hx : e.parseFloat sc with
    | none => rw [hx] at h; cases h; rfl
    | some x =>
      rw [hx] at h
      simp only [Option.bind_eq_bind, Option.bind_eq_some_iff] at h
      obtain ⟨⟨nw, z1⟩, h1, h2⟩ := h
      obtain ⟨v, hv, hxv⟩ := (zadd_f h1 (s1 x hx)).1
      have hz : z'.f m = some v := by rw [zaddLoop_other rest _ _ _ s3 h2 m s2]; exact hv
      have ha : AZ.add z' (e'.level i) x m = some (false, z') := by
        unfold AZ.add
        rw [hz]
        simp [hxv]
      simp only [ha, Option.bind_eq_bind, Option.bind_some]
      exact zaddLoop_again hp rest _ _ _ s3 h2 c2

theorem again_zadd (hp : e'.parseFloat = e.parseFloat) (hs : Settles e (args.drop 2)) (h : A.zadd e args s = some a) (h' : A.zadd e' args a.s = some a') : Idle e' a a' := by
  unfold A.zadd at h h'
  by_cases hl : args.length % 2 ≠ 0
  · rw [if_pos hl] at h'; cases h'
    exact ⟨swept_refl, fun r hr => .inl (by cases hr; exact error_isError _)⟩
  · rw [if_neg hl] at h h'
    simp only [Option.bind_eq_bind, Option.bind_eq_some_iff] at h h'
    obtain ⟨k, hk, h⟩ := h
    obtain ⟨k', hk', h'⟩ := h'
    rw [hk] at hk'; cases hk'
    split at h
    · next hn =>
      cases h
      rw [orNew_none rfl hn] at h'
      simp only [hn, orNew_none rfl hn] at h'
      cases h'
      exact ⟨by simp only [orNew_none rfl hn]; exact swept_refl, fun r hr => .inl (by cases hr; exact error_isError _)⟩
    · next z hz =>
      simp only [Option.bind_eq_some_iff] at h
      obtain ⟨⟨z1, n, c, b⟩, h1, h2⟩ := h
      have ag := zaddLoop_again hp _ _ _ _ hs h1 0
      cases b with
      | none =>
        cases h2
        simp only [orNew_some put_v, AObj.asZset, ag, Option.bind_some] at h'
        cases h'
        exact ⟨by simp only [put_same' put_v]; exact swept_refl, fun r hr => .inr hr⟩
      | some sc =>
        cases h2
        simp only [orNew_some put_v, AObj.asZset, ag, Option.bind_some] at h'
        cases h'
        exact ⟨by simp only [put_same' put_v]; exact swept_refl, fun r hr => .inl (by cases hr; exact error_isError _)⟩

/-! ### Relative deadlines -/

theorem again_expire (h : A.expire e args s = some a) (h' : A.expire e' args a.s = some a') : a'.s.v = a.s.v ∧ ∀ k, args[1]? ≠ some k → a'.s.t k = a.s.t k := by
  unfold A.expire at h h'
  simp only [Option.bind_eq_bind, Option.bind_eq_some_iff] at h h'
  obtain ⟨k, hk, v, hv, h⟩ := h
  obtain ⟨k', hk', v', hv', h'⟩ := h'
  rw [hk] at hk'; cases hk'
  rw [hv] at hv'; cases hv'
  split at h
  · next hn => rw [hn] at h'; cases h; cases h'; exact ⟨rfl, fun _ _ => rfl⟩
  · next n hn =>
    rw [hn] at h'
    cases h; cases h'
    exact ⟨rfl, fun x hx => if_neg fun q => hx (by rw [hk, q])⟩

theorem again_setEx (h : A.setEx e args s = some a) (h' : A.setEx e' args a.s = some a') : a'.s.v = a.s.v ∧ ∀ k, args[1]? ≠ some k → a'.s.t k = a.s.t k := by
  unfold A.setEx at h h'
  simp only [Option.bind_eq_bind, Option.bind_eq_some_iff] at h h'
  obtain ⟨k, hk, v, hv, n, hn, h⟩ := h
  obtain ⟨k', hk', v', hv', n', hn', h'⟩ := h'
  rw [hk] at hk'; cases hk'
  rw [hv] at hv'; cases hv'
  rw [hn] at hn'; cases hn'
  split at h
  · next hn => rw [hn] at h'; cases h; cases h'; exact ⟨rfl, fun _ _ => rfl⟩
  · next n hn =>
    rw [hn] at h'
    cases h; cases h'
    exact ⟨upd_same (upd _ _ _) _ _ (show upd _ _ _ _ = _ from if_pos rfl), fun x hx => if_neg fun q => hx (by rw [hk, q])⟩

/-! ### One request after the other -/

/-- Commands that do nothing the second time. -/
def settled : Cmd → Bool
  | .set | .expireat | .hset | .hdel | .sadd | .srem | .zrem => true
  | _ => false

theorem again {c : Cmd} (h : AStep e args s c a) (h' : AStep e' args a.s c a') (hc : settled c = true ∨ (c = .zadd ∧ e'.parseFloat = e.parseFloat ∧ Settles e (args.drop 2))) :
    Swept e' a.s a'.s ∧ (c ≠ .set → c ≠ .expireat → ∀ r, a'.reply r → isError r ∨ r = Reply.int 0) := by
  cases h with
  | randomget => rcases hc with hc | ⟨hc, _⟩ <;> cases hc
  | spop => rcases hc with hc | ⟨hc, _⟩ <;> cases hc
  | spopEmpty => rcases hc with hc | ⟨hc, _⟩ <;> cases hc
  | det hf h =>
    cases h' with
    | randomget => cases hf
    | spop => cases hf
    | spopEmpty => cases hf
    | det hf' h' =>
      rw [hf] at hf'
      cases hf'
      have idle : Idle e' a a' → _ := fun q => (⟨q.1, fun _ _ => q.2⟩ : Swept e' a.s a'.s ∧ (c ≠ .set → c ≠ .expireat → ∀ r, a'.reply r → isError r ∨ r = Reply.int 0))
      rcases hc with hc | ⟨rfl, hp, hs⟩
      · cases c <;> first | (cases hc; done) | cases hf
        · rw [again_expireAt h h']; exact ⟨swept_refl, fun _ q => absurd rfl q⟩
        · rw [again_set h h']; exact ⟨swept_refl, fun q => absurd rfl q⟩
        · exact idle (again_hset h h')
        · exact idle (again_hdel h h')
        · exact idle (again_sadd h h')
        · exact idle (again_srem h h')
        · exact idle (again_zrem h h')
      · cases hf
        exact idle (again_zadd hp hs h h')

theorem feed_dbs {e : Env} {n : Bytes} {i : Nat} {args : List Bytes} {srv srv' : Server} (h : Aof.feed e n i args srv = some srv') :
    srv'.dbs = srv.dbs ∧ srv'.password = srv.password := by
  unfold Aof.feed at h
  simp only [Option.bind_eq_bind, Option.bind_eq_some_iff] at h
  obtain ⟨_, _, h⟩ := h
  cases h
  exact ⟨rfl, rfl⟩

/-- One request on a database: refused, or the abstract step on the selected one. -/
theorem one_request {s s' : Sys} {r : List Bytes} {fd : Nat} {cmd : Cmd} {f} (g : SysGood hash s) (he : e.hash = hash) (hcmd : commandOf e args = some cmd) (hf : dbProc cmd = some f)
    (h : Sys.step s (.request fd e args) = some (s', r)) :
    ∃ c, s.sess fd = some c ∧ s'.sess = s.sess ∧ s'.srv.password = s.srv.password ∧
      (((Server.badArity args.length (arity cmd) = true ∨ (s.srv.password ≠ [] ∧ c.auth = false ∧ cmd ≠ .auth)) ∧ s'.srv = s.srv ∧ isError r) ∨
        (Server.badArity args.length (arity cmd) = false ∧ (s.srv.password = [] ∨ c.auth = true) ∧ ∃ d d' a, s.srv.dbs[c.db]? = some d ∧ s'.srv.dbs = s.srv.dbs.set c.db d' ∧
          AStep e args d.view cmd a ∧ d'.view = a.s ∧ a.reply r)) := by
  simp only [Sys.step, Option.bind_eq_bind, Option.bind_eq_some_iff] at h
  obtain ⟨c, hc, ⟨srv', c', r'⟩, h1, h2⟩ := h
  cases h2
  have sess : (fun x => if x = fd then some c else s.sess x) = s.sess := by
    funext x
    split
    · next hx => rw [hx, hc]
    · rfl
  have is_cmd : ∀ {a0 : Bytes} {ce : CmdEntry}, args[0]? = some a0 → lookupCommand (e.lower a0) = some ce → ce.proc = cmd := by
    intro a0 ce ha hl
    have := commandOf_of ha hl
    rw [hcmd] at this
    exact (Option.some.inj this).symm
  refine ⟨c, hc, ?_⟩
  cases served he g.srv h1 with
  | unknown _ a0 ha hl =>
    unfold commandOf at hcmd
    rw [ha] at hcmd
    simp only [Option.bind_some] at hcmd
    rw [← lookup_named, hl] at hcmd
    cases hcmd
  | rejected _ a0 ha ce hl hr hx =>
    refine ⟨sess, rfl, .inl ⟨?_, rfl, hx⟩⟩
    have hm := is_cmd ha hl
    rw [table_arity ce (lookup_mem hl).1, hm] at hr
    exact hr
  | select a0 ha ce hl hp => rw [is_cmd ha hl] at hp; subst hp; cases hf
  | auth a0 ha ce hl hp => rw [is_cmd ha hl] at hp; subst hp; cases hf
  | rewrite a0 ha ce hl hp => rw [is_cmd ha hl] at hp; subst hp; cases hf
  | db a0 ha ce hl hok hauth f hf d0 hd o ho a hst hrel srv' hfeed =>
    rw [is_cmd ha hl] at hst hok
    have hdb : srv'.dbs = s.srv.dbs.set c.db o.db ∧ srv'.password = s.srv.password := by
      split at hfeed
      · exact feed_dbs hfeed
      · cases hfeed; exact ⟨rfl, rfl⟩
    exact ⟨sess, hdb.2, .inr ⟨hok, hauth, d0, o.db, a, hd, hdb.1, hst, hrel.view, hrel.reply⟩⟩

/-- The same request once more: refused both times, or twice the abstract step on the same database. -/
theorem two_requests {s s1 s2 : Sys} {r1 r2 : List Bytes} {fd : Nat} {cmd : Cmd} {f} (g : SysGood hash s) (he : e.hash = hash) (he' : e'.hash = hash)
    (hcmd : commandOf e args = some cmd) (hcmd' : commandOf e' args = some cmd) (hf : dbProc cmd = some f)
    (h : Sys.step s (.request fd e args) = some (s1, r1)) (h' : Sys.step s1 (.request fd e' args) = some (s2, r2)) :
    s2.sess = s1.sess ∧ ((s2.srv = s1.srv ∧ isError r2) ∨ ∃ (i : Nat) (d1 d2 : Db) (s0 : AS) (a a' : AOut), s1.srv.dbs[i]? = some d1 ∧ s2.srv.dbs = s1.srv.dbs.set i d2 ∧
      AStep e args s0 cmd a ∧ d1.view = a.s ∧ AStep e' args a.s cmd a' ∧ d2.view = a'.s ∧ a'.reply r2) := by
  have g1 := (step_db g (show EvOk hash (.request fd e args) from he) h).1
  obtain ⟨c, hc, hs, hpw, q⟩ := one_request g he hcmd hf h
  obtain ⟨c', hc', hs', hpw', q'⟩ := one_request g1 he' hcmd' hf h'
  rw [hs, hc] at hc'; cases hc'
  refine ⟨hs', ?_⟩
  rcases q' with ⟨_, p2, p3⟩ | ⟨p1, p2, d1, d2, a', p3, p4, p5, p6, p7⟩
  · exact .inl ⟨p2, p3⟩
  · rcases q with ⟨n1, _⟩ | ⟨_, _, d, d1', a, n3, n4, n5, n6, _⟩
    · rcases n1 with n1 | ⟨n1, n2, _⟩
      · rw [p1] at n1; cases n1
      · rw [hpw] at p2
        rcases p2 with p2 | p2
        · exact absurd p2 n1
        · rw [n2] at p2; cases p2
    · have hlt := (List.getElem?_eq_some_iff.1 n3).1
      rw [n4, List.getElem?_set_self hlt] at p3
      cases p3
      rw [n6] at p5
      exact .inr ⟨c.db, d1, d2, _, a, a', by rw [n4, List.getElem?_set_self hlt], p4, n5, n6, p5, p6, p7⟩

end Metis.RepeatSim
