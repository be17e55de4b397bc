import Verif.Proofs.Sys
import Verif.Proofs.ZsetWeak
import Verif.Proofs.ZSim
import Verif.Proofs.AofLoad
/-!
Executing a command a second time, with another clock and other random numbers, on a copy of the database: the result is again a copy.
-/
set_option linter.unusedSectionVars false
set_option linter.unusedSimpArgs false
set_option linter.unusedVariables false
namespace Metis
open Spec
variable {hash : Bytes → Nat}

/-- To the second. -/
def fl (d : Int) : Int := d / 1000 * 1000

/-- The same value, except that the skiplist of a sorted set may have another shape. -/
inductive OSame : AObj → AObj → Prop
  | str (s) : OSame (.str s) (.str s)
  | list (q) : OSame (.list q) (.list q)
  | hash (f) : OSame (.hash f) (.hash f)
  | set (f) : OSame (.set f) (.set f)
  | zset {z z' : AZ} (h : ZSim z z') : OSame (.zset z) (.zset z')

def VSame : Option AObj → Option AObj → Prop
  | none, none => True
  | some o, some o' => OSame o o'
  | _, _ => False

/-- `s2` is a copy of `s` with deadlines to the second, and none of these is before `T`. -/
structure Sim (T : Int) (s s2 : AS) : Prop where
  v : ∀ k, VSame (s.v k) (s2.v k)
  t : ∀ k, s2.t k = (s.t k).map fl
  live : ∀ k d, s.t k = some d → T ≤ fl d

theorem fl_le (d : Int) : fl d ≤ d := by unfold fl; omega

theorem Sim.fresh1 {T : Int} {s s2 : AS} (h : Sim T s s2) {e : Env} (he : e.now ≤ T) (k : Bytes) : A.expired e s k = false := by
  unfold A.expired
  cases hd : s.t k with
  | none => rfl
  | some d => have := h.live k d hd; have := fl_le d; simp; omega

theorem Sim.fresh2 {T : Int} {s s2 : AS} (h : Sim T s s2) {e : Env} (he : e.now ≤ T) (k : Bytes) : A.expired e s2 k = false := by
  unfold A.expired
  rw [h.t k]
  cases hd : s.t k with
  | none => rfl
  | some d => have := h.live k d hd; simp; omega

theorem exp_fresh {e : Env} {s : AS} {k : Bytes} (h : A.expired e s k = false) : A.exp e s k = s := by
  unfold A.exp; rw [h]; simp

theorem Sim.put {T : Int} {s s2 : AS} (h : Sim T s s2) (k : Bytes) {o o2 : AObj} (ho : OSame o o2) : Sim T (A.put s k o) (A.put s2 k o2) := by
  refine ⟨fun x => ?_, h.t, h.live⟩
  simp only [A.put, upd]
  split
  · exact ho
  · exact h.v x

theorem swept_fresh {e : Env} {s s' : AS} (h : Swept e s s') (hf : ∀ k, A.expired e s k = false) : s' = s := by
  cases s with | mk v t => cases s' with | mk v' t' =>
  have h1 : v' = v := by funext k; rcases h k with ⟨h, _⟩ | ⟨h, _⟩; exacts [h, by rw [hf k] at h; cases h]
  have h2 : t' = t := by funext k; rcases h k with ⟨_, h⟩ | ⟨h, _⟩; exacts [h, by rw [hf k] at h; cases h]
  rw [h1, h2]

/-- What stands under `k` in both. -/
theorem Sim.cases {T : Int} {s s2 : AS} (h : Sim T s s2) (k : Bytes) :
    (s.v k = none ∧ s2.v k = none) ∨ (∃ z z', s.v k = some (.zset z) ∧ s2.v k = some (.zset z') ∧ ZSim z z') ∨
      (∃ o, s.v k = some o ∧ s2.v k = some o ∧ OSame o o ∧ ∀ z, o ≠ .zset z) := by
  have := h.v k
  cases h1 : s.v k with
  | none =>
    cases h2 : s2.v k with
    | none => exact Or.inl ⟨rfl, rfl⟩
    | some o => rw [h1, h2] at this; exact this.elim
  | some o =>
    cases h2 : s2.v k with
    | none => rw [h1, h2] at this; exact this.elim
    | some o' =>
      rw [h1, h2] at this
      cases this with
      | zset h => exact Or.inr (Or.inl ⟨_, _, rfl, rfl, h⟩)
      | _ => exact Or.inr (Or.inr ⟨_, rfl, rfl, by constructor, by simp⟩)

/-- The commands that are logged as they are and give the same result again. -/
def repeats : Cmd → Bool
  | .set | .hset | .hdel | .lpush | .rpush | .lpop | .rpop | .sadd | .srem | .zadd | .zrem | .zremrangebyscore | .zremrangebyrank => true
  | _ => false

theorem look_same {β : Type} {as : AObj → Option β} {s s2 : AS} {k : Bytes} (h : s2.v k = s.v k) : A.look as s2 k = A.look as s k := by
  unfold A.look; rw [h]

theorem sim_put_put {s : AS} {k : Bytes} {o o' : AObj} : A.put (A.put s k o) k o' = A.put s k o' := by
  unfold A.put upd
  congr 1
  funext x
  simp only
  split <;> rfl

section
variable {T : Int} {s s2 : AS} {e e2 : Env} {args : List Bytes} {a : AOut}

theorem sim_set (h : Sim T s s2) (ha : A.set e args s = some a) : ∃ a2, A.set e2 args s2 = some a2 ∧ Sim T a.s a2.s := by
  simp only [A.set, Option.bind_eq_bind, Option.bind_eq_some_iff] at ha ⊢
  obtain ⟨k, h1, v, h2, h3⟩ := ha
  cases h3
  refine ⟨_, ⟨k, h1, v, h2, rfl⟩, fun x => ?_, fun x => ?_, fun x d hd => ?_⟩
  · simp only [upd]; split
    · exact .str _
    · exact h.v x
  · simp only [upd]; split
    · rfl
    · exact h.t x
  · simp only [upd] at hd; split at hd
    · cases hd
    · exact h.live x d hd

theorem sim_hset (h : Sim T s s2) (ha : A.hset e args s = some a) : ∃ a2, A.hset e2 args s2 = some a2 ∧ Sim T a.s a2.s := by
  unfold A.hset at ha ⊢
  split at ha
  · next hc => cases ha; rw [if_pos hc]; exact ⟨_, rfl, h⟩
  · next hc =>
    rw [if_neg hc]
    cases hk : args[1]? with
    | none => rw [hk] at ha; cases ha
    | some key =>
      rw [hk] at ha
      rcases h.cases key with ⟨h1, h2⟩ | ⟨z, z', h1, h2, hf⟩ | ⟨o, h1, h2, ho, hz⟩
      · simp only [Option.bind_eq_bind, Option.bind_some, A.orNew, h1, h2, AObj.asHash, Option.some.injEq] at ha ⊢
        subst ha
        refine ⟨_, rfl, ?_⟩
        simp only [sim_put_put]
        exact h.put _ (.hash _)
      · simp only [Option.bind_eq_bind, Option.bind_some, A.orNew, h1, h2, AObj.asHash, Option.some.injEq] at ha ⊢
        subst ha
        exact ⟨_, rfl, h⟩
      · cases o <;> simp only [Option.bind_eq_bind, Option.bind_some, A.orNew, h1, h2, AObj.asHash, Option.some.injEq] at ha ⊢ <;> subst ha
        case hash => exact ⟨_, rfl, h.put _ (.hash _)⟩
        all_goals exact ⟨_, rfl, h⟩

theorem sim_sadd (h : Sim T s s2) (ha : A.sadd e args s = some a) : ∃ a2, A.sadd e2 args s2 = some a2 ∧ Sim T a.s a2.s := by
  unfold A.sadd at ha ⊢
  cases hk : args[1]? with
  | none => rw [hk] at ha; cases ha
  | some key =>
    rw [hk] at ha
    rcases h.cases key with ⟨h1, h2⟩ | ⟨z, z', h1, h2, hf⟩ | ⟨o, h1, h2, ho, hz⟩
    · simp only [Option.bind_eq_bind, Option.bind_some, A.orNew, h1, h2, AObj.asSet, Option.some.injEq] at ha ⊢
      subst ha
      refine ⟨_, rfl, ?_⟩
      simp only [sim_put_put]
      exact h.put _ (.set _)
    · simp only [Option.bind_eq_bind, Option.bind_some, A.orNew, h1, h2, AObj.asSet, Option.some.injEq] at ha ⊢
      subst ha
      exact ⟨_, rfl, h⟩
    · cases o <;> simp only [Option.bind_eq_bind, Option.bind_some, A.orNew, h1, h2, AObj.asSet, Option.some.injEq] at ha ⊢ <;> subst ha
      case set => exact ⟨_, rfl, h.put _ (.set _)⟩
      all_goals exact ⟨_, rfl, h⟩

theorem sim_lpush (h : Sim T s s2) (ha : A.lpush e args s = some a) : ∃ a2, A.lpush e2 args s2 = some a2 ∧ Sim T a.s a2.s := by
  unfold A.lpush at ha ⊢
  cases hk : args[1]? with
  | none => rw [hk] at ha; cases ha
  | some key =>
    rw [hk] at ha
    rcases h.cases key with ⟨h1, h2⟩ | ⟨z, z', h1, h2, hf⟩ | ⟨o, h1, h2, ho, hz⟩
    · simp only [Option.bind_eq_bind, Option.bind_some, A.orNew, h1, h2, AObj.asList, Option.bind_eq_some_iff] at ha ⊢
      obtain ⟨q, hq, ha⟩ := ha
      cases ha
      refine ⟨_, ⟨q, hq, rfl⟩, ?_⟩
      simp only [sim_put_put]
      exact h.put _ (.list _)
    · simp only [Option.bind_eq_bind, Option.bind_some, A.orNew, h1, h2, AObj.asList, Option.some.injEq] at ha ⊢
      subst ha
      exact ⟨_, rfl, h⟩
    · cases o with
      | list q0 =>
        simp only [Option.bind_eq_bind, Option.bind_some, A.orNew, h1, h2, AObj.asList, Option.bind_eq_some_iff] at ha ⊢
        obtain ⟨q, hq, ha⟩ := ha
        cases ha
        exact ⟨_, ⟨q, hq, rfl⟩, h.put _ (.list _)⟩
      | _ =>
        simp only [Option.bind_eq_bind, Option.bind_some, A.orNew, h1, h2, AObj.asList, Option.some.injEq] at ha ⊢
        subst ha
        exact ⟨_, rfl, h⟩

theorem sim_rpush (h : Sim T s s2) (ha : A.rpush e args s = some a) : ∃ a2, A.rpush e2 args s2 = some a2 ∧ Sim T a.s a2.s := by
  unfold A.rpush at ha ⊢
  cases hk : args[1]? with
  | none => rw [hk] at ha; cases ha
  | some key =>
    rw [hk] at ha
    rcases h.cases key with ⟨h1, h2⟩ | ⟨z, z', h1, h2, hf⟩ | ⟨o, h1, h2, ho, hz⟩
    · simp only [Option.bind_eq_bind, Option.bind_some, A.orNew, h1, h2, AObj.asList, Option.some.injEq] at ha ⊢
      subst ha
      refine ⟨_, rfl, ?_⟩
      simp only [sim_put_put]
      exact h.put _ (.list _)
    · simp only [Option.bind_eq_bind, Option.bind_some, A.orNew, h1, h2, AObj.asList, Option.some.injEq] at ha ⊢
      subst ha
      exact ⟨_, rfl, h⟩
    · cases o <;> simp only [Option.bind_eq_bind, Option.bind_some, A.orNew, h1, h2, AObj.asList, Option.some.injEq] at ha ⊢ <;> subst ha
      case list => exact ⟨_, rfl, h.put _ (.list _)⟩
      all_goals exact ⟨_, rfl, h⟩

theorem sim_zadd (h : Sim T s s2) (hp : e2.parseFloat = e.parseFloat) (l1 : LevelsOk e.level) (l2 : LevelsOk e2.level) (hn : NoNaN e args) (ha : A.zadd e args s = some a) :
    ∃ a2, A.zadd e2 args s2 = some a2 ∧ Sim T a.s a2.s := by
  unfold A.zadd at ha ⊢
  split at ha
  · next hc => cases ha; rw [if_pos hc]; exact ⟨_, rfl, h⟩
  · next hc =>
    rw [if_neg hc]
    cases hk : args[1]? with
    | none => rw [hk] at ha; cases ha
    | some k =>
      rw [hk] at ha
      rcases h.cases k with ⟨h1, h2⟩ | ⟨z, z', h1, h2, hf⟩ | ⟨o, h1, h2, ho, hz⟩
      · simp only [Option.bind_eq_bind, Option.bind_some, A.orNew, h1, h2, AObj.asZset] at ha ⊢
        obtain ⟨y, y', j, c, bad, q1, q2, q3⟩ := zaddLoop_pair hp l1 l2 (args.drop 2) 0 0 (fun w hw => hn w (List.mem_of_mem_drop hw)) zsim_new
        rw [q1] at ha
        rw [q2]
        cases bad <;> cases ha <;> exact ⟨_, rfl, by simp only [sim_put_put]; exact h.put _ (.zset q3)⟩
      · simp only [Option.bind_eq_bind, Option.bind_some, A.orNew, h1, h2, AObj.asZset] at ha ⊢
        obtain ⟨y, y', j, c, bad, q1, q2, q3⟩ := zaddLoop_pair hp l1 l2 (args.drop 2) 0 0 (fun w hw => hn w (List.mem_of_mem_drop hw)) hf
        rw [q1] at ha
        rw [q2]
        cases bad <;> cases ha <;> exact ⟨_, rfl, h.put _ (.zset q3)⟩
      · cases o with
        | zset z => exact absurd rfl (hz z)
        | _ =>
          simp only [Option.bind_eq_bind, Option.bind_some, A.orNew, h1, h2, AObj.asZset, Option.some.injEq] at ha ⊢
          subst ha
          exact ⟨_, rfl, h⟩

variable (he : e.now ≤ T) (he2 : e2.now ≤ T)
include he he2

theorem sim_hdel (h : Sim T s s2) (ha : A.hdel e args s = some a) : ∃ a2, A.hdel e2 args s2 = some a2 ∧ Sim T a.s a2.s := by
  unfold A.hdel at ha ⊢
  cases hk : args[1]? with
  | none => rw [hk] at ha; cases ha
  | some key =>
    rw [hk] at ha
    simp only [Option.bind_eq_bind, Option.bind_some, exp_fresh (h.fresh1 he key), exp_fresh (h.fresh2 he2 key)] at ha ⊢
    rcases h.cases key with ⟨h1, h2⟩ | ⟨z, z', h1, h2, hf⟩ | ⟨o, h1, h2, ho, hz⟩
    · simp only [A.look, h1, h2, Option.some.injEq] at ha ⊢
      subst ha
      exact ⟨_, rfl, h⟩
    · simp only [A.look, h1, h2, AObj.asHash, Option.some.injEq] at ha ⊢
      subst ha
      exact ⟨_, rfl, h⟩
    · cases o <;> simp only [A.look, h1, h2, AObj.asHash, Option.some.injEq] at ha ⊢ <;> subst ha
      case hash => exact ⟨_, rfl, h.put _ (.hash _)⟩
      all_goals exact ⟨_, rfl, h⟩

theorem sim_srem (h : Sim T s s2) (ha : A.srem e args s = some a) : ∃ a2, A.srem e2 args s2 = some a2 ∧ Sim T a.s a2.s := by
  unfold A.srem at ha ⊢
  cases hk : args[1]? with
  | none => rw [hk] at ha; cases ha
  | some key =>
    rw [hk] at ha
    simp only [Option.bind_eq_bind, Option.bind_some, exp_fresh (h.fresh1 he key), exp_fresh (h.fresh2 he2 key)] at ha ⊢
    rcases h.cases key with ⟨h1, h2⟩ | ⟨z, z', h1, h2, hf⟩ | ⟨o, h1, h2, ho, hz⟩
    · simp only [A.look, h1, h2, Option.some.injEq] at ha ⊢
      subst ha
      exact ⟨_, rfl, h⟩
    · simp only [A.look, h1, h2, AObj.asSet, Option.some.injEq] at ha ⊢
      subst ha
      exact ⟨_, rfl, h⟩
    · cases o <;> simp only [A.look, h1, h2, AObj.asSet, Option.some.injEq] at ha ⊢ <;> subst ha
      case set => exact ⟨_, rfl, h.put _ (.set _)⟩
      all_goals exact ⟨_, rfl, h⟩

theorem sim_pop {pop} (h : Sim T s s2) (ha : A.popCmd pop e args s = some a) : ∃ a2, A.popCmd pop e2 args s2 = some a2 ∧ Sim T a.s a2.s := by
  unfold A.popCmd at ha ⊢
  cases hk : args[1]? with
  | none => rw [hk] at ha; cases ha
  | some key =>
    rw [hk] at ha
    simp only [Option.bind_eq_bind, Option.bind_some, exp_fresh (h.fresh1 he key), exp_fresh (h.fresh2 he2 key)] at ha ⊢
    rcases h.cases key with ⟨h1, h2⟩ | ⟨z, z', h1, h2, hf⟩ | ⟨o, h1, h2, ho, hz⟩
    · simp only [A.look, h1, h2, Option.some.injEq] at ha ⊢
      subst ha
      exact ⟨_, rfl, h⟩
    · simp only [A.look, h1, h2, AObj.asList, Option.some.injEq] at ha ⊢
      subst ha
      exact ⟨_, rfl, h⟩
    · cases o with
      | list q =>
        simp only [A.look, h1, h2, AObj.asList] at ha ⊢
        split at ha
        · next hc => cases ha; rw [if_pos hc]; exact ⟨_, rfl, h⟩
        · next hc =>
          rw [if_neg hc]
          simp only [Option.bind_eq_some_iff] at ha ⊢
          obtain ⟨p, hp, v, hv, ha⟩ := ha
          cases ha
          exact ⟨_, ⟨p, hp, v, hv, rfl⟩, h.put _ (.list _)⟩
      | _ =>
        simp only [A.look, h1, h2, AObj.asList, Option.some.injEq] at ha ⊢
        subst ha
        exact ⟨_, rfl, h⟩

theorem sim_zrem (h : Sim T s s2) (ha : A.zrem e args s = some a) : ∃ a2, A.zrem e2 args s2 = some a2 ∧ Sim T a.s a2.s := by
  unfold A.zrem at ha ⊢
  cases hk : args[1]? with
  | none => rw [hk] at ha; cases ha
  | some key =>
    rw [hk] at ha
    simp only [Option.bind_eq_bind, Option.bind_some, exp_fresh (h.fresh1 he key), exp_fresh (h.fresh2 he2 key)] at ha ⊢
    rcases h.cases key with ⟨h1, h2⟩ | ⟨z, z', h1, h2, hf⟩ | ⟨o, h1, h2, ho, hz⟩
    · simp only [A.look, h1, h2, Option.some.injEq] at ha ⊢
      subst ha
      exact ⟨_, rfl, h⟩
    · simp only [A.look, h1, h2, AObj.asZset, Option.bind_eq_some_iff] at ha ⊢
      obtain ⟨⟨w, n⟩, hw, ha⟩ := ha
      cases ha
      obtain ⟨y, y', m, q1, q2, q3⟩ := zremLoop_pair (args.drop 2) 0 hf
      rw [hw] at q1; cases q1
      exact ⟨_, ⟨(y', n), q2, rfl⟩, h.put _ (.zset q3)⟩
    · cases o with
      | zset z => exact absurd rfl (hz z)
      | _ =>
        simp only [A.look, h1, h2, AObj.asZset, Option.some.injEq] at ha ⊢
        subst ha
        exact ⟨_, rfl, h⟩

theorem sim_zremscore (h : Sim T s s2) (hp : e2.parseFloat = e.parseFloat) (hn : NoNaN e args) (ha : A.zremRangeByScore e args s = some a) :
    ∃ a2, A.zremRangeByScore e2 args s2 = some a2 ∧ Sim T a.s a2.s := by
  unfold A.zremRangeByScore at ha ⊢
  rw [hp]
  cases hk : args[1]? with
  | none => rw [hk] at ha; cases ha
  | some key =>
    cases h3 : args[2]? with
    | none => rw [hk, h3] at ha; cases ha
    | some b1 =>
      rw [hk, h3] at ha
      simp only [Option.bind_eq_bind, Option.bind_some] at ha ⊢
      cases p1 : e.parseFloat b1 with
      | none => rw [p1] at ha; cases ha; exact ⟨_, rfl, h⟩
      | some x1 =>
        rw [p1] at ha
        simp only at ha ⊢
        cases h4 : args[3]? with
        | none => rw [h4] at ha; cases ha
        | some b2 =>
          rw [h4] at ha
          simp only [Option.bind_some] at ha ⊢
          cases p2 : e.parseFloat b2 with
          | none => rw [p2] at ha; cases ha; exact ⟨_, rfl, h⟩
          | some x2 =>
            rw [p2] at ha
            simp only [exp_fresh (h.fresh1 he key), exp_fresh (h.fresh2 he2 key)] at ha ⊢
            rcases h.cases key with ⟨h1, h2⟩ | ⟨z, z', h1, h2, hf⟩ | ⟨o, h1, h2, ho, hz⟩
            · simp only [A.look, h1, h2, Option.some.injEq] at ha ⊢
              subst ha
              exact ⟨_, rfl, h⟩
            · simp only [A.look, h1, h2, AObj.asZset, Option.bind_eq_some_iff] at ha ⊢
              obtain ⟨⟨w, n⟩, hw, ha⟩ := ha
              cases ha
              obtain ⟨es, es', y, y', q1, q2, q3, q4⟩ := hf.remScore (hn b1 (List.mem_of_getElem? h3) x1 p1) (hn b2 (List.mem_of_getElem? h4) x2 p2)
              rw [hw] at q1; cases q1
              exact ⟨_, ⟨_, q2, rfl⟩, h.put _ (.zset q4)⟩
            · cases o with
              | zset z => exact absurd rfl (hz z)
              | _ =>
                simp only [A.look, h1, h2, AObj.asZset, Option.some.injEq] at ha ⊢
                subst ha
                exact ⟨_, rfl, h⟩

theorem sim_zremrank (h : Sim T s s2) (hn : FromFirst args) (ha : A.zremRangeByRank e args s = some a) :
    ∃ a2, A.zremRangeByRank e2 args s2 = some a2 ∧ Sim T a.s a2.s := by
  unfold A.zremRangeByRank at ha ⊢
  cases hk : args[1]? with
  | none => rw [hk] at ha; cases ha
  | some key =>
    cases h3 : args[2]? with
    | none => rw [hk, h3] at ha; cases ha
    | some b1 =>
      rw [hk, h3] at ha
      simp only [Option.bind_eq_bind, Option.bind_some] at ha ⊢
      cases p1 : atoi b1 with
      | none => rw [p1] at ha; cases ha; exact ⟨_, rfl, h⟩
      | some x1 =>
        rw [p1] at ha
        simp only at ha ⊢
        cases h4 : args[3]? with
        | none => rw [h4] at ha; cases ha
        | some b2 =>
          rw [h4] at ha
          simp only [Option.bind_some] at ha ⊢
          cases p2 : atoi b2 with
          | none => rw [p2] at ha; cases ha; exact ⟨_, rfl, h⟩
          | some x2 =>
            rw [p2] at ha
            simp only [exp_fresh (h.fresh1 he key), exp_fresh (h.fresh2 he2 key)] at ha ⊢
            rcases h.cases key with ⟨h1, h2⟩ | ⟨z, z', h1, h2, hf⟩ | ⟨o, h1, h2, ho, hz⟩
            · simp only [A.look, h1, h2, Option.some.injEq] at ha ⊢
              subst ha
              exact ⟨_, rfl, h⟩
            · simp only [A.look, h1, h2, AObj.asZset, Option.bind_eq_some_iff] at ha ⊢
              obtain ⟨⟨w, n⟩, hw, ha⟩ := ha
              cases ha
              obtain ⟨es, es', y, y', q1, q2, q3, q4⟩ := hf.remRank (hn b1 b2 x1 x2 h3 h4 p1 p2) (atoi_lt p1)
              rw [hw] at q1; cases q1
              exact ⟨_, ⟨_, q2, rfl⟩, h.put _ (.zset q4)⟩
            · cases o with
              | zset z => exact absurd rfl (hz z)
              | _ =>
                simp only [A.look, h1, h2, AObj.asZset, Option.some.injEq] at ha ⊢
                subst ha
                exact ⟨_, rfl, h⟩

/-- Repeating one of these commands on a copy. -/
theorem sim_repeat (h : Sim T s s2) (hp : e2.parseFloat = e.parseFloat) (l1 : LevelsOk e.level) (l2 : LevelsOk e2.level) {c : Cmd} {f} (hc : aFn c = some f) (hr : repeats c = true)
    (hn : scoring c = true → NoNaN e args) (hk : c = .zremrangebyrank → FromFirst args) (ha : f e args s = some a) : ∃ a2, f e2 args s2 = some a2 ∧ Sim T a.s a2.s := by
  cases c <;> (first | (cases hr; done) | cases hc)
  case zremrangebyrank => exact sim_zremrank he he2 h (hk rfl) ha
  · exact sim_set h ha
  · exact sim_hset h ha
  · exact sim_hdel he he2 h ha
  · exact sim_lpush h ha
  · exact sim_rpush h ha
  · exact sim_pop he he2 h ha
  · exact sim_pop he he2 h ha
  · exact sim_sadd h ha
  · exact sim_srem he he2 h ha
  · exact sim_zadd h hp l1 l2 (hn rfl) ha
  · exact sim_zrem he he2 h ha
  · exact sim_zremscore he he2 h hp (hn rfl) ha

end

end Metis
