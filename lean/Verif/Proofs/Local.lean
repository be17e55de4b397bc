import Verif.Proofs.Rewrite
/-!
The writing commands look at one key and change one key; on hashes and sets they set or clear the named fields, whatever else is there.
-/
set_option linter.unusedSectionVars false
set_option linter.unusedSimpArgs false
set_option linter.unusedVariables false
namespace Metis
open Spec

/-! ### One key -/

theorem at_self (s : AS) (k : Bytes) : s.at k (s.v k) (s.t k) = s := by
  unfold AS.at; rw [upd_self, upd_self]

theorem at_v (b : AS) (k : Bytes) (v : Option AObj) (t : Option Int) : (b.at k v t).v k = v := by simp [AS.at]
theorem at_t (b : AS) (k : Bytes) (v : Option AObj) (t : Option Int) : (b.at k v t).t k = t := by simp [AS.at]

theorem upd_upd {V : Type} (f : Fn V) (k : Bytes) (a b : Option V) : upd (upd f k a) k b = upd f k b := by
  funext x; simp only [upd]; split <;> rfl

theorem at_put (b : AS) (k : Bytes) (v : Option AObj) (t : Option Int) (o : AObj) : A.put (b.at k v t) k o = b.at k (some o) t := by
  unfold A.put AS.at; rw [upd_upd]

theorem at_orNew_none {β : Type} (as : AObj → Option β) (fresh : AObj) (b : AS) (k : Bytes) (t : Option Int) :
    A.orNew as fresh (b.at k none t) k = (as fresh, b.at k (some fresh) t) := by
  unfold A.orNew; rw [at_v]; simp only [at_put]

theorem at_orNew_some {β : Type} (as : AObj → Option β) (fresh : AObj) (b : AS) (k : Bytes) (t : Option Int) (o : AObj) :
    A.orNew as fresh (b.at k (some o) t) k = (as o, b.at k (some o) t) := by
  unfold A.orNew; rw [at_v]

/-- The cell after `expireIfNeeded`. -/
def freshCell (e : Env) (v : Option AObj) (t : Option Int) : Option AObj × Option Int :=
  match t with
  | some d => if d < e.now then (none, none) else (v, t)
  | none => (v, t)

theorem at_exp (e : Env) (b : AS) (k : Bytes) (v : Option AObj) (t : Option Int) :
    A.exp e (b.at k v t) k = b.at k (freshCell e v t).1 (freshCell e v t).2 := by
  unfold A.exp A.expired freshCell
  rw [at_t]
  cases t with
  | none => rfl
  | some d =>
    by_cases h : d < e.now
    · simp only [h, decide_true, if_true]
      unfold AS.at
      simp only [upd_upd]
    · simp [h]

theorem at_look {β : Type} (as : AObj → Option β) (b : AS) (k : Bytes) (v : Option AObj) (t : Option Int) :
    A.look as (b.at k v t) k = (match v with | none => Db.Look.missing | some o => match as o with | none => .wrong | some x => .found x) := by
  unfold A.look; rw [at_v]
  cases v with
  | none => rfl
  | some o => rfl

/-- `f` acts on the key `k` alone: what it does there depends on what is there. -/
def LocalAt (f : AS → Option AOut) (k : Bytes) : Prop :=
  ∀ v t, ∃ g : Option (Option AObj × Option Int × Nat × (List Bytes → Prop)), ∀ b : AS,
    f (b.at k v t) = g.map (fun r => ⟨b.at k r.1 r.2.1, r.2.2.1, r.2.2.2⟩)

section
variable {e : Env} {args : List Bytes} {k : Bytes} (hk : args[1]? = some k)
include hk

theorem local_set : LocalAt (A.set e args) k := by
  intro v t
  cases h2 : args[2]? with
  | none => exact ⟨none, fun b => by simp [A.set, hk, h2]⟩
  | some w => exact ⟨some (some (.str w), none, 1, A.ex Reply.ok), fun b => by simp [A.set, hk, h2, AS.at, upd_upd]⟩

theorem local_setEx : LocalAt (A.setEx e args) k := by
  intro v t
  cases h3 : args[3]? with
  | none => exact ⟨none, fun b => by simp [A.setEx, hk, h3]⟩
  | some w =>
    cases h2 : args[2]? with
    | none => exact ⟨none, fun b => by simp [A.setEx, hk, h2, h3]⟩
    | some n =>
      cases hn : atoi n with
      | none => exact ⟨some (v, t, 0, _), fun b => by simp only [A.setEx, hk, h2, h3, hn, Option.bind_eq_bind, Option.bind_some, Option.map_some]; rfl⟩
      | some m =>
        exact ⟨some (some (.str w), some (wrap64 (e.now + wrap64 (m * 1000))), 1, A.ex Reply.ok), fun b => by simp [A.setEx, hk, h2, h3, hn, AS.at, upd_upd]⟩

theorem local_expire : LocalAt (A.expire e args) k := by
  intro v t
  cases h2 : args[2]? with
  | none => exact ⟨none, fun b => by simp [A.expire, hk, h2]⟩
  | some n =>
    cases hn : atoi n with
    | none => exact ⟨some (v, t, 0, _), fun b => by simp only [A.expire, hk, h2, hn, Option.bind_eq_bind, Option.bind_some, Option.map_some]; rfl⟩
    | some m => exact ⟨some (v, some (wrap64 (e.now + wrap64 (m * 1000))), 1, A.ex Reply.ok), fun b => by simp [A.expire, hk, h2, hn, AS.at, upd_upd]⟩

theorem local_expireAt : LocalAt (A.expireAt e args) k := by
  intro v t
  cases h2 : args[2]? with
  | none => exact ⟨none, fun b => by simp [A.expireAt, hk, h2]⟩
  | some n =>
    cases hn : atoi n with
    | none => exact ⟨some (v, t, 0, _), fun b => by simp only [A.expireAt, hk, h2, hn, Option.bind_eq_bind, Option.bind_some, Option.map_some]; rfl⟩
    | some m => exact ⟨some (v, some (wrap64 (m * 1000)), 1, A.ex Reply.ok), fun b => by simp [A.expireAt, hk, h2, hn, AS.at, upd_upd]⟩

theorem local_hset : LocalAt (A.hset e args) k := by
  intro v t
  by_cases hl : args.length % 2 ≠ 0
  · exact ⟨some (v, t, 0, _), fun b => by simp only [A.hset, if_pos hl, Option.map_some]; rfl⟩
  · cases v with
    | none => exact ⟨some (_, t, _, _), fun b => by
        simp only [A.hset, if_neg hl, hk, Option.bind_eq_bind, Option.bind_some, at_orNew_none, AObj.asHash, at_put, Option.map_some]; rfl⟩
    | some o =>
      cases o
      case hash c => exact ⟨some (_, t, _, _), fun b => by
        simp only [A.hset, if_neg hl, hk, Option.bind_eq_bind, Option.bind_some, at_orNew_some, AObj.asHash, at_put, Option.map_some]; rfl⟩
      all_goals exact ⟨some (_, t, _, _), fun b => by
        simp only [A.hset, if_neg hl, hk, Option.bind_eq_bind, Option.bind_some, at_orNew_some, AObj.asHash, at_put, Option.map_some]; rfl⟩

theorem local_sadd : LocalAt (A.sadd e args) k := by
  intro v t
  cases v with
  | none => exact ⟨some (_, t, _, _), fun b => by
      simp only [A.sadd, hk, Option.bind_eq_bind, Option.bind_some, at_orNew_none, AObj.asSet, at_put, Option.map_some]; rfl⟩
  | some o =>
    cases o
    all_goals exact ⟨some (_, t, _, _), fun b => by
      simp only [A.sadd, hk, Option.bind_eq_bind, Option.bind_some, at_orNew_some, AObj.asSet, at_put, Option.map_some]; rfl⟩

theorem local_rpush : LocalAt (A.rpush e args) k := by
  intro v t
  cases v with
  | none => exact ⟨some (_, t, _, _), fun b => by
      simp only [A.rpush, hk, Option.bind_eq_bind, Option.bind_some, at_orNew_none, AObj.asList, at_put, Option.map_some]; rfl⟩
  | some o =>
    cases o
    all_goals exact ⟨some (_, t, _, _), fun b => by
      simp only [A.rpush, hk, Option.bind_eq_bind, Option.bind_some, at_orNew_some, AObj.asList, at_put, Option.map_some]; rfl⟩

theorem local_lpush : LocalAt (A.lpush e args) k := by
  intro v t
  have go : ∀ q : Quicklist Bytes, ∃ g : Option (Option AObj × Option Int × Nat × (List Bytes → Prop)), ∀ b : AS,
      ((Cmds.lpushLoop (args.drop 2) q).bind (fun q => some (AOut.mk (b.at k (some (.list q)) t) (args.drop 2).length (A.ex (Reply.int (Quicklist.len q)))))) =
        g.map (fun r => ⟨b.at k r.1 r.2.1, r.2.2.1, r.2.2.2⟩) := by
    intro q
    cases Cmds.lpushLoop (args.drop 2) q with
    | none => exact ⟨none, fun b => rfl⟩
    | some q' => exact ⟨some (_, t, _, _), fun b => by simp only [Option.bind_some, Option.map_some]; rfl⟩
  cases v with
  | none =>
    obtain ⟨g, hg⟩ := go Quicklist.new
    exact ⟨g, fun b => by
      simp only [A.lpush, hk, Option.bind_eq_bind, Option.bind_some, at_orNew_none, AObj.asList, at_put]
      exact hg b⟩
  | some o =>
    cases o
    case list q =>
      obtain ⟨g, hg⟩ := go q
      exact ⟨g, fun b => by
        simp only [A.lpush, hk, Option.bind_eq_bind, Option.bind_some, at_orNew_some, AObj.asList, at_put]
        exact hg b⟩
    all_goals exact ⟨some (_, t, _, _), fun b => by
      simp only [A.lpush, hk, Option.bind_eq_bind, Option.bind_some, at_orNew_some, AObj.asList, at_put, Option.map_some]; rfl⟩

theorem local_zadd : LocalAt (A.zadd e args) k := by
  intro v t
  by_cases hl : args.length % 2 ≠ 0
  · exact ⟨some (v, t, 0, _), fun b => by simp only [A.zadd, if_pos hl, Option.map_some]; rfl⟩
  · have go : ∀ z : AZ, ∃ g : Option (Option AObj × Option Int × Nat × (List Bytes → Prop)), ∀ b : AS,
        ((A.zaddLoop e (args.drop 2) 0 z 0).bind (fun x => match x.2.2.2 with
          | some sc => some (AOut.mk (b.at k (some (.zset x.1)) t) x.2.1 (A.ex (Cmds.invalid b!"score" sc (e.floatErr sc))))
          | none => some (AOut.mk (b.at k (some (.zset x.1)) t) x.2.1 (A.ex (Reply.int x.2.2.1))))) =
          g.map (fun r => ⟨b.at k r.1 r.2.1, r.2.2.1, r.2.2.2⟩) := by
      intro z
      cases A.zaddLoop e (args.drop 2) 0 z 0 with
      | none => exact ⟨none, fun b => rfl⟩
      | some x =>
        obtain ⟨z', n, c, bad⟩ := x
        cases bad <;> exact ⟨some (_, t, _, _), fun b => by simp only [Option.bind_some, Option.map_some]; rfl⟩
    cases v with
    | none =>
      obtain ⟨g, hg⟩ := go A.zNew
      refine ⟨g, fun b => ?_⟩
      rw [← hg b]
      simp only [A.zadd, if_neg hl, hk, Option.bind_eq_bind, Option.bind_some, at_orNew_none, AObj.asZset, at_put]
      rfl
    | some o =>
      cases o
      case zset z =>
        obtain ⟨g, hg⟩ := go z
        refine ⟨g, fun b => ?_⟩
        rw [← hg b]
        simp only [A.zadd, if_neg hl, hk, Option.bind_eq_bind, Option.bind_some, at_orNew_some, AObj.asZset, at_put]
        rfl
      all_goals exact ⟨some (_, t, _, _), fun b => by
        simp only [A.zadd, if_neg hl, hk, Option.bind_eq_bind, Option.bind_some, at_orNew_some, AObj.asZset, at_put, Option.map_some]; rfl⟩

theorem local_hdel : LocalAt (A.hdel e args) k := by
  intro v t
  cases h : (freshCell e v t).1 with
  | none => exact ⟨some (none, (freshCell e v t).2, _, _), fun b => by
      simp only [A.hdel, hk, Option.bind_eq_bind, Option.bind_some, at_exp, at_look, h, Option.map_some]; rfl⟩
  | some o =>
    cases o
    all_goals exact ⟨some (some _, (freshCell e v t).2, _, _), fun b => by
      simp only [A.hdel, hk, Option.bind_eq_bind, Option.bind_some, at_exp, at_look, h, AObj.asHash, at_put, Option.map_some]; rfl⟩

theorem local_srem : LocalAt (A.srem e args) k := by
  intro v t
  cases h : (freshCell e v t).1 with
  | none => exact ⟨some (none, (freshCell e v t).2, _, _), fun b => by
      simp only [A.srem, hk, Option.bind_eq_bind, Option.bind_some, at_exp, at_look, h, Option.map_some]; rfl⟩
  | some o =>
    cases o
    all_goals exact ⟨some (some _, (freshCell e v t).2, _, _), fun b => by
      simp only [A.srem, hk, Option.bind_eq_bind, Option.bind_some, at_exp, at_look, h, AObj.asSet, at_put, Option.map_some]; rfl⟩

theorem local_pop {pop} : LocalAt (A.popCmd pop e args) k := by
  intro v t
  cases h : (freshCell e v t).1 with
  | none => exact ⟨some (none, (freshCell e v t).2, _, _), fun b => by
      simp only [A.popCmd, hk, Option.bind_eq_bind, Option.bind_some, at_exp, at_look, h, Option.map_some]; rfl⟩
  | some o =>
    cases o
    case list q =>
      by_cases hq : Quicklist.len q = 0
      · exact ⟨some (some _, (freshCell e v t).2, _, _), fun b => by
          simp only [A.popCmd, hk, Option.bind_eq_bind, Option.bind_some, at_exp, at_look, h, AObj.asList, if_pos hq, Option.map_some]; rfl⟩
      · cases hp : pop q with
        | none => exact ⟨none, fun b => by
            simp only [A.popCmd, hk, Option.bind_eq_bind, Option.bind_some, at_exp, at_look, h, AObj.asList, if_neg hq, hp, Option.bind_none, Option.map_none]⟩
        | some p =>
          obtain ⟨w, q'⟩ := p
          cases w with
          | none => exact ⟨none, fun b => by
              simp only [A.popCmd, hk, Option.bind_eq_bind, Option.bind_some, at_exp, at_look, h, AObj.asList, if_neg hq, hp, Option.bind_none, Option.map_none]⟩
          | some w => exact ⟨some (some _, (freshCell e v t).2, _, _), fun b => by
              simp only [A.popCmd, hk, Option.bind_eq_bind, Option.bind_some, at_exp, at_look, h, AObj.asList, if_neg hq, hp, at_put, Option.map_some]; rfl⟩
    all_goals exact ⟨some (some _, (freshCell e v t).2, _, _), fun b => by
      simp only [A.popCmd, hk, Option.bind_eq_bind, Option.bind_some, at_exp, at_look, h, AObj.asList, at_put, Option.map_some]; rfl⟩

theorem local_zrem : LocalAt (A.zrem e args) k := by
  intro v t
  cases h : (freshCell e v t).1 with
  | none => exact ⟨some (none, (freshCell e v t).2, _, _), fun b => by
      simp only [A.zrem, hk, Option.bind_eq_bind, Option.bind_some, at_exp, at_look, h, Option.map_some]; rfl⟩
  | some o =>
    cases o
    case zset z =>
      cases hz : A.zremLoop (args.drop 2) z 0 with
      | none => exact ⟨none, fun b => by
          simp only [A.zrem, hk, Option.bind_eq_bind, Option.bind_some, at_exp, at_look, h, AObj.asZset, hz, Option.bind_none, Option.map_none]⟩
      | some p => exact ⟨some (some _, (freshCell e v t).2, _, _), fun b => by
          simp only [A.zrem, hk, Option.bind_eq_bind, Option.bind_some, at_exp, at_look, h, AObj.asZset, hz, at_put, Option.map_some]; rfl⟩
    all_goals exact ⟨some (some _, (freshCell e v t).2, _, _), fun b => by
      simp only [A.zrem, hk, Option.bind_eq_bind, Option.bind_some, at_exp, at_look, h, AObj.asZset, at_put, Option.map_some]; rfl⟩

theorem local_zremscore : LocalAt (A.zremRangeByScore e args) k := by
  intro v t
  cases h2 : args[2]? with
  | none => exact ⟨none, fun b => by simp only [A.zremRangeByScore, hk, h2, Option.bind_eq_bind, Option.bind_some, Option.bind_none, Option.map_none]⟩
  | some w2 =>
    cases p2 : e.parseFloat w2 with
    | none => exact ⟨some (v, t, 0, _), fun b => by simp only [A.zremRangeByScore, hk, h2, p2, Option.bind_eq_bind, Option.bind_some, Option.map_some]; rfl⟩
    | some x2 =>
      cases h3 : args[3]? with
      | none => exact ⟨none, fun b => by simp only [A.zremRangeByScore, hk, h2, p2, h3, Option.bind_eq_bind, Option.bind_some, Option.bind_none, Option.map_none]⟩
      | some w3 =>
        cases p3 : e.parseFloat w3 with
        | none => exact ⟨some (v, t, 0, _), fun b => by
            simp only [A.zremRangeByScore, hk, h2, p2, h3, p3, Option.bind_eq_bind, Option.bind_some, Option.map_some]; rfl⟩
        | some x3 =>
          cases h : (freshCell e v t).1 with
          | none => exact ⟨some (none, (freshCell e v t).2, 0, _), fun b => by
              simp only [A.zremRangeByScore, hk, h2, p2, h3, p3, Option.bind_eq_bind, Option.bind_some, at_exp, at_look, h, Option.map_some]; rfl⟩
          | some o =>
            cases o
            case zset z =>
              cases hz : AZ.remScore z x2 x3 with
              | none => exact ⟨none, fun b => by
                  simp only [A.zremRangeByScore, hk, h2, p2, h3, p3, Option.bind_eq_bind, Option.bind_some, at_exp, at_look, h, AObj.asZset, hz, Option.bind_none, Option.map_none]⟩
              | some p => exact ⟨some (some _, (freshCell e v t).2, _, _), fun b => by
                  simp only [A.zremRangeByScore, hk, h2, p2, h3, p3, Option.bind_eq_bind, Option.bind_some, at_exp, at_look, h, AObj.asZset, hz, at_put, Option.map_some]; rfl⟩
            all_goals exact ⟨some (some _, (freshCell e v t).2, _, _), fun b => by
              simp only [A.zremRangeByScore, hk, h2, p2, h3, p3, Option.bind_eq_bind, Option.bind_some, at_exp, at_look, h, AObj.asZset, at_put, Option.map_some]; rfl⟩

theorem local_zremrank : LocalAt (A.zremRangeByRank e args) k := by
  intro v t
  cases h2 : args[2]? with
  | none => exact ⟨none, fun b => by simp only [A.zremRangeByRank, hk, h2, Option.bind_eq_bind, Option.bind_some, Option.bind_none, Option.map_none]⟩
  | some w2 =>
    cases p2 : atoi w2 with
    | none => exact ⟨some (v, t, 0, _), fun b => by simp only [A.zremRangeByRank, hk, h2, p2, Option.bind_eq_bind, Option.bind_some, Option.map_some]; rfl⟩
    | some x2 =>
      cases h3 : args[3]? with
      | none => exact ⟨none, fun b => by simp only [A.zremRangeByRank, hk, h2, p2, h3, Option.bind_eq_bind, Option.bind_some, Option.bind_none, Option.map_none]⟩
      | some w3 =>
        cases p3 : atoi w3 with
        | none => exact ⟨some (v, t, 0, _), fun b => by
            simp only [A.zremRangeByRank, hk, h2, p2, h3, p3, Option.bind_eq_bind, Option.bind_some, Option.map_some]; rfl⟩
        | some x3 =>
          cases h : (freshCell e v t).1 with
          | none => exact ⟨some (none, (freshCell e v t).2, 0, _), fun b => by
              simp only [A.zremRangeByRank, hk, h2, p2, h3, p3, Option.bind_eq_bind, Option.bind_some, at_exp, at_look, h, Option.map_some]; rfl⟩
          | some o =>
            cases o
            case zset z =>
              cases hz : AZ.remRank z x2 x3 with
              | none => exact ⟨none, fun b => by
                  simp only [A.zremRangeByRank, hk, h2, p2, h3, p3, Option.bind_eq_bind, Option.bind_some, at_exp, at_look, h, AObj.asZset, hz, Option.bind_none, Option.map_none]⟩
              | some p => exact ⟨some (some _, (freshCell e v t).2, _, _), fun b => by
                  simp only [A.zremRangeByRank, hk, h2, p2, h3, p3, Option.bind_eq_bind, Option.bind_some, at_exp, at_look, h, AObj.asZset, hz, at_put, Option.map_some]; rfl⟩
            all_goals exact ⟨some (some _, (freshCell e v t).2, _, _), fun b => by
              simp only [A.zremRangeByRank, hk, h2, p2, h3, p3, Option.bind_eq_bind, Option.bind_some, at_exp, at_look, h, AObj.asZset, at_put, Option.map_some]; rfl⟩

end

/-- The commands that a log of the kind considered contains. -/
def loggable : Cmd → Bool
  | .expire | .expireat | .setex => true
  | c => repeats c

theorem local_cmd {c : Cmd} {f} (hf : aFn c = some f) (hc : loggable c = true) {e : Env} {args : List Bytes} {k : Bytes} (hk : args[1]? = some k) :
    LocalAt (f e args) k := by
  cases c <;> first | (cases hc; done) | skip
  case expire => cases hf; exact local_expire hk
  case expireat => cases hf; exact local_expireAt hk
  case set => cases hf; exact local_set hk
  case setex => cases hf; exact local_setEx hk
  case hset => cases hf; exact local_hset hk
  case hdel => cases hf; exact local_hdel hk
  case lpush => cases hf; exact local_lpush hk
  case rpush => cases hf; exact local_rpush hk
  case lpop => cases hf; exact local_pop hk
  case rpop => cases hf; exact local_pop hk
  case sadd => cases hf; exact local_sadd hk
  case srem => cases hf; exact local_srem hk
  case zadd => cases hf; exact local_zadd hk
  case zrem => cases hf; exact local_zrem hk
  case zremrangebyscore => cases hf; exact local_zremscore hk
  case zremrangebyrank => cases hf; exact local_zremrank hk

/-- The same on another database that has the same under the key. -/
theorem LocalAt.other {f : AS → Option AOut} {k : Bytes} (h : LocalAt f k) {s s' : AS} {a : AOut} (ha : f s = some a) (hv : s'.v k = s.v k) (ht : s'.t k = s.t k) :
    a.s = s.at k (a.s.v k) (a.s.t k) ∧ ∃ a', f s' = some a' ∧ a'.dirty = a.dirty ∧ a'.s = s'.at k (a.s.v k) (a.s.t k) := by
  obtain ⟨g, hg⟩ := h (s.v k) (s.t k)
  have h1 := hg s
  rw [at_self, ha] at h1
  have h2 := hg s'
  rw [← hv, ← ht, at_self] at h2
  cases g with
  | none => cases h1
  | some r =>
    simp only [Option.map_some, Option.some.injEq] at h1 h2
    subst h1
    refine ⟨by simp [at_v, at_t], _, h2, rfl, by simp [at_v, at_t]⟩

/-! ### Hashes and sets -/

/-- Two hashes or two sets. -/
inductive SameK : AObj → AObj → Prop
  | hash (a b) : SameK (.hash a) (.hash b)
  | set (a b) : SameK (.set a) (.set b)

theorem SameK.symm {a b : AObj} (h : SameK a b) : SameK b a := by cases h <;> constructor
theorem SameK.trans {a b c : AObj} (h : SameK a b) (h' : SameK b c) : SameK a c := by cases h <;> cases h' <;> constructor
theorem SameK.left {a b : AObj} (h : SameK a b) : SameK a a := by cases h <;> constructor

/-- The fields marked by `t` as in `o`, the others as in `g`. -/
def mix (t : Bytes → Bool) : AObj → AObj → AObj
  | .hash c, .hash g => .hash (fun x => if t x then c x else g x)
  | .set c, .set g => .set (fun x => if t x then c x else g x)
  | o, _ => o

theorem mix_self (t : Bytes → Bool) (o : AObj) : mix t o o = o := by
  cases o <;> simp [mix]

theorem mix_none {o g : AObj} (h : SameK o g) : mix (fun _ => false) o g = g := by
  cases h <;> simp [mix]

theorem mix_kind {t : Bytes → Bool} {o g : AObj} (h : SameK o g) : SameK o (mix t o g) := by
  cases h <;> constructor

theorem mix_mix {t u : Bytes → Bool} {o o' g : AObj} (h : SameK o o') (h' : SameK o g) (ho : o' = mix u o' o) :
    mix u o' (mix t o g) = mix (fun x => t x || u x) o' g := by
  cases h with
  | hash a b =>
    cases h'
    simp only [mix, AObj.hash.injEq] at ho ⊢
    funext x
    have h0 : u x = false → b x = a x := fun h => by have := congrFun ho x; rw [h] at this; simpa using this
    by_cases h1 : u x = true
    · simp [h1]
    · have h1 : u x = false := by simpa using h1
      by_cases h2 : t x = true <;> simp [h1, h2, h0 h1]
  | set a b =>
    cases h'
    simp only [mix, AObj.set.injEq] at ho ⊢
    funext x
    have h0 : u x = false → b x = a x := fun h => by have := congrFun ho x; rw [h] at this; simpa using this
    by_cases h1 : u x = true
    · simp [h1]
    · have h1 : u x = false := by simpa using h1
      by_cases h2 : t x = true <;> simp [h1, h2, h0 h1]

theorem hsetLoop_over : ∀ (l : List Bytes), ∃ (t : Bytes → Bool) (w : Fn Bytes), ∀ h n, (A.hsetLoop l h n).1 = fun x => if t x then w x else h x
  | [] => ⟨fun _ => false, nil, fun h n => by simp [A.hsetLoop]⟩
  | [_] => ⟨fun _ => false, nil, fun h n => by simp [A.hsetLoop]⟩
  | f :: v :: rest => by
    obtain ⟨t, w, ih⟩ := hsetLoop_over rest
    refine ⟨fun x => t x || decide (f = x), fun x => if t x then w x else some v, fun h n => ?_⟩
    simp only [A.hsetLoop, ih]
    funext x
    by_cases h1 : t x <;> by_cases h2 : f = x <;> simp [h1, h2, upd]

theorem delLoop_over {V : Type} : ∀ (l : List Bytes), ∃ (t : Bytes → Bool) (w : Fn V), ∀ h n, (A.delLoop l h n).1 = fun x => if t x then w x else h x
  | [] => ⟨fun _ => false, nil, fun h n => by simp [A.delLoop]⟩
  | f :: rest => by
    obtain ⟨t, w, ih⟩ := delLoop_over (V := V) rest
    refine ⟨fun x => t x || decide (f = x), fun x => if t x then w x else none, fun h n => ?_⟩
    simp only [A.delLoop, ih]
    funext x
    by_cases h1 : t x <;> by_cases h2 : f = x <;> simp [h1, h2, upd]

theorem saddLoop_over : ∀ (l : List Bytes), ∃ (t : Bytes → Bool) (w : Fn Unit), ∀ h n, (A.saddLoop l h n).1 = fun x => if t x then w x else h x
  | [] => ⟨fun _ => false, nil, fun h n => by simp [A.saddLoop]⟩
  | f :: rest => by
    obtain ⟨t, w, ih⟩ := saddLoop_over rest
    refine ⟨fun x => t x || decide (f = x), fun x => if t x then w x else some (), fun h n => ?_⟩
    simp only [A.saddLoop, ih]
    funext x
    by_cases h1 : t x <;> by_cases h2 : f = x <;> simp [h1, h2, upd]

/-- What a logged command does to a key that holds a hash or a set: it replaces it by a string, or it sets the same fields to the same values in
whatever hash or set is there. -/
inductive HotStep (c : Cmd) (f : AS → Option AOut) (k : Bytes) (o : AObj) (t : Option Int) : Prop
  | str (w : Bytes) (t' : Option Int) (h : ∀ (b : AS) (m : AObj), ∃ a, f (b.at k (some m) t) = some a ∧ a.s = b.at k (some (.str w)) t' ∧ a.dirty ≠ 0)
  | col (o' : AObj) (t' : Option Int) (u : Bytes → Bool) (hk : SameK o o') (ho : o' = mix u o' o)
      (h : ∀ (b : AS) (m : AObj), SameK o m → ∃ a, f (b.at k (some m) t) = some a ∧ a.s = b.at k (some (mix u o' m)) t' ∧ (repeats c = true ∨ a.dirty ≠ 0))

theorem fresh_cell {e : Env} {v : Option AObj} {t : Option Int} (h : ∀ d, t = some d → e.now ≤ d) : freshCell e v t = (v, t) := by
  unfold freshCell
  cases t with
  | none => rfl
  | some d => have := h d rfl; simp only; rw [if_neg (by omega)]

theorem hot_cmd {c : Cmd} {f} (hf : aFn c = some f) (hc : loggable c = true) {e : Env} {args : List Bytes} {k : Bytes} (hk : args[1]? = some k)
    {b : AS} {o : AObj} (ho : SameK o o) {t : Option Int} (ht : ∀ d, t = some d → e.now ≤ d) {a : AOut} (ha : f e args (b.at k (some o) t) = some a)
    (hd : a.dirty ≠ 0) : HotStep c (f e args) k o t := by
  have fc : ∀ v, freshCell e v t = (v, t) := fun v => fresh_cell ht
  cases c <;> first | (cases hc; done) | skip
  case expire =>
    cases hf
    simp only [A.expire, hk, Option.bind_eq_bind, Option.bind_some] at ha
    cases h2 : args[2]? with
    | none => rw [h2] at ha; cases ha
    | some n =>
      rw [h2] at ha
      simp only [Option.bind_some] at ha
      cases hn : atoi n with
      | none => rw [hn] at ha; cases ha; exact absurd rfl hd
      | some m =>
        refine .col o (some (wrap64 (e.now + wrap64 (m * 1000)))) (fun _ => false) ho (mix_self _ _).symm fun b x hx => ?_
        simp only [A.expire, hk, Option.bind_eq_bind, Option.bind_some, h2, hn, Option.some.injEq, exists_eq_left']
        exact ⟨by rw [mix_none hx]; simp [AS.at, upd_upd], Or.inr (by simp)⟩
  case expireat =>
    cases hf
    simp only [A.expireAt, hk, Option.bind_eq_bind, Option.bind_some] at ha
    cases h2 : args[2]? with
    | none => rw [h2] at ha; cases ha
    | some n =>
      rw [h2] at ha
      simp only [Option.bind_some] at ha
      cases hn : atoi n with
      | none => rw [hn] at ha; cases ha; exact absurd rfl hd
      | some m =>
        refine .col o (some (wrap64 (m * 1000))) (fun _ => false) ho (mix_self _ _).symm fun b x hx => ?_
        simp only [A.expireAt, hk, Option.bind_eq_bind, Option.bind_some, h2, hn, Option.some.injEq, exists_eq_left']
        exact ⟨by rw [mix_none hx]; simp [AS.at, upd_upd], Or.inr (by simp)⟩
  case set =>
    cases hf
    simp only [A.set, hk, Option.bind_eq_bind, Option.bind_some] at ha
    cases h2 : args[2]? with
    | none => rw [h2] at ha; cases ha
    | some w =>
      refine .str w none fun b m => ?_
      simp only [A.set, hk, h2, Option.bind_eq_bind, Option.bind_some, Option.some.injEq, exists_eq_left']
      exact ⟨by simp [AS.at, upd_upd], by simp⟩
  case setex =>
    cases hf
    simp only [A.setEx, hk, Option.bind_eq_bind, Option.bind_some] at ha
    cases h3 : args[3]? with
    | none => rw [h3] at ha; cases ha
    | some w =>
      cases h2 : args[2]? with
      | none => rw [h3, h2] at ha; cases ha
      | some n =>
        rw [h3, h2] at ha
        simp only [Option.bind_some] at ha
        cases hn : atoi n with
        | none => rw [hn] at ha; cases ha; exact absurd rfl hd
        | some m =>
          exact .str w (some (wrap64 (e.now + wrap64 (m * 1000)))) fun b x => by
            simp only [A.setEx, hk, h2, h3, hn, Option.bind_eq_bind, Option.bind_some, Option.some.injEq, exists_eq_left']
            exact ⟨by simp [AS.at, upd_upd], by simp⟩
  case hset =>
    cases hf
    unfold A.hset at ha
    split at ha
    · cases ha; exact absurd rfl hd
    · next hl =>
      cases ho with
      | set g _ =>
        simp only [hk, Option.bind_eq_bind, Option.bind_some, at_orNew_some, AObj.asHash] at ha
        cases ha; exact absurd rfl hd
      | hash g _ =>
        obtain ⟨u, w, hu⟩ := hsetLoop_over (args.drop 2)
        refine .col (.hash (A.hsetLoop (args.drop 2) g 0).1) t u (.hash _ _) ?_ fun b x hx => ?_
        · simp only [mix, hu]
          congr 1; funext y; cases u y <;> simp
        · cases hx with
          | hash _ m =>
            simp only [A.hset, if_neg hl, hk, Option.bind_eq_bind, Option.bind_some, at_orNew_some, AObj.asHash, Option.some.injEq, exists_eq_left']
            refine ⟨?_, Or.inl rfl⟩
            simp only [at_put, mix, hu]
            congr 3; funext y; cases u y <;> simp
  case hdel =>
    cases hf
    simp only [A.hdel, hk, Option.bind_eq_bind, Option.bind_some, at_exp, fc, at_look] at ha
    cases ho with
    | set g _ => simp only [AObj.asHash] at ha; cases ha; exact absurd rfl hd
    | hash g _ =>
      obtain ⟨u, w, hu⟩ := delLoop_over (V := Bytes) (args.drop 2)
      refine .col (.hash (A.delLoop (args.drop 2) g 0).1) t u (.hash _ _) ?_ fun b x hx => ?_
      · simp only [mix, hu]
        congr 1; funext y; cases u y <;> simp
      · cases hx with
        | hash _ m =>
          simp only [A.hdel, hk, Option.bind_eq_bind, Option.bind_some, at_exp, fc, at_look, AObj.asHash, Option.some.injEq, exists_eq_left']
          refine ⟨?_, Or.inl rfl⟩
          simp only [at_put, mix, hu]
          congr 3; funext y; cases u y <;> simp
  case sadd =>
    cases hf
    simp only [A.sadd, hk, Option.bind_eq_bind, Option.bind_some, at_orNew_some] at ha
    cases ho with
    | hash g _ => simp only [AObj.asSet] at ha; cases ha; exact absurd rfl hd
    | set g _ =>
      obtain ⟨u, w, hu⟩ := saddLoop_over (args.drop 2)
      refine .col (.set (A.saddLoop (args.drop 2) g 0).1) t u (.set _ _) ?_ fun b x hx => ?_
      · simp only [mix, hu]
        congr 1; funext y; cases u y <;> simp
      · cases hx with
        | set _ m =>
          simp only [A.sadd, hk, Option.bind_eq_bind, Option.bind_some, at_orNew_some, AObj.asSet, Option.some.injEq, exists_eq_left']
          refine ⟨?_, Or.inl rfl⟩
          simp only [at_put, mix, hu]
          congr 3; funext y; cases u y <;> simp
  case srem =>
    cases hf
    simp only [A.srem, hk, Option.bind_eq_bind, Option.bind_some, at_exp, fc, at_look] at ha
    cases ho with
    | hash g _ => simp only [AObj.asSet] at ha; cases ha; exact absurd rfl hd
    | set g _ =>
      obtain ⟨u, w, hu⟩ := delLoop_over (V := Unit) (args.drop 2)
      refine .col (.set (A.delLoop (args.drop 2) g 0).1) t u (.set _ _) ?_ fun b x hx => ?_
      · simp only [mix, hu]
        congr 1; funext y; cases u y <;> simp
      · cases hx with
        | set _ m =>
          simp only [A.srem, hk, Option.bind_eq_bind, Option.bind_some, at_exp, fc, at_look, AObj.asSet, Option.some.injEq, exists_eq_left']
          refine ⟨?_, Or.inl rfl⟩
          simp only [at_put, mix, hu]
          congr 3; funext y; cases u y <;> simp
  case lpush =>
    cases hf
    simp only [A.lpush, hk, Option.bind_eq_bind, Option.bind_some, at_orNew_some] at ha
    cases ho <;> (simp only [AObj.asList] at ha; cases ha; exact absurd rfl hd)
  case rpush =>
    cases hf
    simp only [A.rpush, hk, Option.bind_eq_bind, Option.bind_some, at_orNew_some] at ha
    cases ho <;> (simp only [AObj.asList] at ha; cases ha; exact absurd rfl hd)
  case zadd =>
    cases hf
    unfold A.zadd at ha
    split at ha
    · cases ha; exact absurd rfl hd
    · simp only [hk, Option.bind_eq_bind, Option.bind_some, at_orNew_some] at ha
      cases ho <;> (simp only [AObj.asZset] at ha; cases ha; exact absurd rfl hd)
  case lpop =>
    cases hf
    simp only [A.lpop, A.popCmd, hk, Option.bind_eq_bind, Option.bind_some, at_exp, fc, at_look] at ha
    cases ho <;> (simp only [AObj.asList] at ha; cases ha; exact absurd rfl hd)
  case rpop =>
    cases hf
    simp only [A.rpop, A.popCmd, hk, Option.bind_eq_bind, Option.bind_some, at_exp, fc, at_look] at ha
    cases ho <;> (simp only [AObj.asList] at ha; cases ha; exact absurd rfl hd)
  case zrem =>
    cases hf
    simp only [A.zrem, hk, Option.bind_eq_bind, Option.bind_some, at_exp, fc, at_look] at ha
    cases ho <;> (simp only [AObj.asZset] at ha; cases ha; exact absurd rfl hd)
  case zremrangebyscore =>
    cases hf
    simp only [A.zremRangeByScore, hk, Option.bind_eq_bind, Option.bind_some, Option.bind_eq_some_iff] at ha
    obtain ⟨w2, h2, ha⟩ := ha
    cases p2 : e.parseFloat w2 with
    | none => rw [p2] at ha; cases ha; exact absurd rfl hd
    | some x2 =>
      rw [p2] at ha
      simp only [Option.bind_eq_some_iff] at ha
      obtain ⟨w3, h3, ha⟩ := ha
      cases p3 : e.parseFloat w3 with
      | none => rw [p3] at ha; cases ha; exact absurd rfl hd
      | some x3 =>
        rw [p3] at ha
        simp only [at_exp, fc, at_look] at ha
        cases ho <;> (simp only [AObj.asZset] at ha; cases ha; exact absurd rfl hd)
  case zremrangebyrank =>
    cases hf
    simp only [A.zremRangeByRank, hk, Option.bind_eq_bind, Option.bind_some, Option.bind_eq_some_iff] at ha
    obtain ⟨w2, h2, ha⟩ := ha
    cases p2 : atoi w2 with
    | none => rw [p2] at ha; cases ha; exact absurd rfl hd
    | some x2 =>
      rw [p2] at ha
      simp only [Option.bind_eq_some_iff] at ha
      obtain ⟨w3, h3, ha⟩ := ha
      cases p3 : atoi w3 with
      | none => rw [p3] at ha; cases ha; exact absurd rfl hd
      | some x3 =>
        rw [p3] at ha
        simp only [at_exp, fc, at_look] at ha
        cases ho <;> (simp only [AObj.asZset] at ha; cases ha; exact absurd rfl hd)

end Metis
