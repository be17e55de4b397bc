import Verif.Spec.ExactHost
import Verif.Proofs.Tally
/-!
What the exact reference leaves open: only replies, unless random numbers are drawn. The next state is determined.
-/
set_option linter.unusedSectionVars false
set_option linter.unusedSimpArgs false
set_option linter.unusedVariables false
namespace Metis.ExactDet
open Metis Metis.Spec
variable {e : Env} {w : List Bytes}

/-- The database that an effect leads to is determined. -/
def RDet (P : Ref.Effect) : Prop := ∃ s0, ∀ s v, P s v → s = s0
def XDet (P : Exact.Effect) : Prop := ∃ S0, ∀ S v, P S v → S = S0

theorem rd_gives (s : Ref.Store) (v : Value) : RDet (Ref.gives s v) := ⟨s, fun _ _ h => h.1⟩
theorem rd_fails (s : Ref.Store) : RDet (Ref.fails s) := ⟨s, fun _ _ h => h.1⟩
theorem rd_enum (s : Ref.Store) (p : Bytes → Prop) : RDet (Ref.enumerates s p) := ⟨s, fun _ _ h => h.1⟩
theorem rd_counts (s : Ref.Store) (p : Bytes → Prop) : RDet (Ref.counts s p) := ⟨s, fun _ _ h => h.1⟩
theorem rd_none (s : Ref.Store) : RDet (fun _ _ => False) := ⟨s, fun _ _ h => h.elim⟩
theorem xd_gives (S : Exact.Store) (v : Value) : XDet (Exact.gives S v) := ⟨S, fun _ _ h => h.1⟩
theorem xd_fails (S : Exact.Store) : XDet (Exact.fails S) := ⟨S, fun _ _ h => h.1⟩
theorem xd_crash (S : Exact.Store) : XDet Exact.crash := ⟨S, fun _ _ h => h.elim⟩

theorem xd_on {S : Exact.Store} {P : Ref.Effect} (h : RDet P) : XDet (Exact.on S P) := by
  obtain ⟨s0, h⟩ := h
  refine ⟨⟨s0, S.sizes, S.entries⟩, fun S' v hv => ?_⟩
  obtain ⟨h1, h2, h3⟩ := hv
  have := h _ _ h1
  cases S'
  simp only at this h2 h3
  rw [this, h2, h3]

theorem rd_combine (op : Bool → Bool → Bool) (all : Bool) : ∀ (ks : List Bytes) (p : Bytes → Bool) (s : Ref.Store), RDet (Ref.combine op all e ks p s)
  | [], p, s => rd_enum _ _
  | k :: ks, p, s => by
    unfold Ref.combine
    simp only
    split
    · split
      · exact rd_gives _ _
      · exact rd_combine op all ks _ _
    · exact rd_combine op all ks _ _
    · exact rd_fails _

macro "rdet" : tactic => `(tactic| repeat' (first | exact rd_gives _ _ | exact rd_fails _ | exact rd_enum _ _ | exact rd_counts _ _ | exact rd_combine _ _ _ _ _ | exact rd_none ⟨fun _ => none, fun _ => none⟩ | split | dsimp only))
macro "xdet" : tactic => `(tactic| repeat' (first | exact xd_gives _ _ | exact xd_fails _ | exact xd_crash ⟨⟨fun _ => none, fun _ => none⟩, fun _ => [], fun _ => []⟩ | split | dsimp only))

theorem rd_keys (s : Ref.Store) : RDet (Ref.keys e w s) := by
  unfold Ref.keys
  split
  · split
    · exact ⟨s, fun s' v h => by rcases h with ⟨_, h⟩ | ⟨_, h⟩ <;> exact h.1⟩
    · exact rd_enum _ _
  · exact rd_none s

theorem xd_ranged {opts : List Bytes} {t : Tally} {sel : List Entry} {S S' : Exact.Store} {v : Value} (h : Exact.ranged e opts t sel S S' v) : S' = S := by
  cases opts with
  | nil =>
    simp only [Exact.ranged] at h
    cases ht : t.told sel with
    | none => rw [ht] at h; exact h.elim
    | some ps => rw [ht] at h; exact h.1
  | cons o os =>
    simp only [Exact.ranged] at h
    cases ho : e.withScores o with
    | false => rw [ho] at h; exact h.1
    | true =>
      rw [ho] at h
      cases ht : t.told sel with
      | none => rw [ht] at h; exact h.elim
      | some ps => rw [ht] at h; exact h.1

theorem xd_perform {c : Cmd} (h1 : c ≠ .spop) (h2 : c ≠ .randomget) (S : Exact.Store) : XDet (Exact.perform e c w S) := by
  cases c <;> first | exact absurd rfl h1 | exact absurd rfl h2 | skip
  case zrange =>
    show XDet (Exact.zrange e w S)
    unfold Exact.zrange
    split
    · split
      · simp only
        split
        · xdet
        · exact ⟨_, fun S' v h => by obtain ⟨l, sel, _, _, h⟩ := h; exact xd_ranged h⟩
        · xdet
      · xdet
    · exact xd_crash S
  case zrangebyscore =>
    show XDet (Exact.zrangebyscore e w S)
    unfold Exact.zrangebyscore
    split
    · split
      · simp only
        split
        · xdet
        · exact ⟨_, fun S' v h => by obtain ⟨l, _, h⟩ := h; exact xd_ranged h⟩
        · xdet
      · xdet
    · exact xd_crash S
  case zremrangebyrank =>
    show XDet (Exact.zremrangebyrank e w S)
    match w with
    | k :: a :: b :: _ =>
      unfold Exact.zremrangebyrank
      simp only
      split
      · next i j _ _ =>
        split
        · xdet
        · next f _ =>
          by_cases hex : ∃ l, Tally.InOrder ⟨f, (Exact.fresh e.now S k).entries k⟩ l
          · obtain ⟨l, hl⟩ := hex
            exact ⟨Exact.holdZset (Exact.fresh e.now S k) k (Tally.shed ⟨f, (Exact.fresh e.now S k).entries k⟩ l i j),
              fun S' v h => by obtain ⟨l', hl', h⟩ := h; rw [inOrder_unique hl' hl] at h; exact h.1⟩
          · exact ⟨S, fun S' v h => by obtain ⟨l', hl', h⟩ := h; exact absurd ⟨l', hl'⟩ hex⟩
        · xdet
      · xdet
    | [] | [_] | [_, _] => exact xd_crash S
  case keys => exact xd_on (rd_keys _)
  case expire => simp only [Exact.perform]; unfold Exact.expire; xdet
  case expireat => simp only [Exact.perform]; unfold Exact.expireat; xdet
  case setex => simp only [Exact.perform]; unfold Exact.setex; xdet
  case ttl => simp only [Exact.perform]; unfold Exact.ttl; xdet
  case lpush => simp only [Exact.perform]; unfold Exact.push; xdet
  case rpush => simp only [Exact.perform]; unfold Exact.push; xdet
  case lpop => simp only [Exact.perform]; unfold Exact.lpop; xdet
  case rpop => simp only [Exact.perform]; unfold Exact.rpop; xdet
  case lindex => simp only [Exact.perform]; unfold Exact.lindex; xdet
  case lrange => simp only [Exact.perform]; unfold Exact.lrange; xdet
  case zadd => simp only [Exact.perform]; unfold Exact.zadd; xdet
  case zcard => simp only [Exact.perform]; unfold Exact.zcard; xdet
  case zcount => simp only [Exact.perform]; unfold Exact.zcount; xdet
  case zrem => simp only [Exact.perform]; unfold Exact.zrem; xdet
  case zremrangebyscore => simp only [Exact.perform]; unfold Exact.zremrangebyscore; xdet
  case set => refine xd_on ?_; simp only [Ref.perform]; unfold Ref.set; rdet
  case get => refine xd_on ?_; simp only [Ref.perform]; unfold Ref.get; rdet
  case hset => refine xd_on ?_; simp only [Ref.perform]; unfold Ref.hset; rdet
  case hget => refine xd_on ?_; simp only [Ref.perform]; unfold Ref.hget; rdet
  case hdel => refine xd_on ?_; simp only [Ref.perform]; unfold Ref.hdel; rdet
  case hexists => refine xd_on ?_; simp only [Ref.perform]; unfold Ref.hexists; rdet
  case hkeys => refine xd_on ?_; simp only [Ref.perform]; unfold Ref.hkeys; rdet
  case hlen => refine xd_on ?_; simp only [Ref.perform]; unfold Ref.hlen; rdet
  case sadd => refine xd_on ?_; simp only [Ref.perform]; unfold Ref.sadd; rdet
  case srem => refine xd_on ?_; simp only [Ref.perform]; unfold Ref.srem; rdet
  case scard => refine xd_on ?_; simp only [Ref.perform]; unfold Ref.scard; rdet
  case sismember => refine xd_on ?_; simp only [Ref.perform]; unfold Ref.sismember; rdet
  case smembers => refine xd_on ?_; simp only [Ref.perform]; unfold Ref.smembers; rdet
  case sdiff => refine xd_on ?_; simp only [Ref.perform]; unfold Ref.setop; rdet
  case sinter => refine xd_on ?_; simp only [Ref.perform]; unfold Ref.setop; rdet
  case sunion => refine xd_on ?_; simp only [Ref.perform]; unfold Ref.setop; rdet
  case llen => refine xd_on ?_; simp only [Ref.perform]; unfold Ref.llen; rdet
  case zscore => refine xd_on ?_; simp only [Ref.perform]; unfold Ref.zscore; rdet
  all_goals exact xd_on (by simp only [Ref.perform]; rdet)

theorem answers_det {n : Nat} {pw : Bytes} {R R1 R2 : Exact.State} {fd : Nat} {c : Ref.Client} {args : List Bytes} {v1 v2 : Value}
    (hu : ∀ cmd, commandOf e args = some cmd → cmd ≠ .spop ∧ cmd ≠ .randomget) (h1 : Exact.answers n pw R fd c e args R1 v1)
    (h2 : Exact.answers n pw R fd c e args R2 v2) : R1 = R2 := by
  unfold Exact.answers at h1 h2
  cases hc : commandOf e args with
  | none => simp only [hc] at h1 h2; rw [h1.1, h2.1]
  | some cmd =>
    simp only [hc] at h1 h2
    by_cases ha : accepts cmd args.length
    · simp only [ha, not_true_eq_false, if_false] at h1 h2
      by_cases hp : pw ≠ [] ∧ c.auth = false ∧ cmd ≠ .auth
      · rw [if_pos hp] at h1 h2; rw [h1.1, h2.1]
      · rw [if_neg hp] at h1 h2
        have key : (∃ S, Exact.perform e cmd (args.drop 1) (R.dbs c.db) S v1 ∧ R1 = R.store c.db S) →
            (∃ S, Exact.perform e cmd (args.drop 1) (R.dbs c.db) S v2 ∧ R2 = R.store c.db S) → R1 = R2 := by
          rintro ⟨S1, q1, rfl⟩ ⟨S2, q2, rfl⟩
          obtain ⟨S0, hS⟩ := xd_perform (e := e) (w := args.drop 1) (hu cmd hc).1 (hu cmd hc).2 (R.dbs c.db)
          rw [hS _ _ q1, hS _ _ q2]
        generalize hw : args.drop 1 = w at *
        cases cmd
        case select =>
          cases w with
          | nil => exact key h1 h2
          | cons a w =>
            simp only at h1 h2
            cases hi : atoi a with
            | none => simp only [hi] at h1 h2; rw [h1.1, h2.1]
            | some i =>
              simp only [hi] at h1 h2
              by_cases hneg : i < 0
              · rw [if_pos hneg] at h1; exact h1.elim
              · rw [if_neg hneg] at h1 h2
                by_cases hlt : i < n
                · rw [if_pos hlt] at h1 h2; rw [h1.1, h2.1]
                · rw [if_neg hlt] at h1 h2; rw [h1.1, h2.1]
        case auth =>
          cases w with
          | nil => exact key h1 h2
          | cons a w =>
            simp only at h1 h2
            by_cases hpa : pw = [] ∨ a = pw
            · rw [if_pos hpa] at h1 h2; rw [h1.1, h2.1]
            · rw [if_neg hpa] at h1 h2; rw [h1.1, h2.1]
        case bgrewriteaof => simp only at h1 h2; rw [h1.1, h2.1]
        all_goals exact key h1 h2
    · simp only [ha, not_false_eq_true, if_true] at h1 h2; rw [h1.1, h2.1]

end Metis.ExactDet
