import Verif.Proofs.ZCmd
import Verif.Proofs.Coll
import Verif.Spec.Arity
/-! Which commands cannot panic on which data. -/
set_option linter.unusedSectionVars false
set_option linter.unusedSimpArgs false
set_option linter.unusedVariables false
namespace Metis
open Spec
variable {hash : Bytes → Nat} {e : Env} {s : AS}

/-- What a command needs to be safe, on the view of the database. -/
def CalmA (e : Env) (args : List Bytes) (s : AS) : Cmd → Prop
  | .rpop => ∀ k q, args[1]? = some k → (A.exp e s k).v k = some (.list q) → q.pages.length ≤ 1
  | .lindex => ∀ k a i q, args[1]? = some k → args[2]? = some a → atoi a = some i → (A.exp e s k).v k = some (.list q) →
      i < 0 ∨ q.pages.flatten.length ≤ i ∨ i < (q.pages.flatten.length / 2 : Nat) ∨ i < (q.pages.headD []).length
  | .lrange => ∀ k a b i j q, args[1]? = some k → args[2]? = some a → args[3]? = some b → atoi a = some i → atoi b = some j →
      (A.exp e s k).v k = some (.list q) → ∃ vs, Quicklist.range q i j = some vs
  | .zadd => (∀ j, 1 ≤ e.level j ∧ e.level j ≤ Skiplist.maxLevel) ∧ ∀ k, args[1]? = some k → ZAt k s ∧ ∀ f, zsetOf (s.v k) = some f → Keeps f (zPairs e (args.drop 2))
  | .zrange => ∀ k a b i j, args[1]? = some k → args[2]? = some a → args[3]? = some b → atoi a = some i → atoi b = some j → ZAt k s ∧ 0 ≤ i ∧ j < 2 ^ 45
  | .zrem => ∀ k, args[1]? = some k → ZAt k s
  | .zrangebyscore | .zremrangebyscore | .zcount => ∀ k a b x y, args[1]? = some k → args[2]? = some a → args[3]? = some b →
      e.parseFloat a = some x → e.parseFloat b = some y → ZAt k s ∧ x.isNaN = false ∧ y.isNaN = false
  | .zremrangebyrank | .spop | .randomget => False
  | _ => True

theorem zaddLoop_total (hlv : ∀ j, 1 ≤ e.level j ∧ e.level j ≤ Skiplist.maxLevel) (args : List Bytes) :
    ∀ (i : Nat) (z : AZ) (n : Nat), ZOk z → Keeps z.f (zPairs e args) → ∃ r, A.zaddLoop e args i z n = some r := by
  induction args using zPairs.induct e with
  | case1 sc m rest x hp ih =>
    intro i z n h hk
    simp only [zPairs, hp] at hk
    obtain ⟨h1, h2, h3⟩ := hk
    obtain ⟨z1, e1, o1, f1⟩ := zok_add h (hlv i).1 (hlv i).2 h1 h2
    obtain ⟨r, hr⟩ := ih (i + 1) z1 (if decide (z.f m = none) = true then n + 1 else n) o1 (by rw [f1]; exact h3)
    refine ⟨r, ?_⟩
    simp only [A.zaddLoop, hp, e1, Option.bind_eq_bind, Option.bind_some]
    exact hr
  | case2 sc m rest hp => intro i z n _ _; exact ⟨(z, i, n, some sc), by simp [A.zaddLoop, hp]⟩
  | case3 l hl =>
    intro i z n _ _
    match l, hl with
    | [], _ => exact ⟨_, rfl⟩
    | [_], _ => exact ⟨_, rfl⟩
    | a :: b :: t, hl => exact absurd rfl (hl a b t)

theorem found_zset {k : Bytes} (hs : ZAt k s) {z : AZ} (h : A.look AObj.asZset (A.exp e s k) k = .found z) : ZOk z := by
  unfold A.look at h
  cases hv : (A.exp e s k).v k with
  | none => rw [hv] at h; cases h
  | some o =>
    rw [hv] at h
    cases o <;> cases h
    exact zat_exp hs _ hv

theorem found_list {k : Bytes} {q : Quicklist Bytes} (h : A.look AObj.asList (A.exp e s k) k = .found q) : (A.exp e s k).v k = some (.list q) := by
  unfold A.look at h
  cases hv : (A.exp e s k).v k with
  | none => rw [hv] at h; cases h
  | some o =>
    rw [hv] at h
    cases o <;> cases h
    rfl

theorem zreply_total {args : List Bytes} (l : List Pair) : ∃ r, Reply.zset e args (Zset.elems l) = some r := by
  have h : ∀ ws, ∃ r, Reply.zElems e ws (Zset.elems l) = some r := by
    intro ws
    induction l with
    | nil => exact ⟨_, rfl⟩
    | cons p l ih =>
      obtain ⟨r, hr⟩ := ih
      unfold Zset.elems at hr ⊢
      simp only [List.map_cons, Reply.zElems, hr, Option.bind_eq_bind, Option.bind_some]
      exact ⟨_, rfl⟩
  unfold Reply.zset
  split
  · obtain ⟨r, hr⟩ := h false
    rw [hr]; exact ⟨_, rfl⟩
  · split
    · obtain ⟨r, hr⟩ := h true
      rw [hr]; exact ⟨_, rfl⟩
    · exact ⟨_, rfl⟩

theorem pop_total {args : List Bytes} {pop : Quicklist Bytes → Option (Option Bytes × Quicklist Bytes)} {k : Bytes} (hk : args[1]? = some k)
    (hp : ∀ q, (A.exp e s k).v k = some (.list q) → Quicklist.len q ≠ 0 → ∃ v q', pop q = some (some v, q')) : ∃ a, A.popCmd pop e args s = some a := by
  unfold A.popCmd
  rw [hk]
  simp only [Option.bind_eq_bind, Option.bind_some]
  split
  · exact ⟨_, rfl⟩
  · exact ⟨_, rfl⟩
  · next q hq =>
    split
    · exact ⟨_, rfl⟩
    · next h0 =>
      obtain ⟨v, q', h⟩ := hp q (found_list hq) h0
      rw [h]; exact ⟨_, rfl⟩

theorem calm_total {args : List Bytes} {c : Cmd} {f} (hl : LOk s) (hc : aFn c = some f) (ha : accepts c args.length) (hk : CalmA e args s c) :
    ∃ a, f e args s = some a := by
  have e1 : ∀ {i}, i < args.length → args[i]? = some (args[i]!) := by
    intro i hi; simp [hi]
  cases c <;> cases hc <;> simp only [accepts] at ha
  case ping => exact ⟨_, rfl⟩
  case expire => unfold A.expire; rw [e1 (by omega), e1 (by omega)]; simp only [Option.bind_eq_bind, Option.bind_some]; split <;> exact ⟨_, rfl⟩
  case expireat => unfold A.expireAt; rw [e1 (by omega), e1 (by omega)]; simp only [Option.bind_eq_bind, Option.bind_some]; split <;> exact ⟨_, rfl⟩
  case ttl => unfold A.ttl; rw [e1 (by omega)]; simp only [Option.bind_eq_bind, Option.bind_some]; repeat' split
              all_goals exact ⟨_, rfl⟩
  case keys => unfold A.keys; rw [e1 (by omega)]; simp only [Option.bind_eq_bind, Option.bind_some]; repeat' split
               all_goals exact ⟨_, rfl⟩
  case set => unfold A.set; rw [e1 (by omega), e1 (by omega)]; exact ⟨_, rfl⟩
  case setex => unfold A.setEx; rw [e1 (by omega), e1 (by omega), e1 (by omega)]; simp only [Option.bind_eq_bind, Option.bind_some]; split <;> exact ⟨_, rfl⟩
  case get => unfold A.get; rw [e1 (by omega)]; simp only [Option.bind_eq_bind, Option.bind_some]; repeat' split
              all_goals exact ⟨_, rfl⟩
  case hset => unfold A.hset; rw [e1 (by omega)]; simp only [Option.bind_eq_bind, Option.bind_some]; repeat' split
               all_goals exact ⟨_, rfl⟩
  case hget => unfold A.hget; rw [e1 (by omega), e1 (by omega)]; simp only [Option.bind_eq_bind, Option.bind_some]; repeat' split
               all_goals exact ⟨_, rfl⟩
  case hdel => unfold A.hdel; rw [e1 (by omega)]; simp only [Option.bind_eq_bind, Option.bind_some]; repeat' split
               all_goals exact ⟨_, rfl⟩
  case hexists => unfold A.hexists; rw [e1 (by omega), e1 (by omega)]; simp only [Option.bind_eq_bind, Option.bind_some]; repeat' split
                  all_goals exact ⟨_, rfl⟩
  case hkeys => unfold A.hkeys; rw [e1 (by omega)]; simp only [Option.bind_eq_bind, Option.bind_some]; repeat' split
                all_goals exact ⟨_, rfl⟩
  case hlen => unfold A.hlen; rw [e1 (by omega)]; simp only [Option.bind_eq_bind, Option.bind_some]; repeat' split
               all_goals exact ⟨_, rfl⟩
  case lpush =>
    unfold A.lpush; rw [e1 (by omega)]; simp only [Option.bind_eq_bind, Option.bind_some]
    split
    · exact ⟨_, rfl⟩
    · next q hq =>
      have hw : Quicklist.Wf pageSize q := by
        unfold A.orNew at hq
        cases hv : s.v (args[1]!) with
        | none => rw [hv] at hq; cases hq; exact Quicklist.new_wf _
        | some o =>
          rw [hv] at hq
          cases o <;> cases hq
          exact hl _ _ hv
      obtain ⟨q', h1, _⟩ := lpushLoop_spec (args.drop 2) q hw
      rw [h1]; exact ⟨_, rfl⟩
  case rpush => unfold A.rpush; rw [e1 (by omega)]; simp only [Option.bind_eq_bind, Option.bind_some]; repeat' split
                all_goals exact ⟨_, rfl⟩
  case lpop =>
    refine pop_total (e1 (by omega)) (fun q hq h0 => ?_)
    have w := lok_exp hl _ _ hq
    obtain ⟨q', h1, _⟩ := Quicklist.popFront_spec q w
    have hw := w.len
    cases hq' : Quicklist.elems q with
    | nil => rw [hq'] at hw; exact absurd hw h0
    | cons x xs => rw [hq'] at h1; exact ⟨x, q', h1⟩
  case rpop =>
    refine pop_total (e1 (by omega)) (fun q hq h0 => ?_)
    have w := lok_exp hl _ _ hq
    obtain ⟨q', h1, _⟩ := Quicklist.popBack_onepage q w (hk _ _ (e1 (by omega)) hq)
    have hw := w.len
    cases hq' : Quicklist.elems q with
    | nil => rw [hq'] at hw; exact absurd hw h0
    | cons x xs =>
      obtain ⟨y, hy⟩ : ∃ y, (x :: xs).getLast? = some y := ⟨_, List.getLast?_eq_some_getLast (by simp)⟩
      rw [hq', hy] at h1; exact ⟨y, q', h1⟩
  case llen => unfold A.llen; rw [e1 (by omega)]; simp only [Option.bind_eq_bind, Option.bind_some]; repeat' split
               all_goals exact ⟨_, rfl⟩
  case sadd => unfold A.sadd; rw [e1 (by omega)]; simp only [Option.bind_eq_bind, Option.bind_some]; repeat' split
               all_goals exact ⟨_, rfl⟩
  case srem => unfold A.srem; rw [e1 (by omega)]; simp only [Option.bind_eq_bind, Option.bind_some]; repeat' split
               all_goals exact ⟨_, rfl⟩
  case scard => unfold A.scard; rw [e1 (by omega)]; simp only [Option.bind_eq_bind, Option.bind_some]; repeat' split
                all_goals exact ⟨_, rfl⟩
  case sismember => unfold A.sismember; rw [e1 (by omega), e1 (by omega)]; simp only [Option.bind_eq_bind, Option.bind_some]; repeat' split
                    all_goals exact ⟨_, rfl⟩
  case smembers => unfold A.smembers; rw [e1 (by omega)]; simp only [Option.bind_eq_bind, Option.bind_some]; repeat' split
                   all_goals exact ⟨_, rfl⟩
  case sdiff => unfold A.sdiff A.setOp; rw [e1 (by omega)]; simp only [Option.bind_eq_bind, Option.bind_some]; repeat' split
                all_goals exact ⟨_, rfl⟩
  case sinter => unfold A.sinter A.setOp; rw [e1 (by omega)]; simp only [Option.bind_eq_bind, Option.bind_some]; repeat' split
                 all_goals exact ⟨_, rfl⟩
  case sunion => unfold A.sunion A.setOp; rw [e1 (by omega)]; simp only [Option.bind_eq_bind, Option.bind_some]; repeat' split
                 all_goals exact ⟨_, rfl⟩
  case zcard => unfold A.zcard; rw [e1 (by omega)]; simp only [Option.bind_eq_bind, Option.bind_some]; repeat' split
                all_goals exact ⟨_, rfl⟩
  case zscore => unfold A.zscore; rw [e1 (by omega), e1 (by omega)]; simp only [Option.bind_eq_bind, Option.bind_some]; repeat' split
                 all_goals exact ⟨_, rfl⟩
  case lindex =>
    unfold A.lindex; rw [e1 (by omega), e1 (by omega)]; simp only [Option.bind_eq_bind, Option.bind_some]
    split
    · exact ⟨_, rfl⟩
    · exact ⟨_, rfl⟩
    · next q hq =>
      split
      · exact ⟨_, rfl⟩
      · next i hi =>
        have hv := found_list hq
        have w := lok_exp hl _ _ hv
        have hn := hk _ _ i q (e1 (by omega)) (e1 (by omega)) hi hv
        have : ∃ v, Quicklist.get q i = some v := by
          by_cases hout : i < 0 ∨ (q.pages.flatten.length : Int) ≤ i
          · unfold Quicklist.get
            rw [Quicklist.getPos_none q w i (by rcases hout with h | h; exact Or.inl h; exact Or.inr h)]
            exact ⟨_, rfl⟩
          · obtain ⟨m, rfl⟩ : ∃ m : Nat, i = m := ⟨i.toNat, by omega⟩
            exact ⟨_, Quicklist.get_good q w m (by unfold Quicklist.elems; omega) (by
              have hwl := w.len
              unfold Quicklist.Good
              unfold Quicklist.elems at hwl
              rcases hn with h | h | h | h
              · omega
              · omega
              · exact Or.inl (by omega)
              · exact Or.inr (by omega))⟩
        obtain ⟨v, hv'⟩ := this
        rw [hv']
        simp only [Option.bind_some]
        cases v <;> exact ⟨_, rfl⟩
  case lrange =>
    unfold A.lrange; rw [e1 (by omega), e1 (by omega), e1 (by omega)]; simp only [Option.bind_eq_bind, Option.bind_some]
    split
    · exact ⟨_, rfl⟩
    · exact ⟨_, rfl⟩
    · next q hq =>
      split
      · exact ⟨_, rfl⟩
      · next i hi =>
        split
        · exact ⟨_, rfl⟩
        · next j hj =>
          obtain ⟨vs, hv⟩ := hk _ _ _ i j q (e1 (by omega)) (e1 (by omega)) (e1 (by omega)) hi hj (found_list hq)
          rw [hv]
          simp only [Option.bind_some]
          split <;> exact ⟨_, rfl⟩
  case zadd =>
    unfold A.zadd
    split
    · exact ⟨_, rfl⟩
    · rw [e1 (by omega)]; simp only [Option.bind_eq_bind, Option.bind_some]
      split
      · exact ⟨_, rfl⟩
      · next z hz =>
        obtain ⟨k1, k2⟩ := hk.2 _ (e1 (by omega))
        have : ZOk z ∧ zsetOf (s.v args[1]!) = some z.f := by
          unfold A.orNew at hz
          cases hv : s.v (args[1]!) with
          | none => rw [hv] at hz; cases hz; exact ⟨znew_ok, rfl⟩
          | some o =>
            rw [hv] at hz
            cases o <;> cases hz
            exact ⟨k1 _ hv, rfl⟩
        obtain ⟨r, hr⟩ := zaddLoop_total hk.1 (args.drop 2) 0 z 0 this.1 (k2 _ this.2)
        rw [hr]
        simp only [Option.bind_some]
        split <;> exact ⟨_, rfl⟩
  case zrange =>
    unfold A.zrange; rw [e1 (by omega), e1 (by omega), e1 (by omega)]; simp only [Option.bind_eq_bind, Option.bind_some]
    split
    · exact ⟨_, rfl⟩
    · next i hi =>
      split
      · exact ⟨_, rfl⟩
      · next j hj =>
        split
        · exact ⟨_, rfl⟩
        · exact ⟨_, rfl⟩
        · next z hz =>
          obtain ⟨k1, k2, k3⟩ := hk _ _ _ i j (e1 (by omega)) (e1 (by omega)) (e1 (by omega)) hi hj
          have hm : Zset.maxInt64 = 9223372036854775807 := rfl
          have hp : Skiplist.maxPtrCap = 35184372088832 := rfl
          obtain ⟨l, _, hl'⟩ := byRank_ok (found_zset k1 hz) k2 (stop := j) (by omega) (by omega)
          obtain ⟨r, hr⟩ := zreply_total (e := e) (args := args) ((l.drop i.toNat).take (j - i + 1).toNat)
          rw [hl']
          simp only [Option.bind_some, hr]
          exact ⟨_, rfl⟩
  case zrangebyscore =>
    unfold A.zrangeByScore; rw [e1 (by omega), e1 (by omega), e1 (by omega)]; simp only [Option.bind_eq_bind, Option.bind_some]
    split
    · exact ⟨_, rfl⟩
    · next i hi =>
      split
      · exact ⟨_, rfl⟩
      · next j hj =>
        split
        · exact ⟨_, rfl⟩
        · exact ⟨_, rfl⟩
        · next z hz =>
          obtain ⟨k1, k2, k3⟩ := hk _ _ _ i j (e1 (by omega)) (e1 (by omega)) (e1 (by omega)) hi hj
          obtain ⟨l, _, hl', _⟩ := byScore_ok (found_zset k1 hz) k2 k3
          obtain ⟨r, hr⟩ := zreply_total (e := e) (args := args) (l.filter (inRange i j))
          rw [hl']
          simp only [Option.bind_some, hr]
          exact ⟨_, rfl⟩
  case zremrangebyscore =>
    unfold A.zremRangeByScore; rw [e1 (by omega), e1 (by omega), e1 (by omega)]; simp only [Option.bind_eq_bind, Option.bind_some]
    split
    · exact ⟨_, rfl⟩
    · next i hi =>
      split
      · exact ⟨_, rfl⟩
      · next j hj =>
        split
        · exact ⟨_, rfl⟩
        · exact ⟨_, rfl⟩
        · next z hz =>
          obtain ⟨k1, k2, k3⟩ := hk _ _ _ i j (e1 (by omega)) (e1 (by omega)) (e1 (by omega)) hi hj
          obtain ⟨es, z', hl', _⟩ := zremScore_ok (found_zset k1 hz) k2 k3
          rw [hl']
          exact ⟨_, rfl⟩
  case zcount =>
    unfold A.zcount; rw [e1 (by omega), e1 (by omega), e1 (by omega)]; simp only [Option.bind_eq_bind, Option.bind_some]
    split
    · exact ⟨_, rfl⟩
    · next i hi =>
      split
      · exact ⟨_, rfl⟩
      · next j hj =>
        split
        · exact ⟨_, rfl⟩
        · exact ⟨_, rfl⟩
        · next z hz =>
          obtain ⟨k1, k2, k3⟩ := hk _ _ _ i j (e1 (by omega)) (e1 (by omega)) (e1 (by omega)) hi hj
          obtain ⟨l, _, _, hl', _⟩ := byScore_ok (found_zset k1 hz) k2 k3
          rw [hl']
          exact ⟨_, rfl⟩
  case zrem =>
    unfold A.zrem; rw [e1 (by omega)]; simp only [Option.bind_eq_bind, Option.bind_some]
    split
    · exact ⟨_, rfl⟩
    · exact ⟨_, rfl⟩
    · next z hz =>
      obtain ⟨z', l, _, hl', _⟩ := zremLoop_ok (args.drop 2) z 0 (found_zset (hk _ (e1 (by omega))) hz)
      rw [hl']
      exact ⟨_, rfl⟩
  case zremrangebyrank => exact hk.elim

end Metis
