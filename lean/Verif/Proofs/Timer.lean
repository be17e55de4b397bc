import Verif.Proofs.Apart
import Verif.Spec.Timer
/-!
Databases one of which has already dropped some of the keys that are past their deadline: which commands can tell them apart.
-/
set_option linter.unusedSectionVars false
set_option linter.unusedSimpArgs false
set_option linter.unusedVariables false
namespace Metis
open Spec

/-- The same value and deadline, or nothing here and something past its deadline there. -/
def Gone (T : Int) (v : Option AObj) (t : Option Int) (v' : Option AObj) (t' : Option Int) : Prop :=
  (v' = v ∧ t' = t) ∨ (v = none ∧ t = none ∧ ∃ d, t' = some d ∧ d < T)

/-- For all keys. -/
def DGone (T : Int) (s s' : AS) : Prop := ∀ k, Gone T (s.v k) (s.t k) (s'.v k) (s'.t k)

theorem Gone.later {T T' : Int} {v t v' t'} (h : Gone T v t v' t') (hT : T ≤ T') : Gone T' v t v' t' := by
  rcases h with h | ⟨h1, h2, d, h3, h4⟩
  · exact .inl h
  · exact .inr ⟨h1, h2, d, h3, by omega⟩

def PairG (T : Int) : Option AOut → Option AOut → Prop
  | none, none => True
  | some a, some a' => DGone T a.s a'.s ∧ a'.dirty = a.dirty ∧ a'.reply = a.reply
  | _, _ => False

/-- At this key they are the same. -/
def At (s s' : AS) (k : Bytes) : Prop := s'.v k = s.v k ∧ s'.t k = s.t k

section
variable {T : Int} {s s' : AS} {k : Bytes}

theorem pairG_some {n : Nat} {r : List Bytes → Prop} (h : DGone T s s') : PairG T (some ⟨s, n, r⟩) (some ⟨s', n, r⟩) := ⟨h, rfl, rfl⟩

theorem pairG_bind {α : Type} {x : Option α} {f f' : α → Option AOut} (h : ∀ a, x = some a → PairG T (f a) (f' a)) : PairG T (x >>= f) (x >>= f') := by
  cases x with
  | none => trivial
  | some a => exact h a rfl

theorem gone_upd {o : Option AObj} {t : Option Int} (h : DGone T s s') : DGone T ⟨upd s.v k o, upd s.t k t⟩ ⟨upd s'.v k o, upd s'.t k t⟩ := by
  intro x
  simp only [upd]
  by_cases hx : k = x
  · simp only [if_pos hx]; exact .inl ⟨rfl, rfl⟩
  · simp only [if_neg hx]; exact h x

theorem gone_put {o : AObj} (h : DGone T s s') (ha : At s s' k) : DGone T (A.put s k o) (A.put s' k o) := by
  intro x
  simp only [A.put, upd]
  by_cases hx : k = x
  · subst hx; simp only [if_pos rfl]; exact .inl ⟨rfl, ha.2⟩
  · simp only [if_neg hx]; exact h x

theorem gone_t {t : Option Int} (h : DGone T s s') (ha : At s s' k) : DGone T ⟨s.v, upd s.t k t⟩ ⟨s'.v, upd s'.t k t⟩ := by
  intro x
  simp only [upd]
  by_cases hx : k = x
  · subst hx; simp only [if_pos rfl]; exact .inl ⟨ha.1, rfl⟩
  · simp only [if_neg hx]; exact h x

/-- After `expireIfNeeded` the two are the same at this key. -/
theorem gone_exp {e : Env} (h : DGone e.now s s') : DGone e.now (A.exp e s k) (A.exp e s' k) ∧ At (A.exp e s k) (A.exp e s' k) k := by
  have hk := h k
  rcases hk with ⟨h1, h2⟩ | ⟨h1, h2, d, h3, h4⟩
  · have hx : A.expired e s' k = A.expired e s k := by unfold A.expired; rw [h2]
    unfold A.exp
    rw [hx]
    split
    · exact ⟨gone_upd h, by simp [At, upd]⟩
    · exact ⟨h, h1, h2⟩
  · have hx : A.expired e s' k = true := by unfold A.expired; rw [h3]; simpa using h4
    have hx' : A.expired e s k = false := by unfold A.expired; rw [h2]
    unfold A.exp
    rw [hx, hx']
    simp only [if_true, Bool.false_eq_true, if_false]
    refine ⟨fun x => ?_, by simp [At, upd, h1, h2]⟩
    simp only [upd]
    by_cases hxk : k = x
    · subst hxk; simp only [if_pos rfl, h1, h2]; exact .inl ⟨rfl, rfl⟩
    · simp only [if_neg hxk]; exact h x

theorem gone_at_look {β : Type} {as : AObj → Option β} (h : At s s' k) : A.look as s' k = A.look as s k := by
  unfold A.look; rw [h.1]

theorem gone_at_orNew {β : Type} {as : AObj → Option β} {fr : AObj} (h : DGone T s s') (ha : At s s' k) :
    (A.orNew as fr s' k).1 = (A.orNew as fr s k).1 ∧ DGone T (A.orNew as fr s k).2 (A.orNew as fr s' k).2 ∧ At (A.orNew as fr s k).2 (A.orNew as fr s' k).2 k := by
  unfold A.orNew
  rw [ha.1]
  cases s.v k with
  | none => exact ⟨rfl, gone_put h ha, by simp [At, A.put, upd, ha.2]⟩
  | some o => exact ⟨rfl, h, ha⟩

theorem gone_opLoop {f stop} {e : Env} : ∀ (rest : List Bytes) (h : Fn Unit) {s s' : AS}, DGone e.now s s' →
    (A.opLoop f stop e rest h s').1 = (A.opLoop f stop e rest h s).1 ∧ DGone e.now (A.opLoop f stop e rest h s).2 (A.opLoop f stop e rest h s').2
  | [], _, _, _, ha => ⟨rfl, ha⟩
  | key :: rest, h, s, s', ha => by
    obtain ⟨h1, h2⟩ := gone_exp (e := e) (k := key) ha
    unfold A.opLoop
    simp only [gone_at_look (as := AObj.asSet) h2]
    cases A.look AObj.asSet (A.exp e s key) key with
    | missing =>
      simp only
      split
      · exact ⟨rfl, h1⟩
      · exact gone_opLoop rest h h1
    | wrong => exact ⟨rfl, h1⟩
    | found g => exact gone_opLoop rest _ h1

end

/-- take apart a goal `PairG _ (body) (body)` -/
macro "cmd_gone" : tactic =>
  `(tactic| repeat' (with_reducible first
      | exact True.intro
      | refine pairG_some ?_
      | refine pairG_bind fun _ _ => ?_
      | dsimp only
      | split))

section
variable {s s' : AS} {e : Env} {args : List Bytes}

theorem gone_setOp {f stop} (h : DGone e.now s s') : PairG e.now (A.setOp f stop e args s) (A.setOp f stop e args s') := by
  unfold A.setOp
  refine pairG_bind fun key hkey => ?_
  obtain ⟨h3, h4⟩ := gone_exp (e := e) (k := key) h
  simp only [gone_at_look (as := AObj.asSet) h4]
  cases A.look AObj.asSet (A.exp e s key) key with
  | missing => exact pairG_some h3
  | wrong => exact pairG_some h3
  | found g =>
    obtain ⟨q1, q2⟩ := gone_opLoop (f := f) (stop := stop) (e := e) (args.drop 2) g h3
    simp only
    generalize A.opLoop f stop e (args.drop 2) g (A.exp e s key) = x at q1 q2
    generalize A.opLoop f stop e (args.drop 2) g (A.exp e s' key) = y at q1 q2
    obtain ⟨x1, x2⟩ := x
    obtain ⟨y1, y2⟩ := y
    simp only at q1 q2
    subst q1
    cases y1 with
    | inl _ => exact pairG_some q2
    | inr _ => exact pairG_some q2

set_option hygiene false in
/-- A command that looks the key up after dropping it if expired. -/
macro "gone_look" as:term : tactic =>
  `(tactic| (
    refine pairG_bind fun key hkey => ?_
    obtain ⟨h3, h4⟩ := gone_exp (e := e) (k := key) h
    simp only [gone_at_look (as := $as) h4]
    cases A.look $as (A.exp e s key) key <;> cmd_gone <;> first | exact h3 | exact gone_put h3 h4 | exact h))

set_option hygiene false in
/-- A command that makes a new value if there is none. -/
macro "gone_new" as:term:max fr:term:max : tactic =>
  `(tactic| (
    try (split; exact pairG_some h)
    refine pairG_bind fun key hkey => ?_
    obtain ⟨h3, h4, h5⟩ := gone_at_orNew (as := $as) (fr := $fr) (k := key) h (hw key hkey)
    generalize A.orNew $as $fr s key = x at h3 h4 h5
    generalize A.orNew $as $fr s' key = y at h3 h4 h5
    obtain ⟨x1, x2⟩ := x
    obtain ⟨y1, y2⟩ := y
    simp only at h3 h4 h5
    subst h3
    cmd_gone <;> first | exact h4 | exact gone_put h4 h5))

theorem gone_det {c : Cmd} {f} (hc : aFn c = some f) (hb : blind c = true → ∀ k, args[1]? = some k → A.expired e s' k = false)
    (hp : c = .keys → ∀ p, args[1]? = some p → A.pat e p ≠ none) (h : DGone e.now s s') : PairG e.now (f e args s) (f e args s') := by
  have hw : blind c = true → ∀ k, args[1]? = some k → At s s' k := by
    intro h1 k hk
    rcases h k with h2 | ⟨_, _, d, h3, h4⟩
    · exact h2
    · have := hb h1 k hk
      unfold A.expired at this
      rw [h3] at this
      simp at this
      omega
  cases c <;> cases hc
  case sdiff => exact gone_setOp h
  case sinter => exact gone_setOp h
  case sunion => exact gone_setOp h
  case ping => exact pairG_some h
  case expire =>
    have hw := hw rfl
    unfold A.expire
    refine pairG_bind fun key hkey => ?_
    cmd_gone <;> first | exact h | exact gone_t h (hw _ hkey)
  case expireat =>
    have hw := hw rfl
    unfold A.expireAt
    refine pairG_bind fun key hkey => ?_
    cmd_gone <;> first | exact h | exact gone_t h (hw _ hkey)
  case set => unfold A.set; cmd_gone; exact gone_upd h
  case setex => unfold A.setEx; cmd_gone <;> first | exact h | exact gone_upd h
  case ttl =>
    have hw := hw rfl
    unfold A.ttl
    refine pairG_bind fun key hkey => ?_
    rw [(hw _ hkey).1, (hw _ hkey).2]
    cmd_gone <;> exact h
  case get =>
    unfold A.get
    refine pairG_bind fun key hkey => ?_
    obtain ⟨h3, h4⟩ := gone_exp (e := e) (k := key) h
    dsimp only
    rw [h4.1]; cmd_gone <;> exact h3
  case keys =>
    unfold A.keys
    refine pairG_bind fun pattern hpat => ?_
    cases hm : A.pat e pattern with
    | none => exact absurd hm (hp rfl pattern hpat)
    | some m =>
      have hv : ∀ x, m x = true → (A.sweep e m s').v x = (A.sweep e m s).v x := by
        intro x hx
        rcases h x with ⟨h1, h2⟩ | ⟨h1, h2, d, h3, h4⟩
        · simp only [A.sweep, A.expired, h1, h2]; rfl
        · have : A.expired e s' x = true := by unfold A.expired; rw [h3]; simpa using h4
          simp only [A.sweep, hx, this, Bool.and_self, if_true, h1]
          split <;> rfl
      refine ⟨fun x => ?_, rfl, ?_⟩
      · rcases h x with ⟨h1, h2⟩ | ⟨h1, h2, d, h3, h4⟩
        · simp only [A.sweep, A.expired, h1, h2]; exact .inl ⟨rfl, rfl⟩
        · have q1 : A.expired e s' x = true := by unfold A.expired; rw [h3]; simpa using h4
          have q2 : A.expired e s x = false := by unfold A.expired; rw [h2]
          simp only [A.sweep, q1, q2, h1, h2, h3, Bool.and_true, Bool.and_false, Bool.false_and, Bool.false_eq_true, if_false, Option.isSome_none]
          by_cases hx : m x = true
          · simp only [hx, if_true, Bool.true_and]
            cases s'.v x with
            | none => exact .inr ⟨rfl, rfl, d, rfl, h4⟩
            | some o => exact .inl ⟨rfl, rfl⟩
          · simp only [hx, Bool.false_eq_true, if_false, Bool.false_and]
            exact .inr ⟨rfl, rfl, d, rfl, h4⟩
      · have : (fun x => if m x = true then (A.sweep e m s').v x else none) = fun x => if m x = true then (A.sweep e m s).v x else none := by
          funext x
          split
          · next hx => exact hv x hx
          · rfl
        simp only [this]
  case hset => have hw := hw rfl; unfold A.hset; gone_new AObj.asHash (AObj.hash nil)
  case sadd => have hw := hw rfl; unfold A.sadd; gone_new AObj.asSet (AObj.set nil)
  case lpush => have hw := hw rfl; unfold A.lpush; gone_new AObj.asList (AObj.list Quicklist.new)
  case rpush => have hw := hw rfl; unfold A.rpush; gone_new AObj.asList (AObj.list Quicklist.new)
  case zadd => have hw := hw rfl; unfold A.zadd; gone_new AObj.asZset (AObj.zset A.zNew)
  case hget => unfold A.hget; gone_look AObj.asHash
  case hdel => unfold A.hdel; gone_look AObj.asHash
  case hexists => unfold A.hexists; gone_look AObj.asHash
  case hkeys => unfold A.hkeys; gone_look AObj.asHash
  case hlen => unfold A.hlen; gone_look AObj.asHash
  case lpop => unfold A.lpop A.popCmd; gone_look AObj.asList
  case rpop => unfold A.rpop A.popCmd; gone_look AObj.asList
  case llen => unfold A.llen; gone_look AObj.asList
  case lindex => unfold A.lindex; gone_look AObj.asList
  case lrange => unfold A.lrange; gone_look AObj.asList
  case srem => unfold A.srem; gone_look AObj.asSet
  case scard => unfold A.scard; gone_look AObj.asSet
  case sismember => unfold A.sismember; gone_look AObj.asSet
  case smembers => unfold A.smembers; gone_look AObj.asSet
  case zrange => unfold A.zrange; gone_look AObj.asZset
  case zrangebyscore => unfold A.zrangeByScore; gone_look AObj.asZset
  case zcount => unfold A.zcount; gone_look AObj.asZset
  case zremrangebyscore => unfold A.zremRangeByScore; gone_look AObj.asZset
  case zremrangebyrank => unfold A.zremRangeByRank; gone_look AObj.asZset
  case zrem => unfold A.zrem; gone_look AObj.asZset
  case zcard => unfold A.zcard; gone_look AObj.asZset
  case zscore => unfold A.zscore; gone_look AObj.asZset

/-- The timer drops keys that are past their deadline. -/
theorem gone_swept {T : Int} {d d1 d' : AS} (h : DGone T d d') (hT : T ≤ e.now) (hs : Swept e d d1) : DGone e.now d1 d' := by
  intro k
  rcases (h k).later hT with ⟨h1, h2⟩ | ⟨h1, h2, x, h3, h4⟩
  · rcases hs k with ⟨q1, q2⟩ | ⟨q0, q1, q2⟩
    · exact .inl ⟨h1.trans q1.symm, h2.trans q2.symm⟩
    · refine .inr ⟨q1, q2, ?_⟩
      unfold A.expired at q0
      rw [h2]
      cases hx : d.t k with
      | none => rw [hx] at q0; cases q0
      | some x => rw [hx] at q0; exact ⟨x, rfl, by simpa using q0⟩
  · rcases hs k with ⟨q1, q2⟩ | ⟨q0, q1, q2⟩
    · exact .inr ⟨q1.trans h1, q2.trans h2, x, h3, h4⟩
    · exact .inr ⟨q1, q2, x, h3, h4⟩
end
end Metis
