import Verif.Spec.Reference
import Verif.Proofs.Total
import Verif.Proofs.Coll
import Verif.Proofs.ZCmd
import Verif.Proofs.Reply
/-!
The commands of the server, seen through `Proofs/Abs.lean`, do what the reference does.
-/
set_option linter.unusedSectionVars false
set_option linter.unusedSimpArgs false
set_option linter.unusedVariables false
namespace Metis.RefSim
open Metis Metis.Spec
open _root_.Metis.Spec (Ref.Val Ref.Store Ref.Effect Ref.put Ref.late Ref.hold Ref.fresh Ref.gives Ref.fails Ref.enumerates Ref.counts)

/-- The value a key holds, without its representation. -/
def val : AObj → Ref.Val
  | .str b => .str b
  | .list q => .list q.pages.flatten
  | .hash f => .hash f
  | .set f => .set (fun x => (f x).isSome)
  | .zset z => .zset z.f

/-- A database without its representation. -/
def store (s : AS) : Ref.Store := ⟨fun k => (s.v k).map val, s.t⟩

theorem store_val (s : AS) (k : Bytes) : (store s).val k = (s.v k).map val := rfl

theorem map_upd (f : Fn AObj) (k : Bytes) (o : Option AObj) : (fun x => (upd f k o x).map val) = Ref.put (fun x => (f x).map val) k (o.map val) := by
  funext x; unfold upd Ref.put; split <;> rfl

theorem store_put (s : AS) (k : Bytes) (o : AObj) : store (A.put s k o) = Ref.hold (store s) k (val o) := by
  unfold store A.put Ref.hold; simp only [map_upd]; rfl

theorem late_iff {e : Env} {s : AS} {k : Bytes} : Ref.late e.now (store s) k ↔ A.expired e s k = true := by
  unfold Ref.late A.expired store
  cases h : s.t k <;> simp [h]

theorem store_exp (e : Env) (s : AS) (k : Bytes) : store (A.exp e s k) = Ref.fresh e.now (store s) k := by
  unfold A.exp Ref.fresh
  by_cases h : A.expired e s k = true
  · rw [if_pos h, if_pos (late_iff.2 h)]; unfold store; simp only [map_upd]; rfl
  · rw [if_neg h, if_neg (fun x => h (late_iff.1 x))]

/-- What the reply says and what the database has become is possible in the reference. -/
def Sim (P : Ref.Effect) (o : Option AOut) : Prop := ∀ a, o = some a → ∀ r, a.reply r → ∃ v, Says r v ∧ P (store a.s) v

theorem sim_none {P : Ref.Effect} : Sim P none := by intro a h; cases h

theorem sim_gives {s : AS} {n : Nat} {r : List Bytes} {v : Value} (h : Says r v) : Sim (Ref.gives (store s) v) (some ⟨s, n, A.ex r⟩) := by
  intro a ha x hx; cases ha; cases hx; exact ⟨v, h, rfl, rfl⟩

theorem sim_fails {s : AS} {n : Nat} {t : Bytes} : Sim (Ref.fails (store s)) (some ⟨s, n, A.ex (Reply.error t)⟩) := by
  intro a ha x hx; cases ha; cases hx; exact ⟨_, says_error t, rfl, _, rfl⟩

theorem sim_dom {s : AS} {n : Nat} {V : Type} {f : Fn V} {p : Bytes → Prop} (h : ∀ x, (f x).isSome = true ↔ p x) :
    Sim (Ref.enumerates (store s) p) (some ⟨s, n, A.dom f⟩) := by
  intro a ha x hx; cases ha; obtain ⟨l, hl, rfl⟩ := hx
  exact ⟨_, says_array l, rfl, l, rfl, hl.1, fun y => (hl.2 y).trans (h y)⟩

theorem sim_card {s : AS} {n : Nat} {V : Type} {f : Fn V} {p : Bytes → Prop} (h : ∀ x, (f x).isSome = true ↔ p x) :
    Sim (Ref.counts (store s) p) (some ⟨s, n, A.card f⟩) := by
  intro a ha x hx; cases ha; obtain ⟨l, hl, rfl⟩ := hx
  exact ⟨_, says_int _, rfl, l, rfl, hl.1, fun y => (hl.2 y).trans (h y)⟩

theorem sim_counts {s : AS} {n : Nat} {m : Int} {l : List Bytes} {p : Bytes → Prop} (hm : m = l.length) (h : Lists l p) :
    Sim (Ref.counts (store s) p) (some ⟨s, n, A.ex (Reply.int m)⟩) := by
  intro a ha x hx; cases ha; cases hx; subst hm
  exact ⟨_, says_int _, rfl, l, rfl, h⟩

theorem isSome_ne {V : Type} (o : Option V) : o.isSome = true ↔ o ≠ none := by cases o <;> simp

/-! ### keys -/

theorem wrap_fits {n : Int} (h : Ref.Fits n) : wrap64 n = n := by
  unfold Ref.Fits at h; unfold wrap64; omega

theorem wrap_add (a b : Int) (h : Ref.Fits (a + b)) : wrap64 (a + wrap64 b) = a + b := by
  unfold Ref.Fits at h; unfold wrap64; omega

section
variable {e : Env} {s : AS} {n k a b : Bytes} {rest : List Bytes}

theorem sim_expire (h : ∀ i, atoi a = some i → Ref.Fits (e.now + i * 1000)) :
    Sim (Ref.expire e (k :: a :: rest) (store s)) (A.expire e (n :: k :: a :: rest) s) := by
  simp only [A.expire, Ref.expire, List.getElem?_cons_succ, List.getElem?_cons_zero, Option.bind_eq_bind, Option.bind_some]
  cases hi : atoi a with
  | none => exact sim_fails
  | some i => simp only [wrap_add _ _ (h i hi)]; exact sim_gives says_ok

theorem sim_expireat (h : ∀ i, atoi a = some i → Ref.Fits (i * 1000)) :
    Sim (Ref.expireat (k :: a :: rest) (store s)) (A.expireAt e (n :: k :: a :: rest) s) := by
  simp only [A.expireAt, Ref.expireat, List.getElem?_cons_succ, List.getElem?_cons_zero, Option.bind_eq_bind, Option.bind_some]
  cases hi : atoi a with
  | none => exact sim_fails
  | some i => simp only [wrap_fits (h i hi)]; exact sim_gives says_ok

theorem sim_ttl (h : ∀ d, (store s).due k = some d → Ref.Fits (d - e.now)) :
    Sim (Ref.ttl e (k :: rest) (store s)) (A.ttl e (n :: k :: rest) s) := by
  simp only [A.ttl, Ref.ttl, List.getElem?_cons_succ, List.getElem?_cons_zero, Option.bind_eq_bind, Option.bind_some, store_val]
  have hd : (store s).due k = s.t k := rfl
  rw [hd] at h ⊢
  cases s.v k with
  | none => exact sim_gives (says_int _)
  | some o =>
    cases ht : s.t k with
    | none => exact sim_gives (says_int _)
    | some d => simp only [wrap_fits (h d ht)]; exact sim_gives (says_int _)

open Classical in
theorem sim_keys : Sim (Ref.keys e (a :: rest) (store s)) (A.keys e (n :: a :: rest) s) := by
  simp only [A.keys, Ref.keys, List.getElem?_cons_succ, List.getElem?_cons_zero, Option.bind_eq_bind, Option.bind_some, A.pat]
  have he : ∀ k, (store s).val k = none ↔ s.v k = none := fun k => by rw [store_val]; cases s.v k <;> simp
  cases (if a = b!"*" then some (fun _ => true) else e.compile a) with
  | none =>
    intro o ho r hr
    cases ho
    rcases hr with ⟨h1, rfl⟩ | ⟨⟨k, hk⟩, rfl⟩
    · exact ⟨_, says_array _, Or.inl ⟨fun k => (he k).2 (h1 k), rfl, rfl⟩⟩
    · exact ⟨_, says_error _, Or.inr ⟨⟨k, fun h => by rw [(he k).1 h] at hk; cases hk⟩, rfl, _, rfl⟩⟩
  | some m =>
    have hs : store (A.sweep e m s) = ⟨fun k => if m k = true ∧ Ref.late e.now (store s) k then none else (store s).val k,
        fun k => if m k = true ∧ Ref.late e.now (store s) k ∧ (store s).val k ≠ none then none else (store s).due k⟩ := by
      unfold A.sweep
      simp only [late_iff]
      unfold store
      congr 1
      · funext k
        simp only [Bool.and_eq_true]
        split <;> rfl
      · funext k
        simp only [Bool.and_eq_true, isSome_ne, and_assoc]
        cases s.v k <;> simp
    simp only
    rw [← hs]
    refine sim_dom fun x => ?_
    unfold A.sweep
    simp only [late_iff, store_val]
    cases hm : m x <;> cases hx : A.expired e s x <;> cases s.v x <;> simp [hm, hx]

theorem swept_store {s' : AS} (h : Swept e s s') : Ref.Swept e.now (store s) (store s') := by
  intro k
  rcases h k with ⟨h1, h2⟩ | ⟨h1, h2, h3⟩
  · exact Or.inl ⟨by rw [store_val, store_val, h1], h2⟩
  · exact Or.inr ⟨late_iff.2 h1, by rw [store_val, h2]; rfl, h3⟩

theorem sim_randomget : ∀ (ks : List Bytes) (s0 s : AS), Swept e s0 s → Sim (Ref.randomget e (store s0)) (A.randomGet e ks s)
  | [], s0, s, h => by
    intro o ho r hr
    cases ho
    obtain ⟨h1, rfl⟩ := hr
    exact ⟨_, says_null, swept_store h, Or.inr ⟨rfl, fun k => by rw [store_val, h1]; rfl⟩⟩
  | k :: ks, s0, s, h => by
    unfold A.randomGet
    split
    · exact sim_none
    next hk =>
      split
      · exact sim_randomget ks s0 _ (swept_trans h swept_exp)
      next hx =>
        intro o ho r hr
        cases ho
        cases hr
        refine ⟨_, says_bulk k, swept_store h, Or.inl ⟨k, rfl, ?_, fun hl => hx (late_iff.1 hl)⟩⟩
        rw [store_val]
        cases hv : s.v k
        · simp [hv] at hk
        · simp

/-! ### strings -/

theorem sim_set : Sim (Ref.set (k :: a :: rest) (store s)) (A.set e (n :: k :: a :: rest) s) := by
  simp only [A.set, Ref.set, List.getElem?_cons_succ, List.getElem?_cons_zero, Option.bind_eq_bind, Option.bind_some]
  have := @sim_gives ⟨upd s.v k (some (.str a)), upd s.t k none⟩ 1 _ _ says_ok
  unfold store at this ⊢
  simp only [map_upd] at this
  exact this

theorem sim_setex (h : ∀ i, atoi a = some i → Ref.Fits (e.now + i * 1000)) :
    Sim (Ref.setex e (k :: a :: b :: rest) (store s)) (A.setEx e (n :: k :: a :: b :: rest) s) := by
  simp only [A.setEx, Ref.setex, List.getElem?_cons_succ, List.getElem?_cons_zero, Option.bind_eq_bind, Option.bind_some]
  cases hi : atoi a with
  | none => exact sim_fails
  | some i =>
    simp only [wrap_add _ _ (h i hi)]
    have := @sim_gives ⟨upd s.v k (some (.str b)), upd s.t k (some (e.now + i * 1000))⟩ 1 _ _ says_ok
    unfold store at this ⊢
    simp only [map_upd] at this
    exact this

/-- Opens a command that looks up its first key. -/
macro "look" : tactic => `(tactic| (
  simp only [List.getElem?_cons_succ, List.getElem?_cons_zero, Option.bind_eq_bind, Option.bind_some, ← store_exp, List.drop_succ_cons, List.drop_zero]))

theorem sim_get : Sim (Ref.get e (k :: rest) (store s)) (A.get e (n :: k :: rest) s) := by
  unfold A.get Ref.get; look
  generalize A.exp e s k = s1
  rw [store_val]
  rcases s1.v k with _ | (x | x | x | x | x)
  · exact sim_gives says_null
  · exact sim_gives (says_bulk _)
  all_goals exact sim_fails

/-! ### hashes -/

theorem pairArgs_paired : ∀ (l : List Bytes), l.length % 2 = 0 → pairArgs (Ref.paired l) = l
  | [], _ => rfl
  | [x], h => by simp at h
  | x :: y :: l, h => by
    have := pairArgs_paired l (by simp only [List.length_cons] at h; omega)
    simp only [Ref.paired, pairArgs, List.flatMap_cons] at this ⊢
    rw [this]; rfl

theorem sim_hset : Sim (Ref.hset (k :: rest) (store s)) (A.hset e (n :: k :: rest) s) := by
  unfold A.hset Ref.hset
  by_cases hp : rest.length % 2 = 1
  · rw [if_pos (by simp only [List.length_cons]; omega)]
    simp only [if_pos hp]; exact sim_fails
  · rw [if_neg (by simp only [List.length_cons]; omega)]
    simp only [if_neg hp]
    look
    cases hh : Ref.hashOr ((store s).val k) with
    | none =>
      unfold A.orNew
      rw [store_val] at hh
      rcases hv : s.v k with _ | (x | x | x | x | x) <;> rw [hv] at hh <;> first | (cases hh; done) | exact sim_fails
    | some h =>
      obtain ⟨s1, h1, h2⟩ := orNew_hash (s := s) (k := k) (h := h) (by
        rw [store_val] at hh
        rcases hv : s.v k with _ | (x | x | x | x | x) <;> rw [hv] at hh <;> exact hh)
      obtain ⟨l, h3, h4⟩ := hsetLoop_spec (Ref.paired rest) h 0
      rw [pairArgs_paired rest (by omega)] at h4
      simp only [h1, h4, h2]
      rw [show Ref.Val.hash (assigned (Ref.paired rest) h) = val (.hash (assigned (Ref.paired rest) h)) from rfl, ← store_put]
      exact sim_counts (by simp) h3

theorem sim_hget : Sim (Ref.hget e (k :: a :: rest) (store s)) (A.hget e (n :: k :: a :: rest) s) := by
  unfold A.hget Ref.hget; look
  generalize A.exp e s k = s1
  rw [store_val]; unfold A.look
  rcases s1.v k with _ | (x | x | x | x | x)
  · exact sim_gives says_null
  · exact sim_fails
  · exact sim_fails
  · simp only [AObj.asHash, val, Option.map]
    cases x a
    · exact sim_gives says_null
    · exact sim_gives (says_bulk _)
  · exact sim_fails
  · exact sim_fails

theorem sim_hdel : Sim (Ref.hdel e (k :: rest) (store s)) (A.hdel e (n :: k :: rest) s) := by
  unfold A.hdel Ref.hdel; look
  generalize A.exp e s k = s1
  rw [store_val]; unfold A.look
  rcases s1.v k with _ | (x | x | x | x | x)
  · exact sim_gives (says_int _)
  · exact sim_fails
  · exact sim_fails
  · obtain ⟨l, h1, h2⟩ := delLoop_spec rest x 0
    simp only [AObj.asHash, val, Option.map, h2]
    rw [show (Ref.Val.hash fun y => if y ∈ rest then none else x y) = val (.hash fun y => if y ∈ rest then none else x y) from rfl, ← store_put]
    refine sim_counts (l := l) (by simp) ⟨h1.1, fun y => by simp only [h1.2 y, isSome_ne]⟩
  · exact sim_fails
  · exact sim_fails

theorem sim_hexists : Sim (Ref.hexists e (k :: a :: rest) (store s)) (A.hexists e (n :: k :: a :: rest) s) := by
  unfold A.hexists Ref.hexists; look
  generalize A.exp e s k = s1
  rw [store_val]; unfold A.look
  rcases s1.v k with _ | (x | x | x | x | x)
  · exact sim_gives (says_int _)
  · exact sim_fails
  · exact sim_fails
  · exact sim_gives (says_int _)
  · exact sim_fails
  · exact sim_fails

theorem sim_hkeys : Sim (Ref.hkeys e (k :: rest) (store s)) (A.hkeys e (n :: k :: rest) s) := by
  unfold A.hkeys Ref.hkeys; look
  generalize A.exp e s k = s1
  rw [store_val]; unfold A.look
  rcases s1.v k with _ | (x | x | x | x | x)
  · exact sim_gives says_empty
  · exact sim_fails
  · exact sim_fails
  · exact sim_dom (fun _ => isSome_ne _)
  · exact sim_fails
  · exact sim_fails

theorem sim_hlen : Sim (Ref.hlen e (k :: rest) (store s)) (A.hlen e (n :: k :: rest) s) := by
  unfold A.hlen Ref.hlen; look
  generalize A.exp e s k = s1
  rw [store_val]; unfold A.look
  rcases s1.v k with _ | (x | x | x | x | x)
  · exact sim_gives (says_int _)
  · exact sim_fails
  · exact sim_fails
  · exact sim_card (fun _ => isSome_ne _)
  · exact sim_fails
  · exact sim_fails

/-! ### sets -/

theorem sim_sadd : Sim (Ref.sadd (k :: rest) (store s)) (A.sadd e (n :: k :: rest) s) := by
  unfold A.sadd Ref.sadd; look
  cases hh : Ref.setOr ((store s).val k) with
  | none =>
    unfold A.orNew
    rw [store_val] at hh
    rcases hv : s.v k with _ | (x | x | x | x | x) <;> rw [hv] at hh <;> first | (cases hh; done) | exact sim_fails
  | some p =>
    obtain ⟨f, s1, h1, hf, h2⟩ := orNew_set (s := s) (k := k) (h := p) (by
      rw [store_val] at hh
      rcases hv : s.v k with _ | (x | x | x | x | x) <;> rw [hv] at hh <;> exact hh)
    obtain ⟨l, h3, h4, h5⟩ := saddLoop_spec rest f 0
    simp only [h1, h2]
    rw [show Ref.Val.set (fun x => p x || decide (x ∈ rest)) = val (.set (A.saddLoop rest f 0).1) from by simp only [val, h5, hf], ← store_put]
    exact sim_counts (by simp [h4]) ⟨h3.1, fun x => by simp only [h3.2 x, hf]⟩

theorem sim_srem : Sim (Ref.srem e (k :: rest) (store s)) (A.srem e (n :: k :: rest) s) := by
  unfold A.srem Ref.srem; look
  generalize A.exp e s k = s1
  rw [store_val]; unfold A.look
  rcases s1.v k with _ | (x | x | x | x | x)
  · exact sim_gives (says_int _)
  · exact sim_fails
  · exact sim_fails
  · exact sim_fails
  · obtain ⟨l, h1, h2⟩ := delLoop_spec rest x 0
    simp only [AObj.asSet, val, Option.map, h2]
    rw [show (Ref.Val.set fun y => (x y).isSome && !decide (y ∈ rest)) = val (.set fun y => if y ∈ rest then none else x y) from by
      simp only [val]; congr 1; funext y; by_cases hy : y ∈ rest <;> simp [hy], ← store_put]
    exact sim_counts (by simp) h1
  · exact sim_fails

theorem sim_spop {m : Bytes} : Sim (Ref.spop e (k :: rest) (store s)) (A.spop m e (n :: k :: rest) s) := by
  unfold A.spop Ref.spop; look
  generalize A.exp e s k = s1
  rw [store_val]; unfold A.look
  rcases s1.v k with _ | (x | x | x | x | x)
  · exact sim_gives says_null
  · exact sim_fails
  · exact sim_fails
  · exact sim_fails
  · simp only [AObj.asSet, val, Option.map]
    split
    next hm =>
      intro o ho r hr
      cases ho; cases hr
      refine ⟨_, says_bulk m, Or.inl ⟨m, hm, ?_, rfl⟩⟩
      rw [store_put]
      simp only [val]
      congr 2
      funext y
      unfold upd
      by_cases hy : m = y
      · subst hy; simp
      · simp [hy, Ne.symm hy, fun h : y = m => hy h.symm]
    · exact sim_none
  · exact sim_fails

theorem sim_spopEmpty : Sim (Ref.spop e (k :: rest) (store s)) (A.spopEmpty e (n :: k :: rest) s) := by
  unfold A.spopEmpty Ref.spop; look
  generalize A.exp e s k = s1
  rw [store_val]; unfold A.look
  rcases s1.v k with _ | (x | x | x | x | x)
  · exact sim_none
  · exact sim_none
  · exact sim_none
  · exact sim_none
  · intro o ho r hr
    cases ho
    obtain ⟨h1, rfl⟩ := hr
    exact ⟨_, says_null, Or.inr ⟨fun m => by simp [h1], rfl, rfl⟩⟩
  · exact sim_none

theorem sim_scard : Sim (Ref.scard e (k :: rest) (store s)) (A.scard e (n :: k :: rest) s) := by
  unfold A.scard Ref.scard; look
  generalize A.exp e s k = s1
  rw [store_val]; unfold A.look
  rcases s1.v k with _ | (x | x | x | x | x)
  · exact sim_gives (says_int _)
  · exact sim_fails
  · exact sim_fails
  · exact sim_fails
  · exact sim_card (fun _ => Iff.rfl)
  · exact sim_fails

theorem sim_sismember : Sim (Ref.sismember e (k :: a :: rest) (store s)) (A.sismember e (n :: k :: a :: rest) s) := by
  unfold A.sismember Ref.sismember; look
  generalize A.exp e s k = s1
  rw [store_val]; unfold A.look
  rcases s1.v k with _ | (x | x | x | x | x)
  · exact sim_gives (says_int _)
  · exact sim_fails
  · exact sim_fails
  · exact sim_fails
  · exact sim_gives (says_int _)
  · exact sim_fails

theorem sim_smembers : Sim (Ref.smembers e (k :: rest) (store s)) (A.smembers e (n :: k :: rest) s) := by
  unfold A.smembers Ref.smembers; look
  generalize A.exp e s k = s1
  rw [store_val]; unfold A.look
  rcases s1.v k with _ | (x | x | x | x | x)
  · exact sim_gives says_empty
  · exact sim_fails
  · exact sim_fails
  · exact sim_fails
  · exact sim_dom (fun _ => Iff.rfl)
  · exact sim_fails

/-- the end of SDIFF, SINTER and SUNION -/
def done : (Fn Unit ⊕ List Bytes) × AS → Option AOut
  | (.inr r, s) => some ⟨s, 0, A.ex r⟩
  | (.inl h, s) => some ⟨s, 0, A.dom h⟩

theorem sim_combine {op : Bool → Bool → Bool} {all : Bool} : ∀ (ks : List Bytes) (h : Fn Unit) (p : Bytes → Bool) (s : AS), (∀ x, (h x).isSome = p x) →
    Sim (Ref.combine op all e ks p (store s)) (done (A.opLoop op all e ks h s))
  | [], h, p, s, hp => sim_dom (fun x => by rw [hp])
  | k :: ks, h, p, s, hp => by
    unfold A.opLoop Ref.combine
    simp only [← store_exp]
    generalize A.exp e s k = s1
    rw [store_val]; unfold A.look
    rcases s1.v k with _ | (x | x | x | x | x)
    · simp only [Option.map]
      cases all
      · exact sim_combine ks h p s1 hp
      · exact sim_gives says_empty
    · exact sim_fails
    · exact sim_fails
    · exact sim_fails
    · refine sim_combine ks _ _ s1 (fun y => ?_)
      rw [← hp]
      cases op (h y).isSome (x y).isSome <;> rfl
    · exact sim_fails

theorem sim_setop {op : Bool → Bool → Bool} {all : Bool} : Sim (Ref.setop op all e (k :: rest) (store s)) (A.setOp op all e (n :: k :: rest) s) := by
  unfold A.setOp Ref.setop; look
  generalize A.exp e s k = s1
  rw [store_val]; unfold A.look
  rcases s1.v k with _ | (x | x | x | x | x)
  · exact sim_gives says_empty
  · exact sim_fails
  · exact sim_fails
  · exact sim_fails
  · have := sim_combine (e := e) (op := op) (all := all) rest x (fun y => (x y).isSome) s1 (fun _ => rfl)
    simp only [AObj.asSet, val, Option.map]
    revert this
    rcases A.opLoop op all e rest x s1 with ⟨h | h, s2⟩ <;> exact id
  · exact sim_fails

end
end Metis.RefSim
