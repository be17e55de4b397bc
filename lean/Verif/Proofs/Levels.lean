import Verif.Proofs.Apart
import Verif.Proofs.ZSim
/-!
Databases whose sorted sets have skiplists of different shapes: no command (ZREMRANGEBYRANK from ranks beyond the first apart) can tell them from each other.
-/
set_option linter.unusedSectionVars false
set_option linter.unusedSimpArgs false
set_option linter.unusedVariables false
namespace Metis
open Spec Metis.Skiplist Metis.Skip

/-! ### Databases -/

/-- The same value, or sorted sets that cannot be told from each other. -/
def VLike : Option AObj → Option AObj → Prop
  | some (.zset z), some (.zset z') => ZSim z z'
  | o, o' => o' = o ∧ ∀ z, o ≠ some (.zset z)

/-- The same values, up to the shape of skiplists, and the same deadlines. -/
def DLike (s s' : AS) : Prop := ∀ k, VLike (s.v k) (s'.v k) ∧ s'.t k = s.t k

/-- Two results: both nothing, or the same up to the shape of skiplists. -/
def Pair2 : Option AOut → Option AOut → Prop
  | none, none => True
  | some a, some a' => DLike a.s a'.s ∧ a'.dirty = a.dirty ∧ a'.reply = a.reply
  | _, _ => False

section
variable {s s' : AS} {k : Bytes}

theorem vlike_zset {z z' : AZ} (h : ZSim z z') : VLike (some (.zset z)) (some (.zset z')) := h

theorem vlike_none {o : Option AObj} : VLike none o ↔ o = none := by
  cases o with
  | none => exact ⟨fun _ => rfl, fun _ => ⟨rfl, fun z h => by cases h⟩⟩
  | some o => exact ⟨fun h => h.1, fun h => by cases h⟩

theorem vlike_cases {o o' : Option AObj} (h : VLike o o') : (o' = o ∧ ∀ z, o ≠ some (.zset z)) ∨ ∃ z z', o = some (.zset z) ∧ o' = some (.zset z') ∧ ZSim z z' := by
  cases o with
  | none => exact Or.inl h
  | some a =>
    cases a with
    | zset z =>
      cases o' with
      | none => exact absurd rfl (h.2 z)
      | some a' =>
        cases a' with
        | zset z' => exact Or.inr ⟨z, z', rfl, rfl, h⟩
        | _ => exact absurd rfl (h.2 z)
    | _ => exact Or.inl h

theorem vlike_isSome {o o' : Option AObj} (h : VLike o o') : o'.isSome = o.isSome := by
  rcases vlike_cases h with ⟨h, _⟩ | ⟨z, z', rfl, rfl, _⟩
  · rw [h]
  · rfl

theorem pair2_some {n : Nat} {r : List Bytes → Prop} (h : DLike s s') : Pair2 (some ⟨s, n, r⟩) (some ⟨s', n, r⟩) := ⟨h, rfl, rfl⟩

theorem pair2_bind {α : Type} {x : Option α} {f f' : α → Option AOut} (h : ∀ a, x = some a → Pair2 (f a) (f' a)) : Pair2 (x >>= f) (x >>= f') := by
  cases x with
  | none => trivial
  | some a => exact h a rfl

theorem dlike_upd {o o' : Option AObj} {t : Option Int} (h : DLike s s') (ho : VLike o o') : DLike ⟨upd s.v k o, upd s.t k t⟩ ⟨upd s'.v k o', upd s'.t k t⟩ := by
  intro x
  obtain ⟨h1, h2⟩ := h x
  simp only [upd, h2]
  by_cases hx : k = x
  · simp only [if_pos hx]; exact ⟨ho, trivial⟩
  · simp only [if_neg hx]; exact ⟨h1, trivial⟩

theorem dlike_t {t : Option Int} (h : DLike s s') : DLike ⟨s.v, upd s.t k t⟩ ⟨s'.v, upd s'.t k t⟩ := by
  intro x
  obtain ⟨h1, h2⟩ := h x
  simp only [upd, h2]; exact ⟨h1, trivial⟩

theorem dlike_put {o o' : AObj} (h : DLike s s') (ho : VLike (some o) (some o')) : DLike (A.put s k o) (A.put s' k o') := by
  intro x
  obtain ⟨h1, h2⟩ := h x
  simp only [A.put, upd]
  by_cases hx : k = x
  · simp only [if_pos hx]; exact ⟨ho, h2⟩
  · simp only [if_neg hx]; exact ⟨h1, h2⟩

theorem dlike_expired {e : Env} (h : DLike s s') : A.expired e s' k = A.expired e s k := by unfold A.expired; rw [(h k).2]

theorem dlike_exp {e : Env} (h : DLike s s') : DLike (A.exp e s k) (A.exp e s' k) := by
  unfold A.exp; rw [dlike_expired h]
  split
  · exact dlike_upd h (vlike_none.2 rfl)
  · exact h

/-- The accessor does not give sorted sets. -/
def NoZ {β : Type} (as : AObj → Option β) : Prop := ∀ z, as (.zset z) = none

theorem dlike_look {β : Type} {as : AObj → Option β} (ha : NoZ as) (h : DLike s s') : A.look as s' k = A.look as s k := by
  unfold A.look
  rcases vlike_cases (h k).1 with ⟨h, _⟩ | ⟨z, z', h1, h2, _⟩
  · rw [h]
  · rw [h1, h2]; simp only [show as (.zset z) = none from ha z, show as (.zset z') = none from ha z']

/-- What the accessor for sorted sets gives. -/
def LookL : Db.Look AZ → Db.Look AZ → Prop
  | .missing, .missing => True
  | .wrong, .wrong => True
  | .found z, .found z' => ZSim z z'
  | _, _ => False

theorem dlike_lookZ (h : DLike s s') : LookL (A.look AObj.asZset s k) (A.look AObj.asZset s' k) := by
  unfold A.look
  rcases vlike_cases (h k).1 with ⟨h1, h2⟩ | ⟨z, z', h1, h2, h3⟩
  · rw [h1]
    cases ho : s.v k with
    | none => trivial
    | some o => cases o <;> first | trivial | exact absurd ho (h2 _)
  · rw [h1, h2]; exact h3

theorem dlike_orNew {β : Type} {as : AObj → Option β} {fr : AObj} (ha : NoZ as) (hf : ∀ z, fr ≠ .zset z) (h : DLike s s') :
    (A.orNew as fr s' k).1 = (A.orNew as fr s k).1 ∧ DLike (A.orNew as fr s k).2 (A.orNew as fr s' k).2 := by
  have hfr : VLike (some fr) (some fr) := by cases fr <;> first | exact ⟨rfl, fun z h => by cases h⟩ | exact absurd rfl (hf _)
  unfold A.orNew
  rcases vlike_cases (h k).1 with ⟨h1, _⟩ | ⟨z, z', h1, h2, _⟩
  · rw [h1]
    cases s.v k with
    | none => exact ⟨rfl, dlike_put h hfr⟩
    | some o => exact ⟨rfl, h⟩
  · rw [h1, h2]; exact ⟨(ha z').trans (ha z).symm, h⟩

theorem dlike_opLoop {f stop} {e : Env} : ∀ (rest : List Bytes) (h : Fn Unit) {s s' : AS}, DLike s s' →
    (A.opLoop f stop e rest h s').1 = (A.opLoop f stop e rest h s).1 ∧ DLike (A.opLoop f stop e rest h s).2 (A.opLoop f stop e rest h s').2
  | [], _, _, _, ha => ⟨rfl, ha⟩
  | key :: rest, h, s, s', ha => by
    have h1 := dlike_exp (e := e) (k := key) ha
    unfold A.opLoop
    simp only [dlike_look (as := AObj.asSet) (k := key) (fun _ => rfl) h1]
    cases A.look AObj.asSet (A.exp e s key) key with
    | missing =>
      simp only
      split
      · exact ⟨rfl, h1⟩
      · exact dlike_opLoop rest h h1
    | wrong => exact ⟨rfl, h1⟩
    | found g => exact dlike_opLoop rest _ h1

end

/-- take apart a goal `Pair2 (body) (body)` -/
macro "cmd_pair" : tactic =>
  `(tactic| repeat' (with_reducible first
      | exact True.intro
      | refine pair2_some ?_
      | refine pair2_bind fun _ _ => ?_
      | dsimp only
      | split))

section
variable {s s' : AS} {e : Env} {args : List Bytes}

theorem pair_setOp {f stop} (h : DLike s s') : Pair2 (A.setOp f stop e args s) (A.setOp f stop e args s') := by
  unfold A.setOp
  refine pair2_bind fun key hkey => ?_
  have h3 := dlike_exp (e := e) (k := key) h
  simp only [dlike_look (as := AObj.asSet) (k := key) (fun _ => rfl) h3]
  cases A.look AObj.asSet (A.exp e s key) key with
  | missing => exact pair2_some h3
  | wrong => exact pair2_some h3
  | found g =>
    obtain ⟨q1, q2⟩ := dlike_opLoop (f := f) (stop := stop) (e := e) (args.drop 2) g h3
    simp only
    generalize A.opLoop f stop e (args.drop 2) g (A.exp e s key) = x at q1 q2
    generalize A.opLoop f stop e (args.drop 2) g (A.exp e s' key) = y at q1 q2
    obtain ⟨x1, x2⟩ := x
    obtain ⟨y1, y2⟩ := y
    simp only at q1 q2
    subst q1
    cases y1 with
    | inl _ => exact pair2_some q2
    | inr _ => exact pair2_some q2

set_option hygiene false in
/-- A command that looks the key up after dropping it if expired. -/
macro "pair_look" as:term : tactic =>
  `(tactic| (
    refine pair2_bind fun key hkey => ?_
    have h3 := dlike_exp (e := e) (k := key) h
    simp only [dlike_look (as := $as) (k := key) (fun _ => rfl) h3]
    cases A.look $as (A.exp e s key) key <;> cmd_pair <;> first | exact h3 | exact dlike_put h3 ⟨rfl, fun z h => by cases h⟩ | exact h))

set_option hygiene false in
/-- A command that makes a new value if there is none. -/
macro "pair_new" as:term:max fr:term:max : tactic =>
  `(tactic| (
    try (split; exact pair2_some h)
    refine pair2_bind fun key hkey => ?_
    obtain ⟨h3, h4⟩ := dlike_orNew (as := $as) (fr := $fr) (k := key) (fun _ => rfl) (fun z h => by cases h) h
    generalize A.orNew $as $fr s key = x at h3 h4
    generalize A.orNew $as $fr s' key = y at h3 h4
    obtain ⟨x1, x2⟩ := x
    obtain ⟨y1, y2⟩ := y
    simp only at h3 h4
    subst h3
    cmd_pair <;> first | exact h4 | exact dlike_put h4 ⟨rfl, fun z h => by cases h⟩))

theorem mem_at {i : Nat} {w : Bytes} (h : args[i]? = some w) : w ∈ args := List.mem_of_getElem? h

theorem pair_zadd {lv : Nat → Nat} (l1 : LevelsOk e.level) (l2 : LevelsOk lv) (hn : NoNaN e args) (h : DLike s s') :
    Pair2 (A.zadd e args s) (A.zadd { e with level := lv } args s') := by
  unfold A.zadd
  split
  · exact pair2_some h
  · refine pair2_bind fun key hkey => ?_
    have hnew : (∃ z z', A.orNew AObj.asZset (.zset A.zNew) s key = (some z, (A.orNew AObj.asZset (.zset A.zNew) s key).2) ∧
        A.orNew AObj.asZset (.zset A.zNew) s' key = (some z', (A.orNew AObj.asZset (.zset A.zNew) s' key).2) ∧ ZSim z z') ∨
        (A.orNew AObj.asZset (.zset A.zNew) s key = (none, (A.orNew AObj.asZset (.zset A.zNew) s key).2) ∧
          A.orNew AObj.asZset (.zset A.zNew) s' key = (none, (A.orNew AObj.asZset (.zset A.zNew) s' key).2)) := by
      unfold A.orNew
      rcases vlike_cases (h key).1 with ⟨h1, h2⟩ | ⟨z, z', h1, h2, h3⟩
      · rw [h1]
        cases ho : s.v key with
        | none => exact Or.inl ⟨_, _, rfl, rfl, zsim_new⟩
        | some o => cases o <;> first | exact Or.inr ⟨rfl, rfl⟩ | exact absurd ho (h2 _)
      · rw [h1, h2]; exact Or.inl ⟨_, _, rfl, rfl, h3⟩
    have hd : DLike (A.orNew AObj.asZset (.zset A.zNew) s key).2 (A.orNew AObj.asZset (.zset A.zNew) s' key).2 := by
      unfold A.orNew
      rcases vlike_cases (h key).1 with ⟨h1, h2⟩ | ⟨z, z', h1, h2, h3⟩
      · rw [h1]
        cases ho : s.v key with
        | none => exact dlike_put h zsim_new
        | some o => exact h
      · rw [h1, h2]; exact h
    generalize (A.orNew AObj.asZset (.zset A.zNew) s key).2 = u at hnew hd
    generalize (A.orNew AObj.asZset (.zset A.zNew) s' key).2 = u' at hnew hd
    rcases hnew with ⟨z, z', q1, q2, q3⟩ | ⟨q1, q2⟩
    · rw [q1, q2]
      obtain ⟨y, y', j, c, bad, p1, p2, p3⟩ := zaddLoop_pair (e := e) (e2 := { e with level := lv }) rfl l1 l2 (args.drop 2) 0 0 (fun w hw => hn w (List.mem_of_mem_drop hw)) q3
      simp only [p1, p2, Option.bind_eq_bind, Option.bind_some]
      cases bad with
      | none => exact pair2_some (dlike_put hd p3)
      | some _ => exact pair2_some (dlike_put hd p3)
    · rw [q1, q2]
      exact pair2_some hd

/-- Sorted-set commands that look the key up. -/
theorem pair_lookZ {α : Type} {key : Bytes} {m w : α} {f : AZ → α} {P : α → α → Prop} (h : DLike s s') (h1 : P m m) (h2 : P w w) {f' : AZ → α}
    (h3 : ∀ z z', ZSim z z' → P (f z) (f' z')) :
    P (match A.look AObj.asZset s key with | .missing => m | .wrong => w | .found z => f z)
      (match A.look AObj.asZset s' key with | .missing => m | .wrong => w | .found z => f' z) := by
  have := dlike_lookZ (k := key) h
  revert this
  cases A.look AObj.asZset s key <;> cases A.look AObj.asZset s' key <;> intro this <;> first | exact this.elim | exact h1 | exact h2 | exact h3 _ _ this

theorem pair_det {c : Cmd} {f} (hc : aFn c = some f) (hz : c ≠ .zadd) (hz2 : c = .zremrangebyrank → FromFirst args) (hn : scoring c = true → NoNaN e args) (h : DLike s s') :
    Pair2 (f e args s) (f e args s') := by
  cases c <;> cases hc
  case zadd => exact absurd rfl hz
  case zremrangebyrank =>
    unfold A.zremRangeByRank
    refine pair2_bind fun key hkey => pair2_bind fun a ha => ?_
    split
    · exact pair2_some h
    next i hi =>
    refine pair2_bind fun b hb => ?_
    split
    · exact pair2_some h
    next j hj =>
    have h3 := dlike_exp (e := e) (k := key) h
    have := dlike_lookZ (k := key) h3
    revert this
    dsimp only
    cases A.look AObj.asZset (A.exp e s key) key <;> cases A.look AObj.asZset (A.exp e s' key) key <;> intro this <;>
      first | exact this.elim | exact pair2_some h3 | skip
    next z z' =>
    have this : ZSim z z' := this
    obtain ⟨es, es', y, y', q1, q2, q3, q4⟩ := this.remRank (hz2 rfl a b i j ha hb hi hj) (atoi_lt hi)
    simp only [q1, q2, Option.bind_eq_bind, Option.bind_some, q3]
    exact pair2_some (dlike_put h3 q4)
  case sdiff => exact pair_setOp h
  case sinter => exact pair_setOp h
  case sunion => exact pair_setOp h
  case ping => exact pair2_some h
  case expire => unfold A.expire; cmd_pair <;> first | exact h | exact dlike_t h
  case expireat => unfold A.expireAt; cmd_pair <;> first | exact h | exact dlike_t h
  case set => unfold A.set; cmd_pair; exact dlike_upd h ⟨rfl, fun z h => by cases h⟩
  case setex => unfold A.setEx; cmd_pair <;> first | exact h | exact dlike_upd h ⟨rfl, fun z h => by cases h⟩
  case ttl =>
    unfold A.ttl
    refine pair2_bind fun key hkey => ?_
    have h1 := vlike_isSome (h key).1
    rw [(h key).2]
    cases ho : s.v key <;> cases ho' : s'.v key <;> rw [ho, ho'] at h1 <;> first | (cases h1; done) | skip
    · exact pair2_some h
    · cmd_pair <;> exact h
  case get =>
    unfold A.get
    refine pair2_bind fun key hkey => ?_
    have h3 := dlike_exp (e := e) (k := key) h
    dsimp only
    rcases vlike_cases (h3 key).1 with ⟨h1, _⟩ | ⟨z, z', h1, h2, _⟩
    · rw [h1]; cmd_pair <;> exact h3
    · rw [h1, h2]; exact pair2_some h3
  case keys =>
    unfold A.keys
    have hs : ∀ m, DLike (A.sweep e m s) (A.sweep e m s') := by
      intro m k
      simp only [A.sweep, dlike_expired h, vlike_isSome (h k).1, (h k).2]
      by_cases hx : (m k && A.expired e s k) = true
      · simp only [hx, if_true]; exact ⟨vlike_none.2 rfl, trivial⟩
      · simp only [if_neg hx]; exact ⟨(h k).1, trivial⟩
    refine pair2_bind fun pattern hp => ?_
    cases A.pat e pattern with
    | none =>
      refine ⟨h, rfl, ?_⟩
      have hnn : ∀ k, s'.v k = none ↔ s.v k = none := by
        intro k
        have := vlike_isSome (h k).1
        cases h1 : s.v k <;> cases h2 : s'.v k <;> simp [h1, h2] at this ⊢
      have hss : ∀ k, (s'.v k).isSome = (s.v k).isSome := fun k => vlike_isSome (h k).1
      funext r
      simp only [hnn, hss]
    | some m =>
      refine ⟨hs m, rfl, ?_⟩
      funext r
      simp only [A.dom, Enum]
      have : ∀ x, (if m x = true then (A.sweep e m s').v x else none).isSome = (if m x = true then (A.sweep e m s).v x else none).isSome := by
        intro x
        split
        · exact vlike_isSome (hs m x).1
        · rfl
      simp only [this]
  case hset => unfold A.hset; pair_new AObj.asHash (AObj.hash nil)
  case sadd => unfold A.sadd; pair_new AObj.asSet (AObj.set nil)
  case lpush => unfold A.lpush; pair_new AObj.asList (AObj.list Quicklist.new)
  case rpush => unfold A.rpush; pair_new AObj.asList (AObj.list Quicklist.new)
  case hget => unfold A.hget; pair_look AObj.asHash
  case hdel => unfold A.hdel; pair_look AObj.asHash
  case hexists => unfold A.hexists; pair_look AObj.asHash
  case hkeys => unfold A.hkeys; pair_look AObj.asHash
  case hlen => unfold A.hlen; pair_look AObj.asHash
  case lpop => unfold A.lpop A.popCmd; pair_look AObj.asList
  case rpop => unfold A.rpop A.popCmd; pair_look AObj.asList
  case llen => unfold A.llen; pair_look AObj.asList
  case lindex => unfold A.lindex; pair_look AObj.asList
  case lrange => unfold A.lrange; pair_look AObj.asList
  case srem => unfold A.srem; pair_look AObj.asSet
  case scard => unfold A.scard; pair_look AObj.asSet
  case sismember => unfold A.sismember; pair_look AObj.asSet
  case smembers => unfold A.smembers; pair_look AObj.asSet
  case zrange =>
    unfold A.zrange
    refine pair2_bind fun key hkey => pair2_bind fun a ha => ?_
    split
    · exact pair2_some h
    refine pair2_bind fun b hb => ?_
    split
    · exact pair2_some h
    have h3 := dlike_exp (e := e) (k := key) h
    have := dlike_lookZ (k := key) h3
    revert this
    dsimp only
    cases A.look AObj.asZset (A.exp e s key) key <;> cases A.look AObj.asZset (A.exp e s' key) key <;> intro this <;>
      first | exact this.elim | exact pair2_some h3 | skip
    next z z' =>
    have this : ZSim z z' := this
    simp only [this.byRank]
    cmd_pair
    exact h3
  case zrangebyscore =>
    unfold A.zrangeByScore
    refine pair2_bind fun key hkey => pair2_bind fun a ha => ?_
    split
    · exact pair2_some h
    next min hmin =>
    refine pair2_bind fun b hb => ?_
    split
    · exact pair2_some h
    next max hmax =>
    have h3 := dlike_exp (e := e) (k := key) h
    have := dlike_lookZ (k := key) h3
    revert this
    dsimp only
    cases A.look AObj.asZset (A.exp e s key) key <;> cases A.look AObj.asZset (A.exp e s' key) key <;> intro this <;>
      first | exact this.elim | exact pair2_some h3 | skip
    next z z' =>
    have this : ZSim z z' := this
    simp only [(this.byScore (hn rfl _ (mem_at ha) _ hmin) (hn rfl _ (mem_at hb) _ hmax)).1]
    cmd_pair
    exact h3
  case zcount =>
    unfold A.zcount
    refine pair2_bind fun key hkey => pair2_bind fun a ha => ?_
    split
    · exact pair2_some h
    next min hmin =>
    refine pair2_bind fun b hb => ?_
    split
    · exact pair2_some h
    next max hmax =>
    have h3 := dlike_exp (e := e) (k := key) h
    have := dlike_lookZ (k := key) h3
    revert this
    dsimp only
    cases A.look AObj.asZset (A.exp e s key) key <;> cases A.look AObj.asZset (A.exp e s' key) key <;> intro this <;>
      first | exact this.elim | exact pair2_some h3 | skip
    next z z' =>
    have this : ZSim z z' := this
    simp only [(this.byScore (hn rfl _ (mem_at ha) _ hmin) (hn rfl _ (mem_at hb) _ hmax)).2]
    cmd_pair
    exact h3
  case zremrangebyscore =>
    unfold A.zremRangeByScore
    refine pair2_bind fun key hkey => pair2_bind fun a ha => ?_
    split
    · exact pair2_some h
    next min hmin =>
    refine pair2_bind fun b hb => ?_
    split
    · exact pair2_some h
    next max hmax =>
    have h3 := dlike_exp (e := e) (k := key) h
    have := dlike_lookZ (k := key) h3
    revert this
    dsimp only
    cases A.look AObj.asZset (A.exp e s key) key <;> cases A.look AObj.asZset (A.exp e s' key) key <;> intro this <;>
      first | exact this.elim | exact pair2_some h3 | skip
    next z z' =>
    have this : ZSim z z' := this
    obtain ⟨es, es', y, y', q1, q2, q3, q4⟩ := this.remScore (hn rfl _ (mem_at ha) _ hmin) (hn rfl _ (mem_at hb) _ hmax)
    simp only [q1, q2, Option.bind_eq_bind, Option.bind_some, q3]
    exact pair2_some (dlike_put h3 q4)
  case zrem =>
    unfold A.zrem
    refine pair2_bind fun key hkey => ?_
    have h3 := dlike_exp (e := e) (k := key) h
    have := dlike_lookZ (k := key) h3
    revert this
    dsimp only
    cases A.look AObj.asZset (A.exp e s key) key <;> cases A.look AObj.asZset (A.exp e s' key) key <;> intro this <;>
      first | exact this.elim | exact pair2_some h3 | skip
    next z z' =>
    have this : ZSim z z' := this
    obtain ⟨y, y', m, q1, q2, q3⟩ := zremLoop_pair (args.drop 2) 0 this
    simp only [q1, q2, Option.bind_eq_bind, Option.bind_some]
    exact pair2_some (dlike_put h3 q3)
  case zcard =>
    unfold A.zcard
    refine pair2_bind fun key hkey => ?_
    have h3 := dlike_exp (e := e) (k := key) h
    have := dlike_lookZ (k := key) h3
    revert this
    dsimp only
    cases A.look AObj.asZset (A.exp e s key) key <;> cases A.look AObj.asZset (A.exp e s' key) key <;> intro this <;>
      first | exact this.elim | exact pair2_some h3 | skip
    next z z' =>
    have this : ZSim z z' := this
    simp only [this.len]
    exact pair2_some h3
  case zscore =>
    unfold A.zscore
    refine pair2_bind fun key hkey => ?_
    have h3 := dlike_exp (e := e) (k := key) h
    have := dlike_lookZ (k := key) h3
    revert this
    dsimp only
    cases A.look AObj.asZset (A.exp e s key) key <;> cases A.look AObj.asZset (A.exp e s' key) key <;> intro this <;>
      first | exact this.elim | exact pair2_some h3 | skip
    next z z' =>
    have this : ZSim z z' := this
    simp only [this.get]
    cmd_pair <;> exact h3
end

/-! ### The levels in the environment -/

theorem opLoop_level (lv : Nat → Nat) (e : Env) (f stop) : ∀ (l : List Bytes) (g : Fn Unit) (s : AS),
    A.opLoop f stop { e with level := lv } l g s = A.opLoop f stop e l g s
  | [], _, _ => rfl
  | k :: rest, g, s => by
    unfold A.opLoop
    simp only [show A.exp { e with level := lv } s k = A.exp e s k from rfl]
    cases A.look AObj.asSet (A.exp e s k) k with
    | missing => simp only [opLoop_level lv e f stop rest]
    | wrong => rfl
    | found x => exact opLoop_level lv e f stop rest _ _

theorem setOp_level (lv : Nat → Nat) (e : Env) (f stop args s) : A.setOp f stop { e with level := lv } args s = A.setOp f stop e args s := by
  unfold A.setOp
  simp only [opLoop_level]
  rfl

theorem zElems_level (lv : Nat → Nat) (e : Env) (ws : Bool) : ∀ l, Reply.zElems { e with level := lv } ws l = Reply.zElems e ws l
  | [] => rfl
  | none :: _ => rfl
  | some _ :: rest => by unfold Reply.zElems; rw [zElems_level lv e ws rest]

theorem zset_level (lv : Nat → Nat) (e : Env) (args els) : Reply.zset { e with level := lv } args els = Reply.zset e args els := by
  unfold Reply.zset; simp only [zElems_level]

theorem aFn_level {c : Cmd} {f} (hc : aFn c = some f) (hz : c ≠ .zadd) (lv : Nat → Nat) (e : Env) (args : List Bytes) (s : AS) :
    f { e with level := lv } args s = f e args s := by
  cases c <;> cases hc <;> first | rfl | skip
  case zadd => exact absurd rfl hz
  case sdiff => exact setOp_level ..
  case sinter => exact setOp_level ..
  case sunion => exact setOp_level ..
  case zrange => unfold A.zrange; simp only [zset_level]; rfl
  case zrangebyscore => unfold A.zrangeByScore; simp only [zset_level]; rfl

/-- Any deterministic command, with other levels and another hash function, on a database with other skiplists. -/
theorem pair_all {s s' : AS} {e : Env} {args : List Bytes} {c : Cmd} {f} (hc : aFn c = some f) (hz : c = .zremrangebyrank → FromFirst args) {lv : Nat → Nat}
    {h' : Bytes → Nat} (l1 : LevelsOk e.level) (l2 : LevelsOk lv) (hn : scoring c = true → NoNaN e args) (h : DLike s s') :
    Pair2 (f e args s) (f { e with hash := h', level := lv } args s') := by
  rw [show ({ e with hash := h', level := lv } : Env) = { { e with level := lv } with hash := h' } from rfl, aFn_hash hc h']
  by_cases hq : c = .zadd
  · subst hq; cases hc
    exact pair_zadd l1 l2 (hn rfl) h
  · rw [aFn_level hc hq lv e args s']
    exact pair_det hc hq hz hn h

end Metis
