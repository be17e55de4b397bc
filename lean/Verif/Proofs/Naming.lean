import Verif.Proofs.Step
import Verif.Proofs.Server
import Verif.Spec.Naming
import Mathlib.Data.List.Nodup
/-!
Renaming of keys on the view of a database (Proofs/Abs.lean): every command that is given its keys acts alike on the renamed keys.
-/
set_option linter.unusedSectionVars false
set_option linter.unusedSimpArgs false
set_option linter.unusedVariables false
namespace Metis.NamingSim
open Metis A Spec

/-- The same table under new names; `σ` undoes the renaming. -/
def ren {V : Type} (σ : Bytes → Bytes) (f : Fn V) : Fn V := fun k => f (σ k)
def renS (σ : Bytes → Bytes) (s : AS) : AS := ⟨ren σ s.v, ren σ s.t⟩
def renO (σ : Bytes → Bytes) (a : AOut) : AOut := ⟨renS σ a.s, a.dirty, a.reply⟩

variable {ρ σ : Bytes → Bytes}

section
variable (h1 : ∀ k, σ (ρ k) = k) (h2 : ∀ k, ρ (σ k) = k)
include h1 h2

theorem upd_ren {V : Type} (f : Fn V) (k : Bytes) (o : Option V) : upd (ren σ f) (ρ k) o = ren σ (upd f k o) := by
  funext x
  unfold upd ren
  by_cases h : ρ k = x
  · subst h; simp [h1]
  · have : ¬ k = σ x := by rintro rfl; exact h (h2 x)
    simp [h, this]

theorem ren_at {V : Type} (f : Fn V) (k : Bytes) : ren σ f (ρ k) = f k := by unfold ren; rw [h1]

theorem v_ren (s : AS) (k : Bytes) : (renS σ s).v (ρ k) = s.v k := ren_at h1 h2 _ k
theorem t_ren (s : AS) (k : Bytes) : (renS σ s).t (ρ k) = s.t k := ren_at h1 h2 _ k

theorem expired_ren (e : Env) (s : AS) (k : Bytes) : expired e (renS σ s) (ρ k) = expired e s k := by
  unfold expired; rw [t_ren h1 h2]

theorem exp_ren (e : Env) (s : AS) (k : Bytes) : exp e (renS σ s) (ρ k) = renS σ (exp e s k) := by
  unfold exp
  rw [expired_ren h1 h2]
  split
  · simp only [renS, upd_ren h1 h2]
  · rfl

theorem put_ren (s : AS) (k : Bytes) (o : AObj) : put (renS σ s) (ρ k) o = renS σ (put s k o) := by
  simp only [put, renS, upd_ren h1 h2]

theorem look_ren {β : Type} (as : AObj → Option β) (s : AS) (k : Bytes) : look as (renS σ s) (ρ k) = look as s k := by
  unfold look; rw [v_ren h1 h2]

theorem orNew_ren {β : Type} (as : AObj → Option β) (fresh : AObj) (s : AS) (k : Bytes) :
    orNew as fresh (renS σ s) (ρ k) = ((orNew as fresh s k).1, renS σ (orNew as fresh s k).2) := by
  unfold orNew
  rw [v_ren h1 h2]
  split
  · rw [put_ren h1 h2]
  · rfl

theorem opLoop_ren (f : Bool → Bool → Bool) (stop : Bool) (e : Env) (ks : List Bytes) : ∀ (h : Fn Unit) (s : AS),
    opLoop f stop e (ks.map ρ) h (renS σ s) = ((opLoop f stop e ks h s).1, renS σ (opLoop f stop e ks h s).2) := by
  induction ks with
  | nil => intro h s; rfl
  | cons k ks ih =>
    intro h s
    simp only [List.map_cons, opLoop, exp_ren h1 h2, look_ren h1 h2]
    split
    · split
      · rfl
      · exact ih _ _
    · rfl
    · exact ih _ _
end

theorem ren_setOp (h1 : ∀ k, σ (ρ k) = k) (h2 : ∀ k, ρ (σ k) = k) (f : Bool → Bool → Bool) (stop : Bool) (e : Env) (args : List Bytes) (s : AS) (c : Cmd)
    (hc : c = .sdiff ∨ c = .sinter ∨ c = .sunion) : setOp f stop e (renArgs ρ c args) (renS σ s) = (setOp f stop e args s).map (renO σ) := by
  have : ∀ a ks, renArgs ρ c (a :: ks) = a :: ks.map ρ := by rcases hc with rfl | rfl | rfl <;> intros <;> rfl
  have hn : renArgs ρ c [] = [] := by rcases hc with rfl | rfl | rfl <;> rfl
  rcases args with _ | ⟨a, _ | ⟨k, rest⟩⟩
  · rw [hn]; rfl
  · rw [this]; rfl
  · rw [this]
    simp only [setOp, List.map_cons, List.getElem?_cons_succ, List.getElem?_cons_zero, List.drop_succ_cons, List.drop_zero, Option.bind_eq_bind, Option.bind_some, exp_ren h1 h2, look_ren h1 h2,
      opLoop_ren h1 h2]
    cases look AObj.asSet (exp e s k) k with
    | missing => rfl
    | wrong => rfl
    | found h =>
      simp only
      rcases opLoop f stop e rest h (exp e s k) with ⟨_ | _, _⟩ <;> rfl

theorem ren_pop (h1 : ∀ k, σ (ρ k) = k) (h2 : ∀ k, ρ (σ k) = k) (pop : Quicklist Bytes → Option (Option Bytes × Quicklist Bytes)) (e : Env) (a k : Bytes) (rest : List Bytes) (s : AS) :
    popCmd pop e (a :: ρ k :: rest) (renS σ s) = (popCmd pop e (a :: k :: rest) s).map (renO σ) := by
  simp only [popCmd, List.getElem?_cons_succ, List.getElem?_cons_zero, Option.bind_eq_bind, Option.bind_some, exp_ren h1 h2, look_ren h1 h2, put_ren h1 h2]
  cases look AObj.asList (exp e s k) k with
  | missing => rfl
  | wrong => rfl
  | found q =>
    simp only
    split
    · rfl
    · rcases pop q with _ | ⟨_ | _, _⟩ <;> rfl

theorem ren_det (h1 : ∀ k, σ (ρ k) = k) (h2 : ∀ k, ρ (σ k) = k) {c : Cmd} {f} (hf : aFn c = some f) (hc : c ≠ .keys) (e : Env) (args : List Bytes) (s : AS) :
    f e (renArgs ρ c args) (renS σ s) = (f e args s).map (renO σ) := by
  have e1 := @exp_ren ρ σ h1 h2
  have e2 := @put_ren ρ σ h1 h2
  have e3 := @v_ren ρ σ h1 h2
  have e4 := @t_ren ρ σ h1 h2
  have e5 : ∀ {β : Type} (as : AObj → Option β) (s : AS) (k : Bytes), look as (renS σ s) (ρ k) = look as s k := @look_ren ρ σ h1 h2
  have e6 : ∀ {β : Type} (as : AObj → Option β) (fresh : AObj) (s : AS) (k : Bytes),
    orNew as fresh (renS σ s) (ρ k) = ((orNew as fresh s k).1, renS σ (orNew as fresh s k).2) := @orNew_ren ρ σ h1 h2
  have e7 : ∀ {V : Type} (f : Fn V) (k : Bytes) (o : Option V), upd (ren σ f) (ρ k) o = ren σ (upd f k o) := @upd_ren ρ σ h1 h2
  have e8 := @opLoop_ren ρ σ h1 h2
  have e9 : ∀ (s : AS) (k : Bytes) (o : Option Int), (⟨(renS σ s).v, upd (renS σ s).t (ρ k) o⟩ : AS) = renS σ ⟨s.v, upd s.t k o⟩ := by
    intro s k o; simp only [renS, e7]
  have e10 : ∀ (s : AS) (k : Bytes) (o : Option Int) (x : Option AObj), (⟨upd (renS σ s).v (ρ k) x, upd (renS σ s).t (ρ k) o⟩ : AS) = renS σ ⟨upd s.v k x, upd s.t k o⟩ := by
    intro s k o x; simp only [renS, e7]
  have e11 : ∀ (a k : Bytes) (rest : List Bytes) (els : List (Option Elem)), Reply.zset e (a :: ρ k :: rest) els = Reply.zset e (a :: k :: rest) els := fun _ _ _ _ => rfl
  cases c <;> cases hf <;> first | exact absurd rfl hc | skip
  case ping => rfl
  case sdiff => exact ren_setOp h1 h2 _ _ e args s .sdiff (.inl rfl)
  case sinter => exact ren_setOp h1 h2 _ _ e args s .sinter (.inr (.inl rfl))
  case sunion => exact ren_setOp h1 h2 _ _ e args s .sunion (.inr (.inr rfl))
  all_goals
    rcases args with _ | ⟨a, _ | ⟨k, rest⟩⟩ <;> first
      | rfl
      | (simp only [renArgs, A.expire, A.expireAt, A.ttl, A.set, A.setEx, A.get, A.hset, A.hget, A.hdel, A.hexists, A.hkeys, A.hlen, A.lpush, A.rpush, A.lpop, A.rpop, A.llen, A.lindex,
          A.lrange, A.sadd, A.srem, A.scard, A.sismember, A.smembers, A.zadd, A.zrange, A.zrangeByScore, A.zrem, A.zremRangeByRank, A.zremRangeByScore, A.zcard, A.zcount, A.zscore,
          List.getElem?_cons_succ, List.getElem?_cons_zero, List.getElem?_nil, List.drop_succ_cons, List.drop_zero, List.length_cons, Option.bind_eq_bind, Option.bind_some, Option.bind_none,
          Option.map_none, e1, e2, e3, e4, e5, e6, e9, e10, e11, Option.map_bind]
         try rfl
         try (repeat' (first | rfl | split | simp only [e1, e2, e3, e4, e5, e6, e9, e10, Option.map_bind, Option.map_some, Option.map_none, renO]))
         done)
      | skip
  case lpop => exact ren_pop h1 h2 _ e a k rest s
  case rpop => exact ren_pop h1 h2 _ e a k rest s
  all_goals
    rcases rest with _ | ⟨b, _ | ⟨c, rest⟩⟩ <;>
     (simp only [renArgs, A.expire, A.expireAt, A.setEx, A.hget, A.lindex, A.lrange, A.zadd, A.zrange, A.zrangeByScore, A.zremRangeByRank, A.zremRangeByScore, A.zcount, A.zscore, A.sismember, A.hexists,
          List.getElem?_cons_succ, List.getElem?_cons_zero, List.getElem?_nil, List.drop_succ_cons, List.drop_zero, List.length_cons, List.length_nil, Option.bind_eq_bind, Option.bind_some, Option.bind_none,
          Option.map_none, e1, e2, e3, e4, e5, e6, e9, e10, e11, Option.map_bind]
      try rfl
      try (repeat' (first | rfl | split | (congr 1; funext x; simp only [Function.comp]) | simp only [e1, e2, e3, e4, e5, e6, e9, e10, Option.map_bind, Option.map_some, Option.map_none, renO])))
/-- KEYS *: the new names of the keys. -/
theorem ren_keys (h1 : ∀ k, σ (ρ k) = k) (h2 : ∀ k, ρ (σ k) = k) (e : Env) (a0 : Bytes) (s : AS) {a : AOut} (h : A.keys e [a0, b!"*"] s = some a) :
    ∃ a', A.keys e [a0, b!"*"] (renS σ s) = some a' ∧ a'.s = renS σ a.s ∧ a'.dirty = a.dirty ∧
      ∀ r r', a.reply r → a'.reply r' → ∃ l l', r = Reply.array l ∧ r' = Reply.array l' ∧ l'.Perm (l.map ρ) := by
  have hp : A.pat e b!"*" = some (fun _ => true) := if_pos rfl
  have hsw : sweep e (fun _ => true) (renS σ s) = renS σ (sweep e (fun _ => true) s) := rfl
  simp only [A.keys, List.getElem?_cons_succ, List.getElem?_cons_zero, Option.bind_eq_bind, Option.bind_some, hp] at h ⊢
  cases h
  refine ⟨_, rfl, hsw, rfl, ?_⟩
  rintro r r' ⟨l, ⟨n1, m1⟩, rfl⟩ ⟨l', ⟨n2, m2⟩, rfl⟩
  refine ⟨l, l', rfl, rfl, ?_⟩
  have hinj : Function.Injective ρ := fun x y hxy => by rw [← h1 x, hxy, h1]
  rw [List.perm_ext_iff_of_nodup n2 (n1.map hinj)]
  intro x
  rw [m2, hsw]
  simp only [if_true, List.mem_map]
  constructor
  · intro hx
    exact ⟨σ x, (m1 _).2 hx, h2 x⟩
  · rintro ⟨y, hy, rfl⟩
    have := (m1 y).1 hy
    simp only [if_true] at this
    rw [v_ren h1 h2]; exact this

end Metis.NamingSim
