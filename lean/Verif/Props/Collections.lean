import Verif.Proofs.Coll
import Verif.Props.Expire
/-!
Properties of the hash, set and list commands: C38, C39.

The value that a command sees is `s.seen`: nothing once the deadline has passed. The commands that add to a value look at expired
values too (C40); for them the theorems assume that the deadline has not passed.
-/
set_option linter.unusedSectionVars false
set_option linter.unusedSimpArgs false
set_option linter.unusedVariables false
namespace Metis.Props.CollectionsP
open Metis Spec Metis.Props.ServerP
variable {hash : Bytes → Nat}

/-- The deadline of the key, if any, has not passed. -/
def Live (s : Sys) (i : Nat) (now : Int) (k : Bytes) : Prop := ∀ dl, s.deadline i k = some dl → now ≤ dl

/-- A connection that may run commands, in a reachable state. -/
structure Ready (hash : Bytes → Nat) (s : Sys) (fd : Nat) (e : Env) (c : Session) : Prop where
  reach   : Reach hash s
  env     : e.hash = hash
  sess    : s.sess fd = some c
  allowed : Allowed s.srv c

section
variable {s : Sys} {fd : Nat} {e : Env} {c : Session} {n k : Bytes}

/-! ### C38: hashes -/

/-- HSET assigns the pairs in order and replies the number of new fields. -/
theorem C38_hset (R : Ready hash s fd e c) (ps : List (Bytes × Bytes)) (hne : ps ≠ [])
    (hcmd : commandOf e (n :: k :: pairArgs ps) = some .hset) (hl : Live s c.db e.now k)
    {h : Bytes → Option Bytes} (hh : hashOf (s.val c.db k) = some h) :
    ∃ s' r, Sys.step s (.request fd e (n :: k :: pairArgs ps)) = some (s', r) ∧
      s'.val c.db k = some (.hash (assigned ps h)) ∧ s'.deadline c.db k = s.deadline c.db k ∧
      ∃ l, Lists l (fun x => x ∈ ps.map Prod.fst ∧ h x = none) ∧ Says r (.int l.length) := by
  obtain ⟨d, hd⟩ := get_lt (R.reach.good.sess fd c R.sess)
  rw [val_eq hd] at hh
  obtain ⟨s1, h1, h2⟩ := orNew_hash hh
  obtain ⟨l, h3, h4⟩ := hsetLoop_spec ps h 0
  have hlen : (pairArgs ps).length = 2 * ps.length := by
    clear h3 h4 hcmd hne
    induction ps with
    | nil => rfl
    | cons p ps ih => simp [pairArgs] at ih ⊢; omega
  have hpos : 0 < ps.length := List.length_pos_iff.2 hne
  have hA : A.hset e (n :: k :: pairArgs ps) d.view =
      some ⟨A.put d.view k (.hash (assigned ps h)), (pairArgs ps).length / 2, A.ex (Reply.int (0 + l.length : Nat))⟩ := by
    unfold A.hset
    rw [if_neg (by simp [hlen]; omega)]
    simp only [List.getElem?_cons_succ, List.getElem?_cons_zero, Option.bind_eq_bind, Option.bind_some, h1, List.drop_succ_cons,
      List.drop_zero, h4, h2]
  obtain ⟨s', r, w1, w2, w3, w4⟩ := answer R.reach R.env R.sess R.allowed hcmd
    (by have : arity .hset = -4 := rfl
        simp [Server.badArity, this, hlen]; omega) (f := Cmds.hset) (f' := A.hset) rfl rfl hd hA (by decide) (by decide)
  refine ⟨s', r, w1, ?_, ?_, l, h3, ?_⟩
  · rw [w3]; simp [A.put, upd]
  · rw [w4, deadline_eq hd]; rfl
  · rw [show r = _ from w2]; simpa using says_int _

/-- HDEL removes the named fields and replies how many there were. -/
theorem C38_hdel (R : Ready hash s fd e c) (fs : List Bytes) (hne : fs ≠ []) (hcmd : commandOf e (n :: k :: fs) = some .hdel)
    {h : Bytes → Option Bytes} (hh : hashOf (s.seen c.db e.now k) = some h) :
    ∃ s' r, Sys.step s (.request fd e (n :: k :: fs)) = some (s', r) ∧
      hashOf (s'.val c.db k) = some (fun x => if x ∈ fs then none else h x) ∧
      (Live s c.db e.now k → s'.deadline c.db k = s.deadline c.db k) ∧
      ∃ l, Lists l (fun x => x ∈ fs ∧ (h x).isSome = true) ∧ Says r (.int l.length) := by
  obtain ⟨d, hd⟩ := get_lt (R.reach.good.sess fd c R.sess)
  rw [seen_eq hd] at hh
  have hok : Server.badArity (n :: k :: fs).length (arity .hdel) = false := by
    have : arity .hdel = -3 := rfl
    have := List.length_pos_iff.2 hne
    simp [Server.badArity, *]; omega
  have ht : Live s c.db e.now k → (A.exp e d.view k).t k = s.deadline c.db k := fun hl => by
    rw [exp_t_live hd hl, deadline_eq hd]
  rcases lookHash hh with ⟨h1, h2, h3⟩ | h1
  · have hA : A.hdel e (n :: k :: fs) d.view = some ⟨A.exp e d.view k, 0, A.ex (Reply.int 0)⟩ := by
      simp [A.hdel, h1]
    obtain ⟨s', r, w1, w2, w3, w4⟩ := answer R.reach R.env R.sess R.allowed hcmd hok (f := Cmds.hdel) (f' := A.hdel) rfl rfl hd hA (by decide) (by decide)
    refine ⟨s', r, w1, ?_, fun hl => by rw [w4]; exact ht hl, [], ⟨List.nodup_nil, by simp [h2, nil]⟩, ?_⟩
    · rw [w3, h3, h2]; simp [hashOf, nil]
    · rw [show r = _ from w2]; exact says_int 0
  · obtain ⟨l, h3, h4⟩ := delLoop_spec fs h 0
    have hA : A.hdel e (n :: k :: fs) d.view =
        some ⟨A.put (A.exp e d.view k) k (.hash fun x => if x ∈ fs then none else h x), l.length, A.ex (Reply.int l.length)⟩ := by
      simp [A.hdel, h1, h4]
    obtain ⟨s', r, w1, w2, w3, w4⟩ := answer R.reach R.env R.sess R.allowed hcmd hok (f := Cmds.hdel) (f' := A.hdel) rfl rfl hd hA (by decide) (by decide)
    refine ⟨s', r, w1, ?_, fun hl => by rw [w4]; exact ht hl, l, h3, ?_⟩
    · rw [w3]; simp [A.put, upd, hashOf]
    · rw [show r = _ from w2]; exact says_int _

/-- HGET, HEXISTS, HLEN, HKEYS on the map that the key holds. -/
theorem C38_hash_reads (R : Ready hash s fd e c) {h : Bytes → Option Bytes} (hh : hashOf (s.seen c.db e.now k) = some h) :
    (∀ f, commandOf e [n, k, f] = some .hget → ∃ s' r, Sys.step s (.request fd e [n, k, f]) = some (s', r) ∧
      Says r (match h f with | some v => .bulk v | none => .null)) ∧
    (∀ f, commandOf e [n, k, f] = some .hexists → ∃ s' r, Sys.step s (.request fd e [n, k, f]) = some (s', r) ∧
      Says r (.int (match h f with | some _ => 1 | none => 0))) ∧
    (commandOf e [n, k] = some .hlen → ∃ s' r l, Sys.step s (.request fd e [n, k]) = some (s', r) ∧
      Lists l (fun x => (h x).isSome = true) ∧ Says r (.int l.length)) ∧
    (commandOf e [n, k] = some .hkeys → ∃ s' r l, Sys.step s (.request fd e [n, k]) = some (s', r) ∧
      Lists l (fun x => (h x).isSome = true) ∧ Says r (.arr l)) := by
  obtain ⟨d, hd⟩ := get_lt (R.reach.good.sess fd c R.sess)
  rw [seen_eq hd] at hh
  refine ⟨fun f hcmd => ?_, fun f hcmd => ?_, fun hcmd => ?_, fun hcmd => ?_⟩
  · have hA : A.hget e [n, k, f] d.view = some ⟨A.exp e d.view k, 0, A.ex (match h f with | some v => Reply.bulk v | none => Reply.null)⟩ := by
      rcases lookHash hh with ⟨h1, h2, h3⟩ | h1
      · simp [A.hget, h1, h2, nil]
      · simp only [A.hget, List.getElem?_cons_succ, List.getElem?_cons_zero, Option.bind_eq_bind, Option.bind_some, h1]
        cases h f <;> rfl
    obtain ⟨s', r, w1, w2, w3, w4⟩ := answer R.reach R.env R.sess R.allowed hcmd rfl (f := Cmds.hget) (f' := A.hget) rfl rfl hd hA (by decide) (by decide)
    refine ⟨s', r, w1, ?_⟩
    rw [show r = _ from w2]
    cases h f
    · exact says_null
    · exact says_bulk _
  · have hA : A.hexists e [n, k, f] d.view = some ⟨A.exp e d.view k, 0, A.ex (Reply.int (match h f with | some _ => 1 | none => 0))⟩ := by
      rcases lookHash hh with ⟨h1, h2, h3⟩ | h1
      · simp [A.hexists, h1, h2, nil]
      · simp only [A.hexists, List.getElem?_cons_succ, List.getElem?_cons_zero, Option.bind_eq_bind, Option.bind_some, h1]
        cases h f <;> rfl
    obtain ⟨s', r, w1, w2, w3, w4⟩ := answer R.reach R.env R.sess R.allowed hcmd rfl (f := Cmds.hexists) (f' := A.hexists) rfl rfl hd hA (by decide) (by decide)
    exact ⟨s', r, w1, by rw [show r = _ from w2]; exact says_int _⟩
  · have hA : ∃ p, A.hlen e [n, k] d.view = some ⟨A.exp e d.view k, 0, p⟩ ∧ ∀ r, p r → ∃ l, Enum h l ∧ r = Reply.int l.length := by
      rcases lookHash hh with ⟨h1, h2, h3⟩ | h1
      · refine ⟨A.ex (Reply.int 0), ?_, fun r hr => ⟨[], ⟨List.nodup_nil, by simp [h2, nil]⟩, hr⟩⟩
        simp only [A.hlen, List.getElem?_cons_succ, List.getElem?_cons_zero, Option.bind_eq_bind, Option.bind_some, h1]
      · refine ⟨A.card h, ?_, fun r hr => hr⟩
        simp only [A.hlen, List.getElem?_cons_succ, List.getElem?_cons_zero, Option.bind_eq_bind, Option.bind_some, h1]
    obtain ⟨p, hA, hp⟩ := hA
    obtain ⟨s', r, w1, w2, w3, w4⟩ := answer R.reach R.env R.sess R.allowed hcmd rfl (f := Cmds.hlen) (f' := A.hlen) rfl rfl hd hA (by decide) (by decide)
    obtain ⟨l, p1, p2⟩ := hp r w2
    exact ⟨s', r, l, w1, p1, by rw [p2]; exact says_int _⟩
  · have hA : ∃ p, A.hkeys e [n, k] d.view = some ⟨A.exp e d.view k, 0, p⟩ ∧ ∀ r, p r → ∃ l, Enum h l ∧ r = Reply.array l := by
      rcases lookHash hh with ⟨h1, h2, h3⟩ | h1
      · refine ⟨A.ex Reply.empty, ?_, fun r hr => ⟨[], ⟨List.nodup_nil, by simp [h2, nil]⟩, hr⟩⟩
        simp only [A.hkeys, List.getElem?_cons_succ, List.getElem?_cons_zero, Option.bind_eq_bind, Option.bind_some, h1]
      · refine ⟨A.dom h, ?_, fun r hr => hr⟩
        simp only [A.hkeys, List.getElem?_cons_succ, List.getElem?_cons_zero, Option.bind_eq_bind, Option.bind_some, h1]
    obtain ⟨p, hA, hp⟩ := hA
    obtain ⟨s', r, w1, w2, w3, w4⟩ := answer R.reach R.env R.sess R.allowed hcmd rfl (f := Cmds.hkeys) (f' := A.hkeys) rfl rfl hd hA (by decide) (by decide)
    obtain ⟨l, p1, p2⟩ := hp r w2
    exact ⟨s', r, l, w1, p1, by rw [p2]; exact says_array _⟩

/-! ### C38: sets -/

/-- SADD adds the members and replies the number of new ones. -/
theorem C38_sadd (R : Ready hash s fd e c) (ms : List Bytes) (hne : ms ≠ []) (hcmd : commandOf e (n :: k :: ms) = some .sadd)
    (hl : Live s c.db e.now k) {h : Bytes → Bool} (hh : setOf (s.val c.db k) = some h) :
    ∃ s' r, Sys.step s (.request fd e (n :: k :: ms)) = some (s', r) ∧
      setOf (s'.val c.db k) = some (fun x => h x || decide (x ∈ ms)) ∧ s'.deadline c.db k = s.deadline c.db k ∧
      ∃ l, Lists l (fun x => x ∈ ms ∧ h x = false) ∧ Says r (.int l.length) := by
  obtain ⟨d, hd⟩ := get_lt (R.reach.good.sess fd c R.sess)
  rw [val_eq hd] at hh
  obtain ⟨f, s1, h1, hf, h2⟩ := orNew_set hh
  obtain ⟨l, h3, h4, h5⟩ := saddLoop_spec ms f 0
  have hpos : 0 < ms.length := List.length_pos_iff.2 hne
  have hA : A.sadd e (n :: k :: ms) d.view =
      some ⟨A.put d.view k (.set (A.saddLoop ms f 0).1), ms.length, A.ex (Reply.int (0 + l.length : Nat))⟩ := by
    unfold A.sadd
    simp only [List.getElem?_cons_succ, List.getElem?_cons_zero, Option.bind_eq_bind, Option.bind_some, h1, List.drop_succ_cons,
      List.drop_zero, h4, h2]
  obtain ⟨s', r, w1, w2, w3, w4⟩ := answer R.reach R.env R.sess R.allowed hcmd
    (by have : arity .sadd = -3 := rfl
        simp [Server.badArity, this]; omega) (f := Cmds.sadd) (f' := A.sadd) rfl rfl hd hA (by decide) (by decide)
  refine ⟨s', r, w1, ?_, ?_, l, ?_, ?_⟩
  · rw [w3]; simp only [A.put, upd_at, setOf, Option.some.injEq]; funext x; rw [h5, hf]
  · rw [w4, deadline_eq hd]; rfl
  · simpa [hf] using h3
  · rw [show r = _ from w2]; simpa using says_int _

/-- SREM removes the members and replies how many there were. -/
theorem C38_srem (R : Ready hash s fd e c) (ms : List Bytes) (hne : ms ≠ []) (hcmd : commandOf e (n :: k :: ms) = some .srem)
    {h : Bytes → Bool} (hh : setOf (s.seen c.db e.now k) = some h) :
    ∃ s' r, Sys.step s (.request fd e (n :: k :: ms)) = some (s', r) ∧
      setOf (s'.val c.db k) = some (fun x => h x && !decide (x ∈ ms)) ∧
      (Live s c.db e.now k → s'.deadline c.db k = s.deadline c.db k) ∧
      ∃ l, Lists l (fun x => x ∈ ms ∧ h x = true) ∧ Says r (.int l.length) := by
  obtain ⟨d, hd⟩ := get_lt (R.reach.good.sess fd c R.sess)
  rw [seen_eq hd] at hh
  have hok : Server.badArity (n :: k :: ms).length (arity .srem) = false := by
    have : arity .srem = -3 := rfl
    have := List.length_pos_iff.2 hne
    simp [Server.badArity, *]; omega
  have ht : Live s c.db e.now k → (A.exp e d.view k).t k = s.deadline c.db k := fun hl => by
    rw [exp_t_live hd hl, deadline_eq hd]
  rcases lookSet hh with ⟨h1, h2, h3⟩ | ⟨f, h1, hf⟩
  · have hA : A.srem e (n :: k :: ms) d.view = some ⟨A.exp e d.view k, 0, A.ex (Reply.int 0)⟩ := by
      simp [A.srem, h1]
    obtain ⟨s', r, w1, w2, w3, w4⟩ := answer R.reach R.env R.sess R.allowed hcmd hok (f := Cmds.srem) (f' := A.srem) rfl rfl hd hA (by decide) (by decide)
    refine ⟨s', r, w1, ?_, fun hl => by rw [w4]; exact ht hl, [], ⟨List.nodup_nil, by simp [h2]⟩, ?_⟩
    · rw [w3, h3]; simp [setOf, h2]
    · rw [show r = _ from w2]; exact says_int 0
  · obtain ⟨l, h3, h4⟩ := delLoop_spec ms f 0
    have hA : A.srem e (n :: k :: ms) d.view =
        some ⟨A.put (A.exp e d.view k) k (.set fun x => if x ∈ ms then none else f x), l.length, A.ex (Reply.int l.length)⟩ := by
      simp [A.srem, h1, h4]
    obtain ⟨s', r, w1, w2, w3, w4⟩ := answer R.reach R.env R.sess R.allowed hcmd hok (f := Cmds.srem) (f' := A.srem) rfl rfl hd hA (by decide) (by decide)
    refine ⟨s', r, w1, ?_, fun hl => by rw [w4]; exact ht hl, l, ?_, ?_⟩
    · rw [w3]
      simp only [A.put, upd_at, setOf, Option.some.injEq]
      funext x
      by_cases hx : x ∈ ms
      · simp [hx]
      · simp [hx, hf]
    · simpa [hf] using h3
    · rw [show r = _ from w2]; exact says_int _

/-- SCARD, SISMEMBER, SMEMBERS on the set that the key holds. -/
theorem C38_set_reads (R : Ready hash s fd e c) {h : Bytes → Bool} (hh : setOf (s.seen c.db e.now k) = some h) :
    (∀ m, commandOf e [n, k, m] = some .sismember → ∃ s' r, Sys.step s (.request fd e [n, k, m]) = some (s', r) ∧
      Says r (.int (if h m then 1 else 0))) ∧
    (commandOf e [n, k] = some .scard → ∃ s' r l, Sys.step s (.request fd e [n, k]) = some (s', r) ∧
      Lists l (fun x => h x = true) ∧ Says r (.int l.length)) ∧
    (commandOf e [n, k] = some .smembers → ∃ s' r l, Sys.step s (.request fd e [n, k]) = some (s', r) ∧
      Lists l (fun x => h x = true) ∧ Says r (.arr l)) := by
  obtain ⟨d, hd⟩ := get_lt (R.reach.good.sess fd c R.sess)
  rw [seen_eq hd] at hh
  refine ⟨fun m hcmd => ?_, fun hcmd => ?_, fun hcmd => ?_⟩
  · have hA : A.sismember e [n, k, m] d.view = some ⟨A.exp e d.view k, 0, A.ex (Reply.int (if h m then 1 else 0))⟩ := by
      rcases lookSet hh with ⟨h1, h2, h3⟩ | ⟨f, h1, hf⟩
      · simp [A.sismember, h1, h2]
      · simp [A.sismember, h1, hf]
    obtain ⟨s', r, w1, w2, w3, w4⟩ := answer R.reach R.env R.sess R.allowed hcmd rfl (f := Cmds.sismember) (f' := A.sismember) rfl rfl hd hA (by decide) (by decide)
    exact ⟨s', r, w1, by rw [show r = _ from w2]; exact says_int _⟩
  · have hA : ∃ p, A.scard e [n, k] d.view = some ⟨A.exp e d.view k, 0, p⟩ ∧ ∀ r, p r → ∃ l, Lists l (fun x => h x = true) ∧ r = Reply.int l.length := by
      rcases lookSet hh with ⟨h1, h2, h3⟩ | ⟨f, h1, hf⟩
      · refine ⟨A.ex (Reply.int 0), ?_, fun r hr => ⟨[], ⟨List.nodup_nil, by simp [h2]⟩, hr⟩⟩
        simp only [A.scard, List.getElem?_cons_succ, List.getElem?_cons_zero, Option.bind_eq_bind, Option.bind_some, h1]
      · refine ⟨A.card f, ?_, fun r hr => by obtain ⟨l, q1, q2⟩ := hr; exact ⟨l, ⟨q1.1, fun x => by rw [q1.2 x, hf]⟩, q2⟩⟩
        simp only [A.scard, List.getElem?_cons_succ, List.getElem?_cons_zero, Option.bind_eq_bind, Option.bind_some, h1]
    obtain ⟨p, hA, hp⟩ := hA
    obtain ⟨s', r, w1, w2, w3, w4⟩ := answer R.reach R.env R.sess R.allowed hcmd rfl (f := Cmds.scard) (f' := A.scard) rfl rfl hd hA (by decide) (by decide)
    obtain ⟨l, p1, p2⟩ := hp r w2
    exact ⟨s', r, l, w1, p1, by rw [p2]; exact says_int _⟩
  · have hA : ∃ p, A.smembers e [n, k] d.view = some ⟨A.exp e d.view k, 0, p⟩ ∧ ∀ r, p r → ∃ l, Lists l (fun x => h x = true) ∧ r = Reply.array l := by
      rcases lookSet hh with ⟨h1, h2, h3⟩ | ⟨f, h1, hf⟩
      · refine ⟨A.ex Reply.empty, ?_, fun r hr => ⟨[], ⟨List.nodup_nil, by simp [h2]⟩, hr⟩⟩
        simp only [A.smembers, List.getElem?_cons_succ, List.getElem?_cons_zero, Option.bind_eq_bind, Option.bind_some, h1]
      · refine ⟨A.dom f, ?_, fun r hr => by obtain ⟨l, q1, q2⟩ := hr; exact ⟨l, ⟨q1.1, fun x => by rw [q1.2 x, hf]⟩, q2⟩⟩
        simp only [A.smembers, List.getElem?_cons_succ, List.getElem?_cons_zero, Option.bind_eq_bind, Option.bind_some, h1]
    obtain ⟨p, hA, hp⟩ := hA
    obtain ⟨s', r, w1, w2, w3, w4⟩ := answer R.reach R.env R.sess R.allowed hcmd rfl (f := Cmds.smembers) (f' := A.smembers) rfl rfl hd hA (by decide) (by decide)
    obtain ⟨l, p1, p2⟩ := hp r w2
    exact ⟨s', r, l, w1, p1, by rw [p2]; exact says_array _⟩

/-- SPOP, whatever it draws: null if the set is empty, otherwise some member, which is removed. -/
theorem C38_spop (R : Ready hash s fd e c) (hcmd : commandOf e [n, k] = some .spop) {h : Bytes → Bool}
    (hh : setOf (s.seen c.db e.now k) = some h) {s' : Sys} {r : List Bytes} (hst : Sys.step s (.request fd e [n, k]) = some (s', r)) :
    ((∀ x, h x = false) ∧ Says r .null ∧ setOf (s'.val c.db k) = some h) ∨
    ∃ m, h m = true ∧ Says r (.bulk m) ∧ setOf (s'.val c.db k) = some (fun x => h x && !decide (x = m)) := by
  obtain ⟨d, o, a, hd, ho, ha, hrel, hr, hdbs, _⟩ := step_request R.reach.good R.env hst R.sess R.allowed hcmd (by rfl) (f := Cmds.spop) rfl
  rw [seen_eq hd] at hh
  have hd' : s'.srv.dbs[c.db]? = some o.db := by rw [hdbs, set_get hd]; simp
  rw [val_eq hd', hrel.view]
  cases ha with
  | det hc => cases hc
  | @spop m a h =>
    simp only [A.spop, List.getElem?_cons_succ, List.getElem?_cons_zero, Option.bind_eq_bind, Option.bind_some] at h
    rcases lookSet hh with ⟨h1, h2, h3⟩ | ⟨f, h1, hf⟩
    · rw [h1] at h; cases h
      refine Or.inl ⟨h2, by rw [show r = _ from hr]; exact says_null, hh⟩
    · rw [h1] at h
      simp only at h
      split at h
      · next hm =>
        cases h
        refine Or.inr ⟨m, by rw [← hf]; exact hm, by rw [show r = _ from hr]; exact says_bulk m, ?_⟩
        simp only [A.put, upd_at, setOf, Option.some.injEq]
        funext x
        by_cases hx : x = m
        · simp [upd, hx]
        · simp [upd, hx, Ne.symm hx, hf]
      · cases h
  | spopEmpty h =>
    simp only [A.spopEmpty, List.getElem?_cons_succ, List.getElem?_cons_zero, Option.bind_eq_bind, Option.bind_some] at h
    rcases lookSet hh with ⟨h1, h2, h3⟩ | ⟨f, h1, hf⟩
    · rw [h1] at h; cases h
    · rw [h1] at h
      cases h
      obtain ⟨p1, p2⟩ := hr
      exact Or.inl ⟨fun x => by rw [← hf, p1]; rfl, by rw [p2]; exact says_null, hh⟩

/-! ### C38: lists -/

/-- LPUSH puts the values in front one after the other, RPUSH appends them; the reply is the new length. -/
theorem C38_push (R : Ready hash s fd e c) (vs : List Bytes) (hne : vs ≠ []) (cmd : Cmd)
    (hcmd : commandOf e (n :: k :: vs) = some cmd) (hp : cmd = .lpush ∨ cmd = .rpush)
    (hl : Live s c.db e.now k) {l : List Bytes} (hh : listOf (s.val c.db k) = some l) :
    ∃ s' r, Sys.step s (.request fd e (n :: k :: vs)) = some (s', r) ∧
      listOf (s'.val c.db k) = some (if cmd = .lpush then vs.reverse ++ l else l ++ vs) ∧ s'.deadline c.db k = s.deadline c.db k ∧
      Says r (.int (l.length + vs.length)) := by
  obtain ⟨d, hd⟩ := get_lt (R.reach.good.sess fd c R.sess)
  rw [val_eq hd] at hh
  obtain ⟨q, s1, h1, hq, hw, h2⟩ := orNew_lst hh (reach_lok R.reach hd)
  have hpos : 0 < vs.length := List.length_pos_iff.2 hne
  rcases hp with rfl | rfl
  · obtain ⟨q', h3, h4, h5⟩ := lpushLoop_spec vs q hw
    have hA : A.lpush e (n :: k :: vs) d.view =
        some ⟨A.put d.view k (.list q'), vs.length, A.ex (Reply.int (Quicklist.len q'))⟩ := by
      unfold A.lpush
      simp only [List.getElem?_cons_succ, List.getElem?_cons_zero, Option.bind_eq_bind, Option.bind_some, h1, List.drop_succ_cons,
        List.drop_zero, h3, h2]
    obtain ⟨s', r, w1, w2, w3, w4⟩ := answer R.reach R.env R.sess R.allowed hcmd
      (by have : arity .lpush = -3 := rfl
          simp [Server.badArity, this]; omega) (f := Cmds.lpush) (f' := A.lpush) rfl rfl hd hA (by decide) (by decide)
    refine ⟨s', r, w1, ?_, ?_, ?_⟩
    · rw [w3]; simp only [A.put, upd_at, listOf, if_true]; exact congrArg some (by rw [← hq]; exact h5)
    · rw [w4, deadline_eq hd]; rfl
    · rw [show r = _ from w2]
      have : (Quicklist.len q' : Int) = l.length + vs.length := by
        have := h4.len; rw [h5, hq] at this; simp [Quicklist.len, this]; omega
      rw [this]; exact says_int _
  · obtain ⟨h4, h5⟩ := rpushLoop_spec vs q hw
    have hA : A.rpush e (n :: k :: vs) d.view =
        some ⟨A.put d.view k (.list (Cmds.rpushLoop vs q)), vs.length, A.ex (Reply.int (Quicklist.len (Cmds.rpushLoop vs q)))⟩ := by
      unfold A.rpush
      simp only [List.getElem?_cons_succ, List.getElem?_cons_zero, Option.bind_eq_bind, Option.bind_some, h1, List.drop_succ_cons,
        List.drop_zero, h2]
    obtain ⟨s', r, w1, w2, w3, w4⟩ := answer R.reach R.env R.sess R.allowed hcmd
      (by have : arity .rpush = -3 := rfl
          simp [Server.badArity, this]; omega) (f := Cmds.rpush) (f' := A.rpush) rfl rfl hd hA (by decide) (by decide)
    refine ⟨s', r, w1, ?_, ?_, ?_⟩
    · rw [w3]; simp only [A.put, upd_at, listOf]; exact congrArg some (by rw [← hq]; exact h5)
    · rw [w4, deadline_eq hd]; rfl
    · rw [show r = _ from w2]
      have : (Quicklist.len (Cmds.rpushLoop vs q) : Int) = l.length + vs.length := by
        have := h4.len; rw [h5, hq] at this; simp [Quicklist.len, this]
      rw [this]; exact says_int _

/-- LLEN replies the length, LPOP takes the first element off. -/
theorem C38_llen_lpop (R : Ready hash s fd e c) {l : List Bytes} (hh : listOf (s.seen c.db e.now k) = some l) :
    (commandOf e [n, k] = some .llen → ∃ s' r, Sys.step s (.request fd e [n, k]) = some (s', r) ∧ Says r (.int l.length)) ∧
    (commandOf e [n, k] = some .lpop → ∃ s' r, Sys.step s (.request fd e [n, k]) = some (s', r) ∧
      Says r (match l.head? with | some x => .bulk x | none => .null) ∧ listOf (s'.val c.db k) = some l.tail ∧
      (Live s c.db e.now k → s'.deadline c.db k = s.deadline c.db k)) := by
  obtain ⟨d, hd⟩ := get_lt (R.reach.good.sess fd c R.sess)
  rw [seen_eq hd] at hh
  have ht : Live s c.db e.now k → (A.exp e d.view k).t k = s.deadline c.db k := fun hl => by
    rw [exp_t_live hd hl, deadline_eq hd]
  have hk := lookList hh (lok_exp (reach_lok R.reach hd))
  refine ⟨fun hcmd => ?_, fun hcmd => ?_⟩
  · have hA : A.llen e [n, k] d.view = some ⟨A.exp e d.view k, 0, A.ex (Reply.int l.length)⟩ := by
      rcases hk with ⟨h1, h2, h3⟩ | ⟨q, h1, h2, h3, h4⟩
      · simp [A.llen, h1, h2]
      · simp [A.llen, h1, Quicklist.len, h3.len, h2]
    obtain ⟨s', r, w1, w2, w3, w4⟩ := answer R.reach R.env R.sess R.allowed hcmd rfl (f := Cmds.llen) (f' := A.llen) rfl rfl hd hA (by decide) (by decide)
    exact ⟨s', r, w1, by rw [show r = _ from w2]; exact says_int _⟩
  · have hA : ∃ s1 n', A.lpop e [n, k] d.view = some ⟨s1, n', A.ex (match l.head? with | some x => Reply.bulk x | none => Reply.null)⟩ ∧
        listOf (s1.v k) = some l.tail ∧ s1.t = (A.exp e d.view k).t := by
      rcases hk with ⟨h1, h2, h3⟩ | ⟨q, h1, h2, h3, h4⟩
      · exact ⟨A.exp e d.view k, 0, by simp [A.lpop, A.popCmd, h1, h2], by rw [h3, h2]; rfl, rfl⟩
      · have hlen : Quicklist.len q = l.length := by unfold Quicklist.len; rw [h3.len, h2]
        cases l with
        | nil => exact ⟨A.exp e d.view k, 0, by simp [A.lpop, A.popCmd, h1, hlen], hh, rfl⟩
        | cons x xs =>
          obtain ⟨q', p1, p2, p3⟩ := Quicklist.popFront_spec q h3
          refine ⟨A.put (A.exp e d.view k) k (.list q'), 1, by simp [A.lpop, A.popCmd, h1, hlen, p1, h2], ?_, rfl⟩
          simp only [A.put, upd_at, listOf]; exact congrArg some (by rw [show q'.pages.flatten = q'.elems from rfl, p3, h2])
    obtain ⟨s1, n', hA, p1, p2⟩ := hA
    obtain ⟨s', r, w1, w2, w3, w4⟩ := answer R.reach R.env R.sess R.allowed hcmd rfl (f := Cmds.lpop) (f' := A.lpop) rfl rfl hd hA (by decide) (by decide)
    refine ⟨s', r, w1, ?_, by rw [w3]; exact p1, fun hl => by rw [w4, p2]; exact ht hl⟩
    rw [show r = _ from w2]
    cases l.head?
    · exact says_null
    · exact says_bulk _

/-- RPOP takes the last element off, provided that the list has a single page. Missing: lists of several pages, see below. -/
theorem C38_rpop_partial (R : Ready hash s fd e c) {l : List Bytes} (hh : listOf (s.seen c.db e.now k) = some l)
    (hone : ∀ q, s.seen c.db e.now k = some (.list q) → q.pages.length ≤ 1) (hcmd : commandOf e [n, k] = some .rpop) :
    ∃ s' r, Sys.step s (.request fd e [n, k]) = some (s', r) ∧
      Says r (match l.getLast? with | some x => .bulk x | none => .null) ∧ listOf (s'.val c.db k) = some l.dropLast ∧
      (Live s c.db e.now k → s'.deadline c.db k = s.deadline c.db k) := by
  obtain ⟨d, hd⟩ := get_lt (R.reach.good.sess fd c R.sess)
  rw [seen_eq hd] at hh hone
  have ht : Live s c.db e.now k → (A.exp e d.view k).t k = s.deadline c.db k := fun hl => by
    rw [exp_t_live hd hl, deadline_eq hd]
  have hk := lookList hh (lok_exp (reach_lok R.reach hd))
  have hA : ∃ s1 n', A.rpop e [n, k] d.view = some ⟨s1, n', A.ex (match l.getLast? with | some x => Reply.bulk x | none => Reply.null)⟩ ∧
      listOf (s1.v k) = some l.dropLast ∧ s1.t = (A.exp e d.view k).t := by
    rcases hk with ⟨h1, h2, h3⟩ | ⟨q, h1, h2, h3, h4⟩
    · exact ⟨A.exp e d.view k, 0, by simp [A.rpop, A.popCmd, h1, h2], by rw [h3, h2]; rfl, rfl⟩
    · have hlen : Quicklist.len q = l.length := by unfold Quicklist.len; rw [h3.len, h2]
      cases l with
      | nil => exact ⟨A.exp e d.view k, 0, by simp [A.rpop, A.popCmd, h1, hlen], hh, rfl⟩
      | cons x xs =>
        obtain ⟨q', p1, p2, p3⟩ := Quicklist.popBack_onepage q h3 (hone q h4)
        obtain ⟨y, hy⟩ : ∃ y, (x :: xs).getLast? = some y := ⟨_, List.getLast?_eq_some_getLast (by simp)⟩
        refine ⟨A.put (A.exp e d.view k) k (.list q'), 1, ?_, ?_, rfl⟩
        · simp only [A.rpop, A.popCmd, List.getElem?_cons_succ, List.getElem?_cons_zero, Option.bind_eq_bind, Option.bind_some, h1, hlen,
            p1, h2, hy]
          rfl
        · simp only [A.put, upd_at, listOf]; exact congrArg some (by rw [show q'.pages.flatten = q'.elems from rfl, p3, h2])
  obtain ⟨s1, n', hA, p1, p2⟩ := hA
  obtain ⟨s', r, w1, w2, w3, w4⟩ := answer R.reach R.env R.sess R.allowed hcmd rfl (f := Cmds.rpop) (f' := A.rpop) rfl rfl hd hA (by decide) (by decide)
  refine ⟨s', r, w1, ?_, by rw [w3]; exact p1, fun hl => by rw [w4, p2]; exact ht hl⟩
  rw [show r = _ from w2]
  cases l.getLast?
  · exact says_null
  · exact says_bulk _

theorem pages_two {q : Quicklist Bytes} (w : Quicklist.Wf pageSize q) (h : pageSize < q.pages.flatten.length) : 2 ≤ q.pages.length := by
  match hp : q.pages with
  | [] => rw [hp] at h; cases h
  | [p] => rw [hp] at h; have := w.le p (by rw [hp]; simp); simp at h; omega
  | _ :: _ :: _ => simp

/-- RPOP crashes the server on every list of more than 1024 elements. -/
theorem C38_rpop_crashes (R : Ready hash s fd e c) {l : List Bytes} (hh : listOf (s.seen c.db e.now k) = some l)
    (hlen : 1024 < l.length) (hcmd : commandOf e [n, k] = some .rpop) : Sys.step s (.request fd e [n, k]) = none := by
  obtain ⟨d, hd⟩ := get_lt (R.reach.good.sess fd c R.sess)
  rw [seen_eq hd] at hh
  cases hst : Sys.step s (.request fd e [n, k]) with
  | none => rfl
  | some p =>
    obtain ⟨s', r⟩ := p
    obtain ⟨d', o, a, hd', ho, ha, _⟩ := step_request R.reach.good R.env hst R.sess R.allowed hcmd (by rfl) (f := Cmds.rpop) rfl
    rw [hd] at hd'; cases hd'
    rcases lookList hh (lok_exp (reach_lok R.reach hd)) with ⟨h1, h2, h3⟩ | ⟨q, h1, h2, h3, h4⟩
    · rw [h2] at hlen; cases hlen
    · have hl : Quicklist.len q = l.length := by unfold Quicklist.len; rw [h3.len, h2]
      have hb := Quicklist.popBack_panics q h3 (pages_two h3 (by rw [show q.pages.flatten = q.elems from rfl, h2]; exact hlen))
      have hn : A.rpop e [n, k] d.view = none := by
        have : ¬ l.length = 0 := by omega
        simp [A.rpop, A.popCmd, h1, hl, hb, this]
      cases ha with
      | det hc h => cases hc; rw [hn] at h; cases h

/-! ### C39 -/

/-- SINTER: the intersection of all named sets. -/
theorem C39_sinter (R : Ready hash s fd e c) (ks : List Bytes) (hlen : 2 ≤ ks.length) (hcmd : commandOf e (n :: ks) = some .sinter)
    (sets : Bytes → Bytes → Bool) (hh : ∀ k ∈ ks, setOf (s.seen c.db e.now k) = some (sets k)) :
    ∃ s' r l, Sys.step s (.request fd e (n :: ks)) = some (s', r) ∧ Lists l (fun x => ∀ k ∈ ks, sets k x = true) ∧ Says r (.arr l) := by
  obtain ⟨d, hd⟩ := get_lt (R.reach.good.sess fd c R.sess)
  have hok : Server.badArity (n :: ks).length (arity .sinter) = false := by
    have : arity .sinter = -3 := rfl
    simp [Server.badArity, this]; omega
  obtain ⟨a, p, h1, h2⟩ := setOp_and (e := e) (n := n) (ks := ks) (s := d.view) (sets := sets) (by omega)
    (fun k hk => by rw [← seen_eq hd]; exact hh k hk)
  obtain ⟨s', r, w1, w2, w3, w4⟩ := answer R.reach R.env R.sess R.allowed hcmd hok (f := Cmds.sinter) (f' := A.sinter) rfl rfl hd h1 (by decide) (by decide)
  obtain ⟨l, p1, p2⟩ := h2 r w2
  exact ⟨s', r, l, w1, p1, by rw [p2]; exact says_array _⟩

/-- SDIFF: the first set without all others. -/
theorem C39_sdiff (R : Ready hash s fd e c) (k0 : Bytes) (ks : List Bytes) (hne : ks ≠ [])
    (hcmd : commandOf e (n :: k0 :: ks) = some .sdiff)
    (sets : Bytes → Bytes → Bool) (hh : ∀ k ∈ k0 :: ks, setOf (s.seen c.db e.now k) = some (sets k)) :
    ∃ s' r l, Sys.step s (.request fd e (n :: k0 :: ks)) = some (s', r) ∧
      Lists l (fun x => sets k0 x = true ∧ ∀ k ∈ ks, sets k x = false) ∧ Says r (.arr l) := by
  obtain ⟨d, hd⟩ := get_lt (R.reach.good.sess fd c R.sess)
  have hok : Server.badArity (n :: k0 :: ks).length (arity .sdiff) = false := by
    have : arity .sdiff = -3 := rfl
    have := List.length_pos_iff.2 hne
    simp [Server.badArity, *]; omega
  rcases lookSet (s := A.exp e d.view k0) (by rw [← seen_eq hd]; exact hh k0 (by simp)) with ⟨h1, h2, h3⟩ | ⟨f, h1, hf⟩
  · have hA : A.sdiff e (n :: k0 :: ks) d.view = some ⟨A.exp e d.view k0, 0, A.ex Reply.empty⟩ := by
      simp [A.sdiff, A.setOp, h1]
    obtain ⟨s', r, w1, w2, w3, w4⟩ := answer R.reach R.env R.sess R.allowed hcmd hok (f := Cmds.sdiff) (f' := A.sdiff) rfl rfl hd hA (by decide) (by decide)
    exact ⟨s', r, [], w1, ⟨List.nodup_nil, by simp [h2]⟩, by rw [show r = _ from w2]; exact says_empty⟩
  · obtain ⟨h', s1, p1, p2⟩ := opLoop_keep (f := fun a b => a && !b) (by simp) (e := e) (sets := sets) ks f (A.exp e d.view k0)
      (fun k hk => by rw [seen_exp, ← seen_eq hd]; exact hh k (by simp [hk]))
    have hA : A.sdiff e (n :: k0 :: ks) d.view = some ⟨s1, 0, A.dom h'⟩ := by
      simp [A.sdiff, A.setOp, h1, p1]
    obtain ⟨s', r, w1, w2, w3, w4⟩ := answer R.reach R.env R.sess R.allowed hcmd hok (f := Cmds.sdiff) (f' := A.sdiff) rfl rfl hd hA (by decide) (by decide)
    obtain ⟨l, q1, q2⟩ := w2
    refine ⟨s', r, l, w1, ⟨q1.1, fun x => ?_⟩, by rw [q2]; exact says_array _⟩
    rw [q1.2 x, p2 x, fold_diff, hf]

/-- SUNION: the union of all named sets, provided that the first key exists. Missing: a missing first key, see below. -/
theorem C39_sunion_partial (R : Ready hash s fd e c) (k0 : Bytes) (ks : List Bytes) (hne : ks ≠ [])
    (hcmd : commandOf e (n :: k0 :: ks) = some .sunion) (hfirst : (s.seen c.db e.now k0).isSome = true)
    (sets : Bytes → Bytes → Bool) (hh : ∀ k ∈ k0 :: ks, setOf (s.seen c.db e.now k) = some (sets k)) :
    ∃ s' r l, Sys.step s (.request fd e (n :: k0 :: ks)) = some (s', r) ∧
      Lists l (fun x => ∃ k ∈ k0 :: ks, sets k x = true) ∧ Says r (.arr l) := by
  obtain ⟨d, hd⟩ := get_lt (R.reach.good.sess fd c R.sess)
  have hok : Server.badArity (n :: k0 :: ks).length (arity .sunion) = false := by
    have : arity .sunion = -3 := rfl
    have := List.length_pos_iff.2 hne
    simp [Server.badArity, *]; omega
  rcases lookSet (s := A.exp e d.view k0) (by rw [← seen_eq hd]; exact hh k0 (by simp)) with ⟨h1, h2, h3⟩ | ⟨f, h1, hf⟩
  · rw [seen_eq hd, h3] at hfirst; cases hfirst
  · obtain ⟨h', s1, p1, p2⟩ := opLoop_keep (f := fun a b => a || b) (by simp) (e := e) (sets := sets) ks f (A.exp e d.view k0)
      (fun k hk => by rw [seen_exp, ← seen_eq hd]; exact hh k (by simp [hk]))
    have hA : A.sunion e (n :: k0 :: ks) d.view = some ⟨s1, 0, A.dom h'⟩ := by
      simp [A.sunion, A.setOp, h1, p1]
    obtain ⟨s', r, w1, w2, w3, w4⟩ := answer R.reach R.env R.sess R.allowed hcmd hok (f := Cmds.sunion) (f' := A.sunion) rfl rfl hd hA (by decide) (by decide)
    obtain ⟨l, q1, q2⟩ := w2
    refine ⟨s', r, l, w1, ⟨q1.1, fun x => ?_⟩, by rw [q2]; exact says_array _⟩
    rw [q1.2 x, p2 x, fold_union, hf]
    simp

/-- SUNION replies with the empty array whenever the first key is missing or expired, whatever the other sets contain. -/
theorem C39_sunion_missing (R : Ready hash s fd e c) (k0 : Bytes) (ks : List Bytes) (hne : ks ≠ [])
    (hcmd : commandOf e (n :: k0 :: ks) = some .sunion) (hfirst : s.seen c.db e.now k0 = none) :
    ∃ s' r, Sys.step s (.request fd e (n :: k0 :: ks)) = some (s', r) ∧ Says r (.arr []) := by
  obtain ⟨d, hd⟩ := get_lt (R.reach.good.sess fd c R.sess)
  have hok : Server.badArity (n :: k0 :: ks).length (arity .sunion) = false := by
    have : arity .sunion = -3 := rfl
    have := List.length_pos_iff.2 hne
    simp [Server.badArity, *]; omega
  rw [seen_eq hd] at hfirst
  have hA : A.sunion e (n :: k0 :: ks) d.view = some ⟨A.exp e d.view k0, 0, A.ex Reply.empty⟩ := by
    simp [A.sunion, A.setOp, A.look, hfirst]
  obtain ⟨s', r, w1, w2, w3, w4⟩ := answer R.reach R.env R.sess R.allowed hcmd hok (f := Cmds.sunion) (f' := A.sunion) rfl rfl hd hA (by decide) (by decide)
  exact ⟨s', r, w1, by rw [show r = _ from w2]; exact says_empty⟩

end

/-! ### non-trivial cases and counterexamples -/

/-- A server with a hash, two sets and a list. -/
def filled : Option Sys := (Sys.run (Sys.init 1 [] true)
  [.connect 4, .request 4 (demo 0) [b!"hset", b!"h", b!"f", b!"1"],
   .request 4 (demo 0) [b!"sadd", b!"s", b!"a", b!"b"], .request 4 (demo 0) [b!"sadd", b!"t", b!"b", b!"c"],
   .request 4 (demo 0) [b!"rpush", b!"l", b!"x", b!"y"]]).map Prod.fst

/-- The reply to one further request. -/
def reply (args : List Bytes) : Option (List Bytes) := (filled.bind fun s => Sys.step s (.request 4 (demo 1) args)).map Prod.snd

example : ∃ s c, filled = some s ∧ Ready (demo 1).hash s 4 (demo 1) c ∧ c.db = 0 ∧
    (∃ h, hashOf (s.val 0 b!"h") = some h ∧ h b!"f" = some b!"1") ∧ (∃ f, setOf (s.seen 0 1 b!"s") = some f ∧ f b!"a" = true) ∧
    listOf (s.seen 0 1 b!"l") = some [b!"x", b!"y"] := by
  have h : filled.isSome = true := by decide
  obtain ⟨s, hs⟩ := Option.isSome_iff_exists.1 h
  have hsess : filled.bind (fun s => s.sess 4) = some ⟨0, false⟩ := by decide
  have hpw : filled.map (fun s => s.srv.password) = some [] := by decide
  have e1 : (filled.bind fun s => hashOf (s.val 0 b!"h")).bind (fun h => h b!"f") = some b!"1" := by decide
  have e2 : (filled.bind fun s => setOf (s.seen 0 1 b!"s")).map (fun h => h b!"a") = some true := by decide
  have e3 : (filled.bind fun s => listOf (s.seen 0 1 b!"l")) = some [b!"x", b!"y"] := by decide
  rw [hs] at hsess hpw e1 e2 e3
  simp only [Option.bind_some, Option.map_some, Option.some.injEq] at hsess hpw e3
  simp only [Option.bind_some, Option.bind_eq_some_iff, Option.map_eq_some_iff] at e1 e2
  refine ⟨s, _, hs, ⟨?_, rfl, hsess, Or.inl hpw⟩, rfl, e1, e2, e3⟩
  unfold filled at hs
  obtain ⟨p, hp, rfl⟩ := Option.map_eq_some_iff.1 hs
  refine ⟨1, [], true, _, p.2, ?_, hp⟩
  intro ev hev
  simp only [List.mem_cons, List.not_mem_nil, or_false] at hev
  rcases hev with rfl | rfl | rfl | rfl | rfl <;> first | trivial | rfl

example : reply [b!"hset", b!"h", b!"f", b!"2", b!"g", b!"3", b!"g", b!"4"] = some [b!":1\r\n"] ∧
    reply [b!"sadd", b!"s", b!"c", b!"a", b!"c"] = some [b!":1\r\n"] ∧ reply [b!"srem", b!"s", b!"b", b!"b"] = some [b!":1\r\n"] ∧
    reply [b!"lpush", b!"l", b!"w"] = some [b!":3\r\n"] ∧ reply [b!"rpop", b!"l"] = some [b!"$1\r\ny\r\n"] ∧
    reply [b!"sinter", b!"s", b!"t"] = some (Reply.array [b!"b"]) ∧ reply [b!"sdiff", b!"s", b!"t"] = some (Reply.array [b!"a"]) := by decide

/-- The claim about SUNION is false of the code: a missing first key hides all others. -/
theorem C39_refuted : reply [b!"sunion", b!"none", b!"s"] = some [b!"*0\r\n"] ∧ reply [b!"scard", b!"s"] = some [b!":2\r\n"] := by decide

/-- The claim about RPOP is false of the code: pushing more than 1024 values and taking the last one off crashes the server. -/
theorem C38_refuted_rpop (vs : List Bytes) (h : 1024 < vs.length) :
    ∃ s, (Sys.run (Sys.init 1 [] false) [.connect 4, .request 4 (demo 0) (b!"rpush" :: b!"l" :: vs)]).map Prod.fst = some s ∧
      Sys.step s (.request 4 (demo 0) [b!"rpop", b!"l"]) = none := by
  obtain ⟨s0, hs0⟩ : ∃ s0, Sys.run (Sys.init 1 [] false) [.connect 4] = some (s0, [[]]) ∧ s0.sess 4 = some ⟨0, false⟩ ∧
      s0.srv.password = [] ∧ s0.val 0 b!"l" = none ∧ s0.deadline 0 b!"l" = none := ⟨_, rfl, rfl, rfl, rfl, rfl⟩
  obtain ⟨h1, h2, h3, h4, h5⟩ := hs0
  have hr0 : Reach (demo 0).hash s0 := ⟨1, [], false, [.connect 4], _, by simp [EvOk], h1⟩
  have R0 : Ready (demo 0).hash s0 4 (demo 0) ⟨0, false⟩ := ⟨hr0, rfl, h2, Or.inl h3⟩
  obtain ⟨s1, r1, q1, q2, q3, q4⟩ := C38_push (n := b!"rpush") (k := b!"l") R0 vs (by rintro rfl; cases h) .rpush
    (by rfl) (Or.inr rfl) (by intro dl hdl; rw [h5] at hdl; cases hdl) (l := []) (by rw [h4]; rfl)
  have hr1 := Reach.step hr0 (show EvOk (demo 0).hash (.request 4 (demo 0) (b!"rpush" :: b!"l" :: vs)) from rfl) q1
  obtain ⟨_, hpw, _⟩ := step_db hr0.good (show EvOk (demo 0).hash (.request 4 (demo 0) (b!"rpush" :: b!"l" :: vs)) from rfl) q1
  obtain ⟨_, _, _, _, _, _, _, _, _, hse⟩ := step_request hr0.good rfl q1 h2 (Or.inl h3) (cmd := .rpush) (by rfl)
    (by have : arity .rpush = -3 := rfl
        simp [Server.badArity, this]; omega) (f := Cmds.rpush) rfl
  have R1 : Ready (demo 0).hash s1 4 (demo 0) _ := ⟨hr1, rfl, (hse 4).trans h2, Or.inl (hpw.trans h3)⟩
  refine ⟨s1, ?_, ?_⟩
  · rw [show [Event.connect 4, .request 4 (demo 0) (b!"rpush" :: b!"l" :: vs)] = [.connect 4] ++ [.request 4 (demo 0) (b!"rpush" :: b!"l" :: vs)] from rfl,
      run_append, h1]
    simp [Sys.run, q1]
  · refine C38_rpop_crashes (n := b!"rpop") (k := b!"l") R1 (l := vs) ?_ h (by rfl)
    unfold Sys.seen
    rw [show s1.deadline 0 b!"l" = none from q3.trans h5]
    simpa using q2

end Metis.Props.CollectionsP
