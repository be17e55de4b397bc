import Verif.Props.Refused
import Verif.Proofs.Repeat
/-!
Property C118: a request that sets or removes may be sent again.
-/
set_option linter.unusedSectionVars false
set_option linter.unusedSimpArgs false
set_option linter.unusedVariables false
set_option synthInstance.maxSize 2000
set_option synthInstance.maxHeartbeats 200000
namespace Metis.Props.RepeatP
open Metis Spec RepeatSim
open _root_.Metis.Props.RefusedP (thinner_of)
variable {hash : Bytes → Nat} {s s1 s2 : Sys} {r1 r2 : List Bytes} {fd : Nat} {e e' : Env} {args : List Bytes} {cmd : Cmd}

/-- Commands that say how something is to be, not how it is to change. -/
def sets : Cmd → Bool
  | .set | .expireat | .hset | .hdel | .sadd | .srem | .zadd | .zrem => true
  | _ => false

/-- The reply counts what was new or was there. -/
def counts : Cmd → Bool
  | .hset | .hdel | .sadd | .srem | .zadd | .zrem => true
  | _ => false

/-- The full claim of C118: the second of two equal requests changes no session, no value and no deadline, but for the removal of keys that are past their deadline, and counts nothing. -/
def C118 : Prop := ∀ (hash : Bytes → Nat) (s s1 s2 : Sys) (fd : Nat) (e e' : Env) (args : List Bytes) (cmd : Cmd) (r1 r2 : List Bytes), SysGood hash s → e.hash = hash → e'.hash = hash →
  e'.parseFloat = e.parseFloat → commandOf e args = some cmd → commandOf e' args = some cmd → sets cmd = true → Sys.step s (.request fd e args) = some (s1, r1) →
  Sys.step s1 (.request fd e' args) = some (s2, r2) → s2.sess = s1.sess ∧ Thinner e'.now s2 s1 ∧ (counts cmd = true → isError r2 ∨ r2 = Reply.int 0)

theorem thinner_swept {i : Nat} {d1 d2 : Db} {T : Env} (h1 : s1.srv.dbs[i]? = some d1) (h2 : s2.srv.dbs = s1.srv.dbs.set i d2) (h : Swept T d1.view d2.view) :
    Thinner T.now s2 s1 := by
  refine thinner_of (by rw [h2, List.length_set]) fun j d hd => ?_
  rw [h2]
  by_cases hij : i = j
  · subst hij
    rw [h1] at hd; cases hd
    refine ⟨d2, List.getElem?_set_self (List.getElem?_eq_some_iff.1 h1).1, fun k => ?_⟩
    rcases h k with q | ⟨p1, p2, p3⟩
    · exact .inl ⟨q.1.symm, q.2.symm⟩
    · exact .inr ⟨p2, p3, expired_passed p1⟩
  · exact ⟨d, by rw [List.getElem?_set_ne hij]; exact hd, fun k => .inl ⟨rfl, rfl⟩⟩

theorem thinner_same {T : Int} (h : s2.srv = s1.srv) : Thinner T s2 s1 := fun i k => .inl ⟨by simp only [Sys.val, h], by simp only [Sys.deadline, h]⟩

theorem twice (g : SysGood hash s) (he : e.hash = hash) (he' : e'.hash = hash) (hcmd : commandOf e args = some cmd) (hcmd' : commandOf e' args = some cmd)
    (hs : settled cmd = true ∨ (cmd = .zadd ∧ e'.parseFloat = e.parseFloat ∧ Settles e (args.drop 2))) (h : Sys.step s (.request fd e args) = some (s1, r1))
    (h' : Sys.step s1 (.request fd e' args) = some (s2, r2)) :
    s2.sess = s1.sess ∧ Thinner e'.now s2 s1 ∧ (counts cmd = true → isError r2 ∨ r2 = Reply.int 0) := by
  have hf : ∃ f, dbProc cmd = some f := by
    rcases hs with hs | ⟨rfl, _⟩
    · cases cmd <;> first | (cases hs; done) | exact ⟨_, rfl⟩
    · exact ⟨_, rfl⟩
  obtain ⟨f, hf⟩ := hf
  obtain ⟨q1, q2⟩ := two_requests g he he' hcmd hcmd' hf h h'
  refine ⟨q1, ?_⟩
  rcases q2 with ⟨p1, p2⟩ | ⟨i, d1, d2, s0, a, a', p1, p2, p3, p4, p5, p6, p7⟩
  · exact ⟨thinner_same p1, fun _ => .inl p2⟩
  · obtain ⟨w1, w2⟩ := again p3 p5 hs
    refine ⟨thinner_swept p1 p2 (by rw [p4, p6]; exact w1), fun hc => w2 ?_ ?_ _ p7⟩
    · rintro rfl; cases hc
    · rintro rfl; cases hc

/-- **C118, partial**: SET, EXPIREAT, HSET, HDEL, SADD, SREM and ZREM. The clock, the timer's and SPOP's draws and the levels may be others the second time. -/
theorem C118_partial (g : SysGood hash s) (he : e.hash = hash) (he' : e'.hash = hash) (hcmd : commandOf e args = some cmd) (hcmd' : commandOf e' args = some cmd)
    (hs : sets cmd = true) (hz : cmd ≠ .zadd) (h : Sys.step s (.request fd e args) = some (s1, r1)) (h' : Sys.step s1 (.request fd e' args) = some (s2, r2)) :
    s2.sess = s1.sess ∧ Thinner e'.now s2 s1 ∧ (counts cmd = true → isError r2 ∨ r2 = Reply.int 0) := by
  refine twice g he he' hcmd hcmd' (.inl ?_) h h'
  cases cmd <;> first | rfl | (cases hs; done) | exact absurd rfl hz

theorem settles_of {ps : List (Bytes × Bytes)} (hd : (ps.map Prod.snd).Nodup) (hn : ∀ p ∈ ps, ∀ x, e.parseFloat p.1 = some x → x.isNaN = false) :
    Settles e (ps.flatMap fun p => [p.1, p.2]) ∧ seconds (ps.flatMap fun p => [p.1, p.2]) = ps.map Prod.snd := by
  induction ps with
  | nil => exact ⟨trivial, rfl⟩
  | cons p ps ih =>
    simp only [List.map_cons, List.nodup_cons] at hd
    obtain ⟨i1, i2⟩ := ih hd.2 fun q hq => hn q (by simp [hq])
    refine ⟨⟨fun x hx => ?_, ?_, i1⟩, ?_⟩
    · have := hn p (by simp) x hx
      simp [F64.eq, this]
    · show p.2 ∉ seconds (ps.flatMap fun p => [p.1, p.2])
      rw [i2]; exact hd.1
    · show p.2 :: seconds (ps.flatMap fun p => [p.1, p.2]) = _
      rw [i2]; rfl

/-- ZADD that names every member once and gives none the score NaN. -/
theorem C118_zadd {n k : Bytes} {ps : List (Bytes × Bytes)} (g : SysGood hash s) (he : e.hash = hash) (he' : e'.hash = hash) (hp : e'.parseFloat = e.parseFloat)
    (hcmd : commandOf e (n :: k :: ps.flatMap fun p => [p.1, p.2]) = some .zadd) (hcmd' : commandOf e' (n :: k :: ps.flatMap fun p => [p.1, p.2]) = some .zadd)
    (hd : (ps.map Prod.snd).Nodup) (hn : ∀ p ∈ ps, ∀ x, e.parseFloat p.1 = some x → x.isNaN = false)
    (h : Sys.step s (.request fd e (n :: k :: ps.flatMap fun p => [p.1, p.2])) = some (s1, r1))
    (h' : Sys.step s1 (.request fd e' (n :: k :: ps.flatMap fun p => [p.1, p.2])) = some (s2, r2)) :
    s2.sess = s1.sess ∧ Thinner e'.now s2 s1 ∧ (isError r2 ∨ r2 = Reply.int 0) := by
  obtain ⟨q1, q2, q3⟩ := twice g he he' hcmd hcmd' (.inr ⟨rfl, hp, (settles_of hd hn).1⟩) h h'
  exact ⟨q1, q2, q3 rfl⟩

/-- EXPIRE and SETEX, whose deadlines count from the time of the request: the second time nothing changes but the deadline of their key. -/
theorem C118_relative (g : SysGood hash s) (he : e.hash = hash) (he' : e'.hash = hash) (hcmd : commandOf e args = some cmd) (hcmd' : commandOf e' args = some cmd)
    (hs : cmd = .expire ∨ cmd = .setex) (h : Sys.step s (.request fd e args) = some (s1, r1)) (h' : Sys.step s1 (.request fd e' args) = some (s2, r2)) :
    s2.sess = s1.sess ∧ (∀ i k, s2.val i k = s1.val i k) ∧ ∀ i k, args[1]? ≠ some k → s2.deadline i k = s1.deadline i k := by
  have hf : ∃ f, dbProc cmd = some f := by rcases hs with rfl | rfl <;> exact ⟨_, rfl⟩
  obtain ⟨f, hf⟩ := hf
  obtain ⟨q1, q2⟩ := two_requests g he he' hcmd hcmd' hf h h'
  refine ⟨q1, ?_⟩
  rcases q2 with ⟨p1, p2⟩ | ⟨i, d1, d2, s0, a, a', p1, p2, p3, p4, p5, p6, p7⟩
  · exact ⟨fun i k => by simp only [Sys.val, p1], fun i k _ => by simp only [Sys.deadline, p1]⟩
  · have key : a'.s.v = a.s.v ∧ ∀ k, args[1]? ≠ some k → a'.s.t k = a.s.t k := by
      rcases hs with rfl | rfl <;> cases p3 with
      | det hc p3 => cases hc; cases p5 with
        | det hc p5 => cases hc; first | exact again_expire p3 p5 | exact again_setEx p3 p5
    have h2 : s2.srv.dbs[i]? = some d2 := by rw [p2]; exact List.getElem?_set_self (List.getElem?_eq_some_iff.1 p1).1
    have other : ∀ j, i ≠ j → s2.srv.dbs[j]? = s1.srv.dbs[j]? := fun j hj => by rw [p2, List.getElem?_set_ne hj]
    refine ⟨fun j k => ?_, fun j k hk => ?_⟩
    · by_cases hij : i = j
      · subst hij; rw [val_eq p1, val_eq h2, p4, p6, key.1]
      · simp only [Sys.val, other j hij]
    · by_cases hij : i = j
      · subst hij; rw [deadline_eq p1, deadline_eq h2, p4, p6, key.2 k hk]
      · simp only [Sys.deadline, other j hij]

/-! ### Refutation -/

/-- An environment in which the text `nan` is the number NaN, as for Go's ParseFloat. -/
def withNaN : Env := { demo 0 with parseFloat := fun b => if b = b!"nan" then some ⟨0x7ff8000000000001⟩ else none }

/-- The number of nodes in the skip list of a sorted set. -/
def nodes (s : Sys) (i : Nat) (k : Bytes) : Option Int :=
  match s.val i k with
  | some (.zset z) => some z.s.length
  | _ => none

def added : Event := .request 4 withNaN [b!"zadd", b!"z", b!"nan", b!"a"]

set_option maxRecDepth 8000 in
theorem added_result : ((Sys.step RefusedP.opened added).bind fun p => (Sys.step p.1 added).map fun q => (nodes p.1 0 b!"z", nodes q.1 0 b!"z")) = some (some 1, some 2) := by decide

set_option maxRecDepth 8000 in
/-- To a client: `a` is listed twice after the second request. -/
example : (Sys.run RefusedP.opened [added, .request 4 withNaN [b!"zrange", b!"z", b!"0", b!"9"], added, .request 4 withNaN [b!"zrange", b!"z", b!"0", b!"9"]]).map
    (fun p => p.2.map List.flatten) = some [b!":1\r\n", b!"*1\r\n$1\r\na\r\n", b!":0\r\n", b!"*2\r\n$1\r\na\r\n$1\r\na\r\n"] := by decide

/-- **C118 is false**: ZADD with the score NaN adds its member to the order every time. -/
theorem C118_refuted : ¬ C118 := by
  intro hC
  have key := added_result
  simp only [Option.bind_eq_some_iff, Option.map_eq_some_iff, Prod.mk.injEq] at key
  obtain ⟨⟨s1, r1⟩, h1, ⟨s2, r2⟩, h2, h3, h4⟩ := key
  obtain ⟨_, q, _⟩ := hC _ RefusedP.opened s1 s2 4 withNaN withNaN _ .zadd r1 r2 RefusedP.opened_good rfl rfl rfl (by decide) (by decide) rfl h1 h2
  simp only at h3 h4
  rcases q 0 b!"z" with ⟨p, _⟩ | ⟨p, _⟩
  · unfold nodes at h3 h4
    rw [p] at h3
    rw [h3] at h4
    cases h4
  · unfold nodes at h4
    rw [p] at h4
    cases h4

/-! ### The hypotheses can be met -/

/-- Requests sent twice, and what they are about. -/
def doubled : List Event :=
  [.connect 4, .request 4 (demo 0) [b!"hset", b!"h", b!"f", b!"1", b!"f", b!"2"], .request 4 (demo 9) [b!"hset", b!"h", b!"f", b!"1", b!"f", b!"2"],
   .request 4 (demo 9) [b!"hget", b!"h", b!"f"], .request 4 (demo 9) [b!"zadd", b!"z", b!"1", b!"a", b!"2", b!"b"], .request 4 (demo 9) [b!"zadd", b!"z", b!"1", b!"a", b!"2", b!"b"],
   .request 4 (demo 9) [b!"zrem", b!"z", b!"a"], .request 4 (demo 9) [b!"zrem", b!"z", b!"a"]]

set_option maxRecDepth 8000 in
example : (Sys.run (Sys.init 1 [] true) doubled).map (fun p => p.2.map List.flatten) =
    some [[], b!":1\r\n", b!":0\r\n", b!"$1\r\n2\r\n", b!":2\r\n", b!":0\r\n", b!":1\r\n", b!":0\r\n"] := by decide

set_option maxRecDepth 8000 in
example : SysGood (demo 0).hash RefusedP.opened ∧ commandOf (demo 0) [b!"sadd", b!"s", b!"m"] = some .sadd ∧ sets .sadd = true ∧
    ((Sys.step RefusedP.opened (.request 4 (demo 0) [b!"sadd", b!"s", b!"m"])).bind fun p => Sys.step p.1 (.request 4 (demo 7) [b!"sadd", b!"s", b!"m"])).isSome = true :=
  ⟨RefusedP.opened_good, by decide, rfl, by decide⟩

example : ([(b!"1", b!"a"), (b!"2", b!"b")].map Prod.snd).Nodup ∧ one.isNaN = false ∧ two.isNaN = false := by decide

end Metis.Props.RepeatP
