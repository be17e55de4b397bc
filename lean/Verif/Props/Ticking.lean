import Verif.Proofs.Ticking
import Verif.Props.Exact
/-!
Property C104: a clock that moves while a command runs. The commands that look at several keys read the clock again for each; what they do is
what they would do at the first reading in a database without some of the keys whose deadlines pass meanwhile; set operations go key by key.
-/
set_option linter.unusedSectionVars false
set_option linter.unusedSimpArgs false
set_option linter.unusedVariables false
set_option synthInstance.maxSize 2000
set_option synthInstance.maxHeartbeats 200000
namespace Metis.Props.TickingP
open Metis Spec Metis.Ticking Metis.TickSim Metis.ExactSim
open _root_.Metis.Props.ExactP (rel_init Undrawn agree_now)
variable {hash : Bytes → Nat} {n : Nat} {pw : Bytes} {aof : Bool}

/-- The full claim of C104: a command happens at one moment between the readings of the clock that it makes. -/
def C104 : Prop := ∀ (hash : Bytes → Nat) (n : Nat) (pw : Bytes) (aof : Bool) (evs : List Ticking.Event) (s : Sys) (rs : List (List Bytes)),
  (∀ ev ∈ evs, SameHash hash ev) → (∀ ev ∈ evs, Exact.Steadily ev) → Ticking.run (Sys.init n pw aof) evs = some (s, rs) →
  ∃ evs' R vs, Exact.Moments evs evs' ∧ Exact.Runs n pw Exact.start evs' R vs ∧ List.Forall₂ Ref.Told rs vs

/-- The clock stands at `t`. -/
def stopped (t : Int) : Clock := fun _ => t
/-- The clock reads 5000 first and 20000 from then on. -/
def jumping : Clock := fun i => if i = 0 then 5000 else 20000

def setA : List Bytes := [b!"setex", b!"a", b!"5", b!"v"]
def setB : List Bytes := [b!"setex", b!"b", b!"10", b!"v"]
def askAll : List Bytes := [b!"keys", b!"*"]

/-- Two keys with deadlines 5000 and 10000; while KEYS runs the clock jumps over both. -/
def halfway : List Ticking.Event := [.connect 4, .request 4 (demo 0) (stopped 0) setA, .request 4 (demo 0) (stopped 0) setB, .request 4 (demo 0) jumping askAll]

theorem stopped_forward (t : Int) : Exact.Forward (stopped t) := fun _ _ _ => Int.le_refl _
theorem jumping_forward : Exact.Forward jumping := by
  intro i j h
  unfold jumping
  split <;> split <;> omega

theorem halfway_same : ∀ ev ∈ halfway, SameHash (demo 0).hash ev := by simp [halfway, SameHash]
theorem halfway_steadily : ∀ ev ∈ halfway, Exact.Steadily ev := by
  intro ev hev
  simp only [halfway, List.mem_cons, List.not_mem_nil, or_false] at hev
  rcases hev with rfl | rfl | rfl | rfl
  · trivial
  · refine ⟨stopped_forward 0, fun cmd h => ?_⟩
    rw [show commandOf (demo 0) setA = some .setex by decide] at h; cases h
    exact trivial
  · refine ⟨stopped_forward 0, fun cmd h => ?_⟩
    rw [show commandOf (demo 0) setB = some .setex by decide] at h; cases h
    exact trivial
  · refine ⟨jumping_forward, fun cmd h => ?_⟩
    rw [show commandOf (demo 0) askAll = some .keys by decide] at h; cases h
    exact trivial

theorem ask {R R' : Exact.State} {fd : Nat} {c : Ref.Client} {e : Env} {args : List Bytes} {cmd : Cmd} {r : Option Value} (hc : R.client fd = some c)
    (hcmd : commandOf e args = some cmd) (hacc : accepts cmd args.length) (hn : cmd ≠ .select ∧ cmd ≠ .auth ∧ cmd ≠ .bgrewriteaof)
    (m : Exact.Moves n [] R (.request fd e args) R' r) :
    ∃ S v, Exact.perform e cmd (args.drop 1) (R.dbs c.db) S v ∧ R' = R.store c.db S ∧ r = some v := by
  unfold Exact.Moves at m
  simp only [hc] at m
  obtain ⟨v, m, rfl⟩ := m
  unfold Exact.answers at m
  simp only [hcmd, if_neg (not_not.2 hacc)] at m
  rw [if_neg (by simp)] at m
  have : ∃ S, Exact.perform e cmd (args.drop 1) (R.dbs c.db) S v ∧ R' = R.store c.db S := by
    obtain ⟨h1, h2, h3⟩ := hn
    cases cmd <;> first | exact m | exact absurd rfl h1 | exact absurd rfl h2 | exact absurd rfl h3
  obtain ⟨S, h1, h2⟩ := this
  exact ⟨S, v, h1, h2, rfl⟩

/-- **C104 refuted**: KEYS misses the key that dies last and answers with the one that dies first. -/
theorem C104_refuted : ¬ C104 := by
  intro H
  have hr : (Ticking.run (Sys.init 1 [] false) halfway).map (·.2) = some [[], Reply.ok, Reply.ok, Reply.array [b!"a"]] := by decide
  obtain ⟨⟨s, rs⟩, h1, h2⟩ := Option.map_eq_some_iff.1 hr
  simp only at h2; subst h2
  obtain ⟨evs, R, vs, hM, hR, ht⟩ := H (demo 0).hash 1 [] false halfway s _ halfway_same halfway_steadily h1
  cases hM with | cons o1 hM => cases hM with | cons o2 hM => cases hM with | cons o3 hM => cases hM with | cons o4 hM =>
  cases hM
  cases o1
  cases o2 with | request u1 u2 => cases o3 with | request u3 u4 => cases o4 with | @request _ _ _ _ t i u5 u6 =>
  have e1 : ∀ {x : Int} {i : Nat}, stopped 0 0 ≤ x → x ≤ stopped 0 i → x = 0 := fun h1 h2 => Int.le_antisymm h2 h1
  cases e1 u1 u2; cases e1 u3 u4
  cases hR with | cons m1 hR => cases hR with | cons m2 hR => cases hR with | cons m3 hR => cases hR with | cons m4 hR =>
  cases hR
  cases ht with | cons t1 ht => cases ht with | cons t2 ht => cases ht with | cons t3 ht => cases ht with | cons t4 ht =>
  obtain ⟨rfl, rfl⟩ := m1
  obtain ⟨S2, v2, p2, rfl, rfl⟩ := ask (cmd := .setex) (c := ⟨0, false⟩) rfl (by decide) (by decide) (by decide) m2
  obtain ⟨S3, v3, p3, rfl, rfl⟩ := ask (cmd := .setex) (c := ⟨0, false⟩) rfl (by decide) (by decide) (by decide) m3
  obtain ⟨S4, v4, p4, rfl, rfl⟩ := ask (cmd := .keys) (c := ⟨0, false⟩) rfl (by
    show commandOf (demo 0) askAll = _
    decide) (by decide) (by decide) m4
  obtain ⟨rfl, rfl⟩ := p2
  obtain ⟨rfl, rfl⟩ := p3
  obtain ⟨p4, -, -⟩ := p4
  obtain ⟨-, l, rfl, hnd, hl⟩ := p4
  simp only [Exact.State.store, if_true, Exact.State.know, Exact.start, Ref.put, Ref.late] at hl
  have t4 : (Reply.array [b!"a"]).flatten = (Value.arr l).encode := t4
  have ha : b!"a" ∈ l ↔ t ≤ 5000 := by
    rw [hl]
    simp [atTime, Exact.wrapped]
  have hb : b!"b" ∈ l ↔ t ≤ 10000 := by
    rw [hl]
    simp [atTime, Exact.wrapped]
  have ho : ∀ x ∈ l, x = b!"a" ∨ x = b!"b" := by
    intro x hx
    rw [hl] at hx
    by_cases h1 : x = b!"b"
    · exact Or.inr h1
    · by_cases h2 : x = b!"a"
      · exact Or.inl h2
      · exact absurd (by rw [if_neg (fun h => h1 h.symm), if_neg (fun h => h2 h.symm)]) hx.2.1
  have hlen : (Reply.array [b!"a"]).flatten[1]? = (Value.arr l).encode[1]? := by rw [t4]
  match l, hnd, ha, hb, ho, hlen with
  | [], _, _, _, _, hlen => exact absurd hlen (by decide)
  | [x], _, ha, hb, ho, _ =>
    have hx := ho x (by simp)
    rcases hx with rfl | rfl
    · have : t ≤ 10000 := Int.le_trans (ha.1 (by simp)) (by decide)
      exact absurd (hb.2 this) (by decide)
    · exact absurd t4 (by decide)
  | [x, y], _, _, _, _, hlen =>
    have h2 : (Value.arr [x, y]).encode[1]? = some 50 := by
      show ((42 : UInt8) :: (dec 2 ++ CRLF) ++ _)[1]? = _
      rw [show dec 2 = [50] by decide]; rfl
    exact absurd (hlen.trans h2) (by decide)
  | x :: y :: z :: l, hnd, _, _, ho, _ =>
    have hx := ho x (by simp)
    have hy := ho y (by simp)
    have hz := ho z (by simp)
    simp only [List.nodup_cons, List.mem_cons, not_or] at hnd
    rcases hx with rfl | rfl <;> rcases hy with rfl | rfl <;> rcases hz with rfl | rfl <;> simp at hnd

/-- **C104 (partial)**: every history of a server whose clock moves on during commands, but not back, is one of the reference of
`Spec/Ticking.lean`: SDIFF, SINTER and SUNION look at their keys one after the other, each at its own reading of the clock; every other command is
carried out at its first reading; KEYS and RANDOMGET may miss keys that they look at whose deadlines pass while they run, and these are gone from then on. Missing: what C102 leaves out. -/
theorem C104_partial {evs : List Ticking.Event} {s : Sys} {rs : List (List Bytes)} (he : ∀ ev ∈ evs, SameHash hash ev)
    (hf : ∀ ev ∈ evs, Exact.Steadily ev) (h : Ticking.run (Sys.init n pw aof) evs = some (s, rs)) :
    ∃ R vs, Exact.TickRuns n pw Exact.start evs R vs ∧ List.Forall₂ Ref.Told rs vs := by
  obtain ⟨R, vs, h1, h2, _, _⟩ := tick_run evs (hash := hash) (init_good n pw aof) rel_init he hf h
  refine ⟨R, vs, ?_, h2⟩
  have hn : (Sys.init n pw aof).srv.dbs.length = n := by simp [Sys.init, Server.init]
  rw [hn] at h1
  exact h1

/-- The reference in `R` knows which requests bring down the server in `s`. -/
def AgreeTicks (hash : Bytes → Nat) (n : Nat) (pw : Bytes) (s : Sys) (R : Exact.State) : Prop := ∀ fd e clk args, e.hash = hash → args ≠ [] → s.sess fd ≠ none →
  Exact.Steadily (.request fd e clk args) → Undrawn e args →
  (Ticking.step s (.request fd e clk args) = none ↔ ¬ ∃ R' v, Exact.Ticks n pw R (.request fd e clk args) R' v)

theorem agree_ticks {s : Sys} {R : Exact.State} (g : SysGood hash s) (hR : ShowsSys s R) : AgreeTicks hash s.srv.dbs.length s.srv.password s R := by
  intro fd e clk args he h0 hsess hst hr
  obtain ⟨c, hc⟩ := Option.ne_none_iff_exists'.1 hsess
  have hcl : R.client fd = some ⟨c.db, c.auth⟩ := by rw [hR.client, hc]; rfl
  constructor
  · rintro hno ⟨R', v, c', hc', m⟩
    rw [hcl] at hc'; cases hc'
    obtain ⟨hn, hl⟩ := tick_none g he hc h0 hst.1 (fun cmd h => (hr cmd h).2) hno
    rcases m with ⟨cmd, op, all, S, v, gr, hcomb, _⟩ | ⟨_, X, hX, m⟩
    · have := hl cmd gr
      cases cmd <;> first | (cases hcomb; done) | (cases this; done)
    · have hX0 : X = fun _ => false := by
        funext k
        cases hx : X k with
        | false => rfl
        | true =>
          obtain ⟨_, cmd, q1, q2⟩ := hX k hx
          have := hl cmd q1
          cases cmd <;> first | (cases this; done) | (simp only [Exact.looksAt] at q2; done) | (unfold Exact.looksAt at q2; split at q2 <;> first | (cases this; done) | exact q2.elim)
      subst hX0
      rw [without_none, store_self] at m
      exact (agree_now g hR fd (atTime e (clk 0)) args he h0 hsess (fun cmd h => usual_at (hst.2 cmd h)) hr).1 hn ⟨R', v, m⟩
  · intro hno
    cases h : Ticking.step s (.request fd e clk args) with
    | none => rfl
    | some p =>
      obtain ⟨R', v, m, _⟩ := tick_event g (ev := .request fd e clk args) he hR h hst
      exact absurd ⟨R', v, m⟩ hno

/-- **C104 (partial), crashes**: the same run of the reference ends in a state that knows which requests bring down the server next, whatever the clock does
meanwhile. Left out are the requests that draw random numbers (SPOP, RANDOMGET) and what C102 leaves out. -/
theorem C104_crashes_partial {evs : List Ticking.Event} {s : Sys} {rs : List (List Bytes)} (he : ∀ ev ∈ evs, SameHash hash ev)
    (hf : ∀ ev ∈ evs, Exact.Steadily ev) (h : Ticking.run (Sys.init n pw aof) evs = some (s, rs)) :
    ∃ R vs, Exact.TickRuns n pw Exact.start evs R vs ∧ List.Forall₂ Ref.Told rs vs ∧ AgreeTicks hash n pw s R := by
  obtain ⟨R, vs, h1, h2, h3, g, e1, e2⟩ := tick_run evs (hash := hash) (init_good n pw aof) rel_init he hf h
  have hn : (Sys.init n pw aof).srv.dbs.length = n := by simp [Sys.init, Server.init]
  have hpw : (Sys.init n pw aof).srv.password = pw := rfl
  have ha := agree_ticks g h3
  rw [hn, hpw] at h1
  rw [e1, e2, hn, hpw] at ha
  exact ⟨R, vs, h1, h2, ha⟩

/-- It has crashes: a SELECT of a negative database, while the clock jumps. The reference has no answer. -/
example : ∃ s rs R vs, Ticking.run (Sys.init 1 [] false) halfway = some (s, rs) ∧ Exact.TickRuns 1 [] Exact.start halfway R vs ∧
    Ticking.step s (.request 4 (demo 0) jumping [b!"select", b!"-1"]) = none ∧
    ¬ ∃ R' v, Exact.Ticks 1 [] R (.request 4 (demo 0) jumping [b!"select", b!"-1"]) R' v := by
  have hr : (Ticking.run (Sys.init 1 [] false) halfway).map (fun p => (p.2, (p.1.sess 4).isSome, (Ticking.step p.1 (.request 4 (demo 0) jumping [b!"select", b!"-1"])).isNone)) =
    some ([[], Reply.ok, Reply.ok, Reply.array [b!"a"]], true, true) := by decide
  obtain ⟨⟨s, rs⟩, h1, h2⟩ := Option.map_eq_some_iff.1 hr
  simp only [Prod.mk.injEq, Option.isNone_iff_eq_none] at h2
  obtain ⟨R, vs, q1, _, q2⟩ := C104_crashes_partial halfway_same halfway_steadily h1
  refine ⟨s, rs, R, vs, h1, q1, h2.2.2, (q2 4 (demo 0) jumping _ rfl (by simp) ?_ ⟨jumping_forward, ?_⟩ ?_).1 h2.2.2⟩
  · intro h; rw [h] at h2; cases h2.2.1
  · intro cmd h; rw [show commandOf (demo 0) [b!"select", b!"-1"] = some .select by decide] at h; cases h; trivial
  · intro cmd h; rw [show commandOf (demo 0) [b!"select", b!"-1"] = some .select by decide] at h; cases h; decide

/-- **C104 (partial)**: if no deadline of a key that a command looks at passes while it runs, every command happens at one moment. -/
theorem C104_still_partial {evs : List Ticking.Event} {s : Sys} {rs : List (List Bytes)} (he : ∀ ev ∈ evs, SameHash hash ev)
    (hf : ∀ ev ∈ evs, Exact.Steadily ev) (hs : Exact.Stills n pw Exact.start evs) (h : Ticking.run (Sys.init n pw aof) evs = some (s, rs)) :
    ∃ evs' R vs, Exact.Moments evs evs' ∧ Exact.Runs n pw Exact.start evs' R vs ∧ List.Forall₂ Ref.Told rs vs := by
  obtain ⟨R, vs, h1, h2⟩ := C104_partial he hf h
  obtain ⟨evs', q1, q2⟩ := still_runs h1 hs hf
  exact ⟨evs', R, vs, q1, q2, h2⟩

/-- The history above meets the hypotheses of `C104_partial`: the answer of KEYS is possible after `b` vanished. -/
example : ∃ R vs, Exact.TickRuns 1 [] Exact.start halfway R vs ∧ List.Forall₂ Ref.Told [[], Reply.ok, Reply.ok, Reply.array [b!"a"]] vs := by
  have hr : (Ticking.run (Sys.init 1 [] false) halfway).map (·.2) = some [[], Reply.ok, Reply.ok, Reply.array [b!"a"]] := by decide
  obtain ⟨⟨s, rs⟩, h1, h2⟩ := Option.map_eq_some_iff.1 hr
  simp only at h2; subst h2
  exact C104_partial halfway_same halfway_steadily h1

/-- Nothing passes while the clock stands still: `C104_still_partial` has cases. -/
theorem stopped_stills : ∀ (evs : List Ticking.Event) (R : Exact.State),
    (∀ ev ∈ evs, match ev with | .request _ _ clk _ => ∃ t, clk = stopped t | _ => True) → Exact.Stills n pw R evs
  | [], _, _ => trivial
  | ev :: evs, R, h => by
    refine ⟨?_, fun R' r _ => stopped_stills evs R' (fun x hx => h x (by simp [hx]))⟩
    cases ev with
    | request fd e clk args =>
      obtain ⟨t, rfl⟩ := h (.request fd e clk args) (by simp)
      rintro c cmd k _ _ _ ⟨d, i, _, h1, h2⟩
      simp only [stopped] at h1 h2
      omega
    | _ => trivial

example : ∃ s rs, Ticking.run (Sys.init 1 [] false) [.connect 4, .request 4 (demo 0) (stopped 0) setA, .request 4 (demo 0) (stopped 0) askAll] = some (s, rs) ∧
    Exact.Stills 1 [] Exact.start [.connect 4, .request 4 (demo 0) (stopped 0) setA, .request 4 (demo 0) (stopped 0) askAll] ∧
    rs = [[], Reply.ok, Reply.array [b!"a"]] := by
  have hr : (Ticking.run (Sys.init 1 [] false) [.connect 4, .request 4 (demo 0) (stopped 0) setA, .request 4 (demo 0) (stopped 0) askAll]).map (·.2) =
    some [[], Reply.ok, Reply.array [b!"a"]] := by decide
  obtain ⟨⟨s, rs⟩, h1, h2⟩ := Option.map_eq_some_iff.1 hr
  simp only at h2; subst h2
  exact ⟨s, _, h1, stopped_stills _ _ (by simp [stopped]), rfl⟩

def addM : List Bytes := [b!"sadd", b!"s", b!"m"]
def endS : List Bytes := [b!"expire", b!"s", b!"5"]
def minus : List Bytes := [b!"sdiff", b!"s", b!"s"]

/-- A set with deadline 5000; while it is subtracted from itself the clock jumps over the deadline. -/
def itself : List Ticking.Event := [.connect 4, .request 4 (demo 0) (stopped 0) addM, .request 4 (demo 0) (stopped 0) endS, .request 4 (demo 0) jumping minus]

theorem setop_self {e : Env} {k : Bytes} {s s' : Ref.Store} {v : Value} (hv : s.val k = none ∨ ∃ p, s.val k = some (.set p))
    (h : Ref.setop (fun a b => a && !b) false e [k, k] s s' v) : v = .arr [] := by
  unfold Ref.setop at h
  simp only at h
  by_cases hl : Ref.late e.now s k
  · have : (Ref.fresh e.now s k).val k = none := by
      unfold Ref.fresh; rw [if_pos hl]; simp [Ref.put]
    simp only [this] at h
    exact h.2
  · have hf : Ref.fresh e.now s k = s := by unfold Ref.fresh; rw [if_neg hl]
    rw [hf] at h
    rcases hv with hv | ⟨p, hv⟩
    · simp only [hv] at h
      exact h.2
    · simp only [hv] at h
      unfold Ref.combine at h
      simp only [hf, hv] at h
      obtain ⟨-, l, rfl, -, hm⟩ := h
      cases l with
      | nil => rfl
      | cons x l =>
        have := (hm x).1 (by simp)
        cases p x <;> simp_all

/-- **C104**: a set minus itself has a member, if the set dies between the two looks; it is gone afterwards. At no moment the set minus itself has one. -/
theorem C104_twice : (Ticking.run (Sys.init 1 [] false) (itself ++ [.request 4 (demo 0) (stopped 5000) askAll])).map (·.2) =
      some [[], Reply.int 1, Reply.ok, Reply.array [b!"m"], Reply.array []] ∧
    ∀ evs R vs, Exact.Moments itself evs → Exact.Runs 1 [] Exact.start evs R vs → ¬ List.Forall₂ Ref.Told [[], Reply.int 1, Reply.ok, Reply.array [b!"m"]] vs := by
  refine ⟨by decide, fun evs R vs hM hR ht => ?_⟩
  cases hM with | cons o1 hM => cases hM with | cons o2 hM => cases hM with | cons o3 hM => cases hM with | cons o4 hM =>
  cases hM
  cases o1
  cases o2 with | request u1 u2 => cases o3 with | request u3 u4 => cases o4 with | @request _ _ _ _ t i u5 u6 =>
  cases hR with | cons m1 hR => cases hR with | cons m2 hR => cases hR with | cons m3 hR => cases hR with | cons m4 hR =>
  cases hR
  cases ht with | cons t1 ht => cases ht with | cons t2 ht => cases ht with | cons t3 ht => cases ht with | cons t4 ht =>
  obtain ⟨rfl, rfl⟩ := m1
  obtain ⟨S2, v2, p2, rfl, rfl⟩ := ask (cmd := .sadd) (c := ⟨0, false⟩) rfl (by
    show commandOf (demo 0) addM = _
    decide) (by decide) (by decide) m2
  obtain ⟨S3, v3, p3, rfl, rfl⟩ := ask (cmd := .expire) (c := ⟨0, false⟩) rfl (by
    show commandOf (demo 0) endS = _
    decide) (by decide) (by decide) m3
  obtain ⟨S4, v4, p4, rfl, rfl⟩ := ask (cmd := .sdiff) (c := ⟨0, false⟩) rfl (by
    show commandOf (demo 0) minus = _
    decide) (by decide) (by decide) m4
  have t4 : (Reply.array [b!"m"]).flatten = v4.encode := t4
  suffices v4 = .arr [] by subst this; exact absurd t4 (by decide)
  obtain ⟨p2, -, -⟩ := p2
  obtain ⟨rfl, rfl⟩ := p3
  obtain ⟨p4, -, -⟩ := p4
  refine setop_self ?_ p4
  right
  simp only [Exact.State.store, if_true]
  obtain ⟨hp, -⟩ := p2
  exact ⟨_, by rw [hp]; simp [Ref.hold, Ref.put]; rfl⟩

theorem itself_steadily : ∀ ev ∈ itself, Exact.Steadily ev := by
  intro ev hev
  simp only [itself, List.mem_cons, List.not_mem_nil, or_false] at hev
  rcases hev with rfl | rfl | rfl | rfl
  · trivial
  · refine ⟨stopped_forward 0, fun cmd h => ?_⟩
    rw [show commandOf (demo 0) addM = some .sadd by decide] at h; cases h
    exact trivial
  · refine ⟨stopped_forward 0, fun cmd h => ?_⟩
    rw [show commandOf (demo 0) endS = some .expire by decide] at h; cases h
    exact trivial
  · refine ⟨jumping_forward, fun cmd h => ?_⟩
    rw [show commandOf (demo 0) minus = some .sdiff by decide] at h; cases h
    exact trivial

/-- The reference of `C104_partial` has this answer. -/
example : ∃ R vs, Exact.TickRuns 1 [] Exact.start itself R vs ∧ List.Forall₂ Ref.Told [[], Reply.int 1, Reply.ok, Reply.array [b!"m"]] vs := by
  have hr : (Ticking.run (Sys.init 1 [] false) itself).map (·.2) = some [[], Reply.int 1, Reply.ok, Reply.array [b!"m"]] := by decide
  obtain ⟨⟨s, rs⟩, h1, h2⟩ := Option.map_eq_some_iff.1 hr
  simp only at h2; subst h2
  exact C104_partial (hash := (demo 0).hash) (by simp [itself, SameHash]) itself_steadily h1

end Metis.Props.TickingP
