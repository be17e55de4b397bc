import Verif.Proofs.Loading
import Verif.Props.AofLoad
import Verif.Spec.Demo
/-!
Property C109: loading a log is the exact reference carrying out its records, crashes included.
-/
set_option linter.unusedSectionVars false
set_option linter.unusedSimpArgs false
set_option linter.unusedVariables false
namespace Metis.Props.LoadingP
open Metis Metis.Spec Metis.Loading Metis.ExactSim
open _root_.Metis.Props.ExactP (Undrawn AgreeNow agree_now xs_run bumpy addFour remThird covered_demo)
variable {hash : Bytes → Nat} {n : Nat} {pw : Bytes} {es : Nat → Env} {recs : List (List Bytes)} {srv : Server}

/-- The server answers as the reference with these databases: every history of requests from now on, nothing being left out (`Exact.Covered`), gets the replies of a run of the
reference, and in the state reached a request that draws no random numbers crashes the server exactly if the reference has no outcome for it. -/
def Holds (hash : Bytes → Nat) (n : Nat) (pw : Bytes) (srv : Server) (D : Nat → Exact.Store) : Prop := ∀ evs s rs, (∀ ev ∈ evs, EvOk hash ev) →
  (∀ ev ∈ evs, Exact.Covered ev) → Sys.run ⟨srv, fun _ => none⟩ evs = some (s, rs) →
  ∃ R vs, Exact.Runs n pw ⟨D, fun _ => none⟩ evs R vs ∧ List.Forall₂ Ref.Told rs vs ∧ AgreeNow hash n pw s R

/-- The full claim of C109: whatever the records. -/
def C109 : Prop := ∀ (hash : Bytes → Nat) (n : Nat) (pw : Bytes) (es : Nat → Env) (recs : List (List Bytes)) (srv : Server), n ≠ 0 → (∀ i, (es i).hash = hash) →
  Records recs → Aof.load Aof.readerSize es (log recs) (Server.init n pw true) = some srv →
  ∃ D cur, Exact.Loads n es recs Exact.blank 0 D cur ∧ Holds hash n pw srv D

/-- **C109, partial**: a server that has loaded a log of any records, whoever wrote them, holds exactly what the reference holds that has carried them out. Missing: records
with the wrong number of words, those left out of C102, and logs cut by the reader (C45). -/
theorem C109_partial (hn : n ≠ 0) (he : ∀ i, (es i).hash = hash) (hr : Records recs) (hw : Whole recs) (hf : Fine es recs)
    (h : Aof.load Aof.readerSize es (log recs) (Server.init n pw true) = some srv) :
    ∃ D cur, Exact.Loads n es recs Exact.blank 0 D cur ∧ Holds hash n pw srv D := by
  rw [AofLoadP.C45_partial recs hr hw] at h
  obtain ⟨⟨srv', s'⟩, h1, rfl⟩ := Option.map_eq_some_iff.1 h
  obtain ⟨D, t, ok, l⟩ := load_run recs (LOk.init hn) he hf h1
  have hlen : (Server.init n pw true).dbs.length = n := by simp [Server.init]
  rw [hlen] at t l
  refine ⟨D, s'.db, t, fun evs s rs hev hcov hrun => ?_⟩
  obtain ⟨g, hR⟩ := ok.idle
  obtain ⟨R, vs, q1, q2, q3, q4, q5⟩ := xs_run evs g hR hev hcov hrun
  have hp := replay_password recs h1
  simp only at q1 q4 q5 hp
  rw [l, hp] at q1
  refine ⟨R, vs, q1, q2, ?_⟩
  have g' : SysGood hash s := by
    clear q1 q2 q3 q4 q5 h
    have key : ∀ (evs : List Event) {s0 s : Sys} {rs : List (List Bytes)}, SysGood hash s0 → (∀ ev ∈ evs, EvOk hash ev) → Sys.run s0 evs = some (s, rs) → SysGood hash s := by
      intro evs
      induction evs with
      | nil => intro s0 s rs g _ h; cases h; exact g
      | cons ev evs ih =>
        intro s0 s rs g he h
        simp only [Sys.run, Option.bind_eq_bind, Option.bind_eq_some_iff] at h
        obtain ⟨⟨s1, r⟩, h1, ⟨s2, rs2⟩, h2, h3⟩ := h
        cases h3
        exact ih (step_db g (he ev (by simp)) h1).1 (fun x hx => he x (by simp [hx])) h2
    exact key evs g hev hrun
  have a := agree_now g' q3
  rw [q4, q5, l, hp] at a
  exact a

/-- **C109**, crashes: a log of records that draw no random numbers keeps the server from starting exactly if the reference cannot carry them out. -/
theorem C109_crash_partial (hn : n ≠ 0) (he : ∀ i, (es i).hash = hash) (hr : Records recs) (hw : Whole recs) (hf : Fine es recs)
    (hu : ∀ i r, recs[i]? = some r → Undrawn (es i) r) :
    Aof.load Aof.readerSize es (log recs) (Server.init n pw true) = none ↔ ¬ ∃ D cur, Exact.Loads n es recs Exact.blank 0 D cur := by
  have hlen : (Server.init n pw true).dbs.length = n := by simp [Server.init]
  constructor
  · intro h
    rw [AofLoadP.C45_partial recs hr hw] at h
    have := load_fails recs (LOk.init (pw := pw) (aof := true) hn) he hf hu (Option.map_eq_none_iff.1 h)
    rw [hlen] at this
    exact this
  · intro h
    cases hl : Aof.load Aof.readerSize es (log recs) (Server.init n pw true) with
    | none => rfl
    | some srv =>
      obtain ⟨D, cur, hd, _⟩ := C109_partial hn he hr hw hf hl
      exact absurd ⟨D, cur, hd⟩ h

/-! ### Refutation -/

def card : List Bytes := [b!"zcard", b!"z"]

/-- The databases of the reference that has carried out the two records: three entries are left. -/
theorem third_loaded {D : Nat → Exact.Store} {cur : Nat} (h : Exact.Loads 1 (fun _ => bumpy) [addFour, remThird] Exact.blank 0 D cur) :
    ∃ f, (D 0).base.val b!"z" = some (.zset f) ∧ (D 0).base.due b!"z" = none ∧ ((D 0).entries b!"z").length = 3 := by
  cases h with | cons m2 h => cases h with | cons m3 h =>
  cases h
  unfold Exact.Takes at m2
  simp only [show commandOf bumpy addFour = some .zadd by decide] at m2
  obtain ⟨S, v, m2, rfl, rfl⟩ := m2
  have hsc : Ref.scores bumpy [b!"1", b!"a", b!"1", b!"b", b!"1", b!"c", b!"1", b!"d"] = ([(one, b!"a"), (one, b!"b"), (one, b!"c"), (one, b!"d")], false) := by
    simp only [Ref.scores, show bumpy.parseFloat b!"1" = some one by decide]
  unfold Exact.perform Exact.zadd Exact.tally at m2
  simp only [addFour, List.drop_succ_cons, List.drop_zero, hsc] at m2
  obtain ⟨rfl, rfl⟩ := m2
  unfold Exact.Takes at m3
  simp only [show commandOf bumpy remThird = some .zremrangebyrank by decide] at m3
  obtain ⟨S3, v3, m3, rfl, rfl⟩ := m3
  unfold Exact.perform Exact.zremrangebyrank Exact.fresh Ref.fresh at m3
  simp only [remThird, List.drop_succ_cons, List.drop_zero, show atoi b!"2" = some 2 by decide, if_true] at m3
  rw [if_neg (by
    rintro ⟨x, hx, hlt⟩
    simp only [Exact.holdZset, Ref.hold, Ref.put, if_true, Exact.blank] at hx
    cases hx)] at m3
  obtain ⟨l, hl, rfl, _⟩ := m3
  have hlen : l.length = 4 := hl.1.length_eq.trans (by decide)
  refine ⟨_, by simp only [if_true, Exact.holdZset, Ref.hold, Ref.put]; rfl, ?_, ?_⟩
  · simp [Exact.holdZset, Ref.hold, Ref.put, Exact.blank]
  · simp [Exact.holdZset, Tally.shed, stretch, hlen]

set_option maxRecDepth 16000 in
/-- **C109 is false**: a logged ZREMRANGEBYRANK may remove nothing when it is loaded (C17). -/
theorem C109_refuted : ¬ C109 := by
  intro hC
  have key : (Aof.load Aof.readerSize (fun _ => bumpy) (log [addFour, remThird]) (Server.init 1 [] true)).bind (fun srv =>
      (Sys.run ⟨srv, fun _ => none⟩ [.connect 4, .request 4 bumpy card]).map (·.2)) = some [[], Reply.int 4] := by decide
  obtain ⟨srv, h1, h2⟩ := Option.bind_eq_some_iff.1 key
  obtain ⟨⟨s, rs⟩, h2, h3⟩ := Option.map_eq_some_iff.1 h2
  simp only at h3; subst h3
  obtain ⟨D, cur, hl, hh⟩ := hC bumpy.hash 1 [] (fun _ => bumpy) [addFour, remThird] srv (by decide) (fun _ => rfl) (by
    intro r hr
    simp only [List.mem_cons, List.not_mem_nil, or_false] at hr
    rcases hr with rfl | rfl <;> refine ⟨by decide, by decide, by decide⟩) h1
  obtain ⟨f, d1, d2, d3⟩ := third_loaded hl
  obtain ⟨R, vs, hR, ht, _⟩ := hh _ s _ (by simp [EvOk]) (by
    intro ev hev
    simp only [List.mem_cons, List.not_mem_nil, or_false] at hev
    rcases hev with rfl | rfl
    · trivial
    · exact covered_demo (cmd := .zcard) (by decide) trivial) h2
  cases hR with | cons m1 hR => cases hR with | cons m2 hR =>
  cases hR
  cases ht with | cons t1 ht => cases ht with | cons t2 ht =>
  obtain ⟨rfl, rfl⟩ := m1
  unfold Exact.Moves at m2
  simp only [Exact.State.know, if_true] at m2
  obtain ⟨v, m2, rfl⟩ := m2
  unfold Exact.answers at m2
  simp only [show commandOf bumpy card = some .zcard by decide] at m2
  rw [if_neg (by decide), if_neg (by decide)] at m2
  obtain ⟨S, m2, rfl⟩ := m2
  unfold Exact.perform Exact.zcard Exact.fresh Ref.fresh Exact.tally at m2
  simp only [card, List.drop_succ_cons, List.drop_zero] at m2
  rw [if_neg (by rintro ⟨x, hx, _⟩; rw [d2] at hx; cases hx)] at m2
  simp only [d1] at m2
  obtain ⟨-, rfl⟩ := m2
  rw [d3] at t2
  have ht : (Reply.int 4).flatten = (Value.int 3).encode := t2
  exact absurd ht (by decide)

/-! ### The theorems apply -/

/-- A log no metis would have written: an unknown command, a SELECT too large, a listing, a password, a deadline that has passed; the members of a sorted set with a stale entry. -/
def odd : List (List Bytes) :=
  [[b!"nonsense", b!"x"], [b!"select", b!"1"], [b!"select", b!"7"], [b!"set", b!"a", b!"1"], [b!"auth", b!"p"], [b!"keys", b!"*"],
   [b!"zadd", b!"z", b!"1", b!"a", b!"2", b!"a", b!"2", b!"b"], [b!"zrem", b!"z", b!"a"]]

/-- The same with a listing that hits the stale entry. -/
def fatal : List (List Bytes) := odd ++ [[b!"zrangebyscore", b!"z", b!"1", b!"2"]]

theorem fatal_fine : ∀ r ∈ fatal, Exact.Loadable (demo 0) r ∧ Undrawn (demo 0) r := by
  have one : ∀ {args : List Bytes} {cmd : Cmd}, commandOf (demo 0) args = some cmd → args ≠ [] → accepts cmd args.length → Exact.Usual (demo 0) cmd (args.drop 1) →
      cmd ≠ .spop ∧ cmd ≠ .randomget → Exact.Loadable (demo 0) args ∧ Undrawn (demo 0) args := fun h1 h2 h3 h4 h5 =>
    ⟨⟨h2, fun c hc => by rw [h1] at hc; cases hc; exact ⟨h3, h4⟩⟩, fun c hc => by rw [h1] at hc; cases hc; exact h5⟩
  intro r hr
  simp only [fatal, odd, List.cons_append, List.nil_append, List.mem_cons, List.not_mem_nil, or_false] at hr
  rcases hr with rfl | rfl | rfl | rfl | rfl | rfl | rfl | rfl | rfl
  · exact ⟨⟨by decide, fun c hc => by rw [show commandOf (demo 0) [b!"nonsense", b!"x"] = none by decide] at hc; cases hc⟩,
      fun c hc => by rw [show commandOf (demo 0) [b!"nonsense", b!"x"] = none by decide] at hc; cases hc⟩
  · exact one (cmd := .select) (by decide) (by decide) (by decide) trivial (by decide)
  · exact one (cmd := .select) (by decide) (by decide) (by decide) trivial (by decide)
  · exact one (cmd := .set) (by decide) (by decide) (by decide) trivial (by decide)
  · exact one (cmd := .auth) (by decide) (by decide) (by decide) trivial (by decide)
  · exact one (cmd := .keys) (by decide) (by decide) (by decide) trivial (by decide)
  · exact one (cmd := .zadd) (by decide) (by decide) (by decide)
      (ExactP.stale_covered (.request 4 (demo 0) [b!"zadd", b!"z", b!"1", b!"a", b!"2", b!"a", b!"2", b!"b"]) (by simp [ExactP.stale]) .zadd (by decide)) (by decide)
  · exact one (cmd := .zrem) (by decide) (by decide) (by decide) trivial (by decide)
  · exact one (cmd := .zrangebyscore) (by decide) (by decide) (by decide) (ExactP.demo_bounds (Or.inl rfl) (Or.inr rfl)) (by decide)

theorem fatal_records : Records fatal := by
  intro r hr
  simp only [fatal, odd, List.cons_append, List.nil_append, List.mem_cons, List.not_mem_nil, or_false] at hr
  rcases hr with rfl | rfl | rfl | rfl | rfl | rfl | rfl | rfl | rfl <;> refine ⟨by decide, by decide, by decide⟩

theorem fine_of {recs : List (List Bytes)} (h : ∀ r ∈ recs, Exact.Loadable (demo 0) r) : Fine (fun _ => demo 0) recs := fun i r hr => h r (List.mem_of_getElem? hr)

set_option maxRecDepth 16000 in
theorem odd_result : (Aof.load Aof.readerSize (fun _ => demo 0) (log odd) (Server.init 2 b!"p" true)).bind (fun srv =>
    (Sys.run ⟨srv, fun _ => none⟩ [.connect 4, .request 4 (demo 0) [b!"auth", b!"p"], .request 4 (demo 0) [b!"select", b!"1"], .request 4 (demo 0) [b!"get", b!"a"]]).map (·.2)) =
    some [[], Reply.ok, Reply.ok, Reply.bulk b!"1"] := by decide

/-- C109_partial applies: after the odd log the reference can answer the same. -/
example : ∃ D cur srv, Exact.Loads 2 (fun _ => demo 0) odd Exact.blank 0 D cur ∧ Holds (demo 0).hash 2 b!"p" srv D ∧
    Aof.load Aof.readerSize (fun _ => demo 0) (log odd) (Server.init 2 b!"p" true) = some srv := by
  obtain ⟨srv, h1, -⟩ := Option.bind_eq_some_iff.1 odd_result
  obtain ⟨D, cur, a, b⟩ := C109_partial (hash := (demo 0).hash) (by decide) (fun _ => rfl) (fun r hr => fatal_records r (by simp [fatal, hr])) (by unfold Whole; decide)
    (fine_of (fun r hr => (fatal_fine r (by simp [fatal, hr])).1)) h1
  exact ⟨D, cur, srv, a, b, h1⟩

set_option maxRecDepth 16000 in
theorem fatal_result : (Aof.load Aof.readerSize (fun _ => demo 0) (log fatal) (Server.init 2 b!"p" true)).isNone = true := by decide

/-- The other log cannot be carried out, not by the reference either. -/
example : ¬ ∃ D cur, Exact.Loads 2 (fun _ => demo 0) fatal Exact.blank 0 D cur :=
  (C109_crash_partial (hash := (demo 0).hash) (pw := b!"p") (by decide) (fun _ => rfl) fatal_records (by unfold Whole; decide) (fine_of (fun r hr => (fatal_fine r hr).1))
    (fun i r hr => (fatal_fine r (List.mem_of_getElem? hr)).2)).1 (Option.isNone_iff_eq_none.1 fatal_result)

end Metis.Props.LoadingP
