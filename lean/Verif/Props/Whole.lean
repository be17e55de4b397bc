import Verif.Proofs.Whole
/-!
Property C108: bytes in, bytes out, through rewrites, kills and restarts: the whole process is the exact reference with a disk behind sockets (`Spec/Whole.lean`), crashes included.
-/
set_option linter.unusedSectionVars false
set_option linter.unusedSimpArgs false
set_option linter.unusedVariables false
namespace Metis.Props.WholeP
open Metis Metis.Spec Metis.Whole Metis.WholeSim Metis.ExactKeep
open _root_.Metis.Conn (read_held)
open _root_.Metis.Props.DurableP (Fair Tame Timely H L P dice demo_world calm_of tameB tameB_ok twoDbs)
open _root_.Metis.Props.NodeP (conf0 ask)
open _root_.Metis.Props.ExactP (Undrawn demo_bounds)
open _root_.Metis.Props.ExactKeepP (warned)
open _root_.Metis.Props.KeepP (Prints prints_demo)
variable {hash : Bytes → Nat} {lower : Bytes → Bytes} {pf : Bytes → Option F64} {T : Int} {N : Nat} {pw : Bytes} {conf : Conf} {evs : List Ev} {w : Whole}

/-- A life of the reference, `Ps k` after `k` events, in which it says the same as the process at every moment: the same connections are open, and on each of them the
same bytes have been sent or are queued. -/
def Follows (N : Nat) (pw : Bytes) (w0 : Whole) (P : Exact.Process) (evs : List Ev) (Ps : Nat → Exact.Process) : Prop :=
  Ps 0 = P ∧ (∀ k ev, evs[k]? = some ev → Exact.Works N pw (Ps k) ev (Ps (k + 1))) ∧
    ∀ k m, run w0 (evs.take k) = some m → ∀ fd, (m.node.net.clients fd).map (fun o => m.node.net.wire fd ++ Net.pending o) = (Ps k).keeper.out fd

/-- The reference knows which bytes bring down the process: a read does so exactly if it has no outcome (a command in it drawing no random numbers). -/
def Alarmed (hash : Bytes → Nat) (N : Nat) (pw : Bytes) (m : Whole) (P : Exact.Process) : Prop := ∀ fd g e f, m.node.phase = .files f → P.inbox fd ≠ none →
  ReadOk (.readable fd g e) → e.hash = hash → Floats e →
  (∀ args, P.Asks (.readable fd g e) fd e args → Exact.Covered (.request fd e args) ∧ Undrawn e args) →
  (step m (.readable fd g e) = none ↔ ¬ ∃ P', Exact.Works N pw P (.readable fd g e) P')

/-- Every step of the history is orderly (as in C48 and C107): the outside world, the commands in the bytes, the states in which rewrites and restarts happen. -/
def Orderly (hash : Bytes → Nat) (lower : Bytes → Bytes) (pf : Bytes → Option F64) (T : Int) : Whole → List Ev → Prop
  | _, [] => True
  | w, ev :: evs => (ReadOk ev ∧ ∀ v ∈ inner w ev, Fair hash lower pf T v ∧ Tame w.node v ∧ Prints v ∧ Exact.Told v) ∧ ∀ w', step w ev = some w' → Orderly hash lower pf T w' evs

/-- The world outside, whatever the commands. -/
def World' (hash : Bytes → Nat) (lower : Bytes → Bytes) (pf : Bytes → Option F64) (T : Int) : Whole → List Ev → Prop
  | _, [] => True
  | w, ev :: evs => (ReadOk ev ∧ ∀ v ∈ inner w ev, Timely hash lower pf T v ∧ Prints v ∧ Exact.Told v) ∧ ∀ w', step w ev = some w' → World' hash lower pf T w' evs

/-- The full claim of C108: whatever happens. -/
def C108 : Prop := ∀ (hash : Bytes → Nat) (lower : Bytes → Bytes) (pf : Bytes → Option F64) (T : Int) (N : Nat) (pw : Bytes) (conf : Conf) (evs : List Ev) (w : Whole),
  LowerOk lower → N < 2 ^ 63 → 0 ≤ T → World' hash lower pf T (boot N pw true conf) evs →
  run (boot N pw true conf) evs = some w → ∃ Ps, Follows N pw (boot N pw true conf) .start evs Ps

theorem floats_in {v : Node.Ev} (h : Prints v) : FloatsIn v := by cases v <;> exact h

theorem follow (hlow : LowerOk lower) (hN : N < 2 ^ 63) (hT0 : 0 ≤ T) : ∀ (evs : List Ev) {w w' : Whole} {P : Exact.Process}, WOk hash lower pf T N pw w P →
    Orderly hash lower pf T w evs → run w evs = some w' →
    ∃ Ps : Nat → Exact.Process, Ps 0 = P ∧ (∀ k ev, evs[k]? = some ev → Exact.Works N pw (Ps k) ev (Ps (k + 1))) ∧
      ∀ k m, run w (evs.take k) = some m → WOk hash lower pf T N pw m (Ps k)
  | [], w, w', P, h, _, _ => ⟨fun _ => P, rfl, fun k ev he => by simp at he, fun k m hm => by
      simp only [List.take_nil, run, Option.some.injEq] at hm; subst hm; exact h⟩
  | ev :: evs, w, w', P, h, ho, hr => by
    simp only [run, Option.bind_eq_bind, Option.bind_eq_some_iff] at hr
    obtain ⟨w1, h1, h2⟩ := hr
    obtain ⟨P1, m1, ok1⟩ := whole_step hlow hN hT0 h (fun v hv => by
      obtain ⟨a, b, c, d⟩ := ho.1.2 v hv
      exact ⟨calm_of a b, floats_in c, d⟩) ho.1.1 h1
    obtain ⟨Ps, q1, q2, q3⟩ := follow hlow hN hT0 evs ok1 (ho.2 w1 h1) h2
    refine ⟨fun | 0 => P | k + 1 => Ps k, rfl, fun k ev' he => ?_, fun k m hm => ?_⟩
    · cases k with
      | zero => simp at he; subst he; simp only; rw [q1]; exact m1
      | succ k => exact q2 k ev' (by simpa using he)
    · cases k with
      | zero => simp only [List.take_zero, run, Option.some.injEq] at hm; subst hm; exact h
      | succ k =>
        simp only [List.take_succ_cons, run, h1, Option.bind_eq_bind, Option.bind_some] at hm
        exact q3 k m hm

theorem drop_total {fd : Nat} {f} (hf : w.node.phase = .files f) (hc : (w.node.net.clients fd).isSome = true) : drop w fd ≠ none := by
  unfold drop
  simp [Node.step, hf, Net.step, hc, Sys.step]

theorem alarmed {P : Exact.Process} (h : WOk hash lower pf T N pw w P) : Alarmed hash N pw w P := by
  intro fd g e f hf hin hrd he hfl hcv
  obtain ⟨⟨x, room⟩, hl⟩ := Option.ne_none_iff_exists'.1 hin
  have hfit := h.line fd
  rw [hl] at hfit
  obtain ⟨c, b1, b2, b3⟩ := hfit
  have hcl : (w.node.net.clients fd).isSome = true := by rw [← h.peer, b1]; rfl
  have hp : parser w fd = some c := by unfold parser; rw [hf]; exact b1
  have good : ∀ {A : Prop}, step w (.readable fd g e) ≠ none → A → (step w (.readable fd g e) = none ↔ ¬ A) := fun h1 h2 => ⟨fun h => absurd h h1, fun h => absurd h2 h⟩
  cases g with
  | eof =>
    refine good ?_ ⟨P.plug fd none (P.keeper.drop fd), by unfold Exact.Works; simp only [hl]⟩
    simp only [step, readable, hp, Option.bind_eq_bind, Option.bind_some]
    exact drop_total hf hcl
  | nothing =>
    refine good ?_ ⟨P.plug fd (some (x, roomAfter room 0)) P.keeper, by unfold Exact.Works; simp only [hl]⟩
    simp only [step, readable, hp, Option.bind_eq_bind, Option.bind_some]
    simp
  | data d =>
    have hrr := read_held b2 (d := d) hrd
    rw [b3] at hrr
    have hasks : ∀ args, verdict (roomAfter room d.length) (x ++ d) = .run args → args ≠ [] → Exact.Covered (.request fd e args) ∧ Undrawn e args :=
      fun args hv ha => hcv args ⟨d, x, room, rfl, hl, hv, ha⟩
    unfold Exact.Works
    simp only [hl, step, readable, hp, Option.bind_eq_bind, Option.bind_some]
    revert hrr hasks
    generalize verdict (roomAfter room d.length) (x ++ d) = v
    generalize Conn.read c d = y
    intro hrr hasks
    have good2 : ∀ {A : Prop} {o : Option Whole}, o ≠ none → A → (o = none ↔ ¬ A) := fun h1 h2 => ⟨fun h => absurd h h1, fun h => absurd h2 h⟩
    cases hrr with
    | crash => exact ⟨fun _ ⟨_, h⟩ => h, fun _ => rfl⟩
    | close => exact good2 (by simp only [Option.bind_some, exec]; exact drop_total hf hcl) ⟨_, rfl⟩
    | wait c1 q1 q2 => exact good2 (by simp [exec]) ⟨_, rfl⟩
    | run args =>
      by_cases ha : args = []
      · subst ha; exact good2 (by simp [exec]) ⟨_, rfl⟩
      · obtain ⟨h1, h2⟩ := hasks args rfl ha
        have hw := warned h.keep fd e args f hf (by
          have := clients_out h.keep fd
          rw [hcl] at this
          intro hn; rw [hn] at this; cases this) he ha hfl h1 h2
        simp only [if_neg ha, Option.bind_some, exec, Option.bind_eq_bind]
        constructor
        · rintro hn ⟨P', B, hB, _⟩
          cases hst : Node.step w.node (.request fd e args) with
          | none => exact hw.1 hst ⟨B, hB⟩
          | some node => rw [hst] at hn; cases hn
        · intro hn
          rw [hw.2 (fun ⟨B, hB⟩ => hn ⟨_, B, hB, rfl⟩)]; rfl

/-- **C108, partial**: through an orderly history of the whole process - bytes in any pieces on any connections, partial and failing writes, rewrites with any
interleaving of the goroutine, kills and restarts - every connection has been sent, or has queued, at every moment exactly the bytes of the exact reference with
a disk; and at every moment a read brings down the process exactly if the reference has no outcome for it. What is missing: as in C107. -/
theorem C108_partial (hlow : LowerOk lower) (hN : N < 2 ^ 63) (hT0 : 0 ≤ T) (ho : Orderly hash lower pf T (boot N pw true conf) evs)
    (h : run (boot N pw true conf) evs = some w) : ∃ Ps, Follows N pw (boot N pw true conf) .start evs Ps ∧
      ∀ k m, run (boot N pw true conf) (evs.take k) = some m → Alarmed hash N pw m (Ps k) := by
  obtain ⟨Ps, q1, q2, q3⟩ := follow hlow hN hT0 evs WOk.boot ho h
  exact ⟨Ps, ⟨q1, q2, fun k m hm fd => (q3 k m hm).keep.out fd⟩, fun k m hm => alarmed (q3 k m hm)⟩

/-! ### Histories of the examples -/

/-- The commands that an event completes. -/
def words (w : Whole) : Ev → List (List Bytes)
  | .readable fd (.data d) _ =>
    match w.conn fd with
    | none => []
    | some c =>
      match Conn.read c d with
      | some (cmds, _) => cmds
      | none => []
  | _ => []

/-- The commands of the history are among these. -/
def among (A : List (List Bytes)) : Whole → List Ev → Bool
  | _, [] => true
  | w, ev :: evs => (words w ev).all (fun a => decide (a ∈ A)) && match step w ev with
    | none => true
    | some w' => among A w' evs

/-- Rewrites and restarts happen in the right states. -/
def tameRun (w : Whole) : List Ev → Bool
  | [] => true
  | ev :: evs => (inner w ev).all (tameB w.node) && match step w ev with
    | none => true
    | some w' => tameRun w' evs

inductive Shown : Ev → Prop
  | sleep (t) : Shown (.sleep t)
  | noCron : Shown .noCron
  | turn : Shown .turn
  | accept (fd) : Shown (.accept fd)
  | read (fd d) : d ≠ [] → Shown (.readable fd (.data d) (demo 0))
  | eof (fd) : Shown (.readable fd .eof (demo 0))
  | restart : Shown (.restart (fun _ => demo 0))

theorem Shown.inner {ev : Ev} (h : Shown ev) {w : Whole} {v : Node.Ev} (hv : v ∈ inner w ev) :
    (∃ t, v = .sleep t) ∨ v = .restart (fun _ => demo 0) ∨ ∃ fd args, args ∈ words w ev ∧ v = .request fd (demo 0) args := by
  cases h with
  | sleep t => simp only [WholeSim.inner, List.mem_singleton] at hv; exact Or.inl ⟨t, hv⟩
  | restart => simp only [WholeSim.inner, List.mem_singleton] at hv; exact Or.inr (Or.inl hv)
  | read fd d _ =>
    simp only [WholeSim.inner, words] at hv ⊢
    cases hc : w.conn fd with
    | none => rw [hc] at hv; cases hv
    | some c =>
      rw [hc] at hv
      cases hr : Conn.read c d with
      | none => simp only [hr] at hv; cases hv
      | some p =>
        simp only [hr, List.mem_map] at hv ⊢
        obtain ⟨args, h1, rfl⟩ := hv
        exact Or.inr (Or.inr ⟨fd, args, h1, rfl⟩)
  | _ => cases hv

theorem Shown.read_ok {ev : Ev} (h : Shown ev) : ReadOk ev := by cases h <;> first | trivial | assumption

theorem world_of {A : List (List Bytes)} (hA : ∀ args ∈ A, Exact.Covered (.request 0 (demo 0) args)) : ∀ (evs : List Ev) {w : Whole}, (∀ ev ∈ evs, Shown ev) →
    among A w evs = true → World' H L P 0 w evs
  | [], _, _, _ => trivial
  | ev :: evs, w, hs, ha => by
    simp only [among, Bool.and_eq_true, List.all_eq_true, decide_eq_true_eq] at ha
    refine ⟨⟨(hs ev (by simp)).read_ok, fun v hv => ?_⟩, fun w' h1 => ?_⟩
    · rcases (hs ev (by simp)).inner hv with ⟨t, rfl⟩ | rfl | ⟨fd, args, h1, rfl⟩
      · exact ⟨trivial, trivial, trivial⟩
      · exact ⟨demo_world, trivial, trivial⟩
      · exact ⟨⟨rfl, by decide, by decide, rfl, rfl⟩, ReplyP.demo_floats 0, hA args (ha.1 args h1)⟩
    · have := ha.2
      rw [h1] at this
      exact world_of hA evs (fun x hx => hs x (by simp [hx])) this

theorem orderly_of {A : List (List Bytes)} (hA : ∀ args ∈ A, Exact.Covered (.request 0 (demo 0) args) ∧ ∀ cmd, commandOf (demo 0) args = some cmd → Spec.Plain 0 (demo 0) cmd args) :
    ∀ (evs : List Ev) {w : Whole}, (∀ ev ∈ evs, Shown ev) → among A w evs = true → tameRun w evs = true → Orderly H L P 0 w evs
  | [], _, _, _, _ => trivial
  | ev :: evs, w, hs, ha, ht => by
    simp only [among, Bool.and_eq_true, List.all_eq_true, decide_eq_true_eq] at ha
    simp only [tameRun, Bool.and_eq_true, List.all_eq_true] at ht
    refine ⟨⟨(hs ev (by simp)).read_ok, fun v hv => ?_⟩, fun w' h1 => ?_⟩
    · have htv := tameB_ok (ht.1 v hv)
      rcases (hs ev (by simp)).inner hv with ⟨t, rfl⟩ | rfl | ⟨fd, args, h1, rfl⟩
      · exact ⟨trivial, htv, trivial, trivial⟩
      · exact ⟨demo_world, htv, trivial, trivial⟩
      · obtain ⟨q1, q2⟩ := hA args (ha.1 args h1)
        exact ⟨⟨rfl, by decide, by decide, rfl, rfl, LogP.demo_levels, q2⟩, htv, ReplyP.demo_floats 0, q1⟩
    · have h2 := ha.2
      have h3 := ht.2
      rw [h1] at h2 h3
      exact orderly_of hA evs (fun x hx => hs x (by simp [hx])) h2 h3

/-- A request in one read. -/
def send (args : List Bytes) : Ev := .readable 3 (.data (request args)) (demo 0)

/-! ### Refutation -/

def setB : List Bytes := [b!"set", b!"b", b!"2"]
def getB : List Bytes := [b!"get", b!"b"]

/-- The counterexample of C107 as bytes: a write in database 1, a restart, a write in database 0, a restart, and a look at what was written last. -/
def lost : List Ev :=
  [.sleep 0, .noCron, .accept 3, send [b!"select", b!"1"], send [b!"set", b!"a", b!"1"], .turn, .sleep 1, .restart (fun _ => demo 0),
   .sleep 2, .noCron, .accept 3, send setB, .turn, .sleep 3, .restart (fun _ => demo 0), .sleep 4, .noCron, .accept 3, send getB]

set_option maxRecDepth 16000 in
theorem lost_result : (run (boot 2 [] true (conf0 .no)) lost).map (fun w => (w.node.net.clients 3).map (fun o => w.node.net.wire 3 ++ Net.pending o)) = some (some b!"$-1\r\n") := by decide

set_option maxRecDepth 16000 in
theorem lost_among : among [[b!"select", b!"1"], [b!"set", b!"a", b!"1"], setB, getB] (boot 2 [] true (conf0 .no)) lost = true := by decide

theorem shown_send {args : List Bytes} (h : request args ≠ []) : Shown (send args) := .read 3 _ h

/-- A new connection, and a request in one read, in the reference. -/
theorem ref_send {P P1 P2 : Exact.Process} {args : List Bytes} (hv : verdict (roomAfter 4096 (request args).length) ([] ++ request args) = .run args) (ha : args ≠ [])
    (m1 : Exact.Works 2 [] P (.accept 3) P1) (m2 : Exact.Works 2 [] P1 (send args) P2) :
    Exact.Lives 2 [] P.keeper (.accept 3) P1.keeper ∧ Exact.Lives 2 [] P1.keeper (.request 3 (demo 0) args) P2.keeper := by
  obtain ⟨B, m1, rfl⟩ := m1
  refine ⟨m1, ?_⟩
  unfold Exact.Works send at m2
  simp only [Exact.Process.plug, if_true, hv, if_neg ha] at m2
  obtain ⟨B', m2, rfl⟩ := m2
  exact m2

/-- **C108 is false**: as C107. -/
theorem C108_refuted : ¬ C108 := by
  intro hC
  obtain ⟨w, h1, h2⟩ := Option.map_eq_some_iff.1 lost_result
  obtain ⟨Ps, q1, q2, q3⟩ := hC H L DurableP.P 0 2 [] (conf0 .no) lost w (fun _ _ => rfl) (by decide) (by decide)
    (world_of (A := [[b!"select", b!"1"], [b!"set", b!"a", b!"1"], setB, getB])
      (by
        intro args ha
        simp only [List.mem_cons, List.not_mem_nil, or_false] at ha
        rcases ha with rfl | rfl | rfl | rfl
        · exact ExactP.covered_demo (cmd := .select) (by decide) trivial
        · exact ExactP.covered_demo (cmd := .set) (by decide) trivial
        · exact ExactP.covered_demo (cmd := .set) (by decide) trivial
        · exact ExactP.covered_demo (cmd := .get) (by decide) trivial) lost
      (by
        intro ev hev
        simp only [lost, List.mem_cons, List.not_mem_nil, or_false] at hev
        rcases hev with rfl | rfl | rfl | rfl | rfl | rfl | rfl | rfl | rfl | rfl | rfl | rfl | rfl | rfl | rfl | rfl | rfl | rfl | rfl <;>
          first | exact shown_send (by decide) | constructor) lost_among) h1
  obtain ⟨a1, a2⟩ := ref_send (args := setB) (by decide) (by decide) (q2 10 (.accept 3) rfl) (q2 11 (send setB) rfl)
  obtain ⟨c1, c2⟩ := ref_send (args := getB) (by decide) (by decide) (q2 17 (.accept 3) rfl) (q2 18 (send getB) rfl)
  have m8 := ExactKeepP.ref_accept a1
  obtain ⟨R, v, m9, e9⟩ := a2
  have s9 := ExactKeepP.ref_set m8.1 (by decide) m9
  have e10 : Ps 13 = Ps 12 := q2 12 .turn rfl
  have e11 : (Ps 14).keeper = { (Ps 13).keeper with disk := (Ps 13).keeper.state.dbs } := (q2 13 (.sleep 3) rfl).1
  have e12 : Ps 15 = ⟨(Ps 14).keeper.reborn, fun _ => none⟩ := q2 14 (.restart _) rfl
  have e13 : (Ps 16).keeper = { (Ps 15).keeper with disk := (Ps 15).keeper.state.dbs } := (q2 15 (.sleep 4) rfl).1
  have e14 : Ps 17 = Ps 16 := q2 16 .noCron rfl
  have m15 := ExactKeepP.ref_accept c1
  obtain ⟨R', v', m16, e16⟩ := c2
  have hdb : (Ps 18).keeper.state.dbs 0 = (R.dbs 0).rounded := by
    rw [m15.2.1, e14, e13, e12]; simp only [Exact.Keeper.reborn]; rw [e11, e10, e9]
  have hb : ((Ps 18).keeper.state.dbs 0).base = (R.dbs 0).base.rounded := by rw [hdb]; rfl
  have hv := ExactKeepP.ref_get m15.1 (by decide) (x := b!"2") (by show ((Ps 18).keeper.state.dbs 0).base.val _ = _; rw [hb, s9]; simp [Ref.Store.rounded, Ref.put])
    (by show ((Ps 18).keeper.state.dbs 0).base.due _ = _; rw [hb, s9]; simp [Ref.Store.rounded, Ref.put]) m16
  subst hv
  have h3 := q3 19 w (by rw [show lost.take 19 = lost from rfl]; exact h1) 3
  rw [h2, e16] at h3
  simp only [if_true, m15.2.2] at h3
  exact absurd h3 (by decide)

/-! ### The theorem applies -/

def addA : List Bytes := [b!"zadd", b!"z", b!"1", b!"a", b!"2", b!"a", b!"2", b!"b"]
def remA : List Bytes := [b!"zrem", b!"z", b!"a"]
def list2 : List Bytes := [b!"zrangebyscore", b!"z", b!"2", b!"2"]
def list1 : List Bytes := [b!"zrangebyscore", b!"z", b!"1", b!"2"]

/-- A part of a request. -/
def part (d : Bytes) : Ev := .readable 3 (.data d) (demo 0)

/-- The history `scar` of C107 as bytes, the first and the last request in two reads each; before the restart half a request, which is forgotten. -/
def letter : List Ev :=
  [.sleep 0, .noCron, .accept 3, part ((request addA).take 14), part ((request addA).drop 14), send remA, part ((request list1).take 20), .turn, .sleep 2,
   .restart (fun _ => demo 0), .sleep 3, .noCron, .accept 3, part ((request list2).take 28), part ((request list2).drop 28)]

set_option maxRecDepth 16000 in
theorem letter_among : among [addA, remA, list2] (boot 1 [] true (conf0 .no)) letter = true := by decide

set_option maxRecDepth 16000 in
theorem letter_tame : tameRun (boot 1 [] true (conf0 .no)) letter = true := by decide

set_option maxRecDepth 16000 in
theorem letter_result : (run (boot 1 [] true (conf0 .no)) letter).map (fun w => (w.node.net.clients 3).map (fun o => w.node.net.wire 3 ++ Net.pending o)) =
    some (some b!"*1\r\n$1\r\nb\r\n") := by decide

theorem letter_words : ∀ args ∈ [addA, remA, list2], Exact.Covered (.request 0 (demo 0) args) ∧ ∀ cmd, commandOf (demo 0) args = some cmd → Spec.Plain 0 (demo 0) cmd args := by
    intro args ha
    simp only [List.mem_cons, List.not_mem_nil, or_false] at ha
    have two : ∀ {args : List Bytes} {cmd : Cmd}, commandOf (demo 0) args = some cmd → Spec.Plain 0 (demo 0) cmd args → Exact.Usual (demo 0) cmd (args.drop 1) →
        Exact.Covered (.request 0 (demo 0) args) ∧ ∀ cmd, commandOf (demo 0) args = some cmd → Spec.Plain 0 (demo 0) cmd args := fun h1 h2 h3 =>
      ⟨ExactP.covered_demo h1 h3, fun c hc => by rw [h1] at hc; cases hc; exact h2⟩
    rcases ha with rfl | rfl | rfl
    · exact two (cmd := .zadd) (by decide) ⟨fun sc h => by cases h; decide, LogP.demo_numbers _⟩ ExactKeepP.scores_fine
    · exact two (cmd := .zrem) (by decide) trivial trivial
    · exact two (cmd := .zrangebyscore) (by decide) trivial (demo_bounds (Or.inr rfl) (Or.inr rfl))

theorem letter_orderly : Orderly H L DurableP.P 0 (boot 1 [] true (conf0 .no)) letter := by
  refine orderly_of (A := [addA, remA, list2]) letter_words letter ?_ letter_among letter_tame
  · intro ev hev
    simp only [letter, List.mem_cons, List.not_mem_nil, or_false] at hev
    rcases hev with rfl | rfl | rfl | rfl | rfl | rfl | rfl | rfl | rfl | rfl | rfl | rfl | rfl | rfl | rfl <;>
      first | exact .read 3 _ (by decide) | constructor

/-- C108_partial applies: the reference has said the same bytes at the end. -/
example : ∃ Ps, Follows 1 [] (boot 1 [] true (conf0 .no)) .start letter Ps ∧ (Ps letter.length).keeper.out 3 = some b!"*1\r\n$1\r\nb\r\n" := by
  obtain ⟨w, h1, h2⟩ := Option.map_eq_some_iff.1 letter_result
  obtain ⟨Ps, h, _⟩ := C108_partial (T := 0) (fun _ _ => rfl) (by decide) (by decide) letter_orderly h1
  exact ⟨Ps, h, by rw [← h.2.2 letter.length w (by rw [List.take_length]; exact h1) 3]; exact h2⟩

/-- The beginning of a request in which the length of the second word is negative, up to that length; and the rest of it. -/
def head : Bytes := b!"*2\r\n$4\r\nping\r\n$"
def tail : Bytes := b!"-1\r\n"

def slit : List Ev := [.sleep 0, .noCron, .accept 3, part head]

set_option maxRecDepth 16000 in
theorem slit_result : (run (boot 1 [] true (conf0 .no)) slit).map (fun w => (match w.node.phase with | .files _ => true | _ => false, (step w (part tail)).isNone)) =
    some (true, true) := by decide

set_option maxRecDepth 16000 in
/-- The rest of it brings down the process, and the reference has no outcome for it. -/
example : ∃ Ps, Follows 1 [] (boot 1 [] true (conf0 .no)) .start slit Ps ∧ ¬ ∃ P', Exact.Works 1 [] (Ps slit.length) (part tail) P' := by
  obtain ⟨w, h1, h2⟩ := Option.map_eq_some_iff.1 slit_result
  simp only [Prod.mk.injEq] at h2
  obtain ⟨Ps, h, hal⟩ := C108_partial (T := 0) (fun _ _ => rfl) (by decide) (by decide)
    (orderly_of (A := [addA, remA, list2]) letter_words slit (by
      intro ev hev
      simp only [slit, List.mem_cons, List.not_mem_nil, or_false] at hev
      rcases hev with rfl | rfl | rfl | rfl <;> first | exact .read 3 _ (by decide) | constructor) (by decide) (by decide)) h1
  refine ⟨Ps, h, ?_⟩
  obtain ⟨B, m1, e3⟩ := h.2.1 2 (.accept 3) rfl
  have m2 := h.2.1 3 (part head) rfl
  have hw : verdict (roomAfter 4096 head.length) ([] ++ head) = .wait := by decide
  unfold Exact.Works part at m2
  rw [e3] at m2
  simp only [Exact.Process.plug, if_true, hw] at m2
  have hin : (Ps slit.length).inbox 3 = some (head, roomAfter 4096 head.length) := by
    show (Ps 4).inbox 3 = _
    rw [m2]; rfl
  have hv : verdict (roomAfter (roomAfter 4096 head.length) tail.length) (head ++ tail) = .crash := by decide
  cases hph : w.node.phase with
  | files f =>
    refine (hal slit.length w (by rw [List.take_length]; exact h1) 3 (.data tail) (demo 0) f hph (by rw [hin]; simp) (by show _ ≠ []; decide) rfl
      (ReplyP.demo_floats 0) ?_).1 (Option.isNone_iff_eq_none.1 h2.2)
    rintro args ⟨d, x, room, h3, h4, h5, -⟩
    rw [hin] at h4
    cases h3; cases h4
    rw [hv] at h5
    cases h5
  | idle => rw [hph] at h2; cases h2.1
  | timers f => rw [hph] at h2; cases h2.1

end Metis.Props.WholeP
