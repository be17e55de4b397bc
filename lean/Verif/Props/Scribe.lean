import Verif.Proofs.Scribe
import Verif.Proofs.Window
import Verif.Props.Keeper
/-!
Property C110: the process that does not rewrite its log is the exact reference that keeps a log, through any kills and restarts, crashes included.
-/
set_option linter.unusedSectionVars false
set_option linter.unusedSimpArgs false
set_option linter.unusedVariables false
namespace Metis.Props.ScribeP
open Metis Metis.Spec Metis.Node Metis.ScribeSim
open _root_.Metis.ExactSim (ShowsSys)
open _root_.Metis.Loading (LOk load_fails)
open _root_.Metis.Props.DurableP (H L P twoDbs)
open _root_.Metis.Props.NodeP (turn ask)
open _root_.Metis.Props.ExactP (Undrawn agree_now covered_demo bumpy addFour remThird third_reference)
open _root_.Metis.Props.KeepP (lost)
variable {hash : Bytes → Nat} {lower : Bytes → Bytes} {pf : Bytes → Option F64} {N : Nat} {pw : Bytes} {conf : Conf} {evs : List Ev} {n : Node}

/-- A life of the reference with a log, `Bs k` after `k` events, which agrees with the process at every moment: the same connections are open, on each of
them the same bytes have been sent or are queued, and the file consists of the same records. -/
def Follows (N : Nat) (pw : Bytes) (n0 : Node) (B : Exact.Scribe) (evs : List Ev) (Bs : Nat → Exact.Scribe) : Prop :=
  Bs 0 = B ∧ (∀ k ev, evs[k]? = some ev → (Bs k).Lives N pw ev (Bs (k + 1))) ∧
    ∀ k m, run n0 (evs.take k) = some m → m.file = log (Bs k).file ∧ ∀ fd, (m.net.clients fd).map (fun o => m.net.wire fd ++ Net.pending o) = (Bs k).out fd

/-- The reference knows what brings down the process: a request (of a connected client, without random numbers) or a start (with a file without such requests)
fails exactly if it has no outcome. -/
def Warned (hash : Bytes → Nat) (lower : Bytes → Bytes) (pf : Bytes → Option F64) (N : Nat) (pw : Bytes) (m : Node) (B : Exact.Scribe) : Prop :=
  (∀ fd e args w, m.phase = .files w → B.out fd ≠ none → args ≠ [] → Sober hash lower pf m (.request fd e args) → Undrawn e args →
    (step m (.request fd e args) = none ↔ ¬ ∃ B', B.Lives N pw (.request fd e args) B')) ∧
  ∀ es, Sober hash lower pf m (.restart es) → (∀ i r, B.file[i]? = some r → Undrawn (es i) r) →
    (step m (.restart es) = none ↔ ¬ ∃ B', B.Lives N pw (.restart es) B')

/-- All events of the history are sober, each at its moment. -/
def AllSober (hash : Bytes → Nat) (lower : Bytes → Bytes) (pf : Bytes → Option F64) : Node → List Ev → Prop
  | _, [] => True
  | n, ev :: evs => Sober hash lower pf n ev ∧ ∀ n', step n ev = some n' → AllSober hash lower pf n' evs

/-- The world of an event, and no BGREWRITEAOF. -/
def Worldly (hash : Bytes → Nat) (lower : Bytes → Bytes) (pf : Bytes → Option F64) : Ev → Prop
  | .request _ e args => World hash lower pf e ∧ Floats e ∧ commandOf e args ≠ some .bgrewriteaof
  | .cron e _ => e.hash = hash
  | .restart es => ∀ i, World hash lower pf (es i)
  | _ => True

/-- The full claim of C110: whatever happens, if rewriting is switched off and nobody asks for it. -/
def C110 : Prop := ∀ (hash : Bytes → Nat) (lower : Bytes → Bytes) (pf : Bytes → Option F64) (N : Nat) (pw : Bytes) (conf : Conf) (evs : List Ev) (n : Node),
  LowerOk lower → N ≠ 0 → conf.percent = 0 → (∀ ev ∈ evs, Worldly hash lower pf ev) →
  run (boot N pw true conf) evs = some n → ∃ Bs, Follows N pw (boot N pw true conf) .start evs Bs

theorem follow (hlow : LowerOk lower) (hN : N ≠ 0) : ∀ (evs : List Ev) {n n' : Node} {B : Exact.Scribe}, SOk hash lower pf N pw n B →
    AllSober hash lower pf n evs → run n evs = some n' →
    ∃ Bs : Nat → Exact.Scribe, Bs 0 = B ∧ (∀ k ev, evs[k]? = some ev → (Bs k).Lives N pw ev (Bs (k + 1))) ∧
      ∀ k m, run n (evs.take k) = some m → SOk hash lower pf N pw m (Bs k)
  | [], n, n', B, h, _, _ => ⟨fun _ => B, rfl, fun k ev he => by simp at he, fun k m hm => by
      simp only [List.take_nil, Node.run, Option.some.injEq] at hm; subst hm; exact h⟩
  | ev :: evs, n, n', B, h, ho, hr => by
    simp only [Node.run, Option.bind_eq_bind, Option.bind_eq_some_iff] at hr
    obtain ⟨n1, h1, h2⟩ := hr
    obtain ⟨B1, m1, ok1⟩ := scribe_step hlow hN h ho.1 h1
    obtain ⟨Bs, q1, q2, q3⟩ := follow hlow hN evs ok1 (ho.2 n1 h1) h2
    refine ⟨fun | 0 => B | k + 1 => Bs k, rfl, fun k ev' he => ?_, fun k m hm => ?_⟩
    · cases k with
      | zero => simp at he; subst he; simp only; rw [q1]; exact m1
      | succ k => exact q2 k ev' (by simpa using he)
    · cases k with
      | zero => simp only [List.take_zero, Node.run, Option.some.injEq] at hm; subst hm; exact h
      | succ k =>
        simp only [List.take_succ_cons, Node.run, h1, Option.bind_eq_bind, Option.bind_some] at hm
        exact q3 k m hm

theorem warned (hlow : LowerOk lower) (hN : N ≠ 0) {m : Node} {B : Exact.Scribe} (h : SOk hash lower pf N pw m B) : Warned hash lower pf N pw m B := by
  constructor
  · intro fd e args w hw hout h0 hc hu
    constructor
    · rintro hn ⟨_, R, v, _, _, mv, _⟩
      have hse : m.sys.sess fd ≠ none := by
        have h1 := h.out fd
        have h2 := h.peer fd
        intro hn
        rw [hn] at h2
        have : m.net.clients fd = none := by simpa using h2.symm
        unfold KeepSim.said at h1
        rw [this] at h1
        exact hout h1.symm
      have ha := agree_now h.good h.state fd e args hc.1.hash h0 hse hc.2.2.1 hu
      rw [h.len, h.pass] at ha
      cases h1 : Sys.step m.sys (.request fd e args) with
      | none => exact ha.1 h1 ⟨R, _, mv⟩
      | some p =>
        obtain ⟨n', h2⟩ := scribe_request h hc.1 hc.2.1 hlow hc.2.2.1 hc.2.2.2 h1
        simp only [step, hw] at hn
        rw [hn] at h2; cases h2
    · intro hn
      cases hs : step m (.request fd e args) with
      | none => rfl
      | some n' => obtain ⟨B', hl, _⟩ := scribe_step hlow hN h hc hs; exact absurd ⟨B', hl⟩ hn
  · intro es hc hu
    constructor
    · rintro hn ⟨_, D, cur, hl, _⟩
      obtain ⟨r1, r2, r3, r4⟩ := h.loads hc.1 hc.2
      have hn : restart es m = none := hn
      cases hr : Aof.replay es B.file (Server.init N pw true) Session.new with
      | none =>
        have := load_fails _ (LOk.init (pw := pw) (aof := true) hN) (fun i => (hc.1 i).hash) r3 hu hr
        rw [show (Server.init N pw true).dbs.length = N by simp [Server.init]] at this
        exact this ⟨D, cur, hl⟩
      | some p =>
        have e3 := (replay_frame _ r4 hr).2.2
        unfold restart at hn
        simp only [h.aof, h.len, h.pass, h.file, show (Server.init N pw true).aofEnable = true from rfl, if_true, AofLoadP.C45_partial _ r1 r2, hr, Option.map_some,
          Option.bind_eq_bind, Option.bind_some] at hn
        unfold launch at hn
        simp only [Node.start, e3, show (Server.init N pw true).snapshot = none from rfl] at hn
        cases hn
    · intro hn
      cases hs : step m (.restart es) with
      | none => rfl
      | some n' => obtain ⟨B', hl, _⟩ := scribe_step hlow hN h hc hs; exact absurd ⟨B', hl⟩ hn

/-- **C110, partial**: without rewrites, through any kills and restarts, the process says at every moment what the exact reference with a log says, its file consists of
the records of that reference, and a request or a start fails exactly if the reference has no outcome for it. Missing: NaN and ZREMRANGEBYRANK from the second
rank on (C102), files that the reader cuts (C45), rewrites (C107). -/
theorem C110_partial (hlow : LowerOk lower) (hN : N ≠ 0) (hp : conf.percent = 0) (ho : AllSober hash lower pf (boot N pw true conf) evs)
    (h : run (boot N pw true conf) evs = some n) : ∃ Bs, Follows N pw (boot N pw true conf) .start evs Bs ∧
      ∀ k m, run (boot N pw true conf) (evs.take k) = some m → Warned hash lower pf N pw m (Bs k) := by
  obtain ⟨Bs, q1, q2, q3⟩ := follow hlow hN evs (SOk.boot hp) ho h
  exact ⟨Bs, ⟨q1, q2, fun k m hm => ⟨(q3 k m hm).file, fun fd => (q3 k m hm).out fd⟩⟩, fun k m hm => warned hlow hN (q3 k m hm)⟩

/-- The machine before the first start, with a file that was there. -/
def found (N : Nat) (pw : Bytes) (conf : Conf) (recs : List (List Bytes)) : Node := { boot N pw true conf with file := log recs }

/-- **C110, partial**, a file that was there: the same for a process whose first start loads a file of any records that it can carry out. -/
theorem C110_file_partial {recs : List (List Bytes)} {es : Nat → Env} (hlow : LowerOk lower) (hN : N ≠ 0) (hp : conf.percent = 0) (hr : ∀ r ∈ recs, Rec hash lower pf r)
    (ho : AllSober hash lower pf (found N pw conf recs) (.restart es :: evs)) (h : run (found N pw conf recs) (.restart es :: evs) = some n) :
    ∃ Bs, Follows N pw (found N pw conf recs) { Exact.Scribe.start with file := recs } (.restart es :: evs) Bs ∧
      ∀ k m, run (found N pw conf recs) ((.restart es :: evs).take k) = some m → Warned hash lower pf N pw m (Bs k) := by
  have hb := SOk.boot (hash := hash) (lower := lower) (pf := pf) (N := N) (pw := pw) hp
  have h0 : SOk hash lower pf N pw (found N pw conf recs) { Exact.Scribe.start with file := recs } :=
    ⟨hb.good, hb.len, hb.pass, hb.aof, hb.net, hb.state, hb.peer, hb.out, hb.off, hb.task, rfl, hb.buf, hb.sel, fun r h => by
      simp only [Exact.Scribe.start, List.append_nil] at h; exact hr r h⟩
  obtain ⟨Bs, q1, q2, q3⟩ := follow hlow hN _ h0 ho h
  exact ⟨Bs, ⟨q1, q2, fun k m hm => ⟨(q3 k m hm).file, fun fd => (q3 k m hm).out fd⟩⟩, fun k m hm => warned hlow hN (q3 k m hm)⟩

/-! ### Refutation -/

/-- Rewriting switched off. -/
def still : Conf := { percent := 0, minSize := 0, policy := .no }

def rank : List Ev := [.sleep 0, .noCron, .accept 4, .request 4 bumpy addFour, .request 4 bumpy remThird]

theorem demo_lower : LowerOk L := fun _ _ => rfl

theorem world_demo (t : Int) : World H L P (demo t) := ⟨rfl, rfl, rfl, fun j => by simp [demo]⟩

/-- **C110 is false**: ZREMRANGEBYRANK may remove nothing (C17). -/
theorem C110_refuted : ¬ C110 := by
  intro hC
  have key : (run (boot 1 [] true still) rank).map (fun n => (n.net.clients 4).map (fun o => n.net.wire 4 ++ Net.pending o)) = some (some b!":4\r\n:0\r\n") := by decide
  obtain ⟨n, h1, h2⟩ := Option.map_eq_some_iff.1 key
  have hw : World H L P bumpy := ⟨rfl, rfl, rfl, fun j => by simp only [bumpy]; omega⟩
  obtain ⟨Bs, q1, q2, q3⟩ := hC H L P 1 [] still rank n demo_lower (by decide) rfl (by
    intro ev hev
    simp only [rank, List.mem_cons, List.not_mem_nil, or_false] at hev
    rcases hev with rfl | rfl | rfl | rfl | rfl
    · trivial
    · trivial
    · trivial
    · exact ⟨hw, ReplyP.demo_floats 0, by decide⟩
    · exact ⟨hw, ReplyP.demo_floats 0, by decide⟩) h1
  have e0 : Bs 1 = _ := q2 0 _ rfl
  have e1 : Bs 2 = Bs 1 := q2 1 _ rfl
  have e2 : Bs 3 = _ := q2 2 _ rfl
  obtain ⟨R1, v1, _, _, m1, _, e3⟩ := q2 3 _ rfl
  obtain ⟨R2, v2, _, _, m2, _, e4⟩ := q2 4 _ rfl
  have hst : (Bs 3).state = Exact.start.know 4 (some ⟨0, false⟩) := by rw [e2, e1, e0, q1]; rfl
  have ho : (Bs 3).out 4 = some [] := by rw [e2]; simp
  have hs4 : (Bs 4).state = R1 := by rw [e3]
  rw [hst] at m1
  rw [hs4] at m2
  obtain ⟨rfl, rfl⟩ := third_reference m1 m2
  have h3 := (q3 5 n (by rw [show rank.take 5 = rank from rfl]; exact h1)).2 4
  rw [h2, e4] at h3
  simp only [if_true, e3, ho] at h3
  exact absurd h3 (by decide)

/-! ### The theorem applies -/

/-- The files that are loaded on the way are small. -/
def smallRun : Node → List Ev → Bool
  | _, [] => true
  | n, ev :: evs => (match ev with | .restart _ => decide (n.file.length ≤ 65536) | _ => true) && (match step n ev with | none => true | some n' => smallRun n' evs)

/-- What there is to say about an event that does not depend on the moment. -/
def Mild : Ev → Prop
  | .request fd e args => World H L P e ∧ Floats e ∧ Exact.Covered (.request fd e args) ∧ commandOf e args ≠ some .bgrewriteaof
  | .cron e _ => e.hash = H
  | .restart es => ∀ i, World H L P (es i)
  | _ => True

theorem allSober_of : ∀ (evs : List Ev) {n : Node}, (∀ ev ∈ evs, Mild ev) → smallRun n evs = true → AllSober H L P n evs
  | [], _, _, _ => trivial
  | ev :: evs, n, hm, hs => by
    simp only [smallRun, Bool.and_eq_true] at hs
    refine ⟨?_, fun n' h => allSober_of evs (fun x hx => hm x (by simp [hx])) (by have := hs.2; rw [h] at this; exact this)⟩
    have h := hm ev (by simp)
    cases ev with
    | restart es => exact ⟨h, Aof.readable_small (by simpa using hs.1)⟩
    | request fd e args => exact h
    | cron e t => exact h
    | _ => trivial

theorem mild_ask {args : List Bytes} {cmd : Cmd} (h : commandOf (demo 0) args = some cmd) (hu : Exact.Usual (demo 0) cmd (args.drop 1)) (hb : cmd ≠ .bgrewriteaof) : Mild (ask args) :=
  ⟨world_demo 0, ReplyP.demo_floats 0, covered_demo h hu, by rw [h]; intro hh; cases hh; exact hb rfl⟩

theorem lost_mild : ∀ ev ∈ lost, Mild ev := by
  intro ev hev
  simp only [lost, twoDbs, turn, List.cons_append, List.nil_append, List.append_assoc, List.mem_cons, List.not_mem_nil, or_false] at hev
  rcases hev with rfl | rfl | rfl | rfl | rfl | rfl | rfl | rfl | rfl | rfl | rfl | rfl | rfl | rfl | rfl | rfl | rfl | rfl | rfl | rfl
  all_goals first
    | exact mild_ask (cmd := .set) (by decide) trivial (by decide)
    | exact mild_ask (cmd := .get) (by decide) trivial (by decide)
    | exact mild_ask (cmd := .select) (by decide) trivial (by decide)
    | exact fun _ => world_demo 0
    | trivial

set_option maxRecDepth 16000 in
theorem lost_small : smallRun (boot 2 [] true still) lost = true := by decide

set_option maxRecDepth 16000 in
theorem lost_still : (run (boot 2 [] true still) lost).map (fun n => (n.net.clients 3).map (fun o => n.net.wire 3 ++ Net.pending o)) = some (some b!"$-1\r\n") := by decide

/-- C110_partial applies to the history that refutes C107 (what was written after a restart is in another database after the next one): the reference with a log knows it. -/
example : ∃ Bs, Follows 2 [] (boot 2 [] true still) .start lost Bs ∧ (Bs lost.length).out 3 = some b!"$-1\r\n" := by
  obtain ⟨n, h1, h2⟩ := Option.map_eq_some_iff.1 lost_still
  obtain ⟨Bs, h, _⟩ := C110_partial demo_lower (by decide) rfl (allSober_of _ lost_mild lost_small) h1
  refine ⟨Bs, h, ?_⟩
  rw [← (h.2.2 lost.length n (by rw [List.take_length]; exact h1)).2 3]
  exact h2

/-- A deadline passes while the process is down; a ZADD with a score that cannot be read leaves what it had done; an entry of a former score is left and is
there again after the restart. -/
def late : List Ev :=
  turn 0 [.accept 3, ask [b!"setex", b!"a", b!"1", b!"x"], ask [b!"zadd", b!"z", b!"1", b!"m", b!"one", b!"k"], ask [b!"zadd", b!"z", b!"2", b!"m"], ask [b!"zrem", b!"z", b!"m"]] ++
  [.sleep 1, .restart (fun _ => demo 5000), .sleep 2, .noCron, .accept 3, .request 3 (demo 5000) [b!"get", b!"a"], ask [b!"zcard", b!"z"]]

theorem late_mild : ∀ ev ∈ late, Mild ev := by
  have num : ∀ {a : Bytes} {x : F64}, (a = b!"1" ∨ a = b!"2") → (demo 0).parseFloat a = some x → x.isNaN = false := by
    rintro a x (rfl | rfl) h <;> exact (ExactP.demo_bounds (by simp) (by simp) x x h h).1
  intro ev hev
  simp only [late, turn, List.cons_append, List.nil_append, List.append_assoc, List.mem_cons, List.not_mem_nil, or_false] at hev
  rcases hev with rfl | rfl | rfl | rfl | rfl | rfl | rfl | rfl | rfl | rfl | rfl | rfl | rfl | rfl | rfl
  all_goals first
    | exact mild_ask (cmd := .setex) (by decide) trivial (by decide)
    | exact mild_ask (cmd := .zrem) (by decide) trivial (by decide)
    | exact mild_ask (cmd := .zcard) (by decide) trivial (by decide)
    | exact ⟨world_demo 5000, ReplyP.demo_floats 5000, covered_demo (cmd := .get) (by decide) trivial, by decide⟩
    | exact fun _ => world_demo 5000
    | trivial
    | skip
  · refine mild_ask (cmd := .zadd) (by decide) ⟨(world_demo 0).level, fun p hp => ?_⟩ (by decide)
    obtain ⟨x, hx⟩ : ∃ x, (demo 0).parseFloat b!"1" = some x := ⟨_, rfl⟩
    have hy : (demo 0).parseFloat b!"one" = none := by decide
    simp only [Ref.scores, hx, hy, List.mem_singleton] at hp
    subst hp; exact num (Or.inl rfl) hx
  · refine mild_ask (cmd := .zadd) (by decide) ⟨(world_demo 0).level, fun p hp => ?_⟩ (by decide)
    obtain ⟨x, hx⟩ : ∃ x, (demo 0).parseFloat b!"2" = some x := ⟨_, rfl⟩
    simp only [Ref.scores, hx, List.mem_singleton] at hp
    subst hp; exact num (Or.inr rfl) hx

set_option maxRecDepth 16000 in
theorem late_small : smallRun (boot 1 [] true still) late = true := by decide

set_option maxRecDepth 16000 in
theorem late_result : (run (boot 1 [] true still) late).map (fun n => (n.net.clients 3).map (fun o => n.net.wire 3 ++ Net.pending o)) = some (some b!"$-1\r\n:1\r\n") := by decide

set_option maxRecDepth 16000 in
theorem late_crash : (run (boot 1 [] true still) late).map (fun n => (match n.phase with | .files _ => true | _ => false,
    (step n (ask [b!"zrangebyscore", b!"z", b!"1", b!"2"])).isNone)) = some (true, true) := by decide

/-- C110_partial applies: the reference has lost the key whose deadline passed, holds the stale entry, and has no outcome for a listing that hits it. -/
example : ∃ Bs, Follows 1 [] (boot 1 [] true still) .start late Bs ∧ (Bs late.length).out 3 = some b!"$-1\r\n:1\r\n" ∧
    ¬ ∃ B', (Bs late.length).Lives 1 [] (ask [b!"zrangebyscore", b!"z", b!"1", b!"2"]) B' := by
  obtain ⟨n, h1, h2⟩ := Option.map_eq_some_iff.1 late_result
  obtain ⟨Bs, h, hw⟩ := C110_partial demo_lower (by decide) rfl (allSober_of _ late_mild late_small) h1
  have hrun : run (boot 1 [] true still) (late.take late.length) = some n := by rw [List.take_length]; exact h1
  have ho : (Bs late.length).out 3 = some b!"$-1\r\n:1\r\n" := by rw [← (h.2.2 late.length n hrun).2 3]; exact h2
  refine ⟨Bs, h, ho, ?_⟩
  have hc := late_crash
  rw [h1] at hc
  simp only [Option.map_some, Option.some.injEq, Prod.mk.injEq] at hc
  obtain ⟨hc1, hc2⟩ := hc
  have hcmd : commandOf (demo 0) [b!"zrangebyscore", b!"z", b!"1", b!"2"] = some .zrangebyscore := by decide
  cases hph : n.phase with
  | files w =>
    exact ((hw late.length n hrun).1 3 (demo 0) _ w hph (by rw [ho]; simp) (by simp)
      (mild_ask (cmd := .zrangebyscore) hcmd (ExactP.demo_bounds (Or.inl rfl) (Or.inr rfl)) (by decide))
      (fun cmd h => by rw [hcmd] at h; cases h; simp)).1 (Option.isNone_iff_eq_none.1 hc2)
  | idle => rw [hph] at hc1; cases hc1
  | timers w => rw [hph] at hc1; cases hc1

/-- A file with a command that does not exist, and a list. -/
def foreign : List (List Bytes) := [[b!"nothing", b!"here"], [b!"rpush", b!"l", b!"x"]]

theorem foreign_rec : ∀ r ∈ foreign, Rec H L P r := by
  intro r hr
  simp only [foreign, List.mem_cons, List.not_mem_nil, or_false] at hr
  rcases hr with rfl | rfl
  · intro e w
    have hc : commandOf e [b!"nothing", b!"here"] = none := by
      unfold commandOf; simp only [w.lower, List.getElem?_cons_zero, Option.bind_some]; decide
    exact ⟨⟨by simp, fun cmd h => by rw [hc] at h; cases h⟩, by rw [hc]; simp⟩
  · exact rec_args (world_demo 0) (cmd := .rpush) (by decide) (by simp [accepts]) trivial (by decide)

def push : List Ev := [.restart (fun _ => demo 0), .sleep 0, .noCron, .accept 3, ask [b!"rpush", b!"l", b!"y"], .turn, .sleep 1, .restart (fun _ => demo 0), .sleep 2, .noCron, .accept 3, ask [b!"llen", b!"l"]]

theorem push_mild : ∀ ev ∈ push, Mild ev := by
  intro ev hev
  simp only [push, List.mem_cons, List.not_mem_nil, or_false] at hev
  rcases hev with rfl | rfl | rfl | rfl | rfl | rfl | rfl | rfl | rfl | rfl | rfl | rfl
  all_goals first
    | exact mild_ask (cmd := .rpush) (by decide) trivial (by decide)
    | exact mild_ask (cmd := .llen) (by decide) trivial (by decide)
    | exact fun _ => world_demo 0
    | trivial

set_option maxRecDepth 16000 in
theorem push_small : smallRun (found 1 [] still foreign) push = true := by decide

set_option maxRecDepth 16000 in
theorem push_result : (run (found 1 [] still foreign) push).map (fun n => (n.net.clients 3).map (fun o => n.net.wire 3 ++ Net.pending o)) = some (some b!":2\r\n") := by decide

/-- C110_file_partial applies. -/
example : ∃ Bs, Follows 1 [] (found 1 [] still foreign) { Exact.Scribe.start with file := foreign } push Bs ∧ (Bs push.length).out 3 = some b!":2\r\n" := by
  obtain ⟨n, h1, h2⟩ := Option.map_eq_some_iff.1 push_result
  obtain ⟨Bs, h, _⟩ := C110_file_partial demo_lower (by decide) rfl foreign_rec (allSober_of _ push_mild push_small) h1
  refine ⟨Bs, h, ?_⟩
  rw [← (h.2.2 push.length n (by show run _ (push.take push.length) = _; rw [List.take_length]; exact h1)).2 3]
  exact h2

end Metis.Props.ScribeP
