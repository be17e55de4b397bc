import Verif.Props.Durable
/-!
Property C71: a write whose reply was sent survives a kill of the process.
-/
set_option linter.unusedSectionVars false
set_option linter.unusedSimpArgs false
set_option linter.unusedVariables false
set_option synthInstance.maxSize 2000
set_option synthInstance.maxHeartbeats 200000
namespace Metis.Props.AckedP
open Metis Metis.Spec Metis.Node Metis.Props.DurableP
open _root_.Metis.Props.LogP (SameValue second visible restarted same_of)
open _root_.Metis.Props.NodeP (turn ask conf0 rewrites unsent pipelined)
variable {hash : Bytes → Nat} {lower : Bytes → Bytes} {pf : Bytes → Option F64} {T : Int} {N : Nat}

/-- The file, when it is loaded, gives the data of a moment of the history that is not before its beginning `upto`. -/
def Saved (N : Nat) (pw : Bytes) (conf : Conf) (upto evs : List Ev) (n : Node) (es : Nat → Env) (same : Sys → Sys → Prop) : Prop :=
  ∃ pre post m srv, evs = pre ++ post ∧ upto <+: pre ∧ run (boot N pw true conf) pre = some m ∧
    Aof.load Aof.readerSize es n.file (Server.init N pw true) = some srv ∧ same m.sys (restarted srv)

/-- The full claim of C71: let a request on `fd` be executed in state `n0`, and let more be sent on this connection later than what was due in `n0`. Then the file
holds the data of a moment after the request. -/
def C71 : Prop := ∀ (hash : Bytes → Nat) (lower : Bytes → Bytes) (pf : Bytes → Option F64) (T : Int) (N : Nat) (pw : Bytes) (conf : Conf)
  (before after : List Ev) (fd : Nat) (e : Env) (args : List Bytes) (n0 n : Node) (es : Nat → Env), LowerOk lower → N < 2 ^ 63 →
  (∀ ev ∈ before ++ [.request fd e args] ++ after, Timely hash lower pf T ev) → run (boot N pw true conf) before = some n0 →
  run (boot N pw true conf) (before ++ [.request fd e args] ++ after) = some n → (∀ ev ∈ after, ev.isRestart = false ∧ ev ≠ .accept fd) →
  ¬ n.net.wire fd <+: n0.net.wire fd ++ unsent n0 fd → n.file.length ≤ 65536 → (∀ i, World hash lower pf T (es i)) →
  Saved N pw conf (before ++ [.request fd e args]) (before ++ [.request fd e args] ++ after) n es (fun s s' => Shows T s s'.srv)

/-- Once more has been sent than before the request, the log has been flushed after it. -/
theorem acked_flush {n00 : Node} {before mid after : List Ev} {fd : Nat} {e : Env} {args : List Bytes}
    {t : Int} {n0 n : Node} (hb : run n00 before = some n0) (hq : n0.net.loop.files (Ae.key fd .writable) = none)
    (hr : run n00 (before ++ [.sleep t] ++ mid ++ [.request fd e args] ++ after) = some n)
    (hm : NodeP.Between fd mid) (ha : ∀ ev ∈ after, ev.isRestart = false ∧ ev ≠ .accept fd) (hw : n.net.wire fd ≠ n0.net.wire fd) :
    ∃ t', Ev.sleep t' ∈ after := by
  by_contra hcon
  have hs : ∀ t', Ev.sleep t' ∉ after := fun t' ht => hcon ⟨t', ht⟩
  refine hw ?_
  rw [List.append_assoc, List.append_assoc, List.append_assoc] at hr
  obtain ⟨n0', k1, k2⟩ := Node.run_append.1 hr
  rw [hb] at k1; cases k1
  simp only [List.singleton_append, Node.run, Option.bind_eq_bind, Option.bind_eq_some_iff] at k2
  obtain ⟨n1, k2, k3⟩ := k2
  have hbt : NodeP.Between fd (mid ++ Ev.request fd e args :: after) := by
    intro ev hev
    rcases List.mem_append.1 hev with hev | hev
    · exact hm ev hev
    · rcases List.mem_cons.1 hev with rfl | hev
      · exact ⟨(by intro _ h; cases h), rfl, (by intro h; cases h)⟩
      · exact ⟨fun t' h => hs t' (h ▸ hev), ha ev hev⟩
  have hsil : Silent fd n1 := by
    cases step_is k2 with
    | quiet hq => cases hq
    | sleep hp => unfold Silent; simp [hq]
  obtain ⟨c1, _⟩ := run_silent k3 hsil hbt
  rw [c1]
  cases step_is k2 with
  | quiet hq => cases hq
  | sleep hp => exact (congrArg (fun x => x.wire fd) (flush_same t n0).1)

/-- When there was no flush in `post`, but one after the request, the request is before `post`. -/
theorem acked_pre {pre post upto after : List Ev} (h : upto ++ after = pre ++ post) (hp : ∀ t, Ev.sleep t ∉ post) (ha : ∃ t, Ev.sleep t ∈ after) : upto <+: pre := by
  rcases List.append_eq_append_iff.1 h with ⟨x, h1, h2⟩ | ⟨x, h1, h2⟩
  · exact ⟨x, h1.symm⟩
  · obtain ⟨t, ht⟩ := ha
    exact absurd (by rw [h2]; exact List.mem_append_right _ ht) (hp t)

/-- **C71, partial**: in an orderly history (as in C51), for a client that had nothing to be sent when the loop last went to sleep before the request
(it waits for replies): once more has been sent to it than before the request, killing the process does not lose the request. -/
theorem C71_partial (hlow : LowerOk lower) (hN : N < 2 ^ 63) (hT0 : 0 ≤ T) {pw : Bytes} {conf : Conf} {before mid after : List Ev} {fd : Nat} {e : Env} {args : List Bytes}
    {t : Int} {n0 n : Node} {es : Nat → Env} (hb : run (boot N pw true conf) before = some n0) (hq : n0.net.loop.files (Ae.key fd .writable) = none)
    (ho : Orderly hash lower pf T (boot N pw true conf) (before ++ [.sleep t] ++ mid ++ [.request fd e args] ++ after))
    (hr : run (boot N pw true conf) (before ++ [.sleep t] ++ mid ++ [.request fd e args] ++ after) = some n)
    (hm : NodeP.Between fd mid) (ha : ∀ ev ∈ after, ev.isRestart = false ∧ ev ≠ .accept fd) (hw : n.net.wire fd ≠ n0.net.wire fd)
    (hl : Readable n.file) (hes : ∀ i, World hash lower pf T (es i)) :
    Saved N pw conf (before ++ [.sleep t] ++ mid ++ [.request fd e args]) (before ++ [.sleep t] ++ mid ++ [.request fd e args] ++ after) n es Equal := by
  obtain ⟨pre, post, m, srv, q1, q2, q3, q4, q5⟩ := C51_partial hlow hN hT0 ho hr hl hes
  exact ⟨pre, post, m, srv, q1, acked_pre q1 q3 (acked_flush hb hq hr hm ha hw), q2, q4, q5⟩

/-- The reply of a pipelined SET is sent before the log is flushed; then the process is killed. -/
theorem early_result : (run (boot 1 [] true (conf0 .always)) pipelined).bind (fun n0 => (run n0 [ask [b!"set", b!"a", b!"1"]]).bind (fun n1 =>
    (run n1 [.writable 3 [.bytes 100, .bytes 100]]).bind (fun n => (Aof.load Aof.readerSize (fun _ => demo 0) n.file (Server.init 1 [] true)).map (fun srv =>
      ((n0.net.wire 3, unsent n0 3, n.net.wire 3), n.file, (n1.sys.deadline 0 b!"a", text (n1.sys.val 0 b!"a")), (n.sys.deadline 0 b!"a", text (n.sys.val 0 b!"a")),
        text ((restarted srv).val 0 b!"a")))))) =
    some (([], b!"$-1\r\n", b!"$-1\r\n+OK\r\n"), [], (none, some b!"1"), (none, some b!"1"), none) := by decide

/-- **C71 is false**: a client with pending output is sent the reply before the command is in the file. -/
theorem C71_refuted : ¬ C71 := by
  intro hC
  have key := early_result
  simp only [Option.bind_eq_some_iff, Option.map_eq_some_iff] at key
  obtain ⟨n0, h0, n1, h1, n, h2, srv, h3, h4⟩ := key
  simp only [Prod.mk.injEq] at h4
  obtain ⟨⟨a1, a2, a3⟩, b, ⟨c1, c2⟩, ⟨d1, d2⟩, f⟩ := h4
  have hr1 : run (boot 1 [] true (conf0 .always)) (pipelined ++ [ask [b!"set", b!"a", b!"1"]]) = some n1 := Node.run_append.2 ⟨n0, h0, h1⟩
  have hr : run (boot 1 [] true (conf0 .always)) (pipelined ++ [ask [b!"set", b!"a", b!"1"]] ++ [.writable 3 [.bytes 100, .bytes 100]]) = some n :=
    Node.run_append.2 ⟨n1, hr1, h2⟩
  obtain ⟨pre, post, m, srv', k1, k2, k3, k4, k5⟩ := hC H L P 0 1 [] (conf0 .always) pipelined [.writable 3 [.bytes 100, .bytes 100]] 3 (demo 0) [b!"set", b!"a", b!"1"] n0 n
    (fun _ => demo 0) (fun _ _ => rfl) (by decide)
    (by
      intro ev hev
      simp only [pipelined, turn, List.cons_append, List.nil_append, List.mem_cons, List.not_mem_nil, or_false] at hev
      rcases hev with rfl | rfl | rfl | rfl | rfl | rfl | rfl | rfl | rfl
      all_goals first
        | exact Shown.timely (by constructor)
        | exact Shown.timely (.ask _)
        | trivial) h0 hr
    (by intro ev hev; rw [List.mem_singleton.1 hev]; exact ⟨rfl, by simp⟩) (by rw [a1, a2, a3]; decide) (by rw [b]; decide) demo_world
  rw [h3] at k4; cases k4
  have hm : m.sys.deadline 0 b!"a" = none ∧ text (m.sys.val 0 b!"a") = some b!"1" := by
    obtain ⟨x, rfl⟩ := k2
    have k1 : pipelined ++ [ask [b!"set", b!"a", b!"1"]] ++ [.writable 3 [.bytes 100, .bytes 100]] = pipelined ++ [ask [b!"set", b!"a", b!"1"]] ++ x ++ post := k1
    rw [List.append_assoc _ x] at k1
    have k1 := List.append_cancel_left k1
    rcases x with _ | ⟨y, x⟩
    · rw [List.append_nil] at k3
      have k3 := k3.symm.trans hr1
      cases k3; exact ⟨c1, c2⟩
    · simp only [List.cons_append, List.cons.injEq] at k1
      obtain ⟨rfl, hx⟩ := k1
      obtain ⟨rfl, _⟩ := List.append_eq_nil_iff.1 hx.symm
      have k3 := k3.symm.trans hr
      cases k3; exact ⟨d1, d2⟩
  have := text_same (k5 0 b!"a" (fun d hd => by rw [hm.1] at hd; cases hd))
  rw [show text (visible m.sys 0 0 b!"a") = some b!"1" by simp [visible, hm.1, hm.2]] at this
  have hn : text (visible (restarted srv) 0 0 b!"a") = none := by
    unfold visible
    split
    · split
      · rfl
      · exact f
    · exact f
  rw [show restarted (restarted srv).srv = restarted srv from rfl, hn] at this
  cases this

/-- For `C71_partial`: a client that waits; part of the reply was sent. -/
def waiting : List Ev := turn 0 [.accept 3] ++ [.sleep 1] ++ [.noCron] ++ [ask [b!"set", b!"a", b!"1"]] ++ [.turn, .sleep 2, .noCron, .writable 3 [.bytes 3]]

theorem waiting_ok : Orderly H L P 0 (boot 1 [] true (conf0 .no)) waiting := by
  refine orderly_of _ ?_ (by decide)
  intro ev hev
  simp only [waiting, turn, List.cons_append, List.nil_append, List.mem_cons, List.not_mem_nil, or_false] at hev
  rcases hev with rfl | rfl | rfl | rfl | rfl | rfl | rfl | rfl | rfl | rfl | rfl
  all_goals first
    | exact fair_ask (cmd := .set) (by decide) trivial
    | trivial

example : (run (boot 1 [] true (conf0 .no)) (turn 0 [.accept 3])).map (fun n => ((n.net.loop.files (Ae.key 3 .writable)).isNone, n.net.wire 3)) = some (true, []) ∧
    (run (boot 1 [] true (conf0 .no)) waiting).map (fun n => (n.net.wire 3, n.file.length)) = some (b!"+OK", 27) := by decide

end Metis.Props.AckedP
