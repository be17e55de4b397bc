import Verif.Proofs.Proc
import Verif.Props.Acked
/-!
Properties C77 to C79: the process with all its goroutines, and its shutdown.
-/
set_option linter.unusedSectionVars false
set_option linter.unusedSimpArgs false
set_option linter.unusedVariables false
set_option synthInstance.maxSize 2000
set_option synthInstance.maxHeartbeats 200000
namespace Metis.Props.ProcP
open Metis Metis.Spec Metis.Proc Metis.Props.DurableP
open _root_.Metis.Node (boot)
open _root_.Metis.Props.LogP (SameValue second visible restarted same_of)
open _root_.Metis.Props.NodeP (turn ask conf0)
variable {hash : Bytes → Nat} {lower : Bytes → Bytes} {pf : Bytes → Option F64} {T : Int} {N : Nat}

/-! ### C77: the interleaving of the goroutines is invisible -/

/-- **C77**: however the goroutines and the steps of the callback are interleaved, the loop goes through the states of the `Node` that executes the
steps of the loop and of the rewrite goroutine in this order, replacing the file in one step. -/
theorem C77_refines {n : Node} {evs : List Ev} {p : Proc} (h : run (start n) evs = some (.alive p)) : Node.run n (nodes evs) = some p.node :=
  (inv_of h).run

/-- **C77**: whenever the process dies, the new one starts in the same way as after a kill of the `Node`: between two steps, or inside the step that
replaces the file. -/
theorem C77_death {n : Node} {evs : List Ev} {p : Proc} (h : run (start n) evs = some (.alive p)) (es : Nat → Env) :
    ∃ pre last, pre <+: nodes evs ∧ (last = Node.Ev.restart es ∨ ∃ m, last = Node.Ev.crashInDone m es) ∧ Node.run n (pre ++ [last]) = next es p := by
  have k := inv_of h
  have inside : ∀ tmp buf, Inside n (nodes evs) p tmp buf →
      ∃ pre last, pre <+: nodes evs ∧ (last = Node.Ev.restart es ∨ ∃ m, last = Node.Ev.crashInDone m es) ∧ Node.run n (pre ++ [last]) = next es p := by
    rintro tmp buf ⟨⟨pre, e, t, post, n1, w, rest, h1, h2, h3, h4, h5, h6, h7⟩, hf⟩
    rcases h7 with h7 | ⟨m, h7⟩
    · refine ⟨pre, .restart es, ⟨_, h1.symm⟩, Or.inl rfl, ?_⟩
      rw [next, h6.restart, h7]
      rw [node_snoc _ h2]
      rfl
    · refine ⟨pre, .crashInDone m es, ⟨_, h1.symm⟩, Or.inr ⟨m, rfl⟩, ?_⟩
      rw [next, h6.restart, h7]
      rw [node_snoc _ h2]
      simp only [Node.step, h3, h4, h5]
  cases hd : p.doing with
  | none =>
    refine ⟨nodes evs, .restart es, List.prefix_refl _, Or.inl rfl, ?_⟩
    rw [next, k.out hd]
    rw [node_snoc _ k.run]
    rfl
  | some s =>
    cases s with
    | move tmp buf d => exact inside tmp buf (k.move tmp buf d hd)
    | append tmp buf d => exact inside tmp buf (k.append tmp buf d hd)

/-- **C77**: the death of a process does not change the disk. -/
theorem C77_disk {n : Node} {evs : List Ev} {why : End} {disk : Bytes} (h : run (start n) evs = some (.dead why disk)) :
    ∃ pre last p, evs = pre ++ [last] ∧ run (start n) pre = some (.alive p) ∧ p.disk = disk := by
  obtain ⟨pre, last, q, h1, h2, h3⟩ := dead_of h
  exact ⟨pre, last, q, h1, h2, (death h3).1.symm⟩

/-- **C77**, the other direction: every history of the `Node` without a restart is one of the process. -/
theorem C77_complete {n n' : Node} {h : List Node.Ev} (hr : Node.run n h = some n') (hn : ∀ ev ∈ h, ev.isRestart = false) :
    ∃ evs p, nodes evs = h ∧ run (start n) evs = some (.alive p) ∧ p.node = n' ∧ p.doing = none ∧ p.disk = n'.file := by
  obtain ⟨evs, p, h1, h2, h3, h4⟩ := sim_run (rest_start n) hr hn
  exact ⟨evs, p, h1, h2, h3, h4.doing, by rw [h4.disk, h3]⟩

/-- **C77**, the other direction: a process can die at every place where the `Node` can be killed while it replaces the file. -/
theorem C77_window {n n1 n2 : Node} {h : List Node.Ev} {e : Env} {t : Int} (hr : Node.run n h = some n1) (hn : ∀ ev ∈ h, ev.isRestart = false)
    (hd : n1.done ≠ []) (hc : Node.step n1 (.cron e t) = some n2) (m : Nat) :
    ∃ evs p, nodes evs = h ++ [.cron e t] ∧ run (start n) evs = some (.alive p) ∧ ∀ es, next es p = Node.step n1 (.crashInDone m es) := by
  obtain ⟨evs, p, h1, h2, rfl, h4⟩ := sim_run (rest_start n) hr hn
  obtain ⟨w, n3, g1, g2, rfl⟩ := cron_step hc
  obtain ⟨a1, a2⟩ := cron_disk g2
  obtain ⟨tmp, rest, hdone⟩ := List.exists_cons_of_ne_nil hd
  have hs : step p (.node (.cron e t)) = some (.alive { p with node := { n3 with phase := .files w }, opened := false, doing := some (.move tmp p.node.sys.srv.aofRewriteBuf (due t p.node)) }) := by
    simp only [step, Proc.cron, hdone]
    rw [if_neg (by rw [h4.doing]; simp), hc]
    rfl
  have al : Alike p.node { n3 with phase := .files w } := a1
  have fin : ∀ es, Node.restart es { ({ n3 with phase := .files w } : Node) with file := (tmp ++ p.node.sys.srv.aofRewriteBuf).take m } = Node.step p.node (.crashInDone m es) := by
    intro es
    have := al.restart es ((tmp ++ p.node.sys.srv.aofRewriteBuf).take m)
    simp only [Node.step, g1, hdone]
    exact this
  have key : ∃ evs' p', nodes evs' = [.cron e t] ∧ run p evs' = some (.alive p') ∧ p'.node = { n3 with phase := .files w } ∧
      p'.disk = (tmp ++ p.node.sys.srv.aofRewriteBuf).take m := by
    by_cases hm : m < tmp.length
    · refine ⟨[.node (.cron e t), .mv m], { p with node := { n3 with phase := .files w }, opened := false, disk := tmp.take m, doing := some (.move tmp p.node.sys.srv.aofRewriteBuf (due t p.node)) }, rfl, ?_, rfl, by rw [List.take_append_of_le_length (by omega)]⟩
      rw [Proc.run_cons hs]
      simp only [run, step]
      rw [if_neg (by omega)]
    · refine ⟨[.node (.cron e t), .mv tmp.length, .append (m - tmp.length)], { p with node := { n3 with phase := .files w }, opened := false, disk := tmp ++ p.node.sys.srv.aofRewriteBuf.take (m - tmp.length), doing := some (.append tmp p.node.sys.srv.aofRewriteBuf (due t p.node)) }, rfl, ?_, rfl, ?_⟩
      · rw [Proc.run_cons hs]
        simp only [run, step, Nat.le_refl, if_true]
      · show tmp ++ _ = _
        rw [List.take_append, List.take_of_length_le (l := tmp) (by omega)]
  obtain ⟨evs', p', k1, k2, k3, k4⟩ := key
  refine ⟨evs ++ evs', p', by rw [nodes_append, h1, k1], by rw [run_app h2, k2], fun es => ?_⟩
  rw [← fin es, next, k3, k4]

/-! ### C78: the background syncs -/

/-- The full claim of C78: as long as nobody stops it, the process lives. -/
def C78 : Prop := ∀ (N : Nat) (pw : Bytes) (aof : Bool) (conf : Conf) (evs : List Ev) (why : End) (disk : Bytes), Unstopped evs →
  run (start (boot N pw aof conf)) evs ≠ some (.dead why disk)

/-- What happens when a process dies that nobody has stopped: the policy is everysec, and a goroutine called `Sync` while the callback was running, in
which `srv.aofFile` is a closed file. -/
theorem C78_only_sync {n : Node} {evs : List Ev} {why : End} {disk : Bytes} (hu : Unstopped evs) (h : run (start n) evs = some (.dead why disk)) :
    why = .sync ∧ n.conf.policy = .everysec ∧ ∃ pre p, evs = pre ++ [.sync] ∧ run (start n) pre = some (.alive p) ∧ p.doing ≠ none := by
  obtain ⟨pre, last, q, rfl, h2, h3⟩ := dead_of h
  have k := open_run (open_start n) (fun hx => hu (List.mem_append_left _ hx)) h2
  obtain ⟨_, d⟩ := death h3
  rcases d with ⟨rfl, rfl, d3, d4⟩ | ⟨rfl, d2, d3, _⟩ | ⟨rfl, d2⟩ | ⟨rfl, rfl, d3⟩
  · refine ⟨rfl, ?_, pre, q, rfl, h2, fun hd => ?_⟩
    · by_contra hc
      rw [k.syncs hc] at d3
      exact absurd d3 (by omega)
    · rw [k.opened hd] at d4; cases d4
  · rw [k.opened d3] at d2; cases d2
  · rw [k.stop] at d2; omega
  · rw [k.stop] at d3; omega

/-- **C78, partial**: a process that nobody stops lives if the policy is not everysec, or if no goroutine calls `Sync` while the callback is running. What
is missing is refuted below. -/
theorem C78_partial {n : Node} {evs : List Ev} (hu : Unstopped evs)
    (hs : n.conf.policy ≠ .everysec ∨ ∀ pre post p, evs = pre ++ .sync :: post → run (start n) pre = some (.alive p) → p.doing = none) (why : End) (disk : Bytes) :
    run (start n) evs ≠ some (.dead why disk) := by
  intro h
  obtain ⟨_, h2, pre, p, rfl, h4, h5⟩ := C78_only_sync hu h
  rcases hs with hs | hs
  · exact hs h2
  · exact h5 (hs pre [] p rfl h4)

/-- A rewrite ends while a write is flushed: the goroutine that should sync the old file runs when it is closed. -/
def unluckyNode : List Node.Ev := turn 0 [.accept 3, ask [b!"bgrewriteaof"], ask [b!"set", b!"a", b!"1"]] ++ [.work 0 (demo 0) .whole, .sleep 1, .cron (demo 0) 1]

def unlucky : List Ev := unluckyNode.map .node ++ [.sync]

/-- The end of a history. -/
def ending : Option Result → Option (Option (End × Bytes))
  | none => none
  | some (.alive _) => some none
  | some (.dead why disk) => some (some (why, disk))

theorem unlucky_result : ending (run (start (boot 1 [] true (conf0 .everysec))) unlucky) = some (some (.sync, b!"*3\r\n$3\r\nset\r\n$1\r\na\r\n$1\r\n1\r\n")) := by decide

theorem of_ending {r : Option Result} {why : End} {disk : Bytes} (h : ending r = some (some (why, disk))) : r = some (.dead why disk) := by
  cases r with
  | none => cases h
  | some r => cases r with
    | alive p => cases h
    | dead w d => cases h; rfl

/-- **C78 is false**: with the policy everysec the server can crash at the end of a rewrite. -/
theorem C78_refuted : ¬ C78 := by
  intro hC
  refine hC 1 [] true (conf0 .everysec) unlucky _ _ ?_ (of_ending unlucky_result)
  intro hx
  simp [unlucky] at hx

/-! ### C79: the shutdown -/

/-- The full claim of C79: when `Stop` has finished its work and the process is about to exit, the file holds the data of the server. -/
def C79 : Prop := ∀ (hash : Bytes → Nat) (lower : Bytes → Bytes) (pf : Bytes → Option F64) (T : Int) (N : Nat) (pw : Bytes) (conf : Conf)
  (evs : List Ev) (p : Proc) (es : Nat → Env), LowerOk lower → N < 2 ^ 63 → (∀ ev ∈ nodes evs, Timely hash lower pf T ev) →
  run (start (boot N pw true conf)) evs = some (.alive p) → p.stop = 4 → p.disk.length ≤ 65536 → (∀ i, World hash lower pf T (es i)) →
  ∃ srv, Aof.load Aof.readerSize es p.disk (Server.init N pw true) = some srv ∧ Shows T p.node.sys srv

/-- The same for a server that has nothing to flush. -/
def C79_flushed : Prop := ∀ (hash : Bytes → Nat) (lower : Bytes → Bytes) (pf : Bytes → Option F64) (T : Int) (N : Nat) (pw : Bytes) (conf : Conf)
  (evs : List Ev) (p : Proc) (es : Nat → Env), LowerOk lower → N < 2 ^ 63 → (∀ ev ∈ nodes evs, Timely hash lower pf T ev) →
  run (start (boot N pw true conf)) evs = some (.alive p) → p.stop = 4 → p.node.sys.srv.aofBuf = [] → p.disk.length ≤ 65536 → (∀ i, World hash lower pf T (es i)) →
  ∃ srv, Aof.load Aof.readerSize es p.disk (Server.init N pw true) = some srv ∧ Shows T p.node.sys srv

/-- **C79, partial**: a server that is stopped outside the callback when it has nothing to flush leaves all its data (orderly histories, as in C48). -/
theorem C79_partial (hlow : LowerOk lower) (hN : N < 2 ^ 63) (hT0 : 0 ≤ T) {pw : Bytes} {conf : Conf} {evs : List Ev} {p : Proc} {es : Nat → Env}
    (ho : Orderly hash lower pf T (boot N pw true conf) (nodes evs)) (h : run (start (boot N pw true conf)) evs = some (.alive p)) (hd : p.doing = none)
    (hb : p.node.sys.srv.aofBuf = []) (hl : Readable p.disk) (hes : ∀ i, World hash lower pf T (es i)) :
    ∃ srv, Aof.load Aof.readerSize es p.disk (Server.init N pw true) = some srv ∧ Equal p.node.sys (restarted srv) := by
  have k := inv_of h
  have e : p.disk = p.node.file ++ p.node.sys.srv.aofBuf := by rw [k.out hd, hb, List.append_nil]
  rw [e] at hl ⊢
  exact C48_partial hlow hN hT0 ho k.run hl hes

/-- **C79, partial**: `Stop`, and every other end of the process outside the callback, is no worse than a kill: what was flushed is there. -/
theorem C79_kill_partial (hlow : LowerOk lower) (hN : N < 2 ^ 63) (hT0 : 0 ≤ T) {pw : Bytes} {conf : Conf} {evs : List Ev} {p : Proc} {es : Nat → Env}
    (ho : Orderly hash lower pf T (boot N pw true conf) (nodes evs)) (h : run (start (boot N pw true conf)) evs = some (.alive p)) (hd : p.doing = none)
    (hl : Readable p.disk) (hes : ∀ i, World hash lower pf T (es i)) :
    ∃ pre post m srv, nodes evs = pre ++ post ∧ Node.run (boot N pw true conf) pre = some m ∧ (∀ t, Node.Ev.sleep t ∉ post) ∧
      Aof.load Aof.readerSize es p.disk (Server.init N pw true) = some srv ∧ Equal m.sys (restarted srv) := by
  have k := inv_of h
  rw [k.out hd] at hl ⊢
  exact C51_partial hlow hN hT0 ho k.run hl hes

/-- A write is executed, then the server is stopped. -/
def stopped : List Ev := (turn 0 [.accept 3, ask [b!"set", b!"a", b!"1"]]).map .node ++ [.stop, .stop, .stop, .stop]

/-- The state of a process that lives. -/
def living : Option Result → Option Proc
  | some (.alive p) => some p
  | _ => none

theorem of_living {r : Option Result} {p : Proc} (h : living r = some p) : r = some (.alive p) := by
  cases r with
  | none => cases h
  | some r => cases r with
    | alive q => cases h; rfl
    | dead w d => cases h

theorem stopped_result : (living (run (start (boot 1 [] true (conf0 .always))) stopped)).bind (fun p =>
    (Aof.load Aof.readerSize (fun _ => demo 0) p.disk (Server.init 1 [] true)).map (fun srv =>
      ((p.stop, p.disk, p.node.sys.deadline 0 b!"a", (restarted srv).deadline 0 b!"a"), text (p.node.sys.val 0 b!"a"), text ((restarted srv).val 0 b!"a")))) =
    some ((4, [], none, none), some b!"1", none) := by decide

/-- **C79 is false**: what has not been flushed is lost. -/
theorem C79_refuted : ¬ C79 := by
  intro hC
  have key := stopped_result
  simp only [Option.bind_eq_some_iff, Option.map_eq_some_iff] at key
  obtain ⟨p, h1, srv, h2, h3⟩ := key
  simp only [Prod.mk.injEq] at h3
  obtain ⟨⟨a, a', b, c⟩, d, f⟩ := h3
  obtain ⟨srv', k1, k2⟩ := hC H L P 0 1 [] (conf0 .always) stopped p (fun _ => demo 0) (fun _ _ => rfl) (by decide)
    (by
      intro ev hev
      simp only [nodes, stopped, turn, List.map, List.cons_append, List.nil_append, List.filterMap_cons, List.filterMap_nil, List.mem_cons, List.not_mem_nil, or_false] at hev
      rcases hev with rfl | rfl | rfl | rfl | rfl <;> exact Shown.timely (by constructor)) (of_living h1) a (by rw [a']; decide) demo_world
  rw [h2] at k1; cases k1
  have := text_same (k2 0 b!"a" (fun d hd => by rw [b] at hd; cases hd))
  simp only [visible, b, c, d, f] at this
  cases this

/-- The server is stopped while `mv` copies the file; everything has been flushed and synced. -/
def tornNode : List Node.Ev := turn 0 [.accept 3, ask [b!"set", b!"a", b!"1"]] ++ turn 1 [ask [b!"bgrewriteaof"]] ++ List.replicate 3 (.work 0 (demo 0) .whole) ++
  [.sleep 2, .cron (demo 0) 2]

def torn : List Ev := tornNode.map .node ++ [.mv 0, .stop, .stop, .stop, .stop]

set_option maxRecDepth 8000 in
theorem torn_result : (living (run (start (boot 1 [] true (conf0 .always))) torn)).bind (fun p =>
    (Aof.load Aof.readerSize (fun _ => demo 0) p.disk (Server.init 1 [] true)).map (fun srv =>
      ((p.stop, p.disk, p.node.sys.srv.aofBuf, p.node.sys.deadline 0 b!"a", (restarted srv).deadline 0 b!"a"), text (p.node.sys.val 0 b!"a"),
        text ((restarted srv).val 0 b!"a")))) =
    some ((4, [], [], none, none), some b!"1", none) := by decide

/-- **C79 is false** also for a server that has nothing to flush: `Stop` does not wait for the callback. -/
theorem C79_flushed_refuted : ¬ C79_flushed := by
  intro hC
  have key := torn_result
  simp only [Option.bind_eq_some_iff, Option.map_eq_some_iff] at key
  obtain ⟨p, h1, srv, h2, h3⟩ := key
  simp only [Prod.mk.injEq] at h3
  obtain ⟨⟨a, a', a2, b, c⟩, d, f⟩ := h3
  obtain ⟨srv', k1, k2⟩ := hC H L P 0 1 [] (conf0 .always) torn p (fun _ => demo 0) (fun _ _ => rfl) (by decide)
    (by
      intro ev hev
      simp only [nodes, torn, tornNode, turn, List.replicate, List.map, List.cons_append, List.nil_append, List.filterMap_cons, List.filterMap_nil, List.mem_cons, List.not_mem_nil, or_false] at hev
      rcases hev with rfl | rfl | rfl | rfl | rfl | rfl | rfl | rfl | rfl | rfl | rfl | rfl | rfl | rfl <;> exact Shown.timely (by constructor)) (of_living h1) a a2 (by rw [a']; decide) demo_world
  rw [h2] at k1; cases k1
  have := text_same (k2 0 b!"a" (fun d hd => by rw [b] at hd; cases hd))
  simp only [visible, b, c, d, f] at this
  cases this

/-- **C79, partial**: what was acknowledged survives the shutdown (and every other end outside the callback): in an orderly history, for a client that had
nothing to be sent when the loop last went to sleep before the request, once more has been sent to it than before the request. -/
theorem C79_acked_partial (hlow : LowerOk lower) (hN : N < 2 ^ 63) (hT0 : 0 ≤ T) {pw : Bytes} {conf : Conf} {evs : List Ev} {before mid after : List Node.Ev}
    {fd : Nat} {e : Env} {args : List Bytes} {t : Int} {n0 : Node} {p : Proc} {es : Nat → Env}
    (hev : nodes evs = before ++ [.sleep t] ++ mid ++ [.request fd e args] ++ after) (hr : run (start (boot N pw true conf)) evs = some (.alive p)) (hd : p.doing = none)
    (hb : Node.run (boot N pw true conf) before = some n0) (hq : n0.net.loop.files (Ae.key fd .writable) = none)
    (ho : Orderly hash lower pf T (boot N pw true conf) (nodes evs))
    (hm : NodeP.Between fd mid) (ha : ∀ ev ∈ after, ev.isRestart = false ∧ ev ≠ .accept fd) (hw : p.node.net.wire fd ≠ n0.net.wire fd)
    (hl : Readable p.disk) (hes : ∀ i, World hash lower pf T (es i)) :
    ∃ pre post m srv, nodes evs = pre ++ post ∧ before ++ [.sleep t] ++ mid ++ [.request fd e args] <+: pre ∧ Node.run (boot N pw true conf) pre = some m ∧
      Aof.load Aof.readerSize es p.disk (Server.init N pw true) = some srv ∧ Equal m.sys (restarted srv) := by
  have k := inv_of hr
  rw [k.out hd] at hl ⊢
  have kr := k.run
  rw [hev] at ho kr ⊢
  exact AckedP.C71_partial hlow hN hT0 hb hq ho kr hm ha hw hl hes

/-! ### The theorems apply -/

/-- A rewrite goes on in the middle of a shutdown: it ends between two statements of `Stop`. -/
def late : List Ev := tornNode.map .node ++ [.mv 10, .stop, .mv 100, .append 0, .stop, .publish, .stop, .stop]

set_option maxRecDepth 8000 in
example : (living (run (start (boot 1 [] true (conf0 .everysec))) late)).map (fun p => (p.doing, p.stop, p.opened, p.disk.length, p.syncs)) = some (none, 4, false, 50, 1) := by decide

set_option maxRecDepth 8000 in
example : (Node.run (boot 1 [] true (conf0 .always)) (tornNode.take 13)).bind (fun n => (Node.step n (.cron (demo 0) 2)).map (fun _ => n.done.length)) = some 1 := by decide

/-- `Sync` is called in time: the process lives. -/
example : ending (run (start (boot 1 [] true (conf0 .everysec))) ((unluckyNode.take 8).map .node ++ [.sync, .node (.cron (demo 0) 1)])) = some none := by decide

/-- The log is flushed to a closed file, and the result of a rewrite is sent to a closed channel: possible after a signal. -/
example : ending (run (start (boot 1 [] true (conf0 .no))) (stopped ++ [.node (.sleep 1)])) = some (some (.flush, [])) := by decide

example : ending (run (start (boot 1 [] true (conf0 .no))) ((unluckyNode.take 6).map .node ++ [.stop, .stop, .stop, .node (.work 0 (demo 0) .whole)])) = some (some (.send, [])) := by decide

/-- A write is flushed, then the server is stopped. -/
def calm : List Ev := AckedP.waiting.map .node ++ [.stop, .stop, .stop, .stop]

theorem calm_nodes : nodes calm = AckedP.waiting := by simp [calm, nodes, List.filterMap_append, List.filterMap_map, Function.comp_def]

example : Orderly H L P 0 (boot 1 [] true (conf0 .no)) (nodes calm) := by rw [calm_nodes]; exact AckedP.waiting_ok

example : (living (run (start (boot 1 [] true (conf0 .no))) calm)).map (fun p => (p.doing, p.stop, p.disk.length, p.node.sys.srv.aofBuf, p.node.net.wire 3)) =
    some (none, 4, 27, [], b!"+OK") := by decide

end Metis.Props.ProcP
