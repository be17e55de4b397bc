import Verif.Spec.Power
import Verif.Props.Proc
/-!
Properties C80 and C81: power failures.
-/
set_option linter.unusedSectionVars false
set_option linter.unusedSimpArgs false
set_option linter.unusedVariables false
set_option synthInstance.maxSize 2000
set_option synthInstance.maxHeartbeats 200000
namespace Metis.Props.PowerP
open Metis Metis.Spec Metis.Power
open _root_.Metis.Proc (Proc Ev Result start nodes)
open _root_.Metis (Conf)
open _root_.Metis.Node (boot)
open _root_.Metis.Props.DurableP
open _root_.Metis.Props.LogP (SameValue second visible restarted same_of)
open _root_.Metis.Props.NodeP (turn ask conf0)
variable {hash : Bytes → Nat} {lower : Bytes → Bytes} {pf : Bytes → Option F64} {T : Int} {N : Nat}

/-- The process is the one of `Model/Proc.lean`. -/
theorem run_proc : ∀ {evs : List Ev} {p q : Proc} {s s' : Nat}, run p s evs = some (q, s') ↔ Proc.run p evs = some (.alive q) ∧ (run p s evs).map Prod.snd = some s'
  | [], p, q, s, s' => by
    simp only [run, Proc.run, Option.some.injEq, Prod.mk.injEq, Result.alive.injEq, Option.map_some]
  | ev :: evs, p, q, s, s' => by
    simp only [run, Proc.run]
    cases h : Proc.step p ev with
    | none => simp
    | some r => cases r with
      | alive p' => exact run_proc
      | dead w d => simp only [reduceCtorEq, Option.map_none, and_false]

theorem left_all {disk f : Bytes} (h : Left disk disk.length f) : f = disk :=
  h.1.eq_of_length_le (by have := h.2; omega)

theorem conf_alive {p p' : Proc} {ev : Ev} (h : Proc.step p ev = some (.alive p')) : p'.node.conf = p.node.conf := by
  have idle : ∀ {ev : Node.Ev}, (if p.doing.isSome then none else (Node.step p.node ev).map fun n => Result.alive { p with node := n }) = some (.alive p') →
      p'.node.conf = p.node.conf := by
    intro ev hs
    split at hs
    · cases hs
    · obtain ⟨n, h1, h2⟩ := Option.map_eq_some_iff.1 hs
      cases h2
      exact Proc.step_conf h1
  cases ev with
  | node ev =>
    cases ev with
    | sleep t =>
      simp only [Proc.step] at h
      split at h
      · cases h
      · simp only [Proc.sleep] at h
        split at h
        · obtain ⟨n, h1, h2⟩ := Option.map_eq_some_iff.1 h
          cases h2
          exact Proc.step_conf h1
        · split at h
          · obtain ⟨n, h1, h2⟩ := Option.map_eq_some_iff.1 h
            cases h2
            exact Proc.step_conf h1
          · cases h
    | cron e t =>
      simp only [Proc.step] at h
      split at h
      · cases h
      · simp only [Proc.cron] at h
        obtain ⟨n, h1, h2⟩ := Option.map_eq_some_iff.1 h
        have := Proc.step_conf h1
        split at h2 <;> cases h2 <;> exact this
    | work i e c =>
      simp only [Proc.step, Proc.work] at h
      split at h
      · cases h
      · split at h
        · cases h
        · obtain ⟨n, h1, h2⟩ := Option.map_eq_some_iff.1 h
          cases h2
          exact Proc.step_conf h1
    | accept fd =>
      simp only [Proc.step] at h
      split at h
      · cases h
      · obtain ⟨n, h1, h2⟩ := Option.map_eq_some_iff.1 h
        cases h2
        exact Proc.step_conf h1
    | restart es => simp [Proc.step] at h
    | crashInDone m es => simp [Proc.step] at h
    | _ => exact idle h
  | mv k =>
    simp only [Proc.step] at h
    split at h
    · cases h; rfl
    · cases h
  | append k =>
    simp only [Proc.step] at h
    split at h
    · cases h; rfl
    · cases h
  | publish =>
    simp only [Proc.step] at h
    split at h
    · split at h
      · cases h; rfl
      · cases h
    · cases h
  | sync =>
    simp only [Proc.step] at h
    split at h
    · cases h
    · split at h
      · cases h; rfl
      · cases h
  | stop =>
    simp only [Proc.step, Proc.stopping, Option.some.injEq] at h
    split at h <;> first | (cases h; rfl) | cases h

/-- With the policy always, outside the callback, the whole file is on stable storage. -/
theorem all_safe : ∀ {evs : List Ev} {p q : Proc} {s s' : Nat}, p.node.conf.policy = .always → (p.doing = none → s = p.disk.length) →
    run p s evs = some (q, s') → q.doing = none → s' = q.disk.length
  | [], p, q, s, s', _, hs, h, hd => by cases h; exact hs hd
  | ev :: evs, p, q, s, s', hp, hs, h, hd => by
    simp only [run] at h
    cases h1 : Proc.step p ev with
    | none => rw [h1] at h; cases h
    | some r => cases r with
      | dead w d => rw [h1] at h; cases h
      | alive p' =>
        rw [h1] at h
        refine all_safe (by rw [conf_alive h1]; exact hp) ?_ h hd
        intro hd'
        cases ev with
        | node ev =>
          cases ev with
          | sleep t =>
            simp only [Proc.step] at h1
            split at h1
            · cases h1
            · next hdo =>
              simp only [Proc.sleep] at h1
              split at h1
              · next hb =>
                obtain ⟨n, -, h3⟩ := Option.map_eq_some_iff.1 h1
                cases h3
                simp only [synced, hb, ne_eq, not_true_eq_false, false_and, if_false]
                exact hs (by cases h : p.doing with | none => rfl | some x => rw [h] at hdo; simp at hdo)
              · next hb =>
                simp only [synced]
                rw [if_pos ⟨hb, hp⟩]
          | cron e t =>
            simp only [Proc.step] at h1
            split at h1
            · cases h1
            · next hdo =>
              simp only [Proc.cron] at h1
              obtain ⟨n, -, h3⟩ := Option.map_eq_some_iff.1 h1
              cases hdn : p.node.done with
              | nil =>
                rw [hdn] at h3; cases h3
                exact hs (by cases h : p.doing with | none => rfl | some x => rw [h] at hdo; simp at hdo)
              | cons tmp r => rw [hdn] at h3; cases h3; cases hd'
          | work i e c =>
            simp only [Proc.step, Proc.work] at h1
            split at h1
            · cases h1
            · split at h1
              · cases h1
              · obtain ⟨n, -, h3⟩ := Option.map_eq_some_iff.1 h1
                cases h3
                exact hs hd'
          | restart es => simp [Proc.step] at h1
          | crashInDone m es => simp [Proc.step] at h1
          | _ =>
            simp only [Proc.step] at h1
            split at h1
            · cases h1
            · obtain ⟨n, -, h3⟩ := Option.map_eq_some_iff.1 h1
              cases h3
              exact hs hd'
        | mv k =>
          simp only [Proc.step] at h1
          split at h1
          · next tmp buf d hdo =>
            simp only [Option.some.injEq, Result.alive.injEq] at h1
            subst h1
            cases hd'
          · cases h1
        | append k =>
          simp only [Proc.step] at h1
          split at h1
          · next tmp buf d hdo =>
            simp only [Option.some.injEq, Result.alive.injEq] at h1
            subst h1
            simp only [hdo] at hd'
            cases hd'
          · cases h1
        | publish => simp only [synced, hp, if_true]
        | sync => rfl
        | stop =>
          simp only [Proc.step, Proc.stopping, Option.some.injEq] at h1
          split at h1 <;> first | (cases h1; exact hs hd') | cases h1

/-! ### C80: acknowledged writes -/

/-- The data of a moment of the history not before its beginning `upto` are what a server gets that loads `f`. -/
def Kept (N : Nat) (pw : Bytes) (conf : Conf) (upto evs : List Node.Ev) (f : Bytes) (es : Nat → Env) : Prop :=
  ∃ pre post m srv, evs = pre ++ post ∧ upto <+: pre ∧ Node.run (boot N pw true conf) pre = some m ∧
    Aof.load Aof.readerSize es f (Server.init N pw true) = some srv ∧ Equal m.sys (restarted srv)

/-- The full claim of C80: with the policy always, a write whose reply has been sent survives a power failure, in the histories of C71 (a client that had nothing
to be sent when the loop last went to sleep before the request, and to which more has been sent since). -/
def C80 : Prop := ∀ (hash : Bytes → Nat) (lower : Bytes → Bytes) (pf : Bytes → Option F64) (T : Int) (N : Nat) (pw : Bytes) (conf : Conf) (evs : List Ev)
  (before mid after : List Node.Ev) (fd : Nat) (e : Env) (args : List Bytes) (t : Int) (n0 : Node) (p : Proc) (safe : Nat) (f : Bytes) (es : Nat → Env),
  LowerOk lower → N < 2 ^ 63 → 0 ≤ T → conf.policy = .always → nodes evs = before ++ [.sleep t] ++ mid ++ [.request fd e args] ++ after →
  run (start (boot N pw true conf)) 0 evs = some (p, safe) → Node.run (boot N pw true conf) before = some n0 → n0.net.loop.files (Ae.key fd .writable) = none →
  Orderly hash lower pf T (boot N pw true conf) (nodes evs) → NodeP.Between fd mid → (∀ ev ∈ after, ev.isRestart = false ∧ ev ≠ .accept fd) →
  p.node.net.wire fd ≠ n0.net.wire fd → Left p.disk safe f → Readable f → (∀ i, World hash lower pf T (es i)) →
  Kept N pw conf (before ++ [.sleep t] ++ mid ++ [.request fd e args]) (nodes evs) f es

/-- **C80, partial**: outside the callback that replaces the file. What is missing: inside it the new file is not on stable storage (refuted below). -/
theorem C80_partial (hlow : LowerOk lower) (hN : N < 2 ^ 63) (hT0 : 0 ≤ T) {pw : Bytes} {conf : Conf} {evs : List Ev} {before mid after : List Node.Ev}
    {fd : Nat} {e : Env} {args : List Bytes} {t : Int} {n0 : Node} {p : Proc} {safe : Nat} {f : Bytes} {es : Nat → Env} (hp : conf.policy = .always)
    (hev : nodes evs = before ++ [.sleep t] ++ mid ++ [.request fd e args] ++ after) (hr : run (start (boot N pw true conf)) 0 evs = some (p, safe)) (hd : p.doing = none)
    (hb : Node.run (boot N pw true conf) before = some n0) (hq : n0.net.loop.files (Ae.key fd .writable) = none)
    (ho : Orderly hash lower pf T (boot N pw true conf) (nodes evs))
    (hm : NodeP.Between fd mid) (ha : ∀ ev ∈ after, ev.isRestart = false ∧ ev ≠ .accept fd) (hw : p.node.net.wire fd ≠ n0.net.wire fd)
    (hf : Left p.disk safe f) (hl : Readable f) (hes : ∀ i, World hash lower pf T (es i)) :
    Kept N pw conf (before ++ [.sleep t] ++ mid ++ [.request fd e args]) (nodes evs) f es := by
  have hs := all_safe (p := start (boot N pw true conf)) hp (fun _ => rfl) hr hd
  subst hs
  obtain rfl := left_all hf
  exact ProcP.C79_acked_partial hlow hN hT0 hev (run_proc.1 hr).1 hd hb hq ho hm ha hw hl hes

/-! ### C81: the server starts again -/

/-- The full claim of C81: whatever a power failure leaves of the file, the server can be started again. -/
def C81 : Prop := ∀ (hash : Bytes → Nat) (lower : Bytes → Bytes) (pf : Bytes → Option F64) (T : Int) (N : Nat) (pw : Bytes) (conf : Conf) (evs : List Ev)
  (p : Proc) (safe : Nat) (f : Bytes) (es : Nat → Env), LowerOk lower → N < 2 ^ 63 → 0 ≤ T → Orderly hash lower pf T (boot N pw true conf) (nodes evs) →
  run (start (boot N pw true conf)) 0 evs = some (p, safe) → Left p.disk safe f → f.length ≤ 65536 → (∀ i, World hash lower pf T (es i)) →
  Aof.load Aof.readerSize es f (Server.init N pw true) ≠ none

/-- **C81, partial**: with the policy always, outside the callback, for files that can be read (C45), in orderly histories. -/
theorem C81_partial (hlow : LowerOk lower) (hN : N < 2 ^ 63) (hT0 : 0 ≤ T) {pw : Bytes} {conf : Conf} {evs : List Ev} {p : Proc} {safe : Nat} {f : Bytes} {es : Nat → Env}
    (hp : conf.policy = .always) (ho : Orderly hash lower pf T (boot N pw true conf) (nodes evs)) (hr : run (start (boot N pw true conf)) 0 evs = some (p, safe))
    (hd : p.doing = none) (hf : Left p.disk safe f) (hl : Readable f) (hes : ∀ i, World hash lower pf T (es i)) :
    Aof.load Aof.readerSize es f (Server.init N pw true) ≠ none := by
  have hs := all_safe (p := start (boot N pw true conf)) hp (fun _ => rfl) hr hd
  subst hs
  obtain rfl := left_all hf
  obtain ⟨_, _, _, srv, _, _, _, h, _⟩ := ProcP.C79_kill_partial hlow hN hT0 ho (run_proc.1 hr).1 hd hl hes
  rw [h]
  exact fun hc => by cases hc

/-- **C81, partial**: with any policy, when the process is killed (the operating system keeps what was written) outside the callback. -/
theorem C81_kill_partial (hlow : LowerOk lower) (hN : N < 2 ^ 63) (hT0 : 0 ≤ T) {pw : Bytes} {conf : Conf} {evs : List Ev} {p : Proc} {es : Nat → Env}
    (ho : Orderly hash lower pf T (boot N pw true conf) (nodes evs)) (hr : Proc.run (start (boot N pw true conf)) evs = some (.alive p))
    (hd : p.doing = none) (hl : Readable p.disk) (hes : ∀ i, World hash lower pf T (es i)) :
    Aof.load Aof.readerSize es p.disk (Server.init N pw true) ≠ none := by
  obtain ⟨_, _, _, srv, _, _, _, h, _⟩ := ProcP.C79_kill_partial hlow hN hT0 ho hr hd hl hes
  rw [h]
  exact fun hc => by cases hc

/-! ### Refutations -/

/-- A client that waits sets `a`; it is sent the reply; a rewrite; `mv` has put the new file in place. -/
def swapNode : List Node.Ev := turn 0 [.accept 3] ++ [.sleep 1] ++ [.noCron] ++ [ask [b!"set", b!"a", b!"1"]] ++ ([.turn, .sleep 2, .noCron, .writable 3 [.bytes 5], .turn] ++
  turn 3 [ask [b!"bgrewriteaof"]] ++ List.replicate 3 (.work 0 (demo 0) .whole) ++ [.sleep 4, .cron (demo 0) 4])

def swap : List Ev := swapNode.map .node ++ [.mv 100]

theorem swap_nodes : nodes swap = swapNode := by
  simp [swap, nodes, List.filterMap_append, List.filterMap_map, Function.comp_def]

set_option maxRecDepth 8000 in
theorem swap_ok : Orderly H L P 0 (boot 1 [] true (conf0 .always)) swapNode := by
  refine orderly_of _ ?_ (by decide)
  intro ev hev
  simp only [swapNode, turn, List.replicate, List.cons_append, List.nil_append, List.mem_cons, List.not_mem_nil, or_false] at hev
  rcases hev with rfl | rfl | rfl | rfl | rfl | rfl | rfl | rfl | rfl | rfl | rfl | rfl | rfl | rfl | rfl | rfl | rfl | rfl | rfl | rfl | rfl
  all_goals first
    | exact fair_ask (cmd := .set) (by decide) trivial
    | exact fair_ask (cmd := .bgrewriteaof) (by decide) trivial
    | exact ⟨rfl, by decide⟩
    | trivial

/-- What is decided about the history: the bytes on stable storage, what was sent to the client, and the value of `a` in all moments since the request. -/
structure Facts where
  safe : Nat
  sent0 : Bytes
  sent : Bytes
  quiet : Bool
  value : Bool
deriving DecidableEq

set_option maxRecDepth 16000 in
theorem swap_result : (run (start (boot 1 [] true (conf0 .always))) 0 swap).bind (fun w => (Node.run (boot 1 [] true (conf0 .always)) (turn 0 [.accept 3])).map (fun n0 =>
    Facts.mk w.2 (n0.net.wire 3) (w.1.node.net.wire 3) (n0.net.loop.files (Ae.key 3 .writable)).isNone
      ((List.range 15).all (fun i => (Node.run (boot 1 [] true (conf0 .always)) (swapNode.take (7 + i))).all (fun m => text (m.sys.val 0 b!"a") == some b!"1"))))) =
    some ⟨0, [], b!"+OK\r\n", true, true⟩ := by decide

theorem empty_load : (Aof.load Aof.readerSize (fun _ => demo 0) [] (Server.init 1 [] true)).map (fun srv => text ((restarted srv).val 0 b!"a")) = some none := by decide

/-- **C80 is false**: when the power fails after `mv`, the file can be empty, although the write was synced long ago and the file replaced by one that has it. -/
theorem C80_refuted : ¬ C80 := by
  intro hC
  have key := swap_result
  simp only [Option.bind_eq_some_iff, Option.map_eq_some_iff] at key
  obtain ⟨⟨p, safe⟩, h1, n0, h2, h3⟩ := key
  simp only [Facts.mk.injEq] at h3
  obtain ⟨rfl, a1, a2, a3, a4⟩ := h3
  have hn : nodes swap = turn 0 [.accept 3] ++ [.sleep 1] ++ [.noCron] ++ [.request 3 (demo 0) [b!"set", b!"a", b!"1"]] ++ swapNode.drop 7 := by
    rw [swap_nodes]; rfl
  obtain ⟨pre, post, m, srv, k1, ⟨x, k2⟩, k3, k4, k5⟩ := hC H L P 0 1 [] (conf0 .always) swap (turn 0 [.accept 3]) [.noCron] _ 3 (demo 0) [b!"set", b!"a", b!"1"] 1 n0 p 0 []
    (fun _ => demo 0) (fun _ _ => rfl) (by decide) (by decide) rfl hn h1 h2
    (by cases h : n0.net.loop.files (Ae.key 3 .writable) with | none => rfl | some x => rw [h] at a3; cases a3)
    (by rw [swap_nodes]; exact swap_ok)
    (by intro ev hev; rw [List.mem_singleton.1 hev]; exact ⟨(by intro _ h; cases h), rfl, (by intro h; cases h)⟩)
    (by
      intro ev hev
      simp only [swapNode, turn, List.replicate, List.cons_append, List.nil_append, List.length_cons, List.length_nil, List.drop_succ_cons, List.drop_zero, List.mem_cons, List.not_mem_nil, or_false] at hev
      rcases hev with rfl | rfl | rfl | rfl | rfl | rfl | rfl | rfl | rfl | rfl | rfl | rfl | rfl | rfl | rfl <;> exact ⟨rfl, (by intro h; cases h)⟩)
    (by rw [a1, a2]; decide) ⟨List.nil_prefix, by simp⟩ (Aof.readable_small (by simp)) demo_world
  have hk := empty_load
  rw [k4] at hk
  simp only [Option.map_some, Option.some.injEq] at hk
  have hs := text_same (k5 0 b!"a").1
  rw [hk] at hs
  -- the value in the moment `m`
  rw [swap_nodes] at k1
  have hpre : pre = swapNode.take pre.length := by rw [k1]; simp
  have hlen : 7 ≤ pre.length := by rw [← k2]; simp [turn]
  have hle : pre.length ≤ 21 := by
    have := congrArg List.length k1
    have e : swapNode.length = 21 := by decide
    rw [e, List.length_append] at this
    omega
  have := List.all_eq_true.1 a4 (pre.length - 7) (List.mem_range.2 (by omega))
  rw [show 7 + (pre.length - 7) = pre.length by omega, ← hpre, k3] at this
  simp only [Option.all_some, beq_iff_eq] at this
  rw [this] at hs
  cases hs

/-- A write is flushed; with the policy no it is not synced; half of it is left. -/
def halfNode : List Node.Ev := turn 0 [.accept 3, ask [b!"set", b!"a", b!"1"]] ++ [.sleep 1]

def half : List Ev := halfNode.map .node

theorem half_nodes : nodes half = halfNode := by
  simp [half, nodes, List.filterMap_append, List.filterMap_map, Function.comp_def]

theorem half_ok : Orderly H L P 0 (boot 1 [] true (conf0 .no)) halfNode := by
  refine orderly_of _ ?_ (by decide)
  intro ev hev
  simp only [halfNode, turn, List.cons_append, List.nil_append, List.mem_cons, List.not_mem_nil, or_false] at hev
  rcases hev with rfl | rfl | rfl | rfl | rfl | rfl
  all_goals first
    | exact fair_ask (cmd := .set) (by decide) trivial
    | trivial

theorem half_result : (run (start (boot 1 [] true (conf0 .no))) 0 half).map (fun w => (w.2, w.1.disk)) = some (0, b!"*3\r\n$3\r\nset\r\n$1\r\na\r\n$1\r\n1\r\n") ∧
    (Aof.load Aof.readerSize (fun _ => demo 0) b!"*3\r\n$3\r\nset\r\n" (Server.init 1 [] true)).isNone = true := by decide

/-- **C81 is false**: a power failure can leave a part of a record, and the server does not start. -/
theorem C81_refuted : ¬ C81 := by
  intro hC
  obtain ⟨key, h2⟩ := half_result
  simp only [Option.map_eq_some_iff] at key
  obtain ⟨⟨p, safe⟩, h1, h3⟩ := key
  simp only [Prod.mk.injEq] at h3
  obtain ⟨rfl, a1⟩ := h3
  refine hC H L P 0 1 [] (conf0 .no) half p 0 b!"*3\r\n$3\r\nset\r\n" (fun _ => demo 0) (fun _ _ => rfl) (by decide) (by decide) (by rw [half_nodes]; exact half_ok) h1
    ⟨by rw [a1]; decide, by simp⟩ (by decide) demo_world ?_
  cases h : Aof.load Aof.readerSize (fun _ => demo 0) b!"*3\r\n$3\r\nset\r\n" (Server.init 1 [] true) with
  | none => rfl
  | some x => rw [h] at h2; cases h2

/-! ### The theorems apply -/

/-- The history of `C80_refuted` with the callback finished: everything is on stable storage again. -/
def swapped : List Ev := swap ++ [.append 0, .publish]

set_option maxRecDepth 16000 in
example : (run (start (boot 1 [] true (conf0 .always))) 0 swapped).map (fun w => (w.2, w.1.disk.length, w.1.doing)) = some (50, 50, none) := by decide

example : Orderly H L P 0 (boot 1 [] true (conf0 .always)) (nodes swapped) := by
  have : nodes swapped = swapNode := by
    rw [swapped, Proc.nodes_append, swap_nodes]; exact List.append_nil _
  rw [this]; exact swap_ok

/-- With the policy everysec the goroutine syncs. -/
example : (run (start (boot 1 [] true (conf0 .everysec))) 0 half).map (fun w => (w.2, w.1.disk.length)) = some (0, 27) ∧
    (run (start (boot 1 [] true (conf0 .everysec))) 0 (half ++ [.sync])).map (fun w => (w.2, w.1.disk.length)) = some (27, 27) := by decide

end Metis.Props.PowerP
