import Verif.Proofs.Saved
import Verif.Props.Log
import Verif.Props.Node
/-!
Properties C48, C50, C51: the append-only file through rewrites, restarts and crashes.
-/
set_option linter.unusedSectionVars false
set_option linter.unusedSimpArgs false
set_option linter.unusedVariables false
set_option synthInstance.maxSize 2000
set_option synthInstance.maxHeartbeats 200000
namespace Metis.Props.DurableP
open Metis Metis.Spec Metis.Node
open _root_.Metis.Props.LogP (SameValue second visible restarted same_of)
open _root_.Metis.Props.NodeP (turn ask conf0 rewrites)

/-! ### The claims -/

/-- The outside world of a history up to time `T`: the same functions at every event, clocks up to `T`, no crash while the file is replaced. Nothing
is assumed about the commands. -/
def Timely (hash : Bytes → Nat) (lower : Bytes → Bytes) (pf : Bytes → Option F64) (T : Int) : Ev → Prop
  | .request _ e _ => e.hash = hash ∧ 0 ≤ e.now ∧ e.now ≤ T ∧ e.lower = lower ∧ e.parseFloat = pf
  | .cron e _ => e.hash = hash ∧ e.now ≤ T
  | .work _ e _ => e.hash = hash ∧ e.now ≤ T
  | .restart es => ∀ i, World hash lower pf T (es i)
  | .crashInDone _ _ => False
  | _ => True

/-- A server with the same visible data at time `T` (deadlines that pass in the second of `T` apart). -/
def Shows (T : Int) (s : Sys) (srv : Server) : Prop :=
  ∀ i k, (∀ d, s.deadline i k = some d → T < second d) → SameValue (visible s T i k) (visible (restarted srv) T i k)

/-- The full claim of C48: whatever happened before (commands, rewrites, restarts), the log (the file and what is in the buffer), when it is loaded,
gives every database the data that the commands gave it. -/
def C48 : Prop := ∀ (hash : Bytes → Nat) (lower : Bytes → Bytes) (pf : Bytes → Option F64) (T : Int) (N : Nat) (pw : Bytes) (conf : Conf)
  (evs : List Ev) (n : Node) (es : Nat → Env), LowerOk lower → N < 2 ^ 63 → (∀ ev ∈ evs, Timely hash lower pf T ev) →
  run (boot N pw true conf) evs = some n → (n.file ++ n.sys.srv.aofBuf).length ≤ 65536 → (∀ i, World hash lower pf T (es i)) →
  ∃ srv, Aof.load Aof.readerSize es (n.file ++ n.sys.srv.aofBuf) (Server.init N pw true) = some srv ∧ Shows T n.sys srv

/-- C48 for histories without a restart. -/
def C48_running : Prop := ∀ (hash : Bytes → Nat) (lower : Bytes → Bytes) (pf : Bytes → Option F64) (T : Int) (N : Nat) (pw : Bytes) (conf : Conf)
  (evs : List Ev) (n : Node) (es : Nat → Env), LowerOk lower → N < 2 ^ 63 → (∀ ev ∈ evs, Timely hash lower pf T ev ∧ ev.isRestart = false) →
  run (boot N pw true conf) evs = some n → (n.file ++ n.sys.srv.aofBuf).length ≤ 65536 → (∀ i, World hash lower pf T (es i)) →
  ∃ srv, Aof.load Aof.readerSize es (n.file ++ n.sys.srv.aofBuf) (Server.init N pw true) = some srv ∧ Shows T n.sys srv

/-- The full claim of C50: when a rewrite is finished (a step of the timer that takes over a new file), the new file, when it is loaded, gives the data
of the server, whatever the commands executed meanwhile and however they were interleaved with the goroutine. Stated for a single database. -/
def C50 : Prop := ∀ (hash : Bytes → Nat) (lower : Bytes → Bytes) (pf : Bytes → Option F64) (T : Int) (pw : Bytes) (conf : Conf)
  (evs : List Ev) (n n' : Node) (e : Env) (t : Int) (es : Nat → Env), LowerOk lower → (∀ ev ∈ evs, Timely hash lower pf T ev ∧ ev.isRestart = false) →
  run (boot 1 pw true conf) evs = some n → n.done ≠ [] → Timely hash lower pf T (.cron e t) → step n (.cron e t) = some n' →
  n'.file.length ≤ 65536 → (∀ i, World hash lower pf T (es i)) →
  ∃ srv, Aof.load Aof.readerSize es n'.file (Server.init 1 pw true) = some srv ∧ Shows T n'.sys srv

/-- The full claim of C51: when the log buffer has been flushed and the process is killed and started again, the data are there again; even when
it is killed while it replaces the file, as long as the replacement of the file (`mv`) itself is atomic. -/
def C51 : Prop := ∀ (hash : Bytes → Nat) (lower : Bytes → Bytes) (pf : Bytes → Option F64) (T : Int) (N : Nat) (pw : Bytes) (conf : Conf)
  (evs : List Ev) (n n' : Node) (last : Ev) (es : Nat → Env), LowerOk lower → N < 2 ^ 63 → (∀ ev ∈ evs, Timely hash lower pf T ev) →
  run (boot N pw true conf) evs = some n → n.sys.srv.aofBuf = [] → (∀ i, World hash lower pf T (es i)) →
  (last = .restart es ∨ ∃ m tmp, last = .crashInDone m es ∧ n.done = [tmp] ∧ tmp.length ≤ m) →
  step n last = some n' → n'.file.length ≤ 65536 → Shows T n.sys n'.sys.srv

/-! ### What is proved -/

/-- The outside world, and `Plain` commands (Spec/Restart.lean). -/
def Fair (hash : Bytes → Nat) (lower : Bytes → Bytes) (pf : Bytes → Option F64) (T : Int) : Ev → Prop
  | .request fd e args => e.hash = hash ∧ Steady lower pf T (.request fd e args)
  | .cron e _ => e.hash = hash ∧ e.now ≤ T
  | .restart es => ∀ i, World hash lower pf T (es i)
  | .crashInDone _ _ => False
  | _ => True

/-- A state in which a rewrite may start: strings, hashes and sets only; no deadline without a key; and the last database that is not empty
is the one the log has selected. -/
structure Startable (n : Node) : Prop where
  kinds  : ∀ i k o, n.sys.val i k = some o → (∃ x, o = .str x) ∨ (∃ f, o = .hash f) ∨ ∃ f, o = .set f
  orphan : ∀ i k, n.sys.val i k = none → n.sys.deadline i k = none
  last   : ∀ i k, n.sys.val i k ≠ none → i ≤ n.sys.srv.aofSelect
  some   : n.sys.srv.aofSelect = 0 ∨ ∃ k, n.sys.val n.sys.srv.aofSelect k ≠ none

/-- A hash or set that is not empty, or a value of another type. -/
def NotEmptied : Obj → Prop
  | .hash d => ∃ x, d.abs x ≠ none
  | .set s => ∃ x, s.abs x ≠ none
  | _ => True

/-- What is needed of the state: rewrites start in `Startable` states; the goroutine meets no hash or set from which the server has removed
everything in the meantime; restarts happen when the file is `Readable` (no data cut by the end of a
window of 64 KiB; all files up to this size are) and ends in database 0. -/
def Tame (n : Node) : Ev → Prop
  | .request _ e args => commandOf e args = some .bgrewriteaof → n.sys.srv.task = .none → Startable n
  | .cron _ _ => grown n.conf n.cur n.base = true → n.sys.srv.task = .none → Startable n
  | .work i _ .whole => ∀ j t rest it, n.jobs[i]? = some j → j.todo = t :: rest → t.chore = .key it → NotEmptied it.obj
  | .work _ _ (.collect items) => items ≠ []
  | .restart es => Readable n.file ∧
      (Aof.parse Aof.readerSize n.file).bind (fun recs =>
        (Aof.replay es recs (Server.init n.sys.srv.dbs.length n.sys.srv.password true) Session.new).map (fun p => p.2.db)) = some 0
  | _ => True

/-- Every step of the history is `Fair` and `Tame`. -/
def Orderly (hash : Bytes → Nat) (lower : Bytes → Bytes) (pf : Bytes → Option F64) (T : Int) : Node → List Ev → Prop
  | _, [] => True
  | n, ev :: evs => Fair hash lower pf T ev ∧ Tame n ev ∧ ∀ n', step n ev = some n' → Orderly hash lower pf T n' evs

/-- The same data: equal values, deadlines equal to the second. -/
def Equal (s s' : Sys) : Prop := ∀ i k, SameValue (s.val i k) (s'.val i k) ∧ s'.deadline i k = (s.deadline i k).map second

variable {hash : Bytes → Nat} {lower : Bytes → Bytes} {pf : Bytes → Option F64} {T : Int} {N : Nat}

theorem val_vw (s : Sys) (i : Nat) (k : Bytes) : s.val i k = (vw s.srv.dbs i).v k := by
  unfold Sys.val vw
  cases s.srv.dbs[i]? <;> rfl

theorem deadline_vw (s : Sys) (i : Nat) (k : Bytes) : s.deadline i k = (vw s.srv.dbs i).t k := by
  unfold Sys.deadline vw
  cases s.srv.dbs[i]? <;> rfl

theorem equal_of {s : Sys} {srv : Server} (hl : s.srv.dbs.length = N) (h : Copies hash T N (vw s.srv.dbs) srv.dbs) {ss} : Equal s ⟨srv, ss⟩ := by
  intro i k
  rw [val_vw, val_vw, deadline_vw, deadline_vw]
  by_cases hi : i < N
  · obtain ⟨d, hd, _, hs⟩ := h.get hi
    rw [vw_get (dbs := srv.dbs) hd]
    exact ⟨same_of (hs.v k), hs.t k⟩
  · rw [vw_out (dbs := srv.dbs) (by rw [h.len]; omega), vw_out (by rw [hl]; omega)]
    exact ⟨trivial, rfl⟩

theorem startOk {n : Node} (h : Startable n) : StartOk (vw n.sys.srv.dbs) n.sys.srv.aofSelect := by
  refine ⟨fun i k o ho => ?_, fun i k hk => ?_, fun i k hk => ?_, ?_⟩
  · rw [← val_vw] at ho
    rcases h.kinds i k o ho with ⟨x, rfl⟩ | ⟨f, rfl⟩ | ⟨f, rfl⟩ <;> trivial
  · rw [← val_vw] at hk; rw [← deadline_vw]; exact h.orphan i k hk
  · rw [← val_vw] at hk; exact h.last i k hk
  · rcases h.some with h | ⟨k, h⟩
    · exact Or.inl h
    · exact Or.inr ⟨k, by rw [← val_vw]; exact h⟩

theorem calm_of {n : Node} {ev : Ev} (h : Fair hash lower pf T ev) (ht : Tame n ev) : Calm hash lower pf T n ev := by
  cases ev <;> try trivial
  · exact ⟨h.1, h.2, fun a b => startOk (ht a b)⟩
  · exact ⟨h.1, h.2, fun a b => startOk (ht a b)⟩
  · next i e p =>
    intro j t rest h1 h2
    cases p with
    | enter => trivial
    | collect items => cases t.chore <;> first | trivial | exact ht
    | whole =>
      cases h3 : t.chore with
      | select => trivial
      | key it =>
        have := ht j t rest it h1 h2 h3
        show Kept it.obj.view
        revert this
        cases it.obj <;> exact id

theorem orderly_snoc {ev : Ev} : ∀ (evs : List Ev) {n : Node}, Orderly hash lower pf T n (evs ++ [ev]) →
    Orderly hash lower pf T n evs ∧ ∀ n', run n evs = some n' → Fair hash lower pf T ev ∧ Tame n' ev
  | [], n, h => ⟨trivial, fun n' hr => by cases hr; exact ⟨h.1, h.2.1⟩⟩
  | e :: evs, n, h => by
    refine ⟨⟨h.1, h.2.1, fun n' hn => (orderly_snoc evs (h.2.2 n' hn)).1⟩, fun n' hr => ?_⟩
    simp only [Node.run, Option.bind_eq_bind, Option.bind_eq_some_iff] at hr
    obtain ⟨n1, h1, h2⟩ := hr
    exact (orderly_snoc evs (h.2.2 n1 h1)).2 n' h2

/-- The invariant along a history, with the moment whose data the file holds: there has been no flush since. -/
theorem inv_run (hlow : LowerOk lower) (hN : N < 2 ^ 63) (hT0 : 0 ≤ T) {pw : Bytes} {conf : Conf} (evs : List Ev) : ∀ {n : Node},
    Orderly hash lower pf T (boot N pw true conf) evs → run (boot N pw true conf) evs = some n →
    ∃ pre post m, evs = pre ++ post ∧ run (boot N pw true conf) pre = some m ∧ m.sys.srv.dbs.length = N ∧ (∀ t, Ev.sleep t ∉ post) ∧
      Inv hash lower pf T N (vw m.sys.srv.dbs) n := by
  induction evs using List.reverseRecOn with
  | nil =>
    intro n _ h
    cases h
    refine ⟨[], [], _, rfl, rfl, by simp [boot, start, Server.init], fun t ht => (by cases ht), ?_⟩
    have := inv_boot (hash := hash) (lower := lower) (pf := pf) (T := T) (N := N) pw conf
    rw [show vw (boot N pw true conf).sys.srv.dbs = noData from vw_init N pw true]
    exact this
  | append_singleton evs ev ih =>
    intro n ho h
    obtain ⟨o1, o2⟩ := orderly_snoc evs ho
    obtain ⟨n1, h1, h2⟩ := Node.run_append.1 h
    simp only [Node.run, Option.bind_eq_bind, Option.bind_eq_some_iff] at h2
    obtain ⟨n2, h2, h3⟩ := h2
    cases h3
    obtain ⟨pre, post, m, q1, q2, q3, q4, q5⟩ := ih o1 h1
    obtain ⟨SF', k', hs⟩ := inv_step hlow hN hT0 q5 h2 (calm_of (o2 n1 h1).1 (o2 n1 h1).2)
    rcases hs with ⟨_, rfl⟩ | ⟨hns, rfl⟩
    · exact ⟨evs ++ [ev], [], n, by simp, h, k'.data.len, fun t ht => (by cases ht), k'⟩
    · refine ⟨pre, post ++ [ev], m, by rw [q1, List.append_assoc], q2, q3, fun t ht => ?_, k'⟩
      rcases List.mem_append.1 ht with ht | ht
      · exact q4 t ht
      · rw [List.mem_singleton] at ht; subst ht; exact hns trivial

/-- **C48, partial**: after an orderly history (commands, rewrites with any interleaving of the goroutine, restarts), the log loads to the data of
every database. What is missing: histories in which a rewrite starts while another database than the last non-empty one is selected by the log,
or a restart happens with another database than 0 selected (these break the claim, see below); rewrites of lists and sorted sets. -/
theorem C48_partial (hlow : LowerOk lower) (hN : N < 2 ^ 63) (hT0 : 0 ≤ T) {pw : Bytes} {conf : Conf} {evs : List Ev} {n : Node} {es : Nat → Env}
    (ho : Orderly hash lower pf T (boot N pw true conf) evs) (h : run (boot N pw true conf) evs = some n)
    (hl : Readable (n.file ++ n.sys.srv.aofBuf)) (hes : ∀ i, World hash lower pf T (es i)) :
    ∃ srv, Aof.load Aof.readerSize es (n.file ++ n.sys.srv.aofBuf) (Server.init N pw true) = some srv ∧ Equal n.sys (restarted srv) := by
  obtain ⟨pre, post, m, _, _, _, _, k⟩ := inv_run hlow hN hT0 evs ho h
  obtain ⟨recs, a1, a2, a3⟩ := k.data.all
  rw [a1] at hl ⊢
  obtain ⟨srv, s, b1, _, _, _, b5⟩ := load_moves a2 a3 hl hes pw
  exact ⟨srv, b1, equal_of k.data.len b5⟩

/-- **C50, partial**: at the end of a rewrite in an orderly history the new file alone loads to the data of the server: what was executed
meanwhile is in it once. The commands executed meanwhile are any `Plain` ones, on any type and in any database, and the goroutine is interleaved with them in any way.
What is missing: rewrites of lists (their effect can be doubled, see below) and of sorted sets. -/
theorem C50_partial (hlow : LowerOk lower) (hN : N < 2 ^ 63) (hT0 : 0 ≤ T) {pw : Bytes} {conf : Conf} {evs : List Ev} {n n' : Node} {es : Nat → Env}
    {e : Env} {t : Int} (ho : Orderly hash lower pf T (boot N pw true conf) (evs ++ [.cron e t])) (h : run (boot N pw true conf) evs = some n)
    (hd : n.done ≠ []) (hs : step n (.cron e t) = some n') (hl : Readable n'.file) (hes : ∀ i, World hash lower pf T (es i)) :
    ∃ srv, Aof.load Aof.readerSize es n'.file (Server.init N pw true) = some srv ∧ Equal n'.sys (restarted srv) ∧ Equal n.sys (restarted srv) := by
  obtain ⟨o1, o2⟩ := orderly_snoc evs ho
  obtain ⟨pre, post, m, _, _, _, _, k⟩ := inv_run hlow hN hT0 evs o1 h
  have hc := calm_of (o2 n h).1 (o2 n h).2
  cases step_is hs with
  | quiet hq => cases hq
  | @cron _ _ w n1 hp hh =>
    obtain ⟨SF', k', h1, h2⟩ := inv_cron k hh hc hp
    rw [if_pos hd] at h1
    subst h1
    obtain ⟨recs, B, sel, a1, a2, a3, a4, a5, a6⟩ := k'.data.file
    have a1 : n1.file = log recs := a1
    have hl : Readable n1.file := hl
    show ∃ srv, Aof.load Aof.readerSize es n1.file (Server.init N pw true) = some srv ∧ Equal n1.sys (restarted srv) ∧ Equal n.sys (restarted srv)
    rw [a1] at hl ⊢
    obtain ⟨srv, s, b1, _, _, _, b5⟩ := load_moves a3 a5 hl hes pw
    refine ⟨srv, b1, equal_of (s := n1.sys) k'.data.len b5, ?_⟩
    rw [h2] at b5
    exact equal_of k.data.len b5

/-- **C51, partial**: at every moment of an orderly history, also in the middle of a rewrite, the file loads to the data of a moment `m` after which
nothing has been flushed. So everything that was flushed is there. What is missing: crashes inside the step that replaces the file (they break the
claim, see below), lists and sorted sets in a rewrite, and the restriction on the selected database. -/
theorem C51_partial (hlow : LowerOk lower) (hN : N < 2 ^ 63) (hT0 : 0 ≤ T) {pw : Bytes} {conf : Conf} {evs : List Ev} {n : Node} {es : Nat → Env}
    (ho : Orderly hash lower pf T (boot N pw true conf) evs) (h : run (boot N pw true conf) evs = some n)
    (hl : Readable n.file) (hes : ∀ i, World hash lower pf T (es i)) :
    ∃ pre post m srv, evs = pre ++ post ∧ run (boot N pw true conf) pre = some m ∧ (∀ t, Ev.sleep t ∉ post) ∧
      Aof.load Aof.readerSize es n.file (Server.init N pw true) = some srv ∧ Equal m.sys (restarted srv) := by
  obtain ⟨pre, post, m, q1, q2, q3, q4, k⟩ := inv_run hlow hN hT0 evs ho h
  obtain ⟨recs, B, sel, a1, a2, a3, a4, a5, a6⟩ := k.data.file
  rw [a1] at hl ⊢
  obtain ⟨srv, s, b1, _, _, _, b5⟩ := load_moves a3 a5 hl hes pw
  exact ⟨pre, post, m, srv, q1, q2, q4, b1, equal_of q3 b5⟩

/-! ### Refutations -/

/-- A string value. -/
def text : Option AObj → Option Bytes
  | some (.str s) => some s
  | _ => none

/-- The length of a list. -/
def count : Option AObj → Option Nat
  | some (.list q) => some (Quicklist.elems q).length
  | _ => none

theorem text_same {a b : Option AObj} (h : SameValue a b) : text a = text b := by
  cases a with
  | none => cases b with
    | none => rfl
    | some b => exact h.elim
  | some a => cases b with
    | none => cases a <;> exact h.elim
    | some b => cases a <;> cases b <;> first | exact h.elim | rfl | (exact congrArg some h)

theorem count_same {a b : Option AObj} (h : SameValue a b) : count a = count b := by
  cases a with
  | none => cases b with
    | none => rfl
    | some b => exact h.elim
  | some a => cases b with
    | none => cases a <;> exact h.elim
    | some b => cases a <;> cases b <;> first | exact h.elim | rfl | (exact congrArg (fun l => some (List.length l)) h)

abbrev H : Bytes → Nat := (demo 0).hash
abbrev L : Bytes → Bytes := (demo 0).lower
abbrev P : Bytes → Option F64 := (demo 0).parseFloat

theorem demo_world : ∀ i : Nat, World H L P 0 ((fun _ => demo 0) i) :=
  fun _ => ⟨rfl, rfl, rfl, (by decide : (0 : Int) ≤ 0), fun _ => ⟨(by decide : 1 ≤ 1), (by decide : 1 ≤ 32)⟩⟩

/-- The events of the examples. -/
inductive Shown : Ev → Prop
  | sleep (t) : Shown (.sleep t)
  | noCron : Shown .noCron
  | turn : Shown .turn
  | accept (fd) : Shown (.accept fd)
  | ask (args) : Shown (ask args)
  | cron (t) : Shown (.cron (demo 0) t)
  | work (i) (p) : Shown (.work i (demo 0) p)
  | restart : Shown (.restart (fun _ => demo 0))

theorem Shown.timely {ev : Ev} (h : Shown ev) : Timely H L P 0 ev := by
  cases h with
  | ask args => exact ⟨rfl, by decide, by decide, rfl, rfl⟩
  | cron t => exact ⟨rfl, by decide⟩
  | work i p => exact ⟨rfl, by decide⟩
  | restart => exact demo_world
  | _ => trivial

/-- A write in database 1, a restart, a write in database 0. -/
def twoDbs : List Ev := turn 0 [.accept 3, ask [b!"select", b!"1"], ask [b!"set", b!"a", b!"1"]] ++ [.sleep 1, .restart (fun _ => demo 0)] ++
  turn 2 [.accept 3, ask [b!"set", b!"b", b!"2"]]

set_option maxRecDepth 8000 in
theorem twoDbs_result : (run (boot 2 [] true (conf0 .no)) twoDbs).bind (fun n =>
    (Aof.load Aof.readerSize (fun _ => demo 0) (n.file ++ n.sys.srv.aofBuf) (Server.init 2 [] true)).map (fun srv =>
      (((n.file ++ n.sys.srv.aofBuf).length, n.sys.deadline 0 b!"b", (restarted srv).deadline 0 b!"b"),
        text (n.sys.val 0 b!"b"), text ((restarted srv).val 0 b!"b"), text ((restarted srv).val 1 b!"b")))) =
    some ((77, none, none), some b!"2", none, some b!"2") := by decide

/-- **C48 is false**: the file ends in database 1, the server that loads it assumes that it ends in database 0 and does not log a SELECT. -/
theorem C48_refuted : ¬ C48 := by
  intro hC
  have key := twoDbs_result
  simp only [Option.bind_eq_some_iff, Option.map_eq_some_iff] at key
  obtain ⟨n, h1, srv, h2, h3⟩ := key
  simp only [Prod.mk.injEq] at h3
  obtain ⟨⟨a, b, c⟩, d, f, _⟩ := h3
  obtain ⟨srv', k1, k2⟩ := hC H L P 0 2 [] (conf0 .no) twoDbs n (fun _ => demo 0) (fun _ _ => rfl) (by decide)
    (by
      intro ev hev
      simp only [twoDbs, turn, List.cons_append, List.nil_append, List.mem_cons, List.not_mem_nil, or_false] at hev
      rcases hev with rfl | rfl | rfl | rfl | rfl | rfl | rfl | rfl | rfl | rfl | rfl | rfl | rfl <;> exact Shown.timely (by constructor)) h1 (by rw [a]; decide) demo_world
  rw [h2] at k1; cases k1
  have := text_same (k2 0 b!"b" (fun d hd => by rw [b] at hd; cases hd))
  simp only [visible, b, c, d, f] at this
  cases this

/-- Database 1 is not empty; during a rewrite there is a write in database 0, in which the log already is. -/
def crossed : List Ev := turn 0 [.accept 3, ask [b!"select", b!"1"], ask [b!"set", b!"a", b!"1"], ask [b!"select", b!"0"], ask [b!"set", b!"c", b!"1"],
  ask [b!"bgrewriteaof"], ask [b!"set", b!"b", b!"2"]] ++ List.replicate 5 (.work 0 (demo 0) .whole) ++ [.sleep 1, .cron (demo 0) 1]

set_option maxRecDepth 8000 in
theorem crossed_result : (run (boot 2 [] true (conf0 .no)) crossed).bind (fun n =>
    (Aof.load Aof.readerSize (fun _ => demo 0) (n.file ++ n.sys.srv.aofBuf) (Server.init 2 [] true)).map (fun srv =>
      (((n.file ++ n.sys.srv.aofBuf).length, n.sys.deadline 0 b!"b", (restarted srv).deadline 0 b!"b"),
        text (n.sys.val 0 b!"b"), text ((restarted srv).val 0 b!"b"), text ((restarted srv).val 1 b!"b")))) =
    some ((127, none, none), some b!"2", none, some b!"2") := by decide

/-- **C48 is false** also without restarts: the rewritten file ends in the last database that is not empty. -/
theorem C48_running_refuted : ¬ C48_running := by
  intro hC
  have key := crossed_result
  simp only [Option.bind_eq_some_iff, Option.map_eq_some_iff] at key
  obtain ⟨n, h1, srv, h2, h3⟩ := key
  simp only [Prod.mk.injEq] at h3
  obtain ⟨⟨a, b, c⟩, d, f, _⟩ := h3
  obtain ⟨srv', k1, k2⟩ := hC H L P 0 2 [] (conf0 .no) crossed n (fun _ => demo 0) (fun _ _ => rfl) (by decide)
    (by
      intro ev hev
      simp only [crossed, turn, List.replicate, List.cons_append, List.nil_append, List.mem_cons, List.not_mem_nil, or_false] at hev
      rcases hev with rfl | rfl | rfl | rfl | rfl | rfl | rfl | rfl | rfl | rfl | rfl | rfl | rfl | rfl | rfl | rfl | rfl <;>
        exact ⟨Shown.timely (by constructor), rfl⟩) h1 (by rw [a]; decide) demo_world
  rw [h2] at k1; cases k1
  have := text_same (k2 0 b!"b" (fun d hd => by rw [b] at hd; cases hd))
  simp only [visible, b, c, d, f] at this
  cases this

/-- A list of one element; another one is pushed while the rewrite has not reached the list. -/
def pushed : List Ev := turn 0 [.accept 3, ask [b!"rpush", b!"l", b!"a"], ask [b!"bgrewriteaof"], ask [b!"rpush", b!"l", b!"a"]] ++
  List.replicate 3 (.work 0 (demo 0) .whole) ++ [.sleep 1]

set_option maxRecDepth 8000 in
theorem pushed_result : (run (boot 1 [] true (conf0 .no)) pushed).bind (fun n => (step n (.cron (demo 0) 1)).bind (fun n' =>
    (Aof.load Aof.readerSize (fun _ => demo 0) n'.file (Server.init 1 [] true)).map (fun srv =>
      ((n.done == [], n'.file.length, n'.sys.deadline 0 b!"l", (restarted srv).deadline 0 b!"l"),
        count (n'.sys.val 0 b!"l"), count ((restarted srv).val 0 b!"l"))))) =
    some ((false, 88, none, none), some 2, some 3) := by decide

/-- **C50 is false**: the second RPUSH is in the list that the goroutine writes, and in the rewrite buffer. -/
theorem C50_refuted : ¬ C50 := by
  intro hC
  have key := pushed_result
  simp only [Option.bind_eq_some_iff, Option.map_eq_some_iff] at key
  obtain ⟨n, h1, n', h2, srv, h3, h4⟩ := key
  simp only [Prod.mk.injEq] at h4
  obtain ⟨⟨a, a', b, c⟩, d, f⟩ := h4
  obtain ⟨srv', k1, k2⟩ := hC H L P 0 [] (conf0 .no) pushed n n' (demo 0) 1 (fun _ => demo 0) (fun _ _ => rfl)
    (by
      intro ev hev
      simp only [pushed, turn, List.replicate, List.cons_append, List.nil_append, List.mem_cons, List.not_mem_nil, or_false] at hev
      rcases hev with rfl | rfl | rfl | rfl | rfl | rfl | rfl | rfl | rfl | rfl | rfl <;>
        exact ⟨Shown.timely (by constructor), rfl⟩) h1 (fun hx => by rw [hx] at a; cases a) (Shown.timely (by constructor)) h2 (by rw [a']; decide) demo_world
  rw [h3] at k1; cases k1
  have := count_same (k2 0 b!"l" (fun d hd => by rw [b] at hd; cases hd))
  simp only [visible, b, c, d, f] at this
  cases this

/-- A write during a rewrite, flushed to the old file before the rewrite is finished. -/
def flushed : List Ev := turn 0 [.accept 3, ask [b!"set", b!"a", b!"1"], ask [b!"bgrewriteaof"], ask [b!"set", b!"b", b!"2"]] ++
  List.replicate 3 (.work 0 (demo 0) .whole) ++ [.sleep 1]

set_option maxRecDepth 8000 in
theorem flushed_result : (run (boot 1 [] true (conf0 .no)) flushed).bind (fun n => n.done.head?.bind (fun tmp =>
    (step n (.crashInDone tmp.length (fun _ => demo 0))).map (fun n' =>
      ((n.done == [tmp], n.sys.srv.aofBuf, n'.file.length, n.sys.deadline 0 b!"b", n'.sys.deadline 0 b!"b"),
        n.file.length, text (n.sys.val 0 b!"b"), text (n'.sys.val 0 b!"b"))))) =
    some ((true, [], 50, none, none), 54, some b!"2", none) := by decide

/-- **C51 is false**: the process is killed after the new file has replaced the old one and before the rewrite buffer is appended. -/
theorem C51_refuted : ¬ C51 := by
  intro hC
  have key := flushed_result
  simp only [Option.bind_eq_some_iff, Option.map_eq_some_iff] at key
  obtain ⟨n, h1, tmp, h2, n', h3, h4⟩ := key
  simp only [Prod.mk.injEq] at h4
  obtain ⟨⟨a, a', a2, b, c⟩, _, d, f⟩ := h4
  have k2 := hC H L P 0 1 [] (conf0 .no) flushed n n' _ (fun _ => demo 0) (fun _ _ => rfl) (by decide)
    (by
      intro ev hev
      simp only [flushed, turn, List.replicate, List.cons_append, List.nil_append, List.mem_cons, List.not_mem_nil, or_false] at hev
      rcases hev with rfl | rfl | rfl | rfl | rfl | rfl | rfl | rfl | rfl | rfl | rfl <;>
        exact Shown.timely (by constructor)) h1 a' demo_world (Or.inr ⟨_, tmp, rfl, by simpa using a, Nat.le_refl _⟩) h3 (by rw [a2]; decide)
  have := text_same (k2 0 b!"b" (fun d hd => by rw [b] at hd; cases hd))
  have c' : (restarted n'.sys.srv).deadline 0 b!"b" = none := c
  have f' : text ((restarted n'.sys.srv).val 0 b!"b") = none := f
  simp only [visible, b, c', d, f'] at this
  cases this

/-! ### The theorems apply

A check of `Tame` that can be computed. -/

def startB (n : Node) : Bool :=
  ((List.range n.sys.srv.dbs.length).all (fun i => match n.sys.srv.dbs[i]? with
    | none => true
    | some d => d.dict.toList.all (fun p => match p.2 with | .str _ | .hash _ | .set _ => true | _ => false) &&
        d.expire.toList.all (fun p => (d.dict.abs p.1).isSome) && (d.dict.toList.isEmpty || decide (i ≤ n.sys.srv.aofSelect)))) &&
  (n.sys.srv.aofSelect == 0 || match n.sys.srv.dbs[n.sys.srv.aofSelect]? with
    | none => false
    | some d => match d.dict.toList with | [] => false | p :: _ => (d.dict.abs p.1).isSome)

theorem abs_mem {V : Type} {d : Dict Bytes V} {k : Bytes} {v : V} (h : d.abs k = some v) : (k, v) ∈ d.toList := by
  unfold Dict.abs at h
  rw [Option.map_eq_some_iff] at h
  obtain ⟨⟨a, b⟩, h1, rfl⟩ := h
  have h2 := List.find?_some h1
  have h3 := List.mem_of_find?_eq_some h1
  simp only [beq_iff_eq] at h2
  subst h2
  exact h3

theorem startB_ok {n : Node} (h : startB n = true) : Startable n := by
  unfold startB at h
  rw [Bool.and_eq_true, List.all_eq_true] at h
  obtain ⟨h1, h2⟩ := h
  have hd : ∀ i d, n.sys.srv.dbs[i]? = some d → d.dict.toList.all (fun p => match p.2 with | .str _ | .hash _ | .set _ => true | _ => false) = true ∧
      d.expire.toList.all (fun p => (d.dict.abs p.1).isSome) = true ∧ (d.dict.toList.isEmpty || decide (i ≤ n.sys.srv.aofSelect)) = true := by
    intro i d hi
    have := h1 i (List.mem_range.2 (List.getElem?_eq_some_iff.1 hi).1)
    rw [hi] at this
    simp only [Bool.and_eq_true] at this
    exact ⟨this.1.1, this.1.2, this.2⟩
  have hv : ∀ i k, n.sys.val i k ≠ none → ∃ d o, n.sys.srv.dbs[i]? = some d ∧ (k, o) ∈ d.dict.toList ∧ n.sys.val i k = some o.view := by
    intro i k hk
    unfold Sys.val at hk ⊢
    cases hi : n.sys.srv.dbs[i]? with
    | none => rw [hi] at hk; exact absurd rfl hk
    | some d =>
      rw [hi] at hk
      simp only [Option.bind_some, Db.view, ne_eq, Option.map_eq_none_iff] at hk
      obtain ⟨o, ho⟩ := Option.ne_none_iff_exists'.1 hk
      exact ⟨d, o, rfl, abs_mem ho, by simp [Db.view, ho]⟩
  refine ⟨fun i k o ho => ?_, fun i k hk => ?_, fun i k hk => ?_, ?_⟩
  · obtain ⟨d, o', q1, q2, q3⟩ := hv i k (by rw [ho]; simp)
    rw [ho] at q3; cases q3
    have := List.all_eq_true.1 (hd i d q1).1 _ q2
    cases o' with
    | str x => exact Or.inl ⟨_, rfl⟩
    | hash x => exact Or.inr (Or.inl ⟨_, rfl⟩)
    | set x => exact Or.inr (Or.inr ⟨_, rfl⟩)
    | list x => cases this
    | zset x => cases this
  · cases hi : n.sys.srv.dbs[i]? with
    | none => simp [Sys.deadline, hi]
    | some d =>
      rw [deadline_eq hi]
      rw [val_eq hi] at hk
      cases ht : d.view.t k with
      | none => rfl
      | some x =>
        have := List.all_eq_true.1 (hd i d hi).2.1 _ (abs_mem (d := d.expire) ht)
        simp only [Db.view, Option.map_eq_none_iff] at hk
        simp only [hk] at this
        cases this
  · obtain ⟨d, o', q1, q2, q3⟩ := hv i k hk
    have := (hd i d q1).2.2
    rw [Bool.or_eq_true] at this
    rcases this with h | h
    · rw [List.isEmpty_iff] at h; rw [h] at q2; cases q2
    · simpa using h
  · rw [Bool.or_eq_true] at h2
    rcases h2 with h | h
    · exact Or.inl (by simpa using h)
    · right
      split at h
      · cases h
      · next d hd' =>
        split at h
        · cases h
        · next p _ hp =>
          refine ⟨p.1, ?_⟩
          rw [val_eq hd']
          simp only [Db.view, ne_eq, Option.map_eq_none_iff]
          intro hx; rw [hx] at h; cases h

def tameB (n : Node) : Ev → Bool
  | .request _ e args => !(decide (commandOf e args = some .bgrewriteaof) && decide (n.sys.srv.task = .none)) || startB n
  | .cron _ _ => !(grown n.conf n.cur n.base && decide (n.sys.srv.task = .none)) || startB n
  | .work _ _ (.collect items) => decide (items ≠ [])
  | .work i _ .whole =>
    match n.jobs[i]? with
    | none => true
    | some j => match j.todo with
      | ⟨.key it, _, _⟩ :: _ => (match it.obj with
        | .hash d => d.toList.any (fun p => (d.abs p.1).isSome)
        | .set s => s.toList.any (fun p => (s.abs p.1).isSome)
        | _ => true)
      | _ => true
  | .restart es => decide (n.file.length ≤ 65536) &&
      decide ((Aof.parse Aof.readerSize n.file).bind (fun recs =>
        (Aof.replay es recs (Server.init n.sys.srv.dbs.length n.sys.srv.password true) Session.new).map (fun p => p.2.db)) = some 0)
  | _ => true

theorem tameB_ok {n : Node} {ev : Ev} (h : tameB n ev = true) : Tame n ev := by
  cases ev with
  | request fd e args =>
    intro h1 h2
    simp only [tameB, h1, h2, decide_true, Bool.and_true, Bool.not_true, Bool.false_or] at h
    exact startB_ok h
  | cron e t =>
    intro h1 h2
    simp only [tameB, h1, h2, decide_true, Bool.and_true, Bool.not_true, Bool.false_or] at h
    exact startB_ok h
  | work i e p =>
    cases p with
    | enter => trivial
    | collect items => exact of_decide_eq_true (p := items ≠ []) h
    | whole =>
    intro j t rest it h1 h2 h3
    obtain ⟨c, sh, st⟩ := t
    cases h3
    simp only [tameB, h1, h2] at h
    revert h
    cases it.obj with
    | hash d =>
      intro h
      obtain ⟨p, _, hp⟩ := List.any_eq_true.1 h
      exact ⟨p.1, fun hx => by rw [hx] at hp; cases hp⟩
    | set d =>
      intro h
      obtain ⟨p, _, hp⟩ := List.any_eq_true.1 h
      exact ⟨p.1, fun hx => by rw [hx] at hp; cases hp⟩
    | _ => intro _; trivial
  | restart es =>
    simp only [tameB, Bool.and_eq_true, decide_eq_true_eq] at h
    exact ⟨Aof.readable_small h.1, h.2⟩
  | _ => trivial

/-- Every step is possible and `Tame`. -/
def tameRun (n : Node) : List Ev → Bool
  | [] => true
  | ev :: evs => tameB n ev && match step n ev with
    | none => false
    | some n' => tameRun n' evs

theorem orderly_of : ∀ (evs : List Ev) {n : Node}, (∀ ev ∈ evs, Fair hash lower pf T ev) → tameRun n evs = true → Orderly hash lower pf T n evs
  | [], _, _, _ => trivial
  | ev :: evs, n, hf, h => by
    simp only [tameRun, Bool.and_eq_true] at h
    refine ⟨hf ev (by simp), tameB_ok h.1, fun n' hn => ?_⟩
    have := h.2
    rw [hn] at this
    exact orderly_of evs (fun ev' he => hf ev' (by simp [he])) this

/-- The environment of the examples with random numbers for the timer. -/
def dice : Env := { demo 0 with draws := List.replicate 200 0 }

/-- A command of the examples. -/
theorem fair_ask {args : List Bytes} {cmd : Cmd} (h : commandOf (demo 0) args = some cmd) (hp : Plain 0 (demo 0) cmd args) : Fair H L P 0 (ask args) :=
  ⟨rfl, by decide, by decide, rfl, rfl, LogP.demo_levels, fun cmd' h' => by rw [h] at h'; cases h'; exact hp⟩

/-- Strings, a hash, a set and a deadline in two databases; a rewrite, during which the hash and the set are changed before they are written, one
string is changed after it was written and a list is made; the end of the rewrite; a crash with data that have not been flushed. -/
def busyDay : List Ev :=
  turn 0 [.accept 3, ask [b!"set", b!"a", b!"1"], ask [b!"hset", b!"h", b!"f", b!"1"], ask [b!"expire", b!"h", b!"100"],
    ask [b!"select", b!"1"], ask [b!"sadd", b!"s", b!"x"], ask [b!"bgrewriteaof"]] ++
  [.work 0 (demo 0) .whole, .work 0 (demo 0) .whole] ++
  turn 1 [ask [b!"sadd", b!"s", b!"y"], ask [b!"select", b!"0"], ask [b!"hset", b!"h", b!"g", b!"2"], ask [b!"set", b!"a", b!"2"],
    ask [b!"rpush", b!"l", b!"p", b!"q"]] ++
  List.replicate 4 (.work 0 (demo 0) .whole) ++ [.sleep 2]

theorem busyDay_fair : ∀ ev ∈ busyDay, Fair H L P 0 ev := by
  intro ev hev
  simp only [busyDay, turn, List.replicate, List.cons_append, List.nil_append, List.mem_cons, List.not_mem_nil, or_false] at hev
  rcases hev with rfl | rfl | rfl | rfl | rfl | rfl | rfl | rfl | rfl | rfl | rfl | rfl | rfl | rfl | rfl | rfl | rfl | rfl | rfl | rfl | rfl | rfl | rfl | rfl | rfl
  all_goals first
    | exact fair_ask (cmd := .set) (by decide) trivial
    | exact fair_ask (cmd := .hset) (by decide) trivial
    | exact fair_ask (cmd := .sadd) (by decide) trivial
    | exact fair_ask (cmd := .select) (by decide) trivial
    | exact fair_ask (cmd := .rpush) (by decide) trivial
    | exact fair_ask (cmd := .bgrewriteaof) (by decide) trivial
    | exact fair_ask (cmd := .expire) (by decide) (fun a n h1 h2 => by
        cases h1
        have : atoi b!"100" = some 100 := by decide
        rw [this] at h2; cases h2; decide)
    | trivial

set_option maxRecDepth 8000 in
theorem busyDay_tame : tameRun (boot 2 [] true (conf0 .no)) (busyDay ++ [.cron dice 2]) = true := by decide

set_option maxRecDepth 8000 in
/-- For C50: the rewrite is finished in that history; the deadline, the changed string and the list are in the new file. -/
example : (run (boot 2 [] true (conf0 .no)) busyDay).bind (fun n => (step n (.cron dice 2)).bind (fun n' =>
    (Aof.load Aof.readerSize (fun _ => demo 0) n'.file (Server.init 2 [] true)).map (fun srv =>
      (n.done.length, n'.file.length, text ((restarted srv).val 0 b!"a"), count ((restarted srv).val 0 b!"l"), (restarted srv).deadline 0 b!"h")))) =
    some (1, 326, some b!"2", some 2, some 100000) := by decide

/-- The same day, a write that is not flushed, a restart, another write. -/
def nextDay : List Ev := busyDay ++ [.cron dice 2, ask [b!"set", b!"z", b!"1"], .turn, .restart (fun _ => demo 0)] ++
  turn 3 [.accept 3, ask [b!"select", b!"1"], ask [b!"set", b!"w", b!"1"]]

theorem nextDay_fair : ∀ ev ∈ nextDay, Fair H L P 0 ev := by
  intro ev hev
  rw [nextDay, List.append_assoc, List.mem_append] at hev
  rcases hev with hev | hev
  · exact busyDay_fair ev hev
  · simp only [turn, List.cons_append, List.nil_append, List.mem_cons, List.not_mem_nil, or_false] at hev
    rcases hev with rfl | rfl | rfl | rfl | rfl | rfl | rfl | rfl | rfl | rfl
    all_goals first
      | exact fair_ask (cmd := .set) (by decide) trivial
      | exact fair_ask (cmd := .select) (by decide) trivial
      | exact demo_world
      | exact ⟨rfl, by decide⟩
      | trivial

set_option maxRecDepth 16000 in
/-- For C48 and C51: that history is orderly, and possible. -/
theorem nextDay_tame : tameRun (boot 2 [] true (conf0 .no)) nextDay = true := by decide

set_option maxRecDepth 16000 in
example : (run (boot 2 [] true (conf0 .no)) nextDay).map (fun n => (n.file.length, n.sys.srv.aofBuf.length, text (n.sys.val 0 b!"z"), text (n.sys.val 1 b!"w"))) =
    some (326, 50, none, some b!"1") := by decide

example : Orderly H L P 0 (boot 2 [] true (conf0 .no)) nextDay := orderly_of _ nextDay_fair nextDay_tame

end Metis.Props.DurableP
