import Verif.Proofs.Node
import Verif.Spec.Demo
/-!
Properties C52–C55: the background rewrite, when it starts, and when the log reaches the file and the disk.
-/
set_option linter.unusedSectionVars false
set_option linter.unusedSimpArgs false
set_option linter.unusedVariables false
set_option synthInstance.maxSize 2000
set_option synthInstance.maxHeartbeats 200000
namespace Metis.Props.NodeP
open Metis Metis.Spec Metis.Node

/-- The states that can be reached from the first start, with any requests, any work of the goroutines, crashes and restarts. -/
def Reached (n : Node) : Prop := ∃ k pw aof conf evs, run (boot k pw aof conf) evs = some n

theorem Reached.task {n : Node} (h : Reached n) : TaskOk n := by
  obtain ⟨k, pw, aof, conf, evs, h⟩ := h
  exact run_task h (boot_task k pw aof conf)

theorem Reached.run {n n' : Node} {evs : List Ev} (h : Reached n) (hr : Node.run n evs = some n') : Reached n' := by
  obtain ⟨k, pw, aof, conf, evs0, h⟩ := h
  exact ⟨k, pw, aof, conf, evs0 ++ evs, Node.run_append.2 ⟨n, h, hr⟩⟩

/-- How many rewrites are running or wait to be finished. -/
def rewrites (n : Node) : Nat := n.jobs.length + n.done.length

/-! ### C52 -/

/-- **C52**: at most one goroutine, counting the one whose result has not been taken over; and the task flag says whether there is one. -/
theorem C52_one {n : Node} (h : Reached n) : rewrites n ≤ 1 ∧ (rewrites n = 1 ↔ n.sys.srv.task = .aofRewrite) := by
  have hc := h.task.count
  unfold pending at hc
  unfold rewrites
  rw [hc]
  split <;> simp_all

/-- **C52**: what a request adds to the log is also collected for the rewrite, iff one is running; otherwise nothing is collected. -/
theorem C52_collected {n n' : Node} {fd : Nat} {e : Env} {args : List Bytes} (h : Reached n) (hs : step n (.request fd e args) = some n') :
    ∃ x, n'.sys.srv.aofBuf = n.sys.srv.aofBuf ++ x ∧ n'.sys.srv.aofRewriteBuf = (if rewrites n = 1 then n.sys.srv.aofRewriteBuf ++ x else []) := by
  cases step_is hs with
  | quiet hq => cases hq
  | request hp hr =>
    obtain ⟨_, x, h1, h2, _⟩ := request_task hr h.task
    exact ⟨x, h1, h2⟩

/-- What the log will be: the file, and what is still in the buffer. -/
def logged (n : Node) : Bytes := n.file ++ n.sys.srv.aofBuf

/-- A rewrite is running after every step. -/
def Running : Node → List Ev → Prop
  | n, [] => rewrites n = 1
  | n, ev :: evs => rewrites n = 1 ∧ ev.isRestart = false ∧ ∀ n', step n ev = some n' → Running n' evs

theorem running_step {n n' : Node} {ev : Ev} (k : TaskOk n) (h : step n ev = some n') (h1 : rewrites n = 1) (h2 : rewrites n' = 1) (hr : ev.isRestart = false) :
    ∃ x, logged n' = logged n ++ x ∧ n'.sys.srv.aofRewriteBuf = n.sys.srv.aofRewriteBuf ++ x := by
  unfold logged
  have ht : n.sys.srv.task = .aofRewrite := by
    have := k.count; unfold pending at this; unfold rewrites at h1; rw [this] at h1
    by_contra hc; rw [if_neg hc] at h1; cases h1
  cases step_is h with
  | quiet hq => exact ⟨[], by simp, by simp⟩
  | @sleep t hp =>
    obtain ⟨_, _, f3, _, _, _, _, f8, _⟩ := flush_same t n
    refine ⟨[], ?_, ?_⟩
    · show (flush t n).file ++ (flush t n).sys.srv.aofBuf = _
      rw [f3, f8]
    · show (flush t n).sys.srv.aofRewriteBuf = _
      rw [f8]; exact (List.append_nil _).symm
  | @cron e t w n1 hp hc =>
    have k1 := cron_task hc k
    obtain ⟨dbs, n2, q1, q2, q3⟩ := cron_spec hc
    rw [if_neg (by rw [ht]; simp)] at q2
    subst q2
    rcases q3 with ⟨_, rfl⟩ | ⟨tmp, rest, hd, rfl⟩
    · exact ⟨[], by simp, by simp⟩
    · exfalso
      have hf := (finish_same t tmp { { n with sys := { n.sys with srv := { n.sys.srv with dbs := dbs } }, jobs := followAll e n.sys.srv.dbs dbs n.jobs } with done := rest }).1
      have hc := k1.count
      rw [hf] at hc
      simp [pending] at hc
      simp [rewrites, hc] at h2
  | request hp hc =>
    obtain ⟨_, x, b1, b2, b3, _⟩ := request_task hc k
    refine ⟨x, by rw [b1, b3, List.append_assoc], ?_⟩
    rw [b2, if_pos (by exact h1)]
  | work hw =>
    obtain ⟨w1, _, _, _, _, _, _, w8, _⟩ := work_files hw
    exact ⟨[], by rw [w1, w8]; simp, by rw [w8]; simp⟩
  | restart => cases hr
  | crash => cases hr

theorem running_run : ∀ {evs : List Ev} {n n' : Node}, TaskOk n → run n evs = some n' → Running n evs →
    ∃ x, logged n' = logged n ++ x ∧ n'.sys.srv.aofRewriteBuf = n.sys.srv.aofRewriteBuf ++ x
  | [], n, n', k, h, _ => by cases h; exact ⟨[], by simp, by simp⟩
  | ev :: evs, n, n', k, h, hr => by
    simp only [run, Option.bind_eq_bind, Option.bind_eq_some_iff] at h
    obtain ⟨n1, h1, h2⟩ := h
    obtain ⟨r1, r2, r3⟩ := hr
    have hr1 := r3 n1 h1
    have hrw : rewrites n1 = 1 := by cases evs with | nil => exact hr1 | cons a b => exact hr1.1
    obtain ⟨x, a1, a2⟩ := running_step k h1 r1 hrw r2
    obtain ⟨y, b1, b2⟩ := running_run (step_task h1 k) h2 hr1
    exact ⟨x ++ y, by rw [b1, a1, List.append_assoc], by rw [b2, a2, List.append_assoc]⟩

/-- **C52**: from the moment a rewrite has started and as long as it is not finished, what is collected for it is exactly what the log has grown by. -/
theorem C52_since_start {n0 n n' : Node} {ev : Ev} {evs : List Ev} (h : Reached n0) (h0 : rewrites n0 = 0) (hs : step n0 ev = some n)
    (hev : ev.isRestart = false) (hr : run n evs = some n') (hw : Running n evs) : logged n' = logged n ++ n'.sys.srv.aofRewriteBuf := by
  have k := h.task
  have hbuf : n0.sys.srv.aofRewriteBuf = [] := by
    have := k.count
    unfold pending at this
    unfold rewrites at h0
    apply k.rbuf
    have hr := k.rdb
    cases ht : n0.sys.srv.task with
    | none => rfl
    | aofRewrite => rw [ht, if_pos rfl] at this; omega
    | rdb => exact absurd ht hr
  have hne : rewrites n = 1 := by cases evs with | nil => exact hw | cons a b => exact hw.1
  have hb : n.sys.srv.aofRewriteBuf = [] := by
    cases step_is hs with
    | quiet hq => exact hbuf
    | @sleep t hp =>
      show (flush t n0).sys.srv.aofRewriteBuf = []
      rw [(flush_same t n0).2.2.2.2.2.2.2.1]; exact hbuf
    | @cron e t w n1 hp hc =>
      obtain ⟨dbs, n2, q1, q2, q3⟩ := cron_spec hc
      have : n2.sys.srv.aofRewriteBuf = [] := by
        split at q2
        · next hcc =>
          obtain ⟨srv, h4, h5⟩ := q2
          obtain ⟨_, _, _, l4, _⟩ := startRewrite_logs h4 hcc.1
          rcases launch_spec h5 with ⟨_, rfl⟩ | ⟨cs, ch, _, _, rfl⟩ <;> exact l4.trans hbuf
        · subst q2; exact hbuf
      show n1.sys.srv.aofRewriteBuf = []
      rcases q3 with ⟨_, rfl⟩ | ⟨tmp, rest, hd, rfl⟩
      · exact this
      · rw [(finish_same t tmp { n2 with done := rest }).1]
    | request hp hc =>
      obtain ⟨_, x, b1, b2, b3, _⟩ := request_task hc k
      rw [b2, if_neg (by show ¬ rewrites n0 = 1; rw [h0]; decide)]
    | work hw' =>
      rw [(work_files hw').2.2.2.2.2.2.2.1]; exact hbuf
    | restart => cases hev
    | crash => cases hev
  obtain ⟨x, a1, a2⟩ := running_run (step_task hs k) hr hw
  rw [a1, a2, hb]; rfl

/-! ### C53 -/

/-- The size of the file at the end of the last rewrite, `g` before the history. `fresh`: forget it at a restart. -/
def lastSize (fresh : Bool) (n : Node) (g : Nat) : List Ev → Option Nat
  | [] => some g
  | ev :: evs => do
    let n' ← step n ev
    lastSize fresh n' (match ev with
      | .cron _ _ => if n.done = [] then g else n'.file.length
      | .restart _ | .crashInDone _ _ => if fresh then 0 else g
      | _ => g) evs

/-- The condition of C53, on numbers without bounds: `g` is the size that the growth refers to. -/
def Due (conf : Conf) (size g : Nat) : Prop := 0 < conf.percent.toNat ∧ conf.minSize.toNat < size ∧ (100 + conf.percent.toNat) * g ≤ 100 * size

/-- The full claim of C53. -/
def C53 : Prop := ∀ (k : Nat) (pw : Bytes) (conf : Conf) (evs : List Ev) (n n' : Node) (g : Nat) (e : Env) (t : Int),
  run (boot k pw true conf) evs = some n → lastSize false (boot k pw true conf) 0 evs = some g → step n (.cron e t) = some n' →
  (rewrites n = 0 ∧ n'.jobs ≠ [] ↔ rewrites n = 0 ∧ Due conf n.file.length g)

structure SizeOk (conf : Conf) (n : Node) (g : Nat) : Prop where
  conf : n.conf = conf
  aof  : n.sys.srv.aofEnable = true
  cur  : n.cur = UInt64.ofNat n.file.length
  base : n.base = UInt64.ofNat g
  le   : g ≤ n.file.length

theorem size_run {conf : Conf} : ∀ {evs : List Ev} {n n' : Node} {g g' : Nat}, SizeOk conf n g → run n evs = some n' → lastSize true n g evs = some g' →
    SizeOk conf n' g'
  | [], n, n', g, g', k, h, hg => by cases h; cases hg; exact k
  | ev :: evs, n, n', g, g', k, h, hg => by
    simp only [run, lastSize, Option.bind_eq_bind, Option.bind_eq_some_iff] at h hg
    obtain ⟨n1, h1, h2⟩ := h
    obtain ⟨n1', h1', h3⟩ := hg
    rw [h1] at h1'; cases h1'
    refine size_run ?_ h2 h3
    cases step_is h1 with
    | quiet hq => cases ev <;> first | exact ⟨k.conf, k.aof, k.cur, k.base, k.le⟩ | cases hq
    | @sleep t hp =>
      obtain ⟨_, f2, f3, f4, _, _, _, f8, f9⟩ := flush_same t n
      refine ⟨f2.trans k.conf, ?_, ?_, f4.trans k.base, ?_⟩
      · show (flush t n).sys.srv.aofEnable = true; rw [f8]; exact k.aof
      · show (flush t n).cur = UInt64.ofNat (flush t n).file.length
        rw [f9, f3, k.cur, List.length_append, UInt64.ofNat_add]
      · show g ≤ (flush t n).file.length
        rw [f3, List.length_append]; have := k.le; omega
    | @cron e t w n2 hp hc =>
      obtain ⟨c1, c2, _, _, _, c6⟩ := cron_files hc
      rcases c6 with ⟨d1, d2, d3, d4, _⟩ | ⟨d1, d2, d3, _⟩
      · simp only [d1, if_true]
        exact ⟨c1.trans k.conf, c2.trans k.aof, d4.trans (by rw [k.cur]; exact congrArg _ (congrArg _ d2.symm)), d3.trans k.base, by show g ≤ n2.file.length; rw [d2]; exact k.le⟩
      · simp only [d1, if_false]
        exact ⟨c1.trans k.conf, c2.trans k.aof, d3, d2, Nat.le_refl _⟩
    | request hp hc =>
      obtain ⟨q1, q2, q3, q4, q5, q6, q7, q8, q9, _⟩ := request_files hc
      exact ⟨q6.trans k.conf, q9.trans k.aof, by rw [q2, q1]; exact k.cur, q3.trans k.base, by rw [q1]; exact k.le⟩
    | work hw =>
      obtain ⟨w1, w2, w3, _, _, w6, _, w8, _⟩ := work_files hw
      exact ⟨w6.trans k.conf, by rw [w8]; exact k.aof, by rw [w2, w1]; exact k.cur, w3.trans k.base, by rw [w1]; exact k.le⟩
    | restart hr =>
      obtain ⟨r1, r2, r3, r4, _, _, _, r8⟩ := restart_files hr
      exact ⟨r3.trans k.conf, r4.trans k.aof, by rw [r8, k.aof, r1]; rfl, by rw [r2]; rfl, Nat.zero_le _⟩
    | crash hp hd hr =>
      obtain ⟨r1, r2, r3, r4, _, _, _, r8⟩ := restart_files hr
      exact ⟨r3.trans k.conf, r4.trans k.aof, by rw [r8, r1]; simp only [k.aof]; rfl, by rw [r2]; rfl, Nat.zero_le _⟩

theorem grown_iff {conf : Conf} {size g : Nat} (h : 100 * size < 2 ^ 64) (hg : g ≤ size) :
    grown conf (UInt64.ofNat size) (UInt64.ofNat g) = true ↔ Due conf size (max g 1) := by
  have hs : (UInt64.ofNat size).toNat = size := UInt64.toNat_ofNat_of_lt' (by show size < 2 ^ 64; omega)
  have hgn : (UInt64.ofNat g).toNat = g := UInt64.toNat_ofNat_of_lt' (by show g < 2 ^ 64; omega)
  have hb : ((if UInt64.ofNat g = 0 then 1 else UInt64.ofNat g) : UInt64).toNat = max g 1 := by
    split
    · next h0 =>
      have := congrArg UInt64.toNat h0
      rw [hgn] at this
      have h0 : g = 0 := this
      subst h0; rfl
    · next h0 =>
      have : g ≠ 0 := fun hz => h0 (by rw [hz]; rfl)
      rw [hgn]; omega
  have hm : (UInt64.ofNat size * 100).toNat = size * 100 := by
    rw [UInt64.toNat_mul, hs]
    show size * 100 % 2 ^ 64 = _
    exact Nat.mod_eq_of_lt (by omega)
  unfold grown Due
  simp only [Bool.and_eq_true, decide_eq_true_eq, gt_iff_lt, ge_iff_le, UInt64.lt_iff_toNat_lt, UInt64.le_iff_toNat_le, hs, UInt64.toNat_zero]
  rw [and_assoc]
  refine and_congr_right (fun hp => and_congr_right (fun hmin => ?_))
  have hq : 100 ≤ size * 100 / max g 1 := by
    rw [Nat.le_div_iff_mul_le (by omega)]
    rcases Nat.le_total g 1 with h1 | h1
    · rw [Nat.max_eq_right h1]; omega
    · rw [Nat.max_eq_left h1]; omega
  have hsub : (UInt64.ofNat size * 100 / (if UInt64.ofNat g = 0 then 1 else UInt64.ofNat g) - 100).toNat = size * 100 / max g 1 - 100 := by
    rw [UInt64.toNat_sub_of_le, UInt64.toNat_div, hm, hb]
    · rfl
    · rw [UInt64.le_iff_toNat_le, UInt64.toNat_div, hm, hb]; exact hq
  rw [hsub, show conf.percent.toNat ≤ size * 100 / max g 1 - 100 ↔ 100 + conf.percent.toNat ≤ size * 100 / max g 1 by omega,
    Nat.le_div_iff_mul_le (by omega), Nat.mul_comm size 100]

/-- **C53** (partial): the timer starts a rewrite iff none is running, the percentage is positive, the file is larger than the minimum, and it has grown by
the percentage since the last rewrite *of this process* (since size 1 if there was none or the rewritten file was empty); as long as 100 times the size
fits into 64 bits. The comparison is on numbers without bounds: the arithmetic does not wrap. Missing: the growth since a rewrite
before the last restart is not known to the server (refuted below). -/
theorem C53_partial {k : Nat} {pw : Bytes} {conf : Conf} {evs : List Ev} {n n' : Node} {g : Nat} {e : Env} {t : Int}
    (h : run (boot k pw true conf) evs = some n) (hg : lastSize true (boot k pw true conf) 0 evs = some g)
    (hl : 100 * n.file.length < 2 ^ 64) (hs : step n (.cron e t) = some n') :
    rewrites n = 0 ∧ n'.jobs ≠ [] ↔ rewrites n = 0 ∧ Due conf n.file.length (max g 1) := by
  have k0 : SizeOk conf (boot k pw true conf) 0 := ⟨rfl, rfl, rfl, rfl, Nat.zero_le _⟩
  have kn := size_run k0 h hg
  have hk := Reached.task ⟨k, pw, true, conf, evs, h⟩
  refine and_congr_right (fun h0 => ?_)
  unfold rewrites at h0
  have hd : n.done = [] := List.eq_nil_of_length_eq_zero (by omega)
  have hj : n.jobs = [] := List.eq_nil_of_length_eq_zero (by omega)
  have htask : n.sys.srv.task = .none := by
    have := hk.count
    unfold pending at this
    have hr := hk.rdb
    cases ht : n.sys.srv.task with
    | none => rfl
    | aofRewrite => rw [ht, if_pos rfl] at this; omega
    | rdb => exact absurd ht hr
  cases step_is hs with
  | quiet hq => cases hq
  | @cron _ _ w n1 hp hc =>
    obtain ⟨dbs, n2, q1, q2, q3⟩ := cron_spec hc
    rw [← grown_iff hl kn.le, ← kn.cur, ← kn.base, ← kn.conf]
    have hdone : n2.done = [] := by
      split at q2
      · obtain ⟨srv, _, h5⟩ := q2
        rcases launch_spec h5 with ⟨_, rfl⟩ | ⟨cs, ch, _, _, rfl⟩ <;> exact hd
      · subst q2; exact hd
    rcases q3 with ⟨_, rfl⟩ | ⟨tmp, rest, hx, _⟩
    · show n1.jobs ≠ [] ↔ _
      by_cases hgr : grown n.conf n.cur n.base = true
      · rw [if_pos ⟨htask, hgr⟩] at q2
        obtain ⟨srv, h4, h5⟩ := q2
        obtain ⟨_, l2, _⟩ := startRewrite_logs h4 htask
        rcases launch_spec h5 with ⟨hsn, rfl⟩ | ⟨cs, ch, _, _, rfl⟩
        · have hsn : srv.snapshot = none := hsn
          rw [hsn] at l2; cases l2
        · simp [hgr]
      · rw [if_neg (fun hx => hgr hx.2)] at q2
        subst q2
        simp [hgr, hj, followAll]
    · rw [hdone] at hx; cases hx

/-! ### C54 -/

/-- The output of a connection that has not been sent yet. -/
def unsent (n : Node) (fd : Nat) : Bytes := match n.net.clients fd with
  | none => []
  | some o => o.queue.flatten.drop o.sent

/-- No flush, no restart, and the descriptor is not used for a new connection. -/
def Between (fd : Nat) (evs : List Ev) : Prop := ∀ ev ∈ evs, (∀ t, ev ≠ .sleep t) ∧ ev.isRestart = false ∧ ev ≠ .accept fd

/-- The full claim of C54, for the write to the file: if a request on `fd` is logged, then nothing is sent on `fd`, except what was due before,
until the log is flushed. -/
def C54 : Prop := ∀ (n n1 n2 : Node) (fd : Nat) (e : Env) (args : List Bytes) (evs : List Ev), Reached n → n.sys.srv.aofEnable = true →
  step n (.request fd e args) = some n1 → n1.sys.srv.aofBuf ≠ n.sys.srv.aofBuf → run n1 evs = some n2 → Between fd evs →
  n2.net.wire fd <+: n.net.wire fd ++ unsent n fd

/-- **C54** (partial): if the connection was not registered for writing (that is, by C32, had nothing to send) when the loop went to sleep, then nothing
is sent on it before the next flush; and that flush writes all that was logged in between, and syncs it with the policy always.
Missing: connections with pending output (refuted below). -/
theorem C54_partial {n n1 n2 n3 : Node} {fd : Nat} {t t' : Int} {evs : List Ev} (hq : n.net.loop.files (Ae.key fd .writable) = none)
    (h1 : step n (.sleep t) = some n1) (h2 : run n1 evs = some n2) (hb : Between fd evs) (h3 : step n2 (.sleep t') = some n3) :
    n2.net.wire fd = n.net.wire fd ∧ (∃ x, n2.sys.srv.aofBuf = n1.sys.srv.aofBuf ++ x) ∧ n3.file = n2.file ++ n2.sys.srv.aofBuf ∧
      n3.sys.srv.aofBuf = [] ∧ (n2.conf.policy = .always → n2.sys.srv.aofBuf ≠ [] → n3.synced = n3.file.length) := by
  have hf : ∀ {m m' : Node} {s : Int}, step m (.sleep s) = some m' →
      m'.net = m.net ∧ m'.file = m.file ++ m.sys.srv.aofBuf ∧ m'.sys.srv.aofBuf = [] ∧
      (m.conf.policy = .always → m.sys.srv.aofBuf ≠ [] → m'.synced = m'.file.length) := by
    intro m m' s h
    cases step_is h with
    | quiet hq => cases hq
    | sleep hp =>
      obtain ⟨f1, f2, f3, _, _, _, _, f8, _⟩ := flush_same s m
      refine ⟨f1, f3, by show (flush s m).sys.srv.aofBuf = []; rw [f8], fun ha hne => ?_⟩
      rcases flush_sync s m with ⟨h, _⟩ | ⟨_, ⟨h, _⟩ | ⟨_, _, h | ⟨h, _⟩⟩⟩
      · exact absurd h hne
      · exact h
      · rw [ha] at h; cases h
      · rw [ha] at h; cases h
  obtain ⟨a1, _, _⟩ := hf h1
  obtain ⟨b1, b2, b3, b4⟩ := hf h3
  have hs : Silent fd n1 := by
    cases step_is h1 with
    | quiet hq => cases hq
    | sleep hp => unfold Silent; simp [hq]
  obtain ⟨c1, c2⟩ := run_silent h2 hs hb
  exact ⟨by rw [c1, a1], c2, b2, b3, b4⟩

/-! ### C55 -/

/-- **C55**, always: whenever the log is flushed or the file replaced, the whole file is synced. -/
theorem C55_always {n n' : Node} {ev : Ev} (hp : n.conf.policy = .always) (h : step n ev = some n') (hr : ev.isRestart = false) :
    n'.synced = n'.file.length ∨ (n'.file = n.file ∧ n'.synced = n.synced) := by
  cases step_is h with
  | quiet hq => exact Or.inr ⟨rfl, rfl⟩
  | @sleep t _ =>
    rcases flush_sync t n with ⟨_, hx⟩ | ⟨_, ⟨hx, _⟩ | ⟨_, _, hx | ⟨hx, _⟩⟩⟩
    · rw [hx]; exact Or.inr ⟨rfl, rfl⟩
    · exact Or.inl hx
    · rw [hp] at hx; cases hx
    · rw [hp] at hx; cases hx
  | cron _ hc =>
    obtain ⟨_, _, _, _, _, ⟨_, c2, _, _, c5, _⟩ | ⟨_, _, _, ⟨c, _⟩ | ⟨_, _, c⟩⟩⟩ := cron_files hc
    · exact Or.inr ⟨c2, c5⟩
    · exact Or.inl c
    · exact absurd hp c
  | request _ hc => obtain ⟨q1, _, _, q4, _⟩ := request_files hc; exact Or.inr ⟨q1, q4⟩
  | work hw => obtain ⟨w1, _, _, w4, _⟩ := work_files hw; exact Or.inr ⟨w1, w4⟩
  | restart => cases hr
  | crash => cases hr

/-- The configuration never changes. -/
theorem conf_step {n n' : Node} {ev : Ev} (h : step n ev = some n') : n'.conf = n.conf := by
  cases step_is h with
  | quiet hq => rfl
  | @sleep t _ => exact (flush_same t n).2.1
  | cron _ hc => exact (cron_files hc).1
  | request _ hc => exact (request_files hc).2.2.2.2.2.1
  | work hw => exact (work_files hw).2.2.2.2.2.1
  | restart hr => exact (restart_files hr).2.2.1
  | crash _ _ hr => exact (restart_files hr).2.2.1

/-- **C55**, always: without restarts the file is always synced completely. -/
theorem C55_always_run {k : Nat} {pw : Bytes} {aof : Bool} {conf : Conf} (hp : conf.policy = .always) {evs : List Ev} {n : Node}
    (h : run (boot k pw aof conf) evs = some n) (hr : ∀ ev ∈ evs, ev.isRestart = false) : n.synced = n.file.length := by
  have key : ∀ {evs : List Ev} {m n : Node}, m.conf = conf → m.synced = m.file.length → run m evs = some n → (∀ ev ∈ evs, ev.isRestart = false) →
      n.synced = n.file.length := by
    intro evs
    induction evs with
    | nil => intro m n _ hm h _; cases h; exact hm
    | cons ev evs ih =>
      intro m n hc hm h hr
      simp only [run, Option.bind_eq_bind, Option.bind_eq_some_iff] at h
      obtain ⟨m1, h1, h2⟩ := h
      refine ih ((conf_step h1).trans hc) ?_ h2 (fun ev he => hr ev (by simp [he]))
      rcases C55_always (by rw [hc]; exact hp) h1 (hr ev (by simp)) with hx | ⟨h3, h4⟩
      · exact hx
      · rw [h4, hm, h3]
  exact key rfl rfl h hr

/-- **C55**, no: the server never syncs. -/
theorem C55_no {n n' : Node} {ev : Ev} (hp : n.conf.policy = .no) (h : step n ev = some n') : n'.synced ≤ n.synced := by
  cases step_is h with
  | quiet hq => exact Nat.le_refl _
  | @sleep t _ =>
    rcases flush_sync t n with ⟨_, hx⟩ | ⟨_, ⟨_, _, hx⟩ | ⟨hx, _⟩⟩
    · rw [hx]; exact Nat.le_refl _
    · exact absurd hp hx
    · exact Nat.le_of_eq hx
  | @cron _ _ _ n1 _ hc =>
    show n1.synced ≤ _
    obtain ⟨_, _, _, _, _, ⟨_, c2, _, _, c5, _⟩ | ⟨_, _, _, ⟨_, c⟩ | ⟨c, _⟩⟩⟩ := cron_files hc
    · exact Nat.le_of_eq c5
    · exact absurd hp c
    · rw [c]; exact Nat.zero_le _
  | request _ hc => exact Nat.le_of_eq (request_files hc).2.2.2.1
  | work hw => exact Nat.le_of_eq (work_files hw).2.2.2.1
  | restart hr => rw [(restart_files hr).2.2.2.2.2.1]; exact Nat.zero_le _
  | crash _ _ hr => rw [(restart_files hr).2.2.2.2.2.1]; exact Nat.zero_le _

/-- At some point of the history (the beginning included) the whole file was synced. -/
def SyncedOnce : Node → List Ev → Prop
  | n, [] => n.synced = n.file.length
  | n, ev :: evs => n.synced = n.file.length ∨ ∃ n', step n ev = some n' ∧ SyncedOnce n' evs

/-- The full claim of C55, policy everysec: after a flush at time `t`, when the loop sleeps at a time more than a second later, the file has been synced
in between. -/
def C55 : Prop := ∀ (n n1 n2 n3 : Node) (t t' : Int) (evs : List Ev), Reached n → n.conf.policy = .everysec → (∀ l, n.lastSync = some l → l ≤ t) →
  step n (.sleep t) = some n1 → run n1 evs = some n2 → (∀ ev ∈ evs, ev.isRestart = false) → step n2 (.sleep t') = some n3 → t' - t > 1000000000 →
  SyncedOnce n1 (evs ++ [.sleep t'])

theorem synced_or {t : Int} : ∀ {evs : List Ev} {n n2 n3 : Node} {t' : Int}, n.conf.policy = .everysec → (n.synced = n.file.length ∨ ∀ l, n.lastSync = some l → l ≤ t) →
    run n evs = some n2 → (∀ ev ∈ evs, ev.isRestart = false) → step n2 (.sleep t') = some n3 → n2.sys.srv.aofBuf ≠ [] → t' - t > 1000000000 →
    SyncedOnce n (evs ++ [.sleep t'])
  | [], n, n2, n3, t', hp, ho, h, _, hs, hne, ht => by
    cases h
    rcases ho with ho | ho
    · exact Or.inl ho
    · refine Or.inr ⟨n3, hs, ?_⟩
      show n3.synced = n3.file.length
      cases step_is hs with
      | quiet hq => cases hq
      | sleep _ =>
        rcases flush_sync t' n with ⟨hx, _⟩ | ⟨_, ⟨hx, _⟩ | ⟨_, _, hx | ⟨_, l, hl, hx⟩⟩⟩
        · exact absurd hx hne
        · exact hx
        · rw [hp] at hx; cases hx
        · have := ho l hl; omega
  | ev :: evs, n, n2, n3, t', hp, ho, h, hr, hs, hne, ht => by
    simp only [run, Option.bind_eq_bind, Option.bind_eq_some_iff] at h
    obtain ⟨n1, h1, h2⟩ := h
    by_cases hsync : n.synced = n.file.length
    · exact Or.inl hsync
    · have ho : ∀ l, n.lastSync = some l → l ≤ t := by
        rcases ho with ho | ho
        · exact absurd ho hsync
        · exact ho
      refine Or.inr ⟨n1, h1, synced_or (t := t) (by rw [conf_step h1]; exact hp) ?_ h2 (fun ev he => hr ev (by simp [he])) hs hne ht⟩
      have hnr := hr ev (by simp)
      cases step_is h1 with
      | quiet hq => exact Or.inr ho
      | @sleep s _ =>
        rcases flush_sync s n with ⟨_, hx⟩ | ⟨_, ⟨hx, _⟩ | ⟨_, hx, _⟩⟩
        · rw [hx]; exact Or.inr ho
        · exact Or.inl hx
        · right; show ∀ l, (flush s n).lastSync = some l → _; rw [hx]; exact ho
      | @cron _ _ _ n4 _ hc =>
        obtain ⟨_, _, _, _, _, ⟨_, c2, _, _, _, c6⟩ | ⟨_, _, _, ⟨c, _⟩ | ⟨_, c, _⟩⟩⟩ := cron_files hc
        · right; show ∀ l, n4.lastSync = some l → _; rw [c6]; exact ho
        · exact Or.inl c
        · right; show ∀ l, n4.lastSync = some l → _; rw [c]; exact ho
      | request _ hc => rw [(request_files hc).2.2.2.2.1]; exact Or.inr ho
      | work hw => rw [(work_files hw).2.2.2.2.1]; exact Or.inr ho
      | restart => cases hnr
      | crash => cases hnr

/-- **C55**, everysec (partial): between two flushes that write something and are more than a second apart, the whole file is synced at some point
after the first. Missing: without a later flush that writes something, the rest is never synced (refuted below). -/
theorem C55_partial {n n1 n2 n3 : Node} {t t' : Int} {evs : List Ev} (hp : n.conf.policy = .everysec) (hl : ∀ l, n.lastSync = some l → l ≤ t)
    (h1 : step n (.sleep t) = some n1) (h2 : run n1 evs = some n2) (hr : ∀ ev ∈ evs, ev.isRestart = false) (h3 : step n2 (.sleep t') = some n3)
    (ht : t' - t > 1000000000) (hne : n2.sys.srv.aofBuf ≠ []) : SyncedOnce n1 (evs ++ [.sleep t']) := by
  refine synced_or (t := t) (by rw [conf_step h1]; exact hp) ?_ h2 hr h3 hne ht
  cases step_is h1 with
  | quiet hq => cases hq
  | sleep _ =>
    rcases flush_sync t n with ⟨_, hx⟩ | ⟨_, ⟨hx, _⟩ | ⟨_, hx, _⟩⟩
    · rw [hx]; exact Or.inr hl
    · exact Or.inl hx
    · right; show ∀ l, (flush t n).lastSync = some l → _; rw [hx]; exact hl

/-! ### Concrete histories -/

/-- One turn of the loop without the timer. -/
def turn (t : Int) (evs : List Ev) : List Ev := [.sleep t, .noCron] ++ evs ++ [.turn]

/-- A request with the environment of the examples. -/
def ask (args : List Bytes) : Ev := .request 3 (demo 0) args

def conf0 (p : Policy) : Conf := { percent := 100, minSize := 0, policy := p }

/-- A write, and a rewrite that has started and done its work. -/
def rewriting : List Ev := turn 0 [.accept 3, ask [b!"set", b!"a", b!"1"], ask [b!"bgrewriteaof"]] ++ turn 1 [ask [b!"set", b!"b", b!"2"]] ++
  [.work 0 (demo 0) .whole, .work 0 (demo 0) .whole, .work 0 (demo 0) .whole]

/-- For C52: a rewrite is running, and it collects. -/
example : (run (boot 1 [] true (conf0 .no)) rewriting).map (fun n => (rewrites n, n.sys.srv.aofRewriteBuf == [], n.done.length)) = some (1, false, 1) := by decide

/-- It is finished by the timer, and the process is restarted. -/
def rewritten : List Ev := rewriting ++ [.sleep 2, .cron (demo 0) 2, .turn, .restart (fun _ => demo 0), .sleep 3]

set_option maxRecDepth 8000 in
theorem rewritten_result : (run (boot 1 [] true (conf0 .no)) rewritten).bind (fun n => (lastSize false (boot 1 [] true (conf0 .no)) 0 rewritten).bind (fun g =>
    (step n (.cron (demo 0) 3)).map (fun n' => (rewrites n, n'.jobs.length, n.file.length, g)))) = some (0, 1, 77, 77) := by decide

theorem C53_refuted : ¬ C53 := by
  intro hC
  have key := rewritten_result
  simp only [Option.bind_eq_some_iff, Option.map_eq_some_iff] at key
  obtain ⟨n, h1, g, h2, n', h3, h4⟩ := key
  simp only [Prod.mk.injEq] at h4
  obtain ⟨a, b, c, d⟩ := h4
  have := (hC 1 [] (conf0 .no) rewritten n n' g (demo 0) 3 h1 h2 h3).1 ⟨a, fun hx => by rw [hx] at b; cases b⟩
  obtain ⟨_, _, _, h⟩ := this
  rw [c, d] at h
  exact absurd h (by decide)

/-- For C53: the timer starts the first rewrite, and does not start another when the file has not doubled. -/
example : (run (boot 1 [] true (conf0 .no)) (turn 0 [.accept 3, ask [b!"set", b!"a", b!"1"]] ++ [.sleep 1, .cron (demo 0) 1])).map (fun n => n.jobs.length) = some 1 := by
  decide
set_option maxRecDepth 8000 in
example : (run (boot 1 [] true (conf0 .no)) (rewriting ++ [.sleep 2, .cron (demo 0) 2, .turn, .sleep 3, .cron (demo 0) 3])).map
    (fun n => (n.jobs.length, n.file.length, n.base)) = some (0, 77, 77) := by decide

/-- The reply to the first request is still pending when the second arrives. -/
def pipelined : List Ev := turn 0 [.accept 3, ask [b!"get", b!"a"]] ++ [.sleep 1, .noCron]

theorem pipelined_result : (run (boot 1 [] true (conf0 .always)) pipelined).bind (fun n => (step n (ask [b!"set", b!"a", b!"1"])).bind (fun n1 =>
    (run n1 [.writable 3 [.bytes 100, .bytes 100]]).map (fun n2 => (n.sys.srv.aofEnable, n1.sys.srv.aofBuf == n.sys.srv.aofBuf, n2.file, n2.net.wire 3,
      n.net.wire 3, unsent n 3)))) = some (true, false, [], b!"$-1\r\n+OK\r\n", [], b!"$-1\r\n") := by decide

theorem C54_refuted : ¬ C54 := by
  intro hC
  have key := pipelined_result
  simp only [Option.bind_eq_some_iff, Option.map_eq_some_iff] at key
  obtain ⟨n, h1, n1, h2, n2, h3, h4⟩ := key
  simp only [Prod.mk.injEq] at h4
  obtain ⟨a, b, _, c, d, f⟩ := h4
  have := hC n n1 n2 3 (demo 0) [b!"set", b!"a", b!"1"] [.writable 3 [.bytes 100, .bytes 100]] ⟨1, [], true, conf0 .always, pipelined, h1⟩ a h2
    (fun hx => by rw [hx] at b; simp at b) h3 (by intro ev hev; simp at hev; subst hev; exact ⟨by simp, rfl, by simp⟩)
  rw [c, d, f] at this
  exact absurd this (by decide)

/-- For C54: a logged request on a connection without pending output; its reply waits for the flush. -/
example : (run (boot 1 [] true (conf0 .always)) (turn 0 [.accept 3] ++ [.sleep 1, .noCron, ask [b!"set", b!"a", b!"1"], .turn])).bind (fun n =>
    (run n [.sleep 2, .noCron, .writable 3 [.bytes 100]]).map (fun n' => (n.net.wire 3, n.file, n'.net.wire 3, n'.file.length, n'.synced))) =
    some ([], [], b!"+OK\r\n", 27, 27) := by decide

/-- Two flushes within a second, then silence. -/
def idleAfter : List Ev := turn 0 [.accept 3, ask [b!"set", b!"a", b!"1"]] ++ turn 1 [ask [b!"set", b!"b", b!"2"]]

theorem idleAfter_result : (run (boot 1 [] true (conf0 .everysec)) idleAfter).bind (fun n => (step n (.sleep 2)).bind (fun n1 =>
    (run n1 [.noCron, .turn]).bind (fun n2 => (step n2 (.sleep 5000000000)).map (fun n3 =>
      (n.conf.policy, n.lastSync, (n1.synced, n1.file.length, n2.synced, n2.file.length, n3.synced, n3.file.length)))))) =
    some (.everysec, some 1, (27, 54, 27, 54, 27, 54)) := by decide

theorem C55_refuted : ¬ C55 := by
  intro hC
  have key := idleAfter_result
  simp only [Option.bind_eq_some_iff, Option.map_eq_some_iff] at key
  obtain ⟨n, h1, n1, h2, n2, h3, n3, h4, h5⟩ := key
  simp only [Prod.mk.injEq] at h5
  obtain ⟨a, b, c1, c2, d1, d2, f1, f2⟩ := h5
  have := hC n n1 n2 n3 2 5000000000 [.noCron, .turn] ⟨1, [], true, conf0 .everysec, idleAfter, h1⟩ a (by rw [b]; intro l hl; cases hl; decide) h2 h3
    (by intro ev hev; simp at hev; rcases hev with rfl | rfl <;> rfl) h4 (by decide)
  simp only [run, Option.bind_eq_bind, Option.bind_eq_some_iff] at h3
  obtain ⟨m1, g1, m2, g2, g3⟩ := h3
  cases g3
  simp only [List.cons_append, List.nil_append, SyncedOnce] at this
  have s1 : m1.synced = n1.synced ∧ m1.file = n1.file := by
    cases step_is g1 with
    | quiet _ => exact ⟨rfl, rfl⟩
  rcases this with hx | ⟨x1, y1, hx | ⟨x2, y2, hx | ⟨x3, y3, hx⟩⟩⟩
  · rw [c1, c2] at hx; cases hx
  · rw [g1] at y1; cases y1
    rw [s1.1, s1.2, c1, c2] at hx; cases hx
  · rw [g1] at y1; cases y1
    rw [g2] at y2; cases y2
    rw [d1, d2] at hx; cases hx
  · rw [g1] at y1; cases y1
    rw [g2] at y2; cases y2
    rw [h4] at y3; cases y3
    rw [f1, f2] at hx; cases hx

/-- For C55: with traffic, the file is synced again after a second. -/
example : (run (boot 1 [] true (conf0 .everysec)) (idleAfter ++ turn 2 [ask [b!"set", b!"c", b!"3"]] ++ [.sleep 1000000002])).map
    (fun n => (n.synced, n.file.length)) = some (81, 81) := by decide

end Metis.Props.NodeP
