import Verif.Proofs.Noted
/-! Helper lemmas: the process that does not rewrite its log follows the exact reference that keeps a log. -/
set_option linter.unusedSectionVars false
set_option linter.unusedSimpArgs false
set_option linter.unusedVariables false
namespace Metis.ScribeSim
open Metis Metis.Spec Metis.Node Metis.ExactSim
open _root_.Metis.RefSim (store)
open _root_.Metis.KeepSim (said said_other)
open _root_.Metis.HostSim (say_all)
open _root_.Metis.Net (NOk free_ok accept_ok addReply_ok writable_ok)
open _root_.Metis.Loading (Fine LOk load_run load_fails)
variable {hash : Bytes → Nat} {lower : Bytes → Bytes} {pf : Bytes → Option F64} {N : Nat} {pw : Bytes}

/-! ### Records -/

/-- The world has this hash function, these lower case letters, these numbers; levels are as Go draws them. -/
structure World (hash : Bytes → Nat) (lower : Bytes → Bytes) (pf : Bytes → Option F64) (e : Env) : Prop where
  hash  : e.hash = hash
  lower : e.lower = lower
  num   : e.parseFloat = pf
  level : ∀ j, 1 ≤ e.level j ∧ e.level j ≤ 32

/-- A record that the loader can carry out, and no BGREWRITEAOF. -/
def Rec (hash : Bytes → Nat) (lower : Bytes → Bytes) (pf : Bytes → Option F64) (r : List Bytes) : Prop :=
  ∀ e, World hash lower pf e → Exact.Loadable e r ∧ commandOf e r ≠ some .bgrewriteaof

theorem scores_same {e e' : Env} (h : e'.parseFloat = e.parseFloat) : ∀ l, Ref.scores e' l = Ref.scores e l
  | [] => rfl
  | [_] => rfl
  | a :: m :: rest => by simp only [Ref.scores, h, scores_same h rest]

theorem usual_same {e e' : Env} (h : e'.parseFloat = e.parseFloat) (hl : ∀ j, 1 ≤ e'.level j ∧ e'.level j ≤ 32) {c : Cmd} {w : List Bytes} (hu : Exact.Usual e c w) :
    Exact.Usual e' c w := by
  unfold Exact.Usual at hu ⊢
  split
  · exact ⟨hl, by rw [scores_same h]; exact hu.2⟩
  · rw [h]; exact hu
  · rw [h]; exact hu
  · rw [h]; exact hu
  · exact hu
  · trivial

theorem named_of (hlow : LowerOk lower) {e : Env} (h : e.lower = lower) {name : Bytes} {cmd : Cmd} {rest : List Bytes} (hn : ∃ c ∈ commandTable, c.name = name)
    (hc : named name = some cmd) : commandOf e (name :: rest) = some cmd := by
  obtain ⟨c, h1, rfl⟩ := hn
  unfold commandOf
  simp only [List.getElem?_cons_zero, Option.bind_some, h, hlow c h1, hc]

theorem rec_of (hlow : LowerOk lower) {name : Bytes} {cmd : Cmd} {rest : List Bytes} (hn : ∃ c ∈ commandTable, c.name = name) (hc : named name = some cmd)
    (ha : accepts cmd (rest.length + 1)) (hu : ∀ e, Exact.Usual e cmd rest) (hb : cmd ≠ .bgrewriteaof) : Rec hash lower pf (name :: rest) := by
  intro e w
  have hcm := named_of hlow w.lower (rest := rest) hn hc
  refine ⟨⟨by simp, fun c h => ?_⟩, ?_⟩
  · rw [hcm] at h; cases h; exact ⟨ha, hu e⟩
  · rw [hcm]; intro h; cases h; exact hb rfl

theorem rec_select (hlow : LowerOk lower) (i : Nat) : Rec hash lower pf (selectRec i) :=
  rec_of hlow (cmd := .select) (by decide) (by decide) (by simp [accepts]) (fun _ => trivial) (by decide)
theorem rec_deadline (hlow : LowerOk lower) (now : Int) (k : Bytes) (n : Int) : Rec hash lower pf (deadlineRec now k n) :=
  rec_of hlow (cmd := .expireat) (by decide) (by decide) (by simp [accepts]) (fun _ => trivial) (by decide)
theorem rec_set (hlow : LowerOk lower) (k v : Bytes) : Rec hash lower pf [b!"set", k, v] :=
  rec_of hlow (cmd := .set) (by decide) (by decide) (by simp [accepts]) (fun _ => trivial) (by decide)

theorem rec_args {e : Env} (w : World hash lower pf e) {args : List Bytes} {cmd : Cmd} (hcmd : commandOf e args = some cmd) (ha : accepts cmd args.length)
    (hu : Exact.Usual e cmd (args.drop 1)) (hb : cmd ≠ .bgrewriteaof) : Rec hash lower pf args := by
  intro e' w'
  have hc : commandOf e' args = some cmd := by rw [← hcmd]; unfold commandOf; rw [w.lower, w'.lower]
  refine ⟨⟨?_, fun c h => ?_⟩, ?_⟩
  · rintro rfl; cases hcmd
  · rw [hc] at h; cases h; exact ⟨ha, usual_same (w'.num.trans w.num.symm) w'.level hu⟩
  · rw [hc]; intro h; cases h; exact hb rfl

theorem rec_entries (hlow : LowerOk lower) {e : Env} (w : World hash lower pf e) {args : List Bytes} {cmd : Cmd} {rs} (hcmd : commandOf e args = some cmd)
    (ha : accepts cmd args.length) (hu : Exact.Usual e cmd (args.drop 1)) (hb : cmd ≠ .bgrewriteaof) (h : entries e.now cmd args = some rs) :
    ∀ r ∈ rs, Rec hash lower pf r := by
  unfold entries at h
  split at h
  · obtain ⟨n, _, rfl⟩ := Option.map_eq_some_iff.1 h
    simp only [List.mem_singleton, forall_eq]
    exact rec_deadline hlow _ _ _
  · obtain ⟨n, _, rfl⟩ := Option.map_eq_some_iff.1 h
    simp only [List.mem_cons, List.not_mem_nil, or_false, forall_eq_or_imp, forall_eq]
    exact ⟨rec_set hlow _ _, rec_deadline hlow _ _ _⟩
  · cases h
    simp only [List.mem_singleton, forall_eq]
    exact rec_args w hcmd ha hu hb

/-! ### Requests -/

/-- What a request writes into the log. -/
theorem scribe_log (hlow : LowerOk lower) {s s' : Sys} {fd : Nat} {e : Env} {args : List Bytes} {r : List Bytes} {B : Exact.Scribe} {v : Value} (g : SysGood hash s)
    (w : World hash lower pf e) (haof : s.srv.aofEnable = true) (hR : ShowsSys s B.state) (hcov : Exact.Covered (.request fd e args))
    (hbg : commandOf e args ≠ some .bgrewriteaof) (hbuf : s.srv.aofBuf = log B.buf) (hsel : s.srv.aofSelect = B.sel)
    (h : Sys.step s (.request fd e args) = some (s', r)) (hv : Says r v) :
    ∃ buf sel, B.Writes s.srv.password fd e args v buf sel ∧ s'.srv.aofBuf = log buf ∧ s'.srv.aofSelect = sel ∧
      (∀ x ∈ buf, x ∈ B.buf ∨ Rec hash lower pf x) ∧ s'.srv.aofEnable = true ∧ s'.srv.task = s.srv.task ∧ s'.srv.snapshot = s.srv.snapshot := by
  simp only [Sys.step, Option.bind_eq_bind, Option.bind_eq_some_iff] at h
  obtain ⟨c, hc, ⟨srv', c', r'⟩, h1, h2⟩ := h
  cases h2
  have hcl : B.state.client fd = some ⟨c.db, c.auth⟩ := by rw [hR.client, hc]; rfl
  have quiet : (∀ c cmd, Exact.Carried s.srv.password B fd e args c cmd → ¬ Exact.Noted e cmd (args.drop 1) (B.state.dbs c.db) v) →
      ∃ buf sel, B.Writes s.srv.password fd e args v buf sel ∧ s.srv.aofBuf = log buf ∧ s.srv.aofSelect = sel ∧
      (∀ x ∈ buf, x ∈ B.buf ∨ Rec hash lower pf x) :=
    fun h => ⟨B.buf, B.sel, Or.inr ⟨h, rfl, rfl⟩, hbuf, hsel, fun x hx => Or.inl hx⟩
  have silent : ∀ {cmd : Cmd}, commandOf e args = some cmd → writes cmd = false → ∀ c cmd, Exact.Carried s.srv.password B fd e args c cmd →
      ¬ Exact.Noted e cmd (args.drop 1) (B.state.dbs c.db) v := by
    intro cmd hcm hw c' cmd' hca hno
    have := hca.2.1
    rw [hcm] at this; cases this
    have := hno.1
    rw [hw] at this; cases this
  cases served w.hash g.srv h1 with
  | unknown r a0 ha hl =>
    obtain ⟨buf, sel, q1, q2, q3, q4⟩ := quiet (fun c cmd hca => by
      obtain ⟨a0', entry, p1, p2, _⟩ := named_lookup hca.2.1
      rw [ha] at p1; cases p1; rw [hl] at p2; cases p2)
    exact ⟨buf, sel, q1, q2, q3, q4, haof, rfl, rfl⟩
  | rejected r a0 ha cmd hl hrej =>
    obtain ⟨buf, sel, q1, q2, q3, q4⟩ := quiet (fun c2 cmd2 hca => by
      obtain ⟨a0', entry, p1, p2, p3, p4, _⟩ := named_lookup hca.2.1
      rw [ha] at p1; cases p1; rw [hl] at p2; cases p2
      exfalso
      rcases hrej with hh | ⟨h1, h2, _⟩
      · rw [p4, (Props.KeysP.accepts_iff cmd2 _).2 hca.2.2.1] at hh; cases hh
      · have hcc := hca.1
        rw [hcl] at hcc; cases hcc
        rcases hca.2.2.2 with h | h
        · exact h1 h
        · rw [h2] at h; cases h)
    exact ⟨buf, sel, q1, q2, q3, q4, haof, rfl, rfl⟩
  | select a0 ha cmd hl hcs s1 r1 hh =>
    have hcmd := commandOf_of ha hl
    rw [hcs] at hcmd
    obtain ⟨buf, sel, q1, q2, q3, q4⟩ := quiet (silent hcmd rfl)
    exact ⟨buf, sel, q1, q2, q3, q4, haof, rfl, rfl⟩
  | auth a0 ha cmd hl hcs s1 r1 hh =>
    have hcmd := commandOf_of ha hl
    rw [hcs] at hcmd
    obtain ⟨buf, sel, q1, q2, q3, q4⟩ := quiet (silent hcmd rfl)
    exact ⟨buf, sel, q1, q2, q3, q4, haof, rfl, rfl⟩
  | rewrite a0 ha cmd hl hcm srv2 r1 hh =>
    have hcmd := commandOf_of ha hl
    rw [hcm] at hcmd
    exact absurd hcmd hbg
  | db a0 ha cmd hl hok hauth f hf d0 hd o ho a hst hrel _ hfeed =>
    have hcmd := commandOf_of ha hl
    have hacc := (Props.KeysP.accepts_iff cmd.proc _).1 hok
    have hno := noted_iff hst hok (hR.db c.db d0 hd) hrel.reply hv
    have hca : Exact.Carried s.srv.password B fd e args ⟨c.db, c.auth⟩ cmd.proc := ⟨hcl, hcmd, hacc, hauth⟩
    by_cases hz : a.dirty = 0
    · rw [if_neg (by rintro ⟨_, h⟩; exact h hz)] at hfeed
      cases hfeed
      obtain ⟨buf, sel, q1, q2, q3, q4⟩ := quiet (fun c2 cmd2 hca2 => by
        have e1 := hca2.1
        rw [hcl] at e1; cases e1
        have e2 := hca2.2.1
        rw [hcmd] at e2; cases e2
        exact fun h => (hno.2 h) hz)
      exact ⟨buf, sel, q1, q2, q3, q4, haof, rfl, rfl⟩
    · rw [if_pos ⟨haof, hz⟩] at hfeed
      have hfr : srv'.aofEnable = s.srv.aofEnable ∧ srv'.task = s.srv.task ∧ srv'.snapshot = s.srv.snapshot := by
        unfold Aof.feed at hfeed
        simp only [Option.bind_eq_bind, Option.bind_eq_some_iff] at hfeed
        obtain ⟨_, _, hfeed⟩ := hfeed
        cases hfeed; exact ⟨rfl, rfl, rfl⟩
      obtain ⟨rs, q1, q2, _, q3, q4⟩ := feed_log hl hok hfeed
      refine ⟨_, _, Or.inl ⟨⟨c.db, c.auth⟩, cmd.proc, rs, hca, hno.1 hz, q1, rfl, rfl⟩, ?_, q3, fun x hx => ?_, hfr.1.trans haof, hfr.2.1, hfr.2.2⟩
      · show srv'.aofBuf = _
        simp only [hbuf, hsel] at q2
        rw [q2]; simp only [log_append]
      · rcases List.mem_append.1 hx with hx | hx
        · exact Or.inl hx
        right
        rcases List.mem_append.1 hx with hx | hx
        · split at hx
          · simp only [List.mem_singleton] at hx; subst hx; exact rec_select hlow _
          · cases hx
        · exact rec_entries hlow w hcmd hacc (hcov _ hcmd) (fun h => hbg (by rw [hcmd, h])) q1 x hx

/-! ### Loading -/

theorem exec_frame {e : Env} {args : List Bytes} {srv srv' : Server} {s s' : Session} (hb : commandOf e args ≠ some .bgrewriteaof)
    (h : Aof.exec e args srv s = some (srv', s')) : srv'.aofSelect = srv.aofSelect ∧ srv'.task = srv.task ∧ srv'.snapshot = srv.snapshot := by
  unfold Aof.exec at h
  cases ha : args[0]? with
  | none => rw [ha] at h; cases h
  | some a0 =>
    simp only [ha, Option.bind_eq_bind, Option.bind_some] at h
    cases hl : lookupCommand (e.lower a0) with
    | none => rw [hl] at h; cases h; exact ⟨rfl, rfl, rfl⟩
    | some c =>
      simp only [hl, Option.bind_eq_some_iff] at h
      obtain ⟨⟨srv1, s1, r⟩, hp, h⟩ := h
      cases h
      have hcm := commandOf_of ha hl
      have h1 : ∀ f, Server.onDb f e args srv s = some (srv1, s1, r) → srv1.aofSelect = srv.aofSelect ∧ srv1.task = srv.task ∧ srv1.snapshot = srv.snapshot := by
        intro f hf
        unfold Server.onDb at hf
        simp only [Option.bind_eq_bind, Option.bind_eq_some_iff] at hf
        obtain ⟨_, _, _, _, hf⟩ := hf
        cases hf; exact ⟨rfl, rfl, rfl⟩
      cases hcp : c.proc <;> rw [hcp] at hp
      case select => rw [select_same hp]; exact ⟨rfl, rfl, rfl⟩
      case auth =>
        simp only [Server.proc, Server.auth, Option.bind_eq_bind] at hp
        split at hp
        · cases hp; exact ⟨rfl, rfl, rfl⟩
        · simp only [Option.bind_eq_some_iff] at hp
          obtain ⟨a, _, hp⟩ := hp
          split at hp <;> (cases hp; exact ⟨rfl, rfl, rfl⟩)
      case bgrewriteaof => rw [hcp] at hcm; exact absurd hcm hb
      all_goals exact h1 _ hp

theorem replay_frame : ∀ (recs : List (List Bytes)) {es : Nat → Env} {srv srv' : Server} {s s' : Session},
    (∀ i r, recs[i]? = some r → commandOf (es i) r ≠ some .bgrewriteaof) → Aof.replay es recs srv s = some (srv', s') →
    srv'.aofSelect = srv.aofSelect ∧ srv'.task = srv.task ∧ srv'.snapshot = srv.snapshot
  | [], _, _, _, _, _, _, h => by cases h; exact ⟨rfl, rfl, rfl⟩
  | r :: recs, es, srv, srv', s, s', hb, h => by
    simp only [Aof.replay, Option.bind_eq_bind, Option.bind_eq_some_iff] at h
    obtain ⟨⟨srv1, s1⟩, h1, h2⟩ := h
    obtain ⟨a1, a2, a3⟩ := exec_frame (hb 0 r rfl) h1
    obtain ⟨b1, b2, b3⟩ := replay_frame recs (fun i x hx => hb (i + 1) x (by simpa using hx)) h2
    exact ⟨b1.trans a1, b2.trans a2, b3.trans a3⟩

/-! ### The process -/

/-- The file belongs to the records; no rewrite is under way, and none will begin by itself. -/
structure SOk (hash : Bytes → Nat) (lower : Bytes → Bytes) (pf : Bytes → Option F64) (N : Nat) (pw : Bytes) (n : Node) (B : Exact.Scribe) : Prop where
  good  : SysGood hash n.sys
  len   : n.sys.srv.dbs.length = N
  pass  : n.sys.srv.password = pw
  aof   : n.sys.srv.aofEnable = true
  net   : NOk n.net
  state : ShowsSys n.sys B.state
  peer  : ∀ fd, (n.sys.sess fd).isSome = (n.net.clients fd).isSome
  out   : ∀ fd, said n.net fd = B.out fd
  off   : n.conf.percent = 0
  task  : n.sys.srv.task = .none ∧ n.sys.srv.snapshot = none ∧ n.jobs = [] ∧ n.done = []
  file  : n.file = log B.file
  buf   : n.sys.srv.aofBuf = log B.buf
  sel   : n.sys.srv.aofSelect = B.sel
  recs  : ∀ r ∈ B.file ++ B.buf, Rec hash lower pf r

/-- The world of the event; no BGREWRITEAOF; nothing left out of the exact reference; a file that is loaded can be read. -/
def Sober (hash : Bytes → Nat) (lower : Bytes → Bytes) (pf : Bytes → Option F64) (n : Node) : Ev → Prop
  | .request fd e args => World hash lower pf e ∧ Floats e ∧ Exact.Covered (.request fd e args) ∧ commandOf e args ≠ some .bgrewriteaof
  | .cron e _ => e.hash = hash
  | .restart es => (∀ i, World hash lower pf (es i)) ∧ Readable n.file
  | _ => True

theorem SOk.boot {conf : Conf} (hp : conf.percent = 0) : SOk hash lower pf N pw (boot N pw true conf) .start where
  good := init_good N pw true
  len := by simp [Node.boot, Node.start, Server.init]
  pass := rfl
  aof := rfl
  net := Props.NetP.inv_new.1
  state := Props.ExactP.rel_init (n := N) (pw := pw) (aof := true)
  peer := fun fd => rfl
  out := fun fd => rfl
  off := hp
  task := ⟨rfl, rfl, rfl, rfl⟩
  file := rfl
  buf := rfl
  sel := rfl
  recs := fun r hr => by cases hr

/-- The records of the file, for the loader. -/
theorem SOk.loads {n : Node} {B : Exact.Scribe} (h : SOk hash lower pf N pw n B) {es : Nat → Env} (hw : ∀ i, World hash lower pf (es i)) (hr : Readable n.file) :
    Records B.file ∧ Whole B.file ∧ Fine es B.file ∧ ∀ i r, B.file[i]? = some r → commandOf (es i) r ≠ some .bgrewriteaof := by
  have hm : ∀ r ∈ B.file, ∀ i, Exact.Loadable (es i) r ∧ commandOf (es i) r ≠ some .bgrewriteaof := fun r hr i => h.recs r (List.mem_append_left _ hr) _ (hw i)
  have h1 : Records B.file := records_of_log (fun r hr => (hm r hr 0).1.1) (by rw [← h.file]; exact hr.1)
  exact ⟨h1, hr.2 _ h1 h.file, fun i r hx => (hm r (List.mem_of_getElem? hx) i).1, fun i r hx => (hm r (List.mem_of_getElem? hx) i).2⟩

theorem scribe_restart (hN : N ≠ 0) {n n' : Node} {B : Exact.Scribe} {es : Nat → Env} (h : SOk hash lower pf N pw n B) (hw : ∀ i, World hash lower pf (es i))
    (hr : Readable n.file) (hs : restart es n = some n') : ∃ B', B.Lives N pw (.restart es) B' ∧ SOk hash lower pf N pw n' B' := by
  obtain ⟨r1, r2, r3, r4⟩ := h.loads hw hr
  obtain ⟨srv, f0, haof, hpw, h2, h3⟩ := restart_spec hs
  rw [if_pos h.aof, h.len, h.pass, h.aof, h.file, Props.AofLoadP.C45_partial _ r1 r2] at h3
  obtain ⟨⟨srv', s'⟩, h4, rfl⟩ := Option.map_eq_some_iff.1 h3
  obtain ⟨D, t, ok, l⟩ := load_run _ (LOk.init hN) (fun i => (hw i).hash) r3 h4
  have hlen : (Server.init N pw true).dbs.length = N := by simp [Server.init]
  rw [hlen] at t l
  obtain ⟨g, hR⟩ := ok.idle
  obtain ⟨e1, e2, e3⟩ := replay_frame _ r4 h4
  have hn' : n' = start n.conf n.file srv' := by
    rcases launch_spec h2 with ⟨_, rfl⟩ | ⟨cs, _, hcs, _⟩
    · rfl
    · simp only [Node.start] at hcs
      rw [e3] at hcs; cases hcs
  subst hn'
  exact ⟨_, ⟨D, _, t, rfl⟩, ⟨g, l, hpw.trans h.pass, haof.trans h.aof, Props.NetP.inv_new.1, hR, fun _ => rfl, fun _ => rfl,
    h.off, ⟨e2, e3, rfl, rfl⟩, h.file, f0.buf, e1, fun r hr => h.recs r (List.mem_append_left _ (by simpa using hr))⟩⟩

theorem scribe_step (hlow : LowerOk lower) (hN : N ≠ 0) {n n' : Node} {B : Exact.Scribe} {ev : Ev} (h : SOk hash lower pf N pw n B) (hc : Sober hash lower pf n ev)
    (hs : step n ev = some n') : ∃ B', B.Lives N pw ev B' ∧ SOk hash lower pf N pw n' B' := by
  have hl := h.len
  cases ev with
  | sleep t =>
    cases step_is hs with
    | quiet hq => cases hq
    | sleep hp =>
      obtain ⟨g1, g2, g3, _, g5, g6, _, g8, _⟩ := flush_same t n
      refine ⟨_, rfl, ?_⟩
      constructor
      · show SysGood hash (flush t n).sys
        rw [g8]; exact ⟨h.good.srv, h.good.sess⟩
      · show (flush t n).sys.srv.dbs.length = N
        rw [g8]; exact h.len
      · show (flush t n).sys.srv.password = pw
        rw [g8]; exact h.pass
      · show (flush t n).sys.srv.aofEnable = true
        rw [g8]; exact h.aof
      · show NOk (flush t n).net
        rw [g1]; exact h.net
      · show ShowsSys (flush t n).sys B.state
        rw [g8]; exact ⟨h.state.client, h.state.db⟩
      · intro fd
        show ((flush t n).sys.sess fd).isSome = ((flush t n).net.clients fd).isSome
        rw [g8, g1]; exact h.peer fd
      · intro fd
        show said (flush t n).net fd = B.out fd
        rw [g1]; exact h.out fd
      · show (flush t n).conf.percent = 0
        rw [g2]; exact h.off
      · show (flush t n).sys.srv.task = .none ∧ (flush t n).sys.srv.snapshot = none ∧ (flush t n).jobs = [] ∧ (flush t n).done = []
        rw [g8, g5, g6]; exact h.task
      · show (flush t n).file = log (B.file ++ B.buf)
        rw [g3, h.file, h.buf, log_append]
      · show (flush t n).sys.srv.aofBuf = log []
        rw [g8]; rfl
      · show (flush t n).sys.srv.aofSelect = B.sel
        rw [g8]; exact h.sel
      · intro r hr
        exact h.recs r (by simpa using hr)
  | cron e t =>
    cases step_is hs with
    | quiet hq => cases hq
    | @cron _ _ w n1 hp hh =>
      obtain ⟨dbs, n2, h1, h2, h3⟩ := cron_spec hh
      have hg : grown n.conf n.cur n.base = false := by unfold grown; simp [h.off]
      rw [if_neg (by rw [hg]; simp)] at h2
      subst h2
      have hn1 : n1 = { n with sys := { n.sys with srv := { n.sys.srv with dbs } }, jobs := followAll e n.sys.srv.dbs dbs n.jobs } := by
        rcases h3 with ⟨_, rfl⟩ | ⟨tmp, rest, hd, _⟩
        · rfl
        · simp only [h.task.2.2.2] at hd; cases hd
      subst hn1
      have hst : Sys.step n.sys (.cron e) = some (⟨{ n.sys.srv with dbs }, n.sys.sess⟩, []) := by
        simp only [Sys.step, h1, Option.bind_eq_bind, Option.bind_some]
      obtain ⟨R, v, m, tl, ok⟩ := xs_event h.good (ev := .cron e) hc h.state hst trivial
      obtain ⟨g, e1, e2, e3, _⟩ := step_db h.good (ev := .cron e) hc hst
      rw [hl, h.pass] at m
      have hv : v = none := m.2.2
      subst hv
      exact ⟨_, ⟨R, m, rfl⟩, ⟨g, e3.trans h.len, h.pass, h.aof, h.net, ok, h.peer, h.out, h.off,
        ⟨h.task.1, h.task.2.1, by simp [h.task.2.2.1, followAll], h.task.2.2.2⟩, h.file, h.buf, h.sel, h.recs⟩⟩
  | noCron =>
    simp only [step] at hs
    split at hs
    · cases hs; exact ⟨B, rfl, { h with }⟩
    · cases hs
  | turn =>
    simp only [step] at hs
    split at hs
    · cases hs; exact ⟨B, rfl, { h with }⟩
    · cases hs
  | work i e p =>
    obtain ⟨j, hj, _⟩ := work_spec hs
    rw [h.task.2.2.1] at hj
    simp at hj
  | accept fd =>
    simp only [step] at hs
    split at hs
    swap; · cases hs
    simp only [Option.bind_eq_bind, Option.bind_eq_some_iff] at hs
    obtain ⟨net, h1, ⟨sys, r⟩, h2, h3⟩ := hs
    cases h3
    have hn : n.net.clients fd = none := by
      simp only [Net.step] at h1
      split at h1
      · cases h1
      next hn => simpa using hn
    simp only [Net.step, hn] at h1
    cases h1
    obtain ⟨k1, k2, k3, k4⟩ := accept_ok h.net hn
    obtain ⟨g, _⟩ := step_db h.good (ev := .connect fd) trivial h2
    have hsys : sys = { n.sys with sess := fun x => if x = fd then some Session.new else n.sys.sess x } := by
      simp only [Sys.step] at h2
      split at h2
      · cases h2
      · cases h2; rfl
    subst hsys
    refine ⟨_, rfl, ⟨g, h.len, h.pass, h.aof, k1, ExactSim.rel_know h.state fd (some Session.new), fun x => ?_, fun x => ?_,
      h.off, h.task, h.file, h.buf, h.sel, h.recs⟩⟩
    · by_cases hx : x = fd
      · subst hx
        simp only [if_true]
        rw [k2]; rfl
      · simp only [if_neg hx]
        rw [(k4 x hx).1]; exact h.peer x
    · by_cases hx : x = fd
      · subst hx
        simp only [if_true]
        unfold said
        rw [k2, k3]; rfl
      · simp only [if_neg hx]
        exact (said_other (k4 x hx).1 (k4 x hx).2).trans (h.out x)
  | close fd =>
    simp only [step] at hs
    split at hs
    swap; · cases hs
    simp only [Option.bind_eq_bind, Option.bind_eq_some_iff] at hs
    obtain ⟨net, h1, ⟨sys, r⟩, h2, h3⟩ := hs
    cases h3
    simp only [Net.step] at h1
    split at h1
    swap; · cases h1
    cases h1
    obtain ⟨k1, k2, k3⟩ := free_ok h.net fd
    obtain ⟨g, _⟩ := step_db h.good (ev := .close fd) trivial h2
    cases h2
    refine ⟨_, rfl, ⟨g, h.len, h.pass, h.aof, k1, ExactSim.rel_know h.state fd none, fun x => ?_, fun x => ?_,
      h.off, h.task, h.file, h.buf, h.sel, h.recs⟩⟩
    · by_cases hx : x = fd
      · subst hx
        simp only [if_true]
        rw [k2]; rfl
      · simp only [if_neg hx]
        rw [(k3 x hx).1]; exact h.peer x
    · simp only [Exact.Scribe.drop]
      by_cases hx : x = fd
      · subst hx
        simp only [if_true]
        unfold said
        rw [k2]; rfl
      · simp only [if_neg hx]
        exact (said_other (k3 x hx).1 (k3 x hx).2).trans (h.out x)
  | writable fd rs =>
    simp only [step] at hs
    split at hs
    swap; · cases hs
    split at hs
    swap; · cases hs
    simp only [Option.bind_eq_bind, Option.bind_eq_some_iff] at hs
    obtain ⟨net, h1, h2⟩ := hs
    have h1' : Net.writable n.net fd rs = some net := h1
    obtain ⟨o, t, a1, a2, a3, a4, a5⟩ := writable_ok h.net h1'
    rcases a5 with ⟨o', c1, c2⟩ | ⟨c1, _⟩
    · rw [c1] at h2
      simp only [Option.isSome_some, if_true] at h2
      cases h2
      refine ⟨B, Or.inl rfl, { h with net := a2, state := ⟨h.state.client, h.state.db⟩, peer := fun x => ?_, out := fun x => ?_ }⟩
      · by_cases hx : x = fd
        · subst hx
          rw [c1]
          exact (h.peer x).trans (by rw [a1]; rfl)
        · rw [(a4 x hx).1]; exact h.peer x
      · by_cases hx : x = fd
        · subst hx
          rw [← h.out x]
          unfold said
          simp only [a1, c1, Option.map_some, a3, List.append_assoc, c2]
        · exact (said_other (a4 x hx).1 (a4 x hx).2).trans (h.out x)
    · rw [c1] at h2
      simp only [Option.isSome_none, Bool.false_eq_true, if_false] at h2
      cases h2
      refine ⟨B.drop fd, Or.inr ⟨?_, rfl⟩, ⟨⟨h.good.srv, fun x c hx => ?_⟩, h.len, h.pass, h.aof, a2, ExactSim.rel_know h.state fd none,
        fun x => ?_, fun x => ?_, h.off, h.task, h.file, h.buf, h.sel, h.recs⟩⟩
      · simp only [Net.writable, a1, Option.bind_eq_bind, Option.bind_some] at h1'
        split at h1'
        next o' b hsl =>
          exfalso
          split at h1' <;> cases h1' <;> simp at c1
        · cases h1'; simp at c1
        next b hsl => exact Props.WireP.sendLoop_fails _ _ _ _ _ hsl
        · cases h1'
      · simp only at hx
        split at hx
        · cases hx
        · exact h.good.sess x c hx
      · by_cases hx : x = fd
        · subst hx
          simp only [if_true]
          rw [c1]; rfl
        · simp only [if_neg hx]
          rw [(a4 x hx).1]; exact h.peer x
      · simp only [Exact.Scribe.drop]
        by_cases hx : x = fd
        · subst hx
          simp only [if_true]
          unfold said
          rw [c1]; rfl
        · simp only [if_neg hx]
          exact (said_other (a4 x hx).1 (a4 x hx).2).trans (h.out x)
  | request fd e args =>
    obtain ⟨hw, hfl, hcov, hbg⟩ := hc
    cases step_is hs with
    | quiet hq => cases hq
    | request hp hh =>
      unfold Node.request at hh
      simp only [Option.bind_eq_bind, Option.bind_eq_some_iff] at hh
      obtain ⟨⟨sys, r⟩, h1, net, h2, h3⟩ := hh
      obtain ⟨R, v, m, t, ok⟩ := xs_event h.good (ev := .request fd e args) hw.hash h.state h1 hcov
      obtain ⟨g, e1, e2, e3, _⟩ := step_db h.good (ev := .request fd e args) hw.hash h1
      rw [hl, h.pass] at m
      obtain ⟨hne, hse⟩ : (∀ x ∈ r, x ≠ []) ∧ ∀ x, (sys.sess x).isSome = (n.sys.sess x).isSome := by
        simp only [Sys.step, Option.bind_eq_bind, Option.bind_eq_some_iff] at h1
        obtain ⟨c, hcs, ⟨srv', c', r'⟩, h1, h1'⟩ := h1
        cases h1'
        refine ⟨(one_process hw.hash hfl h.good.srv h1).1, fun x => ?_⟩
        by_cases hx : x = fd
        · subst hx; simp only [if_true, hcs]; rfl
        · simp only [if_neg hx]
      obtain ⟨s1, s2, s3, s4⟩ := say_all r h.net hne h2
      have hv : ∃ v', v = some v' := by
        cases v with
        | none =>
          exfalso
          unfold Exact.Moves at m
          simp only at m
          split at m
          · exact m
          · obtain ⟨_, _, m⟩ := m; cases m
        | some v' => exact ⟨v', rfl⟩
      obtain ⟨v', rfl⟩ := hv
      have ht : r.flatten = v'.encode := t
      obtain ⟨buf, sel, w1, w2, w3, w4, w5, w6, w7⟩ := scribe_log hlow h.good hw h.aof h.state hcov hbg h.buf h.sel h1 ht
      rw [h.pass] at w1
      have hn' : n' = { n with sys, net, jobs := followAll e n.sys.srv.dbs sys.srv.dbs n.jobs } := by
        rcases launch_spec h3 with ⟨_, rfl⟩ | ⟨cs, _, hcs, _⟩
        · rfl
        · simp only [w7, h.task.2.1] at hcs; cases hcs
      subst hn'
      have hcl' : ∃ o, n.net.clients fd = some o := by
        have hs' : (n.sys.sess fd).isSome = true := by
          simp only [Sys.step, Option.bind_eq_bind, Option.bind_eq_some_iff] at h1
          obtain ⟨c, hcs, _⟩ := h1
          rw [hcs]; rfl
        rw [h.peer] at hs'
        exact Option.isSome_iff_exists.1 hs'
      obtain ⟨o, hcl⟩ := hcl'
      obtain ⟨o', s5, s6⟩ := s4 o hcl
      refine ⟨_, ⟨R, v', buf, sel, m, w1, rfl⟩, ⟨g, e3.trans h.len, e1.trans h.pass, w5, s1, ok, fun x => ?_, fun x => ?_,
        h.off, ⟨w6.trans h.task.1, w7.trans h.task.2.1, by simp [h.task.2.2.1, followAll], h.task.2.2.2⟩, h.file, w2, w3, fun x hx => ?_⟩⟩
      · simp only
        rw [hse, h.peer]
        by_cases hx : x = fd
        · subst hx; rw [hcl, s5]; rfl
        · rw [s3 x hx]
      · by_cases hx : x = fd
        · subst hx
          simp only [if_true]
          rw [← h.out x]
          unfold said
          simp only [s5, hcl, Option.map_some, s2, s6, ht, List.append_assoc]
        · simp only [if_neg hx]
          exact (said_other (s3 x hx) (by rw [s2])).trans (h.out x)
      · rcases List.mem_append.1 hx with hx | hx
        · exact h.recs x (List.mem_append_left _ hx)
        · rcases w4 x hx with hx | hx
          · exact h.recs x (List.mem_append_right _ hx)
          · exact hx
  | restart es =>
    cases step_is hs with
    | quiet hq => cases hq
    | restart hh => exact scribe_restart hN h hc.1 hc.2 hh
  | crashInDone m es =>
    cases step_is hs with
    | quiet hq => cases hq
    | crash hp hd hh => rw [h.task.2.2.2] at hd; cases hd

/-- A request is answered if the server survives the command itself. -/
theorem scribe_request {n : Node} {B : Exact.Scribe} (h : SOk hash lower pf N pw n B) {fd : Nat} {e : Env} {args : List Bytes} (hw : World hash lower pf e) (hfl : Floats e)
    (hlow : LowerOk lower) (hcov : Exact.Covered (.request fd e args)) (hbg : commandOf e args ≠ some .bgrewriteaof)
    {p : Sys × List Bytes} (h1 : Sys.step n.sys (.request fd e args) = some p) : ∃ n', Node.request fd e args n = some n' := by
  obtain ⟨sys, r⟩ := p
  obtain ⟨R, v, m, t, ok⟩ := xs_event h.good (ev := .request fd e args) hw.hash h.state h1 hcov
  have hsnap : sys.srv.snapshot = none := by
    cases v with
    | none =>
      exfalso
      unfold Exact.Moves at m
      simp only at m
      split at m
      · exact m
      · obtain ⟨_, _, m⟩ := m; cases m
    | some v' =>
      obtain ⟨_, _, _, _, _, _, _, _, w7⟩ := scribe_log hlow h.good hw h.aof h.state hcov hbg h.buf h.sel h1 t
      exact w7.trans h.task.2.1
  have h1' := h1
  simp only [Sys.step, Option.bind_eq_bind, Option.bind_eq_some_iff] at h1
  obtain ⟨c, hcs, ⟨srv', c', r'⟩, h2, h3⟩ := h1
  cases h3
  obtain ⟨net, hn⟩ := Props.WireP.say_total r' h.net (fd := fd) (by rw [← h.peer, hcs]; rfl) (one_process hw.hash hfl h.good.srv h2).1
  unfold Node.request
  simp only [h1', hn, Option.bind_eq_bind, Option.bind_some]
  unfold launch
  simp only
  simp only at hsnap
  rw [hsnap]
  exact ⟨_, rfl⟩

end Metis.ScribeSim
