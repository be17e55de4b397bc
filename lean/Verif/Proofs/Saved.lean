import Verif.Proofs.Durable
/-!
The invariant of a running process that ties its files to its data.
-/
set_option linter.unusedSectionVars false
set_option linter.unusedSimpArgs false
set_option linter.unusedVariables false
namespace Metis
open Spec

section
variable {hash : Bytes → Nat} {lower : Bytes → Bytes} {pf : Bytes → Option F64} {T : Int} {N : Nat}

/-- An outside world, to try a replay. -/
def someEnv (hash : Bytes → Nat) (lower : Bytes → Bytes) (pf : Bytes → Option F64) (T : Int) : Env :=
  ⟨hash, T, lower, fun _ => false, fun _ => [], fun _ => [], fun _ => [], pf, fun _ => [], fun _ => none, fun _ => [], [], fun _ => 1⟩

theorem someEnv_world : World hash lower pf T (someEnv hash lower pf T) := ⟨rfl, rfl, rfl, Int.le_refl _, fun _ => ⟨Nat.le_refl _, show 1 ≤ Skiplist.maxLevel by decide⟩⟩

theorem moves_live {recs : List (List Bytes)} {S : Nat → AS} {sel : Nat} (h : Moves hash lower pf T N recs noData 0 S sel) :
    ∀ i, i < N → ∀ k d, (S i).t k = some d → T ≤ fl d := by
  intro i hi k d hd
  obtain ⟨srv', s', _, _, hc⟩ := h (fun _ => someEnv hash lower pf T) (fun _ => someEnv_world) (Server.init N [] true) Session.new (copies_init [] true) rfl
  obtain ⟨x, _, _, hs⟩ := hc.get hi
  exact hs.live k d hd

theorem fl_fl (d : Int) : fl (fl d) = fl d := by unfold fl; omega

theorem Sim.join {s a b : AS} (ha : Sim T s a) (hb : Sim T s b) : Sim T a b := by
  refine ⟨fun k => ?_, fun k => ?_, fun k d hd => ?_⟩
  · have h1 := ha.v k
    have h2 := hb.v k
    cases hs : s.v k with
    | none =>
      cases h3 : a.v k with
      | some x => rw [hs, h3] at h1; exact h1.elim
      | none =>
        cases h4 : b.v k with
        | some x => rw [hs, h4] at h2; exact h2.elim
        | none => trivial
    | some o =>
      cases h3 : a.v k with
      | none => rw [hs, h3] at h1; exact h1.elim
      | some x =>
        cases h4 : b.v k with
        | none => rw [hs, h4] at h2; exact h2.elim
        | some y =>
          rw [hs, h3] at h1; rw [hs, h4] at h2
          show OSame x y
          have h1 : OSame o x := h1
          have h2 : OSame o y := h2
          cases h1 with
          | zset e1 => cases h2 with | zset e2 => exact .zset (e1.join e2)
          | str s => exact h2
          | list s => exact h2
          | hash s => exact h2
          | set s => exact h2
  · rw [hb.t, ha.t]
    cases s.t k with
    | none => rfl
    | some d => simp [fl_fl]
  · rw [ha.t] at hd
    cases h : s.t k with
    | none => rw [h] at hd; cases hd
    | some d' => rw [h] at hd; cases hd; rw [fl_fl]; exact ha.live k d' h

/-! ### The invariant -/

structure Data (hash : Bytes → Nat) (lower : Bytes → Bytes) (pf : Bytes → Option F64) (T : Int) (N : Nat) (SF : Nat → AS) (file : Bytes) (srv : Server)
    (jobs : List Job) (done : List Bytes) : Prop where
  good : SrvGood hash srv
  aof  : srv.aofEnable = true
  len  : srv.dbs.length = N
  tok  : ∀ i, TOk (vw srv.dbs i)
  tokF : ∀ i, TOk (SF i)
  file : ∃ recsF B selF, file = log recsF ∧ srv.aofBuf = log B ∧ RecsOk lower recsF ∧ RecsOk lower B ∧ Moves hash lower pf T N recsF noData 0 SF selF ∧
    Moves hash lower pf T N B SF selF (vw srv.dbs) srv.aofSelect
  jobs : ∀ j ∈ jobs, JobOk hash lower pf T N (vw srv.dbs) srv.aofSelect srv.aofRewriteBuf j
  done : ∀ tmp ∈ done, JobOk hash lower pf T N (vw srv.dbs) srv.aofSelect srv.aofRewriteBuf ⟨[], tmp⟩

variable {SF : Nat → AS} {file : Bytes} {srv srv' : Server} {jobs : List Job} {done : List Bytes}

/-- The file with the buffer. -/
theorem Data.all (d : Data hash lower pf T N SF file srv jobs done) :
    ∃ recs, file ++ srv.aofBuf = log recs ∧ RecsOk lower recs ∧ Moves hash lower pf T N recs noData 0 (vw srv.dbs) srv.aofSelect := by
  obtain ⟨recsF, B, selF, h1, h2, h3, h4, h5, h6⟩ := d.file
  exact ⟨recsF ++ B, by rw [log_app, h1, h2], h3.append h4, h5.trans h6⟩

theorem Data.live (d : Data hash lower pf T N SF file srv jobs done) : ∀ i k dl, (vw srv.dbs i).t k = some dl → T ≤ fl dl := by
  intro i k dl h
  obtain ⟨recs, _, _, hm⟩ := d.all
  by_cases hi : i < N
  · exact moves_live hm i hi k dl h
  · rw [vw_out (by rw [d.len]; omega)] at h; cases h

theorem Data.fresh (d : Data hash lower pf T N SF file srv jobs done) {e : Env} (he : e.now ≤ T) : ∀ i k dl, (vw srv.dbs i).t k = some dl → e.now ≤ dl := by
  intro i k dl h
  have := d.live i k dl h
  have := fl_le dl
  omega

def followJ (e : Env) (a b : List Db) (j : Job) : Job := { j with todo := j.todo.map (Node.follow e a b) }

theorem followAll_mem {e : Env} {a b : List Db} {js : List Job} {j : Job} (h : j ∈ Node.followAll e a b js) : ∃ j0 ∈ js, j = followJ e a b j0 := by
  simp only [Node.followAll, List.mem_map] at h
  obtain ⟨j0, h1, rfl⟩ := h
  exact ⟨j0, h1, rfl⟩

/-- Nothing changed but the dicts' inner order. -/
theorem Data.same (d : Data hash lower pf T N SF file srv jobs done) {e : Env} (he : e.hash = hash) (ht : e.now ≤ T) (g : SrvGood hash srv')
    (haof : srv'.aofEnable = srv.aofEnable) (hv : vw srv'.dbs = vw srv.dbs) (hl : srv'.dbs.length = srv.dbs.length) (hsel : srv'.aofSelect = srv.aofSelect)
    (hbuf : srv'.aofBuf = srv.aofBuf) (hrb : srv'.aofRewriteBuf = srv.aofRewriteBuf) :
    Data hash lower pf T N SF file srv' (Node.followAll e srv.dbs srv'.dbs jobs) done := by
  refine ⟨g, by rw [haof]; exact d.aof, by rw [hl]; exact d.len, by rw [hv]; exact d.tok, d.tokF, by rw [hv, hsel, hbuf]; exact d.file, fun j hj => ?_, fun tmp h => ?_⟩
  · obtain ⟨j0, h0, rfl⟩ := followAll_mem hj
    rw [hsel, hrb]
    exact (d.jobs j0 h0).quiet he g d.good (d.fresh ht) hv
  · rw [hsel, hrb, hv]; exact d.done tmp h

/-- A request. -/
theorem Data.request (hlow : LowerOk lower) (hN : N < 2 ^ 63) (d : Data hash lower pf T N SF file srv jobs done) {e : Env} {args : List Bytes} {c c' : Session}
    {r : List Bytes} (he : e.hash = hash) (h0 : 0 ≤ e.now) (hT : e.now ≤ T) (hel : e.lower = lower) (hep : e.parseFloat = pf)
    (hlv : LevelsOk e.level) (hp : ∀ cmd, commandOf e args = some cmd → Plain T e cmd args) (htask : jobs ≠ [] ∨ done ≠ [] → srv.task = .aofRewrite)
    (h : Served hash e args srv c srv' c' r) : Data hash lower pf T N SF file srv' (Node.followAll e srv.dbs srv'.dbs jobs) done := by
  obtain ⟨k1, k2, k3, _, k5⟩ := served_db (s := ⟨srv, fun _ => some c⟩) (fd := 0) rfl rfl he d.good h
  simp only at k1 k2 k3 k5
  have g' : SrvGood hash srv' := by
    intro i x hx
    obtain ⟨d0, hd0⟩ := get_lt (l := srv.dbs) (i := i) (by have := lt_get hx; omega)
    obtain ⟨d', q1, q2, _⟩ := k5 i d0 hd0
    rw [hx] at q1; cases q1; exact q2
  cases served_did hlow d.len hN d.aof d.good he h0 hT hel hep hlv hp d.live h with
  | quiet buf rbuf sel dbs => exact d.same he hT g' k2 dbs k3 sel buf rbuf
  | logged i k cmd f a rs hi hk hc hf ha hd dbs sel buf rbuf hrs moves =>
    have hjob : ∀ j, JobOk hash lower pf T N (vw srv.dbs) srv.aofSelect srv.aofRewriteBuf j → srv.task = .aofRewrite →
        JobOk hash lower pf T N (vw srv'.dbs) srv'.aofSelect srv'.aofRewriteBuf (followJ e srv.dbs srv'.dbs j) := by
      intro j hj ht
      rw [sel, rbuf, if_pos ht]
      exact hj.logged he g' d.good (d.fresh hT) hk hc hf ha hd moves hrs dbs
    refine ⟨g', by rw [k2]; exact d.aof, by rw [k3]; exact d.len, fun j => ?_, d.tokF, ?_, fun j hj => ?_, fun tmp h => ?_⟩
    · rw [dbs]
      by_cases hij : i = j
      · subst hij; rw [updN_at]; exact tok_step (.det hf ha) (d.tok i)
      · rw [updN_ne _ _ hij]; exact d.tok j
    · obtain ⟨recsF, B, selF, a1, a2, a3, a4, a5, a6⟩ := d.file
      refine ⟨recsF, B ++ rs, selF, a1, by rw [buf, log_app, a2], a3, a4.append hrs, a5, a6.trans ?_⟩
      rw [dbs, sel]
      exact moves (vw srv.dbs) a ha (Or.inr hd)
    · obtain ⟨j0, h0, rfl⟩ := followAll_mem hj
      exact hjob j0 (d.jobs j0 h0) (htask (Or.inl (List.ne_nil_of_mem h0)))
    · exact hjob ⟨[], tmp⟩ (d.done tmp h) (htask (Or.inr (List.ne_nil_of_mem h)))

/-- Copies of the databases are made by BGREWRITEAOF alone. -/
theorem served_snap {e : Env} {args : List Bytes} {c c' : Session} {r : List Bytes} (he : e.hash = hash) (g : SrvGood hash srv)
    (h : Served hash e args srv c srv' c' r) (h0 : srv.snapshot = none) {cs : List Db} (hs : srv'.snapshot = some cs) :
    srv.task = .none ∧ commandOf e args = some .bgrewriteaof ∧ Server.copyAll e srv.dbs = some (srv.dbs, cs) ∧ srv'.dbs = srv.dbs := by
  cases h with
  | unknown => rw [h0] at hs; cases hs
  | rejected => rw [h0] at hs; cases hs
  | select => rw [h0] at hs; cases hs
  | auth => rw [h0] at hs; cases hs
  | rewrite a0 ha cmd hl hc srv' r h =>
    have hcmd : commandOf e args = some .bgrewriteaof := by rw [← hc]; exact commandOf_of ha hl
    unfold Server.bgRewriteAof at h
    split at h
    · cases h; rw [h0] at hs; cases hs
    · next ht =>
      have ht : srv.task = .none := by simpa using ht
      unfold Server.startRewrite at h
      rw [if_neg (by simp [ht])] at h
      obtain ⟨cs', c1, _⟩ := copyAll_ref e he srv.dbs g
      rw [c1] at h
      cases h
      cases hs
      exact ⟨ht, hcmd, c1, rfl⟩
  | db a0 ha cmd hl hok hauth f hf d0 hd o ho a hst hrel srv' hfeed =>
    split at hfeed
    · unfold Aof.feed at hfeed
      simp only [Option.bind_eq_bind, Option.bind_eq_some_iff] at hfeed
      obtain ⟨b, _, hfeed⟩ := hfeed
      cases hfeed
      rw [h0] at hs; cases hs
    · cases hfeed; rw [h0] at hs; cases hs

/-- A rewrite starts. -/
theorem Data.start (d : Data hash lower pf T N SF file srv [] []) {e : Env} (he : e.hash = hash) {cs : List Db}
    (hcs : Server.copyAll e srv.dbs = some (srv.dbs, cs)) (hst : StartOk (vw srv.dbs) srv.aofSelect) (hrb : srv.aofRewriteBuf = []) {ch : List Aof.Chore}
    (hch : Aof.chores e 0 cs = some ch) :
    Data hash lower pf T N SF file srv [{ todo := ch.map (fun c => ⟨c, true, none⟩), tmp := [] }] [] := by
  refine ⟨d.good, d.aof, d.len, d.tok, d.tokF, d.file, fun j hj => ?_, fun tmp h => by cases h⟩
  rw [List.mem_singleton] at hj; subst hj
  rw [hrb]
  exact job_start he d.good d.len hcs hst d.live (fun i x hx => by rw [← vw_get hx]; exact d.tok i) hch

/-- Only these fields matter. -/
theorem Data.congr (d : Data hash lower pf T N SF file srv jobs done) (h1 : srv'.dbs = srv.dbs) (h2 : srv'.aofEnable = srv.aofEnable)
    (h3 : srv'.aofSelect = srv.aofSelect) (h4 : srv'.aofBuf = srv.aofBuf) (h5 : srv'.aofRewriteBuf = srv.aofRewriteBuf) :
    Data hash lower pf T N SF file srv' jobs done :=
  ⟨by intro i x hx; rw [h1] at hx; exact d.good i x hx, by rw [h2]; exact d.aof, by rw [h1]; exact d.len, by rw [h1]; exact d.tok, d.tokF,
    by rw [h1, h3, h4]; exact d.file, by rw [h1, h3, h5]; exact d.jobs, by rw [h1, h3, h5]; exact d.done⟩

/-- Everything is in the file. -/
theorem Data.flushed (d : Data hash lower pf T N SF file srv jobs done) :
    Data hash lower pf T N (vw srv.dbs) (file ++ srv.aofBuf) { srv with aofBuf := [] } jobs done := by
  obtain ⟨recs, h1, h2, h3⟩ := d.all
  exact ⟨d.good, d.aof, d.len, d.tok, d.tok, ⟨recs, [], srv.aofSelect, h1, rfl, h2, recsOk_nil, h3, .refl _ _⟩, d.jobs, d.done⟩

/-- The new file takes the place of the old one. -/
theorem Data.finished {tmp : Bytes} (d : Data hash lower pf T N SF file srv [] [tmp]) (hbuf : srv.aofBuf = []) :
    Data hash lower pf T N (vw srv.dbs) (tmp ++ srv.aofRewriteBuf) { srv with aofRewriteBuf := [], task := .none } [] [] := by
  obtain ⟨recs, h1, h2, h3⟩ := (d.done tmp (by simp)).finish
  exact ⟨d.good, d.aof, d.len, d.tok, d.tok, ⟨recs, [], srv.aofSelect, h1, hbuf, h2, recsOk_nil, h3, .refl _ _⟩, fun j hj => (by cases hj), fun j hj => (by cases hj)⟩

/-- `databasesCron` finds nothing to remove. -/
theorem Data.cron (d : Data hash lower pf T N SF file srv jobs done) {e : Env} (he : e.hash = hash) (hT : e.now ≤ T) {dbs : List Db}
    (h : databasesCron e srv = some { srv with dbs }) :
    Data hash lower pf T N SF file { srv with dbs } (Node.followAll e srv.dbs dbs jobs) done := by
  simp only [databasesCron, Option.bind_eq_bind, Option.bind_eq_some_iff] at h
  obtain ⟨dbs', h1, h2⟩ := h
  have h2 : dbs' = dbs := by simpa using h2
  subst h2
  obtain ⟨k1, k2⟩ := cronDbs_ref e he srv.dbs e.draws d.good h1
  refine d.same (srv' := { srv with dbs := dbs' }) he hT ?_ rfl (vw_same k1 fun i x x' hx hx' => ?_) k1 rfl rfl rfl
  · intro i x hx
    obtain ⟨d0, hd0⟩ := get_lt (l := srv.dbs) (i := i) (by have := lt_get hx; simp only at this; omega)
    obtain ⟨d', q1, q2, _⟩ := k2 i d0 hd0
    simp only at hx
    rw [hx] at q1; cases q1; exact q2
  · obtain ⟨d', q1, q2, q3⟩ := k2 i x hx
    rw [hx'] at q1; cases q1
    exact swept_live q3 hT (fun k dl hd => d.live i k dl (by rw [vw_get hx]; exact hd))

/-- Loading a file of the process. -/
theorem load_moves {recs : List (List Bytes)} {S : Nat → AS} {sel : Nat} (hr : RecsOk lower recs) (hm : Moves hash lower pf T N recs noData 0 S sel)
    (hl : Readable (log recs)) {es : Nat → Env} (hes : ∀ i, World hash lower pf T (es i)) (pw : Bytes) :
    ∃ srv s, Aof.load Aof.readerSize es (log recs) (Server.init N pw true) = some srv ∧ Aof.parse Aof.readerSize (log recs) = some recs ∧
      Aof.replay es recs (Server.init N pw true) Session.new = some (srv, s) ∧ s.db = sel ∧ Copies hash T N S srv.dbs := by
  obtain ⟨srv, s, h1, h2, h3⟩ := hm es hes (Server.init N pw true) Session.new (copies_init pw true) rfl
  have hrec := records_of_log (fun r hr' => (hr r hr').1) hl.1
  have hw := hl.2 recs hrec rfl
  exact ⟨srv, s, by rw [Props.AofLoadP.C45_partial recs hrec hw, h1]; rfl, (Aof.parse_whole hrec).2 hw, h1, h2, h3⟩

/-- A restart from a file that ends in database 0. -/
theorem Data.restart (hT0 : 0 ≤ T) (d : Data hash lower pf T N SF file srv jobs done) {es : Nat → Env} (hes : ∀ i, World hash lower pf T (es i)) {pw : Bytes}
    (hl : Readable file) (hload : Aof.load Aof.readerSize es file (Server.init N pw true) = some srv')
    (hz : (Aof.parse Aof.readerSize file).bind (fun recs => (Aof.replay es recs (Server.init N pw true) Session.new).map (fun p => p.2.db)) = some 0) :
    Data hash lower pf T N (vw srv'.dbs) file srv' [] [] ∧ srv'.snapshot = none ∧ Copies hash T N SF srv'.dbs := by
  obtain ⟨recsF, B, selF, a1, a2, a3, a4, a5, a6⟩ := d.file
  subst a1
  obtain ⟨srv1, s1, b1, b2, b3, b4, b5⟩ := load_moves a3 a5 hl hes pw
  rw [b1] at hload
  have hload : srv1 = srv' := by simpa using hload
  subst hload
  rw [b2, Option.bind_some, b3] at hz
  have hz : s1.db = 0 := by simpa using hz
  have hsel : selF = 0 := by rw [← b4, hz]
  subst hsel
  obtain ⟨t1, t2⟩ := replay_task recsF es (fun i => (hes i).lower) a3 b3
  obtain ⟨f, f2, f3⟩ := Node.replay_fresh recsF es b3 (Node.init_fresh N pw true)
  have hsim : ∀ i, i < N → Sim T (SF i) (vw srv1.dbs i) := by
    intro i hi
    obtain ⟨x, h1, h2, h3⟩ := b5.get hi
    rw [vw_get h1]; exact h3
  have hmv : Moves hash lower pf T N recsF noData 0 (vw srv1.dbs) 0 := by
    intro es' hes' srv2 s2 hc hs
    obtain ⟨srv3, s3, c1, c2, c3⟩ := a5 es' hes' srv2 s2 hc hs
    refine ⟨srv3, s3, c1, c2, c3.len, c3.good, fun i x hx => ?_⟩
    exact (hsim i (by have := lt_get hx; rw [c3.len] at this; exact this)).join (c3.sim i x hx)
  have htok : ∀ i, TOk (vw srv1.dbs i) := by
    intro i k x hx
    by_cases hi : i < N
    · have hs := hsim i hi
      rw [hs.t] at hx
      cases h : (SF i).t k with
      | none => rw [h] at hx; cases hx
      | some y =>
        rw [h] at hx; cases hx
        have := d.tokF i k y h
        have := fl_le y
        have := hs.live k y h
        exact ⟨by omega, by omega⟩
    · rw [vw_out (by rw [b5.len]; omega)] at hx; cases hx
  refine ⟨⟨b5.good, f2, b5.len, htok, htok, ⟨recsF, [], 0, rfl, f.buf, a3, recsOk_nil, hmv, ?_⟩, fun j hj => (by cases hj), fun j hj => (by cases hj)⟩, t2, b5⟩
  rw [f.sel]
  exact .refl _ _

namespace Node

/-- The invariant; `SF` is what the file holds. -/
structure Inv (hash : Bytes → Nat) (lower : Bytes → Bytes) (pf : Bytes → Option F64) (T : Int) (N : Nat) (SF : Nat → AS) (n : Node) : Prop where
  task : TaskOk n
  data : Data hash lower pf T N SF n.file n.sys.srv n.jobs n.done
  buf  : ∀ w, n.phase = .timers w → n.sys.srv.aofBuf = []

/-- What a step needs in order to keep file and data together. -/
def Calm (hash : Bytes → Nat) (lower : Bytes → Bytes) (pf : Bytes → Option F64) (T : Int) (n : Node) : Ev → Prop
  | .request fd e args => e.hash = hash ∧ Steady lower pf T (.request fd e args) ∧
      (commandOf e args = some .bgrewriteaof → n.sys.srv.task = .none → StartOk (vw n.sys.srv.dbs) n.sys.srv.aofSelect)
  | .cron e _ => e.hash = hash ∧ e.now ≤ T ∧
      (grown n.conf n.cur n.base = true → n.sys.srv.task = .none → StartOk (vw n.sys.srv.dbs) n.sys.srv.aofSelect)
  | .work i _ p => ∀ j t rest, n.jobs[i]? = some j → j.todo = t :: rest → KeptBy p t.chore
  | .restart es => (∀ i, World hash lower pf T (es i)) ∧ Readable n.file ∧
      (Aof.parse Aof.readerSize n.file).bind (fun recs =>
        (Aof.replay es recs (Server.init n.sys.srv.dbs.length n.sys.srv.password true) Session.new).map (fun p => p.2.db)) = some 0
  | .crashInDone _ _ => False
  | _ => True

/-- The file holds all data after these. -/
def saves (n : Node) : Ev → Prop
  | .sleep _ => True
  | .cron _ _ => n.done ≠ []
  | .restart _ => True
  | _ => False

variable {n n' : Node}

theorem busy (k : TaskOk n) (h : n.jobs ≠ [] ∨ n.done ≠ []) : n.sys.srv.task = .aofRewrite := by
  have hc := k.count
  unfold pending at hc
  split at hc
  · next h => exact h
  · rcases h with h | h
    · exact absurd (List.length_eq_zero_iff.1 (by omega)) h
    · exact absurd (List.length_eq_zero_iff.1 (by omega)) h

theorem quietTask (k : TaskOk n) (h : n.sys.srv.task = .none) : n.jobs = [] ∧ n.done = [] := by
  have hc := k.count
  unfold pending at hc
  rw [h, if_neg (by decide)] at hc
  exact ⟨List.length_eq_zero_iff.1 (by omega), List.length_eq_zero_iff.1 (by omega)⟩

theorem inv_request (hlow : LowerOk lower) (hN : N < 2 ^ 63) (k : Inv hash lower pf T N SF n) {fd : Nat} {e : Env} {args : List Bytes}
    (h : request fd e args n = some n') (hc : Calm hash lower pf T n (.request fd e args)) {w} (hw : n.phase = .files w) : Inv hash lower pf T N SF n' := by
  have ht := (request_task h k.task).1
  obtain ⟨f1, _, _, _, _, _, f7, f8, _, _⟩ := request_files h
  obtain ⟨he, ⟨h0, hT, hel, hep, hlv, hp⟩, hst⟩ := hc
  refine ⟨ht, ?_, fun w' hw' => by rw [f8, hw] at hw'; cases hw'⟩
  unfold request at h
  simp only [Option.bind_eq_bind, Option.bind_eq_some_iff] at h
  obtain ⟨⟨sys, r⟩, h1, net, h2, h3⟩ := h
  simp only [Sys.step, Option.bind_eq_bind, Option.bind_eq_some_iff] at h1
  obtain ⟨c, hc, ⟨srv', c', r'⟩, h1, h4⟩ := h1
  cases h4
  have hs := served he k.data.good h1
  have d := k.data.request hlow hN he h0 hT hel hep hlv hp (busy k.task) hs
  rcases launch_spec h3 with ⟨hs', rfl⟩ | ⟨cs, ch, hs', hch, rfl⟩
  · exact d
  · have hs' : srv'.snapshot = some cs := hs'
    obtain ⟨q1, q2, q3, q4⟩ := served_snap he k.data.good hs k.task.snap hs'
    obtain ⟨j1, j2⟩ := quietTask k.task q1
    have hd2 : Data hash lower pf T N SF n.file srv' [] [] := by
      have := d
      rw [j1, j2] at this
      exact this
    have hrb : srv'.aofRewriteBuf = [] := by
      have := (request_logs (s := n.sys) (fd := fd) (e := e) (args := args) (s' := ⟨srv', fun x => if x = fd then some c' else n.sys.sess x⟩) (r := r')
        (by simp only [Sys.step, hc, Option.bind_eq_bind, Option.bind_some, h1])).1
      cases this with
      | plain x task snap buf rbuf =>
        have snap : srv'.snapshot = n.sys.srv.snapshot := snap
        rw [hs', k.task.snap] at snap; cases snap
      | start h0 h4 snap buf rbuf =>
        have rbuf : srv'.aofRewriteBuf = n.sys.srv.aofRewriteBuf := rbuf
        rw [rbuf]; exact k.task.rbuf q1
    have hsel : srv'.aofSelect = n.sys.srv.aofSelect := by
      cases hs with
      | unknown => rfl
      | rejected => rfl
      | select => rfl
      | auth => rfl
      | rewrite a0 ha cmd hl hc srv' r h =>
        obtain ⟨srv1, r1, g1, g2, g3, g4, g5, g6, g7, g8⟩ := bgRewrite_ref e he (args := args) (s := c) k.data.good
        rw [g1] at h; cases h; exact g6
      | db a0 ha cmd hl hok hauth f hf d0 hd o ho a hstp hrel srv' hfeed =>
        exfalso
        rw [commandOf_of ha hl] at q2
        have : cmd.proc = .bgrewriteaof := by simpa using q2
        rw [this] at hf; cases hf
    have := hd2.start he (cs := cs) (by rw [q4]; exact q3) (by rw [q4, hsel]; exact hst q2 q1) hrb hch
    refine Data.congr (srv := srv') ?_ rfl rfl rfl rfl rfl
    show Data hash lower pf T N SF n.file srv' (followAll e n.sys.srv.dbs srv'.dbs n.jobs ++ _) n.done
    rw [j1, j2]
    exact this

theorem inv_cron (k : Inv hash lower pf T N SF n) {e : Env} {t : Int} (h : cron e t n = some n') (hc : Calm hash lower pf T n (.cron e t)) {w}
    (hw : n.phase = .timers w) :
    ∃ SF', Inv hash lower pf T N SF' { n' with phase := .files w } ∧ (if n.done ≠ [] then SF' = vw n'.sys.srv.dbs else SF' = SF) ∧
      vw n'.sys.srv.dbs = vw n.sys.srv.dbs := by
  have ht := cron_task h k.task
  have hbuf := k.buf w hw
  obtain ⟨he, hT, hst⟩ := hc
  obtain ⟨dbs, n2, h1, h2, h3⟩ := cron_spec h
  have d := k.data.cron he hT h1
  have hvw : vw dbs = vw n.sys.srv.dbs := by
    simp only [databasesCron, Option.bind_eq_bind, Option.bind_eq_some_iff] at h1
    obtain ⟨dbs', h1, h1'⟩ := h1
    have h1' : dbs' = dbs := by simpa using h1'
    subst h1'
    obtain ⟨k1, k2⟩ := cronDbs_ref e he n.sys.srv.dbs e.draws k.data.good h1
    refine vw_same k1 fun i x x' hx hx' => ?_
    obtain ⟨d', q1, q2, q3⟩ := k2 i x hx
    rw [hx'] at q1; cases q1
    exact swept_live q3 hT (fun k' dl hd => k.data.live i k' dl (by rw [vw_get hx]; exact hd))
  have hphase : ∀ w', (Phase.files w) = .timers w' → n'.sys.srv.aofBuf = [] := fun w' h => by cases h
  have htask : TaskOk { n' with phase := .files w } := ⟨ht.count, ht.rdb, ht.snap, ht.rbuf⟩
  split at h2
  · next hg =>
    obtain ⟨srv, h4, h5⟩ := h2
    obtain ⟨j1, j2⟩ := quietTask k.task hg.1
    rw [j1, j2] at d
    have hgood := d.good
    obtain ⟨cs, c1, _⟩ := copyAll_ref e he dbs hgood
    have hsrv : srv = { n.sys.srv with dbs := dbs, task := .aofRewrite, snapshot := some cs } := by
      unfold Server.startRewrite at h4
      rw [if_neg (by simp [hg.1])] at h4
      simp only at h4
      rw [c1] at h4
      simp only [Option.bind_eq_bind, Option.bind_some, Option.some.injEq] at h4
      rw [← h4]
    subst hsrv
    rcases launch_spec h5 with ⟨hs', rfl⟩ | ⟨cs', ch, hs', hch, rfl⟩
    · cases hs'
    · cases hs'
      have hdone : n.done = [] := j2
      rcases h3 with ⟨_, rfl⟩ | ⟨tmp, rest, h6, _⟩
      · refine ⟨SF, ⟨htask, ?_, hphase⟩, ?_, hvw⟩
        · have hst' : StartOk (vw dbs) n.sys.srv.aofSelect := by rw [hvw]; exact hst hg.2 hg.1
          have := Data.start (srv := { n.sys.srv with dbs := dbs }) d he c1 hst' (k.task.rbuf hg.1) hch
          refine Data.congr (srv := { n.sys.srv with dbs := dbs }) ?_ rfl rfl rfl rfl rfl
          show Data hash lower pf T N SF n.file { n.sys.srv with dbs := dbs } (followAll e n.sys.srv.dbs dbs n.jobs ++ _) n.done
          rw [j1, j2]
          exact this
        · rw [if_neg (by simp [hdone])]
      · have h6 : n.done = tmp :: rest := h6
        rw [hdone] at h6; cases h6
  · subst h2
    rcases h3 with ⟨h6, rfl⟩ | ⟨tmp, rest, h6, rfl⟩
    · refine ⟨SF, ⟨htask, d, hphase⟩, ?_, hvw⟩
      rw [if_neg (by simpa using h6)]
    · have h6 : n.done = tmp :: rest := h6
      have hcnt := k.task.count
      rw [busy k.task (Or.inr (by rw [h6]; simp)), if_pos rfl] at hcnt
      unfold pending at hcnt
      rw [h6, List.length_cons] at hcnt
      have hj : n.jobs = [] := List.length_eq_zero_iff.1 (by omega)
      have hr : rest = [] := List.length_eq_zero_iff.1 (by omega)
      subst hr
      rw [h6, hj] at d
      have d2 := Data.finished (srv := { n.sys.srv with dbs := dbs }) d hbuf
      obtain ⟨g1, g2, g3, g4, g5, g6, g7, g8, g9⟩ := finish_same t tmp
        ({ n with sys := { n.sys with srv := { n.sys.srv with dbs := dbs } }, jobs := followAll e n.sys.srv.dbs dbs n.jobs, done := [] })
      refine ⟨vw dbs, ⟨htask, ?_, hphase⟩, ?_, ?_⟩
      · show Data hash lower pf T N (vw dbs) (finish t tmp _).file (finish t tmp _).sys.srv (finish t tmp _).jobs (finish t tmp _).done
        rw [g1, g4, g7, g8, hj]
        exact d2
      · rw [if_pos (by rw [h6]; simp), g1]
      · rw [g1]; exact hvw

theorem inv_work (hlow : LowerOk lower) (hN : N < 2 ^ 63) (hT0 : 0 ≤ T) (k : Inv hash lower pf T N SF n) {i : Nat} {e : Env} {p : Pace} (h : work i e p n = some n')
    (hc : Calm hash lower pf T n (.work i e p)) : Inv hash lower pf T N SF n' := by
  have ht := work_task h k.task
  obtain ⟨j, h1, h2⟩ := work_spec h
  rcases h2 with ⟨t, rest, recs, h3, h4, rfl⟩ | ⟨_, h3, h4, rfl⟩ | ⟨t, t', rest, _, h3, h4, rfl⟩
  · refine ⟨ht, ⟨k.data.good, k.data.aof, k.data.len, k.data.tok, k.data.tokF, k.data.file, fun j' hj' => ?_, k.data.done⟩, k.buf⟩
    rcases List.mem_or_eq_of_mem_set hj' with hm | rfl
    · exact k.data.jobs j' hm
    · exact (k.data.jobs j (List.mem_of_getElem? h1)).work hlow hT0 hN h3 h4 (hc j t rest h1 h3)
  · refine ⟨ht, ⟨k.data.good, k.data.aof, k.data.len, k.data.tok, k.data.tokF, k.data.file, fun j' hj' => ?_, fun tmp hm => ?_⟩, k.buf⟩
    · exact k.data.jobs j' (List.mem_of_mem_eraseIdx hj')
    · rw [List.mem_singleton] at hm; subst hm
      have := k.data.jobs j (List.mem_of_getElem? h1)
      obtain ⟨todo, tmp⟩ := j
      cases h3
      exact this
  · refine ⟨ht, ⟨k.data.good, k.data.aof, k.data.len, k.data.tok, k.data.tokF, k.data.file, fun j' hj' => ?_, k.data.done⟩, k.buf⟩
    rcases List.mem_or_eq_of_mem_set hj' with hm | rfl
    · exact k.data.jobs j' hm
    · exact (k.data.jobs j (List.mem_of_getElem? h1)).enter h3 h4

theorem inv_restart (hT0 : 0 ≤ T) (k : Inv hash lower pf T N SF n) {es : Nat → Env} (h : restart es n = some n') (hc : Calm hash lower pf T n (.restart es)) :
    Inv hash lower pf T N (vw n'.sys.srv.dbs) n' ∧ Copies hash T N SF n'.sys.srv.dbs := by
  have ht := restart_task h
  obtain ⟨srv, f, _, _, h2, h3⟩ := restart_spec h
  obtain ⟨c1, c2, c3⟩ := hc
  rw [k.data.aof, if_pos rfl, k.data.len] at h3
  rw [k.data.len] at c3
  obtain ⟨d, e1, e2⟩ := k.data.restart hT0 c1 c2 h3 c3
  rcases launch_spec h2 with ⟨_, rfl⟩ | ⟨cs, ch, hs, _⟩
  · exact ⟨⟨ht, d, fun w hw => by cases hw⟩, e2⟩
  · have hs : srv.snapshot = some cs := hs
    rw [e1] at hs; cases hs

/-- Every calm step keeps the invariant. The file holds the data of the moment after the steps that save, and of an older moment otherwise. -/
theorem inv_step (hlow : LowerOk lower) (hN : N < 2 ^ 63) (hT0 : 0 ≤ T) (k : Inv hash lower pf T N SF n) {ev : Ev} (h : step n ev = some n')
    (hc : Calm hash lower pf T n ev) : ∃ SF', Inv hash lower pf T N SF' n' ∧ ((saves n ev ∧ SF' = vw n'.sys.srv.dbs) ∨ (¬ saves n ev ∧ SF' = SF)) := by
  cases step_is h with
  | quiet hq =>
    refine ⟨SF, ⟨step_task h k.task, k.data, fun w hw => ?_⟩, Or.inr ⟨?_, rfl⟩⟩
    · cases ev <;> first | (cases hq; done) | skip
      · simp only [step] at h
        split at h
        · have := congrArg phase (Option.some.inj h); simp only at this hw; rw [hw] at this; cases this
        · cases h
      · simp only [step] at h
        split at h
        · next w0 hw0 =>
          simp only [Option.bind_eq_bind, Option.bind_eq_some_iff] at h
          obtain ⟨_, _, _, _, h⟩ := h
          have := congrArg phase (Option.some.inj h); simp only at this hw; rw [hw] at this; cases this
        · cases h
      · simp only [step] at h
        split at h
        · next w0 hw0 =>
          simp only [Option.bind_eq_bind, Option.bind_eq_some_iff] at h
          obtain ⟨_, _, _, _, h⟩ := h
          have := congrArg phase (Option.some.inj h); simp only at this hw; rw [hw] at this; cases this
        · cases h
      · simp only [step] at h
        split at h
        · split at h
          · simp only [Option.bind_eq_bind, Option.bind_eq_some_iff] at h
            obtain ⟨_, _, h⟩ := h
            have := congrArg phase (Option.some.inj h); simp only at this hw; rw [hw] at this; cases this
          · cases h
        · cases h
      · simp only [step] at h
        split at h
        · have := congrArg phase (Option.some.inj h); simp only at this hw; rw [hw] at this; cases this
        · cases h
    · cases ev <;> first | (cases hq; done) | exact id
  | sleep hp =>
    rename_i t
    obtain ⟨g1, g2, g3, g4, g5, g6, g7, g8, g9⟩ := flush_same t n
    have d := k.data.flushed
    refine ⟨vw n.sys.srv.dbs, ⟨step_task h k.task, ?_, fun w _ => ?_⟩, Or.inl ⟨trivial, ?_⟩⟩
    · show Data hash lower pf T N _ (flush t n).file (flush t n).sys.srv (flush t n).jobs (flush t n).done
      rw [g3, g5, g6, g8]; exact d
    · show (flush t n).sys.srv.aofBuf = []
      rw [g8]
    · show _ = vw (flush t n).sys.srv.dbs
      rw [g8]
  | @cron e t w n1 hp hh =>
    obtain ⟨SF', k', h1, _⟩ := inv_cron k hh hc hp
    refine ⟨SF', k', ?_⟩
    split at h1
    · next hd => exact Or.inl ⟨hd, h1⟩
    · next hd => exact Or.inr ⟨hd, h1⟩
  | request hp h => exact ⟨SF, inv_request hlow hN k h hc hp, Or.inr ⟨id, rfl⟩⟩
  | work h => exact ⟨SF, inv_work hlow hN hT0 k h hc, Or.inr ⟨id, rfl⟩⟩
  | restart h => exact ⟨_, (inv_restart hT0 k h hc).1, Or.inl ⟨trivial, rfl⟩⟩
  | crash => exact hc.elim

theorem inv_boot (pw : Bytes) (conf : Conf) : Inv hash lower pf T N noData (boot N pw true conf) := by
  refine ⟨boot_task _ _ _ _, ?_, fun w hw => by cases hw⟩
  have g : SrvGood hash (Server.init N pw true) := (init_good N pw true).srv
  have hv : vw (Server.init N pw true).dbs = noData := vw_init N pw true
  have tok : ∀ i, TOk (noData i) := fun i k d h => by cases h
  refine ⟨g, rfl, by simp [boot, start, Server.init], ?_, tok, ⟨[], [], 0, rfl, rfl, recsOk_nil, recsOk_nil, .refl _ _, ?_⟩, fun j hj => (by cases hj), fun j hj => (by cases hj)⟩
  · show ∀ i, TOk (vw (Server.init N pw true).dbs i); rw [hv]; exact tok
  · show Moves hash lower pf T N [] noData 0 (vw (Server.init N pw true).dbs) 0; rw [hv]; exact .refl _ _

end Node
end
end Metis
