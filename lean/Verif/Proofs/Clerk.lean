import Verif.Proofs.Scribe
import Verif.Proofs.Picture
import Verif.Spec.Clerk
import Verif.Props.Rewrite
/-! Helper lemmas: the process that rewrites its log at once follows the exact reference that does. -/
set_option linter.unusedSectionVars false
set_option linter.unusedSimpArgs false
set_option linter.unusedVariables false
namespace Metis.ClerkSim
open Metis Metis.Spec Metis.Node Metis.ExactSim Metis.ScribeSim Metis.PictureSim
open _root_.Metis.KeepSim (said said_other)
open _root_.Metis.HostSim (say_all)
open _root_.Metis.Net (NOk free_ok accept_ok addReply_ok writable_ok)
open _root_.Metis.Loading (Fine LOk load_run load_fails)
open _root_.Metis.Props.RewriteP (cats_log)
variable {hash : Bytes → Nat} {lower : Bytes → Bytes} {pf : Bytes → Option F64} {ff : F64 → Bytes} {N : Nat} {pw : Bytes} {conf : Conf}

/-! ### Records -/

/-- A record that the loader can carry out, except for scores that may be NaN; no BGREWRITEAOF. -/
def Plain (hash : Bytes → Nat) (lower : Bytes → Bytes) (pf : Bytes → Option F64) (r : List Bytes) : Prop :=
  r ≠ [] ∧ ∀ e, World hash lower pf e → ∀ cmd, commandOf e r = some cmd → accepts cmd r.length ∧ cmd ≠ .bgrewriteaof ∧ (cmd ≠ .zadd → Exact.Usual e cmd (r.drop 1))

theorem plain_rec {e0 : Env} (w0 : World hash lower pf e0) {r : List Bytes} (h : Rec hash lower pf r) : Plain hash lower pf r :=
  ⟨(h e0 w0).1.1, fun e w cmd hc => ⟨((h e w).1.2 cmd hc).1, fun hb => (h e w).2 (by rw [hc, hb]), fun _ => ((h e w).1.2 cmd hc).2⟩⟩

theorem plain_of (hlow : LowerOk lower) {name : Bytes} {cmd : Cmd} {rest : List Bytes} (hn : ∃ c ∈ commandTable, c.name = name) (hc : named name = some cmd)
    (ha : accepts cmd (rest.length + 1)) (hu : cmd ≠ .zadd → ∀ e, Exact.Usual e cmd rest) (hb : cmd ≠ .bgrewriteaof) : Plain hash lower pf (name :: rest) := by
  refine ⟨by simp, fun e w c h => ?_⟩
  rw [named_of hlow w.lower (rest := rest) hn hc] at h
  cases h
  exact ⟨ha, hb, fun h => hu h e⟩

theorem portions_plain (hlow : LowerOk lower) {name k : Bytes} {cmd : Cmd} {n : Nat} {items : List Bytes} {R : List (List Bytes)} (h : Exact.Portions name k n items R)
    (hn : ∃ c ∈ commandTable, c.name = name) (hc : named name = some cmd) (ha : ∀ m, 3 ≤ m → accepts cmd m) (hu : cmd ≠ .zadd → ∀ e w, Exact.Usual e cmd w)
    (hb : cmd ≠ .bgrewriteaof) : ∀ r ∈ R, Plain hash lower pf r := by
  obtain ⟨cs, _, h2, _, rfl⟩ := h
  intro r hr
  obtain ⟨c, hcs, rfl⟩ := List.mem_map.1 hr
  have := List.length_pos_iff.2 (h2 c hcs).1
  exact plain_of hlow hn hc (ha _ (by simp only [List.length_cons]; omega)) (fun h e => hu h e _) hb

theorem even_portions {n : Nat} (hn : n % 2 = 0) : ∀ (cs : List (List Bytes)), cs.flatten.length % 2 = 0 → (∀ c ∈ cs.dropLast, c.length = n) → ∀ c ∈ cs, c.length % 2 = 0
  | [], _, _, c, hc => by cases hc
  | [a], h, _, c, hc => by simp only [List.mem_singleton] at hc; subst hc; simpa using h
  | a :: b :: cs, h, hl, c, hc => by
    have ha : a.length = n := hl a (by simp)
    rcases List.mem_cons.1 hc with rfl | hc
    · rw [ha]; exact hn
    · refine even_portions hn (b :: cs) ?_ (fun x hx => hl x (by simp only [List.dropLast_cons₂, List.mem_cons]; exact Or.inr hx)) c hc
      rw [List.flatten_cons, List.length_append, ha] at h
      omega

theorem pairs_plain (hlow : LowerOk lower) {name k : Bytes} {cmd : Cmd} {items : List Bytes} {R : List (List Bytes)} (h : Exact.Portions name k 128 items R)
    (hi : items.length % 2 = 0) (hn : ∃ c ∈ commandTable, c.name = name) (hc : named name = some cmd) (ha : ∀ m, 4 ≤ m → accepts cmd m)
    (hu : cmd ≠ .zadd → ∀ e w, Exact.Usual e cmd w) (hb : cmd ≠ .bgrewriteaof) : ∀ r ∈ R, Plain hash lower pf r := by
  obtain ⟨cs, h1, h2, h3, rfl⟩ := h
  intro r hr
  obtain ⟨c, hcs, rfl⟩ := List.mem_map.1 hr
  have := List.length_pos_iff.2 (h2 c hcs).1
  have := even_portions (n := 128) rfl cs (by rw [h1]; exact hi) h3 c hcs
  exact plain_of hlow hn hc (ha _ (by simp only [List.length_cons]; omega)) (fun h e => hu h e _) hb

theorem even_flat {α : Type} (f g : α → Bytes) : ∀ l : List α, (l.flatMap (fun x => [f x, g x])).length % 2 = 0
  | [] => rfl
  | a :: l => by
    have := even_flat f g l
    simp only [List.flatMap_cons, List.length_append, List.length_cons, List.length_nil]
    omega

theorem shot_plain (hlow : LowerOk lower) {e : Env} {S : Exact.Store} {k : Bytes} {v : Ref.Val} {R : List (List Bytes)} (h : Exact.Shot e S k v R) :
    ∀ r ∈ R, Plain hash lower pf r := by
  cases v with
  | str s =>
    have h : R = [[b!"set", k, s]] := h
    subst h
    simp only [List.mem_singleton, forall_eq]
    exact plain_of hlow (cmd := .set) (by decide) (by decide) (by simp [accepts]) (fun _ _ => trivial) (by decide)
  | list l => exact portions_plain hlow (cmd := .lpush) h (by decide) (by decide) (fun m hm => hm) (fun _ _ _ => trivial) (by decide)
  | hash f =>
    obtain ⟨l, _, h⟩ := h
    exact pairs_plain hlow (cmd := .hset) h (even_flat _ _ l) (by decide) (by decide) (fun m hm => hm) (fun _ _ _ => trivial) (by decide)
  | set p =>
    obtain ⟨l, _, _, h⟩ := h
    exact portions_plain hlow (cmd := .sadd) h (by decide) (by decide) (fun m hm => hm) (fun _ _ _ => trivial) (by decide)
  | zset f =>
    obtain ⟨l, ps, _, _, _, h⟩ := h
    exact pairs_plain hlow (cmd := .zadd) h (even_flat _ _ ps) (by decide) (by decide) (fun m hm => hm) (fun h => absurd rfl h) (by decide)

theorem term_plain (hlow : LowerOk lower) {S : Exact.Store} {k : Bytes} : ∀ r ∈ Exact.term S k, Plain hash lower pf r := by
  unfold Exact.term
  cases S.base.due k with
  | none => intro r hr; cases hr
  | some d =>
    simp only [List.mem_singleton, forall_eq]
    exact plain_of hlow (cmd := .expireat) (by decide) (by decide) (by simp [accepts]) (fun _ _ => trivial) (by decide)

theorem shots_plain (hlow : LowerOk lower) {e : Env} {S : Exact.Store} {ks : List Bytes} {R : List (List Bytes)} (h : Exact.Shots e S ks R) :
    ∀ r ∈ R, Plain hash lower pf r := by
  induction h with
  | nil => intro r hr; cases hr
  | cons hv h h' ih =>
    intro r hr
    rcases List.mem_append.1 hr with hr | hr
    · rcases List.mem_append.1 hr with hr | hr
      · exact shot_plain hlow h r hr
      · exact term_plain hlow r hr
    · exact ih r hr

theorem select_plain (hlow : LowerOk lower) (i : Nat) : Plain hash lower pf (selectRec i) :=
  plain_of hlow (cmd := .select) (by decide) (by decide) (by simp [accepts]) (fun _ _ => trivial) (by decide)

theorem album_plain (hlow : LowerOk lower) {e : Env} {D : Nat → Exact.Store} : ∀ (n i : Nat) {R : List (List Bytes)}, Exact.Album e D n i R → ∀ r ∈ R, Plain hash lower pf r
  | 0, _, R, h, r, hr => by
    have h : R = [] := h
    subst h; cases hr
  | n + 1, i, R, h, r, hr => by
    obtain ⟨A, C, ⟨ks, R', _, _, h1, h2⟩, h3, rfl⟩ := h
    rcases List.mem_append.1 hr with hr | hr
    · subst h2
      split at hr
      · cases hr
      · rcases List.mem_cons.1 hr with rfl | hr
        · exact select_plain hlow i
        · exact shots_plain hlow h1 r hr
    · exact album_plain hlow n (i + 1) h3 r hr

/-! ### The world only matters for the scores -/

theorem shot_same {e e' : Env} (h : e'.fmtFloat = e.fmtFloat) {S : Exact.Store} {k : Bytes} {v : Ref.Val} {R : List (List Bytes)} (hs : Exact.Shot e S k v R) : Exact.Shot e' S k v R := by
  cases v with
  | zset f =>
    obtain ⟨l, ps, h1, h2, h3, h4⟩ := hs
    exact ⟨l, ps, h1, h2, h3, by rw [h]; exact h4⟩
  | str s => exact hs
  | list l => exact hs
  | hash f => exact hs
  | set p => exact hs

theorem shots_same {e e' : Env} (h : e'.fmtFloat = e.fmtFloat) {S : Exact.Store} {ks : List Bytes} {R : List (List Bytes)} (hs : Exact.Shots e S ks R) : Exact.Shots e' S ks R := by
  induction hs with
  | nil => exact .nil
  | cons hv h1 h2 ih => exact .cons hv (shot_same h h1) ih

theorem album_same {e e' : Env} (h : e'.fmtFloat = e.fmtFloat) {D : Nat → Exact.Store} : ∀ (n i : Nat) {R : List (List Bytes)}, Exact.Album e D n i R → Exact.Album e' D n i R
  | 0, _, R, hs => hs
  | n + 1, i, R, hs => by
    obtain ⟨A, C, ⟨ks, R', h1, h2, h3, h4⟩, h5, h6⟩ := hs
    exact ⟨A, C, ⟨ks, R', h1, h2, shots_same h h3, h4⟩, album_same h n (i + 1) h5, h6⟩

theorem zsetItems_same {e e' : Env} (h : e'.fmtFloat = e.fmtFloat) : ∀ l, Aof.zsetItems e' l = Aof.zsetItems e l
  | [] => rfl
  | none :: _ => rfl
  | some x :: rest => by simp only [Aof.zsetItems, zsetItems_same h rest, h]

theorem dumpChore_same {e e' : Env} (hh : e'.hash = e.hash) (h : e'.fmtFloat = e.fmtFloat) (c : Aof.Chore) : Aof.dumpChore e' c = Aof.dumpChore e c := by
  cases c with
  | select i => rfl
  | key it =>
    simp only [Aof.dumpChore]
    have : Aof.dumpObj e' it.key it.obj = Aof.dumpObj e it.key it.obj := by
      cases it.obj with
      | zset z => simp only [Aof.dumpObj, hh, zsetItems_same h]
      | str s => rfl
      | list q => rfl
      | hash d => rfl
      | set s => rfl
    rw [this]

theorem dumpChores_same {e e' : Env} (hh : e'.hash = e.hash) (h : e'.fmtFloat = e.fmtFloat) : ∀ cs, Aof.dumpChores e' cs = Aof.dumpChores e cs
  | [] => rfl
  | c :: cs => by simp only [Aof.dumpChores, dumpChore_same hh h, dumpChores_same hh h cs]

/-! ### The process -/

/-- The goroutine is at work: what it has still to do, and what it has written. -/
def Copying (hash : Bytes → Nat) (ff : F64 → Bytes) (N : Nat) (D : Nat → Exact.Store) (n : Node) : Prop :=
  ∃ rest recs, n.jobs = [⟨rest.map (fun c => ⟨c, true, none⟩), log recs⟩] ∧ ∀ e : Env, e.hash = hash → e.fmtFloat = ff →
    (∀ R, Aof.dumpChores e rest = some R → Exact.Album e D N 0 (recs ++ R)) ∧ (Aof.dumpChores e rest = none → ∃ i k, i < N ∧ Exact.Spoiled (D i) k)

/-- Where the rewrite is. -/
def StageOk (hash : Bytes → Nat) (lower : Bytes → Bytes) (pf : Bytes → Option F64) (ff : F64 → Bytes) (N : Nat) (n : Node) (B : Exact.Clerk) : Prop :=
  match B.stage with
  | .idle => n.jobs = [] ∧ n.done = []
  | .copying => n.done = [] ∧ n.sys.srv.aofRewriteBuf = [] ∧ Copying hash ff N B.book.state.dbs n
  | .ready new => n.jobs = [] ∧ (∃ tmp, n.done = [tmp] ∧ tmp ++ n.sys.srv.aofRewriteBuf = log new) ∧ ∀ r ∈ new, Plain hash lower pf r

structure COk (hash : Bytes → Nat) (lower : Bytes → Bytes) (pf : Bytes → Option F64) (ff : F64 → Bytes) (conf : Conf) (N : Nat) (pw : Bytes) (n : Node) (B : Exact.Clerk) : Prop where
  good  : SysGood hash n.sys
  len   : n.sys.srv.dbs.length = N
  pass  : n.sys.srv.password = pw
  aof   : n.sys.srv.aofEnable = true
  net   : NOk n.net
  state : ShowsSys n.sys B.book.state
  peer  : ∀ fd, (n.sys.sess fd).isSome = (n.net.clients fd).isSome
  out   : ∀ fd, said n.net fd = B.book.out fd
  conf  : n.conf = conf
  cur   : n.cur = Exact.size B.book.file
  base  : n.base = B.base
  task  : TaskOk n
  file  : n.file = log B.book.file
  buf   : n.sys.srv.aofBuf = log B.book.buf
  sel   : n.sys.srv.aofSelect = B.book.sel
  recs  : ∀ r ∈ B.book.file ++ B.book.buf, Plain hash lower pf r
  stage : StageOk hash lower pf ff N n B

/-- The world of the event; nothing left out of the exact reference; nothing happens to the databases while the goroutine is at work; a file that is loaded can be read, and no ZADD in it gives a
score NaN; the process is not killed while it replaces the file. -/
def Prompt (hash : Bytes → Nat) (lower : Bytes → Bytes) (pf : Bytes → Option F64) (ff : F64 → Bytes) (n : Node) : Ev → Prop
  | .request fd e args => World hash lower pf e ∧ e.fmtFloat = ff ∧ Floats e ∧ Exact.Covered (.request fd e args) ∧ n.jobs = []
  | .cron e _ => e.hash = hash ∧ e.fmtFloat = ff ∧ n.jobs = []
  | .work _ e p => e.hash = hash ∧ e.fmtFloat = ff ∧ p = .whole
  | .restart es => (∀ i, World hash lower pf (es i)) ∧ Readable n.file ∧
      ∀ recs, n.file = log recs → ∀ r ∈ recs, ∀ i, commandOf (es i) r = some .zadd → Exact.Usual (es i) .zadd (r.drop 1)
  | .crashInDone _ _ => False
  | _ => True

theorem COk.boot : COk hash lower pf ff conf N pw (boot N pw true conf) .start where
  good := init_good N pw true
  len := by simp [Node.boot, Node.start, Server.init]
  pass := rfl
  aof := rfl
  net := Props.NetP.inv_new.1
  state := Props.ExactP.rel_init (n := N) (pw := pw) (aof := true)
  peer := fun fd => rfl
  out := fun fd => rfl
  conf := rfl
  cur := rfl
  base := rfl
  task := boot_task N pw true conf
  file := rfl
  buf := rfl
  sel := rfl
  recs := fun r hr => by cases hr
  stage := ⟨rfl, rfl⟩

theorem COk.idle {n : Node} {B : Exact.Clerk} (h : COk hash lower pf ff conf N pw n B) (hs : B.stage = .idle) : n.sys.srv.task = .none ∧ n.jobs = [] ∧ n.done = [] := by
  have h1 := h.stage
  unfold StageOk at h1
  rw [hs] at h1
  have h2 := h.task.count
  unfold pending at h2
  rw [h1.1, h1.2] at h2
  refine ⟨?_, h1⟩
  cases ht : n.sys.srv.task with
  | none => rfl
  | aofRewrite => rw [ht] at h2; simp at h2
  | rdb => exact absurd ht h.task.rdb

theorem COk.busy {n : Node} {B : Exact.Clerk} (h : COk hash lower pf ff conf N pw n B) (hs : B.stage ≠ .idle) : n.sys.srv.task = .aofRewrite := by
  refine _root_.Metis.Node.busy h.task ?_
  have h1 := h.stage
  unfold StageOk at h1
  cases hst : B.stage with
  | idle => exact absurd hst hs
  | copying =>
    rw [hst] at h1
    obtain ⟨_, _, rest, recs, hj, _⟩ := h1
    exact Or.inl (by rw [hj]; simp)
  | ready new =>
    rw [hst] at h1
    obtain ⟨_, ⟨tmp, hd, _⟩, _⟩ := h1
    exact Or.inr (by rw [hd]; simp)

theorem size_append (a b : List (List Bytes)) : Exact.size a + UInt64.ofNat (log b).length = Exact.size (a ++ b) := by
  unfold Exact.size
  rw [log_append, List.length_append, UInt64.ofNat_add]

theorem due_grown {cur base : UInt64} : grown conf cur base = true ↔ Exact.Due conf cur base := by
  unfold grown Exact.Due
  simp only [Bool.and_eq_true, decide_eq_true_eq, gt_iff_lt, ge_iff_le, and_assoc]

/-- The goroutine is started. -/
theorem launched {e : Env} (he : e.hash = hash) (hf : e.fmtFloat = ff) {n : Node} {D : Nat → Exact.Store} {cs : List Db} (hg : SrvGood hash n.sys.srv) (hlen : n.sys.srv.dbs.length = N)
    (hD : ∀ i d, n.sys.srv.dbs[i]? = some d → Shows d.view (D i)) (hcs : Server.copyAll e n.sys.srv.dbs = some (n.sys.srv.dbs, cs)) (hsn : n.sys.srv.snapshot = some cs) (hj : n.jobs = []) :
    ∃ job, launch e n = some { n with sys := { n.sys with srv := { n.sys.srv with snapshot := none } }, jobs := [job] } ∧
      Copying hash ff N D { n with sys := { n.sys with srv := { n.sys.srv with snapshot := none } }, jobs := [job] } := by
  obtain ⟨cs', c1, c2, c3⟩ := copyAll_ref e he n.sys.srv.dbs hg
  rw [hcs] at c1
  cases c1
  obtain ⟨ch, p1, p2, p3⟩ := chores_album (e := e) he (D := D) cs 0 (fun j c hc => by
    obtain ⟨d, hd⟩ := get_lt (l := n.sys.srv.dbs) (i := j) (by rw [← c2]; exact lt_get hc)
    obtain ⟨c', k1, k2, k3⟩ := c3 j d hd
    rw [hc] at k1; cases k1
    rw [k3, Nat.zero_add]
    exact ⟨k2, hD j d hd⟩)
  rw [c2, hlen] at p2 p3
  refine ⟨⟨ch.map (fun c => ⟨c, true, none⟩), []⟩, ?_, ch, [], rfl, fun e' h1 h2 => ?_⟩
  · unfold launch
    rw [hsn]
    simp only [p1, Option.bind_eq_bind, Option.bind_some, hj, List.nil_append]
  · rw [dumpChores_same (h1.trans he.symm) (h2.trans hf.symm)]
    refine ⟨fun R hR => album_same (h2.trans hf.symm) N 0 (p2 R hR), fun hn => ?_⟩
    obtain ⟨i, k, hi, hk⟩ := p3.1 hn
    rw [Nat.zero_add] at hk
    exact ⟨i, k, hi, hk⟩

/-- A step of the goroutine. -/
theorem clerk_work (hlow : LowerOk lower) {n n' : Node} {B : Exact.Clerk} {i : Nat} {e : Env} (h : COk hash lower pf ff conf N pw n B) (he : e.hash = hash) (hf : e.fmtFloat = ff)
    (hs : work i e .whole n = some n') : ∃ B', B.Lives conf N pw (.work i e .whole) B' ∧ COk hash lower pf ff conf N pw n' B' := by
  obtain ⟨j, hj, hw⟩ := work_spec hs
  have hst := h.stage
  unfold StageOk at hst
  have htask : TaskOk n' := step_task (ev := .work i e .whole) hs h.task
  cases hB : B.stage with
  | idle => rw [hB] at hst; rw [hst.1] at hj; simp at hj
  | ready new => rw [hB] at hst; rw [hst.1] at hj; simp at hj
  | copying =>
    rw [hB] at hst
    obtain ⟨hd, hrb, rest, recs, hjs, hall⟩ := hst
    rw [hjs] at hj
    obtain ⟨rfl, rfl⟩ : i = 0 ∧ j = ⟨rest.map (fun c => ⟨c, true, none⟩), log recs⟩ := by
      cases i with
      | zero => simp at hj; exact ⟨rfl, hj.symm⟩
      | succ i => simp at hj
    rcases hw with ⟨t, rs, R0, w1, w2, rfl⟩ | ⟨_, w1, w2, rfl⟩ | ⟨t, t', rs, w1, _⟩
    · cases rest with
      | nil => simp at w1
      | cons c rest =>
        simp only [List.map_cons, List.cons.injEq] at w1
        obtain ⟨rfl, rfl⟩ := w1
        have hdump : Aof.dumpChore e c = some R0 := by cases w2 with | whole _ h => exact h
        refine ⟨B, ⟨hB, Or.inl rfl⟩, { h with task := htask, stage := ?_ }⟩
        unfold StageOk
        rw [hB]
        refine ⟨hd, hrb, rest, recs ++ R0, ?_, fun e' h1 h2 => ?_⟩
        · simp only [hjs, List.set_cons_zero, cats_log, log_append]
        · have h3 := hall e' h1 h2
          have h4 : Aof.dumpChore e' c = some R0 := by rw [← hdump]; exact dumpChore_same (h1.trans he.symm) (h2.trans hf.symm) c
          simp only [Aof.dumpChores, h4, Option.bind_eq_bind, Option.bind_some] at h3
          refine ⟨fun R hR => ?_, fun hn => ?_⟩
          · rw [List.append_assoc]
            exact h3.1 _ (by rw [hR]; rfl)
          · exact h3.2 (by rw [hn]; rfl)
    · cases rest with
      | cons c rest => simp at w1
      | nil =>
        have h3 := (hall e he hf).1 [] rfl
        rw [List.append_nil] at h3
        refine ⟨{ B with stage := .ready recs }, ⟨hB, Or.inr ⟨recs, h3, rfl⟩⟩, { h with task := htask, stage := ?_ }⟩
        refine ⟨?_, ⟨log recs, rfl, ?_⟩, album_plain hlow N 0 h3⟩
        · simp [hjs]
        · show log recs ++ n.sys.srv.aofRewriteBuf = log recs
          rw [hrb, List.append_nil]
    · cases w1

/-- A step of the goroutine fails only if there is a sorted set that cannot be written. -/
theorem clerk_stuck {n : Node} {B : Exact.Clerk} {e : Env} (h : COk hash lower pf ff conf N pw n B) (he : e.hash = hash) (hf : e.fmtFloat = ff) (hc : B.stage = .copying)
    (hs : work 0 e .whole n = none) : ∃ i k, i < N ∧ Exact.Spoiled (B.book.state.dbs i) k := by
  have hst := h.stage
  unfold StageOk at hst
  rw [hc] at hst
  obtain ⟨hd, hrb, rest, recs, hjs, hall⟩ := hst
  refine (hall e he hf).2 ?_
  unfold work at hs
  simp only [hjs, List.getElem?_cons_zero, Option.bind_eq_bind, Option.bind_some] at hs
  cases rest with
  | nil => simp [hd] at hs
  | cons c rest =>
    simp only [List.map_cons, Option.isNone_none, if_true] at hs
    simp only [Aof.dumpChores, Option.bind_eq_bind]
    cases hcd : Aof.dumpChore e c with
    | none => rfl
    | some a => rw [hcd] at hs; cases hs

/-! ### Requests -/

/-- BGREWRITEAOF. -/
theorem bg_step {s s' : Sys} {B : Exact.Clerk} {fd : Nat} {e : Env} {args r : List Bytes} (g : SysGood hash s) (he : e.hash = hash) (hR : ShowsSys s B.book.state)
    (hcm : commandOf e args = some .bgrewriteaof) (h : Sys.step s (.request fd e args) = some (s', r)) :
    (B.Asks s.srv.password fd e args ∧ s.srv.task = .none ∧ r = Reply.simple b!"Background append only file rewriting started" ∧
      ∃ cs, Server.copyAll e s.srv.dbs = some (s.srv.dbs, cs) ∧ s'.srv = { s.srv with task := .aofRewrite, snapshot := some cs }) ∨
    (B.Asks s.srv.password fd e args ∧ s.srv.task ≠ .none ∧ r = Reply.simple b!"Background append only file rewriting scheduled" ∧ s'.srv = s.srv) ∨
    (¬ B.Asks s.srv.password fd e args ∧ s'.srv = s.srv) := by
  simp only [Sys.step, Option.bind_eq_bind, Option.bind_eq_some_iff] at h
  obtain ⟨c, hc, ⟨srv', c', r'⟩, h1, h2⟩ := h
  cases h2
  have hcl : B.book.state.client fd = some ⟨c.db, c.auth⟩ := by rw [hR.client, hc]; rfl
  obtain ⟨a0, entry, p1, p2, p3, p4, p5⟩ := named_lookup hcm
  have hca : B.Asks s.srv.password fd e args ↔ accepts .bgrewriteaof args.length ∧ (s.srv.password = [] ∨ c.auth = true) := by
    constructor
    · rintro ⟨c2, q1, _, q3, q4⟩
      rw [hcl] at q1; cases q1
      exact ⟨q3, q4⟩
    · rintro ⟨q3, q4⟩
      exact ⟨_, hcl, hcm, q3, q4⟩
  unfold Server.processCommand at h1
  simp only [p1, p2, Option.bind_eq_bind, Option.bind_some] at h1
  split at h1
  · next hbad =>
    cases h1
    refine Or.inr (Or.inr ⟨fun ha => ?_, rfl⟩)
    have := (Props.KeysP.accepts_iff .bgrewriteaof _).2 (hca.1 ha).1
    rw [p4] at hbad
    rw [this] at hbad; cases hbad
  next hok =>
  have hacc : accepts .bgrewriteaof args.length := (Props.KeysP.accepts_iff .bgrewriteaof _).1 (by rw [← p4]; simpa using hok)
  split at h1
  · next hau =>
    cases h1
    refine Or.inr (Or.inr ⟨fun ha => ?_, rfl⟩)
    rcases (hca.1 ha).2 with h | h
    · exact hau.1 h
    · rw [hau.2.1] at h; cases h
  next hau =>
  have hask : B.Asks s.srv.password fd e args := by
    refine hca.2 ⟨hacc, ?_⟩
    by_contra hn
    rw [not_or] at hn
    refine hau ⟨hn.1, by simpa using hn.2, fun hname => ?_⟩
    have hm := (lookup_mem p2).1
    have := (table_auth entry hm).1 (p5.trans hname)
    rw [p3] at this; cases this
  unfold Server.call at h1
  rw [p3] at h1
  simp only [Server.proc, Server.bgRewriteAof, Option.bind_eq_bind] at h1
  by_cases ht : s.srv.task = .none
  · left
    obtain ⟨cs, k1, _, _⟩ := copyAll_ref e he s.srv.dbs g.srv
    simp only [ht, ne_eq, not_true_eq_false, if_false, Server.startRewrite, k1, Option.bind_eq_bind, Option.bind_some, Int.sub_self, and_false] at h1
    cases h1
    exact ⟨hask, ht, rfl, cs, k1, rfl⟩
  · right; left
    simp only [ht, ne_eq, not_false_eq_true, if_true, Option.bind_some, Int.sub_self, not_true_eq_false, and_false, if_false] at h1
    cases h1
    exact ⟨hask, ht, rfl, rfl⟩

theorem simple_encode (s : Bytes) : (Reply.simple s).flatten = (Value.status s).encode := by
  simp [Reply.simple, Value.encode, Reply.nl, CRLF]

theorem answered {B : Exact.Clerk} {n : Nat} {pw : Bytes} {R R' : Exact.State} {v : Option Value} {fd : Nat} {e : Env} {args : List Bytes}
    (m : Exact.Moves n pw R (.request fd e args) R' v) : ∃ v', v = some v' := by
  cases v with
  | none =>
    exfalso
    unfold Exact.Moves at m
    simp only at m
    split at m
    · exact m
    · obtain ⟨_, _, m⟩ := m; cases m
  | some v' => exact ⟨v', rfl⟩

/-- What a request writes into the log, and whether it begins a rewrite. -/
theorem clerk_log (hlow : LowerOk lower) {s s' : Sys} {fd : Nat} {e : Env} {args : List Bytes} {r : List Bytes} {B : Exact.Clerk} {v : Value} (g : SysGood hash s)
    (w : World hash lower pf e) (haof : s.srv.aofEnable = true) (hR : ShowsSys s B.book.state) (hcov : Exact.Covered (.request fd e args))
    (hbuf : s.srv.aofBuf = log B.book.buf) (hsel : s.srv.aofSelect = B.book.sel)
    (h : Sys.step s (.request fd e args) = some (s', r)) (hv : Says r v) :
    (∃ buf sel, B.book.Writes s.srv.password fd e args v buf sel ∧ s'.srv.aofBuf = log buf ∧ s'.srv.aofSelect = sel ∧
      (∀ x ∈ buf, x ∈ B.book.buf ∨ Rec hash lower pf x) ∧ s'.srv.aofEnable = true) ∧
    ((B.Asks s.srv.password fd e args ∧ s.srv.task = .none ∧ r = Reply.simple b!"Background append only file rewriting started" ∧
      ∃ cs, Server.copyAll e s'.srv.dbs = some (s'.srv.dbs, cs) ∧ s'.srv.snapshot = some cs) ∨
     (s'.srv.snapshot = s.srv.snapshot ∧ (B.Asks s.srv.password fd e args → s.srv.task ≠ .none ∧ r = Reply.simple b!"Background append only file rewriting scheduled"))) := by
  by_cases hbg : commandOf e args = some .bgrewriteaof
  · have hq : ∀ c cmd, Exact.Carried s.srv.password B.book fd e args c cmd → ¬ Exact.Noted e cmd (args.drop 1) (B.book.state.dbs c.db) v := by
      intro c cmd hca hno
      have := hca.2.1
      rw [hbg] at this; cases this
      have := hno.1
      cases this
    have quiet : s'.srv.aofBuf = s.srv.aofBuf → s'.srv.aofSelect = s.srv.aofSelect → s'.srv.aofEnable = s.srv.aofEnable →
        ∃ buf sel, B.book.Writes s.srv.password fd e args v buf sel ∧ s'.srv.aofBuf = log buf ∧ s'.srv.aofSelect = sel ∧
      (∀ x ∈ buf, x ∈ B.book.buf ∨ Rec hash lower pf x) ∧ s'.srv.aofEnable = true :=
      fun h1 h2 h3 => ⟨B.book.buf, B.book.sel, Or.inr ⟨hq, rfl, rfl⟩, h1.trans hbuf, h2.trans hsel, fun x hx => Or.inl hx, h3.trans haof⟩
    rcases bg_step g w.hash hR hbg h with ⟨p1, p2, p3, cs, p4, p5⟩ | ⟨p1, p2, p3, p4⟩ | ⟨p1, p2⟩
    · exact ⟨quiet (by rw [p5]) (by rw [p5]) (by rw [p5]), Or.inl ⟨p1, p2, p3, cs, by rw [p5]; exact p4, by rw [p5]⟩⟩
    · exact ⟨quiet (by rw [p4]) (by rw [p4]) (by rw [p4]), Or.inr ⟨by rw [p4], fun _ => ⟨p2, p3⟩⟩⟩
    · exact ⟨quiet (by rw [p2]) (by rw [p2]) (by rw [p2]), Or.inr ⟨by rw [p2], fun h => absurd h p1⟩⟩
  · obtain ⟨buf, sel, w1, w2, w3, w4, w5, w6, w7⟩ := scribe_log hlow g w haof hR hcov hbg hbuf hsel h hv
    refine ⟨⟨buf, sel, w1, w2, w3, w4, w5⟩, Or.inr ⟨w7, ?_⟩⟩
    rintro ⟨c, hca⟩
    exact absurd hca.2.1 hbg

theorem clerk_request (hlow : LowerOk lower) {n n' : Node} {B : Exact.Clerk} {fd : Nat} {e : Env} {args : List Bytes} (h : COk hash lower pf ff conf N pw n B)
    (hc : Prompt hash lower pf ff n (.request fd e args)) (hh : Node.request fd e args n = some n') :
    ∃ B', B.Lives conf N pw (.request fd e args) B' ∧ COk hash lower pf ff conf N pw n' B' := by
  obtain ⟨hw, hff, hfl, hcov, hjobs⟩ := hc
  obtain ⟨htask, x, b1, b2, b3, b4, b5, b6, b7, b8, b9, _⟩ := request_task hh h.task
  unfold Node.request at hh
  simp only [Option.bind_eq_bind, Option.bind_eq_some_iff] at hh
  obtain ⟨⟨sys, r⟩, h1, net, h2, h3⟩ := hh
  obtain ⟨R, v, m, t, ok⟩ := xs_event h.good (ev := .request fd e args) hw.hash h.state h1 hcov
  obtain ⟨g, e1, e2, e3, _⟩ := step_db h.good (ev := .request fd e args) hw.hash h1
  rw [h.len, h.pass] at m
  obtain ⟨hne, hse⟩ : (∀ x ∈ r, x ≠ []) ∧ ∀ x, (sys.sess x).isSome = (n.sys.sess x).isSome := by
    simp only [Sys.step, Option.bind_eq_bind, Option.bind_eq_some_iff] at h1
    obtain ⟨c, hcs, ⟨srv', c', r'⟩, h1, h1'⟩ := h1
    cases h1'
    refine ⟨(one_process hw.hash hfl h.good.srv h1).1, fun x => ?_⟩
    by_cases hx : x = fd
    · subst hx; simp only [if_true, hcs]; rfl
    · simp only [if_neg hx]
  obtain ⟨s1, s2, s3, s4⟩ := say_all r h.net hne h2
  obtain ⟨v', rfl⟩ := answered (B := B) m
  have ht : r.flatten = v'.encode := t
  obtain ⟨⟨buf, sel, w1, w2, w3, w4, w5⟩, w6⟩ := clerk_log hlow h.good hw h.aof h.state hcov h.buf h.sel h1 ht
  rw [h.pass] at w1 w6
  obtain ⟨o, hcl⟩ : ∃ o, n.net.clients fd = some o := by
    have hs' : (n.sys.sess fd).isSome = true := by
      simp only [Sys.step, Option.bind_eq_bind, Option.bind_eq_some_iff] at h1
      obtain ⟨c, hcs, _⟩ := h1
      rw [hcs]; rfl
    rw [h.peer] at hs'
    exact Option.isSome_iff_exists.1 hs'
  obtain ⟨o', s5, s6⟩ := s4 o hcl
  obtain ⟨add, hadd, hplain⟩ : ∃ add, buf = B.book.buf ++ add ∧ ∀ r ∈ buf, r ∈ B.book.buf ∨ Plain hash lower pf r := by
    rcases w1 with ⟨c, cmd, rs, _, _, _, hb, _⟩ | ⟨_, hb, _⟩
    · exact ⟨_, hb, fun r hr => (w4 r hr).imp id (plain_rec hw)⟩
    · exact ⟨[], by rw [hb, List.append_nil], fun r hr => (w4 r hr).imp id (plain_rec hw)⟩
  -- the new book
  let K : Exact.Scribe := { B.book with state := R, buf, sel, out := fun x => if x = fd then (B.book.out x).map (· ++ v'.encode) else B.book.out x }
  have hK : B.book.Lives N pw (.request fd e args) K := ⟨R, v', buf, sel, m, w1, rfl⟩
  have hans : B.Asks pw fd e args → r = (Reply.simple (match B.stage with | .idle => b!"Background append only file rewriting started" | _ => b!"Background append only file rewriting scheduled")) →
      K.out fd = (B.book.out fd).map (· ++ B.answer.encode) := by
    intro _ hr
    show (if fd = fd then _ else _) = _
    rw [if_pos rfl, ← ht, hr, simple_encode]
    unfold Exact.Clerk.answer
    cases B.stage <;> rfl
  have main : ∀ (js : List Job) (st : Exact.Stage), TaskOk { n with sys := { sys with srv := { sys.srv with snapshot := none } }, net, jobs := js } →
      StageOk hash lower pf ff N { n with sys := { sys with srv := { sys.srv with snapshot := none } }, net, jobs := js } ⟨K, st, B.base⟩ →
      COk hash lower pf ff conf N pw { n with sys := { sys with srv := { sys.srv with snapshot := none } }, net, jobs := js } ⟨K, st, B.base⟩ := by
    intro js st k1 k2
    refine ⟨⟨g.srv, g.sess⟩, e3.trans h.len, e1.trans h.pass, w5, s1, ⟨ok.client, ok.db⟩, fun x => ?_, fun x => ?_, h.conf, h.cur, h.base, k1, h.file, w2, w3, fun x hx => ?_, k2⟩
    · simp only
      rw [hse, h.peer]
      by_cases hx : x = fd
      · subst hx; rw [hcl, s5]; rfl
      · rw [s3 x hx]
    · show said net x = if x = fd then _ else _
      by_cases hx : x = fd
      · subst hx
        rw [if_pos rfl, ← h.out x]
        unfold said
        simp only [s5, hcl, Option.map_some, s2, s6, ht, List.append_assoc]
      · rw [if_neg hx]
        exact (said_other (s3 x hx) (by rw [s2])).trans (h.out x)
    · rcases List.mem_append.1 hx with hx | hx
      · exact h.recs x (List.mem_append_left _ hx)
      · rcases hplain x hx with hx | hx
        · exact h.recs x (List.mem_append_right _ hx)
        · exact hx
  have hfollow : followAll e n.sys.srv.dbs sys.srv.dbs n.jobs = [] := by rw [hjobs]; rfl
  rw [hfollow] at h3
  have hst := h.stage
  unfold StageOk at hst
  -- no rewrite begins
  have still : sys.srv.snapshot = n.sys.srv.snapshot → n' = { n with sys := { sys with srv := { sys.srv with snapshot := none } }, net, jobs := [] } := by
    intro hsn
    rw [h.task.snap] at hsn
    rcases launch_spec h3 with ⟨_, rfl⟩ | ⟨cs, _, hcs, _⟩
    · simp only
      rw [show { sys with srv := { sys.srv with snapshot := none } } = sys by
        obtain ⟨srv, sess⟩ := sys
        simp only at hsn ⊢
        rw [← hsn]]
    · simp only at hcs
      rw [hsn] at hcs; cases hcs
  cases hB : B.stage with
  | copying =>
    rw [hB] at hst
    obtain ⟨_, _, rest, recs, hj, _⟩ := hst
    rw [hjobs] at hj; cases hj
  | idle =>
    obtain ⟨i1, i2, i3⟩ := h.idle hB
    rcases w6 with ⟨q1, q2, q3, cs, q4, q5⟩ | ⟨q1, q2⟩
    · obtain ⟨job, l1, l2⟩ := launched (n := { n with sys, net, jobs := [] }) (D := R.dbs) hw.hash hff g.srv (e3.trans h.len) ok.db q4 q5 rfl
      rw [l1] at h3
      cases h3
      refine ⟨⟨K, .copying, B.base⟩, ⟨hK, rfl, fun ha => hans ha (by rw [hB]; exact q3), ?_⟩, main _ _ htask ⟨i3, ?_, l2⟩⟩
      · rw [hB]; exact ⟨fun _ => rfl, fun hn => absurd q1 hn⟩
      · have hp : n.pending ≠ 1 := by unfold pending; rw [i2, i3]; simp
        rw [if_neg hp] at b2
        exact b2
    · have hna : ¬ B.Asks pw fd e args := fun ha => (q2 ha).1 i1
      have hn' := still q1
      subst hn'
      refine ⟨⟨K, .idle, B.base⟩, ⟨hK, rfl, fun ha => absurd ha hna, ?_⟩, main _ _ htask ⟨rfl, i3⟩⟩
      rw [hB]; exact ⟨fun ha => absurd ha hna, fun _ => rfl⟩
  | ready new =>
    have hbusy := h.busy (by rw [hB]; simp)
    rw [hB] at hst
    obtain ⟨j1, ⟨tmp, j2, j3⟩, j4⟩ := hst
    rcases w6 with ⟨q1, q2, _⟩ | ⟨q1, q2⟩
    · rw [hbusy] at q2; cases q2
    · have hn' := still q1
      subst hn'
      refine ⟨⟨K, .ready (new ++ add), B.base⟩, ⟨hK, rfl, fun ha => hans ha (by rw [hB]; exact (q2 ha).2), ?_⟩, main _ _ htask ⟨rfl, ⟨tmp, j2, ?_⟩, fun r hr => ?_⟩⟩
      · rw [hB]; exact ⟨add, hadd, rfl⟩
      · have hp : n.pending = 1 := by unfold pending; rw [j1, j2]; rfl
        rw [if_pos hp] at b2
        have hx : x = log add := by
          have : sys.srv.aofBuf = n.sys.srv.aofBuf ++ x := b1
          rw [w2, hadd, log_append, h.buf] at this
          exact (List.append_cancel_left this).symm
        show tmp ++ sys.srv.aofRewriteBuf = _
        have b2' : sys.srv.aofRewriteBuf = n.sys.srv.aofRewriteBuf ++ x := b2
        rw [b2', hx, ← List.append_assoc, j3, log_append]
      · rcases List.mem_append.1 hr with hr | hr
        · exact j4 r hr
        · rcases hplain r (by rw [hadd]; exact List.mem_append_right _ hr) with hr | hr
          · exact h.recs r (List.mem_append_right _ hr)
          · exact hr

/-! ### The timer -/

theorem clerk_cron {n n1 : Node} {w : Nat → Bool} {B : Exact.Clerk} {e : Env} {t : Int} (h : COk hash lower pf ff conf N pw n B) (hc : Prompt hash lower pf ff n (.cron e t))
    (hp : n.phase = .timers w) (hh : cron e t n = some n1) :
    ∃ B', B.Lives conf N pw (.cron e t) B' ∧ COk hash lower pf ff conf N pw { n1 with phase := .files w } B' := by
  obtain ⟨hw, hff, hjobs⟩ := hc
  have htask := cron_task hh h.task
  obtain ⟨dbs, n2, h1, h2, h3⟩ := cron_spec hh
  have hst' : Sys.step n.sys (.cron e) = some (⟨{ n.sys.srv with dbs }, n.sys.sess⟩, []) := by
    simp only [Sys.step, h1, Option.bind_eq_bind, Option.bind_some]
  obtain ⟨R, v, m, tl, ok⟩ := xs_event h.good (ev := .cron e) hw h.state hst' trivial
  obtain ⟨g, e1, e2, e3, _⟩ := step_db h.good (ev := .cron e) hw hst'
  rw [h.len, h.pass] at m
  have hv : v = none := m.2.2
  subst hv
  let K : Exact.Scribe := { B.book with state := R }
  have hK : B.book.Lives N pw (.cron e t) K := ⟨R, m, rfl⟩
  have hfollow : followAll e n.sys.srv.dbs dbs n.jobs = [] := by rw [hjobs]; rfl
  rw [hfollow] at h2
  have hst := h.stage
  unfold StageOk at hst
  cases hB : B.stage with
  | copying =>
    rw [hB] at hst
    obtain ⟨_, _, rest, recs, hj, _⟩ := hst
    rw [hjobs] at hj; cases hj
  | idle =>
    obtain ⟨i1, i2, i3⟩ := h.idle hB
    by_cases hd : Exact.Due conf (Exact.size B.book.file) B.base
    · rw [if_pos ⟨i1, by rw [h.conf, h.cur, h.base]; exact due_grown.2 hd⟩] at h2
      obtain ⟨srv, q1, q2⟩ := h2
      obtain ⟨cs, k1, _, _⟩ := copyAll_ref e hw dbs g.srv
      simp only [Server.startRewrite, i1, ne_eq, not_true_eq_false, if_false, k1, Option.bind_eq_bind, Option.bind_some, Option.some.injEq] at q1
      subst q1
      obtain ⟨job, l1, l2⟩ := launched (n := { n with sys := { n.sys with srv := { n.sys.srv with task := .aofRewrite, dbs := dbs, snapshot := some cs } }, jobs := [] })
        (D := R.dbs) hw hff g.srv (e3.trans h.len) ok.db k1 rfl rfl
      rw [l1] at q2
      cases q2
      rcases h3 with ⟨_, hn1⟩ | ⟨tmp, rest, hdn, _⟩
      swap
      · simp only [i3] at hdn; cases hdn
      subst hn1
      refine ⟨⟨K, .copying, B.base⟩, ⟨K, hK, ?_⟩, ⟨⟨g.srv, g.sess⟩, e3.trans h.len, h.pass, h.aof, h.net, ⟨ok.client, ok.db⟩, h.peer, h.out, h.conf, h.cur, h.base,
        ⟨htask.count, htask.rdb, htask.snap, htask.rbuf⟩, h.file, h.buf, h.sel, h.recs, ⟨i3, h.task.rbuf i1, l2⟩⟩⟩
      rw [hB]
      exact ⟨rfl, rfl, fun _ => rfl, fun hn => absurd hd hn⟩
    · rw [if_neg (by rintro ⟨_, hx⟩; rw [h.conf, h.cur, h.base] at hx; exact hd (due_grown.1 hx))] at h2
      subst h2
      rcases h3 with ⟨_, hn1⟩ | ⟨tmp, rest, hdn, _⟩
      swap
      · simp only [i3] at hdn; cases hdn
      subst hn1
      refine ⟨⟨K, .idle, B.base⟩, ⟨K, hK, ?_⟩, ⟨⟨g.srv, g.sess⟩, e3.trans h.len, h.pass, h.aof, h.net, ⟨ok.client, ok.db⟩, h.peer, h.out, h.conf, h.cur, h.base,
        ⟨htask.count, htask.rdb, htask.snap, htask.rbuf⟩, h.file, h.buf, h.sel, h.recs, ⟨rfl, i3⟩⟩⟩
      rw [hB]
      exact ⟨rfl, rfl, fun hn => absurd hn hd, fun _ => rfl⟩
  | ready new =>
    have hbusy := h.busy (by rw [hB]; simp)
    rw [hB] at hst
    obtain ⟨j1, ⟨tmp, j2, j3⟩, j4⟩ := hst
    rw [if_neg (by rw [hbusy]; simp)] at h2
    subst h2
    rcases h3 with ⟨hdn, _⟩ | ⟨tmp', rest, hdn, hn1⟩
    · simp only [j2] at hdn; cases hdn
    simp only [j2, List.cons.injEq] at hdn
    obtain ⟨rfl, rfl⟩ := hdn
    obtain ⟨f1, f2, f3, f4, f5, f6, f7, f8, f9⟩ := finish_same t tmp { { n with sys := { n.sys with srv := { n.sys.srv with dbs := dbs } }, jobs := [] } with done := [] }
    rw [← hn1] at f1 f2 f3 f4 f5 f6 f7 f8 f9
    simp only [j3] at f4 f5 f6
    refine ⟨⟨{ K with file := new }, .idle, Exact.size new⟩, ⟨K, hK, ?_⟩, ?_⟩
    · rw [hB]
    · constructor
      · show SysGood hash n1.sys
        rw [f1]; exact ⟨g.srv, g.sess⟩
      · show n1.sys.srv.dbs.length = N
        rw [f1]; exact e3.trans h.len
      · show n1.sys.srv.password = pw
        rw [f1]; exact h.pass
      · show n1.sys.srv.aofEnable = true
        rw [f1]; exact h.aof
      · show NOk n1.net
        rw [f2]; exact h.net
      · show ShowsSys n1.sys R
        rw [f1]; exact ⟨ok.client, ok.db⟩
      · intro fd
        show (n1.sys.sess fd).isSome = (n1.net.clients fd).isSome
        rw [f1, f2]; exact h.peer fd
      · intro fd
        show said n1.net fd = B.book.out fd
        rw [f2]; exact h.out fd
      · show n1.conf = conf
        rw [f3]; exact h.conf
      · exact f5
      · exact f6
      · exact ⟨htask.count, htask.rdb, htask.snap, htask.rbuf⟩
      · exact f4
      · show n1.sys.srv.aofBuf = log B.book.buf
        rw [f1]; exact h.buf
      · show n1.sys.srv.aofSelect = B.book.sel
        rw [f1]; exact h.sel
      · intro r hr
        rcases List.mem_append.1 hr with hr | hr
        · exact j4 r hr
        · exact h.recs r (List.mem_append_right _ hr)
      · exact ⟨f7, f8⟩

/-! ### Restarts -/

theorem COk.loads {n : Node} {B : Exact.Clerk} (h : COk hash lower pf ff conf N pw n B) {es : Nat → Env} (hc : Prompt hash lower pf ff n (.restart es)) :
    Records B.book.file ∧ Whole B.book.file ∧ Fine es B.book.file ∧ ∀ i r, B.book.file[i]? = some r → commandOf (es i) r ≠ some .bgrewriteaof := by
  obtain ⟨hw, hr, hz⟩ := hc
  have hm : ∀ r ∈ B.book.file, Plain hash lower pf r := fun r hr => h.recs r (List.mem_append_left _ hr)
  have h1 : Records B.book.file := records_of_log (fun r hr => (hm r hr).1) (by rw [← h.file]; exact hr.1)
  refine ⟨h1, hr.2 _ h1 h.file, fun i r hx => ⟨(hm r (List.mem_of_getElem? hx)).1, fun cmd hcm => ?_⟩, fun i r hx hcm => ?_⟩
  · obtain ⟨a, b, c⟩ := (hm r (List.mem_of_getElem? hx)).2 _ (hw i) cmd hcm
    refine ⟨a, ?_⟩
    by_cases hcz : cmd = .zadd
    · subst hcz
      exact hz _ h.file r (List.mem_of_getElem? hx) i hcm
    · exact c hcz
  · exact ((hm r (List.mem_of_getElem? hx)).2 _ (hw i) _ hcm).2.1 rfl

theorem clerk_restart (hN : N ≠ 0) {n n' : Node} {B : Exact.Clerk} {es : Nat → Env} (h : COk hash lower pf ff conf N pw n B) (hc : Prompt hash lower pf ff n (.restart es))
    (hs : restart es n = some n') : ∃ B', B.Lives conf N pw (.restart es) B' ∧ COk hash lower pf ff conf N pw n' B' := by
  obtain ⟨r1, r2, r3, r4⟩ := h.loads hc
  have htask := restart_task hs
  obtain ⟨srv, f0, haof, hpw, h2, h3⟩ := restart_spec hs
  rw [if_pos h.aof, h.len, h.pass, h.aof, h.file, Props.AofLoadP.C45_partial _ r1 r2] at h3
  obtain ⟨⟨srv', s'⟩, h4, rfl⟩ := Option.map_eq_some_iff.1 h3
  obtain ⟨D, t, ok, l⟩ := load_run _ (LOk.init hN) (fun i => (hc.1 i).hash) r3 h4
  have hlen : (Server.init N pw true).dbs.length = N := by simp [Server.init]
  rw [hlen] at t l
  obtain ⟨g, hR⟩ := ok.idle
  obtain ⟨e1, e2, e3⟩ := replay_frame _ r4 h4
  have hn' : n' = start n.conf n.file srv' := by
    rcases launch_spec h2 with ⟨_, rfl⟩ | ⟨cs, _, hcs, _⟩
    · rfl
    · simp only [Node.start] at hcs
      rw [e3] at hcs; cases hcs
  subst hn'
  have hae : srv'.aofEnable = true := haof.trans h.aof
  refine ⟨⟨⟨⟨D, fun _ => none⟩, B.book.file, [], 0, fun _ => none⟩, .idle, 0⟩, ⟨⟨D, _, t, rfl⟩, rfl, rfl⟩, ⟨g, l, hpw.trans h.pass, hae, Props.NetP.inv_new.1, hR, fun _ => rfl, fun _ => rfl,
    h.conf, ?_, rfl, htask, h.file, f0.buf, e1, fun r hr => h.recs r (List.mem_append_left _ (by simpa using hr)), ⟨rfl, rfl⟩⟩⟩
  show (if srv'.aofEnable then UInt64.ofNat n.file.length else 0) = _
  rw [if_pos hae, h.file]; rfl

/-! ### All events -/

/-- Nothing about the databases or the log has changed. -/
theorem StageOk.keep {n n' : Node} {B B' : Exact.Clerk} (h : StageOk hash lower pf ff N n B) (h1 : n'.jobs = n.jobs) (h2 : n'.done = n.done)
    (h3 : n'.sys.srv.aofRewriteBuf = n.sys.srv.aofRewriteBuf) (h4 : B'.stage = B.stage) (h5 : B'.book.state.dbs = B.book.state.dbs) : StageOk hash lower pf ff N n' B' := by
  unfold StageOk at *
  rw [h4, h1, h2, h3, h5]
  cases hB : B.stage with
  | idle => rw [hB] at h; exact h
  | ready new => rw [hB] at h; exact h
  | copying =>
    rw [hB] at h
    obtain ⟨a, b, rest, recs, c, d⟩ := h
    exact ⟨a, b, rest, recs, h1.trans c, d⟩

theorem clerk_step (hlow : LowerOk lower) (hN : N ≠ 0) {n n' : Node} {B : Exact.Clerk} {ev : Ev} (h : COk hash lower pf ff conf N pw n B) (hc : Prompt hash lower pf ff n ev)
    (hs : step n ev = some n') : ∃ B', B.Lives conf N pw ev B' ∧ COk hash lower pf ff conf N pw n' B' := by
  have htask : TaskOk n' := step_task hs h.task
  cases ev with
  | sleep t =>
    cases step_is hs with
    | quiet hq => cases hq
    | sleep hp =>
      obtain ⟨g1, g2, g3, g4, g5, g6, _, g8, g9⟩ := flush_same t n
      refine ⟨⟨{ B.book with file := B.book.file ++ B.book.buf, buf := [] }, B.stage, B.base⟩, ⟨rfl, rfl, rfl⟩, ?_⟩
      constructor
      · show SysGood hash (flush t n).sys
        rw [g8]; exact ⟨h.good.srv, h.good.sess⟩
      · show (flush t n).sys.srv.dbs.length = N
        rw [g8]; exact h.len
      · show (flush t n).sys.srv.password = pw
        rw [g8]; exact h.pass
      · show (flush t n).sys.srv.aofEnable = true
        rw [g8]; exact h.aof
      · show NOk (flush t n).net
        rw [g1]; exact h.net
      · show ShowsSys (flush t n).sys B.book.state
        rw [g8]; exact ⟨h.state.client, h.state.db⟩
      · intro fd
        show ((flush t n).sys.sess fd).isSome = ((flush t n).net.clients fd).isSome
        rw [g8, g1]; exact h.peer fd
      · intro fd
        show said (flush t n).net fd = B.book.out fd
        rw [g1]; exact h.out fd
      · show (flush t n).conf = conf
        rw [g2]; exact h.conf
      · show (flush t n).cur = _
        rw [g9, h.cur, h.buf]; exact size_append _ _
      · show (flush t n).base = _
        rw [g4]; exact h.base
      · exact htask
      · show (flush t n).file = log (B.book.file ++ B.book.buf)
        rw [g3, h.file, h.buf, log_append]
      · show (flush t n).sys.srv.aofBuf = log []
        rw [g8]; rfl
      · show (flush t n).sys.srv.aofSelect = B.book.sel
        rw [g8]; exact h.sel
      · intro r hr
        exact h.recs r (by simpa using hr)
      · exact h.stage.keep g5 g6 (by show (flush t n).sys.srv.aofRewriteBuf = _; rw [g8]) rfl rfl
  | cron e t =>
    cases step_is hs with
    | quiet hq => cases hq
    | cron hp hh => exact clerk_cron h hc hp hh
  | noCron =>
    simp only [step] at hs
    split at hs
    · cases hs; exact ⟨B, ⟨rfl, rfl, rfl⟩, { h with task := htask, stage := h.stage.keep rfl rfl rfl rfl rfl }⟩
    · cases hs
  | turn =>
    simp only [step] at hs
    split at hs
    · cases hs; exact ⟨B, ⟨rfl, rfl, rfl⟩, { h with task := htask, stage := h.stage.keep rfl rfl rfl rfl rfl }⟩
    · cases hs
  | work i e p =>
    obtain ⟨h1, h2, rfl⟩ := hc
    exact clerk_work hlow h h1 h2 hs
  | accept fd =>
    simp only [step] at hs
    split at hs
    swap; · cases hs
    simp only [Option.bind_eq_bind, Option.bind_eq_some_iff] at hs
    obtain ⟨net, h1, ⟨sys, r⟩, h2, h3⟩ := hs
    cases h3
    have hn : n.net.clients fd = none := by
      simp only [Net.step] at h1
      split at h1
      · cases h1
      next hn => simpa using hn
    simp only [Net.step, hn] at h1
    cases h1
    obtain ⟨k1, k2, k3, k4⟩ := accept_ok h.net hn
    obtain ⟨g, _⟩ := step_db h.good (ev := .connect fd) trivial h2
    have hsys : sys = { n.sys with sess := fun x => if x = fd then some Session.new else n.sys.sess x } := by
      simp only [Sys.step] at h2
      split at h2
      · cases h2
      · cases h2; rfl
    subst hsys
    refine ⟨⟨{ B.book with state := B.book.state.know fd (some ⟨0, false⟩), out := fun x => if x = fd then some [] else B.book.out x }, B.stage, B.base⟩, ⟨rfl, rfl, rfl⟩,
      ⟨g, h.len, h.pass, h.aof, k1, ExactSim.rel_know h.state fd (some Session.new), fun x => ?_, fun x => ?_,
      h.conf, h.cur, h.base, htask, h.file, h.buf, h.sel, h.recs, h.stage.keep rfl rfl rfl rfl rfl⟩⟩
    · by_cases hx : x = fd
      · subst hx
        simp only [if_true]
        rw [k2]; rfl
      · simp only [if_neg hx]
        rw [(k4 x hx).1]; exact h.peer x
    · by_cases hx : x = fd
      · subst hx
        simp only [if_true]
        unfold said
        rw [k2, k3]; rfl
      · simp only [if_neg hx]
        exact (said_other (k4 x hx).1 (k4 x hx).2).trans (h.out x)
  | close fd =>
    simp only [step] at hs
    split at hs
    swap; · cases hs
    simp only [Option.bind_eq_bind, Option.bind_eq_some_iff] at hs
    obtain ⟨net, h1, ⟨sys, r⟩, h2, h3⟩ := hs
    cases h3
    simp only [Net.step] at h1
    split at h1
    swap; · cases h1
    cases h1
    obtain ⟨k1, k2, k3⟩ := free_ok h.net fd
    obtain ⟨g, _⟩ := step_db h.good (ev := .close fd) trivial h2
    cases h2
    refine ⟨⟨B.book.drop fd, B.stage, B.base⟩, ⟨rfl, rfl, rfl⟩, ⟨g, h.len, h.pass, h.aof, k1, ExactSim.rel_know h.state fd none, fun x => ?_, fun x => ?_,
      h.conf, h.cur, h.base, htask, h.file, h.buf, h.sel, h.recs, h.stage.keep rfl rfl rfl rfl rfl⟩⟩
    · by_cases hx : x = fd
      · subst hx
        simp only [if_true]
        rw [k2]; rfl
      · simp only [if_neg hx]
        rw [(k3 x hx).1]; exact h.peer x
    · simp only [Exact.Scribe.drop]
      by_cases hx : x = fd
      · subst hx
        simp only [if_true]
        unfold said
        rw [k2]; rfl
      · simp only [if_neg hx]
        exact (said_other (k3 x hx).1 (k3 x hx).2).trans (h.out x)
  | writable fd rs =>
    simp only [step] at hs
    split at hs
    swap; · cases hs
    split at hs
    swap; · cases hs
    simp only [Option.bind_eq_bind, Option.bind_eq_some_iff] at hs
    obtain ⟨net, h1, h2⟩ := hs
    have h1' : Net.writable n.net fd rs = some net := h1
    obtain ⟨o, t, a1, a2, a3, a4, a5⟩ := writable_ok h.net h1'
    rcases a5 with ⟨o', c1, c2⟩ | ⟨c1, _⟩
    · rw [c1] at h2
      simp only [Option.isSome_some, if_true] at h2
      cases h2
      refine ⟨B, ⟨Or.inl rfl, rfl, rfl⟩, { h with net := a2, task := htask, state := ⟨h.state.client, h.state.db⟩, stage := h.stage.keep rfl rfl rfl rfl rfl, peer := fun x => ?_, out := fun x => ?_ }⟩
      · by_cases hx : x = fd
        · subst hx
          rw [c1]
          exact (h.peer x).trans (by rw [a1]; rfl)
        · rw [(a4 x hx).1]; exact h.peer x
      · by_cases hx : x = fd
        · subst hx
          rw [← h.out x]
          unfold said
          simp only [a1, c1, Option.map_some, a3, List.append_assoc, c2]
        · exact (said_other (a4 x hx).1 (a4 x hx).2).trans (h.out x)
    · rw [c1] at h2
      simp only [Option.isSome_none, Bool.false_eq_true, if_false] at h2
      cases h2
      refine ⟨⟨B.book.drop fd, B.stage, B.base⟩, ⟨Or.inr ⟨?_, rfl⟩, rfl, rfl⟩, ⟨⟨h.good.srv, fun x c hx => ?_⟩, h.len, h.pass, h.aof, a2, ExactSim.rel_know h.state fd none,
        fun x => ?_, fun x => ?_, h.conf, h.cur, h.base, htask, h.file, h.buf, h.sel, h.recs, h.stage.keep rfl rfl rfl rfl rfl⟩⟩
      · simp only [Net.writable, a1, Option.bind_eq_bind, Option.bind_some] at h1'
        split at h1'
        next o' b hsl =>
          exfalso
          split at h1' <;> cases h1' <;> simp at c1
        · cases h1'; simp at c1
        next b hsl => exact Props.WireP.sendLoop_fails _ _ _ _ _ hsl
        · cases h1'
      · simp only at hx
        split at hx
        · cases hx
        · exact h.good.sess x c hx
      · by_cases hx : x = fd
        · subst hx
          simp only [if_true]
          rw [c1]; rfl
        · simp only [if_neg hx]
          rw [(a4 x hx).1]; exact h.peer x
      · simp only [Exact.Scribe.drop]
        by_cases hx : x = fd
        · subst hx
          simp only [if_true]
          unfold said
          rw [c1]; rfl
        · simp only [if_neg hx]
          exact (said_other (a4 x hx).1 (a4 x hx).2).trans (h.out x)
  | request fd e args =>
    cases step_is hs with
    | quiet hq => cases hq
    | request hp hh => exact clerk_request hlow h hc hh
  | restart es =>
    cases step_is hs with
    | quiet hq => cases hq
    | restart hh => exact clerk_restart hN h hc hh
  | crashInDone m es => cases hc

/-- A request is answered if the server survives the command itself. -/
theorem clerk_total {n : Node} {B : Exact.Clerk} (hlow : LowerOk lower) (h : COk hash lower pf ff conf N pw n B) {fd : Nat} {e : Env} {args : List Bytes}
    (hc : Prompt hash lower pf ff n (.request fd e args)) {p : Sys × List Bytes} (h1 : Sys.step n.sys (.request fd e args) = some p) : ∃ n', Node.request fd e args n = some n' := by
  obtain ⟨hw, hff, hfl, hcov, hjobs⟩ := hc
  obtain ⟨sys, r⟩ := p
  obtain ⟨R, v, m, t, ok⟩ := xs_event h.good (ev := .request fd e args) hw.hash h.state h1 hcov
  obtain ⟨g, e1, e2, e3, _⟩ := step_db h.good (ev := .request fd e args) hw.hash h1
  obtain ⟨v', rfl⟩ := answered (B := B) m
  obtain ⟨_, w6⟩ := clerk_log hlow h.good hw h.aof h.state hcov h.buf h.sel h1 t
  have h1' := h1
  simp only [Sys.step, Option.bind_eq_bind, Option.bind_eq_some_iff] at h1
  obtain ⟨c, hcs, ⟨srv', c', r'⟩, h2, h3⟩ := h1
  cases h3
  obtain ⟨net, hn⟩ := Props.WireP.say_total r' h.net (fd := fd) (by rw [← h.peer, hcs]; rfl) (one_process hw.hash hfl h.good.srv h2).1
  unfold Node.request
  simp only [h1', hn, Option.bind_eq_bind, Option.bind_some]
  rw [show followAll e n.sys.srv.dbs srv'.dbs n.jobs = [] by rw [hjobs]; rfl]
  rcases w6 with ⟨q1, q2, q3, cs, q4, q5⟩ | ⟨q1, q2⟩
  · obtain ⟨job, l1, _⟩ := launched (n := { n with sys := ⟨srv', fun x => if x = fd then some c' else n.sys.sess x⟩, net, jobs := [] }) (D := R.dbs) hw.hash hff g.srv (e3.trans h.len) ok.db q4 q5 rfl
    exact ⟨_, l1⟩
  · unfold launch
    simp only at q1
    simp only
    rw [q1, h.task.snap]
    exact ⟨_, rfl⟩

end Metis.ClerkSim
