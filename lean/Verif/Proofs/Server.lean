import Verif.Proofs.Sys
import Verif.Proofs.Reply
/-! Lemmas for the properties of the server as a whole. -/
set_option linter.unusedSectionVars false
set_option linter.unusedSimpArgs false
set_option linter.unusedVariables false
namespace Metis
open Spec
variable {hash : Bytes → Nat}

/-- The value stored under `k` in database `i`. -/
def Sys.val (s : Sys) (i : Nat) (k : Bytes) : Option AObj := (s.srv.dbs[i]?).bind (fun d => d.view.v k)
/-- The deadline of `k` in database `i`. -/
def Sys.deadline (s : Sys) (i : Nat) (k : Bytes) : Option Int := (s.srv.dbs[i]?).bind (fun d => d.view.t k)

theorem val_eq {s : Sys} {i : Nat} {d : Db} (h : s.srv.dbs[i]? = some d) (k : Bytes) : s.val i k = d.view.v k := by simp [Sys.val, h]
theorem deadline_eq {s : Sys} {i : Nat} {d : Db} (h : s.srv.dbs[i]? = some d) (k : Bytes) : s.deadline i k = d.view.t k := by
  simp [Sys.deadline, h]

/-- The connection may run commands. -/
def Allowed (srv : Server) (c : Session) : Prop := srv.password = [] ∨ c.auth = true

theorem named_lookup {e : Env} {args : List Bytes} {cmd : Cmd} (h : commandOf e args = some cmd) :
    ∃ a0 entry, args[0]? = some a0 ∧ lookupCommand (e.lower a0) = some entry ∧ entry.proc = cmd ∧ entry.arity = arity cmd ∧
      entry.name = e.lower a0 := by
  unfold commandOf at h
  simp only [Option.bind_eq_some_iff] at h
  obtain ⟨a0, h1, h2⟩ := h
  rw [← lookup_named] at h2
  cases hl : lookupCommand (e.lower a0) with
  | none => rw [hl] at h2; cases h2
  | some entry =>
    rw [hl] at h2
    cases h2
    obtain ⟨hm, hn⟩ := lookup_mem hl
    exact ⟨a0, entry, h1, hl, rfl, table_arity _ hm, hn⟩

theorem proc_call {e : Env} {args : List Bytes} {cmd : Cmd} {srv : Server} {c : Session} (h : commandOf e args = some cmd)
    (hok : Server.badArity args.length (arity cmd) = false) (ha : Allowed srv c) :
    ∃ a0 entry, args[0]? = some a0 ∧ lookupCommand (e.lower a0) = some entry ∧ entry.proc = cmd ∧
      Server.processCommand e args srv c = Server.call e entry args srv c := by
  obtain ⟨a0, entry, h1, h2, h3, h4, h5⟩ := named_lookup h
  refine ⟨a0, entry, h1, h2, h3, ?_⟩
  unfold Server.processCommand
  simp only [h1, h2, Option.bind_eq_bind, Option.bind_some]
  rw [h4, hok]
  simp only [Bool.false_eq_true, if_false]
  rw [if_neg]
  rintro ⟨p1, p2, _⟩
  rcases ha with ha | ha
  · exact p1 ha
  · rw [ha] at p2; cases p2

/-- The clock of an event. -/
def Event.now : Event → Option Int
  | .request _ e _ => some e.now
  | .cron e => some e.now
  | _ => none

/-- The event is a write that names `k`, executed in database `i`. -/
def Writes (s : Sys) (i : Nat) (k : Bytes) : Event → Prop
  | .request fd e args => ∃ c cmd, s.sess fd = some c ∧ c.db = i ∧ commandOf e args = some cmd ∧ writes cmd = true ∧ k ∈ keysOf cmd args
  | _ => False

/-- The deadline `t` has passed at the time of the event. -/
def Passed (t : Option Int) (ev : Event) : Prop := ∃ d now, t = some d ∧ ev.now = some now ∧ d < now

theorem writes_not {c : Cmd} (h : writes c = true) : c ≠ .keys ∧ c ≠ .randomget := by
  constructor <;> (intro hc; subst hc; cases h)

theorem expired_passed {e : Env} {d : AS} {k : Bytes} (h : A.expired e d k = true) : ∃ dl, d.t k = some dl ∧ dl < e.now := by
  unfold A.expired at h
  split at h
  · next dl hd => exact ⟨dl, hd, by simpa using h⟩
  · cases h

/-- An event that is no write naming `k` leaves it alone, unless it has expired. -/
theorem moved_keep {s : Sys} {i : Nat} {d d' : AS} {r : List Bytes} {ev : Event} {k : Bytes} (h : Moved s i d d' r ev)
    (hw : ¬ Writes s i k ev) : (d'.v k = d.v k ∧ d'.t k = d.t k) ∨ (Passed (d.t k) ev ∧ d'.v k = none ∧ d'.t k = none) := by
  cases h with
  | same h => subst h; exact Or.inl ⟨rfl, rfl⟩
  | @cron e h =>
    rcases h k with h | ⟨h1, h2, h3⟩
    · exact Or.inl h
    · obtain ⟨dl, p, q⟩ := expired_passed h1
      exact Or.inr ⟨⟨dl, e.now, p, rfl, q⟩, h2, h3⟩
  | @request fd e args c hc hi cmd hcmd hok hauth a h hd hr =>
    subst hd
    cases hwr : writes cmd with
    | false =>
      have hrd : Swept e d a.s := by
        have := (reads h hwr).1
        exact this
      rcases hrd k with h | ⟨h1, h2, h3⟩
      · exact Or.inl h
      · obtain ⟨dl, p, q⟩ := expired_passed h1
        exact Or.inr ⟨⟨dl, e.now, p, rfl, q⟩, h2, h3⟩
    | true =>
      obtain ⟨n1, n2⟩ := writes_not hwr
      exact Or.inl (frame h n1 n2 k (fun hk => hw ⟨c, cmd, hc, hi, hcmd, hwr, hk⟩))

/-- No event of the history is a write naming `k` in database `i`, or comes after the deadline `t`. -/
def Untouched (i : Nat) (k : Bytes) (t : Option Int) : Sys → List Event → Prop
  | _, [] => True
  | s, ev :: rest => ¬ Writes s i k ev ∧ ¬ Passed t ev ∧ ∀ s' r, Sys.step s ev = some (s', r) → Untouched i k t s' rest

theorem get_of_len {α : Type} {l l' : List α} (h : l'.length = l.length) {i : Nat} (hn : l[i]? = none) : l'[i]? = none := by
  rw [List.getElem?_eq_none_iff] at hn ⊢; omega

theorem step_keep {s s' : Sys} {ev : Event} {r : List Bytes} (g : SysGood hash s) (he : EvOk hash ev) (h : Sys.step s ev = some (s', r))
    {i : Nat} {k : Bytes} (hw : ¬ Writes s i k ev) :
    (s'.val i k = s.val i k ∧ s'.deadline i k = s.deadline i k) ∨
      (Passed (s.deadline i k) ev ∧ s'.val i k = none ∧ s'.deadline i k = none) := by
  obtain ⟨_, _, _, hlen, hm⟩ := step_db g he h
  cases hd : s.srv.dbs[i]? with
  | none =>
    have := get_of_len hlen hd
    exact Or.inl (by simp [Sys.val, Sys.deadline, hd, this])
  | some d =>
    obtain ⟨d', h1, h2, h3⟩ := hm i d hd
    rw [val_eq h1, val_eq hd, deadline_eq h1, deadline_eq hd]
    exact moved_keep h3 hw

theorem run_keep {i : Nat} {k : Bytes} : ∀ (evs : List Event) {s s' : Sys} {rs}, SysGood hash s → (∀ ev ∈ evs, EvOk hash ev) →
    Sys.run s evs = some (s', rs) → Untouched i k (s.deadline i k) s evs → s'.val i k = s.val i k ∧ s'.deadline i k = s.deadline i k
  | [], _, _, _, _, _, h, _ => by cases h; exact ⟨rfl, rfl⟩
  | ev :: rest, s, s', rs, g, he, h, hu => by
    obtain ⟨s1, r, rs', h1, h2, _⟩ := run_cons h
    obtain ⟨u1, u2, u3⟩ := hu
    obtain ⟨g1, _⟩ := step_db g (he ev (by simp)) h1
    rcases step_keep g (he ev (by simp)) h1 u1 with ⟨k1, k2⟩ | ⟨p, _⟩
    · have := run_keep rest g1 (fun e h => he e (by simp [h])) h2 (k2 ▸ u3 s1 r h1)
      exact ⟨this.1.trans k1, this.2.trans k2⟩
    · exact (u2 p).elim

/-- Processing a request that runs a database command. -/
theorem step_of {s : Sys} {fd : Nat} {e : Env} {args : List Bytes} {c : Session} {cmd : Cmd} {f : _} {a : AOut}
    (g : SysGood hash s) (he : e.hash = hash) (hc : s.sess fd = some c) (hal : Allowed s.srv c) (hcmd : commandOf e args = some cmd)
    (hok : Server.badArity args.length (arity cmd) = false) (hf : dbProc cmd = some f)
    {d : Db} (hd : s.srv.dbs[c.db]? = some d) {o : Out} (ho : f e args d = some o) (hr : Rel hash o a)
    (hrec : a.dirty ≠ 0 → ∃ b a0, args[0]? = some a0 ∧ Aof.record e (e.lower a0) args = some b) :
    ∃ s' r, Sys.step s (.request fd e args) = some (s', r) ∧ r = o.reply ∧
      s'.srv.dbs = s.srv.dbs.set c.db o.db ∧ s'.srv.dirty = s.srv.dirty + a.dirty ∧ (a.dirty = 0 → s'.srv.aofBuf = s.srv.aofBuf) ∧
      s'.sess fd = some c ∧ ∀ x, s'.sess x = s.sess x := by
  obtain ⟨a0, entry, h1, h2, h3, h4⟩ := proc_call hcmd hok hal
  have hn := (lookup_mem h2).2
  have hsess : ∀ x, (if x = fd then some c else s.sess x) = s.sess x := by
    intro x; split
    · next h => rw [h, hc]
    · rfl
  have hproc : Server.proc entry.proc e args s.srv c =
      some ({ s.srv with dbs := s.srv.dbs.set c.db o.db, dirty := s.srv.dirty + o.dirty }, c, o.reply) := by
    rw [h3, proc_db hf]; simp [Server.onDb, hd, ho]
  by_cases hz : a.dirty = 0
  · refine ⟨⟨{ s.srv with dbs := s.srv.dbs.set c.db o.db, dirty := s.srv.dirty + o.dirty }, fun x => if x = fd then some c else s.sess x⟩,
      o.reply, ?_, rfl, rfl, by simp [hr.dirty], fun _ => rfl, by simp, hsess⟩
    simp only [Sys.step, hc, h4, Server.call, hproc, Option.bind_eq_bind, Option.bind_some]
    rw [if_neg (by rintro ⟨_, q⟩; rw [hr.dirty, hz] at q; simp at q)]
    rfl
  · obtain ⟨b, a0', h5, h6⟩ := hrec hz
    rw [h1] at h5; cases h5
    by_cases hen : s.srv.aofEnable = true
    · have hfeed : ∃ srv', Aof.feed e entry.name c.db args { s.srv with dbs := s.srv.dbs.set c.db o.db, dirty := s.srv.dirty + o.dirty } = some srv' := by
        unfold Aof.feed; rw [hn, h6]; exact ⟨_, rfl⟩
      obtain ⟨srv', hfeed⟩ := hfeed
      obtain ⟨q1, q2, q3, _⟩ := feed_ref hfeed
      refine ⟨⟨srv', fun x => if x = fd then some c else s.sess x⟩, o.reply, ?_, rfl, q1, by simp [q3, hr.dirty], fun h => absurd h hz, by simp, hsess⟩
      simp only [Sys.step, hc, h4, Server.call, hproc, Option.bind_eq_bind, Option.bind_some]
      rw [if_pos ⟨hen, by rw [hr.dirty]; omega⟩, hfeed]
      rfl
    · refine ⟨⟨{ s.srv with dbs := s.srv.dbs.set c.db o.db, dirty := s.srv.dirty + o.dirty }, fun x => if x = fd then some c else s.sess x⟩,
        o.reply, ?_, rfl, rfl, by simp [hr.dirty], fun h => absurd h hz, by simp, hsess⟩
      simp only [Sys.step, hc, h4, Server.call, hproc, Option.bind_eq_bind, Option.bind_some]
      rw [if_neg (by rintro ⟨q, _⟩; exact hen q)]
      rfl

/-- Processing a request that runs a deterministic database command. -/
theorem step_det {s : Sys} {fd : Nat} {e : Env} {args : List Bytes} {c : Session} {cmd : Cmd} {f f' : _} {a : AOut}
    (g : SysGood hash s) (he : e.hash = hash) (hc : s.sess fd = some c) (hal : Allowed s.srv c) (hcmd : commandOf e args = some cmd)
    (hok : Server.badArity args.length (arity cmd) = false) (hf : dbProc cmd = some f) (hf' : aFn cmd = some f')
    {d : Db} (hd : s.srv.dbs[c.db]? = some d) (ha : f' e args d.view = some a)
    (hrec : a.dirty ≠ 0 → ∃ b a0, args[0]? = some a0 ∧ Aof.record e (e.lower a0) args = some b) :
    ∃ s' r o, Sys.step s (.request fd e args) = some (s', r) ∧ f e args d = some o ∧ Rel hash o a ∧ r = o.reply ∧
      s'.srv.dbs = s.srv.dbs.set c.db o.db ∧ s'.srv.dirty = s.srv.dirty + a.dirty ∧ (a.dirty = 0 → s'.srv.aofBuf = s.srv.aofBuf) ∧
      s'.sess fd = some c ∧ ∀ x, s'.sess x = s.sess x := by
  have hr := det_ref e he args (g.srv _ _ hd) hf hf'
  rw [ha] at hr
  cases ho : f e args d with
  | none => rw [ho] at hr; exact hr.elim
  | some o =>
    rw [ho] at hr
    obtain ⟨s', r, h1, h2⟩ := step_of g he hc hal hcmd hok hf hd ho hr hrec
    exact ⟨s', r, o, h1, rfl, hr, h2⟩

/-- What a request that runs a database command does. -/
theorem step_request {s s' : Sys} {fd : Nat} {e : Env} {args : List Bytes} {r : List Bytes} {c : Session} {cmd : Cmd} {f}
    (g : SysGood hash s) (he : e.hash = hash) (h : Sys.step s (.request fd e args) = some (s', r)) (hc : s.sess fd = some c)
    (hal : Allowed s.srv c) (hcmd : commandOf e args = some cmd) (hok : Server.badArity args.length (arity cmd) = false)
    (hf : dbProc cmd = some f) :
    ∃ d o a, s.srv.dbs[c.db]? = some d ∧ f e args d = some o ∧ AStep e args d.view cmd a ∧ Rel hash o a ∧ a.reply r ∧
      s'.srv.dbs = s.srv.dbs.set c.db o.db ∧ ∀ x, s'.sess x = s.sess x := by
  simp only [Sys.step, hc, Option.bind_eq_bind, Option.bind_some, Option.bind_eq_some_iff] at h
  obtain ⟨⟨srv', c', r'⟩, h1, h2⟩ := h
  cases h2
  cases served he g.srv h1 with
  | unknown r a0 ha hl hr =>
    obtain ⟨_, entry, p1, p2, _⟩ := named_lookup hcmd
    rw [ha] at p1; cases p1; rw [hl] at p2; cases p2
  | rejected r a0 ha en hl hr he =>
    obtain ⟨_, entry, p1, p2, p3, p4, p5⟩ := named_lookup hcmd
    rw [ha] at p1; cases p1; rw [hl] at p2; cases p2
    rcases hr with hr | ⟨q1, q2, q3⟩
    · rw [p4, hok] at hr; cases hr
    · rcases hal with h | h
      · exact absurd h q1
      · rw [h] at q2; cases q2
  | select a0 ha en hl hcm s' r h =>
    obtain ⟨_, entry, p1, p2, p3, p4, p5⟩ := named_lookup hcmd
    rw [ha] at p1; cases p1; rw [hl] at p2; cases p2
    rw [← p3, hcm] at hf; cases hf
  | auth a0 ha en hl hcm s' r h =>
    obtain ⟨_, entry, p1, p2, p3, p4, p5⟩ := named_lookup hcmd
    rw [ha] at p1; cases p1; rw [hl] at p2; cases p2
    rw [← p3, hcm] at hf; cases hf
  | rewrite a0 ha en hl hcm srv' r h =>
    obtain ⟨_, entry, p1, p2, p3, p4, p5⟩ := named_lookup hcmd
    rw [ha] at p1; cases p1; rw [hl] at p2; cases p2
    rw [← p3, hcm] at hf; cases hf
  | db a0 ha en hl hok' hauth f1 hf1 d hd o ho a hst hrel srv'' hfeed =>
    obtain ⟨_, entry, p1, p2, p3, p4, p5⟩ := named_lookup hcmd
    rw [ha] at p1; cases p1; rw [hl] at p2; cases p2
    rw [← p3] at hf
    rw [hf] at hf1; cases hf1
    have key : srv'.dbs = s.srv.dbs.set c.db o.db := by
      split at hfeed
      · exact (feed_ref hfeed).1
      · cases hfeed; rfl
    refine ⟨d, o, a, hd, ho, p3 ▸ hst, hrel, hrel.reply, key, ?_⟩
    intro x
    simp only
    split
    · next h => rw [h, hc]
    · rfl

end Metis
