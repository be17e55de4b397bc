import Verif.Proofs.Sys
import Verif.Model.Node
/-!
Lemmas on the running process: the rewrite task, the sizes, the syncs, and who writes to the connections.
-/
set_option linter.unusedSectionVars false
set_option linter.unusedSimpArgs false
set_option linter.unusedVariables false
namespace Metis
open Spec

/-! ### Requests and the background task -/

/-- What a request does to the fields that concern the log. -/
inductive Logs (srv srv' : Server) : Prop
  | plain (x : Bytes) (task : srv'.task = srv.task) (snap : srv'.snapshot = srv.snapshot) (buf : srv'.aofBuf = srv.aofBuf ++ x)
      (rbuf : srv'.aofRewriteBuf = if srv.task = .aofRewrite then srv.aofRewriteBuf ++ x else srv.aofRewriteBuf)
  | start (h0 : srv.task = .none) (h1 : srv'.task = .aofRewrite) (snap : srv'.snapshot.isSome = true) (buf : srv'.aofBuf = srv.aofBuf)
      (rbuf : srv'.aofRewriteBuf = srv.aofRewriteBuf)

theorem Logs.refl (srv : Server) : Logs srv srv := .plain [] rfl rfl (by simp) (by simp)

theorem startRewrite_logs {e : Env} {srv srv' : Server} (h : Server.startRewrite e srv = some srv') (h0 : srv.task = .none) :
    srv'.task = .aofRewrite ∧ srv'.snapshot.isSome = true ∧ srv'.aofBuf = srv.aofBuf ∧ srv'.aofRewriteBuf = srv.aofRewriteBuf ∧
      srv'.aofEnable = srv.aofEnable ∧ srv'.password = srv.password := by
  unfold Server.startRewrite at h
  rw [if_neg (by simp [h0])] at h
  simp only [Option.bind_eq_bind, Option.bind_eq_some_iff] at h
  obtain ⟨⟨os, cs⟩, _, h⟩ := h
  cases h
  exact ⟨rfl, rfl, rfl, rfl, rfl, rfl⟩

theorem feed_logs {e : Env} {name : Bytes} {i : Nat} {args : List Bytes} {srv srv' : Server} (h : Aof.feed e name i args srv = some srv') :
    Logs srv srv' := by
  unfold Aof.feed at h
  simp only [Option.bind_eq_bind, Option.bind_eq_some_iff] at h
  obtain ⟨b, _, h⟩ := h
  cases h
  exact .plain _ rfl rfl rfl rfl

theorem processCommand_logs {e : Env} {args : List Bytes} {srv srv' : Server} {s s' : Session} {r : List Bytes}
    (h : Server.processCommand e args srv s = some (srv', s', r)) : Logs srv srv' ∧ srv'.aofEnable = srv.aofEnable ∧ srv'.password = srv.password := by
  unfold Server.processCommand at h
  simp only [Option.bind_eq_bind, Option.bind_eq_some_iff] at h
  obtain ⟨a0, _, h⟩ := h
  cases hl : lookupCommand (e.lower a0) with
  | none => rw [hl] at h; cases h; exact ⟨.refl _, rfl, rfl⟩
  | some cmd =>
    rw [hl] at h
    simp only at h
    split at h
    · cases h; exact ⟨.refl _, rfl, rfl⟩
    · split at h
      · cases h; exact ⟨.refl _, rfl, rfl⟩
      · unfold Server.call at h
        simp only [Option.bind_eq_bind, Option.bind_eq_some_iff] at h
        obtain ⟨⟨srv1, s1, r1⟩, hp, h⟩ := h
        have key : (Logs srv srv1 ∧ srv1.aofEnable = srv.aofEnable ∧ srv1.password = srv.password) ∧ (srv1.dirty - srv.dirty ≠ 0 →
            srv1.task = srv.task ∧ srv1.snapshot = srv.snapshot ∧ srv1.aofBuf = srv.aofBuf ∧ srv1.aofRewriteBuf = srv.aofRewriteBuf) := by
          rcases proc_db_iff cmd.proc with ⟨f, hf⟩ | hc | hc | hc
          · rw [proc_db hf] at hp
            unfold Server.onDb at hp
            simp only [Option.bind_eq_bind, Option.bind_eq_some_iff] at hp
            obtain ⟨db, _, o, _, hp⟩ := hp
            cases hp
            exact ⟨⟨.plain [] rfl rfl (by simp) (by simp), rfl, rfl⟩, fun _ => ⟨rfl, rfl, rfl, rfl⟩⟩
          · rw [hc] at hp
            have := select_same (show Server.select e args srv s = some (srv1, s1, r1) from hp)
            subst this
            exact ⟨⟨.refl _, rfl, rfl⟩, fun _ => ⟨rfl, rfl, rfl, rfl⟩⟩
          · rw [hc] at hp
            have := auth_same (show Server.auth e args srv s = some (srv1, s1, r1) from hp)
            subst this
            exact ⟨⟨.refl _, rfl, rfl⟩, fun _ => ⟨rfl, rfl, rfl, rfl⟩⟩
          · rw [hc] at hp
            have hp : Server.bgRewriteAof e args srv s = some (srv1, s1, r1) := hp
            obtain ⟨hd, _, _⟩ := bgRewrite_dirty hp
            refine ⟨?_, fun hx => absurd (by rw [hd]; omega) hx⟩
            unfold Server.bgRewriteAof at hp
            split at hp
            · cases hp; exact ⟨.refl _, rfl, rfl⟩
            · next ht =>
              have ht : srv.task = .none := by simpa using ht
              simp only [Option.bind_eq_bind, Option.bind_eq_some_iff] at hp
              obtain ⟨srv2, h2, hp⟩ := hp
              cases hp
              obtain ⟨k1, k2, k3, k4, k5, k6⟩ := startRewrite_logs h2 ht
              exact ⟨.start ht k1 k2 k3 k4, k5, k6⟩
        split at h
        · next hd =>
          simp only [Option.bind_eq_some_iff] at h
          obtain ⟨srv2, h2, h⟩ := h
          cases h
          obtain ⟨k1, k2, k3, k4⟩ := key.2 hd.2
          have hf := feed_ref h2
          refine ⟨?_, by rw [hf.2.2.2.1, key.1.2.1], by rw [hf.2.1, key.1.2.2]⟩
          cases feed_logs h2 with
          | plain x a b c d => exact .plain x (a.trans k1) (b.trans k2) (by rw [c, k3]) (by rw [d, k1, k4])
          | start a b _ _ _ => rw [hf.2.2.2.2.2.1, a] at b; cases b
        · cases h; exact key.1

theorem request_logs {s s' : Sys} {fd : Nat} {e : Env} {args : List Bytes} {r : List Bytes} (h : Sys.step s (.request fd e args) = some (s', r)) :
    Logs s.srv s'.srv ∧ s'.srv.aofEnable = s.srv.aofEnable ∧ s'.srv.password = s.srv.password := by
  simp only [Sys.step, Option.bind_eq_bind, Option.bind_eq_some_iff] at h
  obtain ⟨c, _, ⟨srv', c', r'⟩, h, h1⟩ := h
  cases h1
  exact processCommand_logs h

theorem cron_srv {e : Env} {srv srv' : Server} (h : databasesCron e srv = some srv') : ∃ dbs, srv' = { srv with dbs } := by
  simp only [databasesCron, Option.bind_eq_bind, Option.bind_eq_some_iff] at h
  obtain ⟨dbs, _, h⟩ := h
  cases h
  exact ⟨dbs, rfl⟩

namespace Node

theorem sync_same (t : Int) (n : Node) : (sync t n).sys = n.sys ∧ (sync t n).net = n.net ∧ (sync t n).conf = n.conf ∧ (sync t n).file = n.file ∧
    (sync t n).cur = n.cur ∧ (sync t n).base = n.base ∧ (sync t n).jobs = n.jobs ∧ (sync t n).done = n.done ∧ (sync t n).phase = n.phase := by
  unfold sync
  split
  · simp
  · split
    · simp
    · split <;> simp
  · simp

theorem launch_spec {e : Env} {n n' : Node} (h : launch e n = some n') :
    (n.sys.srv.snapshot = none ∧ n' = n) ∨ (∃ cs ch, n.sys.srv.snapshot = some cs ∧ Aof.chores e 0 cs = some ch ∧
      n' = { n with sys := { n.sys with srv := { n.sys.srv with snapshot := none } }, jobs := n.jobs ++ [{ todo := ch.map (fun c => ⟨c, true, none⟩), tmp := [] }] }) := by
  unfold launch at h
  split at h
  · next hs => cases h; exact Or.inl ⟨hs, rfl⟩
  · next cs hs =>
    simp only [Option.bind_eq_bind, Option.bind_eq_some_iff] at h
    obtain ⟨ch, h1, h⟩ := h
    cases h
    exact Or.inr ⟨cs, ch, hs, h1, rfl⟩

theorem followAll_length (e : Env) (a b : List Db) (js : List Job) : (followAll e a b js).length = js.length := by simp [followAll]

/-! ### The invariant of the task -/

/-- A rewrite is pending: a goroutine works, or its result waits in the channel. -/
def pending (n : Node) : Nat := n.jobs.length + n.done.length

structure TaskOk (n : Node) : Prop where
  count : n.pending = if n.sys.srv.task = .aofRewrite then 1 else 0
  rdb   : n.sys.srv.task ≠ .rdb
  snap  : n.sys.srv.snapshot = none
  rbuf  : n.sys.srv.task = .none → n.sys.srv.aofRewriteBuf = []

/-- The state of the task at the start of the event loop. -/
structure Fresh0 (srv : Server) : Prop where
  task : (srv.task = .none ∧ srv.snapshot = none) ∨ (srv.task = .aofRewrite ∧ srv.snapshot.isSome = true)
  buf  : srv.aofBuf = []
  rbuf : srv.aofRewriteBuf = []
  sel  : srv.aofSelect = 0

theorem exec_fresh {e : Env} {args : List Bytes} {srv srv' : Server} {s s' : Session} (h : Aof.exec e args srv s = some (srv', s'))
    (f : Fresh0 srv) : Fresh0 srv' ∧ srv'.aofEnable = srv.aofEnable ∧ srv'.password = srv.password := by
  unfold Aof.exec at h
  simp only [Option.bind_eq_bind, Option.bind_eq_some_iff] at h
  obtain ⟨a0, _, h⟩ := h
  split at h
  · cases h; exact ⟨f, rfl, rfl⟩
  · next cmd _ =>
    simp only [Option.bind_eq_some_iff] at h
    obtain ⟨⟨srv1, s1, r⟩, hp, h⟩ := h
    cases h
    rcases proc_db_iff cmd.proc with ⟨g, hf⟩ | hc | hc | hc
    · rw [proc_db hf] at hp
      unfold Server.onDb at hp
      simp only [Option.bind_eq_bind, Option.bind_eq_some_iff] at hp
      obtain ⟨db, _, o, _, hp⟩ := hp
      cases hp
      exact ⟨⟨f.task, f.buf, f.rbuf, f.sel⟩, rfl, rfl⟩
    · rw [hc] at hp
      have := select_same (show Server.select e args srv s = some (srv1, s1, r) from hp)
      subst this; exact ⟨f, rfl, rfl⟩
    · rw [hc] at hp
      have := auth_same (show Server.auth e args srv s = some (srv1, s1, r) from hp)
      subst this; exact ⟨f, rfl, rfl⟩
    · rw [hc] at hp
      have hp : Server.bgRewriteAof e args srv s = some (srv1, s1, r) := hp
      unfold Server.bgRewriteAof at hp
      split at hp
      · cases hp; exact ⟨f, rfl, rfl⟩
      · next ht =>
        simp only [Option.bind_eq_bind, Option.bind_eq_some_iff] at hp
        obtain ⟨srv2, h2, hp⟩ := hp
        cases hp
        unfold Server.startRewrite at h2
        rw [if_neg ht] at h2
        simp only [Option.bind_eq_bind, Option.bind_eq_some_iff] at h2
        obtain ⟨⟨os, cs⟩, _, h2⟩ := h2
        cases h2
        exact ⟨⟨Or.inr ⟨rfl, rfl⟩, f.buf, f.rbuf, f.sel⟩, rfl, rfl⟩

theorem replay_fresh : ∀ (recs : List (List Bytes)) (es : Nat → Env) {srv srv' : Server} {s s' : Session}, Aof.replay es recs srv s = some (srv', s') →
    Fresh0 srv → Fresh0 srv' ∧ srv'.aofEnable = srv.aofEnable ∧ srv'.password = srv.password
  | [], es, srv, srv', s, s', h, f => by cases h; exact ⟨f, rfl, rfl⟩
  | r :: recs, es, srv, srv', s, s', h, f => by
    simp only [Aof.replay, Option.bind_eq_bind, Option.bind_eq_some_iff] at h
    obtain ⟨⟨srv1, s1⟩, h1, h2⟩ := h
    obtain ⟨k1, k2, k3⟩ := exec_fresh h1 f
    obtain ⟨j1, j2, j3⟩ := replay_fresh recs _ h2 k1
    exact ⟨j1, j2.trans k2, j3.trans k3⟩

theorem init_fresh (n : Nat) (pw : Bytes) (aof : Bool) : Fresh0 (Server.init n pw aof) := ⟨Or.inl ⟨rfl, rfl⟩, rfl, rfl, rfl⟩

theorem start_task {e : Env} {conf : Conf} {file : Bytes} {srv : Server} (f : Fresh0 srv) {n' : Node} (h : launch e (start conf file srv) = some n') :
    TaskOk n' := by
  rcases launch_spec h with ⟨h1, rfl⟩ | ⟨cs, ch, h1, h2, rfl⟩
  · have h1 : srv.snapshot = none := h1
    rcases f.task with ⟨t1, t2⟩ | ⟨t1, t2⟩
    · exact ⟨by simp [pending, start, t1], by simp [start, t1], h1, fun _ => f.rbuf⟩
    · rw [h1] at t2; cases t2
  · have h1 : srv.snapshot = some cs := h1
    rcases f.task with ⟨t1, t2⟩ | ⟨t1, t2⟩
    · rw [h1] at t2; cases t2
    · exact ⟨by simp [pending, start, t1], by simp [start, t1], rfl, fun _ => f.rbuf⟩

/-- What a restart is. -/
theorem restart_spec {es : Nat → Env} {n n' : Node} (h : restart es n = some n') :
    ∃ srv, Fresh0 srv ∧ srv.aofEnable = n.sys.srv.aofEnable ∧ srv.password = n.sys.srv.password ∧ launch (es 0) (start n.conf n.file srv) = some n' ∧
      (if n.sys.srv.aofEnable then Aof.load Aof.readerSize es n.file (Server.init n.sys.srv.dbs.length n.sys.srv.password n.sys.srv.aofEnable)
        else some (Server.init n.sys.srv.dbs.length n.sys.srv.password n.sys.srv.aofEnable)) = some srv := by
  unfold restart at h
  simp only [Option.bind_eq_bind] at h
  obtain ⟨srv, h1, h2⟩ : ∃ srv, (if (Server.init n.sys.srv.dbs.length n.sys.srv.password n.sys.srv.aofEnable).aofEnable = true then
      Aof.load Aof.readerSize es n.file (Server.init n.sys.srv.dbs.length n.sys.srv.password n.sys.srv.aofEnable)
      else some (Server.init n.sys.srv.dbs.length n.sys.srv.password n.sys.srv.aofEnable)) = some srv ∧
      launch (es 0) (start n.conf n.file srv) = some n' := by
    split at h
    · next hc =>
      rw [Option.bind_eq_some_iff] at h
      obtain ⟨srv, a, b⟩ := h
      exact ⟨srv, by rw [if_pos hc]; exact a, b⟩
    · next hc => exact ⟨_, by rw [if_neg hc], by simpa only [Option.bind_some] using h⟩
  have hen : (Server.init n.sys.srv.dbs.length n.sys.srv.password n.sys.srv.aofEnable).aofEnable = n.sys.srv.aofEnable := rfl
  rw [hen] at h1
  refine ⟨srv, ?_, ?_, ?_, h2, h1⟩ <;>
  · split at h1
    · simp only [Aof.load, Option.bind_eq_bind, Option.bind_eq_some_iff] at h1
      obtain ⟨recs, _, ⟨srv2, s2⟩, h4, h5⟩ := h1
      cases h5
      have := replay_fresh recs es h4 (init_fresh _ _ _)
      first | exact this.1 | exact this.2.1 | exact this.2.2
    · cases h1
      first | exact init_fresh _ _ _ | rfl

theorem restart_task {es : Nat → Env} {n n' : Node} (h : restart es n = some n') : TaskOk n' := by
  obtain ⟨srv, f, _, _, h2, _⟩ := restart_spec h
  exact start_task f h2

theorem boot_task (k : Nat) (pw : Bytes) (aof : Bool) (conf : Conf) : TaskOk (boot k pw aof conf) :=
  start_task (e := ⟨fun _ => 0, 0, id, fun _ => false, fun _ => [], fun _ => [], fun _ => [], fun _ => none, fun _ => [], fun _ => none, fun _ => [], [], fun _ => 1⟩)
    (init_fresh k pw aof) rfl

/-! ### Every step keeps it -/

theorem request_task {fd : Nat} {e : Env} {args : List Bytes} {n n' : Node} (h : request fd e args n = some n') (k : TaskOk n) :
    TaskOk n' ∧ ∃ x, n'.sys.srv.aofBuf = n.sys.srv.aofBuf ++ x ∧ n'.sys.srv.aofRewriteBuf = (if n.pending = 1 then n.sys.srv.aofRewriteBuf ++ x else []) ∧
      n'.file = n.file ∧ n'.cur = n.cur ∧ n'.base = n.base ∧ n'.synced = n.synced ∧ n'.lastSync = n.lastSync ∧ n'.conf = n.conf ∧ n'.done = n.done ∧
      n'.phase = n.phase ∧ n.pending ≤ n'.pending ∧ (n'.pending ≠ n.pending → x = []) := by
  unfold request at h
  simp only [Option.bind_eq_bind, Option.bind_eq_some_iff] at h
  obtain ⟨⟨sys, r⟩, h1, net, h2, h3⟩ := h
  have hl := (request_logs h1).1
  have hc := k.count
  unfold pending at hc ⊢
  rcases launch_spec h3 with ⟨hs, rfl⟩ | ⟨cs, ch, hs, hch, rfl⟩
  · have hs : sys.srv.snapshot = none := hs
    cases hl with
    | plain x task snap buf rbuf =>
      refine ⟨⟨?_, ?_, ?_, ?_⟩, x, buf, ?_, rfl, rfl, rfl, rfl, rfl, rfl, rfl, rfl, ?_, ?_⟩
      · show (followAll _ _ _ _).length + _ = _
        rw [followAll_length]; show _ = (if sys.srv.task = _ then _ else _); rw [task]; exact hc
      · show sys.srv.task ≠ _; rw [task]; exact k.rdb
      · exact hs
      · intro h0
        have h0 : sys.srv.task = .none := h0
        show sys.srv.aofRewriteBuf = []
        rw [rbuf, if_neg (by rw [← task, h0]; decide), k.rbuf (by rw [← task, h0])]
      · show sys.srv.aofRewriteBuf = _
        rw [rbuf, hc]
        by_cases ht : n.sys.srv.task = .aofRewrite
        · simp [ht]
        · have : n.sys.srv.task = .none := by
            have := k.rdb
            cases hx : n.sys.srv.task <;> simp_all
          rw [if_neg ht, if_neg ht, k.rbuf this]; rfl
      · show _ ≤ (followAll _ _ _ _).length + _
        rw [followAll_length]; exact Nat.le_refl _
      · intro hne
        exact absurd (by show (followAll _ _ _ _).length + _ = _; rw [followAll_length]) hne
    | start h0 h4 snap buf rbuf => rw [hs] at snap; cases snap
  · have hs : sys.srv.snapshot = some cs := hs
    cases hl with
    | plain x task snap buf rbuf => rw [hs, k.snap] at snap; cases snap
    | start h0 h4 snap buf rbuf =>
      have hz : n.jobs.length + n.done.length = 0 := by rw [hc, h0]; decide
      refine ⟨⟨?_, ?_, rfl, ?_⟩, [], by simpa using buf, ?_, rfl, rfl, rfl, rfl, rfl, rfl, rfl, rfl, ?_, fun _ => rfl⟩
      · show (followAll _ _ _ _ ++ _).length + n.done.length = if sys.srv.task = _ then _ else _
        rw [List.length_append, followAll_length, h4]; simp; omega
      · show sys.srv.task ≠ _; rw [h4]; decide
      · intro h5
        have h5 : sys.srv.task = .none := h5
        rw [h4] at h5; cases h5
      · show sys.srv.aofRewriteBuf = _
        rw [rbuf, hz, k.rbuf h0]; rfl
      · omega

/-- What the timer does. -/
theorem cron_spec {e : Env} {t : Int} {n n' : Node} (h : cron e t n = some n') :
    ∃ dbs n2, databasesCron e n.sys.srv = some { n.sys.srv with dbs } ∧
      (if n.sys.srv.task = .none ∧ grown n.conf n.cur n.base = true then
        ∃ srv, Server.startRewrite e { n.sys.srv with dbs } = some srv ∧
          launch e { n with sys := { n.sys with srv }, jobs := followAll e n.sys.srv.dbs dbs n.jobs } = some n2
       else n2 = { n with sys := { n.sys with srv := { n.sys.srv with dbs } }, jobs := followAll e n.sys.srv.dbs dbs n.jobs }) ∧
      ((n2.done = [] ∧ n' = n2) ∨ ∃ tmp rest, n2.done = tmp :: rest ∧ n' = finish t tmp { n2 with done := rest }) := by
  unfold cron at h
  simp only [Option.bind_eq_bind, Option.bind_eq_some_iff] at h
  obtain ⟨srv, h1, h2⟩ := h
  obtain ⟨dbs, rfl⟩ := cron_srv h1
  have fin : ∀ {n2 : Node}, (match n2.done with
      | [] => some n2
      | tmp :: rest => some (finish t tmp { n2 with done := rest })) = some n' →
      ((n2.done = [] ∧ n' = n2) ∨ ∃ tmp rest, n2.done = tmp :: rest ∧ n' = finish t tmp { n2 with done := rest }) := by
    intro n2 h
    split at h
    · next hd => cases h; exact Or.inl ⟨hd, rfl⟩
    · next tmp rest hd => cases h; exact Or.inr ⟨tmp, rest, hd, rfl⟩
  by_cases hc : n.sys.srv.task = .none ∧ grown n.conf n.cur n.base = true
  · rw [if_pos hc] at h2
    simp only [Option.bind_eq_some_iff] at h2
    obtain ⟨srv, h3, n2, h4, h5⟩ := h2
    exact ⟨dbs, n2, h1, by rw [if_pos hc]; exact ⟨srv, h3, h4⟩, fin h5⟩
  · rw [if_neg hc] at h2
    exact ⟨dbs, _, h1, by rw [if_neg hc], fin h2⟩

theorem finish_same (t : Int) (tmp : Bytes) (n : Node) :
    (finish t tmp n).sys = { n.sys with srv := { n.sys.srv with aofRewriteBuf := [], task := .none } } ∧ (finish t tmp n).net = n.net ∧
    (finish t tmp n).conf = n.conf ∧ (finish t tmp n).file = tmp ++ n.sys.srv.aofRewriteBuf ∧
    (finish t tmp n).cur = UInt64.ofNat (tmp ++ n.sys.srv.aofRewriteBuf).length ∧ (finish t tmp n).base = UInt64.ofNat (tmp ++ n.sys.srv.aofRewriteBuf).length ∧
    (finish t tmp n).jobs = n.jobs ∧ (finish t tmp n).done = n.done ∧ (finish t tmp n).phase = n.phase := by
  unfold finish
  have := sync_same t { n with
    file := tmp ++ n.sys.srv.aofRewriteBuf
    synced := 0
    cur := UInt64.ofNat (tmp ++ n.sys.srv.aofRewriteBuf).length
    base := UInt64.ofNat (tmp ++ n.sys.srv.aofRewriteBuf).length
    sys := { n.sys with srv := { n.sys.srv with aofRewriteBuf := [], task := .none } } }
  simpa using this

theorem cron_task {e : Env} {t : Int} {n n' : Node} (h : cron e t n = some n') (k : TaskOk n) : TaskOk n' := by
  obtain ⟨dbs, n2, h1, h2, h3⟩ := cron_spec h
  have k2 : TaskOk n2 := by
    split at h2
    · next hc =>
      obtain ⟨srv, h4, h5⟩ := h2
      obtain ⟨l1, l2, l3, l4, l5, l6⟩ := startRewrite_logs h4 hc.1
      have hz : n.jobs.length + n.done.length = 0 := by have := k.count; unfold pending at this; rw [this, hc.1]; decide
      rcases launch_spec h5 with ⟨hs, rfl⟩ | ⟨cs, ch, hs, hch, rfl⟩
      · have hs : srv.snapshot = none := hs
        rw [hs] at l2; cases l2
      · refine ⟨?_, ?_, rfl, ?_⟩
        · show (followAll _ _ _ _ ++ _).length + n.done.length = if srv.task = _ then _ else _
          rw [List.length_append, followAll_length, l1]; simp; omega
        · show srv.task ≠ _; rw [l1]; decide
        · intro h5
          have h5 : srv.task = .none := h5
          rw [l1] at h5; cases h5
    · subst h2
      refine ⟨?_, k.rdb, k.snap, k.rbuf⟩
      have := k.count
      unfold pending at this ⊢
      simpa [followAll_length] using this
  rcases h3 with ⟨_, rfl⟩ | ⟨tmp, rest, hd, rfl⟩
  · exact k2
  · have hf := finish_same t tmp { n2 with done := rest }
    have hc := k2.count
    unfold pending at hc
    rw [hd] at hc
    have : n2.jobs.length = 0 ∧ rest.length = 0 := by
      simp at hc
      split at hc <;> omega
    refine ⟨?_, ?_, ?_, ?_⟩
    · unfold pending
      rw [hf.1, hf.2.2.2.2.2.2.1, hf.2.2.2.2.2.2.2.1]
      simp [this.1, this.2]
    · rw [hf.1]; simp
    · rw [hf.1]; exact k2.snap
    · intro _; rw [hf.1]

/-- The goroutine writes commands for a chore. -/
inductive Writes (e : Env) (t : Todo) (recs : List (List Bytes)) : Pace → Prop
  | whole (hs : t.stale = none) (h : Aof.dumpChore e t.chore = some recs) : Writes e t recs .whole
  | collect (items) (h : collect items t = some recs) : Writes e t recs (.collect items)

theorem work_spec {i : Nat} {e : Env} {p : Pace} {n n' : Node} (h : work i e p n = some n') :
    ∃ j, n.jobs[i]? = some j ∧ ((∃ t rest recs, j.todo = t :: rest ∧ Writes e t recs p ∧
        n' = { n with jobs := n.jobs.set i { todo := rest, tmp := j.tmp ++ (recs.map Aof.cat).flatten } }) ∨
      (p = .whole ∧ j.todo = [] ∧ n.done = [] ∧ n' = { n with jobs := n.jobs.eraseIdx i, done := [j.tmp] }) ∨
      ∃ t t' rest, p = .enter ∧ j.todo = t :: rest ∧ enter t = some t' ∧ n' = { n with jobs := n.jobs.set i { todo := t' :: rest, tmp := j.tmp } }) := by
  unfold work at h
  simp only [Option.bind_eq_bind, Option.bind_eq_some_iff] at h
  obtain ⟨j, h1, h⟩ := h
  refine ⟨j, h1, ?_⟩
  split at h
  · next t rest ht =>
    split at h
    · next hn =>
      simp only [Option.bind_eq_some_iff] at h
      obtain ⟨recs, h2, h⟩ := h
      cases h
      exact Or.inl ⟨t, rest, recs, ht, .whole (by simpa using hn) h2, rfl⟩
    · cases h
  · next ht =>
    split at h
    · next hd => cases h; exact Or.inr (Or.inl ⟨rfl, ht, hd, rfl⟩)
    · cases h
  · next t rest ht =>
    simp only [Option.bind_eq_some_iff] at h
    obtain ⟨t', h2, h⟩ := h
    cases h
    exact Or.inr (Or.inr ⟨t, t', rest, rfl, ht, h2, rfl⟩)
  · next items t rest ht =>
    simp only [Option.bind_eq_some_iff] at h
    obtain ⟨recs, h2, h⟩ := h
    cases h
    exact Or.inl ⟨t, rest, recs, ht, .collect items h2, rfl⟩
  · cases h

theorem work_task {i : Nat} {e : Env} {p : Pace} {n n' : Node} (h : work i e p n = some n') (k : TaskOk n) : TaskOk n' := by
  obtain ⟨j, h1, h2⟩ := work_spec h
  have hi : i < n.jobs.length := (List.getElem?_eq_some_iff.1 h1).1
  have hc := k.count
  unfold pending at hc
  rcases h2 with ⟨t, rest, recs, _, _, rfl⟩ | ⟨_, _, hd, rfl⟩ | ⟨t, t', rest, _, _, _, rfl⟩
  · exact ⟨by unfold pending; simpa using hc, k.rdb, k.snap, k.rbuf⟩
  · refine ⟨?_, k.rdb, k.snap, k.rbuf⟩
    unfold pending
    show (n.jobs.eraseIdx i).length + 1 = _
    rw [← hc, hd, List.length_eraseIdx, if_pos hi]; simp; omega
  · exact ⟨by unfold pending; simpa using hc, k.rdb, k.snap, k.rbuf⟩

theorem flush_same (t : Int) (n : Node) : (flush t n).net = n.net ∧ (flush t n).conf = n.conf ∧ (flush t n).file = n.file ++ n.sys.srv.aofBuf ∧
    (flush t n).base = n.base ∧ (flush t n).jobs = n.jobs ∧ (flush t n).done = n.done ∧ (flush t n).phase = n.phase ∧
    (flush t n).sys = { n.sys with srv := { n.sys.srv with aofBuf := [] } } ∧ (flush t n).cur = n.cur + UInt64.ofNat n.sys.srv.aofBuf.length := by
  unfold flush
  split
  · next h =>
    refine ⟨rfl, rfl, by simp [h], rfl, rfl, rfl, rfl, ?_, by simp [h]⟩
    rw [← h]
  · obtain ⟨h1, h2, h3, h4, h5, h6, h7, h8, h9⟩ := sync_same t { n with
      file := n.file ++ n.sys.srv.aofBuf
      cur := n.cur + UInt64.ofNat n.sys.srv.aofBuf.length
      sys := { n.sys with srv := { n.sys.srv with aofBuf := [] } } }
    exact ⟨h2, h3, h4, h6, h7, h8, h9, h1, h5⟩

theorem flush_task {t : Int} {n : Node} (k : TaskOk n) : TaskOk (flush t n) := by
  obtain ⟨_, _, _, _, h1, h2, _, h3, _⟩ := flush_same t n
  exact ⟨by unfold pending; rw [h1, h2, h3]; exact k.count, by rw [h3]; exact k.rdb, by rw [h3]; exact k.snap, by rw [h3]; exact k.rbuf⟩

/-- Steps that concern connections only. -/
def Ev.quiet : Ev → Bool
  | .noCron | .accept _ | .close _ | .writable _ _ | .turn => true
  | _ => false

/-- They change only the connections and the phase. -/
theorem quiet_spec {n n' : Node} {ev : Ev} (h : step n ev = some n') (hq : ev.quiet = true) :
    ∃ sess net phase, n' = { n with sys := { n.sys with sess }, net, phase } := by
  cases ev with
  | noCron =>
    simp only [step] at h
    split at h
    · cases h; exact ⟨_, _, _, rfl⟩
    · cases h
  | turn =>
    simp only [step] at h
    split at h
    · cases h; exact ⟨_, _, _, rfl⟩
    · cases h
  | accept fd =>
    simp only [step] at h
    split at h
    · simp only [Option.bind_eq_bind, Option.bind_eq_some_iff] at h
      obtain ⟨net, _, ⟨sys, r⟩, h2, h⟩ := h
      simp only [Sys.step] at h2
      split at h2
      · cases h2
      · cases h2; cases h; exact ⟨_, _, _, rfl⟩
    · cases h
  | close fd =>
    simp only [step] at h
    split at h
    · simp only [Option.bind_eq_bind, Option.bind_eq_some_iff] at h
      obtain ⟨net, _, ⟨sys, r⟩, h2, h⟩ := h
      simp only [Sys.step] at h2
      cases h2; cases h; exact ⟨_, _, _, rfl⟩
    · cases h
  | writable fd rs =>
    simp only [step] at h
    split at h
    · split at h
      · simp only [Option.bind_eq_bind, Option.bind_eq_some_iff] at h
        obtain ⟨net, _, h⟩ := h
        cases h; exact ⟨_, _, _, rfl⟩
      · cases h
    · cases h
  | _ => cases hq

theorem step_task {n n' : Node} {ev : Ev} (h : step n ev = some n') (k : TaskOk n) : TaskOk n' := by
  by_cases hq : ev.quiet = true
  · obtain ⟨sess, net, phase, rfl⟩ := quiet_spec h hq
    exact ⟨k.count, k.rdb, k.snap, k.rbuf⟩
  · cases ev with
    | sleep t =>
      simp only [step] at h
      split at h
      · cases h
        have := flush_task (t := t) k
        exact ⟨this.count, this.rdb, this.snap, this.rbuf⟩
      · cases h
    | cron e t =>
      simp only [step] at h
      split at h
      · simp only [Option.map_eq_some_iff] at h
        obtain ⟨n1, h1, rfl⟩ := h
        have := cron_task h1 k
        exact ⟨this.count, this.rdb, this.snap, this.rbuf⟩
      · cases h
    | request fd e args =>
      simp only [step] at h
      split at h
      · exact (request_task h k).1
      · cases h
    | work i e p => exact work_task h k
    | restart es => exact restart_task h
    | crashInDone m es =>
      simp only [step] at h
      split at h
      · exact restart_task h
      · cases h
    | _ => exact absurd rfl hq

theorem run_task {n n' : Node} : ∀ {evs : List Ev}, run n evs = some n' → TaskOk n → TaskOk n'
  | [], h, k => by cases h; exact k
  | ev :: evs, h, k => by
    simp only [run, Option.bind_eq_bind, Option.bind_eq_some_iff] at h
    obtain ⟨n1, h1, h2⟩ := h
    exact run_task h2 (step_task h1 k)

/-! ### Sizes -/

/-- A restart happens. -/
def Ev.isRestart : Ev → Bool
  | .restart _ | .crashInDone _ _ => true
  | _ => false

/-- The state after a restart, as far as the files are concerned. -/
theorem restart_files {es : Nat → Env} {n n' : Node} (h : restart es n = some n') : n'.file = n.file ∧ n'.base = 0 ∧ n'.conf = n.conf ∧
    n'.sys.srv.aofEnable = n.sys.srv.aofEnable ∧ n'.sys.srv.aofBuf = [] ∧ n'.synced = 0 ∧ n'.lastSync = none ∧
    n'.cur = (if n.sys.srv.aofEnable then UInt64.ofNat n.file.length else 0) := by
  obtain ⟨srv, f, h1, _, h2, _⟩ := restart_spec h
  rcases launch_spec h2 with ⟨_, rfl⟩ | ⟨cs, ch, _, _, rfl⟩ <;>
  exact ⟨rfl, rfl, rfl, h1, f.buf, rfl, rfl, by show (if srv.aofEnable then _ else _) = _; rw [h1]⟩

/-- What the timer does to the files. -/
theorem cron_files {e : Env} {t : Int} {n n' : Node} (h : cron e t n = some n') :
    n'.conf = n.conf ∧ n'.sys.srv.aofEnable = n.sys.srv.aofEnable ∧ n'.sys.srv.aofBuf = n.sys.srv.aofBuf ∧ n'.net = n.net ∧ n'.phase = n.phase ∧
    ((n.done = [] ∧ n'.file = n.file ∧ n'.base = n.base ∧ n'.cur = n.cur ∧ n'.synced = n.synced ∧ n'.lastSync = n.lastSync) ∨
     (n.done ≠ [] ∧ n'.base = UInt64.ofNat n'.file.length ∧ n'.cur = UInt64.ofNat n'.file.length ∧
        ((n'.synced = n'.file.length ∧ n.conf.policy ≠ .no) ∨ (n'.synced = 0 ∧ n'.lastSync = n.lastSync ∧ n.conf.policy ≠ .always)))) := by
  obtain ⟨dbs, n2, h1, h2, h3⟩ := cron_spec h
  have key : n2.conf = n.conf ∧ n2.sys.srv.aofEnable = n.sys.srv.aofEnable ∧ n2.sys.srv.aofBuf = n.sys.srv.aofBuf ∧ n2.net = n.net ∧ n2.phase = n.phase ∧
      n2.done = n.done ∧ n2.file = n.file ∧ n2.base = n.base ∧ n2.cur = n.cur ∧ n2.synced = n.synced ∧ n2.lastSync = n.lastSync := by
    split at h2
    · next hc =>
      obtain ⟨srv, h4, h5⟩ := h2
      obtain ⟨l1, l2, l3, l4, l5, l6⟩ := startRewrite_logs h4 hc.1
      rcases launch_spec h5 with ⟨hs, rfl⟩ | ⟨cs, ch, hs, hch, rfl⟩ <;>
      exact ⟨rfl, l5, l3, rfl, rfl, rfl, rfl, rfl, rfl, rfl, rfl⟩
    · subst h2
      exact ⟨rfl, rfl, rfl, rfl, rfl, rfl, rfl, rfl, rfl, rfl, rfl⟩
  obtain ⟨k1, k2, k3, k4, k5, k6, k7, k8, k9, k10, k11⟩ := key
  rcases h3 with ⟨hd, rfl⟩ | ⟨tmp, rest, hd, rfl⟩
  · exact ⟨k1, k2, k3, k4, k5, Or.inl ⟨k6 ▸ hd, k7, k8, k9, k10, k11⟩⟩
  · have hf := finish_same t tmp { n2 with done := rest }
    obtain ⟨f1, f2, f3, f4, f5, f6, f7, f8, f9⟩ := hf
    refine ⟨f3.trans k1, by rw [f1]; exact k2, by rw [f1]; exact k3, f2.trans k4, f9.trans k5, Or.inr ⟨?_, ?_, ?_, ?_⟩⟩
    · rw [← k6, hd]; simp
    · rw [f6, f4]
    · rw [f5, f4]
    · rw [← k1]
      unfold finish sync
      dsimp only
      split
      · next hp => exact Or.inl ⟨rfl, by rw [hp]; decide⟩
      · next hp =>
        split
        · exact Or.inl ⟨rfl, by rw [hp]; decide⟩
        · split
          · exact Or.inl ⟨rfl, by rw [hp]; decide⟩
          · exact Or.inr ⟨rfl, k11, by rw [hp]; decide⟩
      · next hp => exact Or.inr ⟨rfl, k11, by rw [hp]; decide⟩

/-- What the flush does to the times. -/
theorem flush_sync (t : Int) (n : Node) : (n.sys.srv.aofBuf = [] ∧ flush t n = n) ∨ (n.sys.srv.aofBuf ≠ [] ∧
    (((flush t n).synced = (flush t n).file.length ∧ (flush t n).lastSync = some t ∧ n.conf.policy ≠ .no) ∨
     ((flush t n).synced = n.synced ∧ (flush t n).lastSync = n.lastSync ∧ (n.conf.policy = .no ∨ (n.conf.policy = .everysec ∧ ∃ l, n.lastSync = some l ∧ t - l ≤ 1000000000))))) := by
  unfold flush
  split
  · next h => exact Or.inl ⟨h, rfl⟩
  · next h =>
    refine Or.inr ⟨h, ?_⟩
    unfold sync
    dsimp only
    split
    · next hp => exact Or.inl ⟨rfl, rfl, by rw [hp]; decide⟩
    · next hp =>
      split
      · exact Or.inl ⟨rfl, rfl, by rw [hp]; decide⟩
      · next l hl =>
        split
        · exact Or.inl ⟨rfl, rfl, by rw [hp]; decide⟩
        · next ht => exact Or.inr ⟨rfl, rfl, Or.inr ⟨hp, l, hl, by omega⟩⟩
    · next hp => exact Or.inr ⟨rfl, rfl, Or.inl hp⟩

theorem request_files {fd : Nat} {e : Env} {args : List Bytes} {n n' : Node} (h : request fd e args n = some n') :
    n'.file = n.file ∧ n'.cur = n.cur ∧ n'.base = n.base ∧ n'.synced = n.synced ∧ n'.lastSync = n.lastSync ∧ n'.conf = n.conf ∧ n'.done = n.done ∧
      n'.phase = n.phase ∧ n'.sys.srv.aofEnable = n.sys.srv.aofEnable ∧ ∃ x, n'.sys.srv.aofBuf = n.sys.srv.aofBuf ++ x := by
  unfold request at h
  simp only [Option.bind_eq_bind, Option.bind_eq_some_iff] at h
  obtain ⟨⟨sys, r⟩, h1, net, h2, h3⟩ := h
  obtain ⟨hl, he, _⟩ := request_logs h1
  have hb : ∃ x, sys.srv.aofBuf = n.sys.srv.aofBuf ++ x := by
    cases hl with
    | plain x _ _ hb _ => exact ⟨x, hb⟩
    | start _ _ _ hb _ => exact ⟨[], by simpa using hb⟩
  rcases launch_spec h3 with ⟨hs, rfl⟩ | ⟨cs, ch, hs, hch, rfl⟩ <;>
  exact ⟨rfl, rfl, rfl, rfl, rfl, rfl, rfl, rfl, he, hb⟩

theorem work_files {i : Nat} {e : Env} {p : Pace} {n n' : Node} (h : work i e p n = some n') :
    n'.file = n.file ∧ n'.cur = n.cur ∧ n'.base = n.base ∧ n'.synced = n.synced ∧ n'.lastSync = n.lastSync ∧ n'.conf = n.conf ∧
      n'.phase = n.phase ∧ n'.sys = n.sys ∧ n'.net = n.net := by
  obtain ⟨j, h1, h2⟩ := work_spec h
  rcases h2 with ⟨t, rest, recs, _, _, rfl⟩ | ⟨_, _, hd, rfl⟩ | ⟨t, t', rest, _, _, _, rfl⟩ <;> exact ⟨rfl, rfl, rfl, rfl, rfl, rfl, rfl, rfl, rfl⟩

/-- The kinds of steps. -/
inductive StepIs (n : Node) : Ev → Node → Prop
  | quiet {ev sess net phase} (hq : ev.quiet = true) : StepIs n ev { n with sys := { n.sys with sess }, net, phase }
  | sleep {t} (hp : n.phase = .idle) : StepIs n (.sleep t) { flush t n with phase := .timers (fun fd => (n.net.loop.files (Ae.key fd .writable)).isSome) }
  | cron {e t w n'} (hp : n.phase = .timers w) (h : cron e t n = some n') : StepIs n (.cron e t) { n' with phase := .files w }
  | request {fd e args w n'} (hp : n.phase = .files w) (h : request fd e args n = some n') : StepIs n (.request fd e args) n'
  | work {i e p n'} (h : work i e p n = some n') : StepIs n (.work i e p) n'
  | restart {es n'} (h : restart es n = some n') : StepIs n (.restart es) n'
  | crash {m es n' tmp rest w} (hp : n.phase = .timers w) (hd : n.done = tmp :: rest)
      (h : restart es { n with file := (tmp ++ n.sys.srv.aofRewriteBuf).take m } = some n') : StepIs n (.crashInDone m es) n'

theorem step_is {n n' : Node} {ev : Ev} (h : step n ev = some n') : StepIs n ev n' := by
  by_cases hq : ev.quiet = true
  · obtain ⟨sess, net, phase, rfl⟩ := quiet_spec h hq
    exact .quiet hq
  · cases ev with
    | sleep t =>
      simp only [step] at h
      split at h
      · next hp =>
        cases h
        have hw : (fun fd => ((flush t n).net.loop.files (Ae.key fd .writable)).isSome) = (fun fd => (n.net.loop.files (Ae.key fd .writable)).isSome) := by
          rw [(flush_same t n).1]
        rw [hw]
        exact .sleep hp
      · cases h
    | cron e t =>
      simp only [step] at h
      split at h
      · next w hp =>
        simp only [Option.map_eq_some_iff] at h
        obtain ⟨n1, h1, rfl⟩ := h
        exact .cron hp h1
      · cases h
    | request fd e args =>
      simp only [step] at h
      split at h
      · next w hp => exact .request hp h
      · cases h
    | work i e p => exact .work h
    | restart es => exact .restart h
    | crashInDone m es =>
      simp only [step] at h
      split at h
      · next w tmp rest hp hd => exact .crash hp hd h
      · cases h
    | _ => exact absurd rfl hq

theorem run_snoc {n n' : Node} : ∀ {evs : List Ev} {ev : Ev}, run n (evs ++ [ev]) = some n' ↔ ∃ m, run n evs = some m ∧ step m ev = some n' := by
  intro evs
  induction evs generalizing n with
  | nil => intro ev; simp [run]
  | cons x xs ih =>
    intro ev
    simp only [List.cons_append, run, Option.bind_eq_bind, Option.bind_eq_some_iff, ih]
    constructor
    · rintro ⟨a, h1, m, h2, h3⟩; exact ⟨m, ⟨a, h1, h2⟩, h3⟩
    · rintro ⟨m, ⟨a, h1, h2⟩, h3⟩; exact ⟨a, h1, m, h2, h3⟩

theorem run_append {n n' : Node} : ∀ {a b : List Ev}, run n (a ++ b) = some n' ↔ ∃ m, run n a = some m ∧ run m b = some n' := by
  intro a
  induction a generalizing n with
  | nil => intro b; simp [run]
  | cons x xs ih =>
    intro b
    simp only [List.cons_append, run, Option.bind_eq_bind, Option.bind_eq_some_iff, ih]
    constructor
    · rintro ⟨a, h1, m, h2, h3⟩; exact ⟨m, ⟨a, h1, h2⟩, h3⟩
    · rintro ⟨m, ⟨a, h1, h2⟩, h3⟩; exact ⟨a, h1, m, h2, h3⟩

/-! ### Who writes to the connections -/

theorem addReply_wire {net net' : Net.Net} {fd : Nat} {s : Bytes} (h : Net.addReply net fd s = some net') (x : Nat) : net'.wire x = net.wire x := by
  unfold Net.addReply at h
  simp only [Option.bind_eq_bind, Option.bind_eq_some_iff] at h
  obtain ⟨o, _, h⟩ := h
  split at h
  · split at h <;> cases h <;> rfl
  · cases h; rfl

theorem say_wire {fd : Nat} : ∀ {r : List Bytes} {net net' : Net.Net}, say net fd r = some net' → ∀ x, net'.wire x = net.wire x
  | [], net, net', h, x => by cases h; rfl
  | s :: r, net, net', h, x => by
    simp only [say, Option.bind_eq_bind, Option.bind_eq_some_iff] at h
    obtain ⟨n1, h1, h2⟩ := h
    rw [say_wire h2 x, addReply_wire h1 x]

/-- The loop will not call the writing callback of the descriptor in this turn. -/
def Silent (fd : Nat) (n : Node) : Prop :=
  match n.phase with
  | .idle => True
  | .timers w | .files w => w fd = false

theorem writable_other {net net' : Net.Net} {fd x : Nat} {rs : List Wrote} (h : Net.step net (.writable x rs) = some net') (hx : fd ≠ x) :
    net'.wire fd = net.wire fd := by
  simp only [Net.step, Net.writable, Option.bind_eq_bind, Option.bind_eq_some_iff] at h
  obtain ⟨o, _, h⟩ := h
  split at h
  · split at h <;> cases h <;> simp [hx]
  · cases h; simp [hx]
  · cases h; simp [Net.free, hx]
  · cases h

theorem accept_other {net net' : Net.Net} {fd x : Nat} (h : Net.step net (.accept x) = some net') (hx : fd ≠ x) : net'.wire fd = net.wire fd := by
  simp only [Net.step] at h
  split at h
  · cases h
  · cases h
    unfold Net.accept
    split
    · simp [hx]
    · rfl

theorem step_silent {n n' : Node} {ev : Ev} {fd : Nat} (h : step n ev = some n') (hs : Silent fd n) (h1 : ∀ t, ev ≠ .sleep t) (h2 : ev.isRestart = false)
    (h3 : ev ≠ .accept fd) : Silent fd n' ∧ n'.net.wire fd = n.net.wire fd ∧ ∃ x, n'.sys.srv.aofBuf = n.sys.srv.aofBuf ++ x := by
  cases ev with
  | sleep t => exact absurd rfl (h1 t)
  | restart es => cases h2
  | crashInDone m es => cases h2
  | cron e t =>
    simp only [step] at h
    split at h
    · next w hp =>
      simp only [Option.map_eq_some_iff] at h
      obtain ⟨n1, hc, rfl⟩ := h
      obtain ⟨_, _, c3, c4, _⟩ := cron_files hc
      refine ⟨?_, by show n1.net.wire fd = _; rw [c4], [], by simpa using c3⟩
      unfold Silent at hs ⊢
      rw [hp] at hs
      exact hs
    · cases h
  | noCron =>
    simp only [step] at h
    split at h
    · next w hp => cases h; unfold Silent at hs ⊢; rw [hp] at hs; exact ⟨hs, rfl, [], by simp⟩
    · cases h
  | turn =>
    simp only [step] at h
    split at h
    · next w hp => cases h; exact ⟨trivial, rfl, [], by simp⟩
    · cases h
  | accept x =>
    simp only [step] at h
    split at h
    · next w hp =>
      simp only [Option.bind_eq_bind, Option.bind_eq_some_iff] at h
      obtain ⟨net, hn, ⟨sys, r⟩, h4, h⟩ := h
      cases h
      unfold Silent at hs ⊢; rw [hp] at hs
      have hx : fd ≠ x := fun hx => h3 (by rw [hx])
      refine ⟨hs, accept_other hn hx, [], ?_⟩
      simp only [Sys.step] at h4
      split at h4
      · cases h4
      · cases h4; simp
    · cases h
  | close x =>
    simp only [step] at h
    split at h
    · next w hp =>
      simp only [Option.bind_eq_bind, Option.bind_eq_some_iff] at h
      obtain ⟨net, hn, ⟨sys, r⟩, h4, h⟩ := h
      cases h
      unfold Silent at hs ⊢; rw [hp] at hs
      refine ⟨?_, ?_, [], ?_⟩
      · dsimp only; split
        · rfl
        · exact hs
      · simp only [Net.step] at hn
        split at hn
        · cases hn; rfl
        · cases hn
      · simp only [Sys.step] at h4
        cases h4; simp
    · cases h
  | request x e args =>
    simp only [step] at h
    split at h
    · next w hp =>
      obtain ⟨_, _, _, _, _, _, _, q8, _, q10⟩ := request_files h
      refine ⟨?_, ?_, q10⟩
      · unfold Silent at hs ⊢; rw [q8]; exact hs
      · unfold request at h
        simp only [Option.bind_eq_bind, Option.bind_eq_some_iff] at h
        obtain ⟨⟨sys, r⟩, _, net, h2, h3⟩ := h
        rcases launch_spec h3 with ⟨_, rfl⟩ | ⟨cs, ch, _, _, rfl⟩ <;> exact say_wire h2 fd
    · cases h
  | writable x rs =>
    simp only [step] at h
    split at h
    · next w hp =>
      split at h
      · next hw =>
        simp only [Option.bind_eq_bind, Option.bind_eq_some_iff] at h
        obtain ⟨net, hn, h⟩ := h
        cases h
        unfold Silent at hs ⊢; rw [hp] at hs
        have hs : w fd = false := hs
        have hx : fd ≠ x := fun hx => by rw [hx, hw] at hs; cases hs
        refine ⟨?_, writable_other hn hx, [], by simp⟩
        dsimp only; rw [if_neg hx]; exact hs
      · cases h
    · cases h
  | work i e p =>
    obtain ⟨_, _, _, _, _, _, w7, w8, w9⟩ := work_files h
    refine ⟨?_, by rw [w9], [], by rw [w8]; simp⟩
    unfold Silent at hs ⊢; rw [w7]; exact hs

theorem run_silent {fd : Nat} : ∀ {evs : List Ev} {n n' : Node}, run n evs = some n' → Silent fd n →
    (∀ ev ∈ evs, (∀ t, ev ≠ .sleep t) ∧ ev.isRestart = false ∧ ev ≠ .accept fd) →
    n'.net.wire fd = n.net.wire fd ∧ ∃ x, n'.sys.srv.aofBuf = n.sys.srv.aofBuf ++ x
  | [], n, n', h, _, _ => by cases h; exact ⟨rfl, [], by simp⟩
  | ev :: evs, n, n', h, hs, hev => by
    simp only [run, Option.bind_eq_bind, Option.bind_eq_some_iff] at h
    obtain ⟨n1, h1, h2⟩ := h
    obtain ⟨a, b, c⟩ := hev ev (by simp)
    obtain ⟨s1, s2, x, s3⟩ := step_silent h1 hs a b c
    obtain ⟨r1, y, r2⟩ := run_silent h2 s1 (fun ev hm => hev ev (by simp [hm]))
    exact ⟨r1.trans s2, x ++ y, by rw [r2, s3, List.append_assoc]⟩

end Node
end Metis
