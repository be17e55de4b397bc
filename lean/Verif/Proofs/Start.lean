import Verif.Spec.Start
import Verif.Proofs.Listen
import Verif.Proofs.Proc
set_option linter.unusedSectionVars false
set_option linter.unusedSimpArgs false
set_option linter.unusedVariables false
namespace Metis
namespace Start
open Spec

/-! Extensions -/

theorem extLoop_eq (r s : Bytes) :
    (∃ t rest, extLoop r s = 46 :: (t.reverse ++ s) ∧ r = t ++ 46 :: rest ∧ (46 : UInt8) ∉ t ∧ (47 : UInt8) ∉ t) ∨
    (extLoop r s = [] ∧ ∀ t rest, r = t ++ 46 :: rest → (47 : UInt8) ∈ t) := by
  induction r generalizing s with
  | nil => exact .inr ⟨rfl, fun t rest h => by simp at h⟩
  | cons c r ih =>
    unfold extLoop
    by_cases h1 : c = 47
    · subst h1
      refine .inr ⟨by simp, fun t rest h => ?_⟩
      cases t with
      | nil => simp at h
      | cons x t => simp only [List.cons_append, List.cons.injEq] at h; simp [← h.1]
    · rw [if_neg h1]
      by_cases h2 : c = 46
      · subst h2
        exact .inl ⟨[], r, by simp, by simp, by simp, by simp⟩
      · rw [if_neg h2]
        rcases ih (c :: s) with ⟨t, rest, e1, e2, e3, e4⟩ | ⟨e1, e2⟩
        · refine .inl ⟨c :: t, rest, by simp [e1], by simp [e2], ?_, ?_⟩
          · simp only [List.mem_cons, not_or]; exact ⟨fun h => h2 h.symm, e3⟩
          · simp only [List.mem_cons, not_or]; exact ⟨fun h => h1 h.symm, e4⟩
        · refine .inr ⟨e1, fun t rest h => ?_⟩
          cases t with
          | nil => simp only [List.nil_append, List.cons.injEq] at h; exact absurd h.1 h2
          | cons x t =>
            simp only [List.cons_append, List.cons.injEq] at h
            exact List.mem_cons_of_mem _ (e2 t rest h.2)

theorem append_dot_unique {p q t u : Bytes} (h : p ++ 46 :: t = q ++ 46 :: u) (ht : (46 : UInt8) ∉ t) (hu : (46 : UInt8) ∉ u) : t = u := by
  induction p generalizing q with
  | nil =>
    cases q with
    | nil => simpa using h
    | cons x q =>
      simp only [List.nil_append, List.cons_append, List.cons.injEq] at h
      exact absurd (h.2 ▸ (by simp : (46 : UInt8) ∈ q ++ 46 :: u)) ht
  | cons y p ih =>
    cases q with
    | nil =>
      simp only [List.nil_append, List.cons_append, List.cons.injEq] at h
      exact absurd (h.2 ▸ (by simp : (46 : UInt8) ∈ p ++ 46 :: t)) hu
    | cons x q => simp only [List.cons_append, List.cons.injEq] at h; exact ih h.2

theorem configType_some (path t : Bytes) : configType path = some t ↔ HasExt path t := by
  unfold configType ext
  rcases extLoop_eq path.reverse [] with ⟨u, rest, e1, e2, e3, e4⟩ | ⟨e1, e2⟩
  · have hp : path = rest.reverse ++ 46 :: u.reverse := by
      have := congrArg List.reverse e2; simpa using this
    have hu : HasExt path u.reverse := ⟨⟨_, hp⟩, by simpa using e3, by simpa using e4⟩
    rw [e1]
    simp only [List.append_nil, Option.some.injEq]
    constructor
    · rintro rfl; exact hu
    · rintro ⟨⟨pre, h⟩, ht, -⟩
      exact append_dot_unique (hp.symm.trans h) hu.2.1 ht
  · rw [e1]
    simp only [reduceCtorEq, false_iff]
    rintro ⟨⟨pre, h⟩, ht, hs⟩
    have := e2 t.reverse pre.reverse (by rw [h]; simp)
    exact hs (by simpa using this)

theorem configType_none (path : Bytes) : configType path = none ↔ ∀ t, ¬ HasExt path t := by
  constructor
  · intro h t ht
    rw [(configType_some path t).2 ht] at h; cases h
  · intro h
    cases hc : configType path with
    | none => rfl
    | some t => exact absurd ((configType_some path t).1 hc) (h t)

/-! The settings -/

theorem exec_size {e : Env} {args : List Bytes} {srv srv' : Server} {s s' : Session} (h : Aof.exec e args srv s = some (srv', s')) :
    srv'.dbs.length = srv.dbs.length := by
  unfold Aof.exec at h
  simp only [Option.bind_eq_bind, Option.bind_eq_some_iff] at h
  obtain ⟨a0, _, h⟩ := h
  split at h
  · cases h; rfl
  · next cmd _ =>
    simp only [Option.bind_eq_some_iff] at h
    obtain ⟨⟨srv1, s1, r⟩, hp, h⟩ := h
    cases h
    rcases proc_db_iff cmd.proc with ⟨g, hf⟩ | hc | hc | hc
    · rw [proc_db hf] at hp
      unfold Server.onDb at hp
      simp only [Option.bind_eq_bind, Option.bind_eq_some_iff] at hp
      obtain ⟨db, _, o, _, hp⟩ := hp
      cases hp
      simp
    · rw [hc] at hp
      have := select_same (show Server.select e args srv s = some (srv1, s1, r) from hp)
      subst this; rfl
    · rw [hc] at hp
      have := auth_same (show Server.auth e args srv s = some (srv1, s1, r) from hp)
      subst this; rfl
    · rw [hc] at hp
      have hp : Server.bgRewriteAof e args srv s = some (srv1, s1, r) := hp
      unfold Server.bgRewriteAof at hp
      split at hp
      · cases hp; rfl
      · next ht =>
        simp only [Option.bind_eq_bind, Option.bind_eq_some_iff] at hp
        obtain ⟨srv2, h2, hp⟩ := hp
        cases hp
        exact Proc.startRewrite_length h2

theorem replay_size : ∀ (recs : List (List Bytes)) (es : Nat → Env) {srv srv' : Server} {s s' : Session}, Aof.replay es recs srv s = some (srv', s') →
    srv'.dbs.length = srv.dbs.length
  | [], es, srv, srv', s, s', h => by cases h; rfl
  | r :: recs, es, srv, srv', s, s', h => by
    simp only [Aof.replay, Option.bind_eq_bind, Option.bind_eq_some_iff] at h
    obtain ⟨⟨srv1, s1⟩, h1, h2⟩ := h
    exact (replay_size recs _ h2).trans (exec_size h1)

theorem restart_alike {es : Nat → Env} {n n' : Node} (h : Node.restart es n = some n') : Proc.Alike n n' := by
  obtain ⟨srv, f, h1, h2, h3, h4⟩ := Node.restart_spec h
  have hl : srv.dbs.length = n.sys.srv.dbs.length := by
    split at h4
    · simp only [Aof.load, Option.bind_eq_bind, Option.bind_eq_some_iff] at h4
      obtain ⟨recs, _, ⟨srv2, s2⟩, h5, h6⟩ := h4
      cases h6
      rw [replay_size recs es h5]
      simp [Server.init]
    · cases h4; simp [Server.init]
  rcases Node.launch_spec h3 with ⟨_, rfl⟩ | ⟨cs, ch, _, _, rfl⟩ <;> exact ⟨rfl, hl, h2, h1⟩

theorem restart_new (es : Nat → Env) (n : Nat) (pw : Bytes) (aof : Bool) (conf : Conf) :
    Node.restart es (Node.start conf [] (Server.init n pw aof)) = some (Node.boot n pw aof conf) := by
  unfold Node.restart
  have hl : (Node.start conf [] (Server.init n pw aof)).sys.srv.dbs.length = n := by simp [Node.start, Server.init]
  rw [hl]
  have hp : ∀ srv, Aof.load Aof.readerSize es [] srv = some srv := fun srv => rfl
  cases aof
  · rfl
  · show (do
      let srv ← Aof.load Aof.readerSize es [] (Server.init n pw true)
      Node.launch (es 0) (Node.start conf [] srv)) = _
    rw [hp]
    rfl

/-- What it takes to start. -/
theorem main_up {os : Os} {es : Nat → Env} {path : Bytes} {addr : Listen.Addr} {lvl : Level} {node : Node} (h : main os es path = .up addr lvl node) :
    ∃ t c file, HasExt path t ∧ os.config path t = some c ∧ os.logger c.logFile (level c.logLevel) = true ∧
      (if c.aof then os.file c.aofFile else some []) = some file ∧ dbNum c.databases ≤ maxSlice ∧ Listen.bind os.parse6 c.host c.port = some addr ∧
      os.listen addr = true ∧ os.epoll = true ∧ lvl = level c.logLevel ∧
      Node.restart es (Node.start (conf c) file (Server.init (dbNum c.databases) c.password c.aof)) = some node := by
  unfold main at h
  cases ht : configType path with
  | none => rw [ht] at h; cases h
  | some t =>
    rw [ht] at h
    simp only at h
    cases hc : os.config path t with
    | none => rw [hc] at h; cases h
    | some c =>
      rw [hc] at h
      simp only at h
      by_cases hl : os.logger c.logFile (level c.logLevel) = true
      · rw [if_pos hl] at h
        unfold serve at h
        cases hf : (if c.aof then os.file c.aofFile else some []) with
        | none => rw [hf] at h; cases h
        | some file =>
          rw [hf] at h
          simp only at h
          by_cases hn : dbNum c.databases > maxSlice
          · rw [if_pos hn] at h; cases h
          · rw [if_neg hn] at h
            unfold run at h
            cases hb : Listen.bind os.parse6 c.host c.port with
            | none => rw [hb] at h; cases h
            | some a =>
              rw [hb] at h
              simp only at h
              by_cases h1 : os.listen a = true
              · rw [if_pos h1] at h
                by_cases h2 : os.epoll = true
                · rw [if_pos h2] at h
                  cases hr : Node.restart es (Node.start (conf c) file (Server.init (dbNum c.databases) c.password c.aof)) with
                  | none => rw [hr] at h; cases h
                  | some n =>
                    rw [hr] at h
                    simp only [Outcome.up.injEq] at h
                    obtain ⟨rfl, rfl, rfl⟩ := h
                    exact ⟨t, c, file, (configType_some path t).1 ht, hc, hl, hf, Nat.not_lt.1 hn, hb, h1, h2, rfl, hr⟩
                · rw [if_neg h2] at h; cases h
              · rw [if_neg h1] at h; cases h
      · rw [if_neg hl] at h; cases h

theorem ext_unique {path t u : Bytes} (h : HasExt path t) (h' : HasExt path u) : t = u := by
  have h1 := (configType_some path t).2 h
  rw [(configType_some path u).2 h'] at h1
  exact (Option.some.inj h1).symm

theorem level_word (l : Level) : level (levelWord l) = l := by cases l <;> decide
theorem policy_word (p : Policy) : policy (policyWord p) = p := by cases p <;> decide

theorem level_unknown {s : Bytes} (h : ∀ l, s ≠ levelWord l) : level s = .info := by
  have h1 : s ≠ b!"debug" := h .debug
  have h2 : s ≠ b!"info" := h .info
  have h3 : s ≠ b!"warn" := h .warn
  have h4 : s ≠ b!"error" := h .error
  unfold level
  rw [if_neg h1, if_neg h2, if_neg h3, if_neg h4]

theorem policy_unknown {s : Bytes} (h : ∀ p, s ≠ policyWord p) : policy s = .no := by
  have h1 : s ≠ b!"always" := h .always
  have h2 : s ≠ b!"everysec" := h .everysec
  unfold policy
  rw [if_neg h1, if_neg h2]

end Start
end Metis
