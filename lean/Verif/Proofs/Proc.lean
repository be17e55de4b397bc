import Verif.Spec.Proc
import Verif.Proofs.Node
/-!
Lemmas on the process (Model/Proc.lean): it does what the `Node` does.
-/
set_option linter.unusedSectionVars false
set_option linter.unusedSimpArgs false
set_option linter.unusedVariables false
namespace Metis
namespace Proc

/-- The configuration of the server. -/
def Alike (n n' : Node) : Prop :=
  n'.conf = n.conf ∧ n'.sys.srv.dbs.length = n.sys.srv.dbs.length ∧ n'.sys.srv.password = n.sys.srv.password ∧ n'.sys.srv.aofEnable = n.sys.srv.aofEnable

theorem Alike.trans {a b c : Node} (h : Alike a b) (h' : Alike b c) : Alike a c :=
  ⟨h'.1.trans h.1, h'.2.1.trans h.2.1, h'.2.2.1.trans h.2.2.1, h'.2.2.2.trans h.2.2.2⟩

theorem Alike.restart {n n' : Node} (h : Alike n n') (es : Nat → Env) (f : Bytes) : Node.restart es { n' with file := f } = Node.restart es { n with file := f } := by
  obtain ⟨h1, h2, h3, h4⟩ := h
  unfold Node.restart
  simp only [h1, h2, h3, h4]

theorem cronDbs_length {e : Env} : ∀ {dbs : List Db} {draws : List Nat} {dbs' : List Db}, cronDbs e draws dbs = some dbs' → dbs'.length = dbs.length := by
  intro dbs
  induction dbs with
  | nil => intro draws dbs' h; cases h; rfl
  | cons db rest ih =>
    intro draws dbs' h
    simp only [cronDbs, Option.bind_eq_bind, Option.bind_eq_some_iff] at h
    obtain ⟨⟨db', ds⟩, _, rest', h, h1⟩ := h
    cases h1
    simp [ih h]

theorem copyAll_length {e : Env} : ∀ {dbs os cs : List Db}, Server.copyAll e dbs = some (os, cs) → os.length = dbs.length := by
  intro dbs
  induction dbs with
  | nil => intro os cs h; cases h; rfl
  | cons db rest ih =>
    intro os cs h
    simp only [Server.copyAll, Option.bind_eq_bind, Option.bind_eq_some_iff] at h
    obtain ⟨⟨o, c⟩, _, ⟨os', cs'⟩, h, h1⟩ := h
    cases h1
    simp [ih h]

theorem startRewrite_length {e : Env} {srv srv' : Server} (h : Server.startRewrite e srv = some srv') : srv'.dbs.length = srv.dbs.length := by
  unfold Server.startRewrite at h
  split at h
  · cases h; rfl
  · simp only [Option.bind_eq_bind, Option.bind_eq_some_iff] at h
    obtain ⟨⟨os, cs⟩, h, h1⟩ := h
    cases h1
    exact copyAll_length h

/-- The timer, as far as the process is concerned. -/
theorem cron_disk {e : Env} {t : Int} {n n' : Node} (h : Node.cron e t n = some n') : Alike n n' ∧
    ((n.done = [] ∧ n'.file = n.file) ∨ ∃ tmp rest, n.done = tmp :: rest ∧ n'.file = tmp ++ n.sys.srv.aofRewriteBuf) := by
  obtain ⟨dbs, n2, h1, h2, h3⟩ := Node.cron_spec h
  have hl : dbs.length = n.sys.srv.dbs.length := by
    simp only [databasesCron, Option.bind_eq_bind, Option.bind_eq_some_iff] at h1
    obtain ⟨dbs', h1, h4⟩ := h1
    have : dbs' = dbs := by simpa using h4
    exact this ▸ cronDbs_length h1
  have key : Alike n n2 ∧ n2.done = n.done ∧ n2.file = n.file ∧ n2.sys.srv.aofRewriteBuf = n.sys.srv.aofRewriteBuf := by
    split at h2
    · next hc =>
      obtain ⟨srv, h4, h5⟩ := h2
      obtain ⟨l1, l2, l3, l4, l5, l6⟩ := startRewrite_logs h4 hc.1
      have l7 := (startRewrite_length h4).trans hl
      rcases Node.launch_spec h5 with ⟨hs, rfl⟩ | ⟨cs, ch, hs, hch, rfl⟩ <;>
      exact ⟨⟨rfl, l7, l6, l5⟩, rfl, rfl, l4⟩
    · subst h2
      exact ⟨⟨rfl, hl, rfl, rfl⟩, rfl, rfl, rfl⟩
  obtain ⟨k1, k2, k3, k4⟩ := key
  rcases h3 with ⟨hd, rfl⟩ | ⟨tmp, rest, hd, rfl⟩
  · exact ⟨k1, Or.inl ⟨k2 ▸ hd, k3⟩⟩
  · obtain ⟨f1, f2, f3, f4, _⟩ := Node.finish_same t tmp { n2 with done := rest }
    refine ⟨k1.trans ⟨f3, ?_, ?_, ?_⟩, Or.inr ⟨tmp, rest, k2 ▸ hd, by rw [f4]; exact congrArg _ k4⟩⟩ <;> rw [f1]

/-- Steps that neither write nor replace the file. -/
def Idle : Node.Ev → Prop
  | .sleep _ | .cron _ _ | .restart _ | .crashInDone _ _ => False
  | _ => True

theorem idle_file {n n' : Node} {ev : Node.Ev} (h : Node.step n ev = some n') (hi : Idle ev) : n'.file = n.file := by
  cases ev with
  | sleep t => exact hi.elim
  | cron e t => exact hi.elim
  | restart es => exact hi.elim
  | crashInDone m es => exact hi.elim
  | noCron =>
    simp only [Node.step] at h
    split at h
    · cases h; rfl
    · cases h
  | accept fd =>
    simp only [Node.step] at h
    split at h
    · simp only [Option.bind_eq_bind, Option.bind_eq_some_iff] at h
      obtain ⟨_, _, _, _, h⟩ := h; cases h; rfl
    · cases h
  | close fd =>
    simp only [Node.step] at h
    split at h
    · simp only [Option.bind_eq_bind, Option.bind_eq_some_iff] at h
      obtain ⟨_, _, _, _, h⟩ := h; cases h; rfl
    · cases h
  | request fd e args =>
    simp only [Node.step] at h
    split at h
    · simp only [Node.request, Option.bind_eq_bind, Option.bind_eq_some_iff] at h
      obtain ⟨_, _, _, _, h⟩ := h
      rcases Node.launch_spec h with ⟨_, rfl⟩ | ⟨_, _, _, _, rfl⟩ <;> rfl
    · cases h
  | writable fd rs =>
    simp only [Node.step] at h
    split at h
    · split at h
      · simp only [Option.bind_eq_bind, Option.bind_eq_some_iff] at h
        obtain ⟨_, _, h⟩ := h; cases h; rfl
      · cases h
    · cases h
  | turn =>
    simp only [Node.step] at h
    split at h
    · cases h; rfl
    · cases h
  | work i e c => exact (Node.work_files h).1

theorem sleep_file {n n' : Node} {t : Int} (h : Node.step n (.sleep t) = some n') : n'.file = n.file ++ n.sys.srv.aofBuf := by
  simp only [Node.step] at h
  split at h
  · cases h
    exact (Node.flush_same t n).2.2.1
  · cases h

theorem cron_step {n n' : Node} {e : Env} {t : Int} (h : Node.step n (.cron e t) = some n') :
    ∃ w n2, n.phase = .timers w ∧ Node.cron e t n = some n2 ∧ n' = { n2 with phase := .files w } := by
  simp only [Node.step] at h
  split at h
  · next w hw =>
    simp only [Option.map_eq_some_iff] at h
    obtain ⟨n2, h1, h2⟩ := h
    exact ⟨w, n2, hw, h1, h2.symm⟩
  · cases h

/-- Inside the callback: the state before the step of the timer, and what has happened to the file. -/
structure Inside (n0 : Node) (h : List Node.Ev) (p : Proc) (tmp buf : Bytes) : Prop where
  ex : ∃ pre e t post n1 w rest, h = pre ++ .cron e t :: post ∧ Node.run n0 pre = some n1 ∧ n1.phase = .timers w ∧ n1.done = tmp :: rest ∧
    n1.sys.srv.aofRewriteBuf = buf ∧ Alike n1 p.node ∧ (p.disk = n1.file ∨ ∃ m, p.disk = (tmp ++ buf).take m)
  file : p.node.file = tmp ++ buf

/-- The invariant of a history. -/
structure Inv (n0 : Node) (h : List Node.Ev) (p : Proc) : Prop where
  run : Node.run n0 h = some p.node
  out : p.doing = none → p.disk = p.node.file
  move : ∀ tmp buf d, p.doing = some (.move tmp buf d) → Inside n0 h p tmp buf
  append : ∀ tmp buf d, p.doing = some (.append tmp buf d) → Inside n0 h p tmp buf

theorem Inside.work {n0 : Node} {h : List Node.Ev} {p : Proc} {tmp buf : Bytes} (k : Inside n0 h p tmp buf) {i : Nat} {e : Env} {c : Node.Pace} {n : Node}
    (hw : Node.work i e c p.node = some n) : Inside n0 (h ++ [.work i e c]) { p with node := n } tmp buf := by
  obtain ⟨⟨pre, e', t, post, n1, w, rest, rfl, h2, h3, h4, h5, h6, h7⟩, hf⟩ := k
  obtain ⟨f1, _, _, _, _, f6, _, f8, _⟩ := Node.work_files hw
  refine ⟨⟨pre, e', t, post ++ [.work i e c], n1, w, rest, by simp, h2, h3, h4, h5, h6.trans ⟨f6, ?_, ?_, ?_⟩, h7⟩, f1.trans hf⟩ <;> rw [f8]

theorem Inside.disk {n0 : Node} {h : List Node.Ev} {p p' : Proc} {tmp buf : Bytes} (k : Inside n0 h p tmp buf) (hn : p'.node = p.node)
    (hd : p'.disk = p.disk ∨ ∃ m, p'.disk = (tmp ++ buf).take m) : Inside n0 h p' tmp buf := by
  obtain ⟨⟨pre, e', t, post, n1, w, rest, h1, h2, h3, h4, h5, h6, h7⟩, hf⟩ := k
  refine ⟨⟨pre, e', t, post, n1, w, rest, h1, h2, h3, h4, h5, hn ▸ h6, ?_⟩, by rw [hn]; exact hf⟩
  rcases hd with hd | hd
  · rw [hd]; exact h7
  · exact Or.inr hd

theorem Inv.same {n0 : Node} {h : List Node.Ev} {p p' : Proc} (k : Inv n0 h p) (hn : p'.node = p.node) (hd : p'.disk = p.disk) (hs : p'.doing = p.doing) : Inv n0 h p' :=
  ⟨hn ▸ k.run, fun hx => by rw [hn, hd]; exact k.out (hs ▸ hx), fun tmp buf d hx => (k.move tmp buf d (hs ▸ hx)).disk hn (Or.inl hd),
    fun tmp buf d hx => (k.append tmp buf d (hs ▸ hx)).disk hn (Or.inl hd)⟩

theorem run_snoc {n0 n n' : Node} {h : List Node.Ev} {ev : Node.Ev} (h1 : Node.run n0 h = some n) (h2 : Node.step n ev = some n') : Node.run n0 (h ++ [ev]) = some n' :=
  Node.run_append.2 ⟨n, h1, by simp [Node.run, h2]⟩

theorem Inv.outside {n0 : Node} {h : List Node.Ev} {p p' : Proc} {ev : Node.Ev} (k : Inv n0 h p) (hd : p.doing = none) (hs : Node.step p.node ev = some p'.node)
    (hd' : p'.doing = none) (hf : p'.disk = p'.node.file) : Inv n0 (h ++ [ev]) p' :=
  ⟨run_snoc k.run hs, fun _ => hf, fun _ _ _ hx => (by rw [hd'] at hx; cases hx), fun _ _ _ hx => (by rw [hd'] at hx; cases hx)⟩

theorem not_some {α : Type} {o : Option α} (h : ¬ o.isSome = true) : o = none := by cases o <;> simp_all

theorem Inv.idle {n0 : Node} {h : List Node.Ev} {p p' : Proc} {ev : Node.Ev} (k : Inv n0 h p) (hi : Idle ev)
    (hs : (if p.doing.isSome then none else (Node.step p.node ev).map fun n => Result.alive { p with node := n }) = some (.alive p')) : Inv n0 (h ++ [ev]) p' := by
  split at hs
  · cases hs
  · next hd =>
    simp only [Option.map_eq_some_iff] at hs
    obtain ⟨n, h1, h2⟩ := hs
    cases h2
    have hd := not_some hd
    exact k.outside hd h1 hd ((k.out hd).trans (idle_file h1 hi).symm)

/-- One step. -/
theorem Inv.step {n0 : Node} {h : List Node.Ev} {p p' : Proc} {ev : Ev} (k : Inv n0 h p) (hs : step p ev = some (.alive p')) : Inv n0 (h ++ nodes [ev]) p' := by
  cases ev with
  | node ev =>
    show Inv n0 (h ++ [ev]) p'
    cases ev with
    | work i e c =>
      simp only [Proc.step, work] at hs
      split at hs
      · cases hs
      · split at hs
        · cases hs
        · simp only [Option.map_eq_some_iff] at hs
          obtain ⟨n, h1, h2⟩ := hs
          cases h2
          refine ⟨run_snoc k.run h1, fun hd => ?_, fun tmp buf d hd => (k.move tmp buf d hd).work h1, fun tmp buf d hd => (k.append tmp buf d hd).work h1⟩
          exact (k.out hd).trans (idle_file h1 trivial).symm
    | restart es => cases hs
    | crashInDone m es => cases hs
    | sleep t =>
      simp only [Proc.step, sleep] at hs
      split at hs
      · cases hs
      · next hd =>
        have hd := not_some hd
        split at hs
        · next hb =>
          simp only [Option.map_eq_some_iff] at hs
          obtain ⟨n, h1, h2⟩ := hs
          cases h2
          exact k.outside hd h1 hd (by have := sleep_file h1; rw [hb, List.append_nil] at this; exact (k.out hd).trans this.symm)
        · split at hs
          · simp only [Option.map_eq_some_iff] at hs
            obtain ⟨n, h1, h2⟩ := hs
            cases h2
            exact k.outside hd h1 hd (by show p.disk ++ _ = n.file; rw [sleep_file h1, k.out hd])
          · cases hs
    | cron e t =>
      simp only [Proc.step, cron] at hs
      split at hs
      · cases hs
      · next hd =>
        have hd := not_some hd
        simp only [Option.map_eq_some_iff] at hs
        obtain ⟨n, h1, h2⟩ := hs
        obtain ⟨w, n2, g1, g2, g3⟩ := cron_step h1
        obtain ⟨a1, a2⟩ := cron_disk g2
        have hn : n.file = n2.file ∧ Alike p.node n := by subst g3; exact ⟨rfl, a1⟩
        split at h2
        · next hdone =>
          cases h2
          rcases a2 with ⟨_, a2⟩ | ⟨_, _, a2, _⟩
          · exact k.outside hd h1 hd (by show p.disk = n.file; rw [hn.1, a2, k.out hd])
          · rw [hdone] at a2; cases a2
        · next tmp rest hdone =>
          cases h2
          rcases a2 with ⟨a2, _⟩ | ⟨tmp', rest', a2, a3⟩
          · rw [hdone] at a2; cases a2
          · have h4 := hdone
            rw [a2] at hdone
            cases hdone
            refine ⟨run_snoc k.run h1, fun hx => (by cases hx), fun tmp' buf d hx => ?_, fun _ _ _ hx => (by cases hx)⟩
            cases hx
            exact ⟨⟨h, e, t, [], p.node, w, _, rfl, k.run, g1, h4, rfl, hn.2, Or.inl (k.out hd)⟩, hn.1.trans a3⟩
    | accept fd =>
      simp only [Proc.step] at hs
      split at hs
      · cases hs
      · next hd =>
        refine k.idle (ev := .accept fd) trivial ?_
        rw [if_neg (fun hx => hd (Or.inl hx))]
        exact hs
    | noCron => exact k.idle trivial hs
    | close fd => exact k.idle (ev := .close fd) trivial hs
    | request fd e args => exact k.idle (ev := .request fd e args) trivial hs
    | writable fd rs => exact k.idle (ev := .writable fd rs) trivial hs
    | turn => exact k.idle trivial hs
  | mv m =>
    show Inv n0 (h ++ []) p'
    rw [List.append_nil]
    simp only [Proc.step] at hs
    split at hs
    · next tmp buf d hd =>
      have hs := Option.some.inj hs
      cases hs
      have k' := k.move tmp buf d hd
      have hin : ∀ dg, Inside n0 h { p with disk := tmp.take m, doing := dg } tmp buf := fun dg =>
        k'.disk rfl (Or.inr ⟨min m tmp.length, by show tmp.take m = _; rw [List.take_append_of_le_length (by omega), List.take_eq_take_iff]; omega⟩)
      refine ⟨k.run, fun hx => (by cases hx), fun tmp' buf' d' hx => ?_, fun tmp' buf' d' hx => ?_⟩
      · simp only [Option.some.injEq] at hx
        split at hx
        · cases hx
        · cases hx; exact hin _
      · simp only [Option.some.injEq] at hx
        split at hx
        · cases hx; exact hin _
        · cases hx
    · cases hs
  | append m =>
    show Inv n0 (h ++ []) p'
    rw [List.append_nil]
    simp only [Proc.step] at hs
    split at hs
    · next tmp buf d hd =>
      have hs := Option.some.inj hs
      cases hs
      have k' := k.append tmp buf d hd
      refine ⟨k.run, fun hx => (by rw [show p.doing = none from hx] at hd; cases hd), fun tmp' buf' d' hx => ?_, fun tmp' buf' d' hx => ?_⟩
      · rw [show p.doing = _ from hx] at hd; cases hd
      · rw [show p.doing = _ from hx] at hd; cases hd
        exact k'.disk rfl (Or.inr ⟨tmp.length + m, by rw [List.take_length_add_append]⟩)
    · cases hs
  | publish =>
    show Inv n0 (h ++ []) p'
    rw [List.append_nil]
    simp only [Proc.step] at hs
    split at hs
    · next tmp buf d hd =>
      split at hs
      · next heq =>
        have hs := Option.some.inj hs
        cases hs
        exact ⟨k.run, fun _ => heq.trans (k.append tmp buf d hd).file.symm, fun _ _ _ hx => (by cases hx), fun _ _ _ hx => (by cases hx)⟩
      · cases hs
    · cases hs
  | sync =>
    show Inv n0 (h ++ []) p'
    rw [List.append_nil]
    simp only [Proc.step] at hs
    split at hs
    · cases hs
    · split at hs
      · cases hs; exact k.same rfl rfl rfl
      · cases hs
  | stop =>
    show Inv n0 (h ++ []) p'
    rw [List.append_nil]
    simp only [Proc.step, stopping] at hs
    split at hs <;> first
      | (have hs := Option.some.inj hs; cases hs; exact k.same rfl rfl rfl)
      | cases hs

theorem nodes_append (a b : List Ev) : nodes (a ++ b) = nodes a ++ nodes b := List.filterMap_append ..

theorem inv_run {n0 : Node} : ∀ {evs : List Ev} {h : List Node.Ev} {p p' : Proc}, Inv n0 h p → run p evs = some (.alive p') → Inv n0 (h ++ nodes evs) p' := by
  intro evs
  induction evs with
  | nil =>
    intro h p p' k hr
    cases hr
    simpa [nodes] using k
  | cons ev rest ih =>
    intro h p p' k hr
    simp only [run] at hr
    split at hr
    · cases hr
    · next p1 hs =>
      have := ih (k.step hs) hr
      rwa [List.append_assoc, ← nodes_append] at this
    · split at hr <;> cases hr

theorem inv_start (n : Node) : Inv n [] (start n) :=
  ⟨rfl, fun _ => rfl, fun _ _ _ h => (by cases h), fun _ _ _ h => (by cases h)⟩

theorem inv_of {n : Node} {evs : List Ev} {p : Proc} (h : run (start n) evs = some (.alive p)) : Inv n (nodes evs) p := by
  simpa using inv_run (inv_start n) h

theorem run_app {p : Proc} : ∀ {a b : List Ev} {q : Proc}, run p a = some (.alive q) → run p (a ++ b) = run q b := by
  intro a
  induction a generalizing p with
  | nil => intro b q h; cases h; rfl
  | cons ev rest ih =>
    intro b q h
    simp only [run, List.cons_append] at h ⊢
    split at h
    · cases h
    · exact ih h
    · split at h <;> cases h

theorem run_cons {p q : Proc} {ev : Ev} {rest : List Ev} (h : step p ev = some (.alive q)) : run p (ev :: rest) = run q rest := by simp only [run, h]

theorem node_snoc {n m : Node} {h : List Node.Ev} (ev : Node.Ev) (hr : Node.run n h = some m) : Node.run n (h ++ [ev]) = Node.step m ev := by
  induction h generalizing n with
  | nil => cases hr; simp [Node.run]
  | cons x xs ih =>
    simp only [Node.run, List.cons_append, Option.bind_eq_bind, Option.bind_eq_some_iff] at hr ⊢
    obtain ⟨n1, h1, h2⟩ := hr
    rw [h1, Option.bind_some, ih h2]

/-- A process dies in one step. -/
theorem dead_of {why : End} {disk : Bytes} : ∀ {evs : List Ev} {p : Proc}, run p evs = some (.dead why disk) →
    ∃ pre last q, evs = pre ++ [last] ∧ run p pre = some (.alive q) ∧ step q last = some (.dead why disk) := by
  intro evs
  induction evs with
  | nil => intro p h; cases h
  | cons ev rest ih =>
    intro p h
    simp only [run] at h
    split at h
    · cases h
    · next p1 hs =>
      obtain ⟨pre, last, q, rfl, h2, h3⟩ := ih h
      exact ⟨ev :: pre, last, q, rfl, by simp only [run, hs]; exact h2, h3⟩
    · next why' disk' hs =>
      split at h
      · next he =>
        cases h
        exact ⟨[], ev, p, by simpa using he, rfl, hs⟩
      · cases h

/-- How it dies. -/
theorem death {p : Proc} {ev : Ev} {why : End} {disk : Bytes} (h : step p ev = some (.dead why disk)) : disk = p.disk ∧
    ((why = .sync ∧ ev = .sync ∧ 0 < p.syncs ∧ p.opened = false) ∨ (why = .flush ∧ p.opened = false ∧ p.doing = none ∧ p.node.sys.srv.aofBuf ≠ []) ∨
     (why = .send ∧ 3 ≤ p.stop) ∨ (why = .exit ∧ ev = .stop ∧ 4 ≤ p.stop)) := by
  have idle : ∀ ev, (if p.doing.isSome then none else (Node.step p.node ev).map fun n => Result.alive { p with node := n }) ≠ some (.dead why disk) := by
    intro ev hx
    split at hx
    · cases hx
    · simp only [Option.map_eq_some_iff] at hx
      obtain ⟨_, _, hx⟩ := hx
      cases hx
  cases ev with
  | node ev =>
    cases ev with
    | work i e c =>
      simp only [Proc.step, work] at h
      split at h
      · cases h
      · split at h
        · next hc => cases h; exact ⟨rfl, Or.inr (Or.inr (Or.inl ⟨rfl, hc.2⟩))⟩
        · simp only [Option.map_eq_some_iff] at h
          obtain ⟨_, _, h⟩ := h
          cases h
    | restart es => cases h
    | crashInDone m es => cases h
    | sleep t =>
      simp only [Proc.step, sleep] at h
      split at h
      · cases h
      · next hd =>
        split at h
        · simp only [Option.map_eq_some_iff] at h
          obtain ⟨_, _, h⟩ := h
          cases h
        · next hb =>
          split at h
          · simp only [Option.map_eq_some_iff] at h
            obtain ⟨_, _, h⟩ := h
            cases h
          · next ho => cases h; exact ⟨rfl, Or.inr (Or.inl ⟨rfl, by simpa using ho, not_some hd, hb⟩)⟩
    | cron e t =>
      simp only [Proc.step, cron] at h
      split at h
      · cases h
      · simp only [Option.map_eq_some_iff] at h
        obtain ⟨_, _, h⟩ := h
        split at h <;> cases h
    | accept fd =>
      simp only [Proc.step] at h
      split at h
      · cases h
      · simp only [Option.map_eq_some_iff] at h
        obtain ⟨_, _, h⟩ := h
        cases h
    | noCron => exact (idle _ h).elim
    | close fd => exact (idle _ h).elim
    | request fd e args => exact (idle _ h).elim
    | writable fd rs => exact (idle _ h).elim
    | turn => exact (idle _ h).elim
  | mv m => simp only [Proc.step] at h; split at h <;> cases h
  | append m => simp only [Proc.step] at h; split at h <;> cases h
  | publish =>
    simp only [Proc.step] at h
    split at h
    · split at h <;> cases h
    · cases h
  | sync =>
    simp only [Proc.step] at h
    split at h
    · cases h
    · next k hk =>
      split at h
      · cases h
      · next ho => cases h; exact ⟨rfl, Or.inl ⟨rfl, rfl, by omega, by simpa using ho⟩⟩
  | stop =>
    have h : some (stopping p) = some (.dead why disk) := h
    have h := Option.some.inj h
    unfold stopping at h
    rcases hk : p.stop with _ | _ | _ | _ | k <;> simp only [hk] at h <;> cases h
    exact ⟨rfl, Or.inr (Or.inr (Or.inr ⟨rfl, rfl, by omega⟩))⟩

/-! ### Without a signal -/

theorem step_conf {n n' : Node} {ev : Node.Ev} (h : Node.step n ev = some n') : n'.conf = n.conf := by
  have h0 := Node.step_is h
  clear h
  cases h0 with
  | quiet hq => rfl
  | sleep hp => exact (Node.flush_same _ n).2.1
  | cron hp h => exact (Node.cron_files h).1
  | request hp h =>
    simp only [Node.request, Option.bind_eq_bind, Option.bind_eq_some_iff] at h
    obtain ⟨_, _, _, _, h⟩ := h
    rcases Node.launch_spec h with ⟨_, rfl⟩ | ⟨_, _, _, _, rfl⟩ <;> rfl
  | work h => exact (Node.work_files h).2.2.2.2.2.1
  | restart h => exact (Node.restart_files h).2.2.1
  | crash hp hd h => exact (Node.restart_files h).2.2.1

/-- The file is open except in the callback; syncs are left to goroutines with the policy everysec only. -/
structure Open (c : Conf) (p : Proc) : Prop where
  conf : p.node.conf = c
  stop : p.stop = 0
  opened : p.doing = none → p.opened = true
  syncs : c.policy ≠ .everysec → p.syncs = 0
  move : ∀ tmp buf d, p.doing = some (.move tmp buf d) → c.policy ≠ .everysec → d = false
  append : ∀ tmp buf d, p.doing = some (.append tmp buf d) → c.policy ≠ .everysec → d = false

theorem due_no {n : Node} {t : Int} (h : n.conf.policy ≠ .everysec) : due t n = false := by
  unfold due
  split
  · next hp => exact absurd hp h
  · rfl

theorem Open.node {c : Conf} {p : Proc} (k : Open c p) {ev : Node.Ev} {n : Node} (h : Node.step p.node ev = some n) : Open c { p with node := n } :=
  ⟨(step_conf h).trans k.conf, k.stop, k.opened, k.syncs, k.move, k.append⟩

theorem Open.idle {c : Conf} {p p' : Proc} {ev : Node.Ev} (k : Open c p)
    (hs : (if p.doing.isSome then none else (Node.step p.node ev).map fun n => Result.alive { p with node := n }) = some (.alive p')) : Open c p' := by
  split at hs
  · cases hs
  · simp only [Option.map_eq_some_iff] at hs
    obtain ⟨n, h1, h2⟩ := hs
    cases h2
    exact k.node h1

theorem Open.step {c : Conf} {p p' : Proc} {ev : Ev} (k : Open c p) (hs : step p ev = some (.alive p')) (hn : ev ≠ .stop) : Open c p' := by
  cases ev with
  | node ev =>
    cases ev with
    | work i e c =>
      simp only [Proc.step, work] at hs
      split at hs
      · cases hs
      · split at hs
        · cases hs
        · simp only [Option.map_eq_some_iff] at hs
          obtain ⟨n, h1, h2⟩ := hs
          cases h2
          exact k.node h1
    | restart es => cases hs
    | crashInDone m es => cases hs
    | sleep t =>
      simp only [Proc.step, sleep] at hs
      split at hs
      · cases hs
      · split at hs
        · simp only [Option.map_eq_some_iff] at hs
          obtain ⟨n, h1, h2⟩ := hs
          cases h2
          exact k.node h1
        · split at hs
          · simp only [Option.map_eq_some_iff] at hs
            obtain ⟨n, h1, h2⟩ := hs
            cases h2
            have k' := k.node h1
            exact ⟨k'.conf, k.stop, k.opened, fun hc => by show p.syncs + (due t p.node).toNat = 0; rw [k.syncs hc, due_no (by rw [k.conf]; exact hc)]; rfl,
              k.move, k.append⟩
          · cases hs
    | cron e t =>
      simp only [Proc.step, cron] at hs
      split at hs
      · cases hs
      · simp only [Option.map_eq_some_iff] at hs
        obtain ⟨n, h1, h2⟩ := hs
        have k' := k.node h1
        split at h2
        · cases h2; exact k'
        · cases h2
          refine ⟨k'.conf, k.stop, fun hx => (by cases hx), k.syncs, fun tmp buf d hx hc => ?_, fun _ _ _ hx => (by cases hx)⟩
          cases hx
          exact due_no (by rw [k.conf]; exact hc)
    | accept fd =>
      simp only [Proc.step] at hs
      split at hs
      · cases hs
      · simp only [Option.map_eq_some_iff] at hs
        obtain ⟨n, h1, h2⟩ := hs
        cases h2
        exact k.node h1
    | noCron => exact k.idle (ev := .noCron) hs
    | close fd => exact k.idle (ev := .close fd) hs
    | request fd e args => exact k.idle (ev := .request fd e args) hs
    | writable fd rs => exact k.idle (ev := .writable fd rs) hs
    | turn => exact k.idle (ev := .turn) hs
  | mv m =>
    simp only [Proc.step] at hs
    split at hs
    · next tmp buf d hd =>
      have hs := Option.some.inj hs
      cases hs
      refine ⟨k.conf, k.stop, fun hx => (by cases hx), k.syncs, fun tmp' buf' d' hx hc => ?_, fun tmp' buf' d' hx hc => ?_⟩
      all_goals
        simp only [Option.some.injEq] at hx
        split at hx
        all_goals first
          | (cases hx; done)
          | (cases hx; exact k.move tmp buf _ hd hc)
    · cases hs
  | append m =>
    simp only [Proc.step] at hs
    split at hs
    · have hs := Option.some.inj hs
      cases hs
      exact ⟨k.conf, k.stop, k.opened, k.syncs, k.move, k.append⟩
    · cases hs
  | publish =>
    simp only [Proc.step] at hs
    split at hs
    · next tmp buf d hd =>
      split at hs
      · have hs := Option.some.inj hs
        cases hs
        exact ⟨k.conf, k.stop, fun _ => rfl, fun hc => by show p.syncs + d.toNat = 0; rw [k.syncs hc, k.append tmp buf d hd hc]; rfl,
          fun _ _ _ hx => (by cases hx), fun _ _ _ hx => (by cases hx)⟩
      · cases hs
    · cases hs
  | sync =>
    simp only [Proc.step] at hs
    split at hs
    · cases hs
    · next j hj =>
      split at hs
      · cases hs
        exact ⟨k.conf, k.stop, k.opened, fun hc => by have := k.syncs hc; omega, k.move, k.append⟩
      · cases hs
  | stop => exact absurd rfl hn

theorem open_run {c : Conf} : ∀ {evs : List Ev} {p p' : Proc}, Open c p → Unstopped evs → run p evs = some (.alive p') → Open c p' := by
  intro evs
  induction evs with
  | nil => intro p p' k _ hr; cases hr; exact k
  | cons ev rest ih =>
    intro p p' k hu hr
    simp only [run] at hr
    split at hr
    · cases hr
    · next p1 hs => exact ih (k.step hs (fun hx => hu (by simp [hx]))) (fun hx => hu (List.mem_cons_of_mem _ hx)) hr
    · split at hr <;> cases hr

theorem open_start (n : Node) : Open n.conf (start n) :=
  ⟨rfl, rfl, fun _ => rfl, fun _ => rfl, fun _ _ _ h => (by cases h), fun _ _ _ h => (by cases h)⟩

/-! ### Every history of the `Node` is one of the process -/

/-- Between two steps of the loop. -/
structure Rest (p : Proc) : Prop where
  doing : p.doing = none
  opened : p.opened = true
  stop : p.stop = 0
  disk : p.disk = p.node.file

theorem step_append {p : Proc} {tmp buf : Bytes} {d : Bool} (hd : p.doing = some (.append tmp buf d)) (m : Nat) :
    step p (.append m) = some (.alive { p with disk := tmp ++ buf.take m }) := by simp only [step, hd]

theorem step_publish {p : Proc} {tmp buf : Bytes} {d : Bool} (hd : p.doing = some (.append tmp buf d)) (hk : p.disk = tmp ++ buf) :
    step p .publish = some (.alive { p with opened := true, doing := none, syncs := p.syncs + d.toNat }) := by simp only [step, hd, if_pos hk]

theorem sim_step {p : Proc} (k : Rest p) {ev : Node.Ev} {n : Node} (h : Node.step p.node ev = some n) (hn : ev.isRestart = false) :
    ∃ evs p', nodes evs = [ev] ∧ run p evs = some (.alive p') ∧ p'.node = n ∧ Rest p' := by
  have hd : ¬ (p.doing.isSome = true) := by rw [k.doing]; simp
  have one : ∀ p', step p (.node ev) = some (.alive p') → p'.node = n ∧ Rest p' → ∃ evs p', nodes evs = [ev] ∧ run p evs = some (.alive p') ∧ p'.node = n ∧ Rest p' :=
    fun p' h1 h2 => ⟨[.node ev], p', rfl, by simp only [run, h1], h2⟩
  have idle : Idle ev → step p (.node ev) = some (.alive { p with node := n }) →
      ∃ evs p', nodes evs = [ev] ∧ run p evs = some (.alive p') ∧ p'.node = n ∧ Rest p' :=
    fun hi h1 => one _ h1 ⟨rfl, k.doing, k.opened, k.stop, k.disk.trans (idle_file h hi).symm⟩
  cases ev with
  | work i e c =>
    refine idle trivial ?_
    obtain ⟨j, hj, _⟩ := Node.work_spec h
    simp only [step, work, hj]
    rw [if_neg (by rw [k.stop]; omega), h]; rfl
  | restart es => cases hn
  | crashInDone m es => cases hn
  | accept fd =>
    refine idle trivial ?_
    simp only [step]
    rw [if_neg (by rw [k.stop, k.doing]; simp), h]; rfl
  | noCron => exact idle trivial (by simp only [step]; rw [if_neg hd, h]; rfl)
  | close fd => exact idle trivial (by simp only [step]; rw [if_neg hd, h]; rfl)
  | request fd e args => exact idle trivial (by simp only [step]; rw [if_neg hd, h]; rfl)
  | writable fd rs => exact idle trivial (by simp only [step]; rw [if_neg hd, h]; rfl)
  | turn => exact idle trivial (by simp only [step]; rw [if_neg hd, h]; rfl)
  | sleep t =>
    by_cases hb : p.node.sys.srv.aofBuf = []
    · refine one { p with node := n } (by simp only [step, sleep]; rw [if_neg hd, if_pos hb, h]; rfl) ⟨rfl, k.doing, k.opened, k.stop, ?_⟩
      have := sleep_file h
      rw [hb, List.append_nil] at this
      exact k.disk.trans this.symm
    · refine one { p with node := n, disk := p.disk ++ p.node.sys.srv.aofBuf, syncs := p.syncs + (due t p.node).toNat }
        (by simp only [step, sleep]; rw [if_neg hd, if_neg hb, if_pos k.opened, h]; rfl) ⟨rfl, k.doing, k.opened, k.stop, ?_⟩
      show p.disk ++ _ = n.file
      rw [sleep_file h, k.disk]
  | cron e t =>
    obtain ⟨w, n2, g1, g2, g3⟩ := cron_step h
    obtain ⟨a1, a2⟩ := cron_disk g2
    have hf : n.file = n2.file := by subst g3; rfl
    rcases a2 with ⟨a2, a3⟩ | ⟨tmp, rest, a2, a3⟩
    · exact one { p with node := n } (by simp only [step, cron, a2]; rw [if_neg hd, h]; rfl) ⟨rfl, k.doing, k.opened, k.stop, by show p.disk = n.file; rw [hf, a3, k.disk]⟩
    · refine ⟨[.node (.cron e t), .mv tmp.length, .append p.node.sys.srv.aofRewriteBuf.length, .publish],
        { p with node := n, disk := tmp ++ p.node.sys.srv.aofRewriteBuf, opened := true, doing := none, syncs := p.syncs + (due t p.node).toNat }, rfl, ?_, rfl, ?_⟩
      · have h1 : step p (.node (.cron e t)) =
            some (.alive { p with node := n, opened := false, doing := some (.move tmp p.node.sys.srv.aofRewriteBuf (due t p.node)) }) := by
          simp only [step, cron, a2]; rw [if_neg hd, h]; rfl
        simp only [run, h1]
        simp [step]
      · exact ⟨rfl, rfl, k.stop, by show tmp ++ _ = n.file; rw [hf, a3]⟩

theorem sim_run : ∀ {h : List Node.Ev} {p : Proc} {n : Node}, Rest p → Node.run p.node h = some n → (∀ ev ∈ h, ev.isRestart = false) →
    ∃ evs p', nodes evs = h ∧ run p evs = some (.alive p') ∧ p'.node = n ∧ Rest p' := by
  intro h
  induction h with
  | nil => intro p n k hr _; cases hr; exact ⟨[], p, rfl, rfl, rfl, k⟩
  | cons ev rest ih =>
    intro p n k hr hn
    simp only [Node.run, Option.bind_eq_bind, Option.bind_eq_some_iff] at hr
    obtain ⟨n1, h1, h2⟩ := hr
    obtain ⟨evs1, p1, e1, e2, e3, e4⟩ := sim_step k h1 (hn ev (List.mem_cons_self ..))
    subst e3
    obtain ⟨evs2, p2, f1, f2, f3, f4⟩ := ih e4 h2 (fun ev hev => hn ev (List.mem_cons_of_mem _ hev))
    exact ⟨evs1 ++ evs2, p2, by rw [nodes_append, e1, f1]; rfl, by rw [run_app e2]; exact f2, f3, f4⟩

theorem rest_start (n : Node) : Rest (start n) := ⟨rfl, rfl, rfl, rfl⟩

end Proc
end Metis
