import Verif.Proofs.Told
/-!
Properties C84 (system calls hit what their descriptor was opened for) and C85 (what arrives at a connection).
-/
set_option linter.unusedSectionVars false
set_option linter.unusedSimpArgs false
set_option linter.unusedVariables false
namespace Metis.Props.FdsP
open Metis Metis.Ae Metis.Fds Metis.Spec

/-- The full claim of C84: whatever the clients, the kernel and the goroutine that rewrites the file do, every `read`, `write` and `close` hits the connection or
the file for which the number was remembered. -/
def C84 : Prop := ∀ (lfd : Nat) (evs : List Ev) (s : State), run (init lfd) evs = some s → ∀ u ∈ s.log, Use.right u

theorem inv_init (lfd : Nat) : Inv lfd (init lfd) := by
  obtain ⟨l', h1, h2, h3⟩ := Net.add_reg ok_new (fd := lfd) (k := .readable) 0 rfl
  have hfiles : ∀ fd k, (init lfd).loop.files (key fd k) = if fd = lfd ∧ k = .readable then some ⟨lfd, .readable, 0⟩ else none := by
    rcases addFile_cases ok_new lfd .readable 0 true with ⟨h | h, _⟩ | ⟨_, _, l', h3, _, _, _, h5⟩
    · cases h
    · cases h
    · intro fd k
      simp only [init, h3, h5]; rfl
  refine ⟨?_, ?_, ?_, ?_, ?_, .nil, ?_, ?_, ?_⟩
  · intro fd i h
    simp only [init] at h
    split at h <;> cases h
  · intro fd
    simp only [init]
    split
    · next e => simp [e]
    · next e => simp [e]
  · intro j fd
    simp only [init]
    split <;> simp
  · simp only [init, h1]; exact h2
  · intro fd k ev h
    rw [hfiles] at h
    split at h
    · next e => cases h; exact .inl ⟨rfl, e.1, e.2⟩
    · cases h
  · intro ev rest h; cases h
  · intro i h; cases h
  · intro u h; cases h

theorem inv_run {lfd : Nat} : ∀ (evs : List Ev) {s s' : State}, Inv lfd s → Spares s evs → run s evs = some s' → Inv lfd s'
  | [], _, _, h, _, hr => by cases hr; exact h
  | ev :: evs, s, s', h, hsp, hr => by
    simp only [Fds.run, Option.bind_eq_bind, Option.bind_eq_some_iff] at hr
    obtain ⟨s1, h1, h2⟩ := hr
    exact inv_run evs (step_inv h hsp.1 h1) (hsp.2 s1 h1) h2

/-- **C84, partial**: the claim holds in every history in which files get spare numbers: no number for which a callback of the same turn is still
to run, or which is about to be closed a second time. -/
theorem C84_partial {lfd : Nat} {evs : List Ev} {s : State} (hsp : Spares (init lfd) evs) (hr : run (init lfd) evs = some s) : ∀ u ∈ s.log, Use.right u :=
  (inv_run evs (inv_init lfd) hsp hr).log

def Ev.opens : Ev → Bool
  | .openFile _ => true
  | _ => false

theorem spares_none : ∀ (evs : List Ev) (s : State), (∀ ev ∈ evs, Ev.opens ev = false) → Spares s evs
  | [], _, _ => trivial
  | ev :: evs, s, h => by
    refine ⟨?_, fun s' _ => spares_none evs s' (fun x hx => h x (by simp [hx]))⟩
    have := h ev (by simp)
    cases ev <;> first | trivial | cases this

/-- **C84, partial**: in particular as long as no file is opened, that is, no rewrite is started; however the clients connect, send, stop
reading and go away, and whichever numbers the kernel hands out. -/
theorem C84_clients_partial {lfd : Nat} {evs : List Ev} {s : State} (hn : ∀ ev ∈ evs, Ev.opens ev = false) (hr : run (init lfd) evs = some s) :
    ∀ u ∈ s.log, Use.right u := C84_partial (spares_none evs _ hn) hr

/-! ### The condition is needed -/

theorem busy_init (lfd : Nat) : Busy (init lfd) := by
  refine ⟨fun i c h => (by simp [init] at h), fun fd ev h => ?_, fun ev h _ => (by cases h)⟩
  rcases (inv_init lfd).reg fd _ ev h with ⟨_, _, h⟩ | ⟨i, _, h⟩
  · cases h
  · simp only [init] at h
    split at h <;> cases h

theorem busy_run {lfd : Nat} : ∀ (evs : List Ev) {s s' : State}, Inv lfd s → Busy s → Spares s evs → (∀ ev ∈ evs, Speaks ev) → run s evs = some s' → Busy s'
  | [], _, _, _, h, _, _, hr => by cases hr; exact h
  | ev :: evs, s, s', hi, h, hsp, hp, hr => by
    simp only [Fds.run, Option.bind_eq_bind, Option.bind_eq_some_iff] at hr
    obtain ⟨s1, h1, h2⟩ := hr
    exact busy_run evs (step_inv hi hsp.1 h1) (step_busy hi h (hp ev (by simp)) h1) (hsp.2 s1 h1) (fun x hx => hp x (by simp [hx])) h2

theorem sends_one {r : Bytes} {q : List Bytes} {n : Nat} (h : Net.SOk ⟨r :: q, n⟩) :
    ∃ o b, b ≠ [] ∧ (Net.sendLoop [.bytes 1] ⟨r :: q, n⟩ [] = .done o b ∨ Net.sendLoop [.bytes 1] ⟨r :: q, n⟩ [] = .again o b) := by
  have hm : n < r.length := h.2
  have hk : min 1 (r.length - n) = 1 := by omega
  have hne : ([] : Bytes) ++ (r.drop n).take 1 ≠ [] := by
    intro e
    have := congrArg List.length e
    simp at this
    omega
  rw [Net.sendLoop, if_pos hm]
  simp only [hk]
  split
  · cases q with
    | nil => exact ⟨_, _, hne, .inl (by rw [Net.sendLoop])⟩
    | cons a q =>
      have : 0 < a.length := List.length_pos_of_ne_nil (h.1 a (by simp))
      exact ⟨_, _, hne, .inr (by rw [Net.sendLoop, if_pos this])⟩
  · exact ⟨_, _, hne, .inl rfl⟩

/-- The condition of `C84_partial` is exact: whenever a file gets a number that is not spare (after any history of the kind of `C84_partial`), the server is one
system call away from writing to that file, or closing it, in the name of a client. -/
theorem C84_clash {lfd : Nat} {evs : List Ev} {s s1 : State} {fd : Nat} (hsp : Spares (init lfd) evs) (hp : ∀ ev ∈ evs, Speaks ev)
    (hr : run (init lfd) evs = some s) (ho : step s (.openFile fd) = some s1) (hn : ¬ Spare s (.openFile fd)) :
    ∃ ev s2, step s1 ev = some s2 ∧ ∃ i c, c ≠ .read ∧ c ≠ .write [] ∧ (⟨.conn i, c, .file s.files.length⟩ : Use) ∈ s2.log := by
  have hi := inv_run evs (inv_init lfd) hsp hr
  have hb := busy_run evs (inv_init lfd) (busy_init lfd) hsp hp hr
  simp only [step] at ho
  split at ho
  · cases ho
  next htab =>
  have htab : s.tab fd = none := by simpa using htab
  cases ho
  by_cases hf : ∃ ev ∈ s.fired, ev.fd = fd
  · obtain ⟨ev, h1, rfl⟩ := hf
    have hlive : ¬ Live lfd s ev := by
      rintro (⟨_, h⟩ | ⟨i, _, h⟩)
      · rw [h, (hi.lis lfd).2 rfl] at htab; cases htab
      · rw [htab] at h; cases h
    obtain ⟨x, rest, hx⟩ : ∃ x rest, s.fired = x :: rest := by
      cases hfe : s.fired with
      | nil => rw [hfe] at h1; cases h1
      | cons x rest => exact ⟨x, rest, rfl⟩
    obtain ⟨q1, q2⟩ := hi.head x rest hx
    rw [hx, List.mem_cons] at h1
    rcases h1 with rfl | h1
    swap
    · exact absurd (q2 ev h1) hlive
    obtain ⟨hc, i, e1, e2, e3, e4⟩ := q1.resolve_left hlive
    obtain ⟨k, e5, c, hci, hq⟩ := hb.fired ev (by rw [hx]; simp) e2
    rw [e1] at e5; cases e5
    have hcf : c.fd = ev.fd := by unfold fdOf at e3; rw [hci] at e3; simpa using e3
    have hsok := hb.sok i c hci
    obtain ⟨r, q, hcq⟩ : ∃ r q, c.out.queue = r :: q := by
      cases hcq : c.out.queue with
      | nil => exact absurd hcq hq
      | cons r q => exact ⟨r, q, rfl⟩
    obtain ⟨cfd, cq, cs⟩ := c
    simp only at hcq hcf
    subst hcq hcf
    obtain ⟨o, b, hb0, hs⟩ := sends_one hsok
    generalize hU : ({ s with tab := fun x => if x = ev.fd then some (.file s.files.length) else s.tab x, files := s.files ++ [some ev.fd] } : State) = U
    have u1 : U.closing = none := by rw [← hU]; exact hc
    have u2 : U.fired = ev :: rest := by rw [← hU]; exact hx
    have u3 : U.heap[i]? = some ⟨ev.fd, ⟨r :: q, cs⟩⟩ := by rw [← hU]; exact hci
    have u4 : U.tab ev.fd = some (.file s.files.length) := by rw [← hU]; simp
    have hstep : step U (.callback (.wrote [.bytes 1])) = Fds.writable { U with fired := rest } i [.bytes 1] := by
      simp only [step, u1, u2, e1, e2]
    have hlog : (State.use { U with fired := rest } (.conn i) (.write b) ev.fd).log = U.log ++ [⟨.conn i, .write b, .file s.files.length⟩] := by
      simp only [State.use, u4]
    refine ⟨.callback (.wrote [.bytes 1]), ?_⟩
    rw [hstep]
    simp only [Fds.writable, u3, u4, Option.bind_eq_bind, Option.bind_some, Option.isSome_some, if_true]
    rcases hs with hs | hs
    · simp only [hs]
      split
      · exact ⟨_, rfl, i, .write b, by simp, by simpa using hb0, by simp only [hlog]; simp⟩
      · exact ⟨_, rfl, i, .write b, by simp, by simpa using hb0, by simp only [hlog]; simp⟩
    · simp only [hs]
      exact ⟨_, rfl, i, .write b, by simp, by simpa using hb0, by simp only [hlog]; simp⟩
  · have hcl : ∃ i c, s.closing = some i ∧ s.heap[i]? = some c ∧ c.fd = fd := by
      by_contra hne
      refine hn ⟨fun ev h e => hf ⟨ev, h, e⟩, fun i c h1 h2 e => hne ⟨i, c, h1, h2, e⟩⟩
    obtain ⟨i, c, h1, h2, rfl⟩ := hcl
    refine ⟨.free, _, by simp only [step, h1, Fds.free, h2]; rfl, i, .close, by simp, by simp, ?_⟩
    simp [State.close, State.use]

/-! ### The full claim is false -/

/-- A client asks twice and goes away before it has read the replies. Its `read` and its `write` are reported together; the callback for reading closes the
connection; the goroutine opens its temporary file, which gets the number; the callback for writing sends the reply. -/
def crossed : List Ev := [.poll [(3, 1)], .callback (.accept (some 7)), .poll [(7, 1)], .callback (.data [b!"+OK\r\n"] true), .poll [(7, 5)], .callback .eof,
  .openFile 7, .callback (.wrote [.bytes 5])]

theorem crossed_result : (run (init 3) crossed).map (fun s => s.log.getLast?) = some (some ⟨.conn 0, .write b!"+OK\r\n", .file 0⟩) := by decide

/-- **C84 is false**: the reply is written to the new append-only file. -/
theorem C84_refuted : ¬ C84 := by
  intro hC
  have h := crossed_result
  rw [Option.map_eq_some_iff] at h
  obtain ⟨s, h1, h2⟩ := h
  have := hC 3 crossed s h1 _ (List.mem_of_getLast? h2)
  cases this

/-- The same client; here the file is opened after the `write` on the closed number has failed and before `free` closes the number for the second
time. The next client gets the number. -/
def leaked : List Ev := [.poll [(3, 1)], .callback (.accept (some 7)), .poll [(7, 1)], .callback (.data [b!"+OK\r\n"] true), .poll [(7, 5)], .callback .eof,
  .callback (.wrote []), .openFile 7, .free, .poll [(3, 1)], .callback (.accept (some 7)), .writeFile 0 b!"*3\r\n$3\r\nset\r\n$1\r\nk\r\n$6\r\nsecret\r\n"]

theorem leaked_result : (run (init 3) leaked).map (fun s => s.log.getLast?) =
    some (some ⟨.file 0, .write b!"*3\r\n$3\r\nset\r\n$1\r\nk\r\n$6\r\nsecret\r\n", .conn 1⟩) := by decide

/-- **C84 is false** in the other direction: the goroutine writes the data of all databases to a client, who need not have authenticated. -/
theorem C84_leak : ∃ s, run (init 3) leaked = some s ∧ ∃ b, b ≠ [] ∧ (⟨.file 0, .write b, .conn 1⟩ : Use) ∈ s.log := by
  have h := leaked_result
  rw [Option.map_eq_some_iff] at h
  obtain ⟨s, h1, h2⟩ := h
  exact ⟨s, h1, _, by decide, List.mem_of_getLast? h2⟩

/-! ### What arrives -/

/-- The full claim of C85: whatever the clients, the kernel and the goroutine do, what has arrived at the connection of a client is the beginning of the
replies to this client, and as long as the connection is open nothing is missing but what waits in its queue. -/
def C85 : Prop := ∀ (lfd : Nat) (evs : List Ev) (s : State), (∀ ev ∈ evs, Speaks ev) → run (init lfd) evs = some s →
  (∀ i, arrived s.log i <+: allReplies (init lfd) evs i) ∧
  ∀ (i : Nat) (c : Client), s.heap[i]? = some c → s.tab c.fd = some (.conn i) → s.closing ≠ some i → c.out.queue = [] → arrived s.log i = allReplies (init lfd) evs i

theorem told_run {lfd : Nat} : ∀ (evs : List Ev) {s s' : State} {T : Nat → Bytes}, Inv lfd s → Busy s → Told s T → Spares s evs → (∀ ev ∈ evs, Speaks ev) →
    run s evs = some s' → Told s' (fun i => T i ++ allReplies s evs i)
  | [], _, _, _, _, _, h, _, _, hr => by cases hr; simpa [allReplies] using h
  | ev :: evs, s, s', T, hi, hb, h, hsp, hp, hr => by
    simp only [Fds.run, Option.bind_eq_bind, Option.bind_eq_some_iff] at hr
    obtain ⟨s1, h1, h2⟩ := hr
    have := told_run evs (step_inv hi hsp.1 h1) (step_busy hi hb (hp ev (by simp)) h1) (step_told hi hb h hsp.1 (hp ev (by simp)) h1) (hsp.2 s1 h1)
      (fun x hx => hp x (by simp [hx])) h2
    simpa [allReplies, h1] using this

theorem told_init (lfd : Nat) : Told (init lfd) (fun _ => []) :=
  ⟨fun i => by simp [init, arrived], fun i c h => by simp [init] at h, fun _ _ => rfl⟩

/-- **C85, partial**: the claim holds in every history in which files get spare numbers (see `C84_partial`): no byte of another client, of a file, of a client that had the
number before, none twice, none out of order. -/
theorem C85_partial {lfd : Nat} {evs : List Ev} {s : State} (hsp : Spares (init lfd) evs) (hp : ∀ ev ∈ evs, Speaks ev) (hr : run (init lfd) evs = some s) :
    (∀ i, arrived s.log i <+: allReplies (init lfd) evs i) ∧
    ∀ (i : Nat) (c : Client), s.heap[i]? = some c → s.tab c.fd = some (.conn i) → s.closing ≠ some i → arrived s.log i ++ Net.pending c.out = allReplies (init lfd) evs i := by
  have h := told_run evs (inv_init lfd) (busy_init lfd) (told_init lfd) hsp hp hr
  simp only [List.nil_append] at h
  exact ⟨h.pre, h.open_⟩

/-- **C85 is false**: the database goes to a client that has asked for nothing. -/
theorem C85_refuted : ¬ C85 := by
  intro hC
  have h : (run (init 3) leaked).map (fun s => arrived s.log 1) = some b!"*3\r\n$3\r\nset\r\n$1\r\nk\r\n$6\r\nsecret\r\n" := by decide
  rw [Option.map_eq_some_iff] at h
  obtain ⟨s, h1, h2⟩ := h
  have := (hC 3 leaked s (by
    intro ev hev
    simp only [leaked, List.mem_cons, List.not_mem_nil, or_false] at hev
    rcases hev with rfl | rfl | rfl | rfl | rfl | rfl | rfl | rfl | rfl | rfl | rfl | rfl <;> first | trivial | (intro r hr; simp at hr; subst hr; decide)) h1).1 1
  rw [h2, show allReplies (init 3) leaked 1 = [] by decide] at this
  revert this
  decide

/-- The hypotheses of C84 and C85 can be met: a client asks and goes away, both are reported in one turn with a second client, its stale callback fails and closes its number
again, a rewrite opens a file under that number afterwards and writes to it, and the second client gets its reply in two pieces. -/
def evening : List Ev := [.poll [(3, 1)], .callback (.accept (some 7)), .poll [(3, 1), (7, 1)], .callback (.accept (some 8)), .callback (.data [b!"+OK\r\n"] true),
  .poll [(8, 1), (7, 5)], .callback (.data [b!"$-1\r\n", b!":1\r\n"] true), .callback .eof, .callback (.wrote []), .free, .openFile 7, .poll [(8, 4)], .callback (.wrote [.bytes 2]),
  .writeFile 0 b!"*1\r\n", .poll [(8, 4)], .callback (.wrote [.bytes 9, .bytes 9]), .closeFile 0]

/-- `Spares`, computed. -/
def spareB (s : State) : Ev → Bool
  | .openFile fd => s.fired.all (fun ev => ev.fd ≠ fd) && (match s.closing with | none => true | some i => (match s.heap[i]? with | none => true | some c => c.fd ≠ fd))
  | _ => true

def sparesB (s : State) : List Ev → Bool
  | [] => true
  | ev :: evs => spareB s ev && (match step s ev with | none => true | some s' => sparesB s' evs)

theorem spares_of : ∀ (evs : List Ev) (s : State), sparesB s evs = true → Spares s evs
  | [], _, _ => trivial
  | ev :: evs, s, h => by
    simp only [sparesB, Bool.and_eq_true] at h
    refine ⟨?_, fun s' hs => spares_of evs s' (by have := h.2; rw [hs] at this; exact this)⟩
    have h1 := h.1
    cases ev <;> try trivial
    simp only [spareB, Bool.and_eq_true, List.all_eq_true, decide_eq_true_eq] at h1
    refine ⟨h1.1, fun i c hc hi => ?_⟩
    have h2 := h1.2
    rw [hc] at h2
    simp only [hi] at h2
    simpa using h2

example : Spares (init 3) evening ∧ (∀ ev ∈ evening, Speaks ev) ∧ (run (init 3) evening).map (fun s => (arrived s.log 0, arrived s.log 1, s.log.length)) = some ([], b!"$-1\r\n:1\r\n", 10) :=
  ⟨spares_of _ _ (by decide), by simp [evening, Speaks], by decide⟩

end Metis.Props.FdsP
