import Verif.Proofs.Net
/-!
Properties C31 and C32: the output of the connections.
-/
set_option linter.unusedSectionVars false
set_option linter.unusedSimpArgs false
set_option linter.unusedVariables false
namespace Metis.Props.NetP
open Metis Metis.Ae Metis.Net

/-- The replies given to the present (or last) connection behind a descriptor, put together. -/
def said (fd : Nat) (evs : List Ev) : Bytes :=
  evs.foldl (fun acc ev => match ev with
    | .accept x => if x = fd then [] else acc
    | .reply x s => if x = fd then acc ++ s else acc
    | _ => acc) []

/-- No reply is the empty string (every reply of the server has at least its type byte, see C30). -/
def Proper (evs : List Ev) : Prop := ∀ fd s, Ev.reply fd s ∈ evs → s ≠ []

theorem said_snoc (fd : Nat) (evs : List Ev) (ev : Ev) : said fd (evs ++ [ev]) = match ev with
    | .accept x => if x = fd then [] else said fd evs
    | .reply x s => if x = fd then said fd evs ++ s else said fd evs
    | _ => said fd evs := by
  unfold said; rw [List.foldl_append]; rfl

/-- The invariant of all histories. -/
def Inv (evs : List Ev) (n : Net) : Prop := NOk n ∧ ∀ fd, match n.clients fd with
  | some o => said fd evs = n.wire fd ++ pending o
  | none => ∃ r, said fd evs = n.wire fd ++ r

theorem inv_step {evs : List Ev} {n n' : Net} {ev : Ev} (h : Inv evs n) (hp : ∀ fd s, ev = .reply fd s → s ≠ []) (hs : step n ev = some n') :
    Inv (evs ++ [ev]) n' := by
  obtain ⟨h1, h2⟩ := h
  cases ev with
  | accept fd =>
    simp only [step] at hs
    split at hs
    · cases hs
    · next hc =>
      cases hs
      have hc : n.clients fd = none := by simpa using hc
      obtain ⟨a1, a2, a3, a4⟩ := accept_ok h1 hc
      refine ⟨a1, fun x => ?_⟩
      rw [said_snoc]
      by_cases he : x = fd
      · subst he
        simp only [a2, a3, if_true]; rfl
      · obtain ⟨b1, b2⟩ := a4 x he
        simp only [b1, b2, if_neg (fun e : fd = x => he e.symm)]
        exact h2 x
  | reply fd s =>
    simp only [step] at hs
    obtain ⟨o, o', k1, k2, k3, k4, k5, k6⟩ := addReply_ok h1 (hp fd s rfl) hs
    refine ⟨k2, fun x => ?_⟩
    rw [said_snoc]
    by_cases he : x = fd
    · subst he
      have := h2 x
      rw [k1] at this
      simp only at this
      simp only [k3, k5, if_true]
      rw [k4, this, List.append_assoc]
    · simp only [k6 x he, k5, if_neg (fun e : fd = x => he e.symm)]
      exact h2 x
  | writable fd rs =>
    simp only [step] at hs
    obtain ⟨o, t, k1, k2, k3, k4, k5⟩ := writable_ok h1 hs
    refine ⟨k2, fun x => ?_⟩
    rw [said_snoc]
    by_cases he : x = fd
    · subst he
      have := h2 x
      rw [k1] at this
      simp only at this
      rcases k5 with ⟨o', e1, e2⟩ | ⟨e1, r, e2⟩
      · simp only [e1]; rw [k3, List.append_assoc, e2, this]
      · simp only [e1]; exact ⟨r, by rw [k3, List.append_assoc, e2, this]⟩
    · obtain ⟨b1, b2⟩ := k4 x he
      simp only [b1, b2]
      exact h2 x
  | free fd =>
    simp only [step] at hs
    split at hs
    · next hc =>
      cases hs
      obtain ⟨f1, f2, f3⟩ := free_ok h1 fd
      refine ⟨f1, fun x => ?_⟩
      rw [said_snoc]
      by_cases he : x = fd
      · subst he
        have := h2 x
        simp only [f2]
        cases ho : n.clients x with
        | none => rw [ho] at this; exact this
        | some o => rw [ho] at this; exact ⟨pending o, this⟩
      · obtain ⟨b1, b2⟩ := f3 x he
        simp only [b1, b2]
        exact h2 x
    · cases hs

theorem inv_run : ∀ (evs evs0 : List Ev) {n n' : Net}, Inv evs0 n → Proper evs → run n evs = some n' → Inv (evs0 ++ evs) n'
  | [], evs0, n, n', h, hp, hr => by cases hr; simpa using h
  | ev :: evs, evs0, n, n', h, hp, hr => by
    simp only [Net.run, Option.bind_eq_bind, Option.bind_eq_some_iff] at hr
    obtain ⟨n1, h1, h2⟩ := hr
    have := inv_run evs (evs0 ++ [ev]) (inv_step h (fun fd s e => hp fd s (by rw [e]; exact List.mem_cons_self)) h1)
      (fun fd s hm => hp fd s (List.mem_cons_of_mem _ hm)) h2
    rwa [List.append_assoc] at this

theorem inv_new : Inv [] Net.new := by
  refine ⟨⟨ok_new, fun fd _ k => rfl, fun fd o h => by cases h⟩, fun fd => ⟨[], rfl⟩⟩

/-- **C31**: the bytes the kernel has accepted are a prefix of the replies in order, each once; for connected and for closed connections. -/
theorem C31_prefix {evs : List Ev} {n : Net} (hp : Proper evs) (h : run Net.new evs = some n) (fd : Nat) : ∃ r, said fd evs = n.wire fd ++ r := by
  have := (inv_run evs [] inv_new hp h).2 fd
  rw [List.nil_append] at this
  cases hc : n.clients fd with
  | none => rw [hc] at this; exact this
  | some o => rw [hc] at this; exact ⟨pending o, this⟩

/-- **C31**: as long as a client is connected and its writable event is not registered everything has been sent. -/
theorem C31_complete {evs : List Ev} {n : Net} (hp : Proper evs) (h : run Net.new evs = some n) {fd : Nat} {o : Sender} (hc : n.clients fd = some o)
    (hr : n.loop.files (key fd .writable) = none) : n.wire fd = said fd evs := by
  obtain ⟨h1, h2⟩ := inv_run evs [] inv_new hp h
  have := h2 fd
  rw [List.nil_append, hc] at this
  simp only at this
  have hq : o.queue = [] := by
    by_cases hq : o.queue = []
    · exact hq
    · have := ((h1.on fd o hc).2.2).2 hq
      simp [reg, hr] at this
  rw [this]
  simp [pending, hq]

/-- **C31**: the writable callback of a connected client always returns, whatever the kernel answers. -/
theorem C31_returns {evs : List Ev} {n : Net} (hp : Proper evs) (h : run Net.new evs = some n) {fd : Nat} {o : Sender} (hc : n.clients fd = some o)
    (rs : List Wrote) : ∃ n', step n (.writable fd rs) = some n' := writable_total (inv_run evs [] inv_new hp h).1 hc rs

theorem sendLoop_all : ∀ (q : List Bytes) (m : Nat) (acc : Bytes) (ks : List Nat), SOk ⟨q, m⟩ → q.length ≤ ks.length → (∀ k ∈ ks, ∀ s ∈ q, s.length ≤ k) →
    sendLoop (ks.map Wrote.bytes) ⟨q, m⟩ acc = .done {} (acc ++ pending ⟨q, m⟩)
  | [], m, acc, ks, h, hl, hk => by
    have : m = 0 := h.2
    subst this
    unfold sendLoop
    simp [pending]
  | s :: q, m, acc, [], h, hl, hk => by simp at hl
  | s :: q, m, acc, k :: ks, h, hl, hk => by
    have hm : m < s.length := h.2
    have hks : s.length ≤ k := hk k List.mem_cons_self s List.mem_cons_self
    have hmin : min k (s.length - m) = s.length - m := by omega
    rw [List.map_cons]
    unfold sendLoop
    rw [if_pos hm]
    simp only [hmin]
    rw [if_pos (by omega)]
    have hok : SOk ⟨q, 0⟩ := by
      refine ⟨fun x hx => h.1 x (List.mem_cons_of_mem _ hx), ?_⟩
      cases q with
      | nil => rfl
      | cons a q => exact List.length_pos_of_ne_nil (h.1 a (by simp))
    rw [sendLoop_all q 0 _ ks hok (by simpa using hl) (fun k' hk' s' hs' => hk k' (List.mem_cons_of_mem _ hk') s' (List.mem_cons_of_mem _ hs'))]
    congr 1
    simp only [pending, List.flatten_cons, List.drop_zero]
    rw [List.drop_append_of_le_length (by omega), List.take_of_length_le (by rw [List.length_drop]; omega), List.append_assoc]

/-- **C31**: if the kernel takes all bytes offered, one callback sends everything. -/
theorem C31_flush {evs : List Ev} {n n' : Net} (hp : Proper evs) (h : run Net.new evs = some n) {fd : Nat} {o : Sender} (hc : n.clients fd = some o)
    (ks : List Nat) (hl : o.queue.length ≤ ks.length) (hk : ∀ k ∈ ks, ∀ s ∈ o.queue, s.length ≤ k)
    (hs : step n (.writable fd (ks.map .bytes)) = some n') : n'.wire fd = said fd evs ∧ n'.clients fd = some {} := by
  obtain ⟨h1, h2⟩ := inv_run evs [] inv_new hp h
  have h3 := h2 fd
  rw [List.nil_append, hc] at h3
  simp only [step, writable, hc, Option.bind_eq_bind, Option.bind_some] at hs
  rw [sendLoop_all o.queue o.sent [] ks (h1.on fd o hc).1 hl hk] at hs
  simp only [if_true, Option.some.injEq, List.nil_append] at hs
  subst hs
  simp only [if_true]
  exact ⟨h3.symm, trivial⟩

/-- **C32**: while a client is connected its writable event is registered iff its reply queue is not empty. -/
theorem C32 {evs : List Ev} {n : Net} (hp : Proper evs) (h : run Net.new evs = some n) {fd : Nat} {o : Sender} (hc : n.clients fd = some o) :
    (∃ ev, n.loop.files (key fd .writable) = some ev) ↔ o.queue ≠ [] := by
  rw [← ((inv_run evs [] inv_new hp h).1.on fd o hc).2.2]
  simp [reg, Option.isSome_iff_exists]

/-- **C32**: and so the kernel watches the descriptor for output iff the queue is not empty, for input always, and no closed connection is watched. -/
theorem C32_kernel {evs : List Ev} {n : Net} (hp : Proper evs) (h : run Net.new evs = some n) (fd : Nat) :
    n.loop.kernel fd = match n.clients fd with | none => none | some o => if o.queue = [] then some 1 else some 5 := by
  have h1 := (inv_run evs [] inv_new hp h).1
  rw [h1.loop.kernel fd]
  unfold mask
  cases hc : n.clients fd with
  | none =>
    have a := h1.off fd hc .readable
    have b := h1.off fd hc .writable
    unfold reg at a b
    simp [a, b]
  | some o =>
    obtain ⟨_, a, b⟩ := h1.on fd o hc
    unfold reg at a b
    by_cases hq : o.queue = []
    · have hb : (n.loop.files (key fd .writable)).isSome = false := by
        cases hh : (n.loop.files (key fd .writable)).isSome
        · rfl
        · exact absurd hq (b.1 hh)
      simp only [a, hb, hq, if_true]
      decide
    · rw [b.2 hq]
      simp only [a, if_true, hq, if_false]
      decide

/-- Non-vacuity: two clients, short writes, EAGAIN, and everything arrives. -/
def demoEvs : List Ev :=
  [.accept 4, .accept 5, .reply 4 b!"+OK\r\n", .reply 4 b!":1\r\n", .reply 5 b!"$-1\r\n", .writable 4 [.bytes 3], .writable 4 [.bytes 9, .again],
   .reply 4 b!"+PONG\r\n", .writable 5 [.bytes 100], .writable 4 [.bytes 2, .bytes 9], .writable 4 [.bytes 9, .bytes 9]]

example : (run Net.new demoEvs).map (fun n => (n.wire 4, n.wire 5, n.loop.kernel 4, n.loop.kernel 5)) =
    some (b!"+OK\r\n:1\r\n+PONG\r\n", b!"$-1\r\n", some 1, some 1) := by decide
example : (run Net.new (demoEvs.take 7)).map (fun n => (n.wire 4, n.wire 5, n.loop.kernel 4)) = some (b!"+OK\r\n", b!"", some 5) := by decide
example : Proper demoEvs := by
  intro fd s h
  simp only [demoEvs, List.mem_cons, List.not_mem_nil, or_false, reduceCtorEq, false_or, or_false, Ev.reply.injEq] at h
  rcases h with ⟨_, rfl⟩ | ⟨_, rfl⟩ | ⟨_, rfl⟩ | ⟨_, rfl⟩ <;> decide

end Metis.Props.NetP
