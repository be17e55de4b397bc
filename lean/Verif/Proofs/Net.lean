import Verif.Model.Net
import Verif.Proofs.Ae
/-!
Lemmas about the output side of the connections.
-/
set_option linter.unusedSectionVars false
set_option linter.unusedSimpArgs false
set_option linter.unusedVariables false
namespace Metis.Net
open Ae

def reg (l : Loop) (fd : Nat) (k : Kind) : Bool := (l.files (key fd k)).isSome

/-- What a client has still to send. -/
def pending (o : Sender) : Bytes := o.queue.flatten.drop o.sent

/-- The state of a sender: the first string is not sent completely. -/
def SOk (o : Sender) : Prop := (∀ s ∈ o.queue, s ≠ []) ∧ match o.queue with | [] => o.sent = 0 | s :: _ => o.sent < s.length

/-- The clients and the event loop agree. -/
structure NOk (n : Net) : Prop where
  loop : Ok n.loop
  off  : ∀ fd, n.clients fd = none → ∀ k, reg n.loop fd k = false
  on   : ∀ fd o, n.clients fd = some o → SOk o ∧ reg n.loop fd .readable = true ∧ (reg n.loop fd .writable = true ↔ o.queue ≠ [])

theorem add_reg {l : Loop} (h : Ok l) {fd : Nat} {k : Kind} (p : Nat) (hn : reg l fd k = false) :
    ∃ l', addFile l fd k p true = (l', true) ∧ Ok l' ∧ ∀ fd' k', reg l' fd' k' = if fd' = fd ∧ k' = k then true else reg l fd' k' := by
  rcases addFile_cases h fd k p true with ⟨h1, _⟩ | ⟨_, _, l', h3, h4, _, _, h5⟩
  · rcases h1 with h1 | h1
    · unfold reg at hn; rw [hn] at h1; cases h1
    · cases h1
  · refine ⟨l', h3, h4, fun fd' k' => ?_⟩
    unfold reg; rw [h5]; split <;> rfl

theorem remove_reg {l : Loop} (h : Ok l) (fd : Nat) (k : Kind) :
    Ok (removeFile l fd k true).1 ∧ ∀ fd' k', reg (removeFile l fd k true).1 fd' k' = if fd' = fd ∧ k' = k then false else reg l fd' k' := by
  rcases removeFile_cases h fd k true with ⟨h1, h2⟩ | ⟨_, _, l', h3, h4, _, _, h5⟩
  · rw [h2]
    refine ⟨h, fun fd' k' => ?_⟩
    split
    · next e =>
      rcases h1 with h1 | h1
      · unfold reg; rw [e.1, e.2, h1]; rfl
      · cases h1
    · rfl
  · rw [h3]
    refine ⟨h4, fun fd' k' => ?_⟩
    unfold reg; rw [h5]; split <;> rfl

theorem free_ok {n : Net} (h : NOk n) (fd : Nat) : NOk (free n fd) ∧ (free n fd).clients fd = none ∧
    ∀ x, x ≠ fd → (free n fd).clients x = n.clients x ∧ (free n fd).wire x = n.wire x := by
  obtain ⟨a1, a2⟩ := remove_reg h.loop fd .readable
  obtain ⟨b1, b2⟩ := remove_reg a1 fd .writable
  refine ⟨⟨b1, ?_, ?_⟩, by simp [free], fun x hx => by simp [free, hx]⟩
  · intro x hx k
    simp only [free] at hx ⊢
    rw [b2, a2]
    by_cases he : x = fd
    · cases k <;> simp [he]
    · simp only [he, false_and, if_false] at hx ⊢
      exact h.off x hx k
  · intro x o hx
    simp only [free] at hx ⊢
    by_cases he : x = fd
    · simp [he] at hx
    · simp only [he, if_false] at hx
      simp only [b2, a2, he, false_and, if_false]
      exact h.on x o hx

theorem accept_ok {n : Net} (h : NOk n) {fd : Nat} (hn : n.clients fd = none) : NOk (accept n fd) ∧ (accept n fd).clients fd = some {} ∧ (accept n fd).wire fd = [] ∧
    ∀ x, x ≠ fd → (accept n fd).clients x = n.clients x ∧ (accept n fd).wire x = n.wire x := by
  obtain ⟨l', h1, h2, h3⟩ := add_reg h.loop fd (h.off fd hn .readable)
  unfold accept
  simp only [h1]
  refine ⟨⟨h2, ?_, ?_⟩, by simp, by simp, fun x hx => by simp [hx]⟩
  · intro x hx k
    by_cases he : x = fd
    · simp [he] at hx
    · simp only [he, if_false] at hx
      simp only [h3, he, false_and, if_false]
      exact h.off x hx k
  · intro x o hx
    by_cases he : x = fd
    · subst he
      simp only [if_true] at hx
      cases hx
      simp only [h3, true_and, reduceCtorEq, if_false, if_true, h.off x hn]
      exact ⟨⟨fun s hs => (by cases hs), rfl⟩, by simp⟩
    · simp only [he, if_false] at hx
      simp only [h3, he, false_and, if_false]
      exact h.on x o hx

theorem sok_push {o : Sender} (h : SOk o) {s : Bytes} (hs : s ≠ []) : SOk { o with queue := o.queue ++ [s] } ∧
    pending { o with queue := o.queue ++ [s] } = pending o ++ s := by
  obtain ⟨q, m⟩ := o
  obtain ⟨h1, h2⟩ := h
  simp only at h1 h2
  cases q with
  | nil =>
    simp only at h2
    subst h2
    refine ⟨⟨by simpa using hs, ?_⟩, by simp [pending]⟩
    simp only [List.nil_append]
    exact List.length_pos_of_ne_nil hs
  | cons a q =>
    simp only at h2
    refine ⟨⟨?_, h2⟩, ?_⟩
    · intro x hx
      simp only [List.mem_append, List.mem_cons, List.not_mem_nil, or_false] at hx
      rcases hx with hx | rfl
      · exact h1 x (by simpa using hx)
      · exact hs
    · simp only [pending, List.flatten_append, List.flatten_cons, List.flatten_nil, List.append_nil]
      rw [List.drop_append_of_le_length]
      simp only [List.length_append]; omega

theorem addReply_ok {n n' : Net} (h : NOk n) {fd : Nat} {s : Bytes} (hs : s ≠ []) (hr : addReply n fd s = some n') :
    ∃ o o', n.clients fd = some o ∧ NOk n' ∧ n'.clients fd = some o' ∧ pending o' = pending o ++ s ∧ n'.wire = n.wire ∧ ∀ x, x ≠ fd → n'.clients x = n.clients x := by
  unfold addReply at hr
  simp only [Option.bind_eq_bind, Option.bind_eq_some_iff] at hr
  obtain ⟨o, ho, hr⟩ := hr
  obtain ⟨k1, k2, k3⟩ := h.on fd o ho
  obtain ⟨p1, p2⟩ := sok_push k1 hs
  refine ⟨o, { o with queue := o.queue ++ [s] }, ho, ?_⟩
  split at hr
  · next hq =>
    have hw : reg n.loop fd .writable = false := by
      cases hh : reg n.loop fd .writable
      · rfl
      · exact absurd hq (k3.1 hh)
    obtain ⟨l', h1, h2, h3⟩ := add_reg h.loop fd hw
    simp only [h1, Option.some.injEq] at hr
    subst hr
    refine ⟨⟨h2, ?_, ?_⟩, by simp, p2, rfl, fun x hx => by simp [hx]⟩
    · intro x hx k
      by_cases he : x = fd
      · simp [he] at hx
      · simp only [he, if_false] at hx
        simp only [h3, he, false_and, if_false]
        exact h.off x hx k
    · intro x o1 hx
      by_cases he : x = fd
      · subst he
        simp only [if_true] at hx
        cases hx
        simp only [h3, true_and, reduceCtorEq, if_false, if_true]
        exact ⟨p1, k2, by simp⟩
      · simp only [he, if_false] at hx
        simp only [h3, he, false_and, if_false]
        exact h.on x o1 hx
  · next hq =>
    cases hr
    refine ⟨⟨h.loop, ?_, ?_⟩, by simp, p2, rfl, fun x hx => by simp [hx]⟩
    · intro x hx k
      by_cases he : x = fd
      · simp [he] at hx
      · simp only [he, if_false] at hx
        exact h.off x hx k
    · intro x o1 hx
      by_cases he : x = fd
      · subst he
        simp only [if_true] at hx
        cases hx
        exact ⟨p1, k2, ⟨fun _ => by simp, fun _ => k3.2 hq⟩⟩
      · simp only [he, if_false] at hx
        exact h.on x o1 hx

/-- The loop of `sendReplayToClient` always ends, and what it sends and what it leaves make up what was pending. -/
theorem sendLoop_ok : ∀ (rs : List Wrote) (q : List Bytes) (m : Nat) (acc : Bytes), SOk ⟨q, m⟩ →
    match sendLoop rs ⟨q, m⟩ acc with
    | .done o b => SOk o ∧ ∃ t, b = acc ++ t ∧ t ++ pending o = pending ⟨q, m⟩
    | .again o b => SOk o ∧ o.queue ≠ [] ∧ ∃ t, b = acc ++ t ∧ t ++ pending o = pending ⟨q, m⟩
    | .failed b => ∃ t r, b = acc ++ t ∧ t ++ r = pending ⟨q, m⟩
    | .spin => False
  | rs, [], m, acc, h => by
    unfold sendLoop
    exact ⟨h, [], by simp, by simp⟩
  | rs, s :: q, m, acc, h => by
    have hm : m < s.length := h.2
    unfold sendLoop
    rw [if_pos hm]
    cases rs with
    | nil => exact ⟨h, by simp, [], by simp, by simp⟩
    | cons r rs =>
      cases r with
      | again => exact ⟨h, by simp, [], by simp, by simp⟩
      | fail => exact ⟨[], pending ⟨s :: q, m⟩, by simp, by simp⟩
      | bytes k =>
        simp only
        by_cases he : m + min k (s.length - m) = s.length
        · rw [if_pos he]
          have hok : SOk ⟨q, 0⟩ := by
            refine ⟨fun x hx => h.1 x (List.mem_cons_of_mem _ hx), ?_⟩
            cases q with
            | nil => rfl
            | cons a q => exact List.length_pos_of_ne_nil (h.1 a (by simp))
          have ih := sendLoop_ok rs q 0 (acc ++ (s.drop m).take (min k (s.length - m))) hok
          have e1 : (s.drop m).take (min k (s.length - m)) = s.drop m := by
            apply List.take_of_length_le; rw [List.length_drop]; omega
          have e2 : pending ⟨s :: q, m⟩ = s.drop m ++ pending ⟨q, 0⟩ := by
            simp only [pending, List.flatten_cons, List.drop_zero]
            rw [List.drop_append_of_le_length (by omega)]
          rw [e1] at ih ⊢
          revert ih
          cases sendLoop rs ⟨q, 0⟩ (acc ++ s.drop m) with
          | done o b =>
            rintro ⟨h1, t, h2, h3⟩
            exact ⟨h1, s.drop m ++ t, by rw [h2, List.append_assoc], by rw [e2, List.append_assoc, h3]⟩
          | again o b =>
            rintro ⟨h1, h0, t, h2, h3⟩
            exact ⟨h1, h0, s.drop m ++ t, by rw [h2, List.append_assoc], by rw [e2, List.append_assoc, h3]⟩
          | failed b =>
            rintro ⟨t, r, h2, h3⟩
            exact ⟨s.drop m ++ t, r, by rw [h2, List.append_assoc], by rw [e2, List.append_assoc, h3]⟩
          | spin => exact id
        · rw [if_neg he]
          refine ⟨⟨h.1, ?_⟩, _, rfl, ?_⟩
          · simp only; omega
          · simp only [pending, List.flatten_cons]
            rw [List.drop_append_of_le_length (by omega), List.drop_append_of_le_length (by omega), ← List.append_assoc]
            congr 1
            rw [← List.drop_drop, List.take_append_drop]

theorem writable_ok {n n' : Net} (h : NOk n) {fd : Nat} {rs : List Wrote} (hr : writable n fd rs = some n') :
    ∃ o t, n.clients fd = some o ∧ NOk n' ∧ n'.wire fd = n.wire fd ++ t ∧ (∀ x, x ≠ fd → n'.clients x = n.clients x ∧ n'.wire x = n.wire x) ∧
      ((∃ o', n'.clients fd = some o' ∧ t ++ pending o' = pending o) ∨ (n'.clients fd = none ∧ ∃ r, t ++ r = pending o)) := by
  unfold writable at hr
  simp only [Option.bind_eq_bind, Option.bind_eq_some_iff] at hr
  obtain ⟨o, ho, hr⟩ := hr
  obtain ⟨k1, k2, k3⟩ := h.on fd o ho
  have hs := sendLoop_ok rs o.queue o.sent [] k1
  have keep : ∀ {o' : Sender} {b : Bytes}, SOk o' → (o'.queue ≠ [] → o.queue ≠ []) → o'.queue ≠ [] →
      NOk { n with clients := fun x => if x = fd then some o' else n.clients x, wire := fun x => if x = fd then n.wire fd ++ b else n.wire x } := by
    intro o' b h1 h2 h3
    refine ⟨h.loop, ?_, ?_⟩
    · intro x hx k
      by_cases he : x = fd
      · simp [he] at hx
      · simp only [he, if_false] at hx; exact h.off x hx k
    · intro x o1 hx
      by_cases he : x = fd
      · subst he
        simp only [if_true] at hx
        cases hx
        exact ⟨h1, k2, ⟨fun _ => h3, fun _ => k3.2 (h2 h3)⟩⟩
      · simp only [he, if_false] at hx; exact h.on x o1 hx
  have hq : ∀ {o' : Sender} {t : Bytes}, SOk o' → t ++ pending o' = pending o → o'.queue ≠ [] → o.queue ≠ [] := by
    intro o' t h1 h2 h3 h4
    have : pending o = [] := by simp [pending, h4]
    rw [this, List.append_eq_nil_iff] at h2
    obtain ⟨q, m⟩ := o'
    cases q with
    | nil => exact h3 rfl
    | cons a q =>
      have h5 : m < a.length := h1.2
      have := congrArg List.length h2.2
      simp only [pending, List.flatten_cons, List.length_drop, List.length_append, List.length_nil] at this
      omega
  revert hr hs
  cases sendLoop rs o [] with
  | done o' b =>
    rintro hr ⟨h1, t, h2, h3⟩
    rw [List.nil_append] at h2; subst h2
    simp only at hr
    split at hr
    · next hq0 =>
      simp only [Option.some.injEq] at hr
      subst hr
      obtain ⟨b1, b2⟩ := remove_reg h.loop fd .writable
      refine ⟨o, b, ho, ⟨b1, ?_, ?_⟩, by simp, fun x hx => by simp [hx], Or.inl ⟨o', by simp, h3⟩⟩
      · intro x hx k
        by_cases he : x = fd
        · simp [he] at hx
        · simp only [he, if_false] at hx
          simp only [b2, he, false_and, if_false]
          exact h.off x hx k
      · intro x o1 hx
        by_cases he : x = fd
        · subst he
          simp only [if_true] at hx
          cases hx
          simp only [b2, true_and, reduceCtorEq, if_false, if_true]
          exact ⟨h1, k2, by simp [hq0]⟩
        · simp only [he, if_false] at hx
          simp only [b2, he, false_and, if_false]
          exact h.on x o1 hx
    · next hq0 =>
      simp only [Option.some.injEq] at hr
      subst hr
      exact ⟨o, b, ho, keep h1 (hq h1 h3) hq0, by simp, fun x hx => by simp [hx], Or.inl ⟨o', by simp, h3⟩⟩
  | again o' b =>
    rintro hr ⟨h1, h0, t, h2, h3⟩
    rw [List.nil_append] at h2; subst h2
    simp only [Option.some.injEq] at hr
    subst hr
    exact ⟨o, b, ho, keep h1 (hq h1 h3) h0, by simp, fun x hx => by simp [hx], Or.inl ⟨o', by simp, h3⟩⟩
  | failed b =>
    rintro hr ⟨t, r, h2, h3⟩
    rw [List.nil_append] at h2; subst h2
    simp only [Option.some.injEq] at hr
    subst hr
    have hn : NOk { n with wire := fun x => if x = fd then n.wire fd ++ b else n.wire x } := ⟨h.loop, h.off, h.on⟩
    obtain ⟨f1, f2, f3⟩ := free_ok hn fd
    refine ⟨o, b, ho, f1, by simp [free], fun x hx => ?_, Or.inr ⟨f2, r, h3⟩⟩
    obtain ⟨g1, g2⟩ := f3 x hx
    exact ⟨g1, by rw [g2]; simp [hx]⟩
  | spin => rintro hr hs; exact hs.elim

/-- The writable callback of a connected client never hangs. -/
theorem writable_total {n : Net} (h : NOk n) {fd : Nat} {o : Sender} (ho : n.clients fd = some o) (rs : List Wrote) : ∃ n', writable n fd rs = some n' := by
  have hs := sendLoop_ok rs o.queue o.sent [] (h.on fd o ho).1
  unfold writable
  simp only [ho, Option.bind_eq_bind, Option.bind_some]
  revert hs
  cases sendLoop rs o [] with
  | done o' b => intro _; simp only; split <;> exact ⟨_, rfl⟩
  | again o' b => intro _; exact ⟨_, rfl⟩
  | failed b => intro _; exact ⟨_, rfl⟩
  | spin => intro hs; exact hs.elim

end Metis.Net
