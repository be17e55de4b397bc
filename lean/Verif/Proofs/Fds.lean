import Verif.Spec.Fds
import Verif.Proofs.Net
/-!
Helper lemmas for C84: which number belongs to whom.
-/
set_option linter.unusedSectionVars false
set_option linter.unusedSimpArgs false
set_option linter.unusedVariables false
namespace Metis.Fds
open Metis.Ae Metis.Spec

def fdOf (s : State) (i : Nat) : Option Nat := (s.heap[i]?).map Client.fd

/-- The callback belongs to something that is open. -/
def Live (lfd : Nat) (s : State) (ev : FileEvent) : Prop :=
  (ev.proc = 0 ∧ ev.fd = lfd) ∨ ∃ i, ev.proc = i + 1 ∧ s.tab ev.fd = some (.conn i)

/-- The callback belongs to a client that was freed by the callback before it. -/
def Stale (s : State) (ev : FileEvent) : Prop :=
  ∃ i, ev.proc = i + 1 ∧ ev.kind = .writable ∧ fdOf s i = some ev.fd ∧ s.tab ev.fd = none

/-- At most two callbacks for a number, in this order and one after the other. -/
inductive Grouped : List FileEvent → Prop
  | nil : Grouped []
  | one {ev rest} : (∀ x ∈ rest, x.fd ≠ ev.fd) → Grouped rest → Grouped (ev :: rest)
  | two {a b rest} : a.kind = .readable → b.kind = .writable → a.fd = b.fd → (∀ x ∈ rest, x.fd ≠ b.fd) → Grouped rest → Grouped (a :: b :: rest)

structure Inv (lfd : Nat) (s : State) : Prop where
  conn  : ∀ fd i, s.tab fd = some (.conn i) → fdOf s i = some fd
  lis   : ∀ fd, s.tab fd = some .listen ↔ fd = lfd
  file  : ∀ j fd, s.files[j]? = some (some fd) ↔ s.tab fd = some (.file j)
  loop  : Ok s.loop
  reg   : ∀ fd k ev, s.loop.files (key fd k) = some ev → (ev.proc = 0 ∧ fd = lfd ∧ k = .readable) ∨ ∃ i, ev.proc = i + 1 ∧ s.tab fd = some (.conn i)
  group : Grouped s.fired
  head  : ∀ ev rest, s.fired = ev :: rest → (Live lfd s ev ∨ (s.closing = none ∧ Stale s ev)) ∧ ∀ x ∈ rest, Live lfd s x
  closing : ∀ i, s.closing = some i → ∃ fd, fdOf s i = some fd ∧ (s.tab fd = some (.conn i) ∨ s.tab fd = none) ∧ ∀ ev ∈ s.fired, ev.fd ≠ fd
  log   : ∀ u ∈ s.log, Use.right u

theorem Grouped.tail {ev : FileEvent} {rest : List FileEvent} (h : Grouped (ev :: rest)) : Grouped rest := by
  cases h with
  | one _ h => exact h
  | two _ _ _ h1 h2 => exact .one h1 h2

theorem Grouped.next {ev : FileEvent} {rest : List FileEvent} (h : Grouped (ev :: rest)) :
    (∀ x ∈ rest, x.fd ≠ ev.fd) ∨ ev.kind = .readable ∧ ∃ b r, rest = b :: r ∧ b.kind = .writable ∧ b.fd = ev.fd ∧ ∀ x ∈ r, x.fd ≠ ev.fd := by
  cases h with
  | one h _ => exact .inl h
  | two r a b c _ => exact .inr ⟨r, _, _, rfl, a, b.symm, fun x hx => by rw [b]; exact c x hx⟩

theorem grouped_append {a b : List FileEvent} (ha : Grouped a) (hb : Grouped b) (h : ∀ x ∈ a, ∀ y ∈ b, x.fd ≠ y.fd) : Grouped (a ++ b) := by
  induction ha with
  | nil => exact hb
  | @one ev rest h1 _ ih =>
    refine .one (fun x hx => ?_) (ih fun x hx y hy => h x (by simp [hx]) y hy)
    rcases List.mem_append.1 hx with hx | hx
    · exact h1 x hx
    · exact fun e => h ev (by simp) x hx e.symm
  | @two p q rest h0 h1 h2 h3 _ ih =>
    refine .two h0 h1 h2 (fun x hx => ?_) (ih fun x hx y hy => h x (by simp [hx]) y hy)
    rcases List.mem_append.1 hx with hx | hx
    · exact h3 x hx
    · exact fun e => h q (by simp) x hx e.symm

theorem eventsOf_fd {l : Loop} (h : Ok l) {r : Nat × UInt32} {ev : FileEvent} (he : ev ∈ eventsOf l r) :
    ev.fd = r.1 ∧ ∃ k, l.files (key r.1 k) = some ev := by
  unfold eventsOf at he
  obtain ⟨k, _, hk⟩ := List.mem_filterMap.1 he
  exact ⟨(h.self _ _ _ hk).1, k, hk⟩

theorem eventsOf_grouped {l : Loop} (h : Ok l) (r : Nat × UInt32) : Grouped (eventsOf l r) := by
  have h1 : ∀ ev k, l.files (key r.1 k) = some ev → ev.fd = r.1 ∧ ev.kind = k := fun ev k hk => h.self _ _ _ hk
  unfold eventsOf
  cases ha : l.files (key r.1 .readable) <;> cases hb : l.files (key r.1 .writable) <;>
    by_cases hx : r.2 &&& Kind.readable.bit ≠ 0 <;> by_cases hy : r.2 &&& Kind.writable.bit ≠ 0 <;>
    simp [List.filter, hx, hy, ha, hb] <;>
    first
      | exact .nil
      | exact .one (by simp) .nil
      | exact .two (h1 _ _ ha).2 (h1 _ _ hb).2 ((h1 _ _ ha).1.trans (h1 _ _ hb).1.symm) (by simp) .nil

theorem fired_grouped {l : Loop} (h : Ok l) : ∀ {ready : List (Nat × UInt32)}, (ready.map Prod.fst).Nodup → Grouped (ready.flatMap (eventsOf l))
  | [], _ => .nil
  | r :: rest, hn => by
    rw [List.flatMap_cons]
    simp only [List.map_cons, List.nodup_cons] at hn
    refine grouped_append (eventsOf_grouped h r) (fired_grouped h hn.2) fun x hx y hy e => ?_
    obtain ⟨r', hr', hy⟩ := List.mem_flatMap.1 hy
    rw [(eventsOf_fd h hx).1, (eventsOf_fd h hy).1] at e
    exact hn.1 (e ▸ List.mem_map_of_mem hr')

theorem use_fields (s : State) (w : Target) (c : Call) (fd : Nat) : (s.use w c fd).tab = s.tab ∧ (s.use w c fd).loop = s.loop ∧ (s.use w c fd).heap = s.heap ∧
    (s.use w c fd).files = s.files ∧ (s.use w c fd).fired = s.fired ∧ (s.use w c fd).closing = s.closing := by
  unfold State.use
  split <;> simp

theorem use_log {s : State} {w : Target} {c : Call} {fd : Nat} (h : ∀ t, s.tab fd = some t → t = w) (hl : ∀ u ∈ s.log, Use.right u) :
    ∀ u ∈ (s.use w c fd).log, Use.right u := by
  unfold State.use
  split
  · exact hl
  · next t ht =>
    intro u hu
    rcases List.mem_append.1 hu with hu | hu
    · exact hl u hu
    · cases List.mem_singleton.1 hu; exact h t ht

/-- A right call changes nothing but the record. -/
theorem Inv.use {lfd : Nat} {s : State} (h : Inv lfd s) {w : Target} {c : Call} {fd : Nat} (hw : ∀ t, s.tab fd = some t → t = w) : Inv lfd (s.use w c fd) := by
  obtain ⟨a1, a2, a3, a4, a5, a6⟩ := use_fields s w c fd
  have hf : ∀ i, fdOf (s.use w c fd) i = fdOf s i := fun i => by unfold fdOf; rw [a3]
  exact ⟨fun x i hx => by rw [hf]; rw [a1] at hx; exact h.conn x i hx, fun x => by rw [a1]; exact h.lis x, fun j x => by rw [a1, a4]; exact h.file j x, by rw [a2]; exact h.loop,
    fun x k ev hx => by rw [a2] at hx; rw [a1]; exact h.reg x k ev hx, by rw [a5]; exact h.group,
    fun ev rest hx => by
      rw [a5] at hx
      unfold Live Stale
      simp only [a1, a6, hf]
      exact h.head ev rest hx,
    fun i hx => by rw [a6] at hx; simp only [a1, a5, hf]; exact h.closing i hx, use_log hw h.log⟩

theorem fdOf_set (s : State) (i : Nat) (c : Client) (o : Sender) (hc : s.heap[i]? = some c) (x : Nat) :
    ((s.heap.set i { c with out := o })[x]?).map Client.fd = fdOf s x := by
  unfold fdOf
  rw [List.getElem?_set]
  split
  · next e =>
    subst e
    rw [hc]
    have := (List.getElem?_eq_some_iff.1 hc).1
    simp [this]
  · rfl

/-- Other objects and another loop with the same numbers. -/
theorem Inv.change {lfd : Nat} {s s' : State} (h : Inv lfd s) (h1 : s'.tab = s.tab) (h2 : s'.files = s.files) (h3 : s'.fired = s.fired) (h4 : s'.closing = s.closing)
    (h5 : s'.log = s.log) (h6 : ∀ i, fdOf s' i = fdOf s i) (h7 : Ok s'.loop)
    (h8 : ∀ fd k ev, s'.loop.files (key fd k) = some ev → s.loop.files (key fd k) = some ev ∨ ∃ i, ev.proc = i + 1 ∧ s.tab fd = some (.conn i)) : Inv lfd s' := by
  refine ⟨fun x i hx => by rw [h6]; rw [h1] at hx; exact h.conn x i hx, fun x => by rw [h1]; exact h.lis x, fun j x => by rw [h1, h2]; exact h.file j x, h7,
    fun x k ev hx => ?_, by rw [h3]; exact h.group, fun ev rest hx => ?_, fun i hx => by rw [h4] at hx; simp only [h1, h3, h6]; exact h.closing i hx,
    by rw [h5]; exact h.log⟩
  · rcases h8 x k ev hx with hx | ⟨i, hp, ht⟩
    · rw [h1]; exact h.reg x k ev hx
    · exact .inr ⟨i, hp, by rw [h1]; exact ht⟩
  · rw [h3] at hx
    unfold Live Stale
    simp only [h1, h4, h6]
    exact h.head ev rest hx

/-- The next callback is taken off the list. -/
theorem Inv.pop {lfd : Nat} {s : State} (h : Inv lfd s) {ev : FileEvent} {rest : List FileEvent} (hf : s.fired = ev :: rest) (hc : s.closing = none) :
    Inv lfd { s with fired := rest } ∧ ∀ x ∈ rest, Live lfd { s with fired := rest } x := by
  obtain ⟨_, h2⟩ := h.head ev rest hf
  refine ⟨⟨h.conn, h.lis, h.file, h.loop, h.reg, ?_, ?_, ?_, h.log⟩, h2⟩
  · have := h.group; rw [hf] at this; exact this.tail
  · intro ev' rest' hr
    simp only at hr
    subst hr
    exact ⟨.inl (h2 ev' (by simp)), fun x hx => h2 x (by simp [hx])⟩
  · intro i hi; simp only [hc] at hi; cases hi

theorem live_tab {lfd : Nat} {s : State} (h : Inv lfd s) {ev : FileEvent} (hl : Live lfd s ev) :
    s.tab ev.fd = some .listen ∨ ∃ i, ev.proc = i + 1 ∧ s.tab ev.fd = some (.conn i) := by
  rcases hl with ⟨_, h2⟩ | h2
  · exact .inl ((h.lis _).2 h2)
  · exact .inr h2

/-- `free`. -/
theorem Inv.free {lfd : Nat} {s s' : State} (h : Inv lfd s) (hc : s.closing = none) {i : Nat} {c : Client} (hi : s.heap[i]? = some c)
    (ht : s.tab c.fd = some (.conn i) ∨ s.tab c.fd = none) (hl : ∀ x ∈ s.fired, Live lfd s x)
    (hn : (∀ x ∈ s.fired, x.fd ≠ c.fd) ∨ ∃ b r, s.fired = b :: r ∧ b.kind = .writable ∧ b.fd = c.fd ∧ ∀ x ∈ r, x.fd ≠ c.fd) (hr : free s i = some s') :
    Inv lfd s' := by
  unfold Fds.free at hr
  simp only [hi, Option.bind_eq_bind, Option.bind_some, Option.some.injEq] at hr
  subst hr
  obtain ⟨a1, a2⟩ := Net.remove_reg h.loop c.fd .readable
  have hrem : ∀ l k, Ok l → ∀ fd k', (removeFile l c.fd k true).1.files (key fd k') = if fd = c.fd ∧ k' = k then none else l.files (key fd k') := by
    intro l k hl fd k'
    rcases removeFile_cases hl c.fd k true with ⟨h1 | h1, h2⟩ | ⟨_, _, l', h3, _, _, _, h5⟩
    · rw [h2]
      split
      · next e => rw [e.1, e.2]; exact h1
      · rfl
    · cases h1
    · rw [h3]; exact h5 fd k'
  have b1 := hrem s.loop .readable h.loop
  obtain ⟨c1, c2⟩ := Net.remove_reg a1 c.fd .writable
  have b2 := hrem _ .writable a1
  generalize hL : (removeFile (removeFile s.loop c.fd .readable true).1 c.fd .writable true).1 = L at c1 c2 b2
  have hfiles : ∀ fd k, L.files (key fd k) = if fd = c.fd then none else s.loop.files (key fd k) := by
    intro fd k
    rw [b2, b1]
    by_cases e : fd = c.fd
    · cases k <;> simp [e]
    · simp [e]
  obtain ⟨u1, u2, u3, u4, u5, u6⟩ := use_fields { s with loop := L } (.conn i) .close c.fd
  have hlog : ∀ u ∈ (State.use { s with loop := L } (.conn i) .close c.fd).log, Use.right u := by
    refine use_log (s := { s with loop := L }) (fun t hx => ?_) h.log
    rcases ht with ht | ht <;> rw [show ({ s with loop := L } : State).tab = s.tab from rfl, ht] at hx <;> cases hx
    rfl
  unfold State.close
  simp only
  simp only at u1 u2 u3 u4 u5 u6
  generalize State.use { s with loop := L } (.conn i) .close c.fd = U at hlog u1 u2 u3 u4 u5 u6 ⊢
  have hf : ∀ x : State, x.heap = s.heap → ∀ k, fdOf x k = fdOf s k := fun x hx k => by unfold fdOf; rw [hx]
  have hne : c.fd ≠ lfd := fun e => by
    have := (h.lis c.fd).2 e
    rcases ht with ht | ht <;> rw [ht] at this <;> cases this
  refine ⟨?_, ?_, ?_, ?_, ?_, ?_, ?_, ?_, hlog⟩
  · intro x k hx
    simp only [u1] at hx
    split at hx
    · cases hx
    · simp only [fdOf, u3]; exact h.conn x k hx
  · intro x
    simp only [u1]
    split
    · next e => rw [e]; exact ⟨fun hx => (by cases hx), fun hx => absurd hx hne⟩
    · exact h.lis x
  · intro j x
    simp only [u1, u4]
    rw [h.file j x]
    split
    · next e =>
      rw [e]
      rcases ht with ht | ht <;> rw [ht] <;> simp
    · exact Iff.rfl
  · refine ⟨fun fd k ev hx => ?_, fun fd => ?_⟩
    · simp only [u2] at hx
      exact c1.self fd k ev hx
    · simp only [u2]
      have hk := c1.kernel fd
      rw [show mask { L with kernel := fun x => if x = c.fd then none else L.kernel x } fd = mask L fd from rfl]
      split
      · next e =>
        have : mask L fd = 0 := by unfold mask; rw [hfiles, hfiles, if_pos e, if_pos e]; rfl
        rw [if_pos this]
      · exact hk
  · intro fd k ev hx
    simp only [u2] at hx
    rw [hfiles] at hx
    split at hx
    · cases hx
    · next e =>
      simp only [u1, if_neg e]
      exact h.reg fd k ev hx
  · simp only [u5]; exact h.group
  · intro ev rest hx
    simp only [u5] at hx
    have keep : ∀ x ∈ s.fired, x.fd ≠ c.fd → (x.proc = 0 ∧ x.fd = lfd) ∨ ∃ k, x.proc = k + 1 ∧ (if x.fd = c.fd then none else s.tab x.fd) = some (.conn k) := by
      intro x hx e
      rw [if_neg e]; exact hl x hx
    unfold Live Stale
    simp only [u1, u6, hc, true_and]
    rcases hn with hn | ⟨b, r, hb1, hb2, hb3, hb4⟩
    · exact ⟨.inl (keep ev (by rw [hx]; simp) (hn ev (by rw [hx]; simp))), fun x hxx => keep x (by rw [hx]; simp [hxx]) (hn x (by rw [hx]; simp [hxx]))⟩
    · rw [hb1] at hx
      injection hx with e1 e2
      subst e1; subst e2
      refine ⟨.inr ?_, fun x hxx => keep x (by rw [hb1]; simp [hxx]) (hb4 x hxx)⟩
      rcases live_tab h (hl b (by rw [hb1]; simp)) with hx | ⟨k, hk, hx⟩
      · exact absurd ((h.lis _).1 hx) (hb3 ▸ hne)
      · refine ⟨k, hk, hb2, ?_, by rw [if_pos hb3]⟩
        simp only [fdOf, u3]; exact h.conn _ k hx
  · intro k hk
    simp only [u6, hc] at hk
    cases hk

theorem addReply_inv {lfd : Nat} {s s' : State} {i : Nat} {r : Bytes} {ok : Bool} (h : Inv lfd s) {fd : Nat} (ht : s.tab fd = some (.conn i))
    (hr : addReply s i r = some (s', ok)) : Inv lfd s' ∧ s'.tab = s.tab ∧ s'.fired = s.fired ∧ s'.closing = s.closing ∧ ∀ k, fdOf s' k = fdOf s k := by
  unfold addReply at hr
  simp only [Option.bind_eq_bind, Option.bind_eq_some_iff] at hr
  obtain ⟨c, hi, hr⟩ := hr
  have hfd : c.fd = fd := by
    have := h.conn fd i ht
    unfold fdOf at this; rw [hi] at this; simpa using this
  split at hr
  · rcases addFile_cases h.loop c.fd .writable (i + 1) true with ⟨_, h2⟩ | ⟨_, _, l', h3, h4, _, _, h5⟩
    · rw [h2] at hr; cases hr; exact ⟨h, rfl, rfl, rfl, fun _ => rfl⟩
    · rw [h3] at hr; cases hr
      refine ⟨h.change rfl rfl rfl rfl rfl (fun k => fdOf_set s i c _ hi k) h4 (fun x k ev hx => ?_), rfl, rfl, rfl, fun k => fdOf_set s i c _ hi k⟩
      simp only at hx
      rw [h5] at hx
      split at hx
      · next e => cases hx; exact .inr ⟨i, rfl, by rw [e.1, hfd]; exact ht⟩
      · exact .inl hx
  · cases hr
    exact ⟨h.change rfl rfl rfl rfl rfl (fun k => fdOf_set s i c _ hi k) h.loop (fun x k ev hx => .inl hx), rfl, rfl, rfl, fun k => fdOf_set s i c _ hi k⟩

theorem say_inv {lfd : Nat} : ∀ (rs : List Bytes) {s s' : State} {i : Nat} {ok : Bool} {fd : Nat}, Inv lfd s → s.tab fd = some (.conn i) →
    say s i rs = some (s', ok) → Inv lfd s' ∧ s'.tab = s.tab ∧ s'.fired = s.fired ∧ s'.closing = s.closing ∧ ∀ k, fdOf s' k = fdOf s k
  | [], s, s', i, ok, fd, h, ht, hr => by cases hr; exact ⟨h, rfl, rfl, rfl, fun _ => rfl⟩
  | r :: rs, s, s', i, ok, fd, h, ht, hr => by
    simp only [say, Option.bind_eq_bind, Option.bind_eq_some_iff] at hr
    obtain ⟨⟨s1, ok1⟩, h1, h2⟩ := hr
    obtain ⟨a1, a2, a3, a4, a5⟩ := addReply_inv h ht h1
    simp only at h2
    split at h2
    · obtain ⟨b1, b2, b3, b4, b5⟩ := say_inv rs a1 (by rw [a2]; exact ht) h2
      exact ⟨b1, b2.trans a2, b3.trans a3, b4.trans a4, fun k => (b5 k).trans (a5 k)⟩
    · cases h2; exact ⟨a1, a2, a3, a4, a5⟩

theorem writable_inv {lfd : Nat} {s s' : State} {i : Nat} {rs : List Wrote} (h : Inv lfd s) (hc : s.closing = none) (hl : ∀ x ∈ s.fired, Live lfd s x) {fd : Nat}
    (hf : fdOf s i = some fd) (ht : s.tab fd = some (.conn i) ∨ s.tab fd = none) (hn : ∀ x ∈ s.fired, x.fd ≠ fd) (hr : writable s i rs = some s') : Inv lfd s' := by
  unfold writable at hr
  simp only [Option.bind_eq_bind, Option.bind_eq_some_iff] at hr
  obtain ⟨c, hi, hr⟩ := hr
  have hfd : c.fd = fd := by unfold fdOf at hf; rw [hi] at hf; simpa using hf
  subst hfd
  have hu : ∀ b, Inv lfd (s.use (.conn i) (.write b) c.fd) := fun b => h.use (fun t hx => by
    rcases ht with ht | ht <;> rw [ht] at hx <;> cases hx
    rfl)
  have hfs : ∀ (b : Bytes) (o : Sender) (s2 : State), s2.heap = s.heap.set i { c with out := o } → ∀ k, fdOf s2 k = fdOf (s.use (.conn i) (.write b) c.fd) k := by
    intro b o s2 h2 k
    have := fdOf_set s i c o hi k
    simp only [fdOf, h2, (use_fields s (.conn i) (.write b) c.fd).2.2.1]
    exact this
  have hset : ∀ b o, Inv lfd { s.use (.conn i) (.write b) c.fd with heap := s.heap.set i { c with out := o } } := fun b o =>
    (hu b).change rfl rfl rfl rfl rfl (hfs b o _ rfl) (hu b).loop (fun x k ev hx => .inl hx)
  split at hr
  · next o b hs =>
    split at hr
    · cases hr
      refine (hset b o).change rfl rfl rfl rfl rfl (fun _ => rfl) ?_ (fun x k ev hx => ?_)
      · exact (Net.remove_reg (hset b o).loop c.fd .writable).1
      · simp only at hx
        rcases removeFile_cases (hset b o).loop c.fd .writable true with ⟨_, h2⟩ | ⟨_, _, l', h3, _, _, _, h5⟩
        · rw [h2] at hx; exact .inl hx
        · rw [h3] at hx
          simp only at hx
          rw [h5] at hx
          split at hx
          · cases hx
          · exact .inl hx
    · cases hr; exact hset b o
  · cases hr; exact hset _ _
  · next b hs =>
    cases hr
    obtain ⟨a1, a2, a3, a4, a5, a6⟩ := use_fields s (.conn i) (.write b) c.fd
    refine ⟨(hu b).conn, (hu b).lis, (hu b).file, (hu b).loop, (hu b).reg, (hu b).group, ?_, ?_, (hu b).log⟩
    · intro ev rest hx
      simp only [a5] at hx
      have : ∀ x ∈ s.fired, Live lfd { s.use (.conn i) (.write b) c.fd with closing := some i } x := by
        intro x hxx
        unfold Live
        simp only [a1]
        exact hl x hxx
      exact ⟨.inl (this ev (by rw [hx]; simp)), fun x hxx => this x (by rw [hx]; simp [hxx])⟩
    · intro k hk
      simp only [Option.some.injEq] at hk
      subst hk
      refine ⟨c.fd, by simp only [fdOf, a3]; exact hf, by simp only [a1]; exact ht, by simp only [a5]; exact hn⟩
  · cases hr

theorem accept_inv {lfd : Nat} {s s' : State} {fd : Nat} (h : Inv lfd s) (hc : s.closing = none) (hl : ∀ x ∈ s.fired, Live lfd s x) (hr : accept s fd = some s') : Inv lfd s' := by
  unfold accept at hr
  split at hr
  · cases hr
  next ht =>
  have ht : s.tab fd = none := by simpa using ht
  simp only at hr
  have hlive : ∀ x : FileEvent, Live lfd s x → x.fd ≠ fd := fun x hx e => by
    rcases live_tab h hx with hx | ⟨k, _, hx⟩ <;> rw [e, ht] at hx <;> cases hx
  have hheap : ∀ k x, fdOf s k = some x → fdOf { s with heap := s.heap ++ [({ fd, out := {} } : Client)] } k = some x := by
    intro k x hx
    unfold fdOf at hx ⊢
    rw [Option.map_eq_some_iff] at hx ⊢
    obtain ⟨c, h1, h2⟩ := hx
    exact ⟨c, by simp only; rw [List.getElem?_append_left (List.getElem?_eq_some_iff.1 h1).1]; exact h1, h2⟩
  have hnew : fdOf { s with heap := s.heap ++ [({ fd, out := {} } : Client)] } s.heap.length = some fd := by
    unfold fdOf; simp
  have h1 : Inv lfd { s with tab := fun x => if x = fd then some (.conn s.heap.length) else s.tab x, heap := s.heap ++ [({ fd, out := {} } : Client)] } := by
    refine ⟨?_, ?_, ?_, h.loop, ?_, h.group, ?_, ?_, h.log⟩
    · intro x k hx
      simp only at hx
      split at hx
      · next e => cases hx; rw [e]; exact hnew
      · exact hheap k x (h.conn x k hx)
    · intro x
      simp only
      split
      · next e =>
        refine ⟨fun hx => (by cases hx), fun hx => ?_⟩
        have := (h.lis x).2 hx
        rw [e, ht] at this; cases this
      · exact h.lis x
    · intro j x
      simp only
      rw [h.file j x]
      split
      · next e => rw [e, ht]; simp
      · exact Iff.rfl
    · intro x k ev hx
      simp only
      rcases h.reg x k ev hx with hx | ⟨i, hp, hx⟩
      · exact .inl hx
      · refine .inr ⟨i, hp, ?_⟩
        rw [if_neg (fun e => by rw [e, ht] at hx; cases hx)]; exact hx
    · intro ev rest hx
      simp only at hx
      have keep : ∀ x ∈ s.fired, Live lfd { s with tab := fun x => if x = fd then some (.conn s.heap.length) else s.tab x, heap := s.heap ++ [({ fd, out := {} } : Client)] } x := by
        intro x hxx
        unfold Live
        simp only [if_neg (hlive x (hl x hxx))]
        exact hl x hxx
      exact ⟨.inl (keep ev (by rw [hx]; simp)), fun x hxx => keep x (by rw [hx]; simp [hxx])⟩
    · intro i hi; simp only [hc] at hi; cases hi
  rcases addFile_cases h.loop fd .readable (s.heap.length + 1) true with ⟨_, h2⟩ | ⟨_, _, l', h3, h4, _, _, h5⟩
  · rw [h2] at hr
    simp only at hr
    refine h1.free hc (i := s.heap.length) (c := { fd, out := {} }) (by simp) (.inl (by simp)) ?_ (.inl fun x hx => hlive x (hl x hx)) hr
    intro x hxx
    unfold Live
    simp only [if_neg (hlive x (hl x hxx))]
    exact hl x hxx
  · rw [h3] at hr
    cases hr
    refine h1.change rfl rfl rfl rfl rfl (fun _ => rfl) h4 (fun x k ev hx => ?_)
    simp only at hx
    rw [h5] at hx
    split at hx
    · next e => cases hx; exact .inr ⟨_, rfl, by simp [e.1]⟩
    · exact .inl hx

theorem readable_inv {lfd : Nat} {s s' : State} {i fd : Nat} {a : Answer} (h : Inv lfd s) (hc : s.closing = none) (hl : ∀ x ∈ s.fired, Live lfd s x)
    (ht : s.tab fd = some (.conn i))
    (hn : (∀ x ∈ s.fired, x.fd ≠ fd) ∨ ∃ b r, s.fired = b :: r ∧ b.kind = .writable ∧ b.fd = fd ∧ ∀ x ∈ r, x.fd ≠ fd) (hr : readable s i fd a = some s') : Inv lfd s' := by
  have hu : Inv lfd (s.use (.conn i) .read fd) := h.use (fun t hx => by rw [ht] at hx; cases hx; rfl)
  obtain ⟨a1, a2, a3, a4, a5, a6⟩ := use_fields s (.conn i) .read fd
  have go : ∀ s2 : State, Inv lfd s2 → s2.tab = s.tab → s2.fired = s.fired → s2.closing = s.closing → (∀ k, fdOf s2 k = fdOf s k) → Fds.free s2 i = some s' → Inv lfd s' := by
    intro s2 h2 e1 e2 e3 e4 hfr
    have := h.conn fd i ht
    rw [← e4] at this
    unfold fdOf at this
    rw [Option.map_eq_some_iff] at this
    obtain ⟨c, hi, hfd⟩ := this
    refine h2.free (by rw [e3]; exact hc) hi (.inl (by rw [hfd, e1]; exact ht)) (fun x hx => ?_) (by rw [hfd, e2]; exact hn) hfr
    rw [e2] at hx
    unfold Live
    rw [e1]; exact hl x hx
  cases a with
  | nothing => cases hr; exact h
  | eof => exact go _ hu a1 a5 a6 (fun k => by simp only [fdOf, a3]) hr
  | data rs ok =>
    simp only [readable, Option.bind_eq_bind, Option.bind_eq_some_iff] at hr
    obtain ⟨⟨s1, ok1⟩, h1, h2⟩ := hr
    obtain ⟨b1, b2, b3, b4, b5⟩ := say_inv rs hu (by rw [a1]; exact ht) h1
    simp only at h2
    split at h2
    · cases h2; exact b1
    · exact go _ b1 (b2.trans a1) (b3.trans a5) (b4.trans a6) (fun k => (b5 k).trans (by simp only [fdOf, a3])) h2
  | accept => cases hr
  | wrote => cases hr

/-- Every step keeps the invariant if files get spare numbers. -/
theorem step_inv {lfd : Nat} {s s' : State} {ev : Ev} (h : Inv lfd s) (hsp : Spare s ev) (hs : step s ev = some s') : Inv lfd s' := by
  cases ev with
  | poll ready =>
    simp only [step] at hs
    split at hs
    · next hp =>
      cases hs
      refine ⟨h.conn, h.lis, h.file, h.loop, h.reg, fired_grouped h.loop hp.2.2, ?_, ?_, h.log⟩
      · intro ev rest hx
        simp only at hx
        have : ∀ x ∈ ready.flatMap (eventsOf s.loop), Live lfd { s with fired := ready.flatMap (eventsOf s.loop) } x := by
          intro x hxx
          obtain ⟨r, hr, hxx⟩ := List.mem_flatMap.1 hxx
          obtain ⟨e1, k, e2⟩ := eventsOf_fd h.loop hxx
          rcases h.reg _ _ _ e2 with ⟨p, q, _⟩ | ⟨i, p, q⟩
          · exact .inl ⟨p, e1.trans q⟩
          · exact .inr ⟨i, p, by rw [e1]; exact q⟩
        rw [hx] at this
        exact ⟨.inl (this ev (by simp)), fun x hxx => this x (by simp [hxx])⟩
      · intro i hi; simp only [hp.2.1] at hi; cases hi
    · cases hs
  | callback a =>
    simp only [step] at hs
    split at hs
    · next ev rest hc hf =>
      obtain ⟨p1, p2⟩ := h.pop hf hc
      have hg := h.group
      rw [hf] at hg
      have hnext := hg.next
      obtain ⟨hh, _⟩ := h.head ev rest hf
      split at hs
      · cases hs; exact p1
      · next e1 =>
        have hev : ev.fd = lfd := by
          rcases hh with (⟨_, hh⟩ | ⟨i, hp, _⟩) | ⟨_, i, hp, _⟩
          · exact hh
          · rw [e1] at hp; cases hp
          · rw [e1] at hp; cases hp
        obtain ⟨a1, a2, a3, a4, a5, a6⟩ := use_fields { s with fired := rest } .listen .read ev.fd
        refine accept_inv (p1.use (fun t hx => ?_)) (by rw [a6]; exact hc) (fun x hx => ?_) hs
        · rw [(p1.lis _).2 hev] at hx; cases hx; rfl
        · rw [a5] at hx
          unfold Live
          rw [a1]; exact p2 x hx
      · next i e1 e2 =>
        have htab : s.tab ev.fd = some (.conn i) := by
          rcases hh with (⟨hh, _⟩ | ⟨k, hp, hh⟩) | ⟨_, k, hp, hk, _⟩
          · rw [e1] at hh; cases hh
          · rw [e1] at hp; cases hp; exact hh
          · rw [e2] at hk; cases hk
        exact readable_inv p1 hc p2 htab (hnext.imp id fun hx => hx.2) hs
      · next i rs e1 e2 =>
        have htab : fdOf s i = some ev.fd ∧ (s.tab ev.fd = some (.conn i) ∨ s.tab ev.fd = none) := by
          rcases hh with (⟨hh, _⟩ | ⟨k, hp, hh⟩) | ⟨_, k, hp, _, hk, hh⟩
          · rw [e1] at hh; cases hh
          · rw [e1] at hp; cases hp; exact ⟨h.conn _ _ hh, .inl hh⟩
          · rw [e1] at hp; cases hp; exact ⟨hk, .inr hh⟩
        refine writable_inv p1 hc p2 htab.1 htab.2 ?_ hs
        rcases hnext with hx | ⟨hx, _⟩
        · exact hx
        · rw [e2] at hx; cases hx
      · cases hs
    · cases hs
  | free =>
    simp only [step] at hs
    split at hs
    · next i hi =>
      obtain ⟨fd, hfd, ht, hn⟩ := h.closing i hi
      have hfd' := hfd
      unfold fdOf at hfd'
      rw [Option.map_eq_some_iff] at hfd'
      obtain ⟨c, hc, hcf⟩ := hfd'
      have hall : ∀ x ∈ s.fired, Live lfd s x := by
        intro x hx
        cases hf : s.fired with
        | nil => rw [hf] at hx; cases hx
        | cons ev rest =>
          obtain ⟨q1, q2⟩ := h.head ev rest hf
          rw [hf] at hx
          rcases List.mem_cons.1 hx with rfl | hx
          · rcases q1 with q1 | ⟨q1, _⟩
            · exact q1
            · rw [hi] at q1; cases q1
          · exact q2 x hx
      have h0 : Inv lfd { s with closing := none } := by
        refine ⟨h.conn, h.lis, h.file, h.loop, h.reg, h.group, ?_, ?_, h.log⟩
        · intro ev rest hx
          simp only at hx
          rw [hx] at hall
          exact ⟨.inl (hall ev (by simp)), fun x hxx => hall x (by simp [hxx])⟩
        · intro k hk; cases hk
      exact h0.free rfl hc (by rw [hcf]; exact ht) hall (.inl (by rw [hcf]; exact hn)) hs
    · cases hs
  | openFile fd =>
    simp only [step] at hs
    split at hs
    · cases hs
    next ht =>
    have ht : s.tab fd = none := by simpa using ht
    cases hs
    obtain ⟨sp1, sp2⟩ := hsp
    refine ⟨?_, ?_, ?_, h.loop, ?_, h.group, ?_, ?_, h.log⟩
    · intro x k hx
      simp only at hx
      split at hx
      · cases hx
      · exact h.conn x k hx
    · intro x
      simp only
      split
      · next e =>
        refine ⟨fun hx => (by cases hx), fun hx => ?_⟩
        have := (h.lis x).2 hx
        rw [e, ht] at this; cases this
      · exact h.lis x
    · intro j x
      simp only
      rw [List.getElem?_append]
      split
      · next hj =>
        rw [h.file j x]
        split
        · next e =>
          rw [e, ht]
          simp only [reduceCtorEq, Option.some.injEq, Target.file.injEq, false_iff]
          omega
        · exact Iff.rfl
      · next hj =>
        split
        · next e =>
          subst e
          simp only [Option.some.injEq, Target.file.injEq]
          by_cases hjj : j = s.files.length
          · subst hjj; simp
          · have : [some x][j - s.files.length]? = none := List.getElem?_eq_none (by simp; omega)
            rw [this]; simp; omega
        · next e =>
          have : s.tab x ≠ some (.file j) := fun hx => by
            have := (h.file j x).2 hx
            exact hj (List.getElem?_eq_some_iff.1 this).1
          simp only [this, iff_false]
          by_cases hjj : j = s.files.length
          · subst hjj; simp; exact fun hx => e hx.symm
          · have : [some fd][j - s.files.length]? = none := List.getElem?_eq_none (by simp; omega)
            rw [this]; simp
    · intro x k ev hx
      simp only
      rcases h.reg x k ev hx with hx | ⟨i, hp, hx⟩
      · exact .inl hx
      · refine .inr ⟨i, hp, ?_⟩
        rw [if_neg (fun e => by rw [e, ht] at hx; cases hx)]; exact hx
    · intro ev rest hx
      simp only at hx
      obtain ⟨q1, q2⟩ := h.head ev rest hx
      have e1 := sp1 ev (by rw [hx]; simp)
      unfold Live Stale at *
      simp only [if_neg e1]
      refine ⟨q1, fun x hxx => ?_⟩
      rw [if_neg (sp1 x (by rw [hx]; simp [hxx]))]
      exact q2 x hxx
    · intro i hi
      obtain ⟨x, hx, q1, q2⟩ := h.closing i hi
      have hne : x ≠ fd := by
        unfold fdOf at hx
        rw [Option.map_eq_some_iff] at hx
        obtain ⟨c, hc, rfl⟩ := hx
        exact sp2 i c hi hc
      exact ⟨x, hx, by simp only [if_neg hne]; exact q1, q2⟩
  | writeFile j b =>
    simp only [step] at hs
    split at hs
    · next fd hj =>
      split at hs
      · cases hs
        exact h.use (fun t hx => by rw [(h.file j fd).1 hj] at hx; cases hx; rfl)
      · cases hs
    · cases hs
  | closeFile j =>
    simp only [step] at hs
    split at hs
    · next fd hj =>
      cases hs
      have ht := (h.file j fd).1 hj
      have hu : Inv lfd (s.use (.file j) .close fd) := h.use (fun t hx => by rw [ht] at hx; cases hx; rfl)
      obtain ⟨a1, a2, a3, a4, a5, a6⟩ := use_fields s (.file j) .close fd
      unfold State.close
      simp only
      generalize s.use (.file j) .close fd = U at hu a1 a2 a3 a4 a5 a6 ⊢
      rw [← a1] at ht
      rw [← a4]
      have hjU := (hu.file j fd).2 ht
      clear h hj hsp a1 a2 a3 a4 a5 a6
      have hno : ∀ k, U.loop.files (key fd k) = none := by
        intro k
        cases hx : U.loop.files (key fd k) with
        | none => rfl
        | some ev =>
          rcases hu.reg fd k ev hx with ⟨_, e, _⟩ | ⟨i, _, e⟩
          · rw [(hu.lis fd).2 e] at ht; cases ht
          · rw [e] at ht; cases ht
      have hne : ∀ x t, U.tab x = some t → t ≠ .file j → x ≠ fd := fun x t hx hn e => by rw [e, ht] at hx; cases hx; exact hn rfl
      refine ⟨?_, ?_, ?_, ⟨hu.loop.self, ?_⟩, ?_, hu.group, ?_, ?_, hu.log⟩
      · intro x k hx
        simp only at hx
        split at hx
        · cases hx
        · exact hu.conn x k hx
      · intro x
        simp only
        split
        · next e =>
          refine ⟨fun hx => (by cases hx), fun hx => ?_⟩
          rw [e] at hx; rw [(hu.lis fd).2 hx] at ht; cases ht
        · exact hu.lis x
      · intro k x
        simp only
        rw [List.getElem?_set]
        by_cases hk : j = k
        · subst hk
          rw [if_pos rfl]
          simp only [(List.getElem?_eq_some_iff.1 hjU).1, if_true, Option.some.injEq, reduceCtorEq, false_iff]
          split
          · intro hx; cases hx
          · next e =>
            intro hx
            have := (hu.file j x).2 hx
            rw [hjU] at this
            simp only [Option.some.injEq] at this
            exact e this.symm
        · rw [if_neg hk, hu.file k x]
          split
          · next e => rw [e, ht]; simp [hk]
          · exact Iff.rfl
      · intro x
        simp only
        rw [show mask { U.loop with kernel := fun x => if x = fd then none else U.loop.kernel x } x = mask U.loop x from rfl]
        split
        · next e =>
          have : mask U.loop x = 0 := by unfold mask; rw [e, hno, hno]; rfl
          rw [if_pos this]
        · exact hu.loop.kernel x
      · intro x k ev hx
        simp only at hx ⊢
        rcases hu.reg x k ev hx with hx | ⟨i, hp, hx⟩
        · exact .inl hx
        · exact .inr ⟨i, hp, by rw [if_neg (hne x _ hx (by simp))]; exact hx⟩
      · intro ev rest hx
        simp only at hx
        obtain ⟨q1, q2⟩ := hu.head ev rest hx
        have keep : ∀ x : FileEvent, Live lfd U x → (x.proc = 0 ∧ x.fd = lfd) ∨ ∃ i, x.proc = i + 1 ∧ (if x.fd = fd then none else U.tab x.fd) = some (.conn i) := by
          intro x hl
          rcases hl with hl | ⟨i, hp, hl⟩
          · exact .inl hl
          · exact .inr ⟨i, hp, by rw [if_neg (hne x.fd _ hl (by simp))]; exact hl⟩
        refine ⟨?_, fun x hxx => keep x (q2 x hxx)⟩
        rcases q1 with q1 | ⟨q0, i, w1, w2, w3, w4⟩
        · exact .inl (keep ev q1)
        · refine .inr ⟨q0, i, w1, w2, w3, ?_⟩
          simp only
          split
          · rfl
          · exact w4
      · intro i hi
        obtain ⟨x, hx, q1, q2⟩ := hu.closing i hi
        refine ⟨x, hx, ?_, q2⟩
        simp only
        rcases q1 with q1 | q1
        · left; rw [if_neg (hne x _ q1 (by simp))]; exact q1
        · right
          split
          · rfl
          · exact q1
    · cases hs

/-! ### The queues -/

/-- The i-th client has something to send. -/
def Owes (s : State) (i : Nat) : Prop := ∃ c, s.heap[i]? = some c ∧ c.out.queue ≠ []

structure Busy (s : State) : Prop where
  sok   : ∀ (i : Nat) (c : Client), s.heap[i]? = some c → Net.SOk c.out
  reg   : ∀ fd ev, s.loop.files (key fd .writable) = some ev → ∃ i, ev.proc = i + 1 ∧ Owes s i
  fired : ∀ ev ∈ s.fired, ev.kind = .writable → ∃ i, ev.proc = i + 1 ∧ Owes s i

/-- Nothing relevant changes, some queues may grow, registrations may go. -/
theorem Busy.change {s s' : State} (h : Busy s) (h1 : s'.heap = s.heap) (h2 : ∀ fd ev, s'.loop.files (key fd .writable) = some ev → s.loop.files (key fd .writable) = some ev)
    (h3 : ∀ ev ∈ s'.fired, ev ∈ s.fired) : Busy s' := by
  have ho : ∀ i, Owes s' i ↔ Owes s i := fun i => by unfold Owes; rw [h1]
  refine ⟨fun i c hc => h.sok i c (h1 ▸ hc), fun fd ev hx => ?_, fun ev hx hk => ?_⟩
  · obtain ⟨i, p, q⟩ := h.reg fd ev (h2 fd ev hx); exact ⟨i, p, (ho i).2 q⟩
  · obtain ⟨i, p, q⟩ := h.fired ev (h3 ev hx) hk; exact ⟨i, p, (ho i).2 q⟩

theorem Busy.use {s : State} (h : Busy s) (w : Target) (c : Call) (fd : Nat) : Busy (s.use w c fd) := by
  obtain ⟨a1, a2, a3, a4, a5, a6⟩ := use_fields s w c fd
  exact h.change a3 (fun fd ev hx => by rw [a2] at hx; exact hx) (fun ev hx => by rw [a5] at hx; exact hx)

theorem removed_files {l : Loop} (h : Ok l) (fd : Nat) (k : Kind) (fd' : Nat) (k' : Kind) :
    (removeFile l fd k true).1.files (key fd' k') = if fd' = fd ∧ k' = k then none else l.files (key fd' k') := by
  rcases removeFile_cases h fd k true with ⟨h1 | h1, h2⟩ | ⟨_, _, l', h3, _, _, _, h5⟩
  · rw [h2]
    split
    · next e => rw [e.1, e.2]; exact h1
    · rfl
  · cases h1
  · rw [h3]; exact h5 fd' k'

theorem Busy.close {s : State} (h : Busy s) (w : Target) (fd : Nat) : Busy (s.close w fd) := by
  have hu := h.use w .close fd
  exact hu.change rfl (fun _ _ hx => hx) (fun _ hx => hx)

theorem Busy.free {s s' : State} (h : Busy s) (ho : Ok s.loop) {i : Nat} (hr : Fds.free s i = some s') : Busy s' := by
  unfold Fds.free at hr
  simp only [Option.bind_eq_bind, Option.bind_eq_some_iff, Option.some.injEq] at hr
  obtain ⟨c, hi, rfl⟩ := hr
  refine Busy.close ?_ _ _
  refine h.change rfl (fun fd ev hx => ?_) (fun _ hx => hx)
  simp only at hx
  rw [removed_files (Net.remove_reg ho _ _).1] at hx
  split at hx
  · cases hx
  · rw [removed_files ho] at hx
    split at hx
    · cases hx
    · exact hx

theorem owes_set {s : State} {i : Nat} {c : Client} {o : Sender} (hi : s.heap[i]? = some c) (s' : State) (hs : s'.heap = s.heap.set i { c with out := o }) {k : Nat}
    (h : Owes s k) (hk : k = i → o.queue ≠ []) : Owes s' k := by
  obtain ⟨d, h1, h2⟩ := h
  unfold Owes
  rw [hs]
  by_cases e : k = i
  · subst e
    refine ⟨{ c with out := o }, ?_, hk rfl⟩
    rw [List.getElem?_set_self]
    exact (List.getElem?_eq_some_iff.1 hi).1
  · exact ⟨d, by rw [List.getElem?_set_ne (fun e' => e e'.symm)]; exact h1, h2⟩

theorem sok_set {s : State} (h : ∀ (i : Nat) (c : Client), s.heap[i]? = some c → Net.SOk c.out) {i : Nat} {c : Client} {o : Sender} (ho : Net.SOk o) :
    ∀ (k : Nat) (d : Client), (s.heap.set i { c with out := o })[k]? = some d → Net.SOk d.out := by
  intro k d hd
  rw [List.getElem?_set] at hd
  split at hd
  · split at hd
    · cases hd; exact ho
    · cases hd
  · exact h k d hd

theorem addReply_busy {s s' : State} {i : Nat} {r : Bytes} {ok : Bool} (h : Busy s) (ho : Ok s.loop) (hr0 : r ≠ []) (hr : addReply s i r = some (s', ok)) : Busy s' := by
  unfold addReply at hr
  simp only [Option.bind_eq_bind, Option.bind_eq_some_iff] at hr
  obtain ⟨c, hi, hr⟩ := hr
  have hne : { c.out with queue := c.out.queue ++ [r] }.queue ≠ [] := by simp
  have hs := sok_set h.sok (i := i) (c := c) (Net.sok_push (h.sok i c hi) hr0).1
  have how : ∀ (s2 : State), s2.heap = s.heap.set i { c with out := { c.out with queue := c.out.queue ++ [r] } } → ∀ k, Owes s k → Owes s2 k :=
    fun s2 h2 k hk => owes_set hi s2 h2 hk (fun _ => hne)
  split at hr
  · rcases addFile_cases ho c.fd .writable (i + 1) true with ⟨_, h2⟩ | ⟨_, _, l', h3, h4, _, _, h5⟩
    · rw [h2] at hr; cases hr; exact h
    · rw [h3] at hr; cases hr
      refine ⟨hs, fun fd ev hx => ?_, fun ev hx hk => ?_⟩
      · simp only at hx
        rw [h5] at hx
        split at hx
        · cases hx
          exact ⟨i, rfl, _, List.getElem?_set_self (List.getElem?_eq_some_iff.1 hi).1, hne⟩
        · obtain ⟨k, p, q⟩ := h.reg fd ev hx; exact ⟨k, p, how _ rfl k q⟩
      · obtain ⟨k, p, q⟩ := h.fired ev hx hk; exact ⟨k, p, how _ rfl k q⟩
  · cases hr
    refine ⟨hs, fun fd ev hx => ?_, fun ev hx hk => ?_⟩
    · obtain ⟨k, p, q⟩ := h.reg fd ev hx; exact ⟨k, p, how _ rfl k q⟩
    · obtain ⟨k, p, q⟩ := h.fired ev hx hk; exact ⟨k, p, how _ rfl k q⟩

theorem say_busy {lfd : Nat} : ∀ (rs : List Bytes) {s s' : State} {i : Nat} {ok : Bool} {fd : Nat}, Inv lfd s → Busy s → s.tab fd = some (.conn i) → (∀ r ∈ rs, r ≠ []) →
    say s i rs = some (s', ok) → Busy s'
  | [], s, s', i, ok, fd, _, h, _, _, hr => by cases hr; exact h
  | r :: rs, s, s', i, ok, fd, hi, h, ht, hr0, hr => by
    simp only [say, Option.bind_eq_bind, Option.bind_eq_some_iff] at hr
    obtain ⟨⟨s1, ok1⟩, h1, h2⟩ := hr
    obtain ⟨a1, a2, _⟩ := addReply_inv hi ht h1
    have hb := addReply_busy h hi.loop (hr0 r (by simp)) h1
    simp only at h2
    split at h2
    · exact say_busy rs a1 hb (by rw [a2]; exact ht) (fun x hx => hr0 x (by simp [hx])) h2
    · cases h2; exact hb

/-- Every step keeps the invariant of the queues. -/
theorem step_busy {lfd : Nat} {s s' : State} {ev : Ev} (hi : Inv lfd s) (h : Busy s) (hp : Speaks ev) (hs : step s ev = some s') : Busy s' := by
  cases ev with
  | poll ready =>
    simp only [step] at hs
    split at hs
    · cases hs
      refine ⟨h.sok, h.reg, fun ev hx hk => ?_⟩
      obtain ⟨r, hr, hx⟩ := List.mem_flatMap.1 hx
      obtain ⟨e1, k, e2⟩ := eventsOf_fd hi.loop hx
      have := (hi.loop.self _ _ _ e2).2
      rw [hk] at this; subst this
      exact h.reg _ ev e2
    · cases hs
  | callback a =>
    simp only [step] at hs
    split at hs
    · next ev rest hc hf =>
      obtain ⟨p1, p2⟩ := hi.pop hf hc
      have hb : Busy { s with fired := rest } := h.change rfl (fun _ _ hx => hx) (fun x hx => by rw [hf]; simp [show x ∈ rest from hx])
      obtain ⟨hh, _⟩ := hi.head ev rest hf
      have hg := hi.group
      rw [hf] at hg
      have hnext := hg.next
      split at hs
      · cases hs; exact hb
      · next fd e1 =>
        have hev : ev.fd = lfd := by
          rcases hh with (⟨_, hh⟩ | ⟨i, hp, _⟩) | ⟨_, i, hp, _⟩
          · exact hh
          · rw [e1] at hp; cases hp
          · rw [e1] at hp; cases hp
        have hu := hb.use .listen .read ev.fd
        have hui : Inv lfd (State.use { s with fired := rest } .listen .read ev.fd) := p1.use (fun t hx => by rw [(p1.lis _).2 hev] at hx; cases hx; rfl)
        revert hs
        generalize State.use { s with fired := rest } .listen .read ev.fd = U at hu hui
        intro hs
        unfold accept at hs
        split at hs
        · cases hs
        simp only at hs
        have how : ∀ (s2 : State), s2.heap = U.heap ++ [({ fd, out := {} } : Client)] → ∀ k, Owes U k → Owes s2 k := by
          intro s2 h2 k hk
          obtain ⟨c, q1, q2⟩ := hk
          exact ⟨c, by rw [h2, List.getElem?_append_left (List.getElem?_eq_some_iff.1 q1).1]; exact q1, q2⟩
        have hsok : ∀ (i : Nat) (c : Client), (U.heap ++ [({ fd, out := {} } : Client)])[i]? = some c → Net.SOk c.out := by
          intro i c hx
          rw [List.getElem?_append] at hx
          split at hx
          · exact hu.sok i c hx
          · have := List.mem_of_getElem? hx
            cases List.mem_singleton.1 this
            exact ⟨by simp, rfl⟩
        rcases addFile_cases hui.loop fd .readable (U.heap.length + 1) true with ⟨_, h2⟩ | ⟨_, _, l', h3, h4, _, _, h5⟩
        · rw [h2] at hs
          simp only at hs
          refine Busy.free (s := { U with tab := fun x => if x = fd then some (.conn U.heap.length) else U.tab x, heap := U.heap ++ [({ fd, out := {} } : Client)] }) ?_ hui.loop hs
          refine ⟨hsok, fun x ev hx => ?_, fun ev hx hk => ?_⟩
          · obtain ⟨k, p, q⟩ := hu.reg x ev hx; exact ⟨k, p, how _ rfl k q⟩
          · obtain ⟨k, p, q⟩ := hu.fired ev hx hk; exact ⟨k, p, how _ rfl k q⟩
        · rw [h3] at hs
          cases hs
          refine ⟨hsok, fun x ev hx => ?_, fun ev hx hk => ?_⟩
          · simp only at hx
            rw [h5] at hx
            split at hx
            · next e => cases e.2
            · obtain ⟨k, p, q⟩ := hu.reg x ev hx; exact ⟨k, p, how _ rfl k q⟩
          · obtain ⟨k, p, q⟩ := hu.fired ev hx hk; exact ⟨k, p, how _ rfl k q⟩
      · next a0 _ _ _ i e1 e2 =>
        have htab : s.tab ev.fd = some (.conn i) := by
          rcases hh with (⟨hh, _⟩ | ⟨k, hp, hh⟩) | ⟨_, k, hp, hk, _⟩
          · rw [e1] at hh; cases hh
          · rw [e1] at hp; cases hp; exact hh
          · rw [e2] at hk; cases hk
        have hu := hb.use (.conn i) .read ev.fd
        have hui : Inv lfd (State.use { s with fired := rest } (.conn i) .read ev.fd) := p1.use (fun t hx => by
          rw [show ({ s with fired := rest } : State).tab = s.tab from rfl, htab] at hx; cases hx; rfl)
        cases a0 with
        | nothing => cases hs; exact hb
        | eof => exact hu.free hui.loop hs
        | data rs ok =>
          simp only [readable, Option.bind_eq_bind, Option.bind_eq_some_iff] at hs
          obtain ⟨⟨s1, ok1⟩, h1, h2⟩ := hs
          have htu : (State.use { s with fired := rest } (.conn i) .read ev.fd).tab ev.fd = some (.conn i) := by
            rw [(use_fields _ _ _ _).1]; exact htab
          have b1 := (say_inv rs hui htu h1).1
          have b2 := say_busy rs hui hu htu hp h1
          simp only at h2
          split at h2
          · cases h2; exact b2
          · exact b2.free b1.loop h2
        | accept => cases hs
        | wrote => cases hs
      · next i rs e1 e2 =>
        have htab : fdOf s i = some ev.fd := by
          rcases hh with (⟨hh, _⟩ | ⟨k, hp, hh⟩) | ⟨_, k, hp, _, hk, hh⟩
          · rw [e1] at hh; cases hh
          · rw [e1] at hp; cases hp; exact hi.conn _ _ hh
          · rw [e1] at hp; cases hp; exact hk
        have hrest : ∀ x ∈ rest, x.fd ≠ ev.fd := by
          rcases hnext with hx | ⟨hx, _⟩
          · exact hx
          · rw [e2] at hx; cases hx
        unfold writable at hs
        simp only [Option.bind_eq_bind, Option.bind_eq_some_iff] at hs
        obtain ⟨c, hci, hs⟩ := hs
        have hcf : c.fd = ev.fd := by unfold fdOf at htab; rw [hci] at htab; simpa using htab
        have hother : ∀ x ∈ rest, ∀ k, x.proc = k + 1 → k ≠ i := by
          rintro x hx k hk rfl
          have : Live lfd s x := p2 x hx
          rcases this with ⟨q, _⟩ | ⟨k', q, q'⟩
          · rw [hk] at q; cases q
          · rw [hk] at q; cases q
            have := hi.conn _ _ q'
            rw [htab] at this
            exact hrest x hx (by simpa using this.symm)
        have hreg : ∀ fd ev', s.loop.files (key fd .writable) = some ev' → ∀ k, ev'.proc = k + 1 → k = i → fd = c.fd := by
          rintro fd ev' hx k hk rfl
          rcases hi.reg fd _ _ hx with ⟨q, _⟩ | ⟨k', q, q'⟩
          · rw [hk] at q; cases q
          · rw [hk] at q; cases q
            have := hi.conn _ _ q'
            rw [htab] at this
            rw [hcf]; simpa using this.symm
        have hsl := Net.sendLoop_ok (if (s.tab c.fd).isSome then rs else [.fail]) c.out.queue c.out.sent [] (h.sok i c hci)
        obtain ⟨a1, a2, a3, a4, a5, a6⟩ := use_fields { s with fired := rest } (.conn i) (.write []) c.fd
        have hgen : ∀ (b : Bytes) (o : Sender) (L : Loop), Net.SOk o → (∀ fd ev', L.files (key fd .writable) = some ev' → s.loop.files (key fd .writable) = some ev' ∧ (fd = c.fd → o.queue ≠ [])) →
            Busy { State.use { s with fired := rest } (.conn i) (.write b) c.fd with heap := s.heap.set i { c with out := o }, loop := L } := by
          intro b o L ho hL
          obtain ⟨a1, a2, a3, a4, a5, a6⟩ := use_fields { s with fired := rest } (.conn i) (.write b) c.fd
          refine ⟨sok_set (s := s) h.sok ho, fun fd ev' hx => ?_, fun x hx hk => ?_⟩
          · obtain ⟨q1, q2⟩ := hL fd ev' hx
            obtain ⟨k, w1, w2⟩ := h.reg fd ev' q1
            exact ⟨k, w1, owes_set hci _ rfl w2 (fun e => q2 (hreg fd ev' q1 k w1 e))⟩
          · simp only [a5] at hx
            obtain ⟨k, w1, w2⟩ := h.fired x (by rw [hf]; simp [hx]) hk
            exact ⟨k, w1, owes_set hci _ rfl w2 (fun e => absurd e (hother x hx k w1))⟩
        revert hs hsl
        cases Net.sendLoop (if (s.tab c.fd).isSome then rs else [.fail]) c.out [] with
        | done o b =>
          intro hs hsl
          simp only at hs hsl
          obtain ⟨_, a2', _⟩ := use_fields { s with fired := rest } (.conn i) (.write b) c.fd
          split at hs
          · cases hs
            refine hgen b o _ hsl.1 (fun fd ev' hx => ?_)
            rw [a2', removed_files (show Ok ({ s with fired := rest } : State).loop from hi.loop)] at hx
            split at hx
            · cases hx
            · next e => exact ⟨hx, fun hfd => absurd ⟨hfd, rfl⟩ e⟩
          · next hq =>
            cases hs
            exact hgen b o (State.use { s with fired := rest } (.conn i) (.write b) c.fd).loop hsl.1 (fun fd ev' hx => ⟨by rw [a2'] at hx; exact hx, fun _ => hq⟩)
        | again o b =>
          intro hs hsl
          simp only at hs hsl
          cases hs
          obtain ⟨_, a2', _⟩ := use_fields { s with fired := rest } (.conn i) (.write b) c.fd
          exact hgen b o (State.use { s with fired := rest } (.conn i) (.write b) c.fd).loop hsl.1 (fun fd ev' hx => ⟨by rw [a2'] at hx; exact hx, fun _ => hsl.2.1⟩)
        | failed b =>
          intro hs hsl
          cases hs
          exact (hb.use (.conn i) (.write b) c.fd).change rfl (fun _ _ hx => hx) (fun _ hx => hx)
        | spin => intro hs; cases hs
      · cases hs
    · cases hs
  | free =>
    simp only [step] at hs
    split at hs
    · next i _ =>
      exact Busy.free (s := { s with closing := none }) (h.change rfl (fun _ _ hx => hx) (fun _ hx => hx)) hi.loop hs
    · cases hs
  | openFile fd =>
    simp only [step] at hs
    split at hs
    · cases hs
    · cases hs; exact h.change rfl (fun _ _ hx => hx) (fun _ hx => hx)
  | writeFile j b =>
    simp only [step] at hs
    split at hs
    · split at hs
      · cases hs; exact h.use _ _ _
      · cases hs
    · cases hs
  | closeFile j =>
    simp only [step] at hs
    split at hs
    · cases hs
      exact (h.close _ _).change rfl (fun _ _ hx => hx) (fun _ hx => hx)
    · cases hs

end Metis.Fds
