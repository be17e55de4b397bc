import Verif.Spec.Deliver
/-!
Delivery of replies: what a connection that stays open has been sent and has still to be sent.
-/
set_option linter.unusedSectionVars false
set_option linter.unusedSimpArgs false
set_option linter.unusedVariables false
namespace Metis
namespace Deliver
open Spec Metis.Wire Metis.HostSim
open _root_.Metis.Net (pending NOk SOk writable_ok sendLoop_ok accept_ok free_ok sendLoop)
variable {hash : Bytes → Nat}

/-- What makes a state of the wire well-formed for our purposes. -/
structure WOk (hash : Bytes → Nat) (w : Wire) : Prop where
  reach : Reach hash w.sys
  net   : NOk w.net

theorem wok_of_told {np : Nat} {pw : Bytes} {aof : Bool} {evs : List Ev} {w : Wire} {h : List (Event × List Bytes)} (t : Told hash np pw aof evs w h) : WOk hash w := by
  obtain ⟨nevs, f⟩ := t.fits
  exact ⟨f.reach, f.net.1⟩

theorem pending_nil {o : Sender} (h : SOk o) : pending o = [] ↔ o.queue = [] := by
  constructor
  · intro hp
    cases hq : o.queue with
    | nil => rfl
    | cons s q =>
      have h2 := h.2
      rw [hq] at h2
      simp only at h2
      unfold pending at hp
      rw [hq, List.drop_eq_nil_iff] at hp
      simp at hp
      omega
  · intro hq
    simp [pending, hq]

/-- A write that takes a byte makes progress. -/
theorem send_some {k : Nat} (hk : 0 < k) {rs : List Wrote} {o : Sender} (h : SOk o) (hp : pending o ≠ []) :
    match sendLoop (.bytes k :: rs) o [] with
    | .done o' b => b ≠ []
    | .again o' b => b ≠ []
    | .failed b => True
    | .spin => True := by
  obtain ⟨q, m⟩ := o
  cases q with
  | nil => exact absurd ((pending_nil h).2 rfl) hp
  | cons s q =>
    have hm : m < s.length := h.2
    have hne : (s.drop m).take (min k (s.length - m)) ≠ [] := by
      intro e
      have := congrArg List.length e
      simp at this
      omega
    unfold sendLoop
    rw [if_pos hm]
    simp only
    by_cases hb : m + min k (s.length - m) = s.length
    · rw [if_pos hb]
      have hq : SOk ⟨q, 0⟩ := by
        refine ⟨fun x hx => h.1 x (List.mem_cons_of_mem _ hx), ?_⟩
        cases q with
        | nil => rfl
        | cons s' q' => exact List.length_pos_iff.2 (h.1 s' (by simp))
      have := sendLoop_ok rs q 0 ([] ++ (s.drop m).take (min k (s.length - m))) hq
      generalize sendLoop rs ⟨q, 0⟩ ([] ++ (s.drop m).take (min k (s.length - m))) = out at *
      cases out with
      | done o' b => obtain ⟨_, t, e, _⟩ := this; rw [e]; simp [hne]
      | again o' b => obtain ⟨_, _, t, e, _⟩ := this; rw [e]; simp [hne]
      | failed b => trivial
      | spin => trivial
    · rw [if_neg hb]
      simpa using hne

theorem writable_some {n n' : Net.Net} (h : NOk n) {fd k : Nat} {rs : List Wrote} (hk : 0 < k) (hr : Net.writable n fd (.bytes k :: rs) = some n') {o o' : Sender}
    (ho : n.clients fd = some o) (ho' : n'.clients fd = some o') (hp : pending o ≠ []) : ∃ t, t ≠ [] ∧ n'.wire fd = n.wire fd ++ t := by
  have hs := send_some hk (rs := rs) (h.on fd o ho).1 hp
  unfold Net.writable at hr
  rw [ho] at hr
  simp only [Option.bind_eq_bind, Option.bind_some] at hr
  generalize sendLoop (.bytes k :: rs) o [] = out at *
  cases out with
  | done o1 b =>
    simp only at hr hs
    split at hr <;> cases hr <;> exact ⟨b, hs, by simp⟩
  | again o1 b =>
    simp only at hr hs
    cases hr; exact ⟨b, hs, by simp⟩
  | failed b =>
    simp only at hr
    cases hr
    simp [Net.free] at ho'
  | spin => cases hr

/-- One event, for a connection that is open before and after it. -/
theorem grow_step {w w' : Wire} {ev : Ev} {fd : Nat} {o o' : Sender} (k : WOk hash w) (he : EvsOk hash [ev]) (hs : step w ev = some w')
    (ho : w.net.clients fd = some o) (ho' : w'.net.clients fd = some o') :
    ∃ t new, w'.net.wire fd = w.net.wire fd ++ t ∧ t ++ pending o' = pending o ++ new ∧ (Takes fd ev → pending o ≠ [] → t ≠ []) := by
  have hev := he ev (by simp)
  cases ev with
  | accept x =>
    simp only [step, Option.bind_eq_bind, Option.bind_eq_some_iff] at hs
    obtain ⟨net, h1, ⟨sys, r⟩, h2, h3⟩ := hs
    cases h3
    have hn : w.net.clients x = none := by
      simp only [Net.step] at h1
      split at h1
      · cases h1
      next hn => simpa using hn
    simp only [Net.step, hn] at h1
    cases h1
    obtain ⟨k1, k2, k3, k4⟩ := accept_ok k.net hn
    have hx : fd ≠ x := by rintro rfl; rw [ho] at hn; cases hn
    obtain ⟨k5, k6⟩ := k4 fd hx
    rw [k5, ho] at ho'
    cases ho'
    exact ⟨[], [], by rw [k6]; simp, by simp, fun ht => ht.elim⟩
  | cron e =>
    simp only [step, Option.bind_eq_bind, Option.bind_eq_some_iff] at hs
    obtain ⟨⟨sys, r⟩, h2, h3⟩ := hs
    cases h3
    rw [ho] at ho'
    cases ho'
    exact ⟨[], [], by simp, by simp, fun ht => ht.elim⟩
  | writable x rs =>
    simp only [step, Option.bind_eq_bind, Option.bind_eq_some_iff] at hs
    obtain ⟨net, h1, h2⟩ := hs
    have h1' : Net.writable w.net x rs = some net := h1
    have hnet : w'.net = net := by
      split at h2 <;> cases h2 <;> rfl
    rw [hnet] at ho' ⊢
    obtain ⟨o1, t, a1, a2, a3, a4, a5⟩ := writable_ok k.net h1'
    by_cases hx : fd = x
    · subst hx
      rw [ho] at a1; cases a1
      rcases a5 with ⟨o2, c1, c2⟩ | ⟨c1, _⟩
      · rw [ho'] at c1; cases c1
        refine ⟨t, [], a3, by simpa using c2, ?_⟩
        intro ht hp
        unfold Takes at ht
        cases rs with
        | nil => exact ht.elim
        | cons r rs =>
          cases r with
          | again => exact ht.elim
          | fail => exact ht.elim
          | bytes b =>
            obtain ⟨t', e1, e2⟩ := writable_some k.net ht.2 h1' ho ho' hp
            rw [a3] at e2
            rw [List.append_cancel_left e2]; exact e1
      · rw [ho'] at c1; cases c1
    · obtain ⟨c1, c2⟩ := a4 fd hx
      rw [c1, ho] at ho'; cases ho'
      refine ⟨[], [], by rw [c2]; simp, by simp, fun ht => ?_⟩
      unfold Takes at ht
      cases rs with
      | nil => exact ht.elim
      | cons r rs =>
        cases r with
        | again => exact ht.elim
        | fail => exact ht.elim
        | bytes b => exact absurd ht.1.symm hx
  | readable x g e =>
    have nt : ∀ P : Prop, Takes fd (.readable x g e) → P := fun P ht => ht.elim
    have dropped : ∀ {v : Wire}, NOk v.net → w' = drop v x → v.net.wire = w.net.wire → (fd ≠ x → v.net.clients fd = w.net.clients fd) →
        ∃ t new, w'.net.wire fd = w.net.wire fd ++ t ∧ t ++ pending o' = pending o ++ new ∧ (Takes fd (.readable x g e) → pending o ≠ [] → t ≠ []) := by
      intro v kv hv hw hc
      obtain ⟨f1, f2, f3⟩ := free_ok kv x
      subst hv
      by_cases hx : fd = x
      · subst hx
        have : (drop v fd).net.clients fd = none := f2
        rw [this] at ho'; cases ho'
      · obtain ⟨f4, f5⟩ := f3 fd hx
        have e1 : (drop v x).net.clients fd = v.net.clients fd := f4
        rw [e1, hc hx, ho] at ho'; cases ho'
        exact ⟨[], [], by rw [show (drop v x).net.wire fd = v.net.wire fd from f5, hw]; simp, by simp, nt _⟩
    simp only [step, readable, Option.bind_eq_bind, Option.bind_eq_some_iff] at hs
    obtain ⟨c, hc, hs⟩ := hs
    cases g with
    | nothing =>
      cases hs
      rw [ho] at ho'; cases ho'
      exact ⟨[], [], by simp, by simp, nt _⟩
    | eof =>
      simp only [Option.some.injEq] at hs
      exact dropped k.net hs.symm rfl (fun _ => rfl)
    | data d =>
      simp only [Option.bind_eq_some_iff] at hs
      obtain ⟨⟨cmds, c'⟩, h1, v, h2, h3⟩ := hs
      have he1 : EnvOk hash e := hev
      have hv : NOk v.net ∧ v.net.wire = w.net.wire ∧ (fd ≠ x → v.net.clients fd = w.net.clients fd) ∧
          (fd = x → ∃ o1 new, v.net.clients fd = some o1 ∧ pending o1 = pending o ++ new) := by
        have h4 := one_command h1
        match cmds, h4, h2 with
        | [], _, h2 =>
          cases h2
          exact ⟨k.net, rfl, fun _ => rfl, fun _ => ⟨o, [], ho, by simp⟩⟩
        | [args], _, h2 =>
          simp only [exec, Option.bind_eq_bind, Option.bind_eq_some_iff] at h2
          obtain ⟨⟨sys, r⟩, h5, net, h6, h7⟩ := h2
          cases h7
          have hne := _root_.Metis.Props.ReplyP.C30_nonempty k.reach he1.1 he1.2.1 h5
          obtain ⟨b1, b2, b3, b4⟩ := say_all r k.net hne h6
          refine ⟨b1, b2, b3 fd, fun hx => ?_⟩
          subst hx
          obtain ⟨o1, c1, c2⟩ := b4 o ho
          exact ⟨o1, _, c1, c2⟩
        | _ :: _ :: _, h4, _ => simp at h4
      obtain ⟨v1, v2, v3, v4⟩ := hv
      cases c' with
      | none =>
        simp only [Option.some.injEq] at h3
        exact dropped v1 h3.symm v2 v3
      | some c' =>
        simp only [Option.some.injEq] at h3
        subst h3
        simp only at ho' ⊢
        rw [v2]
        by_cases hx : fd = x
        · obtain ⟨o1, new, e1, e2⟩ := v4 hx
          rw [e1] at ho'; cases ho'
          exact ⟨[], new, by simp, by simpa using e2, nt _⟩
        · rw [v3 hx, ho] at ho'; cases ho'
          exact ⟨[], [], by simp, by simp, nt _⟩


/-- What has been sent since a moment at which `P` was pending; `B` had been sent before. -/
structure Since (fd : Nat) (B P : Bytes) (w : Wire) (t : Bytes) : Prop where
  wire : w.net.wire fd = B ++ t
  rest : ∃ o new, w.net.clients fd = some o ∧ t ++ pending o = P ++ new

theorem since_start {w : Wire} {fd : Nat} {o : Sender} (h : w.net.clients fd = some o) : Since fd (w.net.wire fd) (pending o) w [] :=
  ⟨by simp, o, [], h, by simp⟩

theorem since_step {w w' : Wire} {ev : Ev} {fd : Nat} {B P t : Bytes} (k : WOk hash w) (he : EvsOk hash [ev]) (hs : step w ev = some w')
    (hk : w'.net.clients fd ≠ none) (h : Since fd B P w t) :
    ∃ u, Since fd B P w' (t ++ u) ∧ (Takes fd ev → t.length < P.length → u ≠ []) := by
  obtain ⟨o, new, h1, h2⟩ := h.rest
  obtain ⟨o', ho'⟩ := Option.ne_none_iff_exists'.1 hk
  obtain ⟨u, new', g1, g2, g3⟩ := grow_step k he hs h1 ho'
  refine ⟨u, ⟨by rw [g1, h.wire, List.append_assoc], o', new ++ new', ho', ?_⟩, fun ht hl => g3 ht ?_⟩
  · rw [List.append_assoc, g2, ← List.append_assoc, h2, List.append_assoc]
  · intro hp
    rw [hp, List.append_nil] at h2
    have := congrArg List.length h2
    simp at this
    omega

theorem since_done {fd : Nat} {B P t : Bytes} {w : Wire} (h : Since fd B P w t) (hl : P.length ≤ t.length) : ∃ r, w.net.wire fd = B ++ P ++ r := by
  obtain ⟨o, new, h1, h2⟩ := h.rest
  have hp : P <+: t := List.prefix_of_prefix_length_le (l₃ := P ++ new) (List.prefix_append _ _) (h2 ▸ List.prefix_append _ _) hl
  obtain ⟨r, hr⟩ := hp
  exact ⟨r, by rw [h.wire, ← hr, List.append_assoc]⟩

end Deliver
end Metis
