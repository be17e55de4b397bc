import Verif.Spec.Host
import Verif.Props.Reference
import Verif.Props.Up
/-! Helper lemmas: the server on the wire follows the reference behind sockets. -/
set_option linter.unusedSectionVars false
set_option linter.unusedSimpArgs false
set_option linter.unusedVariables false
namespace Metis.HostSim
open Metis Metis.Spec Metis.Wire Metis.RefSim
open _root_.Metis.Conn (Held read_held Reads)
open _root_.Metis.Net (NOk pending free_ok accept_ok addReply_ok writable_ok)
variable {hash : Bytes → Nat} {n : Nat} {pw : Bytes}

/-- What the reference knows of a connection. -/
def Same (w : Wire) (fd : Nat) : Option Ref.Line → Prop
  | none => w.conn fd = none ∧ w.net.clients fd = none
  | some l => ∃ c o, w.conn fd = some c ∧ Held c l.inbox ∧ c.slack = l.room ∧ w.net.clients fd = some o ∧ w.net.wire fd ++ pending o = l.out

structure HOk (hash : Bytes → Nat) (n : Nat) (pw : Bytes) (w : Wire) (H : Ref.Host) : Prop where
  reach : Reach hash w.sys
  size  : w.sys.srv.dbs.length = n
  pass  : w.sys.srv.password = pw
  sok   : SOk w.sys
  net   : NOk w.net
  state : RefSim.state w.sys = H.state
  line  : ∀ fd, Same w fd (H.line fd)

theorem HOk.init {aof : Bool} : HOk hash n pw (Wire.init n pw aof) Ref.Host.start :=
  ⟨⟨n, pw, aof, [], [], by simp, rfl⟩, by simp [Wire.init, Sys.init, Server.init], rfl, Props.RefP.sok_init, Props.NetP.inv_new.1, Props.RefP.state_init, fun fd => ⟨rfl, rfl⟩⟩

theorem same_other {w w' : Wire} {x : Nat} {l : Option Ref.Line} (h1 : w'.conn x = w.conn x) (h2 : w'.net.clients x = w.net.clients x)
    (h3 : w'.net.wire x = w.net.wire x) (h : Same w x l) : Same w' x l := by
  cases l with
  | none => exact ⟨h1.trans h.1, h2.trans h.2⟩
  | some l =>
    obtain ⟨c, o, a1, a2, a3, a4, a5⟩ := h
    exact ⟨c, o, h1.trans a1, a2, a3, h2.trans a4, by rw [h3]; exact a5⟩

theorem drop_ok {w : Wire} {H : Ref.Host} {fd : Nat} (h : HOk hash n pw w H) : HOk hash n pw (Wire.drop w fd) (H.drop fd) := by
  obtain ⟨k1, k2, k3⟩ := free_ok h.net fd
  obtain ⟨⟨v, m, _⟩, ok⟩ := sim_event h.reach.good (ev := .close fd) trivial h.sok rfl trivial
  refine ⟨Reach.step h.reach (ev := .close fd) trivial rfl, h.size, h.pass, ok, k1, ?_, fun x => ?_⟩
  · show RefSim.state _ = H.state.know fd none
    rw [← h.state]
    exact m.1
  · by_cases hx : x = fd
    · subst hx
      simp only [Ref.Host.drop, if_true]
      exact ⟨by simp [Wire.drop], k2⟩
    · simp only [Ref.Host.drop, if_neg hx]
      exact same_other (by simp [Wire.drop, hx]) (k3 x hx).1 (k3 x hx).2 (h.line x)

theorem say_all {fd : Nat} : ∀ (r : List Bytes) {n n' : Net.Net}, NOk n → (∀ x ∈ r, x ≠ []) → Node.say n fd r = some n' →
    NOk n' ∧ n'.wire = n.wire ∧ (∀ x, x ≠ fd → n'.clients x = n.clients x) ∧
      ∀ o, n.clients fd = some o → ∃ o', n'.clients fd = some o' ∧ pending o' = pending o ++ r.flatten
  | [], n, n', h, _, hs => by cases hs; exact ⟨h, rfl, fun _ _ => rfl, fun o ho => ⟨o, ho, by simp⟩⟩
  | s :: r, n, n', h, hr, hs => by
    simp only [Node.say, Option.bind_eq_bind, Option.bind_eq_some_iff] at hs
    obtain ⟨n1, h1, h2⟩ := hs
    obtain ⟨o, o1, a1, a2, a3, a4, a5, a6⟩ := addReply_ok h (hr s (by simp)) h1
    obtain ⟨b1, b2, b3, b4⟩ := say_all r a2 (fun x hx => hr x (by simp [hx])) h2
    refine ⟨b1, b2.trans a5, fun x hx => (b3 x hx).trans (a6 x hx), fun o2 ho => ?_⟩
    rw [a1] at ho; cases ho
    obtain ⟨o', c1, c2⟩ := b4 o1 a3
    exact ⟨o', c1, by rw [c2, a4, List.flatten_cons, List.append_assoc]⟩

theorem serve_step {w w' : Wire} {H : Ref.Host} {ev : Ev} (h : HOk hash n pw w H) (he : EvsOk hash [ev]) (hr : Read ev) (hf : H.Fine ev)
    (hs : step w ev = some w') : ∃ H', Ref.Serves n pw H ev H' ∧ HOk hash n pw w' H' := by
  have ho := he ev (by simp)
  cases ev with
  | accept fd =>
    simp only [step, Option.bind_eq_bind, Option.bind_eq_some_iff] at hs
    obtain ⟨net, h1, ⟨sys, r⟩, h2, h3⟩ := hs
    cases h3
    have hn : w.net.clients fd = none := by
      simp only [Net.step] at h1
      split at h1
      · cases h1
      next hn => simpa using hn
    simp only [Net.step, hn] at h1
    cases h1
    obtain ⟨k1, k2, k3, k4⟩ := accept_ok h.net hn
    obtain ⟨⟨v, m, _⟩, ok⟩ := sim_event h.reach.good (ev := .connect fd) trivial h.sok h2 trivial
    obtain ⟨_, e1, _, e2, _⟩ := step_db h.reach.good (ev := .connect fd) trivial h2
    rw [h.size, h.pass] at m
    have hl : H.line fd = none := by
      have := h.line fd
      cases hl : H.line fd with
      | none => rfl
      | some l => rw [hl] at this; obtain ⟨c, o, _, _, _, a4, _⟩ := this; rw [hn] at a4; cases a4
    refine ⟨_, ⟨hl, rfl⟩, Reach.step h.reach (ev := .connect fd) trivial h2, e2.trans h.size, e1.trans h.pass, ok, k1, ?_, fun x => ?_⟩
    · show RefSim.state sys = _
      rw [← h.state]; exact m.1
    · by_cases hx : x = fd
      · subst hx
        simp only [if_true]
        exact ⟨Conn.new, {}, by simp, .fresh _, rfl, k2, by rw [k3]; rfl⟩
      · simp only [if_neg hx]
        exact same_other (by simp [hx]) (k4 x hx).1 (k4 x hx).2 (h.line x)
  | cron e =>
    simp only [step, Option.bind_eq_bind, Option.bind_eq_some_iff] at hs
    obtain ⟨⟨sys, r⟩, h2, h3⟩ := hs
    cases h3
    obtain ⟨⟨v, m, _⟩, ok⟩ := sim_event h.reach.good (ev := .cron e) ho h.sok h2 trivial
    obtain ⟨_, e1, _, e2, _⟩ := step_db h.reach.good (ev := .cron e) ho h2
    rw [h.size, h.pass] at m
    refine ⟨⟨RefSim.state sys, H.line⟩, ⟨rfl, ?_⟩, Reach.step h.reach (ev := .cron e) ho h2, e2.trans h.size, e1.trans h.pass, ok, h.net, rfl, fun x => same_other rfl rfl rfl (h.line x)⟩
    rw [← h.state]
    obtain ⟨m1, m2, m3⟩ := m
    exact ⟨m1, m2, rfl⟩
  | writable fd rs =>
    simp only [step, Option.bind_eq_bind, Option.bind_eq_some_iff] at hs
    obtain ⟨net, h1, h2⟩ := hs
    have h1' : Net.writable w.net fd rs = some net := h1
    obtain ⟨o, t, a1, a2, a3, a4, a5⟩ := writable_ok h.net h1'
    have hl := h.line fd
    cases hlf : H.line fd with
    | none => rw [hlf] at hl; rw [hl.2] at a1; cases a1
    | some l =>
      rw [hlf] at hl
      obtain ⟨c, o1, b1, b2, b3, b4, b5⟩ := hl
      rw [a1] at b4; cases b4
      rcases a5 with ⟨o', c1, c2⟩ | ⟨c1, _⟩
      · rw [c1] at h2
        simp only [Option.isSome_some, if_true] at h2
        cases h2
        refine ⟨H, ⟨by rw [hlf]; simp, Or.inl rfl⟩, h.reach, h.size, h.pass, h.sok, a2, h.state, fun x => ?_⟩
        by_cases hx : x = fd
        · subst hx
          rw [hlf]
          exact ⟨c, o', b1, b2, b3, c1, by simp only [a3]; rw [List.append_assoc, c2]; exact b5⟩
        · exact same_other (w := w) rfl (a4 x hx).1 (a4 x hx).2 (h.line x)
      · rw [c1] at h2
        simp only [Option.isSome_none, Bool.false_eq_true, if_false] at h2
        cases h2
        refine ⟨H.drop fd, ⟨by rw [hlf]; simp, Or.inr ⟨?_, rfl⟩⟩, ?_⟩
        · simp only [Net.writable, a1, Option.bind_eq_bind, Option.bind_some] at h1'
          split at h1'
          next o' b hsl =>
            exfalso
            split at h1' <;> cases h1' <;> simp at c1
          · cases h1'; simp at c1
          next b hsl => exact Props.WireP.sendLoop_fails _ _ _ _ _ hsl
          · cases h1'
        · have d := drop_ok (fd := fd) h
          refine ⟨d.reach, d.size, d.pass, d.sok, a2, d.state, fun x => ?_⟩
          by_cases hx : x = fd
          · subst hx
            simp only [Ref.Host.drop, if_true]
            exact ⟨by simp [Wire.drop], c1⟩
          · simp only [Ref.Host.drop, if_neg hx]
            exact same_other (by simp [Wire.drop, hx]) (a4 x hx).1 (a4 x hx).2 (h.line x)
  | readable fd g e =>
    simp only [step, readable, Option.bind_eq_bind, Option.bind_eq_some_iff] at hs
    obtain ⟨c0, hc0, hs⟩ := hs
    have hl := h.line fd
    cases hlf : H.line fd with
    | none => rw [hlf] at hl; rw [hl.1] at hc0; cases hc0
    | some l =>
      rw [hlf] at hl
      obtain ⟨c, o, b1, b2, b3, b4, b5⟩ := hl
      rw [hc0] at b1; cases b1
      unfold Ref.Serves
      simp only [hlf]
      cases g with
      | eof =>
        cases hs
        exact ⟨_, rfl, drop_ok h⟩
      | nothing =>
        cases hs
        refine ⟨_, rfl, h.reach, h.size, h.pass, h.sok, h.net, h.state, fun x => ?_⟩
        by_cases hx : x = fd
        · subst hx
          simp only [Ref.Host.plug, if_true]
          refine ⟨Conn.grow c0, o, by simp, ?_, ?_, b4, b5⟩
          · unfold Conn.grow Conn.maxBulk
            split
            · exact Props.UpP.held_slack _ b2
            · exact b2
          · unfold Conn.grow Conn.maxBulk roomAfter
            rw [← b3]
            split <;> simp
        · simp only [Ref.Host.plug, if_neg hx]
          exact same_other (w := w) (by simp [hx]) rfl rfl (h.line x)
      | data d =>
        simp only [Option.bind_eq_some_iff] at hs
        obtain ⟨⟨cmds, c'⟩, k1, w1, k2, k3⟩ := hs
        have hrd := read_held b2 hr
        rw [k1, b3] at hrd
        have hff : ∀ args, verdict (roomAfter l.room d.length) (l.inbox ++ d) = .run args → args ≠ [] → Ref.Fine H.state (.request fd e args) :=
          fun args hv hne => hf l args hlf hv hne
        simp only
        revert hrd hff
        generalize verdict (roomAfter l.room d.length) (l.inbox ++ d) = v
        intro hrd hff
        cases hrd with
        | close =>
          cases k2; cases k3
          exact ⟨_, rfl, drop_ok h⟩
        | wait c1 h1 h2 =>
          cases k2; cases k3
          refine ⟨_, rfl, h.reach, h.size, h.pass, h.sok, h.net, h.state, fun x => ?_⟩
          by_cases hx : x = fd
          · subst hx
            simp only [Ref.Host.plug, if_true]
            exact ⟨c1, o, by simp, h1, h2, b4, b5⟩
          · simp only [Ref.Host.plug, if_neg hx]
            exact same_other (w := w) (by simp [hx]) rfl rfl (h.line x)
        | run args =>
          by_cases ha : args = []
          · subst ha
            simp only [if_true] at k2 ⊢
            cases k2; cases k3
            refine ⟨_, rfl, h.reach, h.size, h.pass, h.sok, h.net, h.state, fun x => ?_⟩
            by_cases hx : x = fd
            · subst hx
              simp only [Ref.Host.plug, if_true]
              exact ⟨{}, o, by simp, .fresh _, rfl, b4, b5⟩
            · simp only [Ref.Host.plug, if_neg hx]
              exact same_other (w := w) (by simp [hx]) rfl rfl (h.line x)
          · simp only [if_neg ha] at k2 ⊢
            simp only [exec, Option.bind_eq_bind, Option.bind_eq_some_iff] at k2
            obtain ⟨⟨sys, r⟩, j1, net, j2, j3⟩ := k2
            cases j3; cases k3
            have hfr := hff args rfl ha
            rw [← h.state] at hfr
            obtain ⟨⟨v, m, t⟩, ok⟩ := sim_event h.reach.good (ev := .request fd e args) ho.1 h.sok j1 hfr
            obtain ⟨_, e1, _, e2, _⟩ := step_db h.reach.good (ev := .request fd e args) ho.1 j1
            rw [h.size, h.pass] at m
            have hne := Props.ReplyP.C30_nonempty h.reach ho.1 ho.2.1 j1
            obtain ⟨s1, s2, s3, s4⟩ := say_all r h.net hne j2
            obtain ⟨o', s5, s6⟩ := s4 o b4
            have hv : ∃ v', v = some v' := by
              cases v with
              | none =>
                exfalso
                unfold Ref.Moves at m
                simp only at m
                split at m
                · exact m
                · obtain ⟨_, _, m⟩ := m; cases m
              | some v' => exact ⟨v', rfl⟩
            obtain ⟨v', rfl⟩ := hv
            refine ⟨_, ⟨RefSim.state sys, v', by rw [← h.state]; exact m, rfl⟩, Reach.step h.reach (ev := .request fd e args) ho.1 j1, e2.trans h.size, e1.trans h.pass, ok, s1, rfl, fun x => ?_⟩
            by_cases hx : x = fd
            · subst hx
              simp only [if_true]
              refine ⟨{}, o', by simp, .fresh _, rfl, s5, ?_⟩
              simp only [s2, s6]
              rw [← List.append_assoc, b5]
              congr 1
            · simp only [if_neg hx]
              exact same_other (by simp [hx]) (s3 x hx) (by rw [s2]) (h.line x)

end Metis.HostSim
