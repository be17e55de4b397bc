import Verif.Spec.Whole
import Verif.Props.ExactKeeper
import Verif.Props.Up
/-! Helper lemmas: the whole process follows the exact reference with a disk behind sockets. -/
set_option linter.unusedSectionVars false
set_option linter.unusedSimpArgs false
set_option linter.unusedVariables false
namespace Metis.WholeSim
open Metis Metis.Spec Metis.Whole Metis.ExactKeep
open _root_.Metis.Conn (Held read_held Reads)
open _root_.Metis.Node (Calm)
open _root_.Metis.Props.ExactP (Undrawn)
variable {hash : Bytes → Nat} {lower : Bytes → Bytes} {pf : Bytes → Option F64} {T : Int} {N : Nat} {pw : Bytes}

/-- What the reference knows of a parser. -/
def Fits (c : Option Conn) : Option (Bytes × Nat) → Prop
  | none => c = none
  | some (x, room) => ∃ c0, c = some c0 ∧ Held c0 x ∧ c0.slack = room

structure WOk (hash : Bytes → Nat) (lower : Bytes → Bytes) (pf : Bytes → Option F64) (T : Int) (N : Nat) (pw : Bytes) (w : Whole) (P : Exact.Process) : Prop where
  keep : XKOk hash lower pf T N pw w.node P.keeper
  line : ∀ fd, Fits (w.conn fd) (P.inbox fd)
  peer : ∀ fd, (w.conn fd).isSome = (w.node.net.clients fd).isSome

/-- The events of `Node` in an event. -/
def inner (w : Whole) : Ev → List Node.Ev
  | .sleep t => [.sleep t]
  | .cron e t => [.cron e t]
  | .work i e p => [.work i e p]
  | .restart es => [.restart es]
  | .crashInDone m es => [.crashInDone m es]
  | .readable fd (.data d) e =>
    match w.conn fd with
    | none => []
    | some c =>
      match Conn.read c d with
      | some (cmds, _) => cmds.map (.request fd e)
      | none => []
  | _ => []

/-- Data were read if the read succeeded (otherwise it is the end of the stream). -/
def ReadOk : Ev → Prop
  | .readable _ (.data d) _ => d ≠ []
  | _ => True

def FloatsIn : Node.Ev → Prop
  | .request _ e _ => Floats e
  | _ => True

theorem WOk.boot {conf : Conf} : WOk hash lower pf T N pw (boot N pw true conf) .start := ⟨XKOk.boot, fun fd => rfl, fun fd => rfl⟩

theorem clients_out {n : Node} {B : Exact.Keeper} (h : XKOk hash lower pf T N pw n B) (fd : Nat) : (n.net.clients fd).isSome = (B.out fd).isSome := by
  rw [← h.out fd]; unfold KeepSim.said; simp

section
variable {w w' : Whole} {P : Exact.Process}

/-- The parser of one connection changes. -/
theorem WOk.plug (h : WOk hash lower pf T N pw w P) {node : Node} {B : Exact.Keeper} (k : XKOk hash lower pf T N pw node B) {fd : Nat} {c : Option Conn} {l : Option (Bytes × Nat)}
    (hf : Fits c l) (hp : c.isSome = (node.net.clients fd).isSome) (ho : ∀ x, x ≠ fd → (node.net.clients x).isSome = (w.node.net.clients x).isSome) :
    WOk hash lower pf T N pw (setConn { w with node } fd c) (P.plug fd l B) := by
  refine ⟨k, fun x => ?_, fun x => ?_⟩
  · simp only [setConn, Exact.Process.plug]
    split
    · exact hf
    · exact h.line x
  · simp only [setConn]
    split
    · next hx => subst hx; exact hp
    · next hx => exact (h.peer x).trans (ho x hx).symm

theorem drop_ok (hlow : LowerOk lower) (hN : N < 2 ^ 63) (hT0 : 0 ≤ T) (h : WOk hash lower pf T N pw w P) {fd : Nat} (hs : drop w fd = some w') :
    WOk hash lower pf T N pw w' (P.plug fd none (P.keeper.drop fd)) := by
  unfold drop at hs
  simp only [Option.bind_eq_bind, Option.bind_eq_some_iff] at hs
  obtain ⟨node, h1, h2⟩ := hs
  cases h2
  obtain ⟨B', m, k⟩ := keep_step hlow hN hT0 h.keep (ev := .close fd) trivial (fun _ _ _ h => by cases h) trivial h1
  have m : B' = _ := m
  subst m
  refine h.plug k rfl ?_ (fun x hx => ?_)
  · rw [clients_out k]; simp [Exact.Keeper.drop]
  · rw [clients_out k, clients_out h.keep]; simp [Exact.Keeper.drop, hx]

theorem whole_step (hlow : LowerOk lower) (hN : N < 2 ^ 63) (hT0 : 0 ≤ T) (h : WOk hash lower pf T N pw w P) {ev : Ev}
    (hc : ∀ v ∈ inner w ev, Calm hash lower pf T w.node v ∧ FloatsIn v ∧ Exact.Told v) (hr : ReadOk ev) (hs : step w ev = some w') :
    ∃ P', Exact.Works N pw P ev P' ∧ WOk hash lower pf T N pw w' P' := by
  have one : ∀ {v : Node.Ev} {node : Node}, Calm hash lower pf T w.node v ∧ FloatsIn v ∧ Exact.Told v → Node.step w.node v = some node →
      ∃ B', Exact.Lives N pw P.keeper v B' ∧ XKOk hash lower pf T N pw node B' := fun {v node} hv hst =>
    keep_step hlow hN hT0 h.keep hv.1 (fun fd e args he => by subst he; exact hv.2.1) hv.2.2 hst
  have flat : ∀ {node : Node} {B : Exact.Keeper}, XKOk hash lower pf T N pw node B → B.out = P.keeper.out → WOk hash lower pf T N pw { w with node } ⟨B, P.inbox⟩ :=
    fun {node B} k ho => ⟨k, h.line, fun fd => by rw [h.peer, clients_out h.keep]; show _ = (node.net.clients fd).isSome; rw [clients_out k, ho]⟩
  cases ev with
  | sleep t =>
    simp only [step, lift, Option.map_eq_some_iff] at hs
    obtain ⟨node, h1, rfl⟩ := hs
    obtain ⟨B, m, k⟩ := one (hc _ (by simp [inner])) h1
    exact ⟨⟨B, P.inbox⟩, ⟨m, rfl⟩, flat k (by have m : B = _ := m; rw [m])⟩
  | cron e t =>
    simp only [step, lift, Option.map_eq_some_iff] at hs
    obtain ⟨node, h1, rfl⟩ := hs
    obtain ⟨B, m, k⟩ := one (hc _ (by simp [inner])) h1
    exact ⟨⟨B, P.inbox⟩, ⟨m, rfl⟩, flat k m.2.1⟩
  | noCron =>
    simp only [step, lift, Option.map_eq_some_iff] at hs
    obtain ⟨node, h1, rfl⟩ := hs
    obtain ⟨B, m, k⟩ := one (v := .noCron) ⟨trivial, trivial, trivial⟩ h1
    have m : B = _ := m
    subst m
    exact ⟨P, rfl, flat k rfl⟩
  | turn =>
    simp only [step, lift, Option.map_eq_some_iff] at hs
    obtain ⟨node, h1, rfl⟩ := hs
    obtain ⟨B, m, k⟩ := one (v := .turn) ⟨trivial, trivial, trivial⟩ h1
    have m : B = _ := m
    subst m
    exact ⟨P, rfl, flat k rfl⟩
  | work i e p =>
    simp only [step, lift, Option.map_eq_some_iff] at hs
    obtain ⟨node, h1, rfl⟩ := hs
    obtain ⟨B, m, k⟩ := one (hc _ (by simp [inner])) h1
    have m : B = _ := m
    subst m
    exact ⟨P, rfl, flat k rfl⟩
  | restart es =>
    simp only [step, Option.map_eq_some_iff] at hs
    obtain ⟨node, h1, rfl⟩ := hs
    obtain ⟨B, m, k⟩ := one (hc _ (by simp [inner])) h1
    have m : B = _ := m
    subst m
    exact ⟨_, rfl, k, fun fd => rfl, fun fd => by show _ = (node.net.clients fd).isSome; rw [clients_out k]; rfl⟩
  | crashInDone m es =>
    have hf := (hc (.crashInDone m es) (by simp [inner])).1
    exact hf.elim
  | accept fd =>
    simp only [step, lift, Option.map_eq_some_iff] at hs
    obtain ⟨_, ⟨node, h1, rfl⟩, rfl⟩ := hs
    obtain ⟨B, m, k⟩ := one (v := .accept fd) ⟨trivial, trivial, trivial⟩ h1
    refine ⟨_, ⟨B, m, rfl⟩, ?_⟩
    have m : B = _ := m
    subst m
    refine h.plug k ⟨Conn.new, rfl, .fresh _, rfl⟩ ?_ (fun x hx => ?_)
    · rw [clients_out k]; simp
    · rw [clients_out k, clients_out h.keep]; simp [hx]
  | writable fd rs =>
    simp only [step, lift, Option.map_eq_some_iff] at hs
    obtain ⟨_, ⟨node, h1, rfl⟩, rfl⟩ := hs
    obtain ⟨B, m, k⟩ := one (v := .writable fd rs) ⟨trivial, trivial, trivial⟩ h1
    have hcl : (w.node.net.clients fd).isSome = true := by
      simp only [Node.step] at h1
      split at h1
      swap; · cases h1
      split at h1
      swap; · cases h1
      simp only [Option.bind_eq_bind, Option.bind_eq_some_iff] at h1
      obtain ⟨net, h2, _⟩ := h1
      have h2 : Net.writable w.node.net fd rs = some net := h2
      obtain ⟨o, _, a1, _⟩ := Net.writable_ok h.keep.net h2
      rw [a1]; rfl
    rcases m with rfl | ⟨hf, rfl⟩
    · refine ⟨P, Or.inl rfl, ?_⟩
      rw [if_pos (by show (node.net.clients fd).isSome = true; rw [clients_out k, ← clients_out h.keep]; exact hcl)]
      exact flat k rfl
    · refine ⟨_, Or.inr ⟨hf, rfl⟩, ?_⟩
      have hn : (node.net.clients fd).isSome = false := by rw [clients_out k]; simp [Exact.Keeper.drop]
      rw [if_neg (by show ¬ (node.net.clients fd).isSome = true; rw [hn]; simp)]
      refine h.plug k rfl hn.symm (fun x hx => ?_)
      rw [clients_out k, clients_out h.keep]; simp [Exact.Keeper.drop, hx]
  | readable fd g e =>
    simp only [step, readable, Option.bind_eq_bind, Option.bind_eq_some_iff] at hs
    obtain ⟨c, hcn, hs⟩ := hs
    have hcn : w.conn fd = some c := by
      unfold parser at hcn
      split at hcn
      · exact hcn
      · cases hcn
    have hcl : (w.node.net.clients fd).isSome = true := by rw [← h.peer, hcn]; rfl
    have hl := h.line fd
    rw [hcn] at hl
    cases hin : P.inbox fd with
    | none => rw [hin] at hl; cases hl
    | some l =>
      obtain ⟨x, room⟩ := l
      rw [hin] at hl
      obtain ⟨c0, e1, b2, b3⟩ := hl
      cases e1
      unfold Exact.Works
      simp only [hin]
      cases g with
      | eof => exact ⟨_, rfl, drop_ok hlow hN hT0 h hs⟩
      | nothing =>
        cases hs
        refine ⟨_, rfl, h.plug h.keep ⟨Conn.grow c, rfl, ?_, ?_⟩ hcl.symm (fun x _ => rfl)⟩
        · unfold Conn.grow Conn.maxBulk
          split
          · exact Props.UpP.held_slack _ b2
          · exact b2
        · unfold Conn.grow Conn.maxBulk roomAfter
          rw [← b3]
          split <;> simp
      | data d =>
        have hrr := read_held b2 (d := d) hr
        rw [b3] at hrr
        simp only [inner, hcn] at hc
        simp only [Option.bind_eq_bind] at hs ⊢
        revert hrr hs hc
        generalize verdict (roomAfter room d.length) (x ++ d) = v
        generalize Conn.read c d = y
        intro hs hrr hc
        cases hrr with
        | crash => cases hs
        | close =>
          simp only [Option.bind_some, exec] at hs
          exact ⟨_, rfl, drop_ok hlow hN hT0 h hs⟩
        | wait c1 q1 q2 =>
          simp only [Option.bind_some, exec] at hs
          cases hs
          exact ⟨_, rfl, h.plug h.keep ⟨c1, rfl, q1, q2⟩ hcl.symm (fun x _ => rfl)⟩
        | run args =>
          by_cases ha : args = []
          · subst ha
            simp only [if_true, Option.bind_some, exec] at hs
            cases hs
            exact ⟨_, rfl, h.plug h.keep ⟨{}, rfl, .fresh _, rfl⟩ hcl.symm (fun x _ => rfl)⟩
          · simp only [if_neg ha, Option.bind_some, exec, Option.bind_eq_bind, Option.bind_eq_some_iff] at hs
            obtain ⟨_, ⟨node, h1, hq⟩, hs⟩ := hs
            cases hq; cases hs
            obtain ⟨B, m, k⟩ := one (hc (.request fd e args) (by simp [ha])) h1
            simp only [if_neg ha]
            refine ⟨_, ⟨B, m, rfl⟩, ?_⟩
            obtain ⟨R, v, _, rfl⟩ := m
            refine h.plug k ⟨{}, rfl, .fresh _, rfl⟩ ?_ (fun x hx => ?_)
            · rw [clients_out k]
              rw [clients_out h.keep] at hcl
              simp only [if_true, Option.isSome_map, hcl]; rfl
            · rw [clients_out k, clients_out h.keep]; simp [hx]

end

end Metis.WholeSim
