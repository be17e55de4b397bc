import Verif.Proofs.Saved
import Verif.Proofs.Levels
/-!
The sessions of a server stay in range; a copy of a database cannot be told from it.
-/
set_option linter.unusedSectionVars false
set_option linter.unusedSimpArgs false
set_option linter.unusedVariables false
namespace Metis
open Spec
variable {hash : Bytes → Nat} {lower : Bytes → Bytes} {pf : Bytes → Option F64} {T : Int} {N : Nat}

theorem vlike_of {o o' : Option AObj} (h : VSame o o') : VLike o o' := by
  cases o with
  | none => cases o' with
    | none => exact vlike_none.2 rfl
    | some _ => exact h.elim
  | some a => cases o' with
    | none => exact h.elim
    | some b =>
      cases (show OSame a b from h) with
      | zset hz => exact vlike_zset hz
      | _ => exact ⟨rfl, fun z h => by cases h⟩

namespace Node

theorem sync_sys (t : Int) (n : Node) : (sync t n).sys = n.sys := by
  unfold sync
  repeat' split
  all_goals rfl

theorem cron_sess {e : Env} {t : Int} {n n' : Node} (h : cron e t n = some n') : n'.sys.sess = n.sys.sess := by
  obtain ⟨dbs, n2, h1, h2, h3⟩ := cron_spec h
  have hs : n2.sys.sess = n.sys.sess := by
    split at h2
    · obtain ⟨srv, q1, q2⟩ := h2
      rcases launch_spec q2 with ⟨_, rfl⟩ | ⟨_, _, _, _, rfl⟩ <;> rfl
    · subst h2; rfl
  rcases h3 with ⟨_, rfl⟩ | ⟨tmp, rest, _, rfl⟩
  · exact hs
  · unfold finish; rw [sync_sys]; exact hs

/-- The sessions stay in range. -/
theorem step_good {n n' : Node} {ev : Ev} (g : SysGood hash n.sys) (g' : SrvGood hash n'.sys.srv) (hl : n'.sys.srv.dbs.length = n.sys.srv.dbs.length)
    (he : ∀ fd e args, ev = .request fd e args → e.hash = hash) (h : step n ev = some n') : SysGood hash n'.sys := by
  refine ⟨g', ?_⟩
  have keep : n'.sys.sess = n.sys.sess → ∀ fd c, n'.sys.sess fd = some c → c.db < n'.sys.srv.dbs.length := by
    intro hs fd c hc
    rw [hl]; rw [hs] at hc; exact g.sess fd c hc
  have fresh : (∀ fd, n'.sys.sess fd = none) → ∀ fd c, n'.sys.sess fd = some c → c.db < n'.sys.srv.dbs.length := by
    intro hs fd c hc
    rw [hs] at hc; cases hc
  have again : ∀ {es n0}, restart es n0 = some n' → ∀ fd, n'.sys.sess fd = none := by
    intro es n0 h fd
    obtain ⟨srv, _, _, _, h2, _⟩ := restart_spec h
    rcases launch_spec h2 with ⟨_, rfl⟩ | ⟨_, _, _, _, rfl⟩ <;> rfl
  cases ev with
  | sleep t =>
    simp only [step] at h
    split at h
    · cases h; refine keep ?_; simp only; rw [(flush_same t n).2.2.2.2.2.2.2.1]
    · cases h
  | cron e t =>
    simp only [step] at h
    split at h
    · simp only [Option.map_eq_some_iff] at h
      obtain ⟨n1, h1, rfl⟩ := h
      exact keep (show n1.sys.sess = n.sys.sess from cron_sess h1)
    · cases h
  | noCron =>
    simp only [step] at h
    split at h
    · cases h; exact keep rfl
    · cases h
  | accept fd =>
    simp only [step] at h
    split at h
    · simp only [Option.bind_eq_bind, Option.bind_eq_some_iff] at h
      obtain ⟨net, _, ⟨sys, r⟩, h2, h3⟩ := h
      cases h3
      exact (step_db g (show EvOk hash (.connect fd) from trivial) h2).1.sess
    · cases h
  | close fd =>
    simp only [step] at h
    split at h
    · simp only [Option.bind_eq_bind, Option.bind_eq_some_iff] at h
      obtain ⟨net, _, ⟨sys, r⟩, h2, h3⟩ := h
      cases h3
      exact (step_db g (show EvOk hash (.close fd) from trivial) h2).1.sess
    · cases h
  | request fd e args =>
    simp only [step] at h
    split at h
    · unfold request at h
      simp only [Option.bind_eq_bind, Option.bind_eq_some_iff] at h
      obtain ⟨⟨sys, r⟩, h1, net, h2, h3⟩ := h
      have := (step_db g (show EvOk hash (.request fd e args) from he _ _ _ rfl) h1).1.sess
      rcases launch_spec h3 with ⟨_, rfl⟩ | ⟨_, _, _, _, rfl⟩ <;> exact this
    · cases h
  | writable fd rs =>
    simp only [step] at h
    split at h
    · split at h
      · simp only [Option.bind_eq_bind, Option.bind_eq_some_iff] at h
        obtain ⟨net, _, h3⟩ := h
        cases h3
        intro x c hc
        simp only at hc ⊢
        split at hc
        · exact g.sess x c hc
        · simp only at hc
          split at hc
          · cases hc
          · exact g.sess x c hc
      · cases h
    · cases h
  | turn =>
    simp only [step] at h
    split at h
    · cases h; exact keep rfl
    · cases h
  | work i e p =>
    simp only [step] at h
    obtain ⟨j, _, h⟩ := work_spec h
    rcases h with ⟨_, _, _, _, _, rfl⟩ | ⟨_, _, _, rfl⟩ | ⟨_, _, _, _, _, _, rfl⟩ <;> exact keep rfl
  | restart es => exact fresh (again h)
  | crashInDone m es =>
    simp only [step] at h
    split at h
    · exact fresh (again h)
    · cases h

end Node
end Metis
