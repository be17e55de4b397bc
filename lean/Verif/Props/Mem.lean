import Verif.Proofs.Mem
import Verif.Props.Resp
/-! Property C76: the strings a command gets are windows into buffers that are written to again and again, and nobody ever notices. -/
set_option linter.unusedVariables false
namespace Metis.Props.MemP
open Metis.Spec
open _root_.Metis.Heap (World Event View str run init vrun values received_from executed_for)

/-- **C76**, strings are values: whatever all clients send afterwards, in any fragments, with any capacities chosen by the runtime, and
whichever connections open and close: a string handed to a command reads the same ever after. -/
theorem C76_strings_never_change (evs evs' : List Event) (w w' : World) (out out' : List (List (List View))) (h : run init evs = some (w, out)) (h' : run w evs' = some (w', out')) :
    ∀ cmds ∈ out, ∀ args ∈ cmds, ∀ v ∈ args, str w'.mem v = str w.mem v := by
  intro cmds hc args ha v hv
  have hi := ((Heap.run_ok evs init _ Heap.Inv.init).2 w out h).1
  exact ((Heap.run_ok evs' w _ hi).2 w' out' h').2 v (hi.kept v (Or.inr ⟨cmds, hc, args, ha, hv⟩))

/-- The parser over memory is the parser over values, one for each client and nothing shared: the same commands, the same connections
left open, and a crash in the same histories. The strings are read at the end of the history. -/
theorem C76_memory_is_unobservable (evs : List Event) :
    (run init evs).map (fun r => (values r.1, r.2.map (·.map (·.map (str r.1.mem))))) = vrun (fun _ => none) evs :=
  (Heap.run_ok evs init _ Heap.Inv.init).1

/-- Two clients: the request of the first arrives in two reads with the request of the second between them. -/
def scene : List Event :=
  [.connect 5, .connect 6, .read 5 [] b!"*2\r\n$3\r\nGET\r\n$1", .read 6 [1, 2, 3] b!"*1\r\n$4\r\nPING\r\n", .again 5 [7], .read 5 [] b!"\r\nk\r\n",
    .read 5 [] b!"*1\r\n$4\r\nquit\r\n"]

/-- Non-vacuity: the scene is a history without a crash, and these are its commands. -/
theorem scene_runs : ∃ w out, run init scene = some (w, out) ∧
    out.map (·.map (·.map (str w.mem))) = [[], [], [], [[b!"PING"]], [], [[b!"GET", b!"k"]], [[b!"quit"]]] := by
  have h := C76_memory_is_unobservable scene
  have hv : (vrun (fun _ => none) scene).map (·.2) = some [[], [], [], [[b!"PING"]], [], [[b!"GET", b!"k"]], [[b!"quit"]]] := by decide
  rw [← h] at hv
  cases hr : run init scene with
  | none => rw [hr] at hv; cases hv
  | some r =>
    obtain ⟨w, out⟩ := r
    rw [hr] at hv
    simp only [Option.map_some, Option.some.injEq] at hv
    exact ⟨w, out, rfl, hv⟩

/-- Non-vacuity: after the first event client 5 is as `C76_requests` wants it, and the rest of the scene keeps its connection and
brings its two requests, the first in two fragments. -/
example : (vrun (fun _ => none) (scene.take 1)).map (fun r => r.1 5) = some (some { slack := 4096 }) ∧ (∀ ev ∈ scene.drop 1, ev.keeps 5) ∧
    received_from 5 (scene.drop 1) = [[b!"*2\r\n$3\r\nGET\r\n$1", b!"\r\nk\r\n"], [b!"*1\r\n$4\r\nquit\r\n"]].flatten ∧
    [b!"*2\r\n$3\r\nGET\r\n$1", b!"\r\nk\r\n"].flatten = request [b!"GET", b!"k"] ∧ b!"*1\r\n$4\r\nquit\r\n" = request [b!"quit"] := by
  refine ⟨by decide, ?_, by decide, by decide, by decide⟩
  intro ev hev
  simp only [scene, List.drop_succ_cons, List.drop_zero, List.mem_cons, List.not_mem_nil, or_false] at hev
  rcases hev with rfl | rfl | rfl | rfl | rfl | rfl <;> simp [Event.keeps]

/-- What is executed for a client depends on what this client sent, and on nothing else. -/
theorem C76_client (evs evs' : List Event) (w w' : World) (out out' : List (List (List View))) (h : run init evs = some (w, out)) (h' : run w evs' = some (w', out'))
    (fd : Nat) (c : Conn) (hc : values w fd = some c) (hk : ∀ ev ∈ evs', ev.keeps fd) :
    ∃ r, Conn.reads c (received_from fd evs') = some ((executed_for fd evs' out').map (·.map (str w'.mem)), r) ∧ (r = none ↔ values w' fd = none) := by
  have hi := ((Heap.run_ok evs init _ Heap.Inv.init).2 w out h).1
  have hv := (Heap.run_ok evs' w _ hi).1
  rw [h'] at hv
  obtain ⟨r, h1, h2⟩ := Heap.vrun_client evs' _ _ _ c c hv.symm hc rfl hk
  rw [Heap.executed_for_map] at h1
  refine ⟨r, h1, ?_⟩
  cases r <;> cases hw : values w' fd <;> simp [hw] at h2 ⊢

/-- End to end: a client that sends requests one after the other, in fragments that do not cut before or inside the line end after an
argument, has all of them executed in order, whatever the other clients do in between; and the arguments are still what it sent when
they are read at any later time. -/
theorem C76_requests (evs evs' later : List Event) (w w' w'' : World) (out out' out'' : List (List (List View))) (h : run init evs = some (w, out))
    (h' : run w evs' = some (w', out')) (h'' : run w' later = some (w'', out'')) (fd s : Nat) (hc : values w fd = some { slack := s }) (hk : ∀ ev ∈ evs', ev.keeps fd)
    (reqs : List (List Bytes × List Bytes))
    (hr : ∀ p ∈ reqs, RespP.Req p.1 ∧ p.2 ≠ [] ∧ (∀ d ∈ p.2, d ≠ []) ∧ p.2.flatten = request p.1 ∧ ∀ i, 0 < i → i < p.2.length → ¬ BadCut p.1 (p.2.take i).flatten)
    (hs : received_from fd evs' = (reqs.map (·.2)).flatten) :
    (executed_for fd evs' out').map (·.map (str w''.mem)) = reqs.map (·.1) := by
  obtain ⟨r, h1, _⟩ := C76_client evs evs' w w' out out' h h' fd _ hc hk
  obtain ⟨c, h2, _⟩ := RespP.C28_sequence_partial reqs hr s
  rw [hs, h2] at h1
  have h3 : (executed_for fd evs' out').map (·.map (str w'.mem)) = reqs.map (·.1) := by
    simp only [Option.some.injEq, Prod.mk.injEq] at h1
    exact h1.1.symm
  rw [← h3]
  have hi := ((Heap.run_ok evs init _ Heap.Inv.init).2 w out h).1
  have hi' := ((Heap.run_ok evs' w _ hi).2 w' out' h').1
  have hk'' := ((Heap.run_ok later w' _ hi').2 w'' out'' h'').2
  apply List.map_congr_left
  intro args ha
  apply List.map_congr_left
  intro v hv
  have : ∃ cmds ∈ out', args ∈ cmds := by
    clear hs h2 h1 h3 hk''
    have : ∀ (evs : List Event) (o : List (List (List View))), args ∈ executed_for fd evs o → ∃ cmds ∈ o, args ∈ cmds := by
      intro evs
      induction evs with
      | nil => intro o h; cases o <;> cases h
      | cons ev evs ih =>
        intro o h
        cases o with
        | nil => cases h
        | cons x o =>
          simp only [executed_for] at h
          split at h
          · rcases List.mem_append.1 h with h | h
            · exact ⟨x, by simp, h⟩
            · obtain ⟨y, hy, hh⟩ := ih o h; exact ⟨y, by simp [hy], hh⟩
          · obtain ⟨y, hy, hh⟩ := ih o h; exact ⟨y, by simp [hy], hh⟩
    exact this _ _ ha
  obtain ⟨cmds, hcm, ham⟩ := this
  exact hk'' v (hi'.kept v (Or.inr ⟨cmds, hcm, args, ham, hv⟩))

end Metis.Props.MemP
