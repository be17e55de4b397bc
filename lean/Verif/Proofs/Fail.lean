import Verif.Model.Fail
import Verif.Proofs.Torn
import Verif.Proofs.Proc
/-!
Lemmas on failures of the log: prefixes of a log, and the file between two flushes.
-/
set_option linter.unusedSectionVars false
set_option linter.unusedSimpArgs false
set_option linter.unusedVariables false
namespace Metis
open Metis.Spec

namespace Aof

/-- A proper prefix of a log ends inside a record, or between two. -/
theorem prefix_split : ∀ (recs : List (List Bytes)) {a b : Bytes}, log recs = a ++ b → b ≠ [] →
    ∃ done r rest t u, recs = done ++ r :: rest ∧ request r = t ++ u ∧ u ≠ [] ∧ a = log done ++ t
  | [], a, b, h, hb => by
    have h : [] = a ++ b := h
    simp at h
    exact absurd h.2 hb
  | r :: recs, a, b, h, hb => by
    have h : request r ++ log recs = a ++ b := by simpa [log] using h
    have whole : ∀ w, a = request r ++ w → log recs = w ++ b →
        ∃ done r' rest t u, r :: recs = done ++ r' :: rest ∧ request r' = t ++ u ∧ u ≠ [] ∧ a = log done ++ t := by
      intro w h1 h2
      obtain ⟨done, r', rest, t, u, g1, g2, g3, g4⟩ := prefix_split recs h2 hb
      exact ⟨r :: done, r', rest, t, u, by rw [g1]; rfl, g2, g3, by rw [h1, g4]; simp [log]⟩
    rcases List.append_eq_append_iff.1 h with ⟨w, h1, h2⟩ | ⟨w, h1, h2⟩
    · exact whole w h1 h2
    · by_cases hw : w = []
      · subst hw
        exact whole [] (by simpa using h1.symm) (by simpa using h2.symm)
      · exact ⟨[], r, recs, a, w, rfl, h1, hw, rfl⟩

theorem whole_prefix {a b : List (List Bytes)} (h : Whole (a ++ b)) : Whole a := by
  intro h0
  refine h ?_
  rw [List.flatMap_append, window_append, h0]
  rfl

/-- A log with a line behind it that is not finished. -/
theorem parse_header {recs : List (List Bytes)} (hr : Records recs) (hl : Whole recs) {t : Bytes} (ht : (10 : UInt8) ∉ t) :
    parse readerSize (log recs ++ t) = some recs := by
  obtain ⟨m', hm⟩ := Option.ne_none_iff_exists'.1 hl
  have hk : (log recs ++ t).length + 1 = ((log recs ++ t).length + 1 - recs.length) + recs.length := by
    have := records_length recs
    have e : (recs.map request).flatten.length = (log recs).length := rfl
    rw [List.length_append]; omega
  have := records_tail (cap := readerSize) (by decide) t recs (m := 0) (k := (log recs ++ t).length + 1 - recs.length) (by decide) hr hm
  rw [← hk, records_end (by decide) ht] at this
  have e2 : parse readerSize (log recs ++ t) = records readerSize ((log recs ++ t).length + 1) (at_ ((recs.map request).flatten ++ t) 0) := by
    simp [parse, at_, log]
  rw [e2, this]
  simp

end Aof

namespace Node

/-- Neither a flush, nor the timer, nor a restart. -/
def Ev.serving : Ev → Bool
  | .sleep _ | .cron _ _ | .restart _ | .crashInDone _ _ => false
  | _ => true

/-- Between two flushes, apart from the timer, the file stays and the buffer grows. -/
theorem step_serving {n n' : Node} {ev : Ev} (h : step n ev = some n') (hs : ev.serving = true) :
    n'.file = n.file ∧ n.sys.srv.aofBuf <+: n'.sys.srv.aofBuf := by
  cases step_is h with
  | quiet _ => exact ⟨rfl, List.prefix_refl _⟩
  | sleep _ => cases hs
  | cron _ _ => cases hs
  | request _ h =>
    obtain ⟨q1, _, _, _, _, _, _, _, _, x, q10⟩ := request_files h
    exact ⟨q1, ⟨x, q10.symm⟩⟩
  | work h =>
    obtain ⟨w1, _, _, _, _, _, _, w8, _⟩ := work_files h
    exact ⟨w1, by rw [w8]; exact List.prefix_refl _⟩
  | restart _ => cases hs
  | crash _ _ _ => cases hs

theorem run_serving : ∀ {evs : List Ev} {n n' : Node}, run n evs = some n' → (∀ ev ∈ evs, ev.serving = true) →
    n'.file = n.file ∧ n.sys.srv.aofBuf <+: n'.sys.srv.aofBuf
  | [], n, n', h, _ => by cases h; exact ⟨rfl, List.prefix_refl _⟩
  | ev :: evs, n, n', h, hs => by
    simp only [run, Option.bind_eq_bind, Option.bind_eq_some_iff] at h
    obtain ⟨n1, h1, h2⟩ := h
    obtain ⟨a, b⟩ := step_serving h1 (hs ev (by simp))
    obtain ⟨c, d⟩ := run_serving h2 (fun ev hm => hs ev (by simp [hm]))
    exact ⟨c.trans a, b.trans d⟩

end Node
end Metis
