import Verif.Proofs.Chunks
import Verif.Spec.Demo
/-!
Property C106: loading the log through reads of the file that fail or return fewer bytes than there is room for.
-/
set_option linter.unusedVariables false
namespace Metis.Props.ChunksP
open Metis Spec Metis.Chunks
open _root_.Metis.Aof (readerSize)

/-- The full claim of C106: if a read fails the server does not start, and otherwise it executes the commands of the log, in whatever portions the
reads deliver it. -/
def C106 : Prop := (∀ src, Find.error ∈ src → ∀ es srv, load readerSize es src srv = none) ∧
  ∀ src recs, Find.error ∉ src → Records recs → src.bytes = log recs → parse readerSize src = some recs

/-- **C106, first half**: a server whose log cannot be read to its end never starts, wherever the failing read is, and whatever is before it. -/
theorem C106_fails {src : Src} (h : Find.error ∈ src) (es : Nat → Env) (srv : Server) : load readerSize es src srv = none := by
  simp only [load, parse_error (cap := readerSize) (by decide) h, Option.bind_eq_bind, Option.bind_none]

/-- The portions in which `v` is found if it is cut after `n` bytes. -/
def portions (n : Nat) (v : Bytes) : Src := whole (v.take n) ++ whole (v.drop n)

/-- One SET; the value contains what looks like a record. -/
def setIt : List Bytes := [b!"set", b!"k", b!"x\r\n*2\r\n$3\r\ndel\r\n$1\r\nk"]

theorem setIt_records : Records [setIt] := by
  intro r hr
  rw [List.mem_singleton] at hr
  subst hr
  exact ⟨by decide, by decide, by decide⟩

/-- If a read ends inside of the value, what follows in the value is executed, although no client ever sent it. -/
theorem C106_injection : parse readerSize (portions 27 (log [setIt])) = none ∧
    parse readerSize (portions 26 (log [setIt])) = some [[b!"set", b!"k", 120 :: List.replicate 20 0], [b!"del", b!"k"]] := by
  decide +kernel

/-- **C106 is false**: a read that returns fewer bytes than asked for changes what is executed. -/
theorem C106_refuted : ¬ C106 := by
  rintro ⟨-, h⟩
  have := h (portions 26 (log [setIt])) [setIt] (by decide +kernel) setIt_records (by decide +kernel)
  rw [C106_injection.2] at this
  exact absurd this (by decide +kernel)

/-- **C106, exactly**: a log that is read without failure is executed as it is if and only if the reads cut no data: every time data are wanted they are in
the buffer, or the buffer is empty and one read finds them all (`pass`, `Spec/Chunks.lean`). -/
theorem C106_exact_partial {src : Src} {recs : List (List Bytes)} (he : Find.error ∉ src) (hr : Records recs) (hb : src.bytes = log recs) :
    parse readerSize src = some recs ↔ pass 65536 0 (lengths src) (recs.flatMap pieces) ≠ none := parse_exact (by decide) hr he hb

/-- What is executed then. -/
theorem C106_partial {src : Src} {recs : List (List Bytes)} (hr : Records recs) (h : Delivered src recs) (es : Nat → Env) (srv : Server) :
    load readerSize es src srv = (Aof.replay es recs srv Session.new).map (fun p => p.1) := by
  simp only [load, (C106_exact_partial h.1 hr h.2.1).2 h.2.2, Option.bind_eq_bind, Option.bind_some]
  cases Aof.replay es recs srv Session.new <;> rfl

/-- Reads that return all there is room for: the loader of C45. -/
theorem C106_whole (es : Nat → Env) (file : Bytes) (srv : Server) : load readerSize es (whole file) srv = Aof.load readerSize es file srv := by
  simp only [load, Aof.load, parse_whole]

/-- Reads that end inside a line and between records cut nothing; a read that ends inside of data does. -/
example : Delivered (portions 2 (log [setIt]) ++ portions 5 (log [setIt])) [setIt, setIt] := by
  refine ⟨by decide +kernel, by decide +kernel, by decide +kernel⟩
example : ¬ Delivered (portions 26 (log [setIt])) [setIt] := fun h => absurd h.2.2 (by decide +kernel)
example : Find.error ∈ portions 26 (log [setIt]) ++ [.error] := by decide +kernel

end Metis.Props.ChunksP
