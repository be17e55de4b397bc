import Verif.Proofs.Twice
import Verif.Props.Node
import Verif.Props.AofLoad
/-!
Property C114: what becomes of a log that ends inside a record when the server that has loaded it goes on writing.
-/
set_option linter.unusedSectionVars false
set_option linter.unusedSimpArgs false
set_option linter.unusedVariables false
set_option synthInstance.maxSize 2000
set_option synthInstance.maxHeartbeats 200000
namespace Metis.Props.TwiceP
open Metis Metis.Spec Metis.Node
open _root_.Metis.Aof (parse readerSize parse_joined)
open _root_.Metis.Props.NodeP (turn ask conf0)
variable {n n0 n' : Node} {es : Nat → Env} {evs : List Ev}

/-- The full claim of C114: a process that has been started with a log leaves, whatever happens to it (but for a kill while a rewritten file is completed), a log that can be read. -/
def C114 : Prop := ∀ (n n0 n' : Node) (es : Nat → Env) (evs : List Ev), n.sys.srv.aofEnable = true → step n (.restart es) = some n0 →
  (∀ m es, .crashInDone m es ∉ evs) → run n0 evs = some n' → parse readerSize n'.file ≠ none

/-- Started with a file that ends inside a record `r` (after the part `t` of it) at a place where it can be loaded (C56), the process only ever appends whole
records to it, as long as no rewrite gets ready; and as soon as one is appended, no process can be started with the file. -/
theorem C114_torn_partial {recs : List (List Bytes)} {r : List Bytes} {t u : Bytes} (h : Records (recs ++ [r])) (hl : Whole (recs ++ [r])) (he : request r = t ++ u)
    (ht : t ≠ []) (hc : (10 : UInt8) ∉ t ∨ u = [10]) (ha : n.sys.srv.aofEnable = true) (hf : n.file = log recs ++ t) (hs : step n (.restart es) = some n0)
    (hr : run n0 evs = some n') (hk : ∀ m es, .crashInDone m es ∉ evs) (hd : ∀ k m, run n0 (evs.take k) = some m → m.done = []) :
    (∃ more, n'.file = log recs ++ t ++ log more) ∧
    (n'.file ≠ log recs ++ t → parse readerSize n'.file = none ∧ ∀ es', step n' (.restart es') = none) := by
  obtain ⟨k0, f0⟩ := restart_tidy (show restart es n = some n0 from hs) ha
  have kn : n'.sys.srv.aofEnable = true := (run_keeps_tidy evs hr hk k0).aof
  obtain ⟨x, ⟨more, rfl⟩, hx⟩ := (run_tidy (F := log recs ++ t) evs hr hk k0 (Or.inl ⟨[], IsLog.nil, by rw [f0, hf, List.append_nil]⟩)).2
    ⟨[], IsLog.nil, by rw [f0, hf, List.append_nil]⟩ hd
  refine ⟨⟨more, hx⟩, fun hne => ?_⟩
  have hm : more ≠ [] := by
    rintro rfl
    exact hne (by rw [hx]; simp [log])
  have hp : parse readerSize n'.file = none := by rw [hx]; exact parse_joined h hl he ht hc hm
  refine ⟨hp, fun es' => ?_⟩
  have he' : (Server.init n'.sys.srv.dbs.length n'.sys.srv.password n'.sys.srv.aofEnable).aofEnable = true := kn
  simp only [step, restart, he', if_true, Aof.load, hp, Option.bind_eq_bind, Option.bind_none]

/-- With rewrites: the file is what the process was started with and whole records behind it, or it has been replaced and consists of whole records. -/
theorem C114_either (ha : n.sys.srv.aofEnable = true) (hs : step n (.restart es) = some n0) (hr : run n0 evs = some n') (hk : ∀ m es, .crashInDone m es ∉ evs) :
    (∃ more, n'.file = n.file ++ log more) ∨ ∃ rs, n'.file = log rs := by
  obtain ⟨k0, f0⟩ := restart_tidy (show restart es n = some n0 from hs) ha
  rcases (run_tidy (F := n.file) evs hr hk k0 (Or.inl ⟨[], IsLog.nil, by rw [f0, List.append_nil]⟩)).1 with ⟨x, ⟨more, rfl⟩, hx⟩ | ⟨rs, hx⟩
  · exact Or.inl ⟨more, hx⟩
  · exact Or.inr ⟨rs, hx⟩

/-- A log that consists of whole records, at some moment after the start, stays so. -/
theorem C114_stays {evs' : List Ev} {n1 : Node} {rs : List (List Bytes)} (ha : n.sys.srv.aofEnable = true) (hs : step n (.restart es) = some n0)
    (hr : run n0 evs = some n1) (hk : ∀ m es, .crashInDone m es ∉ evs) (hw : n1.file = log rs) (hr' : run n1 evs' = some n')
    (hk' : ∀ m es, .crashInDone m es ∉ evs') : ∃ rs', n'.file = log rs' := by
  obtain ⟨k0, f0⟩ := restart_tidy (show restart es n = some n0 from hs) ha
  rcases (run_tidy (F := []) evs' hr' hk' (run_keeps_tidy evs hr hk k0) (Or.inr ⟨rs, hw⟩)).1 with ⟨x, ⟨more, rfl⟩, hx⟩ | hx
  · exact ⟨more, by simpa using hx⟩
  · exact hx

/-- A rewrite heals the log: the file of the process after the callback consists of whole records, whatever it was before. -/
theorem C114_healed {n1 : Node} {e : Env} {T : Int} (ha : n.sys.srv.aofEnable = true) (hs : step n (.restart es) = some n0) (hr : run n0 evs = some n1)
    (hk : ∀ m es, .crashInDone m es ∉ evs) (hd : n1.done ≠ []) (hc : step n1 (.cron e T) = some n') : ∃ rs, n'.file = log rs := by
  obtain ⟨k0, f0⟩ := restart_tidy (show restart es n = some n0 from hs) ha
  exact (cron_tidy hc (run_keeps_tidy evs hr hk k0)).2.2 hd

/-- A process whose file is a record and the first three bytes of another. -/
def torn : Node := { boot 1 [] true (conf0 .no) with file := log [[b!"set", b!"k", b!"v"]] ++ b!"*3\r" }

/-- One command and its flush. -/
def goesOn : List Ev := turn 0 [.accept 3, ask [b!"set", b!"a", b!"1"]] ++ [.sleep 1]

theorem goesOn_result : (step torn (.restart fun _ => demo 0)).bind (fun n0 => (run n0 goesOn).map fun n =>
    (n.file, parse readerSize n.file)) = some (log [[b!"set", b!"k", b!"v"]] ++ b!"*3\r" ++ log [[b!"set", b!"a", b!"1"]], none) := by decide

/-- **C114 is false.** -/
theorem C114_refuted : ¬ C114 := by
  intro h
  have hr := goesOn_result
  obtain ⟨n0, h0, hr⟩ := Option.bind_eq_some_iff.1 hr
  obtain ⟨n', h1, hr⟩ := Option.map_eq_some_iff.1 hr
  refine h torn n0 n' _ goesOn rfl h0 ?_ h1 (congrArg Prod.snd hr)
  intro m es hm
  simp [goesOn, turn, ask] at hm

/-- Without a command the file stays as it is, and can be loaded again. -/
example : (step torn (.restart fun _ => demo 0)).bind (fun n0 => (run n0 (turn 0 [.accept 3, ask [b!"get", b!"k"]] ++ [.sleep 1])).map fun n =>
    (n.file == torn.file, parse readerSize n.file)) = some (true, some [[b!"set", b!"k", b!"v"]]) := by decide

theorem torn_records : Records ([[b!"set", b!"k", b!"v"]] ++ [[b!"set", b!"a", b!"1"]]) := by
  intro x hx
  simp only [List.cons_append, List.nil_append, List.mem_cons, List.not_mem_nil, or_false] at hx
  rcases hx with rfl | rfl
  · exact ⟨by decide, by decide, by decide⟩
  · exact ⟨by decide, by decide, by decide⟩

/-- The theorem applied to it: no process can be started any more. -/
example : ∃ n', (step torn (.restart fun _ => demo 0)).bind (fun n0 => run n0 goesOn) = some n' ∧ ∀ es', step n' (.restart es') = none := by
  obtain ⟨n0, h0, hr⟩ := Option.bind_eq_some_iff.1 goesOn_result
  obtain ⟨n', h1, hr⟩ := Option.map_eq_some_iff.1 hr
  have hb : (step torn (.restart fun _ => demo 0)).bind (fun n0 => some ((List.range 7).all fun k => ((run n0 (goesOn.take k)).map fun m => m.done.isEmpty).getD true)) = some true := by decide
  rw [h0, Option.bind_some] at hb
  have hb := Option.some.inj hb
  refine ⟨n', by rw [h0]; exact h1, (C114_torn_partial (u := b!"\n$3\r\nset\r\n$1\r\na\r\n$1\r\n1\r\n") (t := b!"*3\r") torn_records (by unfold Whole; decide) (by decide) (by decide)
    (Or.inl (by decide)) rfl rfl h0 h1 (fun m es hm => by simp [goesOn, turn, ask] at hm) ?_).2 ?_ |>.2⟩
  · intro k m hm
    have key : ∀ k, k < 7 → ∀ m, run n0 (goesOn.take k) = some m → m.done = [] := by
      intro k hk m hm
      have := List.all_eq_true.1 hb k (List.mem_range.2 hk)
      rw [hm] at this
      simpa using this
    by_cases hk : k < 7
    · exact key k hk m hm
    · refine key 6 (by decide) m ?_
      rw [← hm, List.take_of_length_le (show goesOn.length ≤ k by show 6 ≤ k; omega)]
      rfl
  · have h2 : n'.file = _ := congrArg Prod.fst hr
    rw [h2]; decide

/-- A rewrite puts it right: the torn end is gone. -/
def heals : List Ev := turn 0 [.accept 3, ask [b!"set", b!"a", b!"1"], ask [b!"bgrewriteaof"]] ++ List.replicate 4 (.work 0 (demo 0) .whole)

example : (step torn (.restart fun _ => demo 0)).bind (fun n0 => (run n0 heals).map fun n => n.done.isEmpty) = some false := by decide
example : (step torn (.restart fun _ => demo 0)).bind (fun n0 => (run n0 (heals ++ [.sleep 1, .cron (demo 0) 1])).map fun n => (parse readerSize n.file).isSome) = some true := by decide

end Metis.Props.TwiceP
