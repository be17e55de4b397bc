import Verif.Proofs.Torn
import Verif.Spec.Demo
import Verif.Spec.Log
/-!
Properties C45 and C56: loading the log file. A log is a sequence of records, each the encoding (`Spec.request`) of a command; the
encoder of the server writes exactly this format (`C45_format`).
-/
set_option linter.unusedVariables false
namespace Metis.Props.AofLoadP
open Metis.Spec Metis.Aof

/-- The server's encoder writes the wire format, for every command. -/
theorem C45_format (args : List Bytes) : cat args = request args := cat_spec args

/-- The full claim of C45. -/
def C45 : Prop := ∀ recs, Records recs → parse readerSize (log recs) = some recs

/-- **C45, exactly**: a log of any length is read back, with exactly its commands in order and with exactly their arguments, whatever bytes these
contain, if and only if no data are cut by the end of a window of 65536 bytes (`Whole`, Spec/Log.lean). -/
theorem C45_exact_partial (recs : List (List Bytes)) (h : Records recs) : parse readerSize (log recs) = some recs ↔ Whole recs := parse_whole h

/-- **C45** for logs of any length that are not cut: loading executes exactly the logged commands. -/
theorem C45_partial (recs : List (List Bytes)) (h : Records recs) (hw : Whole recs) :
    ∀ es srv, load readerSize es (log recs) srv = (replay es recs srv Session.new).map (fun p => p.1) := by
  intro es srv
  simp only [load, (parse_whole h).2 hw, Option.bind_eq_bind, Option.bind_some]
  cases replay es recs srv Session.new <;> rfl

/-- A log of more than 65536 bytes that is not cut: the window ends inside the first line of the second record. -/
example : ∃ recs, Records recs ∧ Whole recs ∧ 65536 < (log recs).length := by
  refine ⟨[[b!"set", b!"k", List.replicate 65504 120], [b!"del", b!"k"]], ?_, ?_, ?_⟩
  · intro r hr
    simp only [List.mem_cons, List.not_mem_nil, or_false] at hr
    rcases hr with rfl | rfl
    · refine ⟨List.cons_ne_nil _ _, (by decide : 3 < 2 ^ 63), ?_⟩
      intro a ha
      simp only [List.mem_cons, List.not_mem_nil, or_false] at ha
      rcases ha with rfl | rfl | rfl
      · decide
      · decide
      · rw [List.length_replicate]; decide
    · exact ⟨by decide, by decide, by decide⟩
  · have e : [[b!"set", b!"k", List.replicate 65504 120], [b!"del", b!"k"]].flatMap pieces = [header 3, header 3, .data 3, .data 2, header 1, .data 1, .data 2,
        header 65504, .data 65504, .data 2, header 2, header 3, .data 3, .data 2, header 1, .data 1, .data 2] := by
      simp only [List.flatMap_cons, List.flatMap_nil, pieces, List.length_replicate, List.cons_append, List.nil_append, List.append_nil]
      rfl
    rw [Whole, e]
    decide
  · simp only [log, request, List.map_cons, List.map_nil, List.flatten_cons, List.flatten_nil, List.length_append, List.length_cons, Spec.bulk, List.length_replicate]
    decide

/-- **C45** for logs of at most 65536 bytes (the size of the reader's buffer): loading executes exactly the logged commands in order,
with exactly their arguments, whatever bytes these contain. -/
theorem C45_small_partial (recs : List (List Bytes)) (h : Records recs) (hl : (log recs).length ≤ 65536) :
    parse readerSize (log recs) = some recs ∧
    ∀ es srv, load readerSize es (log recs) srv = (replay es recs srv Session.new).map (fun p => p.1) := by
  have : parse readerSize (log recs) = some recs := by
    obtain ⟨k, _, e⟩ := parse_small (cap := readerSize) (by decide) (t := []) h (by rw [List.append_nil]; exact hl)
    rw [List.append_nil] at e
    rw [log, e, records_eof (by decide) rfl]
    simp
  refine ⟨this, fun es srv => ?_⟩
  simp only [load, this, Option.bind_eq_bind, Option.bind_some]
  cases replay es recs srv Session.new <;> rfl

example : Records [[b!"SET", b!"k\r\n", b!"*1\r\n$4\r\nPING\r\n"], [b!"sadd", b!"", b!"a"]] := by
  intro r hr
  simp only [List.mem_cons, List.not_mem_nil, or_false] at hr
  rcases hr with rfl | rfl <;> exact ⟨by decide, by decide, by decide⟩

example : parse readerSize (log [[b!"SET", b!"k\r\n", b!"*1\r\n"], [b!"sadd", b!"", b!"a"]]) = some [[b!"SET", b!"k\r\n", b!"*1\r\n"], [b!"sadd", b!"", b!"a"]] := by
  decide

/-- What happens otherwise: every client can hide a command in a value. There is a log that consists of one SET from which the loader executes the
hidden command, although no client ever sent it (and the value of the SET is not what was written). -/
theorem C45_injection (r : List Bytes) (h : Records [r]) (hs : (request r).length ≤ 30000) :
    ∃ v w, w ≠ v ∧ Records [[b!"set", b!"k", v]] ∧ parse readerSize (log [[b!"set", b!"k", v]]) = some [[b!"set", b!"k", w], r] := by
  have hr := h r (by simp)
  obtain ⟨t, ht⟩ : ∃ t, request r = t ++ CRLF := by
    rw [request_line]
    rcases List.eq_nil_or_concat r with rfl | ⟨q, a, rfl⟩
    · exact absurd rfl hr.1
    · refine ⟨line 42 (q.concat a).length ++ ((q.map Spec.bulk).flatten ++ (line 36 a.length ++ a)), ?_⟩
      simp [bulk_line]
  have htl : t.length ≤ 30000 := by rw [ht] at hs; simp at hs; omega
  have hx : (List.replicate 65508 (120 : UInt8)).length = 65508 := List.length_replicate ..
  obtain ⟨x, hxe⟩ : ∃ x, x = List.replicate 65508 (120 : UInt8) := ⟨_, rfl⟩
  rw [← hxe] at hx
  have hv : (x ++ (63 :: 63 :: t)).length = t.length + 65510 := by simp [hx]; omega
  have hd : (dec (t.length + 65510)).length = 5 := by
    have h1 : (dec (t.length + 65510)).length ≤ 5 := by
      simp only [dec, List.length_map]; exact (Nat.length_toDigits_le_iff (by decide) (by decide)).2 (by omega)
    have h2 : ¬ (dec (t.length + 65510)).length ≤ 4 := by
      simp only [dec, List.length_map]; intro hc
      have := (Nat.length_toDigits_le_iff (b := 10) (by decide) (by decide)).1 hc
      omega
    omega
  have hrec : Records [[b!"set", b!"k", x ++ (63 :: 63 :: t)]] := by
    intro q hq
    rw [List.mem_singleton] at hq
    subst hq
    refine ⟨List.cons_ne_nil _ _, (by decide : 3 < 2 ^ 63), ?_⟩
    intro a ha
    simp only [List.mem_cons, List.not_mem_nil, or_false] at ha
    rcases ha with rfl | rfl | rfl
    · decide
    · decide
    · rw [hv]; omega
  refine ⟨x ++ (63 :: 63 :: t), x ++ List.replicate (t.length + 2) 0, ?_, hrec, ?_⟩
  · intro he
    have := List.append_cancel_left he
    simp [List.replicate_succ] at this
  · have e : log [[b!"set", b!"k", x ++ (63 :: 63 :: t)]] = line 42 3 ++ (Spec.bulk b!"set" ++ (Spec.bulk b!"k" ++
        (line 36 (t.length + 65510) ++ ((x ++ (63 :: 63 :: t)) ++ (CRLF ++ []))))) := by
      simp only [log, List.map_cons, List.map_nil, List.flatten_cons, List.flatten_nil, request_line, List.length_cons, List.length_nil, List.append_nil, List.append_assoc, bulk_line (x ++ _), hv]
    have e2 : parse readerSize (log [[b!"set", b!"k", x ++ (63 :: 63 :: t)]]) = records readerSize ((log [[b!"set", b!"k", x ++ (63 :: 63 :: t)]]).length + 1)
        (at_ (log [[b!"set", b!"k", x ++ (63 :: 63 :: t)]]) 0) := by simp [parse, at_]
    obtain ⟨k, hk⟩ : ∃ k, (log [[b!"set", b!"k", x ++ (63 :: 63 :: t)]]).length = k + 2 := by
      refine ⟨(log [[b!"set", b!"k", x ++ (63 :: 63 :: t)]]).length - 2, ?_⟩
      rw [e]; simp; omega
    rw [e2, hk, e]
    have r1 := readLine_at (cap := readerSize) (m := 0) 42 (by decide) (n := 3) (by decide) (by decide) (by decide) (Spec.bulk b!"set" ++ (Spec.bulk b!"k" ++
        (line 36 (t.length + 65510) ++ ((x ++ (63 :: 63 :: t)) ++ (CRLF ++ [])))))
    have r2 := (readArg_at (cap := readerSize) (m := 65532) (a := b!"set") (by decide) (by decide) (by decide) (Spec.bulk b!"k" ++
        (line 36 (t.length + 65510) ++ ((x ++ (63 :: 63 :: t)) ++ (CRLF ++ []))))).1 65523 (by decide)
    have r3 := (readArg_at (cap := readerSize) (m := 65523) (a := b!"k") (by decide) (by decide) (by decide)
        (line 36 (t.length + 65510) ++ ((x ++ (63 :: 63 :: t)) ++ (CRLF ++ [])))).1 65516 (by decide)
    have r4 := readLine_at (cap := readerSize) (m := 65516) 36 (by decide) (n := t.length + 65510) (by omega) (by decide) (by decide) ((x ++ (63 :: 63 :: t)) ++ (CRLF ++ []))
    rw [hd] at r4
    have r5 := read_short (cap := readerSize) (m := 65508) (x ++ (63 :: 63 :: t)) (CRLF ++ []) (by rw [hv]; omega) (by decide)
    have hdrop : (x ++ (63 :: 63 :: t)).drop 65508 = 63 :: 63 :: t := by rw [← hx, List.drop_left]
    have htake : (x ++ (63 :: 63 :: t)).take 65508 = x := by rw [← hx, List.take_left]
    rw [hdrop, htake, hv] at r5
    have r6 := read_at (cap := readerSize) (m := 0) (by decide) (by decide) [63, 63] (request r) (Or.inr rfl)
    have r7 : records readerSize (k + 2) (at_ (request r) 65534) = some [r] := by
      have e3 : at_ (request r) 65534 = ⟨request r ++ [], []⟩ := by
        simp only [at_, List.append_nil, Rd.mk.injEq]
        exact ⟨List.take_of_length_le (by omega), List.drop_eq_nil_of_le (by omega)⟩
      rw [e3, records_buf hr.2 hr.1, records_eof (by decide) rfl]
      rfl
    have e4 : (63 :: 63 :: t) ++ (CRLF ++ []) = [63, 63] ++ request r := by rw [ht]; simp
    rw [e4] at r5
    have r1' : readLine readerSize (at_ (line 42 3 ++ (Spec.bulk b!"set" ++ (Spec.bulk b!"k" ++
        (line 36 (t.length + 65510) ++ ((x ++ (63 :: 63 :: t)) ++ (CRLF ++ [])))))) 0) = some (42 :: dec 3, at_ (Spec.bulk b!"set" ++ (Spec.bulk b!"k" ++
        (line 36 (t.length + 65510) ++ ((x ++ (63 :: 63 :: t)) ++ (CRLF ++ []))))) 65532) := r1
    have r4' : readLine readerSize (at_ (line 36 (t.length + 65510) ++ ((x ++ (63 :: 63 :: t)) ++ (CRLF ++ []))) 65516) =
        some (36 :: dec (t.length + 65510), at_ ((x ++ (63 :: 63 :: t)) ++ (CRLF ++ [])) 65508) := r4
    have r6' : read readerSize 2 (at_ ([63, 63] ++ request r) 0) = some ([63, 63], at_ (request r) 65534) := r6
    have e5 : t.length + 65510 - x.length = t.length + 2 := by omega
    have r8 : readArg readerSize (at_ (line 36 (t.length + 65510) ++ ((x ++ (63 :: 63 :: t)) ++ (CRLF ++ []))) 65516) =
        some (x ++ List.replicate (t.length + 2) 0, at_ (request r) 65534) := by
      simp only [readArg, r4', lengthOf_line 36 (show t.length + 65510 < 2 ^ 63 by omega), r5, r6', Option.bind_eq_bind, Option.bind_some, e5]
    generalize k + 2 = K at r7
    simp only [records, r1', lengthOf_line 42 (show 3 < 2 ^ 63 by decide), readArgs, r2, r3, r8, Option.bind_eq_bind, Option.bind_some]
    rw [if_neg (by simp), r7]
    rfl

example : Records [[b!"del", b!"other"]] ∧ (request [b!"del", b!"other"]).length ≤ 30000 :=
  ⟨fun r hr => by rw [List.mem_singleton] at hr; subst hr; exact ⟨by decide, by decide, by decide⟩, by decide⟩

/-- Larger logs: whenever byte 65536 lies inside the data of an argument (and a byte other than 0 follows in it), loading does not give
back the logged commands. -/
theorem C45_split_fails (pre post : List (List Bytes)) (dn rest : List Bytes) (x y : Bytes) (h : Records (pre ++ (dn ++ (x ++ y) :: rest) :: post))
    (hx : x ≠ []) (hy : ∃ c ∈ y, c ≠ 0)
    (hcut : (log pre).length + (dataEnd (dn.length + 1 + rest.length) dn (x ++ y)).length = 65536 + y.length) :
    parse readerSize (log (pre ++ (dn ++ (x ++ y) :: rest) :: post)) ≠ some (pre ++ (dn ++ (x ++ y) :: rest) :: post) := by
  refine parse_split (by decide) (fun r hr => h r (by simp [hr])) (h _ (by simp)).2 hx hy ?_
  have e : (dn ++ (x ++ y) :: rest).length = dn.length + 1 + rest.length := by simp; omega
  rw [e]
  simp only [log, dataEnd, line, List.length_append, List.length_cons, readerSize] at hcut ⊢
  omega

/-- **C45 is false**: a single SET with a value of 65536 bytes. -/
theorem C45_refuted : ¬ C45 := by
  intro h
  have hr : Records ([] ++ ([b!"set", b!"k"] ++ (List.replicate 65508 120 ++ List.replicate 28 120) :: []) :: []) := by
    intro r hr
    simp only [List.nil_append, List.mem_cons, List.not_mem_nil, or_false] at hr
    subst hr
    refine ⟨List.cons_ne_nil _ _, (by decide : 3 < 2 ^ 63), ?_⟩
    intro a ha
    simp only [List.cons_append, List.nil_append, List.mem_cons, List.not_mem_nil, or_false] at ha
    rcases ha with rfl | rfl | rfl
    · decide
    · decide
    · simp only [List.length_append, List.length_replicate]; decide
  refine C45_split_fails [] [] [b!"set", b!"k"] [] (List.replicate 65508 120) (List.replicate 28 120) hr
    (by rw [Ne, List.replicate_eq_nil_iff]; decide) ⟨120, by rw [List.mem_replicate]; decide, by decide⟩ ?_ (h _ hr)
  have e1 : (List.replicate 65508 (120 : UInt8) ++ List.replicate 28 120).length = 65536 := by simp only [List.length_append, List.length_replicate]
  simp only [log, dataEnd, List.map_nil, List.flatten_nil, List.length_nil, List.length_append, List.length_cons, List.length_replicate]
  decide

/-- The full claim of C56: a log whose last record is cut off anywhere is loaded, and all complete records are among what is executed. -/
def C56 : Prop := ∀ recs r t u, Records (recs ++ [r]) → request r = t ++ u → u ≠ [] →
  ∃ l, parse readerSize (log recs ++ t) = some l ∧ recs <+: l

/-- **C56** for a log of any length whose records are not cut by the end of a window (`Whole`) and that ends inside the first line of a record: exactly
the complete records are executed. -/
theorem C56_header_partial (recs : List (List Bytes)) (r : List Bytes) (t u : Bytes) (h : Records (recs ++ [r])) (he : request r = t ++ u)
    (hl : Whole recs) (ht : (10 : UInt8) ∉ t) :
    parse readerSize (log recs ++ t) = some recs ∧ ∀ es srv, load readerSize es (log recs ++ t) srv = load readerSize es (log recs) srv := by
  have hr : Records recs := fun x hx => h x (by simp [hx])
  have h1 : parse readerSize (log recs ++ t) = some recs := by
    obtain ⟨m', hm⟩ := Option.ne_none_iff_exists'.1 hl
    have hk : (log recs ++ t).length + 1 = ((log recs ++ t).length + 1 - recs.length) + recs.length := by
      have := records_length recs
      have e : (recs.map request).flatten.length = (log recs).length := rfl
      rw [List.length_append]; omega
    have := records_tail (cap := readerSize) (by decide) t recs (m := 0) (k := (log recs ++ t).length + 1 - recs.length) (by decide) hr hm
    rw [← hk, records_end (by decide) ht] at this
    have e2 : parse readerSize (log recs ++ t) = records readerSize ((log recs ++ t).length + 1) (at_ ((recs.map request).flatten ++ t) 0) := by
      simp [parse, at_, log]
    rw [e2, this]
    simp
  refine ⟨h1, fun es srv => ?_⟩
  have h2 := (C45_exact_partial recs hr).2 hl
  simp [load, h1, h2]

/-- **C56**, all logs of at most 65536 bytes. -/
example (recs : List (List Bytes)) (h : Records recs) (hl : (log recs).length ≤ 65536) : Whole recs := (readable_small hl).2 recs h rfl

/-- **C56, exactly**, for logs of any length that are not cut by the end of a window: the server starts from a log that ends inside a record if and
only if the record is cut inside its first line, and then exactly the complete records are executed, or if only its last byte is missing, and then all
records are executed. -/
theorem C56_exact_partial (recs : List (List Bytes)) (r : List Bytes) (t u : Bytes) (h : Records (recs ++ [r])) (he : request r = t ++ u) (hu : u ≠ [])
    (hl : Whole (recs ++ [r])) : parse readerSize (log recs ++ t) = if (10 : UInt8) ∉ t then some recs else if u = [10] then some (recs ++ [r]) else none := by
  by_cases ht : (10 : UInt8) ∈ t
  · rw [if_neg (by simpa using ht)]
    exact parse_cut (by decide) h hl hu he ht
  · rw [if_pos ht]
    refine (C56_header_partial recs r t u h he ?_ ht).1
    intro h0
    refine hl ?_
    rw [List.flatMap_append, window_append, h0]
    rfl

/-- **C56**, the server does not start from any other log that ends inside a record. -/
theorem C56_otherwise_fails (recs : List (List Bytes)) (r : List Bytes) (t u : Bytes) (h : Records (recs ++ [r])) (he : request r = t ++ u)
    (hl : Whole (recs ++ [r])) (ht : (10 : UInt8) ∈ t) (hu : u ≠ []) (hu' : u ≠ [10]) :
    ∀ es srv, load readerSize es (log recs ++ t) srv = none := by
  intro es srv
  have := C56_exact_partial recs r t u h he hu hl
  rw [if_neg (by simpa using ht), if_neg hu'] at this
  simp [load, this]

/-- **C56 is false**: a log holding the first 9 of the 18 bytes of `SPOP k`. -/
theorem C56_refuted : ¬ C56 := by
  intro h
  obtain ⟨l, hl, -⟩ := h [] [b!"spop", b!"k"] b!"*2\r\n$4\r\nspop" b!"\r\n$1\r\nk\r\n"
    (fun r hr => by simp at hr; subst hr; exact ⟨by decide, by decide, by decide⟩) (by decide) (by decide)
  have : parse readerSize (log [] ++ b!"*2\r\n$4\r\nspop") = none := by decide
  rw [this] at hl
  cases hl

example : parse readerSize (log [[b!"set", b!"k", b!"v"]] ++ b!"*3\r") = some [[b!"set", b!"k", b!"v"]] := by decide
example : parse readerSize (log [[b!"set", b!"k", b!"v"]] ++ b!"*2\r\n$4\r\nspop\r\n$1\r\nk\r") = some [[b!"set", b!"k", b!"v"], [b!"spop", b!"k"]] := by decide
example : parse readerSize (log [[b!"set", b!"k", b!"v"]] ++ b!"*2\r\n$4\r\nspop\r\n$1\r\nk") = none := by decide

end Metis.Props.AofLoadP
