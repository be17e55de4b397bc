import Verif.Proofs.Frame
/-!
Property C90: what the server makes of the bytes on a connection. Also the exact version of C29.
-/
set_option linter.unusedSectionVars false
set_option linter.unusedSimpArgs false
set_option linter.unusedVariables false
namespace Metis.Props.FrameP
open Metis Spec Metis.Conn

/-- **C90**: for every sequence of reads, on a new or used connection, the commands executed, whether the connection is closed, and whether the server
panics, depend only on the bytes received since the last command and the room in the buffer, as `verdict` says. -/
theorem C90_parser (s : Nat) (ds : List Bytes) (h : ∀ d ∈ ds, d ≠ []) : (reads { slack := s } ds).map (fun p => (p.1, p.2.isSome)) = serve [] s ds :=
  reads_held ds (Held.fresh s) h

/-- A read in the middle of a command: four reads, two commands, one waiting. -/
example : serve [] 4096 [b!"*2\r\n$3\r\nGE", b!"T\r\n$1\r\nk\r\n", b!"*1\r\n$4\r\nPING\r\n", b!"*1\r\n"] = some ([[b!"GET", b!"k"], [b!"PING"]], true) := by decide

/-- The words of an inline command (less its first byte): they have no spaces and make up the line again. -/
theorem C90_words : ∀ (s : Bytes), List.intercalate [32] (split s) = s ∧ split s ≠ [] ∧ ∀ w ∈ split s, (32 : UInt8) ∉ w
  | [] => by simp [split, List.intercalate]
  | c :: cs => by
    obtain ⟨h1, h2, h3⟩ := C90_words cs
    unfold split
    by_cases hc : c = 32
    · rw [if_pos hc]
      refine ⟨?_, by simp, ?_⟩
      · obtain ⟨w, ws, hw⟩ := List.exists_cons_of_ne_nil h2
        rw [hw] at h1 ⊢
        simp only [List.intercalate, List.intersperse] at h1 ⊢
        simp [hc] 
        simpa using h1
      · intro w hw
        rcases List.mem_cons.1 hw with rfl | hw
        · simp
        · exact h3 w hw
    · rw [if_neg hc]
      obtain ⟨w, ws, hw⟩ := List.exists_cons_of_ne_nil h2
      rw [hw] at h1 h3 ⊢
      refine ⟨?_, by simp, ?_⟩
      · cases ws with
        | nil => simp only [List.intercalate, List.intersperse, List.flatten_cons, List.flatten_nil, List.append_nil] at h1 ⊢; rw [h1]
        | cons v ws =>
          simp only [List.intercalate, List.intersperse, List.flatten_cons, List.cons_append] at h1 ⊢
          rw [h1]
      · intro v hv
        rcases List.mem_cons.1 hv with rfl | hv
        · have := h3 w (by simp)
          intro h
          rcases List.mem_cons.1 h with h | h
          · exact hc h.symm
          · exact this h
        · exact h3 v (by simp [hv])

theorem heads_of : ∀ {x h r : Bytes}, line x = some (h, r) → Heads h
  | [], _, _, e => by cases e
  | a :: x, h, r, e => by
    unfold line at e
    split at e
    · cases e; rfl
    · next hc =>
      cases hl : line x with
      | none => rw [hl] at e; cases e
      | some p =>
        rw [hl] at e
        cases e
        have ih : line (p.1 ++ [13, 10]) = some (p.1, []) := heads_of hl
        show line (a :: (p.1 ++ [13, 10])) = _
        unfold line
        have hx := line_eq (show line x = some (p.1, p.2) from hl)
        rw [if_neg (by
          rw [hx] at hc
          cases hp : p.1 with
          | nil => simp
          | cons y p' => rw [hp] at hc; simpa using hc), ih]
        rfl

theorem line_heads {h r : Bytes} (hh : Heads h) : line (h ++ [13, 10] ++ r) = some (h, r) := line_append r hh

/-- The arguments. -/
theorem items_crash (room : Nat) : ∀ (k : Nat) (args : List Bytes) (x : Bytes), items room k args x = .crash ↔
    ∃ (as : List Bytes) (b : Bytes), as.length < k ∧ (∀ a ∈ as, Argument a) ∧ Bad room b ∧ x = as.flatten ++ b
  | 0, args, x => by
    constructor
    · intro h; cases h
    · rintro ⟨as, b, h, _⟩; cases h
  | k + 1, args, x => by
    have bad_line : ∀ {b}, Bad room b → ∃ h m r, Declared 36 h m ∧ b = h ++ [13, 10] ++ r ∧ (m < 0 ∨ ∃ a t, room = 0 ∧ m = (a.length : Nat) ∧ (t = [] ∨ t = [13]) ∧ r = a ++ t) := by
      rintro b (⟨h, m, r, h1, h2, rfl⟩ | ⟨h, a, t, h0, h1, h2, rfl⟩)
      · exact ⟨h, m, r, h1, rfl, Or.inl h2⟩
      · exact ⟨h, _, a ++ t, h1, by simp, Or.inr ⟨a, t, h0, rfl, h2, rfl⟩⟩
    unfold items
    cases hl : line x with
    | none =>
      constructor
      · intro h; simp only [endless] at h; split at h <;> cases h
      · rintro ⟨as, b, _, h2, h3, rfl⟩
        exfalso
        cases as with
        | nil =>
          obtain ⟨h, m, r, d, e, _⟩ := bad_line h3
          rw [List.flatten_nil, List.nil_append, e, line_heads d.1] at hl; cases hl
        | cons a as =>
          obtain ⟨h, a', d, rfl⟩ := h2 a (by simp)
          rw [List.flatten_cons] at hl
          simp only [List.append_assoc] at hl
          rw [show h ++ ([13, 10] ++ (a' ++ ([13, 10] ++ (as.flatten ++ b)))) = h ++ [13, 10] ++ (a' ++ ([13, 10] ++ (as.flatten ++ b))) by simp, line_heads d.1] at hl
          cases hl
    | some p =>
      obtain ⟨h, r⟩ := p
      simp only
      have hx := line_eq hl
      have hH := heads_of hl
      by_cases h36 : h.head? = some 36
      · rw [if_neg (fun h => h h36)]
        cases hn : atoi (h.drop 1) with
        | none =>
          constructor
          · intro h; cases h
          · rintro ⟨as, b, _, h2, h3, rfl⟩
            exfalso
            cases as with
            | nil =>
              obtain ⟨h', m, r', d, e, _⟩ := bad_line h3
              rw [List.flatten_nil, List.nil_append, e, line_heads d.1] at hl; cases hl
              rw [d.2.2] at hn; cases hn
            | cons a as =>
              obtain ⟨h', a', d, rfl⟩ := h2 a (by simp)
              rw [List.flatten_cons] at hl
              simp only [List.append_assoc] at hl
              rw [show h' ++ ([13, 10] ++ (a' ++ ([13, 10] ++ (as.flatten ++ b)))) = h' ++ [13, 10] ++ (a' ++ ([13, 10] ++ (as.flatten ++ b))) by simp, line_heads d.1] at hl
              cases hl
              rw [d.2.2] at hn; cases hn
        | some m =>
          simp only
          have D : Declared 36 h m := ⟨hH, h36, hn⟩
          have hxx : x = h ++ [13, 10] ++ r := by rw [hx]; simp
          -- any decomposition starts with this line
          have bad_here : ∀ {b}, Bad room b → x = b → m < 0 ∨ ∃ a t, room = 0 ∧ m = (a.length : Nat) ∧ (t = [] ∨ t = [13]) ∧ r = a ++ t := by
            intro b hb e
            obtain ⟨h', m', r', d, e', hm⟩ := bad_line hb
            rw [e, e', line_heads d.1] at hl
            cases hl
            rw [d.2.2] at hn; cases hn
            exact hm
          have arg_here : ∀ {a y}, Argument a → x = a ++ y → ∃ a', m = (a'.length : Nat) ∧ r = a' ++ [13, 10] ++ y ∧ a = h ++ [13, 10] ++ a' ++ [13, 10] := by
            rintro a y ⟨h', a', d, rfl⟩ e
            have : line x = some (h', a' ++ [13, 10] ++ y) := by
              rw [e, show h' ++ [13, 10] ++ a' ++ [13, 10] ++ y = h' ++ [13, 10] ++ (a' ++ [13, 10] ++ y) by simp, line_heads d.1]
            rw [hl] at this
            cases this
            rw [d.2.2] at hn; cases hn
            exact ⟨a', rfl, rfl, rfl⟩
          by_cases hneg : m < 0
          · rw [if_pos hneg]
            exact ⟨fun _ => ⟨[], x, by simp, by simp, Or.inl ⟨h, m, r, D, hneg, hxx⟩, rfl⟩, fun _ => rfl⟩
          rw [if_neg hneg]
          obtain ⟨n, rfl⟩ : ∃ n : Nat, m = n := ⟨m.toNat, by omega⟩
          rw [Int.toNat_natCast]
          by_cases hshort : (r.length : Int) < n
          · rw [if_pos hshort]
            refine ⟨(fun h => by cases h), ?_⟩
            rintro ⟨as, b, _, h2, h3, e⟩
            exfalso
            cases as with
            | nil =>
              rcases bad_here h3 (by simpa using e) with h | ⟨a, t, _, h4, _, h5⟩
              · exact hneg h
              · rw [h5, List.length_append] at hshort; omega
            | cons a as =>
              rw [List.flatten_cons, List.append_assoc] at e
              obtain ⟨a', h4, h5, _⟩ := arg_here (h2 a (by simp)) e
              rw [h5] at hshort
              simp only [List.length_append] at hshort
              omega
          rw [if_neg hshort]
          by_cases hend : r.drop n = [] ∨ r.drop n = [13]
          · rw [if_pos hend]
            have hr : r = r.take n ++ r.drop n := (List.take_append_drop n r).symm
            have hlen : (r.take n).length = n := by rw [List.length_take]; omega
            by_cases h0 : room = 0
            · rw [if_pos h0]
              refine ⟨fun _ => ⟨[], x, by simp, by simp, Or.inr ⟨h, r.take n, r.drop n, h0, by rw [hlen]; exact D, hend, ?_⟩, rfl⟩, fun _ => rfl⟩
              rw [List.append_assoc _ (r.take n), ← hr]; exact hxx
            · rw [if_neg h0]
              refine ⟨(fun h => by cases h), ?_⟩
              rintro ⟨as, b, _, h2, h3, e⟩
              exfalso
              cases as with
              | nil =>
                rcases bad_here h3 (by simpa using e) with h | ⟨a, t, h4, _⟩
                · exact hneg h
                · exact h0 h4
              | cons a as =>
                rw [List.flatten_cons, List.append_assoc] at e
                obtain ⟨a', h4, h5, _⟩ := arg_here (h2 a (by simp)) e
                have h4 : n = a'.length := by omega
                rw [h5, h4, List.append_assoc, List.drop_left] at hend
                rcases hend with h | h <;> simp at h
          rw [if_neg hend]
          by_cases hcr : (r.drop n).take 2 = [13, 10]
          · rw [if_pos hcr]
            have hlen : (r.take n).length = n := by rw [List.length_take]; omega
            have hr : r = r.take n ++ [13, 10] ++ r.drop (n + 2) := by
              have h1 := (List.take_append_drop n r).symm
              have h2 := (List.take_append_drop 2 (r.drop n)).symm
              rw [hcr, List.drop_drop] at h2
              rw [h2] at h1
              rw [List.append_assoc]; exact h1
            rw [items_crash room k (args ++ [r.take n]) (r.drop (n + 2))]
            constructor
            · rintro ⟨as, b, h1, h2, h3, e⟩
              refine ⟨(h ++ [13, 10] ++ r.take n ++ [13, 10]) :: as, b, by simp; omega, ?_, h3, ?_⟩
              · intro a ha
                rcases List.mem_cons.1 ha with rfl | ha
                · exact ⟨h, r.take n, by rw [hlen]; exact D, rfl⟩
                · exact h2 a ha
              · rw [List.flatten_cons, List.append_assoc, ← e, hxx]
                conv => lhs; rw [hr]
                simp
            · rintro ⟨as, b, h1, h2, h3, e⟩
              cases as with
              | nil =>
                exfalso
                rcases bad_here h3 (by simpa using e) with h | ⟨a, t, _, h4, h6, h5⟩
                · exact hneg h
                · have h4 : n = a.length := by omega
                  rw [h5, h4, List.drop_left] at hcr
                  rcases h6 with rfl | rfl <;> cases hcr
              | cons a as =>
                rw [List.flatten_cons, List.append_assoc] at e
                obtain ⟨a', h4, h5, _⟩ := arg_here (h2 a (by simp)) e
                have h4 : n = a'.length := by omega
                refine ⟨as, b, by simp at h1; omega, fun a' h' => h2 a' (by simp [h']), h3, ?_⟩
                rw [h5, h4, List.append_assoc, ← List.drop_drop, List.drop_left]
                rfl
          · rw [if_neg hcr]
            refine ⟨(fun h => by cases h), ?_⟩
            rintro ⟨as, b, h1, h2, h3, e⟩
            exfalso
            cases as with
            | nil =>
              rcases bad_here h3 (by simpa using e) with h | ⟨a, t, _, h4, h6, h5⟩
              · exact hneg h
              · have h4 : n = a.length := by omega
                rw [h5, h4, List.drop_left] at hend
                exact hend h6
            | cons a as =>
              rw [List.flatten_cons, List.append_assoc] at e
              obtain ⟨a', h4, h5, _⟩ := arg_here (h2 a (by simp)) e
              have h4 : n = a'.length := by omega
              rw [h5, h4, List.append_assoc, List.drop_left] at hcr
              exact hcr rfl
      · rw [if_pos h36]
        refine ⟨(fun h => by cases h), ?_⟩
        rintro ⟨as, b, h1, h2, h3, e⟩
        exfalso
        cases as with
        | nil =>
          obtain ⟨h', m, r', d, e', _⟩ := bad_line h3
          rw [e, List.flatten_nil, List.nil_append, e', line_heads d.1] at hl; cases hl
          exact h36 d.2.1
        | cons a as =>
          obtain ⟨h', a', d, rfl⟩ := h2 a (by simp)
          rw [e, List.flatten_cons] at hl
          simp only [List.append_assoc] at hl
          rw [show h' ++ ([13, 10] ++ (a' ++ ([13, 10] ++ (as.flatten ++ b)))) = h' ++ [13, 10] ++ (a' ++ ([13, 10] ++ (as.flatten ++ b))) by simp, line_heads d.1] at hl
          cases hl
          exact h36 d.2.1

/-- **C29, exact**: the bytes since the last command crash the server if and only if they are one of the forms of `Fragile`: an empty line, a negative or
huge number of arguments or length, or, with the buffer full to the last byte, the data of an argument without their line end. -/
theorem C29_exact (room : Nat) (x : Bytes) : verdict room x = .crash ↔ Fragile room x := by
  constructor
  · intro h
    unfold verdict at h
    cases hl : line x with
    | none => rw [hl] at h; simp only [endless] at h; split at h <;> cases h
    | some p =>
      obtain ⟨hd, r⟩ := p
      rw [hl] at h
      simp only at h
      have hx : x = hd ++ [13, 10] ++ r := by rw [line_eq hl]; simp
      have hH := heads_of hl
      by_cases h42 : x.head? = some 42
      · rw [if_pos h42] at h
        have hh := (head_line hl).2.1 h42
        cases hn : atoi (hd.drop 1) with
        | none => rw [hn] at h; cases h
        | some n =>
          rw [hn] at h
          simp only at h
          by_cases hz : n = 0
          · rw [if_pos hz] at h; cases h
          · rw [if_neg hz] at h
            by_cases hb : n < 0 ∨ 2 ^ 44 < n
            · rw [hx]; exact .count hd r n ⟨hH, hh, hn⟩ hb
            · rw [if_neg hb] at h
              obtain ⟨as, b, h1, h2, h3, rfl⟩ := (items_crash room _ _ _).1 h
              rw [hx, ← List.append_assoc]
              exact .argument hd n as b ⟨hH, hh, hn⟩ (by omega) (by omega) h2 h3
      · rw [if_neg h42] at h
        by_cases h36 : x.head? = some 36
        · rw [if_pos h36] at h
          have hh := (head_line hl).1.1 h36
          cases hn : atoi (hd.drop 1) with
          | none => rw [hn] at h; cases h
          | some m =>
            rw [hn] at h
            simp only at h
            split at h
            · cases h
            · split at h
              · cases h
              · split at h
                · rw [hx]; exact .bulk hd r m ⟨hH, hh, hn⟩ (by omega)
                · cases h
        · rw [if_neg h36] at h
          split at h
          · next h0 => rw [hx, h0]; exact .empty r
          · cases h
  · intro h
    cases h with
    | empty r =>
      unfold verdict
      rw [show line ([13, 10] ++ r) = some ([], r) from rfl]
      simp
    | bulk h r m D hm =>
      have hl := line_heads (r := r) D.1
      have h36 := (head_line hl).1.2 D.2.1
      unfold verdict
      rw [hl]
      simp only
      rw [if_neg (by rw [h36]; decide), if_pos h36, D.2.2]
      simp only
      rw [if_neg (by omega), if_neg (by omega), if_pos (by omega)]
    | count h r n D hm =>
      have hl := line_heads (r := r) D.1
      have h42 := (head_line hl).2.2 D.2.1
      unfold verdict
      rw [hl]
      simp only
      rw [if_pos h42, D.2.2]
      simp only
      rw [if_neg (by omega), if_pos hm]
    | argument h n as b D h1 h2 h3 h4 =>
      have hl := line_heads (r := as.flatten ++ b) D.1
      rw [← List.append_assoc] at hl
      have h42 := (head_line hl).2.2 D.2.1
      unfold verdict
      rw [hl]
      simp only
      rw [if_pos h42, D.2.2]
      simp only
      rw [if_neg (by omega), if_neg (by omega)]
      exact (items_crash room _ _ _).2 ⟨as, b, by omega, h3, h4, rfl⟩

/-! Non-trivial cases: an argument of negative length after a whole one. -/
example : Fragile 9 b!"*2\r\n$3\r\nGET\r\n$-7\r\n" :=
  .argument b!"*2" 2 [b!"$3\r\nGET\r\n"] b!"$-7\r\n" ⟨by unfold Heads; decide, rfl, by decide⟩ (by decide) (by decide)
    (fun a ha => by
      rw [List.mem_singleton] at ha
      subst ha
      exact ⟨b!"$3", b!"GET", ⟨by unfold Heads; decide, rfl, by decide⟩, rfl⟩)
    (Or.inl ⟨b!"$-7", -7, [], ⟨by unfold Heads; decide, rfl, by decide⟩, by decide, rfl⟩)

/-- A length of -1 after `$` is waited on, and crashes the server with the next byte. -/
example : verdict 9 b!"$-1\r\n" = .wait ∧ verdict 8 b!"$-1\r\n?" = .crash := by decide

end Metis.Props.FrameP
