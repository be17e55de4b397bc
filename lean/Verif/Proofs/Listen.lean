import Verif.Model.Listen
import Verif.Spec.Listen
/-!
Lemmas for C72: which texts are IPv4 addresses.
-/
set_option linter.unusedSectionVars false
set_option linter.unusedSimpArgs false
set_option linter.unusedVariables false
namespace Metis.Listen
open Spec

def stops (s : Bytes) : Prop := ∀ c, s.head? = some c → ¬ (48 ≤ c ∧ c ≤ 57)

theorem dtoiLoop_stop (s : Bytes) (hs : stops s) (n i : Nat) (hi : i ≠ 0) : dtoiLoop s n i = some (n, i) := by
  cases s with
  | nil => simp [dtoiLoop, hi]
  | cons c s => unfold dtoiLoop; rw [if_neg (hs c rfl), if_neg hi]

theorem dig_lo (d : UInt8) (h : d < 10) : 48 ≤ 48 + d ∧ 48 + d ≤ 57 := by
  rw [UInt8.le_iff_toNat_le, UInt8.le_iff_toNat_le, UInt8.toNat_add]
  rw [UInt8.lt_iff_toNat_lt] at h
  simp only [UInt8.reduceToNat] at *
  omega

theorem dig_val (d : UInt8) (h : d < 10) : (48 + d).toNat - 48 = d.toNat := by
  rw [UInt8.toNat_add]
  rw [UInt8.lt_iff_toNat_lt] at h
  simp only [UInt8.reduceToNat] at *
  omega

theorem dtoiLoop_dig (d : UInt8) (h : d < 10) (s : Bytes) (n i : Nat) (hn : n < 100) :
    dtoiLoop ((48 + d) :: s) n i = dtoiLoop s (n * 10 + d.toNat) (i + 1) := by
  have h1 : d.toNat < 10 := by rw [UInt8.lt_iff_toNat_lt] at h; simpa using h
  conv => lhs; unfold dtoiLoop
  rw [if_pos (dig_lo d h), dig_val d h, if_neg (by unfold big; omega)]

theorem decByte_cases (a : UInt8) :
    (a.toNat < 10 ∧ decByte a = [48 + a]) ∨ (10 ≤ a.toNat ∧ a.toNat < 100 ∧ decByte a = [48 + a / 10, 48 + a % 10]) ∨
    (100 ≤ a.toNat ∧ decByte a = [48 + a / 100, 48 + a / 10 % 10, 48 + a % 10]) := by
  unfold decByte
  by_cases h : a < 10
  · rw [if_pos h]
    rw [UInt8.lt_iff_toNat_lt] at h
    exact .inl ⟨h, rfl⟩
  · rw [if_neg h]
    rw [UInt8.lt_iff_toNat_lt] at h
    by_cases h2 : a < 100
    · rw [if_pos h2]
      rw [UInt8.lt_iff_toNat_lt] at h2
      exact .inr (.inl ⟨Nat.not_lt.1 h, h2, rfl⟩)
    · rw [if_neg h2]
      rw [UInt8.lt_iff_toNat_lt] at h2
      exact .inr (.inr ⟨Nat.not_lt.1 h2, rfl⟩)

theorem octet_of {s : Bytes} {n c : Nat} (h : dtoiLoop s 0 0 = some (n, c)) (hn : n < 256) (hz : c > 1 → s.head? ≠ some 48) :
    octet s = some (UInt8.ofNat n, s.drop c) := by
  unfold octet
  rw [h]
  simp only
  rw [if_neg (by omega), if_neg (fun h => hz h.1 h.2)]

theorem octet_dec (a : UInt8) (s : Bytes) (hs : stops s) : octet (decByte a ++ s) = some (a, s) := by
  have ha := a.toNat_lt
  have d1 : a % 10 < 10 := by rw [UInt8.lt_iff_toNat_lt, UInt8.toNat_mod]; simp only [UInt8.reduceToNat]; omega
  have d2 : a / 10 % 10 < 10 := by rw [UInt8.lt_iff_toNat_lt, UInt8.toNat_mod, UInt8.toNat_div]; simp only [UInt8.reduceToNat]; omega
  have d3 : a / 100 < 10 := by rw [UInt8.lt_iff_toNat_lt, UInt8.toNat_div]; simp only [UInt8.reduceToNat]; omega
  have v0 : (a / 10).toNat = a.toNat / 10 := by rw [UInt8.toNat_div]; rfl
  have v1 : (a % 10).toNat = a.toNat % 10 := by rw [UInt8.toNat_mod]; rfl
  have v2 : (a / 10 % 10).toNat = a.toNat / 10 % 10 := by rw [UInt8.toNat_mod, UInt8.toNat_div]; rfl
  have v3 : (a / 100).toNat = a.toNat / 100 := by rw [UInt8.toNat_div]; rfl
  rcases decByte_cases a with ⟨h, e⟩ | ⟨h, h2, e⟩ | ⟨h, e⟩
  · rw [e]
    simp only [List.cons_append, List.nil_append]
    rw [octet_of (n := a.toNat) (c := 1)]
    · simp
    · rw [dtoiLoop_dig a (by rw [UInt8.lt_iff_toNat_lt]; exact h) s 0 0 (by omega), dtoiLoop_stop s hs _ _ (by omega)]; simp
    · exact ha
    · omega
  · rw [e]
    have d0 : a / 10 < 10 := by rw [UInt8.lt_iff_toNat_lt, v0]; simp only [UInt8.reduceToNat]; omega
    simp only [List.cons_append, List.nil_append]
    rw [octet_of (n := a.toNat) (c := 2)]
    · simp
    · rw [dtoiLoop_dig _ d0 _ 0 0 (by omega), dtoiLoop_dig _ d1 _ _ _ (by omega), dtoiLoop_stop s hs _ _ (by omega), v0, v1]
      have : (0 * 10 + a.toNat / 10) * 10 + a.toNat % 10 = a.toNat := by omega
      rw [this]
    · exact ha
    · intro _ hz
      simp only [List.head?_cons, Option.some.injEq] at hz
      have := congrArg UInt8.toNat hz
      rw [UInt8.toNat_add, v0] at this
      simp only [UInt8.reduceToNat] at this
      omega
  · rw [e]
    simp only [List.cons_append, List.nil_append]
    rw [octet_of (n := a.toNat) (c := 3)]
    · simp
    · rw [dtoiLoop_dig _ d3 _ 0 0 (by omega), dtoiLoop_dig _ d2 _ _ _ (by omega), dtoiLoop_dig _ d1 _ _ _ (by omega),
        dtoiLoop_stop s hs _ _ (by omega), v1, v2, v3]
      have : ((0 * 10 + a.toNat / 100) * 10 + a.toNat / 10 % 10) * 10 + a.toNat % 10 = a.toNat := by omega
      rw [this]
    · exact ha
    · intro _ hz
      simp only [List.head?_cons, Option.some.injEq] at hz
      have := congrArg UInt8.toNat hz
      rw [UInt8.toNat_add, v3] at this
      simp only [UInt8.reduceToNat] at this
      omega

/-- The number that digits continue. -/
def value (n : Nat) (s : Bytes) : Nat := s.foldl (fun n c => n * 10 + (c.toNat - 48)) n

theorem value_nil (n : Nat) : value n [] = n := List.foldl_nil

theorem value_cons (n : Nat) (c : UInt8) (s : Bytes) : value n (c :: s) = value (n * 10 + (c.toNat - 48)) s := List.foldl_cons ..

theorem value_ge (s : Bytes) (n : Nat) : n ≤ value n s := by
  induction s generalizing n with
  | nil => exact Nat.le_refl _
  | cons c s ih => rw [value_cons]; exact Nat.le_trans (by omega) (ih _)

theorem dtoiLoop_nil (n i : Nat) : dtoiLoop [] n i = if i = 0 then none else some (n, i) := rfl

theorem dtoiLoop_cons (c : UInt8) (s : Bytes) (n i : Nat) : dtoiLoop (c :: s) n i =
    if 48 ≤ c ∧ c ≤ 57 then
      if n * 10 + (c.toNat - 48) ≥ big then none else dtoiLoop s (n * 10 + (c.toNat - 48)) (i + 1)
    else if i = 0 then none else some (n, i) := rfl

theorem dtoiLoop_inv (s : Bytes) (n i m c : Nat) (h : dtoiLoop s n i = some (m, c)) :
    ∃ ds r, s = ds ++ r ∧ stops r ∧ (∀ x ∈ ds, 48 ≤ x ∧ x ≤ 57) ∧ c = i + ds.length ∧ m = value n ds ∧ c ≠ 0 := by
  induction s generalizing n i with
  | nil =>
    rw [dtoiLoop_nil] at h
    by_cases hi : i = 0
    · rw [if_pos hi] at h; cases h
    · rw [if_neg hi] at h
      obtain ⟨h1, h2⟩ := Prod.mk.inj (Option.some.inj h)
      subst h1; subst h2
      exact ⟨[], [], rfl, (fun c hc => by cases hc), (fun x hx => by cases hx), rfl, rfl, hi⟩
  | cons x s ih =>
    rw [dtoiLoop_cons] at h
    by_cases hx : 48 ≤ x ∧ x ≤ 57
    · rw [if_pos hx] at h
      by_cases hb : n * 10 + (x.toNat - 48) ≥ big
      · rw [if_pos hb] at h; cases h
      · rw [if_neg hb] at h
        obtain ⟨ds, r, e1, e2, e3, e4, e5, e6⟩ := ih _ _ h
        have e7 : c = i + (x :: ds).length := by rw [e4, List.length_cons, Nat.add_assoc, Nat.add_comm 1]
        refine ⟨x :: ds, r, by rw [e1]; rfl, e2, ?_, e7, by rw [value_cons]; exact e5, e6⟩
        intro y hy
        rcases List.mem_cons.1 hy with rfl | hy
        · exact hx
        · exact e3 y hy
    · rw [if_neg hx] at h
      by_cases hi : i = 0
      · rw [if_pos hi] at h; cases h
      · rw [if_neg hi] at h
        obtain ⟨h1, h2⟩ := Prod.mk.inj (Option.some.inj h)
        subst h1; subst h2
        refine ⟨[], x :: s, rfl, ?_, (fun x hx => by cases hx), rfl, rfl, hi⟩
        intro c hc
        simp only [List.head?_cons, Option.some.injEq] at hc
        subst hc; exact hx

theorem digNat {x : UInt8} (h : 48 ≤ x ∧ x ≤ 57) : 48 ≤ x.toNat ∧ x.toNat ≤ 57 := by
  rw [UInt8.le_iff_toNat_le, UInt8.le_iff_toNat_le] at h
  simpa using h

theorem byte_eq {x y : UInt8} (h : x.toNat = y.toNat) : x = y := UInt8.toNat_inj.1 h

theorem add48 (d : UInt8) (h : d.toNat < 10) : (48 + d).toNat = 48 + d.toNat := by
  rw [UInt8.toNat_add]; simp only [UInt8.reduceToNat]; omega

theorem div10 (a : UInt8) : (a / 10).toNat = a.toNat / 10 := by rw [UInt8.toNat_div]; rfl
theorem div100 (a : UInt8) : (a / 100).toNat = a.toNat / 100 := by rw [UInt8.toNat_div]; rfl
theorem mod10 (a : UInt8) : (a % 10).toNat = a.toNat % 10 := by rw [UInt8.toNat_mod]; rfl

theorem dec1 {a x : UInt8} (hx : 48 ≤ x.toNat ∧ x.toNat ≤ 57) (h : a.toNat = x.toNat - 48) : [x] = decByte a := by
  rcases decByte_cases a with ⟨h1, e⟩ | ⟨h1, h2, e⟩ | ⟨h1, e⟩
  · rw [e, byte_eq (x := x) (y := 48 + a) (by rw [add48 a h1]; omega)]
  · omega
  · omega

theorem dec2 {a x y : UInt8} (hx : 49 ≤ x.toNat ∧ x.toNat ≤ 57) (hy : 48 ≤ y.toNat ∧ y.toNat ≤ 57)
    (h : a.toNat = (x.toNat - 48) * 10 + (y.toNat - 48)) : [x, y] = decByte a := by
  rcases decByte_cases a with ⟨h1, e⟩ | ⟨h1, h2, e⟩ | ⟨h1, e⟩
  · omega
  · have a1 : a.toNat / 10 = x.toNat - 48 := by omega
    have a2 : a.toNat % 10 = y.toNat - 48 := by omega
    rw [e, byte_eq (x := x) (y := 48 + a / 10) (by rw [add48 _ (by rw [div10]; omega), div10]; omega),
      byte_eq (x := y) (y := 48 + a % 10) (by rw [add48 _ (by rw [mod10]; omega), mod10]; omega)]
  · omega

theorem dec3 {a x y z : UInt8} (hx : 49 ≤ x.toNat ∧ x.toNat ≤ 57) (hy : 48 ≤ y.toNat ∧ y.toNat ≤ 57) (hz : 48 ≤ z.toNat ∧ z.toNat ≤ 57)
    (h : a.toNat = ((x.toNat - 48) * 10 + (y.toNat - 48)) * 10 + (z.toNat - 48)) : [x, y, z] = decByte a := by
  rcases decByte_cases a with ⟨h1, e⟩ | ⟨h1, h2, e⟩ | ⟨h1, e⟩
  · omega
  · omega
  · have a1 : a.toNat / 100 = x.toNat - 48 := by omega
    have a2 : a.toNat / 10 % 10 = y.toNat - 48 := by omega
    have a3 : a.toNat % 10 = z.toNat - 48 := by omega
    rw [e, byte_eq (x := x) (y := 48 + a / 100) (by rw [add48 _ (by rw [div100]; omega), div100]; omega),
      byte_eq (x := y) (y := 48 + a / 10 % 10) (by rw [add48 _ (by rw [mod10, div10]; omega), mod10, div10]; omega),
      byte_eq (x := z) (y := 48 + a % 10) (by rw [add48 _ (by rw [mod10]; omega), mod10]; omega)]

theorem value_long {x y z w : UInt8} (ds : Bytes) (hx : 49 ≤ x.toNat) : 1000 ≤ value 0 (x :: y :: z :: w :: ds) := by
  rw [value_cons, value_cons, value_cons, value_cons]
  have := value_ge ds ((((0 * 10 + (x.toNat - 48)) * 10 + (y.toNat - 48)) * 10 + (z.toNat - 48)) * 10 + (w.toNat - 48))
  generalize value _ ds = v at *
  generalize y.toNat - 48 = y' at *
  generalize z.toNat - 48 = z' at *
  generalize w.toNat - 48 = w' at *
  omega

theorem octet_inv {s r : Bytes} {a : UInt8} (h : octet s = some (a, r)) : s = decByte a ++ r ∧ stops r := by
  unfold octet at h
  cases hd : dtoiLoop s 0 0 with
  | none => rw [hd] at h; cases h
  | some p =>
    obtain ⟨m, c⟩ := p
    rw [hd] at h
    simp only at h
    by_cases h255 : m > 255
    · rw [if_pos h255] at h; cases h
    rw [if_neg h255] at h
    by_cases hz : c > 1 ∧ s.head? = some 48
    · rw [if_pos hz] at h; cases h
    rw [if_neg hz] at h
    obtain ⟨ha, hr⟩ := Prod.mk.inj (Option.some.inj h)
    obtain ⟨ds, r', e1, e2, e3, e4, e5, e6⟩ := dtoiLoop_inv s 0 0 m c hd
    have hr' : r = r' := by
      rw [← hr, e1, e4]; simp
    rw [hr']
    refine ⟨?_, e2⟩
    rw [e1]
    congr 1
    have han : a.toNat = m := by
      rw [← ha, UInt8.toNat_ofNat']
      exact Nat.mod_eq_of_lt (by omega)
    have hhead : ds.length > 1 → ds.head? ≠ some 48 := by
      intro hl hh
      apply hz
      refine ⟨by omega, ?_⟩
      rw [e1]
      cases ds with
      | nil => simp at hl
      | cons x ds => simpa using hh
    have digit : ∀ x ∈ ds, 48 ≤ x.toNat ∧ x.toNat ≤ 57 := fun x hx => digNat (e3 x hx)
    have first : ∀ x, ds.length > 1 → ds.head? = some x → x.toNat ≠ 48 :=
      fun x hl hh h48 => hhead hl (by rw [hh, byte_eq (x := x) (y := 48) h48])
    clear hhead e3 h hd hz e1 ha hr
    rcases ds with _ | ⟨x, _ | ⟨y, _ | ⟨z, _ | ⟨w, ds⟩⟩⟩⟩
    · exact absurd e4 e6
    · exact dec1 (digit x (by simp)) (by rw [han, e5]; simp only [value_cons, value_nil]; omega)
    · have h1 := digit x (by simp)
      have h2 := first x (by simp) rfl
      exact dec2 ⟨by omega, h1.2⟩ (digit y (by simp)) (by rw [han, e5]; simp only [value_cons, value_nil]; omega)
    · have h1 := digit x (by simp)
      have h2 := first x (by simp) rfl
      exact dec3 ⟨by omega, h1.2⟩ (digit y (by simp)) (digit z (by simp)) (by rw [han, e5]; simp only [value_cons, value_nil]; omega)
    · have h1 := digit x (by simp)
      have h2 := first x (by simp) rfl
      have := value_long (x := x) (y := y) (z := z) (w := w) ds (by omega)
      omega

theorem stops_dot (s : Bytes) : stops (46 :: s) := by
  intro c hc
  simp only [List.head?_cons, Option.some.injEq] at hc
  subst hc; decide

theorem stops_nil : stops [] := fun c hc => by cases hc

theorem dot_inv {s r : Bytes} (h : dot s = some r) : s = 46 :: r := by
  unfold dot at h
  split at h
  · simp only [Option.some.injEq] at h; rw [h]
  · cases h

/-- The 16 bytes in which Go keeps an IPv4 address. -/
def mapped (a b c d : UInt8) : Bytes := [0, 0, 0, 0, 0, 0, 0, 0, 0, 0, 255, 255, a, b, c, d]

theorem parse4_iff (s ip : Bytes) : parse4 s = some ip ↔ ∃ a b c d, s = dotted a b c d ∧ ip = mapped a b c d := by
  constructor
  · intro h
    unfold parse4 at h
    simp only [Option.bind_eq_bind, Option.bind_eq_some_iff] at h
    obtain ⟨⟨a, s1⟩, h1, s2, h2, ⟨b, s3⟩, h3, s4, h4, ⟨c, s5⟩, h5, s6, h6, ⟨d, s7⟩, h7, h8⟩ := h
    simp only at h2 h4 h6 h8
    split at h8
    · rename_i h9
      simp only [Option.some.injEq] at h8
      refine ⟨a, b, c, d, ?_, h8.symm⟩
      rw [(octet_inv h1).1, dot_inv h2, (octet_inv h3).1, dot_inv h4, (octet_inv h5).1, dot_inv h6, (octet_inv h7).1, h9]
      simp [dotted]
    · cases h8
  · rintro ⟨a, b, c, d, rfl, rfl⟩
    unfold parse4 dotted
    rw [octet_dec a _ (stops_dot _)]
    simp only [Option.bind_eq_bind, Option.bind_some, dot]
    rw [octet_dec b _ (stops_dot _)]
    simp only [Option.bind_eq_bind, Option.bind_some, dot]
    rw [octet_dec c _ (stops_dot _)]
    simp only [Option.bind_eq_bind, Option.bind_some, dot]
    have := octet_dec d [] stops_nil
    rw [List.append_nil] at this
    rw [this]
    rfl

theorem decByte_digits (a : UInt8) : ∀ x ∈ decByte a, 48 ≤ x ∧ x ≤ 57 := by
  intro x hx
  have ha := a.toNat_lt
  unfold decByte at hx
  split at hx
  · rename_i h
    simp only [List.mem_singleton] at hx
    subst hx; exact dig_lo a h
  · rename_i h
    split at hx
    · rename_i h2
      rw [UInt8.lt_iff_toNat_lt] at h h2
      simp only [UInt8.reduceToNat] at h h2
      simp only [List.mem_cons, List.not_mem_nil, or_false] at hx
      rcases hx with rfl | rfl
      · exact dig_lo _ (by rw [UInt8.lt_iff_toNat_lt, UInt8.toNat_div]; simp only [UInt8.reduceToNat]; omega)
      · exact dig_lo _ (by rw [UInt8.lt_iff_toNat_lt, UInt8.toNat_mod]; simp only [UInt8.reduceToNat]; omega)
    · simp only [List.mem_cons, List.not_mem_nil, or_false] at hx
      rcases hx with rfl | rfl | rfl
      · exact dig_lo _ (by rw [UInt8.lt_iff_toNat_lt, UInt8.toNat_div]; simp only [UInt8.reduceToNat]; omega)
      · exact dig_lo _ (by rw [UInt8.lt_iff_toNat_lt, UInt8.toNat_mod, UInt8.toNat_div]; simp only [UInt8.reduceToNat]; omega)
      · exact dig_lo _ (by rw [UInt8.lt_iff_toNat_lt, UInt8.toNat_mod]; simp only [UInt8.reduceToNat]; omega)

theorem find_sep (ds r : Bytes) (h : ∀ x ∈ ds, (48 : UInt8) ≤ x ∧ x ≤ 57) :
    (ds ++ 46 :: r).find? (fun c => c = 46 ∨ c = 58) = some 46 := by
  induction ds with
  | nil => rfl
  | cons x ds ih =>
    have hx := digNat (h x (by simp))
    rw [List.cons_append, List.find?_cons_of_neg]
    · exact ih (fun y hy => h y (by simp [hy]))
    · simp only [decide_eq_true_eq, not_or]
      constructor <;> (intro he; subst he; revert hx; decide)

theorem parseIP_dotted (parse6 : Bytes → Option Bytes) (a b c d : UInt8) : parseIP parse6 (dotted a b c d) = some (mapped a b c d) := by
  have : (dotted a b c d).find? (fun c => c = 46 ∨ c = 58) = some 46 := find_sep _ _ (decByte_digits a)
  unfold parseIP
  rw [this]
  exact (parse4_iff _ _).2 ⟨a, b, c, d, rfl, rfl⟩

theorem parseIP_some {parse6 : Bytes → Option Bytes} {s ip : Bytes} (h : parseIP parse6 s = some ip) :
    (∃ a b c d, s = dotted a b c d ∧ ip = mapped a b c d) ∨ ((58 : UInt8) ∈ s ∧ parse6 s = some ip) := by
  unfold parseIP at h
  cases hf : s.find? (fun c => c = 46 ∨ c = 58) with
  | none => rw [hf] at h; cases h
  | some x =>
    rw [hf] at h
    simp only at h
    by_cases h46 : x = 46
    · rw [if_pos h46] at h
      exact .inl ((parse4_iff _ _).1 h)
    · rw [if_neg h46] at h
      have hm := List.mem_of_find?_eq_some hf
      have hp := List.find?_some hf
      simp only [decide_eq_true_eq] at hp
      rcases hp with hp | hp
      · exact absurd hp h46
      · exact .inr ⟨hp ▸ hm, h⟩

theorem bind_dotted (parse6 : Bytes → Option Bytes) (a b c d : UInt8) (port : UInt16) : bind parse6 (dotted a b c d) port = some ([0, 0, 0, 0], port) := by
  unfold Listen.bind
  rw [parseIP_dotted]; rfl

end Metis.Listen
