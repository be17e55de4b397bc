import Verif.Model.Num
import Verif.Spec.RespSpec
import Mathlib.Tactic.ByContra
/-! Decimal numbers: printing and parsing. -/
set_option linter.unusedSectionVars false
set_option linter.unusedSimpArgs false
set_option linter.unusedVariables false
namespace Metis
open Metis.Spec

theorem ofNat_digit {d : Nat} (h : d < 10) : (UInt8.ofNat (48 + d)).toNat = 48 + d := by
  rw [UInt8.toNat_ofNat']; omega

theorem digitChar_byte {d : Nat} (h : d < 10) : UInt8.ofNat (Nat.digitChar d).toNat = UInt8.ofNat (48 + d) := by
  have : d = 0 ∨ d = 1 ∨ d = 2 ∨ d = 3 ∨ d = 4 ∨ d = 5 ∨ d = 6 ∨ d = 7 ∨ d = 8 ∨ d = 9 := by omega
  rcases this with h | h | h | h | h | h | h | h | h | h <;> subst h <;> rfl

theorem digits_dec : ∀ (f n : Nat), n < f → digits f n = dec n := by
  intro f
  induction f with
  | zero => intro n h; omega
  | succ f ih =>
    intro n h
    unfold digits dec
    rw [Nat.toDigits_eq_if (by omega)]
    split
    · next h10 => simp [digitChar_byte h10]
    · next h10 =>
      rw [ih (n / 10) (by omega)]
      simp [dec, digitChar_byte (Nat.mod_lt n (show 10 > 0 by omega))]

/-- Go's printing is the decimal representation. -/
theorem natToa_dec (n : Nat) : natToa n = dec n := digits_dec _ _ (by omega)

theorem digitsVal_append : ∀ (a b : Bytes) (acc : Nat), digitsVal (a ++ b) acc = (digitsVal a acc).bind (digitsVal b) := by
  intro a
  induction a with
  | nil => intro b acc; rfl
  | cons c cs ih =>
    intro b acc
    simp only [List.cons_append, digitsVal]
    split
    · exact ih b _
    · rfl

theorem digits_spec : ∀ (f n : Nat), n < f → digitsVal (digits f n) 0 = some n ∧ (∀ c ∈ digits f n, 48 ≤ c.toNat ∧ c.toNat ≤ 57) ∧ digits f n ≠ [] := by
  intro f
  induction f with
  | zero => intro n h; omega
  | succ f ih =>
    intro n h
    unfold digits
    split
    · next h10 =>
      refine ⟨?_, ?_, by simp⟩
      · simp only [digitsVal, ofNat_digit h10]
        rw [if_pos (by omega)]
        congr 1; omega
      · intro c hc
        rw [List.mem_singleton] at hc
        rw [hc, ofNat_digit h10]; omega
    · next h10 =>
      obtain ⟨h1, h2, h3⟩ := ih (n / 10) (by omega)
      have hm := Nat.mod_lt n (show 10 > 0 by omega)
      refine ⟨?_, ?_, by simp⟩
      · rw [digitsVal_append, h1]
        simp only [Option.bind_some, digitsVal, ofNat_digit hm]
        rw [if_pos (by omega)]
        congr 1; omega
      · intro c hc
        rcases List.mem_append.1 hc with hc | hc
        · exact h2 c hc
        · rw [List.mem_singleton] at hc
          rw [hc, ofNat_digit hm]; omega

theorem digits_length : ∀ (f n k : Nat), n < f → n < 10 ^ k → 1 ≤ k → (digits f n).length ≤ k := by
  intro f
  induction f with
  | zero => intro n k h; omega
  | succ f ih =>
    intro n k h hk h1
    unfold digits
    split
    · simp; omega
    · next h10 =>
      have hk2 : 2 ≤ k := by
        by_contra hc
        have : k = 1 := by omega
        subst this; omega
      obtain ⟨k, rfl⟩ : ∃ j, k = j + 1 := ⟨k - 1, by omega⟩
      have := ih (n / 10) k (by omega) (by rw [Nat.pow_succ] at hk; omega) (by omega)
      simp; omega

theorem dec_val (n : Nat) : digitsVal (dec n) 0 = some n := by rw [← digits_dec (n + 1) n (by omega)]; exact (digits_spec _ _ (by omega)).1

theorem dec_digit {n : Nat} {c : UInt8} (h : c ∈ dec n) : 48 ≤ c.toNat ∧ c.toNat ≤ 57 := by
  rw [← digits_dec (n + 1) n (by omega)] at h; exact (digits_spec _ _ (by omega)).2.1 c h

theorem dec_ne (n : Nat) : dec n ≠ [] := by rw [← digits_dec (n + 1) n (by omega)]; exact (digits_spec _ _ (by omega)).2.2

theorem dec_length {n : Nat} (h : n < 2 ^ 63) : (dec n).length ≤ 19 := by
  rw [← digits_dec (n + 1) n (by omega)]; exact digits_length _ _ 19 (by omega) (by omega) (by omega)

/-- First byte of a decimal is no sign. -/
theorem signOf_dec (n : Nat) : signOf (dec n) = (false, dec n) := by
  have h := dec_ne n
  have hd := fun c hc => dec_digit (n := n) (c := c) hc
  cases e : dec n with
  | nil => exact absurd e h
  | cons c cs =>
    have := hd c (by rw [e]; simp)
    have h1 : c ≠ 45 := by intro hc; rw [hc] at this; exact absurd this (by decide)
    have h2 : c ≠ 43 := by intro hc; rw [hc] at this; exact absurd this (by decide)
    unfold signOf
    split
    · next heq => simp at heq; exact absurd heq.1 h1
    · next heq => simp at heq; exact absurd heq.1 h2
    · rfl

theorem atoi_dec {n : Nat} (h : n < 2 ^ 63) : atoi (dec n) = some (n : Int) := by
  unfold atoi
  rw [signOf_dec]
  simp only [if_neg (dec_ne n), dec_val]
  simp [h]

theorem atoi_neg {n : Nat} (h : n ≤ 2 ^ 63) : atoi (45 :: dec n) = some (-(n : Int)) := by
  unfold atoi
  simp only [signOf, if_neg (dec_ne n), dec_val]
  simp [h]

/-- Parsing a printed int64 gives it back. -/
theorem atoi_itoa {n : Int} (h1 : -2 ^ 63 ≤ n) (h2 : n < 2 ^ 63) : atoi (itoa n) = some n := by
  unfold itoa
  split
  · rw [natToa_dec, atoi_neg (by omega)]; congr 1; omega
  · rw [natToa_dec, atoi_dec (by omega)]; congr 1; omega

end Metis
