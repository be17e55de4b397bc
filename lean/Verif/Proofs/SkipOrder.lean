import Verif.Spec.SortedPairs
import Verif.Proofs.Skiplist
/-!
The order of the searches of the skiplist is the order of the specification.
-/
set_option linter.unusedSectionVars false
set_option linter.unusedSimpArgs false
set_option linter.unusedVariables false
namespace Metis
open Metis.Spec

theorem bytesLt_iff (a b : Bytes) : bytesLt a b = true ↔ lexLt a b := by
  induction a generalizing b with
  | nil =>
    cases b with
    | nil =>
      simp only [bytesLt, Bool.false_eq_true, false_iff]
      rintro (⟨c, r, h⟩ | ⟨p, c, d, s, t, h, _⟩) <;> simp at h
    | cons b bs =>
      simp only [bytesLt, true_iff]
      exact Or.inl ⟨b, bs, rfl⟩
  | cons a as ih =>
    cases b with
    | nil =>
      simp only [bytesLt, Bool.false_eq_true, false_iff]
      rintro (⟨c, r, h⟩ | ⟨p, c, d, s, t, _, h, _⟩) <;> simp at h
    | cons b bs =>
      simp only [bytesLt, Bool.or_eq_true, Bool.and_eq_true, decide_eq_true_eq, beq_iff_eq, ih]
      constructor
      · rintro (h | ⟨rfl, (⟨c, r, h⟩ | ⟨p, c, d, s, t, h1, h2, h3⟩)⟩)
        · exact Or.inr ⟨[], a, b, as, bs, rfl, rfl, UInt8.lt_iff_toNat_lt.1 h⟩
        · exact Or.inl ⟨c, r, by simp [h]⟩
        · exact Or.inr ⟨a :: p, c, d, s, t, by simp [h1], by simp [h2], h3⟩
      · rintro (⟨c, r, h⟩ | ⟨p, c, d, s, t, h1, h2, h3⟩)
        · simp at h; exact Or.inr ⟨h.1.symm, Or.inl ⟨c, r, h.2⟩⟩
        · cases p with
          | nil =>
            simp at h1 h2
            left
            rw [h1.1, h2.1]
            exact UInt8.lt_iff_toNat_lt.2 h3
          | cons e p =>
            simp at h1 h2
            exact Or.inr ⟨h1.1.trans h2.1.symm, Or.inr ⟨p, c, d, s, t, h1.2, h2.2, h3⟩⟩

theorem bytesLt_irrefl (a : Bytes) : bytesLt a a = false := by
  induction a with
  | nil => rfl
  | cons a as ih => simp [bytesLt, ih]

theorem bytesLt_trans {a b c : Bytes} (h1 : bytesLt a b = true) (h2 : bytesLt b c = true) : bytesLt a c = true := by
  induction a generalizing b c with
  | nil =>
    cases c with
    | nil => cases b <;> simp [bytesLt] at h2
    | cons => rfl
  | cons a as ih =>
    cases b with
    | nil => simp [bytesLt] at h1
    | cons b bs =>
      cases c with
      | nil => simp [bytesLt] at h2
      | cons c cs =>
        simp only [bytesLt, Bool.or_eq_true, Bool.and_eq_true, decide_eq_true_eq, beq_iff_eq] at *
        rcases h1 with h1 | ⟨rfl, h1⟩
        · rcases h2 with h2 | ⟨rfl, h2⟩
          · exact Or.inl (UInt8.lt_trans h1 h2)
          · exact Or.inl h1
        · rcases h2 with h2 | ⟨rfl, h2⟩
          · exact Or.inl h2
          · exact Or.inr ⟨rfl, ih h1 h2⟩

theorem bytesLt_total (a b : Bytes) : bytesLt a b = true ∨ a = b ∨ bytesLt b a = true := by
  induction a generalizing b with
  | nil => cases b <;> simp [bytesLt]
  | cons a as ih =>
    cases b with
    | nil => simp [bytesLt]
    | cons b bs =>
      simp only [bytesLt, Bool.or_eq_true, Bool.and_eq_true, decide_eq_true_eq, beq_iff_eq, List.cons.injEq]
      by_cases h : a = b
      · subst h
        rcases ih bs with h | h | h
        · exact Or.inl (Or.inr ⟨rfl, h⟩)
        · exact Or.inr (Or.inl ⟨rfl, h⟩)
        · exact Or.inr (Or.inr (Or.inr ⟨rfl, h⟩))
      · have : a.toNat ≠ b.toNat := fun e => h (UInt8.toNat_inj.1 e)
        rcases Nat.lt_or_gt_of_ne this with h' | h'
        · exact Or.inl (Or.inl (UInt8.lt_iff_toNat_lt.2 h'))
        · exact Or.inr (Or.inr (Or.inl (UInt8.lt_iff_toNat_lt.2 h')))

namespace Spec

theorem plt_irrefl (p : Pair) : ¬ plt p p := by
  rintro (h | ⟨_, h⟩)
  · omega
  · have := (bytesLt_iff _ _).2 h; rw [bytesLt_irrefl] at this; cases this

theorem plt_trans {p q r : Pair} (h1 : plt p q) (h2 : plt q r) : plt p r := by
  rcases h1 with h1 | ⟨e1, h1⟩ <;> rcases h2 with h2 | ⟨e2, h2⟩
  · left; omega
  · left; omega
  · left; omega
  · right; exact ⟨by omega, (bytesLt_iff _ _).1 (bytesLt_trans ((bytesLt_iff _ _).2 h1) ((bytesLt_iff _ _).2 h2))⟩

theorem plt_total (p q : Pair) : plt p q ∨ same p q = true ∨ plt q p := by
  unfold plt same
  rcases Int.lt_trichotomy p.1.key q.1.key with h | h | h
  · exact Or.inl (Or.inl h)
  · rcases bytesLt_total p.2 q.2 with h' | h' | h'
    · exact Or.inl (Or.inr ⟨h, (bytesLt_iff _ _).1 h'⟩)
    · right; left; simp [h, h']
    · exact Or.inr (Or.inr (Or.inr ⟨h.symm, (bytesLt_iff _ _).1 h'⟩))
  · exact Or.inr (Or.inr (Or.inl h))

theorem same_iff {p q : Pair} : same p q = true ↔ p.1.key = q.1.key ∧ p.2 = q.2 := by
  simp [same]

theorem same_plt {p q : Pair} (h : same p q = true) (r : Pair) : (plt p r ↔ plt q r) ∧ (plt r p ↔ plt r q) := by
  obtain ⟨h1, h2⟩ := same_iff.1 h
  unfold plt
  rw [h1, h2]; exact ⟨Iff.rfl, Iff.rfl⟩

/-- not after is transitive -/
theorem nlt_trans {p q r : Pair} (h1 : ¬ plt q p) (h2 : ¬ plt r q) : ¬ plt r p := by
  intro h
  rcases plt_total p q with h' | h' | h'
  · exact h2 (plt_trans h h')
  · exact h2 (((same_plt h' r).2).1 h)
  · exact h1 h'

theorem plt_of_plt_of_nlt {p q r : Pair} (h1 : plt p q) (h2 : ¬ plt r q) : plt p r := by
  rcases plt_total p r with h | h | h
  · exact h
  · exact absurd (((same_plt h q).1).1 h1) h2
  · exact absurd (plt_trans h h1) h2

theorem plt_of_nlt_of_plt {p q r : Pair} (h1 : ¬ plt q p) (h2 : plt q r) : plt p r := by
  rcases plt_total p r with h | h | h
  · exact h
  · exact absurd (((same_plt h q).2).2 h2) h1
  · exact absurd (plt_trans h2 h) h1

end Spec

namespace F64
variable {x y : F64}
theorem lt_iff (hx : x.isNaN = false) (hy : y.isNaN = false) : x.lt y = true ↔ x.key < y.key := by simp [lt, hx, hy]
theorem le_iff (hx : x.isNaN = false) (hy : y.isNaN = false) : x.le y = true ↔ x.key ≤ y.key := by simp [le, hx, hy]
theorem eq_iff (hx : x.isNaN = false) (hy : y.isNaN = false) : x.eq y = true ↔ x.key = y.key := by simp [eq, hx, hy]
end F64

namespace Skiplist

theorem before_iff {n : SNode} {score : F64} {member : Bytes} {r : Int} (h1 : n.score.isNaN = false) (h2 : score.isNaN = false) :
    before score member n r = true ↔ plt (n.score, n.member) (score, member) := by
  unfold before plt
  simp only [Bool.or_eq_true, Bool.and_eq_true, F64.lt_iff h1 h2, F64.eq_iff h1 h2, bytesLt_iff]

end Skiplist

/-- A prefix that passes, a suffix that fails: at the boundary of a monotone guard. -/
theorem guard_split {α : Type} {R : α → α → Prop} {A B : List α} {g : α → Bool} (hs : (A ++ B).Pairwise R)
    (hm : ∀ a b, R a b → g b = true → g a = true) (h1 : ∀ A' a, A = A' ++ [a] → g a = true) (h2 : ∀ y w, B = y :: w → g y = false) :
    (∀ a ∈ A, g a = true) ∧ ∀ b ∈ B, g b = false := by
  rw [List.pairwise_append] at hs
  constructor
  · rcases List.eq_nil_or_concat A with h | ⟨A', a, h⟩
    · rw [h]; simp
    · rw [List.concat_eq_append] at h
      intro b hb
      have ha := h1 A' a h
      rw [h] at hb hs
      rcases List.mem_append.1 hb with hb | hb
      · exact hm b a ((List.pairwise_append.1 hs.1).2.2 b hb a (by simp)) ha
      · simp at hb; rw [hb]; exact ha
  · cases B with
    | nil => simp
    | cons y w =>
      have hy := h2 y w rfl
      intro b hb
      rcases List.mem_cons.1 hb with rfl | hb
      · exact hy
      · cases hgb : g b with
        | false => rfl
        | true => rw [hm y b ((List.pairwise_cons.1 hs.2.1).1 b hb) hgb] at hy; cases hy

end Metis
