import Verif.Spec.Exact
import Verif.Proofs.RefSys
import Verif.Proofs.Fatal
import Verif.Proofs.TallyCmd
/-!
The sizes of the pages of a list under the list commands.
-/
set_option linter.unusedSectionVars false
set_option linter.unusedSimpArgs false
set_option linter.unusedVariables false
namespace Metis.ExactSim
open Metis Metis.Spec

/-- The sizes of the pages. -/
def pageSizes (q : Quicklist Bytes) : List Nat := q.pages.map List.length

theorem grownBack_append (a : List Nat) (n : Nat) : Exact.grownBack (a ++ [n]) = if n = 1024 then a ++ [n, 1] else a ++ [n + 1] := by
  induction a with
  | nil => simp only [List.nil_append, Exact.grownBack]
  | cons x a ih =>
    have : Exact.grownBack (x :: (a ++ [n])) = x :: Exact.grownBack (a ++ [n]) := by
      cases a <;> rfl
    rw [List.cons_append, this, ih]
    split <;> simp

theorem sizes_back (q : Quicklist Bytes) (v : Bytes) : pageSizes (Quicklist.pushBack pageSize q v) = Exact.grownBack (pageSizes q) := by
  unfold Quicklist.pushBack pageSizes
  rcases List.eq_nil_or_concat q.pages with h | ⟨pre, last, h⟩
  · rw [h]; rfl
  · rw [h]
    simp only [List.concat_eq_append, List.getLast?_append, List.getLast?_singleton, Option.some_or, List.map_append, List.map_cons, List.map_nil,
      grownBack_append, pageSize]
    split
    · simp
    · simp

theorem sizes_front {q q' : Quicklist Bytes} (w : Quicklist.Wf pageSize q) {v : Bytes} (h : Quicklist.pushFront pageSize q v = some q') :
    pageSizes q' = Exact.grownFront (pageSizes q) := by
  have hl : q.length = q.pages.flatten.length := w.len
  unfold Quicklist.pushFront at h
  simp only [Option.bind_eq_bind, Option.bind_eq_some_iff] at h
  obtain ⟨⟨b, q1⟩, h1, h2⟩ := h
  cases h2
  unfold Quicklist.insert at h1
  rw [if_neg (by omega)] at h1
  cases hp : q.pages with
  | nil =>
    rw [hp] at hl
    rw [if_pos (by simp [hl])] at h1
    cases h1
    unfold Quicklist.pushBack pageSizes
    rw [hp]; rfl
  | cons p ps =>
    have hpos := List.length_pos_iff.2 (w.ne p (by rw [hp]; simp))
    have hle : p.length ≤ 1024 := w.le p (by rw [hp]; simp)
    rw [hp, List.flatten_cons, List.length_append] at hl
    rw [if_neg (by omega)] at h1
    have hg : Quicklist.getPos ⟨p :: ps, q.length + 1⟩ 0 = some ⟨some 0, 0⟩ := by
      unfold Quicklist.getPos
      rw [if_neg (by simp only; omega), if_pos (by simp only; omega)]
      simp only [Quicklist.frontFind]
      rw [if_pos (by omega)]
      rfl
    simp only [hp, hg, Option.bind_eq_bind, Option.bind_some, List.getElem?_cons_zero] at h1
    unfold pageSizes
    rw [hp]
    simp only [List.map_cons, Exact.grownFront]
    by_cases hf : p.length < pageSize
    · rw [if_pos hf] at h1
      simp only [Quicklist.insertAt, Option.bind_eq_some_iff] at h1
      rw [if_neg (by unfold pageSize at hf; omega)]
      obtain ⟨p', h2, h3⟩ := h1
      rw [if_neg (by omega)] at h2
      cases h2; cases h3
      simp
    · rw [if_neg hf] at h1
      have he : p.length = 1024 := by unfold pageSize at hf; omega
      rw [if_pos he]
      have ht : (p.take (pageSize / 2)).length = 512 := by simp [he, pageSize]
      have hd : (p.drop (pageSize / 2)).length = 512 := by simp [he, pageSize]
      rw [if_pos (by rw [ht]; decide)] at h1
      simp only [Quicklist.insertAt, Option.bind_eq_some_iff] at h1
      obtain ⟨p', h2, h3⟩ := h1
      rw [if_neg (by omega)] at h2
      cases h2; cases h3
      simp [ht, hd]

theorem sizes_rpush : ∀ (vs : List Bytes) {q : Quicklist Bytes}, Quicklist.Wf pageSize q →
    Quicklist.Wf pageSize (Cmds.rpushLoop vs q) ∧ (Cmds.rpushLoop vs q).pages.flatten = q.pages.flatten ++ vs ∧
      pageSizes (Cmds.rpushLoop vs q) = Exact.several Exact.grownBack vs.length (pageSizes q)
  | [], q, w => ⟨w, by simp [Cmds.rpushLoop], rfl⟩
  | v :: vs, q, w => by
    have h1 := Quicklist.pushBack_spec (ps := pageSize) (by decide) q w v
    obtain ⟨h2, h3, h4⟩ := sizes_rpush vs h1.1
    have h5 : (Quicklist.pushBack pageSize q v).pages.flatten = q.pages.flatten ++ [v] := h1.2
    rw [h5] at h3
    rw [sizes_back] at h4
    exact ⟨h2, by rw [show Cmds.rpushLoop (v :: vs) q = Cmds.rpushLoop vs (Quicklist.pushBack pageSize q v) from rfl, h3]; simp, h4⟩

theorem sizes_lpush : ∀ (vs : List Bytes) {q : Quicklist Bytes}, Quicklist.Wf pageSize q →
    ∃ q', Cmds.lpushLoop vs q = some q' ∧ Quicklist.Wf pageSize q' ∧ q'.pages.flatten = vs.reverse ++ q.pages.flatten ∧
      pageSizes q' = Exact.several Exact.grownFront vs.length (pageSizes q)
  | [], q, w => ⟨q, rfl, w, rfl, rfl⟩
  | v :: vs, q, w => by
    obtain ⟨q1, h1, h2, h3⟩ := Quicklist.pushFront_spec (ps := pageSize) (by decide) q w v
    obtain ⟨q2, h4, h5, h6, h7⟩ := sizes_lpush vs h2
    have h8 : q1.pages.flatten = v :: q.pages.flatten := h3
    refine ⟨q2, ?_, h5, by rw [h6, h8]; simp, by rw [h7, sizes_front w h1]; rfl⟩
    unfold Cmds.lpushLoop
    rw [h1]; exact h4

theorem sizes_remove {q q' : Quicklist Bytes} {v : Option Bytes} {pre post : List (List Bytes)} {p : List Bytes} (w : Quicklist.Wf pageSize q) {i : Int} {off : Nat}
    (e : q.pages = pre ++ p :: post) (hg : Quicklist.getPos q i = some { node := some pre.length, offset := off }) (h : Quicklist.remove q i = some (v, q')) :
    pageSizes q' = pre.map List.length ++ Exact.shrunk (p.length :: post.map List.length) := by
  unfold Quicklist.remove at h
  rw [hg] at h
  simp only [e, Quicklist.get_mid, Option.bind_eq_bind, Option.bind_some, Int.toNat_natCast] at h
  rw [if_neg (by omega)] at h
  simp only [Option.bind_eq_bind, Option.bind_some, Option.bind_eq_some_iff] at h
  obtain ⟨x, h1, h2⟩ := h
  have hlt : off < p.length := by
    rcases Nat.lt_or_ge off p.length with h | h
    · exact h
    · rw [List.getElem?_eq_none h] at h1; cases h1
  have hlen : (p.take off ++ p.drop (off + 1)).length = p.length - 1 := by simp; omega
  rw [hlen] at h2
  unfold pageSizes
  simp only [Exact.shrunk]
  by_cases hp : 0 < p.length - 1
  · rw [if_pos (by omega)] at h2
    cases h2
    rw [if_neg (by omega)]
    simp only [Quicklist.set_mid, List.map_append, List.map_cons, hlen]
  · rw [if_neg hp] at h2
    cases h2
    rw [if_pos (by omega)]
    simp only [Quicklist.erase_mid, List.map_append]

theorem sizes_popFront {q q' : Quicklist Bytes} {v : Option Bytes} (w : Quicklist.Wf pageSize q) (hne : q.pages.flatten ≠ [])
    (h : Quicklist.popFront q = some (v, q')) : pageSizes q' = Exact.shrunk (pageSizes q) := by
  obtain ⟨pre, p, post, e, h1, h2, h3⟩ := Quicklist.getPos_good q w 0 (List.length_pos_iff.2 hne) (Quicklist.zero_good q w hne)
  have hpre : pre = [] := by
    cases pre with
    | nil => rfl
    | cons x xs =>
      have := List.length_pos_iff.2 (w.ne x (by rw [e]; simp))
      rw [List.flatten_cons, List.length_append] at h1
      omega
  subst hpre
  have := sizes_remove w (off := 0) e (by simpa using h3) h
  rw [this]
  unfold pageSizes
  rw [e]; rfl

theorem sizes_popBack {q q' : Quicklist Bytes} {v : Option Bytes} (w : Quicklist.Wf pageSize q) (hne : q.pages.flatten ≠ []) (hone : ¬ 2 ≤ q.pages.length)
    (h : Quicklist.popBack q = some (v, q')) : pageSizes q' = Exact.shrunk (pageSizes q) := by
  have hl : q.length = q.pages.flatten.length := w.len
  match hp : q.pages with
  | [] => rw [hp] at hne; exact absurd rfl hne
  | _ :: _ :: _ => rw [hp] at hone; simp at hone
  | [p] =>
    have hpos := List.length_pos_iff.2 hne
    have he : q.pages.flatten = p := by rw [hp]; simp
    obtain ⟨pre, p', post, e, h1, h2, h3⟩ := Quicklist.getPos_good q w (q.pages.flatten.length - 1) (by unfold Quicklist.elems; omega)
      (Or.inr (by rw [hp]; simp only [List.headD_cons]; rw [← hp, he]; rw [he] at hpos; omega))
    have hpre : pre = [] ∧ p' = p ∧ post = [] := by
      rw [hp] at e
      cases pre with
      | nil => simp at e; exact ⟨rfl, e.1.symm, e.2⟩
      | cons x xs => simp at e
    obtain ⟨rfl, rfl, rfl⟩ := hpre
    unfold Quicklist.popBack at h
    have := sizes_remove w (off := q.pages.flatten.length - 1) e (by
      rw [show ((q.length : Int) - 1) = ((q.pages.flatten.length - 1 : Nat) : Int) by omega]; simpa using h3) h
    rw [this]
    unfold pageSizes
    rw [e]; rfl

end Metis.ExactSim
