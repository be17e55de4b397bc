import Verif.Proofs.SkipLevel
import Mathlib.Data.List.Nodup
import Mathlib.Data.List.Perm.Subperm
/-!
Invariant of the skiplist heap and the correctness of its searches and updates.
-/
set_option linter.unusedSectionVars false
set_option linter.unusedSimpArgs false
set_option linter.unusedVariables false
namespace Metis.Skiplist
open Metis.Skip

/-- Number of levels of a node. -/
def ht (h : Nat → SNode) (a : Nat) : Nat := (h a).levels.length

/-- Present on level `i`. -/
abbrev Tall (h : Nat → SNode) (i : Nat) (a : Nat) : Prop := i < ht h a

/-- The links of level `i` are right along the chain. -/
def Links (h : Nat → SNode) (i : Nat) (c : List Nat) : Prop := LinksR (Tall h i) (fun a => getLvl h a i) c []

/-- Backward pointers: the predecessor, nil at the first node. -/
def Back (h : Nat → SNode) : Option Nat → List Nat → Prop
  | _, [] => True
  | p, b :: bs => (h b).backward = p ∧ Back h (some b) bs

/-- Last element, or `p`. -/
def lst : Option Nat → List Nat → Option Nat
  | p, [] => p
  | _, a :: as => lst (some a) as

/-- The heap represents the chain of addresses `L` (head excluded), whatever the scores. -/
structure Inv (s : Skiplist) (L : List Nat) : Prop where
  nodup  : (0 :: L).Nodup
  alloc  : ∀ a ∈ 0 :: L, a < s.next
  headHt : ht s.heap 0 = maxLevel
  lev1   : 1 ≤ s.level
  lev32  : s.level ≤ maxLevel
  hts    : ∀ a ∈ L, 1 ≤ ht s.heap a ∧ ht s.heap a ≤ s.level
  links  : ∀ i < s.level, Links s.heap i (0 :: L)
  above  : ∀ i, s.level ≤ i → i < maxLevel → ∃ l, getLvl s.heap 0 i = some l ∧ l.fwd = none
  back   : Back s.heap none L
  tail   : s.tail = lst none L
  len    : s.length = L.length
  headM  : (s.heap 0).member = []
  headS  : (s.heap 0).score = F64.zero
  headB  : (s.heap 0).backward = none

theorem getLvl_some {h : Nat → SNode} {a i : Nat} (hi : i < ht h a) : ∃ l, getLvl h a i = some l :=
  ⟨(h a).levels[i], by unfold getLvl; exact List.getElem?_eq_getElem hi⟩

theorem getLvl_lt {h : Nat → SNode} {a i : Nat} {l : Lvl} (e : getLvl h a i = some l) : i < ht h a := by
  unfold getLvl at e
  exact (List.getElem?_eq_some_iff.1 e).1

/-! ### Search -/

theorem advance_spec {h : Nat → SNode} {guard : SNode → Int → Bool} {i : Nat} {c : List Nat} (hl : Links h i c) :
    ∀ (fuel : Nat) (pre : List Nat) (x : Nat) (post : List Nat), c = pre ++ x :: post → i < ht h x → post.length < fuel →
    ∃ pre' x' post', advance h guard i fuel x pre.length = some (x', (pre'.length : Int)) ∧ c = pre' ++ x' :: post' ∧ i < ht h x' ∧
      pre.length ≤ pre'.length ∧
      (pre'.length = pre.length ∨ guard (h x') pre'.length = true) ∧
      (∀ y, nxt (Tall h i) post' = some y → guard (h y) (pre'.length + dist (Tall h i) post') = false) ∧
      (∀ m v w, post = m ++ v :: w → i < ht h v → guard (h v) (pre.length + m.length + 1) = false → pre'.length ≤ pre.length + m.length) := by
  intro fuel
  induction fuel with
  | zero => intro pre x post _ _ hf; omega
  | succ fuel ih =>
    intro pre x post hc hx hf
    have hg : getLvl h x i = _ := linksR_at (T := Tall h i) (g := fun a => getLvl h a i) (hc ▸ hl) hx
    unfold advance
    rw [hg]
    simp only [Option.bind_eq_bind, Option.bind_some]
    cases hn : nxt (Tall h i) post with
    | none =>
      refine ⟨pre, x, post, rfl, hc, hx, Nat.le_refl _, Or.inl rfl, ?_, ?_⟩
      · rw [hn]; intro y hy; cases hy
      · intros; omega
    | some y =>
      obtain ⟨m, w, e, hlow, hy, hd⟩ := nxt_some hn
      simp only [hd]
      by_cases hgd : guard (h y) ((pre.length : Int) + ((m.length + 1 : Nat) : Int)) = true
      · rw [if_pos hgd]
        have hc' : c = (pre ++ x :: m) ++ y :: w := by rw [hc, e]; simp
        have hlen : ((pre ++ x :: m).length : Int) = (pre.length : Int) + ((m.length + 1 : Nat) : Int) := by simp
        obtain ⟨pre', x', post', h1, h2, h3, h4, h5, h6, h7⟩ := ih (pre ++ x :: m) y w hc' hy (by rw [e] at hf; simp at hf; omega)
        rw [hlen] at h1
        have hlen' : (pre ++ x :: m).length = pre.length + (m.length + 1) := by simp
        refine ⟨pre', x', post', h1, h2, h3, by omega, ?_, h6, ?_⟩
        · rcases h5 with h5 | h5
          · right
            have : pre' = pre ++ x :: m ∧ x' :: post' = y :: w := List.append_inj (h2.symm.trans hc') h5
            rw [this.1, hlen]
            have hxy : x' = y := (List.cons.inj this.2).1
            rw [hxy]; exact hgd
          · exact Or.inr h5
        · intro m2 v w2 e2 hv hgv
          -- `v` is on the level, so it is not inside `m`; it is not `y` since `y` passes
          rw [e] at e2
          rcases List.append_eq_append_iff.1 e2 with ⟨t, ht1, ht2⟩ | ⟨t, ht1, ht2⟩
          · cases t with
            | nil =>
              simp at ht2 ht1
              obtain ⟨rfl, rfl⟩ := ht2
              exfalso
              rw [show (pre.length : Int) + m2.length + 1 = (pre.length : Int) + ((m.length + 1 : Nat) : Int) by rw [ht1]; omega, hgd] at hgv
              cases hgv
            | cons a t =>
              simp at ht2
              obtain ⟨rfl, rfl⟩ := ht2
              have := h7 t v w2 rfl hv (by rw [← hgv, ht1]; congr 1; simp; omega)
              rw [ht1]; simp at this ⊢; omega
          · cases t with
            | nil =>
              simp at ht2 ht1
              obtain ⟨rfl, rfl⟩ := ht2
              exfalso
              rw [show (pre.length : Int) + m2.length + 1 = (pre.length : Int) + ((m.length + 1 : Nat) : Int) by rw [ht1]; omega, hgd] at hgv
              cases hgv
            | cons a t =>
              simp at ht2
              obtain ⟨rfl, rfl⟩ := ht2
              exact absurd hv (hlow v (by rw [ht1]; simp))
      · rw [if_neg hgd]
        refine ⟨pre, x, post, rfl, hc, hx, Nat.le_refl _, Or.inl rfl, ?_, ?_⟩
        · rw [hn]; intro y' hy'; cases hy'; rw [hd]; simpa using hgd
        · intros; omega

/-- What a search records for the levels below `n`: the last node of `0 :: A` on the level, and its position. -/
def Found (h : Nat → SNode) (n : Nat) (c : List Nat) (upd : List (Nat × Int)) : Prop :=
  upd.length = n ∧ ∀ j < n, ∃ u pre mid, upd[j]? = some (u, (pre.length : Int)) ∧ c = pre ++ u :: mid ∧ j < ht h u ∧ Low (Tall h j) mid

theorem descend_spec {h : Nat → SNode} {guard : SNode → Int → Bool} {fuel : Nat} {c : List Nat} (hf : c.length < fuel) :
    ∀ (n : Nat) (pre : List Nat) (x : Nat) (post : List Nat), (∀ i < n, Links h i c) → c = pre ++ x :: post → n ≤ ht h x →
    (∀ a ∈ c, 1 ≤ ht h a) →
    ∃ pre' x' post' upd, descend h guard fuel n x pre.length = some (x', upd) ∧ c = pre' ++ x' :: post' ∧
      Found h n (pre' ++ [x']) upd ∧ pre.length ≤ pre'.length ∧
      (pre'.length = pre.length ∨ guard (h x') pre'.length = true) ∧
      (0 < n → ∀ y w, post' = y :: w → guard (h y) (pre'.length + 1) = false) ∧
      (∀ m v w, post = m ++ v :: w → n ≤ ht h v → guard (h v) (pre.length + m.length + 1) = false → pre'.length ≤ pre.length + m.length) := by
  intro n
  induction n with
  | zero =>
    intro pre x post _ hc _ _
    refine ⟨pre, x, post, [], rfl, hc, ⟨rfl, by intro j hj; omega⟩, Nat.le_refl _, Or.inl rfl, by intro h; omega, by intros; omega⟩
  | succ n ih =>
    intro pre x post hl hc hx hpos
    have hc_len : c.length = pre.length + 1 + post.length := by rw [hc]; simp; omega
    obtain ⟨p1, x1, q1, a1, a2, a3, a4, a5, a6, a7⟩ := advance_spec (guard := guard) (hl n (by omega)) fuel pre x post hc (by omega) (by omega)
    obtain ⟨p2, x2, q2, upd, b1, b2, b3, b4, b5, b6, b7⟩ := ih p1 x1 q1 (fun i hi => hl i (by omega)) a2 (by omega) hpos
    -- the final position is before the next node of level n
    have key : ∃ mid, p2 ++ [x2] = p1 ++ x1 :: mid ∧ Low (Tall h n) mid := by
      have e : p1 ++ x1 :: q1 = (p2 ++ [x2]) ++ q2 := by rw [← a2, b2]; simp
      obtain ⟨t, ht1, ht2⟩ : ∃ t, p2 ++ [x2] = (p1 ++ [x1]) ++ t ∧ q1 = t ++ q2 := by
        have e' : (p1 ++ [x1]) ++ q1 = (p2 ++ [x2]) ++ q2 := by simpa using e
        rcases List.append_eq_append_iff.1 e' with ⟨t, h1, h2⟩ | ⟨t, h1, h2⟩
        · exact ⟨t, h1, h2⟩
        · have : t = [] := by
            have := congrArg List.length h1
            simp at this
            exact List.eq_nil_of_length_eq_zero (by omega)
          subst this
          exact ⟨[], by simpa using h1.symm, by simpa using h2.symm⟩
      refine ⟨t, by simpa using ht1, ?_⟩
      cases hn : nxt (Tall h n) q1 with
      | none =>
        have := nxt_none.1 hn
        intro z hz
        exact this z (by rw [ht2]; simp [hz])
      | some y =>
        obtain ⟨m, w, e1, hlow, hy, hd⟩ := nxt_some hn
        have hb := b7 m y w e1 (by have : n < ht h y := hy; omega) (by
          have := a6 y hn
          rw [hd] at this
          rw [← this]; congr 1)
        have hlen : t.length ≤ m.length := by
          have := congrArg List.length ht1
          simp at this
          omega
        intro z hz
        apply hlow z
        have : t = m.take t.length := by
          have h3 : (m ++ y :: w).take t.length = t := by rw [← e1, ht2]; simp
          rw [← h3, List.take_append_of_le_length hlen]
          simp
        rw [this] at hz
        exact List.mem_of_mem_take hz
    obtain ⟨mid, hm1, hm2⟩ := key
    refine ⟨p2, x2, q2, upd ++ [(x1, (p1.length : Int))], ?_, b2, ⟨by simp [b3.1], ?_⟩, by omega, ?_, ?_, ?_⟩
    · unfold descend; rw [a1]; simp only [Option.bind_eq_bind, Option.bind_some, b1]
    · intro j hj
      by_cases hjn : j < n
      · obtain ⟨u, pp, mm, c1, c2, c3, c4⟩ := b3.2 j hjn
        exact ⟨u, pp, mm, by rw [List.getElem?_append_left (by rw [b3.1]; exact hjn)]; exact c1, c2, c3, c4⟩
      · have : j = n := by omega
        subst this
        refine ⟨x1, p1, mid, ?_, hm1, a3, hm2⟩
        rw [List.getElem?_append_right (by rw [b3.1]; exact Nat.le_refl _)]; simp [b3.1]
    · rcases b5 with b5 | b5
      · rcases a5 with a5 | a5
        · left; omega
        · right
          have e : p2 ++ x2 :: q2 = p1 ++ x1 :: q1 := by rw [← b2, ← a2]
          have := List.append_inj e b5
          have hx : x2 = x1 := (List.cons.inj this.2).1
          rw [this.1, hx]; exact a5
      · exact Or.inr b5
    · intro _ y w hyw
      by_cases hn : 0 < n
      · exact b6 hn y w hyw
      · have hn0 : n = 0 := by omega
        subst hn0
        simp only [descend, Option.some.injEq, Prod.mk.injEq] at b1
        have e : p2 ++ x2 :: q2 = p1 ++ x1 :: q1 := by rw [← b2, ← a2]
        have hlen : p2.length = p1.length := by
          have h1 := congrArg List.length hm1
          cases mid with
          | nil => simp at h1; omega
          | cons z mid =>
            have hz := hm2 z (by simp)
            have : 1 ≤ ht h z := hpos z (by
              rw [b2]
              have : z ∈ p2 ++ [x2] := by rw [hm1]; simp
              simp at this ⊢; tauto)
            exact absurd (show 0 < ht h z by omega) hz
        have hi := List.append_inj e hlen
        have hq : q2 = q1 := (List.cons.inj hi.2).2
        have hy1 : 0 < ht h y := hpos y (by rw [b2, hyw]; simp)
        have := a6 y (by rw [← hq, hyw]; simp [nxt, Tall, hy1])
        rw [← hq, hyw] at this
        simp only [dist, Tall, hy1, if_true] at this
        rw [hlen]; exact_mod_cast this
    · intro m v w e hv hg
      have h7 := a7 m v w e (by omega) hg
      -- v lies after x1
      have e' : (pre ++ x :: m) ++ v :: w = p1 ++ x1 :: q1 := by rw [← a2, hc, e]; simp
      obtain ⟨t, ht1, ht2⟩ : ∃ t, pre ++ x :: m = (p1 ++ [x1]) ++ t ∧ q1 = t ++ v :: w := by
        have e'' : (pre ++ x :: m) ++ v :: w = (p1 ++ [x1]) ++ q1 := by simpa using e'
        rcases List.append_eq_append_iff.1 e'' with ⟨t, h1, h2⟩ | ⟨t, h1, h2⟩
        · have : t = [] := by
            have := congrArg List.length h1
            simp at this
            exact List.eq_nil_of_length_eq_zero (by omega)
          subst this
          exact ⟨[], by simpa using h1.symm, by simpa using h2.symm⟩
        · exact ⟨t, h1, h2⟩
      have hlen := congrArg List.length ht1
      simp at hlen
      have := b7 t v w ht2 (by omega) (by rw [← hg]; congr 1; omega)
      omega

/-! ### Heap updates -/

/-- Same members, scores, backward pointers and heights. -/
def Frame (h h' : Nat → SNode) : Prop :=
  ∀ a, (h' a).member = (h a).member ∧ (h' a).score = (h a).score ∧ (h' a).backward = (h a).backward ∧ ht h' a = ht h a

theorem Frame.refl (h : Nat → SNode) : Frame h h := fun _ => ⟨rfl, rfl, rfl, rfl⟩
theorem Frame.trans {h1 h2 h3 : Nat → SNode} (a : Frame h1 h2) (b : Frame h2 h3) : Frame h1 h3 := fun x =>
  ⟨(b x).1.trans (a x).1, (b x).2.1.trans (a x).2.1, (b x).2.2.1.trans (a x).2.2.1, (b x).2.2.2.trans (a x).2.2.2⟩

theorem setLvl_frame (h : Nat → SNode) (x i : Nat) (l : Lvl) : Frame h (setLvl h x i l) := by
  intro a
  unfold setLvl ht
  by_cases e : a = x <;> simp [e]

theorem getLvl_set_self {h : Nat → SNode} {x i : Nat} {l l' : Lvl} (e : getLvl h x i = some l') :
    getLvl (setLvl h x i l) x i = some l := by
  have := getLvl_lt e
  unfold ht at this
  unfold getLvl setLvl
  simp [List.getElem?_set, this]

theorem getLvl_set_ne {h : Nat → SNode} {x i y j : Nat} {l : Lvl} (e : y ≠ x ∨ j ≠ i) :
    getLvl (setLvl h x i l) y j = getLvl h y j := by
  unfold getLvl setLvl
  by_cases hy : y = x
  · subst hy
    have : j ≠ i := by tauto
    simp [List.getElem?_set, Ne.symm this]
  · simp [hy]

theorem raiseHead_spec (len : Int) : ∀ (n i : Nat) (h : Nat → SNode), i + n ≤ ht h 0 →
    ∃ h', raiseHead len n i h = some h' ∧ Frame h h' ∧ (∀ a k, (a ≠ 0 ∨ k < i ∨ i + n ≤ k) → getLvl h' a k = getLvl h a k) ∧
      ∀ k, i ≤ k → k < i + n → ∃ l, getLvl h 0 k = some l ∧ getLvl h' 0 k = some { l with span := len } := by
  intro n
  induction n with
  | zero => intro i h _; exact ⟨h, rfl, Frame.refl h, fun _ _ _ => rfl, by intros; omega⟩
  | succ n ih =>
    intro i h hi
    obtain ⟨l, hl⟩ := getLvl_some (h := h) (a := 0) (i := i) (by omega)
    have hfr := setLvl_frame h 0 i { l with span := len }
    obtain ⟨h', e, f, hk, hr⟩ := ih (i + 1) (setLvl h 0 i { l with span := len }) (by rw [(hfr 0).2.2.2]; omega)
    refine ⟨h', ?_, hfr.trans f, ?_, ?_⟩
    · unfold raiseHead; rw [hl]; exact e
    · intro a k hak
      rw [hk a k (by omega), getLvl_set_ne (by omega)]
    · intro k h1 h2
      by_cases hki : k = i
      · subst hki
        exact ⟨l, hl, by rw [hk 0 k (by omega), getLvl_set_self hl]⟩
      · obtain ⟨l', e1, e2⟩ := hr k (by omega) (by omega)
        rw [getLvl_set_ne (by omega)] at e1
        exact ⟨l', e1, e2⟩

theorem linkLevels_spec (x : Nat) (rank0 : Int) : ∀ (n i : Nat) (us : List (Nat × Int)) (h : Nat → SNode),
    i + n ≤ ht h x → n ≤ us.length → (∀ (j : Nat) u r, j < n → us[j]? = some (u, r) → u ≠ x ∧ i + j < ht h u) →
    ∃ h', linkLevels x rank0 n i us h = some h' ∧ Frame h h' ∧
      (∀ a k, (k < i ∨ i + n ≤ k) → getLvl h' a k = getLvl h a k) ∧
      ∀ (j : Nat) u r, j < n → us[j]? = some (u, r) → ∃ lu, getLvl h u (i + j) = some lu ∧
        getLvl h' x (i + j) = some { fwd := lu.fwd, span := lu.span - (rank0 - r) } ∧
        getLvl h' u (i + j) = some { fwd := some x, span := rank0 - r + 1 } ∧
        ∀ a, a ≠ x → a ≠ u → getLvl h' a (i + j) = getLvl h a (i + j) := by
  intro n
  induction n with
  | zero => intro i us h _ _ _; exact ⟨h, by cases us <;> rfl, Frame.refl h, fun _ _ _ => rfl, by intros; omega⟩
  | succ n ih =>
    intro i us h hx hlen hus
    cases us with
    | nil => simp at hlen
    | cons p us =>
      obtain ⟨u, r⟩ := p
      obtain ⟨hux, hui⟩ := hus 0 u r (by omega) (by simp)
      obtain ⟨lu, hlu⟩ := getLvl_some (h := h) (a := u) (i := i) (by omega)
      obtain ⟨lx, hlx⟩ := getLvl_some (h := h) (a := x) (i := i) (by omega)
      let h1 := setLvl h x i { fwd := lu.fwd, span := lu.span - (rank0 - r) }
      let h2 := setLvl h1 u i { fwd := some x, span := rank0 - r + 1 }
      have f1 : Frame h h1 := setLvl_frame h x i _
      have f2 : Frame h h2 := f1.trans (setLvl_frame h1 u i _)
      have hlu1 : getLvl h1 u i = some lu := by rw [getLvl_set_ne (Or.inl hux)]; exact hlu
      obtain ⟨h', e, f, hk, hr⟩ := ih (i + 1) us h2 (by rw [(f2 x).2.2.2]; omega) (by simp at hlen; omega) (by
        intro j u' r' hj hu'
        have := hus (j + 1) u' r' (by omega) (by simpa using hu')
        rw [(f2 u').2.2.2]
        exact ⟨this.1, by omega⟩)
      have off : ∀ a k, k ≠ i → getLvl h2 a k = getLvl h a k := by
        intro a k hne
        rw [getLvl_set_ne (Or.inr hne), getLvl_set_ne (Or.inr hne)]
      refine ⟨h', ?_, f2.trans f, ?_, ?_⟩
      · unfold linkLevels
        rw [hlu]
        simp only [Option.bind_eq_bind, Option.bind_some]
        rw [hlx]
        exact e
      · intro a k hak
        rw [hk a k (by omega), off a k (by omega)]
      · intro j u' r' hj hu'
        cases j with
        | zero =>
          simp at hu'
          obtain ⟨rfl, rfl⟩ := hu'
          refine ⟨lu, hlu, ?_, ?_, ?_⟩
          · rw [hk x _ (by omega), getLvl_set_ne (Or.inl (Ne.symm hux))]; exact getLvl_set_self hlx
          · rw [hk u _ (by omega)]; exact getLvl_set_self hlu1
          · intro a ha1 ha2
            rw [hk a _ (by omega), getLvl_set_ne (Or.inl ha2), getLvl_set_ne (Or.inl ha1)]
        | succ j =>
          obtain ⟨lu', g1, g2, g3, g4⟩ := hr j u' r' (by omega) (by simpa using hu')
          rw [show i + 1 + j = i + (j + 1) by omega] at g1 g2 g3 g4
          rw [off u' _ (by omega)] at g1
          refine ⟨lu', g1, g2, g3, ?_⟩
          intro a ha1 ha2
          rw [g4 a ha1 ha2, off a _ (by omega)]

theorem bumpLevels_spec : ∀ (us : List (Nat × Int)) (i : Nat) (h : Nat → SNode),
    (∀ (j : Nat) u r, us[j]? = some (u, r) → i + j < ht h u) →
    ∃ h', bumpLevels i us h = some h' ∧ Frame h h' ∧
      (∀ a k, (k < i ∨ i + us.length ≤ k) → getLvl h' a k = getLvl h a k) ∧
      ∀ (j : Nat) u r, us[j]? = some (u, r) → ∃ lu, getLvl h u (i + j) = some lu ∧
        getLvl h' u (i + j) = some { lu with span := lu.span + 1 } ∧
        ∀ a, a ≠ u → getLvl h' a (i + j) = getLvl h a (i + j) := by
  intro us
  induction us with
  | nil => intro i h _; exact ⟨h, rfl, Frame.refl h, fun _ _ _ => rfl, by intro j u r h; simp at h⟩
  | cons p us ih =>
    intro i h hus
    obtain ⟨u, r⟩ := p
    have hui := hus 0 u r (by simp)
    obtain ⟨lu, hlu⟩ := getLvl_some (h := h) (a := u) (i := i) (by omega)
    let h1 := setLvl h u i { lu with span := lu.span + 1 }
    have f1 : Frame h h1 := setLvl_frame h u i _
    obtain ⟨h', e, f, hk, hr⟩ := ih (i + 1) h1 (by
      intro j u' r' hu'
      have := hus (j + 1) u' r' (by simpa using hu')
      rw [(f1 u').2.2.2]; omega)
    refine ⟨h', ?_, f1.trans f, ?_, ?_⟩
    · unfold bumpLevels; rw [hlu]; exact e
    · intro a k hak
      simp at hak
      rw [hk a k (by omega), getLvl_set_ne (by omega)]
    · intro j u' r' hu'
      cases j with
      | zero =>
        simp at hu'
        obtain ⟨rfl, rfl⟩ := hu'
        refine ⟨lu, hlu, ?_, ?_⟩
        · rw [hk u _ (by omega)]; exact getLvl_set_self hlu
        · intro a ha
          rw [hk a _ (by omega), getLvl_set_ne (Or.inl ha)]
      | succ j =>
        obtain ⟨lu', g1, g2, g3⟩ := hr j u' r' (by simpa using hu')
        rw [show i + 1 + j = i + (j + 1) by omega] at g1 g2 g3
        rw [getLvl_set_ne (by omega)] at g1
        refine ⟨lu', g1, g2, ?_⟩
        intro a ha
        rw [g3 a ha, getLvl_set_ne (by omega)]

theorem unlinkLevels_spec (x : Nat) : ∀ (n i : Nat) (us : List (Nat × Int)) (h : Nat → SNode),
    n ≤ us.length →
    (∀ (j : Nat) u r, j < n → us[j]? = some (u, r) → i + j < ht h u ∧
      ∀ lu, getLvl h u (i + j) = some lu → lu.fwd = some x → i + j < ht h x) →
    ∃ h', unlinkLevels x n i us h = some h' ∧ Frame h h' ∧
      (∀ a k, (k < i ∨ i + n ≤ k) → getLvl h' a k = getLvl h a k) ∧
      ∀ (j : Nat) u r, j < n → us[j]? = some (u, r) → ∃ lu, getLvl h u (i + j) = some lu ∧
        (lu.fwd = some x → ∃ lx, getLvl h x (i + j) = some lx ∧
          getLvl h' u (i + j) = some { fwd := lx.fwd, span := lu.span + (lx.span - 1) }) ∧
        (lu.fwd ≠ some x → getLvl h' u (i + j) = some { lu with span := lu.span - 1 }) ∧
        ∀ a, a ≠ u → getLvl h' a (i + j) = getLvl h a (i + j) := by
  intro n
  induction n with
  | zero => intro i us h _ _; exact ⟨h, by cases us <;> rfl, Frame.refl h, fun _ _ _ => rfl, by intros; omega⟩
  | succ n ih =>
    intro i us h hlen hus
    cases us with
    | nil => simp at hlen
    | cons p us =>
      obtain ⟨u, r⟩ := p
      obtain ⟨hui, hux⟩ := hus 0 u r (by omega) (by simp)
      obtain ⟨lu, hlu⟩ := getLvl_some (h := h) (a := u) (i := i) (by omega)
      -- the entry written at (u, i)
      obtain ⟨nl, hstep, hnl1, hnl2⟩ : ∃ nl : Lvl, unlinkLevels x (n + 1) i ((u, r) :: us) h = unlinkLevels x n (i + 1) us (setLvl h u i nl) ∧
          (lu.fwd = some x → ∃ lx, getLvl h x i = some lx ∧ nl = { fwd := lx.fwd, span := lu.span + (lx.span - 1) }) ∧
          (lu.fwd ≠ some x → nl = { lu with span := lu.span - 1 }) := by
        by_cases hf : lu.fwd = some x
        · obtain ⟨lx, hlx⟩ := getLvl_some (hux lu hlu hf)
          refine ⟨{ fwd := lx.fwd, span := lu.span + (lx.span - 1) }, ?_, fun _ => ⟨lx, hlx, rfl⟩, fun h => absurd hf h⟩
          simp only [Nat.add_zero] at hlx
          conv => lhs; unfold unlinkLevels
          rw [hlu]
          simp only [Option.bind_eq_bind, Option.bind_some, hf, if_true, hlx]
        · refine ⟨{ lu with span := lu.span - 1 }, ?_, fun h => absurd h hf, fun _ => rfl⟩
          conv => lhs; unfold unlinkLevels
          rw [hlu]
          simp only [Option.bind_eq_bind, Option.bind_some, hf, if_false]
      have f1 : Frame h (setLvl h u i nl) := setLvl_frame h u i _
      obtain ⟨h', e, f, hk, hr⟩ := ih (i + 1) us (setLvl h u i nl) (by simp at hlen; omega) (by
        intro j u' r' hj hu'
        have := hus (j + 1) u' r' (by omega) (by simpa using hu')
        rw [(f1 u').2.2.2, (f1 x).2.2.2]
        refine ⟨by omega, fun l hl hf => ?_⟩
        rw [getLvl_set_ne (by omega), show i + 1 + j = i + (j + 1) by omega] at hl
        have := this.2 l hl hf
        omega)
      refine ⟨h', hstep.trans e, f1.trans f, ?_, ?_⟩
      · intro a k hak
        rw [hk a k (by omega), getLvl_set_ne (by omega)]
      · intro j u' r' hj hu'
        cases j with
        | zero =>
          simp at hu'
          obtain ⟨rfl, rfl⟩ := hu'
          refine ⟨lu, hlu, ?_, ?_, ?_⟩
          · intro hf
            obtain ⟨lx, e1, e2⟩ := hnl1 hf
            refine ⟨lx, e1, ?_⟩
            rw [hk u _ (by omega), ← e2]; exact getLvl_set_self hlu
          · intro hf
            rw [hk u _ (by omega), ← hnl2 hf]; exact getLvl_set_self hlu
          · intro a ha
            rw [hk a _ (by omega), getLvl_set_ne (Or.inl ha)]
        | succ j =>
          obtain ⟨lu', g1, g2, g3, g4⟩ := hr j u' r' (by omega) (by simpa using hu')
          rw [show i + 1 + j = i + (j + 1) by omega] at g1 g2 g3 g4
          rw [getLvl_set_ne (by omega)] at g1
          refine ⟨lu', g1, ?_, g3, ?_⟩
          · intro hf
            obtain ⟨lx, e1, e2⟩ := g2 hf
            rw [getLvl_set_ne (by omega)] at e1
            exact ⟨lx, e1, e2⟩
          · intro a ha
            rw [g4 a ha, getLvl_set_ne (by omega)]

theorem shrink_spec {h : Nat → SNode} : ∀ n, n ≤ ht h 0 → 1 ≤ n →
    ∃ k, shrink h n = some k ∧ 1 ≤ k ∧ k ≤ n ∧ ∀ i, k ≤ i → i < n → ∃ l, getLvl h 0 i = some l ∧ l.fwd = none := by
  intro n
  induction n with
  | zero => intro _ h; omega
  | succ n ih =>
    intro hn h1
    cases n with
    | zero => exact ⟨1, rfl, by omega, by omega, by intros; omega⟩
    | succ n =>
      obtain ⟨l, hl⟩ := getLvl_some (h := h) (a := 0) (i := n + 1) (by omega)
      by_cases hf : l.fwd = none
      · obtain ⟨k, e, k1, k2, k3⟩ := ih (by omega) (by omega)
        refine ⟨k, ?_, k1, by omega, ?_⟩
        · unfold shrink; rw [hl]; simp only [Option.bind_eq_bind, Option.bind_some, hf, if_true, e]
        · intro i hi1 hi2
          by_cases hin : i = n + 1
          · subst hin; exact ⟨l, hl, hf⟩
          · exact k3 i hi1 (by omega)
      · refine ⟨n + 2, ?_, by omega, by omega, by intros; omega⟩
        unfold shrink; rw [hl]; simp only [Option.bind_eq_bind, Option.bind_some, hf, if_false]

theorem setBack_lvl (h : Nat → SNode) (x : Nat) (p : Option Nat) (a i : Nat) : getLvl (setBack h x p) a i = getLvl h a i := by
  unfold getLvl setBack; by_cases e : a = x <;> simp [e]

theorem setBack_ht (h : Nat → SNode) (x : Nat) (p : Option Nat) (a : Nat) : ht (setBack h x p) a = ht h a := by
  unfold ht setBack; by_cases e : a = x <;> simp [e]

theorem setBack_data (h : Nat → SNode) (x : Nat) (p : Option Nat) (a : Nat) :
    (setBack h x p a).member = (h a).member ∧ (setBack h x p a).score = (h a).score := by
  unfold setBack; by_cases e : a = x <;> simp [e]

theorem setBack_back (h : Nat → SNode) (x : Nat) (p : Option Nat) (a : Nat) :
    (setBack h x p a).backward = if a = x then p else (h a).backward := by
  unfold setBack; by_cases e : a = x <;> simp [e]

theorem store_ne {h : Nat → SNode} {x a : Nat} {n : SNode} (e : a ≠ x) : store h x n a = h a := by simp [store, e]
theorem store_self {h : Nat → SNode} {x : Nat} {n : SNode} : store h x n x = n := by simp [store]

theorem lst_append (p : Option Nat) (A B : List Nat) : lst p (A ++ B) = lst (lst p A) B := by
  induction A generalizing p with
  | nil => rfl
  | cons a A ih => exact ih _

theorem back_append {h : Nat → SNode} (p : Option Nat) (A B : List Nat) :
    Back h p (A ++ B) ↔ Back h p A ∧ Back h (lst p A) B := by
  induction A generalizing p with
  | nil => simp [Back, lst]
  | cons a A ih => simp only [List.cons_append, Back, lst, ih, and_assoc]

theorem back_congr {h h' : Nat → SNode} {p : Option Nat} {A : List Nat} (e : ∀ a ∈ A, (h' a).backward = (h a).backward)
    (hb : Back h p A) : Back h' p A := by
  induction A generalizing p with
  | nil => trivial
  | cons a A ih => exact ⟨by rw [e a (by simp)]; exact hb.1, ih (fun b hb => e b (by simp [hb])) hb.2⟩

theorem lst_snoc_or (A : List Nat) : (A = [] ∧ ∀ p, lst p A = p) ∨ ∃ A' a, A = A' ++ [a] ∧ ∀ p, lst p A = some a := by
  rcases List.eq_nil_or_concat A with h | ⟨A', a, h⟩
  · left; exact ⟨h, fun p => by rw [h]; rfl⟩
  · right; refine ⟨A', a, by simpa using h, fun p => by rw [h]; simp [lst_append, lst]⟩

theorem Inv.chain_le {s : Skiplist} {L : List Nat} (inv : Inv s L) : (0 :: L).length ≤ s.next := by
  have h := List.subperm_of_subset inv.nodup (l₂ := List.range s.next) (fun a ha => by simpa using inv.alloc a ha)
  have := h.length_le
  simpa using this

theorem Inv.hpos {s : Skiplist} {L : List Nat} (inv : Inv s L) : ∀ a ∈ 0 :: L, 1 ≤ ht s.heap a := by
  intro a ha
  rcases List.mem_cons.1 ha with rfl | ha
  · rw [inv.headHt]; decide
  · exact (inv.hts a ha).1

theorem search {s : Skiplist} {L : List Nat} (inv : Inv s L) (guard : SNode → Int → Bool) :
    ∃ A B x upd, descend s.heap guard (s.next + 1) s.level 0 0 = some (x, upd) ∧ L = A ++ B ∧ (∃ P, 0 :: A = P ++ [x]) ∧
      Found s.heap s.level (0 :: A) upd ∧ (∀ A' a, A = A' ++ [a] → guard (s.heap a) A.length = true) ∧
      (∀ y w, B = y :: w → guard (s.heap y) (A.length + 1) = false) := by
  obtain ⟨pre, x, post, upd, h1, h2, h3, h4, h5, h6, h7⟩ := descend_spec (h := s.heap) (guard := guard) (fuel := s.next + 1)
    (c := 0 :: L) (by have := inv.chain_le; omega) s.level [] 0 L inv.links rfl (by rw [inv.headHt]; exact inv.lev32) inv.hpos
  have hA : ∃ A, pre ++ [x] = 0 :: A := by
    cases pre with
    | nil => simp at h2; exact ⟨[], by simp [h2.1]⟩
    | cons p pre => simp at h2; exact ⟨pre ++ [x], by simp [h2.1]⟩
  obtain ⟨A, hA⟩ := hA
  have hL : L = A ++ post := by
    have : 0 :: L = (pre ++ [x]) ++ post := by rw [h2]; simp
    rw [hA] at this
    exact (List.cons.inj this).2
  have hlen : A.length = pre.length := by
    have := congrArg List.length hA; simp at this; omega
  refine ⟨A, post, x, upd, by simpa using h1, hL, ⟨pre, hA.symm⟩, by rw [← hA]; exact h3, ?_, ?_⟩
  · intro A' a ha
    rcases h5 with h5 | h5
    · simp at h5; rw [h5] at hlen; rw [ha] at hlen; simp at hlen
    · have : a = x := by
        have e : pre ++ [x] = (0 :: A') ++ [a] := by rw [hA, ha]; simp
        exact (List.append_inj' e rfl).2 |> fun h => by simpa using h.symm
      rw [this, hlen]; exact h5
  · intro y w hy
    rw [hlen]; exact h6 inv.lev1 y w hy

theorem Found.rank0 {h : Nat → SNode} {n : Nat} {A : List Nat} {upd : List (Nat × Int)} (f : Found h n (0 :: A) upd) (hn : 1 ≤ n)
    (hpos : ∀ a ∈ 0 :: A, 1 ≤ ht h a) : ∃ u P, upd[0]? = some (u, (A.length : Int)) ∧ 0 :: A = P ++ [u] := by
  obtain ⟨u, pre, mid, h1, h2, h3, h4⟩ := f.2 0 (by omega)
  have hm : mid = [] := by
    cases mid with
    | nil => rfl
    | cons z mid =>
      have := hpos z (by rw [h2]; simp)
      exact absurd (show 0 < ht h z by omega) (h4 z (by simp))
  subst hm
  have := congrArg List.length h2
  simp at this
  exact ⟨u, pre, by rw [h1, this], h2⟩

theorem insert_spec {s : Skiplist} {L : List Nat} (inv : Inv s L) (lv : Nat) (score : F64) (member : Bytes) (hlv : 1 ≤ lv) (hlv' : lv ≤ maxLevel) :
    ∃ A B s', L = A ++ B ∧ insert s lv score member = some (s.next, s') ∧ Inv s' (A ++ s.next :: B) ∧ s'.next = s.next + 1 ∧
      (s'.heap s.next).score = score ∧ (s'.heap s.next).member = member ∧
      (∀ a, a ≠ s.next → (s'.heap a).score = (s.heap a).score ∧ (s'.heap a).member = (s.heap a).member ∧ ht s'.heap a = ht s.heap a) ∧
      (∀ A' a, A = A' ++ [a] → before score member (s.heap a) A.length = true) ∧
      (∀ y w, B = y :: w → before score member (s.heap y) (A.length + 1) = false) := by
  obtain ⟨A, B, xs, upd, hd, hL, _, hF, hg1, hg2⟩ := search inv (before score member)
  obtain ⟨u0, P0, hu0, hP0⟩ := hF.rank0 inv.lev1 (fun a ha => inv.hpos a (by rw [hL]; simp at ha ⊢; tauto))
  have l32 := inv.lev32
  have l1 := inv.lev1
  obtain ⟨h1, e1, f1, k1, r1⟩ := raiseHead_spec s.length (lv - s.level) s.level s.heap (by rw [inv.headHt]; omega)
  generalize hsl : (if lv > s.level then lv else s.level) = slevel
  have hsl1 : lv ≤ slevel := by rw [← hsl]; split <;> omega
  have hsl2 : s.level ≤ slevel := by rw [← hsl]; split <;> omega
  have hsl3 : slevel ≤ maxLevel := by rw [← hsl]; split <;> omega
  have hsl4 : slevel = s.level + (lv - s.level) := by rw [← hsl]; split <;> omega
  -- links after raising the head
  have L1 : ∀ i < slevel, Links h1 i (0 :: L) := by
    intro i hi
    by_cases hil : i < s.level
    · exact linksR_congr (T := Tall s.heap i) (g := fun a => getLvl s.heap a i)
        (fun a _ => by simp [Tall, (f1 a).2.2.2]) (fun a _ => k1 a i (by omega)) (inv.links i hil)
    · have hlow : Low (Tall h1 i) L := by
        intro z hz hT
        have := (inv.hts z hz).2
        have e := (f1 z).2.2.2
        unfold Tall at hT
        omega
      obtain ⟨l, hl1, hl2⟩ := r1 i (by omega) (by omega)
      obtain ⟨l', hl1', hl2'⟩ := inv.above i (by omega) (by omega)
      rw [hl1] at hl1'; cases hl1'
      refine ⟨fun _ => ?_, linksR_low hlow []⟩
      show getLvl h1 0 i = _
      rw [hl2, List.append_nil, nxt_none.2 hlow, dist_len hlow, hl2', inv.len]
  -- the recorded path, extended
  generalize hupd' : upd ++ List.replicate (lv - s.level) ((0 : Nat), (0 : Int)) = upd'
  have F1 : Found h1 slevel (0 :: A) upd' := by
    refine ⟨by rw [← hupd', hsl4]; simp [hF.1], ?_⟩
    intro j hj
    by_cases hjl : j < s.level
    · obtain ⟨u, pre, mid, a1, a2, a3, a4⟩ := hF.2 j hjl
      refine ⟨u, pre, mid, ?_, a2, by rw [(f1 u).2.2.2]; exact a3, ?_⟩
      · rw [← hupd', List.getElem?_append_left (by rw [hF.1]; exact hjl)]; exact a1
      · intro z hz hT; exact a4 z hz (by have e := (f1 z).2.2.2; unfold Tall at hT ⊢; omega)
    · refine ⟨0, [], A, ?_, by simp, by rw [(f1 0).2.2.2, inv.headHt]; omega, ?_⟩
      · rw [← hupd', List.getElem?_append_right (by rw [hF.1]; omega), hF.1]
        rw [List.getElem?_replicate, if_pos (by omega)]; rfl
      · intro z hz hT
        have := (inv.hts z (by rw [hL]; simp [hz])).2
        have e := (f1 z).2.2.2
        unfold Tall at hT
        omega
  -- the new node
  have hxL : s.next ∉ 0 :: L := fun h => by have := inv.alloc _ h; omega
  have hne : ∀ a ∈ 0 :: L, a ≠ s.next := fun a ha e => hxL (e ▸ ha)
  have hu'0 : upd'[0]? = some (u0, (A.length : Int)) := by
    rw [← hupd', List.getElem?_append_left (by rw [hF.1]; omega)]; exact hu0
  generalize hh2 : store h1 s.next (newNode lv score member) = h2
  have h2ne : ∀ a, a ≠ s.next → h2 a = h1 a := fun a ha => by rw [← hh2]; exact store_ne ha
  have h2x : h2 s.next = newNode lv score member := by rw [← hh2]; exact store_self
  have h2lvl : ∀ a i, a ≠ s.next → getLvl h2 a i = getLvl h1 a i := fun a i ha => by unfold getLvl; rw [h2ne a ha]
  have h2ht : ∀ a, a ≠ s.next → ht h2 a = ht h1 a := fun a ha => by unfold ht; rw [h2ne a ha]
  have h2htx : ht h2 s.next = lv := by unfold ht; rw [h2x]; simp [newNode]
  have memc : ∀ {u pre mid}, 0 :: A = pre ++ u :: mid → u ∈ 0 :: L := by
    intro u pre mid e
    have : u ∈ 0 :: A := by rw [e]; simp
    rw [hL]; simp at this ⊢; tauto
  have hul : ∀ (j : Nat) u r, upd'[j]? = some (u, r) → j < slevel ∧ u ≠ s.next ∧ j < ht h2 u := by
    intro j u r hj
    have hlt : j < slevel := by rw [← F1.1]; exact (List.getElem?_eq_some_iff.1 hj).1
    obtain ⟨u', pre, mid, a1, a2, a3, a4⟩ := F1.2 j hlt
    rw [a1] at hj; cases hj
    have := hne u (memc a2)
    exact ⟨hlt, this, by rw [h2ht u this]; exact a3⟩
  obtain ⟨h3, e3, f3, k3, r3⟩ := linkLevels_spec s.next (A.length : Int) lv 0 upd' h2 (by rw [h2htx]; omega) (by rw [F1.1]; exact hsl1) (by
    intro j u r _ hj
    have := hul j u r hj
    exact ⟨this.2.1, by omega⟩)
  have htake : upd'.take slevel = upd' := List.take_of_length_le (Nat.le_of_eq F1.1)
  obtain ⟨h4, e4, f4, k4, r4⟩ := bumpLevels_spec (upd'.drop lv) lv h3 (by
    intro j u r hj
    rw [List.getElem?_drop] at hj
    have := hul _ u r hj
    rw [(f3 u).2.2.2]; exact this.2.2)
  have hdl : (upd'.drop lv).length = slevel - lv := by simp [F1.1]
  have f24 := f3.trans f4
  have L4 : ∀ i < slevel, Links h4 i (0 :: (A ++ s.next :: B)) := by
    intro i hi
    obtain ⟨u, pre, mid, a1, a2, a3, a4⟩ := F1.2 i hi
    have hux := hul i u _ a1
    have hplus : (A.length : Int) - pre.length = mid.length := by
      have := congrArg List.length a2; simp at this; omega
    have hchain : 0 :: L = pre ++ u :: (mid ++ B) := by
      rw [hL, show 0 :: (A ++ B) = (0 :: A) ++ B by simp, a2]; simp
    have hchain' : 0 :: (A ++ s.next :: B) = pre ++ u :: (mid ++ s.next :: B) := by
      rw [show 0 :: (A ++ s.next :: B) = (0 :: A) ++ s.next :: B by simp, a2]; simp
    have hold : LinksR (Tall h2 i) (fun a => getLvl h2 a i) (pre ++ u :: (mid ++ B)) [] := by
      rw [← hchain]
      exact linksR_congr (T := Tall h1 i) (g := fun a => getLvl h1 a i)
        (fun a ha => by simp only [Tall]; rw [h2ht a (hne a (by simpa using ha))]) (fun a ha => h2lvl a i (hne a ha)) (L1 i hi)
    have hmid : Low (Tall h2 i) mid := by
      intro z hz
      have hz' : z ∈ 0 :: L := by rw [hchain]; simp [hz]
      have := a4 z hz
      simp only [Tall] at this ⊢
      rw [h2ht z (hne z hz')]; exact this
    have huT : Tall h2 i u := hux.2.2
    have nd : (pre ++ u :: (mid ++ B)).Nodup := by rw [← hchain]; exact inv.nodup
    have hnu : ∀ a ∈ pre ++ mid ++ B, a ≠ u := by
      intro a ha e
      subst e
      rw [List.nodup_append] at nd
      obtain ⟨_, nd2, nd3⟩ := nd
      simp at ha
      rcases ha with ha | ha
      · exact nd3 a ha a (by simp) rfl
      · exact (List.nodup_cons.1 nd2).1 (by simp; exact ha)
    have hnx : ∀ a ∈ pre ++ mid ++ B, a ≠ s.next := by
      intro a ha
      exact hne a (by rw [hchain]; simp at ha ⊢; tauto)
    rw [hchain']
    by_cases hil : i < lv
    · obtain ⟨lu, g1, g2, g3, g4⟩ := r3 i u _ hil a1
      simp only [Nat.zero_add] at g1 g2 g3 g4
      have hk : ∀ a, getLvl h4 a i = getLvl h3 a i := fun a => k4 a i (Or.inl hil)
      refine linksR_congr (T := Tall h2 i) (g := fun a => getLvl h4 a i) (fun a _ => by simp only [Tall, (f24 a).2.2.2]) (fun a _ => rfl) ?_
      refine link_tall hold huT hmid (by show i < ht h2 s.next; rw [h2htx]; exact hil) g1 ?_ ?_ ?_
      · show getLvl h4 s.next i = _
        rw [hk, g2, hplus]
      · show getLvl h4 u i = _
        rw [hk, g3, hplus]
      · intro a ha
        show getLvl h4 a i = getLvl h2 a i
        rw [hk, g4 a (hnx a ha) (hnu a ha)]
    · have hj : (upd'.drop lv)[i - lv]? = some (u, (pre.length : Int)) := by
        rw [List.getElem?_drop, show lv + (i - lv) = i by omega]; exact a1
      obtain ⟨lu, g1, g2, g3⟩ := r4 (i - lv) u _ hj
      rw [show lv + (i - lv) = i by omega] at g1 g2 g3
      have hk : ∀ a, getLvl h3 a i = getLvl h2 a i := fun a => k3 a i (Or.inr (by omega))
      rw [hk] at g1
      refine linksR_congr (T := Tall h2 i) (g := fun a => getLvl h4 a i) (fun a _ => by simp only [Tall, (f24 a).2.2.2]) (fun a _ => rfl) ?_
      refine link_low hold huT hmid (by show ¬ i < ht h2 s.next; rw [h2htx]; exact hil) g1 g2 ?_
      intro a ha
      show getLvl h4 a i = getLvl h2 a i
      rw [g3 a (hnu a ha), hk]
  -- the bottom link of the new node
  have hx0 : getLvl h4 s.next 0 = some { fwd := B.head?, span := dist (Tall h4 0) B } := by
    have hT : Tall h4 0 s.next := by show 0 < ht h4 s.next; rw [(f24 _).2.2.2, h2htx]; omega
    have := linksR_at (T := Tall h4 0) (g := fun a => getLvl h4 a 0) (pre := 0 :: A) (x := s.next) (post := B)
      (by have := L4 0 (by omega); simpa [Links] using this) hT
    rw [this]
    congr 2
    cases B with
    | nil => rfl
    | cons y w =>
      have hy : y ∈ 0 :: L := by rw [hL]; simp
      have h1y := (inv.hts y (by rw [hL]; simp)).1
      have : Tall h4 0 y := by
        show 0 < ht h4 y
        rw [(f24 y).2.2.2, h2ht y (hne y hy), (f1 y).2.2.2]; omega
      simp [nxt, this]
  generalize hbk : (if u0 = 0 then none else some u0 : Option Nat) = bk
  have hbk' : bk = lst none A := by
    rw [← hbk]
    rcases lst_snoc_or A with ⟨hA, hl⟩ | ⟨A', a, hA, hl⟩
    · rw [hl]
      rw [hA] at hP0
      have : u0 = 0 := by
        have := List.append_inj' (show ([] : List Nat) ++ [0] = P0 ++ [u0] from by simpa using hP0) rfl
        simpa using this.2.symm
      simp [this]
    · rw [hl]
      have : u0 = a := by
        have := List.append_inj' (show (0 :: A') ++ [a] = P0 ++ [u0] from by rw [← hP0, hA]; simp) rfl
        simpa using this.2.symm
      have ha0 : a ≠ 0 := by
        intro h0
        have := inv.nodup
        rw [hL, hA, h0] at this
        simp at this
      simp [this, ha0]
  generalize hh5 : setBack h4 s.next bk = h5
  have h5lvl : ∀ a i, getLvl h5 a i = getLvl h4 a i := fun a i => by rw [← hh5]; exact setBack_lvl _ _ _ _ _
  have h5ht : ∀ a, ht h5 a = ht h4 a := fun a => by rw [← hh5]; exact setBack_ht _ _ _ _
  have hrun : insert s lv score member = match B.head? with
      | some y => some (s.next, { heap := setBack h5 y (some s.next), next := s.next + 1, tail := s.tail, length := s.length + 1, level := slevel })
      | none => some (s.next, { heap := h5, next := s.next + 1, tail := some s.next, length := s.length + 1, level := slevel }) := by
    unfold insert
    rw [hd]
    simp only [Option.bind_eq_bind, Option.bind_some]
    rw [hu0]
    simp only [Option.bind_some]
    rw [e1]
    simp only [Option.bind_some]
    rw [hupd', hsl, hh2, e3]
    simp only [Option.bind_some]
    rw [htake, e4]
    simp only [Option.bind_some]
    rw [hu'0]
    simp only [Option.bind_some, hbk]
    rw [hh5, h5lvl, hx0]
    rfl
  -- final heap
  generalize hh6 : (match B.head? with | some y => setBack h5 y (some s.next) | none => h5) = h6
  have h6lvl : ∀ a i, getLvl h6 a i = getLvl h4 a i := by
    intro a i
    rw [← hh6, ← h5lvl]
    cases B.head? with
    | none => rfl
    | some y => exact setBack_lvl _ _ _ _ _
  have h6ht : ∀ a, ht h6 a = ht h4 a := by
    intro a
    rw [← hh6, ← h5ht]
    cases B.head? with
    | none => rfl
    | some y => exact setBack_ht _ _ _ _
  have h6data : ∀ a, (h6 a).member = (h4 a).member ∧ (h6 a).score = (h4 a).score := by
    intro a
    have h5d : (h5 a).member = (h4 a).member ∧ (h5 a).score = (h4 a).score := by rw [← hh5]; exact setBack_data _ _ _ _
    rw [← hh6]
    cases B.head? with
    | none => exact h5d
    | some y =>
      have := setBack_data h5 y (some s.next) a
      exact ⟨this.1.trans h5d.1, this.2.trans h5d.2⟩
  have h6back : ∀ a, (h6 a).backward = if some a = B.head? then some s.next else if a = s.next then bk else (h2 a).backward := by
    intro a
    have h5b : (h5 a).backward = if a = s.next then bk else (h2 a).backward := by
      rw [← hh5, setBack_back, (f24 a).2.2.1]
    rw [← hh6]
    cases B.head? with
    | none => simp [h5b]
    | some y => simp only [setBack_back, h5b, Option.some.injEq]
  have hdata : ∀ a, a ≠ s.next → (h6 a).score = (s.heap a).score ∧ (h6 a).member = (s.heap a).member ∧ ht h6 a = ht s.heap a := by
    intro a ha
    refine ⟨?_, ?_, ?_⟩
    · rw [(h6data a).2, (f24 a).2.1, h2ne a ha, (f1 a).2.1]
    · rw [(h6data a).1, (f24 a).1, h2ne a ha, (f1 a).1]
    · rw [h6ht, (f24 a).2.2.2, h2ht a ha, (f1 a).2.2.2]
  have hnd : (0 :: (A ++ s.next :: B)).Nodup := by
    have hp : (0 :: (A ++ s.next :: B)).Perm (s.next :: 0 :: L) := by
      rw [hL]
      exact (List.Perm.cons 0 List.perm_middle).trans (List.Perm.swap _ _ _)
    exact hp.nodup_iff.2 (List.nodup_cons.2 ⟨hxL, inv.nodup⟩)
  have hfin : ∀ (t : Option Nat), t = lst none (A ++ s.next :: B) →
      Inv { heap := h6, next := s.next + 1, tail := t, length := s.length + 1, level := slevel } (A ++ s.next :: B) := by
    intro t ht'
    refine { nodup := hnd, alloc := ?_, headHt := ?_, lev1 := ?_, lev32 := hsl3, hts := ?_, links := ?_, above := ?_, back := ?_, tail := ht', len := ?_, headM := ?_, headS := ?_, headB := ?_ }
    · intro a ha
      show a < s.next + 1
      by_cases hax : a = s.next
      · omega
      · have := inv.alloc a (by rw [hL]; simp at ha ⊢; tauto)
        omega
    · exact (hdata 0 (hne 0 (by simp))).2.2.trans inv.headHt
    · show 1 ≤ slevel; omega
    · intro a ha
      show 1 ≤ ht h6 a ∧ ht h6 a ≤ slevel
      by_cases hax : a = s.next
      · rw [hax, h6ht, (f24 _).2.2.2, h2htx]; omega
      · rw [(hdata a hax).2.2]
        have := inv.hts a (by rw [hL]; simp at ha ⊢; tauto)
        omega
    · intro i hi
      exact linksR_congr (T := Tall h4 i) (g := fun a => getLvl h4 a i) (fun a _ => by simp only [Tall, h6ht])
        (fun a _ => h6lvl a i) (L4 i hi)
    · intro i hi1 hi2
      show ∃ l, getLvl h6 0 i = some l ∧ _
      have hi1' : slevel ≤ i := hi1
      rw [h6lvl, k4 0 i (by omega), k3 0 i (by omega), h2lvl 0 i (hne 0 (by simp)), k1 0 i (by omega)]
      exact inv.above i (by omega) hi2
    · show Back h6 none (A ++ s.next :: B)
      have hb := inv.back
      rw [hL, back_append] at hb
      rw [back_append]
      have hnd' := List.nodup_cons.1 hnd
      rw [List.nodup_append] at hnd'
      obtain ⟨_, _, hnd2, hnd3⟩ := hnd'
      have old : ∀ a ∈ 0 :: L, (h2 a).backward = (s.heap a).backward := fun a ha => by
        rw [h2ne a (hne a ha), (f1 a).2.2.1]
      refine ⟨back_congr (fun a ha => ?_) hb.1, ?_, ?_⟩
      · rw [h6back, if_neg, if_neg (hne a (by rw [hL]; simp [ha])), old a (by rw [hL]; simp [ha])]
        intro e
        cases B with
        | nil => simp at e
        | cons y w =>
          simp at e
          exact hnd3 a ha y (by simp) e
      · rw [h6back, if_neg, if_pos rfl, hbk']
        intro e
        cases B with
        | nil => simp at e
        | cons y w =>
          simp at e
          exact hne y (by rw [hL]; simp) e.symm
      · cases B with
        | nil => trivial
        | cons y w =>
          refine ⟨by rw [h6back]; simp, back_congr (fun a ha => ?_) hb.2.2⟩
          have hay : a ≠ y := by
            intro e
            have := (List.nodup_cons.1 (List.nodup_cons.1 hnd2).2).1
            exact this (e ▸ ha)
          rw [h6back, if_neg (by simpa using hay), if_neg (hne a (by rw [hL]; simp [ha])), old a (by rw [hL]; simp [ha])]
    · show s.length + 1 = _
      rw [inv.len, hL]; simp; omega
    · exact (hdata 0 (hne 0 (by simp))).2.1.trans inv.headM
    · exact (hdata 0 (hne 0 (by simp))).1.trans inv.headS
    · show (h6 0).backward = none
      rw [h6back, if_neg, if_neg (hne 0 (by simp)), h2ne 0 (hne 0 (by simp)), (f1 0).2.2.1, inv.headB]
      intro e
      cases B with
      | nil => simp at e
      | cons y w =>
        simp at e
        have := (List.nodup_cons.1 hnd).1
        exact this (by rw [e]; simp)
  have hnewS : (h6 s.next).score = score := by rw [(h6data _).2, (f24 _).2.1, h2x]; rfl
  have hnewM : (h6 s.next).member = member := by rw [(h6data _).1, (f24 _).1, h2x]; rfl
  cases hB : B with
  | nil =>
    rw [hB] at hrun hh6
    simp only [List.head?_nil] at hrun hh6
    subst hh6
    refine ⟨A, [], _, by rw [hL, hB], hrun, ?_, rfl, hnewS, hnewM, hdata, hg1, by intro y w h; cases h⟩
    rw [← hB]
    refine hfin _ ?_
    rw [hB, lst_append]; rfl
  | cons y w =>
    rw [hB] at hrun hh6
    simp only [List.head?_cons] at hrun hh6
    subst hh6
    refine ⟨A, y :: w, _, by rw [hL, hB], hrun, ?_, rfl, hnewS, hnewM, hdata, hg1, by rw [← hB]; exact hg2⟩
    rw [← hB]
    refine hfin _ ?_
    rw [inv.tail, hL, hB, lst_append, lst_append]; rfl

/-- Like `Found`, for a recorded path that may be longer than the current number of levels. -/
def Path (h : Nat → SNode) (n : Nat) (c : List Nat) (upd : List (Nat × Int)) : Prop :=
  n ≤ upd.length ∧ ∀ j < n, ∃ u pre mid, upd[j]? = some (u, (pre.length : Int)) ∧ c = pre ++ u :: mid ∧ j < ht h u ∧ Low (Tall h j) mid

theorem Found.path {h : Nat → SNode} {n : Nat} {c : List Nat} {upd : List (Nat × Int)} (f : Found h n c upd) : Path h n c upd :=
  ⟨Nat.le_of_eq f.1.symm, f.2⟩

theorem Path.mono {h h' : Nat → SNode} {n n' : Nat} {c : List Nat} {upd : List (Nat × Int)} (f : Path h n c upd)
    (hn : n' ≤ n) (hh : ∀ a, ht h' a = ht h a) : Path h' n' c upd := by
  refine ⟨by have := f.1; omega, fun j hj => ?_⟩
  obtain ⟨u, pre, mid, a1, a2, a3, a4⟩ := f.2 j (by omega)
  exact ⟨u, pre, mid, a1, a2, by rw [hh]; exact a3, fun z hz hT => a4 z hz (by simp only [Tall, hh] at hT; exact hT)⟩

theorem nxt_mem {T : Nat → Prop} [DecidablePred T] {l : List Nat} {y : Nat} (h : nxt T l = some y) : y ∈ l := by
  obtain ⟨m, w, e, _⟩ := nxt_some h
  rw [e]; simp

theorem deleteNode_spec {s : Skiplist} {A B : List Nat} {x : Nat} {upd : List (Nat × Int)} (inv : Inv s (A ++ x :: B))
    (hp : Path s.heap s.level (0 :: A) upd) :
    ∃ s', deleteNode s x upd = some s' ∧ Inv s' (A ++ B) ∧ s'.next = s.next ∧
      (∀ a, (s'.heap a).score = (s.heap a).score ∧ (s'.heap a).member = (s.heap a).member ∧ ht s'.heap a = ht s.heap a) ∧
      Path s'.heap s'.level (0 :: A) upd := by
  have l32 := inv.lev32
  have l1 := inv.lev1
  have htx := inv.hts x (by simp)
  have nd := inv.nodup
  -- shape of the chain at a level
  have shape : ∀ {u pre mid}, 0 :: A = pre ++ u :: mid → 0 :: (A ++ x :: B) = pre ++ u :: (mid ++ x :: B) := by
    intro u pre mid e
    rw [show 0 :: (A ++ x :: B) = (0 :: A) ++ x :: B by simp, e]; simp
  have shape' : ∀ {u pre mid}, 0 :: A = pre ++ u :: mid → 0 :: (A ++ B) = pre ++ u :: (mid ++ B) := by
    intro u pre mid e
    rw [show 0 :: (A ++ B) = (0 :: A) ++ B by simp, e]; simp
  have xB : x ∉ B := by
    intro h
    have := List.nodup_cons.1 nd
    rw [List.nodup_append] at this
    exact (List.nodup_cons.1 this.2.2.1).1 h
  have xA : x ∉ 0 :: A := by
    intro h
    rw [show 0 :: (A ++ x :: B) = (0 :: A) ++ x :: B by simp, List.nodup_append] at nd
    exact nd.2.2 x h x (by simp) rfl
  -- forward pointer of the recorded node on each level
  have fwdx : ∀ j u pre mid lu, j < s.level → 0 :: A = pre ++ u :: mid → j < ht s.heap u → Low (Tall s.heap j) mid →
      getLvl s.heap u j = some lu → (lu.fwd = some x ↔ Tall s.heap j x) := by
    intro j u pre mid lu hj e hu hm hlu
    have hl := inv.links j hj
    rw [shape e] at hl
    have := linksR_at (T := Tall s.heap j) (g := fun a => getLvl s.heap a j) hl hu
    rw [hlu, Option.some.injEq] at this
    rw [this, nxt_low hm]
    by_cases hx : Tall s.heap j x
    · simp [nxt, hx]
    · simp only [nxt, if_neg hx, iff_false, hx]
      intro e2
      exact xB (nxt_mem e2)
  obtain ⟨h1, e1, f1, k1, r1⟩ := unlinkLevels_spec x s.level 0 upd s.heap hp.1 (by
    intro j u r hj hu
    obtain ⟨u', pre, mid, a1, a2, a3, a4⟩ := hp.2 j hj
    rw [a1] at hu; cases hu
    simp only [Nat.zero_add]
    exact ⟨a3, fun lu hlu hf => (fwdx j u pre mid lu hj a2 a3 a4 hlu).1 hf⟩)
  have L1 : ∀ i < s.level, Links h1 i (0 :: (A ++ B)) := by
    intro i hi
    obtain ⟨u, pre, mid, a1, a2, a3, a4⟩ := hp.2 i hi
    obtain ⟨lu, g1, g2, g3, g4⟩ := r1 i u _ hi a1
    simp only [Nat.zero_add] at g1 g2 g3 g4
    have hl := inv.links i hi
    rw [shape a2] at hl
    have nd' := nd
    rw [shape a2] at nd'
    have hnu : ∀ a ∈ pre ++ mid ++ B, a ≠ u := by
      intro a ha e
      subst e
      rw [List.nodup_append] at nd'
      obtain ⟨_, nd2, nd3⟩ := nd'
      simp at ha
      rcases ha with ha | ha
      · exact nd3 a ha a (by simp) rfl
      · exact (List.nodup_cons.1 nd2).1 (by simp; tauto)
    rw [shape' a2]
    refine linksR_congr (T := Tall s.heap i) (g := fun a => getLvl h1 a i) (fun a _ => by simp only [Tall, (f1 a).2.2.2]) (fun a _ => rfl) ?_
    have hne : ∀ a ∈ pre ++ mid ++ B, getLvl h1 a i = getLvl s.heap a i := fun a ha => g4 a (hnu a ha)
    by_cases hx : Tall s.heap i x
    · obtain ⟨lx, c1, c2⟩ := g2 ((fwdx i u pre mid lu hi a2 a3 a4 g1).2 hx)
      exact unlink_tall hl a3 a4 hx g1 c1 c2 hne
    · have c2 := g3 (fun h => hx ((fwdx i u pre mid lu hi a2 a3 a4 g1).1 h))
      exact unlink_low hl a3 a4 hx g1 c2 hne
  -- x keeps its own links
  have hx0 : getLvl h1 x 0 = some { fwd := B.head?, span := dist (Tall s.heap 0) B } := by
    obtain ⟨u, pre, mid, a1, a2, a3, a4⟩ := hp.2 0 (by omega)
    obtain ⟨lu, g1, g2, g3, g4⟩ := r1 0 u _ (by omega) a1
    have hxu : x ≠ u := by
      intro e; exact xA (by rw [a2, e]; simp)
    have hT : Tall s.heap 0 x := by show 0 < ht s.heap x; omega
    rw [g4 x hxu]
    have := linksR_at (T := Tall s.heap 0) (g := fun a => getLvl s.heap a 0) (pre := 0 :: A) (x := x) (post := B)
      (by have := inv.links 0 (by omega); simpa [Links] using this) hT
    simp only [Nat.zero_add]
    rw [this]
    congr 2
    cases B with
    | nil => rfl
    | cons y w =>
      have h1y := (inv.hts y (by simp)).1
      have : Tall s.heap 0 y := by show 0 < ht s.heap y; omega
      simp [nxt, this]
  have hback := inv.back
  rw [back_append] at hback
  obtain ⟨hbA, hbx, hbB⟩ := hback
  generalize hh2 : (match B.head? with | some y => setBack h1 y (lst none A) | none => h1) = h2
  have h2lvl : ∀ a i, getLvl h2 a i = getLvl h1 a i := by
    intro a i
    rw [← hh2]
    cases B.head? with
    | none => rfl
    | some y => exact setBack_lvl _ _ _ _ _
  have h2ht : ∀ a, ht h2 a = ht s.heap a := by
    intro a
    rw [← hh2, ← (f1 a).2.2.2]
    cases B.head? with
    | none => rfl
    | some y => exact setBack_ht _ _ _ _
  have h2data : ∀ a, (h2 a).member = (s.heap a).member ∧ (h2 a).score = (s.heap a).score := by
    intro a
    rw [← hh2, ← (f1 a).1, ← (f1 a).2.1]
    cases B.head? with
    | none => exact ⟨rfl, rfl⟩
    | some y => exact setBack_data _ _ _ _
  have h2back : ∀ a, (h2 a).backward = if some a = B.head? then lst none A else (s.heap a).backward := by
    intro a
    rw [← hh2]
    cases B.head? with
    | none => simp [(f1 a).2.2.1]
    | some y => simp only [setBack_back, Option.some.injEq, (f1 a).2.2.1]
  obtain ⟨k, ek, k_1, k_2, k_3⟩ := shrink_spec (h := h2) s.level (by rw [h2ht, inv.headHt]; exact l32) l1
  have hrun : deleteNode s x upd = some { heap := h2, next := s.next, tail := lst none (A ++ B), length := s.length - 1, level := k } := by
    unfold deleteNode
    rw [e1]
    simp only [Option.bind_eq_bind, Option.bind_some]
    rw [hx0]
    simp only [Option.bind_some]
    have hxb : (h1 x).backward = lst none A := by rw [(f1 x).2.2.1]; exact hbx
    cases hB : B with
    | nil =>
      rw [hB] at hh2
      simp only [List.head?_nil] at hh2 ⊢
      rw [hh2, ek, ← hh2, hxb]
      simp
    | cons y w =>
      rw [hB] at hh2
      simp only [List.head?_cons] at hh2 ⊢
      rw [hxb, hh2, ek, inv.tail, hB, lst_append, lst_append]
      rfl
  have nd2 : (0 :: (A ++ B)).Nodup := by
    have hpm : (0 :: (A ++ x :: B)).Perm (x :: 0 :: (A ++ B)) :=
      (List.Perm.cons 0 List.perm_middle).trans (List.Perm.swap _ _ _)
    exact (List.nodup_cons.1 (hpm.nodup_iff.1 nd)).2
  refine ⟨_, hrun, ?_, rfl, fun a => ⟨(h2data a).2, (h2data a).1, h2ht a⟩, hp.mono k_2 h2ht⟩
  have hab : ∀ i, k ≤ i → i < maxLevel → ∃ l, getLvl h2 0 i = some l ∧ l.fwd = none := by
    intro i hi1 hi2
    by_cases hi : i < s.level
    · exact k_3 i hi1 hi
    · rw [h2lvl, k1 0 i (by omega)]
      exact inv.above i (by omega) hi2
  refine { nodup := nd2, alloc := ?_, headHt := ?_, lev1 := k_1, lev32 := ?_, hts := ?_, links := ?_, above := hab, back := ?_, tail := rfl, len := ?_, headM := ?_, headS := ?_, headB := ?_ }
  · intro a ha; exact inv.alloc a (by simp at ha ⊢; tauto)
  · exact (h2ht 0).trans inv.headHt
  · show k ≤ maxLevel; omega
  · intro a ha
    show 1 ≤ ht h2 a ∧ ht h2 a ≤ k
    have h1a := inv.hts a (by simp at ha ⊢; tauto)
    rw [h2ht]
    refine ⟨h1a.1, ?_⟩
    -- a node higher than k would be reachable from the head on a level whose head link is nil
    by_contra hc
    obtain ⟨l, hl1, hl2⟩ := hab k (Nat.le_refl _) (by omega)
    rw [h2lvl] at hl1
    have hT : Tall h1 k 0 := by show k < ht h1 0; rw [(f1 0).2.2.2, inv.headHt]; omega
    have := linksR_at (T := Tall h1 k) (g := fun a => getLvl h1 a k) (pre := []) (L1 k (by omega)) hT
    rw [hl1, Option.some.injEq] at this
    rw [this] at hl2
    exact (nxt_none.1 hl2) a ha (by show k < ht h1 a; rw [(f1 a).2.2.2]; omega)
  · intro i hi
    have hi' : i < k := hi
    exact linksR_congr (T := Tall h1 i) (g := fun a => getLvl h1 a i) (fun a _ => by simp only [Tall, h2ht, (f1 a).2.2.2])
      (fun a _ => h2lvl a i) (L1 i (by omega))
  · show Back h2 none (A ++ B)
    rw [back_append]
    have ndAB := (List.nodup_append.1 (List.nodup_cons.1 nd2).2)
    refine ⟨back_congr (fun a ha => ?_) hbA, ?_⟩
    · rw [h2back, if_neg]
      intro e
      cases B with
      | nil => simp at e
      | cons y w =>
        simp at e
        exact ndAB.2.2 a ha y (by simp) e
    · cases B with
      | nil => trivial
      | cons y w =>
        refine ⟨by rw [h2back]; simp, back_congr (fun a ha => ?_) hbB.2⟩
        rw [h2back, if_neg]
        intro e
        simp at e
        exact (List.nodup_cons.1 ndAB.2.1).1 (e ▸ ha)
  · show s.length - 1 = _
    rw [inv.len]; simp; omega
  · exact (h2data 0).1.trans inv.headM
  · exact (h2data 0).2.trans inv.headS
  · show (h2 0).backward = none
    rw [h2back, if_neg, inv.headB]
    intro e
    cases B with
    | nil => simp at e
    | cons y w =>
      simp at e
      have := (List.nodup_cons.1 nd2).1
      exact this (by rw [e]; simp)

/-- The bottom-level successor of the node a search ends on. -/
theorem next0 {s : Skiplist} {A B P : List Nat} {x : Nat} (inv : Inv s (A ++ B)) (hx : 0 :: A = P ++ [x]) :
    ∃ l, getLvl s.heap x 0 = some l ∧ l.fwd = B.head? := by
  have hmem : x ∈ 0 :: (A ++ B) := by
    have : x ∈ 0 :: A := by rw [hx]; simp
    simp at this ⊢; tauto
  have hT : Tall s.heap 0 x := by have := inv.hpos x hmem; show 0 < ht s.heap x; omega
  have hc : 0 :: (A ++ B) = P ++ x :: B := by
    rw [show 0 :: (A ++ B) = (0 :: A) ++ B by simp, hx]; simp
  have hl := inv.links 0 inv.lev1
  rw [hc] at hl
  have := linksR_at (T := Tall s.heap 0) (g := fun a => getLvl s.heap a 0) hl hT
  refine ⟨_, this, ?_⟩
  cases B with
  | nil => rfl
  | cons y w =>
    have h1y := (inv.hts y (by simp)).1
    have : Tall s.heap 0 y := by show 0 < ht s.heap y; omega
    simp [nxt, this]

end Metis.Skiplist
