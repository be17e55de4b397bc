import Verif.Props.Collections
import Verif.Spec.Deque
/-!
Property C64: reading lists by position.
-/
set_option linter.unusedSectionVars false
set_option linter.unusedSimpArgs false
set_option linter.unusedVariables false
namespace Metis.Props.ListsP
open Metis Spec Metis.Props.ServerP Metis.Props.CollectionsP
variable {hash : Bytes → Nat} {s : Sys} {fd : Nat} {e : Env} {c : Session} {n k : Bytes}

/-- The element at an index from 0. -/
def at? (l : List Bytes) (i : Int) : Option Bytes := if i < 0 then none else l[i.toNat]?

/-- The full claim of C64: LINDEX replies with the element at the index, null outside the list; LRANGE with the elements from start to stop, where negative
numbers count from the end, null if there are none (a missing key: the empty array). -/
def C64 : Prop := ∀ (hash : Bytes → Nat) (s : Sys) (fd : Nat) (e : Env) (c : Session) (n k : Bytes) (l : List Bytes),
  Ready hash s fd e c → s.seen c.db e.now k ≠ none → listOf (s.seen c.db e.now k) = some l →
  (∀ a i, commandOf e [n, k, a] = some .lindex → atoi a = some i →
    ∃ s' r, Sys.step s (.request fd e [n, k, a]) = some (s', r) ∧ Says r (match at? l i with | some x => .bulk x | none => .null)) ∧
  (∀ a b i j rest, commandOf e (n :: k :: a :: b :: rest) = some .lrange → atoi a = some i → atoi b = some j →
    ∃ s' r, Sys.step s (.request fd e (n :: k :: a :: b :: rest)) = some (s', r) ∧
      Says r (if slice l i j = [] then .null else .arr (slice l i j)))

/-- The index is in the first half of the list or on its first page, or outside the list. -/
def Near (o : Option AObj) (i : Int) : Prop :=
  ∀ q, o = some (.list q) → i < 0 ∨ q.pages.flatten.length ≤ i ∨ i < (q.pages.flatten.length / 2 : Nat) ∨ i < (q.pages.headD []).length

theorem good_of {q : Quicklist Bytes} (w : Quicklist.Wf pageSize q) {i : Nat}
    (h : i < q.pages.flatten.length / 2 ∨ i < (q.pages.headD []).length) : Quicklist.Good q i := by
  rcases h with h | h
  · exact Or.inl (by rw [w.len]; exact h)
  · exact Or.inr h

/-- Looking a key up changes nothing that can be seen. -/
theorem seen_after {s s' : Sys} {i : Nat} {d : Db} {e : Env} {k : Bytes} (hd : s.srv.dbs[i]? = some d) (hv : ∀ k', s'.val i k' = (A.exp e d.view k).v k')
    (ht : ∀ k', s'.deadline i k' = (A.exp e d.view k).t k') (k' : Bytes) : s'.seen i e.now k' = s.seen i e.now k' := by
  unfold Sys.seen
  rw [hv, ht, val_eq hd, deadline_eq hd]
  unfold A.exp
  by_cases hx : A.expired e d.view k = true
  · rw [if_pos hx]
    simp only [upd]
    by_cases hk : k = k'
    · subst hk
      unfold A.expired at hx
      cases hdl : d.view.t k with
      | none => rw [hdl] at hx; cases hx
      | some dl =>
        rw [hdl] at hx
        simp only [decide_eq_true_eq] at hx
        simp [hx]
    · simp [hk]
  · rw [if_neg hx]

/-- **C64, partial**: LINDEX, in the first half and on the first page. Missing: other indices of lists of several pages (false, see below). -/
theorem C64_lindex_partial (R : Ready hash s fd e c) {l : List Bytes} (hh : listOf (s.seen c.db e.now k) = some l) {a : Bytes} {i : Int}
    (hcmd : commandOf e [n, k, a] = some .lindex) (ha : atoi a = some i) (hi : Near (s.seen c.db e.now k) i) :
    ∃ s' r, Sys.step s (.request fd e [n, k, a]) = some (s', r) ∧ Says r (match at? l i with | some x => .bulk x | none => .null) ∧
      ∀ k', s'.seen c.db e.now k' = s.seen c.db e.now k' := by
  obtain ⟨d, hd⟩ := get_lt (R.reach.good.sess fd c R.sess)
  rw [seen_eq hd] at hh hi
  have hk := lookList hh (lok_exp (reach_lok R.reach hd))
  have hA : A.lindex e [n, k, a] d.view = some ⟨A.exp e d.view k, 0, A.ex (match at? l i with | some x => Reply.bulk x | none => Reply.null)⟩ := by
    rcases hk with ⟨h1, h2, h3⟩ | ⟨q, h1, h2, h3, h4⟩
    · have : at? l i = none := by rw [h2]; unfold at?; split <;> simp
      simp [A.lindex, h1, this]
    · have hg : Quicklist.get q i = some (at? l i) := by
        have hl : q.pages.flatten = l := h2
        have hq := hi q h4
        rw [hl] at hq
        unfold at?
        by_cases hout : i < 0 ∨ l.length ≤ i
        · unfold Quicklist.get
          rw [Quicklist.getPos_none q h3 i (by rw [h2]; rcases hout with h | h; exact Or.inl h; exact Or.inr h)]
          simp only
          rcases hout with h | h
          · rw [if_pos h]
          · rw [if_neg (by omega), List.getElem?_eq_none (by omega)]
        · obtain ⟨m, rfl⟩ : ∃ m : Nat, i = m := ⟨i.toNat, by omega⟩
          have := Quicklist.get_good q h3 m (by rw [h2]; omega) (good_of h3 (by rw [hl]; rcases hq with h | h | h | h <;> omega))
          rw [this, h2, if_neg (by omega), Int.toNat_natCast]
      simp only [A.lindex, List.getElem?_cons_succ, List.getElem?_cons_zero, Option.bind_eq_bind, Option.bind_some, h1, ha, hg]
      cases at? l i <;> rfl
  obtain ⟨s', r, w1, w2, w3, w4⟩ := answer R.reach R.env R.sess R.allowed hcmd rfl (f := Cmds.lindex) (f' := A.lindex) rfl rfl hd hA (by decide) (by decide)
  refine ⟨s', r, w1, ?_, fun k' => ?_⟩
  · rw [show r = _ from w2]
    cases at? l i
    · exact says_null
    · exact says_bulk _
  · exact seen_after hd w3 w4 k'

/-- **C64, partial**: LRANGE with a start in the first half or on the first page, and a stop below 2^44. -/
theorem C64_lrange_partial (R : Ready hash s fd e c) {l : List Bytes} (hne : s.seen c.db e.now k ≠ none) (hh : listOf (s.seen c.db e.now k) = some l)
    {a b : Bytes} {rest : List Bytes} {i j : Int} (hcmd : commandOf e (n :: k :: a :: b :: rest) = some .lrange) (ha : atoi a = some i) (hb : atoi b = some j)
    (hi : Near (s.seen c.db e.now k) (if i < 0 then l.length + i else i)) (hj : j < 2 ^ 44) (hl : l.length ≤ 2 ^ 44) :
    ∃ s' r, Sys.step s (.request fd e (n :: k :: a :: b :: rest)) = some (s', r) ∧
      Says r (if slice l i j = [] then .null else .arr (slice l i j)) ∧ ∀ k', s'.seen c.db e.now k' = s.seen c.db e.now k' := by
  obtain ⟨d, hd⟩ := get_lt (R.reach.good.sess fd c R.sess)
  rw [seen_eq hd] at hh hi hne
  have hk := lookList hh (lok_exp (reach_lok R.reach hd))
  rcases hk with ⟨h1, h2, h3⟩ | ⟨q, h1, h2, h3, h4⟩
  · exact absurd h3 hne
  have hg : Quicklist.range q i j = some (slice l i j) := by
    have hl' : q.pages.flatten = l := h2
    have hq := hi q h4
    rw [hl'] at hq
    unfold slice
    simp only []
    by_cases hc : (if i < 0 then (l.length : Int) + i else i) < 0 ∨ (if j < 0 then (l.length : Int) + j else j) < 0 ∨
        (if i < 0 then (l.length : Int) + i else i) > (if j < 0 then (l.length : Int) + j else j) ∨ (if i < 0 then (l.length : Int) + i else i) ≥ l.length
    · rw [if_pos hc]
      exact Quicklist.range_empty q h3 i j (by rw [h2]; exact hc)
    · rw [if_neg hc]
      obtain ⟨m, hm⟩ : ∃ m : Nat, (if i < 0 then (l.length : Int) + i else i) = m := ⟨(if i < 0 then (l.length : Int) + i else i).toNat, by omega⟩
      obtain ⟨p, hp⟩ : ∃ p : Nat, (if j < 0 then (l.length : Int) + j else j) = p := ⟨(if j < 0 then (l.length : Int) + j else j).toNat, by omega⟩
      rw [hm] at hq
      rw [hm, hp] at hc ⊢
      have := Quicklist.range_good q h3 i j m p (by rw [h2]; exact hm) (by rw [h2]; exact hp) (by omega) (by rw [h2]; omega)
        (good_of h3 (by rw [hl']; rcases hq with h | h | h | h <;> omega)) (by
          unfold Quicklist.maxCap
          by_cases hneg : j < 0
          · rw [if_pos hneg] at hp; omega
          · rw [if_neg hneg] at hp; omega)
      rw [this, h2]; rfl
  have hA : A.lrange e (n :: k :: a :: b :: rest) d.view =
      some ⟨A.exp e d.view k, 0, A.ex (if slice l i j = [] then Reply.null else Reply.array (slice l i j))⟩ := by
    simp only [A.lrange, List.getElem?_cons_succ, List.getElem?_cons_zero, Option.bind_eq_bind, Option.bind_some, h1, ha, hb, hg]
    split <;> rfl
  obtain ⟨s', r, w1, w2, w3, w4⟩ := answer R.reach R.env R.sess R.allowed hcmd (by
    have : arity .lrange = -4 := rfl
    simp [Server.badArity, this]; omega) (f := Cmds.lrange) (f' := A.lrange) rfl rfl hd hA (by decide) (by decide)
  refine ⟨s', r, w1, ?_, seen_after hd w3 w4⟩
  rw [show r = _ from w2]
  split
  · exact says_null
  · exact says_array _

/-- LINDEX of the last element crashes the server on every list of more than 1024 elements. -/
theorem C64_lindex_crashes (R : Ready hash s fd e c) {l : List Bytes} (hh : listOf (s.seen c.db e.now k) = some l) (hlen : 1024 < l.length)
    {a : Bytes} (ha : atoi a = some ((l.length : Int) - 1)) (hcmd : commandOf e [n, k, a] = some .lindex) : Sys.step s (.request fd e [n, k, a]) = none := by
  obtain ⟨d, hd⟩ := get_lt (R.reach.good.sess fd c R.sess)
  rw [seen_eq hd] at hh
  cases hst : Sys.step s (.request fd e [n, k, a]) with
  | none => rfl
  | some p =>
    obtain ⟨s', r⟩ := p
    obtain ⟨d', o, a', hd', ho, ha', _⟩ := step_request R.reach.good R.env hst R.sess R.allowed hcmd (by rfl) (f := Cmds.lindex) rfl
    rw [hd] at hd'; cases hd'
    rcases lookList hh (lok_exp (reach_lok R.reach hd)) with ⟨h1, h2, h3⟩ | ⟨q, h1, h2, h3, h4⟩
    · rw [h2] at hlen; cases hlen
    · have hl : Quicklist.len q = l.length := by unfold Quicklist.len; rw [h3.len, h2]
      have hl' : q.pages.flatten = l := h2
      obtain ⟨m, hm⟩ : ∃ m : Nat, (l.length : Int) - 1 = m := ⟨l.length - 1, by omega⟩
      have hhead : (q.pages.headD []).length ≤ 1024 := by
        cases hp : q.pages with
        | nil => simp
        | cons p ps => exact h3.le p (by rw [hp]; simp)
      obtain ⟨st, en, b1, b2, b3, b4, b5⟩ := Quicklist.get_bad q h3 m (by rw [h2]; omega) (by
        rintro (h | h)
        · rw [h3.len, h2] at h; omega
        · omega)
      rw [if_neg (by rw [h2] at b4; omega)] at b5
      have hn : A.lindex e [n, k, a] d.view = none := by
        simp only [A.lindex, List.getElem?_cons_succ, List.getElem?_cons_zero, Option.bind_eq_bind, Option.bind_some, h1, ha, hm, b5, Option.bind_none]
      cases ha' with
      | det hc h => cases hc; rw [hn] at h; cases h

/-- A server whose only key holds a list of the given elements. -/
theorem pushed (vs : List Bytes) (h : vs ≠ []) :
    ∃ s, (Sys.run (Sys.init 1 [] false) [.connect 4, .request 4 (demo 0) (b!"rpush" :: b!"l" :: vs)]).map Prod.fst = some s ∧
      Ready (demo 0).hash s 4 (demo 0) ⟨0, false⟩ ∧ listOf (s.seen 0 0 b!"l") = some vs := by
  obtain ⟨s0, hs0⟩ : ∃ s0, Sys.run (Sys.init 1 [] false) [.connect 4] = some (s0, [[]]) ∧ s0.sess 4 = some ⟨0, false⟩ ∧
      s0.srv.password = [] ∧ s0.val 0 b!"l" = none ∧ s0.deadline 0 b!"l" = none := ⟨_, rfl, rfl, rfl, rfl, rfl⟩
  obtain ⟨h1, h2, h3, h4, h5⟩ := hs0
  have hr0 : Reach (demo 0).hash s0 := ⟨1, [], false, [.connect 4], _, by simp [EvOk], h1⟩
  have R0 : Ready (demo 0).hash s0 4 (demo 0) ⟨0, false⟩ := ⟨hr0, rfl, h2, Or.inl h3⟩
  obtain ⟨s1, r1, q1, q2, q3, q4⟩ := C38_push (n := b!"rpush") (k := b!"l") R0 vs h .rpush
    (by rfl) (Or.inr rfl) (by intro dl hdl; rw [h5] at hdl; cases hdl) (l := []) (by rw [h4]; rfl)
  have hr1 := Reach.step hr0 (show EvOk (demo 0).hash (.request 4 (demo 0) (b!"rpush" :: b!"l" :: vs)) from rfl) q1
  obtain ⟨_, hpw, _⟩ := step_db hr0.good (show EvOk (demo 0).hash (.request 4 (demo 0) (b!"rpush" :: b!"l" :: vs)) from rfl) q1
  obtain ⟨_, _, _, _, _, _, _, _, _, hse⟩ := step_request hr0.good rfl q1 h2 (Or.inl h3) (cmd := .rpush) (by rfl)
    (by have : arity .rpush = -3 := rfl
        have := List.length_pos_iff.2 h
        simp [Server.badArity, this]; omega) (f := Cmds.rpush) rfl
  refine ⟨s1, ?_, ⟨hr1, rfl, (hse 4).trans h2, Or.inl (hpw.trans h3)⟩, ?_⟩
  · rw [show [Event.connect 4, .request 4 (demo 0) (b!"rpush" :: b!"l" :: vs)] = [.connect 4] ++ [.request 4 (demo 0) (b!"rpush" :: b!"l" :: vs)] from rfl,
      run_append, h1]
    simp [Sys.run, q1]
  · unfold Sys.seen
    rw [show s1.deadline 0 b!"l" = none from q3.trans h5]
    simpa using q2

/-- C64 does not hold: push 1025 elements and ask for the last. -/
theorem C64_refuted : ¬ C64 := by
  intro H
  obtain ⟨s, _, R, hl⟩ := pushed (List.replicate 1025 b!"x") (by intro h; cases h)
  have hne : s.seen 0 0 b!"l" ≠ none := by intro h; rw [h] at hl; cases hl
  obtain ⟨s', r, h, _⟩ := (H _ s 4 (demo 0) _ b!"lindex" b!"l" _ R hne hl).1 b!"1024" 1024 (by rfl) (by decide)
  have := C64_lindex_crashes (n := b!"lindex") R hl (by rw [List.length_replicate]; decide) (a := b!"1024") (by rw [List.length_replicate]; decide) (by rfl)
  rw [this] at h; cases h

/-! Non-trivial cases: both theorems apply to the first element of a list of any length, for example one of 3000. -/
example : ∃ s s' r, Sys.step s (.request 4 (demo 0) [b!"lindex", b!"l", b!"0"]) = some (s', r) ∧ Says r (.bulk b!"x") := by
  obtain ⟨s, _, R, hl⟩ := pushed (List.replicate 3000 b!"x") (by intro h; cases h)
  obtain ⟨s', r, h1, h2, _⟩ := C64_lindex_partial (n := b!"lindex") R hl (a := b!"0") (i := 0) (by rfl) (by decide) (by
    intro q hq
    have : q.pages.flatten = List.replicate 3000 b!"x" := by
      have hl' := hl; rw [show s.seen 0 0 b!"l" = _ from hq] at hl'; exact Option.some.inj hl'
    rw [this, List.length_replicate]; exact Or.inr (Or.inr (Or.inl (by decide))))
  exact ⟨s, s', r, h1, h2⟩

example : ∃ s s' r, Sys.step s (.request 4 (demo 0) [b!"lrange", b!"l", b!"0", b!"-2999"]) = some (s', r) ∧ Says r (.arr [b!"x", b!"x"]) := by
  obtain ⟨s, _, R, hl⟩ := pushed (List.replicate 3000 b!"x") (by intro h; cases h)
  have hne : s.seen 0 0 b!"l" ≠ none := by intro h; rw [h] at hl; cases hl
  obtain ⟨s', r, h1, h2, _⟩ := C64_lrange_partial (n := b!"lrange") R hne hl (a := b!"0") (b := b!"-2999") (i := 0) (j := -2999) (rest := []) (by rfl) (by decide)
    (by decide) (by
    intro q hq
    have : q.pages.flatten = List.replicate 3000 b!"x" := by
      have hl' := hl; rw [show s.seen 0 0 b!"l" = _ from hq] at hl'; exact Option.some.inj hl'
    rw [this, List.length_replicate]; exact Or.inr (Or.inr (Or.inl (by decide)))) (by decide) (by rw [List.length_replicate]; decide)
  have hs : slice (List.replicate 3000 b!"x") 0 (-2999) = [b!"x", b!"x"] := by
    unfold slice
    rw [List.length_replicate]
    rfl
  rw [hs] at h2
  exact ⟨s, s', r, h1, h2⟩

end Metis.Props.ListsP
