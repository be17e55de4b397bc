import Verif.Proofs.Shared
/-!
C97: a loop over a dict while other loops and the server use it. The goroutine that rewrites the append-only file walks along the hashes and
sets of the server while the server goes on (server/aof.go:310-333).
-/
set_option linter.unusedSectionVars false
set_option linter.unusedVariables false
namespace Metis.Props.SharedP
open _root_.Metis.Cells (Call Ret Move RMove Shared Racy Walker)
open _root_.Metis.Spec.SharedS
variable {K V : Type} [DecidableEq K]

/-- What a loop has collected is right for a key: the value once, or nothing if there is none. -/
def Once (items : List (K × V)) (k : K) (v : Option V) : Prop := items.filter (fun x => x.1 = k) = (v.map (fun v => (k, v))).toList

/-- The steps without the reading halves of `++` and `--`. -/
def plain : List (RMove K V) → List (Move K V)
  | [] => []
  | .move m :: ms => m :: plain ms
  | .load _ :: ms => plain ms

/-- C97 in full: also when loops read and write the counter of iterators in two steps, a loop that is over has collected every key that was not set
or deleted since the loop began exactly once, with its value. -/
def C97 : Prop :=
  ∀ (hash : Nat → Nat) (k0 v0 : Nat) (ms1 ms2 : List (RMove Nat Nat)) (rs : List (Ret Nat)) (s : Racy Nat Nat) (w : Walker Nat Nat),
    Racy.run hash Racy.new (.move (.call (.set k0 v0)) :: (ms1 ++ .move .enter :: ms2)) = some (rs, s) →
    s.shared.walkers[entered (plain ms1)]? = some w → w.done = true →
    ∀ k, (∀ m ∈ plain ms2, ¬ Touches k m) → Once w.items k (after (put (fun _ => none) (.set k0 v0)) (plain ms1) k)

/-- Nine keys in four buckets: the rehash has begun. -/
def fill : List (Move Nat Nat) := (List.range 8).map (fun i => .call (.set (i + 1) (10 * (i + 1))))

/-- Two loops read the counter 0 and write 1. One of them ends, the counter is 0, and the rehash runs while the other is on its way. -/
def race : List (RMove Nat Nat) :=
  [.load 0, .move .enter, .load 1, .move (.next 1), .move (.next 0)] ++ List.replicate 9 (.move (.next 1)) ++ [.load 1, .move (.leave 1)] ++
    List.replicate 2 (.move (.next 0)) ++ List.replicate 5 (.move (.call (.get 0))) ++ List.replicate 8 (.move (.next 0))

/-- The loop that was overtaken never sees the key 8. -/
theorem C97_false : ¬ C97 := by
  intro h
  have run : ((Racy.run id (Racy.new : Racy Nat Nat) (.move (.call (.set 0 0)) :: (fill.map .move ++ .move .enter :: race))).map
      (fun x => (x.2.shared.walkers[0]?).map (fun w => (w.done, w.items.filter (fun x => x.1 = 8))))) = some (some (true, [])) := by decide +kernel
  simp only [Option.map_eq_some_iff] at run
  obtain ⟨⟨rs, s⟩, hrun, w, hw, hwe⟩ := run
  have hp : plain (fill.map RMove.move) = fill := by decide
  have := h id 0 0 (fill.map .move) race rs s w hrun (by rw [hp]; exact hw) (congrArg Prod.fst hwe) 8 (by decide)
  rw [hp] at this
  have hv : after (put (fun _ => none) (.set 0 0)) fill 8 = some 80 := by decide
  rw [Once, hv] at this
  have h2 := congrArg Prod.snd hwe
  rw [show w.items.filter (fun x => x.1 = 8) = [] from h2] at this
  cases this

/-- Loops that end after such a race leave the counter at -1, here in the middle of a rehash. -/
theorem C97_miscount : ∃ ms rs s, Racy.run id (Racy.new : Racy Nat Nat) ms = some (rs, s) ∧ (∀ w ∈ s.shared.walkers, w.gone = true) ∧
    s.shared.dict.iterators = -1 ∧ s.shared.dict.isRehashing = true := by
  have run : ((Racy.run id (Racy.new : Racy Nat Nat) (.move (.call (.set 0 0)) :: (fill.map .move ++ .move .enter ::
      ([.load 0, .move .enter, .load 1, .move (.next 1), .move (.next 0)] ++ List.replicate 9 (.move (.next 1)) ++
        List.replicate 9 (.move (.next 0)) ++ [.move (.leave 1), .move (.leave 0)])))).map
      (fun x => (x.2.shared.walkers.all (fun w => w.gone), x.2.shared.dict.iterators, x.2.shared.dict.isRehashing))) = some (true, -1, true) := by
    decide +kernel
  simp only [Option.map_eq_some_iff] at run
  obtain ⟨⟨rs, s⟩, hrun, he⟩ := run
  simp only [Prod.mk.injEq] at he
  exact ⟨_, rs, s, hrun, by simpa using he.1, he.2.1, he.2.2⟩

/-- From then on the rehash never advances, and the first table never grows, whatever is called. -/
theorem C97_stuck (hash : K → Nat) (cs : List (Call K V)) (s s' : Shared K V) (rs : List (Ret V)) (hi : s.dict.iterators ≠ 0)
    (hr : s.dict.isRehashing = true) (h : Shared.run hash s (cs.map .call) = some (rs, s')) :
    s'.dict.iterators = s.dict.iterators ∧ s'.dict.rehashIndex = s.dict.rehashIndex := by
  induction cs generalizing s rs with
  | nil => cases h; exact ⟨rfl, rfl⟩
  | cons c cs ih =>
    simp only [List.map_cons, Shared.run, Shared.step, Option.bind_eq_bind, Option.bind_eq_some_iff] at h
    obtain ⟨⟨r1, s1⟩, ⟨⟨r0, p1⟩, hc, h1⟩, ⟨rs2, s2⟩, h2, h3⟩ := h
    cases h1
    cases h3
    obtain ⟨e1, e2, _⟩ := Cells.call_stuck hi hr hc
    obtain ⟨e3, e4⟩ := ih ⟨p1, s.walkers⟩ rs2 (by rw [e1]; exact hi) (by simp only [Cells.isRehashing, e2]; exact hr) h2
    exact ⟨e3.trans e1, e4.trans e2⟩

/-- Also without any race a loop can be overtaken: a loop over a dict in which nothing was ever stored does not count itself, but at its end counts
down what another loop has counted up. Here the key 8 is lost again. -/
theorem C97_empty_dict_false : ∃ (ms1 ms2 : List (Move Nat Nat)) (rs : List (Ret Nat)) (s : Shared Nat Nat) (w : Walker Nat Nat),
    Shared.run id Shared.new (ms1 ++ .enter :: ms2) = some (rs, s) ∧ s.walkers[entered ms1]? = some w ∧ w.done = true ∧
    (∀ m ∈ ms2, ¬ Touches 8 m) ∧ after (fun _ => none) ms1 8 = some 80 ∧ ¬ Once w.items 8 (some 80) := by
  have run : ((Shared.run id (Shared.new : Shared Nat Nat) (([.enter, .next 0, .call (.set 0 0)] ++ fill) ++ .enter ::
      ([.next 1, .leave 0, .next 1, .next 1] ++ List.replicate 5 (.call (.get 0)) ++ List.replicate 8 (.next 1)))).map
      (fun x => (x.2.walkers[1]?).map (fun w => (w.done, w.items.filter (fun x => x.1 = 8))))) = some (some (true, [])) := by decide +kernel
  simp only [Option.map_eq_some_iff] at run
  obtain ⟨⟨rs, s⟩, hrun, w, hw, hwe⟩ := run
  refine ⟨_, _, rs, s, w, hrun, hw, congrArg Prod.fst hwe, by decide, by decide, ?_⟩
  rw [Once, show w.items.filter (fun x => x.1 = 8) = [] from congrArg Prod.snd hwe]
  intro h
  cases h

/-! ## What holds -/

theorem after_untouched (k : K) (ms : List (Move K V)) (h : ∀ m ∈ ms, ¬ Touches k m) (f : K → Option V) : after f ms k = f k := by
  induction ms generalizing f with
  | nil => rfl
  | cons m ms ih =>
    have h1 := h m (by simp)
    have h2 := fun f => ih (fun x hx => h x (by simp [hx])) f
    cases m with
    | call c =>
      simp only [after, h2]
      cases c with
      | set x v => exact if_neg (fun e => h1 e.symm)
      | get x => rfl
      | delete x => exact if_neg (fun e => h1 e.symm)
    | enter => exact h2 f
    | next i => exact h2 f
    | leave i => exact h2 f

theorem after_local (k : K) (ms : List (Move K V)) (f g : K → Option V) (hfg : f k = g k) : after f ms k = after g ms k := by
  induction ms generalizing f g with
  | nil => exact hfg
  | cons m ms ih =>
    cases m with
    | call c =>
      refine ih _ _ ?_
      cases c <;> simp [put, hfg]
    | enter => exact ih _ _ hfg
    | next i => exact ih _ _ hfg
    | leave i => exact ih _ _ hfg

theorem after_touched (k : K) (ms : List (Move K V)) (h : ∃ m ∈ ms, Touches k m) (f g : K → Option V) : after f ms k = after g ms k := by
  induction ms generalizing f g with
  | nil => simp at h
  | cons m ms ih =>
    by_cases ht : Touches k m
    · cases m with
      | call c =>
        refine after_local k ms _ _ ?_
        cases c with
        | set x v => simp only [Touches] at ht; subst ht; simp [put]
        | get x => exact ht.elim
        | delete x => simp only [Touches] at ht; subst ht; simp [put]
      | enter => exact ht.elim
      | next i => exact ht.elim
      | leave i => exact ht.elim
    · have h' : ∃ m ∈ ms, Touches k m := by
        obtain ⟨x, hx, hxt⟩ := h
        rcases List.mem_cons.mp hx with rfl | hx
        · exact absurd hxt ht
        · exact ⟨x, hx, hxt⟩
      cases m with
      | call c => exact ih h' _ _
      | enter => exact ih h' _ _
      | next i => exact ih h' _ _
      | leave i => exact ih h' _ _

theorem store_key (k : K) (l : List (K × V)) (f : K → Option V) :
    store f l k = (((l.filter (fun x => x.1 = k)).getLast?).map Prod.snd).or (f k) := by
  induction l generalizing f with
  | nil => rfl
  | cons e l ih =>
    obtain ⟨x, v⟩ := e
    simp only [store, ih]
    by_cases hx : x = k
    · subst hx
      simp only [decide_true, List.filter_cons_of_pos, List.getLast?_cons]
      cases (l.filter (fun y => y.1 = x)).getLast? <;> simp [put]
    · rw [List.filter_cons_of_neg (by simpa using hx)]
      simp only [put]
      rw [if_neg (fun h => hx h.symm)]

theorem was_self {f : K → Option V} {ms : List (Move K V)} {k : K} : Was f ms k (f k) := ⟨[], ms, rfl, rfl⟩

theorem was_untouched {f : K → Option V} {ms : List (Move K V)} {k : K} (h : ∀ m ∈ ms, ¬ Touches k m) {o : Option V} (hw : Was f ms k o) : o = f k := by
  obtain ⟨pre, post, rfl, rfl⟩ := hw
  exact after_untouched k pre (fun m hm => h m (by simp [hm])) f

/-- A key that kept its value. -/
theorem once_of {f : K → Option V} {ms : List (Move K V)} {items : List (K × V)} {k : K} (hk : ∀ o, Was f ms k o → o = f k)
    (h1 : ∀ x ∈ items, Was f ms x.1 (some x.2)) (h2 : (¬ Was f ms k none) → (items.filter (fun x => x.1 = k)).length = 1) : Once items k (f k) := by
  unfold Once
  have hv : ∀ x ∈ items.filter (fun x => x.1 = k), x.1 = k ∧ some x.2 = f k := by
    intro x hx
    have := List.mem_filter.mp hx
    have hxk : x.1 = k := by simpa using this.2
    exact ⟨hxk, hk _ (hxk ▸ h1 x this.1)⟩
  cases hf : f k with
  | none =>
    cases hl : items.filter (fun x => x.1 = k) with
    | nil => rfl
    | cons x l =>
      have := (hv x (by rw [hl]; simp)).2
      rw [hf] at this
      cases this
  | some v =>
    obtain ⟨x, hx⟩ := List.length_eq_one_iff.mp (h2 (fun hw => by have := hk _ hw; rw [hf] at this; cases this))
    have := hv x (by rw [hx]; simp)
    rw [hf] at this
    rw [hx]
    obtain ⟨a, b⟩ := x
    obtain ⟨rfl, e⟩ := this
    cases e
    rfl

/-- C97, what holds: after a first `Set`, whatever is called and however the calls and the calls of `Next` and `Release` of any number of loops are
interleaved, nothing crashes; the calls return what they would return without the loops. Everything that a loop has collected was in the dict at some
moment since it began; when it is over, it has collected every key that was there all the time exactly once, hence every key whose value did not change exactly
once with its value; storing what it has collected and then doing the calls made since it began gives the contents
of the dict; and when all loops are left the counter of iterators is 0 again.

Missing from the full claim: the reading and the writing of the counter are one step here. -/
theorem C97_loops_and_calls_partial (hash : K → Nat) (k0 : K) (v0 : V) (ms : List (Move K V)) :
    ∃ rs s, Shared.run hash Shared.new (.call (.set k0 v0) :: ms) = some (.isNew true :: rs, s) ∧
      rs = answers (put (fun _ => none) (.set k0 v0)) ms ∧
      (∀ k, ∃ p, Cells.get hash s.dict k = some (after (put (fun _ => none) (.set k0 v0)) ms k, p)) ∧
      (∀ ms1 ms2 f, ms = ms1 ++ .enter :: ms2 → f = after (put (fun _ => none) (.set k0 v0)) ms1 → ∃ w, s.walkers[entered ms1]? = some w ∧
        (∀ x ∈ w.items, Was f ms2 x.1 (some x.2)) ∧ (w.done = true →
        (∀ k, (¬ Was f ms2 k none) → (w.items.filter (fun x => x.1 = k)).length = 1) ∧
        (∀ k, (∀ o, Was f ms2 k o → o = f k) → Once w.items k (f k)) ∧
        after (store (fun _ => none) w.items) ms2 = after f ms2)) ∧
      ((∀ w ∈ s.walkers, w.gone = true) → s.dict.iterators = 0) := by
  obtain ⟨s0, d0, h1, h2, h3, h4⟩ := Cells.start_run (hash := hash) k0 v0
  obtain ⟨s, d, g1, g2, g3⟩ := Cells.run_run h2 ms
  rw [h3] at g1 g2 g3
  refine ⟨_, s, ?_, rfl, ?_, ?_, ?_⟩
  · simp [Shared.run, h1, g1]
  · intro k
    obtain ⟨p, _, hg, _⟩ := Cells.get_rep g2.rep g2.inv k
    exact ⟨p, by rw [hg, g3]⟩
  · intro ms1 ms2 f hms hf
    subst hms
    obtain ⟨T, H, hT, hTk, hHk, hne⟩ := Cells.ghosts_enter (put (fun _ => none) (.set k0 v0)) ms1 ms2
    rw [← hf] at hTk hHk hne
    have hlt := (List.getElem?_eq_some_iff.mp hT).1
    rw [g2.len] at hlt
    obtain ⟨w, hw⟩ : ∃ w, s.walkers[entered ms1]? = some w := ⟨_, List.getElem?_eq_getElem hlt⟩
    have had : ∀ x ∈ w.items, Was f ms2 x.1 (some x.2) := fun x hx => hHk _ _ (g2.had hw hT x hx)
    refine ⟨w, hw, had, fun hd => ?_⟩
    have all : ∀ k, (¬ Was f ms2 k none) → (w.items.filter (fun x => x.1 = k)).length = 1 := fun k hk =>
      g2.finished hw hT hd k (fun hm => hk (hTk k hm)) (hne k (fun e => hk (e ▸ was_self)))
    have key : ∀ k, (∀ o, Was f ms2 k o → o = f k) → Once w.items k (f k) := fun k hk => once_of hk had (all k)
    refine ⟨all, key, ?_⟩
    funext k
    by_cases ht : ∃ m ∈ ms2, Touches k m
    · exact after_touched k ms2 ht _ _
    · have hk : ∀ m ∈ ms2, ¬ Touches k m := fun m hm h => ht ⟨m, hm, h⟩
      rw [after_untouched k ms2 hk, after_untouched k ms2 hk, store_key, key k (fun o ho => was_untouched hk ho)]
      cases f k <;> rfl
  · intro hg
    rw [g2.rep.its, g2.cnt]
    have : s.walkers.countP Cells.counted = 0 := by
      rw [List.countP_eq_zero]
      intro w hw
      simp [Cells.counted, hg w hw]
    rw [this]
    rfl

/-- Every loop ends if it is given its turns, wherever it is. -/
theorem C97_loops_end (hash : K → Nat) (k0 : K) (v0 : V) (ms : List (Move K V)) (rs : List (Ret V)) (s : Shared K V)
    (h : Shared.run hash Shared.new (.call (.set k0 v0) :: ms) = some (rs, s)) (i : Nat) (hi : i < s.walkers.length) :
    ∃ n s' w, Shared.run hash s (List.replicate n (.next i)) = some ([], s') ∧ s'.walkers[i]? = some w ∧ w.done = true := by
  obtain ⟨s0, d0, h1, h2, h3, h4⟩ := Cells.start_run (hash := hash) k0 v0
  obtain ⟨s1, d, g1, g2, g3⟩ := Cells.run_run h2 ms
  have : s1 = s := by
    simp only [Shared.run, h1, g1, Option.bind_eq_bind, Option.bind_some, Option.some.injEq, Prod.mk.injEq] at h
    exact h.2
  subst this
  exact Cells.ends g2 (List.getElem?_eq_getElem hi)

/-- The machine of the full claim without reading ahead is the machine of these theorems. -/
theorem C97_atomic (hash : K → Nat) (ms : List (Move K V)) (s : Shared K V) (n : Nat) :
    (Racy.run hash ⟨s, List.replicate n none⟩ (ms.map .move)).map (fun x => (x.1, x.2.shared)) = Shared.run hash s ms := by
  induction ms generalizing s n with
  | nil => rfl
  | cons m ms ih =>
    have hreg : ∀ i : Nat, (List.replicate n (none : Option Int))[i]? = none ∨ (List.replicate n (none : Option Int))[i]? = some none := by
      intro i
      by_cases hi : i < n
      · right; simp [hi]
      · left; simp; omega
    have step : ∀ t r, Shared.step hash s m = some (r, t) → ∃ n', Racy.step hash ⟨s, List.replicate n none⟩ (.move m) = some (r, ⟨t, List.replicate n' none⟩) := by
      intro t r hst
      cases m with
      | call c => exact ⟨n, by simp only [Racy.step, hst, Option.bind_eq_bind, Option.bind_some]⟩
      | enter =>
        refine ⟨n + 1, ?_⟩
        simp only [Racy.step, hst, Option.bind_eq_bind, Option.bind_some, List.replicate_succ']
      | next i =>
        refine ⟨n, ?_⟩
        simp only [Racy.step, hst, Option.bind_eq_bind, Option.bind_some]
        rcases hreg i with h | h <;> rw [h]
      | leave i =>
        refine ⟨n, ?_⟩
        simp only [Racy.step, hst, Option.bind_eq_bind, Option.bind_some]
        rcases hreg i with h | h <;> rw [h]
    have stepn : Shared.step hash s m = none → Racy.step hash ⟨s, List.replicate n none⟩ (.move m) = none := by
      intro hst
      cases m <;> simp only [Racy.step, hst, Option.bind_eq_bind, Option.bind_none]
    simp only [List.map_cons, Racy.run, Shared.run, Option.bind_eq_bind]
    cases hst : Shared.step hash s m with
    | none => rw [stepn hst]; rfl
    | some x =>
      obtain ⟨r, t⟩ := x
      obtain ⟨n', hs⟩ := step t r hst
      rw [hs]
      simp only [Option.bind_some]
      rw [← ih t n']
      cases Racy.run hash ⟨t, List.replicate n' none⟩ (ms.map .move) <;> rfl

/-- A loop that begins in the middle of a rehash and meets insertions, deletions (also of the entry it would return next) and changes of values. -/
def busy : List (Move Nat Nat) :=
  .call (.set 0 0) :: (fill ++ [.enter, .next 0, .call (.delete 0), .call (.delete 1), .call (.set 17 7), .call (.set 3 333)] ++
    List.replicate 11 (.next 0) ++ [.leave 0, .call (.get 3)])

/-- What the calls return. -/
example : (Shared.run id (Shared.new : Shared Nat Nat) busy).map (fun x => x.1.drop 9) =
    some [.deleted none, .deleted none, .isNew true, .isNew false, .value (some 333)] := by decide +kernel

/-- The loop is over after eleven turns. It has returned the entry that was deleted under it, the new value of a key it had not reached, and every
other key once. -/
example : (Shared.run id (Shared.new : Shared Nat Nat) busy).map (fun x => (x.2.walkers.map (fun w => w.items), x.2.dict.iterators)) =
    some ([[(4, 40), (0, 0), (5, 50), (6, 60), (2, 20), (7, 70), (3, 333), (8, 80), (17, 7)]], 0) := by decide +kernel

example : (Shared.run id (Shared.new : Shared Nat Nat) busy).map (fun x => x.2.walkers.all (fun w => w.done && w.gone)) = some true := by decide +kernel

/-- A key that is deleted and set again during a loop can be collected twice, with two values; so "always there" is needed. -/
theorem C97_twice : ∃ (ms1 ms2 : List (Move Nat Nat)) (rs : List (Ret Nat)) (s : Shared Nat Nat) (w : Walker Nat Nat),
    Shared.run id Shared.new (.call (.set 0 0) :: (ms1 ++ .enter :: ms2)) = some (rs, s) ∧ s.walkers[entered ms1]? = some w ∧ w.done = true ∧
    w.items.filter (fun x => x.1 = 4) = [(4, 40), (4, 44)] := by
  have run : ((Shared.run id (Shared.new : Shared Nat Nat) (.call (.set 0 0) :: (fill ++ .enter ::
      ([.next 0, .call (.delete 4), .call (.set 4 44)] ++ List.replicate 11 (.next 0))))).map
      (fun x => (x.2.walkers[0]?).map (fun w => (w.done, w.items.filter (fun x => x.1 = 4))))) = some (some (true, [(4, 40), (4, 44)])) := by decide +kernel
  simp only [Option.map_eq_some_iff] at run
  obtain ⟨⟨rs, s⟩, hrun, w, hw, hwe⟩ := run
  exact ⟨_, _, rs, s, w, hrun, hw, congrArg Prod.fst hwe, congrArg Prod.snd hwe⟩

end Metis.Props.SharedP
