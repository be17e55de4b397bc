import Verif.Proofs.Fine
import Verif.Props.Shared
/-!
C100: a loop over a dict while the server is inside a call on it. The goroutine that rewrites the append-only file walks along the hashes and sets of
the server without a lock (server/aof.go:310-333), so its reads fall between the writes of a call.
-/
set_option linter.unusedSectionVars false
set_option linter.unusedVariables false
set_option synthInstance.maxSize 2000
set_option synthInstance.maxHeartbeats 200000
namespace Metis.Props.FineP
open _root_.Metis.Cells (Call Ret Move FMove Fine Pacer Job Stage callsOf enters)
open _root_.Metis.Spec.SharedS
open _root_.Metis.Props.SharedP (Once was_self once_of after_touched after_untouched store_key was_untouched)
variable {K V : Type} [DecidableEq K]

/-- A first `Set`, from beginning to end. -/
def first (k : K) (v : V) : List (FMove K V) := [.begin (.set k v), .main, .main, .main]

/-- C100 in full: however the steps of calls and loops are interleaved, nothing crashes, and a loop that is over has collected every key that was not set or
deleted since the loop began exactly once, with its value. -/
def C100 : Prop :=
  ∀ (hash : Nat → Nat) (k0 v0 : Nat) (ms : List (FMove Nat Nat)),
    ∃ o s, Fine.run hash Fine.new (first k0 v0 ++ ms) = some (o, s) ∧
      ∀ ms1 ms2 o1 s1 w, ms = ms1 ++ .enter :: ms2 → Fine.run hash Fine.new (first k0 v0 ++ ms1) = some (o1, s1) →
        s.pacers[enters ms1]? = some w → w.stage = .done → ∀ k, (∀ x ∈ o.drop o1.length, ¬ Touches k (.call x.1)) →
          Once w.items k (after (fun _ => none) (callsOf o1) k)

/-- A call, and turns enough to end it. -/
def whole (c : Call Nat Nat) : List (FMove Nat Nat) := .begin c :: List.replicate 14 .main

/-- Nine keys in four buckets: the rehash has begun. -/
def fill : List (FMove Nat Nat) := ((List.range 8).map (fun i => whole (.set (i + 1) (10 * (i + 1))))).flatten

/-- Four steps of the rehash: all entries are in the second table. -/
def moved : List (FMove Nat Nat) := fill ++ (List.replicate 4 (whole (.get 0))).flatten

/-- A loop may crash: it begins when the server is about to drop the first table, finds that there is a second one, and reads it when it is gone. -/
theorem C100_crash : Fine.run id (Fine.new : Fine Nat Nat) (first 0 0 ++ (moved ++ [.begin (.get 0), .main] ++ .enter ::
    (List.replicate 17 (.step 0) ++ [.main, .main, .step 0]))) = none := by decide +kernel

/-- So may `Size`, with which the rewrite begins its loop. -/
theorem C100_crash_in_size : Fine.run id (Fine.new : Fine Nat Nat) (first 0 0 ++ (moved ++ [.begin (.get 0)] ++ .enter ::
    [.step 0, .main, .main, .main, .step 0])) = none := by decide +kernel

theorem C100_false : ¬ C100 := by
  intro h
  obtain ⟨o, s, hs, _⟩ := h id 0 0 (moved ++ [.begin (.get 0), .main] ++ .enter :: (List.replicate 17 (.step 0) ++ [.main, .main, .step 0]))
  rw [C100_crash] at hs
  cases hs

/-- A loop that does not crash may miss everything: nine keys are in the dict all the time, and the loop has collected none. The server only reads a key. -/
theorem C100_misses_all : ∃ (ms1 ms2 : List (FMove Nat Nat)) (o1 o2 : List (Call Nat Nat × Ret Nat)) (s1 s : Fine Nat Nat) (w : Pacer Nat Nat),
    Fine.run id Fine.new (first 0 0 ++ ms1) = some (o1, s1) ∧ Fine.run id s1 (.enter :: ms2) = some (o2, s) ∧
    (∀ k x, x ∈ o2 → ¬ Touches k (Move.call x.1)) ∧ (∀ k < 9, after (fun _ => none) (callsOf o1) k = some (10 * k)) ∧
    s.pacers[enters ms1]? = some w ∧ w.stage = .done ∧ w.items = [] := by
  have run : (Fine.run id (Fine.new : Fine Nat Nat) (first 0 0 ++ (moved ++ [.begin (.get 0), .main]))).bind (fun x =>
      (Fine.run id x.2 (.enter :: (List.replicate 16 (.step 0) ++ [.main, .main, .main, .step 0, .main]))).map (fun y =>
        ((List.range 9).map (after (fun _ => none) (callsOf x.1)), y.1.map Prod.fst, (y.2.pacers[0]?).map (fun w => (w.stage, w.items))))) =
      some ((List.range 9).map (fun k => some (10 * k)), [.get 0], some (.done, [])) := by decide +kernel
  simp only [Option.bind_eq_some_iff, Option.map_eq_some_iff] at run
  obtain ⟨⟨o1, s1⟩, h1, ⟨o2, s⟩, h2, h3⟩ := run
  simp only [Prod.mk.injEq, List.map_inj_left, List.mem_range, Option.map_eq_some_iff] at h3
  obtain ⟨h3, h4, w, hw, h5, h6⟩ := h3
  refine ⟨_, _, o1, o2, s1, s, w, h1, h2, ?_, h3, ?_, h5, h6⟩
  · intro k x hx
    have : x.1 ∈ o2.map Prod.fst := List.mem_map_of_mem hx
    rw [h4] at this
    simp only [List.mem_cons, List.not_mem_nil, or_false] at this
    rw [this]
    exact id
  · have : enters (moved ++ [FMove.begin (.get 0), .main]) = 0 := by decide +kernel
    rw [this]
    exact hw

/-- Or it may collect keys twice that nobody touched. -/
theorem C100_twice : ∃ (ms1 ms2 : List (FMove Nat Nat)) (o1 o2 : List (Call Nat Nat × Ret Nat)) (s1 s : Fine Nat Nat) (w : Pacer Nat Nat),
    Fine.run id Fine.new (first 0 0 ++ ms1) = some (o1, s1) ∧ Fine.run id s1 (.enter :: ms2) = some (o2, s) ∧
    (∀ k x, x ∈ o2 → ¬ Touches k (Move.call x.1)) ∧ s.pacers[enters ms1]? = some w ∧ w.stage = .done ∧
    w.items.filter (fun x => x.1 = 4) = [(4, 40), (4, 40)] := by
  have run : (Fine.run id (Fine.new : Fine Nat Nat) (first 0 0 ++ (fill ++ [.begin (.get 0), .main]))).bind (fun x =>
      (Fine.run id x.2 (.enter :: (List.replicate 11 (.step 0) ++ List.replicate 10 .main ++ List.replicate 100 (.step 0)))).map (fun y =>
        (y.1.map Prod.fst, (y.2.pacers[0]?).map (fun w => (w.stage, w.items.filter (fun x => x.1 = 4)))))) =
      some ([.get 0], some (.done, [(4, 40), (4, 40)])) := by decide +kernel
  simp only [Option.bind_eq_some_iff, Option.map_eq_some_iff] at run
  obtain ⟨⟨o1, s1⟩, h1, ⟨o2, s⟩, h2, h3⟩ := run
  simp only [Prod.mk.injEq, Option.map_eq_some_iff] at h3
  obtain ⟨h4, w, hw, h5, h6⟩ := h3
  refine ⟨_, _, o1, o2, s1, s, w, h1, h2, ?_, ?_, h5, h6⟩
  · intro k x hx
    have : x.1 ∈ o2.map Prod.fst := List.mem_map_of_mem hx
    rw [h4] at this
    simp only [List.mem_cons, List.not_mem_nil, or_false] at this
    rw [this]
    exact id
  · have : enters (fill ++ [FMove.begin (.get 0), .main]) = 0 := by decide +kernel
    rw [this]
    exact hw

/-! ## What holds -/

/-- The server itself is never disturbed, however the steps are interleaved: it is only a loop that can crash; the calls that have ended have returned what they
would have returned without the loops, and between two calls the dict holds what it would hold without them. -/
theorem C100_server (hash : K → Nat) (k0 : K) (v0 : V) (ms : List (FMove K V)) (o : List (Call K V × Ret V)) (s : Fine K V)
    (h : Fine.run hash Fine.new (first k0 v0 ++ ms) = some (o, s)) :
    o.map Prod.snd = .isNew true :: answers (put (fun _ => none) (.set k0 v0)) (callsOf o.tail) ∧
    (Fine.step hash s .main).isSome = true ∧ (∀ c, (Fine.step hash s (.begin c)).isSome = true) ∧
    (s.job = .idle → ∀ k, ∃ p, Cells.get hash s.dict k = some (after (fun _ => none) (callsOf o) k, p)) := by
  obtain ⟨s0, d0, h1, h2, h3, h4, h5⟩ := Cells.fstart (hash := hash) k0 v0
  have ha : Cells.FI hash s0.alone d0 [] := by
    have e0 : s0.dict.iterators = 0 := by
      obtain ⟨q, hq, he⟩ := h2.pinv
      rw [← he, hq.rep.its, hq.cnt, h4]
      rfl
    obtain ⟨⟨_, _, _, _, _⟩, j, ps⟩ := s0
    simp only at e0 h4
    subst e0 h4
    exact h2
  rw [Cells.frun_append] at h
  simp only [first, h1, Option.bind_some, Option.map_eq_some_iff] at h
  obtain ⟨⟨o2, s2⟩, g1, g2⟩ := h
  cases g2
  obtain ⟨d, k1, k2, k3⟩ := Cells.run_alone ha g1
  rw [h3] at k2 k3
  refine ⟨?_, ?_, ?_, ?_⟩
  · simp only [List.cons_append, List.nil_append, List.map_cons, List.tail_cons, k3]
  · obtain ⟨_, _, _, h, _⟩ := Cells.main_alone k1
    rw [h]; rfl
  · intro c
    simp only [Fine.step]
    cases s2.job <;> rfl
  · intro hj k
    obtain ⟨p, j, ps⟩ := s2
    simp only at hj
    subst hj
    have : ∀ t : Fine K V, Cells.FI hash t d [] → t = Fine.alone ⟨p, .idle, ps⟩ → Cells.PInv hash { p with iterators := 0 } [] d [] := by
      intro t ht e
      cases ht with
      | idle p ps d gs h =>
        simp only [Fine.alone, Fine.mk.injEq] at e
        obtain ⟨rfl, _, rfl⟩ := e
        exact h
      | inStep p j ps d gs n p1 c again hj hs hz h h1 ha =>
        simp only [Fine.alone, Fine.mk.injEq] at e
        rw [e.2.1] at hj
        cases hj
      | _ => simp [Fine.alone] at e
    have hp := this _ k1 rfl
    have hr : Cells.Rep p { d with iterators := p.iterators } := ⟨hp.rep.t0, hp.rep.t1, hp.rep.ri, rfl, hp.rep.nd⟩
    obtain ⟨q, _, hg, _⟩ := Cells.get_rep hr (hp.inv.setIters _) k
    refine ⟨q, ?_⟩
    rw [hg]
    exact congrArg (fun x => some (x, q)) (congrFun k2 k)

/-- Between two calls a call that is not interrupted does what `Model/Cells.lean` says, whatever the loops are doing. -/
theorem C100_atomic (hash : K → Nat) (p p' : Cells K V) (ps : List (Pacer K V)) (c : Call K V) (r : Ret V) (h : Cells.call hash p c = some (r, p')) :
    ∃ n, Fine.run hash ⟨p, .idle, ps⟩ (.begin c :: List.replicate n .main) = some ([(c, r)], ⟨p', .idle, ps⟩) := by
  obtain ⟨o, s1, h1, o', ⟨n, hn⟩, h3⟩ := Cells.gets_call ps h
  refine ⟨n, ?_⟩
  simp [Fine.run, h1, hn, h3]

/-- C100, what holds: when every loop raises the counter of iterators outside of the steps of the rehash, and no step of the rehash begins between
the two reads of a `Size` (`Calm`), nothing crashes wherever the steps of calls and loops are interleaved; the calls return what they would return without the
loops. Everything that a loop has collected was in the dict at some moment since it began; when it is over, it has collected every key that was there all the time exactly
once, hence every key whose value did not change exactly once with its value; storing what it has collected and then doing the calls that have ended
since it began gives the contents of the dict; and when all loops are left the counter of iterators is 0 again.

Missing from the full claim: the two conditions, which the code does not establish. -/
theorem C100_inside_calls_partial (hash : K → Nat) (k0 : K) (v0 : V) :
    ∃ s0, Fine.run hash Fine.new (first k0 v0) = some ([(.set k0 v0, .isNew true)], s0) ∧ s0.job = .idle ∧ s0.pacers = [] ∧
    ∀ ms, Fine.Calm hash s0 ms → ∃ o s, Fine.run hash s0 ms = some (o, s) ∧
      o.map Prod.snd = answers (put (fun _ => none) (.set k0 v0)) (callsOf o) ∧
      (∀ ms1 ms2, ms = ms1 ++ .enter :: ms2 → ∃ o1 o2 s1 f w, o = o1 ++ o2 ∧ Fine.run hash s0 ms1 = some (o1, s1) ∧
        f = after (put (fun _ => none) (.set k0 v0)) (callsOf o1) ∧ s.pacers[enters ms1]? = some w ∧
        (∀ x ∈ w.items, Was f (callsOf o2) x.1 (some x.2)) ∧ (w.stage = .done →
        (∀ k, (¬ Was f (callsOf o2) k none) → (w.items.filter (fun x => x.1 = k)).length = 1) ∧
        (∀ k, (∀ v, Was f (callsOf o2) k v → v = f k) → Once w.items k (f k)) ∧
        after (store (fun _ => none) w.items) (callsOf o2) = after f (callsOf o2))) ∧
      ((∀ w ∈ s.pacers, w.gone = true) → s.dict.iterators = 0) := by
  obtain ⟨s0, d0, h1, h2, h3, h4, h5⟩ := Cells.fstart (hash := hash) k0 v0
  refine ⟨s0, h1, h5, h4, fun ms hc => ?_⟩
  obtain ⟨o, s, d, L, g1, g2, g3, g4, g5, g6⟩ := Cells.frun_run h2 ms hc
  rw [h3] at g2 g3 g4
  refine ⟨o, s, g1, ?_, ?_, ?_⟩
  · rw [g4, ← g5, Cells.answers_onlyCalls]
  · intro ms1 ms2 hms
    subst hms
    obtain ⟨c1, c2⟩ := Cells.calm_append hc
    obtain ⟨o1, s1, d1, L1, k1, k2, k3, k4, k5, k6⟩ := Cells.frun_run h2 ms1 c1
    rw [h3] at k2 k3 k4
    have c3 := c2 _ _ k1
    obtain ⟨c4, c5⟩ := Cells.calm_append (a := [.enter]) c3
    obtain ⟨oe, s1', de, e1, e2, e3, _, e5⟩ := Cells.fstep_run k2 .enter trivial
    have := e5 rfl
    subst this
    obtain ⟨o2, s2, d2, L2, q1, q2, q3, q4, q5, q6⟩ := Cells.frun_run e2 ms2 (c3.2 _ _ e1)
    have hrun : Fine.run hash s0 (ms1 ++ .enter :: ms2) = some (o1 ++ o2, s2) := by
      rw [Cells.frun_append, k1]
      simp [Fine.run, e1, q1]
    rw [hrun] at g1
    cases g1
    have hg : Cells.ghosts (Cells.val de) (Cells.ghosts (Cells.val d1) (Cells.ghosts (put (fun _ => none) (.set k0 v0)) [] L1) (Cells.lin .enter [])) L2 =
        Cells.ghosts (put (fun _ => none) (.set k0 v0)) [] (L1 ++ .enter :: L2) := by
      rw [Cells.ghosts_append, e3, k3]
      rfl
    rw [hg] at q2
    obtain ⟨T, H, hT, hTk, hHk, hne⟩ := Cells.ghosts_enter (put (fun _ => none) (.set k0 v0)) L1 L2
    rw [k6] at hT
    obtain ⟨p, hp, hits⟩ := q2.pinv
    have hlt := (List.getElem?_eq_some_iff.mp hT).1
    rw [hp.len] at hlt
    obtain ⟨w, hw⟩ : ∃ w, s.pacers[enters ms1]? = some w := ⟨_, List.getElem?_eq_getElem hlt⟩
    have had : ∀ x ∈ w.items, Was (after (put (fun _ => none) (.set k0 v0)) L1) (callsOf o2) x.1 (some x.2) := fun x hx => by
      rw [← q5]; exact Cells.was_onlyCalls (hHk _ _ (hp.had hw hT x hx))
    refine ⟨o1, o2, s1, _, w, rfl, k1, by rw [← k5, Cells.after_onlyCalls], hw, had, fun hd => ?_⟩
    have all : ∀ k, (¬ Was (after (put (fun _ => none) (.set k0 v0)) L1) (callsOf o2) k none) → (w.items.filter (fun x => x.1 = k)).length = 1 := fun k hk =>
      hp.finished hw hT hd k (fun hm => hk (by rw [← q5]; exact Cells.was_onlyCalls (hTk k hm))) (hne k (fun e => by
        have hs := was_self (f := after (put (fun _ => none) (.set k0 v0)) L1) (ms := callsOf o2) (k := k)
        rw [e] at hs
        exact hk hs))
    have key : ∀ k, (∀ v, Was (after (put (fun _ => none) (.set k0 v0)) L1) (callsOf o2) k v → v = after (put (fun _ => none) (.set k0 v0)) L1 k) →
        Once w.items k (after (put (fun _ => none) (.set k0 v0)) L1 k) := fun k hk => once_of hk had (all k)
    refine ⟨all, key, ?_⟩
    funext k
    by_cases ht : ∃ m ∈ callsOf o2, Touches k m
    · exact after_touched k _ ht _ _
    · have hk : ∀ m ∈ callsOf o2, ¬ Touches k m := fun m hm h => ht ⟨m, hm, h⟩
      rw [after_untouched k _ hk, after_untouched k _ hk, store_key, key k (fun o ho => was_untouched hk ho)]
      cases after (put (fun _ => none) (.set k0 v0)) L1 k <;> rfl
  · intro hgone
    obtain ⟨p, hp, hits⟩ := g2.pinv
    rw [← hits, hp.rep.its, hp.cnt]
    have : s.pacers.countP Cells.pcounted = 0 := by
      rw [List.countP_eq_zero]
      intro w hw
      simp [Cells.pcounted, hgone w hw]
    rw [this]
    rfl

/-- The condition as a test. -/
def calmly (s : Fine Nat Nat) : FMove Nat Nat → Bool
  | .step i => !s.job.inStep || (s.pacers[i]?).all (fun w => decide (0 ≤ w.it.index))
  | .main => (match s.job with | .guard _ _ => false | _ => true) || !(s.dict.isRehashing && s.dict.iterators == 0) || s.pacers.all (fun w => w.stage != .sum)
  | _ => true

def allCalm (hash : Nat → Nat) (s : Fine Nat Nat) : List (FMove Nat Nat) → Bool
  | [] => true
  | m :: ms => calmly s m && (Fine.step hash s m).all (fun x => allCalm hash x.2 ms)

theorem calm_of (hash : Nat → Nat) (s : Fine Nat Nat) (ms : List (FMove Nat Nat)) (h : allCalm hash s ms = true) : Fine.Calm hash s ms := by
  induction ms generalizing s with
  | nil => trivial
  | cons m ms ih =>
    simp only [allCalm, Bool.and_eq_true] at h
    refine ⟨?_, fun o s' hs => ih s' (by rw [hs] at h; exact h.2)⟩
    have h1 := h.1
    cases m with
    | step i =>
      intro hi w hw
      simpa [calmly, hi, hw] using h1
    | main =>
      intro c again hj hr hit w hw
      simp only [calmly, hj, hr, hit, Bool.false_or, beq_self_eq_true, Bool.and_self, Bool.not_true, List.all_eq_true, bne_iff_ne] at h1
      exact h1 w hw
    | _ => trivial

/-- A loop that begins in the middle of a rehash, with its steps inside of calls: a `Set` of a new key, deletions (also of the entry that the loop holds), a change of a value,
and the first steps of the call that goes on with the rehash. -/
def mixed : List (FMove Nat Nat) :=
  fill ++ [.enter, .step 0, .step 0, .begin (.set 17 7), .step 0, .main, .step 0, .step 0, .main, .step 0, .main, .step 0, .begin (.delete 4), .main, .step 0, .main,
    .begin (.set 3 333), .step 0, .main, .step 0, .main, .step 0, .main, .step 0, .main, .step 0, .main] ++ List.replicate 60 (.step 0) ++
    [.begin (.get 3), .leave 0, .enter, .step 1, .step 1, .step 1, .main, .main, .step 1]

/-- It meets the condition. -/
example : (Fine.run id (Fine.new : Fine Nat Nat) (first 0 0)).map (fun x => allCalm id x.2 mixed) = some true := by decide +kernel

/-- What the last calls return, what the loops have collected, and where they are. -/
example : (Fine.run id (Fine.new : Fine Nat Nat) (first 0 0 ++ mixed)).map (fun x => (x.1.drop 9, x.2.pacers.map (fun w => (w.stage, w.items)), x.2.dict.iterators)) =
    some ([(.set 17 7, .isNew true), (.delete 4, .deleted none), (.set 3 333, .isNew false), (.get 3, .value (some 333))],
      [(.done, [(4, 40), (0, 0), (5, 50), (1, 10), (6, 60), (2, 20), (7, 70), (3, 333), (8, 80), (17, 7)]), (.read, [])], 1) := by decide +kernel

end Metis.Props.FineP
