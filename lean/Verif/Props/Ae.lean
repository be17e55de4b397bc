import Verif.Proofs.Ae
/-!
Properties C57 to C60 and C63: the event loop.
-/
set_option linter.unusedSectionVars false
set_option linter.unusedSimpArgs false
set_option linter.unusedVariables false
namespace Metis.Props.AeP
open Metis Metis.Ae

/-- The states of the event loop: any calls and turns after its creation. -/
def Reached (l : Loop) : Prop := ∃ as : List Act, (run Loop.new as).1 = l

theorem Reached.good {l : Loop} (h : Reached l) : Good l := by
  obtain ⟨as, rfl⟩ := h; exact (run_good as good_new).1

theorem run_append : ∀ (as bs : List Act) (l : Loop), (run l (as ++ bs)).1 = (run (run l as).1 bs).1
  | [], bs, l => rfl
  | a :: as, bs, l => by simp only [List.cons_append, run]; exact run_append as bs _

theorem Reached.more {l : Loop} (h : Reached l) (bs : List Act) : Reached (run l bs).1 := by
  obtain ⟨as, rfl⟩ := h; exact ⟨as ++ bs, run_append as bs _⟩

/-! ### C57 -/

/-- Is an event of this kind registered for the descriptor? -/
def Registered (l : Loop) (fd : Nat) (k : Kind) : Prop := ∃ ev, l.files (key fd k) = some ev

/-- EPOLLIN, EPOLLOUT, both, or not in the interest list at all. -/
def interest : Bool → Bool → Option UInt32
  | false, false => none
  | true, false => some 1
  | false, true => some 4
  | true, true => some 5

open Classical in
/-- **C57**: the kernel's interest in a descriptor is exactly the union of the kinds of events registered for it. -/
theorem C57_interest {l : Loop} (h : Reached l) (fd : Nat) :
    l.kernel fd = interest (decide (Registered l fd .readable)) (decide (Registered l fd .writable)) := by
  rw [h.good.1.kernel fd]
  unfold mask Registered
  cases l.files (key fd .readable) <;> cases l.files (key fd .writable) <;> (first | rfl | (simp [interest, Kind.bit]; try decide))

/-- **C57**: `AddFileEvent` succeeds iff no such event is registered (and the kernel does not refuse); then exactly this event is added,
otherwise nothing changes. -/
theorem C57_add {l : Loop} (h : Reached l) (fd : Nat) (k : Kind) (p : Nat) (ok : Bool) :
    ((addFile l fd k p ok).2 = true ↔ ¬ Registered l fd k ∧ ok = true) ∧
    ((addFile l fd k p ok).2 = false → (addFile l fd k p ok).1 = l) ∧
    ((addFile l fd k p ok).2 = true → ∀ fd' k', (addFile l fd k p ok).1.files (key fd' k') =
      if fd' = fd ∧ k' = k then some ⟨fd, k, p⟩ else l.files (key fd' k')) := by
  rcases addFile_cases h.good.1 fd k p ok with ⟨h1, h2⟩ | ⟨h1, h2, l', h3, _, _, _, h4⟩
  · rw [h2]
    refine ⟨⟨fun h => (by cases h), ?_⟩, fun _ => rfl, fun h => (by cases h)⟩
    rintro ⟨h3, h4⟩
    rcases h1 with h1 | h1
    · exact absurd (Option.isSome_iff_exists.1 h1) h3
    · rw [h4] at h1; cases h1
  · rw [h3]
    refine ⟨⟨fun _ => ⟨?_, h2⟩, fun _ => rfl⟩, fun h => (by cases h), fun _ => h4⟩
    rintro ⟨ev, hev⟩; rw [h1] at hev; cases hev

/-- **C57**: `RemoveFileEvent` succeeds iff the event is registered (and the kernel does not refuse); then exactly this event is removed,
otherwise nothing changes. -/
theorem C57_remove {l : Loop} (h : Reached l) (fd : Nat) (k : Kind) (ok : Bool) :
    ((removeFile l fd k ok).2 = true ↔ Registered l fd k ∧ ok = true) ∧
    ((removeFile l fd k ok).2 = false → (removeFile l fd k ok).1 = l) ∧
    ((removeFile l fd k ok).2 = true → ∀ fd' k', (removeFile l fd k ok).1.files (key fd' k') =
      if fd' = fd ∧ k' = k then none else l.files (key fd' k')) := by
  rcases removeFile_cases h.good.1 fd k ok with ⟨h1, h2⟩ | ⟨h1, h2, l', h3, _, _, _, h4⟩
  · rw [h2]
    refine ⟨⟨fun h => (by cases h), ?_⟩, fun _ => rfl, fun h => (by cases h)⟩
    rintro ⟨⟨ev, h3⟩, h4⟩
    rcases h1 with h1 | h1
    · rw [h3] at h1; cases h1
    · rw [h4] at h1; cases h1
  · rw [h3]
    exact ⟨⟨fun _ => ⟨Option.isSome_iff_exists.1 h1, h2⟩, fun _ => rfl⟩, fun h => (by cases h), fun _ => h4⟩

/-- Four calls: two are accepted, one is refused by the table, one by the kernel. -/
def demoLoop : Loop := runOps Loop.new [.addFile 7 .readable 1 true, .addFile 7 .writable 2 true, .addFile 7 .writable 3 true, .addFile 8 .readable 4 false]

example : (demoLoop.kernel 7, demoLoop.kernel 8) = (some 5, none) := by decide
example : Reached demoLoop := ⟨[.op (.addFile 7 .readable 1 true), .op (.addFile 7 .writable 2 true), .op (.addFile 7 .writable 3 true), .op (.addFile 8 .readable 4 false)], rfl⟩
example : ((removeFile demoLoop 7 .readable true).1.kernel 7, (removeFile demoLoop 8 .readable true).2) = (some 4, false) := by decide

/-! ### C58 -/

/-- **C58**: the ids of the live timers are distinct, and a new timer gets an id no timer has had. -/
theorem C58_ids {l : Loop} (h : Reached l) : (l.timers.map TimeEvent.id).Nodup ∧ ∀ te ∈ l.timers, te.id < l.nextId := h.good.2

/-- **C58**: a one-shot timer runs at most once, whatever happens. -/
theorem C58_once {l : Loop} (h : Reached l) (i : Int) (p : Nat) (now : Int) (as : List Act) :
    (run (addTime l true i p now) as).2.flatten.count (.timer l.nextId) ≤ 1 := by
  have hg := (op_good h.good (.addTime true i p now)).1
  refine run_once as hg (by simp only [addTime]; omega) ?_
  intro te ht he
  simp only [addTime, List.mem_cons] at ht
  rcases ht with rfl | ht
  · rfl
  · have := h.good.2.2 te ht; omega

/-- The full claim of C58 about time: no timer runs before its due time. -/
def C58 : Prop := ∀ (l : Loop) (once : Bool) (i : Int) (p : Nat) (now : Int) (as : List Act) (u : Turn), Reached l → -2 ^ 63 ≤ i → i < 2 ^ 63 →
  Ran.timer l.nextId ∉ (run (addTime l once i p now) as).2.flatten → Ran.timer l.nextId ∈ (turn u (run (addTime l once i p now) as).1).2 → now + i ≤ u.t3

theorem wrap64_id {n : Int} (h1 : -2 ^ 63 ≤ n) (h2 : n < 2 ^ 63) : wrap64 n = n := by unfold wrap64; omega

/-- The timer, if it is still there, is due at `d`; then it does not run before `d`. -/
theorem not_before {l : Loop} (h : Good l) {id d : Int} (hid : id < l.nextId) (hd : ∀ te ∈ l.timers, te.id = id → te.due = d) (as : List Act) (u : Turn)
    (hn : Ran.timer id ∉ (run l as).2.flatten) (hr : Ran.timer id ∈ (turn u (run l as).1).2) : d ≤ u.t3 := by
  obtain ⟨k1, k2, k3⟩ := run_good as h
  obtain ⟨te, h1, h2, h3⟩ := (turn_good u k1).2.2.2 _ hr
  rcases k3 te h1 with h | h | h
  · rw [hd te h h2] at h3; exact h3
  · omega
  · rw [h2] at h; exact absurd h hn

/-- **C58** if the due time fits into an int64: the first run is not before the time of the addition plus the interval. -/
theorem C58_first_partial {l : Loop} (h : Reached l) (once : Bool) (i : Int) (p : Nat) (now : Int) (as : List Act) (u : Turn)
    (h1 : -2 ^ 63 ≤ now + i) (h2 : now + i < 2 ^ 63) (hn : Ran.timer l.nextId ∉ (run (addTime l once i p now) as).2.flatten)
    (hr : Ran.timer l.nextId ∈ (turn u (run (addTime l once i p now) as).1).2) : now + i ≤ u.t3 := by
  refine not_before (op_good h.good (.addTime once i p now)).1 (id := l.nextId) (by simp only [Op.run, addTime]; omega) ?_ as u hn hr
  intro te ht he
  simp only [Op.run, addTime, List.mem_cons] at ht
  rcases ht with rfl | ht
  · exact wrap64_id h1 h2
  · have := h.good.2.2 te ht; omega

/-- **C58** if the due time fits into an int64: a periodic timer that ran as the j-th callback of a turn does not run again before the time
right after that callback plus its interval. -/
theorem C58_period_partial {l : Loop} (h : Reached l) {te : TimeEvent} (ht : te ∈ l.timers) (hp : te.once = false) (v u : Turn) {j : Nat}
    (hj : (turn v l).2[j]? = some (.timer te.id)) (h1 : -2 ^ 63 ≤ v.after j + te.interval) (h2 : v.after j + te.interval < 2 ^ 63) (as : List Act)
    (hn : Ran.timer te.id ∉ (run (turn v l).1 as).2.flatten) (hr : Ran.timer te.id ∈ (turn u (run (turn v l).1 as).1).2) :
    v.after j + te.interval ≤ u.t3 := by
  obtain ⟨k1, k2, _⟩ := turn_good v h.good
  refine not_before k1 (Int.lt_of_lt_of_le (h.good.2.2 te ht) k2) ?_ as u hn hr
  intro te' ht' he
  rw [turn_rearm v h.good ht hp hj te' ht' he, wrap64_id h1 h2]

/-- A turn in which nothing is ready and the callbacks do nothing. -/
def quiet (t : Int) : Turn := { t1 := t, t2 := t, t3 := t, ready := some [], calls := fun _ => [], after := fun _ => t }

/-- **C58 is false**: the due time of a timer with the longest interval overflows, and the timer runs at once. -/
theorem C58_refuted : ¬ C58 := by
  intro h
  have key : (turn (quiet 1000) (addTime Loop.new true (2 ^ 63 - 1) 0 1000)).2 = [.timer 0] := by decide
  have := h Loop.new true (2 ^ 63 - 1) 0 1000 [] (quiet 1000) ⟨[], rfl⟩ (by decide) (by decide) (by simp [run]) (by simp only [run]; rw [key]; simp [Loop.new])
  simp [quiet] at this

/-- Non-vacuity: a periodic timer runs when it is due, is armed again, and runs again. -/
example : (run Loop.new [.op (.addTime false 100 0 1000), .turn (quiet 1099), .turn (quiet 1100), .turn (quiet 1150), .turn (quiet 1200)]).2 =
    [[], [], [.timer 0], [], [.timer 0]] := by decide
/-- A one-shot timer runs once. -/
example : (run Loop.new [.op (.addTime true 100 0 1000), .turn (quiet 1099), .turn (quiet 1100), .turn (quiet 1150), .turn (quiet 1200)]).2 =
    [[], [], [.timer 0], [], []] := by decide

/-! ### C59 -/

/-- The full claim of C59. -/
def C59 : Prop := ∀ (l : Loop) (t t' : Int), Reached l → 0 ≤ t → 0 ≤ t' →
  0 < timeout l t t' ∧ timeout l t t' ≤ 1000 ∧
  ((∀ te ∈ l.timers, t' < te.due) → ∀ te ∈ l.timers, t' + timeout l t t' ≤ te.due) ∧ ((∃ te ∈ l.timers, te.due ≤ t') → timeout l t t' = 10)

theorem nearest_spec : ∀ (ts : List TimeEvent) (n : Int),
    ts.foldl (fun n te => if te.due < n then te.due else n) n ≤ n ∧ (∀ te ∈ ts, ts.foldl (fun n te => if te.due < n then te.due else n) n ≤ te.due) ∧
    (ts.foldl (fun n te => if te.due < n then te.due else n) n = n ∨ ∃ te ∈ ts, ts.foldl (fun n te => if te.due < n then te.due else n) n = te.due)
  | [], n => ⟨Int.le_refl _, fun te h => (by cases h), Or.inl rfl⟩
  | t :: ts, n => by
    obtain ⟨h1, h2, h3⟩ := nearest_spec ts (if t.due < n then t.due else n)
    simp only [List.foldl_cons]
    refine ⟨?_, ?_, ?_⟩
    · refine Int.le_trans h1 ?_; split <;> omega
    · intro te ht
      rcases List.mem_cons.1 ht with rfl | ht
      · refine Int.le_trans h1 ?_; split <;> omega
      · exact h2 te ht
    · rcases h3 with h3 | ⟨te, ht, h3⟩
      · rw [h3]; split
        · exact Or.inr ⟨t, List.mem_cons_self, rfl⟩
        · exact Or.inl rfl
      · exact Or.inr ⟨te, List.mem_cons_of_mem _ ht, h3⟩

/-- **C59** if the second reading of the clock is not before the first and less than a second later, and no due time has overflowed. -/
theorem C59_partial {l : Loop} {t t' : Int} (h0 : 0 ≤ t) (h1 : t ≤ t') (h2 : t' < t + 1000) (h3 : t < 2 ^ 61)
    (hd : ∀ te ∈ l.timers, -2 ^ 62 ≤ te.due) :
    0 < timeout l t t' ∧ timeout l t t' ≤ 1000 ∧
    ((∀ te ∈ l.timers, t' < te.due) → ∀ te ∈ l.timers, t' + timeout l t t' ≤ te.due) ∧ ((∃ te ∈ l.timers, te.due ≤ t') → timeout l t t' = 10) := by
  obtain ⟨k1, k2, k3⟩ := nearest_spec l.timers (wrap64 (t + 1000))
  have hw : wrap64 (t + 1000) = t + 1000 := wrap64_id (by omega) (by omega)
  rw [hw] at k1 k2 k3
  have hlow : -2 ^ 62 ≤ nearest t l.timers := by
    unfold nearest; rw [hw]
    rcases k3 with k3 | ⟨te, ht, k3⟩
    · rw [k3]; omega
    · rw [k3]; exact hd te ht
  have hn : nearest t l.timers = l.timers.foldl (fun n te => if te.due < n then te.due else n) (t + 1000) := by unfold nearest; rw [hw]
  rw [← hn] at k1 k2 k3
  have hw2 : wrap64 (nearest t l.timers - t') = nearest t l.timers - t' := wrap64_id (by omega) (by omega)
  unfold timeout
  simp only [hw2]
  refine ⟨by split <;> omega, by split <;> omega, fun ha te ht => ?_, ?_⟩
  · have h5 := ha te ht
    have h6 := k2 te ht
    split
    · next hc =>
      rcases k3 with k3 | ⟨te', ht', k3⟩
      · omega
      · have := ha te' ht'; omega
    · omega
  · rintro ⟨te, ht, hle⟩
    have := k2 te ht
    rw [if_pos (by omega)]

/-- **C59 is false**: if the clock is set back between its two readings the loop may sleep for longer than a second, past timers. -/
theorem C59_refuted : ¬ C59 := by
  intro h
  have key : timeout Loop.new 5000 1000 = 5000 := by decide
  have := (h Loop.new 5000 1000 ⟨[], rfl⟩ (by decide) (by decide)).2.1
  rw [key] at this
  exact absurd this (by decide)

example : (timeout (addTime Loop.new false 100 0 1000) 1000 1001, timeout (addTime Loop.new false 100 0 1000) 1100 1101) = (99, 10) := by decide

/-! ### C60 -/

def Due (l : Loop) (t : Int) (id : Int) : Prop := ∃ te ∈ l.timers, te.id = id ∧ te.due ≤ t

/-- The event is registered and the kernel reported its descriptor with its kind. -/
def Ready (l : Loop) (rs : List (Nat × UInt32)) (ev : FileEvent) : Prop :=
  l.files (key ev.fd ev.kind) = some ev ∧ ∃ m, (ev.fd, m) ∈ rs ∧ m &&& ev.kind.bit ≠ 0

/-- What is required of the callbacks of a turn: the timers first, each due timer once, then the files, each ready event once, and for one
descriptor the readable event before the writable one. -/
def Fair (l : Loop) (t : Int) (rs : List (Nat × UInt32)) (log : List Ran) : Prop :=
  ∃ T F, log = T ++ F ∧ (∀ r ∈ T, ∃ id, r = .timer id) ∧ (∀ r ∈ F, ∃ ev, r = .file ev) ∧
    (∀ id, (Due l t id → T.count (.timer id) = 1) ∧ (¬ Due l t id → T.count (.timer id) = 0)) ∧
    (∀ ev, (Ready l rs ev → F.count (.file ev) = 1) ∧ (¬ Ready l rs ev → F.count (.file ev) = 0)) ∧
    (∀ fd p q, Ran.file ⟨fd, .readable, p⟩ ∈ F → Ran.file ⟨fd, .writable, q⟩ ∈ F →
      ∃ a b c, F = a ++ .file ⟨fd, .readable, p⟩ :: (b ++ .file ⟨fd, .writable, q⟩ :: c))

/-- The full claim of C60; the kernel reports each descriptor once. -/
def C60 : Prop := ∀ (l : Loop) (u : Turn) (rs : List (Nat × UInt32)), Reached l → u.ready = some rs → (rs.map Prod.fst).Nodup → Fair l u.t3 rs (turn u l).2

def Op.isRemoveTime : Op → Bool | .removeTime _ => true | _ => false

theorem op_keeps {l : Loop} (h : Good l) (o : Op) (ho : Op.isRemoveTime o = false) : ∀ te ∈ l.timers, te ∈ (o.run l).timers := by
  intro te ht
  cases o with
  | addFile fd k p ok =>
    simp only [Op.run]
    rcases addFile_cases h.1 fd k p ok with ⟨_, h1⟩ | ⟨_, _, l', h1, h2, h3, _⟩
    · rw [h1]; exact ht
    · rw [h1]; simp only [h3]; exact ht
  | removeFile fd k ok =>
    simp only [Op.run]
    rcases removeFile_cases h.1 fd k ok with ⟨_, h1⟩ | ⟨_, _, l', h1, h2, h3, _⟩
    · rw [h1]; exact ht
    · rw [h1]; simp only [h3]; exact ht
  | addTime once i p now => exact List.mem_cons_of_mem _ ht
  | removeTime id => cases ho

theorem ops_keep : ∀ (ops : List Op) {l : Loop}, Good l → (∀ o ∈ ops, Op.isRemoveTime o = false) → ∀ te ∈ l.timers, te ∈ (runOps l ops).timers
  | [], l, h, ho, te, ht => ht
  | o :: ops, l, h, ho, te, ht => ops_keep ops (op_good h o).1 (fun o' h' => ho o' (List.mem_cons_of_mem _ h')) te (op_keeps h o (ho o List.mem_cons_self) te ht)

theorem runTimers_all (u : Turn) (hc : ∀ n, ∀ o ∈ u.calls n, Op.isRemoveTime o = false) : ∀ (b : List TimeEvent) (n : Nat) {l : Loop}, Good l →
    (b.map TimeEvent.id).Nodup → (∀ te ∈ b, te.id ∈ l.timers.map TimeEvent.id) →
    (runTimers u n b l).2.2 = true ∧ (runTimers u n b l).2.1 = b.map (fun te => Ran.timer te.id)
  | [], n, l, h, hn, hb => ⟨rfl, rfl⟩
  | te :: b, n, l, h, hn, hb => by
    rw [List.map_cons, List.nodup_cons] at hn
    obtain ⟨h1, h2, h3⟩ := ops_good (u.calls n) h
    have hb' : ∀ t ∈ te :: b, t.id ∈ (runOps l (u.calls n)).timers.map TimeEvent.id := by
      intro t ht
      obtain ⟨t', ht', e⟩ := List.mem_map.1 (hb t ht)
      rw [← e]
      exact List.mem_map_of_mem (ops_keep (u.calls n) h (hc n) t' ht')
    unfold runTimers
    split
    · rcases removeTime_cases h1.2 te.id with ⟨hm, e⟩ | ⟨_, e⟩
      · exact absurd (hb' te List.mem_cons_self) hm
      · simp only [e]
        have hg : Good { runOps l (u.calls n) with timers := (runOps l (u.calls n)).timers.filter (fun t => decide (t.id ≠ te.id)) } :=
          ⟨ok_timers h1.1 _ _, ids_filter h1.2 _⟩
        obtain ⟨k1, k2⟩ := runTimers_all u hc b (n + 1) hg hn.2 (by
          intro t ht
          obtain ⟨t', ht', e⟩ := List.mem_map.1 (hb' t (List.mem_cons_of_mem _ ht))
          refine List.mem_map.2 ⟨t', List.mem_filter.2 ⟨ht', ?_⟩, e⟩
          have : t'.id ≠ te.id := fun hh => hn.1 (by rw [← hh, e]; exact List.mem_map_of_mem ht)
          simpa using this)
        exact ⟨k1, by rw [k2]; rfl⟩
    · have hg : Good { runOps l (u.calls n) with timers := rearm te.id (wrap64 (u.after n + te.interval)) (runOps l (u.calls n)).timers } :=
        ⟨ok_timers h1.1 _ _, ids_rearm h1.2 _ _⟩
      obtain ⟨k1, k2⟩ := runTimers_all u hc b (n + 1) hg hn.2 (fun t ht => by simp only [rearm_ids]; exact hb' t (List.mem_cons_of_mem _ ht))
      exact ⟨k1, by simp only [k2]; rfl⟩

theorem mem_eventsOf {l : Loop} (h : Ok l) {r : Nat × UInt32} {ev : FileEvent} :
    ev ∈ eventsOf l r ↔ ev.fd = r.1 ∧ l.files (key ev.fd ev.kind) = some ev ∧ r.2 &&& ev.kind.bit ≠ 0 := by
  unfold eventsOf
  simp only [List.mem_filterMap, List.mem_filter, List.mem_cons, List.not_mem_nil, or_false, decide_eq_true_eq]
  constructor
  · rintro ⟨k, ⟨_, h2⟩, h3⟩
    obtain ⟨e1, e2⟩ := h.self _ _ _ h3
    rw [e1, e2]; exact ⟨rfl, h3, h2⟩
  · rintro ⟨h1, h2, h3⟩
    refine ⟨ev.kind, ⟨by cases ev.kind <;> simp, h3⟩, by rw [← h1]; exact h2⟩

/-- The events of one descriptor: none, one of the two, or both with the readable one first. -/
theorem eventsOf_form {l : Loop} (h : Ok l) (r : Nat × UInt32) : eventsOf l r = [] ∨ (∃ a, eventsOf l r = [a]) ∨
    ∃ a b, eventsOf l r = [a, b] ∧ a.kind = .readable ∧ b.kind = .writable := by
  unfold eventsOf
  simp only [List.filter_cons, List.filter_nil]
  have hs := h.self r.1
  split <;> split <;> simp only [List.filterMap_cons, List.filterMap_nil]
  · cases h1 : l.files (key r.1 .readable) <;> cases h2 : l.files (key r.1 .writable)
    · exact Or.inl rfl
    · exact Or.inr (Or.inl ⟨_, rfl⟩)
    · exact Or.inr (Or.inl ⟨_, rfl⟩)
    · exact Or.inr (Or.inr ⟨_, _, rfl, (hs _ _ h1).2, (hs _ _ h2).2⟩)
  · cases h1 : l.files (key r.1 .readable)
    · exact Or.inl rfl
    · exact Or.inr (Or.inl ⟨_, rfl⟩)
  · cases h2 : l.files (key r.1 .writable)
    · exact Or.inl rfl
    · exact Or.inr (Or.inl ⟨_, rfl⟩)
  · simp

theorem eventsOf_nodup {l : Loop} (h : Ok l) (r : Nat × UInt32) : (eventsOf l r).Nodup := by
  rcases eventsOf_form h r with e | ⟨a, e⟩ | ⟨a, b, e, h1, h2⟩
  · rw [e]; exact List.nodup_nil
  · rw [e]; simp
  · rw [e]
    simp only [List.nodup_cons, List.mem_cons, List.not_mem_nil, or_false, not_false_eq_true, List.nodup_nil, and_true]
    intro hh; rw [hh, h2] at h1; cases h1

theorem events_nodup {l : Loop} (h : Ok l) : ∀ (rs : List (Nat × UInt32)), (rs.map Prod.fst).Nodup → (rs.flatMap (eventsOf l)).Nodup
  | [], _ => List.nodup_nil
  | r :: rs, hn => by
    rw [List.map_cons, List.nodup_cons] at hn
    rw [List.flatMap_cons, List.nodup_append]
    refine ⟨eventsOf_nodup h r, events_nodup h rs hn.2, ?_⟩
    intro a ha b hb e
    subst e
    obtain ⟨r', hr', hb⟩ := List.mem_flatMap.1 hb
    have e1 := ((mem_eventsOf h).1 ha).1
    have e2 := ((mem_eventsOf h).1 hb).1
    exact hn.1 (by rw [← e1, e2]; exact List.mem_map_of_mem hr')

theorem order {l : Loop} (h : Ok l) {fd p q : Nat} : ∀ (rs : List (Nat × UInt32)), (rs.map Prod.fst).Nodup →
    (⟨fd, .readable, p⟩ : FileEvent) ∈ rs.flatMap (eventsOf l) → (⟨fd, .writable, q⟩ : FileEvent) ∈ rs.flatMap (eventsOf l) →
    ∃ a b c, rs.flatMap (eventsOf l) = a ++ ⟨fd, .readable, p⟩ :: (b ++ ⟨fd, .writable, q⟩ :: c)
  | [], _, h1, _ => by cases h1
  | r :: rs, hn, h1, h2 => by
    rw [List.map_cons, List.nodup_cons] at hn
    rw [List.flatMap_cons] at h1 h2 ⊢
    have fdof : ∀ {k x}, (⟨fd, k, x⟩ : FileEvent) ∈ rs.flatMap (eventsOf l) → fd ≠ r.1 := by
      intro k x hx e
      obtain ⟨r', hr', hb⟩ := List.mem_flatMap.1 hx
      have e2 := ((mem_eventsOf h).1 hb).1
      exact hn.1 (by rw [← e, show fd = r'.1 from e2]; exact List.mem_map_of_mem hr')
    rcases List.mem_append.1 h1 with h1 | h1
    · have e1 : fd = r.1 := ((mem_eventsOf h).1 h1).1
      rcases List.mem_append.1 h2 with h2 | h2
      · rcases eventsOf_form h r with e | ⟨a, e⟩ | ⟨a, b, e, k1, k2⟩
        · rw [e] at h1; cases h1
        · rw [e] at h1 h2
          simp only [List.mem_cons, List.not_mem_nil, or_false] at h1 h2
          rw [← h2] at h1; cases h1
        · rw [e] at h1 h2
          simp only [List.mem_cons, List.not_mem_nil, or_false] at h1 h2
          have e3 : a = ⟨fd, .readable, p⟩ := by
            rcases h1 with h1 | h1
            · exact h1.symm
            · rw [← h1] at k2; cases k2
          have e4 : b = ⟨fd, .writable, q⟩ := by
            rcases h2 with h2 | h2
            · rw [← h2] at k1; cases k1
            · exact h2.symm
          rw [e, e3, e4]
          exact ⟨[], [], rs.flatMap (eventsOf l), rfl⟩
      · exact absurd e1 (fdof h2)
    · rcases List.mem_append.1 h2 with h2 | h2
      · exact absurd ((mem_eventsOf h).1 h2).1 (fdof h1)
      · obtain ⟨a, b, c, e⟩ := order h rs hn.2 h1 h2
        exact ⟨eventsOf l r ++ a, b, c, by rw [e, List.append_assoc]⟩

theorem count_map_inj {α : Type} {f : α → Ran} (hf : ∀ a b, f a = f b → a = b) {l : List α} (hn : l.Nodup) (a : α) :
    (a ∈ l → (l.map f).count (f a) = 1) ∧ (a ∉ l → (l.map f).count (f a) = 0) := by
  have h1 : (l.map f).Nodup := hn.map (fun a b h => hf a b h)
  constructor
  · intro h; exact List.count_eq_one_of_mem h1 (List.mem_map_of_mem h)
  · intro h
    rw [List.count_eq_zero]
    intro hh
    obtain ⟨b, hb, e⟩ := List.mem_map.1 hh
    rw [hf _ _ e] at hb; exact h hb

/-- **C60** for turns in which the callbacks remove no timers. -/
theorem C60_partial {l : Loop} (h : Reached l) (u : Turn) (rs : List (Nat × UInt32)) (hr : u.ready = some rs) (hn : (rs.map Prod.fst).Nodup)
    (hc : ∀ n, ∀ o ∈ u.calls n, Op.isRemoveTime o = false) : Fair l u.t3 rs (turn u l).2 := by
  have hg := h.good
  obtain ⟨k1, k2⟩ := runTimers_all u hc (dueAt u.t3 l.timers) 0 hg (due_nodup hg.2 _) (fun te ht => List.mem_map_of_mem (List.mem_filter.1 ht).1)
  obtain ⟨_, _, _, q4⟩ := runFiles_good u (rs.flatMap (eventsOf l)) (dueAt u.t3 l.timers).length (runTimers_good u (dueAt u.t3 l.timers) 0 hg).1
  refine ⟨(dueAt u.t3 l.timers).map (fun te => Ran.timer te.id), (rs.flatMap (eventsOf l)).map Ran.file, ?_, ?_, ?_, ?_, ?_, ?_⟩
  · unfold turn
    simp only [hr, k1, if_true, k2, q4]
  · intro r hr; obtain ⟨te, _, e⟩ := List.mem_map.1 hr; exact ⟨te.id, e.symm⟩
  · intro r hr; obtain ⟨ev, _, e⟩ := List.mem_map.1 hr; exact ⟨ev, e.symm⟩
  · intro id
    have hm : Due l u.t3 id ↔ id ∈ (dueAt u.t3 l.timers).map TimeEvent.id := by
      simp only [Due, dueAt, List.mem_map, List.mem_filter, decide_eq_true_eq]
      constructor
      · rintro ⟨te, h1, h2, h3⟩; exact ⟨te, ⟨h1, h3⟩, h2⟩
      · rintro ⟨te, ⟨h1, h3⟩, h2⟩; exact ⟨te, h1, h2, h3⟩
    have := count_map_inj (f := Ran.timer) (fun a b h => by cases h; rfl) (due_nodup hg.2 u.t3) id
    rw [List.map_map] at this
    rw [hm]; exact this
  · intro ev
    have hm : Ready l rs ev ↔ ev ∈ rs.flatMap (eventsOf l) := by
      simp only [Ready, List.mem_flatMap, mem_eventsOf hg.1]
      constructor
      · rintro ⟨h1, m, h2, h3⟩; exact ⟨(ev.fd, m), h2, rfl, h1, h3⟩
      · rintro ⟨⟨fd, m⟩, h1, h2, h3, h4⟩; simp only at h2 h4; subst h2; exact ⟨h3, m, h1, h4⟩
    rw [hm]
    exact count_map_inj (f := Ran.file) (fun a b h => by cases h; rfl) (events_nodup hg.1 rs hn) ev
  · intro fd p q h1 h2
    have un : ∀ ev, Ran.file ev ∈ (rs.flatMap (eventsOf l)).map Ran.file → ev ∈ rs.flatMap (eventsOf l) := by
      intro ev he; obtain ⟨e, he, hh⟩ := List.mem_map.1 he; cases hh; exact he
    obtain ⟨a, b, c, e⟩ := order hg.1 rs hn (un _ h1) (un _ h2)
    exact ⟨a.map Ran.file, b.map Ran.file, c.map Ran.file, by rw [e]; simp⟩

/-- Non-vacuity: a turn with a timer and two events of one descriptor. -/
example : (turn { quiet 2000 with ready := some [(7, 5)] } (addTime demoLoop false 100 0 1000)).2 =
    [.timer 0, .file ⟨7, .readable, 1⟩, .file ⟨7, .writable, 2⟩] := by decide

/-- A one-shot timer that removes itself in its callback, and a descriptor that is ready. -/
def selfRemoving : Turn := { quiet 2000 with ready := some [(7, 1)], calls := fun n => if n = 0 then [.removeTime 0] else [] }
def selfLoop : Loop := (run Loop.new [.op (.addFile 7 .readable 1 true), .op (.addTime true 100 0 1000)]).1

/-- **C60 is false**: if a one-shot timer is removed by a callback the rest of the turn is dropped. -/
theorem C60_refuted : ¬ C60 := by
  intro h
  have key : (turn selfRemoving selfLoop).2 = [.timer 0] := by decide
  obtain ⟨T, F, e, h1, h2, h3, h4, h5⟩ := h selfLoop selfRemoving [(7, 1)] ⟨_, rfl⟩ rfl (by decide)
  have hready : Ready selfLoop [(7, 1)] ⟨7, .readable, 1⟩ := ⟨by decide, 1, by simp, by decide⟩
  have := (h4 ⟨7, .readable, 1⟩).1 hready
  rw [key] at e
  have hF : Ran.file ⟨7, .readable, 1⟩ ∈ T ++ F := List.mem_append_right _ (List.count_pos_iff.1 (by omega))
  rw [← e] at hF
  simp at hF

/-! ### C63 -/

/-- **C63** over turns: what runs in a turn was registered when the turn began waiting. -/
theorem C63_registered_partial {l : Loop} (h : Reached l) (u : Turn) {ev : FileEvent} (hr : Ran.file ev ∈ (turn u l).2) : l.files (key ev.fd ev.kind) = some ev := by
  have hg := h.good
  have ht : ∀ r ∈ (runTimers u 0 (dueAt u.t3 l.timers) l).2.1, ∃ te ∈ dueAt u.t3 l.timers, r = .timer te.id := (runTimers_good u _ 0 hg).2.2.2
  unfold turn at hr
  cases hrs : u.ready with
  | none => simp [hrs] at hr
  | some rs =>
    simp only [hrs] at hr
    obtain ⟨_, _, _, q4⟩ := runFiles_good u (rs.flatMap (eventsOf l)) (dueAt u.t3 l.timers).length (runTimers_good u (dueAt u.t3 l.timers) 0 hg).1
    split at hr
    · rcases List.mem_append.1 hr with hr | hr
      · obtain ⟨te, _, e⟩ := ht _ hr; cases e
      · rw [q4] at hr
        obtain ⟨e, he, hh⟩ := List.mem_map.1 hr
        cases hh
        obtain ⟨r, _, he⟩ := List.mem_flatMap.1 he
        exact ((mem_eventsOf hg.1).1 he).2.1
    · obtain ⟨te, _, e⟩ := ht _ hr; cases e

/-- The full claim of C63: the j-th callback of a turn is still registered when it runs, after what the callbacks before it have done. -/
def C63 : Prop := ∀ (l : Loop) (u : Turn) (ev : FileEvent) (j : Nat), Reached l → (turn u l).2[j]? = some (.file ev) →
  (runOps l ((List.range j).flatMap u.calls)).files (key ev.fd ev.kind) = some ev

/-- **C63 is false**: the callback of the readable event removes both events of its descriptor (as `free` does); the writable one runs all the same. -/
theorem C63_refuted : ¬ C63 := by
  intro h
  have key := h demoLoop { quiet 2000 with ready := some [(7, 5)], calls := fun n => if n = 0 then [.removeFile 7 .readable true, .removeFile 7 .writable true] else [] }
    ⟨7, .writable, 2⟩ 1 ⟨[.op (.addFile 7 .readable 1 true), .op (.addFile 7 .writable 2 true), .op (.addFile 7 .writable 3 true), .op (.addFile 8 .readable 4 false)], rfl⟩
    (by decide)
  revert key
  decide

end Metis.Props.AeP
