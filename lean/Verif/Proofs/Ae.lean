import Verif.Model.Ae
import Mathlib.Data.List.Nodup
/-!
Lemmas about the event loop.
-/
set_option linter.unusedSectionVars false
set_option linter.unusedSimpArgs false
set_option linter.unusedVariables false
namespace Metis.Ae

theorem key_eq (fd : Nat) (k : Kind) : key fd k = fd * 65536 + k.mask := by
  unfold key
  rw [← Nat.shiftLeft_add_eq_or_of_lt (by cases k <;> decide), Nat.shiftLeft_eq]

theorem key_inj {fd fd' : Nat} {k k' : Kind} : key fd k = key fd' k' ↔ fd = fd' ∧ k = k' := by
  rw [key_eq, key_eq]
  constructor
  · intro h
    cases k <;> cases k' <;> simp only [Kind.mask] at h <;> (first | exact ⟨by omega, rfl⟩ | omega)
  · rintro ⟨rfl, rfl⟩; rfl

/-- The file event table and the interest list agree. -/
structure Ok (l : Loop) : Prop where
  self   : ∀ fd k ev, l.files (key fd k) = some ev → ev.fd = fd ∧ ev.kind = k
  kernel : ∀ fd, l.kernel fd = if mask l fd = 0 then none else some (mask l fd)

theorem mask_congr {l l' : Loop} {fd : Nat} (h : ∀ k, (l'.files (key fd k)).isSome = (l.files (key fd k)).isSome) : mask l' fd = mask l fd := by
  unfold mask; rw [h, h]

theorem ok_new : Ok Loop.new := ⟨fun _ _ _ h => (by cases h), fun fd => (by simp [Loop.new, mask])⟩

theorem ok_timers {l : Loop} (h : Ok l) (ts : List TimeEvent) (n : Int) : Ok { l with timers := ts, nextId := n } :=
  ⟨h.self, fun fd => h.kernel fd⟩

theorem mask_add {l : Loop} {fd : Nat} {k : Kind} {ev : FileEvent} {kern : Nat → Option UInt32} (h : l.files (key fd k) = none) :
    mask { l with kernel := kern, files := fun x => if x = key fd k then some ev else l.files x } fd = mask l fd ||| k.bit := by
  unfold mask
  cases k <;> simp only [key_inj, true_and, reduceCtorEq, if_false, if_true, h, Option.isSome_some, Option.isSome_none, Bool.false_eq_true] <;>
    · split <;> decide

theorem mask_remove {l : Loop} {fd : Nat} {k : Kind} {kern : Nat → Option UInt32} :
    mask { l with kernel := kern, files := fun x => if x = key fd k then none else l.files x } fd = mask l fd &&& ~~~ k.bit := by
  unfold mask
  cases k <;> simp only [key_inj, true_and, reduceCtorEq, if_false, if_true, Option.isSome_none, Bool.false_eq_true] <;>
    · split <;> split <;> decide

theorem mask_other {l : Loop} {fd fd' : Nat} {k : Kind} {o : Option FileEvent} {kern : Nat → Option UInt32} (h : fd' ≠ fd) :
    mask { l with kernel := kern, files := fun x => if x = key fd k then o else l.files x } fd' = mask l fd' := by
  apply mask_congr
  intro k'
  have : ¬ key fd' k' = key fd k := fun e => h (key_inj.1 e).1
  simp [this]

theorem mask_or_ne (l : Loop) (fd : Nat) (k : Kind) : mask l fd ||| k.bit ≠ 0 := by
  unfold mask
  cases k <;> split <;> split <;> decide

/-- What `AddFileEvent` does if the table and the kernel agree. -/
theorem addFile_cases {l : Loop} (h : Ok l) (fd : Nat) (k : Kind) (p : Nat) (ok : Bool) :
    (((l.files (key fd k)).isSome ∨ ok = false) ∧ addFile l fd k p ok = (l, false)) ∨
    (l.files (key fd k) = none ∧ ok = true ∧ ∃ l', addFile l fd k p ok = (l', true) ∧ Ok l' ∧ l'.timers = l.timers ∧ l'.nextId = l.nextId ∧
      ∀ fd' k', l'.files (key fd' k') = if fd' = fd ∧ k' = k then some ⟨fd, k, p⟩ else l.files (key fd' k')) := by
  unfold addFile
  by_cases h1 : (l.files (key fd k)).isSome
  · left; rw [if_pos h1]; exact ⟨Or.inl h1, rfl⟩
  · rw [if_neg h1]
    have h1' : l.files (key fd k) = none := by simpa using h1
    cases ok with
    | false => left; exact ⟨Or.inr rfl, rfl⟩
    | true =>
      right
      refine ⟨h1', rfl, ?_⟩
      have hk := h.kernel fd
      have hc : ∃ kern, ctl (if mask l fd ≠ 0 then Ctl.mod else Ctl.add) fd (mask l fd ||| k.bit) true l.kernel = some kern ∧
          ∀ x, kern x = if x = fd then some (mask l fd ||| k.bit) else l.kernel x := by
        by_cases h0 : mask l fd = 0
        · rw [if_neg (by simpa using h0)]
          rw [if_pos h0] at hk
          simp only [ctl, hk, Bool.not_true, Bool.false_eq_true, if_false]
          exact ⟨_, rfl, fun _ => rfl⟩
        · rw [if_pos h0]
          rw [if_neg h0] at hk
          simp only [ctl, hk, Bool.not_true, Bool.false_eq_true, if_false]
          exact ⟨_, rfl, fun _ => rfl⟩
      obtain ⟨kern, hc, hkern⟩ := hc
      simp only [hc]
      refine ⟨_, rfl, ⟨?_, ?_⟩, rfl, rfl, ?_⟩
      · intro fd' k' ev hev
        simp only [key_inj] at hev
        split at hev
        · next he => cases hev; exact ⟨he.1.symm, he.2.symm⟩
        · exact h.self fd' k' ev hev
      · intro fd'
        by_cases he : fd' = fd
        · subst he
          rw [mask_add h1', if_neg (mask_or_ne l fd' k)]
          simp [hkern]
        · rw [mask_other he]
          simp only [hkern, if_neg he]
          exact h.kernel fd'
      · intro fd' k'
        simp only [key_inj]

theorem removeFile_cases {l : Loop} (h : Ok l) (fd : Nat) (k : Kind) (ok : Bool) :
    ((l.files (key fd k) = none ∨ ok = false) ∧ removeFile l fd k ok = (l, false)) ∨
    ((l.files (key fd k)).isSome ∧ ok = true ∧ ∃ l', removeFile l fd k ok = (l', true) ∧ Ok l' ∧ l'.timers = l.timers ∧ l'.nextId = l.nextId ∧
      ∀ fd' k', l'.files (key fd' k') = if fd' = fd ∧ k' = k then none else l.files (key fd' k')) := by
  unfold removeFile
  by_cases h1 : (l.files (key fd k)).isNone
  · left; rw [if_pos h1]; exact ⟨Or.inl (by simpa using h1), rfl⟩
  · rw [if_neg h1]
    have h1' : (l.files (key fd k)).isSome := by cases hx : l.files (key fd k) <;> simp_all
    cases ok with
    | false => left; exact ⟨Or.inr rfl, rfl⟩
    | true =>
      right
      refine ⟨h1', rfl, ?_⟩
      have hk := h.kernel fd
      have hne : mask l fd ≠ 0 := by
        unfold mask
        cases k <;> simp only [h1', if_true] <;> split <;> decide
      rw [if_neg hne] at hk
      have hc : ∃ kern, ctl (if mask l fd &&& ~~~ k.bit ≠ 0 then Ctl.mod else Ctl.del) fd (mask l fd &&& ~~~ k.bit) true l.kernel = some kern ∧
          ∀ x, kern x = if x = fd then (if mask l fd &&& ~~~ k.bit = 0 then none else some (mask l fd &&& ~~~ k.bit)) else l.kernel x := by
        by_cases h0 : mask l fd &&& ~~~ k.bit = 0
        · rw [if_neg (by simpa using h0)]
          simp only [ctl, hk, Bool.not_true, Bool.false_eq_true, if_false]
          exact ⟨_, rfl, fun x => by rw [if_pos h0]⟩
        · rw [if_pos h0]
          simp only [ctl, hk, Bool.not_true, Bool.false_eq_true, if_false]
          exact ⟨_, rfl, fun x => by rw [if_neg h0]⟩
      obtain ⟨kern, hc, hkern⟩ := hc
      simp only [hc]
      refine ⟨_, rfl, ⟨?_, ?_⟩, rfl, rfl, ?_⟩
      · intro fd' k' ev hev
        simp only [key_inj] at hev
        split at hev
        · cases hev
        · exact h.self fd' k' ev hev
      · intro fd'
        by_cases he : fd' = fd
        · subst he
          rw [mask_remove]
          simp [hkern]
        · rw [mask_other he]
          simp only [hkern, if_neg he]
          exact h.kernel fd'
      · intro fd' k'
        simp only [key_inj]

/-- The timers: distinct ids, below the next one. -/
def Ids (l : Loop) : Prop := (l.timers.map TimeEvent.id).Nodup ∧ ∀ te ∈ l.timers, te.id < l.nextId

theorem dropTimer_spec : ∀ (ts : List TimeEvent) (id : Int), (ts.map TimeEvent.id).Nodup →
    dropTimer id ts = if id ∈ ts.map TimeEvent.id then some (ts.filter (fun te => decide (te.id ≠ id))) else none
  | [], id, _ => by simp [dropTimer]
  | t :: ts, id, h => by
    rw [List.map_cons, List.nodup_cons] at h
    have ih := dropTimer_spec ts id h.2
    unfold dropTimer
    by_cases he : t.id = id
    · rw [if_pos he, if_pos (by simp [he])]
      congr 1
      rw [List.filter_cons_of_neg (by simp [he])]
      symm
      rw [List.filter_eq_self]
      intro x hx
      have : x.id ≠ id := fun hh => h.1 (by rw [he, ← hh]; exact List.mem_map_of_mem hx)
      simpa using this
    · rw [if_neg he, ih, List.map_cons]
      by_cases hm : id ∈ ts.map TimeEvent.id
      · rw [if_pos hm, if_pos (List.mem_cons_of_mem _ hm), Option.map_some, List.filter_cons_of_pos (by simpa using he)]
      · rw [if_neg hm, if_neg (by simp only [List.mem_cons, not_or]; exact ⟨fun h => he h.symm, hm⟩)]; rfl

theorem removeTime_cases {l : Loop} (hi : Ids l) (id : Int) :
    (id ∉ l.timers.map TimeEvent.id ∧ removeTime l id = (l, false)) ∨
    (id ∈ l.timers.map TimeEvent.id ∧ removeTime l id = ({ l with timers := l.timers.filter (fun te => decide (te.id ≠ id)) }, true)) := by
  unfold removeTime
  rw [dropTimer_spec l.timers id hi.1]
  by_cases hm : id ∈ l.timers.map TimeEvent.id
  · right; rw [if_pos hm]; exact ⟨hm, rfl⟩
  · left; rw [if_neg hm]; exact ⟨hm, rfl⟩

theorem ids_filter {l : Loop} (hi : Ids l) (p : TimeEvent → Bool) : Ids { l with timers := l.timers.filter p } :=
  ⟨hi.1.sublist (List.filter_sublist.map _), fun te h => hi.2 te (List.mem_filter.1 h).1⟩

theorem rearm_ids (id due : Int) (ts : List TimeEvent) : (rearm id due ts).map TimeEvent.id = ts.map TimeEvent.id := by
  unfold rearm
  rw [List.map_map]
  apply List.map_congr_left
  intro te _
  simp only [Function.comp_apply]; split <;> rfl

theorem ids_rearm {l : Loop} (hi : Ids l) (id due : Int) : Ids { l with timers := rearm id due l.timers } := by
  refine ⟨by simpa only [rearm_ids] using hi.1, fun te h => ?_⟩
  simp only [rearm, List.mem_map] at h
  obtain ⟨t, ht, rfl⟩ := h
  have := hi.2 t ht
  split <;> exact this

/-- Both invariants. -/
def Good (l : Loop) : Prop := Ok l ∧ Ids l

theorem good_new : Good Loop.new := ⟨ok_new, by simp [Ids, Loop.new]⟩

/-- What one call does to the timers: new ones have new ids, old ones stay as they are or go. -/
theorem op_good {l : Loop} (h : Good l) (o : Op) : Good (o.run l) ∧ l.nextId ≤ (o.run l).nextId ∧
    ∀ te ∈ (o.run l).timers, te ∈ l.timers ∨ l.nextId ≤ te.id := by
  cases o with
  | addFile fd k p ok =>
    simp only [Op.run]
    rcases addFile_cases h.1 fd k p ok with ⟨_, h1⟩ | ⟨_, _, l', h1, h2, h3, h4, _⟩
    · rw [h1]; exact ⟨h, Int.le_refl _, fun te ht => Or.inl ht⟩
    · rw [h1]
      refine ⟨⟨h2, ?_⟩, by rw [h4]; exact Int.le_refl _, fun te ht => Or.inl (by rw [h3] at ht; exact ht)⟩
      unfold Ids; rw [h3, h4]; exact h.2
  | removeFile fd k ok =>
    simp only [Op.run]
    rcases removeFile_cases h.1 fd k ok with ⟨_, h1⟩ | ⟨_, _, l', h1, h2, h3, h4, _⟩
    · rw [h1]; exact ⟨h, Int.le_refl _, fun te ht => Or.inl ht⟩
    · rw [h1]
      refine ⟨⟨h2, ?_⟩, by rw [h4]; exact Int.le_refl _, fun te ht => Or.inl (by rw [h3] at ht; exact ht)⟩
      unfold Ids; rw [h3, h4]; exact h.2
  | addTime once i p now =>
    simp only [Op.run, addTime]
    refine ⟨⟨ok_timers h.1 _ _, ?_, ?_⟩, by omega, ?_⟩
    · simp only [List.map_cons, List.nodup_cons]
      refine ⟨?_, h.2.1⟩
      intro hm
      obtain ⟨te, h1, h2⟩ := List.mem_map.1 hm
      have := h.2.2 te h1; omega
    · intro te ht
      rcases List.mem_cons.1 ht with rfl | ht
      · simp only; omega
      · have := h.2.2 te ht; simp only; omega
    · intro te ht
      rcases List.mem_cons.1 ht with rfl | ht
      · exact Or.inr (Int.le_refl _)
      · exact Or.inl ht
  | removeTime id =>
    simp only [Op.run]
    rcases removeTime_cases h.2 id with ⟨_, h1⟩ | ⟨_, h1⟩
    · rw [h1]; exact ⟨h, Int.le_refl _, fun te ht => Or.inl ht⟩
    · rw [h1]
      exact ⟨⟨ok_timers h.1 _ _, ids_filter h.2 _⟩, Int.le_refl _, fun te ht => Or.inl (List.mem_filter.1 ht).1⟩

theorem ops_good : ∀ (ops : List Op) {l : Loop}, Good l → Good (runOps l ops) ∧ l.nextId ≤ (runOps l ops).nextId ∧
    ∀ te ∈ (runOps l ops).timers, te ∈ l.timers ∨ l.nextId ≤ te.id
  | [], l, h => ⟨h, Int.le_refl _, fun te ht => Or.inl ht⟩
  | o :: ops, l, h => by
    obtain ⟨h1, h2, h3⟩ := op_good h o
    obtain ⟨k1, k2, k3⟩ := ops_good ops h1
    refine ⟨k1, Int.le_trans h2 k2, fun te ht => ?_⟩
    rcases k3 te ht with h | h
    · exact h3 te h
    · exact Or.inr (Int.le_trans h2 h)

/-- What the timers of a turn leave: every timer is as before, is new, or has been run (and then is periodic and newly armed). -/
theorem runTimers_good (u : Turn) : ∀ (b : List TimeEvent) (n : Nat) {l : Loop}, Good l →
    Good (runTimers u n b l).1 ∧ l.nextId ≤ (runTimers u n b l).1.nextId ∧
    (∀ te ∈ (runTimers u n b l).1.timers, te ∈ l.timers ∨ l.nextId ≤ te.id ∨ Ran.timer te.id ∈ (runTimers u n b l).2.1) ∧
    (∀ r ∈ (runTimers u n b l).2.1, ∃ te ∈ b, r = .timer te.id)
  | [], n, l, h => ⟨h, Int.le_refl _, fun te ht => Or.inl ht, fun r hr => by cases hr⟩
  | te :: b, n, l, h => by
    obtain ⟨h1, h2, h3⟩ := ops_good (u.calls n) h
    unfold runTimers
    split
    · rcases removeTime_cases h1.2 te.id with ⟨_, e⟩ | ⟨_, e⟩
      · simp only [e]
        refine ⟨h1, h2, fun t ht => ?_, fun r hr => ⟨te, List.mem_cons_self, by simpa using hr⟩⟩
        rcases h3 t ht with h | h
        · exact Or.inl h
        · exact Or.inr (Or.inl h)
      · simp only [e]
        have hg : Good { runOps l (u.calls n) with timers := (runOps l (u.calls n)).timers.filter (fun t => decide (t.id ≠ te.id)) } :=
          ⟨ok_timers h1.1 _ _, ids_filter h1.2 _⟩
        obtain ⟨k1, k2, k3, k4⟩ := runTimers_good u b (n + 1) hg
        refine ⟨k1, Int.le_trans h2 k2, fun t ht => ?_, fun r hr => ?_⟩
        · rcases k3 t ht with h | h | h
          · rcases h3 t (List.mem_filter.1 h).1 with h | h
            · exact Or.inl h
            · exact Or.inr (Or.inl h)
          · exact Or.inr (Or.inl (Int.le_trans h2 h))
          · exact Or.inr (Or.inr (List.mem_cons_of_mem _ h))
        · rcases List.mem_cons.1 hr with rfl | hr
          · exact ⟨te, List.mem_cons_self, rfl⟩
          · obtain ⟨t, ht, e⟩ := k4 r hr
            exact ⟨t, List.mem_cons_of_mem _ ht, e⟩
    · have hg : Good { runOps l (u.calls n) with timers := rearm te.id (wrap64 (u.after n + te.interval)) (runOps l (u.calls n)).timers } :=
        ⟨ok_timers h1.1 _ _, ids_rearm h1.2 _ _⟩
      obtain ⟨k1, k2, k3, k4⟩ := runTimers_good u b (n + 1) hg
      refine ⟨k1, Int.le_trans h2 k2, fun t ht => ?_, fun r hr => ?_⟩
      · rcases k3 t ht with h | h | h
        · simp only [rearm, List.mem_map] at h
          obtain ⟨t', ht', rfl⟩ := h
          by_cases he : t'.id = te.id
          · rw [if_pos he]; exact Or.inr (Or.inr (by simp [he]))
          · rw [if_neg he]
            rcases h3 t' ht' with h | h
            · exact Or.inl h
            · exact Or.inr (Or.inl h)
        · exact Or.inr (Or.inl (Int.le_trans h2 h))
        · exact Or.inr (Or.inr (List.mem_cons_of_mem _ h))
      · rcases List.mem_cons.1 hr with rfl | hr
        · exact ⟨te, List.mem_cons_self, rfl⟩
        · obtain ⟨t, ht, e⟩ := k4 r hr
          exact ⟨t, List.mem_cons_of_mem _ ht, e⟩

theorem runFiles_good (u : Turn) : ∀ (b : List FileEvent) (n : Nat) {l : Loop}, Good l →
    Good (runFiles u n b l).1 ∧ l.nextId ≤ (runFiles u n b l).1.nextId ∧ (∀ te ∈ (runFiles u n b l).1.timers, te ∈ l.timers ∨ l.nextId ≤ te.id) ∧
    (runFiles u n b l).2 = b.map Ran.file
  | [], n, l, h => ⟨h, Int.le_refl _, fun te ht => Or.inl ht, rfl⟩
  | fe :: b, n, l, h => by
    obtain ⟨h1, h2, h3⟩ := ops_good (u.calls n) h
    obtain ⟨k1, k2, k3, k4⟩ := runFiles_good u b (n + 1) h1
    unfold runFiles
    refine ⟨k1, Int.le_trans h2 k2, fun te ht => ?_, by simp [k4]⟩
    rcases k3 te ht with h | h
    · exact h3 te h
    · exact Or.inr (Int.le_trans h2 h)

theorem turn_good (u : Turn) {l : Loop} (h : Good l) : Good (turn u l).1 ∧ l.nextId ≤ (turn u l).1.nextId ∧
    (∀ te ∈ (turn u l).1.timers, te ∈ l.timers ∨ l.nextId ≤ te.id ∨ Ran.timer te.id ∈ (turn u l).2) ∧
    (∀ id, Ran.timer id ∈ (turn u l).2 → ∃ te ∈ l.timers, te.id = id ∧ te.due ≤ u.t3) := by
  unfold turn
  cases hr : u.ready with
  | none => exact ⟨h, Int.le_refl _, fun te ht => Or.inl ht, fun id hid => by cases hid⟩
  | some rs =>
    simp only
    obtain ⟨h1, h2, h3, h4⟩ := runTimers_good u (dueAt u.t3 l.timers) 0 h
    have h5 : ∀ id, Ran.timer id ∈ (runTimers u 0 (dueAt u.t3 l.timers) l).2.1 → ∃ te ∈ l.timers, te.id = id ∧ te.due ≤ u.t3 := by
      intro id hid
      obtain ⟨te, ht, e⟩ := h4 _ hid
      simp only [dueAt, List.mem_filter, decide_eq_true_eq] at ht
      cases e
      exact ⟨te, ht.1, rfl, ht.2⟩
    split
    · obtain ⟨k1, k2, k3, k4⟩ := runFiles_good u (rs.flatMap (eventsOf l)) (dueAt u.t3 l.timers).length h1
      refine ⟨k1, Int.le_trans h2 k2, fun te ht => ?_, fun id hid => ?_⟩
      · rcases k3 te ht with h | h
        · rcases h3 te h with h | h | h
          · exact Or.inl h
          · exact Or.inr (Or.inl h)
          · exact Or.inr (Or.inr (List.mem_append_left _ h))
        · exact Or.inr (Or.inl (Int.le_trans h2 h))
      · rcases List.mem_append.1 hid with hid | hid
        · exact h5 id hid
        · rw [k4] at hid; simp at hid
    · exact ⟨h1, h2, h3, h5⟩

theorem act_good (a : Act) {l : Loop} (h : Good l) : Good (act l a).1 ∧ l.nextId ≤ (act l a).1.nextId ∧
    (∀ te ∈ (act l a).1.timers, te ∈ l.timers ∨ l.nextId ≤ te.id ∨ Ran.timer te.id ∈ (act l a).2) := by
  cases a with
  | op o =>
    obtain ⟨h1, h2, h3⟩ := op_good h o
    refine ⟨h1, h2, fun te ht => ?_⟩
    rcases h3 te ht with h | h
    · exact Or.inl h
    · exact Or.inr (Or.inl h)
  | turn u => obtain ⟨h1, h2, h3, _⟩ := turn_good u h; exact ⟨h1, h2, h3⟩

theorem run_good : ∀ (as : List Act) {l : Loop}, Good l → Good (run l as).1 ∧ l.nextId ≤ (run l as).1.nextId ∧
    (∀ te ∈ (run l as).1.timers, te ∈ l.timers ∨ l.nextId ≤ te.id ∨ Ran.timer te.id ∈ (run l as).2.flatten)
  | [], l, h => ⟨h, Int.le_refl _, fun te ht => Or.inl ht⟩
  | a :: as, l, h => by
    obtain ⟨h1, h2, h3⟩ := act_good a h
    obtain ⟨k1, k2, k3⟩ := run_good as h1
    unfold run
    refine ⟨k1, Int.le_trans h2 k2, fun te ht => ?_⟩
    simp only [List.flatten_cons, List.mem_append]
    rcases k3 te ht with h | h | h
    · rcases h3 te h with h | h | h
      · exact Or.inl h
      · exact Or.inr (Or.inl h)
      · exact Or.inr (Or.inr (Or.inl h))
    · exact Or.inr (Or.inl (Int.le_trans h2 h))
    · exact Or.inr (Or.inr (Or.inr h))

/-! ### One-shot timers -/

/-- A timer id that is in use no more. -/
def Gone (id : Int) (l : Loop) : Prop := id < l.nextId ∧ ∀ te ∈ l.timers, te.id ≠ id

theorem runTimers_once (u : Turn) (id : Int) : ∀ (b : List TimeEvent) (n : Nat) {l : Loop}, Good l → id < l.nextId → (b.map TimeEvent.id).Nodup →
    (∀ te ∈ b, te.id = id → te.once = true) →
    (runTimers u n b l).2.1.count (.timer id) ≤ 1 ∧ (Ran.timer id ∈ (runTimers u n b l).2.1 → Gone id (runTimers u n b l).1)
  | [], n, l, h, hid, hn, ho => by simp [runTimers]
  | te :: b, n, l, h, hid, hn, ho => by
    rw [List.map_cons, List.nodup_cons] at hn
    obtain ⟨h1, h2, h3⟩ := ops_good (u.calls n) h
    have ho' : ∀ t ∈ b, t.id = id → t.once = true := fun t ht => ho t (List.mem_cons_of_mem _ ht)
    by_cases he : te.id = id
    · have hnb : ∀ t ∈ b, t.id ≠ id := fun t ht hh => hn.1 (by rw [he, ← hh]; exact List.mem_map_of_mem ht)
      unfold runTimers
      rw [if_pos (ho te List.mem_cons_self he)]
      rcases removeTime_cases h1.2 te.id with ⟨hm, e⟩ | ⟨_, e⟩
      · simp only [e]
        refine ⟨by simp [he], fun _ => ⟨by omega, fun t ht hh => hm ?_⟩⟩
        rw [he, ← hh]; exact List.mem_map_of_mem ht
      · simp only [e]
        have hg : Good { runOps l (u.calls n) with timers := (runOps l (u.calls n)).timers.filter (fun t => decide (t.id ≠ te.id)) } :=
          ⟨ok_timers h1.1 _ _, ids_filter h1.2 _⟩
        obtain ⟨k1, k2, k3, k4⟩ := runTimers_good u b (n + 1) hg
        have hnot : Ran.timer id ∉ (runTimers u (n + 1) b { runOps l (u.calls n) with timers := (runOps l (u.calls n)).timers.filter (fun t => decide (t.id ≠ te.id)) }).2.1 := by
          intro hh
          obtain ⟨t, ht, e⟩ := k4 _ hh
          cases e
          exact hnb t ht rfl
        refine ⟨by subst he; rw [List.count_cons_self]; exact Nat.le_of_eq (congrArg (· + 1) (List.count_eq_zero.2 hnot)), fun _ => ⟨?_, fun t ht hh => ?_⟩⟩
        · exact Int.lt_of_lt_of_le (Int.lt_of_lt_of_le hid h2) k2
        · rcases k3 t ht with h | h | h
          · have := (List.mem_filter.1 h).2
            simp [he, hh] at this
          · rw [hh] at h; simp only at h; omega
          · rw [hh] at h; exact hnot h
    · have hne : ∀ l' : List Ran, (Ran.timer te.id :: l').count (.timer id) = l'.count (.timer id) := by
        intro l'; rw [List.count_cons_of_ne]; intro hh; cases hh; exact he rfl
      have hmem : ∀ l' : List Ran, Ran.timer id ∈ Ran.timer te.id :: l' → Ran.timer id ∈ l' := by
        intro l' hh
        rcases List.mem_cons.1 hh with hh | hh
        · cases hh; exact absurd rfl he
        · exact hh
      unfold runTimers
      split
      · rcases removeTime_cases h1.2 te.id with ⟨hm, e⟩ | ⟨_, e⟩
        · simp only [e]
          refine ⟨by rw [hne]; simp, fun hh => ?_⟩
          have := hmem _ hh; cases this
        · simp only [e]
          have hg : Good { runOps l (u.calls n) with timers := (runOps l (u.calls n)).timers.filter (fun t => decide (t.id ≠ te.id)) } :=
            ⟨ok_timers h1.1 _ _, ids_filter h1.2 _⟩
          obtain ⟨k1, k2⟩ := runTimers_once u id b (n + 1) hg (Int.lt_of_lt_of_le hid h2) hn.2 ho'
          exact ⟨by rw [hne]; exact k1, fun hh => k2 (hmem _ hh)⟩
      · have hg : Good { runOps l (u.calls n) with timers := rearm te.id (wrap64 (u.after n + te.interval)) (runOps l (u.calls n)).timers } :=
          ⟨ok_timers h1.1 _ _, ids_rearm h1.2 _ _⟩
        obtain ⟨k1, k2⟩ := runTimers_once u id b (n + 1) hg (Int.lt_of_lt_of_le hid h2) hn.2 ho'
        exact ⟨by rw [hne]; exact k1, fun hh => k2 (hmem _ hh)⟩

theorem due_nodup {l : Loop} (h : Ids l) (t : Int) : ((dueAt t l.timers).map TimeEvent.id).Nodup := h.1.sublist (List.filter_sublist.map _)

theorem turn_once (u : Turn) {l : Loop} (h : Good l) {id : Int} (hid : id < l.nextId) (ho : ∀ te ∈ l.timers, te.id = id → te.once = true) :
    (turn u l).2.count (.timer id) ≤ 1 ∧ (Ran.timer id ∈ (turn u l).2 → Gone id (turn u l).1) := by
  unfold turn
  cases hr : u.ready with
  | none => simp
  | some rs =>
    simp only
    obtain ⟨h1, h2, _, _⟩ := runTimers_good u (dueAt u.t3 l.timers) 0 h
    obtain ⟨k1, k2⟩ := runTimers_once u id (dueAt u.t3 l.timers) 0 h hid (due_nodup h.2 _) (fun te ht => ho te (List.mem_filter.1 ht).1)
    split
    · obtain ⟨q1, q2, q3, q4⟩ := runFiles_good u (rs.flatMap (eventsOf l)) (dueAt u.t3 l.timers).length h1
      have hf : Ran.timer id ∉ (runFiles u (dueAt u.t3 l.timers).length (rs.flatMap (eventsOf l)) (runTimers u 0 (dueAt u.t3 l.timers) l).1).2 := by
        rw [q4]; simp
      refine ⟨by rw [List.count_append, List.count_eq_zero.2 hf]; exact k1, fun hh => ?_⟩
      rcases List.mem_append.1 hh with hh | hh
      · obtain ⟨g1, g2⟩ := k2 hh
        refine ⟨Int.lt_of_lt_of_le g1 q2, fun te ht he => ?_⟩
        rcases q3 te ht with h | h
        · exact g2 te h he
        · omega
      · exact absurd hh hf
    · exact ⟨k1, k2⟩

theorem gone_act (a : Act) {l : Loop} (h : Good l) {id : Int} (hg : Gone id l) : Ran.timer id ∉ (act l a).2 ∧ Gone id (act l a).1 := by
  obtain ⟨h1, h2, h3⟩ := act_good a h
  have hn : Ran.timer id ∉ (act l a).2 := by
    cases a with
    | op o => simp [act]
    | turn u =>
      intro hh
      obtain ⟨te, ht, he, _⟩ := (turn_good u h).2.2.2 id hh
      exact hg.2 te ht he
  refine ⟨hn, Int.lt_of_lt_of_le hg.1 h2, fun te ht he => ?_⟩
  rcases h3 te ht with h | h | h
  · exact hg.2 te h he
  · have := hg.1; omega
  · rw [he] at h; exact hn h

theorem gone_run : ∀ (as : List Act) {l : Loop} {id : Int}, Good l → Gone id l → Ran.timer id ∉ (run l as).2.flatten
  | [], l, id, h, hg => by simp [run]
  | a :: as, l, id, h, hg => by
    obtain ⟨h1, h2⟩ := gone_act a h hg
    have := gone_run as (act_good a h).1 h2
    simp only [run, List.flatten_cons, List.mem_append, not_or]
    exact ⟨h1, this⟩

theorem run_once : ∀ (as : List Act) {l : Loop} {id : Int}, Good l → id < l.nextId → (∀ te ∈ l.timers, te.id = id → te.once = true) →
    (run l as).2.flatten.count (.timer id) ≤ 1
  | [], l, id, h, hid, ho => by simp [run]
  | a :: as, l, id, h, hid, ho => by
    obtain ⟨h1, h2, h3⟩ := act_good a h
    simp only [run, List.flatten_cons, List.count_append]
    by_cases hr : Ran.timer id ∈ (act l a).2
    · have hh : (act l a).2.count (.timer id) ≤ 1 ∧ Gone id (act l a).1 := by
        cases a with
        | op o => simp [act] at hr
        | turn u =>
          obtain ⟨q1, q2⟩ := turn_once u h hid ho
          exact ⟨q1, q2 hr⟩
      rw [List.count_eq_zero.2 (gone_run as h1 hh.2)]
      exact hh.1
    · rw [List.count_eq_zero.2 hr, Nat.zero_add]
      refine run_once as h1 (Int.lt_of_lt_of_le hid h2) (fun te ht he => ?_)
      rcases h3 te ht with h | h | h
      · exact ho te h he
      · omega
      · rw [he] at h; exact absurd h hr

/-! ### Re-arming -/

/-- After a turn in which periodic timer `id` was the n-th callback its due time is set from the clock after that callback. -/
theorem runTimers_rearm (u : Turn) (id iv : Int) : ∀ (b : List TimeEvent) (n j : Nat) {l : Loop}, Good l → id < l.nextId → (b.map TimeEvent.id).Nodup →
    (∀ te ∈ b, te.id = id → te.once = false ∧ te.interval = iv) → (runTimers u n b l).2.1[j]? = some (.timer id) →
    ∀ te ∈ (runTimers u n b l).1.timers, te.id = id → te.due = wrap64 (u.after (n + j) + iv)
  | [], n, j, l, h, hid, hn, ho, hj => by simp [runTimers] at hj
  | te :: b, n, j, l, h, hid, hn, ho, hj => by
    rw [List.map_cons, List.nodup_cons] at hn
    obtain ⟨h1, h2, h3⟩ := ops_good (u.calls n) h
    have ho' : ∀ t ∈ b, t.id = id → t.once = false ∧ t.interval = iv := fun t ht => ho t (List.mem_cons_of_mem _ ht)
    by_cases he : te.id = id
    · obtain ⟨e1, e2⟩ := ho te List.mem_cons_self he
      have hnb : ∀ t ∈ b, t.id ≠ id := fun t ht hh => hn.1 (by rw [he, ← hh]; exact List.mem_map_of_mem ht)
      unfold runTimers at hj ⊢
      rw [if_neg (by simp [e1])] at hj ⊢
      simp only at hj ⊢
      have hg : Good { runOps l (u.calls n) with timers := rearm te.id (wrap64 (u.after n + te.interval)) (runOps l (u.calls n)).timers } :=
        ⟨ok_timers h1.1 _ _, ids_rearm h1.2 _ _⟩
      obtain ⟨k1, k2, k3, k4⟩ := runTimers_good u b (n + 1) hg
      have hnot : Ran.timer id ∉ (runTimers u (n + 1) b { runOps l (u.calls n) with timers := rearm te.id (wrap64 (u.after n + te.interval)) (runOps l (u.calls n)).timers }).2.1 := by
        intro hh
        obtain ⟨t, ht, e⟩ := k4 _ hh
        cases e
        exact hnb t ht rfl
      cases j with
      | succ j =>
        rw [List.getElem?_cons_succ] at hj
        exact absurd (List.mem_of_getElem? hj) hnot
      | zero =>
        intro t ht hti
        rcases k3 t ht with h | h | h
        · simp only [rearm, List.mem_map] at h
          obtain ⟨t', ht', rfl⟩ := h
          by_cases hc : t'.id = te.id
          · simp only [if_pos hc, e2, Nat.add_zero]
          · rw [if_neg hc] at hti; rw [he] at hc; exact absurd hti hc
        · simp only at h; omega
        · rw [hti] at h; exact absurd h hnot
    · unfold runTimers at hj ⊢
      cases j with
      | zero =>
        exfalso
        split at hj
        · rcases removeTime_cases h1.2 te.id with ⟨hm, e⟩ | ⟨_, e⟩
          · simp only [e, List.getElem?_cons_zero, Option.some.injEq, Ran.timer.injEq] at hj; exact he hj
          · simp only [e, List.getElem?_cons_zero, Option.some.injEq, Ran.timer.injEq] at hj; exact he hj
        · simp only [List.getElem?_cons_zero, Option.some.injEq, Ran.timer.injEq] at hj; exact he hj
      | succ j =>
        have hadd : n + (j + 1) = n + 1 + j := by omega
        rw [hadd]
        split at hj
        · next hc =>
          rw [if_pos hc]
          rcases removeTime_cases h1.2 te.id with ⟨hm, e⟩ | ⟨_, e⟩
          · simp [e] at hj
          · simp only [e, List.getElem?_cons_succ] at hj ⊢
            have hg : Good { runOps l (u.calls n) with timers := (runOps l (u.calls n)).timers.filter (fun t => decide (t.id ≠ te.id)) } :=
              ⟨ok_timers h1.1 _ _, ids_filter h1.2 _⟩
            exact runTimers_rearm u id iv b (n + 1) j hg (Int.lt_of_lt_of_le hid h2) hn.2 ho' hj
        · next hc =>
          rw [if_neg hc]
          simp only [List.getElem?_cons_succ] at hj ⊢
          have hg : Good { runOps l (u.calls n) with timers := rearm te.id (wrap64 (u.after n + te.interval)) (runOps l (u.calls n)).timers } :=
            ⟨ok_timers h1.1 _ _, ids_rearm h1.2 _ _⟩
          exact runTimers_rearm u id iv b (n + 1) j hg (Int.lt_of_lt_of_le hid h2) hn.2 ho' hj

theorem turn_rearm (u : Turn) {l : Loop} (h : Good l) {te0 : TimeEvent} (ht0 : te0 ∈ l.timers) (hp : te0.once = false) {j : Nat}
    (hj : (turn u l).2[j]? = some (.timer te0.id)) : ∀ te ∈ (turn u l).1.timers, te.id = te0.id → te.due = wrap64 (u.after j + te0.interval) := by
  have huniq : ∀ te ∈ l.timers, te.id = te0.id → te.once = false ∧ te.interval = te0.interval := by
    intro te ht he
    have : te = te0 := List.inj_on_of_nodup_map h.2.1 ht ht0 he
    subst this; exact ⟨hp, rfl⟩
  have hid := h.2.2 te0 ht0
  unfold turn at hj ⊢
  cases hr : u.ready with
  | none => simp [hr] at hj
  | some rs =>
    simp only [hr] at hj ⊢
    obtain ⟨h1, h2, h3, h4⟩ := runTimers_good u (dueAt u.t3 l.timers) 0 h
    have key : (runTimers u 0 (dueAt u.t3 l.timers) l).2.1[j]? = some (.timer te0.id) →
        ∀ te ∈ (runTimers u 0 (dueAt u.t3 l.timers) l).1.timers, te.id = te0.id → te.due = wrap64 (u.after j + te0.interval) := by
      intro hj
      have := runTimers_rearm u te0.id te0.interval (dueAt u.t3 l.timers) 0 j h hid (due_nodup h.2 _) (fun te ht => huniq te (List.mem_filter.1 ht).1) hj
      rwa [Nat.zero_add] at this
    split at hj
    · next hc =>
      rw [if_pos hc]
      obtain ⟨q1, q2, q3, q4⟩ := runFiles_good u (rs.flatMap (eventsOf l)) (dueAt u.t3 l.timers).length h1
      simp only at hj ⊢
      rw [List.getElem?_append] at hj
      split at hj
      · intro te ht he
        rcases q3 te ht with h | h
        · exact key hj te h he
        · omega
      · rw [q4] at hj
        have := List.mem_of_getElem? hj
        simp at this
    · next hc => rw [if_neg hc]; exact key hj

end Metis.Ae
