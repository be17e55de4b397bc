import Verif.Model.Cells
import Verif.Proofs.DictRun
import Mathlib.Data.List.Nodup
import Mathlib.Data.List.Perm.Subperm
/-!
The dict with its entries as objects (`Model/Cells.lean`) refines the dict whose buckets are lists (`Model/Dict.lean`). In the list dict every
value is paired with the address of its entry, so that the theorems about the list dict also say where the entries are.
-/
set_option linter.unusedSectionVars false
set_option linter.unusedSimpArgs false
set_option linter.unusedVariables false
namespace Metis
namespace Cells
variable {K V : Type} [DecidableEq K] {hash : K → Nat}

/-- The pointer `h` leads to a chain of objects with the contents of the list. -/
def Chain (m : List (Cell K V)) : Option Nat → List (K × Nat × V) → Prop
  | h, [] => h = none
  | h, e :: es => h = some e.2.1 ∧ ∃ n, m[e.2.1]? = some ⟨e.1, e.2.2, n⟩ ∧ Chain m n es

/-- The addresses of a list of entries. -/
def addrs (b : List (K × Nat × V)) : List Nat := b.map (fun e => e.2.1)

/-- A table of pointers holds the chains of a table of lists. -/
structure TabEq (m : List (Cell K V)) (t : CTable) (u : HashTable K (Nat × V)) : Prop where
  size : t.size = u.size
  mask : t.sizeMask = u.sizeMask
  used : t.used = u.used
  len  : t.heads.length = u.tables.length
  chn  : ∀ (i : Nat) b, u.tables[i]? = some b → ∃ h, t.heads[i]? = some h ∧ Chain m h b

/-- The same for a table that may be missing. -/
def Tab (m : List (Cell K V)) : Option CTable → Option (HashTable K (Nat × V)) → Prop
  | none, none => True
  | some t, some u => TabEq m t u
  | _, _ => False

/-- The dict of objects holds the entries of the dict of lists. -/
structure Rep (p : Cells K V) (d : Dict K (Nat × V)) : Prop where
  t0  : Tab p.mem p.ht0 d.ht0
  t1  : Tab p.mem p.ht1 d.ht1
  ri  : p.rehashIndex = d.rehashIndex
  its : p.iterators = d.iterators
  nd  : (addrs d.toList).Nodup

theorem addrs_append (a b : List (K × Nat × V)) : addrs (a ++ b) = addrs a ++ addrs b := by simp [addrs]

theorem Rep.reh {p : Cells K V} {d : Dict K (Nat × V)} (r : Rep p d) : p.isRehashing = d.isRehashing := by
  simp [Cells.isRehashing, Dict.isRehashing, r.ri]

theorem Tab.some_left {m : List (Cell K V)} {t : CTable} {u} (h : Tab m (some t) u) : ∃ u', u = some u' ∧ TabEq m t u' := by
  cases u with
  | none => exact absurd h (by simp [Tab])
  | some u => exact ⟨u, rfl, h⟩

theorem Tab.some_right {m : List (Cell K V)} {t} {u : HashTable K (Nat × V)} (h : Tab m t (some u)) : ∃ t', t = some t' ∧ TabEq m t' u := by
  cases t with
  | none => exact absurd h (by simp [Tab])
  | some t => exact ⟨t, rfl, h⟩

theorem Tab.isNone {m : List (Cell K V)} {t u} (h : Tab m t u) : t.isNone = u.isNone := by
  cases t <;> cases u <;> simp_all [Tab]

/-! ### Chains -/

theorem Chain.lt {m : List (Cell K V)} {h : Option Nat} {b} (c : Chain m h b) : ∀ a ∈ addrs b, a < m.length := by
  induction b generalizing h with
  | nil => simp [addrs]
  | cons e es ih =>
    obtain ⟨rfl, n, hm, c⟩ := c
    intro a ha
    simp only [addrs, List.map_cons, List.mem_cons] at ha
    rcases ha with rfl | ha
    · exact (List.getElem?_eq_some_iff.mp hm).1
    · exact ih c a ha

theorem Chain.frame {m : List (Cell K V)} {h : Option Nat} {b} (c : Chain m h b) {a : Nat} {x : Cell K V} (ha : a ∉ addrs b) :
    Chain (m.set a x) h b := by
  induction b generalizing h with
  | nil => exact c
  | cons e es ih =>
    obtain ⟨rfl, n, hm, c⟩ := c
    simp only [addrs, List.map_cons, List.mem_cons, not_or] at ha
    exact ⟨rfl, n, by rw [List.getElem?_set_ne ha.1]; exact hm, ih c ha.2⟩

theorem Chain.append {m : List (Cell K V)} {h : Option Nat} {b} (c : Chain m h b) (x : List (Cell K V)) : Chain (m ++ x) h b := by
  induction b generalizing h with
  | nil => exact c
  | cons e es ih =>
    obtain ⟨rfl, n, hm, c⟩ := c
    exact ⟨rfl, n, by rw [List.getElem?_append_left (List.getElem?_eq_some_iff.mp hm).1]; exact hm, ih c⟩

/-- Distinct addresses below `n` are at most `n`. -/
theorem nodup_bound {l : List Nat} {n : Nat} (nd : l.Nodup) (h : ∀ a ∈ l, a < n) : l.length ≤ n := by
  have := (List.subperm_of_subset nd (l₂ := List.range n) (fun a ha => List.mem_range.mpr (h a ha))).length_le
  simpa using this

theorem Chain.len {m : List (Cell K V)} {h : Option Nat} {b} (c : Chain m h b) (nd : (addrs b).Nodup) : b.length ≤ m.length := by
  have := nodup_bound nd c.lt
  simpa [addrs] using this

theorem Chain.mem {m : List (Cell K V)} {h : Option Nat} {b} (c : Chain m h b) {e} (he : e ∈ b) : ∃ n, m[e.2.1]? = some ⟨e.1, e.2.2, n⟩ := by
  induction b generalizing h with
  | nil => simp at he
  | cons x es ih =>
    obtain ⟨rfl, n, hm, c⟩ := c
    rcases List.mem_cons.mp he with rfl | he
    · exact ⟨n, hm⟩
    · exact ih c he

/-- Following the pointers to a key finds the address of the first entry with the key. -/
theorem seek_chain {m : List (Cell K V)} (k : K) (fuel : Nat) : ∀ {h : Option Nat} {b}, Chain m h b → b.length ≤ fuel →
    seek fuel m k h = some ((b.find? (fun e => k == e.1)).map (fun e => e.2.1)) := by
  induction fuel with
  | zero =>
    intro h b c hl
    cases b with
    | nil => cases c; simp [seek]
    | cons e es => simp at hl
  | succ f ih =>
    intro h b c hl
    cases b with
    | nil => cases c; simp [seek]
    | cons e es =>
      obtain ⟨rfl, n, hm, c⟩ := c
      simp only [List.length_cons] at hl
      by_cases hk : k = e.1
      · simp [seek, hm, hk]
      · simp [seek, hm, hk, ih c (by omega)]

/-! ### Entries of a dict in its tables -/

theorem addrs_entries {u : HashTable K (Nat × V)} {i : Nat} {b} (h : u.tables[i]? = some b) : (addrs b).Sublist (addrs u.entries) := by
  unfold addrs HashTable.entries
  exact (List.sublist_flatten_of_mem (List.mem_of_getElem? h)).map _

theorem Rep.nd0 {p : Cells K V} {d : Dict K (Nat × V)} (r : Rep p d) {u} (h : d.ht0 = some u) : (addrs u.entries).Nodup := by
  have := r.nd
  simp only [Dict.toList, h, Option.map_some, Option.getD_some, addrs_append] at this
  exact (List.nodup_append.mp this).1

theorem Rep.nd1 {p : Cells K V} {d : Dict K (Nat × V)} (r : Rep p d) {u} (h : d.ht1 = some u) : (addrs u.entries).Nodup := by
  have := r.nd
  simp only [Dict.toList, h, Option.map_some, Option.getD_some, addrs_append] at this
  exact (List.nodup_append.mp this).2.1

theorem TabEq.lt {m : List (Cell K V)} {t u} (h : TabEq m t u) : ∀ a ∈ addrs u.entries, a < m.length := by
  intro a ha
  simp only [addrs, HashTable.entries, List.mem_map, List.mem_flatten] at ha
  obtain ⟨e, ⟨b, hb, he⟩, rfl⟩ := ha
  obtain ⟨i, hi⟩ := List.mem_iff_getElem?.mp hb
  obtain ⟨hd, _, c⟩ := h.chn i b hi
  exact c.lt _ (List.mem_map_of_mem he)

theorem TabEq.cell {m : List (Cell K V)} {t u} (h : TabEq m t u) {e} (he : e ∈ u.entries) : ∃ n, m[e.2.1]? = some ⟨e.1, e.2.2, n⟩ := by
  simp only [HashTable.entries, List.mem_flatten] at he
  obtain ⟨b, hb, he⟩ := he
  obtain ⟨i, hi⟩ := List.mem_iff_getElem?.mp hb
  obtain ⟨hd, _, c⟩ := h.chn i b hi
  exact c.mem he

theorem Rep.lt {p : Cells K V} {d : Dict K (Nat × V)} (r : Rep p d) : ∀ a ∈ addrs d.toList, a < p.mem.length := by
  intro a ha
  simp only [Dict.toList, addrs_append, List.mem_append] at ha
  rcases ha with ha | ha
  · cases h : d.ht0 with
    | none => simp [h, addrs] at ha
    | some u =>
      have t0 := r.t0; rw [h] at t0
      obtain ⟨t, _, te⟩ := t0.some_right
      simp only [h, Option.map_some, Option.getD_some] at ha
      exact te.lt a ha
  · cases h : d.ht1 with
    | none => simp [h, addrs] at ha
    | some u =>
      have t1 := r.t1; rw [h] at t1
      obtain ⟨t, _, te⟩ := t1.some_right
      simp only [h, Option.map_some, Option.getD_some] at ha
      exact te.lt a ha

/-- What an entry of the list dict is in memory. -/
theorem Rep.cell {p : Cells K V} {d : Dict K (Nat × V)} (r : Rep p d) {e} (he : e ∈ d.toList) : ∃ n, p.mem[e.2.1]? = some ⟨e.1, e.2.2, n⟩ := by
  simp only [Dict.toList, List.mem_append] at he
  rcases he with ha | ha
  · cases h : d.ht0 with
    | none => simp [h] at ha
    | some u =>
      have t0 := r.t0; rw [h] at t0
      obtain ⟨t, _, te⟩ := t0.some_right
      simp only [h, Option.map_some, Option.getD_some] at ha
      exact te.cell ha
  · cases h : d.ht1 with
    | none => simp [h] at ha
    | some u =>
      have t1 := r.t1; rw [h] at t1
      obtain ⟨t, _, te⟩ := t1.some_right
      simp only [h, Option.map_some, Option.getD_some] at ha
      exact te.cell ha

/-- The search in one table. -/
theorem seekIn_tab {p : Cells K V} {t : CTable} {u : HashTable K (Nat × V)} (te : TabEq p.mem t u) (nd : (addrs u.entries).Nodup) (k : K) {b}
    (hb : Dict.bucketOf hash u k = some b) : seekIn hash p t k = some ((b.find? (fun e => k == e.1)).map (fun e => e.2.1)) := by
  obtain ⟨h, hh, c⟩ := te.chn _ _ hb
  have hl := c.len ((addrs_entries hb).nodup nd)
  simp [seekIn, te.mask, hh, seek_chain k _ c hl]

/-- Different buckets have different objects. -/
theorem disj_buckets {u : HashTable K (Nat × V)} (nd : (addrs u.entries).Nodup) {i j : Nat} {b b'} (hb : u.tables[i]? = some b)
    (hb' : u.tables[j]? = some b') (hij : i ≠ j) : ∀ a ∈ addrs b, a ∉ addrs b' := by
  have h1 : (addrs u.entries) = (u.tables.map addrs).flatten := by
    simp only [addrs, HashTable.entries, List.map_flatten]; rfl
  rw [h1, List.nodup_flatten] at nd
  have hp := nd.2
  have hi := (List.getElem?_eq_some_iff.mp hb)
  have hj := (List.getElem?_eq_some_iff.mp hb')
  rcases Nat.lt_or_gt_of_ne hij with h | h
  · have := List.pairwise_iff_getElem.mp hp i j (by simpa using hi.1) (by simpa using hj.1) h
    simp only [List.getElem_map, hi.2, hj.2] at this
    exact fun a ha hc => this ha hc
  · have := List.pairwise_iff_getElem.mp hp j i (by simpa using hj.1) (by simpa using hi.1) h
    simp only [List.getElem_map, hi.2, hj.2] at this
    exact fun a ha hc => this hc ha

/-! ### The rehash step -/

theorem TabEq.frame {m : List (Cell K V)} {t u} (h : TabEq m t u) {a : Nat} {x : Cell K V} (ha : a ∉ addrs u.entries) : TabEq (m.set a x) t u :=
  ⟨h.size, h.mask, h.used, h.len, fun i b hb => by
    obtain ⟨hd, h1, c⟩ := h.chn i b hb
    exact ⟨hd, h1, c.frame (fun hc => ha ((addrs_entries hb).subset hc))⟩⟩

theorem TabEq.grow {m : List (Cell K V)} {t u} (h : TabEq m t u) (x : List (Cell K V)) : TabEq (m ++ x) t u :=
  ⟨h.size, h.mask, h.used, h.len, fun i b hb => by
    obtain ⟨hd, h1, c⟩ := h.chn i b hb
    exact ⟨hd, h1, c.append x⟩⟩

theorem Tab.grow {m : List (Cell K V)} {t u} (h : Tab m t u) (x : List (Cell K V)) : Tab (m ++ x) t u := by
  cases t <;> cases u <;> simp_all [Tab]
  exact h.grow x

/-- Replacing a bucket: the heads and lists change at one place. -/
theorem TabEq.put {m : List (Cell K V)} {t u} (h : TabEq m t u) {i : Nat} {hd : Option Nat} {b} (c : Chain m hd b) (n : Int) :
    TabEq m { t with heads := t.heads.set i hd, used := n } { u with tables := u.tables.set i b, used := n } := by
  refine ⟨h.size, h.mask, rfl, by simp [h.len], fun j b' hb => ?_⟩
  simp only [List.getElem?_set] at hb ⊢
  by_cases hij : i = j
  · subst hij
    by_cases hlt : i < u.tables.length
    · simp only [if_true, hlt] at hb
      cases hb
      exact ⟨hd, by simp [h.len, hlt], c⟩
    · simp [hlt] at hb
  · simp only [if_neg hij] at hb ⊢
    exact h.chn j b' hb

theorem skipFrom_eq {m : List (Cell K V)} : ∀ (hs : List (Option Nat)) (bs : List (List (K × Nat × V))) (i : Nat), hs.length = bs.length →
    (∀ (j : Nat) b, bs[j]? = some b → ∃ h, hs[j]? = some h ∧ Chain m h b) → skipFrom hs i = Dict.skipFrom bs i := by
  intro hs
  induction hs with
  | nil => intro bs i hl _; cases bs <;> simp_all [skipFrom, Dict.skipFrom]
  | cons h hs ih =>
    intro bs i hl hc
    cases bs with
    | nil => simp at hl
    | cons b bs =>
      obtain ⟨h', hh, c⟩ := hc 0 b (by simp)
      simp only [List.getElem?_cons_zero, Option.some.injEq] at hh
      subst hh
      have ih' := ih bs (i + 1) (by simpa using hl) (fun j b hb => by
        have := hc (j + 1) b (by simpa using hb)
        simpa using this)
      cases b with
      | nil => cases c; simpa [skipFrom, Dict.skipFrom] using ih'
      | cons e es => obtain ⟨rfl, _⟩ := c; simp [skipFrom, Dict.skipFrom]

theorem skipEmpty_eq {m : List (Cell K V)} {t u} (h : TabEq m t u) (i : Nat) : skipEmpty t.heads i = Dict.skipEmpty u.tables i := by
  unfold skipEmpty Dict.skipEmpty
  apply skipFrom_eq (m := m) _ _ _ (by simp [h.len])
  intro j b hb
  rw [List.getElem?_drop] at hb ⊢
  exact h.chn _ _ hb

/-- Memory that differs from another only at the given addresses. -/
def Off (l : List Nat) (m m' : List (Cell K V)) : Prop := m'.length = m.length ∧ ∀ a, a ∉ l → m'[a]? = m[a]?

theorem Chain.off {m m' : List (Cell K V)} {h : Option Nat} {b} (c : Chain m h b) {l : List Nat} (o : Off l m m') (hd : ∀ a ∈ addrs b, a ∉ l) :
    Chain m' h b := by
  induction b generalizing h with
  | nil => exact c
  | cons e es ih =>
    obtain ⟨rfl, n, hm, c⟩ := c
    simp only [addrs, List.map_cons, List.mem_cons, forall_eq_or_imp] at hd
    exact ⟨rfl, n, by rw [o.2 _ hd.1]; exact hm, ih c hd.2⟩

theorem TabEq.off {m m' : List (Cell K V)} {t u} (h : TabEq m t u) {l : List Nat} (o : Off l m m') (hd : ∀ a ∈ addrs u.entries, a ∉ l) :
    TabEq m' t u :=
  ⟨h.size, h.mask, h.used, h.len, fun i b hb => by
    obtain ⟨x, h1, c⟩ := h.chn i b hb
    exact ⟨x, h1, c.off o (fun a ha => hd a ((addrs_entries hb).subset ha))⟩⟩

theorem move_tab (cs : List (K × Nat × V)) : ∀ (fuel : Nat) (m : List (Cell K V)) (h : Option Nat) (t0 t1 : CTable) (u0 u1 : HashTable K (Nat × V)),
    cs.length ≤ fuel → Chain m h cs → TabEq m t1 u1 → Dict.TInv hash u1 → (addrs cs ++ addrs u1.entries).Nodup →
    ∃ m' t1' u1', moveEntries hash fuel m h t0 t1 = some (m', { t0 with used := t0.used - cs.length }, t1') ∧
      Dict.moveEntries hash cs u0 u1 = some ({ u0 with used := u0.used - cs.length }, u1') ∧ TabEq m' t1' u1' ∧ Off (addrs cs) m m' := by
  induction cs with
  | nil =>
    intro fuel m h t0 t1 u0 u1 hf c te w nd
    cases c
    refine ⟨m, t1, u1, by cases fuel <;> simp [moveEntries], by simp [Dict.moveEntries], te, rfl, fun _ _ => rfl⟩
  | cons e es ih =>
    intro fuel m h t0 t1 u0 u1 hf c te w nd
    obtain ⟨rfl, n, hm, c⟩ := c
    cases fuel with
    | zero => simp at hf
    | succ f =>
      have hlt := w.idx_lt e.1
      obtain ⟨b, hb⟩ : ∃ b, u1.tables[hash e.1 &&& u1.sizeMask]? = some b := ⟨_, List.getElem?_eq_getElem hlt⟩
      obtain ⟨hd, hh, cb⟩ := te.chn _ _ hb
      simp only [addrs, List.map_cons, List.cons_append, List.nodup_cons, List.mem_append, not_or] at nd
      obtain ⟨⟨ha1, ha2⟩, nd'⟩ := nd
      let m1 := m.set e.2.1 ⟨e.1, e.2.2, hd⟩
      let u1' : HashTable K (Nat × V) := { u1 with tables := u1.tables.set (hash e.1 &&& u1.sizeMask) (e :: b), used := u1.used + 1 }
      let t1' : CTable := { t1 with heads := t1.heads.set (hash e.1 &&& u1.sizeMask) (some e.2.1), used := u1.used + 1 }
      have c' : Chain m1 n es := c.frame ha1
      have te1 : TabEq m1 t1 u1 := te.frame ha2
      have cb' : Chain m1 (some e.2.1) (e :: b) := by
        refine ⟨rfl, hd, ?_, cb.frame (fun hc => ha2 ((addrs_entries hb).subset hc))⟩
        simp only [m1]
        rw [List.getElem?_set_self (List.getElem?_eq_some_iff.mp hm).1]
      have te' : TabEq m1 t1' u1' := te1.put cb' _
      have w' : Dict.TInv hash u1' := by
        refine ⟨by simp [u1', w.len], w.mask, w.pow, ?_, ?_⟩
        · have := (Dict.flatten_set_cons u1.tables _ b e hb).length_eq
          simp only [u1', HashTable.entries] at this ⊢
          have h2 := w.used
          simp only [HashTable.entries] at h2
          rw [this, h2]; simp
        · refine Dict.home_set w.home ?_
          intro x hx
          rcases List.mem_cons.mp hx with rfl | hx
          · rfl
          · exact w.home _ b hb x hx
      have hp : (addrs u1'.entries).Perm (e.2.1 :: addrs u1.entries) := by
        have := (Dict.flatten_set_cons u1.tables _ b e hb).map (fun x : K × Nat × V => x.2.1)
        exact this
      have nd2 : (addrs es ++ addrs u1'.entries).Nodup := by
        refine ((List.Perm.append_left _ hp).nodup_iff).mpr ?_
        refine (List.perm_middle.nodup_iff).mpr ?_
        rw [List.nodup_cons]
        exact ⟨by simp [List.mem_append]; exact ⟨by simpa [addrs] using ha1, by simpa [addrs] using ha2⟩, nd'⟩
      obtain ⟨m', t1'', u1'', hm1, hm2, te2, o⟩ := ih f m1 n { t0 with used := t0.used - 1 } t1' { u0 with used := u0.used - 1 } u1'
        (by simp only [List.length_cons] at hf; omega) c' te' w' nd2
      refine ⟨m', t1'', u1'', ?_, ?_, te2, ?_⟩
      · simp only [moveEntries, Option.bind_eq_bind, hm, Option.bind_some, te.mask, hh]
        have hu : t1.used = u1.used := te.used
        simp only [m1, t1'] at hm1
        rw [hu, ← te.mask]
        rw [← te.mask] at hm1
        rw [hm1]
        simp; omega
      · simp only [Dict.moveEntries, Option.bind_eq_bind, hb, Option.bind_some]
        simp only [u1'] at hm2
        rw [hm2]
        simp; omega
      · refine ⟨by rw [o.1]; simp [m1], fun a ha => ?_⟩
        simp only [addrs, List.map_cons, List.mem_cons, not_or] at ha
        rw [o.2 a ha.2]
        simp only [m1]
        rw [List.getElem?_set_ne (Ne.symm ha.1)]

theorem Rep.perm_nd {p : Cells K V} {d d' : Dict K (Nat × V)} (r : Rep p d) (h : d'.toList.Perm d.toList) : (addrs d'.toList).Nodup :=
  ((h.map (fun x : K × Nat × V => x.2.1)).nodup_iff).mpr r.nd

/-- The rehash step on objects. -/
theorem step_rep {p : Cells K V} {d : Dict K (Nat × V)} (r : Rep p d) (hi : Dict.Inv hash d) :
    ∃ p' d', stepIfRehashing hash p = some p' ∧ Dict.stepIfRehashing hash d = some d' ∧ Rep p' d' ∧ Dict.Same hash d d' ∧
      (p.iterators ≠ 0 → p' = p) := by
  obtain ⟨d', hs, same⟩ := Dict.step_same d hi
  by_cases hreh : d.isRehashing = true
  swap
  · have hd : d' = d := same.stab (by simpa using hreh)
    subst hd
    exact ⟨p, d', by simp [stepIfRehashing, r.reh, hreh], hs, r, same, fun _ => rfl⟩
  by_cases hit : d.iterators = 0
  swap
  · have hd : d' = d := same.froz hit
    subst hd
    refine ⟨p, d', by simp [stepIfRehashing, rehashStep, r.its, hit], hs, r, same, fun _ => rfl⟩
  have key : ∃ p', stepIfRehashing hash p = some p' ∧ Rep p' d' := by
    cases hi with
    | empty h0 h1 hr => simp [Dict.isRehashing, hr] at hreh
    | stable t0 h0 h1 hr w0 nd => simp [Dict.isRehashing, hr] at hreh
    | rehashing u0 u1 ri h0 h1 hr hle w0 w1 hsz hemp nd =>
      have rt0 := r.t0; rw [h0] at rt0
      obtain ⟨t0, hp0, te0⟩ := rt0.some_right
      have rt1 := r.t1; rw [h1] at rt1
      obtain ⟨t1, hp1, te1⟩ := rt1.some_right
      have hpr : p.isRehashing = true := by rw [r.reh, hreh]
      have hpi : p.iterators = 0 := by rw [r.its, hit]
      simp only [Dict.stepIfRehashing, hreh, if_true, Dict.rehashStep, hit, rehashStepCount, Dict.rehash, h0, Option.bind_eq_bind,
        Option.bind_some] at hs
      simp only [stepIfRehashing, hpr, if_true, rehashStep, hpi, rehashStepCount, rehash, hp0, Option.bind_eq_bind, Option.bind_some]
      by_cases hu : u0.used = 0
      · rw [if_pos hu] at hs
        rw [if_pos (by rw [te0.used, hu])]
        cases hs
        refine ⟨_, rfl, ⟨by simpa [hp1, h1, Tab] using te1, trivial, rfl, rfl, r.perm_nd same.perm⟩⟩
      · rw [if_neg hu] at hs
        rw [if_neg (by rw [te0.used]; exact hu)]
        have hri : ¬ d.rehashIndex < 0 := by rw [hr]; omega
        rw [if_neg hri] at hs
        rw [if_neg (by rw [r.ri]; exact hri)]
        rw [skipEmpty_eq te0, r.ri]
        cases hsk : Dict.skipEmpty u0.tables d.rehashIndex.toNat with
        | none => simp [hsk] at hs
        | some i =>
          simp only [hsk, Option.bind_some] at hs ⊢
          cases hb : u0.tables[i]? with
          | none => simp [hb] at hs
          | some b =>
            obtain ⟨hd, hh, c⟩ := te0.chn i b hb
            simp only [hb, hh, h1, hp1, Option.bind_some] at hs ⊢
            have hnd : (addrs u0.entries ++ addrs u1.entries).Nodup := by
              have := r.nd
              simpa only [Dict.toList, h0, h1, Option.map_some, Option.getD_some, addrs_append] using this
            have hsub := addrs_entries hb
            have hndb : (addrs b ++ addrs u1.entries).Nodup := (hsub.append (.refl _)).nodup hnd
            obtain ⟨m', t1', u1', hm1, hm2, te2, o⟩ := move_tab (hash := hash) b p.mem.length p.mem hd t0 t1 u0 u1
              (c.len (hsub.nodup (List.nodup_append.mp hnd).1)) c te1 w1 hndb
            rw [hm2] at hs
            simp only [Option.bind_some] at hs
            rw [hm1]
            cases hs
            refine ⟨_, rfl, ⟨?_, te2, rfl, ?_, r.perm_nd same.perm⟩⟩
            · simp only [Tab]
              refine ⟨te0.size, te0.mask, by rw [te0.used], by simp [te0.len], fun j b' hb' => ?_⟩
              simp only [List.getElem?_set] at hb' ⊢
              by_cases hij : i = j
              · subst hij
                have hlt := (List.getElem?_eq_some_iff.mp hb).1
                simp only [if_true, hlt] at hb'
                cases hb'
                exact ⟨none, by simp [te0.len, hlt], rfl⟩
              · simp only [if_neg hij] at hb' ⊢
                obtain ⟨x, hx, cx⟩ := te0.chn j b' hb'
                refine ⟨x, hx, cx.off o ?_⟩
                intro a ha hc
                exact disj_buckets (List.nodup_append.mp hnd).1 hb hb' hij a hc ha
            · rfl
  obtain ⟨p', h1, h2⟩ := key
  exact ⟨p', d', h1, hs, h2, same, fun h => absurd (by rw [r.its]; exact hit) h⟩

/-! ### Find and Get -/

theorem find_rep {p : Cells K V} {d : Dict K (Nat × V)} (r : Rep p d) (hi : Dict.Inv hash d) (k : K) :
    ∃ p' d', find hash p k = some ((d.toList.find? (fun e => k == e.1)).map (fun e => e.2.1), p') ∧ Rep p' d' ∧ Dict.Same hash d d' ∧
      (p.iterators ≠ 0 → p' = p) := by
  unfold find
  by_cases h0 : d.ht0.isNone
  · rw [if_pos (by rw [r.t0.isNone]; exact h0)]
    have hl : d.toList = [] ∧ d.isRehashing = false := by
      cases hi with
      | empty h0 h1 hr => simp [Dict.toList, h0, h1, Dict.isRehashing, hr]
      | stable t0 h0' => simp [h0'] at h0
      | rehashing t0 t1 r h0' => simp [h0'] at h0
    refine ⟨p, d, by simp [hl.1], r, ⟨hi, .refl _, rfl, rfl, fun _ => rfl, ?_, fun _ => rfl⟩, fun _ => rfl⟩
    intro _ hr; rw [hl.2] at hr; cases hr
  · rw [if_neg (by rw [r.t0.isNone]; exact h0)]
    obtain ⟨p', d', hs, hsd, r', same, froz⟩ := step_rep r hi
    refine ⟨p', d', ?_, r', same, froz⟩
    rw [← Dict.find?_key_perm hi.nodup same.perm]
    simp only [hs, Option.bind_eq_bind, Option.bind_some]
    have hi' := same.inv
    have hsome : d'.ht0.isSome := by rw [same.init]; cases hd : d.ht0 <;> simp_all
    cases hi' with
    | empty h0' => simp [h0'] at hsome
    | stable u0 h0' h1' hr w0 nd =>
      have rt0 := r'.t0; rw [h0'] at rt0
      obtain ⟨t0, hp0, te0⟩ := rt0.some_right
      obtain ⟨b, hb⟩ := w0.bucketOf k
      have hbf := Dict.bucket_find? w0 (Dict.nodup_left same.inv h0') hb
      have hl : d'.toList = u0.entries := by simp [Dict.toList, h0', h1']
      have hre : p'.isRehashing = false := by rw [r'.reh]; simp [Dict.isRehashing, hr]
      simp only [hp0, Option.bind_some, seekIn_tab te0 (r'.nd0 h0') k hb, hbf, hl]
      cases hc : u0.entries.find? (fun e => k == e.1) with
      | some e => rfl
      | none => simp [hre]
    | rehashing u0 u1 ri h0' h1' hr hle w0 w1 hsz hemp nd =>
      have rt0 := r'.t0; rw [h0'] at rt0
      obtain ⟨t0, hp0, te0⟩ := rt0.some_right
      have rt1 := r'.t1; rw [h1'] at rt1
      obtain ⟨t1, hp1, te1⟩ := rt1.some_right
      obtain ⟨b0, hb0⟩ := w0.bucketOf k
      obtain ⟨b1, hb1⟩ := w1.bucketOf k
      have hbf0 := Dict.bucket_find? w0 (Dict.nodup_left same.inv h0') hb0
      have hbf1 := Dict.bucket_find? w1 (Dict.nodup_right same.inv h1') hb1
      have hl : d'.toList = u0.entries ++ u1.entries := by simp [Dict.toList, h0', h1']
      have hre : p'.isRehashing = true := by rw [r'.reh]; simp [Dict.isRehashing, hr]
      simp only [hp0, Option.bind_some, seekIn_tab te0 (r'.nd0 h0') k hb0, hbf0, hl, Dict.find?_append_key]
      cases hc : u0.entries.find? (fun e => k == e.1) with
      | some e => rfl
      | none => simp [hre, hp1, seekIn_tab te1 (r'.nd1 h1') k hb1, hbf1]

/-- The map of a dict with addresses, without the addresses. -/
def val (d : Dict K (Nat × V)) (k : K) : Option V := (d.abs k).map (fun x => x.2)

theorem get_rep {p : Cells K V} {d : Dict K (Nat × V)} (r : Rep p d) (hi : Dict.Inv hash d) (k : K) :
    ∃ p' d', get hash p k = some (val d k, p') ∧ Rep p' d' ∧ Dict.Same hash d d' ∧ (p.iterators ≠ 0 → p' = p) := by
  obtain ⟨p', d', h1, r', same, froz⟩ := find_rep r hi k
  refine ⟨p', d', ?_, r', same, froz⟩
  simp only [get, h1, Option.bind_eq_bind, Option.bind_some, val, Dict.abs]
  cases hc : d.toList.find? (fun e => k == e.1) with
  | none => rfl
  | some e =>
    have he : e ∈ d'.toList := same.perm.mem_iff.mpr (List.mem_of_find?_eq_some hc)
    obtain ⟨n, hn⟩ := r'.cell he
    simp [hn]

/-! ### Where the entries are -/

/-- The entry is in bucket `i` of table `n`. -/
def At (d : Dict K (Nat × V)) (n i : Nat) (e : K × Nat × V) : Prop := ∃ u b, Dict.tableNo d n = some u ∧ u.tables[i]? = some b ∧ e ∈ b

theorem At.mem {d : Dict K (Nat × V)} {n i : Nat} {e} (h : At d n i e) : e ∈ d.toList := by
  obtain ⟨u, b, hu, hb, he⟩ := h
  have : e ∈ u.entries := List.mem_flatten.mpr ⟨b, List.mem_of_getElem? hb, he⟩
  match n with
  | 0 => simp only [Dict.tableNo] at hu; simp [Dict.toList, hu, this]
  | 1 => simp only [Dict.tableNo] at hu; simp [Dict.toList, hu, this]
  | _ + 2 => simp [Dict.tableNo] at hu

theorem mem_at {d : Dict K (Nat × V)} {e} (h : e ∈ d.toList) : ∃ n i, At d n i e := by
  simp only [Dict.toList, List.mem_append] at h
  rcases h with h | h
  · cases hu : d.ht0 with
    | none => simp [hu] at h
    | some u =>
      simp only [hu, Option.map_some, Option.getD_some, HashTable.entries, List.mem_flatten] at h
      obtain ⟨b, hb, he⟩ := h
      obtain ⟨i, hi⟩ := List.mem_iff_getElem?.mp hb
      exact ⟨0, i, u, b, hu, hi, he⟩
  · cases hu : d.ht1 with
    | none => simp [hu] at h
    | some u =>
      simp only [hu, Option.map_some, Option.getD_some, HashTable.entries, List.mem_flatten] at h
      obtain ⟨b, hb, he⟩ := h
      obtain ⟨i, hi⟩ := List.mem_iff_getElem?.mp hb
      exact ⟨1, i, u, b, hu, hi, he⟩

/-- What a call does to the memory that does not change a value: nothing, or one object with the key is made or unlinked. -/
inductive Touch (k : K) (m : List (Cell K V)) : List (Cell K V) → Prop
  | same : Touch k m m
  | grow (c : Cell K V) (h : c.key = k) : Touch k m (m ++ [c])
  | unlink (q a : Nat) (cq c : Cell K V) (hq : m[q]? = some cq) (hn : cq.next = some a) (ha : m[a]? = some c) (hk : c.key = k) :
      Touch k m (m.set q { cq with next := c.next })

/-- What a call does to the places of the entries while the rehash is frozen: entries with other keys stay where they are. -/
structure Stays (k : K) (d d' : Dict K (Nat × V)) : Prop where
  at_ : ∀ n i e, e.1 ≠ k → (At d' n i e ↔ At d n i e)
  reh : d.isRehashing = true → d'.isRehashing = true

theorem Stays.refl (k : K) (d : Dict K (Nat × V)) : Stays k d d := ⟨fun _ _ _ _ => Iff.rfl, id⟩

/-- Every entry stays in its place, with its key; only values change. -/
structure Places (d d' : Dict K (Nat × V)) : Prop where
  fwd : ∀ n i e, At d n i e → ∃ e', At d' n i e' ∧ e'.1 = e.1 ∧ e'.2.1 = e.2.1
  bwd : ∀ n i e', At d' n i e' → ∃ e, At d n i e ∧ e'.1 = e.1 ∧ e'.2.1 = e.2.1
  reh : d.isRehashing = true → d'.isRehashing = true

/-- The value of an object with the key is changed. -/
def Write (k : K) (v : V) (m m' : List (Cell K V)) : Prop := ∃ a c, m[a]? = some c ∧ c.key = k ∧ m' = m.set a { c with val := v }

theorem Stays.trans {k : K} {d d' d'' : Dict K (Nat × V)} (h : Stays k d d') (g : Stays k d' d'') : Stays k d d'' :=
  ⟨fun n i e hk => (g.at_ n i e hk).trans (h.at_ n i e hk), fun hr => g.reh (h.reh hr)⟩

theorem emptyTab (m : List (Cell K V)) (n : Nat) : TabEq (V := V) (K := K) m
    { heads := List.replicate n none, size := n, sizeMask := n - 1, used := 0 }
    { tables := List.replicate n [], size := n, sizeMask := n - 1, used := 0 } := by
  refine ⟨rfl, rfl, rfl, by simp, fun i b hb => ?_⟩
  simp only [List.getElem?_replicate] at hb ⊢
  by_cases h : i < n
  · simp only [h, if_true] at hb ⊢
    cases hb
    exact ⟨none, rfl, rfl⟩
  · simp [h] at hb

theorem expand_rep {p : Cells K V} {d : Dict K (Nat × V)} (r : Rep p d) (hi : Dict.Inv hash d) :
    ∃ p' d', expandIfNeeded p = (true, p') ∧ Dict.expandIfNeeded d = (true, d') ∧ Rep p' d' ∧ p'.mem = p.mem ∧ p'.iterators = p.iterators ∧
      (∀ n i e, At d' n i e ↔ At d n i e) ∧ (d.isRehashing = true → d'.isRehashing = true) := by
  obtain ⟨d', he, inv', hl, _⟩ := Dict.expandIfNeeded_spec d hi
  have hnd : (addrs d'.toList).Nodup := by rw [hl]; exact r.nd
  cases hi with
  | empty h0 h1 hr =>
    have hp0 : p.ht0 = none := by
      have := r.t0; rw [h0] at this
      cases hp : p.ht0 with
      | none => rfl
      | some t => rw [hp] at this; exact absurd this (by simp [Tab])
    have hpr : p.isRehashing = false := by rw [r.reh]; simp [Dict.isRehashing, hr]
    have hdr : d.isRehashing = false := by simp [Dict.isRehashing, hr]
    have hp : expandIfNeeded p = (true, { p with ht0 := some { heads := List.replicate 4 none, size := 4, sizeMask := 4 - 1, used := 0 } }) := by
      simp [expandIfNeeded, expand, hpr, hp0, nextPow2, tableInitialSize]
    have hd : Dict.expandIfNeeded d = (true, { d with ht0 := some { tables := List.replicate 4 [], size := 4, sizeMask := 4 - 1, used := 0 } }) := by
      simp [Dict.expandIfNeeded, Dict.expand, hdr, h0, nextPow2, tableInitialSize]
    rw [hd] at he
    cases he
    refine ⟨_, _, hp, hd, ⟨emptyTab _ 4, r.t1, r.ri, r.its, hnd⟩, rfl, rfl, ?_, id⟩
    intro n i e
    constructor
    · intro h
      have := h.mem; rw [hl] at this; simp [Dict.toList, h0, h1] at this
    · intro h
      have := h.mem; simp [Dict.toList, h0, h1] at this
  | stable u0 h0 h1 hr w0 nd =>
    have rt0 := r.t0; rw [h0] at rt0
    obtain ⟨t0, hp0, te0⟩ := rt0.some_right
    have hpr : p.isRehashing = false := by rw [r.reh]; simp [Dict.isRehashing, hr]
    have hdr : d.isRehashing = false := by simp [Dict.isRehashing, hr]
    by_cases hc : u0.used / (u0.size : Int) > forceResizeRatio
    · by_cases hsm : u0.size ≥ nextPow2 (u0.size * resizeRatio)
      · have : Dict.expandIfNeeded d = (false, d) := by
          simp only [Dict.expandIfNeeded, hdr, Bool.false_eq_true, if_false, h0, if_pos hc, Dict.expand, Bool.false_or]
          rw [if_pos (by simpa using hsm)]
        rw [this] at he; simp at he
      · have hd : Dict.expandIfNeeded d = (true, { d with ht1 := some { tables := List.replicate (nextPow2 (u0.size * resizeRatio)) [], size := nextPow2 (u0.size * resizeRatio), sizeMask := nextPow2 (u0.size * resizeRatio) - 1, used := 0 }, rehashIndex := 0 }) := by
          simp only [Dict.expandIfNeeded, hdr, Bool.false_eq_true, if_false, h0, if_pos hc, Dict.expand, Bool.false_or, Option.isNone_some]
          rw [if_neg (by simpa using hsm)]
        have hp : expandIfNeeded p = (true, { p with ht1 := some { heads := List.replicate (nextPow2 (u0.size * resizeRatio)) none, size := nextPow2 (u0.size * resizeRatio), sizeMask := nextPow2 (u0.size * resizeRatio) - 1, used := 0 }, rehashIndex := 0 }) := by
          simp only [expandIfNeeded, hpr, Bool.false_eq_true, if_false, hp0, te0.used, te0.size, if_pos hc, expand, Bool.false_or, Option.isNone_some]
          rw [if_neg (by simpa using hsm)]
        rw [hd] at he
        cases he
        refine ⟨_, _, hp, hd, ⟨r.t0, emptyTab _ _, rfl, r.its, hnd⟩, rfl, rfl, ?_, fun _ => rfl⟩
        intro n i e
        match n with
        | 0 => exact Iff.rfl
        | 1 =>
          constructor
          · rintro ⟨u, b, hu, hb, he⟩
            simp only [Dict.tableNo, Option.some.injEq] at hu
            subst hu
            have := List.mem_of_getElem? hb
            simp at this
            rw [this.2] at he; simp at he
          · rintro ⟨u, b, hu, hb, he⟩
            simp [Dict.tableNo, h1] at hu
        | _ + 2 => simp [At, Dict.tableNo]
    · have hd : Dict.expandIfNeeded d = (true, d) := by
        simp only [Dict.expandIfNeeded, hdr, Bool.false_eq_true, if_false, h0, if_neg hc]
      have hp : expandIfNeeded p = (true, p) := by
        simp only [expandIfNeeded, hpr, Bool.false_eq_true, if_false, hp0, te0.used, te0.size, if_neg hc]
      exact ⟨p, d, hp, hd, r, rfl, rfl, fun _ _ _ => Iff.rfl, id⟩
  | rehashing u0 u1 ri h0 h1 hr hle w0 w1 hsz hemp nd =>
    have hdr : d.isRehashing = true := by simp [Dict.isRehashing, hr]
    have hpr : p.isRehashing = true := by rw [r.reh]; exact hdr
    exact ⟨p, d, by simp [expandIfNeeded, hpr], by simp [Dict.expandIfNeeded, hdr], r, rfl, rfl, fun _ _ _ => Iff.rfl, id⟩

/-! ### Inserting -/

theorem TabEq.insert {m : List (Cell K V)} {t u} (te : TabEq m t u) {i : Nat} {b} (hb : u.tables[i]? = some b) (k : K) (v : V) :
    ∃ h, insertAt m t i k v = some (m ++ [⟨k, v, h⟩], { t with heads := t.heads.set i (some m.length), used := t.used + 1 }) ∧
      TabEq (m ++ [⟨k, v, h⟩]) { t with heads := t.heads.set i (some m.length), used := t.used + 1 }
        { u with tables := u.tables.set i ((k, m.length, v) :: b), used := u.used + 1 } := by
  obtain ⟨h, hh, c⟩ := te.chn i b hb
  refine ⟨h, by simp [insertAt, hh], ?_⟩
  have := (te.grow [⟨k, v, h⟩]).put (i := i) (hd := some m.length) (b := (k, m.length, v) :: b) ⟨rfl, h, by simp, c.append _⟩ (u.used + 1)
  rw [te.used]
  exact this

theorem at_set0 {d : Dict K (Nat × V)} {u : HashTable K (Nat × V)} (h0 : d.ht0 = some u) {k : K} {j : Nat} {b} (hb : u.tables[j]? = some b)
    {b' : List (K × Nat × V)} (hbb : ∀ e, e.1 ≠ k → (e ∈ b' ↔ e ∈ b)) (n : Int) :
    Stays k d { d with ht0 := some { u with tables := u.tables.set j b', used := n } } := by
  refine ⟨?_, id⟩
  intro t i e hk
  match t with
  | 0 =>
    simp only [At, Dict.tableNo, h0, Option.some.injEq]
    constructor
    · rintro ⟨u', c, rfl, hc, he⟩
      simp only [List.getElem?_set] at hc
      by_cases hij : j = i
      · subst hij
        simp only [if_true, (List.getElem?_eq_some_iff.mp hb).1] at hc
        cases hc
        exact ⟨u, b, rfl, hb, (hbb e hk).mp he⟩
      · rw [if_neg hij] at hc
        exact ⟨u, c, rfl, hc, he⟩
    · rintro ⟨u', c, rfl, hc, he⟩
      refine ⟨_, ?_, rfl, ?_⟩
      · exact if j = i then b' else c
      · simp only [List.getElem?_set]
        by_cases hij : j = i
        · subst hij
          rw [hb] at hc; cases hc
          simp [(List.getElem?_eq_some_iff.mp hb).1, (hbb e hk).mpr he]
        · simp only [if_neg hij]
          exact ⟨hc, he⟩
  | 1 => exact Iff.rfl
  | _ + 2 => simp [At, Dict.tableNo]

theorem at_set1 {d : Dict K (Nat × V)} {u : HashTable K (Nat × V)} (h0 : d.ht1 = some u) {k : K} {j : Nat} {b} (hb : u.tables[j]? = some b)
    {b' : List (K × Nat × V)} (hbb : ∀ e, e.1 ≠ k → (e ∈ b' ↔ e ∈ b)) (n : Int) :
    Stays k d { d with ht1 := some { u with tables := u.tables.set j b', used := n } } := by
  refine ⟨?_, id⟩
  intro t i e hk
  match t with
  | 1 =>
    simp only [At, Dict.tableNo, h0, Option.some.injEq]
    constructor
    · rintro ⟨u', c, rfl, hc, he⟩
      simp only [List.getElem?_set] at hc
      by_cases hij : j = i
      · subst hij
        simp only [if_true, (List.getElem?_eq_some_iff.mp hb).1] at hc
        cases hc
        exact ⟨u, b, rfl, hb, (hbb e hk).mp he⟩
      · rw [if_neg hij] at hc
        exact ⟨u, c, rfl, hc, he⟩
    · rintro ⟨u', c, rfl, hc, he⟩
      refine ⟨_, ?_, rfl, ?_⟩
      · exact if j = i then b' else c
      · simp only [List.getElem?_set]
        by_cases hij : j = i
        · subst hij
          rw [hb] at hc; cases hc
          simp [(List.getElem?_eq_some_iff.mp hb).1, (hbb e hk).mpr he]
        · simp only [if_neg hij]
          exact ⟨hc, he⟩
  | 0 => exact Iff.rfl
  | _ + 2 => simp [At, Dict.tableNo]

/-- An absent key: a new object is put in front of its bucket. -/
theorem set_new {p : Cells K V} {d : Dict K (Nat × V)} (r : Rep p d) (hi : Dict.Inv hash d) (k : K) (v : V)
    (hk : k ∉ d.toList.map Prod.fst) :
    ∃ p' d' a, set hash p k v = some (true, p') ∧ Rep p' d' ∧ Dict.Inv hash d' ∧ p'.iterators = p.iterators ∧
      d'.toList.Perm ((k, a, v) :: d.toList) ∧ d'.ht0.isSome = true ∧
      (p.iterators ≠ 0 → Touch k p.mem p'.mem ∧ Stays k d d') := by
  obtain ⟨p1, d1, hs, hsd, r1, same, froz⟩ := step_rep r hi
  obtain ⟨p2, d2, he, hed, r2, hm2, hi2, hat, hrh⟩ := expand_rep r1 same.inv
  have hat2 : ∀ k, Stays k d1 d2 := fun k => ⟨fun n i e _ => hat n i e, hrh⟩
  obtain ⟨d2', hed', inv2, hl2, hsome2, _⟩ := Dict.expandIfNeeded_spec d1 same.inv
  rw [hed] at hed'; cases hed'
  obtain ⟨d0, hset, inv0, its0, hs0, hp0, _⟩ := Dict.set_spec d hi k (p2.mem.length, v)
  rw [decide_eq_true hk] at hset
  have hp0 := hp0 hk
  have hk2 : k ∉ d2.toList.map Prod.fst := by rw [hl2, (same.perm.map Prod.fst).mem_iff]; exact hk
  have hnd0 : (addrs d0.toList).Nodup := by
    refine ((hp0.map (fun x : K × Nat × V => x.2.1)).nodup_iff).mpr ?_
    simp only [List.map_cons, List.nodup_cons]
    refine ⟨?_, r.nd⟩
    intro hc
    have hc2 : p2.mem.length ∈ addrs d2.toList := by
      rw [hl2]; exact ((same.perm.map (fun x : K × Nat × V => x.2.1)).mem_iff).mpr hc
    exact absurd (r2.lt _ hc2) (by omega)
  have hits : p2.iterators = p.iterators := by rw [hi2, r1.its, same.iters, r.its]
  have hstays : p.iterators ≠ 0 → p2.mem = p.mem ∧ Stays k d d2 := by
    intro hn
    rw [hm2, froz hn]
    have : d1 = d := same.froz (by rw [← r.its]; exact hn)
    subst this
    exact ⟨rfl, hat2 k⟩
  have hks : keyIndex hash p1 k = some (some (hash k &&& (if p2.isRehashing then (p2.ht1.map (·.sizeMask)).getD 0 else (p2.ht0.map (·.sizeMask)).getD 0)), p2) ∧
      ∃ p', (if p2.isRehashing then do
          let t1 ← p2.ht1
          let (m, t1) ← insertAt p2.mem t1 (hash k &&& (if p2.isRehashing then (p2.ht1.map (·.sizeMask)).getD 0 else (p2.ht0.map (·.sizeMask)).getD 0)) k v
          some (true, { p2 with mem := m, ht1 := some t1 })
        else do
          let t0 ← p2.ht0
          let (m, t0) ← insertAt p2.mem t0 (hash k &&& (if p2.isRehashing then (p2.ht1.map (·.sizeMask)).getD 0 else (p2.ht0.map (·.sizeMask)).getD 0)) k v
          some (true, { p2 with mem := m, ht0 := some t0 })) = some (true, p') ∧ Rep p' d0 ∧ (∃ h, p'.mem = p2.mem ++ [⟨k, v, h⟩]) ∧
        p'.iterators = p2.iterators ∧ Stays k d2 d0 := by
    cases inv2 with
    | empty h0 => simp [h0] at hsome2
    | stable u0 h0 h1 hr w0 nd =>
      have hl : d2.toList = u0.entries := by simp [Dict.toList, h0, h1]
      have rt0 := r2.t0; rw [h0] at rt0
      obtain ⟨t0, hp0', te0⟩ := rt0.some_right
      obtain ⟨b, hb⟩ := w0.bucketOf k
      have hbf := Dict.bucket_find? w0 (Dict.nodup_left (Dict.Inv.stable u0 h0 h1 hr w0 nd) h0) hb
      rw [← hl, Dict.find?_key_none.mpr hk2] at hbf
      have hany := Dict.mem_bucket_any w0 k
      rw [hb, Option.getD_some, ← hl] at hany
      have hre : p2.isRehashing = false := by rw [r2.reh]; simp [Dict.isRehashing, hr]
      have hred : d2.isRehashing = false := by simp [Dict.isRehashing, hr]
      have hsk := seekIn_tab (p := p2) te0 (r2.nd0 h0) k hb
      rw [hbf] at hsk
      obtain ⟨h, hins, te'⟩ := te0.insert hb k v
      have hkd : Dict.keyIndex hash d1 k = some (some (hash k &&& u0.sizeMask), d2) := by
        simp [Dict.keyIndex, hed, h0, hb, hany, hk2, hred]
      have hd0 : d0 = { d2 with ht0 := some { u0 with tables := u0.tables.set (hash k &&& u0.sizeMask) ((k, p2.mem.length, v) :: b), used := u0.used + 1 } } := by
        have hb' : u0.tables[hash k &&& u0.sizeMask]? = some b := hb
        simp [Dict.set, hsd, hkd, hred, h0, Dict.insertAt, hb'] at hset
        exact hset.symm
      refine ⟨?_, { p2 with mem := p2.mem ++ [⟨k, v, h⟩], ht0 := some { t0 with heads := t0.heads.set (hash k &&& u0.sizeMask) (some p2.mem.length), used := t0.used + 1 } }, ?_, ?_, ⟨h, rfl⟩, rfl, ?_⟩
      · simp [keyIndex, he, hp0', hsk, hre]
      · simp [hre, hp0', te0.mask, hins]
      · rw [hd0]
        rw [hd0] at hnd0
        exact ⟨te', by simpa using r2.t1.grow _, r2.ri, r2.its, hnd0⟩
      · rw [hd0]
        exact at_set0 h0 hb (by intro e hne; simp [List.mem_cons]; intro h; rw [h] at hne; exact absurd rfl hne) _
    | rehashing u0 u1 ri h0 h1 hr hle w0 w1 hsz hemp nd =>
      have hl : d2.toList = u0.entries ++ u1.entries := by simp [Dict.toList, h0, h1]
      have rt0 := r2.t0; rw [h0] at rt0
      obtain ⟨t0, hp0', te0⟩ := rt0.some_right
      have rt1 := r2.t1; rw [h1] at rt1
      obtain ⟨t1, hp1', te1⟩ := rt1.some_right
      obtain ⟨b0, hb0⟩ := w0.bucketOf k
      obtain ⟨b1, hb1⟩ := w1.bucketOf k
      have hk0 : k ∉ u0.entries.map Prod.fst ∧ k ∉ u1.entries.map Prod.fst := by
        rw [hl, List.map_append, List.mem_append, not_or] at hk2; exact hk2
      have inv2 := Dict.Inv.rehashing u0 u1 ri h0 h1 hr hle w0 w1 hsz hemp nd
      have hbf0 := Dict.bucket_find? w0 (Dict.nodup_left inv2 h0) hb0
      have hbf1 := Dict.bucket_find? w1 (Dict.nodup_right inv2 h1) hb1
      rw [Dict.find?_key_none.mpr hk0.1] at hbf0
      rw [Dict.find?_key_none.mpr hk0.2] at hbf1
      have hany0 := Dict.mem_bucket_any w0 k
      rw [hb0, Option.getD_some] at hany0
      have hany1 := Dict.mem_bucket_any w1 k
      rw [hb1, Option.getD_some] at hany1
      have hred : d2.isRehashing = true := by simp [Dict.isRehashing, hr]
      have hre : p2.isRehashing = true := by rw [r2.reh, hred]
      have hsk0 := seekIn_tab (p := p2) te0 (r2.nd0 h0) k hb0
      have hsk1 := seekIn_tab (p := p2) te1 (r2.nd1 h1) k hb1
      rw [hbf0] at hsk0
      rw [hbf1] at hsk1
      obtain ⟨h, hins, te'⟩ := te1.insert hb1 k v
      have hkd : Dict.keyIndex hash d1 k = some (some (hash k &&& u1.sizeMask), d2) := by
        simp [Dict.keyIndex, hed, h0, hb0, hany0, hk0.1, h1, hb1, hany1, hk0.2, hred]
      have hd0 : d0 = { d2 with ht1 := some { u1 with tables := u1.tables.set (hash k &&& u1.sizeMask) ((k, p2.mem.length, v) :: b1), used := u1.used + 1 } } := by
        have hb' : u1.tables[hash k &&& u1.sizeMask]? = some b1 := hb1
        simp [Dict.set, hsd, hkd, hred, h1, Dict.insertAt, hb'] at hset
        exact hset.symm
      refine ⟨?_, { p2 with mem := p2.mem ++ [⟨k, v, h⟩], ht1 := some { t1 with heads := t1.heads.set (hash k &&& u1.sizeMask) (some p2.mem.length), used := t1.used + 1 } }, ?_, ?_, ⟨h, rfl⟩, rfl, ?_⟩
      · simp [keyIndex, he, hp0', hsk0, hre, hp1', hsk1]
      · simp [hre, hp1', te1.mask, hins]
      · rw [hd0]
        rw [hd0] at hnd0
        exact ⟨by simpa using r2.t0.grow _, te', r2.ri, r2.its, hnd0⟩
      · rw [hd0]
        exact at_set1 h1 hb1 (by intro e hne; simp [List.mem_cons]; intro h; rw [h] at hne; exact absurd rfl hne) _
  obtain ⟨hki, p', hp', r', ⟨h, hmem⟩, hit', hst⟩ := hks
  refine ⟨p', d0, p2.mem.length, ?_, r', inv0, by rw [hit', hits], hp0, hs0, ?_⟩
  · simp only [set, hs, Option.bind_eq_bind, Option.bind_some, hki]
    exact hp'
  · intro hn
    obtain ⟨e1, e2⟩ := hstays hn
    refine ⟨by rw [hmem, e1]; exact .grow _ rfl, e2.trans hst⟩

/-! ### Overwriting -/

theorem Chain.assign {m : List (Cell K V)} {h : Option Nat} {b} (c : Chain m h b) (nd : (addrs b).Nodup) {k : K} {e}
    (he : b.find? (fun e => k == e.1) = some e) {x : Cell K V} (hx : m[e.2.1]? = some x) (v : V) :
    Chain (m.set e.2.1 { x with val := v }) h (Dict.assignChain k (e.2.1, v) b) := by
  induction b generalizing h with
  | nil => simp at he
  | cons y ys ih =>
    obtain ⟨rfl, n, hm, c⟩ := c
    simp only [addrs, List.map_cons, List.nodup_cons] at nd
    by_cases hk : k = y.1
    · simp only [List.find?_cons, hk, beq_self_eq_true] at he
      cases he
      rw [hm] at hx
      cases hx
      simp only [Dict.assignChain, hk, beq_self_eq_true, if_true]
      exact ⟨rfl, n, by simp [List.getElem?_set_self (List.getElem?_eq_some_iff.mp hm).1], c.frame nd.1⟩
    · have hkb : (k == y.1) = false := by simpa using hk
      simp only [List.find?_cons, hkb] at he
      simp only [Dict.assignChain, hkb, Bool.false_eq_true, if_false]
      have hmem : e.2.1 ∈ addrs ys := List.mem_map_of_mem (List.mem_of_find?_eq_some he)
      refine ⟨rfl, n, ?_, ih c nd.2 he⟩
      rw [List.getElem?_set_ne]
      · exact hm
      · intro hc; rw [hc] at hmem; exact nd.1 hmem

theorem TabEq.assign {m : List (Cell K V)} {t u} (te : TabEq m t u) (nd : (addrs u.entries).Nodup) {k : K} {b} (hb : Dict.bucketOf hash u k = some b)
    {e} (he : b.find? (fun e => k == e.1) = some e) {x : Cell K V} (hx : m[e.2.1]? = some x) (v : V) :
    TabEq (m.set e.2.1 { x with val := v }) t (Dict.assignTable hash u k (e.2.1, v)) := by
  have hb' : u.tables[hash k &&& u.sizeMask]? = some b := hb
  refine ⟨te.size, te.mask, te.used, by simp [Dict.assignTable, te.len], fun i b2 hb2 => ?_⟩
  simp only [Dict.assignTable, List.getElem?_set] at hb2
  by_cases hij : (hash k &&& u.sizeMask) = i
  · subst hij
    have hgd : u.tables.getD (hash k &&& u.sizeMask) [] = b := by rw [List.getD_eq_getElem?_getD, hb']; rfl
    rw [hgd] at hb2
    simp only [if_true, (List.getElem?_eq_some_iff.mp hb').1] at hb2
    cases hb2
    obtain ⟨h, hh, c⟩ := te.chn _ _ hb'
    exact ⟨h, hh, c.assign ((addrs_entries hb').nodup nd) he hx v⟩
  · rw [if_neg hij] at hb2
    obtain ⟨h, hh, c⟩ := te.chn _ _ hb2
    refine ⟨h, hh, c.frame ?_⟩
    exact disj_buckets nd hb' hb2 hij _ (List.mem_map_of_mem (List.mem_of_find?_eq_some he))

theorem assignChain_mem (k : K) (x : Nat × V) (b : List (K × Nat × V)) : ∀ e, e.1 ≠ k → (e ∈ Dict.assignChain k x b ↔ e ∈ b) := by
  induction b with
  | nil => simp [Dict.assignChain]
  | cons y ys ih =>
    intro e hne
    by_cases hk : k = y.1
    · simp only [Dict.assignChain, hk, beq_self_eq_true, if_true, List.mem_cons]
      constructor
      · rintro (h | h)
        · rw [h] at hne; exact absurd hk.symm hne
        · exact .inr h
      · rintro (h | h)
        · rw [h] at hne; exact absurd hk.symm hne
        · exact .inr h
    · have hkb : (k == y.1) = false := by simpa using hk
      simp only [Dict.assignChain, hkb, Bool.false_eq_true, if_false, List.mem_cons, ih e hne]

theorem addrs_repl {l : List (K × Nat × V)} (nd : (l.map Prod.fst).Nodup) {e} (he : e ∈ l) (v : V) :
    addrs (l.map (Dict.repl e.1 (e.2.1, v))) = addrs l := by
  unfold addrs
  rw [List.map_map]
  apply List.map_congr_left
  intro y hy
  simp only [Function.comp, Dict.repl]
  split
  · next hk =>
    have : y = e := by
      exact List.inj_on_of_nodup_map nd hy he hk.symm
    rw [this]
  · rfl

/-- A dict whose entry for `k` is overwritten in place. -/
theorem assign_rep {p : Cells K V} {d : Dict K (Nat × V)} (r : Rep p d) (hi : Dict.Inv hash d) {k : K} {e}
    (he : d.toList.find? (fun e => k == e.1) = some e) {x : Cell K V} (hx : p.mem[e.2.1]? = some x) (v : V) :
    Rep { p with mem := p.mem.set e.2.1 { x with val := v } } (Dict.assign hash d k (e.2.1, v)) ∧ Stays k d (Dict.assign hash d k (e.2.1, v)) := by
  obtain ⟨ia, la, ita, ria, hsa, _⟩ := Dict.assign_spec d hi k (e.2.1, v)
  have hem : e ∈ d.toList := List.mem_of_find?_eq_some he
  have hke : k = e.1 := by have := List.find?_some he; simpa using this
  have hnd : (addrs (Dict.assign hash d k (e.2.1, v)).toList).Nodup := by
    rw [la, hke, addrs_repl hi.nodup hem]; exact r.nd
  have hnd2 := r.nd
  cases hi with
  | empty h0 h1 hr => simp [Dict.toList, h0, h1] at hem
  | stable u0 h0 h1 hr w0 nd =>
    have hl : d.toList = u0.entries := by simp [Dict.toList, h0, h1]
    have rt0 := r.t0; rw [h0] at rt0
    obtain ⟨t0, hp0, te0⟩ := rt0.some_right
    obtain ⟨b, hb⟩ := w0.bucketOf k
    have hbf := Dict.bucket_find? w0 (Dict.nodup_left (.stable u0 h0 h1 hr w0 nd) h0) hb
    rw [← hl, he] at hbf
    have hany : b.any (fun e => k == e.1) = true := by
      rw [List.any_eq_true]
      exact ⟨e, List.mem_of_find?_eq_some hbf, by simpa using hke⟩
    have ha : Dict.assign hash d k (e.2.1, v) = { d with ht0 := some (Dict.assignTable hash u0 k (e.2.1, v)) } := by
      simp [Dict.assign, h0, hb, hany]
    have hb' : u0.tables[hash k &&& u0.sizeMask]? = some b := hb
    have hgd : u0.tables.getD (hash k &&& u0.sizeMask) [] = b := by rw [List.getD_eq_getElem?_getD, hb']; rfl
    rw [ha] at hnd ⊢
    refine ⟨⟨?_, ?_, r.ri, r.its, hnd⟩, ?_⟩
    · simp only [hp0, Tab]
      exact te0.assign (r.nd0 h0) hb hbf hx v
    · have := r.t1
      rw [h1] at this ⊢
      cases hp1 : p.ht1 with
      | none => trivial
      | some t => rw [hp1] at this; exact absurd this (by simp [Tab])
    · have := at_set0 (k := k) h0 hb' (b' := Dict.assignChain k (e.2.1, v) b) (assignChain_mem _ _ _) u0.used
      simp only [Dict.assignTable, hgd]; exact this
  | rehashing u0 u1 ri h0 h1 hr hle w0 w1 hsz hemp nd =>
    have hl : d.toList = u0.entries ++ u1.entries := by simp [Dict.toList, h0, h1]
    have rt0 := r.t0; rw [h0] at rt0
    obtain ⟨t0, hp0, te0⟩ := rt0.some_right
    have rt1 := r.t1; rw [h1] at rt1
    obtain ⟨t1, hp1, te1⟩ := rt1.some_right
    obtain ⟨b0, hb0⟩ := w0.bucketOf k
    obtain ⟨b1, hb1⟩ := w1.bucketOf k
    have inv := Dict.Inv.rehashing u0 u1 ri h0 h1 hr hle w0 w1 hsz hemp nd
    have hbf0 := Dict.bucket_find? w0 (Dict.nodup_left inv h0) hb0
    have hbf1 := Dict.bucket_find? w1 (Dict.nodup_right inv h1) hb1
    rw [hl, addrs_append] at hnd2
    have hdis := (List.nodup_append.mp hnd2).2.2
    rw [hl, Dict.find?_append_key] at he
    cases hf0 : u0.entries.find? (fun e => k == e.1) with
    | some e' =>
      rw [hf0] at he hbf0
      have hee : e' = e := by simpa using he
      subst hee
      have hany : b0.any (fun e => k == e.1) = true := by
        rw [List.any_eq_true]
        exact ⟨e', List.mem_of_find?_eq_some hbf0, by simpa using hke⟩
      have ha : Dict.assign hash d k (e'.2.1, v) = { d with ht0 := some (Dict.assignTable hash u0 k (e'.2.1, v)) } := by
        simp [Dict.assign, h0, hb0, hany]
      have hb' : u0.tables[hash k &&& u0.sizeMask]? = some b0 := hb0
      have hgd : u0.tables.getD (hash k &&& u0.sizeMask) [] = b0 := by rw [List.getD_eq_getElem?_getD, hb']; rfl
      rw [ha] at hnd ⊢
      have hm0 : e'.2.1 ∈ addrs u0.entries := List.mem_map_of_mem (List.mem_of_find?_eq_some hf0)
      refine ⟨⟨?_, ?_, r.ri, r.its, hnd⟩, ?_⟩
      · simp only [hp0, Tab]
        exact te0.assign (r.nd0 h0) hb0 hbf0 hx v
      · simp only [hp1, h1, Tab]
        exact te1.frame (fun hc => hdis _ hm0 _ hc rfl)
      · have := at_set0 (k := k) h0 hb' (b' := Dict.assignChain k (e'.2.1, v) b0) (assignChain_mem _ _ _) u0.used
        simp only [Dict.assignTable, hgd]; exact this
    | none =>
      rw [hf0] at he hbf0
      have he1 : u1.entries.find? (fun e => k == e.1) = some e := by simpa using he
      rw [he1] at hbf1
      have hany : b0.any (fun e => k == e.1) = false := by
        rw [List.find?_eq_none] at hbf0
        rw [List.any_eq_false]
        exact hbf0
      have ha : Dict.assign hash d k (e.2.1, v) = { d with ht1 := some (Dict.assignTable hash u1 k (e.2.1, v)) } := by
        simp [Dict.assign, h0, hb0, hany, h1]
      have hb' : u1.tables[hash k &&& u1.sizeMask]? = some b1 := hb1
      have hgd : u1.tables.getD (hash k &&& u1.sizeMask) [] = b1 := by rw [List.getD_eq_getElem?_getD, hb']; rfl
      rw [ha] at hnd ⊢
      have hm1 : e.2.1 ∈ addrs u1.entries := List.mem_map_of_mem (List.mem_of_find?_eq_some he1)
      refine ⟨⟨?_, ?_, r.ri, r.its, hnd⟩, ?_⟩
      · simp only [hp0, h0, Tab]
        exact te0.frame (fun hc => hdis _ hc _ hm1 rfl)
      · simp only [hp1, Tab]
        exact te1.assign (r.nd1 h1) hb1 hbf1 hx v
      · have := at_set1 (k := k) h1 hb' (b' := Dict.assignChain k (e.2.1, v) b1) (assignChain_mem _ _ _) u1.used
        simp only [Dict.assignTable, hgd]; exact this

/-- Changing the value of an object moves nothing. -/
theorem places_write {p : Cells K V} {d d' : Dict K (Nat × V)} {a : Nat} {k : K} {v0 v : V} {nx : Option Nat} (r : Rep p d)
    (r' : Rep { p with mem := p.mem.set a ⟨k, v, nx⟩ } d') (hc : p.mem[a]? = some ⟨k, v0, nx⟩) : Places d d' := by
  have hlt := (List.getElem?_eq_some_iff.mp hc).1
  have chain : ∀ {h : Option Nat} {b b' : List (K × Nat × V)}, Chain p.mem h b → Chain (p.mem.set a ⟨k, v, nx⟩) h b' →
      List.Forall₂ (fun e e' => e'.1 = e.1 ∧ e'.2.1 = e.2.1) b b' := by
    intro h b b' c c'
    induction b generalizing h b' with
    | nil =>
      cases c
      cases b' with
      | nil => exact .nil
      | cons e es => exact absurd c'.1 (by simp)
    | cons e es ih =>
      obtain ⟨rfl, n, hm, c⟩ := c
      cases b' with
      | nil => cases c'
      | cons e' es' =>
        obtain ⟨he, n', hm', c'⟩ := c'
        have hee : e.2.1 = e'.2.1 := Option.some.inj he
        rw [← hee] at hm'
        have : e'.1 = e.1 ∧ n' = n := by
          by_cases hx : a = e.2.1
          · subst hx
            rw [List.getElem?_set_self hlt] at hm'
            rw [hc] at hm
            have q1 := Option.some.inj hm; have q2 := Option.some.inj hm'
            simp only [Cell.mk.injEq] at q1 q2
            exact ⟨q2.1.symm.trans q1.1, q2.2.2.symm.trans q1.2.2⟩
          · rw [List.getElem?_set_ne hx, hm] at hm'
            have q2 := Option.some.inj hm'
            simp only [Cell.mk.injEq] at q2
            exact ⟨q2.1.symm, q2.2.2.symm⟩
        obtain ⟨h1, rfl⟩ := this
        exact .cons ⟨h1, hee.symm⟩ (ih c c')
  have table : ∀ {t : Option CTable} {u u' : Option (HashTable K (Nat × V))}, Tab p.mem t u → Tab (p.mem.set a ⟨k, v, nx⟩) t u' →
      (∀ w, u = some w → ∃ w', u' = some w' ∧ ∀ (i : Nat) b, w.tables[i]? = some b → ∃ b', w'.tables[i]? = some b' ∧ List.Forall₂ (fun e e' => e'.1 = e.1 ∧ e'.2.1 = e.2.1) b b') ∧
      (∀ w', u' = some w' → ∃ w, u = some w ∧ ∀ (i : Nat) b', w'.tables[i]? = some b' → ∃ b, w.tables[i]? = some b ∧ List.Forall₂ (fun e e' => e'.1 = e.1 ∧ e'.2.1 = e.2.1) b b') := by
    intro t u u' h h'
    cases t with
    | none =>
      cases u with
      | some _ => exact h.elim
      | none =>
        cases u' with
        | some _ => exact h'.elim
        | none => exact ⟨fun w hw => (by cases hw), fun w hw => (by cases hw)⟩
    | some t =>
      cases u with
      | none => exact h.elim
      | some u =>
        cases u' with
        | none => exact h'.elim
        | some u' =>
          have h : TabEq p.mem t u := h
          have h' : TabEq (p.mem.set a ⟨k, v, nx⟩) t u' := h'
          have hlen : u.tables.length = u'.tables.length := by rw [← h.len, h'.len]
          refine ⟨fun w hw => ⟨u', rfl, fun i b hb => ?_⟩, fun w hw => ⟨u, rfl, fun i b' hb' => ?_⟩⟩
          · cases hw
            have hi := (List.getElem?_eq_some_iff.mp hb).1
            obtain ⟨b', hb'⟩ : ∃ b', u'.tables[i]? = some b' := ⟨_, List.getElem?_eq_getElem (by omega)⟩
            obtain ⟨h1, g1, c1⟩ := h.chn i b hb
            obtain ⟨h2, g2, c2⟩ := h'.chn i b' hb'
            rw [g1] at g2; cases g2
            exact ⟨b', hb', chain c1 c2⟩
          · cases hw
            have hi := (List.getElem?_eq_some_iff.mp hb').1
            obtain ⟨b, hb⟩ : ∃ b, u.tables[i]? = some b := ⟨_, List.getElem?_eq_getElem (by omega)⟩
            obtain ⟨h1, g1, c1⟩ := h.chn i b hb
            obtain ⟨h2, g2, c2⟩ := h'.chn i b' hb'
            rw [g1] at g2; cases g2
            exact ⟨b, hb, chain c1 c2⟩
  have left : ∀ {b b' : List (K × Nat × V)}, List.Forall₂ (fun e e' => e'.1 = e.1 ∧ e'.2.1 = e.2.1) b b' →
      (∀ e ∈ b, ∃ e' ∈ b', e'.1 = e.1 ∧ e'.2.1 = e.2.1) ∧ ∀ e' ∈ b', ∃ e ∈ b, e'.1 = e.1 ∧ e'.2.1 = e.2.1 := by
    intro b b' h
    induction h with
    | nil => simp
    | cons hr _ ih =>
      refine ⟨fun x hx => ?_, fun x hx => ?_⟩
      · rcases List.mem_cons.mp hx with rfl | hx
        · exact ⟨_, by simp, hr⟩
        · obtain ⟨y, hy, h⟩ := ih.1 x hx; exact ⟨y, by simp [hy], h⟩
      · rcases List.mem_cons.mp hx with rfl | hx
        · exact ⟨_, by simp, hr⟩
        · obtain ⟨y, hy, h⟩ := ih.2 x hx; exact ⟨y, by simp [hy], h⟩
  obtain ⟨a1, a2⟩ := table r.t0 r'.t0
  obtain ⟨b1, b2⟩ := table r.t1 r'.t1
  refine ⟨?_, ?_, fun h => by rw [← r'.reh]; rw [← r.reh] at h; exact h⟩
  · rintro n i e ⟨u, b, hu, hb, he⟩
    have : ∃ u', Dict.tableNo d' n = some u' ∧ ∃ b', u'.tables[i]? = some b' ∧ List.Forall₂ (fun e e' => e'.1 = e.1 ∧ e'.2.1 = e.2.1) b b' := by
      match n with
      | 0 => obtain ⟨u', h1, h2⟩ := a1 u hu; exact ⟨u', h1, h2 i b hb⟩
      | 1 => obtain ⟨u', h1, h2⟩ := b1 u hu; exact ⟨u', h1, h2 i b hb⟩
      | n + 2 => cases hu
    obtain ⟨u', h1, b', h2, h3⟩ := this
    obtain ⟨e', h4, h5⟩ := (left h3).1 e he
    exact ⟨e', ⟨u', b', h1, h2, h4⟩, h5⟩
  · rintro n i e ⟨u, b, hu, hb, he⟩
    have : ∃ u', Dict.tableNo d n = some u' ∧ ∃ b', u'.tables[i]? = some b' ∧ List.Forall₂ (fun e e' => e'.1 = e.1 ∧ e'.2.1 = e.2.1) b' b := by
      match n with
      | 0 => obtain ⟨u', h1, h2⟩ := a2 u hu; exact ⟨u', h1, h2 i b hb⟩
      | 1 => obtain ⟨u', h1, h2⟩ := b2 u hu; exact ⟨u', h1, h2 i b hb⟩
      | n + 2 => cases hu
    obtain ⟨u', h1, b', h2, h3⟩ := this
    obtain ⟨e', h4, h5⟩ := (left h3).2 e he
    exact ⟨e', ⟨u', b', h1, h2, h4⟩, h5⟩

/-- A present key: its object is overwritten. -/
theorem set_old {p : Cells K V} {d : Dict K (Nat × V)} (r : Rep p d) (hi : Dict.Inv hash d) (k : K) (v : V)
    (hk : k ∈ d.toList.map Prod.fst) :
    ∃ p' d' a, set hash p k v = some (false, p') ∧ Rep p' d' ∧ Dict.Inv hash d' ∧ p'.iterators = p.iterators ∧
      d'.toList.Perm (d.toList.map (Dict.repl k (a, v))) ∧ d'.ht0.isSome = true ∧
      (p.iterators ≠ 0 → Write k v p.mem p'.mem ∧ Places d d') := by
  obtain ⟨p1, d1, hs, hsd, r1, same, froz⟩ := step_rep r hi
  obtain ⟨p2, d2, he, hed, r2, hm2, hi2, hat, hrh⟩ := expand_rep r1 same.inv
  have hat2 : ∀ k, Stays k d1 d2 := fun k => ⟨fun n i e _ => hat n i e, hrh⟩
  obtain ⟨d2', hed', inv2, hl2, hsome2, _⟩ := Dict.expandIfNeeded_spec d1 same.inv
  rw [hed] at hed'; cases hed'
  have hk2 : k ∈ d2.toList.map Prod.fst := by rw [hl2, (same.perm.map Prod.fst).mem_iff]; exact hk
  obtain ⟨p3, d3, hf, r3, same3, froz3⟩ := find_rep r2 inv2 k
  have hits : p2.iterators = p.iterators := by rw [hi2, r1.its, same.iters, r.its]
  obtain ⟨e, hfe⟩ : ∃ e, d2.toList.find? (fun e => k == e.1) = some e := by
    cases hc : d2.toList.find? (fun e => k == e.1) with
    | none => rw [Dict.find?_key_none] at hc; exact absurd hk2 hc
    | some e => exact ⟨e, rfl⟩
  have hke : k = e.1 := by have := List.find?_some hfe; simpa using this
  have hfe3 : d3.toList.find? (fun e => k == e.1) = some e := by
    rw [Dict.find?_key_perm inv2.nodup same3.perm]; exact hfe
  have hem3 : e ∈ d3.toList := List.mem_of_find?_eq_some hfe3
  obtain ⟨n, hc⟩ := r3.cell hem3
  obtain ⟨r4, st4⟩ := assign_rep r3 same3.inv hfe3 hc v
  obtain ⟨ia, la, ita, ria, hsa, _⟩ := Dict.assign_spec d3 same3.inv k (e.2.1, v)
  have hki : keyIndex hash p1 k = some (none, p2) := by
    cases inv2 with
    | empty h0 => simp [h0] at hsome2
    | stable u0 h0 h1 hr w0 nd =>
      have hl : d2.toList = u0.entries := by simp [Dict.toList, h0, h1]
      have rt0 := r2.t0; rw [h0] at rt0
      obtain ⟨t0, hp0', te0⟩ := rt0.some_right
      obtain ⟨b, hb⟩ := w0.bucketOf k
      have hbf := Dict.bucket_find? w0 (Dict.nodup_left (Dict.Inv.stable u0 h0 h1 hr w0 nd) h0) hb
      rw [← hl, hfe] at hbf
      have hsk := seekIn_tab (p := p2) te0 (r2.nd0 h0) k hb
      rw [hbf] at hsk
      simp [keyIndex, he, hp0', hsk]
    | rehashing u0 u1 ri h0 h1 hr hle w0 w1 hsz hemp nd =>
      have hl : d2.toList = u0.entries ++ u1.entries := by simp [Dict.toList, h0, h1]
      have rt0 := r2.t0; rw [h0] at rt0
      obtain ⟨t0, hp0', te0⟩ := rt0.some_right
      have rt1 := r2.t1; rw [h1] at rt1
      obtain ⟨t1, hp1', te1⟩ := rt1.some_right
      obtain ⟨b0, hb0⟩ := w0.bucketOf k
      obtain ⟨b1, hb1⟩ := w1.bucketOf k
      have inv2 := Dict.Inv.rehashing u0 u1 ri h0 h1 hr hle w0 w1 hsz hemp nd
      have hbf0 := Dict.bucket_find? w0 (Dict.nodup_left inv2 h0) hb0
      have hbf1 := Dict.bucket_find? w1 (Dict.nodup_right inv2 h1) hb1
      have hre : p2.isRehashing = true := by rw [r2.reh]; simp [Dict.isRehashing, hr]
      have hsk0 := seekIn_tab (p := p2) te0 (r2.nd0 h0) k hb0
      have hsk1 := seekIn_tab (p := p2) te1 (r2.nd1 h1) k hb1
      rw [hbf0] at hsk0
      rw [hbf1] at hsk1
      rw [hl, Dict.find?_append_key] at hfe
      cases hf0 : u0.entries.find? (fun e => k == e.1) with
      | some e' => rw [hf0] at hsk0; simp [keyIndex, he, hp0', hsk0]
      | none =>
        rw [hf0] at hsk0 hfe
        have he1 : u1.entries.find? (fun e => k == e.1) = some e := by simpa using hfe
        rw [he1] at hsk1
        simp [keyIndex, he, hp0', hsk0, hre, hp1', hsk1]
  refine ⟨{ p3 with mem := p3.mem.set e.2.1 ⟨e.1, v, n⟩ }, Dict.assign hash d3 k (e.2.1, v), e.2.1, ?_, r4, ia, ?_, ?_, ?_, ?_⟩
  · simp only [set, hs, Option.bind_eq_bind, Option.bind_some, hki, hf, hfe, Option.map_some, hc]
  · show p3.iterators = p.iterators
    rw [r3.its, same3.iters, ← r2.its, hits]
  · rw [la]
    exact (same3.perm.trans (by rw [hl2]; exact same.perm)).map _
  · rw [hsa, same3.init, hsome2]
  · intro hn
    have e1 : p1 = p := froz hn
    have e2 : d1 = d := same.froz (by rw [← r.its]; exact hn)
    have e3 : p3 = p2 := froz3 (by rw [hits]; exact hn)
    have e4 : d3 = d2 := same3.froz (by rw [← r2.its, hits]; exact hn)
    refine ⟨?_, ?_⟩
    swap
    · have hp := places_write r3 r4 hc
      rw [e4] at hp ⊢
      rw [e2] at hat hrh
      exact ⟨fun n i e h => hp.fwd n i e ((hat n i e).mpr h), fun n i e' h => by
        obtain ⟨e, h1, h2⟩ := hp.bwd n i e' h
        exact ⟨e, (hat n i e).mp h1, h2⟩, fun h => hp.reh (hrh h)⟩
    have hmm : p3.mem = p.mem := by rw [e3, hm2, e1]
    show Write k v p.mem (p3.mem.set e.2.1 ⟨e.1, v, n⟩)
    rw [hmm] at hc ⊢
    exact ⟨_, _, hc, hke.symm, rfl⟩

/-! ### Deleting -/

theorem unlink_sub {k : K} {b b' : List (K × Nat × V)} (h : Dict.unlink k b = some b') : b'.Sublist b ∧ ∀ e, e.1 ≠ k → (e ∈ b' ↔ e ∈ b) := by
  induction b generalizing b' with
  | nil => simp [Dict.unlink] at h
  | cons y ys ih =>
    by_cases hk : k = y.1
    · simp only [Dict.unlink, hk, beq_self_eq_true, if_true, Option.some.injEq] at h
      subst h
      refine ⟨List.sublist_cons_self _ _, fun e hne => ?_⟩
      simp only [List.mem_cons]
      constructor
      · exact .inr
      · rintro (h | h)
        · rw [h] at hne; exact absurd hk.symm hne
        · exact h
    · have hkb : (k == y.1) = false := by simpa using hk
      simp only [Dict.unlink, hkb, Bool.false_eq_true, if_false, Option.map_eq_some_iff] at h
      obtain ⟨l, hl, rfl⟩ := h
      obtain ⟨i1, i2⟩ := ih hl
      exact ⟨i1.cons_cons _, fun e hne => by simp only [List.mem_cons, i2 e hne]⟩

theorem trail_none {m : List (Cell K V)} {k : K} (fuel : Nat) : ∀ {h : Option Nat} {b} (prev : Option Nat), Chain m h b → b.length ≤ fuel →
    Dict.unlink k b = none → trail fuel m k prev h = some none := by
  induction fuel with
  | zero =>
    intro h b prev c hl hu
    cases b with
    | nil => cases c; simp [trail]
    | cons e es => simp at hl
  | succ f ih =>
    intro h b prev c hl hu
    cases b with
    | nil => cases c; simp [trail]
    | cons e es =>
      obtain ⟨rfl, n, hm, c⟩ := c
      simp only [List.length_cons] at hl
      by_cases hk : k = e.1
      · simp [Dict.unlink, hk] at hu
      · have hkb : (k == e.1) = false := by simpa using hk
        simp only [Dict.unlink, hkb, Bool.false_eq_true, if_false, Option.map_eq_none_iff] at hu
        simp [trail, hm, hk, ih (some e.2.1) c (by omega) hu]

/-- The entry before the one that is found is the last one passed. -/
theorem trail_prev_ne {m : List (Cell K V)} {k : K} (fuel : Nat) : ∀ {h : Option Nat} {b} {prev : Nat} {x a : Nat}, Chain m h b → x ∉ addrs b →
    prev ≠ x → trail fuel m k (some prev) h ≠ some (some (some x, a)) := by
  induction fuel with
  | zero => intro h b prev x a c hx hp; cases h <;> simp [trail]
  | succ f ih =>
    intro h b prev x a c hx hp
    cases b with
    | nil => cases c; simp [trail]
    | cons e es =>
      obtain ⟨rfl, n, hm, c⟩ := c
      simp only [addrs, List.map_cons, List.mem_cons, not_or] at hx
      by_cases hk : k = e.1
      · simp [trail, hm, hk, hp]
      · have := ih (a := a) c hx.2 (fun h => hx.1 h.symm)
        simpa [trail, hm, hk] using this

/-- The loop of `Delete` along a chain that has the key: it stops at the entry, with the entry before it (or none at the head of the chain);
the chain without the entry is got by changing the pointer to it. -/
theorem trail_some {m : List (Cell K V)} {k : K} (fuel : Nat) : ∀ {h : Option Nat} {b b'} (prev : Option Nat), Chain m h b → b.length ≤ fuel →
    (addrs b).Nodup → Dict.unlink k b = some b' → ∃ a v n, m[a]? = some ⟨k, v, n⟩ ∧
      ((trail fuel m k prev h = some (some (prev, a)) ∧ Chain m n b') ∨
        ∃ q cq, trail fuel m k prev h = some (some (some q, a)) ∧ q ∈ addrs b ∧ m[q]? = some cq ∧ cq.next = some a ∧
          Chain (m.set q { cq with next := n }) h b') := by
  induction fuel with
  | zero =>
    intro h b b' prev c hl nd hu
    cases b with
    | nil => simp [Dict.unlink] at hu
    | cons e es => simp at hl
  | succ f ih =>
    intro h b b' prev c hl nd hu
    cases b with
    | nil => simp [Dict.unlink] at hu
    | cons e es =>
      obtain ⟨rfl, n, hm, c⟩ := c
      simp only [List.length_cons] at hl
      simp only [addrs, List.map_cons, List.nodup_cons] at nd
      by_cases hk : k = e.1
      · simp only [Dict.unlink, hk, beq_self_eq_true, if_true, Option.some.injEq] at hu
        subst hu
        exact ⟨e.2.1, e.2.2, n, by rw [hk]; exact hm, .inl ⟨by simp [trail, hm, hk], c⟩⟩
      · have hkb : (k == e.1) = false := by simpa using hk
        simp only [Dict.unlink, hkb, Bool.false_eq_true, if_false, Option.map_eq_some_iff] at hu
        obtain ⟨l, hl', rfl⟩ := hu
        have hsub := (unlink_sub hl').1
        obtain ⟨a, v, n', ha, hcase⟩ := ih (some e.2.1) c (by omega) nd.2 hl'
        refine ⟨a, v, n', ha, .inr ?_⟩
        have htr : trail (f + 1) m k prev (some e.2.1) = trail f m k (some e.2.1) n := by simp [trail, hm, hk]
        rcases hcase with ⟨h1, c1⟩ | ⟨q, cq, h1, hq, hmq, hnx, c1⟩
        · refine ⟨e.2.1, ⟨e.1, e.2.2, n⟩, by rw [htr, h1], by simp [addrs], hm, ?_, rfl, n', ?_, ?_⟩
          · -- the head of the rest is the entry
            cases f with
            | zero =>
              cases es with
              | nil => simp [Dict.unlink] at hl'
              | cons y ys => simp at hl
            | succ f =>
              cases es with
              | nil => simp [Dict.unlink] at hl'
              | cons y ys =>
                obtain ⟨rfl, n2, hm2, c2⟩ := c
                simp only [trail, hm2, Option.bind_eq_bind, Option.bind_some] at h1
                by_cases hky : k = y.1
                · simp only [hky, beq_self_eq_true, if_true, Option.some.injEq, Prod.mk.injEq, true_and] at h1
                  rw [h1]
                · have hkby : (k == y.1) = false := by simpa using hky
                  simp only [hkby, Bool.false_eq_true, if_false] at h1
                  exact absurd h1 (trail_prev_ne f c2 (by simp only [addrs, List.map_cons, List.mem_cons, not_or] at nd; exact nd.1.2)
                    (fun hc => by simp only [addrs, List.map_cons, List.mem_cons, not_or] at nd; exact nd.1.1 hc.symm))
          · simp [List.getElem?_set_self (List.getElem?_eq_some_iff.mp hm).1]
          · exact c1.frame (fun hc => nd.1 ((hsub.map _).subset hc))
        · refine ⟨q, cq, by rw [htr, h1], by simp only [addrs, List.map_cons, List.mem_cons]; exact .inr hq, hmq, hnx, rfl, n, ?_, c1⟩
          rw [List.getElem?_set_ne]
          · exact hm
          · intro hc; rw [hc] at hq; exact nd.1 hq

/-- The deletion in one table. -/
theorem deleteIn_tab {m : List (Cell K V)} {t u} (te : TabEq m t u) (nd : (addrs u.entries).Nodup) (k : K) {b}
    (hb : Dict.bucketOf hash u k = some b) :
    (deleteIn hash m t k = some none ∧ Dict.deleteIn hash u k = some none) ∨
    ∃ m' t' u' b' l, deleteIn hash m t k = some (some (m', t')) ∧ Dict.deleteIn hash u k = some (some u') ∧ TabEq m' t' u' ∧ Touch k m m' ∧
      Off l m m' ∧ (∀ x ∈ l, x ∈ addrs b) ∧ u' = { u with tables := u.tables.set (hash k &&& u.sizeMask) b', used := u.used - 1 } ∧
      (∀ e, e.1 ≠ k → (e ∈ b' ↔ e ∈ b)) := by
  have hb' : u.tables[hash k &&& u.sizeMask]? = some b := hb
  obtain ⟨h, hh, c⟩ := te.chn _ _ hb'
  have ndb := (addrs_entries hb').nodup nd
  have hl := c.len ndb
  have hlt := (List.getElem?_eq_some_iff.mp hb').1
  cases hu : Dict.unlink k b with
  | none =>
    left
    exact ⟨by simp [deleteIn, te.mask, hh, trail_none _ none c hl hu], by simp [Dict.deleteIn, hb', hu]⟩
  | some b' =>
    right
    obtain ⟨hsub, hmem⟩ := unlink_sub hu
    obtain ⟨a, v, n, ha, hcase⟩ := trail_some _ none c hl ndb hu
    rcases hcase with ⟨h1, c1⟩ | ⟨q, cq, h1, hq, hmq, hnx, c1⟩
    · refine ⟨m, { t with heads := t.heads.set (hash k &&& u.sizeMask) n, used := t.used - 1 },
        { u with tables := u.tables.set (hash k &&& u.sizeMask) b', used := u.used - 1 }, b', [], ?_, ?_, ?_, .same, ⟨rfl, fun _ _ => rfl⟩, by simp, rfl, hmem⟩
      · simp [deleteIn, te.mask, hh, h1, ha]
      · simp [Dict.deleteIn, hb', hu]
      · have := te.put (i := hash k &&& u.sizeMask) c1 (u.used - 1)
        rw [te.used]; exact this
    · have off : Off [q] m (m.set q { cq with next := n }) :=
        ⟨by simp, fun x hx => by rw [List.getElem?_set_ne]; exact fun h => hx (by simp [h])⟩
      refine ⟨m.set q { cq with next := n }, { t with used := t.used - 1 },
        { u with tables := u.tables.set (hash k &&& u.sizeMask) b', used := u.used - 1 }, b', [q], ?_, ?_, ?_, .unlink q a cq _ hmq hnx ha rfl,
        off, by simpa using hq, rfl, hmem⟩
      · simp [deleteIn, te.mask, hh, h1, ha, hmq]
      · simp [Dict.deleteIn, hb', hu]
      · refine ⟨te.size, te.mask, by rw [te.used], by simp [te.len], fun j b2 hb2 => ?_⟩
        simp only [List.getElem?_set] at hb2
        by_cases hij : (hash k &&& u.sizeMask) = j
        · subst hij
          simp only [if_true, hlt] at hb2
          cases hb2
          exact ⟨h, hh, c1⟩
        · rw [if_neg hij] at hb2
          obtain ⟨h2, hh2, c2⟩ := te.chn _ _ hb2
          exact ⟨h2, hh2, c2.frame (disj_buckets nd hb' hb2 hij q hq)⟩

theorem delete_rep {p : Cells K V} {d : Dict K (Nat × V)} (r : Rep p d) (hi : Dict.Inv hash d) (k : K) :
    ∃ p' d' res, delete hash p k = some (res, p') ∧ Dict.delete hash d k = some (res, d') ∧ Rep p' d' ∧ p'.iterators = p.iterators ∧
      (p.iterators ≠ 0 → Touch k p.mem p'.mem ∧ Stays k d d') := by
  obtain ⟨res, d', hdel, inv', its', _, hn0, habs, hpr⟩ := Dict.delete_spec d hi k
  have hnd : (addrs d'.toList).Nodup := by
    cases ha : d.abs k with
    | some v =>
      have := (((hpr v ha).2.map (fun x : K × Nat × V => x.2.1)).nodup_iff).mp r.nd
      simp only [List.map_cons, List.nodup_cons] at this
      exact this.2
    | none =>
      cases hs : d.ht0.isSome with
      | false => rw [(hn0 hs).2]; exact r.nd
      | true => exact r.perm_nd (habs hs (Dict.abs_eq_none k |>.mp ha)).2
  by_cases h0n : d.ht0.isNone
  · have hd : delete hash p k = some (some .notInitialized, p) := by
      have : p.ht0.isNone := by rw [r.t0.isNone]; exact h0n
      simp [delete, this]
    have hdd : Dict.delete hash d k = some (some .notInitialized, d) := by simp [Dict.delete, h0n]
    rw [hdd] at hdel
    cases hdel
    exact ⟨p, d, _, hd, hdd, r, rfl, fun _ => ⟨.same, .refl _ _⟩⟩
  · have hpn : ¬ p.ht0.isNone := by rw [r.t0.isNone]; exact h0n
    obtain ⟨p1, d1, hs, hsd, r1, same, froz⟩ := step_rep r hi
    have hsome : d1.ht0.isSome := by rw [same.init]; cases hd : d.ht0 <;> simp_all
    have hits : p1.iterators = p.iterators := by rw [r1.its, same.iters, r.its]
    -- it suffices to do it after the rehash step
    suffices ∃ p', delete hash p k = some (res, p') ∧ Rep p' d' ∧ p'.iterators = p1.iterators ∧ Touch k p1.mem p'.mem ∧ Stays k d1 d' by
      obtain ⟨p', a1, a2, a3, a4, a5⟩ := this
      refine ⟨p', d', res, a1, hdel, a2, by rw [a3, hits], fun hn => ?_⟩
      have e1 : p1 = p := froz hn
      have e2 : d1 = d := same.froz (by rw [← r.its]; exact hn)
      subst e1; subst e2
      exact ⟨a4, a5⟩
    unfold delete
    rw [if_neg hpn, hs]
    unfold Dict.delete at hdel
    rw [if_neg h0n, hsd] at hdel
    simp only [Option.bind_eq_bind, Option.bind_some] at hdel ⊢
    have hnd1 := r1.nd
    have hi1 := same.inv
    cases hi1 with
    | empty h0 => simp [h0] at hsome
    | stable u0 h0 h1 hr w0 nd =>
      have rt0 := r1.t0; rw [h0] at rt0
      obtain ⟨t0, hp0, te0⟩ := rt0.some_right
      obtain ⟨b, hb⟩ := w0.bucketOf k
      have hre : p1.isRehashing = false := by rw [r1.reh]; simp [Dict.isRehashing, hr]
      have hred : d1.isRehashing = false := by simp [Dict.isRehashing, hr]
      simp only [h0, hp0, Option.bind_some] at hdel ⊢
      rcases deleteIn_tab te0 (r1.nd0 h0) k hb with ⟨x1, x2⟩ | ⟨m', t', u', b', l, x1, x2, te', tch, off, hl, hu', hmem⟩
      · rw [x1]
        rw [x2] at hdel
        simp only [Option.bind_some, hred, Bool.not_false, if_true, Option.some.injEq, Prod.mk.injEq] at hdel
        obtain ⟨rfl, rfl⟩ := hdel
        exact ⟨p1, by simp [hre], r1, rfl, .same, .refl _ _⟩
      · rw [x1]
        rw [x2] at hdel
        simp only [Option.bind_some, Option.some.injEq, Prod.mk.injEq] at hdel
        obtain ⟨rfl, rfl⟩ := hdel
        refine ⟨_, rfl, ⟨te', ?_, r1.ri, r1.its, hnd⟩, rfl, tch, ?_⟩
        · have := r1.t1
          rw [h1] at this ⊢
          cases hp1 : p1.ht1 with
          | none => trivial
          | some t => rw [hp1] at this; exact absurd this (by simp [Tab])
        · rw [hu']
          exact at_set0 h0 hb hmem _
    | rehashing u0 u1 ri h0 h1 hr hle w0 w1 hsz hemp nd =>
      have rt0 := r1.t0; rw [h0] at rt0
      obtain ⟨t0, hp0, te0⟩ := rt0.some_right
      have rt1 := r1.t1; rw [h1] at rt1
      obtain ⟨t1, hp1, te1⟩ := rt1.some_right
      obtain ⟨b0, hb0⟩ := w0.bucketOf k
      obtain ⟨b1, hb1⟩ := w1.bucketOf k
      have hred : d1.isRehashing = true := by simp [Dict.isRehashing, hr]
      have hre : p1.isRehashing = true := by rw [r1.reh, hred]
      have hl : d1.toList = u0.entries ++ u1.entries := by simp [Dict.toList, h0, h1]
      rw [hl, addrs_append] at hnd1
      have hdis := (List.nodup_append.mp hnd1).2.2
      simp only [h0, hp0, Option.bind_some] at hdel ⊢
      rcases deleteIn_tab te0 (r1.nd0 h0) k hb0 with ⟨x1, x2⟩ | ⟨m', t', u', b', l, x1, x2, te', tch, off, hl', hu', hmem⟩
      · rw [x1]
        rw [x2] at hdel
        simp only [Option.bind_some, hred, Bool.not_true, Bool.false_eq_true, if_false, h1] at hdel
        simp only [Option.bind_some, hre, Bool.not_true, Bool.false_eq_true, if_false, hp1]
        rcases deleteIn_tab te1 (r1.nd1 h1) k hb1 with ⟨y1, y2⟩ | ⟨m', t', u', b', l, y1, y2, te', tch, off, hl', hu', hmem⟩
        · rw [y1]
          rw [y2] at hdel
          simp only [Option.bind_some, Option.some.injEq, Prod.mk.injEq] at hdel
          obtain ⟨rfl, rfl⟩ := hdel
          exact ⟨p1, rfl, r1, rfl, .same, .refl _ _⟩
        · rw [y1]
          rw [y2] at hdel
          simp only [Option.bind_some, Option.some.injEq, Prod.mk.injEq] at hdel
          obtain ⟨rfl, rfl⟩ := hdel
          refine ⟨_, rfl, ⟨?_, te', r1.ri, r1.its, hnd⟩, rfl, tch, ?_⟩
          · simp only [hp0, h0, Tab]
            exact te0.off off (fun a ha hc => hdis a ha a ((addrs_entries hb1).subset (hl' a hc)) rfl)
          · rw [hu']
            have := at_set1 h1 hb1 hmem (u1.used - 1)
            simp only [h0] at this
            exact this
      · rw [x1]
        rw [x2] at hdel
        simp only [Option.bind_some, Option.some.injEq, Prod.mk.injEq] at hdel
        obtain ⟨rfl, rfl⟩ := hdel
        refine ⟨_, rfl, ⟨te', ?_, r1.ri, r1.its, hnd⟩, rfl, tch, ?_⟩
        · simp only [hp1, h1, Tab]
          exact te1.off off (fun a ha hc => hdis a ((addrs_entries hb0).subset (hl' a hc)) a ha rfl)
        · rw [hu']
          exact at_set0 h0 hb0 hmem _

end Cells
end Metis
