import Verif.Proofs.Dict
/-! Helper lemmas: random keys, iteration and deep copy of the dict model. -/
set_option linter.unusedSectionVars false
set_option linter.unusedSimpArgs false
set_option linter.unusedVariables false
namespace Metis
namespace Dict
variable {K V : Type} [DecidableEq K] {hash : K → Nat}

/-! ### random keys -/

theorem drawBucket_spec (r : Nat) (ts0 ts1 : List (List (K × V))) (hr : r < ts0.length + ts1.length) (draws : List Nat) :
    ∃ b rest, drawBucket r ts0 ts1 draws = some (b, rest) ∧ (∀ e ∈ b, e ∈ ts0.flatten ++ ts1.flatten) := by
  induction draws with
  | nil => exact ⟨[], [], rfl, by simp⟩
  | cons x draws ih =>
    obtain ⟨b, rest, h1, h2⟩ := ih
    have hn : ts0.length + ts1.length - r ≠ 0 := by omega
    have hlt : x % (ts0.length + ts1.length - r) < ts0.length + ts1.length - r := Nat.mod_lt _ (by omega)
    unfold drawBucket
    simp only [hn, if_false]
    generalize hi : r + x % (ts0.length + ts1.length - r) = i
    have hil : i < ts0.length + ts1.length := by omega
    by_cases hge : i ≥ ts0.length
    · have hlen : i - ts0.length < ts1.length := by omega
      simp only [hge, if_true, List.getElem?_eq_getElem hlen]
      cases hb : ts1[i - ts0.length] with
      | nil => exact ⟨b, rest, h1, h2⟩
      | cons e es =>
        refine ⟨_, _, rfl, ?_⟩
        intro e' he'
        rw [List.mem_append]; right
        exact List.mem_flatten_of_mem (List.getElem_mem hlen) (by rw [hb]; exact he')
    · have hlen : i < ts0.length := by omega
      simp only [hge, if_false, List.getElem?_eq_getElem hlen]
      cases hb : ts0[i] with
      | nil => exact ⟨b, rest, h1, h2⟩
      | cons e es =>
        refine ⟨_, _, rfl, ?_⟩
        intro e' he'
        rw [List.mem_append]; left
        exact List.mem_flatten_of_mem (List.getElem_mem hlen) (by rw [hb]; exact he')

/-- With the right draw every non-empty bucket at or after `r` is hit. -/
theorem drawBucket_hit (r : Nat) (ts0 ts1 : List (List (K × V))) (i : Nat) (hri : r ≤ i) (b : List (K × V)) (hne : b ≠ [])
    (hb : (ts0 ++ ts1)[i]? = some b) (draws : List Nat) :
    drawBucket r ts0 ts1 ((i - r) :: draws) = some (b, draws) := by
  have hlt := (List.getElem?_eq_some_iff.mp hb).1
  simp only [List.length_append] at hlt
  unfold drawBucket
  have hn : ts0.length + ts1.length - r ≠ 0 := by omega
  have hm : (i - r) % (ts0.length + ts1.length - r) = i - r := Nat.mod_eq_of_lt (by omega)
  have hi : r + (i - r) = i := by omega
  simp only [hn, if_false, hm, hi]
  by_cases hge : i ≥ ts0.length
  · rw [List.getElem?_append_right hge] at hb
    cases b with
    | nil => exact absurd rfl hne
    | cons e es => simp [hge, hb]
  · rw [List.getElem?_append_left (by omega)] at hb
    cases b with
    | nil => exact absurd rfl hne
    | cons e es => simp [hge, hb]

/-- The two bucket arrays `GetRandomKey` samples from. -/
def sampled (d : Dict K V) : List (List (K × V)) :=
  (d.ht0.map (·.tables)).getD [] ++ (d.ht1.map (·.tables)).getD []

theorem sampled_flatten (d : Dict K V) : (sampled d).flatten = d.toList := by
  cases h0 : d.ht0 <;> cases h1 : d.ht1 <;> simp [sampled, toList, h0, h1, HashTable.entries]

theorem getRandomKey_spec (d : Dict K V) (h : Inv hash d) (draws : List Nat) :
    ∃ out d' rest, getRandomKey hash d draws = some (out, d', rest) ∧ Inv hash d' ∧ d'.toList.Perm d.toList ∧
      d'.iterators = d.iterators ∧ d'.ht0.isSome = d.ht0.isSome ∧
      (out = .nil ↔ d.toList = []) ∧ (∀ e, out = .entry e → e ∈ d.toList) ∧
      (d.iterators ≠ 0 → d' = d) := by
  by_cases h0n : d.ht0.isNone
  · refine ⟨.nil, d, draws, by simp [getRandomKey, h0n], h, .refl _, rfl, rfl, ?_, by simp, fun _ => rfl⟩
    cases h with
    | empty h0 h1 hr => simp [toList, h0, h1]
    | stable t0 h0 => simp [h0] at h0n
    | rehashing t0 t1 r h0 => simp [h0] at h0n
  have hsd : d.ht0.isSome = true := by cases hd : d.ht0 <;> simp_all
  have hsz := size_spec d h
  by_cases hempty : d.toList = []
  · refine ⟨.nil, d, draws, ?_, h, .refl _, rfl, rfl, by simp [hempty], by simp, fun _ => rfl⟩
    simp [getRandomKey, h0n, hsz, hempty]
  have hlen : d.toList.length ≠ 0 := by simpa using hempty
  obtain ⟨d1, hs1, same⟩ := step_same d h
  have hs1s : d1.ht0.isSome = true := by rw [same.init, hsd]
  unfold getRandomKey
  simp only [h0n, hsz, Option.bind_eq_bind, Option.bind_some]
  have hz : ¬ ((d.toList.length : Int) = 0) := by omega
  simp only [hz, if_false, hs1, Option.bind_some, Bool.false_eq_true]
  -- finish from the drawn bucket
  have fin : ∀ (b : List (K × V)) (rest : List Nat), (∀ e ∈ b, e ∈ d1.toList) →
      ∃ out d' rest', pickEntry d1 b rest = some (out, d', rest') ∧ Inv hash d' ∧ d'.toList.Perm d.toList ∧
        d'.iterators = d.iterators ∧ d'.ht0.isSome = d.ht0.isSome ∧
        (out = .nil ↔ d.toList = []) ∧ (∀ e, out = .entry e → e ∈ d.toList) ∧ (d.iterators ≠ 0 → d' = d) := by
    intro b rest hb
    cases b with
    | nil => exact ⟨.spin, d1, rest, rfl, same.inv, same.perm, same.iters, same.init, by simp [hempty], by simp, same.froz⟩
    | cons c cs =>
      cases rest with
      | nil => exact ⟨.spin, d1, [], rfl, same.inv, same.perm, same.iters, same.init, by simp [hempty], by simp, same.froz⟩
      | cons y rest =>
        have hlt : y % (c :: cs).length < (c :: cs).length := Nat.mod_lt _ (by simp)
        refine ⟨.entry ((c :: cs)[y % (c :: cs).length]'hlt), d1, rest, ?_, same.inv, same.perm, same.iters, same.init,
          by simp [hempty], ?_, same.froz⟩
        · simp only [pickEntry, List.getElem?_eq_getElem hlt]; rfl
        · intro e he
          cases he
          exact same.perm.mem_iff.mp (hb _ (List.getElem_mem hlt))
  have hi := same.inv
  cases hi with
  | empty h0 => simp [h0] at hs1s
  | stable t0 h0 h1 hr w0 nd =>
    have hp := w0.size_pos
    obtain ⟨b, rest, hb, hbm⟩ := drawBucket_spec 0 t0.tables [] (by simp [w0.len]; omega) draws
    have hl : d1.toList = t0.entries := by simp [toList, h0, h1]
    have := fin b rest (by intro e he; have := hbm e he; simpa [hl, HashTable.entries] using this)
    have hri : d1.isRehashing = false := by simp [isRehashing, hr]
    simp only [h0, hri, Option.bind_some, hb, Bool.false_eq_true, if_false]
    exact this
  | rehashing t0 t1 r h0 h1 hr hle w0 w1 hsz' hemp nd =>
    have hp := w0.size_pos
    obtain ⟨b, rest, hb, hbm⟩ := drawBucket_spec r t0.tables t1.tables (by rw [w0.len, w1.len]; omega) draws
    have hl : d1.toList = t0.entries ++ t1.entries := by simp [toList, h0, h1]
    have := fin b rest (by intro e he; have := hbm e he; simpa [hl, HashTable.entries] using this)
    have hri : d1.isRehashing = true := by simp [isRehashing, hr]
    have hnn : ¬ ((r : Int) < 0) := by omega
    simp only [h0, hri, Option.bind_some, hb, if_true, h1, hr, hnn, if_false, Int.toNat_natCast]
    exact this

theorem getRandomKey_complete (d : Dict K V) (h : Inv hash d) (e : K × V) (he : e ∈ d.toList) :
    ∃ x y d', getRandomKey hash d [x, y] = some (.entry e, d', []) := by
  have h0n : d.ht0.isNone = false := by
    cases h with
    | empty h0 h1 hr => simp [toList, h0, h1] at he
    | stable t0 h0 => simp [h0]
    | rehashing t0 t1 r h0 => simp [h0]
  have hsd : d.ht0.isSome = true := by cases hd : d.ht0 <;> simp_all
  obtain ⟨d1, hs1, same⟩ := step_same d h
  have hs1s : d1.ht0.isSome = true := by rw [same.init, hsd]
  have he1 : e ∈ d1.toList := same.perm.mem_iff.mpr he
  have hz : ¬ ((d.toList.length : Int) = 0) := by
    have := List.length_pos_of_mem he; omega
  have pick : ∀ b : List (K × V), e ∈ b → ∃ y, y < b.length ∧ b[y % b.length]? = some e := by
    intro b hb
    obtain ⟨y, hy, hye⟩ := List.getElem_of_mem hb
    exact ⟨y, hy, by rw [Nat.mod_eq_of_lt hy, List.getElem?_eq_getElem hy, hye]⟩
  have fin : ∀ (b : List (K × V)) (y : Nat), b ≠ [] → b[y % b.length]? = some e →
     pickEntry d1 b [y] = some (.entry e, d1, []) := by
    intro b y hne hy
    cases b with
    | nil => exact absurd rfl hne
    | cons c cs => simp only [pickEntry, hy]; rfl
  have hi := same.inv
  cases hi with
  | empty h0 => simp [h0] at hs1s
  | stable t0 h0 h1 hr w0 nd =>
    have hl : d1.toList = t0.tables.flatten := by simp [toList, h0, h1, HashTable.entries]
    rw [hl] at he1
    obtain ⟨b, hb, heb⟩ := List.mem_flatten.mp he1
    obtain ⟨i, hi, hib⟩ := List.getElem_of_mem hb
    obtain ⟨y, hy, hye⟩ := pick b heb
    have hbne : b ≠ [] := List.ne_nil_of_mem heb
    refine ⟨i - 0, y, d1, ?_⟩
    have hd := drawBucket_hit 0 t0.tables [] i (by omega) b hbne (by simp [List.getElem?_eq_getElem hi, hib]) [y]
    have hri : d1.isRehashing = false := by simp [isRehashing, hr]
    unfold getRandomKey
    simp only [h0n, size_spec d h, Option.bind_eq_bind, Option.bind_some, hz, if_false, hs1, h0, hri, hd,
      Bool.false_eq_true]
    exact fin b y hbne hye
  | rehashing t0 t1 r h0 h1 hr hle w0 w1 hsz' hemp nd =>
    have hl : d1.toList = (t0.tables ++ t1.tables).flatten := by simp [toList, h0, h1, HashTable.entries]
    rw [hl] at he1
    obtain ⟨b, hb, heb⟩ := List.mem_flatten.mp he1
    obtain ⟨i, hi, hib⟩ := List.getElem_of_mem hb
    obtain ⟨y, hy, hye⟩ := pick b heb
    have hbne : b ≠ [] := List.ne_nil_of_mem heb
    have hget : (t0.tables ++ t1.tables)[i]? = some b := by simp [List.getElem?_eq_getElem hi, hib]
    have hri' : r ≤ i := by
      apply Classical.byContradiction
      intro hlt
      have hlt : i < r := by omega
      have hil : i < t0.tables.length := by rw [w0.len]; omega
      rw [List.getElem?_append_left hil, hemp i hlt] at hget
      cases hget; exact hbne rfl
    refine ⟨i - r, y, d1, ?_⟩
    have hd := drawBucket_hit r t0.tables t1.tables i hri' b hbne hget [y]
    have hri : d1.isRehashing = true := by simp [isRehashing, hr]
    have hnn : ¬ ((r : Int) < 0) := by omega
    unfold getRandomKey
    simp only [h0n, size_spec d h, Option.bind_eq_bind, Option.bind_some, hz, if_false, hs1, h0, hri, hd,
      if_true, h1, hr, hnn, Int.toNat_natCast, Bool.false_eq_true]
    exact fin b y hbne hye

/-! ### iteration -/

/-- Entries an iterator has still to return. -/
def pending (d : Dict K V) (it : Iter K V) : List (K × V) :=
  (if it.entry.isSome then it.next else []) ++
  (if it.table = 0 then
    (((d.ht0.map (·.tables)).getD []).drop (it.index + 1).toNat).flatten ++ ((d.ht1.map (·.tables)).getD []).flatten
   else (((d.ht1.map (·.tables)).getD []).drop (it.index + 1).toNat).flatten)

/-- The place an iterator points at is inside the tables. -/
structure ItOk (d : Dict K V) (it : Iter K V) : Prop where
  lo : -1 ≤ it.index
  tb : it.table = 0 ∨ (it.table = 1 ∧ d.isRehashing = true ∧ 0 ≤ it.index)
  en : it.entry.isSome → 0 ≤ it.index

/-- The iterator has begun (and so counts in `iterators`). -/
def Started (it : Iter K V) : Prop := ¬ (it.index = -1 ∧ it.table = 0)

/-- Buckets still to be visited. -/
def bucketsLeft (d : Dict K V) (it : Iter K V) : Nat :=
  if it.table = 0 then ((d.ht0.map (·.size)).getD 0 - (it.index + 1).toNat) + (d.ht1.map (·.size)).getD 0
  else (d.ht1.map (·.size)).getD 0 - (it.index + 1).toNat

/-- The current entry sits in the bucket the iterator points at. -/
def AtEntry (d : Dict K V) (it : Iter K V) (e : K × V) : Prop :=
  ∃ t b, tableNo d it.table = some t ∧ 0 ≤ it.index ∧ t.tables[it.index.toNat]? = some b ∧ e ∈ b

/-- The iterator has just moved to the head `e` of the bucket it points at. -/
def FreshAt (d : Dict K V) (it : Iter K V) (e : K × V) : Prop :=
  ∃ t, tableNo d it.table = some t ∧ 0 ≤ it.index ∧ t.tables[it.index.toNat]? = some (e :: it.next)

theorem iterLoop_run (d : Dict K V) (h : Inv hash d) (h0 : d.ht0.isSome) :
    ∀ (fuel : Nat) (it : Iter K V), ItOk d it → Started it → it.entry = none → bucketsLeft d it < fuel →
    (pending d it = [] ∧ ∃ it', iterLoop fuel d it = some (none, d, it') ∧ it'.index ≠ -1) ∨
    (∃ e rest it', pending d it = e :: rest ∧ iterLoop fuel d it = some (some e, d, it') ∧ ItOk d it' ∧ Started it' ∧
      it'.entry = some e ∧ pending d it' = rest ∧ it'.index ≠ -1 ∧ FreshAt d it' e) := by
  intro fuel
  induction fuel with
  | zero => intro it _ _ _ hb; omega
  | succ fuel ih =>
    intro it ok st hen hb
    obtain ⟨tb, idx, en, nx⟩ := it
    simp only at hen; subst hen
    have hst : ¬ (idx = -1 ∧ tb = 0) := st
    have hlo : -1 ≤ idx := ok.lo
    -- visiting bucket `i` of table `n`
    have visit : ∀ (n : Nat) (i : Nat) (t : HashTable K V) (b : List (K × V)) (rest : List (K × V))
        (res : Option (Option (K × V) × Dict K V × Iter K V)),
        (b = [] → res = iterLoop fuel d ⟨n, (i : Int), none, nx⟩) →
        (∀ e es, b = e :: es → res = some (some e, d, ⟨n, (i : Int), some e, es⟩)) →
        tableNo d n = some t → t.tables[i]? = some b →
        pending d ⟨tb, idx, none, nx⟩ = b ++ rest →
        (∀ nx' en', pending d ⟨n, (i : Int), en', nx'⟩ = (if en'.isSome then nx' else []) ++ rest) →
        (n = 0 ∨ (n = 1 ∧ d.isRehashing = true)) →
        bucketsLeft d ⟨n, (i : Int), none, nx⟩ < fuel →
        (pending d ⟨tb, idx, none, nx⟩ = [] ∧ ∃ it', res = some (none, d, it') ∧ it'.index ≠ -1) ∨
        (∃ e rest it', pending d ⟨tb, idx, none, nx⟩ = e :: rest ∧ res = some (some e, d, it') ∧ ItOk d it' ∧ Started it' ∧
          it'.entry = some e ∧ pending d it' = rest ∧ it'.index ≠ -1 ∧ FreshAt d it' e) := by
      intro n i t b rest res hres hres' ht hb' hp hp' hn hlt
      cases b with
      | nil =>
        have hpe : pending d ⟨tb, idx, none, nx⟩ = pending d ⟨n, (i : Int), none, nx⟩ := by
          rw [hp, hp' nx none]; rfl
        have ok' : ItOk d (⟨n, (i : Int), none, nx⟩ : Iter K V) :=
          ⟨by simp only; omega, by rcases hn with rfl | ⟨rfl, hr⟩
                                   · exact Or.inl rfl
                                   · exact Or.inr ⟨rfl, hr, by simp only; omega⟩, by simp⟩
        rw [hpe, hres rfl]
        exact ih ⟨n, (i : Int), none, nx⟩ ok' (by simp only [Started]; omega) rfl hlt
      | cons e es =>
        right
        refine ⟨e, es ++ rest, ⟨n, (i : Int), some e, es⟩, hp, hres' e es rfl, ?_, ?_, rfl, ?_, ?_, ?_⟩
        · refine ⟨by simp only; omega, ?_, by simp only; omega⟩
          rcases hn with rfl | ⟨rfl, hr⟩
          · exact Or.inl rfl
          · exact Or.inr ⟨rfl, hr, by simp only; omega⟩
        · simp only [Started]; omega
        · rw [hp' es (some e)]; rfl
        · simp only; omega
        · exact ⟨t, ht, by simp only; omega, by simpa using hb'⟩
    have hidx : ¬ (idx + 1 < 0) := by omega
    have hin : ((idx + 1).toNat : Int) = idx + 1 := by omega
    have dropc : ∀ (ts : List (List (K × V))) (b : List (K × V)), ts[(idx + 1).toNat]? = some b →
        (ts.drop (idx + 1).toNat).flatten = b ++ (ts.drop (idx + 1 + 1).toNat).flatten := by
      intro ts b hb
      obtain ⟨hl, hbe⟩ := List.getElem?_eq_some_iff.mp hb
      rw [List.drop_eq_getElem_cons hl, List.flatten_cons, hbe]
      congr 3; omega
    cases h with
    | empty h0' => simp [h0'] at h0
    | stable t0 h0' h1' hr w0 nd =>
      have hri : d.isRehashing = false := by simp [isRehashing, hr]
      have htb : tb = 0 := by
        rcases ok.tb with h | ⟨_, h, _⟩
        · exact h
        · rw [hri] at h; simp at h
      subst htb
      have hi1 : idx ≠ -1 := fun hh => hst ⟨hh, rfl⟩
      unfold iterLoop
      simp only [hi1, false_and, if_false, tableNo, h0', Option.bind_eq_bind, Option.bind_some, hri, Bool.false_and,
        Bool.not_false, Bool.and_true]
      by_cases hge : idx + 1 ≥ (t0.size : Int)
      · left
        refine ⟨?_, ⟨0, idx + 1, none, nx⟩, by simp [hge], by simp only; omega⟩
        have : t0.tables.length ≤ (idx + 1).toNat := by rw [w0.len]; omega
        simp [pending, h0', h1', List.drop_eq_nil_of_le this]
      · have hlt : (idx + 1).toNat < t0.tables.length := by rw [w0.len]; omega
        obtain ⟨b, hb'⟩ : ∃ b, t0.tables[(idx + 1).toNat]? = some b := ⟨_, List.getElem?_eq_getElem hlt⟩
        have := fun res a1 a2 => visit 0 (idx + 1).toNat t0 b ((t0.tables.drop (idx + 1 + 1).toNat).flatten) res a1 a2 h0' hb'
          (by simp [pending, h0', h1', dropc _ _ hb']) (by intro nx' en'; simp [pending, h0', h1', hin]) (Or.inl rfl)
          (by simp only [bucketsLeft, h0', h1', if_true, Option.map_some, Option.map_none, Option.getD_some, Option.getD_none] at hb ⊢
              rw [w0.len] at hlt; omega)
        simp only [hge, decide_false, Bool.false_eq_true, if_false, h0', Option.bind_some, hidx, hb']
        simp only [hin] at this
        exact this _ (by rintro rfl; rfl) (by rintro e es rfl; rfl)
    | rehashing t0 t1 r h0' h1' hr hle w0 w1 hsz hemp nd =>
      have hri : d.isRehashing = true := by simp [isRehashing, hr]
      have hp1 := w1.size_pos
      unfold iterLoop
      rcases ok.tb with htb | ⟨htb, _, hpos⟩
      · simp only at htb; subst htb
        have hi1 : idx ≠ -1 := fun hh => hst ⟨hh, rfl⟩
        simp only [hi1, false_and, if_false, tableNo, h0', Option.bind_eq_bind, Option.bind_some, hri, beq_self_eq_true,
          Bool.and_true, Bool.not_true, Bool.and_false, Bool.false_eq_true]
        by_cases hge : idx + 1 ≥ (t0.size : Int)
        · have hlt : 0 < t1.tables.length := by rw [w1.len]; omega
          obtain ⟨b, hb'⟩ : ∃ b, t1.tables[0]? = some b := ⟨_, List.getElem?_eq_getElem hlt⟩
          have hd0 : t0.tables.length ≤ (idx + 1).toNat := by rw [w0.len]; omega
          have hd1 : t1.tables.flatten = b ++ (t1.tables.drop 1).flatten := by
            obtain ⟨hl, hbe⟩ := List.getElem?_eq_some_iff.mp hb'
            conv => lhs; rw [← List.drop_zero (l := t1.tables), List.drop_eq_getElem_cons hl, List.flatten_cons, hbe]
          have := fun res a1 a2 => visit 1 0 t1 b ((t1.tables.drop 1).flatten) res a1 a2 h1' hb'
            (by simp [pending, h0', h1', List.drop_eq_nil_of_le hd0, hd1]) (by intro nx' en'; simp [pending, h0', h1'])
            (Or.inr ⟨rfl, hri⟩)
            (by simp only [bucketsLeft, h0', h1', if_true, Option.map_some, Option.getD_some] at hb ⊢
                simp only [Nat.one_ne_zero, if_false]
                omega)
          have hz : ¬ ((0:Int) < 0) := by omega
          simp only [hge, if_true, h1', Option.bind_some, hz, if_false, Int.toNat_zero, hb']
          exact this _ (by rintro rfl; rfl) (by rintro e es rfl; rfl)
        · have hlt : (idx + 1).toNat < t0.tables.length := by rw [w0.len]; omega
          obtain ⟨b, hb'⟩ : ∃ b, t0.tables[(idx + 1).toNat]? = some b := ⟨_, List.getElem?_eq_getElem hlt⟩
          have := fun res a1 a2 => visit 0 (idx + 1).toNat t0 b ((t0.tables.drop (idx + 1 + 1).toNat).flatten ++ t1.tables.flatten) res a1 a2 h0' hb'
            (by simp [pending, h0', h1', dropc _ _ hb']) (by intro nx' en'; simp [pending, h0', h1', hin]) (Or.inl rfl)
            (by simp only [bucketsLeft, h0', h1', if_true, Option.map_some, Option.getD_some] at hb ⊢
                rw [w0.len] at hlt; omega)
          simp only [hge, if_false, h0', Option.bind_some, hidx, hb']
          simp only [hin] at this
          exact this _ (by rintro rfl; rfl) (by rintro e es rfl; rfl)
      · simp only at htb hpos; subst htb
        have hi1 : idx ≠ -1 := by omega
        simp only [hi1, false_and, if_false, tableNo, h1', Option.bind_eq_bind, Option.bind_some, hri, 
          Bool.true_and, Nat.one_ne_zero, and_false, beq_iff_eq]
        by_cases hge : idx + 1 ≥ (t1.size : Int)
        · left
          refine ⟨?_, ⟨1, idx + 1, none, nx⟩, by simp [hge], by simp only; omega⟩
          have : t1.tables.length ≤ (idx + 1).toNat := by rw [w1.len]; omega
          simp [pending, h1', List.drop_eq_nil_of_le this]
        · have hlt : (idx + 1).toNat < t1.tables.length := by rw [w1.len]; omega
          obtain ⟨b, hb'⟩ : ∃ b, t1.tables[(idx + 1).toNat]? = some b := ⟨_, List.getElem?_eq_getElem hlt⟩
          have := fun res a1 a2 => visit 1 (idx + 1).toNat t1 b ((t1.tables.drop (idx + 1 + 1).toNat).flatten) res a1 a2 h1' hb'
            (by simp [pending, h1', dropc _ _ hb']) (by intro nx' en'; simp [pending, h1', hin]) (Or.inr ⟨rfl, hri⟩)
            (by simp only [bucketsLeft, h0', h1', Option.map_some, Option.getD_some, Nat.one_ne_zero, if_false] at hb ⊢
                rw [w1.len] at hlt; omega)
          simp only [hge, decide_false, Bool.false_and, Bool.false_eq_true, if_false, h1', Option.bind_some, hidx, hb']
          simp only [hin] at this
          exact this _ (by rintro rfl; rfl) (by rintro e es rfl; rfl)

theorem Inv.setIters {d : Dict K V} (h : Inv hash d) (n : Int) : Inv hash { d with iterators := n } := by
  cases h with
  | empty h0 h1 hr => exact .empty h0 h1 hr
  | stable t0 h0 h1 hr w0 nd => exact .stable t0 h0 h1 hr w0 nd
  | rehashing t0 t1 r h0 h1 hr hle w0 w1 hsz hemp nd => exact .rehashing t0 t1 r h0 h1 hr hle w0 w1 hsz hemp nd

theorem toList_setIters (d : Dict K V) (n : Int) : toList { d with iterators := n } = d.toList := rfl

theorem bucketsLeft_le (d : Dict K V) (it : Iter K V) :
    bucketsLeft d it ≤ (d.ht0.map (·.size)).getD 0 + (d.ht1.map (·.size)).getD 0 := by
  unfold bucketsLeft; split <;> omega

/-- First call of `Next`. -/
theorem iterNext_new (d : Dict K V) (h : Inv hash d) (h0 : d.ht0.isSome) :
    (d.toList = [] ∧ ∃ it', iterNext d iterNew = some (none, { d with iterators := d.iterators + 1 }, it') ∧ it'.index ≠ -1) ∨
    (∃ e rest it', d.toList = e :: rest ∧
      iterNext d iterNew = some (some e, { d with iterators := d.iterators + 1 }, it') ∧
      ItOk { d with iterators := d.iterators + 1 } it' ∧ Started it' ∧
      it'.entry = some e ∧ pending { d with iterators := d.iterators + 1 } it' = rest ∧ it'.index ≠ -1 ∧
      FreshAt { d with iterators := d.iterators + 1 } it' e) := by
  obtain ⟨t0, h0'⟩ := Option.isSome_iff_exists.mp h0
  have w0 : TInv hash t0 := by
    cases h with
    | empty h0 => simp [h0] at h0'
    | stable t h0 h1 hr w0 nd => rw [h0] at h0'; cases h0'; exact w0
    | rehashing t t1 r h0 h1 hr hle w0 w1 hsz hemp nd => rw [h0] at h0'; cases h0'; exact w0
  have hp := w0.size_pos
  generalize hd1 : ({ d with iterators := d.iterators + 1 } : Dict K V) = d1
  have inv1 : Inv hash d1 := hd1 ▸ h.setIters _
  have h01 : d1.ht0 = some t0 := by rw [← hd1]; exact h0'
  have hl : d1.toList = d.toList := by rw [← hd1]; rfl
  have hlt : 0 < t0.tables.length := by rw [w0.len]; omega
  obtain ⟨b, hb'⟩ : ∃ b, t0.tables[0]? = some b := ⟨_, List.getElem?_eq_getElem hlt⟩
  have hdc : t0.tables.flatten = b ++ (t0.tables.drop 1).flatten := by
    obtain ⟨hl, hbe⟩ := List.getElem?_eq_some_iff.mp hb'
    conv => lhs; rw [← List.drop_zero (l := t0.tables), List.drop_eq_getElem_cons hl, List.flatten_cons, hbe]
  have htl : d.toList = b ++ ((t0.tables.drop 1).flatten ++ ((d1.ht1.map (·.tables)).getD []).flatten) := by
    rw [← hl]
    simp only [toList, h01, Option.map_some, Option.getD_some, HashTable.entries, hdc, List.append_assoc]
    cases d1.ht1 <;> simp [HashTable.entries]
  have hnext : iterNext d iterNew = (match b with
      | [] => iterLoop (t0.size + (d.ht1.map (·.size)).getD 0 + 1) d1 ⟨0, 0, none, []⟩
      | e :: rest => some (some e, d1, ⟨0, 0, some e, rest⟩)) := by
    unfold iterNext
    simp only [h0']
    have hge : ¬ ((0:Int) ≥ (t0.size : Int)) := by omega
    unfold iterLoop
    simp only [iterNew, and_self, if_true, hd1, tableNo, h01, Option.bind_eq_bind, Option.bind_some, Int.reduceNeg, 
      Int.add_left_neg, hge, decide_false, Bool.false_and, Bool.false_eq_true, if_false, Int.toNat_zero, hb', Int.lt_irrefl]
    cases b <;> rfl
  cases b with
  | nil =>
    have hpend : pending d1 (⟨0, 0, none, []⟩ : Iter K V) = d.toList := by
      rw [htl]; simp [pending, h01]
    have hfuel : bucketsLeft d1 (⟨0, 0, none, []⟩ : Iter K V) < t0.size + (d.ht1.map (·.size)).getD 0 + 1 := by
      have := bucketsLeft_le d1 (⟨0, 0, none, []⟩ : Iter K V)
      rw [h01] at this
      have h1e : d1.ht1 = d.ht1 := by rw [← hd1]
      rw [h1e] at this
      simp only [Option.map_some, Option.getD_some] at this
      omega
    have := iterLoop_run d1 inv1 (by rw [h01]; rfl) _ ⟨0, 0, none, []⟩ ⟨by simp, Or.inl rfl, by simp⟩
      (by simp [Started]) rfl hfuel
    rw [hpend] at this
    rw [hnext]
    exact this
  | cons e es =>
    right
    refine ⟨e, _, ⟨0, 0, some e, es⟩, htl, hnext, ⟨by simp, Or.inl rfl, by simp⟩, by simp [Started], rfl, ?_, by simp, ?_⟩
    · simp [pending, h01]
    · exact ⟨t0, h01, by simp, by simpa using hb'⟩

/-- Later calls of `Next`. -/
theorem iterNext_run (d : Dict K V) (h : Inv hash d) (h0 : d.ht0.isSome) (it : Iter K V) (ok : ItOk d it) (st : Started it)
    (hen : it.entry.isSome) :
    (pending d it = [] ∧ ∃ it', iterNext d it = some (none, d, it') ∧ it'.index ≠ -1) ∨
    (∃ e rest it', pending d it = e :: rest ∧ iterNext d it = some (some e, d, it') ∧ ItOk d it' ∧ Started it' ∧
      it'.entry = some e ∧ pending d it' = rest ∧ it'.index ≠ -1 ∧ (it.next = e :: it'.next ∧ it'.table = it.table ∧ it'.index = it.index ∨ FreshAt d it' e)) := by
  obtain ⟨t0, h0'⟩ := Option.isSome_iff_exists.mp h0
  obtain ⟨tb, idx, en, nx⟩ := it
  obtain ⟨e0, rfl⟩ := Option.isSome_iff_exists.mp hen
  have hnn : 0 ≤ idx := ok.en rfl
  unfold iterNext
  simp only [h0']
  unfold iterLoop
  simp only
  cases nx with
  | nil =>
    have hpend : pending d (⟨tb, idx, none, []⟩ : Iter K V) = pending d ⟨tb, idx, some e0, []⟩ := by simp [pending]
    rw [← hpend]
    have := bucketsLeft_le d (⟨tb, idx, none, []⟩ : Iter K V)
    rw [h0'] at this
    simp only [Option.map_some, Option.getD_some] at this
    rcases iterLoop_run d h h0 _ ⟨tb, idx, none, []⟩ ⟨ok.lo, ok.tb, by simp⟩ st rfl (Nat.lt_succ_of_le this) with h | h
    · exact Or.inl h
    · obtain ⟨e, rest, it', h1, h2, h3, h4, h5, h6, h7, h8⟩ := h
      exact Or.inr ⟨e, rest, it', h1, h2, h3, h4, h5, h6, h7, Or.inr h8⟩
  | cons e es =>
    right
    refine ⟨e, _, ⟨tb, idx, some e, es⟩, by simp [pending]; rfl, rfl, ⟨ok.lo, ok.tb, fun _ => hnn⟩, st, rfl, by simp [pending],
      by simp only; omega, Or.inl ⟨rfl, rfl, rfl⟩⟩

/-- What a loop body may do to the dict it iterates over: nothing, or delete the current entry. -/
def KeepsCur (hash : K → Nat) (e : K × V) (d d' : Dict K V) : Prop :=
  d' = d ∨ ∃ r, delete hash d e.1 = some (r, d')

theorem drop_set_succ {α} (l : List α) (i : Nat) (a : α) : (l.set i a).drop (i + 1) = l.drop (i + 1) := by
  rw [List.drop_set]; simp

/-- Deleting an entry of the bucket under the iterator does not change what is still to come. -/
theorem delete_pending (d : Dict K V) (h : Inv hash d) (hit : d.iterators ≠ 0) (it : Iter K V) (ok : ItOk d it) (e : K × V)
    (hat : AtEntry d it e) (r : Option DelErr) (d' : Dict K V) (hd : delete hash d e.1 = some (r, d')) :
    pending d' it = pending d it ∧ ItOk d' it ∧ d'.isRehashing = d.isRehashing ∧
    (∀ e', e' ≠ e → e' ∈ d.toList → ∀ t b, tableNo d it.table = some t → t.tables[it.index.toNat]? = some b → e' ∈ b → AtEntry d' it e') := by
  obtain ⟨d1, hs1, same⟩ := step_same d h
  have hdd := same.froz hit
  subst hdd
  obtain ⟨t, b, ht, hnn, hb, heb⟩ := hat
  have hin : ((it.index + 1).toNat) = it.index.toNat + 1 := by omega
  have hunl : unlink e.1 b ≠ none := by
    rw [Ne, unlink_none]; intro hc; exact hc (List.mem_map_of_mem heb)
  obtain ⟨b', hb'⟩ := Option.ne_none_iff_exists'.mp hunl
  obtain ⟨v', hperm⟩ := unlink_some hb'
  have h0s : d1.ht0.isNone = false := by
    cases h with
    | empty h0 h1 hr =>
      rcases ok.tb with hh | ⟨_, hh, _⟩
      · rw [hh] at ht; simp [tableNo, h0] at ht
      · simp [isRehashing, hr] at hh
    | stable t0 h0 => simp [h0]
    | rehashing t0 t1 r h0 => simp [h0]
  have nd := h.nodup
  have keyinj : ∀ e', e' ∈ d1.toList → e ∈ d1.toList → e'.1 = e.1 → e' = e := by
    intro e' h1 h2 h3
    have := (find?_key_iff nd e.1 e').mpr ⟨h1, h3⟩
    have h4 := (find?_key_iff nd e.1 e).mpr ⟨h2, rfl⟩
    rw [h4] at this; exact (Option.some.inj this).symm
  have key : ∀ e', e' ∈ b → e' ∈ d1.toList → e ∈ d1.toList → e' ≠ e → e' ∈ b' := by
    intro e' h1 hd1 hd2 h2
    rcases List.mem_cons.mp (hperm.mem_iff.mp h1) with h3 | h3
    · exact absurd (keyinj e' hd1 hd2 (by rw [h3])) h2
    · exact h3
  unfold delete at hd
  simp only [h0s, hs1, Option.bind_eq_bind, Option.bind_some, Bool.false_eq_true, if_false] at hd
  rcases ok.tb with htb | ⟨htb, hre, _⟩
  · -- first table
    rw [htb] at ht
    simp only [tableNo] at ht
    have w0 : TInv hash t := by
      cases h with
      | empty h0 => simp [h0] at ht
      | stable t0 h0 h1 hr w0 nd => rw [h0] at ht; cases ht; exact w0
      | rehashing t0 t1 r h0 h1 hr hle w0 w1 hsz hemp nd => rw [h0] at ht; cases ht; exact w0
    have hhome := w0.home _ _ hb e heb
    have hdel : deleteIn hash t e.1 = some (some { t with tables := t.tables.set it.index.toNat b', used := t.used - 1 }) := by
      simp [deleteIn, hhome, hb, hb']
    simp only [ht, Option.bind_some, hdel, Option.some.injEq, Prod.mk.injEq] at hd
    obtain ⟨_, rfl⟩ := hd
    have het : e ∈ d1.toList := by
      simp only [toList, ht, Option.map_some, Option.getD_some, List.mem_append]
      exact Or.inl (List.mem_flatten_of_mem (List.mem_of_getElem? hb) heb)
    refine ⟨?_, ⟨ok.lo, Or.inl htb, ok.en⟩, rfl, ?_⟩
    · simp only [pending, htb, if_true, ht, Option.map_some, Option.getD_some, hin, drop_set_succ]
    · intro e' hne hm t2 b2 ht2 hb2 heb2
      rw [htb] at ht2
      simp only [tableNo] at ht2
      rw [ht] at ht2; cases ht2
      rw [hb] at hb2; cases hb2
      refine ⟨_, b', by rw [htb]; rfl, hnn, ?_, key e' heb2 hm het hne⟩
      simp only
      rw [List.getElem?_set]
      simp [(List.getElem?_eq_some_iff.mp hb).1]
  · rw [htb] at ht
    simp only [tableNo] at ht
    cases h with
    | empty h0 h1 hr => simp [isRehashing, hr] at hre
    | stable t0 h0 h1 hr => simp [isRehashing, hr] at hre
    | rehashing t0 t1 r h0 h1 hr hle w0 w1 hsz hemp nd' =>
      rw [h1] at ht
      have ht := Option.some.inj ht
      subst ht
      have hhome := w1.home _ _ hb e heb
      have het1 : e ∈ t1.entries := List.mem_flatten_of_mem (List.mem_of_getElem? hb) heb
      have hl : d1.toList = t0.entries ++ t1.entries := by simp [toList, h0, h1]
      have hnot : e.1 ∉ t0.entries.map Prod.fst := by
        intro hc
        rw [hl, List.map_append, List.nodup_append] at nd
        exact nd.2.2 _ hc _ (List.mem_map_of_mem het1) rfl
      have hdel0 : deleteIn hash t0 e.1 = some none := by
        rcases deleteIn_spec w0 e.1 with ⟨_, hh⟩ | ⟨t', v', _, _, _, hp, _⟩
        · exact hh
        · exact absurd ((hp.map Prod.fst).mem_iff.mpr (by simp)) hnot
      have hdel : deleteIn hash t1 e.1 = some (some { t1 with tables := t1.tables.set it.index.toNat b', used := t1.used - 1 }) := by
        simp [deleteIn, hhome, hb, hb']
      simp only [h0, Option.bind_some, hdel0, hre, Bool.not_true, Bool.false_eq_true, if_false, h1, hdel, Option.some.injEq,
        Prod.mk.injEq] at hd
      obtain ⟨_, rfl⟩ := hd
      have het : e ∈ d1.toList := by rw [hl]; exact List.mem_append.mpr (Or.inr het1)
      refine ⟨?_, ⟨ok.lo, Or.inr ⟨htb, hre, hnn⟩, ok.en⟩, rfl, ?_⟩
      · simp only [pending, htb, h1, Option.map_some, Option.getD_some, hin, drop_set_succ, Nat.one_ne_zero, if_false]
      · intro e' hne hm t2 b2 ht2 hb2 heb2
        rw [htb] at ht2
        simp only [tableNo] at ht2
        rw [h1] at ht2; cases ht2
        rw [hb] at hb2; cases hb2
        refine ⟨_, b', by rw [htb]; rfl, hnn, ?_, key e' heb2 hm het hne⟩
        simp only
        rw [List.getElem?_set]
        simp [(List.getElem?_eq_some_iff.mp hb).1]

/-- The current entry and the saved rest of its chain are in the bucket the iterator points at. -/
structure ChainAt (d : Dict K V) (it : Iter K V) (e : K × V) : Prop where
  cur   : AtEntry d it e
  rest  : ∀ e' ∈ it.next, AtEntry d it e'
  nodup : (e :: it.next).Nodup

theorem AtEntry.mem {d : Dict K V} {it : Iter K V} {e : K × V} (h : AtEntry d it e) : e ∈ d.toList := by
  obtain ⟨t, b, ht, _, hb, heb⟩ := h
  have het : e ∈ t.entries := List.mem_flatten_of_mem (List.mem_of_getElem? hb) heb
  unfold tableNo at ht
  unfold toList
  split at ht
  · rw [ht]; simp [het]
  · rw [ht]; simp [het]
  · simp at ht

theorem FreshAt.chain {d : Dict K V} (h : Inv hash d) {it : Iter K V} {e : K × V} (hf : FreshAt d it e) : ChainAt d it e := by
  obtain ⟨t, ht, hnn, hb⟩ := hf
  refine ⟨⟨t, _, ht, hnn, hb, List.mem_cons_self⟩, fun e' he' => ⟨t, _, ht, hnn, hb, List.mem_cons_of_mem _ he'⟩, ?_⟩
  have hsub : List.Sublist (e :: it.next) t.entries := List.sublist_flatten_of_mem (List.mem_of_getElem? hb)
  have nd := h.nodup
  have hsub2 : List.Sublist t.entries d.toList := by
    unfold tableNo at ht
    unfold toList
    split at ht
    · rw [ht]; simp
    · rw [ht]; simp
    · simp at ht
  have := (hsub.trans hsub2).map Prod.fst |>.nodup nd
  exact List.Pairwise.of_map Prod.fst (fun a b h hab => h (by rw [hab])) this

theorem delete_iters {d d' : Dict K V} (h : Inv hash d) {k : K} {r : Option DelErr} (hd : delete hash d k = some (r, d')) :
    Inv hash d' ∧ d'.iterators = d.iterators ∧ d'.ht0.isSome = d.ht0.isSome := by
  obtain ⟨r', d'', h1, h2, h3, h4, _⟩ := delete_spec d h k
  rw [hd] at h1
  have := (Prod.mk.inj (Option.some.inj h1)).2
  subst this; exact ⟨h2, h3, h4⟩

theorem iterFor_spec {S : Type} (body : (K × V) → Dict K V → S → Option (Dict K V × S))
    (I : List (K × V) → Dict K V → S → Prop) (all : List (K × V)) (n : Int) (hn : n ≠ 0)
    (hbody : ∀ done e rest d s, done ++ e :: rest = all → I done d s → Inv hash d → d.iterators = n → e ∈ d.toList →
      ∃ d' s', body e d s = some (d', s') ∧ KeepsCur hash e d d' ∧ I (done ++ [e]) d' s') :
    ∀ (fuel : Nat) (done : List (K × V)) (e : K × V) (d : Dict K V) (it : Iter K V) (s : S),
      done ++ e :: pending d it = all → (pending d it).length < fuel → Inv hash d → d.iterators = n → d.ht0.isSome → ItOk d it →
      Started it → it.entry = some e → ChainAt d it e → I done d s →
      ∃ d' it' s', (do let (d, s) ← body e d s; iterFor body fuel d it s) = some (d', it', s') ∧ I all d' s' ∧ Inv hash d' ∧
        d'.iterators = n ∧ it'.index ≠ -1 ∧ d'.ht0.isSome := by
  intro fuel
  induction fuel with
  | zero => intro done e d it s _ hl; omega
  | succ fuel ih =>
    intro done e d it s hall hlen inv hit h0 ok st hen hch hI
    obtain ⟨d1, s1, hb1, hk, hI1⟩ := hbody done e (pending d it) d s hall hI inv hit hch.cur.mem
    have hprep : pending d1 it = pending d it ∧ ItOk d1 it ∧ Inv hash d1 ∧ d1.iterators = n ∧ d1.ht0.isSome ∧
        (∀ e' ∈ it.next, AtEntry d1 it e') := by
      rcases hk with rfl | ⟨r, hd⟩
      · exact ⟨rfl, ok, inv, hit, h0, hch.rest⟩
      · obtain ⟨hp, ok', _, hoth⟩ := delete_pending d inv (by rw [hit]; exact hn) it ok e hch.cur r d1 hd
        obtain ⟨i1, i2, i3⟩ := delete_iters inv hd
        refine ⟨hp, ok', i1, by rw [i2, hit], by rw [i3, h0], ?_⟩
        intro e' he'
        have hne : e' ≠ e := by
          have := hch.nodup
          simp only [List.nodup_cons] at this
          intro hee; subst hee; exact this.1 he'
        obtain ⟨t, b, ht, hnn, hb, heb⟩ := hch.rest e' he'
        exact hoth e' hne (hch.rest e' he').mem t b ht hb heb
    obtain ⟨hp1, ok1, inv1, hit1, h01, hrest1⟩ := hprep
    simp only [hb1, Option.bind_eq_bind, Option.bind_some]
    unfold iterFor
    rcases iterNext_run d1 inv1 h01 it ok1 st (by rw [hen]; rfl) with ⟨hemp, it', hnx, hidx⟩ | ⟨e', rest, it', hpe, hnx, ok', st', hen', hp', hidx, hloc⟩
    · refine ⟨d1, it', s1, by simp [hnx], ?_, inv1, hit1, hidx, h01⟩
      rw [hp1] at hemp
      rw [hemp] at hall
      rw [← hall]; exact hI1
    · have hch' : ChainAt d1 it' e' := by
        rcases hloc with ⟨hn1, hn2, hn3⟩ | hf
        · have move : ∀ x, AtEntry d1 it x → AtEntry d1 it' x := by
            rintro x ⟨t, b, ht, hnn, hb, hx⟩
            exact ⟨t, b, by rw [hn2]; exact ht, by rw [hn3]; exact hnn, by rw [hn3]; exact hb, hx⟩
          refine ⟨move _ (hrest1 _ (by rw [hn1]; exact List.mem_cons_self)),
            fun x hx => move _ (hrest1 _ (by rw [hn1]; exact List.mem_cons_of_mem _ hx)), ?_⟩
          have := hch.nodup
          rw [hn1] at this
          simp only [List.nodup_cons] at this ⊢
          exact this.2
        · exact hf.chain inv1
      have hlen' : (pending d1 it').length < fuel := by
        have : (pending d it).length = rest.length + 1 := by rw [← hp1, hpe]; rfl
        rw [hp']; omega
      have := ih (done ++ [e]) e' d1 it' s1 (by rw [hp', ← hall, ← hp1, hpe]; simp) hlen' inv1 hit1 h01 ok' st' hen' hch' hI1
      simpa [hnx] using this

/-- Induction principle for a complete pass over a dict, before the release of the iterator. -/
theorem pass_spec {S : Type} (d : Dict K V) (h : Inv hash d) (hpos : 0 ≤ d.iterators) (hun : d.ht0 = none → d.iterators = 0)
    (s0 : S) (body : (K × V) → Dict K V → S → Option (Dict K V × S))
    (I : List (K × V) → Dict K V → S → Prop)
    (hbody : ∀ done e rest d1 s, done ++ e :: rest = d.toList → I done d1 s → Inv hash d1 → d1.iterators = d.iterators + 1 →
      e ∈ d1.toList → ∃ d' s', body e d1 s = some (d', s') ∧ KeepsCur hash e d1 d' ∧ I (done ++ [e]) d' s')
    (hinit : I [] { d with iterators := d.iterators + 1 } s0) :
    ∃ d1 it d2 s', pass d s0 body = some (d1, it, s') ∧ Inv hash d2 ∧ I d.toList d2 s' ∧ d1 = { d2 with iterators := d1.iterators } ∧
      0 ≤ d1.iterators ∧ (d1.ht0 = none → d1.iterators = 0) ∧
      ∀ x : Dict K V, x.iterators = d1.iterators → iterRelease it x = { x with iterators := d.iterators } := by
  unfold pass
  rw [size_spec d h]
  simp only [Option.bind_eq_bind, Option.bind_some, Int.toNat_natCast]
  cases h0 : d.ht0 with
  | none =>
    have hl : d.toList = [] := by
      cases h with
      | empty h0 h1 hr => simp [toList, h0, h1]
      | stable t0 h0' => simp [h0] at h0'
      | rehashing t0 t1 r h0' => simp [h0] at h0'
    refine ⟨d, iterNew, { d with iterators := d.iterators + 1 }, s0, ?_, h.setIters _, by rw [hl]; exact hinit, by cases d; rfl, hpos, hun, ?_⟩
    · simp only [hl, iterFor, iterNext, h0, iterNew, Option.bind_eq_bind, Option.bind_some]
    · intro x hx
      have := hun h0
      rw [this] at hx ⊢
      cases x; simp at hx; subst hx; simp [iterRelease, iterNew]
  | some t0 =>
    have h0s : d.ht0.isSome := by rw [h0]; rfl
    have rel : ∀ (it' : Iter K V), it'.index ≠ -1 → ∀ (d2 : Dict K V), d2.iterators = d.iterators + 1 →
        iterRelease it' d2 = { d2 with iterators := d.iterators } := by
      intro it' hi d2 hit
      unfold iterRelease
      rw [if_pos (Or.inl hi), hit]
      congr 1; omega
    unfold iterFor
    rcases iterNext_new d h h0s with ⟨hemp, it', hnx, hidx⟩ | ⟨e, rest, it', hpe, hnx, ok, st, hen, hp, hidx, hf⟩
    · refine ⟨{ d with iterators := d.iterators + 1 }, it', { d with iterators := d.iterators + 1 }, s0, ?_, h.setIters _, by rw [hemp]; exact hinit, rfl, ?_, ?_, rel it' hidx⟩
      · simp only [hnx, Option.bind_eq_bind, Option.bind_some]
      · simp only []; omega
      · simp [h0]
    · have inv1 := h.setIters (d.iterators + 1)
      have hch : ChainAt { d with iterators := d.iterators + 1 } it' e := FreshAt.chain inv1 hf
      obtain ⟨d', it2, s', he, hI, hi', hit', hidx', h0'⟩ := iterFor_spec (hash := hash) body I d.toList (d.iterators + 1) (by omega) hbody
        d.toList.length [] e { d with iterators := d.iterators + 1 } it' s0 (by rw [hp, hpe]; rfl)
        (by rw [hp, hpe]; simp) inv1 rfl h0s ok st hen hch hinit
      refine ⟨d', it2, d', s', ?_, hi', hI, rfl, by omega, ?_, ?_⟩
      · simp only [hnx, Option.bind_eq_bind, Option.bind_some]
        simp only [Option.bind_eq_bind] at he
        exact he
      · intro hc; rw [hc] at h0'; simp at h0'
      · rw [hit']; exact rel it2 hidx'

/-- Induction principle for a complete pass over a dict. -/
theorem forEach_spec {S : Type} (d : Dict K V) (h : Inv hash d) (hpos : 0 ≤ d.iterators) (hun : d.ht0 = none → d.iterators = 0)
    (s0 : S) (body : (K × V) → Dict K V → S → Option (Dict K V × S))
    (I : List (K × V) → Dict K V → S → Prop)
    (hbody : ∀ done e rest d1 s, done ++ e :: rest = d.toList → I done d1 s → Inv hash d1 → d1.iterators = d.iterators + 1 →
      e ∈ d1.toList → ∃ d' s', body e d1 s = some (d', s') ∧ KeepsCur hash e d1 d' ∧ I (done ++ [e]) d' s')
    (hinit : I [] { d with iterators := d.iterators + 1 } s0) :
    ∃ d2 s', forEach d s0 body = some ({ d2 with iterators := d.iterators }, s') ∧ Inv hash d2 ∧ I d.toList d2 s' := by
  obtain ⟨d1, it, d2, s', h1, h2, h3, h4, _, _, h5⟩ := pass_spec d h hpos hun s0 body I hbody hinit
  refine ⟨d2, s', ?_, h2, h3⟩
  unfold forEach
  simp only [h1, Option.bind_eq_bind, Option.bind_some]
  rw [h5 d1 rfl, h4]

theorem collect_spec (d : Dict K V) (h : Inv hash d) (hpos : 0 ≤ d.iterators) (hun : d.ht0 = none → d.iterators = 0) :
    collect d = some (d, d.toList) := by
  obtain ⟨d2, s', h1, _, h2, h3⟩ := forEach_spec (hash := hash) d h hpos hun [] (fun e d acc => some (d, acc ++ [e]))
    (fun done d2 acc => d2 = { d with iterators := d.iterators + 1 } ∧ acc = done)
    (by
      rintro done e rest d1 s _ ⟨rfl, rfl⟩ _ _ _
      exact ⟨_, _, rfl, Or.inl rfl, rfl, rfl⟩)
    ⟨rfl, rfl⟩
  unfold collect
  rw [h1, h2, h3]

theorem new_inv : Inv hash (new : Dict K V) := .empty rfl rfl rfl

theorem deepCopy_spec (d : Dict K V) (h : Inv hash d) (hpos : 0 ≤ d.iterators) (hun : d.ht0 = none → d.iterators = 0) :
    ∃ c, deepCopy hash d = some (d, c) ∧ Inv hash c ∧ c.toList.Perm d.toList ∧ c.iterators = 0 := by
  obtain ⟨d2, s', h1, _, h2, h3, h4, h5⟩ := forEach_spec (hash := hash) d h hpos hun new
    (fun e d c => do let (_, c) ← set hash c e.1 e.2; some (d, c))
    (fun done d2 c => d2 = { d with iterators := d.iterators + 1 } ∧ Inv hash c ∧ c.toList.Perm done ∧ c.iterators = 0)
    (by
      rintro done e rest d1 s hall ⟨rfl, hi, hp, hit⟩ _ _ _
      obtain ⟨c', hs, hi', hit', _, hp', _⟩ := set_spec s hi e.1 e.2
      refine ⟨_, c', by rw [hs]; rfl, Or.inl rfl, rfl, hi', ?_, by rw [hit', hit]⟩
      have hnot : e.1 ∉ s.toList.map Prod.fst := by
        intro hc
        have hc := (hp.map Prod.fst).mem_iff.mp hc
        have nd := h.nodup
        rw [← hall, List.map_append, List.nodup_append] at nd
        exact nd.2.2 _ hc _ (by simp) rfl
      refine (hp' hnot).trans ?_
      exact (hp.cons e).trans (List.perm_append_singleton e done).symm)
    ⟨rfl, new_inv, by simp [new, toList], rfl⟩
  refine ⟨s', ?_, h3, h4, h5⟩
  unfold deepCopy
  rw [h1, h2]

end Dict
end Metis
