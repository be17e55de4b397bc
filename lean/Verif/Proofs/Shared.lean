import Verif.Spec.Shared
import Verif.Proofs.Cells
/-! Helper lemmas for `Props/Shared.lean`: what an iterator returns while the dict is changed. -/
set_option linter.unusedSectionVars false
set_option linter.unusedSimpArgs false
set_option linter.unusedVariables false
namespace Metis
namespace Cells
variable {K V : Type} [DecidableEq K] {hash : K → Nat}

/-! ### Paths in memory -/

/-- The objects that are met from a pointer on. -/
def Path (m : List (Cell K V)) : Option Nat → List Nat → Prop
  | h, [] => h = none
  | h, a :: as => h = some a ∧ ∃ c, m[a]? = some c ∧ Path m c.next as

theorem Chain.path {m : List (Cell K V)} {h : Option Nat} {b} (c : Chain m h b) : Path m h (addrs b) := by
  induction b generalizing h with
  | nil => exact c
  | cons e es ih =>
    obtain ⟨rfl, n, hm, c⟩ := c
    exact ⟨rfl, _, hm, ih c⟩

theorem Path.det {m : List (Cell K V)} {h : Option Nat} {as bs : List Nat} (p : Path m h as) (q : Path m h bs) : as = bs := by
  induction as generalizing h bs with
  | nil =>
    cases bs with
    | nil => rfl
    | cons b bs => obtain ⟨rfl, _⟩ := q; cases p
  | cons a as ih =>
    obtain ⟨rfl, c, hc, p⟩ := p
    cases bs with
    | nil => cases q
    | cons b bs =>
      obtain ⟨hb, c', hc', q⟩ := q
      cases hb
      rw [hc] at hc'; cases hc'
      rw [ih p q]

theorem Path.split {m : List (Cell K V)} {h : Option Nat} {xs ys : List Nat} (p : Path m h (xs ++ ys)) : ∃ h', Path m h' ys := by
  induction xs generalizing h with
  | nil => exact ⟨h, p⟩
  | cons x xs ih => obtain ⟨_, c, _, p⟩ := p; exact ih p

theorem Path.cell {m : List (Cell K V)} {h : Option Nat} {as : List Nat} (p : Path m h as) : ∀ a ∈ as, ∃ c, m[a]? = some c := by
  induction as generalizing h with
  | nil => simp
  | cons a as ih =>
    obtain ⟨rfl, c, hc, p⟩ := p
    intro x hx
    rcases List.mem_cons.mp hx with rfl | hx
    · exact ⟨c, hc⟩
    · exact ih p x hx

theorem Path.nodup {m : List (Cell K V)} {h : Option Nat} {as : List Nat} (p : Path m h as) : as.Nodup := by
  induction as generalizing h with
  | nil => simp
  | cons a as ih =>
    have p0 := p
    obtain ⟨rfl, c, hc, p⟩ := p
    refine List.nodup_cons.mpr ⟨fun hmem => ?_, ih p⟩
    obtain ⟨xs, ys, rfl⟩ := List.append_of_mem hmem
    obtain ⟨h', q⟩ := p.split
    have hq := q
    obtain ⟨rfl, _⟩ := hq
    have := q.det p0
    have := congrArg List.length this
    simp at this
    omega

theorem Path.off {m m' : List (Cell K V)} {h : Option Nat} {as : List Nat} (p : Path m h as)
    (o : ∀ a ∈ as, ∀ c, m[a]? = some c → ∃ c', m'[a]? = some c' ∧ c'.next = c.next) : Path m' h as := by
  induction as generalizing h with
  | nil => exact p
  | cons a as ih =>
    obtain ⟨rfl, c, hc, p⟩ := p
    obtain ⟨c', h1, h2⟩ := o a (by simp) c hc
    exact ⟨rfl, c', h1, by rw [h2]; exact ih p (fun x hx => o x (by simp [hx]))⟩

/-- Taking an object out of a chain takes at most this object off the path. -/
theorem Path.unlink {m : List (Cell K V)} {h : Option Nat} {as : List Nat} (p : Path m h as) {q a : Nat} {cq c : Cell K V} (hq : m[q]? = some cq)
    (hn : cq.next = some a) (ha : m[a]? = some c) :
    ∃ as', Path (m.set q { cq with next := c.next }) h as' ∧ (∀ x ∈ as', x ∈ as) ∧ ∀ x, x ≠ a → as'.count x = as.count x := by
  have nd := p.nodup
  by_cases hmem : q ∈ as
  swap
  · refine ⟨as, p.off ?_, fun _ => id, fun _ _ => rfl⟩
    intro x hx c' hc'
    refine ⟨c', ?_, rfl⟩
    rw [List.getElem?_set_ne]
    · exact hc'
    · intro e; exact hmem (e ▸ hx)
  · clear nd
    induction as generalizing h with
    | nil => simp at hmem
    | cons b bs ih =>
      have nd := p.nodup
      obtain ⟨rfl, cb, hcb, p⟩ := p
      by_cases hbq : b = q
      · subst hbq
        rw [hq] at hcb; cases hcb
        rw [hn] at p
        cases bs with
        | nil => cases p
        | cons y ys =>
          obtain ⟨hy, cy, hcy, p⟩ := p
          cases hy
          rw [ha] at hcy; cases hcy
          simp only [List.nodup_cons, List.mem_cons, not_or] at nd
          refine ⟨b :: ys, ⟨rfl, { cq with next := c.next }, by simp [(List.getElem?_eq_some_iff.mp hq).1], ?_⟩, ?_, ?_⟩
          · refine p.off ?_
            intro x hx c' hc'
            refine ⟨c', ?_, rfl⟩
            rw [List.getElem?_set_ne]
            · exact hc'
            · intro e; exact nd.1.2 (e ▸ hx)
          · intro x hx
            simp only [List.mem_cons] at hx ⊢
            rcases hx with h | h
            · exact .inl h
            · exact .inr (.inr h)
          · intro x hx
            have hne : (a == x) = false := by simpa using (fun h : a = x => hx h.symm)
            simp [List.count_cons, hne]
      · have hmem' : q ∈ bs := by
          rcases List.mem_cons.mp hmem with h | h
          · exact absurd h.symm hbq
          · exact h
        obtain ⟨as', p', h1, h2⟩ := ih p hmem'
        refine ⟨b :: as', ⟨rfl, cb, by rw [List.getElem?_set_ne (fun h => hbq h.symm)]; exact hcb, p'⟩, ?_, ?_⟩
        · intro x hx
          simp only [List.mem_cons] at hx ⊢
          exact hx.imp id (h1 x)
        · intro x hx
          simp [List.count_cons, h2 x hx]

/-! ### What calls do to memory -/

theorem Touch.cell {k : K} {m m' : List (Cell K V)} (t : Touch k m m') {x : Nat} {c : Cell K V} (h : m[x]? = some c) :
    ∃ c', m'[x]? = some c' ∧ c'.key = c.key ∧ c'.val = c.val := by
  have hlt := (List.getElem?_eq_some_iff.mp h).1
  cases t with
  | same => exact ⟨c, h, rfl, rfl⟩
  | grow c2 h2 => exact ⟨c, by rw [List.getElem?_append_left hlt]; exact h, rfl, rfl⟩
  | unlink q a cq ca hq hn ha hk =>
    by_cases hxa : q = x
    · subst hxa
      rw [h] at hq; cases hq
      exact ⟨_, List.getElem?_set_self hlt, rfl, rfl⟩
    · exact ⟨c, by rw [List.getElem?_set_ne hxa]; exact h, rfl, rfl⟩

theorem Write.cell {k : K} {v : V} {m m' : List (Cell K V)} (t : Write k v m m') {x : Nat} {c : Cell K V} (h : m[x]? = some c) :
    ∃ c', m'[x]? = some c' ∧ c'.key = c.key ∧ c'.next = c.next ∧ (c'.val = c.val ∨ (c.key = k ∧ c'.val = v)) := by
  obtain ⟨a, ca, ha, hk, rfl⟩ := t
  by_cases hxa : a = x
  · subst hxa
    rw [h] at ha; cases ha
    exact ⟨_, List.getElem?_set_self (List.getElem?_eq_some_iff.mp h).1, rfl, rfl, .inr ⟨hk, rfl⟩⟩
  · exact ⟨c, by rw [List.getElem?_set_ne hxa]; exact h, rfl, rfl, .inl rfl⟩

theorem Touch.path {k : K} {m m' : List (Cell K V)} (t : Touch k m m') {h : Option Nat} {as : List Nat} (p : Path m h as) :
    ∃ as', Path m' h as' ∧ (∀ x ∈ as', x ∈ as) ∧ ∀ x c, m[x]? = some c → c.key ≠ k → as'.count x = as.count x := by
  cases t with
  | same => exact ⟨as, p, fun _ => id, fun _ _ _ _ => rfl⟩
  | grow c2 h2 =>
    refine ⟨as, p.off ?_, fun _ => id, fun _ _ _ _ => rfl⟩
    intro a _ c hc
    exact ⟨c, by rw [List.getElem?_append_left (List.getElem?_eq_some_iff.mp hc).1]; exact hc, rfl⟩
  | unlink q a cq ca hq hn ha hk =>
    obtain ⟨as', p', h1, h2⟩ := p.unlink hq hn ha
    refine ⟨as', p', h1, fun x c hc hne => h2 x ?_⟩
    intro e
    subst e
    rw [ha] at hc; cases hc
    exact hne hk

theorem forall₂_left {α β : Type} {R : α → β → Prop} {l : List α} {l' : List β} (h : List.Forall₂ R l l') : ∀ a ∈ l, ∃ b ∈ l', R a b := by
  induction h with
  | nil => simp
  | cons hr _ ih =>
    intro x hx
    rcases List.mem_cons.mp hx with rfl | hx
    · exact ⟨_, by simp, hr⟩
    · obtain ⟨b, hb, h⟩ := ih x hx
      exact ⟨b, by simp [hb], h⟩

/-! ### What an iterator has returned and what it has yet to return -/

/-- `vis` are the objects returned, with the contents they had (`items`); `as` the objects on the path from the saved pointer; `later` the buckets ahead.
`T` are the keys that were absent at some moment, `H` the values that keys have had. Every entry whose key was always there is in exactly one of them,
once. -/
structure Wk (d : Dict K (Nat × V)) (m : List (Cell K V)) (T : List K) (H : K → List V) (items : List (K × V)) (vis as : List Nat) (later : Nat → Nat → Bool)
    (h : Option Nat) : Prop where
  path : Path m h as
  seen : List.Forall₂ (fun a (x : K × V) => ∃ c, m[a]? = some c ∧ c.key = x.1 ∧ x.2 ∈ H x.1) vis items
  now  : ∀ a, a ∈ as ∨ a ∈ addrs d.toList → ∀ c, m[a]? = some c → c.val ∈ H c.key
  live : ∀ a, a ∈ vis ∨ a ∈ as → ∀ c, m[a]? = some c → c.key ∉ T → a ∈ addrs d.toList
  once : ∀ n i e, At d n i e → e.1 ∉ T → vis.count e.2.1 + as.count e.2.1 + (if later n i then 1 else 0) = 1

/-- The buckets an iterator has yet to enter. -/
def ahead (it : Iter) (n i : Nat) : Bool := decide ((n = it.table ∧ it.index < (i : Int)) ∨ it.table < n)

/-- What the dict holds now is among the values that keys have had. -/
theorem now_of {p : Cells K V} {d : Dict K (Nat × V)} (r : Rep p d) (hi : Dict.Inv hash d) {H : K → List V} (h : ∀ k v, val d k = some v → v ∈ H k) :
    ∀ a ∈ addrs d.toList, ∀ c, p.mem[a]? = some c → c.val ∈ H c.key := by
  intro a ha c hc
  obtain ⟨e, he, rfl⟩ := List.mem_map.mp ha
  obtain ⟨n, hcell⟩ := r.cell he
  rw [hc] at hcell; cases hcell
  exact h _ _ (by rw [val, (Dict.abs_eq_some hi e.1 e.2).mpr he]; rfl)

/-- A call on the key `k`, which was or is absent. -/
theorem Wk.call {p p' : Cells K V} {d d' : Dict K (Nat × V)} (r : Rep p d) {T : List K} {H H' : K → List V} {items vis as later h}
    (w : Wk d p.mem T H items vis as later h) {k : K} (t : Touch k p.mem p'.mem) (s : Stays k d d')
    (hH : ∀ x, ∀ u ∈ H x, u ∈ H' x) (hnow : ∀ a ∈ addrs d'.toList, ∀ c, p'.mem[a]? = some c → c.val ∈ H' c.key) :
    ∃ as', Wk d' p'.mem (k :: T) H' items vis as' later h := by
  obtain ⟨as', hp, hsub, hcount⟩ := t.path w.path
  refine ⟨as', hp, ?_, ?_, ?_, ?_⟩
  · refine w.seen.imp ?_
    rintro a x ⟨c, hc, hk, hu⟩
    obtain ⟨c', h1, h2, h3⟩ := t.cell hc
    exact ⟨c', h1, by rw [h2, hk], hH _ _ hu⟩
  · rintro a (ha | ha) c' hc'
    · obtain ⟨c, hc⟩ := w.path.cell a (hsub a ha)
      obtain ⟨c2, h1, h2, h3⟩ := t.cell hc
      rw [hc'] at h1; cases h1
      rw [h2, h3]; exact hH _ _ (w.now a (.inl (hsub a ha)) c hc)
    · exact hnow a ha c' hc'
  · intro a ha c' hc' hn
    have hold : ∃ c, p.mem[a]? = some c := by
      rcases ha with ha | ha
      · obtain ⟨x, _, c, hc, _⟩ := forall₂_left w.seen a ha
        exact ⟨c, hc⟩
      · exact w.path.cell a (hsub a ha)
    obtain ⟨c, hc⟩ := hold
    obtain ⟨c2, h1, h2, _⟩ := t.cell hc
    rw [hc'] at h1; cases h1
    rw [h2] at hn
    simp only [List.mem_cons, not_or] at hn
    have := w.live a (ha.imp id (hsub a)) c hc hn.2
    simp only [addrs, List.mem_map] at this ⊢
    obtain ⟨e, he, rfl⟩ := this
    obtain ⟨nx, hcell⟩ := r.cell he
    rw [hc] at hcell
    have hek : e.1 ≠ k := by
      have : c.key = e.1 := by rw [Option.some.inj hcell]
      rw [← this]; exact hn.1
    obtain ⟨n, i, hat⟩ := mem_at he
    exact ⟨e, ((s.at_ n i e hek).mpr hat).mem, rfl⟩
  · intro n i e hat hn
    simp only [List.mem_cons, not_or] at hn
    have hat' := (s.at_ n i e hn.1).mp hat
    obtain ⟨nx, hcell⟩ := r.cell hat'.mem
    rw [hcount _ _ hcell hn.1]
    exact w.once n i e hat' hn.2

/-- A call that changes the value of a key. -/
theorem Wk.assign {p p' : Cells K V} {d d' : Dict K (Nat × V)} {T : List K} {H H' : K → List V} {items vis as later h}
    (w : Wk d p.mem T H items vis as later h) {k : K} {v : V} (t : Write k v p.mem p'.mem) (s : Places d d')
    (hH : ∀ x, ∀ u ∈ H x, u ∈ H' x) (hv : v ∈ H' k) (hnow : ∀ a ∈ addrs d'.toList, ∀ c, p'.mem[a]? = some c → c.val ∈ H' c.key) :
    Wk d' p'.mem T H' items vis as later h := by
  refine ⟨w.path.off (fun a _ c hc => ?_), ?_, ?_, ?_, ?_⟩
  · obtain ⟨c', h1, _, h2, _⟩ := t.cell hc
    exact ⟨c', h1, h2⟩
  · refine w.seen.imp ?_
    rintro a x ⟨c, hc, hk, hu⟩
    obtain ⟨c', h1, h2, _⟩ := t.cell hc
    exact ⟨c', h1, by rw [h2, hk], hH _ _ hu⟩
  · rintro a (ha | ha) c' hc'
    · obtain ⟨c, hc⟩ := w.path.cell a ha
      obtain ⟨c2, h1, h2, _, h3⟩ := t.cell hc
      rw [hc'] at h1; cases h1
      rcases h3 with h3 | ⟨h3, h4⟩
      · rw [h2, h3]; exact hH _ _ (w.now a (.inl ha) c hc)
      · rw [h2, h3, h4]; exact hv
    · exact hnow a ha c' hc'
  · intro a ha c' hc' hn
    have hold : ∃ c, p.mem[a]? = some c := by
      rcases ha with ha | ha
      · obtain ⟨x, _, c, hc, _⟩ := forall₂_left w.seen a ha
        exact ⟨c, hc⟩
      · exact w.path.cell a ha
    obtain ⟨c, hc⟩ := hold
    obtain ⟨c2, h1, h2, _⟩ := t.cell hc
    rw [hc'] at h1; cases h1
    rw [h2] at hn
    have := w.live a ha c hc hn
    simp only [addrs, List.mem_map] at this ⊢
    obtain ⟨e, he, rfl⟩ := this
    obtain ⟨n, i, hat⟩ := mem_at he
    obtain ⟨e', h3, _, h4⟩ := s.fwd n i e hat
    exact ⟨e', h3.mem, h4⟩
  · intro n i e' hat hn
    obtain ⟨e, h1, h2, h3⟩ := s.bwd n i e' hat
    rw [h3]
    exact w.once n i e h1 (by rw [← h2]; exact hn)

/-- An object is in one place. -/
theorem at_inj {d : Dict K (Nat × V)} (nd : (addrs d.toList).Nodup) {n i n' i' : Nat} {e e'} (h : At d n i e) (h' : At d n' i' e')
    (ha : e.2.1 = e'.2.1) : n = n' ∧ i = i' := by
  obtain ⟨u, b, hu, hb, he⟩ := h
  obtain ⟨u', b', hu', hb', he'⟩ := h'
  have m1 : e.2.1 ∈ addrs u.entries := List.mem_map_of_mem (f := fun e => e.2.1) (List.mem_flatten.mpr ⟨b, List.mem_of_getElem? hb, he⟩)
  have m2 : e.2.1 ∈ addrs u'.entries := by
    rw [ha]; exact List.mem_map_of_mem (f := fun e => e.2.1) (List.mem_flatten.mpr ⟨b', List.mem_of_getElem? hb', he'⟩)
  have same : ∀ w : HashTable K (Nat × V), (addrs w.entries).Nodup → w.tables[i]? = some b → w.tables[i']? = some b' → i = i' := by
    intro w ndw h1 h2
    by_cases hii : i = i'
    · exact hii
    · exact absurd (List.mem_map_of_mem (f := fun e : K × Nat × V => e.2.1) he)
        (disj_buckets ndw h2 h1 (fun h => hii h.symm) _ (by rw [ha]; exact List.mem_map_of_mem (f := fun e : K × Nat × V => e.2.1) he'))
  have hsplit : addrs d.toList = addrs ((d.ht0.map HashTable.entries).getD []) ++ addrs ((d.ht1.map HashTable.entries).getD []) := by
    simp [Dict.toList, addrs]
  rw [hsplit, List.nodup_append] at nd
  match n, n' with
  | 0, 0 =>
    simp only [Dict.tableNo] at hu hu'
    rw [hu] at hu'; cases hu'
    exact ⟨rfl, same u (by simpa [hu] using nd.1) hb hb'⟩
  | 1, 1 =>
    simp only [Dict.tableNo] at hu hu'
    rw [hu] at hu'; cases hu'
    exact ⟨rfl, same u (by simpa [hu] using nd.2.1) hb hb'⟩
  | 0, 1 =>
    simp only [Dict.tableNo] at hu hu'
    exact absurd rfl (nd.2.2 _ (by simpa [hu] using m1) _ (by simpa [hu'] using m2))
  | 1, 0 =>
    simp only [Dict.tableNo] at hu hu'
    exact absurd rfl (nd.2.2 _ (by simpa [hu'] using m2) _ (by simpa [hu] using m1))
  | _ + 2, _ => simp [Dict.tableNo] at hu
  | _, _ + 2 => simp [Dict.tableNo] at hu'

theorem bucket_nodup {d : Dict K (Nat × V)} (nd : (addrs d.toList).Nodup) {n i : Nat} {u b} (hu : Dict.tableNo d n = some u)
    (hb : u.tables[i]? = some b) : (addrs b).Nodup := by
  refine List.Nodup.sublist ?_ nd
  refine (addrs_entries hb).trans ?_
  match n with
  | 0 => simp only [Dict.tableNo] at hu; simp [Dict.toList, hu, addrs]
  | 1 => simp only [Dict.tableNo] at hu; simp [Dict.toList, hu, addrs]
  | _ + 2 => simp [Dict.tableNo] at hu

/-- The iterator goes to the next bucket. -/
theorem Wk.bucket {d : Dict K (Nat × V)} {m : List (Cell K V)} {T : List K} {H : K → List V} {items vis h0} {l l' : Nat → Nat → Bool}
    (w : Wk d m T H items vis [] l h0) (nd : (addrs d.toList).Nodup) {n i : Nat} {u b h} (hu : Dict.tableNo d n = some u)
    (hb : u.tables[i]? = some b) (c : Chain m h b)
    (hl : ∀ n' i' e, At d n' i' e → (l n' i' = true ↔ l' n' i' = true ∨ (n' = n ∧ i' = i))) (hl' : l' n i = false) :
    Wk d m T H items vis (addrs b) l' h := by
  have hat : ∀ a ∈ addrs b, ∃ e, At d n i e ∧ e.2.1 = a := by
    intro a ha
    obtain ⟨e, he, rfl⟩ := List.mem_map.mp ha
    exact ⟨e, ⟨u, b, hu, hb, he⟩, rfl⟩
  refine ⟨c.path, w.seen, ?_, ?_, ?_⟩
  · rintro a (ha | ha) c' hc'
    · obtain ⟨e, he, rfl⟩ := hat a ha
      exact w.now _ (.inr (List.mem_map_of_mem (f := fun e => e.2.1) he.mem)) c' hc'
    · exact w.now a (.inr ha) c' hc'
  · rintro a (ha | ha) c' hc' hn
    · exact w.live a (.inl ha) c' hc' hn
    · obtain ⟨e, he, rfl⟩ := hat a ha
      exact List.mem_map_of_mem (f := fun e => e.2.1) he.mem
  · intro n' i' e he hn
    have h1 := w.once n' i' e he hn
    have h2 := hl n' i' e he
    simp only [List.count_nil, Nat.add_zero] at h1
    by_cases hp : n' = n ∧ i' = i
    · obtain ⟨rfl, rfl⟩ := hp
      have hlt : l n' i' = true := h2.mpr (.inr ⟨rfl, rfl⟩)
      rw [hlt] at h1
      have hmem : e.2.1 ∈ addrs b := by
        obtain ⟨u', b', hu', hb', he'⟩ := he
        rw [hu] at hu'; cases hu'
        rw [hb] at hb'; cases hb'
        exact List.mem_map_of_mem (f := fun e => e.2.1) he'
      have := List.count_eq_one_of_mem (bucket_nodup nd hu hb) hmem
      simp only [hl', this, if_true, Bool.false_eq_true, if_false] at h1 ⊢
      omega
    · have hz : (addrs b).count e.2.1 = 0 := by
        rw [List.count_eq_zero]
        intro hmem
        obtain ⟨e', he', ha⟩ := hat _ hmem
        obtain ⟨rfl, rfl⟩ := at_inj nd he' he ha
        exact hp ⟨rfl, rfl⟩
      have : l n' i' = l' n' i' := by
        rw [Bool.eq_iff_iff, h2]
        constructor
        · rintro (h | h)
          · exact h
          · exact absurd h hp
        · exact .inl
      rw [hz, ← this]
      exact h1

/-- The iterator returns the next object of the path. -/
theorem Wk.take {d : Dict K (Nat × V)} {m : List (Cell K V)} {T : List K} {H : K → List V} {items vis as l} {a : Nat} {c : Cell K V}
    (w : Wk d m T H items vis as l (some a)) (hc : m[a]? = some c) :
    ∃ as', Wk d m T H (items ++ [(c.key, c.val)]) (vis ++ [a]) as' l c.next ∧ as'.length < as.length := by
  have hp := w.path
  cases as with
  | nil => cases hp
  | cons x as =>
    obtain ⟨hx, c', hc', hp⟩ := hp
    cases hx
    rw [hc] at hc'; cases hc'
    refine ⟨as, ⟨hp, ?_, ?_, ?_, ?_⟩, by simp⟩
    · exact List.rel_append w.seen (.cons ⟨c, hc, rfl, w.now a (.inl (by simp)) c hc⟩ .nil)
    · intro y hy
      exact w.now y (hy.imp (fun h => by simp [h]) id)
    · intro y hy
      refine w.live y ?_
      simp only [List.mem_append, List.mem_singleton, List.mem_cons] at hy ⊢
      tauto
    · intro n i e he hn
      have := w.once n i e he hn
      simp only [List.count_append, List.count_cons, List.count_nil] at this ⊢
      omega

/-- The iterator has nothing ahead. -/
theorem Wk.over {d : Dict K (Nat × V)} {m : List (Cell K V)} {T : List K} {H : K → List V} {items vis l h}
    (w : Wk d m T H items vis [] l h) (hl : ∀ n i e, At d n i e → l n i = false) : Wk d m T H items vis [] (fun _ _ => false) none := by
  refine ⟨rfl, w.seen, w.now, w.live, ?_⟩
  intro n i e he hn
  have := w.once n i e he hn
  rw [hl n i e he] at this
  exact this

/-! ### The loop of `Next` -/

/-- The place an iterator points at is inside the tables. -/
structure Ok (d : Dict K (Nat × V)) (it : Iter) : Prop where
  lo : -1 ≤ it.index
  tb : it.table = 0 ∨ (it.table = 1 ∧ d.isRehashing = true ∧ 0 ≤ it.index)

/-- Buckets still to be visited. -/
def left (d : Dict K (Nat × V)) (it : Iter) : Nat :=
  if it.table = 0 then ((d.ht0.map (·.size)).getD 0 - (it.index + 1).toNat) + (d.ht1.map (·.size)).getD 0
  else (d.ht1.map (·.size)).getD 0 - (it.index + 1).toNat

/-- The first call of `Next` counts the iterator. -/
def bump (p : Cells K V) (it : Iter) : Cells K V :=
  if it.index = -1 ∧ it.table = 0 then { p with iterators := p.iterators + 1 } else p

/-- What a call of `Next` does. -/
def Out (p : Cells K V) (d : Dict K (Nat × V)) (T : List K) (H : K → List V) (items : List (K × V)) (vis : List Nat) (n : Nat) (it : Iter)
    (res : Option (Option Nat × Cells K V × Iter)) : Prop :=
  ∃ o it', res = some (o, bump p it, it') ∧ Ok d it' ∧ 0 ≤ it'.index ∧
    ((o = none ∧ Wk d p.mem T H items vis [] (fun _ _ => false) none) ∨
     (∃ a c as', o = some a ∧ p.mem[a]? = some c ∧ it'.entry = some a ∧ it'.next = c.next ∧
       Wk d p.mem T H (items ++ [(c.key, c.val)]) (vis ++ [a]) as' (ahead it') c.next ∧
       (left d it' < left d it ∨ (left d it' = left d it ∧ as'.length < n))))

theorem bump_mem (p : Cells K V) (it : Iter) : (bump p it).mem = p.mem := by unfold bump; split <;> rfl
theorem bump_ht0 (p : Cells K V) (it : Iter) : (bump p it).ht0 = p.ht0 := by unfold bump; split <;> rfl
theorem bump_ht1 (p : Cells K V) (it : Iter) : (bump p it).ht1 = p.ht1 := by unfold bump; split <;> rfl
theorem bump_ri (p : Cells K V) (it : Iter) : (bump p it).rehashIndex = p.rehashIndex := by unfold bump; split <;> rfl

theorem bump_started (p : Cells K V) {it : Iter} (h : 0 ≤ it.index) : bump p it = p := by
  unfold bump; rw [if_neg (by omega)]

/-- A turn of the loop that begins a bucket. -/
def body (fuel : Nat) (q : Cells K V) (tb : Nat) (idx : Int) (nx : Option Nat) : Option (Option Nat × Cells K V × Iter) := do
  let it : Iter := ⟨tb, idx + 1, none, nx⟩
  let t ← tableNo q it.table
  let brk := decide (it.index ≥ (t.size : Int)) && !(q.isRehashing && it.table == 0)
  if brk then some (none, q, it)
  else do
    let it := if it.index ≥ (t.size : Int) then { it with table := 1, index := 0 } else it
    let t ← tableNo q it.table
    if it.index < 0 then none
    match ← t.heads[it.index.toNat]? with
    | none => iterLoop fuel q { it with entry := none }
    | some a => do
      let c ← q.mem[a]?
      some (some a, q, { it with entry := some a, next := c.next })

theorem iterLoop_body (fuel : Nat) (p : Cells K V) (tb : Nat) (idx : Int) (nx : Option Nat) :
    iterLoop (fuel + 1) p ⟨tb, idx, none, nx⟩ = body fuel (bump p ⟨tb, idx, none, nx⟩) tb idx nx := rfl

theorem at_lt {d : Dict K (Nat × V)} {n i : Nat} {e u} (h : At d n i e) (hu : Dict.tableNo d n = some u) : i < u.tables.length := by
  obtain ⟨u', b, hu', hb, _⟩ := h
  rw [hu] at hu'; cases hu'
  exact (List.getElem?_eq_some_iff.mp hb).1

theorem at_tables {d : Dict K (Nat × V)} {n i : Nat} {e} (h : At d n i e) : (n = 0 ∧ d.ht0.isSome) ∨ (n = 1 ∧ d.ht1.isSome) := by
  obtain ⟨u, b, hu, _, _⟩ := h
  match n with
  | 0 => left; simp only [Dict.tableNo] at hu; simp [hu]
  | 1 => right; simp only [Dict.tableNo] at hu; simp [hu]
  | _ + 2 => simp [Dict.tableNo] at hu

theorem loop_run {d : Dict K (Nat × V)} (hi : Dict.Inv hash d) (h0 : d.ht0.isSome) (nd : (addrs d.toList).Nodup) {T : List K} {H : K → List V}
    {items : List (K × V)} {vis : List Nat} :
    ∀ (fuel : Nat) (p : Cells K V) (it : Iter), Tab p.mem p.ht0 d.ht0 → Tab p.mem p.ht1 d.ht1 → p.rehashIndex = d.rehashIndex → Ok d it →
      it.entry = none → Wk d p.mem T H items vis [] (ahead it) none → left d it < fuel → Out p d T H items vis 0 it (iterLoop fuel p it) := by
  intro fuel
  induction fuel with
  | zero => intro p it _ _ _ _ _ _ hb; omega
  | succ fuel ih =>
    intro p it r0 r1 ri ok hen w hb
    obtain ⟨tb, idx, en, nx⟩ := it
    simp only at hen; subst hen
    have hlo : -1 ≤ idx := ok.lo
    have reh : p.isRehashing = d.isRehashing := by simp [isRehashing, Dict.isRehashing, ri]
    -- visiting bucket `i` of table `n`
    have visit : ∀ (n i : Nat) (u : HashTable K (Nat × V)) (b) (h : Option Nat) (res : Option (Option Nat × Cells K V × Iter)),
        (h = none → res = iterLoop fuel (bump p ⟨tb, idx, none, nx⟩) ⟨n, (i : Int), none, nx⟩) →
        (∀ a c, h = some a → p.mem[a]? = some c → res = some (some a, bump p ⟨tb, idx, none, nx⟩, ⟨n, (i : Int), some a, c.next⟩)) →
        Dict.tableNo d n = some u → u.tables[i]? = some b → Chain p.mem h b →
        (∀ n' i' e, At d n' i' e → (ahead ⟨tb, idx, none, nx⟩ n' i' = true ↔ ahead ⟨n, (i : Int), none, nx⟩ n' i' = true ∨ (n' = n ∧ i' = i))) →
        (n = 0 ∨ (n = 1 ∧ d.isRehashing = true)) →
        left d ⟨n, (i : Int), none, nx⟩ < left d ⟨tb, idx, none, nx⟩ →
        Out p d T H items vis 0 ⟨tb, idx, none, nx⟩ res := by
      intro n i u b h res hres hres' hu hb' hc hl hn hlt
      have w' : Wk d p.mem T H items vis (addrs b) (ahead ⟨n, (i : Int), none, nx⟩) h := w.bucket nd hu hb' hc hl (by simp [ahead])
      have ok' : ∀ en' nx', Ok d ⟨n, (i : Int), en', nx'⟩ := by
        intro en' nx'
        refine ⟨by simp only; omega, ?_⟩
        rcases hn with rfl | ⟨rfl, hr⟩
        · exact Or.inl rfl
        · exact Or.inr ⟨rfl, hr, by simp only; omega⟩
      cases b with
      | nil =>
        cases hc
        rw [hres rfl]
        have hbump : bump (bump p ⟨tb, idx, none, nx⟩) ⟨n, (i : Int), none, nx⟩ = bump p ⟨tb, idx, none, nx⟩ := by
          exact bump_started _ (by simp only; omega)
        obtain ⟨o, it', h1, h2, h3, h4⟩ := ih (bump p ⟨tb, idx, none, nx⟩) ⟨n, (i : Int), none, nx⟩ (by rw [bump_mem, bump_ht0]; exact r0)
          (by rw [bump_mem, bump_ht1]; exact r1) (by rw [bump_ri]; exact ri) (ok' none nx) rfl (by rw [bump_mem]; exact w') (by omega)
        rw [hbump] at h1
        rw [bump_mem] at h4
        refine ⟨o, it', h1, h2, h3, ?_⟩
        rcases h4 with h4 | ⟨a, c, as', h5, h6, h7, h8, h9, h10⟩
        · exact .inl h4
        · refine .inr ⟨a, c, as', h5, h6, h7, h8, h9, .inl ?_⟩
          rcases h10 with h10 | ⟨_, h10⟩
          · omega
          · exact absurd h10 (Nat.not_lt_zero _)
      | cons e es =>
        obtain ⟨rfl, nn, hm, hc⟩ := hc
        obtain ⟨as', w2, _⟩ := w'.take hm
        refine ⟨_, _, hres' _ _ rfl hm, ok' _ _, by simp only; omega, .inr ⟨_, _, as', rfl, hm, rfl, rfl, w2, .inl hlt⟩⟩
    have hidx : ¬ (idx + 1 < 0) := by omega
    have hin : ((idx + 1).toNat : Int) = idx + 1 := by omega
    rw [iterLoop_body]
    have breh : (bump p ⟨tb, idx, none, nx⟩).isRehashing = d.isRehashing := by
      simp only [isRehashing, bump_ri]; exact reh
    have qm := bump_mem p ⟨tb, idx, none, nx⟩
    have q0 := bump_ht0 p ⟨tb, idx, none, nx⟩
    have q1 := bump_ht1 p ⟨tb, idx, none, nx⟩
    cases hi with
    | empty h0' => simp [h0'] at h0
    | stable t0 h0' h1' hr w0 ndk =>
      have hri : d.isRehashing = false := by simp [Dict.isRehashing, hr]
      have htb : tb = 0 := by
        rcases ok.tb with h | ⟨_, h, _⟩
        · exact h
        · rw [hri] at h; simp at h
      subst htb
      rw [h0'] at r0
      obtain ⟨t, ht, te⟩ := r0.some_right
      have hs := te.size
      have hat0 : ∀ n' i' e, At d n' i' e → n' = 0 ∧ i' < t0.size := by
        intro n' i' e he
        rcases at_tables he with ⟨rfl, _⟩ | ⟨_, h⟩
        · exact ⟨rfl, by rw [← w0.len]; exact at_lt he h0'⟩
        · simp [h1'] at h
      unfold body
      simp only [tableNo, q0, ht, Option.bind_eq_bind, Option.bind_some, breh, hri, Bool.false_and,
        Bool.not_false, Bool.and_true]
      by_cases hge : idx + 1 ≥ (t.size : Int)
      · refine ⟨none, ⟨0, idx + 1, none, nx⟩, by simp [hge], ⟨by simp only; omega, .inl rfl⟩, by simp only; omega, .inl ⟨rfl, w.over ?_⟩⟩
        intro n' i' e he
        obtain ⟨rfl, hlt⟩ := hat0 _ _ _ he
        simp only [ahead, decide_eq_false_iff_not]
        omega
      · have hlt : (idx + 1).toNat < t0.tables.length := by rw [w0.len]; omega
        obtain ⟨b, hb'⟩ : ∃ b, t0.tables[(idx + 1).toNat]? = some b := ⟨_, List.getElem?_eq_getElem hlt⟩
        obtain ⟨h, hh, hc⟩ := te.chn _ _ hb'
        have := fun res a1 a2 => visit 0 (idx + 1).toNat t0 b h res a1 a2 h0' hb' hc
          (by intro n' i' e he
              have := hat0 _ _ _ he
              simp only [ahead, decide_eq_true_iff]
              omega) (Or.inl rfl)
          (by simp only [left, h0', h1', if_true, Option.map_some, Option.map_none, Option.getD_some, Option.getD_none] at hb ⊢
              rw [w0.len] at hlt; omega)
        simp only [hge, decide_false, Bool.false_eq_true, if_false, q0, ht, Option.bind_some, hidx, hh]
        simp only [hin] at this
        exact this _ (by rintro rfl; rfl) (by rintro a c rfl hm; simp [qm, hm])
    | rehashing t0 t1 r h0' h1' hr hle w0 w1 hsz hemp ndk =>
      have hri : d.isRehashing = true := by simp [Dict.isRehashing, hr]
      have hp1 := w1.size_pos
      rw [h0'] at r0
      rw [h1'] at r1
      obtain ⟨t, ht, te⟩ := r0.some_right
      obtain ⟨t', ht', te'⟩ := r1.some_right
      have hs := te.size
      have hs' := te'.size
      have hat0 : ∀ n' i' e, At d n' i' e → (n' = 0 ∧ i' < t0.size) ∨ (n' = 1 ∧ i' < t1.size) := by
        intro n' i' e he
        rcases at_tables he with ⟨rfl, _⟩ | ⟨rfl, h⟩
        · exact .inl ⟨rfl, by rw [← w0.len]; exact at_lt he h0'⟩
        · exact .inr ⟨rfl, by rw [← w1.len]; exact at_lt he h1'⟩
      unfold body
      rcases ok.tb with htb | ⟨htb, _, hpos⟩
      · simp only at htb; subst htb
        simp only [tableNo, q0, ht, Option.bind_eq_bind, Option.bind_some, breh, hri, beq_self_eq_true,
          Bool.and_true, Bool.not_true, Bool.and_false, Bool.false_eq_true, if_false]
        by_cases hge : idx + 1 ≥ (t.size : Int)
        · have hlt : 0 < t1.tables.length := by rw [w1.len]; omega
          obtain ⟨b, hb'⟩ : ∃ b, t1.tables[0]? = some b := ⟨_, List.getElem?_eq_getElem hlt⟩
          obtain ⟨h, hh, hc⟩ := te'.chn _ _ hb'
          have := fun res a1 a2 => visit 1 0 t1 b h res a1 a2 h1' hb' hc
            (by intro n' i' e he
                have := hat0 _ _ _ he
                simp only [ahead, decide_eq_true_iff]
                omega)
            (Or.inr ⟨rfl, hri⟩)
            (by simp only [left, h0', h1', if_true, Option.map_some, Option.getD_some] at hb ⊢
                simp only [Nat.one_ne_zero, if_false]
                omega)
          have hz : ¬ ((0:Int) < 0) := by omega
          simp only [hge, if_true, q1, ht', Option.bind_some, hz, if_false, Int.toNat_zero, hh]
          exact this _ (by rintro rfl; rfl) (by rintro a c rfl hm; simp [qm, hm])
        · have hlt : (idx + 1).toNat < t0.tables.length := by rw [w0.len]; omega
          obtain ⟨b, hb'⟩ : ∃ b, t0.tables[(idx + 1).toNat]? = some b := ⟨_, List.getElem?_eq_getElem hlt⟩
          obtain ⟨h, hh, hc⟩ := te.chn _ _ hb'
          have := fun res a1 a2 => visit 0 (idx + 1).toNat t0 b h res a1 a2 h0' hb' hc
            (by intro n' i' e he
                have := hat0 _ _ _ he
                simp only [ahead, decide_eq_true_iff]
                omega) (Or.inl rfl)
            (by simp only [left, h0', h1', if_true, Option.map_some, Option.getD_some] at hb ⊢
                rw [w0.len] at hlt; omega)
          simp only [hge, if_false, q0, ht, Option.bind_some, hidx, hh]
          simp only [hin] at this
          exact this _ (by rintro rfl; rfl) (by rintro a c rfl hm; simp [qm, hm])
      · simp only at htb hpos; subst htb
        simp only [tableNo, q1, ht', Option.bind_eq_bind, Option.bind_some, breh, hri,
          Bool.true_and, beq_iff_eq]
        by_cases hge : idx + 1 ≥ (t'.size : Int)
        · refine ⟨none, ⟨1, idx + 1, none, nx⟩, by simp [hge], ⟨by simp only; omega, .inr ⟨rfl, hri, by simp only; omega⟩⟩, by simp only; omega,
            .inl ⟨rfl, w.over ?_⟩⟩
          intro n' i' e he
          have := hat0 _ _ _ he
          simp only [ahead, decide_eq_false_iff_not]
          omega
        · have hlt : (idx + 1).toNat < t1.tables.length := by rw [w1.len]; omega
          obtain ⟨b, hb'⟩ : ∃ b, t1.tables[(idx + 1).toNat]? = some b := ⟨_, List.getElem?_eq_getElem hlt⟩
          obtain ⟨h, hh, hc⟩ := te'.chn _ _ hb'
          have := fun res a1 a2 => visit 1 (idx + 1).toNat t1 b h res a1 a2 h1' hb' hc
            (by intro n' i' e he
                have := hat0 _ _ _ he
                simp only [ahead, decide_eq_true_iff]
                omega) (Or.inr ⟨rfl, hri⟩)
            (by simp only [left, h0', h1', Option.map_some, Option.getD_some, Nat.one_ne_zero, if_false] at hb ⊢
                rw [w1.len] at hlt; omega)
          simp only [hge, decide_false, Bool.false_and, Bool.false_eq_true, if_false, q1, ht', Option.bind_some, hidx, hh]
          simp only [hin] at this
          exact this _ (by rintro rfl; rfl) (by rintro a c rfl hm; simp [qm, hm])

/-- `Next` of an iterator that has not begun. -/
theorem next_new {p : Cells K V} {d : Dict K (Nat × V)} (r : Rep p d) (hi : Dict.Inv hash d) (h0 : d.ht0.isSome) (T : List K) {H : K → List V}
    (hH : ∀ k v, val d k = some v → v ∈ H k) : Out p d T H [] [] 0 iterNew (iterNext p iterNew) := by
  have h0' := h0
  cases hu : d.ht0 with
  | none => rw [hu] at h0; cases h0
  | some u =>
    have t0 := r.t0
    rw [hu] at t0
    obtain ⟨t, ht, te⟩ := t0.some_right
    simp only [iterNext, ht]
    refine loop_run hi h0' r.nd _ p iterNew r.t0 r.t1 r.ri ⟨by simp [iterNew], .inl rfl⟩ rfl ⟨rfl, .nil, ?_, by simp, ?_⟩ ?_
    · intro a ha
      exact now_of r hi hH a (by simpa using ha)
    · intro n i e he hn
      have : ahead iterNew n i = true := by
        refine decide_eq_true ?_
        rcases Nat.eq_zero_or_pos n with h | h
        · exact .inl ⟨h, by show (-1 : Int) < _; omega⟩
        · exact .inr h
      simp [this]
    · have h1 : (d.ht1.map (·.size)).getD 0 = (p.ht1.map (·.size)).getD 0 := by
        have t1 := r.t1
        cases hv : d.ht1 with
        | none => rw [hv] at t1; cases hp : p.ht1 with
          | none => rfl
          | some _ => rw [hp] at t1; exact t1.elim
        | some v =>
          rw [hv] at t1
          obtain ⟨t', ht', te'⟩ := t1.some_right
          simp [ht', te'.size]
      simp only [left, iterNew, hu, if_true, Option.map_some, Option.getD_some, h1, te.size]
      omega

/-- `Next` of an iterator that has returned an entry. -/
theorem next_on {p : Cells K V} {d : Dict K (Nat × V)} (r : Rep p d) (hi : Dict.Inv hash d) (h0 : d.ht0.isSome) {T : List K} {H : K → List V} {items vis as}
    {it : Iter} {a : Nat} (hen : it.entry = some a) (ok : Ok d it) (hpos : 0 ≤ it.index)
    (w : Wk d p.mem T H items vis as (ahead it) it.next) : Out p d T H items vis as.length it (iterNext p it) := by
  have h0' := h0
  cases hu : d.ht0 with
  | none => rw [hu] at h0; cases h0
  | some u =>
    have t0 := r.t0
    rw [hu] at t0
    obtain ⟨t, ht, te⟩ := t0.some_right
    have h1 : (d.ht1.map (·.size)).getD 0 = (p.ht1.map (·.size)).getD 0 := by
      have t1 := r.t1
      cases hv : d.ht1 with
      | none => rw [hv] at t1; cases hp : p.ht1 with
        | none => rfl
        | some _ => rw [hp] at t1; exact t1.elim
      | some v =>
        rw [hv] at t1
        obtain ⟨t', ht', te'⟩ := t1.some_right
        simp [ht', te'.size]
    have hleft : left d it ≤ t.size + (p.ht1.map (·.size)).getD 0 := by
      simp only [left, hu, Option.map_some, Option.getD_some, h1, te.size]
      split <;> omega
    obtain ⟨tb, idx, en, nx⟩ := it
    simp only at hen hpos
    subst hen
    simp only [iterNext, ht]
    cases nx with
    | none =>
      have has : as = [] := by
        have := w.path
        cases as with
        | nil => rfl
        | cons _ _ => exact absurd this.1 (by simp)
      subst has
      have hl : iterLoop (t.size + (p.ht1.map (·.size)).getD 0 + 2) p ⟨tb, idx, some a, none⟩
          = iterLoop (t.size + (p.ht1.map (·.size)).getD 0 + 1) p ⟨tb, idx, none, none⟩ := by
        conv => lhs; unfold iterLoop
      rw [hl]
      exact loop_run hi h0' r.nd _ p ⟨tb, idx, none, none⟩ r.t0 r.t1 r.ri ⟨ok.lo, ok.tb⟩ rfl w
        (by have : left d ⟨tb, idx, none, none⟩ = left d ⟨tb, idx, some a, none⟩ := rfl
            omega)
    | some b =>
      have hm : ∃ c, p.mem[b]? = some c := by
        have hp := w.path
        cases as with
        | nil => cases hp
        | cons x _ =>
          obtain ⟨hx, c, hc, _⟩ := hp
          cases hx
          exact ⟨c, hc⟩
      obtain ⟨c, hc⟩ := hm
      obtain ⟨as', w', hlen⟩ := w.take hc
      refine ⟨some b, ⟨tb, idx, some b, c.next⟩, ?_, ⟨ok.lo, ok.tb⟩, hpos, .inr ⟨b, c, as', rfl, hc, rfl, rfl, w', .inr ⟨rfl, hlen⟩⟩⟩
      unfold iterLoop
      rw [bump_started _ hpos]
      simp [hc]

/-! ### A finished pass -/

theorem forall₂_mem {α β : Type} {R P : α → β → Prop} {l : List α} {l' : List β} (h : List.Forall₂ R l l')
    (f : ∀ x ∈ l, ∀ y, R x y → P x y) : List.Forall₂ P l l' := by
  induction h with
  | nil => exact .nil
  | cons hr _ ih => exact .cons (f _ (by simp) _ hr) (ih (fun x hx => f x (by simp [hx])))

theorem filter_length {vis : List Nat} {items : List (K × V)} {k : K} {a : Nat}
    (h : List.Forall₂ (fun x (y : K × V) => y.1 = k ↔ x = a) vis items) : (items.filter (fun x => x.1 = k)).length = vis.count a := by
  induction h with
  | nil => simp
  | @cons x y l l' hr _ ih =>
    by_cases hx : x = a
    · have hy := hr.mpr hx
      subst hx
      simp [List.count_cons, ih, hy]
    · have hy : ¬ y.1 = k := fun h => hx (hr.mp h)
      simp [List.count_cons, ih, hx, hy]

theorem key_entry {d : Dict K (Nat × V)} (hi : Dict.Inv hash d) {e e' : K × Nat × V} (he : e ∈ d.toList) (he' : e' ∈ d.toList) (h : e.1 = e'.1) :
    e = e' := by
  have h1 := (Dict.find?_key_iff hi.nodup e.1 e).mpr ⟨he, rfl⟩
  have h2 := (Dict.find?_key_iff hi.nodup e.1 e').mpr ⟨he', h.symm⟩
  rw [h1] at h2
  exact Option.some.inj h2

/-- A finished pass has returned every key that was always there exactly once. -/
theorem Wk.result {p : Cells K V} {d : Dict K (Nat × V)} (r : Rep p d) (hi : Dict.Inv hash d) {T : List K} {H : K → List V} {items vis}
    (w : Wk d p.mem T H items vis [] (fun _ _ => false) none) {k : K} (hk : k ∉ T) (hv : val d k ≠ none) :
    (items.filter (fun x => x.1 = k)).length = 1 := by
  cases hv' : d.abs k with
  | none => exact absurd (by simp [val, hv']) hv
  | some x =>
    obtain ⟨a, v⟩ := x
    have he := (Dict.abs_eq_some hi k (a, v)).mp hv'
    obtain ⟨n, i, hat⟩ := mem_at he
    have hone := w.once n i _ hat hk
    simp only [List.count_nil, Bool.false_eq_true, if_false, Nat.add_zero] at hone
    rw [filter_length (a := a) (forall₂_mem w.seen (P := fun x (y : K × V) => y.1 = k ↔ x = a) (by
      rintro x hx y ⟨c, hc, h1, _⟩
      constructor
      · intro hy
        have := w.live x (.inl hx) c hc (by rw [h1, hy]; exact hk)
        obtain ⟨e, he', rfl⟩ := List.mem_map.mp this
        obtain ⟨nx, hcell⟩ := r.cell he'
        rw [hc] at hcell
        cases hcell
        rw [key_entry hi he' he (h1.trans hy)]
      · rintro rfl
        obtain ⟨nx, hcell⟩ := r.cell he
        rw [hc] at hcell
        cases hcell
        exact h1.symm))]
    exact hone

/-- What was collected, the keys had. -/
theorem Wk.had {d : Dict K (Nat × V)} {m : List (Cell K V)} {T : List K} {H : K → List V} {items vis as l h} (w : Wk d m T H items vis as l h) :
    ∀ x ∈ items, x.2 ∈ H x.1 := by
  have : ∀ {vis : List Nat} {items : List (K × V)}, List.Forall₂ (fun a (x : K × V) => ∃ c : Cell K V, m[a]? = some c ∧ c.key = x.1 ∧ x.2 ∈ H x.1) vis items →
      ∀ x ∈ items, x.2 ∈ H x.1 := by
    intro vis items h
    induction h with
    | nil => simp
    | cons hr _ ih =>
      obtain ⟨_, _, _, hr⟩ := hr
      simp only [List.mem_cons, forall_eq_or_imp]
      exact ⟨hr, ih⟩
  exact this w.seen

/-! ### The machine -/

/-- What is known about a loop: `T` are the keys that were absent at some moment since it began, `H` the values that keys have had since. -/
inductive WInv (d : Dict K (Nat × V)) (m : List (Cell K V)) (T : List K) (H : K → List V) : Walker K V → Prop
  | fresh : WInv d m T H ⟨iterNew, [], false, false⟩
  | walking (it items vis as a) (hen : it.entry = some a) (ok : Ok d it) (hpos : 0 ≤ it.index)
      (w : Wk d m T H items vis as (ahead it) it.next) : WInv d m T H ⟨it, items, false, false⟩
  | over (it items vis) (hpos : 0 ≤ it.index) (w : Wk d m T H items vis [] (fun _ _ => false) none) : WInv d m T H ⟨it, items, true, false⟩
  | gone (it items) (h : ∀ k, k ∉ T → H k ≠ [] → (items.filter (fun x => x.1 = k)).length = 1) (h' : ∀ x ∈ items, x.2 ∈ H x.1) :
      WInv d m T H ⟨it, items, true, true⟩

/-- The loop counts in `iterators`. -/
def counted (w : Walker K V) : Bool := decide (0 ≤ w.it.index) && !w.gone

/-- The state of the machine represents `d`, and the loops do what they should. -/
structure SInv (hash : K → Nat) (s : Shared K V) (d : Dict K (Nat × V)) (gs : List (List K × (K → List V))) : Prop where
  rep  : Rep s.dict d
  inv  : Dict.Inv hash d
  init : d.ht0.isSome = true
  cnt  : d.iterators = (s.walkers.countP counted : Nat)
  len  : gs.length = s.walkers.length
  wk   : ∀ (i : Nat) w g, s.walkers[i]? = some w → gs[i]? = some g → WInv d s.dict.mem g.1 g.2 w ∧ (∀ k, k ∉ g.1 → g.2 k ≠ [] → val d k ≠ none) ∧
    ∀ k v, val d k = some v → v ∈ g.2 k

theorem WInv.mono {d : Dict K (Nat × V)} {m : List (Cell K V)} {T H} {w : Walker K V} (h : WInv d m T H w) (hc : counted w = false)
    (d' : Dict K (Nat × V)) (m' : List (Cell K V)) (T' : List K) (H' : K → List V) (hT : ∀ k ∈ T, k ∈ T') (hH : ∀ x, ∀ u ∈ H x, u ∈ H' x)
    (hne : ∀ x, x ∉ T' → H' x ≠ [] → H x ≠ []) : WInv d' m' T' H' w := by
  cases h with
  | fresh => exact .fresh
  | walking it items vis as a hen ok hpos w => simp [counted, hpos] at hc
  | over it items vis hpos w => simp [counted, hpos] at hc
  | gone it items h h' => exact .gone it items (fun k hk hh => h k (fun hm => hk (hT k hm)) (hne k hk hh)) (fun x hx => hH _ _ (h' x hx))

theorem WInv.call {p p' : Cells K V} {d d' : Dict K (Nat × V)} (r : Rep p d) {T} {H H' : K → List V} {w : Walker K V} (h : WInv d p.mem T H w) {k : K}
    (t : Touch k p.mem p'.mem) (s : Stays k d d') (hH : ∀ x, ∀ u ∈ H x, u ∈ H' x) (hne : ∀ x, x ∉ k :: T → H' x ≠ [] → H x ≠ [])
    (hnow : ∀ a ∈ addrs d'.toList, ∀ c, p'.mem[a]? = some c → c.val ∈ H' c.key) : WInv d' p'.mem (k :: T) H' w := by
  cases h with
  | fresh => exact .fresh
  | walking it items vis as a hen ok hpos w =>
    obtain ⟨as', w'⟩ := w.call r t s hH hnow
    refine .walking it items vis as' a hen ⟨ok.lo, ?_⟩ hpos w'
    rcases ok.tb with h | ⟨h1, h2, h3⟩
    · exact .inl h
    · exact .inr ⟨h1, s.reh h2, h3⟩
  | over it items vis hpos w =>
    obtain ⟨as', w'⟩ := w.call r t s hH hnow
    have has : as' = [] := by
      have := w'.path
      cases as' with
      | nil => rfl
      | cons _ _ => exact absurd this.1 (by simp)
    subst has
    exact .over it items vis hpos w'
  | gone it items h h' => exact .gone it items (fun k' hk hh => h k' (fun hm => hk (by simp [hm])) (hne k' hk hh)) (fun x hx => hH _ _ (h' x hx))

theorem WInv.assign {p p' : Cells K V} {d d' : Dict K (Nat × V)} {T} {H H' : K → List V} {w : Walker K V} (h : WInv d p.mem T H w) {k : K} {v : V}
    (t : Write k v p.mem p'.mem) (s : Places d d') (hH : ∀ x, ∀ u ∈ H x, u ∈ H' x) (hne : ∀ x, H' x ≠ [] → H x ≠ []) (hv : v ∈ H' k)
    (hnow : ∀ a ∈ addrs d'.toList, ∀ c, p'.mem[a]? = some c → c.val ∈ H' c.key) : WInv d' p'.mem T H' w := by
  cases h with
  | fresh => exact .fresh
  | walking it items vis as a hen ok hpos w =>
    refine .walking it items vis as a hen ⟨ok.lo, ?_⟩ hpos (w.assign t s hH hv hnow)
    rcases ok.tb with h | ⟨h1, h2, h3⟩
    · exact .inl h
    · exact .inr ⟨h1, s.reh h2, h3⟩
  | over it items vis hpos w => exact .over it items vis hpos (w.assign t s hH hv hnow)
  | gone it items h h' => exact .gone it items (fun x hx hh => h x hx (hne x hh)) (fun x hx => hH _ _ (h' x hx))

theorem countP_zero {ws : List (Walker K V)} (h : ((ws.countP counted : Nat) : Int) = 0) {i : Nat} {w} (hw : ws[i]? = some w) : counted w = false := by
  have : ws.countP counted = 0 := by omega
  rw [List.countP_eq_zero] at this
  simpa using this w (List.mem_of_getElem? hw)

/-- A call that deletes `k` or sets it anew (with the value `u`). -/
theorem SInv.touch {s : Shared K V} {d : Dict K (Nat × V)} {gs} (h : SInv hash s d gs) {p' : Cells K V} {d' : Dict K (Nat × V)} {k : K} {u : List V}
    (r' : Rep p' d') (i' : Dict.Inv hash d') (hits : p'.iterators = s.dict.iterators) (h0 : d'.ht0.isSome = true)
    (hv : ∀ x, x ≠ k → val d' x = val d x) (hk : ∀ v, val d' k = some v → v ∈ u)
    (ht : s.dict.iterators ≠ 0 → Touch k s.dict.mem p'.mem ∧ Stays k d d') :
    SInv hash { s with dict := p' } d' (gs.map (fun g => (k :: g.1, fun x => if x = k then u ++ g.2 x else g.2 x))) := by
  refine ⟨r', i', h0, ?_, by simp [h.len], ?_⟩
  · rw [← r'.its, hits, h.rep.its, h.cnt]
  · intro i w g hw hg
    simp only [List.getElem?_map, Option.map_eq_some_iff] at hg
    obtain ⟨g, hg, rfl⟩ := hg
    obtain ⟨h1, h2, h3⟩ := h.wk i w g hw hg
    have hH : ∀ x, ∀ v ∈ g.2 x, v ∈ (if x = k then u ++ g.2 x else g.2 x) := by
      intro x v hm
      split
      · simp [hm]
      · exact hm
    have hnow : ∀ x v, val d' x = some v → v ∈ (if x = k then u ++ g.2 x else g.2 x) := by
      intro x v hm
      by_cases hx : x = k
      · subst hx; rw [if_pos rfl]; simp [hk v hm]
      · rw [if_neg hx]; rw [hv x hx] at hm; exact h3 x v hm
    have hne : ∀ x, x ∉ k :: g.1 → (if x = k then u ++ g.2 x else g.2 x) ≠ [] → g.2 x ≠ [] := by
      intro x hx hh
      simp only [List.mem_cons, not_or] at hx
      rwa [if_neg hx.1] at hh
    refine ⟨?_, fun x hx hh => ?_, hnow⟩
    · by_cases hz : s.dict.iterators = 0
      · exact h1.mono (countP_zero (by rw [← h.cnt, ← h.rep.its]; exact hz) hw) _ _ _ _ (fun x hx => by simp [hx]) hH hne
      · obtain ⟨t, st⟩ := ht hz
        exact h1.call h.rep t st hH hne (now_of r' i' hnow)
    · have := hne x hx hh
      simp only [List.mem_cons, not_or] at hx
      rw [hv x hx.1]
      exact h2 x hx.2 this

/-- A call that changes the value of `k` to `u`. -/
theorem SInv.assign {s : Shared K V} {d : Dict K (Nat × V)} {gs} (h : SInv hash s d gs) {p' : Cells K V} {d' : Dict K (Nat × V)} {k : K} {u : V}
    (r' : Rep p' d') (i' : Dict.Inv hash d') (hits : p'.iterators = s.dict.iterators) (h0 : d'.ht0.isSome = true)
    (hv : ∀ x, x ≠ k → val d' x = val d x) (hold : val d k ≠ none) (hk : val d' k = some u)
    (ht : s.dict.iterators ≠ 0 → Write k u s.dict.mem p'.mem ∧ Places d d') :
    SInv hash { s with dict := p' } d' (gs.map (fun g => (g.1, fun x => if x = k then u :: g.2 x else g.2 x))) := by
  refine ⟨r', i', h0, ?_, by simp [h.len], ?_⟩
  · rw [← r'.its, hits, h.rep.its, h.cnt]
  · intro i w g hw hg
    simp only [List.getElem?_map, Option.map_eq_some_iff] at hg
    obtain ⟨g, hg, rfl⟩ := hg
    obtain ⟨h1, h2, h3⟩ := h.wk i w g hw hg
    have hH : ∀ x, ∀ v ∈ g.2 x, v ∈ (if x = k then u :: g.2 x else g.2 x) := by
      intro x v hm
      split
      · simp [hm]
      · exact hm
    have hnow : ∀ x v, val d' x = some v → v ∈ (if x = k then u :: g.2 x else g.2 x) := by
      intro x v hm
      by_cases hx : x = k
      · subst hx; rw [if_pos rfl]; rw [hk] at hm; cases hm; simp
      · rw [if_neg hx]; rw [hv x hx] at hm; exact h3 x v hm
    have hne : ∀ x, (if x = k then u :: g.2 x else g.2 x) ≠ [] → g.2 x ≠ [] := by
      intro x hh
      by_cases hx : x = k
      · subst hx
        cases hx : val d x with
        | none => exact absurd hx hold
        | some v => exact List.ne_nil_of_mem (h3 x v hx)
      · rwa [if_neg hx] at hh
    refine ⟨?_, fun x hx hh => ?_, hnow⟩
    · by_cases hz : s.dict.iterators = 0
      · exact h1.mono (countP_zero (by rw [← h.cnt, ← h.rep.its]; exact hz) hw) _ _ _ _ (fun x hx => hx) hH (fun x _ => hne x)
      · obtain ⟨t, st⟩ := ht hz
        exact h1.assign t st hH hne (by simp) (now_of r' i' hnow)
    · have := hne x hh
      by_cases hxk : x = k
      · subst hxk; rw [hk]; simp
      · rw [hv x hxk]; exact h2 x hx this

/-- A call that changes nothing. -/
theorem SInv.read {s : Shared K V} {d : Dict K (Nat × V)} {gs} (h : SInv hash s d gs) {p' : Cells K V} {d' : Dict K (Nat × V)}
    (r' : Rep p' d') (same : Dict.Same hash d d') (hf : s.dict.iterators ≠ 0 → p' = s.dict) :
    SInv hash { s with dict := p' } d' gs := by
  refine ⟨r', same.inv, by rw [same.init]; exact h.init, by rw [same.iters]; exact h.cnt, h.len, ?_⟩
  intro i w g hw hg
  have hval : val d' = val d := by funext x; simp only [val]; rw [same.abs h.inv]
  obtain ⟨h1, h2⟩ := h.wk i w g hw hg
  rw [hval]
  refine ⟨?_, h2⟩
  by_cases hz : s.dict.iterators = 0
  · exact h1.mono (countP_zero (by rw [← h.cnt, ← h.rep.its]; exact hz) hw) _ _ _ _ (fun x hx => hx) (fun _ _ h => h) (fun _ _ h => h)
  · rw [hf hz, same.froz (by rw [← h.rep.its]; exact hz)]
    exact h1

open Spec.SharedS

/-- How the ghost parts of the loops change. -/
def ghost (v : K → Option V) (gs : List (List K × (K → List V))) : Move K V → List (List K × (K → List V))
  | .call (.set k u) =>
    if (v k).isNone then gs.map (fun g => (k :: g.1, fun x => if x = k then [u] ++ g.2 x else g.2 x))
    else gs.map (fun g => (g.1, fun x => if x = k then u :: g.2 x else g.2 x))
  | .call (.delete k) => gs.map (fun g => (k :: g.1, fun x => if x = k then [] ++ g.2 x else g.2 x))
  | .enter => gs ++ [([], fun x => (v x).toList)]
  | _ => gs

theorem val_none {d : Dict K (Nat × V)} {k : K} : val d k = none ↔ k ∉ d.toList.map Prod.fst := by
  rw [val, Option.map_eq_none_iff, Dict.abs_eq_none]

theorem set_val {p : Cells K V} {d : Dict K (Nat × V)} (r : Rep p d) (hi : Dict.Inv hash d) (k : K) (v : V) :
    ∃ p' d', set hash p k v = some ((val d k).isNone, p') ∧ Rep p' d' ∧ Dict.Inv hash d' ∧ p'.iterators = p.iterators ∧
      d'.ht0.isSome = true ∧ val d' = put (val d) (.set k v) ∧
      (val d k = none → p.iterators ≠ 0 → Touch k p.mem p'.mem ∧ Stays k d d') ∧
      (val d k ≠ none → p.iterators ≠ 0 → Write k v p.mem p'.mem ∧ Places d d') := by
  have fin : ∀ {d' : Dict K (Nat × V)} {a : Nat}, d'.abs = (fun x => if k = x then some (a, v) else d.abs x) → val d' = put (val d) (.set k v) := by
    intro d' a h
    funext x
    simp only [val, h, put]
    by_cases hx : k = x
    · simp [hx]
    · rw [if_neg hx, if_neg (fun h => hx h.symm)]
  by_cases hk : k ∈ d.toList.map Prod.fst
  · obtain ⟨p', d', a, h1, h2, h3, h4, h5, h6, h7⟩ := set_old r hi k v hk
    have hn : (val d k).isNone = false := by
      cases hv : val d k with
      | none => exact absurd hk (val_none.mp hv)
      | some _ => rfl
    exact ⟨p', d', by rw [hn]; exact h1, h2, h3, h4, h6, fin (Dict.set_abs hi h3 (fun h => absurd hk h) (fun _ => h5)),
      fun h => absurd hk (val_none.mp h), fun _ => h7⟩
  · obtain ⟨p', d', a, h1, h2, h3, h4, h5, h6, h7⟩ := set_new r hi k v hk
    have hn : (val d k).isNone = true := by rw [val_none.mpr hk]; rfl
    exact ⟨p', d', by rw [hn]; exact h1, h2, h3, h4, h6, fin (Dict.set_abs hi h3 (fun _ => h5) (fun h => absurd h hk)),
      fun _ => h7, fun h => absurd (val_none.mpr hk) h⟩

theorem delete_val {p : Cells K V} {d : Dict K (Nat × V)} (r : Rep p d) (hi : Dict.Inv hash d) (h0 : d.ht0.isSome = true) (k : K) :
    ∃ p' d', delete hash p k = some (if (val d k).isSome then none else some .keyNotFound, p') ∧ Rep p' d' ∧ Dict.Inv hash d' ∧
      p'.iterators = p.iterators ∧ d'.ht0.isSome = true ∧ val d' = put (val d) (.delete k) ∧
      (p.iterators ≠ 0 → Touch k p.mem p'.mem ∧ Stays k d d') := by
  obtain ⟨p', d', res, h1, h2, h3, h4, h5⟩ := delete_rep r hi k
  obtain ⟨res', d2, g1, g2, g3, g4, g5, g6, g7⟩ := Dict.delete_spec d hi k
  rw [h2] at g1
  cases g1
  refine ⟨p', d', ?_, h3, g2, h4, by rw [g4]; exact h0, ?_, h5⟩
  · rw [h1]
    cases hv : d.abs k with
    | none => rw [(g6 h0 ((Dict.abs_eq_none k).mp hv)).1]; simp [val, hv]
    | some x => rw [(g7 x hv).1]; simp [val, hv]
  · funext x
    cases hv : d.abs k with
    | none =>
      have := Dict.abs_perm hi (g6 h0 ((Dict.abs_eq_none k).mp hv)).2
      simp only [val, this, put]
      by_cases hx : x = k
      · subst hx; simp [hv]
      · rw [if_neg hx]
    | some y =>
      have := Dict.abs_of_perm_uncons hi g2 (g7 y hv).2
      simp only [val, this, put]
      by_cases hx : k = x
      · simp [hx]
      · rw [if_neg hx, if_neg (fun h => hx h.symm)]

/-- The number of iterators changes; nothing else does. -/
theorem WInv.iters {d : Dict K (Nat × V)} {m : List (Cell K V)} {T H} {w : Walker K V} (h : WInv d m T H w) (n : Int) :
    WInv { d with iterators := n } m T H w := by
  cases h with
  | fresh => exact .fresh
  | walking it items vis as a hen ok hpos w => exact .walking it items vis as a hen ⟨ok.lo, ok.tb⟩ hpos ⟨w.path, w.seen, w.now, w.live, w.once⟩
  | over it items vis hpos w => exact .over it items vis hpos ⟨w.path, w.seen, w.now, w.live, w.once⟩
  | gone it items h h' => exact .gone it items h h'

/-- One loop makes a step; the number of iterators changes as the loop says. -/
theorem SInv.walker {s : Shared K V} {d : Dict K (Nat × V)} {gs} (h : SInv hash s d gs) {i : Nat} {w w' : Walker K V} {n : Int}
    (hw : s.walkers[i]? = some w)
    (hn : n + (if counted w then 1 else 0) = s.dict.iterators + (if counted w' then 1 else 0))
    (hw' : ∀ g, gs[i]? = some g → WInv d s.dict.mem g.1 g.2 w → WInv d s.dict.mem g.1 g.2 w') :
    SInv hash ⟨{ s.dict with iterators := n }, s.walkers.set i w'⟩ { d with iterators := n } gs := by
  have hlt := (List.getElem?_eq_some_iff.mp hw).1
  have hget := (List.getElem?_eq_some_iff.mp hw).2
  refine ⟨⟨h.rep.t0, h.rep.t1, h.rep.ri, rfl, h.rep.nd⟩, h.inv.setIters n, h.init, ?_, by simp [h.len], ?_⟩
  · have hc := List.countP_set (p := counted) hlt (a := w')
    rw [hget] at hc
    have hle : (if counted w = true then 1 else 0) ≤ s.walkers.countP counted := by
      split
      · rename_i hcw
        exact List.countP_pos_iff.mpr ⟨w, List.mem_of_getElem? hw, hcw⟩
      · exact Nat.zero_le _
    have h1 := h.rep.its
    have h2 := h.cnt
    show n = ((s.walkers.set i w').countP counted : Nat)
    rw [hc]
    rw [h1, h2] at hn
    clear hc h1 h2 hw' hw hget
    by_cases c1 : counted w = true <;> by_cases c2 : counted w' = true
    all_goals (simp only [c1, c2, if_true, if_false, Bool.false_eq_true] at hn hle ⊢; omega)
  · intro j x g hx hg
    by_cases hj : i = j
    · subst hj
      rw [List.getElem?_set_self hlt] at hx
      cases hx
      obtain ⟨h1, h2⟩ := h.wk i w g hw hg
      exact ⟨(hw' g hg h1).iters n, h2⟩
    · rw [List.getElem?_set_ne hj] at hx
      obtain ⟨h1, h2⟩ := h.wk j x g hx hg
      exact ⟨h1.iters n, h2⟩

/-- A turn of a loop. -/
theorem turn_run {p : Cells K V} {d : Dict K (Nat × V)} (r : Rep p d) (hi : Dict.Inv hash d) (h0 : d.ht0.isSome) {T H} {w : Walker K V}
    (hH : ∀ k v, val d k = some v → v ∈ H k) (hw : WInv d p.mem T H w) (hd : w.done = false) :
    ∃ w', w.turn p = some (w', bump p w.it) ∧ WInv d p.mem T H w' ∧ w'.gone = false ∧ 0 ≤ w'.it.index := by
  have fin : ∀ {it : Iter} {items vis n}, Out p d T H items vis n it (iterNext p it) →
      ∃ w', (Walker.mk it items false false).turn p = some (w', bump p it) ∧ WInv d p.mem T H w' ∧ w'.gone = false ∧ 0 ≤ w'.it.index := by
    rintro it items vis n ⟨o, it', h1, ok, hpos, (⟨rfl, w⟩ | ⟨a, c, as', rfl, hc, hen, hnx, w, _⟩)⟩
    · exact ⟨⟨it', items, true, false⟩, by simp [Walker.turn, h1], .over _ _ _ hpos w, rfl, hpos⟩
    · refine ⟨⟨it', items ++ [(c.key, c.val)], false, false⟩, by simp [Walker.turn, h1, bump_mem, hc], ?_, rfl, hpos⟩
      rw [← hnx] at w
      exact .walking _ _ _ _ _ hen ok hpos w
  cases hw with
  | fresh => exact fin (next_new r hi h0 T hH)
  | walking it items vis as a hen ok hpos w => exact fin (next_on r hi h0 hen ok hpos w)
  | over it items vis hpos w => cases hd
  | gone it items h _ => cases hd

theorem step_run {s : Shared K V} {d : Dict K (Nat × V)} {gs} (h : SInv hash s d gs) (m : Move K V) :
    ∃ s' d', Shared.step hash s m = some (answers (val d) [m], s') ∧ SInv hash s' d' (ghost (val d) gs m) ∧ val d' = after (val d) [m] := by
  cases m with
  | call c =>
    cases c with
    | set k v =>
      obtain ⟨p', d', h1, h2, h3, h4, h5, h6, h7⟩ := set_val h.rep h.inv k v
      refine ⟨{ s with dict := p' }, d', by simp [Shared.step, call, h1, answers, answer], ?_, h6⟩
      obtain ⟨h7, h8⟩ := h7
      cases hv : val d k with
      | none =>
        simp only [ghost, hv, Option.isNone_none, if_true]
        exact h.touch (u := [v]) h2 h3 h4 h5 (fun x hx => by rw [h6]; simp [put, hx]) (fun u hu => by rw [h6] at hu; simp [put] at hu; simp [hu]) (h7 hv)
      | some y =>
        simp only [ghost, hv, Option.isNone_some, Bool.false_eq_true, if_false]
        exact h.assign h2 h3 h4 h5 (fun x hx => by rw [h6]; simp [put, hx]) (by rw [hv]; simp) (by rw [h6]; simp [put]) (h8 (by rw [hv]; simp))
    | get k =>
      obtain ⟨p', d', h1, h2, h3, h4⟩ := get_rep h.rep h.inv k
      refine ⟨{ s with dict := p' }, d', by simp [Shared.step, call, h1, answers, answer], h.read h2 h3 h4, ?_⟩
      funext x
      simp only [val, h3.abs h.inv, after, put]
    | delete k =>
      obtain ⟨p', d', h1, h2, h3, h4, h5, h6, h7⟩ := delete_val h.rep h.inv h.init k
      refine ⟨{ s with dict := p' }, d', by simp [Shared.step, call, h1, answers, answer], ?_, h6⟩
      exact h.touch (u := []) h2 h3 h4 h5 (fun x hx => by rw [h6]; simp [put, hx]) (fun u hu => by rw [h6] at hu; simp [put] at hu) h7
  | enter =>
    refine ⟨_, d, rfl, ⟨h.rep, h.inv, h.init, ?_, by simp [ghost, h.len], ?_⟩, rfl⟩
    · rw [h.cnt, List.countP_append]
      simp [counted, iterNew]
    · intro i w g hw hg
      simp only [ghost] at hg
      by_cases hi : i < s.walkers.length
      · rw [List.getElem?_append_left hi] at hw
        rw [List.getElem?_append_left (by rw [h.len]; exact hi)] at hg
        exact h.wk i w g hw hg
      · rw [List.getElem?_append_right (Nat.le_of_not_lt hi)] at hw
        rw [List.getElem?_append_right (by rw [h.len]; exact Nat.le_of_not_lt hi), h.len] at hg
        have : i - s.walkers.length = 0 := by
          have := (List.getElem?_eq_some_iff.mp hw).1
          simp at this
          omega
        rw [this] at hw hg
        cases hw
        cases hg
        exact ⟨.fresh, fun k _ hh hn => hh (by simp [hn]), fun k u hu => by simp [hu]⟩
  | next i =>
    cases hw : s.walkers[i]? with
    | none => exact ⟨s, d, by simp [Shared.step, hw, answers], h, rfl⟩
    | some w =>
      cases hd : w.done with
      | true => exact ⟨s, d, by simp [Shared.step, hw, hd, answers], h, rfl⟩
      | false =>
        obtain ⟨g, hg⟩ : ∃ g, gs[i]? = some g := by
          have := (List.getElem?_eq_some_iff.mp hw).1
          exact ⟨_, List.getElem?_eq_getElem (by rw [h.len]; exact this)⟩
        obtain ⟨hwi, hval⟩ := h.wk i w g hw hg
        obtain ⟨w', h1, h2, h3, h4⟩ := turn_run h.rep h.inv h.init hval.2 hwi hd
        have hc' : counted w' = true := by simp [counted, h3, h4]
        refine ⟨⟨bump s.dict w.it, s.walkers.set i w'⟩, { d with iterators := (bump s.dict w.it).iterators }, ?_, ?_, rfl⟩
        · simp [Shared.step, hw, hd, h1, answers]
        · have := h.walker (w' := w') (n := (bump s.dict w.it).iterators) hw ?_ ?_
          · have e : { s.dict with iterators := (bump s.dict w.it).iterators } = bump s.dict w.it := by
              unfold bump; split <;> rfl
            rw [e] at this
            exact this
          · rw [hc']
            cases hwi with
            | fresh => simp [bump, iterNew, counted]
            | walking it items vis as a hen ok hpos w => rw [bump_started _ hpos]; simp [counted, hpos]
            | over it items vis hpos w => cases hd
            | gone it items h _ => cases hd
          · intro g' hg' _
            rw [hg] at hg'
            cases hg'
            exact h2
  | leave i =>
    cases hw : s.walkers[i]? with
    | none => exact ⟨s, d, by simp [Shared.step, hw, answers], h, rfl⟩
    | some w =>
      cases hd : (w.done && !w.gone) with
      | false => exact ⟨s, d, by simp [Shared.step, hw, hd, answers], h, rfl⟩
      | true =>
        obtain ⟨g, hg⟩ : ∃ g, gs[i]? = some g := by
          have := (List.getElem?_eq_some_iff.mp hw).1
          exact ⟨_, List.getElem?_eq_getElem (by rw [h.len]; exact this)⟩
        obtain ⟨hwi, hval⟩ := h.wk i w g hw hg
        have key : ∃ it items vis, w = ⟨it, items, true, false⟩ ∧ 0 ≤ it.index ∧ Wk d s.dict.mem g.1 g.2 items vis [] (fun _ _ => false) none := by
          cases hwi with
          | fresh => cases hd
          | walking it items vis as a hen ok hpos w => cases hd
          | over it items vis hpos w => exact ⟨it, items, vis, rfl, hpos, w⟩
          | gone it items h _ => cases hd
        obtain ⟨it, items, vis, rfl, hpos, wk⟩ := key
        have e : iterRelease it s.dict = { s.dict with iterators := s.dict.iterators - 1 } := by
          unfold iterRelease; rw [if_pos (.inl (by omega))]
        refine ⟨_, { d with iterators := s.dict.iterators - 1 }, by simp only [Shared.step, hw, hd, if_true, answers]; rw [e], ?_, rfl⟩
        refine h.walker hw (by simp [counted, hpos]) ?_
        intro g' hg' _
        rw [hg] at hg'
        cases hg'
        exact .gone it items (fun k hk hh => wk.result h.rep h.inv hk (hval.1 k hk hh)) wk.had

/-- The ghost parts after some steps. -/
def ghosts (v : K → Option V) (gs : List (List K × (K → List V))) : List (Move K V) → List (List K × (K → List V))
  | [] => gs
  | m :: ms => ghosts (after v [m]) (ghost v gs m) ms

theorem answers_cons (v : K → Option V) (m : Move K V) (ms : List (Move K V)) : answers v (m :: ms) = answers v [m] ++ answers (after v [m]) ms := by
  cases m <;> rfl

theorem after_cons (v : K → Option V) (m : Move K V) (ms : List (Move K V)) : after v (m :: ms) = after (after v [m]) ms := by
  cases m <;> rfl

theorem after_append (v : K → Option V) (ms ns : List (Move K V)) : after v (ms ++ ns) = after (after v ms) ns := by
  induction ms generalizing v with
  | nil => rfl
  | cons m ms ih => rw [List.cons_append, after_cons, after_cons v m ms, ih]

theorem run_run {s : Shared K V} {d : Dict K (Nat × V)} {gs} (h : SInv hash s d gs) (ms : List (Move K V)) :
    ∃ s' d', Shared.run hash s ms = some (answers (val d) ms, s') ∧ SInv hash s' d' (ghosts (val d) gs ms) ∧ val d' = after (val d) ms := by
  induction ms generalizing s d gs with
  | nil => exact ⟨s, d, rfl, h, rfl⟩
  | cons m ms ih =>
    obtain ⟨s1, d1, h1, h2, h3⟩ := step_run h m
    obtain ⟨s2, d2, g1, g2, g3⟩ := ih h2
    refine ⟨s2, d2, ?_, ?_, ?_⟩
    · simp only [Shared.run, h1, Option.bind_eq_bind, Option.bind_some, g1]
      rw [answers_cons (val d) m ms, h3]
    · rw [ghosts, ← h3]; exact g2
    · rw [g3, h3, ← after_cons]

theorem ghosts_append (v : K → Option V) (gs) (ms ns : List (Move K V)) : ghosts v gs (ms ++ ns) = ghosts (after v ms) (ghosts v gs ms) ns := by
  induction ms generalizing v gs with
  | nil => rfl
  | cons m ms ih => simp only [List.cons_append, ghosts, ih]; rw [← after_cons]

theorem ghosts_len (v : K → Option V) (gs) (ms : List (Move K V)) : (ghosts v gs ms).length = gs.length + entered ms := by
  induction ms generalizing v gs with
  | nil => rfl
  | cons m ms ih =>
    rw [ghosts, ih]
    cases m with
    | call c =>
      cases c with
      | set k u => simp only [ghost, entered]; split <;> simp
      | get k => simp [ghost, entered]
      | delete k => simp [ghost, entered]
    | enter => simp [ghost, entered]; omega
    | next i => simp [ghost, entered]
    | leave i => simp [ghost, entered]

theorem ghosts_get (v : K → Option V) (gs) (ms : List (Move K V)) (i : Nat) (T H) (h : gs[i]? = some (T, H)) :
    ∃ T' H', (ghosts v gs ms)[i]? = some (T', H') ∧ (∀ k, k ∈ T' → k ∈ T ∨ ∃ pre post, ms = pre ++ post ∧ after v pre k = none) ∧
      (∀ k u, u ∈ H' k → u ∈ H k ∨ ∃ pre post, ms = pre ++ post ∧ after v pre k = some u) ∧ ∀ k, H k ≠ [] → H' k ≠ [] := by
  induction ms generalizing v gs T H with
  | nil => exact ⟨T, H, h, fun _ h => .inl h, fun _ _ h => .inl h, fun _ h => h⟩
  | cons m ms ih =>
    have key : ∃ T1 H1, (ghost v gs m)[i]? = some (T1, H1) ∧ (∀ k, k ∈ T1 → k ∈ T ∨ v k = none ∨ after v [m] k = none) ∧
        (∀ k u, u ∈ H1 k → u ∈ H k ∨ after v [m] k = some u) ∧ ∀ k, H k ≠ [] → H1 k ≠ [] := by
      cases m with
      | call c =>
        cases c with
        | set x y =>
          have hh : ∀ (k : K) (u : V), u ∈ (if k = x then y :: H k else H k) → u ∈ H k ∨ after v [.call (.set x y)] k = some u := by
            intro k u hu
            by_cases hk : k = x
            · rw [if_pos hk] at hu
              simp only [after, put, if_pos hk]
              rcases List.mem_cons.mp hu with rfl | hu
              · exact .inr rfl
              · exact .inl hu
            · rw [if_neg hk] at hu; exact .inl hu
          have hn : ∀ k : K, H k ≠ [] → (if k = x then y :: H k else H k) ≠ [] := by
            intro k hk; split
            · simp
            · exact hk
          cases hv : v x with
          | none =>
            refine ⟨x :: T, fun k => if k = x then y :: H k else H k, by simp [ghost, hv, h], fun k hk => ?_, hh, hn⟩
            rcases List.mem_cons.mp hk with rfl | hk
            · exact .inr (.inl hv)
            · exact .inl hk
          | some z => exact ⟨T, fun k => if k = x then y :: H k else H k, by simp [ghost, hv, h], fun k hk => .inl hk, hh, hn⟩
        | get x => exact ⟨T, H, h, fun _ h => .inl h, fun _ _ h => .inl h, fun _ h => h⟩
        | delete x =>
          refine ⟨x :: T, fun k => if k = x then [] ++ H k else H k, by simp [ghost, h], fun k hk => ?_, fun k u hu => ?_, fun k hk => ?_⟩
          · rcases List.mem_cons.mp hk with rfl | hk
            · exact .inr (.inr (by simp [after, put]))
            · exact .inl hk
          · left; simpa using hu
          · simpa using hk
      | enter => exact ⟨T, H, by simp only [ghost]; rw [List.getElem?_append_left (List.getElem?_eq_some_iff.mp h).1]; exact h, fun _ h => .inl h, fun _ _ h => .inl h, fun _ h => h⟩
      | next j => exact ⟨T, H, h, fun _ h => .inl h, fun _ _ h => .inl h, fun _ h => h⟩
      | leave j => exact ⟨T, H, h, fun _ h => .inl h, fun _ _ h => .inl h, fun _ h => h⟩
    obtain ⟨T1, H1, h1, h2, h3, h4⟩ := key
    obtain ⟨T2, H2, g1, g2, g3, g4⟩ := ih (after v [m]) _ T1 H1 h1
    have lift : ∀ (k : K) (o : Option V), (∃ pre post, ms = pre ++ post ∧ after (after v [m]) pre k = o) → ∃ pre post, m :: ms = pre ++ post ∧ after v pre k = o := by
      rintro k o ⟨pre, post, rfl, e⟩
      exact ⟨m :: pre, post, rfl, by rw [after_cons]; exact e⟩
    refine ⟨T2, H2, g1, fun k hk => ?_, fun k u hu => ?_, fun k hk => g4 k (h4 k hk)⟩
    · rcases g2 k hk with hk | hk
      · rcases h2 k hk with hk | hk | hk
        · exact .inl hk
        · exact .inr ⟨[], m :: ms, rfl, hk⟩
        · exact .inr ⟨[m], ms, rfl, hk⟩
      · exact .inr (lift k none hk)
    · rcases g3 k u hu with hk | hk
      · rcases h3 k u hk with hk | hk
        · exact .inl hk
        · exact .inr ⟨[m], ms, rfl, hk⟩
      · exact .inr (lift k _ hk)

/-- The loop that was begun after `ms`. -/
theorem ghosts_enter (v : K → Option V) (ms ns : List (Move K V)) :
    ∃ T H, (ghosts v [] (ms ++ .enter :: ns))[entered ms]? = some (T, H) ∧
      (∀ k, k ∈ T → ∃ pre post, ns = pre ++ post ∧ after (after v ms) pre k = none) ∧
      (∀ k u, u ∈ H k → ∃ pre post, ns = pre ++ post ∧ after (after v ms) pre k = some u) ∧ ∀ k, after v ms k ≠ none → H k ≠ [] := by
  rw [ghosts_append, ghosts]
  have hl := ghosts_len v [] ms
  have : (ghost (after v ms) (ghosts v [] ms) .enter)[entered ms]? = some ([], fun x => (after v ms x).toList) := by
    simp only [ghost]
    rw [List.getElem?_append_right (by simp [hl]), hl]
    simp
  obtain ⟨T, H, h1, h2, h3, h4⟩ := ghosts_get (after (after v ms) [.enter]) _ ns _ _ _ this
  refine ⟨T, H, h1, fun k hk => (h2 k hk).resolve_left (by simp), fun k u hu => ?_, fun k hk => h4 k ?_⟩
  · rcases h3 k u hu with h | h
    · exact ⟨[], ns, rfl, by simpa [after] using h⟩
    · exact h
  · cases hv : after v ms k with
    | none => exact absurd hv hk
    | some u => simp

/-- The dict after the first `Set`. -/
theorem start_run (k : K) (v : V) :
    ∃ s d, Shared.step hash (Shared.new : Shared K V) (.call (.set k v)) = some ([.isNew true], s) ∧ SInv hash s d [] ∧
      val d = put (fun _ => none) (.set k v) ∧ s.walkers = [] := by
  have r : Rep (Cells.new : Cells K V) (Dict.new : Dict K (Nat × V)) := ⟨trivial, trivial, rfl, rfl, by simp [Dict.toList, Dict.new, addrs]⟩
  have hv : val (Dict.new : Dict K (Nat × V)) = fun _ => none := by
    funext x; simp [val, Dict.abs, Dict.toList, Dict.new]
  obtain ⟨p', d', h1, h2, h3, h4, h5, h6, _⟩ := set_val r Dict.new_inv k v
  rw [hv] at h1 h6
  refine ⟨⟨p', []⟩, d', by simp [Shared.step, call, Shared.new, h1], ⟨h2, h3, h5, ?_, rfl, by simp⟩, h6, rfl⟩
  rw [← h2.its, h4]
  rfl

/-- A finished loop. -/
theorem SInv.finished {s : Shared K V} {d : Dict K (Nat × V)} {gs} (h : SInv hash s d gs) {i : Nat} {w : Walker K V} {T H}
    (hw : s.walkers[i]? = some w) (hg : gs[i]? = some (T, H)) (hd : w.done = true) (k : K) (hk : k ∉ T) (hh : H k ≠ []) :
    (w.items.filter (fun x => x.1 = k)).length = 1 := by
  obtain ⟨h1, h2, _⟩ := h.wk i w _ hw hg
  cases h1 with
  | fresh => cases hd
  | walking it items vis as a hen ok hpos w => cases hd
  | over it items vis hpos w => exact w.result h.rep h.inv hk (h2 k hk hh)
  | gone it items h h' => exact h k hk hh

/-- Any loop, also one that is still running. -/
theorem SInv.had {s : Shared K V} {d : Dict K (Nat × V)} {gs} (h : SInv hash s d gs) {i : Nat} {w : Walker K V} {T H}
    (hw : s.walkers[i]? = some w) (hg : gs[i]? = some (T, H)) : ∀ x ∈ w.items, x.2 ∈ H x.1 := by
  obtain ⟨h1, h2, _⟩ := h.wk i w _ hw hg
  cases h1 with
  | fresh => simp
  | walking it items vis as a hen ok hpos w => exact w.had
  | over it items vis hpos w => exact w.had
  | gone it items h h' => exact h'

/-! ### Loops end -/

theorem set_set {α : Type} (l : List α) (i : Nat) (a b : α) : (l.set i a).set i b = l.set i b := by simp

theorem ends_on {p : Cells K V} {d : Dict K (Nat × V)} (r : Rep p d) (hi : Dict.Inv hash d) (h0 : d.ht0.isSome) {T : List K} {H : K → List V} (i : Nat) :
    ∀ (l n : Nat) (it : Iter) (items : List (K × V)) (vis as : List Nat) (a : Nat), left d it = l → as.length = n → it.entry = some a → Ok d it →
      0 ≤ it.index → Wk d p.mem T H items vis as (ahead it) it.next → ∀ ws : List (Walker K V), ws[i]? = some ⟨it, items, false, false⟩ →
      ∃ N w', Shared.run hash ⟨p, ws⟩ (List.replicate N (.next i)) = some ([], ⟨p, ws.set i w'⟩) ∧ w'.done = true := by
  intro l
  induction l using Nat.strongRecOn with
  | ind l ihl =>
    intro n
    induction n using Nat.strongRecOn with
    | ind n ihn =>
      intro it items vis as a hl hn hen ok hpos w ws hws
      have hlt := (List.getElem?_eq_some_iff.mp hws).1
      obtain ⟨o, it', h1, ok', hpos', h2⟩ := next_on r hi h0 hen ok hpos w
      rw [bump_started _ hpos] at h1
      rcases h2 with ⟨rfl, w'⟩ | ⟨a', c, as', rfl, hc, hen', hnx, w', hlex⟩
      · refine ⟨1, ⟨it', items, true, false⟩, ?_, rfl⟩
        simp [Shared.run, Shared.step, hws, Walker.turn, h1]
      · have hstep : Shared.step hash ⟨p, ws⟩ (.next i) = some ([], ⟨p, ws.set i ⟨it', items ++ [(c.key, c.val)], false, false⟩⟩) := by
          simp [Shared.step, hws, Walker.turn, h1, hc]
        rw [← hnx] at w'
        have hg : (ws.set i ⟨it', items ++ [(c.key, c.val)], false, false⟩)[i]? = some ⟨it', items ++ [(c.key, c.val)], false, false⟩ :=
          List.getElem?_set_self hlt
        have : ∃ N w', Shared.run hash ⟨p, ws.set i ⟨it', items ++ [(c.key, c.val)], false, false⟩⟩ (List.replicate N (.next i))
            = some ([], ⟨p, (ws.set i ⟨it', items ++ [(c.key, c.val)], false, false⟩).set i w'⟩) ∧ w'.done = true := by
          rcases hlex with hlex | ⟨he, hlex⟩
          · exact ihl _ (by omega) _ it' _ _ as' a' rfl rfl hen' ok' hpos' w' _ hg
          · exact ihn _ (by omega) it' _ _ as' a' (by omega) rfl hen' ok' hpos' w' _ hg
        obtain ⟨N, w2, h3, h4⟩ := this
        refine ⟨N + 1, w2, ?_, h4⟩
        rw [set_set] at h3
        simp [List.replicate_succ, Shared.run, hstep, h3]

theorem ends {s : Shared K V} {d : Dict K (Nat × V)} {gs} (h : SInv hash s d gs) {i : Nat} {w : Walker K V} (hw : s.walkers[i]? = some w) :
    ∃ N s' w', Shared.run hash s (List.replicate N (.next i)) = some ([], s') ∧ s'.walkers[i]? = some w' ∧ w'.done = true := by
  have hlt := (List.getElem?_eq_some_iff.mp hw).1
  obtain ⟨g, hg⟩ : ∃ g, gs[i]? = some g := ⟨_, List.getElem?_eq_getElem (by rw [h.len]; exact hlt)⟩
  have on : ∀ {s : Shared K V} {d : Dict K (Nat × V)} {gs g} {w : Walker K V}, SInv hash s d gs → s.walkers[i]? = some w → gs[i]? = some g → 0 ≤ w.it.index →
      ∃ N s' w', Shared.run hash s (List.replicate N (.next i)) = some ([], s') ∧ s'.walkers[i]? = some w' ∧ w'.done = true := by
    intro s d gs g w h hw hg hp
    have hlt := (List.getElem?_eq_some_iff.mp hw).1
    obtain ⟨h1, _⟩ := h.wk i w g hw hg
    cases h1 with
    | fresh => exact absurd hp (by simp [iterNew])
    | walking it items vis as a hen ok hpos wk =>
      obtain ⟨N, w', h3, h4⟩ := ends_on h.rep h.inv h.init i _ _ it items vis as a rfl rfl hen ok hpos wk s.walkers hw
      exact ⟨N, _, w', h3, List.getElem?_set_self hlt, h4⟩
    | over it items vis hpos wk => exact ⟨0, s, _, rfl, hw, rfl⟩
    | gone it items hh _ => exact ⟨0, s, _, rfl, hw, rfl⟩
  by_cases hp : 0 ≤ w.it.index
  · exact on h hw hg hp
  · obtain ⟨h1, _, hval⟩ := h.wk i w g hw hg
    cases hd : w.done with
    | true => exact ⟨0, s, w, rfl, hw, hd⟩
    | false =>
      obtain ⟨w', t1, _, t3, t4⟩ := turn_run h.rep h.inv h.init hval h1 hd
      obtain ⟨s1, d1, g1, g2, g3⟩ := step_run h (.next i)
      have hs1 : Shared.step hash s (.next i) = some ([], ⟨bump s.dict w.it, s.walkers.set i w'⟩) := by
        simp [Shared.step, hw, hd, t1]
      rw [hs1] at g1
      cases g1
      obtain ⟨N, s2, w2, e1, e2, e3⟩ := on g2 (w := w') (List.getElem?_set_self hlt) hg t4
      refine ⟨N + 1, s2, w2, ?_, e2, e3⟩
      simp [List.replicate_succ, Shared.run, hs1, e1]

/-! ### A counter that is off -/

theorem step_stuck {p : Cells K V} (hit : p.iterators ≠ 0) : stepIfRehashing hash p = some p := by
  simp [stepIfRehashing, rehashStep, hit]

theorem find_stuck {p p' : Cells K V} {k : K} {o} (hit : p.iterators ≠ 0) (h : find hash p k = some (o, p')) : p' = p := by
  unfold find at h
  split at h
  · cases h; rfl
  · rw [step_stuck hit] at h
    simp only [Option.bind_eq_bind, Option.bind_some, Option.bind_eq_some_iff] at h
    obtain ⟨t0, _, e, _, h⟩ := h
    cases e with
    | some a => cases h; rfl
    | none =>
      simp only at h
      split at h
      · cases h; rfl
      · obtain ⟨t1, _, h⟩ := Option.bind_eq_some_iff.mp h
        obtain ⟨r, _, h⟩ := Option.bind_eq_some_iff.mp h
        cases h; rfl

theorem call_stuck {p p' : Cells K V} {c : Call K V} {r : Ret V} (hit : p.iterators ≠ 0) (hr : p.isRehashing = true)
    (h : call hash p c = some (r, p')) : p'.iterators = p.iterators ∧ p'.rehashIndex = p.rehashIndex ∧
      (∀ t t', p.ht0 = some t → p'.ht0 = some t' → t'.size = t.size) := by
  cases c with
  | get k =>
    simp only [call, get, Option.bind_eq_bind, Option.bind_eq_some_iff] at h
    obtain ⟨⟨x, q⟩, ⟨⟨e, q'⟩, hf, h⟩, h'⟩ := h
    have := find_stuck hit hf
    subst this
    cases e with
    | none => simp at h h'; obtain ⟨_, rfl⟩ := h; obtain ⟨_, rfl⟩ := h'; exact ⟨rfl, rfl, fun t t' h1 h2 => by rw [h1] at h2; cases h2; rfl⟩
    | some a =>
      simp only [Option.bind_eq_some_iff] at h
      obtain ⟨c, _, h⟩ := h
      simp at h h'; obtain ⟨_, rfl⟩ := h; obtain ⟨_, rfl⟩ := h'; exact ⟨rfl, rfl, fun t t' h1 h2 => by rw [h1] at h2; cases h2; rfl⟩
  | delete k =>
    simp only [call, delete, Option.bind_eq_bind, Option.bind_eq_some_iff] at h
    obtain ⟨⟨x, q⟩, h, h'⟩ := h
    simp at h'; obtain ⟨_, rfl⟩ := h'
    split at h
    · cases h; exact ⟨rfl, rfl, fun t t' h1 h2 => by rw [h1] at h2; cases h2; rfl⟩
    · rw [step_stuck hit] at h
      simp only [Option.bind_some, Option.bind_eq_some_iff] at h
      obtain ⟨t0, ht0, e, he, h⟩ := h
      cases e with
      | some x =>
        cases h
        refine ⟨rfl, rfl, fun t t' h1 h2 => ?_⟩
        cases h2
        rw [ht0] at h1; cases h1
        simp only [deleteIn, Option.bind_eq_bind, Option.bind_eq_some_iff] at he
        obtain ⟨hd, _, tr, _, he⟩ := he
        cases tr with
        | none => cases he
        | some y =>
          obtain ⟨prev, b⟩ := y
          simp only [Option.bind_eq_some_iff] at he
          obtain ⟨c, _, he⟩ := he
          cases prev with
          | none => cases he; rfl
          | some z =>
            simp only [Option.bind_eq_some_iff] at he
            obtain ⟨cb, _, he⟩ := he
            cases he; rfl
      | none =>
        simp only [hr, Bool.not_true, Bool.false_eq_true, if_false, Option.bind_eq_some_iff] at h
        obtain ⟨t1, _, e, _, h⟩ := h
        cases e with
        | some x => cases h; exact ⟨rfl, rfl, fun t t' h1 h2 => by rw [h1] at h2; cases h2; rfl⟩
        | none => cases h; exact ⟨rfl, rfl, fun t t' h1 h2 => by rw [h1] at h2; cases h2; rfl⟩
  | set k v =>
    simp only [call, set, step_stuck hit, Option.bind_eq_bind, Option.bind_some, Option.bind_eq_some_iff] at h
    obtain ⟨⟨x, q⟩, ⟨⟨ix, q'⟩, hk, h⟩, h'⟩ := h
    simp at h'; obtain ⟨_, rfl⟩ := h'
    have hq : q' = p := by
      simp only [keyIndex, expandIfNeeded, hr, if_true, Option.bind_eq_bind, Option.bind_eq_some_iff] at hk
      obtain ⟨t0, _, e, _, hk⟩ := hk
      cases e with
      | some _ => cases hk; rfl
      | none =>
        simp only [Bool.not_true, Bool.false_eq_true, if_false, Option.bind_eq_some_iff] at hk
        obtain ⟨t1, _, e, _, hk⟩ := hk
        cases e with
        | some _ => cases hk; rfl
        | none => cases hk; rfl
    subst hq
    cases ix with
    | none =>
      simp only [Option.bind_eq_some_iff] at h
      obtain ⟨⟨e, q2⟩, hf, h⟩ := h
      have := find_stuck hit hf
      subst this
      cases e with
      | none => cases h
      | some a =>
        simp only [Option.bind_eq_some_iff] at h
        obtain ⟨c, _, h⟩ := h
        cases h; exact ⟨rfl, rfl, fun t t' h1 h2 => by simp only at h2; rw [h1] at h2; cases h2; rfl⟩
    | some i =>
      simp only [hr, if_true, Option.bind_eq_some_iff] at h
      obtain ⟨t1, _, ⟨m, t1'⟩, _, h⟩ := h
      cases h; exact ⟨rfl, rfl, fun t t' h1 h2 => by simp only at h2; rw [h1] at h2; cases h2; rfl⟩

end Cells
end Metis
