import Verif.Proofs.AbsRef
/-!
The sorted set commands, KEYS, SPOP and RANDOMGET against their versions on views.
-/
set_option linter.unusedSectionVars false
set_option linter.unusedSimpArgs false
set_option linter.unusedVariables false
namespace Metis
open Reply
variable {hash : Bytes → Nat}

/-- both fail, or equal results and related sorted sets -/
def ZO (hash : Bytes → Nat) {ρ : Type} : Option (ρ × Zset) → Option (ρ × AZ) → Prop
  | none, none => True
  | some (r, z), some (r', a) => r = r' ∧ ZRel hash z a
  | _, _ => False

theorem zo_bind {ρ σ : Type} {x : Option (ρ × Zset)} {y : Option (ρ × AZ)} (h : ZO hash x y)
    {f : ρ × Zset → Option (σ × Zset)} {f' : ρ × AZ → Option (σ × AZ)}
    (hf : ∀ r z a, ZRel hash z a → ZO hash (f (r, z)) (f' (r, a))) : ZO hash (x.bind f) (y.bind f') := by
  cases x with
  | none => cases y with
    | none => trivial
    | some q => exact h.elim
  | some p => cases y with
    | none => exact h.elim
    | some q =>
      obtain ⟨r, z⟩ := p; obtain ⟨r', a⟩ := q
      obtain ⟨rfl, hz⟩ := h
      exact hf r z a hz

theorem zo_ref {ρ : Type} {x : Option (ρ × Zset)} {y : Option (ρ × AZ)} (h : ZO hash x y)
    {f : ρ × Zset → Option Out} {f' : ρ × AZ → Option AOut}
    (hf : ∀ r z a, ZRel hash z a → Ref hash (f (r, z)) (f' (r, a))) : Ref hash (x.bind f) (y.bind f') := by
  cases x with
  | none => cases y with
    | none => trivial
    | some q => exact h.elim
  | some p => cases y with
    | none => exact h.elim
    | some q =>
      obtain ⟨r, z⟩ := p; obtain ⟨r', a⟩ := q
      obtain ⟨rfl, hz⟩ := h
      exact hf r z a hz

theorem zget {z : Zset} {a : AZ} (h : ZRel hash z a) (m : Bytes) : ∃ z', Zset.get hash z m = some (a.get m, z') ∧ ZRel hash z' a := by
  obtain ⟨g, h1, h2⟩ := h
  obtain ⟨d, e1, e2, e3, _⟩ := Dict.find_map g m
  refine ⟨{ z with dict := d }, ?_, e2, by rw [← h1]; exact e3, h2⟩
  unfold Zset.get AZ.get
  simp only [e1, Option.bind_eq_bind, Option.bind_some, h1]
  cases a.f m <;> rfl

theorem zadd_one {z : Zset} {a : AZ} (h : ZRel hash z a) (lv : Nat) (sc : F64) (m : Bytes) :
    ZO hash (Zset.add hash z lv sc m) (AZ.add a lv sc m) := by
  obtain ⟨z', h1, h2⟩ := zget h m
  unfold Zset.add AZ.add
  simp only [h1, Option.bind_eq_bind, Option.bind_some]
  obtain ⟨g, hf, hs⟩ := h2
  unfold AZ.get
  cases hm : a.f m with
  | none =>
    obtain ⟨d, e1, e2, e3⟩ := Dict.set_map g m sc
    simp only [Option.map_none, e1, Option.bind_some, hs]
    cases Skiplist.insert a.s lv sc m with
    | none => trivial
    | some p => exact ⟨rfl, e2, by rw [e3, hf]; rfl, rfl⟩
  | some v =>
    simp only [Option.map_some]
    split
    · have hi : (z'.dict.abs m).isSome = true := by rw [hf, hm]; rfl
      obtain ⟨e1, e2⟩ := Dict.assign_map g m sc hi
      simp only [hs]
      cases Skiplist.delete a.s sc m with
      | none => trivial
      | some p =>
        simp only [Option.bind_some]
        cases Skiplist.insert p.2 lv sc m with
        | none => trivial
        | some p => exact ⟨rfl, e1, by simp only [e2, hf]; rfl, rfl⟩
    · exact ⟨rfl, g, hf, hs⟩

theorem zdel_one {z : Zset} {a : AZ} (h : ZRel hash z a) (m : Bytes) : ZO hash (Zset.delete hash z m) (AZ.delete a m) := by
  obtain ⟨z', h1, h2⟩ := zget h m
  unfold Zset.delete AZ.delete
  simp only [h1, Option.bind_eq_bind, Option.bind_some]
  obtain ⟨g, hf, hs⟩ := h2
  unfold AZ.get
  cases hm : a.f m with
  | none => exact ⟨rfl, g, hf, hs⟩
  | some v =>
    obtain ⟨r, d, e1, e2, e3, _⟩ := Dict.delete_map g m
    simp only [Option.map_some, e1, Option.bind_some, hs]
    cases Skiplist.delete a.s v m with
    | none => trivial
    | some p => exact ⟨rfl, e2, by rw [e3, hf]; rfl, rfl⟩

theorem zdrop {h : Nat → SNode} : ∀ (xs : List Nat) {z : Zset} {a : AZ}, ZRel hash z a →
    ∃ z', Zset.dropNodes hash h xs z = some ((AZ.drop h xs a).1, z') ∧ ZRel hash z' (AZ.drop h xs a).2
  | [], z, a, r => ⟨z, rfl, r⟩
  | x :: xs, z, a, r => by
    obtain ⟨z1, h1, g, hf, hs⟩ := zget r (h x).member
    obtain ⟨r, d, e1, e2, e3, _⟩ := Dict.delete_map g (h x).member
    obtain ⟨z2, h2, h3⟩ := zdrop (h := h) xs (z := { z1 with dict := d }) (a := { a with f := upd a.f (h x).member none })
      ⟨e2, by simp only [e3, hf]; rfl, hs⟩
    refine ⟨z2, ?_, h3⟩
    unfold Zset.dropNodes
    simp only [h1, e1, h2, Option.bind_eq_bind, Option.bind_some]
    rfl

theorem zlook {h : Nat → SNode} : ∀ (xs : List Nat) {z : Zset} {a : AZ}, ZRel hash z a →
    ∃ z', Zset.lookNodes hash h xs z = some (AZ.look h xs a, z') ∧ ZRel hash z' a
  | [], z, a, r => ⟨z, rfl, r⟩
  | x :: xs, z, a, r => by
    obtain ⟨z1, h1, r1⟩ := zget r (h x).member
    obtain ⟨z2, h2, h3⟩ := zlook (h := h) xs r1
    refine ⟨z2, ?_, h3⟩
    unfold Zset.lookNodes
    simp only [h1, h2, Option.bind_eq_bind, Option.bind_some]
    rfl

theorem zremRank_one {z : Zset} {a : AZ} (h : ZRel hash z a) (i j : Int) : ZO hash (Zset.deleteRangeByRank hash z i j) (a.remRank i j) := by
  obtain ⟨g, hf, hs⟩ := h
  unfold Zset.deleteRangeByRank AZ.remRank
  simp only [hs, Option.bind_eq_bind]
  generalize Skiplist.deleteRangeByRank a.s _ _ = res
  cases res with
  | none => trivial
  | some p =>
    obtain ⟨z2, h2, h3⟩ := zdrop (h := p.2.heap) p.1 (z := { z with skiplist := p.2 }) (a := { a with s := p.2 }) ⟨g, hf, rfl⟩
    simp only [Option.bind_some, h2]
    exact ⟨rfl, h3⟩

theorem zremScore_one {z : Zset} {a : AZ} (h : ZRel hash z a) (i j : F64) : ZO hash (Zset.deleteRangeByScore hash z i j) (a.remScore i j) := by
  obtain ⟨g, hf, hs⟩ := h
  unfold Zset.deleteRangeByScore AZ.remScore
  simp only [hs, Option.bind_eq_bind]
  generalize Skiplist.deleteRangeByScore a.s _ _ = res
  cases res with
  | none => trivial
  | some p =>
    obtain ⟨z2, h2, h3⟩ := zdrop (h := p.2.heap) p.1 (z := { z with skiplist := p.2 }) (a := { a with s := p.2 }) ⟨g, hf, rfl⟩
    simp only [Option.bind_some, h2]
    exact ⟨rfl, h3⟩

theorem zbyRank_one {z : Zset} {a : AZ} (h : ZRel hash z a) (i j : Int) (b : Bool) :
    ZO hash (Zset.rangeByRank hash z i j b) ((a.byRank i j b).map (fun l => (l, a))) := by
  have h' := h
  obtain ⟨g, hf, hs⟩ := h
  unfold Zset.rangeByRank AZ.byRank
  simp only [hs, Option.bind_eq_bind]
  generalize Skiplist.rangeByRank a.s _ _ _ = res
  cases res with
  | none => trivial
  | some p =>
    obtain ⟨z2, h2, h3⟩ := zlook (h := a.s.heap) p h'
    simp only [Option.bind_some, h2]
    exact ⟨rfl, h3⟩

theorem zbyScore_one {z : Zset} {a : AZ} (h : ZRel hash z a) (i j : F64) (n : Int) (b : Bool) :
    ZO hash (Zset.rangeByScore hash z i j n b) ((a.byScore i j n b).map (fun l => (l, a))) := by
  have h' := h
  obtain ⟨g, hf, hs⟩ := h
  unfold Zset.rangeByScore AZ.byScore
  simp only [hs, Option.bind_eq_bind]
  generalize Skiplist.rangeByScore a.s _ _ _ _ = res
  cases res with
  | none => trivial
  | some p =>
    obtain ⟨z2, h2, h3⟩ := zlook (h := a.s.heap) p h'
    simp only [Option.bind_some, h2]
    exact ⟨rfl, h3⟩

section
variable (e : Env) (he : e.hash = hash) (args : List Bytes) {db : Db} (g : db.Good hash)
include he g

omit g in
theorem zaddLoop_ref : ∀ (n : Nat) (l : List Bytes), l.length ≤ n → ∀ (i : Nat) (c : Nat) {z : Zset} {a : AZ}, ZRel hash z a →
    (Cmds.zaddLoop e l i z c = none ∧ A.zaddLoop e l i a c = none) ∨
    ∃ z' a' r, Cmds.zaddLoop e l i z c = some (z', r) ∧ A.zaddLoop e l i a c = some (a', r) ∧ ZRel hash z' a'
  | n, [], _, i, c, z, a, r => Or.inr ⟨z, a, _, rfl, rfl, r⟩
  | n, [x], _, i, c, z, a, r => Or.inr ⟨z, a, _, rfl, rfl, r⟩
  | 0, _ :: _ :: _, hl, _, _, _, _, _ => by simp at hl
  | n + 1, sc :: m :: rest, hl, i, c, z, a, r => by
    unfold Cmds.zaddLoop A.zaddLoop
    cases e.parseFloat sc with
    | none => exact Or.inr ⟨z, a, _, rfl, rfl, r⟩
    | some score =>
      have := zadd_one r (e.level i) score m
      simp only [he, Option.bind_eq_bind]
      generalize Zset.add hash z (e.level i) score m = x at this
      generalize AZ.add a (e.level i) score m = y at this
      cases x with
      | none => cases y with
        | none => exact Or.inl ⟨rfl, rfl⟩
        | some q => exact this.elim
      | some p => cases y with
        | none => exact this.elim
        | some q =>
          obtain ⟨b, z1⟩ := p; obtain ⟨b', a1⟩ := q
          obtain ⟨rfl, r1⟩ := this
          exact zaddLoop_ref n rest (by simp at hl; omega) (i + 1) _ r1

omit he g in
theorem obj_z {z : Zset} {a : AZ} (r : ZRel hash z a) : (Obj.zset z).view = .zset a ∧ (Obj.zset z).Good hash := by
  obtain ⟨r1, r2, r3⟩ := r
  constructor
  · cases a; simp only at r2 r3; simp [Obj.view, r2, r3]
  · exact r1

theorem zadd_ref : Ref hash (Cmds.zadd e args db) (A.zadd e args db.view) := by
  unfold Cmds.zadd A.zadd
  split
  · exact rel_ex g rfl
  · refine ref_bind _ fun key _ => ?_
    have hn : ZRel hash Zset.new A.zNew := ⟨⟨Dict.new_inv, rfl⟩, abs_new, rfl⟩
    refine ref_new cast_zset e he (.zset Zset.new) (obj_z hn).2 g key (af := .zset A.zNew) (obj_z hn).1 ?_ ?_
    · intro db' g' hl; simp only [hl]; exact rel_ex g' rfl
    · rintro db' a b g' hl r hs
      rcases zaddLoop_ref e he _ (args.drop 2) (Nat.le_refl _) 0 0 r with ⟨h1, h2⟩ | ⟨z', a', ⟨n, c, bad⟩, h1, h2, r1⟩
      · simp only [hl, h1, h2]; trivial
      · simp only [hl, h1, h2, Option.bind_eq_bind, Option.bind_some]
        obtain ⟨o1, o2⟩ := obj_z r1
        obtain ⟨p1, p2⟩ := put_ref e he g' key (.zset z') o2 hs
        rw [o1] at p2
        cases bad with
        | none => exact rel_ex p1 p2
        | some sc => exact rel_ex p1 p2

theorem zcard_ref : Ref hash (Cmds.zcard e args db) (A.zcard e args db.view) := by
  unfold Cmds.zcard A.zcard
  refine ref_bind _ fun key _ => ?_
  refine ref_look cast_zset e he g key ?_ ?_ ?_
  · intro db' g' hv hl; simp only [hl]; exact rel_ex g' hv
  · intro db' g' hv hl; simp only [hl]; exact rel_ex g' hv
  · rintro db' a b g' hv hl r hk hs
    simp only [hl, Zset.size, r.2.2]; exact rel_ex g' hv

theorem zscore_ref : Ref hash (Cmds.zscore e args db) (A.zscore e args db.view) := by
  unfold Cmds.zscore A.zscore
  refine ref_bind _ fun key _ => ?_
  refine ref_look cast_zset e he g key ?_ ?_ ?_
  · intro db' g' hv hl; simp only [hl]; exact rel_ex g' hv
  · intro db' g' hv hl; simp only [hl]; exact rel_ex g' hv
  · rintro db' a b g' hv hl r hk hs
    simp only [hl]
    refine ref_bind _ fun m _ => ?_
    obtain ⟨z', h1, h2⟩ := zget r m
    obtain ⟨o1, o2⟩ := obj_z h2
    obtain ⟨p1, p2⟩ := put_same e he g' key (.zset z') o2 (by rw [hk, o1])
    rw [hv] at p2
    simp only [he, h1, Option.bind_eq_bind, Option.bind_some]
    cases b.get m with
    | none => exact rel_ex p1 p2
    | some el => exact rel_ex p1 p2

theorem zcount_ref : Ref hash (Cmds.zcount e args db) (A.zcount e args db.view) := by
  unfold Cmds.zcount A.zcount
  refine ref_bind _ fun key _ => ?_
  refine ref_bind _ fun a _ => ?_
  cases e.parseFloat a with
  | none => exact rel_ex g rfl
  | some mn =>
    refine ref_bind _ fun b _ => ?_
    cases e.parseFloat b with
    | none => exact rel_ex g rfl
    | some mx =>
      refine ref_look cast_zset e he g key ?_ ?_ ?_
      · intro db' g' hv hl; simp only [hl]; exact rel_ex g' hv
      · intro db' g' hv hl; simp only [hl]; exact rel_ex g' hv
      · rintro db' a b g' hv hl r hk hs
        simp only [hl, Zset.count, r.2.2]
        refine ref_bind _ fun n _ => ?_
        exact rel_ex g' hv

omit he g in
theorem map_bind {α β γ : Type} (x : Option α) (f : α → β) (k : β → Option γ) : (x.map f).bind k = x.bind (fun a => k (f a)) := by
  cases x <;> rfl

theorem zrange_ref : Ref hash (Cmds.zrange e args db) (A.zrange e args db.view) := by
  unfold Cmds.zrange A.zrange
  refine ref_bind _ fun key _ => ?_
  refine ref_bind _ fun a _ => ?_
  cases atoi a with
  | none => exact rel_ex g rfl
  | some mn =>
    refine ref_bind _ fun b _ => ?_
    cases atoi b with
    | none => exact rel_ex g rfl
    | some mx =>
      refine ref_look cast_zset e he g key ?_ ?_ ?_
      · intro db' g' hv hl; simp only [hl]; exact rel_ex g' hv
      · intro db' g' hv hl; simp only [hl]; exact rel_ex g' hv
      · rintro db' z az g' hv hl r hk hs
        simp only [hl, he]
        have hz := zbyRank_one r mn mx false
        generalize Zset.rangeByRank hash z mn mx false = x at hz ⊢
        generalize az.byRank mn mx false = y at hz ⊢
        cases x with
        | none => cases y with
          | none => trivial
          | some q => exact hz.elim
        | some p => cases y with
          | none => exact hz.elim
          | some q =>
            obtain ⟨els, z1⟩ := p
            obtain ⟨rfl, r1⟩ := hz
            obtain ⟨o1, o2⟩ := obj_z r1
            obtain ⟨p1, p2⟩ := put_same e he g' key (.zset z1) o2 (by rw [hk, o1])
            rw [hv] at p2
            simp only [Option.bind_eq_bind, Option.bind_some]
            cases Reply.zset e args els with
            | none => trivial
            | some rr => exact rel_ex p1 p2

theorem zrangeByScore_ref : Ref hash (Cmds.zrangeByScore e args db) (A.zrangeByScore e args db.view) := by
  unfold Cmds.zrangeByScore A.zrangeByScore
  refine ref_bind _ fun key _ => ?_
  refine ref_bind _ fun a _ => ?_
  cases e.parseFloat a with
  | none => exact rel_ex g rfl
  | some mn =>
    refine ref_bind _ fun b _ => ?_
    cases e.parseFloat b with
    | none => exact rel_ex g rfl
    | some mx =>
      refine ref_look cast_zset e he g key ?_ ?_ ?_
      · intro db' g' hv hl; simp only [hl]; exact rel_ex g' hv
      · intro db' g' hv hl; simp only [hl]; exact rel_ex g' hv
      · rintro db' z az g' hv hl r hk hs
        simp only [hl, he]
        have hz := zbyScore_one r mn mx (-1) false
        generalize Zset.rangeByScore hash z mn mx (-1) false = x at hz ⊢
        generalize az.byScore mn mx (-1) false = y at hz ⊢
        cases x with
        | none => cases y with
          | none => trivial
          | some q => exact hz.elim
        | some p => cases y with
          | none => exact hz.elim
          | some q =>
            obtain ⟨els, z1⟩ := p
            obtain ⟨rfl, r1⟩ := hz
            obtain ⟨o1, o2⟩ := obj_z r1
            obtain ⟨p1, p2⟩ := put_same e he g' key (.zset z1) o2 (by rw [hk, o1])
            rw [hv] at p2
            simp only [Option.bind_eq_bind, Option.bind_some]
            cases Reply.zset e args els with
            | none => trivial
            | some rr => exact rel_ex p1 p2

omit g in
theorem zremLoop_ref : ∀ (l : List Bytes) (c : Nat) {z : Zset} {a : AZ}, ZRel hash z a →
    (Cmds.zremLoop e l z c = none ∧ A.zremLoop l a c = none) ∨
    ∃ z' a' r, Cmds.zremLoop e l z c = some (z', r) ∧ A.zremLoop l a c = some (a', r) ∧ ZRel hash z' a'
  | [], c, z, a, r => Or.inr ⟨z, a, _, rfl, rfl, r⟩
  | m :: rest, c, z, a, r => by
    unfold Cmds.zremLoop A.zremLoop
    have := zdel_one r m
    simp only [he, Option.bind_eq_bind]
    generalize Zset.delete hash z m = x at this
    generalize AZ.delete a m = y at this
    cases x with
    | none => cases y with
      | none => exact Or.inl ⟨rfl, rfl⟩
      | some q => exact this.elim
    | some p => cases y with
      | none => exact this.elim
      | some q =>
        obtain ⟨b, z1⟩ := p; obtain ⟨b', a1⟩ := q
        obtain ⟨rfl, r1⟩ := this
        exact zremLoop_ref rest _ r1

theorem zrem_ref : Ref hash (Cmds.zrem e args db) (A.zrem e args db.view) := by
  unfold Cmds.zrem A.zrem
  refine ref_bind _ fun key _ => ?_
  refine ref_look cast_zset e he g key ?_ ?_ ?_
  · intro db' g' hv hl; simp only [hl]; exact rel_ex g' hv
  · intro db' g' hv hl; simp only [hl]; exact rel_ex g' hv
  · rintro db' z az g' hv hl r hk hs
    simp only [hl]
    rcases zremLoop_ref e he (args.drop 2) 0 r with ⟨h1, h2⟩ | ⟨z', a', n, h1, h2, r1⟩
    · rw [h1, h2]; trivial
    · simp only [h1, h2, Option.bind_eq_bind, Option.bind_some]
      obtain ⟨o1, o2⟩ := obj_z r1
      obtain ⟨p1, p2⟩ := put_ref e he g' key (.zset z') o2 hs
      rw [hv, o1] at p2
      exact rel_ex p1 p2

theorem zremRangeByRank_ref : Ref hash (Cmds.zremRangeByRank e args db) (A.zremRangeByRank e args db.view) := by
  unfold Cmds.zremRangeByRank A.zremRangeByRank
  refine ref_bind _ fun key _ => ?_
  refine ref_bind _ fun a _ => ?_
  cases atoi a with
  | none => exact rel_ex g rfl
  | some mn =>
    refine ref_bind _ fun b _ => ?_
    cases atoi b with
    | none => exact rel_ex g rfl
    | some mx =>
      refine ref_look cast_zset e he g key ?_ ?_ ?_
      · intro db' g' hv hl; simp only [hl]; exact rel_ex g' hv
      · intro db' g' hv hl; simp only [hl]; exact rel_ex g' hv
      · rintro db' z az g' hv hl r hk hs
        simp only [hl, he]
        refine zo_ref (zremRank_one r mn mx) ?_
        rintro els z' a' r1
        obtain ⟨o1, o2⟩ := obj_z r1
        obtain ⟨p1, p2⟩ := put_ref e he g' key (.zset z') o2 hs
        rw [hv, o1] at p2
        exact rel_ex p1 p2

theorem zremRangeByScore_ref : Ref hash (Cmds.zremRangeByScore e args db) (A.zremRangeByScore e args db.view) := by
  unfold Cmds.zremRangeByScore A.zremRangeByScore
  refine ref_bind _ fun key _ => ?_
  refine ref_bind _ fun a _ => ?_
  cases e.parseFloat a with
  | none => exact rel_ex g rfl
  | some mn =>
    refine ref_bind _ fun b _ => ?_
    cases e.parseFloat b with
    | none => exact rel_ex g rfl
    | some mx =>
      refine ref_look cast_zset e he g key ?_ ?_ ?_
      · intro db' g' hv hl; simp only [hl]; exact rel_ex g' hv
      · intro db' g' hv hl; simp only [hl]; exact rel_ex g' hv
      · rintro db' z az g' hv hl r hk hs
        simp only [hl, he]
        refine zo_ref (zremScore_one r mn mx) ?_
        rintro els z' a' r1
        obtain ⟨o1, o2⟩ := obj_z r1
        obtain ⟨p1, p2⟩ := put_ref e he g' key (.zset z') o2 hs
        rw [hv, o1] at p2
        exact rel_ex p1 p2

/-! ### SPOP, RANDOMGET: some draw -/

theorem spop_ref {o : Out} (h : Cmds.spop e args db = some o) :
    (∃ m a, A.spop m e args db.view = some a ∧ Rel hash o a) ∨ ∃ a, A.spopEmpty e args db.view = some a ∧ Rel hash o a := by
  unfold Cmds.spop at h
  unfold A.spop A.spopEmpty
  cases ha : args[1]? with
  | none => rw [ha] at h; cases h
  | some key =>
    obtain ⟨l, db1, h1, g1, v1, hl⟩ := look_ref e he g cast_set key
    simp only [ha, h1, Option.bind_eq_bind, Option.bind_some] at h ⊢
    rcases hl with ⟨rfl, hl⟩ | ⟨rfl, hl⟩ | ⟨s, b, rfl, hl, ⟨gs, rfl⟩, hk⟩
    · simp only [Option.some.injEq] at h; subst h
      exact Or.inl ⟨[], _, by simp only [hl], rel_ex g1 v1⟩
    · simp only [Option.some.injEq] at h; subst h
      exact Or.inl ⟨[], _, by simp only [hl], rel_ex g1 v1⟩
    · have hsz : MSet.size s = some ((s.toList.map Prod.fst).length : Int) := size_ref gs
      simp only [hsz, Option.bind_some] at h
      obtain ⟨rr1, rr2⟩ := MSet.getRandom_spec s gs.inv e.draws
      split at h
      · next hz =>
        simp only [Option.some.injEq] at h; subst h
        refine Or.inr ⟨⟨A.exp e db.view key, 0, fun r => (∀ m, s.abs m = none) ∧ r = null⟩, by simp only [hl], g1, v1, rfl, fun m => ?_, rfl⟩
        have hnil : s.toList.map Prod.fst = [] := by
          rw [← List.length_eq_zero_iff]; omega
        rw [Dict.abs_eq_none, hnil]; simp
      · next hz =>
        have hne : MSet.mems s ≠ [] := by
          intro hc
          apply hz
          unfold MSet.mems at hc
          rw [hc]; rfl
        obtain ⟨out, s', rest, e1, e2, e3, e4⟩ := rr2 hne
        rw [he, e1] at h
        simp only [Option.bind_some] at h
        cases out with
        | nil => cases h
        | spin => cases h
        | entry m =>
          have g2 := e2.good gs
          have a2 : s'.abs = s.abs := e2.abs gs.inv
          obtain ⟨r, d, f1, f2, f3, f4⟩ := Dict.delete_map g2 m
          have hm : (s.abs m).isSome = true := (mem_isSome gs m).1 (e4 m rfl)
          have hr : r = none := f4.2 (by rw [a2]; exact hm)
          subst hr
          have f1' : MSet.delete hash s' m = some (none, d) := f1
          simp only [f1', Option.bind_some] at h
          rw [if_neg (by simp)] at h
          simp only [Option.some.injEq] at h; subst h
          have hs : (db1.dict.abs key).isSome = true := by
            cases hd : db1.dict.abs key with
            | none => simp [Db.view, hd] at hk
            | some x => rfl
          obtain ⟨p1, p2⟩ := put_ref e he g1 key (.set d) f2 hs
          refine Or.inl ⟨m, ⟨A.put (A.exp e db.view key) key (.set (upd s.abs m none)), 1, A.ex (bulk m)⟩, by simp only [hl, hm, if_true], p1, ?_, rfl, rfl⟩
          rw [p2, v1]
          simp only [Obj.view, f3, a2]
          rfl

omit he g in
theorem randomLoop_ref (he : e.hash = hash) : ∀ (fuel : Nat) (draws : List Nat) (db : Db), db.Good hash → ∀ o, Cmds.randomLoop e fuel draws db = some o →
    ∃ picks a, A.randomGet e picks db.view = some a ∧ Rel hash o a
  | 0, _, _, _, _, h => by cases h
  | fuel + 1, draws, db, g, o, h => by
    unfold Cmds.randomLoop at h
    obtain ⟨out, d', rest, e1, e2, e3, e4, e5, e6, e7, e8⟩ := Dict.getRandomKey_spec db.dict g.dict.inv draws
    simp only [he, e1, Option.bind_eq_bind, Option.bind_some] at h
    have gd : Dict.Good hash d' := ⟨e2, by rw [e4, g.dict.idle]⟩
    have ad : d'.abs = db.dict.abs := Dict.abs_perm g.dict.inv e3
    have g1 := good_dict g gd ad
    have v1 : Db.view { db with dict := d' } = db.view := view_dict ad
    cases out with
    | nil =>
      simp only [Option.some.injEq] at h; subst h
      refine ⟨[], _, rfl, g1, v1, rfl, ?_, rfl⟩
      intro k
      have := e6.1 rfl
      rw [view_none, Dict.abs_eq_none, this]; simp
    | spin => cases h
    | entry p =>
      obtain ⟨k, v⟩ := p
      have hin := e7 _ rfl
      have hk : (db.view.v k).isNone = false := by
        have := (Dict.abs_eq_some g.dict.inv k v).2 hin
        simp [Db.view, this]
      obtain ⟨db2, h2, g2, v2⟩ := exp_ref e he g1 k
      rw [v1] at h2 v2
      simp only [h2, Option.bind_some] at h
      cases hx : A.expired e db.view k with
      | false =>
        simp only [hx, Bool.false_eq_true, if_false, Option.some.injEq] at h
        subst h
        refine ⟨[k], ⟨db.view, 0, A.ex (bulk k)⟩, ?_, g2, ?_, rfl, rfl⟩
        · unfold A.randomGet
          simp [hk, hx]
        · rw [v2]; simp [A.exp, hx]
      | true =>
        simp only [hx, if_true] at h
        obtain ⟨picks, a, q1, q2⟩ := randomLoop_ref he fuel rest db2 g2 o h
        refine ⟨k :: picks, a, ?_, q2⟩
        unfold A.randomGet
        simp only [hk, hx, Bool.false_eq_true, if_false, if_true]
        rw [← v2]; exact q1

theorem randomGet_ref {o : Out} (h : Cmds.randomGet e args db = some o) : ∃ picks a, A.randomGet e picks db.view = some a ∧ Rel hash o a :=
  randomLoop_ref e he _ _ db g o h

/-! ### KEYS -/

omit he g in
theorem delete_inv {V : Type} {d : Dict Bytes V} (h : Dict.Inv hash d) {k : Bytes} {v : V} (hk : d.abs k = some v) :
    ∃ d', Dict.delete hash d k = some (none, d') ∧ Dict.Inv hash d' ∧ d'.abs = fun x => if k = x then none else d.abs x := by
  obtain ⟨r, d', h1, h2, h3, h4, h5, h6, h7⟩ := Dict.delete_spec d h k
  obtain ⟨rfl, hp⟩ := h7 v hk
  refine ⟨d', h1, h2, ?_⟩
  have hnd := (hp.map Prod.fst).nodup_iff.1 h.nodup
  simp only [List.map_cons, List.nodup_cons] at hnd
  funext x
  by_cases hx : k = x
  · subst hx
    rw [if_pos rfl, Dict.abs_eq_none]; exact hnd.1
  · rw [if_neg hx]
    cases hd : d.abs x with
    | none =>
      rw [Dict.abs_eq_none] at hd ⊢
      intro hc; apply hd
      rw [(hp.map Prod.fst).mem_iff]
      exact List.mem_cons_of_mem _ hc
    | some w =>
      rw [Dict.abs_eq_some h] at hd
      rw [Dict.abs_eq_some h2]
      rw [hp.mem_iff] at hd
      rcases List.mem_cons.1 hd with hc | hc
      · simp only [Prod.mk.injEq] at hc; exact absurd hc.1.symm hx
      · exact hc

/-- the keys a pass of KEYS has removed after the entries `done` -/
def gone (e : Env) (db : Db) (m : Bytes → Bool) (done : List (Bytes × Obj)) (k : Bytes) : Bool :=
  (done.map Prod.fst).contains k && (m k && A.expired e db.view k)

omit he g in
theorem gone_ne (m : Bytes → Bool) (done : List (Bytes × Obj)) (en : Bytes × Obj) (k : Bytes) (h : k ≠ en.1 ∨ m en.1 = false ∨ A.expired e db.view en.1 = false) :
    gone e db m (done ++ [en]) k = gone e db m done k := by
  unfold gone
  by_cases hk : k = en.1
  · subst hk
    rcases h with h | h | h
    · exact absurd rfl h
    · simp [h]
    · simp [h]
  · have : k ∈ List.map Prod.fst (done ++ [en]) ↔ k ∈ List.map Prod.fst done := by
      rw [List.map_append, List.mem_append]; simp only [List.map_cons, List.map_nil, List.mem_singleton]
      exact ⟨fun h => h.resolve_right hk, Or.inl⟩
    have hb : (List.map Prod.fst (done ++ [en])).contains k = (List.map Prod.fst done).contains k := by
      rw [Bool.eq_iff_iff, List.contains_iff_mem, List.contains_iff_mem, this]
    rw [hb]

/-- what a pass of KEYS has done after the entries `done` -/
def KInv (e : Env) (db : Db) (m : Bytes → Bool) (done : List (Bytes × Obj)) (d : Dict Bytes Obj) (st : Dict Bytes Int × List Bytes × Bool) : Prop :=
  Dict.Good e.hash st.1 ∧
  (∀ k, d.abs k = if gone e db m done k = true then none else db.dict.abs k) ∧
  (∀ k, st.1.abs k = if gone e db m done k = true then none else db.expire.abs k) ∧
  st.2.1 = (done.map Prod.fst).filter (fun k => m k && !A.expired e db.view k) ∧ st.2.2 = false

theorem keys_ref : Ref hash (Cmds.keys e args db) (A.keys e args db.view) := by
  unfold Cmds.keys A.keys
  refine ref_bind _ fun pattern _ => ?_
  have h0 : db.dict.iterators = 0 := g.dict.idle
  cases hp : A.pat e pattern with
  | none =>
    obtain ⟨d2, st, h1, h2, h3⟩ := Dict.forEach_spec (hash := hash) db.dict g.dict.inv (by rw [h0]; exact Int.le_refl _) (fun _ => h0) (db.expire, [], false)
      (Cmds.keysBody e pattern)
      (fun done d st => d = { db.dict with iterators := db.dict.iterators + 1 } ∧ st = (db.expire, [], !done.isEmpty))
      (by
        rintro done en rest d1 s _ ⟨rfl, rfl⟩ _ _ _
        refine ⟨_, _, ?_, Or.inl rfl, rfl, rfl⟩
        unfold Cmds.keysBody
        unfold A.pat at hp
        rw [hp]
        cases done <;> rfl)
      ⟨rfl, rfl⟩
    obtain ⟨rfl, rfl⟩ := h3
    simp only [h1, Option.bind_eq_bind, Option.bind_some]
    have hd : ({ { db.dict with iterators := db.dict.iterators + 1 } with iterators := db.dict.iterators } : Dict Bytes Obj) = db.dict := rfl
    cases ht : db.dict.toList with
    | nil =>
      simp only [List.isEmpty_nil, Bool.not_true, Bool.false_eq_true, if_false]
      refine ⟨g, rfl, rfl, Or.inl ⟨fun k => ?_, rfl⟩⟩
      rw [view_none, Dict.abs_eq_none, ht]; simp
    | cons x xs =>
      simp only [List.isEmpty_cons, Bool.not_false, if_true]
      refine ⟨g, rfl, rfl, Or.inr ⟨⟨x.1, ?_⟩, rfl⟩⟩
      have := (Dict.abs_eq_some g.dict.inv x.1 x.2).2 (by rw [ht]; simp)
      simp [Db.view, this]
  | some m =>
    subst he
    obtain ⟨d2, st, h1, h2, h3⟩ := Dict.forEach_spec (hash := e.hash) db.dict g.dict.inv (by rw [h0]; exact Int.le_refl _) (fun _ => h0) (db.expire, [], false)
      (Cmds.keysBody e pattern) (KInv e db m)
      (by
        rintro done en rest d1 ⟨ex, ks, bad⟩ hsp ⟨i1, i2, i3, i4, i5⟩ hinv hit hin
        simp only at i1 i2 i3 i4 i5
        subst i5
        have hnd := g.dict.inv.nodup
        rw [← hsp] at hnd
        have hnotin : en.1 ∉ done.map Prod.fst := by
          simp only [List.map_append, List.map_cons, List.nodup_append, List.mem_cons] at hnd
          intro hc; exact hnd.2.2 _ hc _ (Or.inl rfl) rfl
        unfold Cmds.keysBody
        unfold A.pat at hp
        rw [hp]
        simp only [Bool.false_eq_true, if_false]
        by_cases hm : m en.1 = true
        · rw [if_pos hm]
          obtain ⟨ex1, f1, f2, f3, _⟩ := Dict.find_map i1 en.1
          have hexp : ex.abs en.1 = db.view.t en.1 := by
            rw [i3, if_neg (by simp only [gone, Bool.and_eq_true, List.contains_iff_mem]; exact fun h => hnotin h.1)]; rfl
          unfold Db.expireIfNeeded
          simp only [f1, Option.bind_eq_bind, Option.bind_some, hexp]
          cases hx : A.expired e db.view en.1 with
          | true =>
            have hx' := hx
            unfold A.expired at hx
            cases ht : db.view.t en.1 with
            | none => rw [ht] at hx; cases hx
            | some dl =>
              rw [ht] at hx
              simp only [decide_eq_true_eq] at hx
              obtain ⟨d', q1, q2, q3⟩ := delete_inv hinv (k := en.1) (v := en.2) ((Dict.abs_eq_some hinv _ _).2 hin)
              obtain ⟨r2, d3, w1, w2, w3, _⟩ := Dict.delete_map f2 en.1
              simp only [Option.map_some, if_pos hx, q1, w1, Option.bind_some, if_true]
              refine ⟨_, _, rfl, Or.inr ⟨none, q1⟩, w2, ?_, ?_, ?_, rfl⟩
              · intro k; rw [q3]; simp only [i2]
                by_cases hk : en.1 = k
                · subst hk; simp [gone, hm, hx']
                · rw [if_neg hk, gone_ne e m done en k (Or.inl (Ne.symm hk))]
              · intro k; simp only [w3, f3, i3]
                by_cases hk : en.1 = k
                · subst hk; simp [gone, hm, hx']
                · rw [if_neg hk, gone_ne e m done en k (Or.inl (Ne.symm hk))]
              · simp [i4, hx']
          | false =>
            have hx' := hx
            unfold A.expired at hx
            have main : KInv e db m (done ++ [en]) d1 (ex1, ks ++ [en.1], false) := by
              refine ⟨f2, ?_, ?_, ?_, rfl⟩
              · intro k; rw [i2, gone_ne e m done en k (Or.inr (Or.inr hx'))]
              · intro k; simp only [f3, i3]; rw [gone_ne e m done en k (Or.inr (Or.inr hx'))]
              · simp [i4, hm, hx']
            cases ht : db.view.t en.1 with
            | none => exact ⟨d1, _, rfl, Or.inl rfl, main⟩
            | some dl =>
              rw [ht] at hx
              simp only [decide_eq_false_iff_not] at hx
              simp only [Option.map_some, if_neg hx, Option.bind_some]
              exact ⟨d1, _, rfl, Or.inl rfl, main⟩
        · rw [if_neg hm]
          refine ⟨d1, _, rfl, Or.inl rfl, i1, ?_, ?_, ?_, rfl⟩
          · intro k; rw [i2, gone_ne e m done en k (Or.inr (Or.inl (by simpa using hm)))]
          · intro k; simp only [i3]; rw [gone_ne e m done en k (Or.inr (Or.inl (by simpa using hm)))]
          · simp [i4, hm])
      ⟨g.expire, fun _ => rfl, fun _ => rfl, rfl, rfl⟩
    obtain ⟨ex, ks, bad⟩ := st
    obtain ⟨i1, i2, i3, i4, i5⟩ := h3
    simp only at i1 i2 i3 i4 i5
    subst i5
    simp only [h1, Option.bind_eq_bind, Option.bind_some, Bool.false_eq_true, if_false]
    have hmem : ∀ k, k ∈ db.dict.toList.map Prod.fst ↔ (db.dict.abs k).isSome = true := (enum_toList g.dict).2
    have a2 : ({ d2 with iterators := db.dict.iterators } : Dict Bytes Obj).abs = d2.abs := rfl
    have gd2 : Dict.Good e.hash ({ d2 with iterators := db.dict.iterators } : Dict Bytes Obj) := by
      refine ⟨?_, h0⟩
      cases h2 with
      | empty => constructor <;> assumption
      | stable t0 => exact .stable t0 (by assumption) (by assumption) (by assumption) (by assumption) (by assumption)
      | rehashing t0 t1 r => exact .rehashing t0 t1 r (by assumption) (by assumption) (by assumption) (by assumption) (by assumption) (by assumption) (by assumption) (by assumption) (by assumption)
    have hc : ∀ k, (db.dict.toList.map Prod.fst).contains k = (db.view.v k).isSome := by
      intro k
      rw [Bool.eq_iff_iff, List.contains_iff_mem, hmem]
      simp [Db.view]
    refine ⟨⟨gd2, i1, ?_⟩, ?_, rfl, ?_⟩
    · intro k o ho
      rw [a2, i2] at ho
      split at ho
      · cases ho
      · exact g.objs k o ho
    · have e1 : Db.view { dict := { d2 with iterators := db.dict.iterators }, expire := ex } = ⟨fun k => (d2.abs k).map Obj.view, ex.abs⟩ := rfl
      rw [e1]
      unfold A.sweep
      simp only [AS.mk.injEq]
      constructor
      · funext k
        rw [i2]
        unfold gone
        rw [hc]
        have hvk : db.view.v k = (db.dict.abs k).map Obj.view := rfl
        rw [hvk]
        cases db.dict.abs k with
        | none => simp
        | some o => cases m k <;> cases A.expired e db.view k <;> simp
      · funext k
        rw [i3]
        unfold gone
        rw [hc]
        cases (db.view.v k).isSome <;> cases m k <;> cases A.expired e db.view k <;> simp [Db.view]
    · refine ⟨ks, ⟨?_, ?_⟩, rfl⟩
      · rw [i4]; exact List.Pairwise.filter _ g.dict.inv.nodup
      · intro x
        rw [i4, List.mem_filter, hmem]
        simp only [A.sweep, Db.view, Bool.and_eq_true, Bool.not_eq_true']
        cases hmx : m x <;> cases hex : A.expired e (Db.view db) x <;> simp_all [Db.view]
end
end Metis
