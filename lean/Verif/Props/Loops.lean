import Verif.Proofs.Durable
import Verif.Props.Shared
import Verif.Props.Durable
/-!
C98: what the loop of the rewriting goroutine collects from a hash or a set that the server changes meanwhile, pointer by pointer (C97), is what the
model of the process lets it collect (`Node.collect`), and the file that results holds the data (C50).
-/
set_option linter.unusedSectionVars false
set_option linter.unusedSimpArgs false
set_option linter.unusedVariables false
namespace Metis.Props.LoopsP
open _root_.Metis.Cells (Call Ret Move Shared Walker)
open _root_.Metis.Spec.SharedS
open Metis Metis.Spec Metis.Node
open _root_.Metis.Props.SharedP (Once)

/-- The fields of a hash with their values, the members of a set. -/
def contents : Obj → Bytes → Option Bytes
  | .hash d, y => d.abs y
  | .set s, y => (s.abs y).map (fun _ => [])
  | _, _ => none

/-- The object of a chore. -/
def objOf : Aof.Chore → Obj
  | .key it => it.obj
  | .select _ => .str []

/-- What happens to a chore while the server executes some requests (or timer events). -/
def passes (t : Todo) : List (Env × List Db × List Db) → Todo
  | [] => t
  | (e, before, after) :: l => passes (Node.follow e before after t) l

/-- The request does not change a field twice in different ways (as HSET k f a f b does). -/
def Single {V : Type} (seg : List (Move Bytes V)) : Prop := ∀ k, ∀ m ∈ seg, ∀ m' ∈ seg, Touches k m → Touches k m' → m = m'

/-! ### Moments -/

variable {V : Type}

theorem touched_is {k : Bytes} {m0 : Move Bytes V} (h0 : Touches k m0) : ∀ {ms : List (Move Bytes V)} {f : Bytes → Option V},
    (∀ m ∈ ms, Touches k m → m = m0) → (∃ m ∈ ms, Touches k m) → after f ms k = after (fun _ => none) [m0] k := by
  intro ms
  induction ms with
  | nil => intro f _ h; simp at h
  | cons m ms ih =>
    intro f h1 h2
    rw [Cells.after_cons]
    by_cases hr : ∃ m ∈ ms, Touches k m
    · exact ih (fun m hm => h1 m (by simp [hm])) hr
    · have ht : Touches k m := by
        obtain ⟨x, hx, hxt⟩ := h2
        rcases List.mem_cons.mp hx with rfl | hx
        · exact hxt
        · exact absurd ⟨x, hx, hxt⟩ hr
      rw [SharedP.after_untouched k ms (fun m hm ht => hr ⟨m, hm, ht⟩), h1 m (by simp) ht]
      exact SharedP.after_touched k [m0] ⟨m0, by simp, h0⟩ _ _

theorem single_was {k : Bytes} {seg : List (Move Bytes V)} {f : Bytes → Option V} (h : Single seg) (pre post) (e : seg = pre ++ post) :
    after f pre k = f k ∨ after f pre k = after f seg k := by
  subst e
  by_cases hp : ∃ m ∈ pre, Touches k m
  · right
    obtain ⟨m, hm, ht⟩ := hp
    rw [touched_is ht (fun m' hm' ht' => h k m' (by simp [hm']) m (by simp [hm]) ht' ht) ⟨m, hm, ht⟩,
      touched_is ht (fun m' hm' ht' => h k m' hm' m (by simp [hm]) ht' ht) ⟨m, by simp [hm], ht⟩]
  · left
    exact SharedP.after_untouched k pre (fun m hm ht => hp ⟨m, hm, ht⟩) f

theorem segs_was {k : Bytes} : ∀ {segs : List (List (Move Bytes V))} {f : Bytes → Option V} {o : Option V}, (∀ s ∈ segs, Single s) →
    Was f segs.flatten k o → ∃ n, n ≤ segs.length ∧ o = after f (segs.take n).flatten k := by
  intro segs
  induction segs with
  | nil =>
    rintro f o - ⟨pre, post, e, rfl⟩
    simp only [List.flatten_nil] at e
    have := List.append_eq_nil_iff.mp e.symm
    exact ⟨0, Nat.le_refl _, by rw [this.1]; rfl⟩
  | cons s segs ih =>
    rintro f o hs ⟨pre, post, e, rfl⟩
    simp only [List.flatten_cons] at e
    rcases List.append_eq_append_iff.mp e with ⟨a, rfl, e2⟩ | ⟨a, rfl, e2⟩
    · obtain ⟨n, hn, h⟩ := ih (f := after f s) (o := after f (s ++ a) k) (fun x hx => hs x (by simp [hx])) ⟨a, post, e2, by rw [Cells.after_append]⟩
      refine ⟨n + 1, by simp; omega, ?_⟩
      rw [List.take_succ_cons, List.flatten_cons, Cells.after_append f s (List.take n segs).flatten]
      exact h
    · rcases single_was (k := k) (f := f) (hs (pre ++ a) (by simp)) pre a rfl with h | h
      · exact ⟨0, by simp, h⟩
      · exact ⟨1, by simp, by rw [h]; simp⟩

/-! ### The fields that changed -/

variable {hash : Bytes → Nat}

theorem field_contents {e : Env} (he : e.hash = hash) {o : Obj} (g : o.Good hash) (y : Bytes) : Node.field e o y = contents o y := by
  rw [field_view he g]
  cases o <;> rfl

theorem follow_stale {e : Env} (he : e.hash = hash) {before after : List Db} {t t' : Todo} (h : Node.follow e before after t = t')
    (g : (objOf t.chore).Good hash) (g' : (objOf t'.chore).Good hash) {st : Bytes → Bool} (hst : t.stale = some st) :
    ∃ st', t'.stale = some st' ∧ ∀ y, st' y = false ↔ st y = false ∧ contents (objOf t.chore) y = contents (objOf t'.chore) y := by
  subst h
  obtain ⟨c, sh, sta⟩ := t
  simp only at hst
  subst hst
  have same : ∀ {c sh}, ∃ st', (Todo.mk c sh (some st)).stale = some st' ∧ ∀ y, st' y = false ↔ st y = false ∧ contents (objOf c) y = contents (objOf c) y :=
    fun {c sh} => ⟨st, rfl, fun y => by simp⟩
  cases c with
  | select i => exact same
  | key it =>
    cases sh with
    | false => exact same
    | true =>
      simp only [Node.follow] at g' ⊢
      cases hp : peek e after it.db it.key with
      | none => exact same
      | some o =>
        rw [hp] at g'
        simp only at g' ⊢
        split
        · next hc =>
          rw [if_pos hc] at g'
          refine ⟨_, rfl, fun y => ?_⟩
          simp only [objOf] at g g' ⊢
          simp only [field_contents he g, field_contents he g', Bool.or_eq_false_iff, decide_eq_false_iff_not, ne_eq, Decidable.not_not]
        · exact same

theorem passes_append (t : Todo) (l l' : List (Env × List Db × List Db)) : passes t (l ++ l') = passes (passes t l) l' := by
  induction l generalizing t with
  | nil => rfl
  | cons x l ih => exact ih _

theorem passes_stale {l : List (Env × List Db × List Db)} (he : ∀ x ∈ l, x.1.hash = hash) : ∀ {t : Todo},
    (∀ n, (objOf (passes t (l.take n)).chore).Good hash) → ∀ {st : Bytes → Bool}, t.stale = some st →
    ∃ st', (passes t l).stale = some st' ∧ ∀ y, st' y = false → st y = false ∧
      ∀ n, contents (objOf (passes t (l.take n)).chore) y = contents (objOf t.chore) y := by
  induction l with
  | nil => intro t g st hst; exact ⟨st, hst, fun y hy => ⟨hy, fun n => by simp [passes]⟩⟩
  | cons x l ih =>
    intro t g st hst
    obtain ⟨e, before, after⟩ := x
    obtain ⟨st1, h1, h2⟩ := follow_stale (he (e, before, after) (by simp)) (before := before) (after := after) rfl (g 0) (g 1) hst
    obtain ⟨st2, h3, h4⟩ := ih (fun x hx => he x (by simp [hx])) (fun n => g (n + 1)) h1
    refine ⟨st2, h3, fun y hy => ?_⟩
    obtain ⟨h5, h6⟩ := h4 y hy
    obtain ⟨h7, h8⟩ := (h2 y).mp h5
    refine ⟨h7, fun n => ?_⟩
    cases n with
    | zero => rfl
    | succ n =>
      rw [List.take_succ_cons]
      exact (h6 n).trans h8.symm

/-! ### The collection -/

theorem parts_contents {o : Obj} (g : o.Good hash) (hk : (∃ d, o = .hash d) ∨ ∃ s, o = .set s) :
    ∃ l, Aof.parts o = some l ∧ (l.map Prod.fst).Nodup ∧ ∀ y v, (y, v) ∈ l ↔ contents o y = some v := by
  rcases hk with ⟨d, rfl⟩ | ⟨d, rfl⟩
  · have gd : Dict.Good hash d := g
    have hc := Dict.collect_spec d gd.inv (by rw [gd.idle]) (fun _ => gd.idle)
    refine ⟨d.toList, by simp [Aof.parts, hc], gd.inv.nodup, fun y v => ?_⟩
    exact (Dict.abs_eq_some gd.inv y v).symm
  · have gd : Dict.Good hash d := g
    have hc := MSet.range_spec d gd.inv (by rw [gd.idle]) (fun _ => gd.idle)
    refine ⟨(MSet.mems d).map (fun x => (x, [])), by simp [Aof.parts, hc], ?_, fun y v => ?_⟩
    · have : ((MSet.mems d).map (fun x => (x, ([] : Bytes)))).map Prod.fst = d.toList.map Prod.fst := by simp [MSet.mems, Function.comp_def]
      rw [this]
      exact gd.inv.nodup
    · simp only [contents, MSet.mems, List.mem_map, Prod.mk.injEq, Option.map_eq_some_iff]
      constructor
      · rintro ⟨x, ⟨⟨a, u⟩, h, rfl⟩, rfl, rfl⟩
        exact ⟨u, (Dict.abs_eq_some gd.inv a u).mpr h, rfl⟩
      · rintro ⟨u, h, rfl⟩
        exact ⟨y, ⟨(y, u), (Dict.abs_eq_some gd.inv y u).mp h, rfl⟩, rfl, rfl⟩

theorem loose_of {st : Bytes → Bool} {l items : List (Bytes × Bytes)} (hn : (l.map Prod.fst).Nodup)
    (h : ∀ y, st y = false → ∃ o : Option Bytes, (∀ v, (y, v) ∈ l ↔ o = some v) ∧ Once items y o) : Node.loose st l items = true := by
  refine List.isPerm_iff.2 (List.perm_iff_count.2 ?_)
  rintro ⟨y, v⟩
  cases hy : st y with
  | true =>
    rw [List.count_eq_zero_of_not_mem (by simp [hy]), List.count_eq_zero_of_not_mem (by simp [hy])]
  | false =>
    obtain ⟨o, h1, h2⟩ := h y hy
    rw [List.count_filter (by simp [hy]), List.count_filter (by simp [hy])]
    have : items.count (y, v) = (items.filter (fun x => x.1 = y)).count (y, v) := (List.count_filter (by simp)).symm
    rw [this, h2]
    have hnd : l.Nodup := List.Nodup.of_map _ hn
    by_cases hm : (y, v) ∈ l
    · rw [List.count_eq_one_of_mem hnd hm, (h1 v).mp hm]
      simp
    · rw [List.count_eq_zero_of_not_mem hm]
      refine List.count_eq_zero_of_not_mem (fun hx => hm ((h1 v).mpr ?_))
      cases o with
      | none => simp at hx
      | some u => simp at hx; rw [hx]

theorem once_map {items : List (Bytes × V)} {y : Bytes} {o : Option V} (g : V → Bytes) (h : Once items y o) :
    Once (items.map (fun x => (x.1, g x.2))) y (o.map g) := by
  unfold Once at h ⊢
  rw [List.filter_map]
  have : ((fun x : Bytes × Bytes => decide (x.1 = y)) ∘ fun x : Bytes × V => (x.1, g x.2)) = fun x => decide (x.1 = y) := rfl
  rw [this, h]
  cases o <;> rfl

/-- C98 for all requests, also those that name a field twice. -/
def AnyRequest : Prop := ∀ (hash hs : Bytes → Nat) (k0 : Bytes) (v0 : Bytes) (ms1 : List (Move Bytes Bytes)) (segs : List (List (Move Bytes Bytes))) (rs : List (Ret Bytes))
    (s : Shared Bytes Bytes) (w : Walker Bytes Bytes) (f : Bytes → Option Bytes) (t : Todo) (l : List (Env × List Db × List Db)),
    Shared.run hs Shared.new (.call (.set k0 v0) :: (ms1 ++ .enter :: segs.flatten)) = some (rs, s) →
    s.walkers[entered ms1]? = some w → w.done = true → f = after (put (fun _ => none) (.set k0 v0)) ms1 → segs.length = l.length →
    t.stale = some (fun _ => false) → (∀ x ∈ l, x.1.hash = hash) → (∀ n, (objOf (passes t (l.take n)).chore).Good hash) →
    (∃ d, objOf (passes t l).chore = .hash d) →
    (∀ n y, contents (objOf (passes t (l.take n)).chore) y = after f (segs.take n).flatten y) →
    ∃ recs, Node.collect w.items (passes t l) = some recs

/-- **C98**: a loop over a hash or a set walks from entry to entry while the server executes requests, none of which sets a field to two different
values; the steps of the loop may fall between any two calls. What it has collected at its end is accepted by the model of the process, in which
the loop has a beginning and an end only. -/
theorem C98_collect [DecidableEq V] (hs : Bytes → Nat) (k0 : Bytes) (v0 : V) (ms1 : List (Move Bytes V)) (segs : List (List (Move Bytes V))) (rs : List (Ret V))
    (s : Shared Bytes V) (w : Walker Bytes V) (f : Bytes → Option V) (g : V → Bytes) (t : Todo) (l : List (Env × List Db × List Db))
    (hrun : Shared.run hs Shared.new (.call (.set k0 v0) :: (ms1 ++ .enter :: segs.flatten)) = some (rs, s))
    (hw : s.walkers[entered ms1]? = some w) (hd : w.done = true) (hf : f = after (put (fun _ => none) (.set k0 v0)) ms1)
    (hg : ∀ a b, g a = g b → a = b) (hsingle : ∀ seg ∈ segs, Single seg) (hlen : segs.length = l.length)
    (ht : t.stale = some (fun _ => false)) (he : ∀ x ∈ l, x.1.hash = hash)
    (hgood : ∀ n, (objOf (passes t (l.take n)).chore).Good hash)
    (hkind : (∃ d, objOf (passes t l).chore = .hash d) ∨ ∃ d, objOf (passes t l).chore = .set d)
    (hobj : ∀ n y, contents (objOf (passes t (l.take n)).chore) y = (after f (segs.take n).flatten y).map g) :
    ∃ recs, Node.collect (w.items.map (fun x => (x.1, g x.2))) (passes t l) = some recs := by
  obtain ⟨rs', s', h1, _, _, h2, _⟩ := SharedP.C97_loops_and_calls_partial hs k0 v0 (ms1 ++ .enter :: segs.flatten)
  rw [hrun] at h1
  cases h1
  obtain ⟨w', h3, _, h4⟩ := h2 ms1 _ f rfl hf
  rw [hw] at h3
  cases h3
  obtain ⟨_, h5, _⟩ := h4 hd
  obtain ⟨st, h6, h7⟩ := passes_stale he hgood ht
  have hlast : ∀ y, contents (objOf (passes t l).chore) y = (after f segs.flatten y).map g := by
    intro y
    have := hobj l.length y
    rwa [List.take_length, ← hlen, List.take_length] at this
  have good : (objOf (passes t l).chore).Good hash := by
    have := hgood l.length
    rwa [List.take_length] at this
  obtain ⟨ps, p1, p2, p3⟩ := parts_contents good hkind
  have inj : ∀ a b : Option V, a.map g = b.map g → a = b := by
    intro a b h
    cases a <;> cases b <;> simp at h ⊢
    exact hg _ _ h
  have hl : Node.loose st ps (w.items.map (fun x => (x.1, g x.2))) = true := by
    refine loose_of p2 (fun y hy => ⟨contents (objOf (passes t l).chore) y, fun v => p3 y v, ?_⟩)
    obtain ⟨_, h8⟩ := h7 y hy
    have hsame : ∀ n, after f (segs.take n).flatten y = f y := by
      intro n
      refine inj _ _ ?_
      rw [← hobj n y, h8 n]
      have := hobj 0 y
      simp only [List.take_zero, List.flatten_nil, after, passes] at this
      exact this
    have hwas : ∀ o, Was f segs.flatten y o → o = f y := by
      intro o ho
      obtain ⟨n, _, rfl⟩ := segs_was hsingle ho
      exact hsame n
    have hfin : after f segs.flatten y = f y := by
      have := hsame segs.length
      rwa [List.take_length] at this
    rw [hlast y, hfin]
    exact once_map g (h5 y hwas)
  rcases hps : passes t l with ⟨c, sh, sta⟩
  rw [hps] at h6 hkind p1
  simp only at h6
  subst h6
  cases c with
  | select i =>
    rcases hkind with ⟨d, h⟩ | ⟨d, h⟩ <;> cases h
  | key it =>
    have : ∃ r, Aof.dumpItems it.key (w.items.map (fun x => (x.1, g x.2))) it.obj = some r := by
      rcases hkind with ⟨d, h⟩ | ⟨d, h⟩ <;> (simp only [objOf] at h; rw [h]; exact ⟨_, rfl⟩)
    obtain ⟨r, hr⟩ := this
    simp only [objOf] at p1
    exact ⟨r ++ Aof.dumpDeadline it.key it.deadline, by simp only [Node.collect, p1, hr, hl, Option.bind_eq_bind, Option.bind_some, if_true]⟩

/-! ### Concrete cases -/

/-- A hash with these fields. -/
def mk (l : List (Bytes × Bytes)) : Dict Bytes Bytes := l.foldl (fun d x => ((Dict.set DurableP.H d x.1 x.2).map Prod.snd).getD d) Dict.new

theorem mk_good (l : List (Bytes × Bytes)) : Dict.Good DurableP.H (mk l) ∧ (mk l).abs = after (fun _ => none) (l.map (fun x => .call (.set x.1 x.2))) := by
  have : ∀ (l : List (Bytes × Bytes)) (d : Dict Bytes Bytes), Dict.Good DurableP.H d →
      Dict.Good DurableP.H (l.foldl (fun d x => ((Dict.set DurableP.H d x.1 x.2).map Prod.snd).getD d) d) ∧
      (l.foldl (fun d x => ((Dict.set DurableP.H d x.1 x.2).map Prod.snd).getD d) d).abs = after d.abs (l.map (fun x => .call (.set x.1 x.2))) := by
    intro l
    induction l with
    | nil => intro d g; exact ⟨g, rfl⟩
    | cons x l ih =>
      intro d g
      obtain ⟨d', h1, h2, h3⟩ := Dict.set_map g x.1 x.2
      simp only [List.foldl_cons, h1, Option.map_some, Option.getD_some, List.map_cons, after]
      obtain ⟨h4, h5⟩ := ih d' h2
      refine ⟨h4, ?_⟩
      rw [h5, h3]
      congr 1
      funext y
      simp only [put]
      by_cases hy : x.1 = y
      · rw [if_pos hy, if_pos hy.symm]
      · rw [if_neg hy, if_neg (fun h => hy h.symm)]
  have h := this l Dict.new Dict.new_good
  refine ⟨h.1, ?_⟩
  rw [mk, h.2]
  congr 1

/-- A database with the object at key h. -/
def dbAt (o : Obj) : Db := { Db.new with dict := ((Dict.set DurableP.H Db.new.dict b!"h" o).map Prod.snd).getD Db.new.dict }

def dbOf (l : List (Bytes × Bytes)) : Db := dbAt (.hash (mk l))

theorem peek_dbAt (o : Obj) : peek (demo 0) [dbAt o] 0 b!"h" = some o := by
  obtain ⟨d', h1, h2, h3⟩ := Dict.set_map (hash := DurableP.H) (d := Db.new.dict) Dict.new_good b!"h" o
  obtain ⟨d2, h4, _⟩ := Dict.find_map h2 b!"h"
  have h5 : (dbAt o).dict = d' := by simp [dbAt, h1]
  have h6 : Dict.find (demo 0).hash d' b!"h" = _ := h4
  simp only [peek, List.getElem?_cons_zero, Option.bind_eq_bind, Option.bind_some, h5, h6, h3, if_true]
  rfl

theorem peekDeadline_dbAt (o : Obj) : peekDeadline (demo 0) [dbAt o] 0 b!"h" = none := rfl

/-- The chore for the hash; the loop has begun. -/
def todo (l : List (Bytes × Bytes)) : Todo := ⟨.key ⟨0, b!"h", .hash (mk l), none⟩, true, some (fun _ => false)⟩

/-- The field f is set to 1, to 2 and to 1 again. -/
def twice : List (Move Bytes Bytes) :=
  [.call (.set b!"f" b!"2"), .next 0, .call (.set b!"f" b!"1"), .next 0]

theorem follow_mk (l l' : List (Bytes × Bytes)) (st : Bytes → Bool) : Node.follow (demo 0) [dbOf l] [dbOf l'] ⟨.key ⟨0, b!"h", .hash (mk l), none⟩, true, some st⟩
    = ⟨.key ⟨0, b!"h", .hash (mk l'), none⟩, true, some (fun y => st y || decide (Node.field (demo 0) (.hash (mk l)) y ≠ Node.field (demo 0) (.hash (mk l')) y))⟩ := by
  simp only [Node.follow, dbOf, peek_dbAt, peekDeadline_dbAt, sameKind, removed, Bool.not_false, Bool.and_self, if_true, Option.map_some]

/-- **C98** needs its hypothesis about fields that are named twice: HSET h f 2 f 1 does not change a hash in which f is 1, but the loop may collect the 2. (The file is right nevertheless: the
commands of the rewrite buffer set the field again.) -/
theorem C98_limit : ¬ AnyRequest := by
  intro h
  have run : ((Shared.run DurableP.H (Shared.new : Shared Bytes Bytes) (.call (.set b!"f" b!"1") :: ([] ++ .enter :: [twice].flatten))).map
      (fun x => x.2.walkers.map (fun w => (w.done, w.items)))) = some [(true, [(b!"f", b!"2")])] := by decide +kernel
  simp only [Option.map_eq_some_iff] at run
  obtain ⟨⟨rs, s⟩, hrun, hw⟩ := run
  obtain ⟨w, hws⟩ : ∃ w, s.walkers = [w] := by
    have := congrArg List.length hw
    simp only [List.length_map, List.length_cons, List.length_nil] at this
    exact List.length_eq_one_iff.mp this
  rw [hws] at hw
  simp only [List.map_cons, List.map_nil, List.cons.injEq, Prod.mk.injEq, and_true] at hw
  have hp : ∀ n, (passes (todo [(b!"f", b!"1")]) (([(demo 0, [dbOf [(b!"f", b!"1")]], [dbOf [(b!"f", b!"1")]])] : List (Env × List Db × List Db)).take n)).chore =
      .key ⟨0, b!"h", .hash (mk [(b!"f", b!"1")]), none⟩ := by
    intro n
    cases n with
    | zero => rfl
    | succ n => simp only [List.take_succ_cons, List.take_nil, passes, todo, follow_mk]
  obtain ⟨recs, hrecs⟩ := h DurableP.H DurableP.H b!"f" b!"1" [] [twice] rs s w (put (fun _ => none) (.set b!"f" b!"1")) (todo [(b!"f", b!"1")])
    [(demo 0, [dbOf [(b!"f", b!"1")]], [dbOf [(b!"f", b!"1")]])] hrun (by rw [hws]; rfl) hw.1 rfl rfl rfl (by simp) (fun n => by rw [hp n]; exact (mk_good _).1)
    ⟨_, by have := hp 1; simp only [List.take_succ_cons, List.take_nil] at this; rw [this]; rfl⟩
    (fun n y => by
      rw [hp n]
      simp only [objOf, contents, (mk_good _).2]
      cases n with
      | zero => rfl
      | succ n =>
        simp only [List.take_succ_cons, List.take_nil, List.flatten_cons, List.flatten_nil, List.append_nil, twice, after, put, List.map_cons, List.map_nil]
        split <;> rfl)
  rw [hw.2] at hrecs
  have : (Node.collect [(b!"f", b!"2")] (passes (todo [(b!"f", b!"1")]) [(demo 0, [dbOf [(b!"f", b!"1")]], [dbOf [(b!"f", b!"1")]])])).isSome = false := by
    decide +kernel
  rw [hrecs] at this
  cases this

/-- The loop has returned f; g is set; the loop goes on. -/
def grows : List (Move Bytes Bytes) := [.next 0, .call (.set b!"g" b!"2"), .next 0, .next 0]

/-- The hypotheses of the partial theorem can be met. -/
example : ∃ w : Walker Bytes Bytes, w.items = [(b!"f", b!"1"), (b!"g", b!"2")] ∧
    ∃ recs, Node.collect (w.items.map (fun x => (x.1, id x.2))) (passes (todo [(b!"f", b!"1")])
      [(demo 0, [dbOf [(b!"f", b!"1")]], [dbOf [(b!"f", b!"1"), (b!"g", b!"2")]])]) = some recs := by
  have run : ((Shared.run DurableP.H (Shared.new : Shared Bytes Bytes) (.call (.set b!"f" b!"1") :: ([] ++ .enter :: [grows].flatten))).map
      (fun x => x.2.walkers.map (fun w => (w.done, w.items)))) = some [(true, [(b!"f", b!"1"), (b!"g", b!"2")])] := by decide +kernel
  simp only [Option.map_eq_some_iff] at run
  obtain ⟨⟨rs, s⟩, hrun, hw⟩ := run
  obtain ⟨w, hws⟩ : ∃ w, s.walkers = [w] := by
    have := congrArg List.length hw
    simp only [List.length_map, List.length_cons, List.length_nil] at this
    exact List.length_eq_one_iff.mp this
  rw [hws] at hw
  simp only [List.map_cons, List.map_nil, List.cons.injEq, Prod.mk.injEq, and_true] at hw
  refine ⟨w, hw.2, ?_⟩
  have hp : ∀ n, (passes (todo [(b!"f", b!"1")]) (([(demo 0, [dbOf [(b!"f", b!"1")]], [dbOf [(b!"f", b!"1"), (b!"g", b!"2")]])] : List (Env × List Db × List Db)).take n)).chore =
      .key ⟨0, b!"h", .hash (mk (if n = 0 then [(b!"f", b!"1")] else [(b!"f", b!"1"), (b!"g", b!"2")])), none⟩ := by
    intro n
    cases n with
    | zero => rfl
    | succ n => simp only [List.take_succ_cons, List.take_nil, passes, todo, follow_mk]; rfl
  refine C98_collect (hash := DurableP.H) DurableP.H b!"f" b!"1" [] [grows] rs s w (put (fun _ => none) (.set b!"f" b!"1")) id _ _ hrun (by rw [hws]; rfl)
    hw.1 rfl (fun _ _ h => h) ?_ rfl rfl (by simp) (fun n => by rw [hp n]; exact (mk_good _).1)
    (.inl ⟨_, by have := hp 1; simp only [List.take_succ_cons, List.take_nil] at this; rw [this]; rfl⟩) (fun n y => ?_)
  · intro seg hseg k m hm m' hm' h1 h2
    rw [List.mem_singleton] at hseg
    subst hseg
    simp only [grows, List.mem_cons, List.not_mem_nil, or_false] at hm hm'
    rcases hm with rfl | rfl | rfl | rfl <;> rcases hm' with rfl | rfl | rfl | rfl <;> first | rfl | exact h1.elim | exact h2.elim
  · rw [hp n]
    simp only [objOf, contents, (mk_good _).2]
    cases n with
    | zero => simp [after]
    | succ n =>
      simp only [List.take_succ_cons, List.take_nil, List.flatten_cons, List.flatten_nil, List.append_nil, grows, after, put, List.map_cons, List.map_nil, Option.map_id, id,
        if_neg (Nat.succ_ne_zero n)]

/-! ### The process

A rewrite whose loop over a hash and over a set runs while the server changes them: the loop over the hash begins; f is changed, g is deleted and n is
made; the loop ends and has collected the old f, g, and the new n. -/

open _root_.Metis.Props.NodeP (turn ask conf0)
open _root_.Metis.Props.DurableP (Orderly Fair tameRun dice Equal fair_ask orderly_of demo_world H L P)
open _root_.Metis.Props.LogP (restarted)

def walked : List Ev :=
  turn 0 [.accept 3, ask [b!"hset", b!"h", b!"f", b!"1", b!"g", b!"2", b!"k", b!"3"], ask [b!"sadd", b!"s", b!"x", b!"y"], ask [b!"bgrewriteaof"]] ++
  [.work 0 (demo 0) .whole, .work 0 (demo 0) .enter] ++
  turn 1 [ask [b!"hset", b!"h", b!"f", b!"9"], ask [b!"hdel", b!"h", b!"g"], ask [b!"hset", b!"h", b!"n", b!"5"]] ++
  [.work 0 (demo 0) (.collect [(b!"n", b!"5"), (b!"f", b!"1"), (b!"g", b!"2"), (b!"k", b!"3")]), .work 0 (demo 0) .enter] ++
  turn 2 [ask [b!"srem", b!"s", b!"x"], ask [b!"hset", b!"h", b!"k", b!"4"], ask [b!"sadd", b!"s", b!"z"]] ++
  [.work 0 (demo 0) (.collect [(b!"y", []), (b!"x", [])]), .work 0 (demo 0) .whole, .sleep 3]

theorem walked_fair : ∀ ev ∈ walked, Fair H L P 0 ev := by
  intro ev hev
  simp only [walked, turn, List.cons_append, List.nil_append, List.mem_cons, List.not_mem_nil, or_false] at hev
  repeat' (first | (rcases hev with rfl | hev) | subst hev)
  all_goals first
    | exact fair_ask (cmd := .hset) (by decide) trivial
    | exact fair_ask (cmd := .sadd) (by decide) trivial
    | exact fair_ask (cmd := .srem) (by decide) trivial
    | exact fair_ask (cmd := .hdel) (by decide) trivial
    | exact fair_ask (cmd := .bgrewriteaof) (by decide) trivial
    | trivial

theorem walked_tame : tameRun (boot 1 [] true (conf0 .no)) (walked ++ [.cron dice 3]) = true := by decide +kernel

/-- What a database holds under the key of a hash or a set. -/
def shown (s : Sys) (k y : Bytes) : Option Bytes :=
  match s.val 0 k with
  | some (.hash f) => f y
  | some (.set f) => (f y).map (fun _ => [])
  | _ => none

set_option maxRecDepth 16000 in
/-- The new file loads: f, g, n and k of the hash, x, y and z of the set are what they are in the server (and g is not there). -/
example : (run (boot 1 [] true (conf0 .no)) walked).bind (fun n => (step n (.cron dice 3)).bind (fun n' =>
    (Aof.load Aof.readerSize (fun _ => demo 0) n'.file (Server.init 1 [] true)).map (fun srv =>
      ([b!"f", b!"g", b!"n", b!"k"].map (shown (restarted srv) b!"h"), [b!"x", b!"y", b!"z"].map (shown (restarted srv) b!"s"))))) =
    some ([some b!"9", none, some b!"5", some b!"4"], [none, some [], some []]) := by decide +kernel

/-- C50 says so for every history, whatever the loops have collected. -/
example (n n' : Node) (h : run (boot 1 [] true (conf0 .no)) walked = some n) (hd : n.done ≠ []) (hs : step n (.cron dice 3) = some n') (hl : Readable n'.file) :
    ∃ srv, Aof.load Aof.readerSize (fun _ => demo 0) n'.file (Server.init 1 [] true) = some srv ∧ Equal n'.sys (restarted srv) ∧ Equal n.sys (restarted srv) :=
  DurableP.C50_partial (hash := H) (lower := L) (pf := P) (T := 0) (fun _ _ => rfl) (by decide) (by decide)
    (orderly_of _ (fun ev hev => by
      rcases List.mem_append.mp hev with hev | hev
      · exact walked_fair ev hev
      · rw [List.mem_singleton] at hev; subst hev; exact ⟨rfl, by decide⟩) walked_tame) h hd hs hl demo_world

/-- What the loop may not have collected: k has not changed and must be there with its value. -/
example : (run (boot 1 [] true (conf0 .no)) (walked.take 15)).isSome = true ∧
    ((run (boot 1 [] true (conf0 .no)) (walked.take 15)).bind (fun n => step n (.work 0 (demo 0) (.collect [(b!"n", b!"5"), (b!"f", b!"1")])))).isSome = false ∧
    ((run (boot 1 [] true (conf0 .no)) (walked.take 15)).bind (fun n => step n (.work 0 (demo 0) (.collect [(b!"k", b!"3")])))).isSome = true := by decide +kernel

end Metis.Props.LoopsP
