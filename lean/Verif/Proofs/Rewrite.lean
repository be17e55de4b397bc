import Verif.Model.Rewrite
import Verif.Proofs.Restart
import Verif.Proofs.Coll
import Verif.Proofs.Expire
/-!
The commands written by a rewrite of the append-only file, and their replay.
-/
set_option linter.unusedSectionVars false
set_option linter.unusedSimpArgs false
set_option linter.unusedVariables false
namespace Metis
open Spec
variable {hash : Bytes → Nat} {lower : Bytes → Bytes}

/-! ### chunks -/

theorem chunks_flatten {n : Nat} (hn : 1 ≤ n) : ∀ (f : Nat) (l : List Bytes), l.length ≤ f → (Aof.chunks n f l).flatten = l
  | 0, l, h => by
    have : l = [] := List.eq_nil_of_length_eq_zero (by omega)
    simp [Aof.chunks, this]
  | f + 1, l, h => by
    unfold Aof.chunks
    split
    · next h => simp [h]
    · next hne =>
      have hp := List.length_pos_iff.mpr hne
      rw [List.flatten_cons, chunks_flatten hn f _ (by rw [List.length_drop]; omega), List.take_append_drop]

theorem chunks_ne {n : Nat} (hn : 1 ≤ n) : ∀ (f : Nat) (l : List Bytes), ∀ c ∈ Aof.chunks n f l, c ≠ []
  | 0, l, c, h => by simp [Aof.chunks] at h
  | f + 1, l, c, h => by
    unfold Aof.chunks at h
    split at h
    · simp at h
    · next hne =>
      rcases List.mem_cons.mp h with rfl | h
      · intro h0
        rcases List.take_eq_nil_iff.mp h0 with h0 | h0
        · omega
        · exact hne h0
      · exact chunks_ne hn f _ c h

theorem chunks_even {n : Nat} (hn : n % 2 = 0) : ∀ (f : Nat) (l : List Bytes), l.length % 2 = 0 → ∀ c ∈ Aof.chunks n f l, c.length % 2 = 0
  | 0, l, _, c, h => by simp [Aof.chunks] at h
  | f + 1, l, hl, c, h => by
    unfold Aof.chunks at h
    split at h
    · simp at h
    · next hne =>
      rcases List.mem_cons.mp h with rfl | h
      · rw [List.length_take]; omega
      · exact chunks_even hn f _ (by rw [List.length_drop]; omega) c h

theorem chunks_nil {n f : Nat} {l : List Bytes} (hn : 1 ≤ n) (hf : l.length ≤ f) (h : l ≠ []) : Aof.chunks n f l ≠ [] := by
  intro h0
  have := chunks_flatten hn f l hf
  rw [h0] at this
  exact h this.symm

/-! ### what records do to one database -/

/-- Replaying `recs` turns a database seen as `v` into one seen as `v'`, and does nothing else. -/
def Does (hash : Bytes → Nat) (lower : Bytes → Bytes) (recs : List (List Bytes)) (v v' : AS) : Prop :=
  ∀ (es : Nat → Env), (∀ i, (es i).hash = hash ∧ (es i).lower = lower) → ∀ (srv : Server) (s : Session) (d : Db), srv.dbs[s.db]? = some d →
    d.Good hash → d.view = v → ∃ srv' d', Aof.replay es recs srv s = some (srv', s) ∧ srv'.dbs = srv.dbs.set s.db d' ∧ d'.Good hash ∧ d'.view = v'

theorem Does.refl (v : AS) : Does hash lower [] v v := by
  intro es hes srv s d hd g hv
  refine ⟨srv, d, rfl, ?_, g, hv⟩
  refine List.ext_getElem? fun j => ?_
  rw [set_get hd]
  split
  · next h => rw [← h, hd]
  · rfl

theorem Does.append {a b : List (List Bytes)} {v v1 v2 : AS} (h1 : Does hash lower a v v1) (h2 : Does hash lower b v1 v2) :
    Does hash lower (a ++ b) v v2 := by
  intro es hes srv s d hd g hv
  obtain ⟨srv1, d1, p1, p2, p3, p4⟩ := h1 es hes srv s d hd g hv
  obtain ⟨srv2, d2, q1, q2, q3, q4⟩ := h2 (fun i => es (i + a.length)) (fun i => hes _) srv1 s d1 (by rw [p2, set_get hd]; simp) p3 p4
  refine ⟨srv2, d2, ?_, by rw [q2, p2, List.set_set], q3, q4⟩
  rw [replay_append, p1, Option.bind_some, q1]

theorem Does.one (hlow : LowerOk lower) {c : CmdEntry} (hc : c ∈ commandTable) {args : List Bytes} (h0 : args[0]? = some c.name) {f f'}
    (hf : dbProc c.proc = some f) (hf' : aFn c.proc = some f') {v v' : AS} (h : ∀ e, ∃ a, f' e args v = some a ∧ a.s = v') :
    Does hash lower [args] v v' := by
  intro es hes srv s d hd g hv
  obtain ⟨a, ha, hav⟩ := h (es 0)
  subst hv
  obtain ⟨o, k1, k2, k3⟩ := exec_db (hes 0).1 h0 (by rw [(hes 0).2]; exact lower_lookup hlow c hc) hf hf' hd g ha
  refine ⟨{ srv with dbs := srv.dbs.set s.db o.db, dirty := srv.dirty + o.dirty }, o.db, ?_, rfl, k2, by rw [k3, hav]⟩
  simp [Aof.replay, k1]

theorem put_twice {v : AS} {k : Bytes} {a b : AObj} : A.put (A.put v k a) k b = A.put v k b := by
  unfold A.put
  simp only [AS.mk.injEq, and_true]
  funext x; simp only [upd]; split <;> rfl

/-- The commands for a collection, one after the other. `Rep l o`: the collection `o` holds the items `l`. -/
theorem does_pieces {name key : Bytes} {Rep : List Bytes → AObj → Prop} {P : List Bytes → Prop}
    (hone : ∀ (v : AS) (l c : List Bytes), (v.v key = none ∧ l = []) ∨ (∃ o, v.v key = some o ∧ Rep l o) → P c →
      ∃ o', Rep (l ++ c) o' ∧ Does hash lower [name :: key :: c] v (A.put v key o')) :
    ∀ (cs : List (List Bytes)) (v : AS) (l : List Bytes), cs ≠ [] → (∀ c ∈ cs, P c) →
      (v.v key = none ∧ l = []) ∨ (∃ o, v.v key = some o ∧ Rep l o) →
      ∃ o', Rep (l ++ cs.flatten) o' ∧ Does hash lower (cs.map (fun c => name :: key :: c)) v (A.put v key o')
  | [], v, l, h, _, _ => absurd rfl h
  | [c], v, l, _, hP, hv => by
    obtain ⟨o', h1, h2⟩ := hone v l c hv (hP c (by simp))
    exact ⟨o', by simpa using h1, h2⟩
  | c :: c' :: cs, v, l, _, hP, hv => by
    obtain ⟨o', h1, h2⟩ := hone v l c hv (hP c (by simp))
    obtain ⟨o2, k1, k2⟩ := does_pieces hone (c' :: cs) (A.put v key o') (l ++ c) (by simp) (fun x hx => hP x (List.mem_cons_of_mem _ hx))
      (Or.inr ⟨o', by simp [A.put], h1⟩)
    refine ⟨o2, by rw [List.flatten_cons, ← List.append_assoc]; exact k1, ?_⟩
    rw [put_twice] at k2
    exact h2.append k2

/-! ### the kinds of collections -/

theorem hsetLoop_append : ∀ (a b : List Bytes) (h : Fn Bytes) (n m : Nat), a.length % 2 = 0 →
    (A.hsetLoop (a ++ b) h n).1 = (A.hsetLoop b (A.hsetLoop a h n).1 m).1
  | [], b, h, n, m, _ => by
    simp only [List.nil_append, A.hsetLoop]
    exact hsetLoop_count b h n m
  | [x], b, h, n, m, hl => by simp at hl
  | x :: y :: a, b, h, n, m, hl => by
    simp only [List.cons_append, A.hsetLoop]
    exact hsetLoop_append a b _ _ _ (by simp only [List.length_cons] at hl; omega)
where
  hsetLoop_count : ∀ (b : List Bytes) (h : Fn Bytes) (n m : Nat), (A.hsetLoop b h n).1 = (A.hsetLoop b h m).1
    | [], h, n, m => rfl
    | [x], h, n, m => rfl
    | x :: y :: b, h, n, m => by simp only [A.hsetLoop]; exact hsetLoop_count b _ _ _

theorem hsetLoop_other : ∀ (l : List (Bytes × Bytes)) (h : Fn Bytes) (n : Nat) (x : Bytes), x ∉ l.map Prod.fst →
    (A.hsetLoop (l.flatMap (fun x => [x.1, x.2])) h n).1 x = h x
  | [], h, n, x, _ => rfl
  | (a, b) :: l, h, n, x, hx => by
    simp only [List.map_cons, List.mem_cons, not_or] at hx
    simp only [List.flatMap_cons, List.cons_append, List.nil_append, A.hsetLoop]
    rw [hsetLoop_other l _ _ x hx.2, upd_ne _ _ hx.1]

theorem hsetLoop_mem : ∀ (l : List (Bytes × Bytes)) (h : Fn Bytes) (n : Nat) (a b : Bytes), (l.map Prod.fst).Nodup → (a, b) ∈ l →
    (A.hsetLoop (l.flatMap (fun x => [x.1, x.2])) h n).1 a = some b
  | [], h, n, a, b, _, hm => by simp at hm
  | (x, y) :: l, h, n, a, b, hnd, hm => by
    simp only [List.map_cons, List.nodup_cons] at hnd
    simp only [List.flatMap_cons, List.cons_append, List.nil_append, A.hsetLoop]
    rcases List.mem_cons.mp hm with h1 | h1
    · cases h1
      rw [hsetLoop_other l _ _ _ hnd.1, upd_at]
    · exact hsetLoop_mem l _ _ a b hnd.2 h1

/-- The fields of a dict, set one after the other in an empty hash. -/
theorem hsetLoop_dict {d : Dict Bytes Bytes} (g : Dict.Good hash d) (n : Nat) :
    (A.hsetLoop (d.toList.flatMap (fun x => [x.1, x.2])) nil n).1 = d.abs := by
  funext x
  cases h : d.abs x with
  | some v => exact hsetLoop_mem _ _ _ x v g.inv.nodup ((Dict.abs_eq_some g.inv x v).1 h)
  | none => rw [hsetLoop_other _ _ _ x ((Dict.abs_eq_none x).1 h)]; rfl

theorem saddLoop_append : ∀ (a b : List Bytes) (h : Fn Unit) (n m : Nat), (A.saddLoop (a ++ b) h n).1 = (A.saddLoop b (A.saddLoop a h n).1 m).1
  | [], b, h, n, m => by
    simp only [List.nil_append, A.saddLoop]
    exact saddLoop_count b h n m
  | x :: a, b, h, n, m => by
    simp only [List.cons_append, A.saddLoop]
    exact saddLoop_append a b _ _ _
where
  saddLoop_count : ∀ (b : List Bytes) (h : Fn Unit) (n m : Nat), (A.saddLoop b h n).1 = (A.saddLoop b h m).1
    | [], h, n, m => rfl
    | x :: b, h, n, m => by simp only [A.saddLoop]; exact saddLoop_count b _ _ _

theorem saddLoop_at : ∀ (l : List Bytes) (h : Fn Unit) (n : Nat) (x : Bytes), (A.saddLoop l h n).1 x = if x ∈ l then some () else h x
  | [], h, n, x => by simp [A.saddLoop]
  | a :: l, h, n, x => by
    simp only [A.saddLoop, saddLoop_at l, upd, List.mem_cons]
    by_cases h1 : x ∈ l
    · simp [h1]
    · by_cases h2 : a = x
      · simp [h2]
      · simp [h1, h2, Ne.symm h2]

theorem saddLoop_set {s : MSet Bytes} (g : Dict.Good hash s) (n : Nat) : (A.saddLoop (s.toList.map Prod.fst) nil n).1 = s.abs := by
  funext x
  rw [saddLoop_at]
  have := (enum_toList g).2 x
  cases h : s.abs x with
  | some v => rw [if_pos (this.2 (by simp [h]))]
  | none => rw [if_neg (fun hm => by have := this.1 hm; simp [h] at this)]; rfl

theorem does_hset (hlow : LowerOk lower) {key : Bytes} (v : AS) (l c : List Bytes)
    (hv : (v.v key = none ∧ l = []) ∨ (∃ o, v.v key = some o ∧ (l.length % 2 = 0 ∧ o = .hash (A.hsetLoop l nil 0).1))) (hc : c.length % 2 = 0) :
    ∃ o', ((l ++ c).length % 2 = 0 ∧ o' = .hash (A.hsetLoop (l ++ c) nil 0).1) ∧ Does hash lower [b!"hset" :: key :: c] v (A.put v key o') := by
  have hl : l.length % 2 = 0 := by rcases hv with ⟨_, rfl⟩ | ⟨_, _, h, _⟩ <;> simp_all
  refine ⟨_, ⟨by rw [List.length_append]; omega, rfl⟩, Does.one hlow (c := ⟨b!"hset", .hset, -4⟩) (by simp [commandTable]) (by rfl) (by rfl) (by rfl) fun e => ?_⟩
  unfold A.hset
  rw [if_neg (by simp; omega)]
  rw [hsetLoop_append l c nil 0 0 hl]
  rcases hv with ⟨h1, rfl⟩ | ⟨o, h1, _, rfl⟩
  · refine ⟨_, by simp [A.orNew, h1, AObj.asHash]; rfl, ?_⟩
    simp only [put_twice, A.hsetLoop]
  · refine ⟨_, by simp [A.orNew, h1, AObj.asHash]; rfl, rfl⟩

theorem does_sadd (hlow : LowerOk lower) {key : Bytes} (v : AS) (l c : List Bytes)
    (hv : (v.v key = none ∧ l = []) ∨ (∃ o, v.v key = some o ∧ o = .set (A.saddLoop l nil 0).1)) :
    ∃ o', (o' = .set (A.saddLoop (l ++ c) nil 0).1) ∧ Does hash lower [b!"sadd" :: key :: c] v (A.put v key o') := by
  refine ⟨_, rfl, Does.one hlow (c := ⟨b!"sadd", .sadd, -3⟩) (by simp [commandTable]) (by rfl) (by rfl) (by rfl) fun e => ?_⟩
  unfold A.sadd
  rw [saddLoop_append l c nil 0 0]
  rcases hv with ⟨h1, rfl⟩ | ⟨o, h1, rfl⟩
  · refine ⟨_, by simp [A.orNew, h1, AObj.asSet]; rfl, ?_⟩
    simp only [put_twice, A.saddLoop]
  · refine ⟨_, by simp [A.orNew, h1, AObj.asSet]; rfl, rfl⟩

theorem does_lpush (hlow : LowerOk lower) {key : Bytes} (v : AS) (l c : List Bytes)
    (hv : (v.v key = none ∧ l = []) ∨ (∃ o, v.v key = some o ∧ ∃ q, o = .list q ∧ Quicklist.Wf pageSize q ∧ Quicklist.elems q = l.reverse)) :
    ∃ o', (∃ q, o' = .list q ∧ Quicklist.Wf pageSize q ∧ Quicklist.elems q = (l ++ c).reverse) ∧
      Does hash lower [b!"lpush" :: key :: c] v (A.put v key o') := by
  have : ∃ q, Quicklist.Wf pageSize q ∧ Quicklist.elems q = l.reverse ∧ (A.orNew AObj.asList (.list Quicklist.new) v key).1 = some q ∧
      ∀ o, A.put (A.orNew AObj.asList (.list Quicklist.new) v key).2 key o = A.put v key o := by
    rcases hv with ⟨h1, rfl⟩ | ⟨o, h1, q, rfl, w, hq⟩
    · exact ⟨Quicklist.new, Quicklist.new_wf _, rfl, by simp [A.orNew, h1, AObj.asList], fun o => by simp [A.orNew, h1, put_twice]⟩
    · exact ⟨q, w, hq, by simp [A.orNew, h1, AObj.asList], fun o => by simp [A.orNew, h1]⟩
  obtain ⟨q, w, hq, h1, h2⟩ := this
  obtain ⟨q', k1, k2, k3⟩ := lpushLoop_spec c q w
  refine ⟨.list q', ⟨q', rfl, k2, by rw [k3, hq, List.reverse_append]⟩,
    Does.one hlow (c := ⟨b!"lpush", .lpush, -3⟩) (by simp [commandTable]) (by rfl) (by rfl) (by rfl) fun e => ?_⟩
  unfold A.lpush
  generalize hp : A.orNew AObj.asList (.list Quicklist.new) v key = p at h1 h2
  obtain ⟨q0, s1⟩ := p
  simp only at h1
  subst h1
  simp only [List.getElem?_cons_succ, List.getElem?_cons_zero, Option.bind_eq_bind, Option.bind_some, hp, List.drop_succ_cons, List.drop_zero, k1]
  exact ⟨_, rfl, h2 _⟩

/-! ### one object -/

/-- A value and what the commands written for it make of a missing key. -/
inductive Dumped : Option AObj → Option AObj → Prop
  | missing : Dumped none none
  | str (s) : Dumped (some (.str s)) (some (.str s))
  | list {q q'} (w : Quicklist.Wf pageSize q') (hne : Quicklist.elems q ≠ []) (h : Quicklist.elems q' = (Quicklist.elems q).reverse) :
      Dumped (some (.list q)) (some (.list q'))
  | noList {q} (h : Quicklist.elems q = []) : Dumped (some (.list q)) none
  | hash {f : Fn Bytes} (hne : ∃ x, f x ≠ none) : Dumped (some (.hash f)) (some (.hash f))
  | noHash {f : Fn Bytes} (h : ∀ x, f x = none) : Dumped (some (.hash f)) none
  | set {f : Fn Unit} (hne : ∃ x, f x ≠ none) : Dumped (some (.set f)) (some (.set f))
  | noSet {f : Fn Unit} (h : ∀ x, f x = none) : Dumped (some (.set f)) none

theorem listItems_at {ps : Nat} {q : Quicklist Bytes} (w : Quicklist.Wf ps q) : ∀ (n : Nat) (it : QIter) (i : Nat), Quicklist.At q it i →
    (Quicklist.elems q).length ≤ i + n → Aof.listItems q n it = some ((Quicklist.elems q).drop (i + 1))
  | 0, it, i, h, hn => by have := Quicklist.at_lt q it i h; omega
  | n + 1, it, i, h, hn => by
    unfold Aof.listItems
    by_cases hlt : i + 1 < (Quicklist.elems q).length
    · obtain ⟨it', h1, hat⟩ := (Quicklist.iterNext_at q w it i h).1 hlt
      rw [h1, List.getElem?_eq_getElem hlt]
      simp only [Option.bind_eq_bind, Option.bind_some, listItems_at w n it' (i + 1) hat (by omega)]
      rw [List.drop_eq_getElem_cons hlt]
    · obtain ⟨it', h1⟩ := (Quicklist.iterNext_at q w it i h).2 (by have := Quicklist.at_lt q it i h; omega)
      rw [h1]
      simp only [Option.bind_eq_bind, Option.bind_some]
      rw [List.drop_eq_nil_of_le (by omega)]

theorem listItems_spec {ps : Nat} {q : Quicklist Bytes} (w : Quicklist.Wf ps q) :
    Aof.listItems q (q.length + 1) Quicklist.iterNew = some (Quicklist.elems q) := by
  by_cases h : Quicklist.elems q = []
  · have := (Quicklist.iterNext_first q w).1 h
    simp [Aof.listItems, this, h]
  · obtain ⟨it', h1, hat⟩ := (Quicklist.iterNext_first q w).2 h
    have hpos := List.length_pos_iff.mpr h
    unfold Aof.listItems
    rw [h1, List.getElem?_eq_getElem hpos]
    simp only [Option.bind_eq_bind, Option.bind_some, listItems_at w q.length it' 0 hat (by rw [w.len]; omega)]
    have hd := List.drop_eq_getElem_cons hpos
    simp only [List.drop_zero] at hd
    rw [← hd]

/-- Not a sorted set, and a list is in order. -/
def Dumpable : AObj → Prop
  | .zset _ => False
  | .list q => Quicklist.Wf pageSize q
  | _ => True

/-- A database of which `k` holds the given value, or nothing. -/
def AS.at (v : AS) (k : Bytes) (o : Option AObj) (t : Option Int) : AS := ⟨upd v.v k o, upd v.t k t⟩

theorem at_none {v : AS} {k : Bytes} (h1 : v.v k = none) (h2 : v.t k = none) : v.at k none none = v := by
  unfold AS.at; rw [upd_same _ _ _ h1, upd_same _ _ _ h2]

theorem put_at {v : AS} {k : Bytes} {o : AObj} (h2 : v.t k = none) : A.put v k o = v.at k (some o) none := by
  unfold AS.at A.put; rw [upd_same _ _ _ h2]

theorem dumpObj_does (hlow : LowerOk lower) (e : Env) {o : Obj} (g : o.Good hash) (hd : Dumpable o.view) {k : Bytes} {v : AS}
    (h1 : v.v k = none) (h2 : v.t k = none) :
    ∃ recs o', Aof.dumpObj e k o = some recs ∧ (∀ r ∈ recs, r ≠ []) ∧ Dumped (some o.view) o' ∧ Does hash lower recs v (v.at k o' none) := by
  cases o with
  | zset z => exact hd.elim
  | str s =>
    refine ⟨_, some (.str s), rfl, by simp, .str s, ?_⟩
    refine Does.one hlow (c := ⟨b!"set", .set, -3⟩) (by simp [commandTable]) (by rfl) (by rfl) (by rfl) fun e => ?_
    exact ⟨_, rfl, rfl⟩
  | list q =>
    have w : Quicklist.Wf pageSize q := hd
    refine ⟨Aof.pieces b!"lpush" k Aof.itemsPerCommand (Quicklist.elems q), ?_⟩
    by_cases hne : Quicklist.elems q = []
    · refine ⟨none, by simp [Aof.dumpObj, listItems_spec w], by simp [Aof.pieces], .noList hne, ?_⟩
      rw [at_none h1 h2, hne]
      exact Does.refl v
    · obtain ⟨o', ⟨q', rfl, k2, k3⟩, k4⟩ := does_pieces (name := b!"lpush") (P := fun _ => True)
        (fun v l c hv _ => does_lpush (hash := hash) hlow (key := k) v l c hv) (Aof.chunks Aof.itemsPerCommand (Quicklist.elems q).length (Quicklist.elems q)) v []
        (chunks_nil (by decide) (Nat.le_refl _) hne) (fun _ _ => trivial) (Or.inl ⟨h1, rfl⟩)
      rw [List.nil_append, chunks_flatten (by decide) _ _ (Nat.le_refl _)] at k3
      refine ⟨some (.list q'), by simp [Aof.dumpObj, listItems_spec w], by simp [Aof.pieces], .list k2 hne k3, ?_⟩
      rw [← put_at h2]
      exact k4
  | hash d =>
    have gd : Dict.Good hash d := g
    have hc := Dict.collect_spec d gd.inv (by rw [gd.idle]) (fun _ => gd.idle)
    refine ⟨Aof.pieces b!"hset" k (Aof.itemsPerCommand * 2) (d.toList.flatMap (fun x => [x.1, x.2])), ?_⟩
    by_cases hne : d.toList = []
    · refine ⟨none, by simp [Aof.dumpObj, size_ref gd, hc], by simp [Aof.pieces], .noHash (fun x => by rw [Dict.abs_eq_none]; simp [hne]), ?_⟩
      rw [at_none h1 h2, hne]
      exact Does.refl v
    · have hlen : ∀ l : List (Bytes × Bytes), (l.flatMap (fun x => [x.1, x.2])).length % 2 = 0 := fun l => by
        induction l with
        | nil => rfl
        | cons a l ih => simp only [List.flatMap_cons, List.length_append, List.length_cons, List.length_nil]; omega
      obtain ⟨o', ⟨_, rfl⟩, k4⟩ := does_pieces (name := b!"hset") (P := fun c => c.length % 2 = 0)
        (fun v l c hv hc => does_hset (hash := hash) hlow (key := k) v l c hv hc)
        (Aof.chunks (Aof.itemsPerCommand * 2) (d.toList.flatMap (fun x => [x.1, x.2])).length (d.toList.flatMap (fun x => [x.1, x.2]))) v []
        (chunks_nil (by decide) (Nat.le_refl _) (by cases hl : d.toList with | nil => exact absurd hl hne | cons a l => simp))
        (chunks_even (by decide) _ _ (hlen _)) (Or.inl ⟨h1, rfl⟩)
      rw [List.nil_append, chunks_flatten (by decide) _ _ (Nat.le_refl _), hsetLoop_dict gd] at k4
      refine ⟨some (.hash d.abs), by simp [Aof.dumpObj, size_ref gd, hc], by simp [Aof.pieces], .hash ?_, ?_⟩
      · cases hl : d.toList with
        | nil => exact absurd hl hne
        | cons a l => exact ⟨a.1, by rw [(Dict.abs_eq_some gd.inv a.1 a.2).2 (by rw [hl]; simp)]; simp⟩
      · rw [← put_at h2]
        exact k4
  | set d =>
    have gd : Dict.Good hash d := g
    have hc := MSet.range_spec d gd.inv (by rw [gd.idle]) (fun _ => gd.idle)
    refine ⟨Aof.pieces b!"sadd" k Aof.itemsPerCommand (d.toList.map Prod.fst), ?_⟩
    have hdump : Aof.dumpObj e k (.set d) = some (Aof.pieces b!"sadd" k Aof.itemsPerCommand (d.toList.map Prod.fst)) := by
      simp only [Aof.dumpObj, hc, Option.bind_eq_bind, Option.bind_some]; rfl
    by_cases hne : d.toList = []
    · refine ⟨none, hdump, by simp [Aof.pieces], .noSet (fun x => by rw [Dict.abs_eq_none]; simp [hne]), ?_⟩
      rw [at_none h1 h2, hne]
      exact Does.refl v
    · obtain ⟨o', rfl, k4⟩ := does_pieces (name := b!"sadd") (P := fun _ => True)
        (fun v l c hv hc => does_sadd (hash := hash) hlow (key := k) v l c hv)
        (Aof.chunks Aof.itemsPerCommand (d.toList.map Prod.fst).length (d.toList.map Prod.fst)) v []
        (chunks_nil (by decide) (Nat.le_refl _) (by simpa using hne)) (fun _ _ => trivial) (Or.inl ⟨h1, rfl⟩)
      rw [List.nil_append, chunks_flatten (by decide) _ _ (Nat.le_refl _), saddLoop_set gd] at k4
      refine ⟨some (.set d.abs), hdump, by simp [Aof.pieces], .set ?_, ?_⟩
      · cases hl : d.toList with
        | nil => exact absurd hl hne
        | cons a l => exact ⟨a.1, by rw [(Dict.abs_eq_some gd.inv a.1 a.2).2 (by rw [hl]; simp)]; simp⟩
      · rw [← put_at h2]
        exact k4

/-! ### one key -/

/-- What a rewrite keeps of a deadline: whole seconds. -/
def sec (d : Int) : Int := d.tdiv 1000 * 1000

theorem sec_bounds (d : Int) : (0 ≤ d → 0 ≤ sec d ∧ sec d ≤ d ∧ d < sec d + 1000) ∧ (d < 0 → sec d ≤ 0 ∧ d ≤ sec d ∧ sec d < d + 1000) := by
  unfold sec
  constructor
  · intro h
    rw [Int.tdiv_eq_ediv_of_nonneg h]
    omega
  · intro h
    have : d.tdiv 1000 = -((-d) / 1000) := by
      rw [← Int.tdiv_eq_ediv_of_nonneg (by omega), Int.neg_tdiv]; omega
    rw [this]
    omega

theorem dumpDeadline_does (hlow : LowerOk lower) {k : Bytes} {v : AS} {o : Option AObj} {t : Option Int}
    (ht : ∀ d, t = some d → -2 ^ 63 ≤ d ∧ d < 2 ^ 63) :
    Does hash lower (Aof.dumpDeadline k t) (v.at k o none) (v.at k o (t.map sec)) := by
  cases t with
  | none => exact Does.refl _
  | some d =>
    obtain ⟨h1, h2⟩ := ht d rfl
    have hb := sec_bounds d
    unfold sec at hb
    have a1 : -2 ^ 63 ≤ d.tdiv 1000 := by omega
    have a2 : d.tdiv 1000 < 2 ^ 63 := by omega
    have a3 : wrap64 (d.tdiv 1000 * 1000) = d.tdiv 1000 * 1000 := wrap_id (by omega) (by omega)
    refine Does.one hlow (c := ⟨b!"expireat", .expireat, 3⟩) (by simp [commandTable]) (by rfl) (by rfl) (by rfl) fun e => ?_
    refine ⟨_, by simp [A.expireAt, atoi_itoa a1 a2]; rfl, ?_⟩
    simp only [AS.at, a3, AS.mk.injEq, true_and, Option.map_some, sec]
    funext x; simp only [upd]; split <;> rfl

/-- What a rewrite makes of a whole database. -/
structure DumpedDb (v v' : AS) : Prop where
  vals : ∀ k, Dumped (v.v k) (v'.v k)
  times : ∀ k, v'.t k = if (v.v k).isSome then (v.t k).map sec else none

/-- The chores for a list of entries. -/
def keyChores (i : Nat) (t : Fn Int) (l : List (Bytes × Obj)) : List Aof.Chore := l.map (fun p => .key ⟨i, p.1, p.2, t p.1⟩)

theorem dumpChores_append (e : Env) : ∀ (a b : List Aof.Chore), Aof.dumpChores e (a ++ b) =
    (Aof.dumpChores e a).bind (fun x => (Aof.dumpChores e b).map (fun y => x ++ y))
  | [], b => by simp [Aof.dumpChores]
  | c :: a, b => by
    simp only [List.cons_append, Aof.dumpChores, dumpChores_append e a b]
    cases Aof.dumpChore e c with
    | none => rfl
    | some x =>
      cases Aof.dumpChores e a with
      | none => rfl
      | some y =>
        cases Aof.dumpChores e b with
        | none => rfl
        | some z => simp

theorem keyChores_does (hlow : LowerOk lower) (e : Env) {i : Nat} {t : Fn Int} (ht : ∀ k d, t k = some d → -2 ^ 63 ≤ d ∧ d < 2 ^ 63) :
    ∀ (l : List (Bytes × Obj)) (v : AS), (l.map Prod.fst).Nodup → (∀ p ∈ l, p.2.Good hash ∧ Dumpable p.2.view) →
      (∀ k ∈ l.map Prod.fst, v.v k = none ∧ v.t k = none) →
      ∃ recs v', Aof.dumpChores e (keyChores i t l) = some recs ∧ (∀ r ∈ recs, r ≠ []) ∧ Does hash lower recs v v' ∧
        (∀ p ∈ l, Dumped (some p.2.view) (v'.v p.1) ∧ v'.t p.1 = (t p.1).map sec) ∧
        ∀ k, k ∉ l.map Prod.fst → v'.v k = v.v k ∧ v'.t k = v.t k
  | [], v, _, _, _ => ⟨[], v, rfl, by simp, Does.refl v, by simp, fun k _ => ⟨rfl, rfl⟩⟩
  | (k, o) :: l, v, hnd, hg, hfree => by
    simp only [List.map_cons, List.nodup_cons] at hnd
    obtain ⟨f1, f2⟩ := hfree k (by simp)
    obtain ⟨recs, o', a1, a0, a2, a3⟩ := dumpObj_does hlow e (hg (k, o) (by simp)).1 (hg (k, o) (by simp)).2 f1 f2
    have a4 := dumpDeadline_does (hash := hash) hlow (k := k) (v := v) (o := o') (t := t k) (ht k)
    obtain ⟨recs2, v', b1, b0, b2, b3, b4⟩ := keyChores_does hlow e ht l (v.at k o' ((t k).map sec)) hnd.2
      (fun p hp => hg p (List.mem_cons_of_mem _ hp)) (fun x hx => by
        have hxk : x ≠ k := fun h => hnd.1 (h ▸ hx)
        simp only [AS.at, upd_ne _ _ hxk]
        exact hfree x (by simp [hx]))
    refine ⟨recs ++ Aof.dumpDeadline k (t k) ++ recs2, v', ?_, ?_, (a3.append a4).append b2, ?_, ?_⟩
    · simp [keyChores, Aof.dumpChores, Aof.dumpChore, a1]
      rw [keyChores] at b1
      rw [b1]; simp
    · intro r hr
      simp only [List.mem_append] at hr
      rcases hr with (hr | hr) | hr
      · exact a0 r hr
      · cases h : t k with
        | none => rw [h] at hr; simp [Aof.dumpDeadline] at hr
        | some d => rw [h] at hr; simp only [Aof.dumpDeadline, List.mem_singleton] at hr; rw [hr]; simp
      · exact b0 r hr
    · intro p hp
      rcases List.mem_cons.mp hp with rfl | hp
      · obtain ⟨c1, c2⟩ := b4 k hnd.1
        simp only [c1, c2, AS.at, upd_at, and_true]
        exact a2
      · exact b3 p hp
    · intro x hx
      simp only [List.map_cons, List.mem_cons, not_or] at hx
      obtain ⟨c1, c2⟩ := b4 x hx.2
      simp only [c1, c2, AS.at, upd_ne _ _ hx.1, and_self]

theorem items_spec (e : Env) (he : e.hash = hash) (i : Nat) : ∀ (l : List (Bytes × Obj)) (x : Dict Bytes Int), Dict.Good hash x →
    ∃ its, Aof.items e i l x = some its ∧ its.map Aof.Chore.key = keyChores i x.abs l
  | [], x, _ => ⟨[], rfl, rfl⟩
  | (k, o) :: l, x, g => by
    obtain ⟨x', h1, h2, h3, _⟩ := Dict.find_map g k
    obtain ⟨its, k1, k2⟩ := items_spec e he i l x' h2
    refine ⟨_, by simp only [Aof.items, he, h1, k1, Option.bind_eq_bind, Option.bind_some]; rfl, ?_⟩
    rw [h3] at k2
    simp only [List.map_cons, k2, keyChores]
    cases x.abs k <;> rfl

/-! ### all databases -/

/-- Nothing in it that a rewrite cannot write. -/
structure DbOk (hash : Bytes → Nat) (c : Db) : Prop where
  good : c.Good hash
  dump : ∀ k o, c.view.v k = some o → Dumpable o
  time : TOk c.view

/-- The empty database. -/
def AS.empty : AS := ⟨nil, nil⟩

theorem chores_replay (hlow : LowerOk lower) (e : Env) (he : e.hash = hash) : ∀ (cs : List Db) (i : Nat), (∀ c ∈ cs, DbOk hash c) →
    ∃ ch recs, Aof.chores e i cs = some ch ∧ Aof.dumpChores e ch = some recs ∧ (∀ r ∈ recs, r ≠ []) ∧
      ∀ (es : Nat → Env), (∀ i, (es i).hash = hash ∧ (es i).lower = lower) → ∀ (srv : Server) (s : Session), srv.dbs.length = i + cs.length →
        srv.dbs.length < 2 ^ 63 → (∀ j d, i ≤ j → srv.dbs[j]? = some d → d.Good hash ∧ d.view = .empty) →
        ∃ srv' s', Aof.replay es recs srv s = some (srv', s') ∧ srv'.dbs.length = srv.dbs.length ∧ (∀ j, j < i → srv'.dbs[j]? = srv.dbs[j]?) ∧
          ∀ (j : Nat) (c : Db), cs[j]? = some c → ∃ d', srv'.dbs[i + j]? = some d' ∧ d'.Good hash ∧ DumpedDb c.view d'.view
  | [], i, _ => by
    refine ⟨[], [], rfl, rfl, by simp, fun es hes srv s hl _ hem => ⟨srv, s, rfl, rfl, fun _ _ => rfl, by simp⟩⟩
  | c :: cs, i, hok => by
    obtain ⟨ch, recs, h1, h2, h0, h3⟩ := chores_replay hlow e he cs (i + 1) (fun x hx => hok x (List.mem_cons_of_mem _ hx))
    have hc := hok c (by simp)
    have gd := hc.good.dict
    have hsz := size_ref gd
    have hempty : AS.empty.v = nil ∧ AS.empty.t = nil := ⟨rfl, rfl⟩
    by_cases hne : c.dict.toList = []
    · have hv : ∀ k, c.view.v k = none := fun k => view_none.2 (by rw [Dict.abs_eq_none]; simp [hne])
      refine ⟨ch, recs, by simp [Aof.chores, hsz, h1, hne], h2, h0, fun es hes srv s hl hb hem => ?_⟩
      obtain ⟨srv', s', k1, k2, k3, k4⟩ := h3 es hes srv s (by rw [hl, List.length_cons]; omega) hb (fun j d hj hd => hem j d (by omega) hd)
      refine ⟨srv', s', k1, k2, fun j hj => k3 j (by omega), fun j x hx => ?_⟩
      cases j with
      | zero =>
        cases hx
        obtain ⟨d, hd⟩ := get_lt (l := srv.dbs) (i := i) (by rw [hl, List.length_cons]; omega)
        obtain ⟨g, hdv⟩ := hem i d (Nat.le_refl _) hd
        refine ⟨d, by rw [Nat.add_zero, k3 i (by omega), hd], g, ?_⟩
        rw [hdv]
        refine ⟨fun k => ?_, fun k => ?_⟩
        · rw [hv k]; exact .missing
        · rw [hv k]; rfl
      | succ j =>
        obtain ⟨d', q1, q2⟩ := k4 j x hx
        exact ⟨d', by rw [← q1]; congr 1; omega, q2⟩
    · have hcol := Dict.collect_spec c.dict gd.inv (by rw [gd.idle]) (fun _ => gd.idle)
      obtain ⟨its, i1, i2⟩ := items_spec e he i c.dict.toList c.expire hc.good.expire
      obtain ⟨recs1, v', b1, b0, b2, b3, b4⟩ := keyChores_does hlow e (i := i) (t := c.expire.abs) (fun k d hd => hc.time k d hd) c.dict.toList .empty gd.inv.nodup
        (fun p hp => by
          have := (Dict.abs_eq_some gd.inv p.1 p.2).2 hp
          exact ⟨hc.good.objs p.1 p.2 this, hc.dump p.1 _ (by simp [Db.view, this])⟩)
        (fun _ _ => ⟨rfl, rfl⟩)
      refine ⟨.select i :: keyChores i c.expire.abs c.dict.toList ++ ch, [selectRec i] ++ recs1 ++ recs, ?_, ?_, ?_, fun es hes srv s hl hb hem => ?_⟩
      · simp only [Aof.chores, hsz, h1, hcol, i1, Option.bind_eq_bind, Option.bind_some, i2]
        rw [if_neg (by simp [hne])]
      · rw [List.cons_append, Aof.dumpChores, dumpChores_append, b1, h2]
        simp [Aof.dumpChore, selectRec]
      · intro r hr
        simp only [List.mem_append, List.mem_singleton] at hr
        rcases hr with (rfl | hr) | hr
        · simp [selectRec]
        · exact b0 r hr
        · exact h0 r hr
      · have hi : i < srv.dbs.length := by rw [hl, List.length_cons]; omega
        obtain ⟨d, hd⟩ := get_lt (l := srv.dbs) (i := i) hi
        obtain ⟨g, hdv⟩ := hem i d (Nat.le_refl _) hd
        have hsel := exec_select (e := es 0) (by rw [(hes 0).2]; exact hlow) (s := s) hi hb
        obtain ⟨srv1, d1, p1, p2, p3, p4⟩ := b2 (fun n => es (n + 1)) (fun n => hes _) srv { s with db := i } d hd g hdv
        have hl1 : srv1.dbs.length = srv.dbs.length := by rw [p2]; simp
        have hget : ∀ j, srv1.dbs[j]? = if i = j then some d1 else srv.dbs[j]? := fun j => by rw [p2]; exact set_get hd j
        obtain ⟨srv', s', k1, k2, k3, k4⟩ := h3 (fun n => es (n + recs1.length + 1)) (fun n => hes _) srv1 { s with db := i }
          (by rw [hl1, hl, List.length_cons]; omega) (by rw [hl1]; exact hb) (fun j x hj hx => by
            rw [hget, if_neg (by omega)] at hx
            exact hem j x (by omega) hx)
        refine ⟨srv', s', ?_, by rw [k2, hl1], fun j hj => ?_, fun j x hx => ?_⟩
        · rw [List.append_assoc, List.singleton_append, Aof.replay, hsel]
          simp only [Option.bind_eq_bind, Option.bind_some]
          rw [replay_append, p1, Option.bind_some]
          exact k1
        · rw [k3 j (by omega), hget, if_neg (by omega)]
        · cases j with
          | zero =>
            cases hx
            refine ⟨d1, by rw [Nat.add_zero, k3 i (by omega), hget, if_pos rfl], p3, ?_⟩
            rw [p4]
            refine ⟨fun k => ?_, fun k => ?_⟩
            · cases h : c.dict.abs k with
              | some o =>
                have hm := (Dict.abs_eq_some gd.inv k o).1 h
                have := (b3 (k, o) hm).1
                simp only [Db.view, h, Option.map_some]
                exact this
              | none =>
                have hm := (Dict.abs_eq_none k).1 h
                rw [(b4 k hm).1]
                simp only [Db.view, h, Option.map_none]
                exact .missing
            · cases h : c.dict.abs k with
              | some o =>
                have hm := (Dict.abs_eq_some gd.inv k o).1 h
                rw [(b3 (k, o) hm).2]
                simp [Db.view, h]
              | none =>
                have hm := (Dict.abs_eq_none k).1 h
                rw [(b4 k hm).2]
                simp [Db.view, h, AS.empty, nil]
          | succ j =>
            obtain ⟨d', q1, q2⟩ := k4 j x hx
            exact ⟨d', by rw [← q1]; congr 1; omega, q2⟩
