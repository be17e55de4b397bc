import Verif.Proofs.RefBase
import Verif.Props.Sorted
set_option linter.unusedSectionVars false
set_option linter.unusedSimpArgs false
set_option linter.unusedVariables false
namespace Metis.RefSim
open Metis Metis.Spec

/-! ### lists of one page -/

/-- A well-formed list on at most one page. -/
structure Page (q : Quicklist Bytes) : Prop where
  wf  : Quicklist.Wf pageSize q
  one : q.pages.length ≤ 1

theorem page_new : Page Quicklist.new := ⟨Quicklist.new_wf _, by simp [Quicklist.new]⟩

theorem page_cases {q : Quicklist Bytes} (h : Page q) : q.pages = [] ∨ ∃ p, q.pages = [p] ∧ p = Quicklist.elems q := by
  have := h.one
  match hq : q.pages, this with
  | [], _ => exact Or.inl rfl
  | [p], _ => exact Or.inr ⟨p, rfl, by simp [Quicklist.elems, hq]⟩

theorem page_back {q : Quicklist Bytes} (h : Page q) (hl : (Quicklist.elems q).length < pageSize) (v : Bytes) : Page (Quicklist.pushBack pageSize q v) := by
  refine ⟨(Quicklist.pushBack_spec (by decide) q h.wf v).1, ?_⟩
  unfold Quicklist.pushBack
  rcases page_cases h with hp | ⟨p, hp, he⟩
  · simp [hp]
  · rw [← he] at hl
    simp only [hp, List.getLast?_singleton, if_neg (show ¬ p.length = pageSize by omega)]
    simp

theorem page_front {q : Quicklist Bytes} (h : Page q) (hl : (Quicklist.elems q).length < pageSize) {v : Bytes} {q' : Quicklist Bytes}
    (hq : Quicklist.pushFront pageSize q v = some q') : Page q' := by
  obtain ⟨q1, h1, h2, h3⟩ := Quicklist.pushFront_spec (ps := pageSize) (by decide) q h.wf v
  rw [hq] at h1; cases h1
  refine ⟨h2, ?_⟩
  unfold Quicklist.pushFront at hq
  simp only [Option.bind_eq_bind, Option.bind_eq_some_iff] at hq
  obtain ⟨⟨b, q2⟩, h4, h5⟩ := hq
  cases h5
  unfold Quicklist.insert at h4
  split at h4
  · cases h4; exact h.one
  · split at h4
    · cases h4; exact (page_back h hl v).one
    · simp only [Option.bind_eq_bind, Option.bind_eq_some_iff] at h4
      obtain ⟨it, _, n, _, page, hp, h4⟩ := h4
      have hlt : page.length < pageSize := by
        rcases page_cases h with hp' | ⟨p, hp', he⟩
        · rw [hp'] at hp; simp at hp
        · rw [hp'] at hp
          rcases n with _ | n
          · simp at hp; rw [← hp, he]; exact hl
          · simp at hp
      rw [if_pos hlt] at h4
      simp only [Option.bind_eq_some_iff] at h4
      obtain ⟨page', _, h4⟩ := h4
      cases h4
      simp only [List.length_set]
      exact h.one

theorem page_lpush : ∀ (vs : List Bytes) {q : Quicklist Bytes}, Page q → (Quicklist.elems q).length + vs.length ≤ pageSize →
    ∃ q', Cmds.lpushLoop vs q = some q' ∧ Page q' ∧ Quicklist.elems q' = vs.reverse ++ Quicklist.elems q
  | [], q, h, _ => ⟨q, rfl, h, rfl⟩
  | v :: vs, q, h, hl => by
    simp only [List.length_cons] at hl
    obtain ⟨q1, h1, h2, h3⟩ := Quicklist.pushFront_spec (ps := pageSize) (by decide) q h.wf v
    obtain ⟨q2, h4, h5, h6⟩ := page_lpush vs (page_front h (by omega) h1) (by rw [h3]; simp only [List.length_cons]; omega)
    refine ⟨q2, ?_, h5, by rw [h6, h3]; simp⟩
    unfold Cmds.lpushLoop
    rw [h1]; exact h4

theorem page_rpush : ∀ (vs : List Bytes) {q : Quicklist Bytes}, Page q → (Quicklist.elems q).length + vs.length ≤ pageSize →
    Page (Cmds.rpushLoop vs q) ∧ Quicklist.elems (Cmds.rpushLoop vs q) = Quicklist.elems q ++ vs
  | [], q, h, _ => ⟨h, by simp [Cmds.rpushLoop]⟩
  | v :: vs, q, h, hl => by
    simp only [List.length_cons] at hl
    have h1 := (Quicklist.pushBack_spec (ps := pageSize) (by decide) q h.wf v).2
    obtain ⟨h2, h3⟩ := page_rpush vs (page_back h (by omega) v) (by rw [h1]; simp only [List.length_append, List.length_cons, List.length_nil]; omega)
    exact ⟨h2, by rw [show Cmds.rpushLoop (v :: vs) q = Cmds.rpushLoop vs (Quicklist.pushBack pageSize q v) from rfl, h3, h1]; simp⟩

theorem page_remove {q : Quicklist Bytes} (h : Page q) {i : Int} {r : Option Bytes} {q' : Quicklist Bytes} (hr : Quicklist.remove q i = some (r, q')) : Page q' := by
  refine ⟨Quicklist.remove_wf q h.wf i r q' hr, ?_⟩
  unfold Quicklist.remove at hr
  split at hr
  · cases hr; exact h.one
  · simp only [Option.bind_eq_bind, Option.bind_eq_some_iff] at hr
    obtain ⟨n, _, page, _, hr⟩ := hr
    split at hr
    · cases hr
    · simp only [Option.bind_eq_some_iff] at hr
      obtain ⟨v, _, hr⟩ := hr
      have := h.one
      split at hr <;> cases hr
      · simp only [List.length_set]; exact this
      · have := List.length_eraseIdx_le q.pages n
        simp only
        omega

/-- All lists of the database are on one page, and all sorted sets are in order. -/
structure AOk (s : AS) : Prop where
  page : ∀ k q, s.v k = some (.list q) → Page q
  zset : ∀ k, ZAt k s

theorem aok_swept {e : Env} {s s' : AS} (h : Swept e s s') (hs : AOk s) : AOk s' := by
  refine ⟨fun k q hq => ?_, fun k => zat_swept h (hs.zset k)⟩
  rcases h k with ⟨h, _⟩ | ⟨_, h, _⟩
  · exact hs.page k q (h ▸ hq)
  · rw [h] at hq; cases hq

theorem aok_exp {e : Env} {s : AS} {k : Bytes} (hs : AOk s) : AOk (A.exp e s k) := aok_swept swept_exp hs

theorem AOk.lok {s : AS} (h : AOk s) : LOk s := fun k q hq => (h.page k q hq).wf

section
variable {e : Env} {s : AS} {n k a b : Bytes} {rest : List Bytes}

theorem orNew_page (hs : AOk s) {l : List Bytes} (h : Ref.listOr ((store s).val k) = some l) :
    ∃ q s1, A.orNew AObj.asList (.list Quicklist.new) s k = (some q, s1) ∧ Quicklist.elems q = l ∧ Page q ∧ ∀ o, A.put s1 k o = A.put s k o := by
  unfold A.orNew
  rw [store_val] at h
  rcases hv : s.v k with _ | (x | x | x | x | x) <;> rw [hv] at h <;> first | (cases h; done) | skip
  · cases h
    exact ⟨_, _, rfl, rfl, page_new, fun o => put_put (Or.inr ⟨_, rfl⟩) o⟩
  · cases h
    exact ⟨_, _, rfl, rfl, hs.page k x hv, fun o => rfl⟩

theorem orNew_fail {β : Type} {as : AObj → Option β} {fr : AObj} {o : AObj} (h : s.v k = some o) (ho : as o = none) : A.orNew as fr s k = (none, s) := by
  unfold A.orNew; rw [h]; simp [ho]

theorem sim_lpush (hs : AOk s) (h : ∀ l, Ref.listOr ((store s).val k) = some l → l.length + rest.length ≤ 1024) :
    Sim (Ref.push true (k :: rest) (store s)) (A.lpush e (n :: k :: rest) s) := by
  unfold A.lpush Ref.push; look
  cases hh : Ref.listOr ((store s).val k) with
  | none =>
    unfold A.orNew
    rw [store_val] at hh
    rcases hv : s.v k with _ | (x | x | x | x | x) <;> rw [hv] at hh <;> first | (cases hh; done) | exact sim_fails
  | some l =>
    obtain ⟨q, s1, h1, h2, h3, h4⟩ := orNew_page hs hh
    obtain ⟨q', h5, h6, h7⟩ := page_lpush rest h3 (by rw [h2]; exact h l hh)
    simp only [h1, h5, h4, Option.bind_some, if_true]
    rw [show Ref.Val.list (rest.reverse ++ l) = val (.list q') from by
      simp only [val]; rw [show q'.pages.flatten = _ from h7, h2], ← store_put]
    refine sim_gives ?_
    unfold Quicklist.len
    rw [h6.wf.len, h7, h2, show ((rest.reverse ++ l).length : Int) = l.length + rest.length by simp; omega]
    exact says_int _

theorem sim_rpush (hs : AOk s) (h : ∀ l, Ref.listOr ((store s).val k) = some l → l.length + rest.length ≤ 1024) :
    Sim (Ref.push false (k :: rest) (store s)) (A.rpush e (n :: k :: rest) s) := by
  unfold A.rpush Ref.push; look
  cases hh : Ref.listOr ((store s).val k) with
  | none =>
    unfold A.orNew
    rw [store_val] at hh
    rcases hv : s.v k with _ | (x | x | x | x | x) <;> rw [hv] at hh <;> first | (cases hh; done) | exact sim_fails
  | some l =>
    obtain ⟨q, s1, h1, h2, h3, h4⟩ := orNew_page hs hh
    obtain ⟨h6, h7⟩ := page_rpush rest h3 (by rw [h2]; exact h l hh)
    simp only [h1, h4, Option.bind_some, Bool.false_eq_true, if_false]
    rw [show Ref.Val.list (l ++ rest) = val (.list (Cmds.rpushLoop rest q)) from by
      simp only [val]; rw [show (Cmds.rpushLoop rest q).pages.flatten = _ from h7, h2], ← store_put]
    refine sim_gives ?_
    unfold Quicklist.len
    rw [h6.wf.len, h7, h2, show ((l ++ rest).length : Int) = l.length + rest.length by simp]
    exact says_int _

theorem sim_lpop (hs : AOk s) : Sim (Ref.lpop e (k :: rest) (store s)) (A.lpop e (n :: k :: rest) s) := by
  have hs1 := aok_exp (e := e) (k := k) hs
  unfold A.lpop A.popCmd Ref.lpop; look
  revert hs1
  generalize A.exp e s k = s1
  intro hs1
  rw [store_val]; unfold A.look
  rcases hv : s1.v k with _ | (x | x | x | x | x)
  · exact sim_gives says_null
  · exact sim_fails
  · have hp := hs1.page k x hv
    simp only [AObj.asList, val, Option.map]
    obtain ⟨q', h1, h2, h3⟩ := Quicklist.popFront_spec x hp.wf
    unfold Quicklist.elems at h1 h3
    have hlen : x.length = x.pages.flatten.length := hp.wf.len
    cases hl : x.pages.flatten with
    | nil =>
      rw [hl] at hlen
      rw [if_pos (show Quicklist.len x = 0 by simp [Quicklist.len, hlen])]
      exact sim_gives says_null
    | cons y l =>
      rw [hl] at hlen h1 h3
      rw [if_neg (show ¬ Quicklist.len x = 0 by simp only [Quicklist.len, hlen, List.length_cons]; omega), h1]
      simp only [Option.bind_some, List.head?_cons]
      simp only [List.tail_cons] at h3
      rw [show Ref.Val.list l = val (.list q') from by simp only [val, h3], ← store_put]
      exact sim_gives (says_bulk _)
  · exact sim_fails
  · exact sim_fails
  · exact sim_fails

theorem sim_rpop (hs : AOk s) : Sim (Ref.rpop e (k :: rest) (store s)) (A.rpop e (n :: k :: rest) s) := by
  have hs1 := aok_exp (e := e) (k := k) hs
  unfold A.rpop A.popCmd Ref.rpop; look
  revert hs1
  generalize A.exp e s k = s1
  intro hs1
  rw [store_val]; unfold A.look
  rcases hv : s1.v k with _ | (x | x | x | x | x)
  · exact sim_gives says_null
  · exact sim_fails
  · have hp := hs1.page k x hv
    simp only [AObj.asList, val, Option.map]
    obtain ⟨q', h1, h2, h3⟩ := Quicklist.popBack_onepage x hp.wf hp.one
    unfold Quicklist.elems at h1 h3
    have hlen : x.length = x.pages.flatten.length := hp.wf.len
    cases hl : x.pages.flatten.getLast? with
    | none =>
      rw [List.getLast?_eq_none_iff] at hl
      rw [hl] at hlen
      rw [if_pos (show Quicklist.len x = 0 by simp [Quicklist.len, hlen])]
      exact sim_gives says_null
    | some y =>
      rw [if_neg (show ¬ Quicklist.len x = 0 by
        unfold Quicklist.len
        have : x.pages.flatten ≠ [] := by intro h; rw [h] at hl; cases hl
        have := List.length_pos_iff.2 this
        omega), h1, hl]
      simp only [Option.bind_some]
      rw [show Ref.Val.list x.pages.flatten.dropLast = val (.list q') from by simp only [val, h3], ← store_put]
      exact sim_gives (says_bulk _)
  · exact sim_fails
  · exact sim_fails
  · exact sim_fails

theorem sim_llen (hs : AOk s) : Sim (Ref.llen e (k :: rest) (store s)) (A.llen e (n :: k :: rest) s) := by
  have hs1 := aok_exp (e := e) (k := k) hs
  unfold A.llen Ref.llen; look
  revert hs1
  generalize A.exp e s k = s1
  intro hs1
  rw [store_val]; unfold A.look
  rcases hv : s1.v k with _ | (x | x | x | x | x)
  · exact sim_gives (says_int _)
  · exact sim_fails
  · have hlen : x.length = x.pages.flatten.length := (hs1.page k x hv).wf.len
    simp only [AObj.asList, val, Option.map, Quicklist.len, hlen]
    exact sim_gives (says_int _)
  · exact sim_fails
  · exact sim_fails
  · exact sim_fails

theorem page_good {q : Quicklist Bytes} (h : Page q) {i : Nat} (hi : i < (Quicklist.elems q).length) : Quicklist.Good q i := by
  rcases page_cases h with hp | ⟨p, hp, he⟩
  · simp [Quicklist.elems, hp] at hi
  · exact Or.inr (by rw [hp]; simp only [List.headD_cons]; rw [he]; exact hi)

theorem page_get {q : Quicklist Bytes} (h : Page q) (i : Int) : Quicklist.get q i = some (Ref.nth (Quicklist.elems q) i) := by
  unfold Ref.nth
  by_cases hout : i < 0 ∨ (Quicklist.elems q).length ≤ i
  · unfold Quicklist.get
    rw [Quicklist.getPos_none q h.wf i hout]
    simp only
    rcases hout with h | h
    · rw [if_pos h]
    · rw [if_neg (by omega), List.getElem?_eq_none (by omega)]
  · obtain ⟨m, rfl⟩ : ∃ m : Nat, i = m := ⟨i.toNat, by omega⟩
    rw [Quicklist.get_good q h.wf m (by omega) (page_good h (by omega)), if_neg (by omega), Int.toNat_natCast]

theorem page_range {q : Quicklist Bytes} (h : Page q) (i j : Int) (hj : j < 2 ^ 44) : Quicklist.range q i j = some (slice (Quicklist.elems q) i j) := by
  have hlen : (Quicklist.elems q).length ≤ 1024 := by
    rcases page_cases h with hp | ⟨p, hp, he⟩
    · simp [Quicklist.elems, hp]
    · rw [← he]; exact h.wf.le p (by rw [hp]; simp)
  unfold slice
  simp only []
  by_cases hc : (if i < 0 then ((Quicklist.elems q).length : Int) + i else i) < 0 ∨ (if j < 0 then ((Quicklist.elems q).length : Int) + j else j) < 0 ∨
      (if i < 0 then ((Quicklist.elems q).length : Int) + i else i) > (if j < 0 then ((Quicklist.elems q).length : Int) + j else j) ∨
      (if i < 0 then ((Quicklist.elems q).length : Int) + i else i) ≥ (Quicklist.elems q).length
  · rw [if_pos hc]
    exact Quicklist.range_empty q h.wf i j hc
  · rw [if_neg hc]
    obtain ⟨m, hm⟩ : ∃ m : Nat, (if i < 0 then ((Quicklist.elems q).length : Int) + i else i) = m :=
      ⟨(if i < 0 then ((Quicklist.elems q).length : Int) + i else i).toNat, by omega⟩
    obtain ⟨p, hp⟩ : ∃ p : Nat, (if j < 0 then ((Quicklist.elems q).length : Int) + j else j) = p :=
      ⟨(if j < 0 then ((Quicklist.elems q).length : Int) + j else j).toNat, by omega⟩
    rw [hm, hp] at hc ⊢
    rw [Quicklist.range_good q h.wf i j m p hm hp (by omega) (by omega) (page_good h (by omega)) (by
      unfold Quicklist.maxCap
      by_cases hneg : j < 0
      · rw [if_pos hneg] at hp; omega
      · rw [if_neg hneg] at hp; omega)]
    rfl

theorem sim_lindex (hs : AOk s) : Sim (Ref.lindex e (k :: a :: rest) (store s)) (A.lindex e (n :: k :: a :: rest) s) := by
  have hs1 := aok_exp (e := e) (k := k) hs
  unfold A.lindex Ref.lindex; look
  revert hs1
  generalize A.exp e s k = s1
  intro hs1
  rw [store_val]; unfold A.look
  rcases hv : s1.v k with _ | (x | x | x | x | x)
  · exact sim_gives says_null
  · exact sim_fails
  · simp only [AObj.asList, val, Option.map]
    cases atoi a with
    | none => exact sim_fails
    | some i =>
      simp only [page_get (hs1.page k x hv) i, Option.bind_some]
      rw [show Ref.nth x.pages.flatten i = Ref.nth (Quicklist.elems x) i from rfl]
      cases Ref.nth (Quicklist.elems x) i
      · exact sim_gives says_null
      · exact sim_gives (says_bulk _)
  · exact sim_fails
  · exact sim_fails
  · exact sim_fails

theorem sim_lrange (hs : AOk s) (h : ∀ j, atoi b = some j → j < 2 ^ 44) :
    Sim (Ref.lrange e (k :: a :: b :: rest) (store s)) (A.lrange e (n :: k :: a :: b :: rest) s) := by
  have hs1 := aok_exp (e := e) (k := k) hs
  unfold A.lrange Ref.lrange; look
  revert hs1
  generalize A.exp e s k = s1
  intro hs1
  rw [store_val]; unfold A.look
  rcases hv : s1.v k with _ | (x | x | x | x | x)
  · exact sim_gives says_empty
  · exact sim_fails
  · simp only [AObj.asList, val, Option.map]
    cases atoi a with
    | none => exact sim_fails
    | some i =>
      cases hb : atoi b with
      | none => exact sim_fails
      | some j =>
        simp only [page_range (hs1.page k x hv) i j (h j hb), Option.bind_some]
        rw [show slice x.pages.flatten i j = slice (Quicklist.elems x) i j from rfl]
        split
        · exact sim_gives says_null
        · exact sim_gives (says_array _)
  · exact sim_fails
  · exact sim_fails
  · exact sim_fails

/-! ### sorted sets -/

theorem scores_eq : ∀ l : List Bytes, (Ref.scores e l).1 = zPairs e l
  | [] => rfl
  | [x] => rfl
  | x :: y :: l => by
    unfold Ref.scores zPairs
    cases e.parseFloat x <;> simp [scores_eq l]

theorem zaddLoop_ref (hlv : ∀ j, 1 ≤ e.level j ∧ e.level j ≤ Skiplist.maxLevel) : ∀ (args : List Bytes) (i : Nat) (z : AZ) (c : Nat), ZOk z →
    Keeps z.f (Ref.scores e args).1 → ∃ z' m bad, A.zaddLoop e args i z c = some (z', m, c + newOnes z.f (Ref.scores e args).1, bad) ∧ ZOk z' ∧
      z'.f = scoredAll z.f (Ref.scores e args).1 ∧ (bad.isSome = (Ref.scores e args).2)
  | [], i, z, c, h, hk => ⟨z, i, none, rfl, h, rfl, rfl⟩
  | [x], i, z, c, h, hk => ⟨z, i, none, rfl, h, rfl, rfl⟩
  | sc :: m :: rest, i, z, c, h, hk => by
    unfold Ref.scores at hk ⊢
    unfold A.zaddLoop
    cases hp : e.parseFloat sc with
    | none => exact ⟨z, i, some sc, rfl, h, rfl, rfl⟩
    | some x =>
      simp only [hp] at hk ⊢
      obtain ⟨h1, h2, h3⟩ := hk
      obtain ⟨z1, e1, o1, f1⟩ := zok_add h (hlv i).1 (hlv i).2 h1 h2
      obtain ⟨z2, m2, bad, e2, o2, f2, b2⟩ := zaddLoop_ref hlv rest (i + 1) z1 (if z.f m = none then c + 1 else c) o1 (by rw [f1]; exact h3)
      refine ⟨z2, m2, bad, ?_, o2, by rw [f2, f1]; rfl, b2⟩
      simp only [e1, Option.bind_eq_bind, Option.bind_some, decide_eq_true_eq, e2, f1]
      simp only [newOnes]
      by_cases hm : z.f m = none
      · simp [hm]; omega
      · simp [hm]

theorem sim_zadd (hs : AOk s) (hlv : ∀ j, 1 ≤ e.level j ∧ e.level j ≤ 32)
    (h : ∀ f, Ref.zsetOr ((store s).val k) = some f → Keeps f (Ref.scores e rest).1) :
    Sim (Ref.zadd e (k :: rest) (store s)) (A.zadd e (n :: k :: rest) s) := by
  unfold A.zadd Ref.zadd
  by_cases hp : rest.length % 2 = 1
  · rw [if_pos (by simp only [List.length_cons]; omega)]
    simp only [if_pos hp]; exact sim_fails
  · rw [if_neg (by simp only [List.length_cons]; omega)]
    simp only [if_neg hp]
    look
    cases hh : Ref.zsetOr ((store s).val k) with
    | none =>
      unfold A.orNew
      rw [store_val] at hh
      rcases hv : s.v k with _ | (x | x | x | x | x) <;> rw [hv] at hh <;> first | (cases hh; done) | exact sim_fails
    | some f =>
      have key : ∃ z s1, A.orNew AObj.asZset (.zset A.zNew) s k = (some z, s1) ∧ z.f = f ∧ ZOk z ∧ ∀ o, A.put s1 k o = A.put s k o := by
        unfold A.orNew
        rw [store_val] at hh
        rcases hv : s.v k with _ | (x | x | x | x | x) <;> rw [hv] at hh <;> first | (cases hh; done) | skip
        · cases hh
          exact ⟨_, _, rfl, rfl, znew_ok, fun o => put_put (Or.inr ⟨_, rfl⟩) o⟩
        · cases hh
          exact ⟨_, _, rfl, rfl, hs.zset k x hv, fun o => rfl⟩
      obtain ⟨z, s1, h1, rfl, h3, h4⟩ := key
      obtain ⟨z', m, bad, h5, h6, h7, h8⟩ := zaddLoop_ref (e := e) hlv rest 0 z 0 h3 (h _ hh)
      simp only [h1, h5, h4, Option.bind_some]
      rw [show Ref.Val.zset (scoredAll z.f (Ref.scores e rest).1) = val (.zset z') from by simp only [val, h7], ← store_put, ← h8]
      cases bad with
      | none => simp only [Option.isSome_none, Bool.false_eq_true, if_false]; rw [Nat.zero_add]; exact sim_gives (says_int _)
      | some sc => simp only [Option.isSome_some, if_true]; exact sim_fails

theorem zlen_ok {z : AZ} (h : ZOk z) : ∃ l : List Bytes, z.s.length = l.length ∧ Lists l (fun m => z.f m ≠ none) := by
  obtain ⟨L, l, hS, ha, hl⟩ := h.at
  refine ⟨l.map Prod.snd, by rw [hS.inv.len, ← hl]; simp [Skiplist.pairs], ha.2.1, fun m => ?_⟩
  rw [List.mem_map]
  constructor
  · rintro ⟨p, hp, rfl⟩ hn
    have := (ha.2.2 p.2 p.1).2 hp
    rw [hn] at this; cases this
  · intro hm
    cases hf : z.f m with
    | none => exact absurd hf hm
    | some v => exact ⟨(v, m), (ha.2.2 m v).1 hf, rfl⟩

theorem sim_zcard (hs : AOk s) : Sim (Ref.zcard e (k :: rest) (store s)) (A.zcard e (n :: k :: rest) s) := by
  have hs1 := aok_exp (e := e) (k := k) hs
  unfold A.zcard Ref.zcard; look
  revert hs1
  generalize A.exp e s k = s1
  intro hs1
  rw [store_val]; unfold A.look
  rcases hv : s1.v k with _ | (x | x | x | x | x)
  · exact sim_gives (says_int _)
  · exact sim_fails
  · exact sim_fails
  · exact sim_fails
  · exact sim_fails
  · obtain ⟨l, h1, h2⟩ := zlen_ok (hs1.zset k x hv)
    simp only [AObj.asZset, val, Option.map]
    exact sim_counts h1 h2

theorem sim_zscore (hs : AOk s) : Sim (Ref.zscore e (k :: a :: rest) (store s)) (A.zscore e (n :: k :: a :: rest) s) := by
  unfold A.zscore Ref.zscore; look
  generalize A.exp e s k = s1
  rw [store_val]; unfold A.look
  rcases hv : s1.v k with _ | (x | x | x | x | x)
  · exact sim_gives says_null
  · exact sim_fails
  · exact sim_fails
  · exact sim_fails
  · exact sim_fails
  · simp only [AObj.asZset, val, Option.map, AZ.get]
    cases x.f a with
    | none => exact sim_gives says_null
    | some v => exact sim_gives (says_simple _)

theorem sim_zcount (hs : AOk s) (h : ∀ x y, e.parseFloat a = some x → e.parseFloat b = some y → x.isNaN = false ∧ y.isNaN = false) :
    Sim (Ref.zcount e (k :: a :: b :: rest) (store s)) (A.zcount e (n :: k :: a :: b :: rest) s) := by
  have hs1 := aok_exp (e := e) (k := k) hs
  unfold A.zcount Ref.zcount; look
  cases ha : e.parseFloat a with
  | none => exact sim_fails
  | some x =>
    cases hb : e.parseFloat b with
    | none => exact sim_fails
    | some y =>
      revert hs1
      simp only
      generalize A.exp e s k = s1
      intro hs1
      rw [store_val]; unfold A.look
      rcases hv : s1.v k with _ | (z | z | z | z | z)
      · exact sim_gives (says_int _)
      · exact sim_fails
      · exact sim_fails
      · exact sim_fails
      · exact sim_fails
      · obtain ⟨l, hl, _, hc, _⟩ := byScore_ok (hs1.zset k z hv) (h x y ha hb).1 (h x y ha hb).2
        simp only [AObj.asZset, val, Option.map, hc, Option.bind_some]
        intro o ho r hr
        cases ho; cases hr
        exact ⟨_, says_int _, l, hl, rfl, rfl⟩

theorem sim_ranged {a0 a1 a2 a3 : Bytes} (l : List Pair) :
    Sim (Ref.ranged e rest l (store s)) ((Reply.zset e (a0 :: a1 :: a2 :: a3 :: rest) (Zset.elems l)).bind (fun r => some ⟨s, 0, A.ex r⟩)) := by
  unfold Ref.ranged
  cases rest with
  | nil =>
    obtain ⟨r, h1, h2⟩ := Props.SortedP.says_zset (e := e) (rest := []) (ws := false) (a0 := a0) (a1 := a1) (a2 := a2) (a3 := a3) rfl (Or.inl ⟨rfl, rfl⟩) l
    rw [h1]; exact sim_gives h2
  | cons o t =>
    simp only
    split
    next ho =>
      obtain ⟨r, h1, h2⟩ := Props.SortedP.says_zset (e := e) (rest := o :: t) (ws := true) (a0 := a0) (a1 := a1) (a2 := a2) (a3 := a3) rfl (Or.inr ⟨o, t, rfl, ho, rfl⟩) l
      rw [h1]; exact sim_gives h2
    next ho =>
      rw [show Reply.zset e (a0 :: a1 :: a2 :: a3 :: o :: t) (Zset.elems l) = some (Reply.error (b!"invalid option: %s" ++ o)) from by simp [Reply.zset, ho]]
      exact sim_fails

theorem sim_zrange (hs : AOk s) (h : ∀ i j, atoi a = some i → atoi b = some j → 0 ≤ i ∧ j < 2 ^ 45) :
    Sim (Ref.zrange e (k :: a :: b :: rest) (store s)) (A.zrange e (n :: k :: a :: b :: rest) s) := by
  have hs1 := aok_exp (e := e) (k := k) hs
  unfold A.zrange Ref.zrange; look
  cases ha : atoi a with
  | none => exact sim_fails
  | some i =>
    cases hb : atoi b with
    | none => exact sim_fails
    | some j =>
      revert hs1
      simp only
      generalize A.exp e s k = s1
      intro hs1
      rw [store_val]; unfold A.look
      rcases hv : s1.v k with _ | (z | z | z | z | z)
      · exact sim_gives says_null
      · exact sim_fails
      · exact sim_fails
      · exact sim_fails
      · exact sim_fails
      · have hij := h i j ha hb
        obtain ⟨l, hl, hc⟩ := byRank_ok (hs1.zset k z hv) (start := i) (stop := j) hij.1 (by unfold Zset.maxInt64; omega)
          (by unfold Skiplist.maxPtrCap; omega)
        simp only [AObj.asZset, val, Option.map, hc, Option.bind_some]
        intro o ho r hr
        obtain ⟨v, h1, h2⟩ := sim_ranged _ o ho r hr
        exact ⟨v, h1, l, hl, h2⟩

theorem sim_zrangebyscore (hs : AOk s) (h : ∀ x y, e.parseFloat a = some x → e.parseFloat b = some y → x.isNaN = false ∧ y.isNaN = false) :
    Sim (Ref.zrangebyscore e (k :: a :: b :: rest) (store s)) (A.zrangeByScore e (n :: k :: a :: b :: rest) s) := by
  have hs1 := aok_exp (e := e) (k := k) hs
  unfold A.zrangeByScore Ref.zrangebyscore; look
  cases ha : e.parseFloat a with
  | none => exact sim_fails
  | some x =>
    cases hb : e.parseFloat b with
    | none => exact sim_fails
    | some y =>
      revert hs1
      simp only
      generalize A.exp e s k = s1
      intro hs1
      rw [store_val]; unfold A.look
      rcases hv : s1.v k with _ | (z | z | z | z | z)
      · exact sim_gives says_null
      · exact sim_fails
      · exact sim_fails
      · exact sim_fails
      · exact sim_fails
      · obtain ⟨l, hl, hc, _⟩ := byScore_ok (hs1.zset k z hv) (h x y ha hb).1 (h x y ha hb).2
        simp only [AObj.asZset, val, Option.map, hc, Option.bind_some]
        intro o ho r hr
        obtain ⟨v, h1, h2⟩ := sim_ranged _ o ho r hr
        exact ⟨v, h1, l, hl, h2⟩

theorem sim_zrem (hs : AOk s) : Sim (Ref.zrem e (k :: rest) (store s)) (A.zrem e (n :: k :: rest) s) := by
  have hs1 := aok_exp (e := e) (k := k) hs
  unfold A.zrem Ref.zrem; look
  revert hs1
  generalize A.exp e s k = s1
  intro hs1
  rw [store_val]; unfold A.look
  rcases hv : s1.v k with _ | (x | x | x | x | x)
  · exact sim_gives (says_int _)
  · exact sim_fails
  · exact sim_fails
  · exact sim_fails
  · exact sim_fails
  · obtain ⟨z', l, h1, h2, h3, h4⟩ := zremLoop_ok rest x 0 (hs1.zset k x hv)
    simp only [AObj.asZset, val, Option.map, h2, Option.bind_some]
    rw [show Ref.Val.zset (without x.f rest) = val (.zset z') from by simp only [val, h4], ← store_put]
    exact sim_counts (l := l) (by simp) ⟨h1.1, fun y => by simp only [h1.2 y, isSome_ne]⟩

theorem sim_zremrangebyscore (hs : AOk s) (h : ∀ x y, e.parseFloat a = some x → e.parseFloat b = some y → x.isNaN = false ∧ y.isNaN = false) :
    Sim (Ref.zremrangebyscore e (k :: a :: b :: rest) (store s)) (A.zremRangeByScore e (n :: k :: a :: b :: rest) s) := by
  have hs1 := aok_exp (e := e) (k := k) hs
  unfold A.zremRangeByScore Ref.zremrangebyscore; look
  cases ha : e.parseFloat a with
  | none => exact sim_fails
  | some x =>
    cases hb : e.parseFloat b with
    | none => exact sim_fails
    | some y =>
      revert hs1
      simp only
      generalize A.exp e s k = s1
      intro hs1
      rw [store_val]; unfold A.look
      rcases hv : s1.v k with _ | (z | z | z | z | z)
      · exact sim_gives (says_int _)
      · exact sim_fails
      · exact sim_fails
      · exact sim_fails
      · exact sim_fails
      · obtain ⟨es, z', h1, h2, h3, h4⟩ := zremScore_ok (hs1.zset k z hv) (h x y ha hb).1 (h x y ha hb).2
        obtain ⟨l, hl, _⟩ := byScore_ok (hs1.zset k z hv) (h x y ha hb).1 (h x y ha hb).2
        simp only [AObj.asZset, val, Option.map, h1, Option.bind_some]
        intro o ho r hr
        cases ho; cases hr
        refine ⟨_, says_int _, l, hl, ?_, by rw [h4 l hl]⟩
        simp only [store_put, val, h3]

end
end Metis.RefSim
