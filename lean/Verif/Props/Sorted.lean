import Verif.Proofs.ZCmd
import Verif.Props.Lists
/-!
Property C68: the sorted-set commands.
-/
set_option linter.unusedSectionVars false
set_option linter.unusedSimpArgs false
set_option linter.unusedVariables false
namespace Metis.Props.SortedP
open Metis Spec Metis.Props.ServerP Metis.Props.CollectionsP
open _root_.Metis.Props.ListsP (seen_after)
open Metis.Zset (elems)
variable {hash : Bytes → Nat} {s : Sys} {fd : Nat} {e : Env} {c : Session} {n k : Bytes}

/-- The members of a reply, with their scores if asked for. -/
def shown (e : Env) (ws : Bool) (l : List Pair) : List Bytes := l.flatMap (fun p => if ws then [p.2, e.fmtFloat p.1] else [p.2])

/-- The options of a range request: none, or WITHSCORES. -/
def Opt (e : Env) (rest : List Bytes) (ws : Bool) : Prop := (rest = [] ∧ ws = false) ∨ (∃ o r, rest = o :: r ∧ e.withScores o = true ∧ ws = true)

/-- The full claim of C68. -/
def C68 : Prop := ∀ (hash : Bytes → Nat) (s : Sys) (fd : Nat) (e : Env) (c : Session) (n k : Bytes) (f : Bytes → Option F64),
  Ready hash s fd e c → zsetOf (s.seen c.db e.now k) = some f →
  (commandOf e [n, k] = some .zcard → ∃ s' r l, Sys.step s (.request fd e [n, k]) = some (s', r) ∧ Arranged f l ∧ Says r (.int l.length)) ∧
  (∀ m, commandOf e [n, k, m] = some .zscore → ∃ s' r, Sys.step s (.request fd e [n, k, m]) = some (s', r) ∧
    Says r (match f m with | some v => .status (e.fmtFloat v) | none => .null)) ∧
  (∀ args ps, commandOf e (n :: k :: args) = some .zadd → ZArgs e args ps → ps ≠ [] → Live s c.db e.now k →
    ∃ s' r, Sys.step s (.request fd e (n :: k :: args)) = some (s', r) ∧ zsetOf (s'.val c.db k) = some (scoredAll f ps) ∧ Says r (.int (newOnes f ps))) ∧
  (∀ a b min max, commandOf e [n, k, a, b] = some .zcount → e.parseFloat a = some min → e.parseFloat b = some max →
    ∃ s' r l, Sys.step s (.request fd e [n, k, a, b]) = some (s', r) ∧ Arranged f l ∧ Says r (.int (l.filter (inRange min max)).length)) ∧
  (∀ a b i j rest ws, commandOf e (n :: k :: a :: b :: rest) = some .zrange → atoi a = some i → atoi b = some j → Opt e rest ws →
    s.seen c.db e.now k ≠ none →
    ∃ s' r l, Sys.step s (.request fd e (n :: k :: a :: b :: rest)) = some (s', r) ∧ Arranged f l ∧ Says r (.arr (shown e ws (slice l i j))))

theorem lookZset {s : AS} {k : Bytes} {f : Bytes → Option F64} (hh : zsetOf (s.v k) = some f) :
    (A.look AObj.asZset s k = .missing ∧ (f = fun _ => none) ∧ s.v k = none) ∨ ∃ z, A.look AObj.asZset s k = .found z ∧ z.f = f ∧ s.v k = some (.zset z) := by
  unfold A.look
  cases hv : s.v k with
  | none => rw [hv] at hh; cases hh; exact Or.inl ⟨rfl, rfl, rfl⟩
  | some o =>
    rw [hv] at hh
    cases o <;> cases hh
    exact Or.inr ⟨_, rfl, rfl, rfl⟩

theorem arranged_nil : Arranged (fun _ => none) [] := ⟨List.Pairwise.nil, List.nodup_nil, by simp⟩

theorem zok_seen {d : Db} {i : Nat} (hd : s.srv.dbs[i]? = some d) (hz : s.zok i k) (key : Bytes) {z : AZ} (h : (A.exp e d.view key).v k = some (.zset z)) : ZOk z :=
  zat_exp (fun z hz' => hz z (by rw [val_eq hd]; exact hz')) z h

/-! ### queries -/

/-- ZSCORE: whatever the history. -/
theorem C68_zscore (R : Ready hash s fd e c) {f : Bytes → Option F64} (hh : zsetOf (s.seen c.db e.now k) = some f) {m : Bytes}
    (hcmd : commandOf e [n, k, m] = some .zscore) :
    ∃ s' r, Sys.step s (.request fd e [n, k, m]) = some (s', r) ∧ Says r (match f m with | some v => .status (e.fmtFloat v) | none => .null) ∧
      ∀ k', s'.seen c.db e.now k' = s.seen c.db e.now k' := by
  obtain ⟨d, hd⟩ := get_lt (R.reach.good.sess fd c R.sess)
  rw [seen_eq hd] at hh
  have key : ∃ r, A.zscore e [n, k, m] d.view = some ⟨A.exp e d.view k, 0, A.ex r⟩ ∧ Says r (match f m with | some v => .status (e.fmtFloat v) | none => .null) := by
    rcases lookZset hh with ⟨h1, h2, h3⟩ | ⟨z, h1, h2, h3⟩
    · exact ⟨Reply.null, by simp [A.zscore, h1], by subst h2; exact says_null⟩
    · subst h2
      cases hm : z.f m with
      | none => exact ⟨Reply.null, by simp [A.zscore, h1, AZ.get, hm], says_null⟩
      | some v => exact ⟨Reply.simple (e.fmtFloat v), by simp [A.zscore, h1, AZ.get, hm], says_simple _⟩
  obtain ⟨r0, hA, hs⟩ := key
  obtain ⟨s', r, w1, w2, w3, w4⟩ := answer R.reach R.env R.sess R.allowed hcmd (by rfl) (f := Cmds.zscore) (f' := A.zscore) rfl rfl hd hA (by decide) (by decide)
  exact ⟨s', r, w1, by rw [show r = _ from w2]; exact hs, seen_after hd w3 w4⟩

/-- ZCARD. -/
theorem C68_zcard_partial (R : Ready hash s fd e c) (hz : s.zok c.db k) {f : Bytes → Option F64} (hh : zsetOf (s.seen c.db e.now k) = some f)
    (hcmd : commandOf e [n, k] = some .zcard) :
    ∃ s' r l, Sys.step s (.request fd e [n, k]) = some (s', r) ∧ Arranged f l ∧ Says r (.int l.length) ∧
      ∀ k', s'.seen c.db e.now k' = s.seen c.db e.now k' := by
  obtain ⟨d, hd⟩ := get_lt (R.reach.good.sess fd c R.sess)
  rw [seen_eq hd] at hh
  have key : ∃ l : List Pair, Arranged f l ∧ A.zcard e [n, k] d.view = some ⟨A.exp e d.view k, 0, A.ex (Reply.int l.length)⟩ := by
    rcases lookZset hh with ⟨h1, h2, h3⟩ | ⟨z, h1, h2, h3⟩
    · exact ⟨[], by subst h2; exact arranged_nil, by simp [A.zcard, h1]⟩
    · subst h2
      obtain ⟨L, l, hS, ha, hl⟩ := (zok_seen hd hz k h3).at
      refine ⟨l, ha, ?_⟩
      have : z.s.length = l.length := by rw [hS.inv.len, ← hl]; simp [Skiplist.pairs]
      simp [A.zcard, h1, this]
  obtain ⟨l, hl, hA⟩ := key
  obtain ⟨s', r, w1, w2, w3, w4⟩ := answer R.reach R.env R.sess R.allowed hcmd (by rfl) (f := Cmds.zcard) (f' := A.zcard) rfl rfl hd hA (by decide) (by decide)
  exact ⟨s', r, l, w1, hl, by rw [show r = _ from w2]; exact says_int _, seen_after hd w3 w4⟩

/-- ZCOUNT, for bounds other than NaN. -/
theorem C68_zcount_partial (R : Ready hash s fd e c) (hz : s.zok c.db k) {f : Bytes → Option F64} (hh : zsetOf (s.seen c.db e.now k) = some f)
    {a b : Bytes} {min max : F64} (hcmd : commandOf e [n, k, a, b] = some .zcount) (ha : e.parseFloat a = some min) (hb : e.parseFloat b = some max)
    (h1 : min.isNaN = false) (h2 : max.isNaN = false) :
    ∃ s' r l, Sys.step s (.request fd e [n, k, a, b]) = some (s', r) ∧ Arranged f l ∧ Says r (.int (l.filter (inRange min max)).length) ∧
      ∀ k', s'.seen c.db e.now k' = s.seen c.db e.now k' := by
  obtain ⟨d, hd⟩ := get_lt (R.reach.good.sess fd c R.sess)
  rw [seen_eq hd] at hh
  have key : ∃ l : List Pair, Arranged f l ∧ A.zcount e [n, k, a, b] d.view =
      some ⟨A.exp e d.view k, 0, A.ex (Reply.int (l.filter (inRange min max)).length)⟩ := by
    rcases lookZset hh with ⟨q1, q2, q3⟩ | ⟨z, q1, q2, q3⟩
    · exact ⟨[], by subst q2; exact arranged_nil, by simp [A.zcount, q1, ha, hb]⟩
    · subst q2
      obtain ⟨l, hl, _, hc, _⟩ := byScore_ok (zok_seen hd hz k q3) h1 h2
      exact ⟨l, hl, by simp [A.zcount, q1, ha, hb, hc]⟩
  obtain ⟨l, hl, hA⟩ := key
  obtain ⟨s', r, w1, w2, w3, w4⟩ := answer R.reach R.env R.sess R.allowed hcmd (by rfl) (f := Cmds.zcount) (f' := A.zcount) rfl rfl hd hA (by decide) (by decide)
  exact ⟨s', r, l, w1, hl, by rw [show r = _ from w2]; exact says_int _, seen_after hd w3 w4⟩

theorem zElems_eq (e : Env) (ws : Bool) : ∀ l : List Pair, Reply.zElems e ws (elems l) = some (((shown e ws l).map Reply.bulk).flatten)
  | [] => rfl
  | p :: l => by
    have ih := zElems_eq e ws l
    unfold elems at ih ⊢
    simp only [List.map_cons, Reply.zElems, ih, Option.bind_eq_bind, Option.bind_some]
    cases ws <;> simp [shown]

theorem says_zset {args rest : List Bytes} {a0 a1 a2 a3 : Bytes} {ws : Bool} (hargs : args = a0 :: a1 :: a2 :: a3 :: rest) (ho : Opt e rest ws) (l : List Pair) :
    ∃ r, Reply.zset e args (elems l) = some r ∧ Says r (.arr (shown e ws l)) := by
  subst hargs
  have hlen : ∀ b, (shown e b l).length = if b then l.length * 2 else l.length := by
    intro b
    unfold shown
    induction l with
    | nil => cases b <;> rfl
    | cons p l ih => cases b <;> simp_all <;> omega
  have hl : (elems l).length = l.length := by simp [elems]
  rcases ho with ⟨rfl, rfl⟩ | ⟨o, r, rfl, h1, rfl⟩
  · refine ⟨_, by simp [Reply.zset, zElems_eq]; rfl, ?_⟩
    have := says_array (shown e false l)
    unfold Reply.array at this
    rw [hlen] at this
    simpa [hl] using this
  · refine ⟨_, by simp [Reply.zset, zElems_eq, h1]; rfl, ?_⟩
    have := says_array (shown e true l)
    unfold Reply.array at this
    rw [hlen] at this
    simpa [hl] using this

/-- ZRANGE with ranks from 0. -/
theorem C68_zrange_partial (R : Ready hash s fd e c) (hz : s.zok c.db k) {f : Bytes → Option F64} (hh : zsetOf (s.seen c.db e.now k) = some f)
    (hne : s.seen c.db e.now k ≠ none) {a b : Bytes} {rest : List Bytes} {ws : Bool} {i j : Int}
    (hcmd : commandOf e (n :: k :: a :: b :: rest) = some .zrange) (ha : atoi a = some i) (hb : atoi b = some j) (ho : Opt e rest ws)
    (hi : 0 ≤ i) (hj : 0 ≤ j) (hc : j < 2 ^ 45) :
    ∃ s' r l, Sys.step s (.request fd e (n :: k :: a :: b :: rest)) = some (s', r) ∧ Arranged f l ∧ Says r (.arr (shown e ws (slice l i j))) ∧
      ∀ k', s'.seen c.db e.now k' = s.seen c.db e.now k' := by
  obtain ⟨d, hd⟩ := get_lt (R.reach.good.sess fd c R.sess)
  rw [seen_eq hd] at hh hne
  have key : ∃ l r, Arranged f l ∧ Says r (.arr (shown e ws (slice l i j))) ∧ A.zrange e (n :: k :: a :: b :: rest) d.view =
      some ⟨A.exp e d.view k, 0, A.ex r⟩ := by
    rcases lookZset hh with ⟨q1, q2, q3⟩ | ⟨z, q1, q2, q3⟩
    · exact absurd q3 hne
    · subst q2
      have hm : Zset.maxInt64 = 9223372036854775807 := rfl
      obtain ⟨l, hl, hr⟩ := byRank_ok (zok_seen hd hz k q3) hi (stop := j) (by rw [hm]; omega) (by
        have : Skiplist.maxPtrCap = 35184372088832 := rfl
        omega)
      have hs : (l.drop i.toNat).take (j - i + 1).toNat = slice l i j := by
        simp only [slice]
        rw [if_neg (show ¬ i < 0 by omega), if_neg (show ¬ j < 0 by omega)]
        split
        · next h =>
          rcases h with h | h | h | h
          · omega
          · omega
          · rw [show (j - i + 1).toNat = 0 by omega]; rfl
          · rw [List.drop_eq_nil_of_le (by omega)]; simp
        · rw [show (j - i + 1).toNat = j.toNat + 1 - i.toNat by omega]
      rw [hs] at hr
      obtain ⟨r, hr1, hr2⟩ := says_zset (e := e) (a0 := n) (a1 := k) (a2 := a) (a3 := b) rfl ho (slice l i j)
      refine ⟨l, r, hl, hr2, ?_⟩
      simp only [A.zrange, List.getElem?_cons_succ, List.getElem?_cons_zero, Option.bind_eq_bind, Option.bind_some, q1, ha, hb, hr, hr1]
  obtain ⟨l, r0, hl, hs, hA⟩ := key
  obtain ⟨s', r, w1, w2, w3, w4⟩ := answer R.reach R.env R.sess R.allowed hcmd (by
    have : arity .zrange = -4 := rfl
    simp [Server.badArity, this]; omega) (f := Cmds.zrange) (f' := A.zrange) rfl rfl hd hA (by decide) (by decide)
  exact ⟨s', r, l, w1, hl, by rw [show r = _ from w2]; exact hs, seen_after hd w3 w4⟩

/-- ZRANGEBYSCORE, for bounds other than NaN. -/
theorem C68_zrangebyscore_partial (R : Ready hash s fd e c) (hz : s.zok c.db k) {f : Bytes → Option F64} (hh : zsetOf (s.seen c.db e.now k) = some f)
    (hne : s.seen c.db e.now k ≠ none) {a b : Bytes} {rest : List Bytes} {ws : Bool} {min max : F64}
    (hcmd : commandOf e (n :: k :: a :: b :: rest) = some .zrangebyscore) (ha : e.parseFloat a = some min) (hb : e.parseFloat b = some max) (ho : Opt e rest ws)
    (h1 : min.isNaN = false) (h2 : max.isNaN = false) :
    ∃ s' r l, Sys.step s (.request fd e (n :: k :: a :: b :: rest)) = some (s', r) ∧ Arranged f l ∧
      Says r (.arr (shown e ws (l.filter (inRange min max)))) ∧ ∀ k', s'.seen c.db e.now k' = s.seen c.db e.now k' := by
  obtain ⟨d, hd⟩ := get_lt (R.reach.good.sess fd c R.sess)
  rw [seen_eq hd] at hh hne
  have key : ∃ l r, Arranged f l ∧ Says r (.arr (shown e ws (l.filter (inRange min max)))) ∧ A.zrangeByScore e (n :: k :: a :: b :: rest) d.view =
      some ⟨A.exp e d.view k, 0, A.ex r⟩ := by
    rcases lookZset hh with ⟨q1, q2, q3⟩ | ⟨z, q1, q2, q3⟩
    · exact absurd q3 hne
    · subst q2
      obtain ⟨l, hl, hr, _, _⟩ := byScore_ok (zok_seen hd hz k q3) h1 h2
      obtain ⟨r, hr1, hr2⟩ := says_zset (e := e) (a0 := n) (a1 := k) (a2 := a) (a3 := b) rfl ho (l.filter (inRange min max))
      refine ⟨l, r, hl, hr2, ?_⟩
      simp only [A.zrangeByScore, List.getElem?_cons_succ, List.getElem?_cons_zero, Option.bind_eq_bind, Option.bind_some, q1, ha, hb, hr, hr1]
  obtain ⟨l, r0, hl, hs, hA⟩ := key
  obtain ⟨s', r, w1, w2, w3, w4⟩ := answer R.reach R.env R.sess R.allowed hcmd (by
    have : arity .zrangebyscore = -4 := rfl
    simp [Server.badArity, this]; omega) (f := Cmds.zrangeByScore) (f' := A.zrangeByScore) rfl rfl hd hA (by decide) (by decide)
  exact ⟨s', r, l, w1, hl, by rw [show r = _ from w2]; exact hs, seen_after hd w3 w4⟩

/-- ZRANGE and ZRANGEBYSCORE of a missing key. -/
theorem C68_missing (R : Ready hash s fd e c) (hh : s.seen c.db e.now k = none) {a b : Bytes} {rest : List Bytes}
    (hcmd : (commandOf e (n :: k :: a :: b :: rest) = some .zrange ∧ (atoi a).isSome = true ∧ (atoi b).isSome = true) ∨
      (commandOf e (n :: k :: a :: b :: rest) = some .zrangebyscore ∧ (e.parseFloat a).isSome = true ∧ (e.parseFloat b).isSome = true)) :
    ∃ s' r, Sys.step s (.request fd e (n :: k :: a :: b :: rest)) = some (s', r) ∧ Says r .null := by
  obtain ⟨d, hd⟩ := get_lt (R.reach.good.sess fd c R.sess)
  rw [seen_eq hd] at hh
  have hl : A.look AObj.asZset (A.exp e d.view k) k = .missing := by unfold A.look; rw [hh]
  rcases hcmd with ⟨hcmd, h1, h2⟩ | ⟨hcmd, h1, h2⟩
  · obtain ⟨x, hx⟩ := Option.isSome_iff_exists.1 h1
    obtain ⟨y, hy⟩ := Option.isSome_iff_exists.1 h2
    obtain ⟨s', r, w1, w2, _⟩ := answer R.reach R.env R.sess R.allowed hcmd (by
      have : arity .zrange = -4 := rfl
      simp [Server.badArity, this]; omega) (f := Cmds.zrange) (f' := A.zrange) rfl rfl hd (a := ⟨A.exp e d.view k, 0, A.ex Reply.null⟩)
      (by simp [A.zrange, hx, hy, hl]) (by decide) (by decide)
    exact ⟨s', r, w1, by rw [show r = _ from w2]; exact says_null⟩
  · obtain ⟨x, hx⟩ := Option.isSome_iff_exists.1 h1
    obtain ⟨y, hy⟩ := Option.isSome_iff_exists.1 h2
    obtain ⟨s', r, w1, w2, _⟩ := answer R.reach R.env R.sess R.allowed hcmd (by
      have : arity .zrangebyscore = -4 := rfl
      simp [Server.badArity, this]; omega) (f := Cmds.zrangeByScore) (f' := A.zrangeByScore) rfl rfl hd (a := ⟨A.exp e d.view k, 0, A.ex Reply.null⟩)
      (by simp [A.zrangeByScore, hx, hy, hl]) (by decide) (by decide)
    exact ⟨s', r, w1, by rw [show r = _ from w2]; exact says_null⟩

/-! ### changes -/

theorem zargs_length {args : List Bytes} {ps : List Pair} (h : ZArgs e args ps) : args.length = 2 * ps.length := by
  induction h with
  | nil => rfl
  | cons _ _ ih => simp [ih]; omega

/-- ZADD that gives no member a new score. -/
theorem C68_zadd_partial (R : Ready hash s fd e c) (hz : s.zok c.db k) {f : Bytes → Option F64} (hh : zsetOf (s.seen c.db e.now k) = some f)
    {args : List Bytes} {ps : List Pair} (hcmd : commandOf e (n :: k :: args) = some .zadd) (hargs : ZArgs e args ps) (hne : ps ≠ [])
    (hlive : Live s c.db e.now k) (hk : Keeps f ps) (hlv : ∀ j, 1 ≤ e.level j ∧ e.level j ≤ Skiplist.maxLevel) :
    ∃ s' r, Sys.step s (.request fd e (n :: k :: args)) = some (s', r) ∧ zsetOf (s'.val c.db k) = some (scoredAll f ps) ∧
      Says r (.int (newOnes f ps)) ∧ s'.zok c.db k ∧ s'.deadline c.db k = s.deadline c.db k := by
  obtain ⟨d, hd⟩ := get_lt (R.reach.good.sess fd c R.sess)
  rw [seen_eq hd, exp_t_live hd hlive] at hh
  have hlen := zargs_length hargs
  have hpos := List.length_pos_iff.2 hne
  have key : ∃ z', ZOk z' ∧ z'.f = scoredAll f ps ∧ A.zadd e (n :: k :: args) d.view =
      some ⟨A.put d.view k (.zset z'), ps.length, A.ex (Reply.int (newOnes f ps))⟩ := by
    have hodd : ¬ (n :: k :: args).length % 2 ≠ 0 := by simp only [List.length_cons, hlen]; omega
    have hput : ∀ z s1, A.orNew AObj.asZset (.zset A.zNew) d.view k = (some z, s1) → s1 = d.view ∨ ∃ o, s1 = A.put d.view k o := by
      intro z s1 h
      unfold A.orNew at h
      split at h
      · injection h with _ h; exact Or.inr ⟨_, h.symm⟩
      · injection h with _ h; exact Or.inl h.symm
    have hor : ∃ z s1, A.orNew AObj.asZset (.zset A.zNew) d.view k = (some z, s1) ∧ z.f = f ∧ ZOk z := by
      unfold A.orNew
      cases hv : d.view.v k with
      | none => rw [hv] at hh; cases hh; exact ⟨A.zNew, _, rfl, rfl, znew_ok⟩
      | some o =>
        rw [hv] at hh
        cases o <;> cases hh
        exact ⟨_, _, rfl, rfl, hz _ (by rw [val_eq hd]; exact hv)⟩
    obtain ⟨z, s1, ho, hf, hzok⟩ := hor
    subst hf
    obtain ⟨z', e1, o1, f1⟩ := zaddLoop_ok hlv hargs 0 z 0 hzok hk
    refine ⟨z', o1, f1, ?_⟩
    unfold A.zadd
    rw [if_neg hodd]
    simp only [List.getElem?_cons_succ, List.getElem?_cons_zero, Option.bind_eq_bind, Option.bind_some, ho, List.drop_succ_cons, List.drop_zero, e1, Nat.zero_add]
    rw [put_put (hput z s1 ho)]
  obtain ⟨z', o1, f1, hA⟩ := key
  obtain ⟨s', r, w1, w2, w3, w4⟩ := answer R.reach R.env R.sess R.allowed hcmd (by
    have : arity .zadd = -4 := rfl
    simp [Server.badArity, this]; omega) (f := Cmds.zadd) (f' := A.zadd) rfl rfl hd hA (by decide) (by decide)
  have hval : s'.val c.db k = some (.zset z') := by rw [w3]; simp [A.put]
  refine ⟨s', r, w1, by rw [hval]; exact congrArg some f1, by rw [show r = _ from w2]; exact says_int _, ?_, by rw [w4, deadline_eq hd]; rfl⟩
  intro z hz'
  rw [hval] at hz'; cases hz'; exact o1

/-- ZREM. -/
theorem C68_zrem_partial (R : Ready hash s fd e c) (hz : s.zok c.db k) {f : Bytes → Option F64} (hh : zsetOf (s.seen c.db e.now k) = some f)
    {ms : List Bytes} (hne : ms ≠ []) (hcmd : commandOf e (n :: k :: ms) = some .zrem) :
    ∃ s' r l, Sys.step s (.request fd e (n :: k :: ms)) = some (s', r) ∧ zsetOf (s'.val c.db k) = some (without f ms) ∧
      Lists l (fun x => x ∈ ms ∧ (f x).isSome = true) ∧ Says r (.int l.length) ∧ s'.zok c.db k ∧
      (Live s c.db e.now k → s'.deadline c.db k = s.deadline c.db k) := by
  obtain ⟨d, hd⟩ := get_lt (R.reach.good.sess fd c R.sess)
  rw [seen_eq hd] at hh
  have hpos := List.length_pos_iff.2 hne
  have hok : Server.badArity (n :: k :: ms).length (arity .zrem) = false := by
    have : arity .zrem = -3 := rfl
    simp [Server.badArity, this]; omega
  have ht : Live s c.db e.now k → (A.exp e d.view k).t k = s.deadline c.db k := fun hl => by
    rw [exp_t_live hd hl, deadline_eq hd]
  rcases lookZset hh with ⟨q1, q2, q3⟩ | ⟨z, q1, q2, q3⟩
  · obtain ⟨s', r, w1, w2, w3, w4⟩ := answer R.reach R.env R.sess R.allowed hcmd hok (f := Cmds.zrem) (f' := A.zrem) rfl rfl hd
      (a := ⟨A.exp e d.view k, 0, A.ex (Reply.int 0)⟩) (by simp [A.zrem, q1]) (by decide) (by decide)
    refine ⟨s', r, [], w1, ?_, ⟨List.nodup_nil, by subst q2; simp⟩, by rw [show r = _ from w2]; exact says_int _, ?_, fun hl => by rw [w4]; exact ht hl⟩
    · rw [w3, q3, q2]; simp only [zsetOf, Option.some.injEq]; funext m; simp [without]
    · intro z hz'; rw [w3, q3] at hz'; cases hz'
  · subst q2
    obtain ⟨z', l, hl, e1, o1, f1⟩ := zremLoop_ok ms z 0 (zok_seen hd hz k q3)
    obtain ⟨s', r, w1, w2, w3, w4⟩ := answer R.reach R.env R.sess R.allowed hcmd hok (f := Cmds.zrem) (f' := A.zrem) rfl rfl hd
      (a := ⟨A.put (A.exp e d.view k) k (.zset z'), l.length, A.ex (Reply.int l.length)⟩) (by simp [A.zrem, q1, e1]) (by decide) (by decide)
    have hval : s'.val c.db k = some (.zset z') := by rw [w3]; simp [A.put]
    refine ⟨s', r, l, w1, by rw [hval]; exact congrArg some f1, hl, by rw [show r = _ from w2]; exact says_int _, ?_, fun hl => by rw [w4]; exact ht hl⟩
    intro z hz'; rw [hval] at hz'; cases hz'; exact o1

/-- ZREMRANGEBYSCORE, for bounds other than NaN. -/
theorem C68_zremrangebyscore_partial (R : Ready hash s fd e c) (hz : s.zok c.db k) {f : Bytes → Option F64} (hh : zsetOf (s.seen c.db e.now k) = some f)
    {a b : Bytes} {min max : F64} (hcmd : commandOf e [n, k, a, b] = some .zremrangebyscore) (ha : e.parseFloat a = some min) (hb : e.parseFloat b = some max)
    (h1 : min.isNaN = false) (h2 : max.isNaN = false) :
    ∃ s' r l, Sys.step s (.request fd e [n, k, a, b]) = some (s', r) ∧ zsetOf (s'.val c.db k) = some (outside f min max) ∧
      Arranged f l ∧ Says r (.int (l.filter (inRange min max)).length) ∧ s'.zok c.db k ∧
      (Live s c.db e.now k → s'.deadline c.db k = s.deadline c.db k) := by
  obtain ⟨d, hd⟩ := get_lt (R.reach.good.sess fd c R.sess)
  rw [seen_eq hd] at hh
  have ht : Live s c.db e.now k → (A.exp e d.view k).t k = s.deadline c.db k := fun hl => by
    rw [exp_t_live hd hl, deadline_eq hd]
  rcases lookZset hh with ⟨q1, q2, q3⟩ | ⟨z, q1, q2, q3⟩
  · obtain ⟨s', r, w1, w2, w3, w4⟩ := answer R.reach R.env R.sess R.allowed hcmd rfl (f := Cmds.zremRangeByScore) (f' := A.zremRangeByScore) rfl rfl hd
      (a := ⟨A.exp e d.view k, 0, A.ex (Reply.int 0)⟩) (by simp [A.zremRangeByScore, ha, hb, q1]) (by decide) (by decide)
    refine ⟨s', r, [], w1, ?_, q2 ▸ arranged_nil, by rw [show r = _ from w2]; exact says_int _, ?_, fun hl => by rw [w4]; exact ht hl⟩
    · rw [w3, q3, q2]; rfl
    · intro z hz'; rw [w3, q3] at hz'; cases hz'
  · subst q2
    have zo := zok_seen hd hz k q3
    obtain ⟨es, z', e1, o1, f1, hl⟩ := zremScore_ok zo h1 h2
    obtain ⟨l, hl', _⟩ := byScore_ok zo h1 h2
    obtain ⟨s', r, w1, w2, w3, w4⟩ := answer R.reach R.env R.sess R.allowed hcmd rfl (f := Cmds.zremRangeByScore) (f' := A.zremRangeByScore) rfl rfl hd
      (a := ⟨A.put (A.exp e d.view k) k (.zset z'), es.length, A.ex (Reply.int es.length)⟩)
      (by simp [A.zremRangeByScore, ha, hb, q1, e1]) (by decide) (by decide)
    have hval : s'.val c.db k = some (.zset z') := by rw [w3]; simp [A.put]
    refine ⟨s', r, l, w1, by rw [hval]; exact congrArg some f1, hl', by rw [show r = _ from w2, ← hl l hl']; exact says_int _, ?_, fun hl => by rw [w4]; exact ht hl⟩
    intro z hz'; rw [hval] at hz'; cases hz'; exact o1

/-! ### histories -/

/-- The sorted set at a key is sound after every history that is gentle to it, so that the theorems above apply. -/
theorem C68_history_partial {np : Nat} {pw : Bytes} {aof : Bool} {evs : List Event} {rs : List (List Bytes)} {i : Nat} (he : ∀ ev ∈ evs, EvOk hash ev)
    (h : Sys.run (Sys.init np pw aof) evs = some (s, rs)) (hg : GentleRun i k (Sys.init np pw aof) evs) : s.zok i k := by
  have g : SysGood hash (Sys.init np pw aof) := Reach.good ⟨np, pw, aof, [], [], by simp, rfl⟩
  refine zok_history evs g he h ?_ hg
  intro z hz
  have : (Sys.init np pw aof).val i k = none := by
    unfold Sys.val
    have : (Sys.init np pw aof).srv.dbs = List.replicate np Db.new := rfl
    rw [this, List.getElem?_replicate]
    split <;> rfl
  rw [this] at hz; cases hz

/-- A request keeps the connection ready. -/
theorem ready_next (R : Ready hash s fd e c) {args : List Bytes} {cmd : Cmd} {f} {s' : Sys} {r : List Bytes} (hcmd : commandOf e args = some cmd)
    (hok : Server.badArity args.length (arity cmd) = false) (hf : dbProc cmd = some f) (h : Sys.step s (.request fd e args) = some (s', r)) :
    Ready hash s' fd e c := by
  obtain ⟨_, hpw, _⟩ := step_db R.reach.good (show EvOk hash (.request fd e args) from R.env) h
  obtain ⟨_, _, _, _, _, _, _, _, _, hse⟩ := step_request R.reach.good R.env h R.sess R.allowed hcmd hok hf
  refine ⟨Reach.step R.reach (show EvOk hash (.request fd e args) from R.env) h, R.env, (hse fd).trans R.sess, ?_⟩
  rcases R.allowed with q | q
  · exact Or.inl (hpw.trans q)
  · exact Or.inr q

/-- C68 does not hold: ZADD of a member with another score makes ZCARD count it twice. -/
theorem C68_refuted : ¬ C68 := by
  intro H
  obtain ⟨s0, h1, h2, h3, h4, h5⟩ : ∃ s0, Sys.run (Sys.init 1 [] false) [.connect 4] = some (s0, [[]]) ∧ s0.sess 4 = some ⟨0, false⟩ ∧
      s0.srv.password = [] ∧ s0.val 0 b!"z" = none ∧ s0.deadline 0 b!"z" = none := ⟨_, rfl, rfl, rfl, rfl, rfl⟩
  have hr0 : Reach (demo 0).hash s0 := ⟨1, [], false, [.connect 4], _, by simp [EvOk], h1⟩
  have R0 : Ready (demo 0).hash s0 4 (demo 0) ⟨0, false⟩ := ⟨hr0, rfl, h2, Or.inl h3⟩
  obtain ⟨s1, r1, p1, q1, _, _, d1⟩ := C68_zadd_partial (n := b!"zadd") (k := b!"z") R0 (f := fun _ => none) (args := [b!"1", b!"a"]) (ps := [(one, b!"a")])
    (by intro z hz; rw [show s0.val 0 b!"z" = none from h4] at hz; cases hz)
    (by unfold Sys.seen; rw [show s0.deadline 0 b!"z" = none from h5, show s0.val 0 b!"z" = none from h4]; rfl) (by rfl)
    (.cons (by decide) .nil) (by simp) (by intro dl hdl; rw [show s0.deadline 0 b!"z" = none from h5] at hdl; cases hdl)
    ⟨by decide, by simp, trivial⟩ (by intro j; exact ⟨Nat.le_refl 1, show 1 ≤ Skiplist.maxLevel by decide⟩)
  have R1 := ready_next R0 (cmd := .zadd) (f := Cmds.zadd) (by rfl) (by rfl) rfl p1
  have d1' : s1.deadline 0 b!"z" = none := d1.trans h5
  obtain ⟨s2, r2, p2, q2, _⟩ := (H _ s1 4 (demo 0) _ b!"zadd" b!"z" _ R1 (by unfold Sys.seen; rw [d1']; exact q1)).2.2.1 [b!"2", b!"a"] [(two, b!"a")] (by rfl)
    (.cons (by decide) .nil) (by simp) (by intro dl hdl; rw [d1'] at hdl; cases hdl)
  have R2 := ready_next R1 (cmd := .zadd) (f := Cmds.zadd) (by rfl) (by rfl) rfl p2
  have key : (Sys.run (Sys.init 1 [] false) ([.connect 4] ++ [.request 4 (demo 0) [b!"zadd", b!"z", b!"1", b!"a"], .request 4 (demo 0) [b!"zadd", b!"z", b!"2", b!"a"]])).map
      (fun p => (p.1.deadline 0 b!"z").isSome) = some false := by decide
  rw [run_append, h1] at key
  simp only [Sys.run, p1, p2, Option.bind_eq_bind, Option.bind_some, Option.map_some, Option.some.injEq] at key
  have d2 : s2.deadline 0 b!"z" = none := by
    cases hd : s2.deadline 0 b!"z" with
    | none => rfl
    | some x => rw [hd] at key; cases key
  obtain ⟨s3, r3, l, p3, ha, hs⟩ := (H _ s2 4 (demo 0) _ b!"zcard" b!"z" _ R2 (by unfold Sys.seen; rw [d2]; exact q2)).1 (by rfl)
  have key : (Sys.run (Sys.init 1 [] false) ([.connect 4] ++ [.request 4 (demo 0) [b!"zadd", b!"z", b!"1", b!"a"], .request 4 (demo 0) [b!"zadd", b!"z", b!"2", b!"a"],
      .request 4 (demo 0) [b!"zcard", b!"z"]])).map (fun p => p.2[3]?) = some (some [b!":2\r\n"]) := by decide
  rw [run_append, h1] at key
  simp only [Sys.run, p1, p2, p3, Option.bind_eq_bind, Option.bind_some, Option.map_some, Option.some.injEq] at key
  have hr : r3 = [b!":2\r\n"] := by simpa using key
  subst hr
  have hall : ∀ x ∈ l.map Prod.snd, x = b!"a" := by
    intro x hx
    obtain ⟨⟨v, m⟩, hm, rfl⟩ := List.mem_map.1 hx
    have := (ha.2.2 m v).2 hm
    by_cases hxa : m = b!"a"
    · exact hxa
    · have hn : numEq one two = false := by decide
      simp [scoredAll, scored, hxa, hn] at this
  have hlen : l.length ≤ 1 := by
    rw [← List.length_map (f := Prod.snd)]
    have nd := ha.2.1
    match hl : l.map Prod.snd with
    | [] => simp
    | [_] => simp
    | x :: y :: t =>
      rw [hl] at nd hall
      exact absurd ((hall x (by simp)).trans (hall y (by simp)).symm) (List.nodup_cons.1 nd |>.1 |> fun h hxy => h (by simp [hxy]))
  unfold Says at hs
  match hl : l.length, hlen with
  | 0, _ => rw [hl] at hs; revert hs; decide
  | 1, _ => rw [hl] at hs; revert hs; decide

/-! Non-trivial cases: two members, added in either order, come back in the order of their scores. -/
example : (Sys.run (Sys.init 1 [] false) [.connect 4, .request 4 (demo 0) [b!"zadd", b!"z", b!"2", b!"a"], .request 4 (demo 0) [b!"zadd", b!"z", b!"1", b!"b"],
    .request 4 (demo 0) [b!"zrange", b!"z", b!"0", b!"9"]]).map (fun p => p.2[3]?.map List.flatten) = some (some b!"*2\r\n$1\r\nb\r\n$1\r\na\r\n") := by decide

/-- A key with two members, to which the theorems apply. -/
theorem two_members : ∃ s f, Ready (demo 0).hash s 4 (demo 0) ⟨0, false⟩ ∧ s.zok 0 b!"z" ∧ zsetOf (s.seen 0 0 b!"z") = some f ∧ s.seen 0 0 b!"z" ≠ none ∧
    f b!"a" = some two ∧ f b!"b" = some one := by
  obtain ⟨s0, h1, h2, h3, h4, h5⟩ : ∃ s0, Sys.run (Sys.init 1 [] false) [.connect 4] = some (s0, [[]]) ∧ s0.sess 4 = some ⟨0, false⟩ ∧
      s0.srv.password = [] ∧ s0.val 0 b!"z" = none ∧ s0.deadline 0 b!"z" = none := ⟨_, rfl, rfl, rfl, rfl, rfl⟩
  have hr0 : Reach (demo 0).hash s0 := ⟨1, [], false, [.connect 4], _, by simp [EvOk], h1⟩
  have R0 : Ready (demo 0).hash s0 4 (demo 0) ⟨0, false⟩ := ⟨hr0, rfl, h2, Or.inl h3⟩
  obtain ⟨s1, r1, p1, q1, _, z1, d1⟩ := C68_zadd_partial (n := b!"zadd") (k := b!"z") R0 (f := fun _ => none) (args := [b!"2", b!"a", b!"1", b!"b"])
    (ps := [(two, b!"a"), (one, b!"b")])
    (by intro z hz; rw [show s0.val 0 b!"z" = none from h4] at hz; cases hz)
    (by unfold Sys.seen; rw [show s0.deadline 0 b!"z" = none from h5, show s0.val 0 b!"z" = none from h4]; rfl) (by rfl)
    (.cons (by decide) (.cons (by decide) .nil)) (by simp) (by intro dl hdl; rw [show s0.deadline 0 b!"z" = none from h5] at hdl; cases hdl)
    ⟨by decide, by simp, by decide, by simp [scored], trivial⟩ (by intro j; exact ⟨Nat.le_refl 1, show 1 ≤ Skiplist.maxLevel by decide⟩)
  have d1' : s1.deadline 0 b!"z" = none := d1.trans h5
  have hseen : s1.seen 0 0 b!"z" = s1.val 0 b!"z" := by unfold Sys.seen; rw [d1']
  refine ⟨s1, _, ready_next R0 (cmd := .zadd) (f := Cmds.zadd) (by rfl) (by rfl) rfl p1, z1, by rw [hseen]; exact q1, ?_, by simp [scoredAll, scored], by simp [scoredAll, scored]⟩
  intro h
  rw [hseen] at h
  rw [show s1.val _ b!"z" = none from h] at q1
  have := congrFun (Option.some.inj q1) b!"b"
  simp [scoredAll, scored] at this

example : ∃ s s' r l, Sys.step s (.request 4 (demo 0) [b!"zrange", b!"z", b!"0", b!"1"]) = some (s', r) ∧ Says r (.arr (shown (demo 0) false (slice l 0 1))) ∧ l.length ≥ 2 := by
  obtain ⟨s, f, R, hz, hf, hne, h1, h2⟩ := two_members
  obtain ⟨s', r, l, q1, q2, q3, _⟩ := C68_zrange_partial (n := b!"zrange") R hz hf hne (a := b!"0") (b := b!"1") (rest := []) (ws := false) (i := 0) (j := 1) (by rfl)
    (by decide) (by decide) (Or.inl ⟨rfl, rfl⟩) (by decide) (by decide) (by decide)
  refine ⟨s, s', r, l, q1, q3, ?_⟩
  have m1 := (q2.2.2 _ _).1 h1
  have m2 := (q2.2.2 _ _).1 h2
  match l, m1, m2 with
  | [x], m1, m2 => simp at m1 m2; rw [← m1] at m2; exact absurd m2 (by decide)
  | _ :: _ :: _, _, _ => simp

end Metis.Props.SortedP
