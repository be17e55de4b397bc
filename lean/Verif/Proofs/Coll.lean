import Verif.Spec.Collections
import Verif.Proofs.Expire
import Verif.Proofs.Quicklist
import Verif.Proofs.Reply
/-! Collections behind the commands. -/
set_option linter.unusedSectionVars false
set_option linter.unusedSimpArgs false
set_option linter.unusedVariables false
namespace Metis
open Spec
variable {hash : Bytes → Nat}

/-! ### loops -/

theorem assigned_nil (h : Fn Bytes) : assigned [] h = h := rfl

theorem assigned_cons (p : Bytes × Bytes) (ps : List (Bytes × Bytes)) (h : Fn Bytes) :
    assigned (p :: ps) h = assigned ps (upd h p.1 (some p.2)) := by
  funext x
  simp only [assigned, List.reverse_cons, List.find?_append]
  cases hf : ps.reverse.find? (fun q => decide (q.1 = x)) with
  | some q => simp
  | none =>
    by_cases hp : p.1 = x
    · simp [upd, hp]
    · simp [upd, hp]

theorem hsetLoop_spec : ∀ (ps : List (Bytes × Bytes)) (h : Fn Bytes) (n : Nat),
    ∃ l, Lists l (fun x => x ∈ ps.map Prod.fst ∧ h x = none) ∧ A.hsetLoop (pairArgs ps) h n = (assigned ps h, n + l.length)
  | [], h, n => ⟨[], ⟨List.nodup_nil, by simp⟩, rfl⟩
  | p :: ps, h, n => by
    have e1 : pairArgs (p :: ps) = p.1 :: p.2 :: pairArgs ps := rfl
    obtain ⟨l, ⟨h1, h2⟩, h3⟩ := hsetLoop_spec ps (upd h p.1 (some p.2)) (if (h p.1).isNone then n + 1 else n)
    rw [e1, A.hsetLoop, h3, assigned_cons]
    have hx : ∀ x, x ∈ l ↔ x ∈ ps.map Prod.fst ∧ x ≠ p.1 ∧ h x = none := by
      intro x; rw [h2 x]
      by_cases hp : p.1 = x
      · simp [upd, hp]
      · simp [upd, hp, Ne.symm hp]
    cases hv : h p.1 with
    | none =>
      refine ⟨p.1 :: l, ⟨List.nodup_cons.2 ⟨fun h => absurd rfl ((hx _).1 h).2.1, h1⟩, ?_⟩, ?_⟩
      · intro x
        simp only [List.mem_cons, hx, List.map_cons]
        by_cases hp : x = p.1
        · simp [hp, hv]
        · simp [hp]
      · simp; omega
    | some v =>
      refine ⟨l, ⟨h1, ?_⟩, by simp⟩
      intro x
      simp only [hx, List.map_cons, List.mem_cons]
      by_cases hp : x = p.1
      · simp [hp, hv]
      · simp [hp]

theorem saddLoop_spec : ∀ (ms : List Bytes) (h : Fn Unit) (n : Nat),
    ∃ l, Lists l (fun x => x ∈ ms ∧ (h x).isSome = false) ∧ (A.saddLoop ms h n).2 = n + l.length ∧
      ∀ x, ((A.saddLoop ms h n).1 x).isSome = ((h x).isSome || decide (x ∈ ms))
  | [], h, n => ⟨[], ⟨List.nodup_nil, by simp⟩, rfl, by simp [A.saddLoop]⟩
  | m :: ms, h, n => by
    obtain ⟨l, ⟨h1, h2⟩, h3, h4⟩ := saddLoop_spec ms (upd h m (some ())) (if (h m).isNone then n + 1 else n)
    rw [A.saddLoop, h3]
    have hx : ∀ x, x ∈ l ↔ x ∈ ms ∧ x ≠ m ∧ (h x).isSome = false := by
      intro x; rw [h2 x]
      by_cases hp : m = x
      · simp [upd, hp]
      · simp [upd, hp, Ne.symm hp]
    have h5 : ∀ x, ((A.saddLoop ms (upd h m (some ())) (if (h m).isNone then n + 1 else n)).1 x).isSome = ((h x).isSome || decide (x ∈ m :: ms)) := by
      intro x; rw [h4 x]
      by_cases hp : m = x
      · simp [upd, hp]
      · simp [upd, hp, Ne.symm hp]
    cases hv : h m with
    | none =>
      refine ⟨m :: l, ⟨List.nodup_cons.2 ⟨fun h => absurd rfl ((hx _).1 h).2.1, h1⟩, ?_⟩, by simp; omega, by simpa [hv] using h5⟩
      intro x
      simp only [List.mem_cons, hx]
      by_cases hp : x = m
      · simp [hp, hv]
      · simp [hp]
    | some v =>
      refine ⟨l, ⟨h1, ?_⟩, by simp, by simpa [hv] using h5⟩
      intro x
      simp only [hx, List.mem_cons]
      by_cases hp : x = m
      · simp [hp, hv]
      · simp [hp]

theorem delLoop_spec {V : Type} : ∀ (ms : List Bytes) (h : Fn V) (n : Nat),
    ∃ l, Lists l (fun x => x ∈ ms ∧ (h x).isSome = true) ∧ A.delLoop ms h n = (fun x => if x ∈ ms then none else h x, n + l.length)
  | [], h, n => ⟨[], ⟨List.nodup_nil, by simp⟩, by simp [A.delLoop]⟩
  | m :: ms, h, n => by
    obtain ⟨l, ⟨h1, h2⟩, h3⟩ := delLoop_spec ms (upd h m none) (if (h m).isSome then n + 1 else n)
    rw [A.delLoop, h3]
    have hx : ∀ x, x ∈ l ↔ x ∈ ms ∧ x ≠ m ∧ (h x).isSome = true := by
      intro x; rw [h2 x]
      by_cases hp : m = x
      · simp [upd, hp]
      · simp [upd, hp, Ne.symm hp]
    have h5 : (fun x => if x ∈ ms then none else upd h m none x) = fun x => if x ∈ m :: ms then none else h x := by
      funext x
      by_cases hp : m = x
      · simp [upd, hp]
      · simp [upd, hp, Ne.symm hp]
    rw [h5]
    cases hv : h m with
    | some v =>
      refine ⟨m :: l, ⟨List.nodup_cons.2 ⟨fun h => absurd rfl ((hx _).1 h).2.1, h1⟩, ?_⟩, by simp; omega⟩
      intro x
      simp only [List.mem_cons, hx]
      by_cases hp : x = m
      · simp [hp, hv]
      · simp [hp]
    | none =>
      refine ⟨l, ⟨h1, ?_⟩, by simp⟩
      intro x
      simp only [hx, List.mem_cons]
      by_cases hp : x = m
      · simp [hp, hv]
      · simp [hp]

theorem lpushLoop_spec : ∀ (vs : List Bytes) (q : Quicklist Bytes), Quicklist.Wf pageSize q →
    ∃ q', Cmds.lpushLoop vs q = some q' ∧ Quicklist.Wf pageSize q' ∧ Quicklist.elems q' = vs.reverse ++ Quicklist.elems q
  | [], q, w => ⟨q, rfl, w, rfl⟩
  | v :: vs, q, w => by
    obtain ⟨q1, h1, h2, h3⟩ := Quicklist.pushFront_spec (ps := pageSize) (by decide) q w v
    obtain ⟨q2, h4, h5, h6⟩ := lpushLoop_spec vs q1 h2
    refine ⟨q2, ?_, h5, by rw [h6, h3]; simp⟩
    unfold Cmds.lpushLoop
    rw [h1]; exact h4

theorem rpushLoop_spec : ∀ (vs : List Bytes) (q : Quicklist Bytes), Quicklist.Wf pageSize q →
    Quicklist.Wf pageSize (Cmds.rpushLoop vs q) ∧ Quicklist.elems (Cmds.rpushLoop vs q) = Quicklist.elems q ++ vs
  | [], q, w => ⟨w, by simp [Cmds.rpushLoop]⟩
  | v :: vs, q, w => by
    obtain ⟨h1, h2⟩ := Quicklist.pushBack_spec (ps := pageSize) (by decide) q w v
    obtain ⟨h3, h4⟩ := rpushLoop_spec vs _ h1
    exact ⟨h3, by rw [show Cmds.rpushLoop (v :: vs) q = Cmds.rpushLoop vs (Quicklist.pushBack pageSize q v) from rfl, h4, h2]; simp⟩

/-! ### lists are well-formed -/

/-- all lists are well-formed -/
def LOk (s : AS) : Prop := ∀ k q, s.v k = some (.list q) → Quicklist.Wf pageSize q

theorem lok_swept {e : Env} {s s' : AS} (h : Swept e s s') (hs : LOk s) : LOk s' := by
  intro k q hq
  rcases h k with ⟨h, _⟩ | ⟨_, h, _⟩
  · exact hs k q (h ▸ hq)
  · rw [h] at hq; cases hq
theorem lok_exp {e : Env} {s : AS} {k : Bytes} (hs : LOk s) : LOk (A.exp e s k) := lok_swept swept_exp hs
theorem lok_upd {s : AS} {k : Bytes} {o : AObj} {t : Fn Int} (hs : LOk s) (ho : ∀ q, o = .list q → Quicklist.Wf pageSize q) :
    LOk ⟨upd s.v k (some o), t⟩ := by
  intro x q hq
  by_cases h : x = k
  · subst h; simp only [upd_at, Option.some.injEq] at hq; exact ho q hq
  · simp only [upd_ne _ _ h] at hq; exact hs x q hq
theorem lok_put {s : AS} {k : Bytes} {o : AObj} (hs : LOk s) (ho : ∀ q, o = .list q → Quicklist.Wf pageSize q) : LOk (A.put s k o) :=
  lok_upd hs ho
theorem lok_orNew {β : Type} {as : AObj → Option β} {fr : AObj} {s : AS} {k : Bytes} (hs : LOk s)
    (ho : ∀ q, fr = .list q → Quicklist.Wf pageSize q) : LOk (A.orNew as fr s k).2 := by
  unfold A.orNew; split
  · exact lok_put hs ho
  · exact hs
theorem lok_t {s : AS} {t : Fn Int} (hs : LOk s) : LOk { s with t := t } := hs

theorem asList_eq {o : AObj} {q : Quicklist Bytes} (h : o.asList = some q) : o = .list q := by
  cases o <;> cases h; rfl

theorem orNew_list {s : AS} {k : Bytes} {q : Quicklist Bytes} (hs : LOk s)
    (h : (A.orNew AObj.asList (.list Quicklist.new) s k).1 = some q) : Quicklist.Wf pageSize q := by
  unfold A.orNew at h
  split at h
  · cases h; exact Quicklist.new_wf _
  · next o ho => exact hs k q (by rw [ho, asList_eq h])

macro "lok" : tactic =>
  `(tactic| first
      | assumption
      | exact lok_exp (by assumption)
      | exact lok_t (by assumption)
      | exact lok_upd (by assumption) (fun q h => by cases h)
      | exact lok_put (lok_exp (by assumption)) (fun q h => by cases h)
      | exact lok_orNew (by assumption) (fun q h => by first | (cases h; exact Quicklist.new_wf _) | (cases h; done))
      | exact lok_put (lok_orNew (by assumption) (fun q h => by cases h)) (fun q h => by cases h))

theorem lok_pop {pop} {e : Env} {args : List Bytes} {s : AS} (hs : LOk s)
    (hp : ∀ q, Quicklist.Wf pageSize q → ∀ r q', pop q = some (r, q') → Quicklist.Wf pageSize q') :
    All (fun a => LOk a.s) (A.popCmd pop e args s) := by
  unfold A.popCmd
  refine all_bind fun key hk => ?_
  dsimp only
  split
  · refine all_some ?_; lok
  · refine all_some ?_; lok
  · next q hq =>
    split
    · refine all_some ?_; lok
    · refine all_bind fun p hpp => ?_
      obtain ⟨r, q'⟩ := p
      dsimp only
      refine all_bind fun v hv => ?_
      refine all_some ?_
      obtain ⟨o, h1, h2⟩ := look_found hq
      have hw := lok_exp hs key q (by rw [h1, asList_eq h2])
      exact lok_put (lok_exp hs) (fun x hx => by cases hx; exact hp q hw r _ hpp)

theorem lok_w {e : Env} {args : List Bytes} {s : AS} {c : Cmd} {f} (hs : LOk s) (hc : aFn c = some f) (hw : writes c = true) :
    All (fun a => LOk a.s) (f e args s) := by
  cases c <;> cases hc <;> first | (cases hw; done) | skip
  case set => unfold A.set; cmd_all; all_goals lok
  case setex => unfold A.setEx; cmd_all; all_goals lok
  case expire => unfold A.expire; cmd_all; all_goals lok
  case expireat => unfold A.expireAt; cmd_all; all_goals lok
  case hset => unfold A.hset; cmd_all; all_goals lok
  case hdel => unfold A.hdel; cmd_all; all_goals lok
  case lpush =>
    unfold A.lpush
    refine all_bind fun key hk => ?_
    have hn := @orNew_list s key
    have h1 : LOk (A.orNew AObj.asList (.list Quicklist.new) s key).2 := by lok
    generalize A.orNew AObj.asList (.list Quicklist.new) s key = p at hn h1
    obtain ⟨q, s1⟩ := p
    dsimp only at *
    split
    · exact all_some h1
    · next q =>
      refine all_bind fun q' hq' => all_some ?_
      obtain ⟨q2, p1, p2, _⟩ := lpushLoop_spec (args.drop 2) q (hn hs rfl)
      rw [p1] at hq'; cases hq'
      exact lok_put h1 (fun x hx => by cases hx; exact p2)
  case rpush =>
    unfold A.rpush
    refine all_bind fun key hk => ?_
    have hn := @orNew_list s key
    have h1 : LOk (A.orNew AObj.asList (.list Quicklist.new) s key).2 := by lok
    generalize A.orNew AObj.asList (.list Quicklist.new) s key = p at hn h1
    obtain ⟨q, s1⟩ := p
    dsimp only at *
    split
    · exact all_some h1
    · next q =>
      refine all_some ?_
      exact lok_put h1 (fun x hx => by cases hx; exact (rpushLoop_spec (args.drop 2) q (hn hs rfl)).1)
  case lpop => exact lok_pop hs (fun q w r q' h => by
      obtain ⟨q2, h1, h2, _⟩ := Quicklist.popFront_spec q w
      rw [h1] at h; cases h; exact h2)
  case rpop => exact lok_pop hs (fun q w r q' h => Quicklist.remove_wf q w _ r q' h)
  case sadd => unfold A.sadd; cmd_all; all_goals lok
  case srem => unfold A.srem; cmd_all; all_goals lok
  case zadd => unfold A.zadd; cmd_all; all_goals lok
  case zrem => unfold A.zrem; cmd_all; all_goals lok
  case zremrangebyrank => unfold A.zremRangeByRank; cmd_all; all_goals lok
  case zremrangebyscore => unfold A.zremRangeByScore; cmd_all; all_goals lok

theorem lok_step {e : Env} {args : List Bytes} {s : AS} {c : Cmd} {a : AOut} (h : AStep e args s c a) (hs : LOk s) : LOk a.s := by
  cases hw : writes c with
  | false => exact lok_swept (reads h hw).1 hs
  | true =>
    cases h with
    | det hc h => exact lok_w hs hc hw a h
    | randomget => cases hw
    | @spop m a h =>
      have : All (fun a => LOk a.s) (A.spop m e args s) := by unfold A.spop; cmd_all; all_goals lok
      exact this a h
    | spopEmpty h =>
      have : All (fun a => LOk a.s) (A.spopEmpty e args s) := by unfold A.spopEmpty; cmd_all; all_goals lok
      exact this a h

theorem lok_moved {s : Sys} {i d d' r ev} (h : Moved s i d d' r ev) (hs : LOk d) : LOk d' := by
  cases h with
  | same h => exact h ▸ hs
  | cron h => exact lok_swept h hs
  | request c hc hi cmd hcmd hok hauth a h hd hr => exact hd ▸ lok_step h hs

theorem reach_lok {s : Sys} (hs : Reach hash s) {i : Nat} {d : Db} (hd : s.srv.dbs[i]? = some d) : LOk d.view :=
  reach_inv LOk (fun k d h => by cases h) (fun _ h hp => lok_moved h hp) hs i d hd

/-! ### one request -/

theorem rec_other {e : Env} {args : List Bytes} {cmd : Cmd} (hcmd : commandOf e args = some cmd) (h1 : cmd ≠ .expire) (h2 : cmd ≠ .setex) :
    ∃ b a0, args[0]? = some a0 ∧ Aof.record e (e.lower a0) args = some b := by
  unfold commandOf at hcmd
  simp only [Option.bind_eq_some_iff] at hcmd
  obtain ⟨a0, h3, h4⟩ := hcmd
  refine ⟨Aof.cat args, a0, h3, ?_⟩
  have n1 : e.lower a0 ≠ b!"expire" := by
    intro h; rw [h, show named b!"expire" = some .expire by decide] at h4; cases h4; exact h1 rfl
  have n2 : e.lower a0 ≠ b!"setex" := by
    intro h; rw [h, show named b!"setex" = some .setex by decide] at h4; cases h4; exact h2 rfl
  unfold Aof.record; rw [if_neg n1, if_neg n2]

/-- A request of an allowed connection, given what the command does on the view. -/
theorem answer {s : Sys} {fd : Nat} {e : Env} {args : List Bytes} {c : Session} {cmd : Cmd} {f f' : _} {a : AOut}
    (hs : Reach hash s) (he : e.hash = hash) (hc : s.sess fd = some c) (hal : Allowed s.srv c) (hcmd : commandOf e args = some cmd)
    (hok : Server.badArity args.length (arity cmd) = false) (hf : dbProc cmd = some f) (hf' : aFn cmd = some f')
    {d : Db} (hd : s.srv.dbs[c.db]? = some d) (ha : f' e args d.view = some a) (h1 : cmd ≠ .expire) (h2 : cmd ≠ .setex) :
    ∃ s' r, Sys.step s (.request fd e args) = some (s', r) ∧ a.reply r ∧ (∀ k, s'.val c.db k = a.s.v k) ∧
      (∀ k, s'.deadline c.db k = a.s.t k) := by
  obtain ⟨s', r, o, w1, w2, w3, w4, w5, _⟩ := step_det hs.good he hc hal hcmd hok hf hf' hd ha (fun _ => rec_other hcmd h1 h2)
  have hd' : s'.srv.dbs[c.db]? = some o.db := by rw [w5, set_get hd]; simp
  exact ⟨s', r, w1, w4 ▸ w3.reply, fun k => by rw [val_eq hd', w3.view], fun k => by rw [deadline_eq hd', w3.view]⟩

/-- The value of `k` in database `i` that is visible at time `now`. -/
def Sys.seen (s : Sys) (i : Nat) (now : Int) (k : Bytes) : Option AObj :=
  match s.deadline i k with
  | some dl => if dl < now then none else s.val i k
  | none => s.val i k

theorem seen_eq {s : Sys} {i : Nat} {d : Db} (h : s.srv.dbs[i]? = some d) (e : Env) (k : Bytes) :
    s.seen i e.now k = (A.exp e d.view k).v k := by
  unfold Sys.seen A.exp A.expired
  rw [val_eq h, deadline_eq h]
  cases d.view.t k with
  | none => rfl
  | some dl =>
    by_cases hd : dl < e.now
    · simp [hd, upd]
    · simp [hd]

theorem put_put {s s1 : AS} {k : Bytes} (h : s1 = s ∨ ∃ o, s1 = A.put s k o) (o : AObj) : A.put s1 k o = A.put s k o := by
  rcases h with rfl | ⟨o', rfl⟩
  · rfl
  · unfold A.put
    simp only [AS.mk.injEq, and_true]
    funext x
    by_cases hx : k = x
    · simp [upd, hx]
    · simp [upd, hx]

theorem orNew_hash {s : AS} {k : Bytes} {h : Fn Bytes} (hh : hashOf (s.v k) = some h) :
    ∃ s1, A.orNew AObj.asHash (.hash nil) s k = (some h, s1) ∧ ∀ o, A.put s1 k o = A.put s k o := by
  unfold A.orNew
  cases hv : s.v k with
  | none => rw [hv] at hh; cases hh; exact ⟨_, rfl, put_put (Or.inr ⟨_, rfl⟩)⟩
  | some o => rw [hv] at hh; cases o <;> cases hh; exact ⟨_, rfl, put_put (Or.inl rfl)⟩

theorem orNew_set {s : AS} {k : Bytes} {h : Bytes → Bool} (hh : setOf (s.v k) = some h) :
    ∃ f s1, A.orNew AObj.asSet (.set nil) s k = (some f, s1) ∧ (∀ x, (f x).isSome = h x) ∧ ∀ o, A.put s1 k o = A.put s k o := by
  unfold A.orNew
  cases hv : s.v k with
  | none => rw [hv] at hh; cases hh; exact ⟨nil, _, rfl, fun _ => rfl, put_put (Or.inr ⟨_, rfl⟩)⟩
  | some o => rw [hv] at hh; cases o <;> cases hh; exact ⟨_, _, rfl, fun _ => rfl, put_put (Or.inl rfl)⟩

theorem orNew_lst {s : AS} {k : Bytes} {l : List Bytes} (hh : listOf (s.v k) = some l) (hs : LOk s) :
    ∃ q s1, A.orNew AObj.asList (.list Quicklist.new) s k = (some q, s1) ∧ Quicklist.elems q = l ∧ Quicklist.Wf pageSize q ∧
      ∀ o, A.put s1 k o = A.put s k o := by
  unfold A.orNew
  cases hv : s.v k with
  | none => rw [hv] at hh; cases hh; exact ⟨Quicklist.new, _, rfl, rfl, Quicklist.new_wf _, put_put (Or.inr ⟨_, rfl⟩)⟩
  | some o => rw [hv] at hh; cases o <;> cases hh; exact ⟨_, _, rfl, rfl, hs k _ hv, put_put (Or.inl rfl)⟩

theorem lookHash {s : AS} {k : Bytes} {h : Fn Bytes} (hh : hashOf (s.v k) = some h) :
    (A.look AObj.asHash s k = .missing ∧ h = nil ∧ s.v k = none) ∨ A.look AObj.asHash s k = .found h := by
  unfold A.look
  cases hv : s.v k with
  | none => rw [hv] at hh; cases hh; exact Or.inl ⟨rfl, rfl, rfl⟩
  | some o => rw [hv] at hh; cases o <;> cases hh; exact Or.inr rfl

theorem lookSet {s : AS} {k : Bytes} {h : Bytes → Bool} (hh : setOf (s.v k) = some h) :
    (A.look AObj.asSet s k = .missing ∧ (∀ x, h x = false) ∧ s.v k = none) ∨
    ∃ f, A.look AObj.asSet s k = .found f ∧ (∀ x, (f x).isSome = h x) := by
  unfold A.look
  cases hv : s.v k with
  | none => rw [hv] at hh; cases hh; exact Or.inl ⟨rfl, fun _ => rfl, rfl⟩
  | some o => rw [hv] at hh; cases o <;> cases hh; exact Or.inr ⟨_, rfl, fun _ => rfl⟩

theorem lookList {s : AS} {k : Bytes} {l : List Bytes} (hh : listOf (s.v k) = some l) (hs : LOk s) :
    (A.look AObj.asList s k = .missing ∧ l = [] ∧ s.v k = none) ∨
    ∃ q, A.look AObj.asList s k = .found q ∧ Quicklist.elems q = l ∧ Quicklist.Wf pageSize q ∧ s.v k = some (.list q) := by
  unfold A.look
  cases hv : s.v k with
  | none => rw [hv] at hh; cases hh; exact Or.inl ⟨rfl, rfl, rfl⟩
  | some o => rw [hv] at hh; cases o <;> cases hh; exact Or.inr ⟨_, rfl, rfl, hs k _ hv, rfl⟩

theorem says_empty : Says Reply.empty (.arr []) := by unfold Says; decide

theorem seen_live {s : Sys} {i : Nat} {d : Db} (h : s.srv.dbs[i]? = some d) {e : Env} {k : Bytes}
    (hl : ∀ dl, s.deadline i k = some dl → e.now ≤ dl) : A.expired e d.view k = false := by
  rw [deadline_eq h] at hl
  unfold A.expired
  split
  · next dl hd => have := hl dl hd; simp; omega
  · rfl

/-- deadline of the key after `expireIfNeeded` -/
theorem exp_t_live {s : Sys} {i : Nat} {d : Db} (h : s.srv.dbs[i]? = some d) {e : Env} {k : Bytes}
    (hl : ∀ dl, s.deadline i k = some dl → e.now ≤ dl) : A.exp e d.view k = d.view := exp_live (seen_live h hl)

theorem seen_exp (e : Env) (s : AS) (k0 k : Bytes) : (A.exp e (A.exp e s k0) k).v k = (A.exp e s k).v k := by
  by_cases h0 : A.expired e s k0 = true
  · have h1 : A.exp e s k0 = ⟨upd s.v k0 none, upd s.t k0 none⟩ := by unfold A.exp; rw [if_pos h0]
    by_cases hk : k = k0
    · subst hk
      rw [h1]
      have : A.expired e ⟨upd s.v k none, upd s.t k none⟩ k = false := by simp [A.expired, upd_at]
      rw [exp_live this]
    · have e1 : A.expired e ⟨upd s.v k0 none, upd s.t k0 none⟩ k = A.expired e s k := by simp [A.expired, upd_ne _ _ hk]
      rw [h1]
      unfold A.exp
      rw [e1]
      split
      · simp [upd]
      · simp [upd_ne _ _ hk]
  · rw [exp_live (k := k0) (by simpa using h0)]

theorem opLoop_keep {f : Bool → Bool → Bool} (hf : ∀ b, f b false = b) {e : Env} {sets : Bytes → Bytes → Bool} :
    ∀ (ks : List Bytes) (h : Fn Unit) (s : AS), (∀ k ∈ ks, setOf ((A.exp e s k).v k) = some (sets k)) →
    ∃ h' s', A.opLoop f false e ks h s = (.inl h', s') ∧ ∀ x, (h' x).isSome = ks.foldl (fun b k => f b (sets k x)) (h x).isSome
  | [], h, s, _ => ⟨h, s, rfl, fun _ => rfl⟩
  | k :: ks, h, s, hh => by
    have hn : ∀ k' ∈ ks, setOf ((A.exp e (A.exp e s k) k').v k') = some (sets k') := fun k' hk => by
      rw [seen_exp]; exact hh k' (by simp [hk])
    unfold A.opLoop
    rcases lookSet (hh k (by simp)) with ⟨h1, h2, h3⟩ | ⟨g, h1, hg⟩
    · obtain ⟨h', s', q1, q2⟩ := opLoop_keep hf ks h (A.exp e s k) hn
      exact ⟨h', s', by simp [h1, q1], fun x => by rw [q2, List.foldl_cons, h2, hf]⟩
    · obtain ⟨h', s', q1, q2⟩ := opLoop_keep hf ks (fun x => if f (h x).isSome (g x).isSome then some () else none) (A.exp e s k) hn
      refine ⟨h', s', by simp [h1, q1], fun x => ?_⟩
      rw [q2, List.foldl_cons, hg]
      congr 1
      cases f (h x).isSome (sets k x) <;> rfl

theorem opLoop_stop {e : Env} {sets : Bytes → Bytes → Bool} :
    ∀ (ks : List Bytes) (h : Fn Unit) (s : AS), (∀ k ∈ ks, setOf ((A.exp e s k).v k) = some (sets k)) →
    (∃ h' s', A.opLoop (fun a b => a && b) true e ks h s = (.inl h', s') ∧ ∀ x, (h' x).isSome = true ↔ ((h x).isSome = true ∧ ∀ k ∈ ks, sets k x = true)) ∨
    (∃ s', A.opLoop (fun a b => a && b) true e ks h s = (.inr Reply.empty, s') ∧ ∃ k ∈ ks, ∀ x, sets k x = false)
  | [], h, s, _ => Or.inl ⟨h, s, rfl, fun _ => by simp⟩
  | k :: ks, h, s, hh => by
    have hn : ∀ k' ∈ ks, setOf ((A.exp e (A.exp e s k) k').v k') = some (sets k') := fun k' hk => by
      rw [seen_exp]; exact hh k' (by simp [hk])
    unfold A.opLoop
    rcases lookSet (hh k (by simp)) with ⟨h1, h2, h3⟩ | ⟨g, h1, hg⟩
    · exact Or.inr ⟨A.exp e s k, by simp [h1], k, by simp, h2⟩
    · rcases opLoop_stop ks (fun x => if (h x).isSome && (g x).isSome then some () else none) (A.exp e s k) hn with ⟨h', s', q1, q2⟩ | ⟨s', q1, k', q2, q3⟩
      · refine Or.inl ⟨h', s', by simp only [h1]; exact q1, fun x => ?_⟩
        rw [q2]
        simp only [List.mem_cons, forall_eq_or_imp, hg]
        cases (h x).isSome <;> cases sets k x <;> simp
      · exact Or.inr ⟨s', by simp only [h1]; exact q1, k', by simp [q2], q3⟩

theorem setOp_and {e : Env} {n : Bytes} {ks : List Bytes} {s : AS} {sets : Bytes → Bytes → Bool} (hlen : 1 ≤ ks.length)
    (hh : ∀ k ∈ ks, setOf ((A.exp e s k).v k) = some (sets k)) :
    ∃ a p, A.sinter e (n :: ks) s = some ⟨a, 0, p⟩ ∧ ∀ r, p r → ∃ l, Lists l (fun x => ∀ k ∈ ks, sets k x = true) ∧ r = Reply.array l := by
  match ks, hlen, hh with
  | k :: ks, _, hh =>
    rcases lookSet (hh k (by simp)) with ⟨h1, h2, h3⟩ | ⟨g, h1, hg⟩
    · exact ⟨A.exp e s k, A.ex Reply.empty, by simp [A.sinter, A.setOp, h1], fun r hr => ⟨[], ⟨List.nodup_nil, by simp [h2]⟩, hr⟩⟩
    · rcases opLoop_stop ks g (A.exp e s k) (fun k' hk => by rw [seen_exp]; exact hh k' (by simp [hk])) with ⟨h', s', q1, q2⟩ | ⟨s', q1, k', q2, q3⟩
      · refine ⟨s', A.dom h', by simp [A.sinter, A.setOp, h1, q1], fun r hr => ?_⟩
        obtain ⟨l, p1, p2⟩ := hr
        exact ⟨l, ⟨p1.1, fun x => by rw [p1.2 x, q2 x, hg]; simp⟩, p2⟩
      · refine ⟨s', A.ex Reply.empty, by simp [A.sinter, A.setOp, h1, q1], fun r hr => ⟨[], ⟨List.nodup_nil, fun x => ?_⟩, hr⟩⟩
        simp only [List.not_mem_nil, false_iff]
        intro h
        have := h k' (by simp [q2])
        rw [q3] at this; cases this

theorem fold_diff {α : Type} (p : α → Bool) : ∀ (ks : List α) (b : Bool), ks.foldl (fun b k => b && !p k) b = true ↔ (b = true ∧ ∀ k ∈ ks, p k = false)
  | [], b => by simp
  | k :: ks, b => by rw [List.foldl_cons, fold_diff p ks]; cases b <;> cases hp : p k <;> simp [hp]
theorem fold_union {α : Type} (p : α → Bool) : ∀ (ks : List α) (b : Bool), ks.foldl (fun b k => b || p k) b = true ↔ (b = true ∨ ∃ k ∈ ks, p k = true)
  | [], b => by simp
  | k :: ks, b => by rw [List.foldl_cons, fold_union p ks]; cases b <;> cases hp : p k <;> simp [hp]

end Metis
