import Verif.Proofs.Tally
import Verif.Proofs.ZCmd
/-!
Every sorted set is a tally, after every history without NaN and without ZREMRANGEBYRANK from ranks beyond the first on.
-/
set_option linter.unusedSectionVars false
set_option linter.unusedSimpArgs false
set_option linter.unusedVariables false
namespace Metis
open Spec Metis.Skiplist Metis.Skip
variable {hash : Bytes → Nat}

theorem covers_none : Tally.none.Covers := fun m v h => by cases h

theorem mem_erase_snd {p q : Entry} {l : List Entry} (h : p ∈ l) (hne : p.2 ≠ q.2) : p ∈ l.erase q :=
  (List.mem_erase_of_ne (fun e => hne (by rw [e]))).2 h

theorem Spec.Tally.Covers.add {t : Tally} (h : t.Covers) (x : F64) (m : Bytes) : (t.add x m).Covers := by
  intro m' v hv
  unfold Tally.add at hv ⊢
  split at hv
  · next hm =>
    simp only [Tally.entered] at hv ⊢
    by_cases e : m' = m
    · subst e; simp at hv; subst hv; simp
    · rw [if_neg e] at hv; exact List.mem_cons_of_mem _ (h m' v hv)
  · next w hm =>
    cases hw : numEq w x with
    | true => rw [hw] at hv; simp at hv; exact h m' v hv
    | false =>
      rw [hw] at hv
      simp only [Bool.false_eq_true, if_false, Tally.entered] at hv ⊢
      by_cases e : m' = m
      · subst e; simp at hv; subst hv; simp
      · rw [if_neg e] at hv; exact List.mem_cons_of_mem _ (mem_erase_snd (h m' v hv) e)

theorem Spec.Tally.Covers.rem {t : Tally} (h : t.Covers) (m : Bytes) : (t.rem m).Covers := by
  intro m' v hv
  unfold Tally.rem at hv ⊢
  split at hv
  · exact h m' v hv
  · next w hm =>
    simp only at hv ⊢
    by_cases e : m' = m
    · simp [e] at hv
    · rw [if_neg e] at hv; exact mem_erase_snd (h m' v hv) e

theorem Spec.Tally.Covers.cut {t : Tally} (h : t.Covers) (min max : F64) : (t.cut min max).Covers := by
  intro m v hv
  simp only [Tally.cut] at hv ⊢
  split at hv
  · cases hv
  · next hn =>
    refine List.mem_filter.2 ⟨h m v hv, ?_⟩
    cases hw : within min max (v.key, m) with
    | false => rfl
    | true => exact absurd (List.any_eq_true.2 ⟨_, h m v hv, by simp [hw]⟩) hn

theorem Spec.Tally.Covers.shed {t : Tally} (h : t.Covers) {l : List Entry} (hl : t.InOrder l) (i j : Int) : (t.shed l i j).Covers := by
  intro m v hv
  simp only [Tally.shed] at hv ⊢
  split at hv
  · cases hv
  · next hn =>
    have hm := hl.1.symm.subset (h m v hv)
    have hl2 := congrArg (fun x => l.take (stretch l.length i j).1 ++ x) (List.take_append_drop (stretch l.length i j).2 (l.drop (stretch l.length i j).1))
    simp only [List.drop_drop, List.take_append_drop] at hl2
    rw [← hl2, List.mem_append, List.mem_append] at hm
    rcases hm with hm | hm | hm
    · exact List.mem_append_left _ hm
    · exact absurd (List.any_eq_true.2 ⟨_, hm, by simp⟩) hn
    · exact List.mem_append_right _ hm

theorem Spec.Tally.Covers.remAll : ∀ (ms : List Bytes) {t : Tally}, t.Covers → (t.remAll ms).Covers
  | [], t, h => h
  | m :: ms, t, h => Spec.Tally.Covers.remAll ms (h.rem m)

/-- The sorted set is some tally. -/
def Tallied (z : AZ) : Prop := ∃ t, Holds z t ∧ t.Covers

theorem booked_new : Tallied A.zNew := ⟨_, holds_new, covers_none⟩

/-- If `k` holds a sorted set, it is some tally. -/
def TAt (k : Bytes) (s : AS) : Prop := ∀ z, s.v k = some (.zset z) → Tallied z

theorem tat_swept {e : Env} {s s' : AS} {k : Bytes} (h : Swept e s s') (hs : TAt k s) : TAt k s' := by
  intro z hz
  rcases h k with ⟨h, _⟩ | ⟨_, h, _⟩
  · exact hs z (h ▸ hz)
  · rw [h] at hz; cases hz
theorem tat_exp {e : Env} {s : AS} {k key : Bytes} (hs : TAt k s) : TAt k (A.exp e s key) := tat_swept swept_exp hs
theorem tat_upd {s : AS} {k key : Bytes} {o : AObj} {t : Fn Int} (hs : TAt k s) (ho : k = key → ∀ z, o = .zset z → Tallied z) :
    TAt k ⟨upd s.v key (some o), t⟩ := by
  intro z hz
  by_cases h : k = key
  · subst h; simp only [upd_at, Option.some.injEq] at hz; exact ho rfl z hz
  · simp only [upd_ne _ _ h] at hz; exact hs z hz
theorem tat_put {s : AS} {k key : Bytes} {o : AObj} (hs : TAt k s) (ho : k = key → ∀ z, o = .zset z → Tallied z) : TAt k (A.put s key o) :=
  tat_upd hs ho
theorem tat_orNew {β : Type} {as : AObj → Option β} {fr : AObj} {s : AS} {k key : Bytes} (hs : TAt k s)
    (ho : ∀ z, fr = .zset z → Tallied z) : TAt k (A.orNew as fr s key).2 := by
  unfold A.orNew; split
  · exact tat_put hs (fun _ => ho)
  · exact hs
theorem tat_t {s : AS} {k : Bytes} {t : Fn Int} (hs : TAt k s) : TAt k { s with t := t } := hs

macro "tat" : tactic =>
  `(tactic| first
      | assumption
      | exact tat_exp (by assumption)
      | exact tat_t (by assumption)
      | exact tat_upd (by assumption) (fun _ q h => by cases h)
      | exact tat_put (by assumption) (fun _ q h => by cases h)
      | exact tat_put (tat_exp (by assumption)) (fun _ q h => by cases h)
      | exact tat_orNew (by assumption) (fun q h => by first | (cases h; exact booked_new) | (cases h; done))
      | exact tat_put (tat_orNew (by assumption) (fun q h => by cases h)) (fun _ q h => by cases h))

/-- The loop of ZADD, also when it stops at a score that does not parse. -/
theorem zaddLoop_booked {e : Env} (hlv : LevelsOk e.level) (args : List Bytes) :
    ∀ (i : Nat) (z : AZ) (n : Nat), Tallied z → (∀ p ∈ zPairs e args, p.1.isNaN = false) → ∀ r, A.zaddLoop e args i z n = some r → Tallied r.1 := by
  induction args using zPairs.induct e with
  | case1 sc m rest x hp ih =>
    intro i z n h hk r hr
    simp only [zPairs, hp] at hk
    obtain ⟨t, h, hc⟩ := h
    obtain ⟨z1, e1, o1⟩ := h.add (hlv i) (m := m) (hk (x, m) (by simp))
    simp only [A.zaddLoop, hp, e1, Option.bind_eq_bind, Option.bind_some] at hr
    exact ih _ z1 _ ⟨_, o1, hc.add x m⟩ (fun p hp => hk p (by simp [hp])) r hr
  | case2 sc m rest hp =>
    intro i z n h hk r hr
    simp only [A.zaddLoop, hp] at hr
    cases hr; exact h
  | case3 args hn =>
    intro i z n h hk r hr
    match args, hn, hr with
    | [], _, hr => simp only [A.zaddLoop] at hr; cases hr; exact h
    | [_], _, hr => simp only [A.zaddLoop] at hr; cases hr; exact h
    | a :: b :: t, hn, _ => exact absurd rfl (hn a b t)

/-- What a request may do to the sorted set of `k`. -/
def UnrankedReq (e : Env) (args : List Bytes) (k : Bytes) (c : Cmd) : Prop :=
  args[1]? = some k →
    (c = .zadd → LevelsOk e.level ∧ ∀ p ∈ zPairs e (args.drop 2), p.1.isNaN = false) ∧
    (c = .zremrangebyrank → ∀ a b i j, args[2]? = some a → args[3]? = some b → atoi a = some i → atoi b = some j → i ≤ 0 ∨ j < i) ∧
    (c = .zremrangebyscore → ∀ a b x y, args[2]? = some a → args[3]? = some b → e.parseFloat a = some x → e.parseFloat b = some y → x.isNaN = false ∧ y.isNaN = false)

theorem tat_w {e : Env} {args : List Bytes} {s : AS} {c : Cmd} {f} {k : Bytes} (hs : TAt k s) (hg : UnrankedReq e args k c)
    (hc : aFn c = some f) (hw : writes c = true) : All (fun a => TAt k a.s) (f e args s) := by
  cases c <;> cases hc <;> first | (cases hw; done) | skip
  case set => unfold A.set; cmd_all; all_goals tat
  case setex => unfold A.setEx; cmd_all; all_goals tat
  case expire => unfold A.expire; cmd_all; all_goals tat
  case expireat => unfold A.expireAt; cmd_all; all_goals tat
  case hset => unfold A.hset; cmd_all; all_goals tat
  case hdel => unfold A.hdel; cmd_all; all_goals tat
  case lpush => unfold A.lpush; cmd_all; all_goals tat
  case rpush => unfold A.rpush; cmd_all; all_goals tat
  case lpop => unfold A.lpop A.popCmd; cmd_all; all_goals tat
  case rpop => unfold A.rpop A.popCmd; cmd_all; all_goals tat
  case sadd => unfold A.sadd; cmd_all; all_goals tat
  case srem => unfold A.srem; cmd_all; all_goals tat
  case zadd =>
    unfold A.zadd
    split
    · exact all_some hs
    · refine all_bind fun key hk => ?_
      have hn : ∀ z, (A.orNew AObj.asZset (.zset A.zNew) s key).1 = some z → TAt key s → Tallied z := by
        intro z h hs
        unfold A.orNew at h
        split at h
        · cases h; exact booked_new
        · next o ho => exact hs z (by rw [ho, asZset_eq h])
      have h1 : TAt k (A.orNew AObj.asZset (.zset A.zNew) s key).2 := by tat
      generalize A.orNew AObj.asZset (.zset A.zNew) s key = p at hn h1
      obtain ⟨z, s1⟩ := p
      dsimp only at *
      split
      · exact all_some h1
      · next z =>
        refine all_bind fun r hr => ?_
        have key' : k = key → ∀ x, AObj.zset r.1 = .zset x → Tallied x := by
          rintro rfl x hx
          cases hx
          obtain ⟨hlv, hkp⟩ := (hg hk).1 rfl
          exact zaddLoop_booked hlv _ 0 z 0 (hn z rfl hs) hkp _ hr
        obtain ⟨z', n', cr, bad⟩ := r
        dsimp only at *
        split
        · exact all_some (tat_put h1 key')
        · exact all_some (tat_put h1 key')
  case zrem =>
    unfold A.zrem
    refine all_bind fun key hk => ?_
    dsimp only
    split
    · exact all_some (by tat)
    · exact all_some (by tat)
    · next z hz =>
      refine all_bind fun r hr => all_some ?_
      obtain ⟨z', n'⟩ := r
      refine tat_put (tat_exp hs) ?_
      rintro rfl x hx
      cases hx
      obtain ⟨o, h1, h2⟩ := look_found hz
      obtain ⟨t, ht, hc⟩ := tat_exp hs z (by rw [h1, asZset_eq h2])
      obtain ⟨z2, e2, o2⟩ := ht.zrem (args.drop 2) 0
      rw [e2] at hr; cases hr; exact ⟨_, o2, Spec.Tally.Covers.remAll _ hc⟩
  case zremrangebyrank =>
    unfold A.zremRangeByRank
    refine all_bind fun key hk => ?_
    refine all_bind fun a ha => ?_
    split
    · exact all_some hs
    · next i hi =>
      refine all_bind fun b hb => ?_
      split
      · exact all_some hs
      · next j hj =>
        dsimp only
        split
        · exact all_some (by tat)
        · exact all_some (by tat)
        · next z hz =>
          refine all_bind fun r hr => all_some ?_
          obtain ⟨es, z'⟩ := r
          refine tat_put (tat_exp hs) ?_
          rintro rfl x hx
          cases hx
          obtain ⟨o, h1, h2⟩ := look_found hz
          obtain ⟨t, ht, hc⟩ := tat_exp hs z (by rw [h1, asZset_eq h2])
          obtain ⟨l, hl⟩ := ht.ordered
          obtain ⟨es2, z2, e2, _, o2⟩ := ht.shed hl ((hg hk).2.1 rfl a b i j ha hb hi hj) (atoi_lt hi)
          rw [e2] at hr; cases hr; exact ⟨_, o2, hc.shed hl i j⟩
  case zremrangebyscore =>
    unfold A.zremRangeByScore
    refine all_bind fun key hk => ?_
    refine all_bind fun a ha => ?_
    split
    · exact all_some hs
    · next min hmin =>
      refine all_bind fun b hb => ?_
      split
      · exact all_some hs
      · next max hmax =>
        dsimp only
        split
        · exact all_some (by tat)
        · exact all_some (by tat)
        · next z hz =>
          refine all_bind fun r hr => all_some ?_
          obtain ⟨es, z'⟩ := r
          refine tat_put (tat_exp hs) ?_
          rintro rfl x hx
          cases hx
          obtain ⟨o, h1, h2⟩ := look_found hz
          obtain ⟨n1, n2⟩ := (hg hk).2.2 rfl a b min max ha hb hmin hmax
          obtain ⟨t, ht, hc⟩ := tat_exp hs z (by rw [h1, asZset_eq h2])
          obtain ⟨es2, z2, e2, _, o2⟩ := ht.cut n1 n2
          rw [e2] at hr; cases hr; exact ⟨_, o2, hc.cut _ _⟩

theorem tat_step {e : Env} {args : List Bytes} {s : AS} {c : Cmd} {a : AOut} {k : Bytes} (h : AStep e args s c a) (hs : TAt k s)
    (hg : UnrankedReq e args k c) : TAt k a.s := by
  cases hw : writes c with
  | false => exact tat_swept (reads h hw).1 hs
  | true =>
    cases h with
    | det hc h => exact tat_w hs hg hc hw a h
    | randomget => cases hw
    | @spop m a h =>
      have : All (fun a => TAt k a.s) (A.spop m e args s) := by unfold A.spop; cmd_all; all_goals tat
      exact this a h
    | spopEmpty h =>
      have : All (fun a => TAt k a.s) (A.spopEmpty e args s) := by unfold A.spopEmpty; cmd_all; all_goals tat
      exact this a h

/-- An event that keeps to what `UnrankedReq` says for key `k` of database `i`. -/
def Unranked (s : Sys) (i : Nat) (k : Bytes) : Event → Prop
  | .request fd e args => ∀ c cmd, s.sess fd = some c → c.db = i → commandOf e args = some cmd → UnrankedReq e args k cmd
  | _ => True

/-- Every event of the history does. -/
def UnrankedRun (i : Nat) (k : Bytes) : Sys → List Event → Prop
  | _, [] => True
  | s, ev :: evs => Unranked s i k ev ∧ ∀ s' r, Sys.step s ev = some (s', r) → UnrankedRun i k s' evs

theorem tat_moved {s : Sys} {i : Nat} {d : Db} {d' r ev} {k : Bytes} (h : Moved s i d.view d' r ev) (hs : TAt k d.view) (hg : Unranked s i k ev) : TAt k d' := by
  cases h with
  | same h => exact h ▸ hs
  | cron h => exact tat_swept h hs
  | request c hc hi cmd hcmd hok hauth a h hd' hr => exact hd' ▸ tat_step h hs (hg c cmd hc hi hcmd)

/-- The sorted set at `k` in database `i`, if any, is some tally. -/
def Sys.booked (s : Sys) (i : Nat) (k : Bytes) : Prop := ∀ z, s.val i k = some (.zset z) → Tallied z

theorem booked_event {s s' : Sys} {ev : Event} {r : List Bytes} {i : Nat} {k : Bytes} (g : SysGood hash s) (he : EvOk hash ev)
    (h : Sys.step s ev = some (s', r)) (hz : s.booked i k) (hg : Unranked s i k ev) : s'.booked i k := by
  obtain ⟨g', _, _, hlen, hdb⟩ := step_db g he h
  cases hd : s.srv.dbs[i]? with
  | none =>
    have : s'.srv.dbs[i]? = none := by
      rw [List.getElem?_eq_none_iff] at hd ⊢; omega
    intro z hz'
    unfold Sys.val at hz'
    rw [this] at hz'; cases hz'
  | some d =>
    obtain ⟨d', h1, h2, h3⟩ := hdb i d hd
    have := tat_moved h3 (fun z hz' => hz z (by rw [val_eq hd]; exact hz')) hg
    intro z hz'
    rw [val_eq h1] at hz'
    exact this z hz'

theorem booked_history : ∀ (evs : List Event) {s s' : Sys} {rs : List (List Bytes)} {i : Nat} {k : Bytes}, SysGood hash s → (∀ ev ∈ evs, EvOk hash ev) →
    Sys.run s evs = some (s', rs) → s.booked i k → UnrankedRun i k s evs → s'.booked i k
  | [], s, s', rs, i, k, g, he, h, hz, hg => by cases h; exact hz
  | ev :: evs, s, s', rs, i, k, g, he, h, hz, hg => by
    simp only [Sys.run, Option.bind_eq_bind, Option.bind_eq_some_iff] at h
    obtain ⟨⟨s1, r⟩, h1, ⟨s2, rs'⟩, h2, h3⟩ := h
    cases h3
    exact booked_history evs (step_db g (he ev (by simp)) h1).1 (fun x hx => he x (List.mem_cons_of_mem _ hx)) h2
      (booked_event g (he ev (by simp)) h1 hz hg.1) (hg.2 s1 r h1)

end Metis
