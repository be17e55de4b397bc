import Verif.Proofs.Reader
/-!
What a request that is answered with an error leaves behind (C117).
-/
set_option linter.unusedSectionVars false
set_option linter.unusedSimpArgs false
set_option linter.unusedVariables false
namespace Metis
open Metis.Spec
variable {hash : Bytes → Nat} {s s' : Sys} {r : List Bytes}

theorem ok_fine : ¬ isError Reply.ok := by
  rintro ⟨t, h⟩
  have h : (43 : UInt8) :: [79, 75, 13, 10] = 45 :: t := h
  exact absurd (List.cons.inj h).1 (by decide)

theorem null_fine : ¬ isError Reply.null := by
  rintro ⟨t, h⟩
  have h : (36 : UInt8) :: [45, 49, 13, 10] = 45 :: t := h
  exact absurd (List.cons.inj h).1 (by decide)

theorem bulk_fine (b : Bytes) : ¬ isError (Reply.bulk b) := by
  rintro ⟨t, h⟩
  simp [Reply.bulk] at h

theorem int_fine (n : Int) : ¬ isError (Reply.int n) := by
  rintro ⟨t, h⟩
  simp [Reply.int] at h

theorem simple_fine (b : Bytes) : ¬ isError (Reply.simple b) := by
  rintro ⟨t, h⟩
  simp [Reply.simple] at h

/-- `P` for commands whose error replies come with no change. -/
def Refuses (e : Env) (s : AS) (a : AOut) : Prop := ∀ r, a.reply r → isError r → Reads e s a

macro "refuses" : tactic => `(tactic| (intro r hr hx; first
  | exact ⟨swept_refl, rfl⟩
  | exact ⟨swept_exp, rfl⟩
  | (cases hr; exact absurd hx ok_fine)
  | (cases hr; exact absurd hx (int_fine _))
  | (cases hr; exact absurd hx (bulk_fine _))))

theorem refuses_pop {pop} {e : Env} {args : List Bytes} {s : AS} : All (Refuses e s) (A.popCmd pop e args s) := by
  unfold A.popCmd; cmd_all; all_goals refuses

theorem refuses_w {e : Env} {args : List Bytes} {s : AS} {c : Cmd} {f} (hc : aFn c = some f) (hz : c ≠ .zadd) (hw : writes c = true) : All (Refuses e s) (f e args s) := by
  cases c <;> cases hc <;> first | (cases hw; done) | (exact absurd rfl hz) | skip
  case expire => unfold A.expire; cmd_all; all_goals refuses
  case expireat => unfold A.expireAt; cmd_all; all_goals refuses
  case set => unfold A.set; cmd_all; all_goals refuses
  case setex => unfold A.setEx; cmd_all; all_goals refuses
  case hset =>
    unfold A.hset; cmd_all
    · refuses
    · next h => intro _ _ _; refine ⟨?_, rfl⟩; simp only [orNew_none rfl h]; exact swept_refl
    · refuses
  case lpush =>
    unfold A.lpush; cmd_all
    · next h => intro _ _ _; refine ⟨?_, rfl⟩; simp only [orNew_none rfl h]; exact swept_refl
    · refuses
  case rpush =>
    unfold A.rpush; cmd_all
    · next h => intro _ _ _; refine ⟨?_, rfl⟩; simp only [orNew_none rfl h]; exact swept_refl
    · refuses
  case sadd =>
    unfold A.sadd; cmd_all
    · next h => intro _ _ _; refine ⟨?_, rfl⟩; simp only [orNew_none rfl h]; exact swept_refl
    · refuses
  case lpop => exact refuses_pop
  case rpop => exact refuses_pop
  case hdel => unfold A.hdel; cmd_all; all_goals refuses
  case srem => unfold A.srem; cmd_all; all_goals refuses
  case zrem => unfold A.zrem; cmd_all; all_goals refuses
  case zremrangebyrank => unfold A.zremRangeByRank; cmd_all; all_goals refuses
  case zremrangebyscore => unfold A.zremRangeByScore; cmd_all; all_goals refuses

theorem refuses {e : Env} {args : List Bytes} {s : AS} {c : Cmd} {a : AOut} (h : AStep e args s c a) (hz : c ≠ .zadd) : Refuses e s a := by
  cases hw : writes c with
  | false => intro _ _ _; exact reads h hw
  | true =>
    cases h with
    | det hc h => exact refuses_w hc hz hw a h
    | randomget => cases hw
    | @spop m a h =>
      have : All (Refuses e s) (A.spop m e args s) := by unfold A.spop; cmd_all; all_goals refuses
      exact this a h
    | spopEmpty h =>
      have : All (Refuses e s) (A.spopEmpty e args s) := by unfold A.spopEmpty; cmd_all; all_goals refuses
      exact this _ h

/-- Neither session nor task nor log, if the command does not count a change. -/
theorem calm_step {fd : Nat} {e : Env} {args : List Bytes} (g : SysGood hash s) (he : e.hash = hash)
    (hz : ∀ cmd d a, commandOf e args = some cmd → AStep e args d cmd a → a.reply r → a.dirty = 0) (ha : commandOf e args ≠ some .auth)
    (h : Sys.step s (.request fd e args) = some (s', r)) (hr : isError r) :
    (∀ x, s'.sess x = s.sess x) ∧ s'.srv.task = s.srv.task ∧ s'.srv.aofSelect = s.srv.aofSelect ∧ s'.srv.aofBuf = s.srv.aofBuf ∧ s'.srv.aofRewriteBuf = s.srv.aofRewriteBuf ∧
      s'.srv.dirty = s.srv.dirty := by
  simp only [Sys.step, Option.bind_eq_bind, Option.bind_eq_some_iff] at h
  obtain ⟨c, hc, ⟨srv', c', r'⟩, h1, h2⟩ := h
  cases h2
  have sess : ∀ x, (if x = fd then some c else s.sess x) = s.sess x := by
    intro x
    split
    · next hx => rw [hx, hc]
    · rfl
  cases served he g.srv h1 with
  | unknown => exact ⟨sess, rfl, rfl, rfl, rfl, rfl⟩
  | rejected => exact ⟨sess, rfl, rfl, rfl, rfl, rfl⟩
  | select a0 ha' ce hl hp _ _ hs =>
    unfold Server.select at hs
    simp only [Option.bind_eq_bind, Option.bind_eq_some_iff] at hs
    obtain ⟨a, _, hs⟩ := hs
    split at hs
    · cases hs; exact ⟨sess, rfl, rfl, rfl, rfl, rfl⟩
    · split at hs
      · cases hs; exact ⟨sess, rfl, rfl, rfl, rfl, rfl⟩
      · split at hs
        · cases hs
        · cases hs; exact absurd hr ok_fine
  | auth a0 ha' ce hl hp => exact absurd ((commandOf_of ha' hl).trans (by rw [hp])) ha
  | rewrite a0 ha' ce hl hp _ _ hs =>
    unfold Server.bgRewriteAof at hs
    split at hs
    · cases hs; exact absurd hr (simple_fine _)
    · simp only [Option.bind_eq_bind, Option.bind_eq_some_iff] at hs
      obtain ⟨_, _, hs⟩ := hs
      cases hs; exact absurd hr (simple_fine _)
  | db a0 ha' ce hl hok hauth f hf d0 hd o ho a hst hrel srv' hfeed =>
    have hz : a.dirty = 0 := hz _ _ _ (commandOf_of ha' hl) hst hrel.reply
    have hz' : o.dirty = 0 := hrel.dirty.trans hz
    rw [if_neg (fun q => q.2 hz)] at hfeed
    cases hfeed
    exact ⟨sess, rfl, rfl, rfl, rfl, by simp [hz']⟩

/-- Neither session nor task nor log. -/
theorem refused_step {fd : Nat} {e : Env} {args : List Bytes} (g : SysGood hash s) (he : e.hash = hash) (hz : commandOf e args ≠ some .zadd) (ha : commandOf e args ≠ some .auth)
    (h : Sys.step s (.request fd e args) = some (s', r)) (hr : isError r) :
    (∀ x, s'.sess x = s.sess x) ∧ s'.srv.task = s.srv.task ∧ s'.srv.aofSelect = s.srv.aofSelect ∧ s'.srv.aofBuf = s.srv.aofBuf ∧ s'.srv.aofRewriteBuf = s.srv.aofRewriteBuf ∧
      s'.srv.dirty = s.srv.dirty :=
  calm_step g he (fun cmd d a hcmd hst hrep => (refuses hst (by rintro rfl; exact hz hcmd) _ hrep hr).2) ha h hr

/-! ### ZADD with a score that is none -/

theorem zadd_first {e : Env} {n k bad : Bytes} {rest : List Bytes} {d : AS} {a : AOut} (hb : e.parseFloat bad = none) (h : AStep e (n :: k :: bad :: rest) d .zadd a) :
    a.dirty = 0 ∧ (∀ r, a.reply r → isError r) ∧ (a.s = d ∨ (d.v k = none ∧ a.s = A.put d k (.zset A.zNew))) := by
  cases h with
  | det hc h =>
    cases hc
    unfold A.zadd at h
    split at h
    · cases h; exact ⟨rfl, fun r hr => by cases hr; exact error_isError _, .inl rfl⟩
    · next hl =>
      cases rest with
      | nil => simp at hl
      | cons x rest =>
        simp only [List.getElem?_cons_succ, List.getElem?_cons_zero, Option.bind_eq_bind, Option.bind_some, List.drop_succ_cons, List.drop_zero, A.zaddLoop, hb] at h
        cases hv : d.v k with
        | none =>
          simp only [A.orNew, hv, AObj.asZset] at h
          cases h
          refine ⟨rfl, fun r hr => by cases hr; exact error_isError _, .inr ⟨rfl, ?_⟩⟩
          exact put_same' (by simp [A.put, upd])
        | some o =>
          simp only [A.orNew, hv] at h
          cases o <;> simp only [AObj.asZset] at h <;> cases h
          all_goals first
            | exact ⟨rfl, fun r hr => by cases hr; exact error_isError _, .inl (put_same' hv)⟩
            | exact ⟨rfl, fun r hr => by cases hr; exact error_isError _, .inl rfl⟩

/-- Scores and members in the order in which they are sent. -/
def spread (ps : List (Bytes × Bytes)) : List Bytes := ps.flatMap fun p => [p.1, p.2]

theorem zaddLoop_cut {e : Env} {bad x : Bytes} {rest : List Bytes} (hb : e.parseFloat bad = none) : ∀ (ps : List (Bytes × Bytes)) (i : Nat) (z : Zset) (n : Nat) {z' : Zset}
    {i' n' : Nat} {b : Option Bytes}, (∀ p ∈ ps, (e.parseFloat p.1).isSome = true) →
    Cmds.zaddLoop e (spread ps ++ bad :: x :: rest) i z n = some (z', i', n', b) → b = some bad ∧ Cmds.zaddLoop e (spread ps) i z n = some (z', i', n', none)
  | [], i, z, n, z', i', n', b, _, h => by
    simp only [spread, List.flatMap_nil, List.nil_append, Cmds.zaddLoop, hb, Option.some.injEq, Prod.mk.injEq] at h ⊢
    obtain ⟨rfl, rfl, rfl, rfl⟩ := h
    simp
  | (sc, m) :: ps, i, z, n, z', i', n', b, hp, h => by
    obtain ⟨v, hv⟩ := Option.isSome_iff_exists.1 (hp (sc, m) (by simp))
    have hs : spread ((sc, m) :: ps) = sc :: m :: spread ps := rfl
    simp only at hv
    rw [hs] at h ⊢
    simp only [List.cons_append, Cmds.zaddLoop, hv, Option.bind_eq_bind, Option.bind_eq_some_iff] at h ⊢
    obtain ⟨⟨isNew, z1⟩, h1, h2⟩ := h
    have := zaddLoop_cut hb ps _ _ _ (fun p hx => hp p (by simp [hx])) h2
    exact ⟨this.1, _, h1, this.2⟩

theorem spread_length (ps : List (Bytes × Bytes)) : (spread ps).length = 2 * ps.length := by
  induction ps with
  | nil => rfl
  | cons p ps ih => show (spread ps).length + 2 = _; rw [ih]; simp; omega

theorem zadd_cut {e : Env} {n k bad x : Bytes} {rest : List Bytes} {ps : List (Bytes × Bytes)} {d : Db} {o : Out} (hb : e.parseFloat bad = none)
    (hp : ∀ p ∈ ps, (e.parseFloat p.1).isSome = true) (hev : rest.length % 2 = 0) (h : Cmds.zadd e (n :: k :: (spread ps ++ bad :: x :: rest)) d = some o) :
    ∃ o', Cmds.zadd e (n :: k :: spread ps) d = some o' ∧ o'.db = o.db ∧ o'.dirty = o.dirty ∧ isError o.reply := by
  have l1 : ¬ (n :: k :: (spread ps ++ bad :: x :: rest)).length % 2 ≠ 0 := by
    simp only [List.length_cons, List.length_append, spread_length]; omega
  have l2 : ¬ (n :: k :: spread ps).length % 2 ≠ 0 := by
    simp only [List.length_cons, spread_length]; omega
  unfold Cmds.zadd at h ⊢
  rw [if_neg l1] at h
  rw [if_neg l2]
  simp only [List.getElem?_cons_succ, List.getElem?_cons_zero, Option.bind_eq_bind, Option.bind_some, List.drop_succ_cons, List.drop_zero] at h ⊢
  cases hg : Db.getOrNew Obj.asZset (.zset Zset.new) e d k with
  | none => rw [hg] at h; cases h
  | some q =>
    obtain ⟨z, d1⟩ := q
    rw [hg] at h
    simp only [Option.bind_some] at h ⊢
    cases z with
    | none => cases h; exact ⟨_, rfl, rfl, rfl, error_isError _⟩
    | some z =>
      simp only [Option.bind_eq_some_iff] at h ⊢
      obtain ⟨⟨z', i', n', b⟩, h1, h2⟩ := h
      obtain ⟨rfl, h3⟩ := zaddLoop_cut hb ps _ _ _ hp h1
      cases h2
      exact ⟨_, ⟨_, h3, rfl⟩, rfl, rfl, error_isError _⟩

end Metis
