import Verif.Proofs.Local
import Verif.Spec.Lapse
/-!
Restarting from the log when keys have passed their deadline in the meantime (C88).
-/
set_option linter.unusedSectionVars false
set_option linter.unusedSimpArgs false
set_option linter.unusedVariables false
namespace Metis
open Spec
variable {hash : Bytes → Nat} {lower : Bytes → Bytes} {pf : Bytes → Option F64} {T : Int}

/-! ### Replaying records on the contents of one database -/

/-- One record. -/
def aexec (e : Env) (args : List Bytes) (s : AS) : Option AS :=
  (args[0]?).bind (fun a0 => (lookupCommand (e.lower a0)).bind (fun cmd => (aFn cmd.proc).bind (fun f => (f e args s).map AOut.s)))

def areplay : (Nat → Env) → List (List Bytes) → AS → Option AS
  | _, [], s => some s
  | es, r :: rs, s => (aexec (es 0) r s).bind (areplay (fun i => es (i + 1)) rs)

theorem aexec_of {e : Env} {args : List Bytes} {s : AS} {a0 : Bytes} {cmd : CmdEntry} {f} (h0 : args[0]? = some a0)
    (hl : lookupCommand (e.lower a0) = some cmd) (hf : aFn cmd.proc = some f) : aexec e args s = (f e args s).map AOut.s := by
  simp [aexec, h0, hl, hf]

theorem aexec_some {e : Env} {args : List Bytes} {s s' : AS} (h : aexec e args s = some s') :
    ∃ a0 cmd f a, args[0]? = some a0 ∧ lookupCommand (e.lower a0) = some cmd ∧ aFn cmd.proc = some f ∧ f e args s = some a ∧ a.s = s' := by
  simp only [aexec, Option.bind_eq_some_iff, Option.map_eq_some_iff] at h
  obtain ⟨a0, h0, cmd, h1, f, h2, a, h3, h4⟩ := h
  exact ⟨a0, cmd, f, a, h0, h1, h2, h3, h4⟩

theorem dbProc_of_aFn {c : Cmd} {f'} (h : aFn c = some f') : ∃ f, dbProc c = some f := by
  cases c <;> first | exact ⟨_, rfl⟩ | cases h

/-- What the records do to the contents, they do to the database. -/
theorem areplay_db : ∀ (rs : List (List Bytes)) (es : Nat → Env), (∀ i, (es i).hash = hash) → ∀ {srv : Server} {s : Session} {d : Db} {v : AS},
    srv.dbs[s.db]? = some d → d.Good hash → areplay es rs d.view = some v →
    ∃ srv' d', Aof.replay es rs srv s = some (srv', s) ∧ srv'.dbs = srv.dbs.set s.db d' ∧ d'.Good hash ∧ d'.view = v
  | [], es, hes, srv, s, d, v, hd, g, h => by
    cases h
    exact ⟨srv, d, rfl, by
      apply List.ext_getElem?
      intro i
      rw [List.getElem?_set]
      split
      · next h => subst h; rw [if_pos (lt_get hd), hd]
      · rfl, g, rfl⟩
  | r :: rs, es, hes, srv, s, d, v, hd, g, h => by
    simp only [areplay, Option.bind_eq_some_iff] at h
    obtain ⟨v1, h1, h2⟩ := h
    obtain ⟨a0, cmd, f', a, p0, p1, p2, p3, p4⟩ := aexec_some h1
    obtain ⟨f, hf⟩ := dbProc_of_aFn p2
    obtain ⟨o, k1, k2, k3⟩ := exec_db (hes 0) p0 p1 hf p2 hd g p3
    subst p4
    rw [← k3] at h2
    obtain ⟨srv', d', q1, q2, q3, q4⟩ := areplay_db rs (fun i => es (i + 1)) (fun i => hes _)
      (srv := { srv with dbs := srv.dbs.set s.db o.db, dirty := srv.dirty + o.dirty }) (s := s) (d := o.db)
      (by simp only [List.getElem?_set]; rw [if_pos trivial, if_pos (lt_get hd)]) k2 h2
    refine ⟨srv', d', ?_, by rw [q2]; simp, q3, q4⟩
    simp only [Aof.replay, k1, Option.bind_eq_bind, Option.bind_some]
    exact q1

/-- A record of one of the commands that act on one key, `k`. -/
def OnKey (k : Bytes) (e : Env) (r : List Bytes) : Prop :=
  r[1]? = some k ∧ ∃ a0 cmd, r[0]? = some a0 ∧ lookupCommand (e.lower a0) = some cmd ∧ loggable cmd.proc = true

theorem aexec_local {k : Bytes} {e : Env} {r : List Bytes} (h : OnKey k e r) {s s' u : AS} (hx : aexec e r s = some s') (hv : u.v k = s.v k)
    (ht : u.t k = s.t k) : aexec e r u = some (u.at k (s'.v k) (s'.t k)) := by
  obtain ⟨h1, a0, cmd, h2, h3, h4⟩ := h
  obtain ⟨a0', cmd', f, a, p0, p1, p2, p3, p4⟩ := aexec_some hx
  rw [h2] at p0; cases p0
  rw [h3] at p1; cases p1
  obtain ⟨_, a', q1, _, q2⟩ := (local_cmd p2 h4 h1).other p3 hv ht
  rw [aexec_of h2 h3 p2, q1, ← p4]
  simp [q2]

theorem at_at (u : AS) (k : Bytes) (a a' : Option AObj) (b b' : Option Int) : (u.at k a b).at k a' b' = u.at k a' b' := by
  unfold AS.at; simp only [upd_upd]

theorem areplay_local {k : Bytes} : ∀ (rs : List (List Bytes)) (es : Nat → Env), (∀ i r, rs[i]? = some r → OnKey k (es i) r) → ∀ {s s' u : AS},
    areplay es rs s = some s' → u.v k = s.v k → u.t k = s.t k → areplay es rs u = some (u.at k (s'.v k) (s'.t k))
  | [], es, _, s, s', u, h, hv, ht => by
    cases h
    simp only [areplay]
    rw [← hv, ← ht, at_self]
  | r :: rs, es, ho, s, s', u, h, hv, ht => by
    simp only [areplay, Option.bind_eq_some_iff] at h
    obtain ⟨s1, h1, h2⟩ := h
    have := aexec_local (ho 0 r rfl) h1 hv ht
    simp only [areplay, this, Option.bind_some]
    rw [areplay_local rs (fun i => es (i + 1)) (fun i r hr => ho (i + 1) r hr) h2 (at_v _ _ _ _) (at_t _ _ _ _), at_at]

/-- The records of a writing command, replayed on a copy of the contents (cf. `replay_entries`). -/
theorem areplay_entries {es : Nat → Env} (hes : ∀ i, World hash lower pf T (es i)) (hlow : LowerOk lower)
    {e : Env} (h0 : 0 ≤ e.now) (hT : e.now ≤ T) (hel : e.lower = lower) (hep : e.parseFloat = pf) (hlv : LevelsOk e.level)
    {args : List Bytes} {a0 : Bytes} (ha0 : args[0]? = some a0) {cmd : CmdEntry} (hl : lookupCommand (e.lower a0) = some cmd)
    (hok : Server.badArity args.length (arity cmd.proc) = false) (hp : Plain T e cmd.proc args) (hlog : loggable cmd.proc = true)
    {v v2 : AS} (hs : Sim T v v2) {f} (hf : aFn cmd.proc = some f) {a : AOut} (ha : f e args v = some a)
    (hdirty : a.dirty ≠ 0) {rs} (hrs : entries e.now cmd.proc args = some rs) :
    ∃ v2', areplay es rs v2 = some v2' ∧ Sim T a.s v2' := by
  have hlook : lookupCommand ((es 0).lower a0) = some cmd := by rw [(hes 0).lower, ← hel]; exact hl
  have at_lookup : ∀ i, lookupCommand ((es i).lower b!"expireat") = some ⟨b!"expireat", .expireat, 3⟩ := fun i => by
    rw [(hes i).lower]; exact lower_lookup hlow ⟨b!"expireat", .expireat, 3⟩ (by simp [commandTable])
  have set_lookup : ∀ i, lookupCommand ((es i).lower b!"set") = some ⟨b!"set", .set, -3⟩ := fun i => by
    rw [(hes i).lower]; exact lower_lookup hlow ⟨b!"set", .set, -3⟩ (by simp [commandTable])
  by_cases hr : repeats cmd.proc = true
  · have hrs' : rs = [args] := by
      unfold entries at hrs
      split at hrs
      · next h => rw [h] at hr; cases hr
      · next h => rw [h] at hr; cases hr
      · cases hrs; rfl
    subst hrs'
    have hnn : scoring cmd.proc = true → NoNaN e args := by
      intro hsc
      revert hp hsc hr
      generalize cmd.proc = c
      intro hp hr hsc
      cases c <;> first | (cases hsc; done) | (cases hr; done) | exact hp.2 | exact hp
    obtain ⟨a2, h2, hs2⟩ := sim_repeat hT (hes 0).now hs (by rw [hep, (hes 0).pf]) hlv (hes 0).lv hf hr hnn (fun hz => by rw [hz] at hp; exact hp) ha
    refine ⟨a2.s, ?_, hs2⟩
    simp only [areplay, aexec_of ha0 hlook hf, h2, Option.map_some, Option.bind_some]
  · have expireat : ∀ (i : Nat) (k : Bytes) (x d : Int) (v v2 : AS), Sim T v v2 →
        ∀ (w n : Bytes), lookupCommand ((es i).lower w) = some ⟨b!"expireat", .expireat, 3⟩ → atoi n = some x → wrap64 (x * 1000) = fl d → T ≤ fl d →
        ∃ v2', aexec (es i) [w, k, n] v2 = some v2' ∧ Sim T { v with t := upd v.t k (some d) } v2' := by
      intro i k x d v v2 hs w n hlook h1 h2 h3
      refine ⟨{ v2 with t := upd v2.t k (some (fl d)) }, ?_, hs.deadline k h3⟩
      rw [aexec_of (cmd := ⟨b!"expireat", .expireat, 3⟩) (f := A.expireAt) (by rfl) hlook rfl]
      simp only [A.expireAt, List.getElem?_cons_succ, List.getElem?_cons_zero, Option.bind_eq_bind, Option.bind_some, h1, Option.map_some, h2]
    have hcs : cmd.proc = .expire ∨ cmd.proc = .expireat ∨ cmd.proc = .setex := by
      revert hlog hr; cases cmd.proc <;> simp [loggable, repeats]
    rcases hcs with hc | hc | hc
    · rw [hc] at hrs hf hp hok
      obtain ⟨x, k, n, rfl⟩ := arity_three rfl hok
      cases hf
      simp only [A.expire, entries, List.getElem?_cons_succ, List.getElem?_cons_zero, Option.bind_eq_bind, Option.bind_some] at ha hrs
      cases hn : atoi n with
      | none => rw [hn] at ha; cases ha; exact absurd rfl hdirty
      | some m =>
        rw [hn] at ha hrs
        cases ha; cases hrs
        obtain ⟨p1, p2⟩ := hp n m rfl hn
        obtain ⟨q1, q2, q3, q4, q5⟩ := expire_times h0 hT p1 p2
        obtain ⟨v2', k1, k3⟩ := expireat 0 k _ _ v v2 hs _ _ (at_lookup 0) q4 (by rw [q5, q2]) (by rw [q2]; exact p1)
        refine ⟨v2', ?_, by simp only [q1]; exact k3⟩
        simp only [areplay, deadlineRec, q3, k1, Option.bind_some]
    · rw [hc] at hrs hf hp hok
      obtain ⟨x, k, n, rfl⟩ := arity_three rfl hok
      cases hf
      simp only [A.expireAt, entries, List.getElem?_cons_succ, List.getElem?_cons_zero, Option.bind_eq_bind, Option.bind_some] at ha hrs
      cases hn : atoi n with
      | none => rw [hn] at ha; cases ha; exact absurd rfl hdirty
      | some m =>
        rw [hn] at ha
        cases ha; cases hrs
        obtain ⟨p1, p2⟩ := hp n m rfl hn
        have e1 : wrap64 (m * 1000) = m * 1000 := wrap_id (by omega) p2
        have e2 : fl (m * 1000) = m * 1000 := by unfold fl; omega
        cases ha0
        refine ⟨{ v2 with t := upd v2.t k (some (fl (m * 1000))) }, ?_, by simp only [e1]; exact hs.deadline k (by rw [e2]; exact p1)⟩
        simp only [areplay]
        rw [aexec_of (f := A.expireAt) (by rfl) hlook (by rw [hc]; rfl)]
        simp only [A.expireAt, List.getElem?_cons_succ, List.getElem?_cons_zero, Option.bind_eq_bind, Option.bind_some, hn, Option.map_some, e1, e2]
    · rw [hc] at hrs hf hp hok
      obtain ⟨x, k, n, w, rfl⟩ := arity_four rfl hok
      cases hf
      simp only [A.setEx, entries, List.getElem?_cons_succ, List.getElem?_cons_zero, Option.bind_eq_bind, Option.bind_some] at ha hrs
      cases hn : atoi n with
      | none => rw [hn] at ha; cases ha; exact absurd rfl hdirty
      | some m =>
        rw [hn] at ha hrs
        cases ha; cases hrs
        obtain ⟨p1, p2⟩ := hp n m rfl hn
        obtain ⟨q1, q2, q3, q4, q5⟩ := expire_times h0 hT p1 p2
        obtain ⟨v2', j1, j3⟩ := expireat 1 k _ _ _ { v := upd v2.v k (some (.str w)), t := upd v2.t k none } (hs.str k w) _ _ (at_lookup 1) q4
          (by rw [q5, q2]) (by rw [q2]; exact p1)
        refine ⟨v2', ?_, ?_⟩
        · simp only [areplay]
          rw [aexec_of (cmd := ⟨b!"set", .set, -3⟩) (f := A.set) (by rfl) (set_lookup 0) rfl]
          simp only [A.set, List.getElem?_cons_succ, List.getElem?_cons_zero, Option.bind_eq_bind, Option.bind_some, Option.map_some, deadlineRec, q3, j1]
        · simp only [q1]
          simp only at j3
          have : upd (upd v.t k none) k (some (e.now + m * 1000)) = upd v.t k (some (e.now + m * 1000)) := by
            funext y; simp only [upd]; split <;> rfl
          rw [this] at j3
          exact j3

/-! ### The relation -/

/-- What stands under a key whose deadline lies in the future, and its copy. -/
def Intact (T : Int) (v : Option AObj) (t : Option Int) (v2 : Option AObj) (t2 : Option Int) : Prop :=
  VSame v v2 ∧ t2 = t.map fl ∧ ∀ d, t = some d → T ≤ fl d

/-- Not there at time `T`. -/
def Dead (T : Int) (v : Option AObj) (t : Option Int) : Prop := (v = none ∧ t = none) ∨ ∃ d, t = some d ∧ d < T

/-- What stands under a key and its copy. -/
def TwinV (v : Option AObj) (t : Option Int) (v2 : Option AObj) (t2 : Option Int) : Prop := VSame v v2 ∧ t2 = t.map fl

/-- What stands under a key with any deadline, at time `now`, and its copy at time `T`. -/
def Brief (T now : Int) (v : Option AObj) (t : Option Int) (v2 : Option AObj) (t2 : Option Int) : Prop :=
  TwinV v t v2 t2 ∨ (Dead now v t ∧ Dead T v2 t2)

structure Lapsed (B : Bytes → Prop) (T now : Int) (s s2 : AS) : Prop where
  intact : ∀ k, ¬ B k → Intact T (s.v k) (s.t k) (s2.v k) (s2.t k)
  brief : ∀ k, B k → Brief T now (s.v k) (s.t k) (s2.v k) (s2.t k)

theorem Intact.twinV {v t v2 t2} (h : Intact T v t v2 t2) : TwinV v t v2 t2 := ⟨h.1, h.2.1⟩

theorem Lapsed.mono {B B' : Bytes → Prop} {now : Int} {s s2 : AS} (h : Lapsed B T now s s2) (hB : ∀ k, B k → B' k) : Lapsed B' T now s s2 := by
  refine ⟨fun k hk => h.intact k (fun hb => hk (hB k hb)), fun k hk => ?_⟩
  by_cases hb : B k
  · exact h.brief k hb
  · exact Or.inl (h.intact k hb).twinV

theorem Dead.later {now now' : Int} {v t} (h : Dead now v t) (hn : now ≤ now') : Dead now' v t := by
  rcases h with h | ⟨d, h1, h2⟩
  · exact Or.inl h
  · exact Or.inr ⟨d, h1, by omega⟩

theorem Lapsed.later {B : Bytes → Prop} {now now' : Int} {s s2 : AS} (h : Lapsed B T now s s2) (hn : now ≤ now') : Lapsed B T now' s s2 := by
  refine ⟨h.intact, fun k hk => ?_⟩
  rcases h.brief k hk with h | ⟨h1, h2⟩
  · exact Or.inl h
  · exact Or.inr ⟨h1.later hn, h2⟩

/-- Dropping keys past their deadline keeps the relation. -/
theorem Lapsed.swept {B : Bytes → Prop} {e : Env} {s s' s2 : AS} (h : Lapsed B T e.now s s2) (hT : e.now ≤ T) (hs : Swept e s s') :
    Lapsed B T e.now s' s2 := by
  refine ⟨fun k hk => ?_, fun k hk => ?_⟩
  · obtain ⟨h1, h2, h3⟩ := h.intact k hk
    rcases hs k with ⟨q1, q2⟩ | ⟨q, _⟩
    · rw [q1, q2]; exact ⟨h1, h2, h3⟩
    · exfalso
      unfold A.expired at q
      cases hd : s.t k with
      | none => rw [hd] at q; cases q
      | some d => rw [hd] at q; have := h3 d hd; have := fl_le d; simp at q; omega
  · rcases hs k with ⟨q1, q2⟩ | ⟨q, q1, q2⟩
    · rw [q1, q2]; exact h.brief k hk
    · rw [q1, q2]
      refine Or.inr ⟨Or.inl ⟨rfl, rfl⟩, ?_⟩
      unfold A.expired at q
      cases hd : s.t k with
      | none => rw [hd] at q; cases q
      | some d =>
        rw [hd] at q
        have hlt : d < e.now := by simpa using q
        rcases h.brief k hk with ⟨_, h2⟩ | ⟨_, h2⟩
        · rw [hd] at h2
          exact Or.inr ⟨fl d, h2, by have := fl_le d; omega⟩
        · exact h2

theorem Intact.single {v t v2 t2} (h : Intact T v t v2 t2) (k : Bytes) : Sim T (AS.empty.at k v t) (AS.empty.at k v2 t2) := by
  obtain ⟨h1, h2, h3⟩ := h
  refine ⟨fun x => ?_, fun x => ?_, fun x d hd => ?_⟩
  · simp only [AS.at, upd]; split
    · exact h1
    · trivial
  · simp only [AS.at, upd]; split
    · exact h2
    · rfl
  · simp only [AS.at, upd] at hd
    split at hd
    · exact h3 d hd
    · cases hd

theorem at_apart {u : AS} {k x : Bytes} {v t} (h : x ≠ k) : (u.at k v t).v x = u.v x ∧ (u.at k v t).t x = u.t x := by
  simp [AS.at, upd, Ne.symm h, h]

/-- The deadline of EXPIRE and the one logged for it, wherever it lies. -/
theorem expire_times' {now n : Int} (h0 : 0 ≤ now) (h1 : -2 ^ 63 ≤ n * 1000) (h2 : now + n * 1000 < 2 ^ 63) :
    wrap64 (now + wrap64 (n * 1000)) = now + n * 1000 ∧ fl (now + n * 1000) = (now / 1000 + n) * 1000 ∧
      wrap64 (now / 1000 + n) = now / 1000 + n ∧ atoi (itoa (now / 1000 + n)) = some (now / 1000 + n) ∧
      wrap64 ((now / 1000 + n) * 1000) = (now / 1000 + n) * 1000 := by
  refine ⟨?_, ?_, ?_, ?_, ?_⟩
  · rw [wrap_id (n := n * 1000) (by omega) (by omega), wrap_id (by omega) (by omega)]
  · unfold fl; omega
  · exact wrap_id (by omega) (by omega)
  · exact atoi_itoa (by omega) (by omega)
  · exact wrap_id (by omega) (by omega)

/-- Changing one cell in both: afterwards they are twins. -/
theorem Lapsed.at {B B' : Bytes → Prop} {now : Int} {s s2 : AS} (h : Lapsed B T now s s2) (hB : ∀ x, B x → B' x) {k : Bytes} {v t v2 t2}
    (hw : TwinV v t v2 t2) (hl : ¬ B' k → ∀ d, t = some d → T ≤ fl d) : Lapsed B' T now (s.at k v t) (s2.at k v2 t2) := by
  have h := h.mono hB
  refine ⟨fun x hx => ?_, fun x hx => ?_⟩
  all_goals
    by_cases hk : x = k
    · subst hk
      rw [at_v, at_t, at_v, at_t]
      first | exact ⟨hw.1, hw.2, hl hx⟩ | exact Or.inl hw
    · rw [(at_apart hk).1, (at_apart hk).2, (at_apart hk).1, (at_apart hk).2]
      first | exact h.intact x hx | exact h.brief x hx

/-- The commands that add to a value. -/
def adds : Cmd → Bool
  | .hset | .sadd | .lpush | .rpush | .zadd => true
  | _ => false

theorem orNew_t {β : Type} (as : AObj → Option β) (o : AObj) (s : AS) (t : Bytes → Option Int) (k : Bytes) :
    A.orNew as o { s with t := t } k = ((A.orNew as o s k).1, { (A.orNew as o s k).2 with t := t }) ∧ (A.orNew as o s k).2.t = s.t := by
  unfold A.orNew
  simp only
  cases s.v k <;> exact ⟨rfl, rfl⟩

/-- They do not look at deadlines. -/
theorem blind_adds {c : Cmd} {f} (hf : aFn c = some f) (hc : adds c = true) {e : Env} {args : List Bytes} {s : AS} {a : AOut} (ha : f e args s = some a)
    (t : Bytes → Option Int) : f e args { s with t := t } = some { a with s := { a.s with t := t } } ∧ a.s.t = s.t := by
  cases c <;> first | (cases hc; done) | cases hf
  · unfold A.hset at ha ⊢
    split at ha
    · next h => cases ha; rw [if_pos h]; exact ⟨rfl, rfl⟩
    · next h =>
      rw [if_neg h]
      simp only [Option.bind_eq_bind, Option.bind_eq_some_iff] at ha ⊢
      obtain ⟨k, hk, ha⟩ := ha
      obtain ⟨o1, o2⟩ := orNew_t AObj.asHash (.hash nil) s t k
      rw [hk]
      simp only [Option.some.injEq, exists_eq_left', o1]
      revert ha
      cases (A.orNew AObj.asHash (.hash nil) s k).1 with
      | none => intro ha; cases ha; exact ⟨rfl, o2⟩
      | some x => intro ha; cases ha; exact ⟨rfl, o2⟩
  · unfold A.lpush at ha ⊢
    simp only [Option.bind_eq_bind, Option.bind_eq_some_iff] at ha ⊢
    obtain ⟨k, hk, ha⟩ := ha
    obtain ⟨o1, o2⟩ := orNew_t AObj.asList (.list Quicklist.new) s t k
    rw [hk]
    simp only [Option.some.injEq, exists_eq_left', o1]
    revert ha
    cases (A.orNew AObj.asList (.list Quicklist.new) s k).1 with
    | none => intro ha; cases ha; exact ⟨rfl, o2⟩
    | some x =>
      intro ha
      simp only [Option.bind_eq_some_iff] at ha ⊢
      obtain ⟨q, hq, ha⟩ := ha
      cases ha
      exact ⟨⟨q, hq, rfl⟩, o2⟩
  · unfold A.rpush at ha ⊢
    simp only [Option.bind_eq_bind, Option.bind_eq_some_iff] at ha ⊢
    obtain ⟨k, hk, ha⟩ := ha
    obtain ⟨o1, o2⟩ := orNew_t AObj.asList (.list Quicklist.new) s t k
    rw [hk]
    simp only [Option.some.injEq, exists_eq_left', o1]
    revert ha
    cases (A.orNew AObj.asList (.list Quicklist.new) s k).1 with
    | none => intro ha; cases ha; exact ⟨rfl, o2⟩
    | some x => intro ha; cases ha; exact ⟨rfl, o2⟩
  · unfold A.sadd at ha ⊢
    simp only [Option.bind_eq_bind, Option.bind_eq_some_iff] at ha ⊢
    obtain ⟨k, hk, ha⟩ := ha
    obtain ⟨o1, o2⟩ := orNew_t AObj.asSet (.set nil) s t k
    rw [hk]
    simp only [Option.some.injEq, exists_eq_left', o1]
    revert ha
    cases (A.orNew AObj.asSet (.set nil) s k).1 with
    | none => intro ha; cases ha; exact ⟨rfl, o2⟩
    | some x => intro ha; cases ha; exact ⟨rfl, o2⟩
  · unfold A.zadd at ha ⊢
    split at ha
    · next h => cases ha; rw [if_pos h]; exact ⟨rfl, rfl⟩
    · next h =>
      rw [if_neg h]
      simp only [Option.bind_eq_bind, Option.bind_eq_some_iff] at ha ⊢
      obtain ⟨k, hk, ha⟩ := ha
      obtain ⟨o1, o2⟩ := orNew_t AObj.asZset (.zset A.zNew) s t k
      rw [hk]
      simp only [Option.some.injEq, exists_eq_left', o1]
      revert ha
      cases (A.orNew AObj.asZset (.zset A.zNew) s k).1 with
      | none => intro ha; cases ha; exact ⟨rfl, o2⟩
      | some x =>
        intro ha
        simp only [Option.bind_eq_some_iff] at ha ⊢
        obtain ⟨⟨z, n, c, bad⟩, hq, ha⟩ := ha
        cases bad with
        | none => cases ha; exact ⟨⟨_, hq, rfl⟩, o2⟩
        | some sc => cases ha; exact ⟨⟨_, hq, rfl⟩, o2⟩

theorem dead_look {β : Type} {e : Env} {s : AS} {k : Bytes} (h : Dead e.now (s.v k) (s.t k)) (as : AObj → Option β) : A.look as (A.exp e s k) k = .missing := by
  unfold A.look A.exp A.expired
  rcases h with ⟨h1, h2⟩ | ⟨d, h1, h2⟩
  · simp [h1, h2]
  · simp [h1, h2, upd]

/-- Nothing can be taken from a key that is not there. -/
theorem takes_alive {c : Cmd} {f} (hf : aFn c = some f) (hc : removes c = true) {e : Env} {args : List Bytes} {k : Bytes} (hk : args[1]? = some k)
    {s : AS} {a : AOut} (ha : f e args s = some a) (hd : a.dirty ≠ 0) : ¬ Dead e.now (s.v k) (s.t k) := by
  intro hdead
  cases c <;> first | (cases hc; done) | cases hf
  · simp [A.hdel, hk, dead_look hdead] at ha; subst ha; exact hd rfl
  · simp [A.lpop, A.popCmd, hk, dead_look hdead] at ha; subst ha; exact hd rfl
  · simp [A.rpop, A.popCmd, hk, dead_look hdead] at ha; subst ha; exact hd rfl
  · simp [A.srem, hk, dead_look hdead] at ha; subst ha; exact hd rfl
  · simp [A.zrem, hk, dead_look hdead] at ha; subst ha; exact hd rfl
  all_goals
    simp only [A.zremRangeByScore, A.zremRangeByRank, hk, Option.bind_eq_bind, Option.bind_some, Option.bind_eq_some_iff] at ha
    obtain ⟨x, _, ha⟩ := ha
    split at ha
    · cases ha; exact hd rfl
    · simp only [Option.bind_eq_some_iff] at ha
      obtain ⟨y, _, ha⟩ := ha
      split at ha
      · cases ha; exact hd rfl
      · rw [dead_look hdead] at ha; cases ha; exact hd rfl

theorem plain_of {T : Int} {e : Env} {c : Cmd} {args : List Bytes} (h : Certain e c args) (hc : adds c = true ∨ removes c = true) : Plain T e c args := by
  revert h
  cases c <;> intro h <;> first | (rcases hc with hc | hc <;> cases hc; done) | exact h

theorem heedless_cases {c : Cmd} (h : loggable c = true) : c = .set ∨ c = .setex ∨ c = .expire ∨ c = .expireat ∨ adds c = true ∨ removes c = true := by
  cases c <;> first | (cases h; done) | simp [adds, removes]

/-- One writing command on a key. -/
theorem twin_entries {es : Nat → Env} (hes : ∀ i, World hash lower pf T (es i)) (hlow : LowerOk lower)
    {e : Env} (h0 : 0 ≤ e.now) (hT : e.now ≤ T) (hel : e.lower = lower) (hep : e.parseFloat = pf) (hlv : LevelsOk e.level)
    {args : List Bytes} {a0 : Bytes} (ha0 : args[0]? = some a0) {cmd : CmdEntry} (hl : lookupCommand (e.lower a0) = some cmd)
    (hok : Server.badArity args.length (arity cmd.proc) = false) (hcert : Certain e cmd.proc args) {k : Bytes} (hk : args[1]? = some k)
    {v v2 : AS} (h1 : heedless cmd.proc = true → TwinV (v.v k) (v.t k) (v2.v k) (v2.t k)) (h2 : removes cmd.proc = true → Intact T (v.v k) (v.t k) (v2.v k) (v2.t k))
    (hlog : loggable cmd.proc = true) {f} (hf : aFn cmd.proc = some f) {a : AOut} (ha : f e args v = some a)
    (hdirty : a.dirty ≠ 0) {rs} (hrs : entries e.now cmd.proc args = some rs) :
    ∃ x t x2 t2, a.s = v.at k x t ∧ areplay es rs v2 = some (v2.at k x2 t2) ∧ TwinV x t x2 t2 := by
  have hlook : ∀ i, lookupCommand ((es i).lower a0) = some cmd := fun i => by rw [(hes i).lower, ← hel]; exact hl
  have at_lookup : ∀ i, lookupCommand ((es i).lower b!"expireat") = some ⟨b!"expireat", .expireat, 3⟩ := fun i => by
    rw [(hes i).lower]; exact lower_lookup hlow ⟨b!"expireat", .expireat, 3⟩ (by simp [commandTable])
  have set_lookup : ∀ i, lookupCommand ((es i).lower b!"set") = some ⟨b!"set", .set, -3⟩ := fun i => by
    rw [(hes i).lower]; exact lower_lookup hlow ⟨b!"set", .set, -3⟩ (by simp [commandTable])
  have upd_t : ∀ (u : AS) (d : Option Int), (⟨u.v, upd u.t k d⟩ : AS) = u.at k (u.v k) d := fun u d => by
    unfold AS.at; rw [upd_self]
  -- commands that are logged as they are, from the key alone
  have alone : ∀ t t2, repeats cmd.proc = true → Plain T e cmd.proc args → Intact T (v.v k) t (v2.v k) t2 → ∀ {a' : AOut},
      f e args (v.at k (v.v k) t) = some a' → a'.dirty ≠ 0 →
      ∃ a2, f (es 0) args (v2.at k (v2.v k) t2) = some a2 ∧ TwinV (a'.s.v k) (a'.s.t k) (a2.s.v k) (a2.s.t k) := by
    intro t t2 hrep hp hin a' ha' hd'
    have hloc := local_cmd (e := e) (args := args) hf hlog hk
    obtain ⟨r1, b, r2, r3, r4⟩ := hloc.other (s' := AS.empty.at k (v.v k) t) ha' (by rw [at_v, at_v]) (by rw [at_t, at_t])
    have hnn : scoring cmd.proc = true → NoNaN e args := by
      intro hsc
      revert hp hsc hrep
      generalize cmd.proc = c
      intro hr hp hsc
      cases c <;> first | (cases hsc; done) | (cases hr; done) | exact hp.2 | exact hp
    obtain ⟨b2, p1, p2⟩ := sim_repeat hT (hes 0).now (hin.single k) (by rw [hep, (hes 0).pf]) hlv (hes 0).lv hf hrep hnn (fun hz => by rw [hz] at hp; exact hp) r2
    have hloc2 := local_cmd (e := es 0) (args := args) hf hlog hk
    obtain ⟨s1, b3, s2, s3, s4⟩ := hloc2.other (s' := v2.at k (v2.v k) t2) p1 (by rw [at_v, at_v]) (by rw [at_t, at_t])
    refine ⟨b3, s2, ?_⟩
    have hv := p2.v k
    have ht := p2.t k
    rw [s4, at_v, at_t]
    rw [r4, at_v] at hv
    rw [r4, at_t] at ht
    exact ⟨hv, ht⟩
  have whole : ∀ {u : AS} {b : AOut}, ∀ e', f e' args u = some b → b.s = u.at k (b.s.v k) (b.s.t k) := by
    intro u b e' hb
    exact ((local_cmd (e := e') (args := args) hf hlog hk).other (s' := u) hb rfl rfl).1
  rcases heedless_cases hlog with hc | hc | hc | hc | hc | hc
  · -- SET
    rw [hc] at hrs hf
    cases hf
    cases hrs
    simp only [A.set, hk, Option.bind_eq_bind, Option.bind_some, Option.bind_eq_some_iff] at ha
    obtain ⟨w, hw, ha⟩ := ha
    cases ha
    refine ⟨some (.str w), none, some (.str w), none, rfl, ?_, OSame.str _, rfl⟩
    simp only [areplay]
    rw [aexec_of (f := A.set) ha0 (hlook 0) (by rw [hc]; rfl)]
    simp only [A.set, hk, hw, Option.bind_eq_bind, Option.bind_some, Option.map_some]
    rfl
  · -- SETEX
    rw [hc] at hrs hf hcert hok
    obtain ⟨x, k', n, w, rfl⟩ := arity_four rfl hok
    cases hf; cases hk
    simp only [A.setEx, entries, List.getElem?_cons_succ, List.getElem?_cons_zero, Option.bind_eq_bind, Option.bind_some] at ha hrs
    cases hn : atoi n with
    | none => rw [hn] at ha; cases ha; exact absurd rfl hdirty
    | some m =>
      rw [hn] at ha hrs
      cases ha; cases hrs
      obtain ⟨p1, p2⟩ := hcert n m rfl hn
      obtain ⟨q1, q2, q3, q4, q5⟩ := expire_times' h0 p1 p2
      refine ⟨some (.str w), some (wrap64 (e.now + wrap64 (m * 1000))), some (.str w), some ((e.now / 1000 + m) * 1000), rfl, ?_, OSame.str _, ?_⟩
      · simp only [areplay]
        rw [aexec_of (cmd := ⟨b!"set", .set, -3⟩) (f := A.set) (by rfl) (set_lookup 0) rfl]
        simp only [A.set, List.getElem?_cons_succ, List.getElem?_cons_zero, Option.bind_eq_bind, Option.bind_some, Option.map_some, deadlineRec, q3]
        rw [aexec_of (cmd := ⟨b!"expireat", .expireat, 3⟩) (f := A.expireAt) (by rfl) (at_lookup 1) rfl]
        simp only [A.expireAt, List.getElem?_cons_succ, List.getElem?_cons_zero, Option.bind_eq_bind, Option.bind_some, q4, Option.map_some, q5,
          upd_upd]
        rfl
      · rw [q1]; simp only [Option.map_some, q2]
  · -- EXPIRE
    have hv2 := (h1 (by rw [hc]; rfl)).1
    rw [hc] at hrs hf hcert hok
    obtain ⟨x, k', n, rfl⟩ := arity_three rfl hok
    cases hf; cases hk
    simp only [A.expire, entries, List.getElem?_cons_succ, List.getElem?_cons_zero, Option.bind_eq_bind, Option.bind_some] at ha hrs
    cases hn : atoi n with
    | none => rw [hn] at ha; cases ha; exact absurd rfl hdirty
    | some m =>
      rw [hn] at ha hrs
      cases ha; cases hrs
      obtain ⟨p1, p2⟩ := hcert n m rfl hn
      obtain ⟨q1, q2, q3, q4, q5⟩ := expire_times' h0 p1 p2
      refine ⟨_, _, v2.v k, some ((e.now / 1000 + m) * 1000), upd_t _ _, ?_, hv2, ?_⟩
      · simp only [areplay, deadlineRec, q3]
        rw [aexec_of (cmd := ⟨b!"expireat", .expireat, 3⟩) (f := A.expireAt) (by rfl) (at_lookup 0) rfl]
        simp only [A.expireAt, List.getElem?_cons_succ, List.getElem?_cons_zero, Option.bind_eq_bind, Option.bind_some, q4, Option.map_some, q5, upd_t]
      · rw [q1]; simp only [Option.map_some, q2]
  · -- EXPIREAT
    have hv2 := (h1 (by rw [hc]; rfl)).1
    rw [hc] at hrs hf hcert hok
    obtain ⟨x, k', n, rfl⟩ := arity_three rfl hok
    cases hf; cases hk
    simp only [A.expireAt, entries, List.getElem?_cons_succ, List.getElem?_cons_zero, Option.bind_eq_bind, Option.bind_some] at ha hrs
    cases hn : atoi n with
    | none => rw [hn] at ha; cases ha; exact absurd rfl hdirty
    | some m =>
      rw [hn] at ha
      cases ha; cases hrs
      obtain ⟨p1, p2⟩ := hcert n m rfl hn
      have e1 : wrap64 (m * 1000) = m * 1000 := wrap_id p1 p2
      have e2 : fl (m * 1000) = m * 1000 := by unfold fl; omega
      cases ha0
      refine ⟨_, _, v2.v k, some (m * 1000), upd_t _ _, ?_, hv2, ?_⟩
      · simp only [areplay]
        rw [aexec_of (f := A.expireAt) (by rfl) (hlook 0) (by rw [hc]; rfl)]
        simp only [A.expireAt, List.getElem?_cons_succ, List.getElem?_cons_zero, Option.bind_eq_bind, Option.bind_some, hn, Option.map_some, e1, upd_t]
      · rw [e1]; simp only [Option.map_some, e2]
  · -- adding
    have hrep : repeats cmd.proc = true := by revert hc; cases cmd.proc <;> simp [adds, repeats]
    have hh : heedless cmd.proc = true := by revert hc; cases cmd.proc <;> simp [adds, heedless]
    have htw := h1 hh
    have hrs' : rs = [args] := by
      unfold entries at hrs
      split at hrs
      · next h => rw [h] at hrep; cases hrep
      · next h => rw [h] at hrep; cases hrep
      · cases hrs; rfl
    subst hrs'
    obtain ⟨b1, b2⟩ := blind_adds hf hc ha (upd v.t k none)
    have hvat : ({ v with t := upd v.t k none } : AS) = v.at k (v.v k) none := upd_t v none
    rw [hvat] at b1
    obtain ⟨a2, c1, c2⟩ := alone none none hrep (plain_of hcert (Or.inl hc)) ⟨htw.1, rfl, fun d hd => by cases hd⟩ b1 hdirty
    obtain ⟨d1, d2⟩ := blind_adds hf hc c1 v2.t
    have hv2at : ({ v2.at k (v2.v k) none with t := v2.t } : AS) = v2 := by unfold AS.at; rw [upd_self]
    rw [hv2at] at d1
    have w1 := whole e ha
    have w2 := whole (es 0) d1
    refine ⟨_, _, a2.s.v k, v2.t k, w1, ?_, ?_⟩
    · simp only [areplay, aexec_of ha0 (hlook 0) hf, d1, Option.map_some, Option.bind_some]
      exact congrArg some w2
    · refine ⟨c2.1, ?_⟩
      rw [b2]
      exact htw.2
  · -- removing
    have hrep : repeats cmd.proc = true := by revert hc; cases cmd.proc <;> simp [removes, repeats]
    have hrs' : rs = [args] := by
      unfold entries at hrs
      split at hrs
      · next h => rw [h] at hrep; cases hrep
      · next h => rw [h] at hrep; cases hrep
      · cases hrs; rfl
    subst hrs'
    have hself : v.at k (v.v k) (v.t k) = v := at_self _ _
    have hself2 : v2.at k (v2.v k) (v2.t k) = v2 := at_self _ _
    obtain ⟨a2, c1, c2⟩ := alone _ _ hrep (plain_of hcert (Or.inr hc)) (h2 hc) (by rw [hself]; exact ha) hdirty
    rw [hself2] at c1
    refine ⟨_, _, _, _, whole e ha, ?_, c2⟩
    simp only [areplay, aexec_of ha0 (hlook 0) hf, c1, Option.map_some, Option.bind_some]
    rw [← whole (es 0) c1]

/-- … in terms of the relation. -/
theorem lapsed_entries {D D' : Bytes → Prop} {es : Nat → Env} (hes : ∀ i, World hash lower pf T (es i)) (hlow : LowerOk lower)
    {e : Env} (h0 : 0 ≤ e.now) (hT : e.now ≤ T) (hel : e.lower = lower) (hep : e.parseFloat = pf) (hlv : LevelsOk e.level)
    {args : List Bytes} {a0 : Bytes} (ha0 : args[0]? = some a0) {cmd : CmdEntry} (hl : lookupCommand (e.lower a0) = some cmd)
    (hok : Server.badArity args.length (arity cmd.proc) = false) (hcert : Certain e cmd.proc args) {k : Bytes} (hk : args[1]? = some k)
    {v v2 : AS} (hs : Lapsed D T e.now v v2) (h1 : heedless cmd.proc = true → D k → ¬ Dead e.now (v.v k) (v.t k))
    (h2 : removes cmd.proc = true → ∀ d, v.t k = some d → e.now ≤ d → T ≤ fl d)
    (hlog : loggable cmd.proc = true) {f} (hf : aFn cmd.proc = some f) {a : AOut} (ha : f e args v = some a)
    (hdirty : a.dirty ≠ 0) {rs} (hrs : entries e.now cmd.proc args = some rs)
    (hD : ∀ x, D x → D' x) (hD' : ∀ x, ¬ D' x → ∀ d, a.s.t x = some d → T ≤ fl d) :
    ∃ v2', areplay es rs v2 = some v2' ∧ Lapsed D' T e.now a.s v2' := by
  have twin : ¬ Dead e.now (v.v k) (v.t k) → TwinV (v.v k) (v.t k) (v2.v k) (v2.t k) := by
    intro hd
    by_cases hk : D k
    · rcases hs.brief k hk with h | h
      · exact h
      · exact absurd h.1 hd
    · exact (hs.intact k hk).twinV
  obtain ⟨x, t, x2, t2, q1, q2, q3⟩ := twin_entries hes hlow h0 hT hel hep hlv ha0 hl hok hcert hk (v := v) (v2 := v2)
    (fun hh => by
      by_cases hk : D k
      · exact twin (h1 hh hk)
      · exact (hs.intact k hk).twinV)
    (fun hr => by
      have hal := takes_alive hf hr hk ha hdirty
      refine ⟨(twin hal).1, (twin hal).2, fun d hd => h2 hr d hd ?_⟩
      by_contra hlt
      exact hal (Or.inr ⟨d, hd, by omega⟩))
    hlog hf ha hdirty hrs
  refine ⟨_, q2, ?_⟩
  have hlast := hD' k
  rw [q1, at_t] at hlast
  rw [q1]
  exact hs.at hD q3 hlast

/-! ### The invariant -/

/-- The databases `b` are related to the databases `a`. -/
structure CopyR (hash : Bytes → Nat) (R : Nat → AS → AS → Prop) (a b : List Db) : Prop where
  len  : b.length = a.length
  good : ∀ (i : Nat) (d : Db), b[i]? = some d → d.Good hash
  sim  : ∀ (i : Nat) (d d2 : Db), a[i]? = some d → b[i]? = some d2 → R i d.view d2.view

section
variable {R : Nat → AS → AS → Prop}

theorem CopyR.get {a b : List Db} (h : CopyR hash R a b) {i : Nat} {d : Db} (hd : a[i]? = some d) :
    ∃ d2, b[i]? = some d2 ∧ d2.Good hash ∧ R i d.view d2.view := by
  obtain ⟨d2, h2⟩ := get_lt (l := b) (i := i) (by rw [h.len]; exact lt_get hd)
  exact ⟨d2, h2, h.good i d2 h2, h.sim i d d2 hd h2⟩

theorem CopyR.set {a b : List Db} (h : CopyR hash R a b) (i : Nat) {d d2 : Db} (g : d2.Good hash) (hs : R i d.view d2.view) :
    CopyR hash R (a.set i d) (b.set i d2) := by
  refine ⟨by simp [h.len], fun j x hx => ?_, fun j x y hx hy => ?_⟩
  · rw [List.getElem?_set] at hx
    split at hx
    · split at hx
      · cases hx; exact g
      · cases hx
    · exact h.good j x hx
  · rw [List.getElem?_set] at hx hy
    split at hx
    · next hij =>
      rw [if_pos hij] at hy
      split at hx
      · next h1 =>
        rw [if_pos (by rw [h.len]; exact h1)] at hy
        cases hx; cases hy; subst hij; exact hs
      · cases hx
    · next hij =>
      rw [if_neg hij] at hy
      exact h.sim j x y hx hy

theorem CopyR.map {R' : Nat → AS → AS → Prop} {a a' b : List Db} (h : CopyR hash R a b) (hl : a'.length = a.length)
    (hv : ∀ (i : Nat) (d d' : Db) (w : AS), a[i]? = some d → a'[i]? = some d' → R i d.view w → R' i d'.view w) : CopyR hash R' a' b := by
  refine ⟨by rw [hl]; exact h.len, h.good, fun i d' d2 h1 h2 => ?_⟩
  obtain ⟨d, hd⟩ := get_lt (l := a) (i := i) (by rw [← hl]; exact lt_get h1)
  exact hv i d d' _ hd h1 (h.sim i d d2 hd h2)

end

theorem writes_arity {c : Cmd} (h : writes c = true) : 2 ≤ arity c ∨ arity c ≤ -2 := by
  cases c <;> first | (cases h; done) | (exact Or.inl (by decide)) | exact Or.inr (by decide)

/-- The log, replayed at any time up to `T`, gives the databases as they are at time `now`, apart from keys past their deadline. -/
def LInv (hash : Bytes → Nat) (lower : Bytes → Bytes) (pf : Bytes → Option F64) (T : Int) (n : Nat) (pw : Bytes) (B : Nat → Bytes → Prop) (now : Int)
    (srv : Server) : Prop :=
  ∃ recs, srv.aofBuf = log recs ∧ (∀ r ∈ recs, r ≠ []) ∧ ∀ es : Nat → Env, (∀ i, World hash lower pf T (es i)) →
    ∃ srv2 s2, Aof.replay es recs (Server.init n pw true) Session.new = some (srv2, s2) ∧ s2.db = srv.aofSelect ∧
      CopyR hash (fun i => Lapsed (B i) T now) srv.dbs srv2.dbs

section
variable {n : Nat} {pw : Bytes} {B : Nat → Bytes → Prop} {now : Int}

theorem LInv.same {B' : Nat → Bytes → Prop} {srv srv' : Server} {now' : Int} (h : LInv hash lower pf T n pw B now srv) (h1 : srv'.aofBuf = srv.aofBuf)
    (h2 : srv'.aofSelect = srv.aofSelect) (hl : srv'.dbs.length = srv.dbs.length)
    (hv : ∀ (i : Nat) (d d' : Db) (w : AS), srv.dbs[i]? = some d → srv'.dbs[i]? = some d' → Lapsed (B i) T now d.view w →
      Lapsed (B' i) T now' d'.view w) : LInv hash lower pf T n pw B' now' srv' := by
  obtain ⟨recs, k1, k2, k3⟩ := h
  refine ⟨recs, by rw [h1, k1], k2, fun es hes => ?_⟩
  obtain ⟨srv2, s2, q1, q2, q3⟩ := k3 es hes
  exact ⟨srv2, s2, q1, by rw [h2, q2], q3.map hl hv⟩

theorem LInv.later {srv : Server} {now' : Int} (h : LInv hash lower pf T n pw B now srv) (hn : now ≤ now') : LInv hash lower pf T n pw B now' srv :=
  h.same rfl rfl rfl (fun i d d' w h1 h2 h3 => by rw [h1] at h2; cases h2; exact h3.later hn)

theorem LInv.mono {B' : Nat → Bytes → Prop} {srv : Server} (h : LInv hash lower pf T n pw B now srv) (hB : ∀ i k, B i k → B' i k) :
    LInv hash lower pf T n pw B' now srv :=
  h.same rfl rfl rfl (fun i d d' w h1 h2 h3 => by rw [h1] at h2; cases h2; exact h3.mono (hB i))

theorem linv_served {B' : Nat → Bytes → Prop} {srv : Server} {c : Session} {e : Env} {args : List Bytes} {srv' c' r} (hlow : LowerOk lower)
    (hn : srv.dbs.length < 2 ^ 63) (haof : srv.aofEnable = true) (g : SrvGood hash srv) (he : e.hash = hash) (h0 : 0 ≤ e.now) (hT : e.now ≤ T)
    (hel : e.lower = lower) (hep : e.parseFloat = pf) (hlv : LevelsOk e.level) (hcert : ∀ cmd, commandOf e args = some cmd → Certain e cmd args)
    (hb : ∀ cmd, commandOf e args = some cmd → ∀ k, args[1]? = some k → ∀ d, srv.dbs[c.db]? = some d →
      (heedless cmd = true → B c.db k → ¬ Dead e.now (d.view.v k) (d.view.t k)) ∧
      (removes cmd = true → ∀ x, d.view.t k = some x → e.now ≤ x → T ≤ fl x))
    (hD : ∀ i k, B i k → B' i k) (hD' : ∀ i k, ¬ B' i k → ∀ d x, srv'.dbs[i]? = some d → d.view.t k = some x → T ≤ fl x)
    (h : Served hash e args srv c srv' c' r) (inv : LInv hash lower pf T n pw B e.now srv) : LInv hash lower pf T n pw B' e.now srv' := by
  cases h with
  | unknown => exact inv.mono hD
  | rejected => exact inv.mono hD
  | select a0 ha cmd hl hc s' r h => exact inv.mono hD
  | auth a0 ha cmd hl hc s' r h => exact inv.mono hD
  | rewrite a0 ha cmd hl hc srv' r h =>
    obtain ⟨srv1, r1, h1, h2, h3, h4, h5, h6, h7, _⟩ := bgRewrite_ref e he (args := args) (s := c) g
    rw [h1] at h; cases h
    exact inv.same h7 h6 (by rw [h2]) (fun i d d' w k1 k2 k3 => by rw [h2, k1] at k2; cases k2; exact k3.mono (hD i))
  | db a0 ha cmd hl hok hauth f hf d0 hd o ho a hst hrel srv' hfeed =>
    have hco := commandOf_of ha hl
    have hbr := hb _ hco
    by_cases hz : a.dirty = 0
    · -- nothing logged
      rw [if_neg (by rintro ⟨_, h⟩; exact h hz)] at hfeed
      cases hfeed
      refine inv.same rfl rfl (by simp) ?_
      intro i d d' w h1 h2 h3
      simp only at h2
      rw [set_get hd] at h2
      split at h2
      · next hi =>
        subst hi
        rw [hd] at h1; cases h1; cases h2
        rw [hrel.view]
        by_cases hc : cmd.proc = .zadd
        · have hpl := hcert _ hco
          rw [hc] at hst hpl hok
          cases hst with
          | det hc' h =>
            cases hc'
            have : arity .zadd = -4 := rfl
            have := (arity_ok hok).2
            rw [zadd_quiet (by omega) hpl.1 h hz]
            exact h3.mono (hD _)
        · exact (h3.swept hT (quiet hst hc hok hz)).mono (hD _)
      · rw [h1] at h2; cases h2; exact h3.mono (hD i)
    · rw [if_pos ⟨haof, hz⟩] at hfeed
      obtain ⟨rs, q1, q2, _, q3, q4⟩ := feed_log hl hok hfeed
      obtain ⟨recs, k1, k2, k3⟩ := inv
      simp only at q2 q3 q4
      have hw : writes cmd.proc = true := by
        cases hw : writes cmd.proc with
        | true => rfl
        | false => exact absurd (reads hst hw).2 hz
      have hlog : loggable cmd.proc = true := by
        have := hcert _ hco
        revert this hw
        cases cmd.proc <;> simp [writes, loggable, repeats, Certain]
      obtain ⟨k, hk⟩ : ∃ k, args[1]? = some k := by
        have h2 : 2 ≤ args.length := by
          obtain ⟨m1, m2⟩ := arity_ok hok
          rcases writes_arity hw with h | h
          · have := m1 (by omega); omega
          · omega
        exact ⟨_, List.getElem?_eq_getElem (by omega)⟩
      obtain ⟨f', hf', ha'⟩ : ∃ f', aFn cmd.proc = some f' ∧ f' e args d0.view = some a := by
        generalize hc : cmd.proc = c at hst hlog
        cases hst with
        | det hc' h => exact ⟨_, hc', h⟩
        | spop => cases hlog
        | spopEmpty => cases hlog
        | randomget => cases hlog
      refine ⟨recs ++ ((if srv.aofSelect ≠ c.db then [selectRec c.db] else []) ++ rs), by rw [q2, k1]; exact (log_append _ _).symm, ?_, ?_⟩
      · intro r hr
        simp only [List.mem_append] at hr
        rcases hr with hr | hr | hr
        · exact k2 r hr
        · split at hr
          · simp only [List.mem_singleton] at hr; subst hr; simp [selectRec]
          · cases hr
        · exact entries_ne (by rintro rfl; cases ha) q1 r hr
      · intro es hes
        obtain ⟨srv2, s2, p1, p2, p3⟩ := k3 es hes
        obtain ⟨d2, e1, e2, e3⟩ := p3.get hd
        have hlt := lt_get e1
        have hsel := replay_select (es := fun i => es (i + recs.length)) (srv := srv2) (s := s2) (cur := srv.aofSelect) (i := c.db)
          (fun i => by rw [(hes _).lower]; exact hlow) p2 hlt (by rw [p3.len]; exact hn)
        obtain ⟨v2', t1, t4⟩ := lapsed_entries
          (es := fun i => es (i + (if srv.aofSelect ≠ c.db then [selectRec c.db] else []).length + recs.length))
          (fun i => hes _) hlow h0 hT hel hep hlv ha hl hok (hcert _ hco) hk e3 (hbr k hk d0 hd).1 (hbr k hk d0 hd).2 hlog hf' ha' hz q1 (hD c.db)
          (fun x hx d hdx => hD' c.db x hx o.db d (by rw [q4]; simp only [List.getElem?_set]; rw [if_pos trivial, if_pos (lt_get hd)])
            (by rw [hrel.view]; exact hdx))
        obtain ⟨srv3, d3, u1, u2, u3, u4⟩ := areplay_db rs
          (fun i => es (i + (if srv.aofSelect ≠ c.db then [selectRec c.db] else []).length + recs.length)) (fun i => (hes _).hash)
          (srv := srv2) (s := { s2 with db := c.db }) (d := d2) e1 e2 t1
        refine ⟨srv3, { s2 with db := c.db }, ?_, q3.symm, ?_⟩
        · rw [replay_append, p1]
          simp only [Option.bind_some]
          rw [replay_append, hsel]
          simp only [Option.bind_some]
          exact u1
        · rw [q4, u2]
          exact CopyR.set ⟨p3.len, p3.good, fun i d d2 x1 x2 => (p3.sim i d d2 x1 x2).mono (hD i)⟩ c.db u3 (by rw [hrel.view, u4]; exact t4)

theorem seen_dead {s : Sys} {i : Nat} {k : Bytes} {d : Db} (hd : s.srv.dbs[i]? = some d) {now : Int} (h : seen s now i k ≠ none) :
    ¬ Dead now (d.view.v k) (d.view.t k) := by
  unfold seen shown at h
  rw [deadline_eq hd, val_eq hd] at h
  rintro (⟨h1, h2⟩ | ⟨x, h1, h2⟩)
  · rw [h2] at h; exact h h1
  · rw [h1] at h
    simp only at h
    rw [if_pos h2] at h
    exact h rfl

theorem linv_step {s s' : Sys} {ev : Event} {r : List Bytes} (hlow : LowerOk lower) (hn : s.srv.dbs.length < 2 ^ 63)
    (haof : s.srv.aofEnable = true) (g : SysGood hash s) (hev : EvOk hash ev) (hst : Assured lower pf T ev) (hm : Minds B T s ev)
    (hc : now ≤ clock now ev) (h : Sys.step s ev = some (s', r)) (inv : LInv hash lower pf T n pw B now s.srv) :
    LInv hash lower pf T n pw (sofar T B s') (clock now ev) s'.srv := by
  replace inv := inv.later hc
  have hB : ∀ i k, B i k → sofar T B s' i k := fun i k h => Or.inl h
  cases ev with
  | connect fd =>
    simp only [Sys.step] at h
    split at h
    · cases h
    · cases h; exact inv.mono hB
  | close fd => cases h; exact inv.mono hB
  | cron e =>
    simp only [Sys.step, databasesCron, Option.bind_eq_bind, Option.bind_eq_some_iff] at h
    obtain ⟨srv', ⟨dbs, h1, h2⟩, h3⟩ := h
    cases h2; cases h3
    obtain ⟨k1, k2⟩ := cronDbs_ref e hev s.srv.dbs e.draws g.srv h1
    refine inv.same rfl rfl k1 ?_
    intro i d d' w a b hl
    obtain ⟨d1, q1, _, q3⟩ := k2 i d a
    simp only at b
    rw [q1] at b; cases b
    exact (hl.swept hst q3).mono (hB i)
  | request fd e args =>
    simp only [Sys.step, Option.bind_eq_bind, Option.bind_eq_some_iff] at h
    obtain ⟨c, hcs, ⟨srv', c', r'⟩, h1, h2⟩ := h
    cases h2
    obtain ⟨t1, t2, t3, t4, t5, t6⟩ := hst
    refine linv_served hlow hn haof g.srv hev t1 t2 t3 t4 t5 t6 ?_ hB ?_ (served hev g.srv h1) inv
    · intro cmd hcmd k hk d hd
      obtain ⟨m1, m2⟩ := hm c cmd k hcs hcmd hk
      exact ⟨fun hx hy => seen_dead hd (m1 hx hy), fun hx x hxd hle => m2 hx x (by rw [deadline_eq hd]; exact hxd) hle⟩
    · intro i k hnb d x hd hx
      by_contra hlt
      exact hnb (Or.inr ⟨x, by rw [deadline_eq (s := ⟨srv', _⟩) hd]; exact hx, by unfold fl at hlt; omega⟩)

theorem linv_run (hlow : LowerOk lower) : ∀ (evs : List Event) {B : Nat → Bytes → Prop} {now : Int} {s s' : Sys} {rs}, s.srv.dbs.length < 2 ^ 63 →
    s.srv.aofEnable = true → SysGood hash s → (∀ ev ∈ evs, EvOk hash ev ∧ Assured lower pf T ev) → Clocked now evs → AllMind T B s evs →
    Sys.run s evs = some (s', rs) → LInv hash lower pf T n pw B now s.srv →
    ∃ B', LInv hash lower pf T n pw B' (lastClock now evs) s'.srv
  | [], B, now, s, s', rs, hn, haof, g, hev, _, _, h, inv => by cases h; exact ⟨_, inv⟩
  | ev :: rest, B, now, s, s', rs, hn, haof, g, hev, hc, hm, h, inv => by
    obtain ⟨s1, r, rs', h1, h2, _⟩ := run_cons h
    obtain ⟨e1, e2⟩ := hev ev (by simp)
    obtain ⟨k1, k2, k3, k4, _⟩ := step_db g e1 h1
    exact linv_run hlow rest (by rw [k4]; exact hn) (by rw [k3]; exact haof) k1 (fun ev h => hev ev (by simp [h])) hc.2 (hm.2 _ _ h1) h2
      (linv_step hlow hn haof g e1 e2 hm.1 hc.1 h1 inv)

theorem linv_init (n : Nat) (pw : Bytes) : LInv hash lower pf T n pw B now (Server.init n pw true) := by
  refine ⟨[], rfl, by simp, fun es hes => ⟨_, _, rfl, rfl, ?_⟩⟩
  have g : SrvGood hash (Server.init n pw true) := (init_good n pw true).srv
  refine ⟨rfl, g, fun i d d2 h1 h2 => ?_⟩
  rw [h1] at h2; cases h2
  have : d = Db.new := by
    simp only [Server.init] at h1
    exact List.eq_of_mem_replicate (List.mem_of_getElem? h1)
  subst this
  exact ⟨fun k _ => ⟨trivial, rfl, fun d h => by cases h⟩, fun k _ => Or.inl ⟨trivial, rfl⟩⟩

theorem last_le : ∀ (evs : List Event) {now : Int}, now ≤ T → (∀ ev ∈ evs, Assured lower pf T ev) → lastClock now evs ≤ T
  | [], now, h, _ => h
  | ev :: rest, now, h, ha => by
    have h1 := ha ev (by simp)
    refine last_le rest (now := clock now ev) ?_ (fun x hx => ha x (by simp [hx]))
    cases ev with
    | connect => exact h
    | close => exact h
    | cron => exact h1
    | request => exact h1.2.1

end

end Metis
