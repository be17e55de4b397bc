import Verif.Proofs.Total
import Verif.Proofs.Random
import Verif.Props.Sorted
import Verif.Props.Keys
/-!
Property C69: no request crashes the server.
-/
set_option linter.unusedSectionVars false
set_option linter.unusedSimpArgs false
set_option linter.unusedVariables false
namespace Metis.Props.CalmP
open Metis Spec Metis.Props.ServerP Metis.Props.CollectionsP
open _root_.Metis.Props.ListsP (Near good_of)
open _root_.Metis.Props.KeysP (accepts_iff C67_unknown C67_count rec_expire rec_setex)
variable {hash : Bytes → Nat} {s : Sys} {fd : Nat} {e : Env} {c : Session}

/-- The same with further random numbers: `none` also stands for a command that waits for a random number that hits an entry. -/
def more (e : Env) (t : List Nat) : Env := { e with draws := e.draws ++ t }

/-- The full claim of C69: every non-empty request of a connected client is answered, whatever random numbers came first. -/
def C69 : Prop := ∀ (hash : Bytes → Nat) (s : Sys) (fd : Nat) (e : Env) (c : Session) (args : List Bytes),
  Reach hash s → e.hash = hash → s.sess fd = some c → args ≠ [] → ∃ t s' r, Sys.step s (.request fd (more e t) args) = some (s', r)

/-- The requests for which the claim is proved with any random numbers; SPOP and RANDOMGET, which need random numbers, are treated in
`C69_random`. No restriction on PING, AUTH, BGREWRITEAOF, EXPIRE, EXPIREAT, TTL, KEYS, SET, SETEX, GET, hash and set
commands, LPUSH, RPUSH, LPOP, LLEN, ZCARD, ZSCORE. -/
def Calm (s : Sys) (c : Session) (e : Env) (args : List Bytes) : Cmd → Prop
  | .select => ∀ a i, args[1]? = some a → atoi a = some i → 0 ≤ i
  | .rpop => ∀ k q, args[1]? = some k → s.seen c.db e.now k = some (.list q) → q.pages.length ≤ 1
  | .lindex => ∀ k a i, args[1]? = some k → args[2]? = some a → atoi a = some i → Near (s.seen c.db e.now k) i
  | .lrange => ∀ k a b i j l, args[1]? = some k → args[2]? = some a → args[3]? = some b → atoi a = some i → atoi b = some j →
      listOf (s.seen c.db e.now k) = some l → Near (s.seen c.db e.now k) (if i < 0 then l.length + i else i) ∧ j < 2 ^ 44 ∧ l.length ≤ 2 ^ 44
  | .zadd => (∀ j, 1 ≤ e.level j ∧ e.level j ≤ Skiplist.maxLevel) ∧
      ∀ k, args[1]? = some k → s.zok c.db k ∧ ∀ f, zsetOf (s.val c.db k) = some f → Keeps f (zPairs e (args.drop 2))
  | .zrange => ∀ k a b i j, args[1]? = some k → args[2]? = some a → args[3]? = some b → atoi a = some i → atoi b = some j →
      s.zok c.db k ∧ 0 ≤ i ∧ j < 2 ^ 45
  | .zrem => ∀ k, args[1]? = some k → s.zok c.db k
  | .zrangebyscore | .zremrangebyscore | .zcount => ∀ k a b x y, args[1]? = some k → args[2]? = some a → args[3]? = some b →
      e.parseFloat a = some x → e.parseFloat b = some y → s.zok c.db k ∧ x.isNaN = false ∧ y.isNaN = false
  | .zremrangebyrank | .spop | .randomget => False
  | _ => True

theorem range_some {q : Quicklist Bytes} (w : Quicklist.Wf pageSize q) {i j : Int}
    (hi : Near (some (.list q)) (if i < 0 then q.pages.flatten.length + i else i)) (hj : j < 2 ^ 44) (hl : q.pages.flatten.length ≤ 2 ^ 44) :
    ∃ vs, Quicklist.range q i j = some vs := by
  have hq := hi q rfl
  generalize hl' : q.pages.flatten = l at hq hl
  have h2 : Quicklist.elems q = l := hl'
  by_cases hc : (if i < 0 then (l.length : Int) + i else i) < 0 ∨ (if j < 0 then (l.length : Int) + j else j) < 0 ∨
      (if i < 0 then (l.length : Int) + i else i) > (if j < 0 then (l.length : Int) + j else j) ∨ (if i < 0 then (l.length : Int) + i else i) ≥ l.length
  · exact ⟨_, Quicklist.range_empty q w i j (by rw [h2]; exact hc)⟩
  · obtain ⟨m, hm⟩ : ∃ m : Nat, (if i < 0 then (l.length : Int) + i else i) = m := ⟨(if i < 0 then (l.length : Int) + i else i).toNat, by omega⟩
    obtain ⟨p, hp⟩ : ∃ p : Nat, (if j < 0 then (l.length : Int) + j else j) = p := ⟨(if j < 0 then (l.length : Int) + j else j).toNat, by omega⟩
    rw [hm] at hq
    rw [hm, hp] at hc
    exact ⟨_, Quicklist.range_good q w i j m p (by rw [h2]; exact hm) (by rw [h2]; exact hp) (by omega) (by rw [h2]; omega)
      (good_of w (by rw [hl']; rcases hq with h | h | h | h <;> omega)) (by
        unfold Quicklist.maxCap
        by_cases hneg : j < 0
        · rw [if_pos hneg] at hp; omega
        · rw [if_neg hneg] at hp; omega)⟩

theorem calm_view (hs : Reach hash s) {args : List Bytes} {cmd : Cmd} {d : Db} (hd : s.srv.dbs[c.db]? = some d) (h : Calm s c e args cmd) :
    CalmA e args d.view cmd := by
  have hl := reach_lok hs hd
  have hz : ∀ {k}, s.zok c.db k → ZAt k d.view := fun h z hz => h z (by rw [val_eq hd]; exact hz)
  cases cmd <;> try trivial
  case rpop => intro k q h1 h2; exact h k q h1 (by rw [seen_eq hd]; exact h2)
  case lindex => intro k a i q h1 h2 h3 h4; exact h k a i h1 h2 h3 q (by rw [seen_eq hd]; exact h4)
  case lrange =>
    intro k a b i j q h1 h2 h3 h4 h5 h6
    obtain ⟨p1, p2, p3⟩ := h k a b i j q.pages.flatten h1 h2 h3 h4 h5 (by rw [seen_eq hd, h6]; rfl)
    rw [seen_eq hd, h6] at p1
    exact range_some (lok_exp hl _ _ h6) p1 p2 p3
  case zadd => exact ⟨h.1, fun k hk => ⟨hz (h.2 k hk).1, fun f hf => (h.2 k hk).2 f (by rw [val_eq hd]; exact hf)⟩⟩
  case zrange => intro k a b i j h1 h2 h3 h4 h5; obtain ⟨p1, p2⟩ := h k a b i j h1 h2 h3 h4 h5; exact ⟨hz p1, p2⟩
  case zrem => intro k hk; exact hz (h k hk)
  case zrangebyscore => intro k a b i j h1 h2 h3 h4 h5; obtain ⟨p1, p2⟩ := h k a b i j h1 h2 h3 h4 h5; exact ⟨hz p1, p2⟩
  case zremrangebyscore => intro k a b i j h1 h2 h3 h4 h5; obtain ⟨p1, p2⟩ := h k a b i j h1 h2 h3 h4 h5; exact ⟨hz p1, p2⟩
  case zcount => intro k a b i j h1 h2 h3 h4 h5; obtain ⟨p1, p2⟩ := h k a b i j h1 h2 h3 h4 h5; exact ⟨hz p1, p2⟩

/-- The request is logged without failing. -/
theorem logged {args : List Bytes} {cmd : Cmd} {f'} {v : AS} {a : AOut} (hcmd : commandOf e args = some cmd) (hn : accepts cmd args.length)
    (hf' : aFn cmd = some f') (ha : f' e args v = some a) (h0 : a.dirty ≠ 0) : ∃ b a0, args[0]? = some a0 ∧ Aof.record e (e.lower a0) args = some b := by
  by_cases h1 : cmd = .expire
  · subst h1
    match args, hn with
    | [n, k, x], _ =>
      cases hf'
      cases hx : atoi x with
      | none => simp [A.expire, hx] at ha; rw [← ha] at h0; exact absurd rfl h0
      | some i => exact rec_expire hx hcmd
  · by_cases h2 : cmd = .setex
    · subst h2
      match args, hn with
      | [n, k, x, y], _ =>
        cases hf'
        cases hx : atoi x with
        | none => simp [A.setEx, hx] at ha; rw [← ha] at h0; exact absurd rfl h0
        | some i => exact rec_setex hx hcmd
    · exact rec_other hcmd h1 h2

theorem refused (hc : s.sess fd = some c) {args : List Bytes} {cmd : Cmd} (hcmd : commandOf e args = some cmd)
    (hok : Server.badArity args.length (arity cmd) = false) (hal : ¬ Allowed s.srv c) (hau : cmd ≠ .auth) :
    ∃ s' r, Sys.step s (.request fd e args) = some (s', r) ∧ r = Reply.error b!"operation not permitted" := by
  obtain ⟨a0, entry, h1, h2, h3, h4, h5⟩ := named_lookup hcmd
  refine ⟨⟨s.srv, fun x => if x = fd then some c else s.sess x⟩, Reply.error b!"operation not permitted", ?_, rfl⟩
  have hne : e.lower a0 ≠ b!"auth" := fun h => hau (h3.symm.trans ((table_auth _ (lookup_mem h2).1).1 (h5.trans h)))
  have hp : s.srv.password ≠ [] := fun h => hal (Or.inl h)
  have ha : c.auth = false := by
    cases h : c.auth
    · rfl
    · exact absurd (Or.inr h) hal
  simp only [Sys.step, hc, Server.processCommand, h1, h2, h4, hok, Option.bind_eq_bind, Option.bind_some, Bool.false_eq_true, if_false]
  rw [if_pos ⟨hp, ha, hne⟩]
  rfl

theorem loop_env (t : List Nat) : ∀ (fuel : Nat) (ds : List Nat) (d : Db), Cmds.randomLoop (more e t) fuel ds d = Cmds.randomLoop e fuel ds d
  | 0, _, _ => rfl
  | fuel + 1, ds, d => by
    unfold Cmds.randomLoop
    simp only [loop_env t fuel]
    rfl

theorem cron1_env (t : List Nat) : ∀ (fuel : Nat) (ds : List Nat) (d : Db), cronDb (more e t) fuel ds d = cronDb e fuel ds d
  | 0, _, _ => rfl
  | fuel + 1, ds, d => by
    unfold cronDb
    simp only [cron1_env t fuel]
    rfl

theorem cron_env (t : List Nat) : ∀ (ds : List Nat) (l : List Db), cronDbs (more e t) ds l = cronDbs e ds l
  | _, [] => rfl
  | ds, d :: l => by
    unfold cronDbs
    simp only [cron1_env, cron_env t _ l]

/-- The commands that do not work on the selected database are answered, but for SELECT of a negative number. -/
theorem answered_plain (g : SysGood hash s) (he : e.hash = hash) (hc : s.sess fd = some c) {args : List Bytes} {cmd : Cmd} (hcmd : commandOf e args = some cmd)
    (hn : accepts cmd args.length) (hal : Allowed s.srv c ∨ cmd = .auth) (hp : dbProc cmd = none)
    (hk : cmd = .select → ∀ a i, args[1]? = some a → atoi a = some i → 0 ≤ i) : ∃ s' r, Sys.step s (.request fd e args) = some (s', r) := by
  obtain ⟨a0, entry, h1, h2, h3, h4, h5⟩ := named_lookup hcmd
  have hok := (accepts_iff cmd _).2 hn
  have hcall : Server.processCommand e args s.srv c = Server.call e entry args s.srv c := by
    unfold Server.processCommand
    simp only [h1, h2, Option.bind_eq_bind, Option.bind_some]
    rw [h4, hok]
    simp only [Bool.false_eq_true, if_false]
    rw [if_neg]
    rintro ⟨p1, p2, p3⟩
    rcases hal with (ha | ha) | ha
    · exact p1 ha
    · rw [ha] at p2; cases p2
    · exact p3 (h5 ▸ (table_auth _ (lookup_mem h2).1).2 (h3.trans ha))
  cases cmd <;> try (cases hp; done)
  · simp only [Sys.step, hc, Option.bind_eq_bind, Option.bind_some, hcall, Server.call, h3, Server.proc, Server.select]
    match args, hn with
    | [n, x], _ =>
      simp only [List.getElem?_cons_succ, List.getElem?_cons_zero, Option.bind_some]
      cases hx : atoi x with
      | none => simp
      | some i =>
        have := hk rfl x i rfl hx
        simp only
        split
        · simp
        · rw [if_neg (by omega)]; simp
  · simp only [Sys.step, hc, Option.bind_eq_bind, Option.bind_some, hcall, Server.call, h3, Server.proc, Server.auth]
    match args, hn with
    | [n, x], _ =>
      simp only [List.getElem?_cons_succ, List.getElem?_cons_zero, Option.bind_some]
      split
      · simp
      · split <;> simp
  · simp only [Sys.step, hc, Option.bind_eq_bind, Option.bind_some, hcall, Server.call, h3, Server.proc, Server.bgRewriteAof]
    split
    · simp
    · next ht =>
      obtain ⟨cs, c1, _⟩ := copyAll_ref e he s.srv.dbs g.srv
      unfold Server.startRewrite
      rw [if_neg ht, c1]
      simp

/-- **C69, partial**: requests that are calm are answered; so are those that are no command, have a wrong number of words, or are not permitted. -/
theorem C69_partial (hs : Reach hash s) (he : e.hash = hash) (hc : s.sess fd = some c) {args : List Bytes} (h0 : args ≠ [])
    (hcalm : ∀ cmd, commandOf e args = some cmd → Calm s c e args cmd) : ∃ s' r, Sys.step s (.request fd e args) = some (s', r) := by
  cases hcmd : commandOf e args with
  | none => obtain ⟨s', r, h, _⟩ := C67_unknown hc h0 hcmd; exact ⟨s', r, h⟩
  | some cmd =>
    have hk := hcalm cmd hcmd
    by_cases hn : accepts cmd args.length
    · obtain ⟨a0, entry, h1, h2, h3, h4, h5⟩ := named_lookup hcmd
      have hok := (accepts_iff cmd _).2 hn
      by_cases hal : Allowed s.srv c ∨ cmd = .auth
      · obtain ⟨d, hd⟩ := get_lt (hs.good.sess fd c hc)
        by_cases hp : dbProc cmd = none
        · refine answered_plain hs.good he hc hcmd hn hal hp ?_
          rintro rfl; exact hk
        · obtain ⟨f, hf⟩ := Option.ne_none_iff_exists'.1 hp
          cases hf' : aFn cmd with
          | none => cases cmd <;> first | (cases hf'; done) | (cases hf; done) | exact hk.elim
          | some f' =>
            obtain ⟨a, ha⟩ := calm_total (reach_lok hs hd) hf' hn (calm_view hs hd hk)
            have hal' : Allowed s.srv c := by
              rcases hal with h | h
              · exact h
              · rw [h] at hf; cases hf
            obtain ⟨s', r, o, w1, _⟩ := step_det hs.good he hc hal' hcmd hok hf hf' hd ha (fun h => logged hcmd hn hf' ha h)
            exact ⟨s', r, w1⟩
      · obtain ⟨s', r, h, _⟩ := refused hc hcmd hok (fun h => hal (Or.inl h)) (fun h => hal (Or.inr h))
        exact ⟨s', r, h⟩
    · obtain ⟨s', r, h, _⟩ := C67_count hc hcmd hn; exact ⟨s', r, h⟩

/-- **C69, SPOP and RANDOMGET**: whatever random numbers came first, further ones let the command finish; it never crashes. -/
theorem C69_random (hs : Reach hash s) (he : e.hash = hash) (hc : s.sess fd = some c) {args : List Bytes} (h0 : args ≠ []) {cmd : Cmd}
    (hcmd : commandOf e args = some cmd) (hr : cmd = .spop ∨ cmd = .randomget) : ∃ t s' r, Sys.step s (.request fd (more e t) args) = some (s', r) := by
  by_cases hn : accepts cmd args.length
  · have hok := (accepts_iff cmd _).2 hn
    obtain ⟨d, hd⟩ := get_lt (hs.good.sess fd c hc)
    have g := hs.good.srv _ _ hd
    have hcmd' : ∀ t, commandOf (more e t) args = some cmd := fun t => hcmd
    by_cases hal : Allowed s.srv c
    · rcases hr with rfl | rfl
      · obtain ⟨k, hk⟩ : ∃ k, args[1]? = some k := by
          match args, hn with
          | [n, k], _ => exact ⟨k, rfl⟩
        obtain ⟨t, o, ho⟩ := spop_ext he g hk e.draws
        have ho' : Cmds.spop (more e t) args d = some o := ho
        refine ⟨t, ?_⟩
        rcases spop_ref (more e t) he args g ho' with ⟨m, a, _, h2⟩ | ⟨a, _, h2⟩
        · obtain ⟨s', r, h, _⟩ := step_of (e := more e t) hs.good he hc hal (hcmd' t) hok rfl hd ho' h2 (fun _ => rec_other (hcmd' t) (by simp) (by simp))
          exact ⟨s', r, h⟩
        · obtain ⟨s', r, h, _⟩ := step_of (e := more e t) hs.good he hc hal (hcmd' t) hok rfl hd ho' h2 (fun _ => rec_other (hcmd' t) (by simp) (by simp))
          exact ⟨s', r, h⟩
      · obtain ⟨t, ht⟩ := randomLoop_ext he _ d g (Nat.le_refl _) e.draws
        obtain ⟨o, ho⟩ := ht ((e.draws ++ t).length + 1) (by omega)
        have ho' : Cmds.randomGet (more e t) args d = some o := (loop_env t _ _ _).trans ho
        obtain ⟨_, a, _, h2⟩ := randomGet_ref (more e t) he args g ho'
        obtain ⟨s', r, h, _⟩ := step_of (e := more e t) hs.good he hc hal (hcmd' t) hok rfl hd ho' h2 (fun _ => rec_other (hcmd' t) (by simp) (by simp))
        exact ⟨t, s', r, h⟩
    · obtain ⟨s', r, h, _⟩ := refused hc hcmd hok hal (by rcases hr with rfl | rfl <;> simp)
      exact ⟨[], s', r, by rw [show more e [] = e by simp [more]]; exact h⟩
  · obtain ⟨s', r, h, _⟩ := C67_count hc hcmd hn
    exact ⟨[], s', r, by rw [show more e [] = e by simp [more]]; exact h⟩

/-- **C69, the cron**: it never crashes, and further random numbers let it finish. -/
theorem C69_cron (hs : Reach hash s) (he : e.hash = hash) : ∃ t s' r, Sys.step s (.cron (more e t)) = some (s', r) := by
  obtain ⟨t, dbs, h⟩ := cronDbs_ext he s.srv.dbs hs.good.srv e.draws
  have h' : cronDbs (more e t) (more e t).draws s.srv.dbs = some dbs := (cron_env t _ _).trans h
  exact ⟨t, _, _, by simp only [Sys.step, databasesCron, h', Option.bind_eq_bind, Option.bind_some]; rfl⟩

/-- C69 does not hold: SELECT -1 crashes the server. -/
theorem C69_refuted : ¬ C69 := by
  intro H
  obtain ⟨t, s', r, h⟩ := H (demo 0).hash _ 4 (demo 0) ⟨0, false⟩ [b!"select", b!"-1"] ⟨1, [], false, [.connect 4], _, by simp [EvOk], rfl⟩ rfl rfl (by decide)
  replace h : Sys.step _ (.request 4 (demo 0) [b!"select", b!"-1"]) = some (s', r) := h
  have : (Sys.run (Sys.init 1 [] false) [.connect 4, .request 4 (demo 0) [b!"select", b!"-1"]]).isSome = false := by decide
  simp only [Sys.run, Option.bind_eq_bind] at this
  change (Option.bind (Sys.step _ _) _).isSome = false at this
  rw [show Sys.step (Sys.init 1 [] false) (.connect 4) = some (_, _) from rfl, Option.bind_some, Option.isSome_bind, h] at this
  cases this

/-- Events that can happen in a state, requests being calm. -/
def CalmEv (hash : Bytes → Nat) (s : Sys) : Event → Prop
  | .connect _ => True
  | .close _ => True
  | .request fd e args => e.hash = hash ∧ args ≠ [] ∧ ∃ c, s.sess fd = some c ∧ ∀ cmd, commandOf e args = some cmd → Calm s c e args cmd
  | .cron _ => False

/-- Every event of the history is calm when it happens. -/
def CalmRun (hash : Bytes → Nat) : Sys → List Event → Prop
  | _, [] => True
  | s, ev :: evs => CalmEv hash s ev ∧ ∀ s' r, Sys.step s ev = some (s', r) → CalmRun hash s' evs

theorem calm_run : ∀ (evs : List Event) {s : Sys}, Reach hash s → s.srv.dbs ≠ [] → CalmRun hash s evs → ∃ s' rs, Sys.run s evs = some (s', rs)
  | [], s, _, _, _ => ⟨s, [], rfl⟩
  | ev :: evs, s, hs, hd, h => by
    have key : EvOk hash ev ∧ ∃ s1 r, Sys.step s ev = some (s1, r) := by
      cases ev with
      | connect fd =>
        refine ⟨trivial, { s with sess := fun x => if x = fd then some Session.new else s.sess x }, [], ?_⟩
        simp only [Sys.step]
        rw [if_neg (fun hh => hd (List.length_eq_zero_iff.1 hh))]
      | close fd => exact ⟨trivial, _, _, rfl⟩
      | request fd e args =>
        obtain ⟨h1, h2, c, h3, h4⟩ := h.1
        exact ⟨h1, C69_partial hs h1 h3 h2 h4⟩
      | cron e => exact h.1.elim
    obtain ⟨hev, s1, r, h1⟩ := key
    obtain ⟨_, _, _, hlen, _⟩ := step_db hs.good hev h1
    obtain ⟨s2, rs, h2⟩ := calm_run evs (Reach.step hs hev h1) (by intro hh; rw [hh] at hlen; exact hd (List.length_eq_zero_iff.1 hlen.symm)) (h.2 s1 r h1)
    exact ⟨s2, r :: rs, by simp only [Sys.run, h1, h2, Option.bind_eq_bind, Option.bind_some]⟩

/-- **C69, partial, histories**: a server with at least one database survives every history of calm events. -/
theorem C69_history_partial {n : Nat} {pw : Bytes} {aof : Bool} {evs : List Event} (hn : 0 < n) (h : CalmRun hash (Sys.init n pw aof) evs) :
    ∃ s rs, Sys.run (Sys.init n pw aof) evs = some (s, rs) :=
  calm_run evs ⟨n, pw, aof, [], [], by simp, rfl⟩ (by
    intro hh
    have : (List.replicate n Db.new).length = 0 := by rw [show List.replicate n Db.new = [] from hh]; rfl
    simp at this; omega) h

/-- The commands that need no precondition. -/
def plain : Cmd → Bool
  | .select | .rpop | .lindex | .lrange | .zadd | .zrange | .zrem | .zrangebyscore | .zremrangebyscore | .zcount | .zremrangebyrank
  | .spop | .randomget => false
  | _ => true

theorem plain_calm {args : List Bytes} {cmd : Cmd} (h : plain cmd = true) : Calm s c e args cmd := by
  cases cmd <;> first | trivial | cases h

/-- Events of clients that use plain commands only, with whatever words. -/
def PlainEv (hash : Bytes → Nat) (live : Nat → Bool) : Event → Prop
  | .connect _ => True
  | .close _ => True
  | .request fd e args => live fd = true ∧ e.hash = hash ∧ args ≠ [] ∧ ∀ cmd, commandOf e args = some cmd → plain cmd = true
  | .cron _ => False

/-- The connections after an event. -/
def after (live : Nat → Bool) : Event → Nat → Bool
  | .connect fd => fun x => x = fd || live x
  | .close fd => fun x => x ≠ fd && live x
  | _ => live

def PlainRun (hash : Bytes → Nat) : (Nat → Bool) → List Event → Prop
  | _, [] => True
  | live, ev :: evs => PlainEv hash live ev ∧ PlainRun hash (after live ev) evs

theorem plain_run : ∀ (evs : List Event) {s : Sys} {live : Nat → Bool}, (∀ fd, live fd = true → ∃ c, s.sess fd = some c) → PlainRun hash live evs →
    CalmRun hash s evs
  | [], _, _, _, _ => trivial
  | ev :: evs, s, live, hl, h => by
    refine ⟨?_, fun s' r hs => plain_run evs ?_ h.2⟩
    · cases ev with
      | connect fd => trivial
      | close fd => trivial
      | request fd e args =>
        obtain ⟨h1, h2, h3, h4⟩ := h.1
        obtain ⟨c, hc⟩ := hl fd h1
        exact ⟨h2, h3, c, hc, fun cmd hcmd => plain_calm (h4 cmd hcmd)⟩
      | cron e => exact h.1.elim
    · intro x hx
      cases ev with
      | connect fd =>
        simp only [Sys.step] at hs
        split at hs
        · cases hs
        · cases hs
          by_cases hxf : x = fd
          · exact ⟨_, if_pos hxf⟩
          · simp [after, hxf] at hx
            simp only [if_neg hxf]; exact hl x hx
      | close fd =>
        cases hs
        simp [after] at hx
        simp only [if_neg hx.1]; exact hl x hx.2
      | request fd e args =>
        simp only [Sys.step, Option.bind_eq_bind, Option.bind_eq_some_iff] at hs
        obtain ⟨c, _, ⟨srv, c', r'⟩, _, hs⟩ := hs
        cases hs
        by_cases hxf : x = fd
        · exact ⟨_, if_pos hxf⟩
        · simp only [if_neg hxf]; exact hl x hx
      | cron e => exact h.1.elim

/-- **C69, partial, plain commands**: whatever words clients send, as long as no request is one of the commands `plain` leaves out, the server survives. -/
theorem C69_plain_partial {n : Nat} {pw : Bytes} {aof : Bool} {evs : List Event} (hn : 0 < n) (h : PlainRun hash (fun _ => false) evs) :
    ∃ s rs, Sys.run (Sys.init n pw aof) evs = some (s, rs) :=
  C69_history_partial (hash := hash) hn (plain_run evs (fun _ h => by cases h) h)

/-! Non-trivial cases. -/
example : PlainRun (demo 0).hash (fun _ => false) [.connect 4, .request 4 (demo 0) [b!"rpush", b!"l", b!"a", b!"b"], .request 4 (demo 0) [b!"hset", b!"l", b!"x", b!"y"],
    .request 4 (demo 0) [b!"lpop", b!"l"], .request 4 (demo 0) [b!"nonsense"], .close 4] :=
  ⟨trivial, ⟨rfl, rfl, by decide, by decide⟩, ⟨rfl, rfl, by decide, by decide⟩, ⟨rfl, rfl, by decide, by decide⟩, ⟨rfl, rfl, by decide, by decide⟩, trivial, trivial⟩

/-- A ZRANGE that is calm, on a sorted set with two members. -/
example : ∃ s c, Reach (demo 0).hash s ∧ s.sess 4 = some c ∧ s.seen 0 0 b!"z" ≠ none ∧ Calm s c (demo 0) [b!"zrange", b!"z", b!"0", b!"1"] .zrange := by
  obtain ⟨s, f, R, hz, hf, hne, _⟩ := SortedP.two_members
  refine ⟨s, _, R.reach, R.sess, hne, ?_⟩
  intro k a b i j h1 h2 h3 h4 h5
  cases h1; cases h2; cases h3
  have e1 : atoi b!"0" = some 0 := by decide
  have e2 : atoi b!"1" = some 1 := by decide
  rw [e1] at h4; rw [e2] at h5
  cases h4; cases h5
  exact ⟨hz, by decide, by decide⟩

end Metis.Props.CalmP
