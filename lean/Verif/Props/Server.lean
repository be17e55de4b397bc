import Verif.Proofs.Server
import Verif.Spec.Demo
/-!
Properties of the server as a whole: authentication, SET/GET, isolation of keys and databases, SELECT, expiration of live keys.
`Sys.val s i k` and `Sys.deadline s i k` are the value and the deadline of key `k` in database `i`.
-/
set_option linter.unusedSectionVars false
set_option linter.unusedSimpArgs false
set_option linter.unusedVariables false
namespace Metis.Props.ServerP
open Metis Spec
variable {hash : Bytes → Nat}

/-! ### C33 -/

/-- A connection that is not authenticated gets an error for every command but AUTH, and nothing changes at all. -/
theorem C33_gate (e : Env) (args : List Bytes) (srv : Server) (c : Session) (hp : srv.password ≠ []) (ha : c.auth = false)
    (hne : args ≠ []) (hc : commandOf e args ≠ some .auth) : ∃ r, Server.processCommand e args srv c = some (srv, c, r) ∧ isError r := by
  cases h0 : args[0]? with
  | none => exfalso; apply hne; cases args with
    | nil => rfl
    | cons a as => cases h0
  | some a0 =>
    unfold Server.processCommand
    simp only [h0, Option.bind_eq_bind, Option.bind_some]
    cases hl : lookupCommand (e.lower a0) with
    | none => exact ⟨_, rfl, error_isError _⟩
    | some cmd =>
      simp only
      split
      · exact ⟨_, rfl, error_isError _⟩
      · rw [if_pos]
        · exact ⟨_, rfl, error_isError _⟩
        · refine ⟨hp, ha, fun hn => hc ?_⟩
          rw [commandOf_of h0 hl]
          obtain ⟨hm, hn'⟩ := lookup_mem hl
          rw [(table_auth cmd hm).1 (hn'.trans hn)]

/-- AUTH with anything but the password is an error, changes nothing in the server, and de-authenticates (if the number of arguments
is right) or leaves the connection as it was. -/
theorem C33_failed_auth (e : Env) (args : List Bytes) (srv : Server) (c : Session) (hp : srv.password ≠ [])
    (hc : commandOf e args = some .auth) (hw : args[1]? ≠ some srv.password) :
    ∃ c' r, Server.processCommand e args srv c = some (srv, c', r) ∧ isError r ∧ c'.db = c.db ∧
      (if args.length = 2 then c'.auth = false else c' = c) := by
  obtain ⟨a0, entry, h1, h2, h3, h4, h5⟩ := named_lookup hc
  obtain ⟨hm, hn⟩ := lookup_mem h2
  have hname := (table_auth entry hm).2 h3
  unfold Server.processCommand
  simp only [h1, h2, Option.bind_eq_bind, Option.bind_some, h4]
  by_cases hl : args.length = 2
  · have hb : Server.badArity args.length (arity .auth) = false := by rw [hl]; rfl
    rw [hb]
    simp only [Bool.false_eq_true, if_false]
    rw [if_neg (by rintro ⟨_, _, q⟩; exact q (h5 ▸ hname))]
    obtain ⟨a1, ha1⟩ : ∃ a1, args[1]? = some a1 := ⟨args[1], List.getElem?_eq_getElem (by omega)⟩
    have hne : ¬ srv.password = a1 := by intro hh; rw [ha1, hh] at hw; exact hw rfl
    refine ⟨{ c with auth := false }, Reply.error b!"invalid password", ?_, error_isError _, rfl, by rw [if_pos hl]⟩
    unfold Server.call
    rw [h3]
    simp only [Server.proc, Server.auth, if_neg hp, ha1, if_neg hne, Option.bind_eq_bind, Option.bind_some]
    rw [if_neg (by rintro ⟨_, h⟩; omega)]
  · have hb : Server.badArity args.length (arity .auth) = true := by
      have h2 : arity .auth = 2 := rfl
      simp only [Server.badArity, h2, decide_eq_true_eq]
      left; exact ⟨by omega, by omega⟩
    rw [hb]
    exact ⟨c, _, rfl, error_isError _, rfl, by rw [if_neg hl]⟩

/-- The event is an AUTH with the password on connection `fd`. -/
def SendsPassword (pw : Bytes) (fd : Nat) : Event → Prop
  | .request x e args => x = fd ∧ commandOf e args = some .auth ∧ args[1]? = some pw
  | _ => False

theorem locked_step {s s' : Sys} {ev : Event} {r : List Bytes} {fd : Nat} (g : SysGood hash s) (he : EvOk hash ev)
    (hp : s.srv.password ≠ []) (hno : ¬ SendsPassword s.srv.password fd ev)
    (hl : ∀ c, s.sess fd = some c → c.auth = false) (h : Sys.step s ev = some (s', r)) : ∀ c, s'.sess fd = some c → c.auth = false := by
  intro c' hc'
  cases ev with
  | connect x =>
    simp only [Sys.step] at h
    split at h
    · cases h
    · cases h
      simp only at hc'
      split at hc'
      · cases hc'; rfl
      · exact hl _ hc'
  | close x =>
    cases h
    simp only at hc'
    split at hc'
    · cases hc'
    · exact hl _ hc'
  | cron e =>
    simp only [Sys.step, databasesCron, Option.bind_eq_bind, Option.bind_eq_some_iff] at h
    obtain ⟨srv', ⟨dbs, h1, h2⟩, h3⟩ := h
    cases h2; cases h3; exact hl _ hc'
  | request x e args =>
    simp only [Sys.step, Option.bind_eq_bind, Option.bind_eq_some_iff] at h
    obtain ⟨c, hc, ⟨srv', c1, r'⟩, h1, h2⟩ := h
    cases h2
    simp only at hc'
    split at hc'
    · next hx =>
      subst hx
      cases hc'
      have hca := hl c hc
      have hne : args ≠ [] := by intro hh; subst hh; cases h1
      by_cases ha : commandOf e args = some .auth
      · obtain ⟨c2, r2, q1, q2, q3, q4⟩ := C33_failed_auth e args s.srv c hp ha (fun hh => hno ⟨rfl, ha, hh⟩)
        rw [q1] at h1; cases h1
        split at q4
        · exact q4
        · rw [q4]; exact hca
      · obtain ⟨r2, q1, _⟩ := C33_gate e args s.srv c hp hca hne ha
        rw [q1] at h1; cases h1; exact hca
    · exact hl _ hc'

theorem locked_run {fd : Nat} : ∀ (evs : List Event) {s s' : Sys} {rs}, SysGood hash s → (∀ ev ∈ evs, EvOk hash ev) → s.srv.password ≠ [] →
    (∀ ev ∈ evs, ¬ SendsPassword s.srv.password fd ev) → (∀ c, s.sess fd = some c → c.auth = false) →
    Sys.run s evs = some (s', rs) → ∀ c, s'.sess fd = some c → c.auth = false
  | [], _, _, _, _, _, _, _, hl, h => by cases h; exact hl
  | ev :: rest, s, s', rs, g, he, hp, hno, hl, h => by
    obtain ⟨s1, r, rs', h1, h2, _⟩ := run_cons h
    obtain ⟨g1, k1, _⟩ := step_db g (he ev (by simp)) h1
    have := locked_step g (he ev (by simp)) hp (hno ev (by simp)) hl h1
    exact locked_run rest g1 (fun e h => he e (by simp [h])) (k1 ▸ hp) (fun e h => k1 ▸ hno e (by simp [h])) this h2

/-- Whatever happens on the server: every request of a connection that has never sent AUTH with the password is answered with an
error, and it changes nothing in the server. -/
theorem C33_history (n : Nat) (pw : Bytes) (aof : Bool) (hpw : pw ≠ []) (evs : List Event) (hev : ∀ ev ∈ evs, EvOk hash ev)
    {s : Sys} {rs : List (List Bytes)} (hrun : Sys.run (Sys.init n pw aof) evs = some (s, rs))
    (fd : Nat) (e : Env) (args : List Bytes) (hno : ∀ ev ∈ evs ++ [.request fd e args], ¬ SendsPassword pw fd ev)
    {s' : Sys} {r : List Bytes} (h : Sys.step s (.request fd e args) = some (s', r)) : s'.srv = s.srv ∧ isError r := by
  have hl := locked_run (fd := fd) evs (init_good n pw aof) hev hpw (fun ev h => hno ev (by simp [h])) (fun c h => by cases h) hrun
  obtain ⟨_, k1, _⟩ := run_good evs (init_good n pw aof) hev hrun
  have k1 : s.srv.password = pw := k1
  simp only [Sys.step, Option.bind_eq_bind, Option.bind_eq_some_iff] at h
  obtain ⟨c, hc, ⟨srv', c1, r'⟩, h1, h2⟩ := h
  cases h2
  have hne : args ≠ [] := by intro hh; subst hh; cases h1
  by_cases ha : commandOf e args = some .auth
  · obtain ⟨c2, r2, q1, q2, q3, q4⟩ := C33_failed_auth e args s.srv c (k1 ▸ hpw) ha
      (fun hh => hno (.request fd e args) (by simp) ⟨rfl, ha, k1 ▸ hh⟩)
    rw [q1] at h1; cases h1; exact ⟨rfl, q2⟩
  · obtain ⟨r2, q1, q2⟩ := C33_gate e args s.srv c (k1 ▸ hpw) (hl c hc) hne ha
    rw [q1] at h1; cases h1; exact ⟨rfl, q2⟩

/-- A history in which one connection has authenticated and written, another one tries to read. -/
def lockedHistory : List Event :=
  [.connect 4, .connect 5, .request 4 (demo 0) [b!"auth", b!"pw"], .request 4 (demo 0) [b!"set", b!"k", b!"v"],
   .request 5 (demo 0) [b!"auth", b!"no"]]

example : ((Sys.run (Sys.init 1 b!"pw" true) lockedHistory).bind (fun p => (Sys.step p.1 (.request 5 (demo 0) [b!"get", b!"k"])).map Prod.snd)) =
    some [b!"-ERR operation not permitted\r\n"] ∧
    ∀ ev ∈ lockedHistory ++ [.request 5 (demo 0) [b!"get", b!"k"]], ¬ SendsPassword b!"pw" 5 ev := by
  refine ⟨by decide, ?_⟩
  intro ev hev
  simp only [lockedHistory, List.cons_append, List.nil_append, List.mem_cons, List.not_mem_nil, or_false] at hev
  rcases hev with rfl | rfl | rfl | rfl | rfl | rfl <;> simp [SendsPassword]

/-! ### C34 -/

/-- After a successful SET of `k` to `v`, and any further history without a write naming `k` in that database, GET replies with `v`,
on any connection that uses this database. -/
theorem C34_set_get {s0 s1 s2 : Sys} {fd fd' : Nat} {e e' : Env} {n n' k v : Bytes} {extra : List Bytes} {r : List Bytes} {c c' : Session}
    {evs : List Event} {rs : List (List Bytes)}
    (hs : Reach hash s0) (he : e.hash = hash) (he' : e'.hash = hash) (hev : ∀ ev ∈ evs, EvOk hash ev)
    (hn : e.lower n = b!"set") (hn' : e'.lower n' = b!"get")
    (hc : s0.sess fd = some c) (hset : Sys.step s0 (.request fd e (n :: k :: v :: extra)) = some (s1, r)) (hr : ¬ isError r)
    (hrun : Sys.run s1 evs = some (s2, rs)) (hu : Untouched c.db k none s1 evs)
    (hc' : s2.sess fd' = some c') (hal : Allowed s2.srv c') (hdb : c'.db = c.db) :
    ∃ s3 r3, Sys.step s2 (.request fd' e' [n', k]) = some (s3, r3) ∧ Says r3 (.bulk v) := by
  have g0 := hs.good
  have hcmd : commandOf e (n :: k :: v :: extra) = some .set := by simp [commandOf, hn]; decide
  have hcmd' : commandOf e' [n', k] = some .get := by simp [commandOf, hn']; decide
  have hok : Server.badArity (n :: k :: v :: extra).length (arity .set) = false := by
    have h3 : arity .set = -3 := rfl
    simp only [Server.badArity, h3, List.length_cons, decide_eq_false_iff_not]; omega
  have hlt := g0.sess fd c hc
  obtain ⟨d, hd⟩ := get_lt hlt
  -- the SET was allowed, otherwise its reply would be an error
  have hal0 : Allowed s0.srv c := by
    by_cases h1 : s0.srv.password = []
    · exact Or.inl h1
    · by_cases h2 : c.auth = true
      · exact Or.inr h2
      · exfalso
        obtain ⟨r2, q1, q2⟩ := C33_gate e (n :: k :: v :: extra) s0.srv c h1 (by simpa using h2) (by simp) (by rw [hcmd]; simp)
        simp only [Sys.step, hc, q1, Option.bind_eq_bind, Option.bind_some, Option.some.injEq, Prod.mk.injEq] at hset
        exact hr (hset.2 ▸ q2)
  have hA : A.set e (n :: k :: v :: extra) d.view =
      some ⟨{ v := upd d.view.v k (some (.str v)), t := upd d.view.t k none }, 1, A.ex Reply.ok⟩ := rfl
  have hname : b!"set" ≠ b!"expire" ∧ b!"set" ≠ b!"setex" := by decide
  obtain ⟨s', r', o, q1, q2, q3, q4, q5, q6, q7, q8, q9⟩ := step_det g0 he hc hal0 hcmd hok (f := Cmds.set) (f' := A.set) rfl rfl hd hA
    (fun _ => ⟨Aof.cat (n :: k :: v :: extra), n, rfl, by
      unfold Aof.record; rw [hn, if_neg hname.1, if_neg hname.2]⟩)
  rw [hset] at q1
  obtain ⟨rfl, rfl⟩ := Prod.mk.inj (Option.some.inj q1)
  have hd1 : s1.srv.dbs[c.db]? = some o.db := by rw [q5, set_get hd]; simp
  have hv1 : s1.val c.db k = some (.str v) := by rw [val_eq hd1, q3.view]; simp
  have ht1 : s1.deadline c.db k = none := by rw [deadline_eq hd1, q3.view]; simp
  obtain ⟨g1, _⟩ := step_db g0 (show EvOk hash (.request fd e _) from he) hset
  obtain ⟨hv2, ht2⟩ := run_keep evs g1 hev hrun (ht1 ▸ hu)
  obtain ⟨g2, _⟩ := run_good evs g1 hev hrun
  obtain ⟨d2, hd2⟩ := get_lt (g2.sess fd' c' hc')
  rw [← hdb] at hv1 ht1 hv2 ht2
  rw [val_eq hd2] at hv2
  rw [deadline_eq hd2] at ht2
  have hexp : A.exp e' d2.view k = d2.view := by
    unfold A.exp A.expired; rw [ht2, ht1]; rfl
  have hA2 : A.get e' [n', k] d2.view = some ⟨d2.view, 0, A.ex (Reply.bulk v)⟩ := by
    simp only [A.get, List.getElem?_cons_succ, List.getElem?_cons_zero, Option.bind_eq_bind, Option.bind_some]
    rw [hexp, hv2, hv1]; rfl
  obtain ⟨s3, r3, o3, w1, w2, w3, w4, _⟩ := step_det g2 he' hc' hal hcmd' (by rfl) (f := Cmds.get) (f' := A.get) rfl rfl hd2 hA2
    (fun h => absurd rfl h)
  refine ⟨s3, r3, w1, ?_⟩
  have := w3.reply
  rw [w4, show o3.reply = Reply.bulk v from this]
  exact says_bulk v

/-- A SET removes the deadline and replaces a value of any type. -/
theorem C34_set_replaces {s0 s1 : Sys} {fd : Nat} {e : Env} {n k v : Bytes} {extra : List Bytes} {c : Session}
    (hs : Reach hash s0) (he : e.hash = hash) (hn : e.lower n = b!"set") (hc : s0.sess fd = some c) (hal : Allowed s0.srv c) :
    ∃ s1 r, Sys.step s0 (.request fd e (n :: k :: v :: extra)) = some (s1, r) ∧ Says r (.status b!"OK") ∧
      s1.val c.db k = some (.str v) ∧ s1.deadline c.db k = none := by
  have g0 := hs.good
  have hcmd : commandOf e (n :: k :: v :: extra) = some .set := by simp [commandOf, hn]; decide
  have hok : Server.badArity (n :: k :: v :: extra).length (arity .set) = false := by
    have h3 : arity .set = -3 := rfl
    simp only [Server.badArity, h3, List.length_cons, decide_eq_false_iff_not]; omega
  obtain ⟨d, hd⟩ := get_lt (g0.sess fd c hc)
  have hA : A.set e (n :: k :: v :: extra) d.view =
      some ⟨{ v := upd d.view.v k (some (.str v)), t := upd d.view.t k none }, 1, A.ex Reply.ok⟩ := rfl
  have hname : b!"set" ≠ b!"expire" ∧ b!"set" ≠ b!"setex" := by decide
  obtain ⟨s', r', o, q1, q2, q3, q4, q5, q6, q7, q8, q9⟩ := step_det g0 he hc hal hcmd hok (f := Cmds.set) (f' := A.set) rfl rfl hd hA
    (fun _ => ⟨Aof.cat (n :: k :: v :: extra), n, rfl, by
      unfold Aof.record; rw [hn, if_neg hname.1, if_neg hname.2]⟩)
  have hd1 : s'.srv.dbs[c.db]? = some o.db := by rw [q5, set_get hd]; simp
  refine ⟨s', r', q1, ?_, by rw [val_eq hd1, q3.view]; simp, by rw [deadline_eq hd1, q3.view]; simp⟩
  rw [q4, show o.reply = Reply.ok from q3.reply]
  exact says_ok

/-- In between: another key, reads of this key, the same key in another database, a second connection, the cron. -/
def quietHistory : List Event :=
  [.connect 5, .request 4 (demo 1) [b!"set", b!"x", b!"y"], .request 5 (demo 2) [b!"select", b!"1"],
   .request 5 (demo 3) [b!"set", b!"k", b!"other"], .request 4 (demo 3) [b!"get", b!"k"], .cron (demo 9)]

/-- The state after a hash `k` with a deadline has been made. -/
def beforeSet : Option Sys := (Sys.run (Sys.init 2 [] true)
  [.connect 4, .request 4 (demo 0) [b!"hset", b!"k", b!"f", b!"v"], .request 4 (demo 0) [b!"expire", b!"k", b!"1"]]).map Prod.fst

example : (beforeSet.bind fun s => (Sys.step s (.request 4 (demo 0) [b!"set", b!"k", b!"v"])).bind fun p =>
    (Sys.run p.1 quietHistory).bind fun q => (Sys.step q.1 (.request 4 (demo 99999) [b!"get", b!"k"])).map Prod.snd) =
    some [b!"$1\r\nv\r\n"] := by decide

example (s : Sys) : Untouched 0 b!"k" none s [.request 4 (demo 1) [b!"set", b!"x", b!"y"], .cron (demo 3)] := by
  refine ⟨?_, by simp [Passed], fun s' r _ => ⟨by simp [Writes], by simp [Passed], fun _ _ _ => trivial⟩⟩
  rintro ⟨c, cmd, _, _, h, _, hk⟩
  have : commandOf (demo 1) [b!"set", b!"x", b!"y"] = some .set := by decide
  rw [this] at h; cases h
  revert hk; decide

/-! ### C36 -/

/-- A request leaves every key that it does not name as it was, in every database; the only exception are keys whose deadline has
passed, which KEYS and RANDOMGET remove. -/
theorem C36_frame {s s' : Sys} {fd : Nat} {e : Env} {args : List Bytes} {r : List Bytes} {c : Session}
    (hs : Reach hash s) (he : e.hash = hash) (hc : s.sess fd = some c) (h : Sys.step s (.request fd e args) = some (s', r))
    (i : Nat) (k : Bytes) (hk : i ≠ c.db ∨ ∀ cmd, commandOf e args = some cmd → k ∉ keysOf cmd args) :
    (s'.val i k = s.val i k ∧ s'.deadline i k = s.deadline i k) ∨
    (i = c.db ∧ (commandOf e args = some .keys ∨ commandOf e args = some .randomget) ∧ (∃ d, s.deadline i k = some d ∧ d < e.now) ∧
      s'.val i k = none ∧ s'.deadline i k = none) := by
  obtain ⟨_, _, _, hlen, hm⟩ := step_db hs.good (show EvOk hash (.request fd e args) from he) h
  cases hd : s.srv.dbs[i]? with
  | none =>
    have := get_of_len hlen hd
    exact Or.inl (by simp [Sys.val, Sys.deadline, hd, this])
  | some d =>
    obtain ⟨d', h1, h2, h3⟩ := hm i d hd
    rw [val_eq h1, val_eq hd, deadline_eq h1, deadline_eq hd]
    cases h3 with
    | same h => rw [h]; exact Or.inl ⟨rfl, rfl⟩
    | request c1 hc1 hi cmd hcmd hok hauth a hst hdv hr =>
      rw [hc] at hc1; cases hc1
      rw [hdv]
      by_cases hkr : cmd = .keys ∨ cmd = .randomget
      · have hwr : writes cmd = false := by rcases hkr with rfl | rfl <;> rfl
        have hsw : Swept e d.view a.s := (reads hst hwr).1
        rcases hsw k with h | ⟨p1, p2, p3⟩
        · exact Or.inl h
        · obtain ⟨dl, q1, q2⟩ := expired_passed p1
          exact Or.inr ⟨hi.symm, by rcases hkr with rfl | rfl <;> simp [hcmd], ⟨dl, q1, q2⟩, p2, p3⟩
      · have n1 : cmd ≠ .keys := fun h => hkr (Or.inl h)
        have n2 : cmd ≠ .randomget := fun h => hkr (Or.inr h)
        refine Or.inl (frame hst n1 n2 k ?_)
        rcases hk with hk | hk
        · exact absurd hi.symm hk
        · exact hk cmd hcmd

/-- No request changes another database in any way that can be observed. -/
theorem C36_other_database {s s' : Sys} {fd : Nat} {e : Env} {args : List Bytes} {r : List Bytes} {c : Session}
    (hs : Reach hash s) (he : e.hash = hash) (hc : s.sess fd = some c) (h : Sys.step s (.request fd e args) = some (s', r))
    (i : Nat) (hi : i ≠ c.db) (k : Bytes) : s'.val i k = s.val i k ∧ s'.deadline i k = s.deadline i k := by
  rcases C36_frame hs he hc h i k (Or.inl hi) with h | ⟨h, _⟩
  · exact h
  · exact absurd h hi

example : (beforeSet.bind fun s => (Sys.step s (.request 4 (demo 0) [b!"set", b!"x", b!"v"])).map fun p =>
    ((p.1.val 0 b!"k").isSome, p.1.deadline 0 b!"k", s.deadline 0 b!"k")) = some (true, some 1000, some 1000) := by decide

/-! ### C37 -/

/-- SELECT with the number of a database makes the connection use it; nothing else changes. -/
theorem C37_select {srv : Server} {c : Session} {e : Env} {n : Bytes} (hal : Allowed srv c) (hn : e.lower n = b!"select")
    (i : Nat) (hi : i < srv.dbs.length) (hb : i < 2 ^ 63) :
    ∃ r, Server.processCommand e [n, dec i] srv c = some (srv, { c with db := i }, r) ∧ Says r (.status b!"OK") := by
  have hcmd : commandOf e [n, dec i] = some .select := by simp [commandOf, hn]; decide
  obtain ⟨a0, entry, h1, h2, h3, h4⟩ := proc_call (srv := srv) (c := c) hcmd (by rfl) hal
  refine ⟨Reply.ok, ?_, says_ok⟩
  rw [h4]
  simp only [Server.call, h3, Server.proc, Server.select, List.getElem?_cons_succ, List.getElem?_cons_zero, Option.bind_eq_bind, Option.bind_some,
    atoi_dec hb]
  rw [if_neg (by omega), if_neg (by omega)]
  simp

/-- Every argument that is no number, or a number that is too large, is an error without effect. -/
theorem C37_select_error_partial {srv : Server} {c : Session} {e : Env} {n a : Bytes} (hal : Allowed srv c) (hn : e.lower n = b!"select")
    (ha : ∀ i, atoi a = some i → (srv.dbs.length : Int) ≤ i) :
    ∃ r, Server.processCommand e [n, a] srv c = some (srv, c, r) ∧ isError r := by
  have hcmd : commandOf e [n, a] = some .select := by simp [commandOf, hn]; decide
  obtain ⟨a0, entry, h1, h2, h3, h4⟩ := proc_call (srv := srv) (c := c) hcmd (by rfl) hal
  rw [h4]
  simp only [Server.call, h3, Server.proc, Server.select, List.getElem?_cons_succ, List.getElem?_cons_zero, Option.bind_eq_bind, Option.bind_some]
  cases hx : atoi a with
  | none =>
    refine ⟨_, ?_, error_isError (e.atoiErr a)⟩
    simp
  | some i =>
    refine ⟨_, ?_, error_isError b!"invalid db index"⟩
    simp only
    rw [if_pos (ha i hx)]
    simp

/-- SELECT with a negative number crashes the server. -/
theorem C37_refuted_negative {srv : Server} {c : Session} {e : Env} {n : Bytes} (hal : Allowed srv c) (hn : e.lower n = b!"select")
    (i : Nat) (hi : 0 < i) (hb : i ≤ 2 ^ 63) : Server.processCommand e [n, 45 :: dec i] srv c = none := by
  have hcmd : commandOf e [n, 45 :: dec i] = some .select := by simp [commandOf, hn]; decide
  obtain ⟨a0, entry, h1, h2, h3, h4⟩ := proc_call (srv := srv) (c := c) hcmd (by rfl) hal
  rw [h4]
  simp only [Server.call, h3, Server.proc, Server.select, List.getElem?_cons_succ, List.getElem?_cons_zero, Option.bind_eq_bind, Option.bind_some,
    atoi_neg hb]
  rw [if_neg (by omega), if_pos (by omega)]
  rfl

example : Server.processCommand (demo 0) [b!"select", b!"-1"] (Server.init 16 [] false) Session.new = none := by decide

/-- Only a SELECT on this connection changes its database. -/
theorem C37_sticky {s s' : Sys} {fd : Nat} {ev : Event} {r : List Bytes} {c : Session} (hs : Reach hash s) (he : EvOk hash ev)
    (hc : s.sess fd = some c) (h : Sys.step s ev = some (s', r))
    (hev : match ev with | .connect x => x ≠ fd | .close x => x ≠ fd | .request x e args => x = fd → commandOf e args ≠ some .select | .cron _ => True) :
    ∃ c', s'.sess fd = some c' ∧ c'.db = c.db := by
  cases ev with
  | connect x =>
    simp only [Sys.step] at h
    split at h
    · cases h
    · cases h; exact ⟨c, by simp only; rw [if_neg (fun hh => hev hh.symm)]; exact hc, rfl⟩
  | close x => cases h; exact ⟨c, by simp only; rw [if_neg (fun hh => hev hh.symm)]; exact hc, rfl⟩
  | cron e =>
    simp only [Sys.step, databasesCron, Option.bind_eq_bind, Option.bind_eq_some_iff] at h
    obtain ⟨srv', ⟨dbs, h1, h2⟩, h3⟩ := h
    cases h2; cases h3; exact ⟨c, hc, rfl⟩
  | request x e args =>
    simp only [Sys.step, Option.bind_eq_bind, Option.bind_eq_some_iff] at h
    obtain ⟨c0, hc0, ⟨srv', c1, r'⟩, h1, h2⟩ := h
    cases h2
    by_cases hx : x = fd
    · subst hx
      rw [hc] at hc0; cases hc0
      refine ⟨c1, by simp, ?_⟩
      cases served he hs.good.srv h1 with
      | unknown => rfl
      | rejected => rfl
      | db => rfl
      | rewrite => rfl
      | select a0 ha cmd hl hcm s' r h => exact absurd (by rw [commandOf_of ha hl, hcm]) (hev rfl)
      | auth a0 ha cmd hl hcm s' r h => exact auth_db h
    · exact ⟨c, by simp only; rw [if_neg (fun hh => hx hh.symm)]; exact hc, rfl⟩

/-! ### C41 -/

/-- An event that is no write naming `k` changes neither value nor deadline of `k`, unless `k` has a deadline and it has passed:
lazy expiration and the cron only remove expired keys, whatever keys the cron samples. -/
theorem C41_live {s s' : Sys} {ev : Event} {r : List Bytes} (hs : Reach hash s) (he : EvOk hash ev) (h : Sys.step s ev = some (s', r))
    (i : Nat) (k : Bytes) (hw : ¬ Writes s i k ev) (hl : ¬ Passed (s.deadline i k) ev) :
    s'.val i k = s.val i k ∧ s'.deadline i k = s.deadline i k := by
  rcases step_keep hs.good he h hw with h | ⟨h, _⟩
  · exact h
  · exact absurd h hl

/-- The same for histories. -/
theorem C41_history {s s' : Sys} {evs : List Event} {rs : List (List Bytes)} (hs : Reach hash s) (he : ∀ ev ∈ evs, EvOk hash ev)
    (h : Sys.run s evs = some (s', rs)) (i : Nat) (k : Bytes) (hu : Untouched i k (s.deadline i k) s evs) :
    s'.val i k = s.val i k ∧ s'.deadline i k = s.deadline i k := run_keep evs hs.good he h hu

/-- The cron removes the expired key it samples, and not the live one. -/
example : (beforeSet.bind fun s => (Sys.run s [.request 4 (demo 0) [b!"setex", b!"live", b!"9", b!"v"], .cron { demo 1001 with draws := (List.replicate 200 [0, 1, 2, 3]).flatten }]).map fun p =>
    ((p.1.val 0 b!"k").isSome, (p.1.val 0 b!"live").isSome)) = some (false, true) := by decide

end Metis.Props.ServerP
