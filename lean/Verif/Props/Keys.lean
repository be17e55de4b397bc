import Verif.Props.Lists
import Verif.Props.Expire
import Verif.Props.Types
import Verif.Spec.Arity
/-!
Properties C65 (KEYS), C66 (deadlines are never early) and C67 (unknown commands and wrong numbers of arguments).
-/
set_option linter.unusedSectionVars false
set_option linter.unusedSimpArgs false
set_option linter.unusedVariables false
namespace Metis.Props.KeysP
open Metis Spec Metis.Props.ServerP Metis.Props.CollectionsP
open _root_.Metis.Props.TypesP (sess_same)
variable {hash : Bytes → Nat} {s : Sys} {fd : Nat} {e : Env} {c : Session} {n k : Bytes}

/-! ### C65 -/

/-- What a pattern selects: `*` every key, otherwise what the regular expression compiled from it matches; `none` if it does not compile. -/
def selects (e : Env) (p : Bytes) : Option (Bytes → Bool) := if p = b!"*" then some (fun _ => true) else e.compile p

theorem seen_sweep {s s' : Sys} {i : Nat} {d : Db} {e : Env} {m : Bytes → Bool} (hd : s.srv.dbs[i]? = some d)
    (hv : ∀ k', s'.val i k' = (A.sweep e m d.view).v k') (ht : ∀ k', s'.deadline i k' = (A.sweep e m d.view).t k') (k' : Bytes) :
    s'.seen i e.now k' = s.seen i e.now k' := by
  unfold Sys.seen
  rw [hv, ht, val_eq hd, deadline_eq hd]
  unfold A.sweep
  simp only []
  by_cases hx : A.expired e d.view k' = true
  · have hx' := hx
    unfold A.expired at hx'
    cases hdl : d.view.t k' with
    | none => rw [hdl] at hx'; cases hx'
    | some dl =>
      rw [hdl] at hx'
      simp only [decide_eq_true_eq] at hx'
      cases hm : m k' <;> cases hvv : d.view.v k' <;> simp [hx, hx']
  · simp [hx]

/-- **C65**: KEYS lists exactly the visible keys that the pattern selects, each once, and changes nothing that can be seen. -/
theorem C65_keys (R : Ready hash s fd e c) {p : Bytes} {m : Bytes → Bool} (hcmd : commandOf e [n, p] = some .keys) (hp : selects e p = some m) :
    ∃ s' r l, Sys.step s (.request fd e [n, p]) = some (s', r) ∧ Says r (.arr l) ∧
      Lists l (fun k => m k = true ∧ s.seen c.db e.now k ≠ none) ∧ ∀ k, s'.seen c.db e.now k = s.seen c.db e.now k := by
  obtain ⟨d, hd⟩ := get_lt (R.reach.good.sess fd c R.sess)
  have hp' : A.pat e p = some m := hp
  have hA : A.keys e [n, p] d.view = some ⟨A.sweep e m d.view, 0, A.dom (fun k => if m k then (A.sweep e m d.view).v k else none)⟩ := by
    simp [A.keys, hp']
  obtain ⟨s', r, w1, w2, w3, w4⟩ := answer R.reach R.env R.sess R.allowed hcmd (by rfl) (f := Cmds.keys) (f' := A.keys) rfl rfl hd hA (by decide) (by decide)
  obtain ⟨l, h1, h2⟩ := w2
  refine ⟨s', r, l, w1, by rw [h2]; exact says_array l, ⟨h1.1, fun k => ?_⟩, seen_sweep hd w3 w4⟩
  rw [h1.2 k]
  show _ ↔ m k = true ∧ s.seen c.db e.now k ≠ none
  rw [seen_eq hd]
  unfold A.sweep A.exp
  simp only []
  cases hm : m k <;> by_cases hx : A.expired e d.view k = true <;> simp [hx, upd, Option.isSome_iff_ne_none]

/-- **C65**, patterns that do not compile: nothing changes, and the reply is an error unless there is nothing to list. -/
theorem C65_invalid (R : Ready hash s fd e c) {p : Bytes} (hcmd : commandOf e [n, p] = some .keys) (hp : selects e p = none) :
    ∃ s' r, Sys.step s (.request fd e [n, p]) = some (s', r) ∧ (∀ k, s'.val c.db k = s.val c.db k ∧ s'.deadline c.db k = s.deadline c.db k) ∧
      ((∃ k, s.val c.db k ≠ none) → isError r) ∧ ((∀ k, s.val c.db k = none) → Says r (.arr [])) := by
  obtain ⟨d, hd⟩ := get_lt (R.reach.good.sess fd c R.sess)
  have hp' : A.pat e p = none := hp
  have hA : A.keys e [n, p] d.view = some ⟨d.view, 0, fun r => ((∀ k, d.view.v k = none) ∧ r = Reply.array []) ∨
      ((∃ k, (d.view.v k).isSome = true) ∧ r = Cmds.invalid b!"pattern" p (e.regexpErr p))⟩ := by simp [A.keys, hp']
  obtain ⟨s', r, w1, w2, w3, w4⟩ := answer R.reach R.env R.sess R.allowed hcmd (by rfl) (f := Cmds.keys) (f' := A.keys) rfl rfl hd hA (by decide) (by decide)
  refine ⟨s', r, w1, fun k => ⟨by rw [w3, val_eq hd], by rw [w4, deadline_eq hd]⟩, ?_⟩
  rcases w2 with ⟨h, h2⟩ | ⟨⟨k, h⟩, h2⟩
  · refine ⟨?_, fun _ => by rw [h2]; exact says_array []⟩
    rintro ⟨k, hk⟩
    rw [val_eq hd, h] at hk; exact absurd rfl hk
  · refine ⟨fun _ => by rw [h2]; exact error_isError _, fun h' => ?_⟩
    rw [← val_eq hd, h'] at h; cases h

/-! ### C66 -/

/-- The time a relative deadline is due. -/
def due (e : Env) (secs : Int) : Int := e.now + secs * 1000

/-- The full claim of C66: after EXPIRE or SETEX with a positive number of seconds the key stays visible for at least that long,
and for EXPIREAT up to the given time. -/
def C66 : Prop := ∀ (hash : Bytes → Nat) (s : Sys) (fd : Nat) (e : Env) (c : Session) (n k a v : Bytes) (secs : Int) (o : AObj),
  Ready hash s fd e c → atoi a = some secs → 0 < secs →
  (commandOf e [n, k, a] = some .expire → s.seen c.db e.now k = some o →
    ∃ s' r, Sys.step s (.request fd e [n, k, a]) = some (s', r) ∧ ∀ t, t ≤ due e secs → s'.seen c.db t k = some o) ∧
  (commandOf e [n, k, a, v] = some .setex →
    ∃ s' r, Sys.step s (.request fd e [n, k, a, v]) = some (s', r) ∧ ∀ t, t ≤ due e secs → s'.seen c.db t k = some (.str v)) ∧
  (commandOf e [n, k, a] = some .expireat → s.seen c.db e.now k = some o →
    ∃ s' r, Sys.step s (.request fd e [n, k, a]) = some (s', r) ∧ ∀ t, t ≤ secs * 1000 → s'.seen c.db t k = some o)

theorem wrap_id {x : Int} (h1 : -2 ^ 63 ≤ x) (h2 : x < 2 ^ 63) : wrap64 x = x := by
  unfold wrap64
  rw [Int.emod_eq_of_lt (by omega) (by omega)]; omega

theorem rec_expire {e : Env} {n k a : Bytes} {secs : Int} (ha : atoi a = some secs) (hcmd : commandOf e [n, k, a] = some .expire) :
    ∃ b a0, [n, k, a][0]? = some a0 ∧ Aof.record e (e.lower a0) [n, k, a] = some b := by
  obtain ⟨a0, entry, h1, h2, h3, h4, h5⟩ := named_lookup hcmd
  cases h1
  by_cases hx : e.lower n = b!"expire"
  · exact ⟨_, n, rfl, by unfold Aof.record; rw [if_pos hx]; simp [Aof.catExpire, ha]; rfl⟩
  · by_cases hy : e.lower n = b!"setex"
    · exfalso
      unfold commandOf at hcmd
      simp only [List.getElem?_cons_zero, Option.bind_some] at hcmd
      rw [hy] at hcmd; exact absurd hcmd (by decide)
    · exact ⟨_, n, rfl, by unfold Aof.record; rw [if_neg hx, if_neg hy]⟩

theorem rec_setex {e : Env} {n k a v : Bytes} {secs : Int} (ha : atoi a = some secs) (hcmd : commandOf e [n, k, a, v] = some .setex) :
    ∃ b a0, [n, k, a, v][0]? = some a0 ∧ Aof.record e (e.lower a0) [n, k, a, v] = some b := by
  by_cases hx : e.lower n = b!"expire"
  · exact ⟨_, n, rfl, by unfold Aof.record; rw [if_pos hx]; simp [Aof.catExpire, ha]; rfl⟩
  · by_cases hy : e.lower n = b!"setex"
    · exact ⟨_, n, rfl, by unfold Aof.record; rw [if_neg hx, if_pos hy]; simp [Aof.catExpire, ha]; rfl⟩
    · exact ⟨_, n, rfl, by unfold Aof.record; rw [if_neg hx, if_neg hy]⟩

/-- The value visible at any time, when the deadline is known. -/
theorem seen_due {s' : Sys} {i : Nat} {k : Bytes} {o : AObj} {dl : Int} (hv : s'.val i k = some o) (ht : s'.deadline i k = some dl) (t : Int) :
    s'.seen i t k = if t ≤ dl then some o else none := by
  unfold Sys.seen
  rw [ht, hv]
  by_cases h : dl < t
  · simp only [if_pos h]; rw [if_neg (by omega)]
  · simp only [if_neg h]; rw [if_pos (by omega)]

theorem val_of_seen {s : Sys} {i : Nat} {t : Int} {k : Bytes} {o : AObj} (h : s.seen i t k = some o) : s.val i k = some o := by
  unfold Sys.seen at h
  split at h
  · split at h
    · cases h
    · exact h
  · exact h

/-- **C66, partial**: EXPIRE without overflow of the deadline in milliseconds: visible up to the deadline and no longer. Missing: more
than about 2.9·10^8 years (false, see below). -/
theorem C66_expire_partial (R : Ready hash s fd e c) {a : Bytes} {secs : Int} {o : AObj} (ha : atoi a = some secs) (h0 : 0 < secs) (hn : 0 ≤ e.now)
    (hov : due e secs < 2 ^ 63) (hcmd : commandOf e [n, k, a] = some .expire) (hv : s.seen c.db e.now k = some o) :
    ∃ s' r, Sys.step s (.request fd e [n, k, a]) = some (s', r) ∧ Says r (.status b!"OK") ∧
      ∀ t, s'.seen c.db t k = if t ≤ due e secs then some o else none := by
  obtain ⟨d, hd⟩ := get_lt (R.reach.good.sess fd c R.sess)
  have hv := val_of_seen hv
  rw [val_eq hd] at hv
  unfold due at hov ⊢
  have hA : A.expire e [n, k, a] d.view = some ⟨{ d.view with t := upd d.view.t k (some (e.now + secs * 1000)) }, 1, A.ex Reply.ok⟩ := by
    simp only [A.expire, List.getElem?_cons_succ, List.getElem?_cons_zero, Option.bind_eq_bind, Option.bind_some, ha]
    rw [wrap_id (x := secs * 1000) (by omega) (by omega), wrap_id (by omega) hov]
  obtain ⟨s', r, o', w1, w2, w3, w4, w5, _⟩ := step_det R.reach.good R.env R.sess R.allowed hcmd (by rfl) (f := Cmds.expire) (f' := A.expire) rfl rfl hd hA
    (fun _ => rec_expire ha hcmd)
  have hd' : s'.srv.dbs[c.db]? = some o'.db := by rw [w5, set_get hd]; simp
  refine ⟨s', r, w1, by rw [w4, show o'.reply = _ from w3.reply]; exact says_ok, ?_⟩
  exact seen_due (by rw [val_eq hd', w3.view]; exact hv) (by rw [deadline_eq hd', w3.view]; simp [upd])

/-- **C66, partial**: SETEX. -/
theorem C66_setex_partial (R : Ready hash s fd e c) {a v : Bytes} {secs : Int} (ha : atoi a = some secs) (h0 : 0 < secs) (hn : 0 ≤ e.now)
    (hov : due e secs < 2 ^ 63) (hcmd : commandOf e [n, k, a, v] = some .setex) :
    ∃ s' r, Sys.step s (.request fd e [n, k, a, v]) = some (s', r) ∧ Says r (.status b!"OK") ∧
      ∀ t, s'.seen c.db t k = if t ≤ due e secs then some (.str v) else none := by
  obtain ⟨d, hd⟩ := get_lt (R.reach.good.sess fd c R.sess)
  unfold due at hov ⊢
  have hA : A.setEx e [n, k, a, v] d.view =
      some ⟨{ v := upd d.view.v k (some (.str v)), t := upd d.view.t k (some (e.now + secs * 1000)) }, 1, A.ex Reply.ok⟩ := by
    simp only [A.setEx, List.getElem?_cons_succ, List.getElem?_cons_zero, Option.bind_eq_bind, Option.bind_some, ha]
    rw [wrap_id (x := secs * 1000) (by omega) (by omega), wrap_id (by omega) hov]
  obtain ⟨s', r, o', w1, w2, w3, w4, w5, _⟩ := step_det R.reach.good R.env R.sess R.allowed hcmd (by rfl) (f := Cmds.setEx) (f' := A.setEx) rfl rfl hd hA
    (fun _ => rec_setex ha hcmd)
  have hd' : s'.srv.dbs[c.db]? = some o'.db := by rw [w5, set_get hd]; simp
  refine ⟨s', r, w1, by rw [w4, show o'.reply = _ from w3.reply]; exact says_ok, ?_⟩
  exact seen_due (by rw [val_eq hd', w3.view]; simp [upd]) (by rw [deadline_eq hd', w3.view]; simp [upd])

/-- **C66, partial**: EXPIREAT. -/
theorem C66_expireat_partial (R : Ready hash s fd e c) {a : Bytes} {secs : Int} {o : AObj} (ha : atoi a = some secs) (h0 : 0 < secs)
    (hov : secs * 1000 < 2 ^ 63) (hcmd : commandOf e [n, k, a] = some .expireat) (hv : s.seen c.db e.now k = some o) :
    ∃ s' r, Sys.step s (.request fd e [n, k, a]) = some (s', r) ∧ Says r (.status b!"OK") ∧
      ∀ t, s'.seen c.db t k = if t ≤ secs * 1000 then some o else none := by
  obtain ⟨d, hd⟩ := get_lt (R.reach.good.sess fd c R.sess)
  have hv := val_of_seen hv
  rw [val_eq hd] at hv
  have hA : A.expireAt e [n, k, a] d.view = some ⟨{ d.view with t := upd d.view.t k (some (secs * 1000)) }, 1, A.ex Reply.ok⟩ := by
    simp only [A.expireAt, List.getElem?_cons_succ, List.getElem?_cons_zero, Option.bind_eq_bind, Option.bind_some, ha]
    rw [wrap_id (x := secs * 1000) (by omega) (by omega)]
  obtain ⟨s', r, w1, w2, w3, w4⟩ := answer R.reach R.env R.sess R.allowed hcmd (by rfl) (f := Cmds.expireAt) (f' := A.expireAt) rfl rfl hd hA (by decide) (by decide)
  refine ⟨s', r, w1, by rw [show r = _ from w2]; exact says_ok, ?_⟩
  exact seen_due (by rw [w3]; exact hv) (by rw [w4]; simp [upd])

/-- C66 does not hold: the product of the largest number of seconds and 1000 wraps to -1000, and the key is gone at once. -/
theorem C66_refuted : ¬ C66 := by
  intro H
  obtain ⟨s0, h1, h2, h3⟩ : ∃ s0, Sys.run (Sys.init 1 [] false) [.connect 4] = some (s0, [[]]) ∧ s0.sess 4 = some ⟨0, false⟩ ∧
      s0.srv.password = [] := ⟨_, rfl, rfl, rfl⟩
  have hr0 : Reach (demo 0).hash s0 := ⟨1, [], false, [.connect 4], _, by simp [EvOk], h1⟩
  have R0 : Ready (demo 0).hash s0 4 (demo 0) ⟨0, false⟩ := ⟨hr0, rfl, h2, Or.inl h3⟩
  obtain ⟨s', r, p1, p2⟩ := (H _ s0 4 (demo 0) _ b!"setex" b!"k" b!"9223372036854775807" b!"v" 9223372036854775807 (.str []) R0 (by decide) (by decide)).2.1 (by rfl)
  have p2 := p2 0 (by decide)
  have key : (Sys.run (Sys.init 1 [] false) [.connect 4, .request 4 (demo 0) [b!"setex", b!"k", b!"9223372036854775807", b!"v"]]).map
      (fun p => (p.1.seen 0 0 b!"k").isSome) = some false := by decide
  rw [show [Event.connect 4, .request 4 (demo 0) [b!"setex", b!"k", b!"9223372036854775807", b!"v"]] =
    [.connect 4] ++ [.request 4 (demo 0) [b!"setex", b!"k", b!"9223372036854775807", b!"v"]] from rfl, run_append, h1] at key
  simp only [Sys.run, p1, Option.bind_eq_bind, Option.bind_some, Option.map_some, Option.some.injEq] at key
  rw [show s'.seen 0 0 b!"k" = _ from p2] at key
  cases key

/-! ### C67 -/

/-- The number of words agrees with the table of the code. -/
theorem accepts_iff (cmd : Cmd) (m : Nat) : Server.badArity m (arity cmd) = false ↔ accepts cmd m := by
  cases cmd <;> (simp only [Server.badArity, accepts, decide_eq_false_iff_not]; first | (rw [show arity _ = 1 from rfl]; omega) | (rw [show arity _ = 2 from rfl]; omega) | (rw [show arity _ = 3 from rfl]; omega) | (rw [show arity _ = 4 from rfl]; omega) | (rw [show arity _ = -3 from rfl]; omega) | (rw [show arity _ = -4 from rfl]; omega))

/-- **C67**: a request whose first word names no command is answered with an error and changes nothing. -/
theorem C67_unknown (hc : s.sess fd = some c) {args : List Bytes} (h0 : args ≠ []) (hcmd : commandOf e args = none) :
    ∃ s' r, Sys.step s (.request fd e args) = some (s', r) ∧ isError r ∧ s'.srv = s.srv ∧ ∀ x, s'.sess x = s.sess x := by
  obtain ⟨a0, rest, rfl⟩ := List.exists_cons_of_ne_nil h0
  have hl : lookupCommand (e.lower a0) = none := by
    unfold commandOf at hcmd
    simp only [List.getElem?_cons_zero, Option.bind_some] at hcmd
    rw [← lookup_named] at hcmd
    simpa using hcmd
  exact ⟨⟨s.srv, fun x => if x = fd then some c else s.sess x⟩, _, by
      simp only [Sys.step, hc, Server.processCommand, List.getElem?_cons_zero, hl, Option.bind_eq_bind, Option.bind_some],
    error_isError b!"unknown command", rfl, sess_same hc⟩

/-- **C67**: a command with a number of words that it does not accept is answered with an error and changes nothing. -/
theorem C67_count (hc : s.sess fd = some c) {args : List Bytes} {cmd : Cmd} (hcmd : commandOf e args = some cmd) (hn : ¬ accepts cmd args.length) :
    ∃ s' r, Sys.step s (.request fd e args) = some (s', r) ∧ isError r ∧ s'.srv = s.srv ∧ ∀ x, s'.sess x = s.sess x := by
  obtain ⟨a0, entry, h1, h2, h3, h4, h5⟩ := named_lookup hcmd
  have hb : Server.badArity args.length (arity cmd) = true := by
    cases h : Server.badArity args.length (arity cmd)
    · exact absurd ((accepts_iff cmd _).1 h) hn
    · rfl
  exact ⟨⟨s.srv, fun x => if x = fd then some c else s.sess x⟩, _, by
      simp only [Sys.step, hc, Server.processCommand, h1, h2, h4, hb, Option.bind_eq_bind, Option.bind_some, if_true],
    error_isError b!"wrong number of arguments", rfl, sess_same hc⟩

/-! Non-trivial cases. -/

/-- One live and one expired key, and one that the pattern does not select. -/
example : (Sys.run (Sys.init 1 [] false) [.connect 4, .request 4 (demo 0) [b!"set", b!"a", b!"1"], .request 4 (demo 0) [b!"setex", b!"b", b!"1", b!"2"],
    .request 4 (demo 0) [b!"rpush", b!"c", b!"2"], .request 4 (demo 2000) [b!"keys", b!"*"], .request 4 (demo 2000) [b!"keys", b!"c"],
    .request 4 (demo 2000) [b!"keys", b!"b"], .request 4 (demo 2000) [b!"keys", b!"["]]).map (fun p => (p.2.drop 4).map List.flatten) =
    some [b!"*2\r\n$1\r\na\r\n$1\r\nc\r\n", b!"*1\r\n$1\r\nc\r\n", b!"*0\r\n", b!"-ERR invalid pattern: [, error: bad\r\n"] := by decide

example : selects (demo 0) b!"*" = some (fun _ => true) ∧ selects (demo 0) b!"[" = none := ⟨rfl, rfl⟩

/-- An hour: visible up to the last millisecond. -/
example : (Sys.run (Sys.init 1 [] false) [.connect 4, .request 4 (demo 5) [b!"set", b!"a", b!"1"], .request 4 (demo 5) [b!"expire", b!"a", b!"3600"]]).map
    (fun p => ((p.1.seen 0 3600005 b!"a").isSome, (p.1.seen 0 3600006 b!"a").isSome)) = some (true, false) := by decide

example : commandOf (demo 0) [b!"flushall"] = none ∧ commandOf (demo 0) [b!"get"] = some .get ∧ ¬ accepts .get 1 ∧ accepts .get 2 := by decide

end Metis.Props.KeysP
