import Verif.Proofs.Expire
import Verif.Props.Types
/-!
Properties of expiration: C40, C42, C43.
-/
set_option linter.unusedSectionVars false
set_option linter.unusedSimpArgs false
set_option linter.unusedVariables false
namespace Metis.Props.ExpireP
open Metis Spec Metis.Props.ServerP Metis.Props.TypesP
variable {hash : Bytes → Nat}

/-! ### C40 -/

/-- The same server with nothing in its databases. -/
def emptied (s : Sys) : Sys := { s with srv := { s.srv with dbs := s.srv.dbs.map (fun _ => Db.new) } }

theorem emptied_good {s : Sys} (g : SysGood hash s) : SysGood hash (emptied s) := by
  refine ⟨?_, ?_⟩
  · intro i d hd
    simp only [emptied, List.getElem?_map, Option.map_eq_some_iff] at hd
    obtain ⟨_, _, h⟩ := hd
    rw [← h]; exact db_new_good
  · intro fd c hc
    have := g.sess fd c hc
    simpa [emptied] using this

theorem expired_of {s : Sys} {i : Nat} {d : Db} (hd : s.srv.dbs[i]? = some d) {e : Env} {k : Bytes}
    (h : ∃ dl, s.deadline i k = some dl ∧ dl < e.now) : A.expired e d.view k = true := by
  obtain ⟨dl, h1, h2⟩ := h
  rw [deadline_eq hd] at h1
  unfold A.expired; rw [h1]; simpa using h2

/-- A command that looks up one key (all reading commands of the five types, and those that remove parts of a value) replies to an
expired key what a server without any data would reply. Missing: TTL, and the commands that add to a value (refuted below). -/
theorem C40_lookup_partial {s : Sys} {fd : Nat} {e : Env} {args : List Bytes} {c : Session} {cmd : Cmd} {key : Bytes}
    (hs : Reach hash s) (he : e.hash = hash) (hc : s.sess fd = some c) (hal : Allowed s.srv c) (hcmd : commandOf e args = some cmd)
    (hl : looksUp cmd = true) (hk : args[1]? = some key) (hx : ∃ dl, s.deadline c.db key = some dl ∧ dl < e.now) :
    ∃ s' s'' r, Sys.step s (.request fd e args) = some (s', r) ∧ Sys.step (emptied s) (.request fd e args) = some (s'', r) := by
  have g := hs.good
  have g0 := emptied_good g
  obtain ⟨d, hd⟩ := get_lt (g.sess fd c hc)
  have hd0 : (emptied s).srv.dbs[c.db]? = some Db.new := by simp [emptied, hd]
  have hc0 : (emptied s).sess fd = some c := hc
  have hal0 : Allowed (emptied s).srv c := hal
  have h1 := exp_gone (e := e) (Or.inl (expired_of hd hx))
  have h2 : (A.exp e Db.new.view key).v key = none := by
    apply exp_gone
    have : Db.new.dict.abs = nil := abs_new
    exact Or.inr (by simp [Db.view, this, nil])
  by_cases hok : Server.badArity args.length (arity cmd) = true
  · obtain ⟨a0, entry, q1, q2, q3, q4, q5⟩ := named_lookup hcmd
    have : ∀ t : Sys, t.sess fd = some c → ∃ t', Sys.step t (.request fd e args) = some (t', Reply.error b!"wrong number of arguments") := by
      intro t ht
      simp only [Sys.step, ht, Server.processCommand, q1, q2, q4, hok, Option.bind_eq_bind, Option.bind_some, if_true]
      exact ⟨_, rfl⟩
    obtain ⟨s', h1⟩ := this s hc
    obtain ⟨s'', h2⟩ := this (emptied s) hc0
    exact ⟨s', s'', _, h1, h2⟩
  have hok : Server.badArity args.length (arity cmd) = false := by simpa using hok
  by_cases hsp : cmd = .spop
  · subst hsp
    obtain ⟨o1, p1, p2⟩ := missing_spop he (g.srv _ _ hd) hk h1
    obtain ⟨o2, p3, p4⟩ := missing_spop he (g0.srv _ _ hd0) hk h2
    obtain ⟨s', r, w1, w2, _⟩ := step_of g he hc hal hcmd hok (f := Cmds.spop) rfl hd p1 p2 (fun h => absurd rfl h)
    obtain ⟨s'', r', w3, w4, _⟩ := step_of g0 he hc0 hal0 hcmd hok (f := Cmds.spop) rfl hd0 p3 p4 (fun h => absurd rfl h)
    have e1 : r = Reply.null := w2.trans p2.reply
    have e2 : r' = Reply.null := w4.trans p4.reply
    subst e1; subst e2
    exact ⟨s', s'', _, w1, w3⟩
  · have hdb : ∃ f, dbProc cmd = some f := by
      rcases proc_db_iff cmd with h | h | h | h
      · exact h
      all_goals (subst h; cases hl)
    have haf : ∃ f, aFn cmd = some f := by
      cases cmd <;> first | (cases hl; done) | (exact absurd rfl hsp) | exact ⟨_, rfl⟩
    obtain ⟨f, hf⟩ := hdb
    obtain ⟨f', hf'⟩ := haf
    obtain ⟨r, s1, s2, q1, q2, q3, q4⟩ := missing_det hf' hl hk h1 h2 hok
    obtain ⟨s', r', o', w1, w2, w3, w4, _⟩ := step_det g he hc hal hcmd hok hf hf' hd q1 (fun h => absurd rfl h)
    obtain ⟨s'', r'', o'', x1, x2, x3, x4, _⟩ := step_det g0 he hc0 hal0 hcmd hok hf hf' hd0 q2 (fun h => absurd rfl h)
    have e1 : r' = r := w4.trans w3.reply
    have e2 : r'' = r := x4.trans x3.reply
    subst e1; subst e2
    exact ⟨s', s'', _, w1, x1⟩

/-- KEYS never lists an expired key. -/
theorem C40_keys_partial {s : Sys} {fd : Nat} {e : Env} {n p : Bytes} {c : Session} {key : Bytes}
    (hs : Reach hash s) (he : e.hash = hash) (hc : s.sess fd = some c) (hal : Allowed s.srv c) (hcmd : commandOf e [n, p] = some .keys)
    (hx : ∃ dl, s.deadline c.db key = some dl ∧ dl < e.now) :
    ∃ s' r, Sys.step s (.request fd e [n, p]) = some (s', r) ∧ (isError r ∨ ∃ l, Says r (.arr l) ∧ key ∉ l) := by
  have g := hs.good
  obtain ⟨d, hd⟩ := get_lt (g.sess fd c hc)
  have hxx := expired_of hd hx
  cases hp : A.pat e p with
  | none =>
    have : A.keys e [n, p] d.view = some ⟨d.view, 0, fun r => ((∀ k, d.view.v k = none) ∧ r = Reply.array []) ∨
      ((∃ k, (d.view.v k).isSome = true) ∧ r = Cmds.invalid b!"pattern" p (e.regexpErr p))⟩ := by simp [A.keys, hp]
    obtain ⟨s', r', o', w1, w2, w3, w4, _⟩ := step_det g he hc hal hcmd (by rfl) (f := Cmds.keys) (f' := A.keys) rfl rfl hd this (fun h => absurd rfl h)
    refine ⟨s', r', w1, ?_⟩
    rw [w4]
    rcases w3.reply with ⟨_, h⟩ | ⟨_, h⟩
    · rw [h]; exact Or.inr ⟨[], says_array [], by simp⟩
    · rw [h]; exact Or.inl (error_isError _)
  | some m =>
    have : A.keys e [n, p] d.view = some ⟨A.sweep e m d.view, 0, A.dom (fun k => if m k then (A.sweep e m d.view).v k else none)⟩ := by
      simp [A.keys, hp]
    obtain ⟨s', r', o', w1, w2, w3, w4, _⟩ := step_det g he hc hal hcmd (by rfl) (f := Cmds.keys) (f' := A.keys) rfl rfl hd this (fun h => absurd rfl h)
    refine ⟨s', r', w1, Or.inr ?_⟩
    rw [w4]
    obtain ⟨l, h1, h2⟩ := w3.reply
    refine ⟨l, by rw [h2]; exact says_array l, ?_⟩
    intro hin
    have := (h1.2 key).1 hin
    unfold A.sweep at this
    simp only [hxx] at this
    cases hm : m key <;> rw [hm] at this <;> simp at this

theorem randomGet_live {e : Env} : ∀ (ks : List Bytes) (s : AS) {a : AOut} {r : List Bytes}, A.randomGet e ks s = some a → a.reply r →
    r = Reply.null ∨ ∃ k, r = Reply.bulk k ∧ (s.v k).isSome = true ∧ A.expired e s k = false
  | [], s, a, r, h, hr => by
    unfold A.randomGet at h
    cases h
    exact Or.inl hr.2
  | k :: ks, s, a, r, h, hr => by
    unfold A.randomGet at h
    split at h
    · cases h
    · next hk =>
      split at h
      · rcases randomGet_live ks _ h hr with h | ⟨k', h1, h2, h3⟩
        · exact Or.inl h
        · rcases swept_exp (e := e) (s := s) (k := k) k' with ⟨q1, q2⟩ | ⟨q1, q2, q3⟩
          · exact Or.inr ⟨k', h1, q1 ▸ h2, by rw [← expired_t q2]; exact h3⟩
          · rw [q2] at h2; cases h2
      · next hx =>
        cases h
        have hr : r = Reply.bulk k := hr
        refine Or.inr ⟨k, hr, ?_, by simpa using hx⟩
        cases h : s.v k
        · rw [h] at hk; exact absurd rfl hk
        · rfl

/-- RANDOMGET never names an expired key. -/
theorem C40_randomget_partial {s s' : Sys} {fd : Nat} {e : Env} {n : Bytes} {c : Session} {r : List Bytes}
    (hs : Reach hash s) (he : e.hash = hash) (hc : s.sess fd = some c) (hal : Allowed s.srv c) (hcmd : commandOf e [n] = some .randomget)
    (h : Sys.step s (.request fd e [n]) = some (s', r)) :
    Says r .null ∨ ∃ k, Says r (.bulk k) ∧ (s.val c.db k).isSome = true ∧ ∀ dl, s.deadline c.db k = some dl → e.now ≤ dl := by
  obtain ⟨d, o, a, hd, ho, hst, hrel, hr, _⟩ := step_request hs.good he h hc hal hcmd (by rfl) (f := Cmds.randomGet) rfl
  cases hst with
  | det hc => cases hc
  | randomget h =>
    rcases randomGet_live _ _ h hr with h | ⟨k, h1, h2, h3⟩
    · rw [h]; exact Or.inl says_null
    · refine Or.inr ⟨k, by rw [h1]; exact says_bulk k, by rw [val_eq hd]; exact h2, ?_⟩
      intro dl hdl
      rw [deadline_eq hd] at hdl
      unfold A.expired at h3
      rw [hdl] at h3
      simp at h3; exact h3

/-- A list, a set and a string with deadlines that have passed at time 5000. -/
def stale : Option Sys := (Sys.run (Sys.init 1 [] true)
  [.connect 4, .request 4 (demo 0) [b!"rpush", b!"l", b!"old"], .request 4 (demo 0) [b!"expire", b!"l", b!"1"],
   .request 4 (demo 0) [b!"sadd", b!"t", b!"old"], .request 4 (demo 0) [b!"expire", b!"t", b!"1"],
   .request 4 (demo 0) [b!"setex", b!"s", b!"1", b!"old"]]).map Prod.fst

/-- Replies to two further requests at time 5000. -/
def ask2 (a b : List Bytes) : Option (List (List Bytes)) :=
  (stale.bind fun s => Sys.run s [.request 4 (demo 5000) a, .request 4 (demo 5000) b]).map Prod.snd

/-- The claim is false of the code. TTL of an expired key gives a negative number instead of -2; LPUSH and SADD work on the old
value (and are then lost with it); EXPIRE brings the old value back. -/
theorem C40_refuted :
    ask2 [b!"ttl", b!"s"] [b!"get", b!"s"] = some [[b!":-4\r\n"], [b!"$-1\r\n"]] ∧
    ask2 [b!"lpush", b!"l", b!"new"] [b!"lrange", b!"l", b!"0", b!"-1"] = some [[b!":2\r\n"], [b!"*0\r\n"]] ∧
    ask2 [b!"sadd", b!"t", b!"old"] [b!"smembers", b!"t"] = some [[b!":0\r\n"], [b!"*0\r\n"]] ∧
    ask2 [b!"expire", b!"s", b!"9"] [b!"get", b!"s"] = some [[b!"+OK\r\n"], [b!"$3\r\nold\r\n"]] := by decide

example : ask2 [b!"get", b!"s"] [b!"scard", b!"t"] = some [[b!"$-1\r\n"], [b!":0\r\n"]] ∧
    (stale.bind fun s => s.deadline 0 b!"s") = some 1000 := by decide

/-! ### C42 -/

theorem reach_tok {s : Sys} (hs : Reach hash s) {i : Nat} {d : Db} (hd : s.srv.dbs[i]? = some d) : TOk d.view :=
  reach_inv TOk (fun k d h => by cases h) (fun _ h hp => tok_moved h hp) hs i d hd

/-- TTL: -2 for a missing key, -1 without a deadline, otherwise the remaining whole seconds, for keys that have not expired. -/
theorem C42_ttl_partial {s : Sys} {fd : Nat} {e : Env} {n k : Bytes} {c : Session}
    (hs : Reach hash s) (he : e.hash = hash) (hc : s.sess fd = some c) (hal : Allowed s.srv c) (hcmd : commandOf e [n, k] = some .ttl)
    (hnow : 0 ≤ e.now) :
    ∃ s' r, Sys.step s (.request fd e [n, k]) = some (s', r) ∧ Same s s' ∧
      (s.val c.db k = none → Says r (.int (-2))) ∧
      ((s.val c.db k).isSome = true → s.deadline c.db k = none → Says r (.int (-1))) ∧
      (∀ dl, (s.val c.db k).isSome = true → s.deadline c.db k = some dl → e.now ≤ dl →
        ∃ sec : Int, Says r (.int sec) ∧ 0 ≤ sec ∧ sec * 1000 ≤ dl - e.now ∧ dl - e.now < (sec + 1) * 1000) := by
  have g := hs.good
  obtain ⟨d, hd⟩ := get_lt (g.sess fd c hc)
  have fin : ∀ n', A.ttl e [n, k] d.view = some ⟨d.view, 0, A.ex (Reply.int n')⟩ →
      ∃ s' r, Sys.step s (.request fd e [n, k]) = some (s', r) ∧ Same s s' ∧ Says r (.int n') := by
    intro n' h
    obtain ⟨s', r', o', w1, w2, w3, w4, w5, w6, w7, w8, w9⟩ := step_det g he hc hal hcmd (by rfl) (f := Cmds.ttl) (f' := A.ttl) rfl rfl hd h (fun h => absurd rfl h)
    refine ⟨s', r', w1, ⟨fun i k => (same_set hd w3.view w5 i k).1, fun i k => (same_set hd w3.view w5 i k).2, by simpa using w6, w7 rfl, w9⟩, ?_⟩
    rw [w4, show o'.reply = _ from w3.reply]; exact says_int _
  rw [val_eq hd, deadline_eq hd]
  cases hv : d.view.v k with
  | none =>
    obtain ⟨s', r, h1, h2, h3⟩ := fin (-2) (by simp [A.ttl, hv])
    exact ⟨s', r, h1, h2, fun _ => h3, by simp, by simp⟩
  | some o =>
    cases ht : d.view.t k with
    | none =>
      obtain ⟨s', r, h1, h2, h3⟩ := fin (-1) (by simp [A.ttl, hv, ht])
      exact ⟨s', r, h1, h2, by simp, fun _ _ => h3, by simp⟩
    | some dl =>
      obtain ⟨s', r, h1, h2, h3⟩ := fin ((wrap64 (dl - e.now)).tdiv 1000) (by simp [A.ttl, hv, ht])
      refine ⟨s', r, h1, h2, by simp, by simp, ?_⟩
      intro dl' _ hdl hle
      cases hdl
      obtain ⟨t1, t2⟩ := reach_tok hs hd k dl ht
      have hw : wrap64 (dl - e.now) = dl - e.now := by unfold wrap64; omega
      rw [hw] at h3
      rw [Int.tdiv_eq_ediv_of_nonneg (by omega)] at h3
      exact ⟨_, h3, by omega, by omega, by omega⟩

/-- TTL of an expired key that has not been removed yet is negative, and neither -1 nor -2 are reserved for their meaning. -/
theorem C42_refuted :
    (stale.bind fun s => Sys.run s [.request 4 (demo 5000) [b!"ttl", b!"s"]]).map Prod.snd = some [[b!":-4\r\n"]] ∧
    (stale.bind fun s => Sys.run s [.request 4 (demo 2000) [b!"ttl", b!"s"]]).map Prod.snd = some [[b!":-1\r\n"]] := by decide

example : (stale.bind fun s => Sys.run s [.request 4 (demo 0) [b!"ttl", b!"s"], .request 4 (demo 1) [b!"ttl", b!"s"]]).map Prod.snd =
    some [[b!":1\r\n"], [b!":0\r\n"]] := by decide

/-! ### C43 -/

/-- EXPIRE and EXPIREAT change no value, in particular they create no key. -/
theorem C43_no_value_partial {s s' : Sys} {fd : Nat} {e : Env} {args : List Bytes} {r : List Bytes}
    (hs : Reach hash s) (he : e.hash = hash) (hcmd : commandOf e args = some .expire ∨ commandOf e args = some .expireat)
    (h : Sys.step s (.request fd e args) = some (s', r)) (i : Nat) (k : Bytes) : s'.val i k = s.val i k := by
  obtain ⟨_, _, _, hlen, hm⟩ := step_db hs.good (show EvOk hash (.request fd e args) from he) h
  cases hd : s.srv.dbs[i]? with
  | none =>
    have := get_of_len hlen hd
    simp [Sys.val, hd, this]
  | some d =>
    obtain ⟨d', h1, h2, h3⟩ := hm i d hd
    rw [val_eq h1, val_eq hd]
    cases h3 with
    | same h => rw [h]
    | request c1 hc1 hi cmd hcmd' hok hauth a hst hdv hr =>
      rw [hdv]
      have key : cmd = .expire ∨ cmd = .expireat := by
        rcases hcmd with h | h <;> (rw [h] at hcmd'; cases hcmd'; simp)
      cases hst with
      | @det c f a hc h =>
        have : All (fun a => a.s.v = d.view.v) (f e args d.view) := by
          rcases key with rfl | rfl <;> cases hc
          · unfold A.expire; cmd_all; all_goals rfl
          · unfold A.expireAt; cmd_all; all_goals rfl
        rw [this a h]
      | spop => rcases key with h | h <;> cases h
      | spopEmpty => rcases key with h | h <;> cases h
      | randomget => rcases key with h | h <;> cases h

/-- The event is an EXPIRE, EXPIREAT or SETEX of `k` in database `i`. -/
def SetsDeadline (s : Sys) (i : Nat) (k : Bytes) : Event → Prop
  | .request fd e args => ∃ c, s.sess fd = some c ∧ c.db = i ∧ k ∈ (args.drop 1).take 1 ∧
      (commandOf e args = some .expire ∨ commandOf e args = some .expireat ∨ commandOf e args = some .setex)
  | _ => False

/-- Only EXPIRE, EXPIREAT and SETEX of a key give it a deadline: until one of them names it, a key without deadline has none. -/
theorem C43_deadline_partial {s s' : Sys} {ev : Event} {r : List Bytes} (hs : Reach hash s) (he : EvOk hash ev)
    (h : Sys.step s ev = some (s', r)) (i : Nat) (k : Bytes) (hn : ¬ SetsDeadline s i k ev) :
    s'.deadline i k = s.deadline i k ∨ s'.deadline i k = none := by
  obtain ⟨_, _, _, hlen, hm⟩ := step_db hs.good he h
  cases hd : s.srv.dbs[i]? with
  | none =>
    have := get_of_len hlen hd
    simp [Sys.deadline, hd, this]
  | some d =>
    obtain ⟨d', h1, h2, h3⟩ := hm i d hd
    rw [deadline_eq h1, deadline_eq hd]
    cases h3 with
    | same h => rw [h]; exact Or.inl rfl
    | cron hsw => exact noNew_swept hsw k
    | request c1 hc1 hi cmd hcmd' hok hauth a hst hdv hr =>
      rw [hdv]
      by_cases hx : cmd = .expire ∨ cmd = .expireat ∨ cmd = .setex
      · have hf := frame hst (by rintro rfl; rcases hx with h | h | h <;> cases h) (by rintro rfl; rcases hx with h | h | h <;> cases h) k
        refine Or.inl (hf ?_).2
        intro hk
        apply hn
        refine ⟨c1, hc1, hi, ?_, ?_⟩
        · rcases hx with rfl | rfl | rfl <;> exact hk
        · rcases hx with rfl | rfl | rfl <;> simp [hcmd']
      · exact noNew hst (fun h => hx (Or.inl h)) (fun h => hx (Or.inr (Or.inl h))) (fun h => hx (Or.inr (Or.inr h))) k

/-- EXPIRE on a missing key leaves a deadline behind: the key created later has it, and is gone when it has passed. -/
theorem C43_refuted : ((Sys.run (Sys.init 1 [] true)
    [.connect 4, .request 4 (demo 0) [b!"expire", b!"k", b!"1"], .request 4 (demo 10) [b!"sadd", b!"k", b!"m"],
     .request 4 (demo 11) [b!"ttl", b!"k"], .request 4 (demo 1001) [b!"scard", b!"k"]]).map Prod.snd) =
    some [[], [b!"+OK\r\n"], [b!":1\r\n"], [b!":0\r\n"], [b!":0\r\n"]] := by decide

example : (stale.bind fun s => (Sys.step s (.request 4 (demo 0) [b!"sadd", b!"n", b!"m"])).map fun p => (s.deadline 0 b!"n", p.1.deadline 0 b!"n")) =
    some (none, none) := by decide

end Metis.Props.ExpireP
