import Verif.Proofs.Words
import Verif.Proofs.Window
import Verif.Spec.Demo
/-!
Property C115: words too many and words too few, in requests and in the log.
-/
set_option linter.unusedSectionVars false
set_option linter.unusedSimpArgs false
set_option linter.unusedVariables false
set_option synthInstance.maxSize 2000
set_option synthInstance.maxHeartbeats 200000
namespace Metis.Props.WordsP
open Metis Metis.Spec Metis.WordsSim
open _root_.Metis.Aof (exec replay load parse readerSize)
variable {e : Env} {es : Nat → Env} {name a : Bytes} {n : Nat} {args : List Bytes} {srv : Server} {s : Session}

/-- How many words, its name included, a command looks at, for those that do not take any number of them. -/
def looksAt : List (Bytes × Nat) :=
  [(b!"ping", 1), (b!"select", 2), (b!"auth", 2), (b!"bgrewriteaof", 1), (b!"expire", 3), (b!"expireat", 3), (b!"ttl", 2), (b!"keys", 2),
   (b!"set", 3), (b!"setex", 4), (b!"get", 2), (b!"randomget", 1), (b!"hget", 3), (b!"hexists", 3), (b!"hkeys", 2), (b!"hlen", 2),
   (b!"lpop", 2), (b!"rpop", 2), (b!"llen", 2), (b!"lindex", 3), (b!"lrange", 4), (b!"spop", 2), (b!"scard", 2), (b!"sismember", 3),
   (b!"smembers", 2), (b!"zremrangebyrank", 4), (b!"zremrangebyscore", 4), (b!"zcard", 2), (b!"zcount", 4), (b!"zscore", 3)]

/-- How many words, its name included, a command takes without counting them. PING, AUTH, BGREWRITEAOF and RANDOMGET take none; HSET and ZADD count. -/
def takes : List (Bytes × Nat) :=
  [(b!"select", 2), (b!"expire", 3), (b!"expireat", 3), (b!"ttl", 2), (b!"keys", 2), (b!"set", 3), (b!"setex", 4), (b!"get", 2),
   (b!"hget", 3), (b!"hdel", 2), (b!"hexists", 3), (b!"hkeys", 2), (b!"hlen", 2), (b!"lpush", 2), (b!"rpush", 2), (b!"lpop", 2),
   (b!"rpop", 2), (b!"llen", 2), (b!"lindex", 2), (b!"lrange", 2), (b!"sadd", 2), (b!"srem", 2), (b!"spop", 2), (b!"scard", 2),
   (b!"sismember", 3), (b!"smembers", 2), (b!"sdiff", 2), (b!"sinter", 2), (b!"sunion", 2), (b!"zrange", 3), (b!"zrangebyscore", 3), (b!"zrem", 2),
   (b!"zremrangebyrank", 3), (b!"zremrangebyscore", 3), (b!"zcard", 2), (b!"zcount", 3), (b!"zscore", 2)]

/-- The full claim of C115: a request with more words than the command looks at changes no database. -/
def C115 : Prop := ∀ (e : Env) (name a : Bytes) (n : Nat) (args : List Bytes) (srv srv' : Server) (s s' : Session) (r : List Bytes), (name, n) ∈ looksAt →
  args.head? = some a → e.lower a = name → n < args.length → Server.processCommand e args srv s = some (srv', s', r) → srv'.dbs = srv.dbs

theorem looksAt_ok : (looksAt.all fun p => (lookupCommand p.1).any fun c => decide (reads c.proc = some p.2) && decide (p.2 ≠ 0) && decide (c.arity = (p.2 : Int) ∨ c.arity = -(p.2 : Int))) = true := by decide
theorem takes_ok : (takes.all fun p => (lookupCommand p.1).any fun c => decide (needs c.proc = p.2)) = true := by decide

theorem looks (h : (name, n) ∈ looksAt) : ∃ c, lookupCommand name = some c ∧ reads c.proc = some n ∧ n ≠ 0 ∧ (c.arity = (n : Int) ∨ c.arity = -(n : Int)) := by
  have := List.all_eq_true.1 looksAt_ok _ h
  cases hc : lookupCommand name with
  | none => simp [hc] at this
  | some c =>
    simp only [hc, Option.any_some, Bool.and_eq_true, decide_eq_true_eq] at this
    exact ⟨c, rfl, this.1.1, this.1.2, this.2⟩

theorem needed (h : (name, n) ∈ takes) : ∃ c, lookupCommand name = some c ∧ needs c.proc = n := by
  have := List.all_eq_true.1 takes_ok _ h
  cases hc : lookupCommand name with
  | none => simp [hc] at this
  | some c =>
    simp only [hc, Option.any_some, decide_eq_true_eq] at this
    exact ⟨c, rfl, this⟩

theorem head_get (h : args.head? = some a) : args[0]? = some a := by cases args <;> simp_all

/-- **C115**, a record with more words than the command looks at is carried out as the record without them. -/
theorem C115_surplus (h : (name, n) ∈ looksAt) (ha : args.head? = some a) (hl : e.lower a = name) : exec e args srv s = exec e (args.take n) srv s := by
  obtain ⟨c, hc, hr, hn, _⟩ := looks h
  have h0 := head_get ha
  have h1 : (args.take n)[0]? = some a := by rw [List.getElem?_take, if_pos (Nat.pos_of_ne_zero hn), h0]
  simp only [exec, h0, h1, hl, hc, Option.bind_eq_bind, Option.bind_some, ← proc_take hr]

/-- A record without the words that are not looked at. -/
def cutTo (low : Bytes → Bytes) (r : List Bytes) : List Bytes := match r.head? with
  | some a => (match looksAt.lookup (low a) with
    | some n => r.take n
    | none => r)
  | none => r

theorem mem_of_lookup {α β : Type} [BEq α] [LawfulBEq α] {x : α} {y : β} : ∀ {l : List (α × β)}, l.lookup x = some y → (x, y) ∈ l
  | [], h => by cases h
  | (x', y') :: l, h => by
    rw [List.lookup_cons] at h
    split at h
    · next hx => cases h; rw [eq_of_beq hx]; simp
    · exact List.mem_cons_of_mem _ (mem_of_lookup h)

theorem exec_cut (low : Bytes → Bytes) (hl : e.lower = low) : exec e (cutTo low args) srv s = exec e args srv s := by
  unfold cutTo
  split
  · next a ha =>
    split
    · next n hn => exact (C115_surplus (mem_of_lookup hn) ha (by rw [hl])).symm
    · rfl
  · rfl

theorem replay_cut (low : Bytes → Bytes) : ∀ (recs : List (List Bytes)) {es : Nat → Env} {srv : Server} {s : Session}, (∀ i, (es i).lower = low) →
    replay es (recs.map (cutTo low)) srv s = replay es recs srv s
  | [], _, _, _, _ => rfl
  | r :: recs, es, srv, s, h => by
    simp only [List.map_cons, replay, exec_cut low (h 0)]
    congr 1
    funext x
    exact replay_cut low recs fun i => h (i + 1)

theorem records_cut {low : Bytes → Bytes} {recs : List (List Bytes)} (h : Records recs) : Records (recs.map (cutTo low)) := by
  intro r hr
  obtain ⟨q, hq, rfl⟩ := List.mem_map.1 hr
  obtain ⟨h1, h2, h3⟩ := h q hq
  unfold cutTo
  split
  · next a ha =>
    split
    · next n hn =>
      obtain ⟨_, _, _, hn0, _⟩ := looks (mem_of_lookup hn)
      refine ⟨?_, by rw [List.length_take]; omega, fun x hx => h3 x (List.mem_of_mem_take hx)⟩
      intro h0
      rcases List.take_eq_nil_iff.1 h0 with h0 | h0
      · exact hn0 h0
      · exact h1 h0
    · exact ⟨h1, h2, h3⟩
  · exact ⟨h1, h2, h3⟩

/-- **C115**, a log with surplus words is loaded as the log without them. -/
theorem C115_loaded (low : Bytes → Bytes) {recs : List (List Bytes)} (hl : ∀ i, (es i).lower = low) (hr : Records recs) (hw : Whole recs)
    (hw' : Whole (recs.map (cutTo low))) : load readerSize es (log recs) srv = load readerSize es (log (recs.map (cutTo low))) srv := by
  simp only [load, (Aof.parse_whole hr).2 hw, (Aof.parse_whole (records_cut hr)).2 hw', Option.bind_eq_bind, Option.bind_some, replay_cut low recs hl]

/-- **C115**, the commands of `takes` in a record with fewer words stop the process. -/
theorem C115_missing (h : (name, n) ∈ takes) (ha : args.head? = some a) (hl : e.lower a = name) (hn : args.length < n) : exec e args srv s = none := by
  obtain ⟨c, hc, hr⟩ := needed h
  simp only [exec, head_get ha, hl, hc, Option.bind_eq_bind, Option.bind_some, proc_needs (hr ▸ hn), Option.bind_none]

theorem replay_none : ∀ (recs : List (List Bytes)) {es : Nat → Env} {srv : Server} {s : Session} {i : Nat} {r : List Bytes}, recs[i]? = some r →
    (∀ srv s, exec (es i) r srv s = none) → replay es recs srv s = none
  | [], _, _, _, _, _, h, _ => by simp at h
  | r :: recs, es, srv, s, 0, _, h, k => by
    simp only [List.getElem?_cons_zero, Option.some.injEq] at h
    subst h
    simp only [replay, k, Option.bind_eq_bind, Option.bind_none]
  | r :: recs, es, srv, s, i + 1, r', h, k => by
    simp only [replay, Option.bind_eq_bind]
    cases hx : exec (es 0) r srv s with
    | none => rfl
    | some x => exact replay_none recs (by simpa using h) k

/-- **C115**, so that no process starts with a log that has one, wherever in it. -/
theorem C115_stops {file : Bytes} {recs : List (List Bytes)} {i cap : Nat} (hp : parse cap file = some recs) (hi : recs[i]? = some args) (h : (name, n) ∈ takes)
    (ha : args.head? = some a) (hl : (es i).lower a = name) (hn : args.length < n) : load cap es file srv = none := by
  simp only [load, hp, Option.bind_eq_bind, Option.bind_some, replay_none recs hi fun _ _ => C115_missing h ha hl hn, Option.bind_none]

/-- **C115**, HSET and ZADD with an odd number of words do nothing. -/
theorem C115_odd (hn : name = b!"hset" ∨ name = b!"zadd") (ha : args.head? = some a) (hl : e.lower a = name) (ho : args.length % 2 = 1) (hd : s.db < srv.dbs.length) :
    exec e args srv s = some (srv, s) := by
  have h1 : srv.dbs[s.db]? = some srv.dbs[s.db] := List.getElem?_eq_getElem hd
  have h2 : lookupCommand b!"hset" = some ⟨b!"hset", .hset, -4⟩ := by rfl
  have h3 : lookupCommand b!"zadd" = some ⟨b!"zadd", .zadd, -4⟩ := by rfl
  rcases hn with rfl | rfl
  · simp [exec, head_get ha, hl, h2, Server.proc, Server.onDb, h1, Cmds.hset, ho]
  · simp [exec, head_get ha, hl, h3, Server.proc, Server.onDb, h1, Cmds.zadd, ho]

/-- What a request does, but for the log. -/
def effect (x : Option (Server × Session × List Bytes)) : Option (List Db × Int × Session × List Bytes) := x.map fun y => (y.1.dbs, y.1.dirty, y.2.1, y.2.2)

theorem open_ok : ([b!"set", b!"lrange", b!"zremrangebyrank", b!"zremrangebyscore"].all fun x => (lookupCommand x).any fun c =>
    decide (c.arity < 0) && decide (c.name ≠ b!"expire") && decide (c.name ≠ b!"setex")) = true := by decide

/-- **C115**, a client's SET, LRANGE, ZREMRANGEBYRANK or ZREMRANGEBYSCORE with more words is answered and carried out as the one without them. -/
theorem C115_client (h : (name, n) ∈ looksAt) (hf : name ∈ [b!"set", b!"lrange", b!"zremrangebyrank", b!"zremrangebyscore"]) (ha : args.head? = some a)
    (hl : e.lower a = name) (hn : n ≤ args.length) : effect (Server.processCommand e args srv s) = effect (Server.processCommand e (args.take n) srv s) := by
  obtain ⟨c, hc, hr, hn0, har⟩ := looks h
  have h0 := head_get ha
  have h1 : (args.take n)[0]? = some a := by rw [List.getElem?_take, if_pos (Nat.pos_of_ne_zero hn0), h0]
  have hopen := List.all_eq_true.1 open_ok _ hf
  simp only [hc, Option.any_some, Bool.and_eq_true, decide_eq_true_eq] at hopen
  obtain ⟨⟨h2, h3⟩, h4⟩ := hopen
  have har : c.arity = -(n : Int) := by rcases har with har | har <;> omega
  have b1 : Server.badArity args.length c.arity = false := by simp only [Server.badArity, har, decide_eq_false_iff_not]; omega
  have b2 : Server.badArity (args.take n).length c.arity = false := by simp only [Server.badArity, har, List.length_take, decide_eq_false_iff_not]; omega
  simp only [Server.processCommand, h0, h1, hl, hc, b1, b2, Option.bind_eq_bind, Option.bind_some, Bool.false_eq_true, if_false]
  split
  · rfl
  · simp only [Server.call, proc_take hr e args, Option.bind_eq_bind, List.take_take, Nat.min_self]
    cases hp : Server.proc c.proc e (args.take n) srv s with
    | none => rfl
    | some x =>
      obtain ⟨srv1, s1, r1⟩ := x
      simp only [Option.bind_some]
      split
      · simp only [Aof.feed, Aof.record, h3, h4, if_false, Option.bind_eq_bind, Option.bind_some, effect, Option.map_some]
      · rfl

/-- **C115 is false**: `SET k v EX 10` sets k, for ever. -/
theorem C115_refuted : ¬ C115 := by
  intro h
  have key : (Server.processCommand (demo 0) [b!"set", b!"k", b!"v", b!"ex", b!"10"] (Server.init 1 [] true) Session.new).map
      (fun x => (x.1.dbs.map fun d => d.dict.size, x.2.2)) = some ([some 1], Reply.ok) := by decide
  obtain ⟨⟨srv', s', r⟩, h1, h2⟩ := Option.map_eq_some_iff.1 key
  have h3 := h (demo 0) b!"set" b!"set" 3 _ _ _ _ _ _ (by decide) rfl rfl (by decide) h1
  have h4 : (srv'.dbs.map fun d => d.dict.size) = [some 1] := congrArg Prod.fst h2
  rw [h3] at h4
  exact absurd h4 (by decide)

/-- There is no deadline, in spite of the words, and there is none after a restart. -/
example : (Server.processCommand (demo 0) [b!"set", b!"k", b!"v", b!"ex", b!"10"] (Server.init 1 [] true) Session.new).bind (fun x =>
    (load readerSize (fun _ => demo 0) x.1.aofBuf (Server.init 1 [] true)).map fun srv => (x.1.dbs.map fun d => d.expire.size, srv.dbs.map fun d => (d.dict.size, d.expire.size))) =
    some ([some 0], [(some 1, some 0)]) := by decide

/-- A client is refused what a record does. -/
example : (exec (demo 0) [b!"expireat", b!"k", b!"1", b!"x"] (Server.init 1 [] true) Session.new).map (fun x => x.1.dbs.map fun d => d.expire.size) = some [some 1] ∧
    (Server.processCommand (demo 0) [b!"expireat", b!"k", b!"1", b!"x"] (Server.init 1 [] true) Session.new).map (fun x => (x.1.dbs.map fun d => d.expire.size, x.2.2)) =
    some ([some 0], Reply.error b!"wrong number of arguments") := by decide

/-- For the log: two records with surplus words. -/
example : load readerSize (fun _ => demo 0) (log [[b!"set", b!"k", b!"v", b!"nx"], [b!"expireat", b!"k", b!"1", b!"x"]]) (Server.init 1 [] true) =
    load readerSize (fun _ => demo 0) (log [[b!"set", b!"k", b!"v"], [b!"expireat", b!"k", b!"1"]]) (Server.init 1 [] true) := by
  refine C115_loaded (demo 0).lower (fun _ => rfl) ?_ (by unfold Whole; decide) (by unfold Whole; decide)
  intro r hr
  simp only [List.mem_cons, List.not_mem_nil, or_false] at hr
  rcases hr with rfl | rfl <;> exact ⟨by decide, by decide, by decide⟩

/-- For clients. -/
example : effect (Server.processCommand (demo 0) [b!"set", b!"k", b!"v", b!"nx"] (Server.init 1 [] true) Session.new) =
    effect (Server.processCommand (demo 0) [b!"set", b!"k", b!"v"] (Server.init 1 [] true) Session.new) :=
  C115_client (name := b!"set") (n := 3) (by decide) (by decide) rfl rfl (by decide)

/-- A record with no words but the key makes an empty list. -/
example : (exec (demo 0) [b!"lpush", b!"k"] (Server.init 1 [] true) Session.new).map (fun x => x.1.dbs.map fun d => d.dict.size) = some [some 1] := by decide

example : load readerSize (fun _ => demo 0) (log [[b!"set", b!"k", b!"v"], [b!"get"]]) (Server.init 1 [] true) = none :=
  C115_stops (i := 1) (args := [b!"get"]) (show parse readerSize _ = some [[b!"set", b!"k", b!"v"], [b!"get"]] by decide) rfl (show (b!"get", 2) ∈ takes by decide) rfl rfl (by decide)

end Metis.Props.WordsP
