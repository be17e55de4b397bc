import Verif.Proofs.Rewrite
import Verif.Props.Log
/-!
Property C49: the file written by a rewrite.
-/
set_option linter.unusedSectionVars false
set_option linter.unusedSimpArgs false
set_option linter.unusedVariables false
set_option synthInstance.maxSize 2000
namespace Metis.Props.RewriteP
open Metis Spec Metis.Props.LogP Metis.Props.AofLoadP Metis.Props.ServerP
variable {hash : Bytes → Nat} {s : Sys}

/-- Time in milliseconds to the second (the direction of rounding is that of Go's division). -/
def wholeSecond (d : Int) : Int := d.tdiv 1000 * 1000

/-- `wholeSecond` is a full second less than one second away. -/
theorem wholeSecond_spec (d : Int) : wholeSecond d % 1000 = 0 ∧ wholeSecond d - d < 1000 ∧ d - wholeSecond d < 1000 ∧ (0 ≤ d → wholeSecond d ≤ d) := by
  have := sec_bounds d
  unfold sec at this
  unfold wholeSecond
  omega

/-- What the replaying server needs of the outside world. -/
def Outside (hash : Bytes → Nat) (lower : Bytes → Bytes) (es : Nat → Env) : Prop := ∀ i, (es i).hash = hash ∧ (es i).lower = lower

/-- The claim of C49 for databases all of whose values satisfy `P`: the databases are copied and written without interruption; loading the file
into a fresh server gives every key the same value and, to the second, the same deadline. -/
def C49on (P : AObj → Prop) : Prop := ∀ (hash : Bytes → Nat) (lower : Bytes → Bytes) (s : Sys) (e : Env) (os cs : List Db) (file pw : Bytes) (es : Nat → Env),
  Reach hash s → e.hash = hash → LowerOk lower → (∀ i k o, s.val i k = some o → P o) → Server.copyAll e s.srv.dbs = some (os, cs) →
  Aof.rewritten e cs = some file → Outside hash lower es →
  ∃ srv', Aof.load Aof.readerSize es file (Server.init s.srv.dbs.length pw true) = some srv' ∧
    ∀ i k, (s.val i k).isSome = true → SameValue (s.val i k) ((restarted srv').val i k) ∧
      (restarted srv').deadline i k = (s.deadline i k).map wholeSecond

/-- The full claim of C49. -/
def C49 : Prop := C49on (fun _ => True)

/-- What a rewrite does to a value that is not a sorted set: lists are reversed, empty collections disappear, the rest stays. -/
def Written : Option AObj → Option AObj → Prop
  | none, o => o = none
  | some (.str a), o => o = some (.str a)
  | some (.list q), o => listOf o = some (Quicklist.elems q).reverse
  | some (.hash f), o => hashOf o = some f
  | some (.set f), o => setOf o = some (fun x => (f x).isSome)
  | some (.zset _), _ => False

def NoZset : AObj → Prop
  | .zset _ => False
  | _ => True

theorem written_of {o o' : Option AObj} (h : Dumped o o') : Written o o' := by
  cases h with
  | missing => rfl
  | str => rfl
  | list w hne h => simp only [Written, listOf]; exact congrArg some h
  | noList h => simp [Written, listOf, h]
  | hash hne => rfl
  | noHash h => simp only [Written, hashOf]; congr 1; funext x; rw [h x]
  | set hne => rfl
  | noSet h => simp only [Written, Spec.setOf]; congr 1; funext x; rw [h x]; rfl

theorem view_new : Db.new.view = .empty := by
  have h1 : Db.new.dict.abs = nil := abs_new
  have h2 : Db.new.expire.abs = nil := abs_new
  simp [Db.view, h1, h2, AS.empty, nil]
  rfl

theorem dump_reach {lower : Bytes → Bytes} (hlow : LowerOk lower) (hs : Reach hash s) {e : Env} (he : e.hash = hash)
    (hz : ∀ i k o, s.val i k = some o → NoZset o) (hn : s.srv.dbs.length < 2 ^ 63) (pw : Bytes) :
    ∃ cs recs, Server.copyAll e s.srv.dbs = some (s.srv.dbs, cs) ∧ Aof.dump e cs = some recs ∧ (∀ r ∈ recs, r ≠ []) ∧
      ∀ es, Outside hash lower es → ∃ srv' s', Aof.replay es recs (Server.init s.srv.dbs.length pw true) Session.new = some (srv', s') ∧
        ∀ i k, Written (s.val i k) ((restarted srv').val i k) ∧
          (restarted srv').deadline i k = if (s.val i k).isSome then (s.deadline i k).map wholeSecond else none := by
  obtain ⟨cs, h1, h2, h3⟩ := copyAll_ref e he s.srv.dbs hs.good.srv
  have hok : ∀ c ∈ cs, DbOk hash c := by
    intro c hc
    obtain ⟨i, hi⟩ := List.getElem?_of_mem hc
    obtain ⟨d, hd⟩ := get_lt (l := s.srv.dbs) (i := i) (by rw [← h2]; exact lt_get hi)
    obtain ⟨c', k1, k2, k3⟩ := h3 i d hd
    rw [hi] at k1; cases k1
    refine ⟨k2, fun k o ho => ?_, ?_⟩
    · rw [k3] at ho
      have hz' := hz i k o (by rw [val_eq hd]; exact ho)
      have hl := reach_lok hs hd
      cases o with
      | zset z => exact hz'
      | list q => exact hl k q ho
      | _ => trivial
    · rw [k3]
      exact reach_inv TOk (fun k d h => by cases h) (fun _ h hp => tok_moved h hp) hs i d hd
  obtain ⟨ch, recs, p1, p2, p0, p3⟩ := chores_replay hlow e he cs 0 hok
  refine ⟨cs, recs, h1, by simp [Aof.dump, p1, p2], p0, fun es hes => ?_⟩
  obtain ⟨srv', s', q1, q2, _, q4⟩ := p3 es hes (Server.init s.srv.dbs.length pw true) Session.new (by simp [Server.init, h2]) (by simpa [Server.init] using hn)
    (fun j d _ hd => by
      have : d = Db.new := by
        simp only [Server.init, List.getElem?_replicate] at hd
        split at hd
        · cases hd; rfl
        · cases hd
      subst this
      exact ⟨db_new_good, view_new⟩)
  refine ⟨srv', s', q1, fun i k => ?_⟩
  cases hd : s.srv.dbs[i]? with
  | none =>
    have hd2 : (restarted srv').srv.dbs[i]? = none := get_of_len (by simp [restarted, q2, Server.init]) hd
    simp [Sys.val, Sys.deadline, hd, hd2, Written]
  | some d =>
    obtain ⟨c, k1, k2, k3⟩ := h3 i d hd
    obtain ⟨d', j1, j2, j3⟩ := q4 i c k1
    rw [Nat.zero_add] at j1
    have e1 : (restarted srv').srv.dbs[i]? = some d' := j1
    rw [val_eq hd, val_eq e1, deadline_eq hd, deadline_eq e1]
    rw [k3] at j3
    exact ⟨written_of (j3.vals k), j3.times k⟩

/-- **C49** for databases without sorted sets, of any contents and sizes: the rewrite succeeds, and executing the commands it writes gives
every string, hash and set back (empty ones excepted, which disappear), every list in reverse, and every deadline to the second. -/
theorem C49_replay_partial {lower : Bytes → Bytes} (hlow : LowerOk lower) (hs : Reach hash s) {e : Env} (he : e.hash = hash)
    (hz : ∀ i k o, s.val i k = some o → NoZset o) (hn : s.srv.dbs.length < 2 ^ 63) (pw : Bytes) :
    ∃ cs recs, Server.copyAll e s.srv.dbs = some (s.srv.dbs, cs) ∧ Aof.dump e cs = some recs ∧
      ∀ es, Outside hash lower es → ∃ srv' s', Aof.replay es recs (Server.init s.srv.dbs.length pw true) Session.new = some (srv', s') ∧
        ∀ i k, Written (s.val i k) ((restarted srv').val i k) ∧
          (restarted srv').deadline i k = if (s.val i k).isSome then (s.deadline i k).map wholeSecond else none := by
  obtain ⟨cs, recs, h1, h2, _, h3⟩ := dump_reach hlow hs he hz hn pw
  exact ⟨cs, recs, h1, h2, h3⟩

theorem cats_log (recs : List (List Bytes)) : (recs.map Aof.cat).flatten = log recs := by
  unfold log
  congr 1
  exact List.map_congr_left (fun r _ => Aof.cat_spec r)

/-- **C49** for databases without sorted sets and `Readable` files (all files of at most 65536 bytes, and all in which no data are cut by the
end of a window of this size), down to the bytes of the file. -/
theorem C49_file_partial {lower : Bytes → Bytes} (hlow : LowerOk lower) (hs : Reach hash s) {e : Env} (he : e.hash = hash)
    (hz : ∀ i k o, s.val i k = some o → NoZset o) (hn : s.srv.dbs.length < 2 ^ 63) {os cs : List Db} {file pw : Bytes} {es : Nat → Env}
    (hc : Server.copyAll e s.srv.dbs = some (os, cs)) (hf : Aof.rewritten e cs = some file) (hl : Readable file) (hes : Outside hash lower es) :
    ∃ srv', Aof.load Aof.readerSize es file (Server.init s.srv.dbs.length pw true) = some srv' ∧
      ∀ i k, Written (s.val i k) ((restarted srv').val i k) ∧
        (restarted srv').deadline i k = if (s.val i k).isSome then (s.deadline i k).map wholeSecond else none := by
  obtain ⟨cs', recs, h1, h2, h0, h3⟩ := dump_reach hlow hs he hz hn pw
  rw [h1] at hc; cases hc
  simp only [Aof.rewritten, h2, Option.map_some, Option.some.injEq, cats_log] at hf
  subst hf
  obtain ⟨srv', s', q1, q2⟩ := h3 es hes
  have hload := C45_partial recs (records_of_log h0 hl.1) (hl.2 recs (records_of_log h0 hl.1) rfl) es (Server.init s.srv.dbs.length pw true)
  rw [q1] at hload
  exact ⟨srv', hload, q2⟩

/-- Values that a rewrite keeps: no sorted sets, no empty collections, lists that read the same in both directions. -/
def Safe : AObj → Prop
  | .str _ => True
  | .list q => Quicklist.elems q ≠ [] ∧ (Quicklist.elems q).reverse = Quicklist.elems q
  | .hash f => ∃ x, f x ≠ none
  | .set f => ∃ x, f x ≠ none
  | .zset _ => False

theorem same_written {o o' : Option AObj} (h : Written o o') (hs : ∀ x, o = some x → Safe x) : SameValue o o' := by
  cases o with
  | none => rw [show o' = none from h]; trivial
  | some x =>
    have hx := hs x rfl
    cases x with
    | str a => rw [show o' = some (.str a) from h]; rfl
    | zset z => exact hx.elim
    | list q =>
      have h : listOf o' = some (Quicklist.elems q).reverse := h
      match o', h with
      | none, h => simp only [listOf, Option.some.injEq] at h; exact absurd (by rw [← hx.2, ← h]) hx.1
      | some (.list q'), h =>
        simp only [listOf, Option.some.injEq] at h
        have h' : Quicklist.elems q' = (Quicklist.elems q).reverse := h
        show Quicklist.elems q = Quicklist.elems q'
        rw [h', hx.2]
    | hash f =>
      have h : hashOf o' = some f := h
      match o', h with
      | none, h => simp only [hashOf, Option.some.injEq] at h; obtain ⟨x, hx⟩ := hx; exact absurd (by rw [← h]) hx
      | some (.hash f'), h => simp only [hashOf, Option.some.injEq] at h; exact h.symm
    | set f =>
      have h : setOf o' = some (fun x => (f x).isSome) := h
      match o', h with
      | none, h =>
        simp only [Spec.setOf, Option.some.injEq] at h
        obtain ⟨x, hx⟩ := hx
        have := congrFun h x
        cases hf : f x with
        | none => exact absurd hf hx
        | some _ => rw [hf] at this; cases this
      | some (.set f'), h =>
        simp only [Spec.setOf, Option.some.injEq] at h
        show f = f'
        funext x
        have := congrFun h x
        cases h1 : f x <;> cases h2 : f' x <;> simp_all

/-- **C49** for databases whose values are strings, non-empty hashes and sets, and palindromic lists: everything is kept. -/
theorem C49_safe_partial {lower : Bytes → Bytes} (hlow : LowerOk lower) (hs : Reach hash s) {e : Env} (he : e.hash = hash)
    (hz : ∀ i k o, s.val i k = some o → Safe o) (hn : s.srv.dbs.length < 2 ^ 63) {os cs : List Db} {file pw : Bytes} {es : Nat → Env}
    (hc : Server.copyAll e s.srv.dbs = some (os, cs)) (hf : Aof.rewritten e cs = some file) (hl : Readable file) (hes : Outside hash lower es) :
    ∃ srv', Aof.load Aof.readerSize es file (Server.init s.srv.dbs.length pw true) = some srv' ∧
      ∀ i k, (s.val i k).isSome = true → SameValue (s.val i k) ((restarted srv').val i k) ∧
        (restarted srv').deadline i k = (s.deadline i k).map wholeSecond := by
  obtain ⟨srv', h1, h2⟩ := C49_file_partial hlow hs he (fun i k o ho => by have := hz i k o ho; cases o <;> first | trivial | exact this) hn hc hf hl hes
  refine ⟨srv', h1, fun i k hk => ⟨same_written (h2 i k).1 (fun x hx => hz i k x hx), ?_⟩⟩
  rw [(h2 i k).2, if_pos hk]

/-! Non-vacuity: values of all kinds, more fields than fit into one command, two databases, deadlines. -/

/-- Databases after some commands, rewritten and loaded: the visible values before and after. -/
def trip {α : Type} (cmds : List (List Bytes)) (look : Sys → α) : Option (Bool × α × α) :=
  (after cmds).bind (fun s => (Server.copyAll (demo 1000) s.srv.dbs).bind (fun p => (Aof.rewritten (demo 1000) p.2).bind (fun file =>
    (Aof.load Aof.readerSize (fun _ => demo 5000) file (Server.init 2 [] true)).map (fun srv => (decide (file.length ≤ 65536), look s, look (restarted srv))))))

set_option maxRecDepth 8000 in
example : trip [[b!"set", b!"k", b!"v"], [b!"hset", b!"h", b!"f", b!"g"], [b!"sadd", b!"s", b!"a"], [b!"rpush", b!"l", b!"x", b!"y", b!"x"],
      [b!"expire", b!"k", b!"100"], [b!"select", b!"1"], [b!"sadd", b!"s", b!"b"]]
    (fun s => ((hashOf (s.val 0 b!"h")).map (fun f => f b!"f"), (setOf (s.val 0 b!"s")).map (fun f => (f b!"a", f b!"b")), listOf (s.val 0 b!"l"),
      s.deadline 0 b!"k", (setOf (s.val 1 b!"s")).map (fun f => (f b!"a", f b!"b")))) =
    some (true, (some (some b!"g"), some (true, false), some [b!"x", b!"y", b!"x"], some 101000, some (false, true)),
      (some (some b!"g"), some (true, false), some [b!"x", b!"y", b!"x"], some 101000, some (false, true))) := by decide

theorem listOf_same {o o' : Option AObj} (h : SameValue o o') : listOf o = listOf o' := by
  cases o with
  | none => cases o' with
    | none => rfl
    | some o' => exact h.elim
  | some o => cases o' with
    | none => cases o <;> exact h.elim
    | some o' => cases o <;> cases o' <;> first | exact h.elim | rfl | exact congrArg some h

/-- **C49 is false**: a list comes back in reverse. -/
theorem C49_refuted : ¬ C49 := by
  intro h
  have key : trip [[b!"rpush", b!"l", b!"x", b!"y"]] (fun s => (s.srv.dbs.length, (s.val 0 b!"l").isSome, listOf (s.val 0 b!"l"))) =
    some (true, (2, true, some [b!"x", b!"y"]), (2, true, some [b!"y", b!"x"])) := by decide
  simp only [trip, Option.bind_eq_some_iff, Option.map_eq_some_iff] at key
  obtain ⟨s, hs, ⟨os, cs⟩, h1, file, h2, srv, h3, h4⟩ := key
  simp only [Prod.mk.injEq] at h4
  obtain ⟨_, ⟨h4, h5, h6⟩, _, _, h7⟩ := h4
  obtain ⟨srv', k1, k2⟩ := h _ (demo 0).lower s (demo 1000) os cs file [] (fun _ => demo 5000) (after_reach hs) rfl (fun _ _ => rfl) (fun _ _ _ _ => trivial) h1 h2
    (fun _ => ⟨rfl, rfl⟩)
  rw [h4, h3] at k1; cases k1
  have := listOf_same (k2 0 b!"l" h5).1
  rw [h6, h7] at this
  cases this

/-- A key that holds a sorted set: its scores. -/
def scoresOf : Option AObj → Option (Bytes → Option F64)
  | some (.zset z) => some z.f
  | _ => none

theorem scoresOf_same {o o' : Option AObj} (h : SameValue o o') : scoresOf o = scoresOf o' := by
  cases o with
  | none => cases o' with
    | none => rfl
    | some o' => exact h.elim
  | some o => cases o' with
    | none => cases o <;> exact h.elim
    | some o' => cases o <;> cases o' <;> first | exact h.elim | rfl | exact congrArg some h

def IsZset : AObj → Prop
  | .zset _ => True
  | _ => False

instance : DecidablePred IsZset := fun o => by cases o <;> unfold IsZset <;> infer_instance

/-- The commands of the refutation below leave nothing but a sorted set. -/
theorem only_zset {s : Sys} (hs : after [[b!"zadd", b!"z", b!"1", b!"m"]] = some s) : ∀ i k o, s.val i k = some o → IsZset o := by
  have key : (after [[b!"zadd", b!"z", b!"1", b!"m"]]).map (fun s => s.srv.dbs.map (fun d => d.dict.toList.map (fun p => decide (IsZset p.2.view)))) = some [[true], []] := by
    decide
  rw [hs] at key
  simp only [Option.map_some, Option.some.injEq] at key
  intro i k o ho
  cases hd : s.srv.dbs[i]? with
  | none => simp [Sys.val, hd] at ho
  | some d =>
    rw [val_eq hd] at ho
    have g := (after_reach hs).good.srv i d hd
    simp only [Db.view, Option.map_eq_some_iff] at ho
    obtain ⟨x, hx, rfl⟩ := ho
    have hm := (Dict.abs_eq_some g.dict.inv k x).1 hx
    have h1 : (s.srv.dbs.map (fun d => d.dict.toList.map (fun p => decide (IsZset p.2.view))))[i]? = some (d.dict.toList.map (fun p => decide (IsZset p.2.view))) := by
      rw [List.getElem?_map, hd]; rfl
    rw [key] at h1
    have h2 : decide (IsZset x.view) ∈ d.dict.toList.map (fun p => decide (IsZset p.2.view)) := List.mem_map.2 ⟨(k, x), hm, rfl⟩
    match i, h1 with
    | 0, h1 =>
      simp only [List.getElem?_cons_zero, Option.some.injEq] at h1
      rw [← h1] at h2
      simpa using h2
    | 1, h1 =>
      simp only [List.getElem?_cons_succ, List.getElem?_cons_zero, Option.some.injEq] at h1
      rw [← h1] at h2
      cases h2
    | i + 2, h1 => simp at h1

/-- **C49 is false** for sorted sets as well: member and score are written in the wrong order. -/
theorem C49_zset_refuted : ¬ C49on IsZset := by
  intro h
  have key : trip [[b!"zadd", b!"z", b!"1", b!"m"]] (fun s => (s.srv.dbs.length, (s.val 0 b!"z").isSome, (scoresOf (s.val 0 b!"z")).map (fun f => (f b!"m").isSome))) =
    some (true, (2, true, some true), (2, true, some false)) := by decide
  simp only [trip, Option.bind_eq_some_iff, Option.map_eq_some_iff] at key
  obtain ⟨s, hs, ⟨os, cs⟩, h1, file, h2, srv, h3, h4⟩ := key
  simp only [Prod.mk.injEq] at h4
  obtain ⟨_, ⟨h4, h5, h6⟩, _, _, h7⟩ := h4
  obtain ⟨srv', k1, k2⟩ := h _ (demo 0).lower s (demo 1000) os cs file [] (fun _ => demo 5000) (after_reach hs) rfl (fun _ _ => rfl) (only_zset hs) h1 h2
    (fun _ => ⟨rfl, rfl⟩)
  rw [h4, h3] at k1; cases k1
  have := scoresOf_same (k2 0 b!"z" h5).1
  rw [this] at h6
  rw [h6] at h7
  cases h7

end Metis.Props.RewriteP
