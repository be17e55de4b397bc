import Verif.Proofs.Lapse
import Verif.Props.Log
/-!
Property C88: expiry and restarts.
-/
set_option linter.unusedSectionVars false
set_option linter.unusedSimpArgs false
set_option linter.unusedVariables false
namespace Metis.Props.LapseP
open Metis Spec
open _root_.Metis.Props.LogP (SameValue second restarted same_of demo_levels demo_numbers)
open _root_.Metis.Props.AofLoadP (C45_partial)
variable {hash : Bytes → Nat} {s s' : Sys}

/-- The full claim of C88: after any history without random choices, in which keys may pass their deadline at any time, a restart at time `T` shows the
clients the same values as the running server would (deadlines in the second of the restart apart). -/
def C88 : Prop := ∀ (hash : Bytes → Nat) (lower : Bytes → Bytes) (pf : Bytes → Option F64) (T : Int) (n : Nat) (pw : Bytes) (evs : List Event) (s : Sys)
  (rs : List (List Bytes)) (es : Nat → Env), LowerOk lower → n < 2 ^ 63 → (∀ ev ∈ evs, EvOk hash ev ∧ Assured lower pf T ev) → Clocked 0 evs →
  Sys.run (Sys.init n pw true) evs = some (s, rs) → Readable s.srv.aofBuf → (∀ i, World hash lower pf T (es i)) →
  ∃ srv', Aof.load Aof.readerSize es s.srv.aofBuf (Server.init n pw true) = some srv' ∧
    ∀ i k, (∀ d, s.deadline i k = some d → d < T ∨ T ≤ second d) → SameValue (seen s T i k) (seen (restarted srv') T i k)

theorem same_refl (o : Option AObj) : SameValue o o := by
  cases o with
  | none => trivial
  | some o => cases o <;> exact rfl

theorem dead_shown {T : Int} {v : Option AObj} {t : Option Int} (h : Dead T v t) : shown T v t = none := by
  rcases h with ⟨h1, h2⟩ | ⟨d, h1, h2⟩
  · subst h1; subst h2; rfl
  · subst h1; simp only [shown]; rw [if_pos h2]

/-- **C88** for histories that respect two rules (`Minds`) about the keys that have ever had a deadline before the restart: HSET, SADD, LPUSH, RPUSH, ZADD,
EXPIRE and EXPIREAT, which do not look at deadlines, are used on them only while they are there; and nothing is taken (HDEL, SREM, LPOP, RPOP, ZREM,
ZREMRANGEBYSCORE) from a value that has such a deadline before it. Values of all types may expire, be dropped (by a command that looks at
them, KEYS, the timer) or not, and be set again with SET and SETEX: the restarted server shows the same values and the same deadlines to
the second. Without either rule the claim fails (`C88_refuted`, `C88_refuted_risen`). -/
theorem C88_partial {lower : Bytes → Bytes} {pf : Bytes → Option F64} {T : Int} {n : Nat} {pw : Bytes} {evs : List Event}
    {rs : List (List Bytes)} {es : Nat → Env} (hlow : LowerOk lower) (hn : n < 2 ^ 63) (hT : 0 ≤ T) (hev : ∀ ev ∈ evs, EvOk hash ev ∧ Assured lower pf T ev)
    (hc : Clocked 0 evs) (hm : AllMind T (fun _ _ => False) (Sys.init n pw true) evs)
    (h : Sys.run (Sys.init n pw true) evs = some (s, rs)) (hlog : Readable s.srv.aofBuf) (hes : ∀ i, World hash lower pf T (es i)) :
    ∃ srv', Aof.load Aof.readerSize es s.srv.aofBuf (Server.init n pw true) = some srv' ∧
      ∀ i k, (∀ d, s.deadline i k = some d → d < T ∨ T ≤ second d) → SameValue (seen s T i k) (seen (restarted srv') T i k) ∧
        (seen s T i k ≠ none → (restarted srv').deadline i k = (s.deadline i k).map second) := by
  obtain ⟨B, recs, k1, k2, k3⟩ := linv_run (n := n) (pw := pw) hlow evs (by simpa [Sys.init, Server.init] using hn) rfl (init_good n pw true) hev hc hm h
    (linv_init n pw)
  obtain ⟨srv2, s2, q1, q2, q3⟩ := k3 es hes
  have hlast := last_le evs hT (fun ev h => (hev ev h).2)
  rw [k1] at hlog ⊢
  have hload := C45_partial recs (records_of_log k2 hlog.1) (hlog.2 recs (records_of_log k2 hlog.1) rfl) es (Server.init n pw true)
  rw [q1] at hload
  refine ⟨srv2, hload, fun i k hdl => ?_⟩
  cases hd : s.srv.dbs[i]? with
  | none =>
    have hd2 := get_of_len q3.len hd
    simp [seen, shown, Sys.val, Sys.deadline, restarted, hd, hd2, SameValue]
  | some d =>
    obtain ⟨d2, hd2, _, hs⟩ := q3.get hd
    have e1 : (restarted srv2).srv.dbs[i]? = some d2 := hd2
    unfold seen
    rw [deadline_eq hd] at hdl
    rw [val_eq hd, val_eq e1, deadline_eq hd, deadline_eq e1]
    have main : SameValue (d.view.v k) (d2.view.v k) → d2.view.t k = (d.view.t k).map fl →
        SameValue (shown T (d.view.v k) (d.view.t k)) (shown T (d2.view.v k) (d2.view.t k)) ∧
        (shown T (d.view.v k) (d.view.t k) ≠ none → d2.view.t k = (d.view.t k).map second) := by
      intro h1 h2
      refine ⟨?_, fun _ => h2⟩
      rw [h2]
      cases ht : d.view.t k with
      | none => exact h1
      | some x =>
        simp only [Option.map_some, shown]
        have := fl_le x
        rcases hdl x ht with hx | hx
        · rw [if_pos hx, if_pos (by omega)]; trivial
        · have hx : T ≤ fl x := hx
          rw [if_neg (by omega), if_neg (by omega)]
          exact h1
    by_cases hB : B i k
    · rcases hs.brief k hB with ⟨h1, h2⟩ | ⟨h1, h2⟩
      · exact main (same_of h1) h2
      · rw [dead_shown (h1.later hlast), dead_shown h2]
        exact ⟨trivial, fun h => absurd rfl h⟩
    · obtain ⟨h1, h2, _⟩ := hs.intact k hB
      exact main (same_of h1) h2

/-! ### Two ways in which the claim fails -/

/-- A history, a restart at time 3000, and whether there is anything under `k`: before, after; and its deadline before the restart. -/
def reborn (k : Bytes) (evs : List Event) : Option (Bool × Bool × Option Int) :=
  (Sys.run (Sys.init 1 [] true) evs).bind (fun p =>
    (Aof.load Aof.readerSize (fun _ => demo 3000) p.1.srv.aofBuf (Server.init 1 [] true)).map (fun srv =>
      ((seen p.1 3000 0 k).isSome, (seen (restarted srv) 3000 0 k).isSome, p.1.deadline 0 k)))

/-- A hash expires, is dropped by HGET, and is created again. -/
def again : List Event :=
  [.connect 4, .request 4 (demo 1000) [b!"hset", b!"h", b!"f", b!"v"], .request 4 (demo 1000) [b!"expireat", b!"h", b!"2"],
   .request 4 (demo 3000) [b!"hget", b!"h", b!"f"], .request 4 (demo 3000) [b!"hset", b!"h", b!"g", b!"w"]]

/-- A set gets a deadline, loses a member and gains one, and expires. -/
def ended : List Event :=
  [.connect 4, .request 4 (demo 1000) [b!"sadd", b!"s", b!"a", b!"b"], .request 4 (demo 1000) [b!"expireat", b!"s", b!"2"],
   .request 4 (demo 1500) [b!"srem", b!"s", b!"a"], .request 4 (demo 1600) [b!"sadd", b!"s", b!"c"]]

set_option maxRecDepth 8000 in
theorem again_lost : reborn b!"h" again = some (true, false, none) := by decide

set_option maxRecDepth 8000 in
theorem ended_risen : reborn b!"s" ended = some (false, true, some 2000) := by decide

theorem request_ok {now : Int} (fd : Nat) (args : List Bytes) (cmd : Cmd) (h0 : 0 ≤ now) (h1 : now ≤ 3000) (h2 : commandOf (demo now) args = some cmd)
    (h3 : Certain (demo now) cmd args) : EvOk (demo 3000).hash (.request fd (demo now) args) ∧
      Assured (demo 3000).lower (demo 3000).parseFloat 3000 (.request fd (demo now) args) :=
  ⟨rfl, h0, h1, rfl, rfl, demo_levels, fun c hc => by rw [h2] at hc; cases hc; exact h3⟩

theorem at_two (now : Int) (a b : Bytes) : Certain (demo now) .expireat [a, b, b!"2"] := by
  intro x n h1 h2
  cases h1
  have : atoi b!"2" = some 2 := by decide
  rw [this] at h2; cases h2
  decide

theorem again_ok : ∀ ev ∈ again, EvOk (demo 3000).hash ev ∧ Assured (demo 3000).lower (demo 3000).parseFloat 3000 ev := by
  intro ev hev
  simp only [again, List.mem_cons, List.not_mem_nil, or_false] at hev
  rcases hev with rfl | rfl | rfl | rfl | rfl
  · exact ⟨trivial, trivial⟩
  · exact request_ok _ _ .hset (by decide) (by decide) (by decide) trivial
  · exact request_ok _ _ .expireat (by decide) (by decide) (by decide) (at_two _ _ _)
  · exact request_ok _ _ .hget (by decide) (by decide) (by decide) trivial
  · exact request_ok _ _ .hset (by decide) (by decide) (by decide) trivial

theorem ended_ok : ∀ ev ∈ ended, EvOk (demo 3000).hash ev ∧ Assured (demo 3000).lower (demo 3000).parseFloat 3000 ev := by
  intro ev hev
  simp only [ended, List.mem_cons, List.not_mem_nil, or_false] at hev
  rcases hev with rfl | rfl | rfl | rfl | rfl
  · exact ⟨trivial, trivial⟩
  · exact request_ok _ _ .sadd (by decide) (by decide) (by decide) trivial
  · exact request_ok _ _ .expireat (by decide) (by decide) (by decide) (at_two _ _ _)
  · exact request_ok _ _ .srem (by decide) (by decide) (by decide) trivial
  · exact request_ok _ _ .sadd (by decide) (by decide) (by decide) trivial

theorem refute (evs : List Event) (k : Bytes) (b : Bool) (dl : Option Int) (hev : ∀ ev ∈ evs, EvOk (demo 3000).hash ev ∧ Assured (demo 3000).lower (demo 3000).parseFloat 3000 ev)
    (hc : Clocked 0 evs) (hdl : ∀ d, dl = some d → d < 3000) (hsmall : (Sys.run (Sys.init 1 [] true) evs).map (fun p => decide (p.1.srv.aofBuf.length ≤ 65536)) = some true)
    (h : reborn k evs = some (b, !b, dl)) : ¬ C88 := by
  intro claim
  simp only [reborn, Option.bind_eq_some_iff, Option.map_eq_some_iff] at h
  obtain ⟨⟨s, rs⟩, h1, srv, h2, h3⟩ := h
  simp only [Prod.mk.injEq] at h3
  obtain ⟨h3, h4, h5⟩ := h3
  rw [h1] at hsmall
  simp only [Option.map_some, Option.some.injEq, decide_eq_true_eq] at hsmall
  obtain ⟨srv', k1, k2⟩ := claim _ _ _ 3000 1 [] evs s rs (fun _ => demo 3000) (fun _ _ => rfl) (by decide) hev hc h1 (Aof.readable_small hsmall)
    (fun _ => ⟨rfl, rfl, rfl, by decide, demo_levels⟩)
  simp only at h2
  rw [h2] at k1; cases k1
  have := k2 0 k (fun d hd => Or.inl (by rw [h5] at hd; exact hdl d hd))
  have hsome : (seen s 3000 0 k).isSome = (seen (restarted srv) 3000 0 k).isSome := by
    revert this
    cases seen s 3000 0 k <;> cases seen (restarted srv) 3000 0 k <;> intro h <;> first | rfl | exact h.elim | skip
    next o => cases o <;> exact h.elim
  rw [h3, h4] at hsome
  cases b <;> cases hsome

set_option maxRecDepth 8000 in
/-- **C88 is false**: that a key past its deadline was dropped is not logged, so that what is stored under it afterwards is lost. -/
theorem C88_refuted : ¬ C88 :=
  refute again b!"h" true none again_ok (by simp [again, Clocked, clock, demo]) (fun d h => by cases h) (by decide) again_lost

set_option maxRecDepth 8000 in
/-- … and a key past its deadline can come back: the replayed SREM takes the key for expired, though it was not when it was executed, and the
replayed SADD creates it without a deadline. -/
theorem C88_refuted_risen : ¬ C88 :=
  refute ended b!"s" false (some 2000) ended_ok (by simp [ended, Clocked, clock, demo]) (fun d h => by cases h; decide) (by decide) ended_risen

/-! ### Non-vacuity -/

/-- `Minds`, computed. -/
def mindsB (T : Int) (D : Nat → Bytes → Bool) (s : Sys) : Event → Bool
  | .request fd e args =>
    match s.sess fd, commandOf e args, args[1]? with
    | some c, some cmd, some k =>
      (!(heedless cmd && D c.db k) || (seen s e.now c.db k).isSome) &&
      (!removes cmd || match s.deadline c.db k with | none => true | some d => decide (d < e.now) || decide (T ≤ d / 1000 * 1000))
    | _, _, _ => true
  | _ => true

def sofarB (T : Int) (D : Nat → Bytes → Bool) (s : Sys) : Nat → Bytes → Bool :=
  fun i k => D i k || match s.deadline i k with | none => false | some d => decide (d / 1000 * 1000 < T)

def allMindB (T : Int) : (Nat → Bytes → Bool) → Sys → List Event → Bool
  | _, _, [] => true
  | D, s, ev :: rest => mindsB T D s ev && match Sys.step s ev with | none => true | some p => allMindB T (sofarB T D p.1) p.1 rest

theorem minds_of {T : Int} {D : Nat → Bytes → Bool} {ev : Event} (h : mindsB T D s ev = true) : Minds (fun i k => D i k = true) T s ev := by
  cases ev with
  | request fd e args =>
    intro c cmd k hc hcmd hk
    simp only [mindsB, hc, hcmd, hk, Bool.and_eq_true, Bool.or_eq_true, Bool.not_eq_true'] at h
    obtain ⟨h1, h2⟩ := h
    refine ⟨fun hh hD hn => ?_, fun hr d hd hle => ?_⟩
    · rcases h1 with h1 | h1
      · rw [hh, hD] at h1; cases h1
      · rw [hn] at h1; cases h1
    · rcases h2 with h2 | h2
      · rw [hr] at h2; cases h2
      · rw [hd] at h2
        simp only [Bool.or_eq_true, decide_eq_true_eq] at h2
        omega
  | _ => trivial

theorem sofar_of (T : Int) (D : Nat → Bytes → Bool) (s : Sys) : sofar T (fun i k => D i k = true) s = fun i k => sofarB T D s i k = true := by
  funext i k
  unfold sofar sofarB
  cases s.deadline i k <;> simp

theorem allMind_of {T : Int} : ∀ (evs : List Event) (D : Nat → Bytes → Bool) (s : Sys), allMindB T D s evs = true →
    AllMind T (fun i k => D i k = true) s evs
  | [], _, _, _ => trivial
  | ev :: rest, D, s, h => by
    simp only [allMindB, Bool.and_eq_true] at h
    refine ⟨minds_of h.1, fun s' r hs => ?_⟩
    have h2 := h.2
    rw [hs] at h2
    rw [sofar_of]
    exact allMind_of rest _ s' h2

theorem allMind_init {T : Int} {evs : List Event} {s : Sys} (h : allMindB T (fun _ _ => false) s evs = true) : AllMind T (fun _ _ => False) s evs := by
  have := allMind_of evs _ s h
  simpa using this

/-- Strings expire, are dropped by GET, are set again, get other deadlines; one is there at time 3000. -/
def strings : List Event :=
  [.connect 4, .request 4 (demo 0) [b!"setex", b!"k", b!"1", b!"v"], .request 4 (demo 1500) [b!"get", b!"k"], .request 4 (demo 1500) [b!"set", b!"k", b!"w"],
   .request 4 (demo 1600) [b!"expireat", b!"k", b!"2"], .request 4 (demo 1700) [b!"set", b!"j", b!"x"], .request 4 (demo 2500) [b!"sadd", b!"s", b!"a"],
   .request 4 (demo 2600) [b!"set", b!"i", b!"y"], .request 4 (demo 2600) [b!"expireat", b!"i", b!"2"]]

set_option maxRecDepth 8000 in
example : (∀ ev ∈ strings, EvOk (demo 3000).hash ev ∧ Assured (demo 3000).lower (demo 3000).parseFloat 3000 ev) ∧ Clocked 0 strings ∧
    AllMind 3000 (fun _ _ => False) (Sys.init 1 [] true) strings ∧ reborn b!"k" strings = some (false, false, some 2000) ∧
    reborn b!"j" strings = some (true, true, none) ∧ reborn b!"i" strings = some (false, false, some 2000) ∧ reborn b!"s" strings = some (true, true, none) := by
  refine ⟨?_, by simp [strings, Clocked, clock, demo], allMind_init (by decide), by decide, by decide, by decide, by decide⟩
  intro ev hev
  simp only [strings, List.mem_cons, List.not_mem_nil, or_false] at hev
  rcases hev with rfl | rfl | rfl | rfl | rfl | rfl | rfl | rfl | rfl
  · exact ⟨trivial, trivial⟩
  · refine request_ok _ _ .setex (by decide) (by decide) (by decide) ?_
    intro x n h1 h2
    cases h1
    have : atoi b!"1" = some 1 := by decide
    rw [this] at h2; cases h2
    decide
  · exact request_ok _ _ .get (by decide) (by decide) (by decide) trivial
  · exact request_ok _ _ .set (by decide) (by decide) (by decide) trivial
  · exact request_ok _ _ .expireat (by decide) (by decide) (by decide) (at_two _ _ _)
  · exact request_ok _ _ .set (by decide) (by decide) (by decide) trivial
  · exact request_ok _ _ .sadd (by decide) (by decide) (by decide) trivial
  · exact request_ok _ _ .set (by decide) (by decide) (by decide) trivial
  · exact request_ok _ _ .expireat (by decide) (by decide) (by decide) (at_two _ _ _)

/-- A hash with a deadline gets a further field while it is there, and a later deadline, which passes; it is dropped by HGET. A set expires unnoticed. A
list is given a deadline and made a string by SET afterwards. Another set is there at time 3000, a member has been taken from it. -/
def various : List Event :=
  [.connect 4, .request 4 (demo 0) [b!"hset", b!"h", b!"f", b!"v"], .request 4 (demo 0) [b!"expireat", b!"h", b!"1"],
   .request 4 (demo 900) [b!"hset", b!"h", b!"g", b!"w"], .request 4 (demo 900) [b!"expireat", b!"h", b!"2"],
   .request 4 (demo 1500) [b!"sadd", b!"s", b!"a", b!"b"], .request 4 (demo 1500) [b!"srem", b!"s", b!"a"], .request 4 (demo 1600) [b!"expireat", b!"s", b!"2"],
   .request 4 (demo 1700) [b!"rpush", b!"l", b!"x"], .request 4 (demo 1700) [b!"expireat", b!"l", b!"2"],
   .request 4 (demo 2500) [b!"hget", b!"h", b!"f"], .request 4 (demo 2500) [b!"set", b!"l", b!"y"],
   .request 4 (demo 2600) [b!"sadd", b!"t", b!"a", b!"c"], .request 4 (demo 2600) [b!"srem", b!"t", b!"a"]]

set_option maxRecDepth 8000 in
example : (∀ ev ∈ various, EvOk (demo 3000).hash ev ∧ Assured (demo 3000).lower (demo 3000).parseFloat 3000 ev) ∧ Clocked 0 various ∧
    AllMind 3000 (fun _ _ => False) (Sys.init 1 [] true) various ∧ reborn b!"h" various = some (false, false, none) ∧
    reborn b!"s" various = some (false, false, some 2000) ∧ reborn b!"l" various = some (true, true, none) ∧ reborn b!"t" various = some (true, true, none) := by
  refine ⟨?_, by simp [various, Clocked, clock, demo], allMind_init (by decide), by decide, by decide, by decide, by decide⟩
  intro ev hev
  simp only [various, List.mem_cons, List.not_mem_nil, or_false] at hev
  rcases hev with rfl | rfl | rfl | rfl | rfl | rfl | rfl | rfl | rfl | rfl | rfl | rfl | rfl | rfl
  · exact ⟨trivial, trivial⟩
  · exact request_ok _ _ .hset (by decide) (by decide) (by decide) trivial
  · refine request_ok _ _ .expireat (by decide) (by decide) (by decide) ?_
    intro x n h1 h2
    cases h1
    have : atoi b!"1" = some 1 := by decide
    rw [this] at h2; cases h2
    decide
  · exact request_ok _ _ .hset (by decide) (by decide) (by decide) trivial
  · exact request_ok _ _ .expireat (by decide) (by decide) (by decide) (at_two _ _ _)
  · exact request_ok _ _ .sadd (by decide) (by decide) (by decide) trivial
  · exact request_ok _ _ .srem (by decide) (by decide) (by decide) trivial
  · exact request_ok _ _ .expireat (by decide) (by decide) (by decide) (at_two _ _ _)
  · exact request_ok _ _ .rpush (by decide) (by decide) (by decide) trivial
  · exact request_ok _ _ .expireat (by decide) (by decide) (by decide) (at_two _ _ _)
  · exact request_ok _ _ .hget (by decide) (by decide) (by decide) trivial
  · exact request_ok _ _ .set (by decide) (by decide) (by decide) trivial
  · exact request_ok _ _ .sadd (by decide) (by decide) (by decide) trivial
  · exact request_ok _ _ .srem (by decide) (by decide) (by decide) trivial

end Metis.Props.LapseP
