import Verif.Props.Levels
import Verif.Proofs.Timer
import Verif.Proofs.Book
import Verif.Spec.Demo
/-!
Property C86: whether and when the expiry timer runs cannot be observed by clients.
-/
set_option linter.unusedSectionVars false
set_option linter.unusedSimpArgs false
set_option linter.unusedVariables false
namespace Metis.Props.TimerP
open Metis Spec
open _root_.Metis.Props.ApartP (SameR Same2R BothR Inside Fixed Alike all insideD)
open _root_.Metis.Props.LevelsP (inside_all)
variable {hash : Bytes → Nat} {s s' t t' : Sys}

/-- The full claim of C86: a server whose timer has been running tells its clients the same as one whose timer never fires. -/
def C86 : Prop := ∀ (hash : Bytes → Nat) (n : Nat) (pw : Bytes) (aof : Bool) (T : Int) (evs : List Event) (s : Sys) (rs : List (List Bytes)),
  (∀ ev ∈ evs, EvOk hash ev ∧ Unforced ev) → Clocked T evs → Sys.run (Sys.init n pw aof) evs = some (s, rs) →
  ∃ t rs', Sys.run (Sys.init n pw aof) (silent evs) = some (t, rs') ∧ Alike ((evs.zip rs).filter (fun p => !isCron p.1)) rs'

/-- The servers cannot be told from each other at time `T`. -/
abbrev Near (T : Int) (s t : Sys) : Prop := SameR (Gone T) all s t

theorem near_later {T T' : Int} (h : Near T s t) (hT : T ≤ T') : Near T' s t :=
  ⟨h.pw, h.len, h.sess, fun i k hk => (h.data i k hk).later hT, h.task⟩

theorem respects {ev : Event} {lv : Nat → Nat} {T : Int} (hlv : ∀ fd e args, ev = .request fd e args → lv = e.level) (he : EvOk hash ev) (w : Near T s t)
    (hT : T ≤ clock T ev) (ha : Awake t ev) : BothR (Gone (clock T ev)) all s t hash lv ev := by
  cases ev with
  | cron => trivial
  | connect => trivial
  | close => trivial
  | request fd e args =>
    intro c cmd f d d' hc hcmd hf hd hd' hag
    obtain ⟨a1, a2⟩ := ha c cmd (by rw [w.sess fd rfl, hc]) hcmd
    have hlv := hlv fd e args rfl
    subst hlv
    have he' : ({ e with hash := hash, level := e.level } : Env) = e := by
      rw [← (show e.hash = hash from he)]
    rw [he']
    have := gone_det (e := e) (args := args) (s := d.view) (s' := d'.view) hf (by
        intro hb k hk
        cases hx : A.expired e d'.view k with
        | false => rfl
        | true =>
          exfalso
          unfold A.expired at hx
          cases ht : d'.view.t k with
          | none => rw [ht] at hx; cases hx
          | some x =>
            rw [ht] at hx
            have := a1 hb k x hk (by rw [deadline_eq hd', ht])
            simp at hx
            omega) (by
        intro hq p hp
        unfold A.pat
        rcases a2 hq p hp with rfl | h
        · simp
        · split
          · simp
          · exact h) (fun k => hag k trivial)
    revert this
    cases f e args d.view <;> cases f e args d'.view <;> intro this <;> first | exact this.elim | trivial | skip
    exact ⟨fun k _ => this.1 k, this.2⟩

theorem near_cron {e : Env} {T : Int} {r : List Bytes} (g : SysGood hash s) (he : e.hash = hash) (w : Near T s t) (hT : T ≤ e.now)
    (h : Sys.step s (.cron e) = some (s', r)) : Near e.now s' t := by
  obtain ⟨_, m1, _, m2, m3⟩ := step_db g (show EvOk hash (.cron e) from he) h
  have h' := h
  simp only [Sys.step, databasesCron, Option.bind_eq_bind, Option.bind_eq_some_iff] at h'
  obtain ⟨_, ⟨_, _, h2⟩, h3⟩ := h'
  have hs : s'.sess = s.sess := by cases h3; rfl
  have ht : s'.srv.task = s.srv.task := by cases h3; cases h2; rfl
  refine ⟨w.pw.trans m1.symm, w.len.trans m2.symm, fun x hx => by rw [hs]; exact w.sess x hx, fun i k hik => ?_, fun hr => by rw [ht]; exact w.task hr⟩
  cases hd : s.srv.dbs[i]? with
  | none =>
    have : s'.srv.dbs[i]? = none := by
      rw [List.getElem?_eq_none_iff] at hd ⊢; omega
    have q := (w.data i k hik).later hT
    simp only [Sys.val, Sys.deadline, hd, this] at q ⊢
    exact q
  | some d =>
    obtain ⟨d', hd', _, mv⟩ := m3 i d hd
    have hl : i < t.srv.dbs.length := by rw [w.len]; exact (List.getElem?_eq_some_iff.1 hd).1
    obtain ⟨d2, hd2⟩ := get_lt hl
    have hg : DGone T d.view d2.view := by
      intro x
      have := w.data i x trivial
      rw [val_eq hd, val_eq hd2, deadline_eq hd, deadline_eq hd2] at this
      exact this
    rw [val_eq hd', val_eq hd2, deadline_eq hd', deadline_eq hd2]
    cases mv with
    | same h => rw [h]; exact (hg k).later hT
    | cron hsw => exact gone_swept hg hT hsw k

theorem timer : ∀ (evs : List Event) {T : Int} {s t s' : Sys} {rs : List (List Bytes)}, SysGood hash s → SysGood hash t → Near T s t → Ledger s t →
    (∀ ev ∈ evs, EvOk hash ev ∧ Unforced ev) → Clocked T evs → AllAwake t (silent evs) → Sys.run s evs = some (s', rs) →
    ∃ t' rs', Sys.run t (silent evs) = some (t', rs') ∧ Alike ((evs.zip rs).filter (fun p => !isCron p.1)) rs' ∧ Near (lastClock T evs) s' t' ∧
      Ledger s' t'
  | [], T, s, t, s', rs, g, g', w, hl, _, _, _, h => by cases h; exact ⟨t, [], rfl, .nil, w, hl⟩
  | ev :: rest, T, s, t, s', rs, g, g', w, hl, he, hc, ha, h => by
    obtain ⟨s1, r, rs1, h1, h2, h3⟩ := run_cons h
    simp only at h2 h3
    subst h3
    obtain ⟨e1, e2⟩ := he ev (by simp)
    obtain ⟨c1, c2⟩ := hc
    have g1 := (step_db g e1 h1).1
    by_cases hcr : isCron ev = true
    · cases ev with
      | cron e =>
        have hs : silent (.cron e :: rest) = silent rest := rfl
        rw [hs] at ha ⊢
        obtain ⟨t', rs', k1, k2, k3⟩ := timer rest g1 g' (near_cron g e1 w c1 h1) (ledger_cron hl h1) (fun x hx => he x (by simp [hx])) c2 ha h2
        exact ⟨t', rs', k1, k2, k3⟩
      | connect => cases hcr
      | close => cases hcr
      | request => cases hcr
    · have hcr : isCron ev = false := by simpa using hcr
      have hs : silent (ev :: rest) = ev :: silent rest := by simp [silent, hcr]
      rw [hs] at ha ⊢
      obtain ⟨lv, hlv⟩ : ∃ lv : Nat → Nat, ∀ fd e args, ev = .request fd e args → lv = e.level := by
        cases ev with
        | request fd e args => exact ⟨e.level, fun _ _ _ h => by cases h; rfl⟩
        | _ => exact ⟨fun _ => 1, fun _ _ _ h => by cases h⟩
      have hre : Event.reshaped hash lv ev = ev := by
        cases ev with
        | request fd e args =>
          have := hlv fd e args rfl
          subst this
          unfold Event.reshaped
          rw [← (show e.hash = hash from e1)]
        | cron => cases hcr
        | _ => rfl
      have hfix : Fixed ev := by cases ev <;> first | exact e2 | cases hcr
      have hmine : all.mine ev = true := by cases ev <;> first | rfl | cases hcr
      obtain ⟨t1, r', p1, p2, p3, p4⟩ := insideD g g' (near_later w c1) hmine e1 (inside_all hfix (fun _ _ => trivial) (fun _ => trivial))
        (respects (T := T) hlv e1 w c1 ha.1) h1
      have hl1 := ledger_step g g' e1 hl (fun fd _ _ _ => w.sess fd rfl) (w.task trivial) (fun e hx => by subst hx; cases hcr) h1 p1 p4
      rw [hre] at p1
      obtain ⟨t', rs', k1, k2, k3⟩ := timer rest g1 (step_db g' e1 p1).1 p3 hl1 (fun x hx => he x (by simp [hx])) c2 (ha.2 _ _ p1) h2
      refine ⟨t', r' :: rs', ?_, ?_, k3⟩
      · simp only [Sys.run, p1, k1, Option.bind_eq_bind, Option.bind_some]
      · simp only [List.zip_cons_cons, List.filter_cons, hcr, Bool.not_false, if_true]
        exact .cons p2 k2

/-- **C86, partial**: a server whose timer has been running tells its clients the same as one whose timer never fires, as long as HSET, SADD, LPUSH,
RPUSH, ZADD, EXPIRE, EXPIREAT and TTL name no key that is past its deadline and the patterns of KEYS are valid; the only difference in
the data is that the timer has removed some of the keys that are past their deadline, and the logs are the same. -/
theorem C86_timer_partial {n : Nat} {pw : Bytes} {aof : Bool} {T : Int} {evs : List Event} {rs : List (List Bytes)}
    (he : ∀ ev ∈ evs, EvOk hash ev ∧ Unforced ev) (hc : Clocked T evs) (ha : AllAwake (Sys.init n pw aof) (silent evs))
    (h : Sys.run (Sys.init n pw aof) evs = some (s, rs)) :
    ∃ t rs', Sys.run (Sys.init n pw aof) (silent evs) = some (t, rs') ∧ Alike ((evs.zip rs).filter (fun p => !isCron p.1)) rs' ∧
      Thinner (lastClock T evs) s t ∧ t.srv.aofBuf = s.srv.aofBuf := by
  have w : Near T (Sys.init n pw aof) (Sys.init n pw aof) := ⟨rfl, rfl, fun _ _ => rfl, fun i k _ => .inl ⟨rfl, rfl⟩, fun _ => rfl⟩
  obtain ⟨t, rs', h1, h2, h3, h4⟩ := timer evs (init_good (hash := hash) n pw aof) (init_good n pw aof) w ⟨rfl, rfl, rfl, rfl⟩ he hc ha h
  exact ⟨t, rs', h1, h2, fun i k => h3.data i k trivial, h4.buf⟩

/-! ### Refutations -/

/-- Enough random numbers for the timer. -/
def dice (now : Int) : Env := { demo now with draws := (List.replicate 200 [0, 1, 2, 3]).flatten }

/-- A hash expires; the timer runs or not; a field is set and asked for. -/
def reborn : List Event :=
  [.connect 4, .request 4 (demo 0) [b!"hset", b!"h", b!"f", b!"v"], .request 4 (demo 0) [b!"expire", b!"h", b!"1"], .cron (dice 2000),
   .request 4 (demo 2000) [b!"hset", b!"h", b!"g", b!"w"], .request 4 (demo 2000) [b!"hget", b!"h", b!"g"]]

set_option maxRecDepth 8000 in
theorem reborn_result :
    ((Sys.run (Sys.init 1 [] true) reborn).map Prod.snd, (Sys.run (Sys.init 1 [] true) (silent reborn)).map Prod.snd) =
      (some [[], [b!":1\r\n"], [b!"+OK\r\n"], [], [b!":1\r\n"], [b!"$1\r\nw\r\n"]],
       some [[], [b!":1\r\n"], [b!"+OK\r\n"], [b!":1\r\n"], [b!"$-1\r\n"]]) := by decide

set_option maxRecDepth 8000 in
/-- C86 does not hold: a field set after the hash has expired is lost unless the timer has come by in between. -/
theorem C86_refuted : ¬ C86 := by
  intro hC
  have key := reborn_result
  simp only [Prod.mk.injEq, Option.map_eq_some_iff] at key
  obtain ⟨⟨⟨s, rs⟩, h1, h2⟩, ⟨⟨t, rs'⟩, h3, h4⟩⟩ := key
  simp only at h2 h4
  obtain ⟨t1, rs1, k1, k2⟩ := hC (demo 0).hash 1 [] true 0 reborn s rs (by
      intro ev hev
      simp only [reborn, List.mem_cons, List.not_mem_nil, or_false] at hev
      rcases hev with rfl | rfl | rfl | rfl | rfl | rfl
      · exact ⟨trivial, trivial⟩
      · exact ⟨rfl, by decide, by decide⟩
      · exact ⟨rfl, by decide, by decide⟩
      · exact ⟨rfl, trivial⟩
      · exact ⟨rfl, by decide, by decide⟩
      · exact ⟨rfl, by decide, by decide⟩)
    (by simp [reborn, Clocked, clock, demo, dice]) h1
  rw [h3] at k1; cases k1
  rw [h2, h4] at k2
  cases k2 with | cons _ k2 => cases k2 with | cons _ k2 => cases k2 with | cons _ k2 => cases k2 with | cons _ k2 => cases k2 with | cons k2 _ =>
  rcases k2 with k2 | ⟨⟨cmd, q1, q2⟩, _⟩
  · revert k2; decide
  · have : commandOf (demo 2000) [b!"hget", b!"h", b!"g"] = some .hget := by decide
    rw [this] at q1; cases q1; cases q2

/-- A string expires; the timer runs or not; then it is given a new deadline and asked for: without the timer it is back. -/
def raised : List Event :=
  [.connect 4, .request 4 (demo 0) [b!"setex", b!"k", b!"1", b!"v"], .cron (dice 2000),
   .request 4 (demo 2000) [b!"expire", b!"k", b!"9"], .request 4 (demo 2000) [b!"get", b!"k"]]

set_option maxRecDepth 8000 in
/-- An expired key can be brought back by EXPIRE unless the timer has removed it. -/
theorem C86_raised :
    ((Sys.run (Sys.init 1 [] true) raised).map Prod.snd, (Sys.run (Sys.init 1 [] true) (silent raised)).map Prod.snd) =
      (some [[], [b!"+OK\r\n"], [], [b!"+OK\r\n"], [b!"$-1\r\n"]],
       some [[], [b!"+OK\r\n"], [b!"+OK\r\n"], [b!"$1\r\nv\r\n"]]) := by decide

/-! ### The hypotheses can be met -/

/-- `Awake`, computed. -/
def awakeB (s : Sys) : Event → Bool
  | .request fd e args =>
    match s.sess fd, commandOf e args with
    | some c, some cmd =>
      (!blind cmd || match args[1]? with | none => true | some k => match s.deadline c.db k with | none => true | some d => decide (e.now ≤ d)) &&
      (!decide (cmd = .keys) || match args[1]? with | none => true | some p => decide (p = b!"*") || (e.compile p).isSome)
    | _, _ => true
  | _ => true

/-- `AllAwake`, computed. -/
def allAwakeB : Sys → List Event → Bool
  | _, [] => true
  | s, ev :: rest => awakeB s ev && match Sys.step s ev with | none => true | some p => allAwakeB p.1 rest

theorem awake_of {ev : Event} (h : awakeB s ev = true) : Awake s ev := by
  cases ev with
  | request fd e args =>
    intro c cmd hc hcmd
    simp only [awakeB, hc, hcmd, Bool.and_eq_true, Bool.or_eq_true] at h
    obtain ⟨h1, h2⟩ := h
    refine ⟨fun hb k d hk hd => ?_, fun hq p hp => ?_⟩
    · rcases h1 with h1 | h1
      · rw [hb] at h1; cases h1
      · rw [hk] at h1; simp only [hd] at h1; simpa using h1
    · rcases h2 with h2 | h2
      · rw [hq] at h2; cases h2
      · rw [hp] at h2
        simp only [Bool.or_eq_true, decide_eq_true_eq] at h2
        rcases h2 with h2 | h2
        · exact .inl h2
        · exact .inr (fun hn => by rw [hn] at h2; cases h2)
  | _ => trivial

theorem allAwake_of : ∀ (evs : List Event) (s : Sys), allAwakeB s evs = true → AllAwake s evs
  | [], _, _ => trivial
  | ev :: rest, s, h => by
    simp only [allAwakeB, Bool.and_eq_true] at h
    refine ⟨awake_of h.1, fun s' r hs => allAwake_of rest s' ?_⟩
    have h2 := h.2
    rw [hs] at h2
    exact h2

/-- A string and a set expire, the timer runs; the string is asked for and both are listed; another set gets a deadline. -/
def dusk : List Event :=
  [.connect 4, .request 4 (demo 0) [b!"setex", b!"k", b!"1", b!"v"], .request 4 (demo 0) [b!"sadd", b!"s", b!"a"],
   .request 4 (demo 0) [b!"expire", b!"s", b!"1"], .cron (dice 2000), .request 4 (demo 2000) [b!"get", b!"k"],
   .request 4 (demo 2000) [b!"sadd", b!"r", b!"a"], .request 4 (demo 2000) [b!"expire", b!"r", b!"5"],
   .request 4 (demo 2000) [b!"scard", b!"s"], .request 4 (demo 2000) [b!"keys", b!"*"]]

set_option maxRecDepth 8000 in
example : (∀ ev ∈ dusk, EvOk (demo 0).hash ev ∧ Unforced ev) ∧ Clocked 0 dusk ∧ AllAwake (Sys.init 1 [] true) (silent dusk) ∧
    (Sys.run (Sys.init 1 [] true) dusk).map Prod.snd = some [[], [b!"+OK\r\n"], [b!":1\r\n"], [b!"+OK\r\n"], [], [b!"$-1\r\n"], [b!":1\r\n"], [b!"+OK\r\n"],
      [b!":0\r\n"], [b!"*1\r\n", b!"$1\r\nr\r\n"]] := by
  refine ⟨?_, by simp [dusk, Clocked, clock, demo, dice], allAwake_of _ _ (by decide), by decide⟩
  intro ev hev
  simp only [dusk, List.mem_cons, List.not_mem_nil, or_false] at hev
  rcases hev with rfl | rfl | rfl | rfl | rfl | rfl | rfl | rfl | rfl | rfl
  · exact ⟨trivial, trivial⟩
  · exact ⟨rfl, by decide, by decide⟩
  · exact ⟨rfl, by decide, by decide⟩
  · exact ⟨rfl, by decide, by decide⟩
  · exact ⟨rfl, trivial⟩
  · exact ⟨rfl, by decide, by decide⟩
  · exact ⟨rfl, by decide, by decide⟩
  · exact ⟨rfl, by decide, by decide⟩
  · exact ⟨rfl, by decide, by decide⟩
  · exact ⟨rfl, by decide, by decide⟩

end Metis.Props.TimerP
