import Verif.Proofs.ExactSys
import Verif.Proofs.ExactDet
import Verif.Props.Fatal
import Verif.Props.Reference
/-!
Property C102: the server is the exact reference server of `Spec/Exact.lean`, crashes included.
-/
set_option linter.unusedSectionVars false
set_option linter.unusedSimpArgs false
set_option linter.unusedVariables false
set_option synthInstance.maxSize 2000
set_option synthInstance.maxHeartbeats 200000
namespace Metis.Props.ExactP
open Metis Spec Metis.ExactSim Metis.Props.ServerP
open _root_.Metis.Props.CalmP (more logged refused answered_plain Calm C69_partial C69_random C69_cron)
open _root_.Metis.Props.RefP (Possible rolled far)
open _root_.Metis.Props.KeysP (accepts_iff C67_unknown C67_count)
variable {hash : Bytes → Nat} {n : Nat} {pw : Bytes} {aof : Bool}

/-- The full claim of C102: every history is a run of the exact reference, whatever the requests. -/
def C102 : Prop := ∀ (hash : Bytes → Nat) (n : Nat) (pw : Bytes) (aof : Bool) (evs : List Event) (s : Sys) (rs : List (List Bytes)),
  (∀ ev ∈ evs, EvOk hash ev) → Sys.run (Sys.init n pw aof) evs = some (s, rs) →
  ∃ R vs, Exact.Runs n pw Exact.start evs R vs ∧ List.Forall₂ Ref.Told rs vs

/-- Levels 1, 2, 1, 2. -/
def bumpy : Env := { demo 0 with level := fun i => i % 2 + 1 }

def addFour : List Bytes := [b!"zadd", b!"z", b!"1", b!"a", b!"1", b!"b", b!"1", b!"c", b!"1", b!"d"]
def remThird : List Bytes := [b!"zremrangebyrank", b!"z", b!"2", b!"2"]

/-- The history of the counterexample: four members, the third is to be removed by its rank. -/
def third : List Event := [.connect 4, .request 4 bumpy addFour, .request 4 bumpy remThird]

theorem third_reference {fd : Nat} {R1 R2 : Exact.State} {v1 v2 : Value} (m2 : Exact.Moves 1 [] (Exact.start.know fd (some ⟨0, false⟩)) (.request fd bumpy addFour) R1 (some v1))
    (m3 : Exact.Moves 1 [] R1 (.request fd bumpy remThird) R2 (some v2)) : v1 = .int 4 ∧ v2 = .int 1 := by
  unfold Exact.Moves at m2
  simp only [Exact.State.know, if_true] at m2
  obtain ⟨v, m2, hv⟩ := m2
  cases hv
  unfold Exact.answers at m2
  simp only [show commandOf bumpy addFour = some .zadd by decide] at m2
  rw [if_neg (by decide), if_neg (by decide)] at m2
  obtain ⟨S, m2, rfl⟩ := m2
  have hsc : Ref.scores bumpy [b!"1", b!"a", b!"1", b!"b", b!"1", b!"c", b!"1", b!"d"] = ([(one, b!"a"), (one, b!"b"), (one, b!"c"), (one, b!"d")], false) := by
    simp only [Ref.scores, show bumpy.parseFloat b!"1" = some one by decide]
  unfold Exact.perform Exact.zadd Exact.tally at m2
  simp only [addFour, List.drop_succ_cons, List.drop_zero, hsc] at m2
  obtain ⟨rfl, rfl⟩ := m2
  unfold Exact.Moves at m3
  simp only [Exact.State.store, if_true] at m3
  obtain ⟨v, m3, hv⟩ := m3
  cases hv
  unfold Exact.answers at m3
  simp only [show commandOf bumpy remThird = some .zremrangebyrank by decide] at m3
  rw [if_neg (by decide), if_neg (by decide)] at m3
  obtain ⟨S3, m3, rfl⟩ := m3
  unfold Exact.perform Exact.zremrangebyrank Exact.fresh Ref.fresh at m3
  simp only [remThird, List.drop_succ_cons, List.drop_zero, show atoi b!"2" = some 2 by decide] at m3
  rw [if_neg (by
    rintro ⟨x, hx, hlt⟩
    simp only [Exact.holdZset, Ref.hold, Ref.put, if_true, Exact.start] at hx
    cases hx)] at m3
  obtain ⟨l, hl, _, rfl⟩ := m3
  have hlen : l.length = 4 := hl.1.length_eq.trans (by decide)
  have hp : (picked l 2 2).length = 1 := by simp [picked, stretch, hlen]
  rw [hp]
  exact ⟨by decide, rfl⟩

/-- **C102 refuted** if ZREMRANGEBYRANK is to remove the elements of the ranks asked for (C17): for some levels of the skiplist it removes none. -/
theorem C102_refuted : ¬ C102 := by
  intro H
  have hr : (Sys.run (Sys.init 1 [] false) third).map (·.2) = some [[], Reply.int 4, Reply.int 0] := by decide
  obtain ⟨⟨s, rs⟩, h1, h2⟩ := Option.map_eq_some_iff.1 hr
  simp only at h2; subst h2
  obtain ⟨R, vs, hR, ht⟩ := H bumpy.hash 1 [] false third s _ (by simp [third, EvOk]) h1
  cases hR with | cons m1 hR => cases hR with | cons m2 hR => cases hR with | cons m3 hR => 
  cases hR
  cases ht with | cons t1 ht => cases ht with | cons t2 ht => cases ht with | cons t3 ht =>
  obtain ⟨rfl, rfl⟩ := m1
  have some_of : ∀ {R R' : Exact.State} {args : List Bytes} {v : Option Value}, Exact.Moves 1 [] R (.request 4 bumpy args) R' v → ∃ v', v = some v' := by
    intro R R' args v m
    unfold Exact.Moves at m
    cases hc : R.client 4 with
    | none => simp only [hc] at m
    | some c => simp only [hc] at m; obtain ⟨v', _, h⟩ := m; exact ⟨v', h⟩
  obtain ⟨v2, rfl⟩ := some_of m2
  obtain ⟨v3, rfl⟩ := some_of m3
  obtain ⟨rfl, rfl⟩ := third_reference m2 m3
  have ht : (Reply.int 0).flatten = (Value.int 1).encode := t3
  exact absurd ht (by decide)

theorem rel_init : ShowsSys (Sys.init n pw aof) Exact.start := by
  refine ⟨fun fd => rfl, fun i d hd => ?_⟩
  have := List.mem_of_getElem? hd
  simp only [Sys.init, Server.init, List.mem_replicate] at this
  rw [this.2]
  exact ⟨rfl, (fun k q h => by cases h), (fun k q h => by cases h)⟩

theorem xs_run : ∀ (evs : List Event) {s s' : Sys} {R : Exact.State} {rs : List (List Bytes)}, SysGood hash s → ShowsSys s R → (∀ ev ∈ evs, EvOk hash ev) →
    (∀ ev ∈ evs, Exact.Covered ev) → Sys.run s evs = some (s', rs) →
    ∃ R' vs, Exact.Runs s.srv.dbs.length s.srv.password R evs R' vs ∧ List.Forall₂ Ref.Told rs vs ∧ ShowsSys s' R' ∧
      s'.srv.dbs.length = s.srv.dbs.length ∧ s'.srv.password = s.srv.password
  | [], s, s', R, rs, g, hR, _, _, h => by
    cases h
    exact ⟨R, [], .nil, .nil, hR, rfl, rfl⟩
  | ev :: evs, s, s', R, rs, g, hR, he, hf, h => by
    simp only [Sys.run, Option.bind_eq_bind, Option.bind_eq_some_iff] at h
    obtain ⟨⟨s1, r⟩, h1, ⟨s2, rs2⟩, h2, h3⟩ := h
    cases h3
    obtain ⟨R1, v, m, t, hR1⟩ := xs_event g (he ev (by simp)) hR h1 (hf ev (by simp))
    obtain ⟨g1, e1, _, e2, _⟩ := step_db g (he ev (by simp)) h1
    obtain ⟨R', vs, q1, q2, q3, q4, q5⟩ := xs_run evs g1 hR1 (fun x hx => he x (by simp [hx])) (fun x hx => hf x (by simp [hx])) h2
    rw [e1, e2] at q1
    exact ⟨R', v :: vs, .cons m q1, .cons t q2, q3, q4.trans e2, q5.trans e1⟩

theorem scores_more {e : Env} {t : List Nat} : ∀ l : List Bytes, Ref.scores (more e t) l = Ref.scores e l
  | [] => rfl
  | [_] => rfl
  | a :: b :: l => by
    unfold Ref.scores
    simp only [show (more e t).parseFloat = e.parseFloat from rfl, scores_more l]

theorem combine_more {op : Bool → Bool → Bool} {all : Bool} {e : Env} {t : List Nat} : ∀ (ks : List Bytes) (p : Bytes → Bool) (S : Ref.Store),
    Ref.combine op all (more e t) ks p S = Ref.combine op all e ks p S
  | [], p, S => rfl
  | k :: ks, p, S => by
    unfold Ref.combine
    simp only [show (more e t).now = e.now from rfl, combine_more ks]

theorem setop_more {op : Bool → Bool → Bool} {all : Bool} {e : Env} {t : List Nat} (w : List Bytes) (S : Ref.Store) :
    Ref.setop op all (more e t) w S = Ref.setop op all e w S := by
  unfold Ref.setop
  simp only [show (more e t).now = e.now from rfl, combine_more]

theorem perform_more {e : Env} {t : List Nat} {c : Cmd} {w : List Bytes} {S : Exact.Store} : Exact.perform (more e t) c w S = Exact.perform e c w S := by
  cases c
  case zadd => simp only [Exact.perform, Exact.zadd, scores_more]
  case sdiff => simp only [Exact.perform, Ref.perform, setop_more]
  case sinter => simp only [Exact.perform, Ref.perform, setop_more]
  case sunion => simp only [Exact.perform, Ref.perform, setop_more]
  all_goals rfl

/-- The reference draws no random numbers. -/
theorem moves_rolled {t : List Nat} {ev : Event} {R R' : Exact.State} {v : Option Value} (h : Exact.Moves n pw R (rolled t ev) R' v) : Exact.Moves n pw R ev R' v := by
  cases ev with
  | connect fd => exact h
  | close fd => exact h
  | cron e => exact h
  | request fd e args =>
    simp only [rolled, Exact.Moves, Exact.answers, perform_more] at h ⊢
    exact h

theorem covered_rolled {t : List Nat} {ev : Event} (h : Exact.Covered ev) : Exact.Covered (rolled t ev) := by
  cases ev with
  | request fd e args =>
    intro cmd hcmd
    have := h cmd hcmd
    unfold Exact.Usual at this ⊢
    simp only [scores_more]
    exact this
  | _ => trivial

theorem evok_rolled {t : List Nat} {ev : Event} (h : EvOk hash ev) : EvOk hash (rolled t ev) := by
  cases ev <;> exact h

/-- What the exact reference can do the server does. -/
theorem answered {s : Sys} {R : Exact.State} {fd : Nat} {e : Env} {c : Session} {args : List Bytes} (hs : SysGood hash s) (he : e.hash = hash)
    (hR : ShowsSys s R) (hc : s.sess fd = some c) (h0 : args ≠ []) (hf : Exact.Covered (.request fd e args))
    (hr : ∀ cmd, commandOf e args = some cmd → cmd ≠ .spop ∧ cmd ≠ .randomget) {R' : Exact.State} {v : Value}
    (h : Exact.answers s.srv.dbs.length s.srv.password R fd ⟨c.db, c.auth⟩ e args R' v) : ∃ s' r, Sys.step s (.request fd e args) = some (s', r) := by
  cases hcmd : commandOf e args with
  | none => obtain ⟨s', r, h, _⟩ := C67_unknown hc h0 hcmd; exact ⟨s', r, h⟩
  | some cmd =>
    by_cases hn : accepts cmd args.length
    · have hok := (accepts_iff cmd _).2 hn
      by_cases hal : Allowed s.srv c
      · by_cases hp : dbProc cmd = none
        · refine answered_plain hs he hc hcmd hn (Or.inl hal) hp ?_
          · rintro rfl a i ha hi
            unfold Exact.answers at h
            simp only [hcmd, if_neg (not_not.2 hn)] at h
            rw [if_neg (by
              rintro ⟨p1, p2, _⟩
              rcases hal with ha | ha
              · exact p1 ha
              · rw [ha] at p2; cases p2)] at h
            match args, hn, ha, h with
            | [n, x], _, ha, h =>
              cases ha
              simp only [List.drop_succ_cons, List.drop_zero, hi] at h
              by_contra hneg
              rw [if_pos (by omega)] at h
              exact h
        · obtain ⟨f, hf1⟩ := Option.ne_none_iff_exists'.1 hp
          obtain ⟨d, hd⟩ := get_lt (hs.sess fd c hc)
          cases hf' : aFn cmd with
          | none => cases cmd <;> first | (cases hf'; done) | (cases hf1; done) | exact absurd rfl (hr _ hcmd).1 | exact absurd rfl (hr _ hcmd).2
          | some f' =>
            have hx := xs_det (e := e) hf' hn (hf cmd hcmd) (hR.db _ d hd)
            cases ha : f' e args d.view with
            | some a =>
              obtain ⟨s', r, o, w1, _⟩ := step_det hs he hc hal hcmd hok hf1 hf' hd ha (fun h => logged hcmd hn hf' ha h)
              exact ⟨s', r, w1⟩
            | none =>
              rw [ha] at hx
              exfalso
              unfold Exact.answers at h
              simp only [hcmd, if_neg (not_not.2 hn)] at h
              rw [if_neg (by
                rintro ⟨p1, p2, _⟩
                rcases hal with ha | ha
                · exact p1 ha
                · rw [ha] at p2; cases p2)] at h
              have hno : ¬ ∃ S, Exact.perform e cmd (args.drop 1) (R.dbs c.db) S v ∧ R' = R.store c.db S := fun ⟨S, h1, _⟩ => hx S v h1
              cases cmd <;> first | exact hno h | (cases hf'; done)
      · by_cases hau : cmd = .auth
        · subst hau
          exact answered_plain hs he hc hcmd hn (Or.inr rfl) rfl (fun h => by cases h)
        · obtain ⟨s', r, h, _⟩ := refused hc hcmd hok hal hau
          exact ⟨s', r, h⟩
    · obtain ⟨s', r, h, _⟩ := C67_count hc hcmd hn
      exact ⟨s', r, h⟩

/-- The server `s` and the state `R` of the exact reference agree on which of the possible events not left out bring down the server. Where the event
needs random numbers the server survives if there are enough of them. -/
def Agree (hash : Bytes → Nat) (n : Nat) (pw : Bytes) (s : Sys) (R : Exact.State) : Prop := ∀ ev, EvOk hash ev → Exact.Covered ev → Possible s ev →
  ((∃ t s' r, Sys.step s (rolled t ev) = some (s', r)) ↔ ∃ R' v, Exact.Moves n pw R ev R' v)

/-- The request draws no random numbers. -/
def Undrawn (e : Env) (args : List Bytes) : Prop := ∀ cmd, commandOf e args = some cmd → cmd ≠ .spop ∧ cmd ≠ .randomget

/-- The same for requests that draw no random numbers. -/
def AgreeNow (hash : Bytes → Nat) (n : Nat) (pw : Bytes) (s : Sys) (R : Exact.State) : Prop := ∀ fd e args, e.hash = hash → args ≠ [] → s.sess fd ≠ none →
  Exact.Covered (.request fd e args) → Undrawn e args →
  (Sys.step s (.request fd e args) = none ↔ ¬ ∃ R' v, Exact.Moves n pw R (.request fd e args) R' v)

theorem agree_now {s : Sys} {R : Exact.State} (hs : SysGood hash s) (hR : ShowsSys s R) : AgreeNow hash s.srv.dbs.length s.srv.password s R := by
  intro fd e args he h0 hsess hcov hr
  obtain ⟨c, hc⟩ := Option.ne_none_iff_exists'.1 hsess
  have hcl : R.client fd = some ⟨c.db, c.auth⟩ := by rw [hR.client, hc]; rfl
  constructor
  · rintro hst ⟨R', v, m⟩
    unfold Exact.Moves at m
    simp only [hcl] at m
    obtain ⟨v', m, _⟩ := m
    obtain ⟨s', r, h6⟩ := answered hs he hR hc h0 hcov hr m
    rw [hst] at h6; cases h6
  · intro hno
    cases hst : Sys.step s (.request fd e args) with
    | none => rfl
    | some p =>
      obtain ⟨s', r⟩ := p
      obtain ⟨R', v, m, _, _⟩ := xs_event (ev := .request fd e args) hs he hR hst hcov
      exact absurd ⟨R', v, m⟩ hno

theorem agree {s : Sys} {R : Exact.State} (hs : Reach hash s) (hR : ShowsSys s R) : Agree hash s.srv.dbs.length s.srv.password s R := by
  refine fun ev hev hcov hp => ⟨fun ⟨t, s', r, hst⟩ => ?_, fun ⟨R', v, m⟩ => ?_⟩
  · obtain ⟨R', v, m, _, _⟩ := xs_event hs.good (evok_rolled (t := t) hev) hR hst (covered_rolled hcov)
    exact ⟨R', v, moves_rolled m⟩
  · cases ev with
    | connect fd =>
      refine ⟨[], { s with sess := fun x => if x = fd then some Session.new else s.sess x }, [], ?_⟩
      simp only [rolled, Sys.step]
      rw [if_neg (fun hh => hp (List.length_eq_zero_iff.1 hh))]
    | close fd => exact ⟨[], _, _, rfl⟩
    | cron e => exact C69_cron hs hev
    | request fd e args =>
      obtain ⟨c, hc⟩ := Option.ne_none_iff_exists'.1 hp.2
      by_cases hr : ∃ cmd, commandOf e args = some cmd ∧ (cmd = .spop ∨ cmd = .randomget)
      · obtain ⟨cmd, h3, h4⟩ := hr
        exact C69_random hs hev hc hp.1 h3 h4
      · have hu : Undrawn e args := fun cmd hcmd => ⟨fun h => hr ⟨cmd, hcmd, Or.inl h⟩, fun h => hr ⟨cmd, hcmd, Or.inr h⟩⟩
        cases hst : Sys.step s (.request fd e args) with
        | none => exact absurd ⟨R', v, m⟩ ((agree_now hs.good hR fd e args hev hp.1 hp.2 hcov hu).1 hst)
        | some p => exact ⟨[], p.1, p.2, by simpa [rolled, more] using hst⟩

/-- **C102, partial**: a history without NaN and without ZREMRANGEBYRANK from the second rank on is a run of the exact reference, reply by reply; and the state `R` it ends
in knows which event comes next without bringing down the server. -/
theorem C102_partial {evs : List Event} {s : Sys} {rs : List (List Bytes)} (he : ∀ ev ∈ evs, EvOk hash ev) (hf : ∀ ev ∈ evs, Exact.Covered ev)
    (h : Sys.run (Sys.init n pw aof) evs = some (s, rs)) : ∃ R vs, Exact.Runs n pw Exact.start evs R vs ∧ List.Forall₂ Ref.Told rs vs ∧
      Agree hash n pw s R ∧ AgreeNow hash n pw s R := by
  obtain ⟨R, vs, h1, h2, h3, h4, h5⟩ := xs_run evs (init_good (hash := hash) n pw aof) rel_init he hf h
  have hn : (Sys.init n pw aof).srv.dbs.length = n := by simp [Sys.init, Server.init]
  have hpw : (Sys.init n pw aof).srv.password = pw := rfl
  rw [hn, hpw] at h1
  rw [hn] at h4
  rw [hpw] at h5
  have hs : Reach hash s := ⟨n, pw, aof, evs, rs, he, h⟩
  have a1 := agree hs h3
  have a2 := agree_now hs.good h3
  rw [h4, h5] at a1 a2
  exact ⟨R, vs, h1, h2, a1, a2⟩

/-- The event draws no random numbers, and is no empty request. -/
def Settled : Event → Prop
  | .request _ e args => args ≠ [] ∧ Undrawn e args
  | .cron _ => False
  | _ => True

theorem moves_det {ev : Event} {R R1 R2 : Exact.State} {v1 v2 : Option Value} (hd : Settled ev) (h1 : Exact.Moves n pw R ev R1 v1)
    (h2 : Exact.Moves n pw R ev R2 v2) : R1 = R2 := by
  cases ev with
  | connect fd => rw [h1.1, h2.1]
  | close fd => rw [h1.1, h2.1]
  | cron e => exact hd.elim
  | request fd e args =>
    unfold Exact.Moves at h1 h2
    cases hc : R.client fd with
    | none => simp only [hc] at h1
    | some c =>
      simp only [hc] at h1 h2
      obtain ⟨_, h1, _⟩ := h1
      obtain ⟨_, h2, _⟩ := h2
      exact ExactDet.answers_det hd.2 h1 h2

theorem survives : ∀ (evs : List Event) {s : Sys} {R R' : Exact.State} {vs : List (Option Value)}, Reach hash s → ShowsSys s R → s.srv.dbs ≠ [] →
    (∀ ev ∈ evs, EvOk hash ev) → (∀ ev ∈ evs, Exact.Covered ev) → (∀ ev ∈ evs, Settled ev) →
    Exact.Runs s.srv.dbs.length s.srv.password R evs R' vs → ∃ p, Sys.run s evs = some p
  | [], s, R, R', vs, _, _, _, _, _, _, _ => ⟨_, rfl⟩
  | ev :: evs, s, R, R', vs, hs, hR, hn, he, hf, hd, hr => by
    cases hr with
    | cons m hr =>
      have hev := he ev (by simp)
      have hst : ∃ s1 r, Sys.step s ev = some (s1, r) := by
        cases ev with
        | connect fd => exact ⟨_, _, by simp only [Sys.step]; rw [if_neg (fun hh => hn (List.length_eq_zero_iff.1 hh))]⟩
        | close fd => exact ⟨_, _, rfl⟩
        | cron e => exact False.elim (hd (.cron e) (by simp))
        | request fd e args =>
          have hdd := hd (.request fd e args) (by simp)
          have hsess : s.sess fd ≠ none := by
            intro hno
            have hcl : R.client fd = none := by rw [hR.client, hno]; rfl
            unfold Exact.Moves at m
            simp only [hcl] at m
          cases hst : Sys.step s (.request fd e args) with
          | none => exact absurd ⟨_, _, m⟩ ((agree_now hs.good hR fd e args hev hdd.1 hsess (hf _ (by simp)) hdd.2).1 hst)
          | some p => exact ⟨p.1, p.2, rfl⟩
      obtain ⟨s1, r, h1⟩ := hst
      obtain ⟨R1, v, m1, t, hR1⟩ := xs_event hs.good hev hR h1 (hf ev (by simp))
      obtain ⟨g1, e1, _, e2, _⟩ := step_db hs.good hev h1
      rw [moves_det (hd ev (by simp)) m m1, ← e1, ← e2] at hr
      obtain ⟨p, h2⟩ := survives evs (Reach.step hs hev h1) hR1 (by intro h0; rw [h0] at e2; exact hn (List.length_eq_zero_iff.1 e2.symm))
        (fun x hx => he x (by simp [hx])) (fun x hx => hf x (by simp [hx])) (fun x hx => hd x (by simp [hx])) hr
      exact ⟨(p.1, r :: p.2), by simp only [Sys.run, h1, h2, Option.bind_eq_bind, Option.bind_some]⟩

/-- **C102, partial, whole histories**: where no random numbers are drawn and nothing is left out, a history brings down the server exactly if the exact
reference has no run for it. -/
theorem C102_history_partial {evs : List Event} (hn : n ≠ 0) (he : ∀ ev ∈ evs, EvOk hash ev) (hf : ∀ ev ∈ evs, Exact.Covered ev) (hd : ∀ ev ∈ evs, Settled ev) :
    Sys.run (Sys.init n pw aof) evs = none ↔ ¬ ∃ R vs, Exact.Runs n pw Exact.start evs R vs := by
  have hlen : (Sys.init n pw aof).srv.dbs.length = n := by simp [Sys.init, Server.init]
  constructor
  · rintro h ⟨R, vs, hr⟩
    have hp : (Sys.init n pw aof).srv.password = pw := rfl
    obtain ⟨p, hp⟩ := survives evs ((⟨n, pw, aof, [], [], by simp, rfl⟩ : Reach hash (Sys.init n pw aof))) rel_init (by intro h0; rw [h0] at hlen; exact hn hlen.symm) he hf hd (by rw [hlen, hp]; exact hr)
    rw [h] at hp; cases hp
  · intro h
    cases hr : Sys.run (Sys.init n pw aof) evs with
    | none => rfl
    | some p =>
      obtain ⟨R, vs, h1, _⟩ := C102_partial (hash := hash) he hf (s := p.1) (rs := p.2) hr
      exact absurd ⟨R, vs, h1⟩ h

/-- A sorted set whose member `a` got a second score and was then removed: the entry with the first score is left. -/
def stale : List Event := [.connect 4, .request 4 (demo 0) [b!"zadd", b!"z", b!"1", b!"a", b!"2", b!"a", b!"2", b!"b"], .request 4 (demo 0) [b!"zrem", b!"z", b!"a"]]

theorem covered_demo {fd : Nat} {e : Env} {args : List Bytes} {cmd : Cmd} (h : commandOf e args = some cmd) (hu : Exact.Usual e cmd (args.drop 1)) :
    Exact.Covered (.request fd e args) := fun c hc => by rw [h] at hc; cases hc; exact hu

theorem demo_bounds {a b : Bytes} (ha : a = b!"1" ∨ a = b!"2") (hb : b = b!"1" ∨ b = b!"2") (x y : F64) (hx : (demo 0).parseFloat a = some x)
    (hy : (demo 0).parseFloat b = some y) : x.isNaN = false ∧ y.isNaN = false := by
  have : ∀ {a : Bytes} {x : F64}, (a = b!"1" ∨ a = b!"2") → (demo 0).parseFloat a = some x → x.isNaN = false := by
    rintro a x (rfl | rfl) h
    · rw [show (demo 0).parseFloat b!"1" = some one by decide] at h; cases h; decide
    · rw [show (demo 0).parseFloat b!"2" = some two by decide] at h; cases h; decide
  exact ⟨this ha hx, this hb hy⟩

theorem stale_covered : ∀ ev ∈ stale, Exact.Covered ev := by
  intro ev hev
  simp only [stale, List.mem_cons, List.not_mem_nil, or_false] at hev
  rcases hev with rfl | rfl | rfl
  · trivial
  · refine covered_demo (cmd := .zadd) (by decide) ⟨fun j => ⟨Nat.le_refl 1, (by decide : 1 ≤ 32)⟩, ?_⟩
    have h1 : (demo 0).parseFloat b!"1" = some one := by decide
    have h2 : (demo 0).parseFloat b!"2" = some two := by decide
    have : (Ref.scores (demo 0) [b!"1", b!"a", b!"2", b!"a", b!"2", b!"b"]).1 = [(one, b!"a"), (two, b!"a"), (two, b!"b")] := by
      simp only [Ref.scores, h1, h2]
    intro p hp
    rw [this] at hp
    simp only [List.mem_cons, List.not_mem_nil, or_false] at hp
    rcases hp with rfl | rfl | rfl <;> decide
  · exact covered_demo (cmd := .zrem) (by decide) trivial

/-- C102_partial applies to it; the reference has no outcome for a listing that includes the stale entry, and the server crashes; it has one
for a listing that does not, and the server answers. -/
example : ∃ s rs R vs, Sys.run (Sys.init 1 [] false) stale = some (s, rs) ∧ Exact.Runs 1 [] Exact.start stale R vs ∧ List.Forall₂ Ref.Told rs vs ∧
    (¬ ∃ R' v, Exact.Moves 1 [] R (.request 4 (demo 0) [b!"zrangebyscore", b!"z", b!"1", b!"2"]) R' v) ∧
    ∃ R' v, Exact.Moves 1 [] R (.request 4 (demo 0) [b!"zrangebyscore", b!"z", b!"2", b!"2"]) R' v := by
  have hr : (Sys.run (Sys.init 1 [] false) stale).isSome = true := by decide
  obtain ⟨⟨s, rs⟩, h1⟩ := Option.isSome_iff_exists.1 hr
  obtain ⟨R, vs, h2, h3, _, h4⟩ := C102_partial (hash := (demo 0).hash) (by simp [stale, EvOk]) stale_covered h1
  have key : ∀ {a b : Bytes}, (a = b!"1" ∨ a = b!"2") → (b = b!"1" ∨ b = b!"2") →
      (Sys.step s (.request 4 (demo 0) [b!"zrangebyscore", b!"z", a, b]) = none ↔
        ¬ ∃ R' v, Exact.Moves 1 [] R (.request 4 (demo 0) [b!"zrangebyscore", b!"z", a, b]) R' v) := by
    intro a b ha hb
    refine h4 4 (demo 0) _ rfl (by simp) ?_ (covered_demo (cmd := .zrangebyscore) (by unfold commandOf; simp only [List.getElem?_cons_zero]; decide) (demo_bounds ha hb)) ?_
    · have hx : (Sys.run (Sys.init 1 [] false) stale).map (fun p => (p.1.sess 4).isSome) = some true := by decide
      rw [h1] at hx
      intro hn; simp [hn] at hx
    · intro cmd hcmd
      have : commandOf (demo 0) [b!"zrangebyscore", b!"z", a, b] = some .zrangebyscore := by unfold commandOf; simp only [List.getElem?_cons_zero]; decide
      rw [this] at hcmd; cases hcmd; simp
  have hc1 : (Sys.run (Sys.init 1 [] false) stale).bind (fun p => (Sys.step p.1 (.request 4 (demo 0) [b!"zrangebyscore", b!"z", b!"1", b!"2"])).map (·.2)) = none := by decide
  have hc2 : ((Sys.run (Sys.init 1 [] false) stale).bind (fun p => (Sys.step p.1 (.request 4 (demo 0) [b!"zrangebyscore", b!"z", b!"2", b!"2"])).map (·.2))).isSome = true := by decide
  simp only [h1, Option.bind_some, Option.map_eq_none_iff] at hc1
  simp only [h1, Option.bind_some, Option.isSome_map] at hc2
  refine ⟨s, rs, R, vs, h1, h2, h3, (key (Or.inl rfl) (Or.inr rfl)).1 hc1, ?_⟩
  by_contra hno
  rw [(key (Or.inr rfl) (Or.inr rfl)).2 hno] at hc2
  cases hc2

/-- C102_partial also applies to the history that refutes C92: deadlines wrap around in the exact reference too. -/
example : ∃ s rs R vs, Sys.run (Sys.init 1 [] false) far = some (s, rs) ∧ Exact.Runs 1 [] Exact.start far R vs ∧ List.Forall₂ Ref.Told rs vs := by
  have hr : (Sys.run (Sys.init 1 [] false) far).isSome = true := by decide
  obtain ⟨⟨s, rs⟩, h1⟩ := Option.isSome_iff_exists.1 hr
  obtain ⟨R, vs, h2, h3, _⟩ := C102_partial (hash := (demo 0).hash) (by simp [far, EvOk]) (by
    intro ev hev
    simp only [far, List.mem_cons, List.not_mem_nil, or_false] at hev
    rcases hev with rfl | rfl | rfl
    · trivial
    · exact covered_demo (cmd := .setex) (by decide) trivial
    · exact covered_demo (cmd := .get) (by decide) trivial) h1
  exact ⟨s, rs, R, vs, h1, h2, h3⟩

/-- C102_history_partial applies to `stale` followed by a listing: the server goes down, so the exact reference has no run. -/
example : ¬ ∃ R vs, Exact.Runs 1 [] Exact.start (stale ++ [.request 4 (demo 0) [b!"zrangebyscore", b!"z", b!"1", b!"2"]]) R vs := by
  refine (C102_history_partial (hash := (demo 0).hash) (aof := false) (by decide) (by simp [stale, EvOk]) ?_ ?_).1 (by decide)
  · intro ev hev
    rcases List.mem_append.1 hev with hev | hev
    · exact stale_covered ev hev
    · rw [List.mem_singleton.1 hev]
      exact covered_demo (cmd := .zrangebyscore) (by decide) (demo_bounds (Or.inl rfl) (Or.inr rfl))
  · intro ev hev
    simp only [stale, List.cons_append, List.nil_append, List.mem_cons, List.not_mem_nil, or_false] at hev
    rcases hev with rfl | rfl | rfl | rfl
    · trivial
    · refine ⟨by simp, fun cmd hcmd => ?_⟩
      rw [show commandOf (demo 0) [b!"zadd", b!"z", b!"1", b!"a", b!"2", b!"a", b!"2", b!"b"] = some .zadd by decide] at hcmd
      cases hcmd; simp
    · refine ⟨by simp, fun cmd hcmd => ?_⟩
      rw [show commandOf (demo 0) [b!"zrem", b!"z", b!"a"] = some .zrem by decide] at hcmd
      cases hcmd; simp
    · refine ⟨by simp, fun cmd hcmd => ?_⟩
      rw [show commandOf (demo 0) [b!"zrangebyscore", b!"z", b!"1", b!"2"] = some .zrangebyscore by decide] at hcmd
      cases hcmd; simp

end Metis.Props.ExactP
