import Verif.Proofs.ExactAll
/-!
The server and the exact reference.
-/
set_option linter.unusedSectionVars false
set_option linter.unusedSimpArgs false
set_option linter.unusedVariables false
namespace Metis.ExactSim
open Metis Metis.Spec
variable {hash : Bytes → Nat} {s s' : Sys} {R : Exact.State}

/-- The server `s` is the server `R` of the reference. -/
structure ShowsSys (s : Sys) (R : Exact.State) : Prop where
  client : ∀ fd, R.client fd = (s.sess fd).map (fun c => ⟨c.db, c.auth⟩)
  db : ∀ (i : Nat) (d : Db), s.srv.dbs[i]? = some d → Shows d.view (R.dbs i)

theorem rel_know (h : ShowsSys s R) (fd : Nat) (c : Option Session) :
    ShowsSys { s with sess := fun x => if x = fd then c else s.sess x } (R.know fd (c.map (fun c => ⟨c.db, c.auth⟩))) := by
  refine ⟨fun x => ?_, h.db⟩
  simp only [Exact.State.know]
  split
  · rfl
  · exact h.client x

theorem rel_same (h : ShowsSys s R) {fd : Nat} {c : Session} (hc : s.sess fd = some c) :
    ShowsSys { s with sess := fun x => if x = fd then some c else s.sess x } R := by
  refine ⟨fun x => ?_, h.db⟩
  simp only
  split
  next hx => subst hx; rw [h.client, hc]
  · exact h.client x

theorem rel_view (h : ShowsSys s R) {srv' : Server} (hlen : srv'.dbs.length = s.srv.dbs.length)
    (hv : ∀ (i : Nat) (d : Db), s.srv.dbs[i]? = some d → ∃ d', srv'.dbs[i]? = some d' ∧ d'.view = d.view) : ShowsSys ⟨srv', s.sess⟩ R := by
  refine ⟨h.client, fun i d' hd' => ?_⟩
  have hi : i < s.srv.dbs.length := by
    rw [← hlen]
    rcases Nat.lt_or_ge i srv'.dbs.length with h | h
    · exact h
    · simp only at hd'; rw [List.getElem?_eq_none h] at hd'; cases hd'
  obtain ⟨d2, h1, h2⟩ := hv i _ (List.getElem?_eq_getElem hi)
  simp only at hd'
  rw [hd'] at h1; cases h1
  rw [h2]; exact h.db i _ (List.getElem?_eq_getElem hi)

theorem rel_set (h : ShowsSys s R) {srv' : Server} {i : Nat} {d d' : Db} (hd : s.srv.dbs[i]? = some d) (hs : srv'.dbs = s.srv.dbs.set i d') {S : Exact.Store}
    (hS : Shows d'.view S) : ShowsSys ⟨srv', s.sess⟩ (R.store i S) := by
  refine ⟨h.client, fun x d2 hd2 => ?_⟩
  simp only [hs] at hd2
  simp only [Exact.State.store]
  have hi : i < s.srv.dbs.length := by
    rcases Nat.lt_or_ge i s.srv.dbs.length with h | h
    · exact h
    · rw [List.getElem?_eq_none h] at hd; cases hd
  by_cases hx : x = i
  · subst hx
    rw [List.getElem?_set_self hi] at hd2; cases hd2
    rw [if_pos rfl]; exact hS
  · rw [List.getElem?_set_ne (fun h => hx h.symm)] at hd2
    rw [if_neg hx]; exact h.db x d2 hd2

/-- A request is answered like in the exact reference. -/
theorem xs_request {fd : Nat} {e : Env} {args : List Bytes} {r : List Bytes} {c : Session} (g : SysGood hash s) (he : e.hash = hash)
    (hR : ShowsSys s R) (hc : s.sess fd = some c) (h : Sys.step s (.request fd e args) = some (s', r)) (hf : Exact.Covered (.request fd e args)) :
    ∃ R' v, Exact.answers s.srv.dbs.length s.srv.password R fd ⟨c.db, c.auth⟩ e args R' v ∧ Says r v ∧ ShowsSys s' R' := by
  have hdb := (step_db g (show EvOk hash (.request fd e args) from he) h).2.2.2
  simp only [Sys.step, hc, Option.bind_eq_bind, Option.bind_some, Option.bind_eq_some_iff] at h
  obtain ⟨⟨srv', c', r'⟩, hp, h⟩ := h
  cases h
  have hself : ∀ c1 : Session, ShowsSys ⟨s.srv, fun x => if x = fd then some c1 else s.sess x⟩ (R.know fd (some ⟨c1.db, c1.auth⟩)) :=
    fun c1 => rel_know hR fd (some c1)
  have hsame : ShowsSys ⟨s.srv, fun x => if x = fd then some c else s.sess x⟩ R := rel_same hR hc
  unfold Exact.answers
  simp only
  cases hcmd : commandOf e args with
  | none =>
    simp only
    unfold Server.processCommand at hp
    unfold commandOf at hcmd
    cases ha : args[0]? with
    | none => rw [ha] at hp; cases hp
    | some a0 =>
      rw [ha] at hcmd
      simp only [ha, Option.bind_eq_bind, Option.bind_some] at hp hcmd
      rw [← lookup_named] at hcmd
      have hl : lookupCommand (e.lower a0) = none := by
        cases hl : lookupCommand (e.lower a0) with
        | none => rfl
        | some x => rw [hl] at hcmd; cases hcmd
      simp only [hl] at hp
      cases hp
      exact ⟨_, _, ⟨rfl, _, rfl⟩, says_error _, hsame⟩
  | some cmd =>
    simp only
    obtain ⟨a0, entry, h1, h2, h3, h4, h5⟩ := named_lookup hcmd
    have hname : entry.name = b!"auth" ↔ cmd = .auth := by
      rw [← h3]; exact table_auth entry (lookup_mem h2).1
    have hpc := hp
    unfold Server.processCommand at hp
    simp only [h1, h2, h4, Option.bind_eq_bind, Option.bind_some] at hp
    by_cases hacc : accepts cmd args.length
    · simp only [if_neg (not_not.2 hacc)]
      rw [if_neg (by rw [(Props.KeysP.accepts_iff cmd _).2 hacc]; decide)] at hp
      by_cases hl : s.srv.password ≠ [] ∧ c.auth = false ∧ cmd ≠ .auth
      · simp only [if_pos hl]
        rw [if_pos ⟨hl.1, hl.2.1, by rw [← h5]; exact fun hh => hl.2.2 (hname.1 hh)⟩] at hp
        cases hp
        exact ⟨_, _, ⟨rfl, _, rfl⟩, says_error _, hsame⟩
      · simp only [if_neg hl]
        cases served he g.srv hpc with
        | unknown r a0' ha' hl' hr => rw [h1] at ha'; cases ha'; rw [h2] at hl'; cases hl'
        | rejected r a0' ha' cmd' hl' hh hr =>
          rw [h1] at ha'; cases ha'; rw [h2] at hl'; cases hl'
          rcases hh with hh | hh
          · rw [h4, (Props.KeysP.accepts_iff cmd _).2 hacc] at hh; cases hh
          · rw [h3] at hh; exact absurd hh hl
        | db a0' ha' cmd' hl' hok' hauth f hfn d hd o ho a hs hrel srv' hfeed =>
          rw [h1] at ha'; cases ha'; rw [h2] at hl'; cases hl'
          rw [h3] at hs
          obtain ⟨S', v, hv1, hv2, hv3⟩ := xs_step hs hacc (hf cmd hcmd) (hR.db _ d hd) hrel.reply
          have hdbs : srv'.dbs = s.srv.dbs.set c.db o.db := by
            split at hfeed
            · exact (feed_ref hfeed).1
            · cases hfeed; rfl
          have hrel' : ShowsSys ⟨srv', fun x => if x = fd then some c else s.sess x⟩ (R.store c.db S') :=
            rel_set hsame (srv' := srv') hd hdbs (by rw [hrel.view]; exact hv3)
          have hp' : ∃ S1, Exact.perform e cmd (args.drop 1) (R.dbs c.db) S1 v ∧ R.store c.db S' = R.store c.db S1 := ⟨_, hv2, rfl⟩
          refine ⟨_, v, ?_, hv1, hrel'⟩
          rw [h3] at hfn
          cases cmd <;> first | exact hp' | (cases hfn; done)
        | select a0' ha' cmd' hl' hc' s1 r hsel =>
          rw [h1] at ha'; cases ha'; rw [h2] at hl'; cases hl'
          rw [h3] at hc'; subst hc'
          match args, hacc, hsel with
          | [n, a], _, hsel =>
            unfold Server.select at hsel
            simp only [List.getElem?_cons_succ, List.getElem?_cons_zero, Option.bind_eq_bind, Option.bind_some, List.drop_succ_cons, List.drop_zero] at hsel ⊢
            cases hi : atoi a with
            | none => rw [hi] at hsel; cases hsel; exact ⟨_, _, ⟨rfl, _, rfl⟩, says_error _, hsame⟩
            | some i =>
              rw [hi] at hsel
              simp only at hsel ⊢
              split at hsel
              next hge => cases hsel; simp only [if_neg (show ¬ i < (s.srv.dbs.length : Int) by omega), if_neg (show ¬ i < 0 by omega)]; exact ⟨_, _, ⟨rfl, _, rfl⟩, says_error _, hsame⟩
              next hge =>
                split at hsel
                · cases hsel
                next hneg =>
                  cases hsel
                  simp only [if_neg hneg, if_pos (show i < (s.srv.dbs.length : Int) by omega)]
                  exact ⟨_, _, ⟨rfl, rfl⟩, says_ok, hself _⟩
        | auth a0' ha' cmd' hl' hc' s1 r hau =>
          rw [h1] at ha'; cases ha'; rw [h2] at hl'; cases hl'
          rw [h3] at hc'; subst hc'
          match args, hacc, hau with
          | [n, a], _, hau =>
            unfold Server.auth at hau
            simp only [List.getElem?_cons_succ, List.getElem?_cons_zero, Option.bind_eq_bind, Option.bind_some, List.drop_succ_cons, List.drop_zero] at hau ⊢
            split at hau
            next hpw =>
              cases hau
              simp only [if_pos (show s.srv.password = [] ∨ a = s.srv.password from Or.inl hpw)]
              exact ⟨_, _, ⟨rfl, rfl⟩, says_ok, hself _⟩
            next hpw =>
              split at hau
              next hpa =>
                cases hau
                simp only [if_pos (show s.srv.password = [] ∨ a = s.srv.password from Or.inr hpa.symm)]
                exact ⟨_, _, ⟨rfl, rfl⟩, says_ok, hself _⟩
              next hpa =>
                cases hau
                simp only [if_neg (show ¬ (s.srv.password = [] ∨ a = s.srv.password) by rintro (h | h); exact hpw h; exact hpa h.symm)]
                exact ⟨_, _, ⟨rfl, _, rfl⟩, says_error _, hself _⟩
        | rewrite a0' ha' cmd' hl' hc' srv' r hrw =>
          rw [h1] at ha'; cases ha'; rw [h2] at hl'; cases hl'
          rw [h3] at hc'; subst hc'
          have hst : ShowsSys ⟨srv', fun x => if x = fd then some c else s.sess x⟩ R := by
            refine rel_view hsame hdb.1 (fun i d hd => ?_)
            obtain ⟨d', q1, _, q3⟩ := hdb.2 i d hd
            refine ⟨d', q1, ?_⟩
            cases q3 with
            | same h => exact h
            | request c1 hc1 hi1 cmd hcmd' hok1 hauth a ha hd1 hr =>
              rw [hcmd] at hcmd'; cases hcmd'
              cases ha with
              | det hc h => cases hc
          unfold Server.bgRewriteAof at hrw
          split at hrw
          · cases hrw; exact ⟨_, _, ⟨rfl, Or.inr rfl⟩, says_simple _, hst⟩
          · simp only [Option.bind_eq_bind, Option.bind_eq_some_iff] at hrw
            obtain ⟨_, _, hrw⟩ := hrw
            cases hrw; exact ⟨_, _, ⟨rfl, Or.inl rfl⟩, says_simple _, hst⟩
    · simp only [if_pos hacc]
      rw [if_pos (by
        cases hb : Server.badArity args.length (arity cmd) with
        | true => rfl
        | false => exact absurd ((Props.KeysP.accepts_iff cmd _).1 hb) hacc)] at hp
      cases hp
      exact ⟨_, _, ⟨rfl, _, rfl⟩, says_error _, hsame⟩

/-- An event does what the exact reference does. -/
theorem xs_event {ev : Event} {r : List Bytes} (g : SysGood hash s) (he : EvOk hash ev) (hR : ShowsSys s R)
    (h : Sys.step s ev = some (s', r)) (hf : Exact.Covered ev) :
    ∃ R' v, Exact.Moves s.srv.dbs.length s.srv.password R ev R' v ∧ Ref.Told r v ∧ ShowsSys s' R' := by
  cases ev with
  | connect fd =>
    simp only [Sys.step] at h
    split at h
    · cases h
    · cases h
      exact ⟨_, none, ⟨rfl, rfl⟩, rfl, rel_know hR fd (some Session.new)⟩
  | close fd =>
    cases h
    exact ⟨_, none, ⟨rfl, rfl⟩, rfl, rel_know hR fd none⟩
  | request fd e args =>
    cases hc : s.sess fd with
    | none => simp [Sys.step, hc] at h
    | some c =>
      have hcl : R.client fd = some ⟨c.db, c.auth⟩ := by rw [hR.client, hc]; rfl
      obtain ⟨R', v, h1, h2, h3⟩ := xs_request g he hR hc h hf
      refine ⟨R', some v, ?_, h2, h3⟩
      unfold Exact.Moves
      simp only [hcl]
      exact ⟨v, h1, rfl⟩
  | cron e =>
    have hdb := (step_db g he h).2.2.2
    simp only [Sys.step, Option.bind_eq_bind, Option.bind_eq_some_iff] at h
    obtain ⟨srv', h1, h2⟩ := h
    cases h2
    have hsw : ∀ (i : Nat) (d : Db), s.srv.dbs[i]? = some d → ∃ d', srv'.dbs[i]? = some d' ∧ Swept e d.view d'.view := by
      intro i d hd
      obtain ⟨d', q1, _, q3⟩ := hdb.2 i d hd
      refine ⟨d', q1, ?_⟩
      cases q3 with
      | same h => rw [h]; exact swept_refl
      | cron h => exact h
    refine ⟨⟨fun i => match srv'.dbs[i]? with | some d => { R.dbs i with base := RefSim.store d.view } | none => R.dbs i, R.client⟩, none,
      ⟨fun i => ?_, rfl, rfl⟩, rfl, hR.client, fun i d' hd' => ?_⟩
    · cases hd : s.srv.dbs[i]? with
      | none =>
        have hd' : srv'.dbs[i]? = none := by
          have := hdb.1
          simp only at this
          rw [List.getElem?_eq_none_iff] at hd ⊢; omega
        simp only [hd']
        exact ⟨fun k => Or.inl ⟨rfl, rfl⟩, trivial, trivial⟩
      | some d =>
        obtain ⟨d', q1, q2⟩ := hsw i d hd
        simp only [q1, and_true]
        rw [(hR.db i d hd).base]
        exact RefSim.swept_store q2
    · have hi : i < s.srv.dbs.length := by
        have := hdb.1
        simp only at this
        rw [← this]
        rcases Nat.lt_or_ge i srv'.dbs.length with h | h
        · exact h
        · simp only at hd'; rw [List.getElem?_eq_none h] at hd'; cases hd'
      obtain ⟨d2, q1, q2⟩ := hsw i _ (List.getElem?_eq_getElem hi)
      simp only at hd'
      rw [hd'] at q1; cases q1
      simp only [hd']
      exact shows_swept (hR.db i _ (List.getElem?_eq_getElem hi)) q2

end Metis.ExactSim
