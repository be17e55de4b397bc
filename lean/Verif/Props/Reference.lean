import Verif.Proofs.RefSys
/-!
Property C92: the server is the reference server of `Spec/Reference.lean`.
-/
set_option linter.unusedSectionVars false
set_option linter.unusedSimpArgs false
set_option linter.unusedVariables false
namespace Metis.Props.RefP
open Metis Spec Metis.RefSim
open _root_.Metis.Props.CalmP (more Calm C69_partial C69_random C69_cron)
open _root_.Metis.Props.ListsP (Near)
variable {hash : Bytes → Nat} {n : Nat} {pw : Bytes} {aof : Bool}

/-- The full claim of C92: whatever the history, the server sends what the reference server may send. -/
def C92 : Prop := ∀ (hash : Bytes → Nat) (n : Nat) (pw : Bytes) (aof : Bool) (evs : List Event) (s : Sys) (rs : List (List Bytes)),
  (∀ ev ∈ evs, EvOk hash ev) → Sys.run (Sys.init n pw aof) evs = some (s, rs) →
  ∃ R vs, Ref.Runs n pw Ref.start evs R vs ∧ List.Forall₂ Ref.Told rs vs

theorem state_init : state (Sys.init n pw aof) = Ref.start := by
  unfold state Sys.init Server.init Ref.start
  congr 1
  funext i
  cases h : (List.replicate n Db.new)[i]? with
  | none => simp only [h]
  | some d =>
    simp only [h]
    rw [List.eq_of_mem_replicate (List.mem_of_getElem? h)]
    rfl

theorem sok_init : SOk (Sys.init n pw aof) := by
  intro i d hd
  have := List.mem_of_getElem? hd
  simp only [Sys.init, Server.init, List.mem_replicate] at this
  rw [this.2]
  exact ⟨fun k q h => (by cases h), fun k z h => (by cases h)⟩

/-- The history of the counterexample: the deadline of `k`, some 292 million years ahead, wraps around and has passed at once. -/
def far : List Event := [.connect 4, .request 4 (demo 0) [b!"setex", b!"k", b!"9223372036854775807", b!"v"], .request 4 (demo 0) [b!"get", b!"k"]]

/-- **C92 refuted**: a string with a deadline in the far future cannot be read. -/
theorem C92_refuted : ¬ C92 := by
  intro H
  have hr : (Sys.run (Sys.init 1 [] false) far).map (·.2) = some [[], Reply.ok, [b!"$-1\r\n"]] := by decide
  obtain ⟨⟨s, rs⟩, h1, h2⟩ := Option.map_eq_some_iff.1 hr
  simp only at h2; subst h2
  obtain ⟨R, vs, hR, ht⟩ := H (demo 0).hash 1 [] false far s _ (by simp [far, EvOk]) h1
  cases hR with | cons m1 hR => cases hR with | cons m2 hR => cases hR with | cons m3 hR => 
  cases hR
  cases ht with | cons t1 ht => cases ht with | cons t2 ht => cases ht with | cons t3 ht =>
  obtain ⟨rfl, rfl⟩ := m1
  obtain ⟨v2, m2, rfl⟩ := m2
  unfold Ref.answers at m2
  simp only [show commandOf (demo 0) [b!"setex", b!"k", b!"9223372036854775807", b!"v"] = some .setex by decide] at m2
  rw [if_neg (by decide), if_neg (by decide)] at m2
  obtain ⟨d, m2, rfl⟩ := m2
  unfold Ref.perform Ref.setex at m2
  simp only [List.drop_succ_cons, List.drop_zero, show atoi b!"9223372036854775807" = some 9223372036854775807 by decide] at m2
  obtain ⟨rfl, rfl⟩ := m2
  obtain ⟨v3, m3, rfl⟩ := m3
  unfold Ref.answers at m3
  simp only [show commandOf (demo 0) [b!"get", b!"k"] = some .get by decide] at m3
  rw [if_neg (by decide), if_neg (by decide)] at m3
  obtain ⟨d, m3, _⟩ := m3
  unfold Ref.perform Ref.get Ref.fresh at m3
  simp only [List.drop_succ_cons, List.drop_zero] at m3
  rw [if_neg (by
    rintro ⟨x, hx, hlt⟩
    simp only [Ref.State.store, Ref.put, if_true] at hx
    cases hx
    exact absurd hlt (by decide))] at m3
  obtain ⟨_, rfl⟩ := m3
  exact absurd (show _ = _ from t3) (by decide)

/-- A run follows the reference up to the first event outside the limits. -/
theorem follow : ∀ (evs : List Event) {s s' : Sys} {rs : List (List Bytes)}, SysGood hash s → SOk s → (∀ ev ∈ evs, EvOk hash ev) →
    Sys.run s evs = some (s', rs) →
    ∃ k R vs, k ≤ evs.length ∧ Ref.Runs s.srv.dbs.length s.srv.password (state s) (evs.take k) R vs ∧ List.Forall₂ Ref.Told (rs.take k) vs ∧
      ∀ ev, evs[k]? = some ev → ¬ Ref.Fine R ev
  | [], s, s', rs, _, _, _, h => by
    cases h
    exact ⟨0, _, [], Nat.le_refl _, .nil, .nil, by simp⟩
  | ev :: evs, s, s', rs, g, ok, he, h => by
    simp only [Sys.run, Option.bind_eq_bind, Option.bind_eq_some_iff] at h
    obtain ⟨⟨s1, r⟩, h1, ⟨s2, rs2⟩, h2, h3⟩ := h
    cases h3
    by_cases hf : Ref.Fine (state s) ev
    · obtain ⟨⟨v, m, t⟩, ok1⟩ := sim_event g (he ev (by simp)) ok h1 hf
      obtain ⟨g1, e1, _, e2, _⟩ := step_db g (he ev (by simp)) h1
      obtain ⟨k, R, vs, q1, q2, q3, q4⟩ := follow evs g1 ok1 (fun x hx => he x (by simp [hx])) h2
      rw [e1, e2] at q2
      exact ⟨k + 1, R, v :: vs, by simpa using q1, .cons m q2, .cons t q3, fun x hx => q4 x (by simpa using hx)⟩
    · exact ⟨0, _, [], Nat.zero_le _, .nil, .nil, fun x hx => by simp at hx; cases hx; exact hf⟩

/-- **C92, partial, prefixes**: every history is answered like by the reference up to the first event outside the limits. -/
theorem C92_until_partial {evs : List Event} {s : Sys} {rs : List (List Bytes)} (he : ∀ ev ∈ evs, EvOk hash ev)
    (h : Sys.run (Sys.init n pw aof) evs = some (s, rs)) :
    ∃ k R vs, k ≤ evs.length ∧ Ref.Runs n pw Ref.start (evs.take k) R vs ∧ List.Forall₂ Ref.Told (rs.take k) vs ∧
      ∀ ev, evs[k]? = some ev → ¬ Ref.Fine R ev := by
  have := follow evs (init_good (hash := hash) n pw aof) sok_init he h
  rw [state_init] at this
  simpa only [Sys.init, Server.init, List.length_replicate] using this

theorem follow_safe : ∀ (evs : List Event) {s s' : Sys} {rs : List (List Bytes)}, SysGood hash s → SOk s → (∀ ev ∈ evs, EvOk hash ev) →
    Ref.Safe s.srv.dbs.length s.srv.password (state s) evs → Sys.run s evs = some (s', rs) →
    ∃ vs, Ref.Runs s.srv.dbs.length s.srv.password (state s) evs (state s') vs ∧ List.Forall₂ Ref.Told rs vs ∧ SOk s' ∧ SysGood hash s' ∧
      s'.srv.dbs.length = s.srv.dbs.length
  | [], s, s', rs, g, ok, _, _, h => by
    cases h
    exact ⟨[], .nil, .nil, ok, g, rfl⟩
  | ev :: evs, s, s', rs, g, ok, he, hs, h => by
    simp only [Sys.run, Option.bind_eq_bind, Option.bind_eq_some_iff] at h
    obtain ⟨⟨s1, r⟩, h1, ⟨s2, rs2⟩, h2, h3⟩ := h
    cases h3
    obtain ⟨⟨v, m, t⟩, ok1⟩ := sim_event g (he ev (by simp)) ok h1 hs.1
    obtain ⟨g1, e1, _, e2, _⟩ := step_db g (he ev (by simp)) h1
    obtain ⟨vs, q2, q3, q4, q5, q6⟩ := follow_safe evs g1 ok1 (fun x hx => he x (by simp [hx])) (by rw [e1, e2]; exact hs.2 _ _ m) h2
    rw [e1, e2] at q2
    exact ⟨v :: vs, .cons m q2, .cons t q3, q4, q5, q6.trans e2⟩

theorem init_safe {evs : List Event} {s : Sys} {rs : List (List Bytes)} (he : ∀ ev ∈ evs, EvOk hash ev) (hs : Ref.Safe n pw Ref.start evs)
    (h : Sys.run (Sys.init n pw aof) evs = some (s, rs)) : ∃ vs, Ref.Runs n pw Ref.start evs (state s) vs ∧ List.Forall₂ Ref.Told rs vs ∧ SOk s ∧
      SysGood hash s ∧ s.srv.dbs.length = n := by
  have := follow_safe (s' := s) (rs := rs) evs (init_good (hash := hash) n pw aof) sok_init he
  rw [state_init] at this
  simp only [Sys.init, Server.init, List.length_replicate] at this
  exact this hs h

theorem safe_append : ∀ (evs : List Event) {R : Ref.State} {evs' : List Event}, Ref.Safe n pw R (evs ++ evs') →
    Ref.Safe n pw R evs ∧ ∀ R' vs, Ref.Runs n pw R evs R' vs → Ref.Safe n pw R' evs'
  | [], R, evs', h => ⟨trivial, fun R' vs hr => by cases hr; exact h⟩
  | ev :: evs, R, evs', h =>
    ⟨⟨h.1, fun R1 v m => (safe_append evs (h.2 R1 v m)).1⟩, fun R' vs hr => by
      cases hr with
      | cons m hr => exact (safe_append evs (h.2 _ _ m)).2 _ _ hr⟩

/-- **C92, partial**: a history within the limits is answered like by the reference. -/
theorem C92_partial {evs : List Event} {s : Sys} {rs : List (List Bytes)} (he : ∀ ev ∈ evs, EvOk hash ev) (hs : Ref.Safe n pw Ref.start evs)
    (h : Sys.run (Sys.init n pw aof) evs = some (s, rs)) : ∃ R vs, Ref.Runs n pw Ref.start evs R vs ∧ List.Forall₂ Ref.Told rs vs := by
  obtain ⟨vs, h1, h2, _⟩ := init_safe he hs h
  exact ⟨_, vs, h1, h2⟩

theorem aok_seen {e : Env} {s : Sys} {i : Nat} {k : Bytes} {q : Quicklist Bytes} (ok : SOk s) (h : s.seen i e.now k = some (.list q)) : Page q := by
  cases hd : s.srv.dbs[i]? with
  | none => simp [Sys.seen, Sys.deadline, Sys.val, hd] at h
  | some d => rw [seen_eq hd] at h; exact (aok_exp (ok i d hd)).page k q h

theorem near_page {o : Option AObj} (h : ∀ q, o = some (.list q) → Page q) (i : Int) : Near o i := by
  intro q hq
  rcases page_cases (h q hq) with hp | ⟨p, hp, he⟩
  · simp [hp]; omega
  · simp [hp]; omega

theorem calm_of {s : Sys} {fd : Nat} {e : Env} {c : Session} {args : List Bytes} {cmd : Cmd} (ok : SOk s) (hc : s.sess fd = some c)
    (g : SysGood hash s) (hf : Ref.Fine (state s) (.request fd e args)) (hcmd : commandOf e args = some cmd) (hacc : accepts cmd args.length) (h1 : cmd ≠ .spop) (h2 : cmd ≠ .randomget) :
    Calm s c e args cmd := by
  have hw := hf ⟨c.db, c.auth⟩ cmd (by simp [state, hc]) hcmd
  obtain ⟨d, hd⟩ := get_lt (g.sess fd c hc)
  rw [state_db hd] at hw
  have hz : ∀ k, s.zok c.db k := fun k z hz => (ok c.db d hd).zset k z (by rw [val_eq hd] at hz; exact hz)
  cases cmd <;> try trivial
  all_goals try (exact absurd rfl h1)
  all_goals try (exact absurd rfl h2)
  case select =>
    intro a i ha hi
    match args, ha, hw with
    | n :: a' :: _, ha, hw => cases ha; exact hw i hi
  case rpop => intro k q _ hq; exact (aok_seen ok hq).one
  case lindex => intro k a i _ _ _; exact near_page (fun q hq => aok_seen ok hq) i
  case lrange =>
    intro k a b i j l ha hb hc' hi hj hl
    match args, ha, hb, hc', hw with
    | n :: k' :: a' :: b' :: _, ha, hb, hc', hw =>
      cases ha; cases hb; cases hc'
      refine ⟨near_page (fun q hq => aok_seen ok hq) _, hw j hj, ?_⟩
      cases hs : s.seen c.db e.now k with
      | none => rw [hs] at hl; cases hl; simp
      | some o =>
        cases o with
        | list q =>
          rw [hs] at hl
          have hp := aok_seen ok hs
          have hl' : l = Quicklist.elems q := by cases hl; rfl
          rw [hl']
          rcases page_cases hp with hq | ⟨p, hq, he⟩
          · simp [Quicklist.elems, hq]
          · have := hp.wf.le p (by rw [hq]; simp)
            rw [← he]
            exact Nat.le_trans this (by decide)
        | _ => rw [hs] at hl; cases hl
  case zadd =>
    match args, hw, hacc with
    | n :: k' :: rest, hw, _ =>
      refine ⟨hw.1, fun k hk => ⟨hz k, fun f hf => ?_⟩⟩
      cases hk
      rw [val_eq hd] at hf
      have := hw.2 f (zsetOr_store hf)
      rw [scores_eq] at this
      exact this
  case zrange =>
    intro k a b i j ha hb hc' hi hj
    match args, ha, hb, hc', hw with
    | n :: k' :: a' :: b' :: _, ha, hb, hc', hw => cases ha; cases hb; cases hc'; exact ⟨hz _, hw i j hi hj⟩
  case zrem => intro k _; exact hz k
  case zrangebyscore =>
    intro k a b i j ha hb hc' hi hj
    match args, ha, hb, hc', hw with
    | n :: k' :: a' :: b' :: _, ha, hb, hc', hw => cases ha; cases hb; cases hc'; exact ⟨hz _, hw i j hi hj⟩
  case zremrangebyscore =>
    intro k a b i j ha hb hc' hi hj
    match args, ha, hb, hc', hw with
    | n :: k' :: a' :: b' :: _, ha, hb, hc', hw => cases ha; cases hb; cases hc'; exact ⟨hz _, hw i j hi hj⟩
  case zcount =>
    intro k a b i j ha hb hc' hi hj
    match args, ha, hb, hc', hw with
    | n :: k' :: a' :: b' :: _, ha, hb, hc', hw => cases ha; cases hb; cases hc'; exact ⟨hz _, hw i j hi hj⟩

/-- An event that can happen: new connections to a server with databases, non-empty requests of connected clients. -/
def Possible (s : Sys) : Event → Prop
  | .connect _ => s.srv.dbs ≠ []
  | .request fd _ args => args ≠ [] ∧ s.sess fd ≠ none
  | _ => True

/-- The event with further random numbers. -/
def rolled (t : List Nat) : Event → Event
  | .request fd e args => .request fd (more e t) args
  | .cron e => .cron (more e t)
  | ev => ev

/-- **C92, partial, answers**: within the limits the server does not crash and does not hang: after a history within the limits an event
within the limits is answered, given enough random numbers where the event needs some. -/
theorem C92_answers_partial {evs : List Event} {ev : Event} {s : Sys} {rs : List (List Bytes)} (he : ∀ x ∈ evs ++ [ev], EvOk hash x)
    (hs : Ref.Safe n pw Ref.start (evs ++ [ev])) (h : Sys.run (Sys.init n pw aof) evs = some (s, rs)) (hp : Possible s ev) :
    ∃ t s' r, Sys.step s (rolled t ev) = some (s', r) := by
  have hs1 := safe_append evs hs
  have he1 : ∀ x ∈ evs, EvOk hash x := fun x hx => he x (by simp [hx])
  obtain ⟨vs, h1, h2, ok, g, hl⟩ := init_safe he1 hs1.1 h
  have hf := (hs1.2 _ _ h1).1
  have hR : Reach hash s := ⟨n, pw, aof, evs, rs, he1, h⟩
  cases ev with
  | connect fd =>
    refine ⟨[], { s with sess := fun x => if x = fd then some Session.new else s.sess x }, [], ?_⟩
    simp only [rolled, Sys.step]
    rw [if_neg (fun hh => hp (List.length_eq_zero_iff.1 hh))]
  | close fd => exact ⟨[], _, _, rfl⟩
  | cron e => exact C69_cron hR (he (.cron e) (by simp))
  | request fd e args =>
    have hee : e.hash = hash := he (.request fd e args) (by simp)
    obtain ⟨c, hc⟩ := Option.ne_none_iff_exists'.1 hp.2
    by_cases hr : ∃ cmd, commandOf e args = some cmd ∧ (cmd = .spop ∨ cmd = .randomget)
    · obtain ⟨cmd, h3, h4⟩ := hr
      exact C69_random hR hee hc hp.1 h3 h4
    · by_cases hacc : ∃ cmd, commandOf e args = some cmd ∧ ¬ accepts cmd args.length
      · obtain ⟨cmd, h3, h4⟩ := hacc
        obtain ⟨s', r, h5, _⟩ := KeysP.C67_count hc h3 h4
        exact ⟨[], s', r, by simpa [rolled, more] using h5⟩
      · obtain ⟨s', r, h5⟩ := C69_partial hR hee hc hp.1 (fun cmd hcmd => calm_of ok hc g hf hcmd
          (by by_contra h; exact hacc ⟨cmd, hcmd, h⟩) (fun h => hr ⟨cmd, hcmd, Or.inl h⟩) (fun h => hr ⟨cmd, hcmd, Or.inr h⟩))
        exact ⟨[], s', r, by simpa [rolled, more] using h5⟩

/-- A history within the limits: a list is filled and read. -/
def short : List Event := [.connect 4, .request 4 (demo 0) [b!"rpush", b!"l", b!"a", b!"b"], .request 4 (demo 0) [b!"lrange", b!"l", b!"0", b!"-1"]]

theorem short_safe : Ref.Safe 1 [] Ref.start short := by
  refine ⟨trivial, ?_⟩
  rintro R v ⟨rfl, rfl⟩
  refine ⟨?_, fun R' v' _ => ⟨?_, fun _ _ _ => trivial⟩⟩
  · intro c cmd hc hcmd
    rw [show commandOf (demo 0) [b!"rpush", b!"l", b!"a", b!"b"] = some .rpush by decide] at hcmd
    cases hcmd
    intro l hl
    simp only [Ref.State.know, Ref.start, Ref.listOr] at hl
    cases hl
    decide
  · intro c cmd hc hcmd
    rw [show commandOf (demo 0) [b!"lrange", b!"l", b!"0", b!"-1"] = some .lrange by decide] at hcmd
    cases hcmd
    intro j hj
    rw [show atoi b!"-1" = some (-1) by decide] at hj
    cases hj
    decide

/-- C92_partial applies to it, and the list is answered. -/
example : ∃ s rs R vs, Sys.run (Sys.init 1 [] false) short = some (s, rs) ∧ Ref.Runs 1 [] Ref.start short R vs ∧ List.Forall₂ Ref.Told rs vs ∧
    rs.getLast? = some [b!"*2\r\n", b!"$1\r\na\r\n", b!"$1\r\nb\r\n"] := by
  have hr : (Sys.run (Sys.init 1 [] false) short).map (fun p => p.2.getLast?) = some (some [b!"*2\r\n", b!"$1\r\na\r\n", b!"$1\r\nb\r\n"]) := by decide
  obtain ⟨⟨s, rs⟩, h1, h2⟩ := Option.map_eq_some_iff.1 hr
  obtain ⟨R, vs, h3, h4⟩ := C92_partial (hash := (demo 0).hash) (by simp [short, EvOk]) short_safe h1
  exact ⟨s, rs, R, vs, h1, h3, h4, h2⟩

/-- The limits matter to the counterexample: the history is not safe. -/
example : ¬ Ref.Safe 1 [] Ref.start far := by
  intro h
  have h2 := (h.2 _ _ ⟨rfl, rfl⟩).1 ⟨0, false⟩ .setex (by simp [Ref.State.know]) (by decide)
  have := h2 9223372036854775807 (by decide)
  exact absurd this.2 (by decide)

end Metis.Props.RefP
