import Verif.Proofs.Host
/-!
Property C93: bytes in, bytes out: the server is the reference server behind sockets (`Spec/Host.lean`).
-/
set_option linter.unusedSectionVars false
set_option linter.unusedSimpArgs false
set_option linter.unusedVariables false
namespace Metis.Props.HostP
open Metis Spec Metis.Wire Metis.HostSim
open _root_.Metis.Net (pending)
open _root_.Metis.Props.CalmP (more)
variable {hash : Bytes → Nat} {n : Nat} {pw : Bytes} {aof : Bool} {evs : List Ev} {w : Wire}

/-- The same connections are open, and each has been sent, or has queued for it, what the reference has said to it. -/
def Heard (w : Wire) (H : Ref.Host) : Prop := ∀ fd, (w.net.clients fd).map (fun o => w.net.wire fd ++ pending o) = (H.line fd).map (·.out)

/-- The full claim of C93. -/
def C93 : Prop := ∀ (hash : Bytes → Nat) (n : Nat) (pw : Bytes) (aof : Bool) (evs : List Ev) (w : Wire), EvsOk hash evs → (∀ ev ∈ evs, Read ev) →
  run (init n pw aof) evs = some w → ∃ H, Ref.Hosts n pw .start evs H ∧ Heard w H

def farArgs : List Bytes := [b!"setex", b!"k", b!"9223372036854775807", b!"v"]

def far1 : Bytes := b!"*4\r\n$5\r\nset"
def far2 : Bytes := b!"ex\r\n$1\r\nk\r\n$19\r\n9223372036854775807\r\n$1\r\nv\r\n"
def far3 : Bytes := request [b!"get", b!"k"]

/-- The counterexample of C92 as bytes, the first request in two pieces. -/
def far : List Ev := [.accept 5, .readable 5 (.data far1) (demo 0), .readable 5 (.data far2) (demo 0), .readable 5 (.data far3) (demo 0)]

theorem far1_wait : verdict (roomAfter 4096 far1.length) ([] ++ far1) = .wait := by decide
theorem far2_run : verdict (roomAfter (roomAfter 4096 far1.length) far2.length) (([] ++ far1) ++ far2) = .run farArgs := by decide
theorem far3_run : verdict (roomAfter 0 far3.length) ([] ++ far3) = .run [b!"get", b!"k"] := by decide

theorem envok_demo (t : Int) : EnvOk (demo 0).hash (demo t) := ⟨rfl, ReplyP.demo_floats t, ReplyP.demo_texts t⟩

theorem far_reference {R1 R2 : Ref.State} {v1 v2 : Value} (m2 : Ref.Moves 1 [] (Ref.start.know 5 (some ⟨0, false⟩)) (.request 5 (demo 0) farArgs) R1 (some v1))
    (m3 : Ref.Moves 1 [] R1 (.request 5 (demo 0) [b!"get", b!"k"]) R2 (some v2)) : v1 = Ref.OK ∧ v2 = .bulk b!"v" := by
  obtain ⟨v, m2, hv⟩ := m2
  cases hv
  unfold Ref.answers at m2
  simp only [show commandOf (demo 0) farArgs = some .setex by decide] at m2
  rw [if_neg (by decide), if_neg (by decide)] at m2
  obtain ⟨d, m2, rfl⟩ := m2
  unfold Ref.perform Ref.setex at m2
  simp only [farArgs, List.drop_succ_cons, List.drop_zero, show atoi b!"9223372036854775807" = some 9223372036854775807 by decide] at m2
  obtain ⟨rfl, rfl⟩ := m2
  obtain ⟨v, m3, hv⟩ := m3
  cases hv
  unfold Ref.answers at m3
  simp only [show commandOf (demo 0) [b!"get", b!"k"] = some .get by decide] at m3
  rw [if_neg (by decide), if_neg (by decide)] at m3
  obtain ⟨d, m3, _⟩ := m3
  unfold Ref.perform Ref.get Ref.fresh at m3
  simp only [List.drop_succ_cons, List.drop_zero] at m3
  rw [if_neg (by
    rintro ⟨x, hx, hlt⟩
    simp only [Ref.State.store, Ref.put, if_true] at hx
    cases hx
    exact absurd hlt (by decide))] at m3
  exact ⟨rfl, m3.2⟩

/-- **C93 refuted**: as C92. -/
theorem C93_refuted : ¬ C93 := by
  intro hc
  have hr : (run (init 1 [] false) far).map (fun w => (w.net.clients 5).map (fun o => w.net.wire 5 ++ pending o)) = some (some b!"+OK\r\n$-1\r\n") := by decide
  obtain ⟨w, hw, h2⟩ := Option.map_eq_some_iff.1 hr
  have he : EvsOk (demo 0).hash far := by
    intro ev hev
    simp only [far, List.mem_cons, List.not_mem_nil, or_false] at hev
    rcases hev with rfl | rfl | rfl | rfl
    · trivial
    all_goals exact envok_demo 0
  obtain ⟨H, hH, hh⟩ := hc (demo 0).hash 1 [] false far w he (by
    intro ev hev
    simp only [far, List.mem_cons, List.not_mem_nil, or_false] at hev
    rcases hev with rfl | rfl | rfl | rfl <;> first | trivial | (show _ ≠ _; decide)) hw
  have h5 := hh 5
  rw [h2] at h5
  cases hH with | cons m1 hH => cases hH with | cons m2 hH => cases hH with | cons m3 hH => cases hH with | cons m4 hH =>
  cases hH
  obtain ⟨_, rfl⟩ := m1
  unfold Ref.Serves at m2
  simp only [if_true] at m2
  rw [far1_wait] at m2
  simp only at m2
  subst m2
  unfold Ref.Serves at m3
  simp only [Ref.Host.plug, if_true] at m3
  rw [far2_run] at m3
  simp only [farArgs, reduceCtorEq, if_false] at m3
  obtain ⟨R1, v1, m3, rfl⟩ := m3
  unfold Ref.Serves at m4
  simp only [if_true] at m4
  rw [far3_run] at m4
  simp only [reduceCtorEq, if_false] at m4
  obtain ⟨R2, v2, m4, rfl⟩ := m4
  obtain ⟨rfl, rfl⟩ := far_reference m3 m4
  simp at h5
  exact absurd h5 (by decide)

theorem heard_of {H : Ref.Host} (h : HOk hash n pw w H) : Heard w H := by
  intro fd
  have := h.line fd
  cases hl : H.line fd with
  | none => rw [hl] at this; rw [this.2]; rfl
  | some l => rw [hl] at this; obtain ⟨c, o, _, _, _, h4, h5⟩ := this; rw [h4]; simp only [Option.map_some, h5]

theorem follow : ∀ (evs : List Ev) {w w' : Wire} {H : Ref.Host}, HOk hash n pw w H → EvsOk hash evs → (∀ ev ∈ evs, Read ev) →
    run w evs = some w' →
    ∃ k wk H', k ≤ evs.length ∧ run w (evs.take k) = some wk ∧ Ref.Hosts n pw H (evs.take k) H' ∧ HOk hash n pw wk H' ∧
      ∀ ev, evs[k]? = some ev → ¬ H'.Fine ev
  | [], w, w', H, h, _, _, hr => ⟨0, w, H, Nat.le_refl _, rfl, .nil, h, by simp⟩
  | ev :: evs, w, w', H, h, he, hrd, hr => by
    simp only [run, Option.bind_eq_bind, Option.bind_eq_some_iff] at hr
    obtain ⟨w1, h1, h2⟩ := hr
    by_cases hf : H.Fine ev
    · obtain ⟨H1, m, ok⟩ := serve_step h (fun x hx => he x (by simp at hx; simp [hx])) (hrd ev (by simp)) hf h1
      obtain ⟨k, wk, H', q1, q2, q3, q4, q5⟩ := follow evs ok (fun x hx => he x (List.mem_cons_of_mem _ hx)) (fun x hx => hrd x (by simp [hx])) h2
      exact ⟨k + 1, wk, H', by simpa using q1, by simp only [List.take_succ_cons, run, h1, Option.bind_eq_bind, Option.bind_some, q2], .cons m q3, q4,
        fun x hx => q5 x (by simpa using hx)⟩
    · exact ⟨0, w, H, Nat.zero_le _, rfl, .nil, h, fun x hx => by simp at hx; cases hx; exact hf⟩

/-- **C93, partial, prefixes**: whatever the clients send, in whatever pieces: up to the first command outside the limits, every connection
gets the bytes of the reference. -/
theorem C93_until_partial (he : EvsOk hash evs) (hrd : ∀ ev ∈ evs, Read ev) (h : run (init n pw aof) evs = some w) :
    ∃ k wk H, k ≤ evs.length ∧ run (init n pw aof) (evs.take k) = some wk ∧ Ref.Hosts n pw .start (evs.take k) H ∧ Heard wk H ∧
      ∀ ev, evs[k]? = some ev → ¬ H.Fine ev := by
  obtain ⟨k, wk, H, h1, h2, h3, h4, h5⟩ := follow evs (HOk.init (aof := aof)) he hrd h
  exact ⟨k, wk, H, h1, h2, h3, heard_of h4, h5⟩

theorem follow_safe : ∀ (evs : List Ev) {w w' : Wire} {H : Ref.Host}, HOk hash n pw w H → EvsOk hash evs → (∀ ev ∈ evs, Read ev) →
    Ref.Host.Safe n pw H evs → run w evs = some w' → ∃ H', Ref.Hosts n pw H evs H' ∧ HOk hash n pw w' H'
  | [], w, w', H, h, _, _, _, hr => by cases hr; exact ⟨H, .nil, h⟩
  | ev :: evs, w, w', H, h, he, hrd, hs, hr => by
    simp only [run, Option.bind_eq_bind, Option.bind_eq_some_iff] at hr
    obtain ⟨w1, h1, h2⟩ := hr
    obtain ⟨H1, m, ok⟩ := serve_step h (fun x hx => he x (by simp at hx; simp [hx])) (hrd ev (by simp)) hs.1 h1
    obtain ⟨H', q1, q2⟩ := follow_safe evs ok (fun x hx => he x (List.mem_cons_of_mem _ hx)) (fun x hx => hrd x (by simp [hx])) (hs.2 H1 m) h2
    exact ⟨H', .cons m q1, q2⟩

/-- **C93, partial**: if all commands stay within the limits, every connection gets exactly the bytes of the reference. -/
theorem C93_partial (he : EvsOk hash evs) (hrd : ∀ ev ∈ evs, Read ev) (hs : Ref.Host.Safe n pw .start evs) (h : run (init n pw aof) evs = some w) :
    ∃ H, Ref.Hosts n pw .start evs H ∧ Heard w H := by
  obtain ⟨H, h1, h2⟩ := follow_safe evs (HOk.init (aof := aof)) he hrd hs h
  exact ⟨H, h1, heard_of h2⟩

/-- An event that can happen: the kernel hands out unused descriptors, and calls back for open connections. -/
def Possible (w : Wire) : Ev → Prop
  | .accept fd => w.sys.srv.dbs ≠ [] ∧ w.net.clients fd = none
  | .readable fd _ _ => w.net.clients fd ≠ none
  | .writable fd _ => w.net.clients fd ≠ none
  | .cron _ => True

/-- The event with further random numbers. -/
def rolled (t : List Nat) : Ev → Ev
  | .readable fd g e => .readable fd g (more e t)
  | .cron e => .cron (more e t)
  | ev => ev

theorem safe_append : ∀ (evs : List Ev) {H : Ref.Host} {evs' : List Ev}, Ref.Host.Safe n pw H (evs ++ evs') →
    Ref.Host.Safe n pw H evs ∧ ∀ H', Ref.Hosts n pw H evs H' → Ref.Host.Safe n pw H' evs'
  | [], H, evs', h => ⟨trivial, fun H' hr => by cases hr; exact h⟩
  | ev :: evs, H, evs', h =>
    ⟨⟨h.1, fun H1 m => (safe_append evs (h.2 H1 m)).1⟩, fun H' hr => by
      cases hr with
      | cons m hr => exact (safe_append evs (h.2 _ m)).2 _ hr⟩

/-- Within the limits a request is executed. -/
theorem executes {s : Sys} {fd : Nat} {e : Env} {args : List Bytes} {c : Session} (hR : Reach hash s) (ok : RefSim.SOk s) (he : e.hash = hash) (hc : s.sess fd = some c)
    (h0 : args ≠ []) (hf : Ref.Fine (RefSim.state s) (.request fd e args)) : ∃ t s' r, Sys.step s (.request fd (more e t) args) = some (s', r) := by
  by_cases hr : ∃ cmd, commandOf e args = some cmd ∧ (cmd = .spop ∨ cmd = .randomget)
  · obtain ⟨cmd, h3, h4⟩ := hr
    exact CalmP.C69_random hR he hc h0 h3 h4
  · by_cases hacc : ∃ cmd, commandOf e args = some cmd ∧ ¬ accepts cmd args.length
    · obtain ⟨cmd, h3, h4⟩ := hacc
      obtain ⟨s', r, h5, _⟩ := KeysP.C67_count hc h3 h4
      exact ⟨[], s', r, by simpa [more] using h5⟩
    · obtain ⟨s', r, h5⟩ := CalmP.C69_partial hR he hc h0 (fun cmd hcmd => RefP.calm_of ok hc hR.good hf hcmd
        (by by_contra h; exact hacc ⟨cmd, hcmd, h⟩) (fun h => hr ⟨cmd, hcmd, Or.inl h⟩) (fun h => hr ⟨cmd, hcmd, Or.inr h⟩))
      exact ⟨[], s', r, by simpa [more] using h5⟩

/-- **C93, partial, the server stays up**: after a history within the limits, every callback that is possible, whose bytes do not crash the
parser (`C29_exact` says which do) and whose command is within the limits ends, given enough random numbers where it needs some. -/
theorem C93_answers_partial {ev : Ev} (he : EvsOk hash (evs ++ [ev])) (hrd : ∀ x ∈ evs ++ [ev], Read x) (hs : Ref.Host.Safe n pw .start (evs ++ [ev]))
    (h : run (init n pw aof) evs = some w) (hp : Possible w ev) (hsd : ∀ H, Ref.Hosts n pw .start evs H → H.Sound ev) :
    ∃ t w', step w (rolled t ev) = some w' := by
  obtain ⟨hs1, hs2⟩ := safe_append evs hs
  obtain ⟨H, h1, ok⟩ := follow_safe evs (HOk.init (aof := aof)) (fun x hx => he x (by simp [hx])) (fun x hx => hrd x (by simp [hx])) hs1 h
  have hf := (hs2 H h1).1
  have ho := he ev (by simp)
  cases ev with
  | accept fd =>
    refine ⟨[], ?_⟩
    simp only [rolled, step, Net.step, hp.2, Sys.step]
    rw [if_neg (by simp), if_neg (fun hh => hp.1 (List.length_eq_zero_iff.1 hh))]
    exact ⟨_, rfl⟩
  | cron e =>
    obtain ⟨t, s', r, h2⟩ := CalmP.C69_cron ok.reach ho
    exact ⟨t, { w with sys := s' }, by simp only [rolled, step, h2, Option.bind_eq_bind, Option.bind_some]⟩
  | writable fd rs =>
    obtain ⟨o, ho'⟩ := Option.ne_none_iff_exists'.1 hp
    obtain ⟨net, h2⟩ := Net.writable_total ok.net ho' rs
    refine ⟨[], ?_⟩
    simp only [rolled, step, Net.step, h2, Option.bind_eq_bind, Option.bind_some]
    split <;> exact ⟨_, rfl⟩
  | readable fd g e =>
    have hl := ok.line fd
    cases hlf : H.line fd with
    | none => rw [hlf] at hl; exact absurd hl.2 hp
    | some l =>
      rw [hlf] at hl
      obtain ⟨c, o, b1, b2, b3, b4, b5⟩ := hl
      cases g with
      | eof => exact ⟨[], _, by simp only [rolled, step, readable, b1, Option.bind_eq_bind, Option.bind_some]; rfl⟩
      | nothing => exact ⟨[], _, by simp only [rolled, step, readable, b1, Option.bind_eq_bind, Option.bind_some]; rfl⟩
      | data d =>
        have hrr := Conn.read_held b2 (hrd (.readable fd (.data d) e) (by simp))
        have hnc := hsd H h1 l hlf
        have hfr := fun args hv hne => hf l args hlf hv hne
        rw [b3] at hrr
        simp only [rolled, step, readable, b1, Option.bind_eq_bind, Option.bind_some]
        revert hrr hnc hfr
        generalize verdict (roomAfter l.room d.length) (l.inbox ++ d) = v
        generalize Conn.read c d = x
        intro hrr hnc hfr
        cases hrr with
        | crash => exact absurd rfl hnc
        | close => exact ⟨[], _, rfl⟩
        | wait c1 _ _ => exact ⟨[], _, rfl⟩
        | run args =>
          by_cases ha : args = []
          · subst ha; exact ⟨[], _, rfl⟩
          · have hq := hfr args rfl ha
            rw [← ok.state] at hq
            obtain ⟨cl, hcl⟩ : ∃ cl, w.sys.sess fd = some cl := by
              obtain ⟨h', ⟨⟨nevs, f⟩, t⟩, od⟩ := told_run evs [] (told_init (hash := hash)) (fun x hx => he x (by simp [hx])) h ⟨[], rfl, .nil⟩
              have := f.sess fd
              rw [b1] at this
              exact Option.isSome_iff_exists.1 this
            obtain ⟨t, s', r, h2⟩ := executes ok.reach ok.sok ho.1 hcl ha hq
            obtain ⟨n', h3⟩ := WireP.say_total (fd := fd) r ok.net (by rw [b4]; rfl) (ReplyP.C30_nonempty ok.reach (e := more e t) ho.1 ho.2.1 h2)
            exact ⟨t, { w with sys := s', net := n', conn := fun x => if x = fd then some {} else w.conn x }, by simp [exec, ha, h2, h3]⟩

def short1 : Bytes := b!"*4\r\n$5\r\nrpu"
def short2 : Bytes := b!"sh\r\n$1\r\nl\r\n$1\r\na\r\n$1\r\nb\r\n"
def short3 : Bytes := request [b!"lrange", b!"l", b!"0", b!"-1"]

/-- A history within the limits: a list is filled and read, the first request in two pieces. -/
def short : List Ev := [.accept 5, .readable 5 (.data short1) (demo 0), .readable 5 (.data short2) (demo 0), .readable 5 (.data short3) (demo 0)]

theorem short1_wait : verdict (roomAfter 4096 short1.length) ([] ++ short1) = .wait := by decide
theorem short2_run : verdict (roomAfter (roomAfter 4096 short1.length) short2.length) (([] ++ short1) ++ short2) = .run [b!"rpush", b!"l", b!"a", b!"b"] := by decide
theorem short3_run : verdict (roomAfter 0 short3.length) ([] ++ short3) = .run [b!"lrange", b!"l", b!"0", b!"-1"] := by decide

theorem short_safe : Ref.Host.Safe 1 [] .start short := by
  refine ⟨trivial, ?_⟩
  rintro H ⟨_, rfl⟩
  refine ⟨?_, fun H' m2 => ?_⟩
  · intro l args hl hv
    simp only [if_true, Option.some.injEq] at hl
    subst hl
    rw [short1_wait] at hv
    cases hv
  · unfold Ref.Serves at m2
    simp only [if_true] at m2
    rw [short1_wait] at m2
    simp only at m2
    subst m2
    refine ⟨?_, fun H' m3 => ⟨?_, fun H3 m4 => trivial⟩⟩
    · intro l args hl hv hne
      simp only [Ref.Host.plug, if_true, Option.some.injEq] at hl
      subst hl
      rw [short2_run] at hv
      cases hv
      intro c cmd hc hcmd
      rw [show commandOf (demo 0) [b!"rpush", b!"l", b!"a", b!"b"] = some .rpush by decide] at hcmd
      cases hcmd
      intro l hl
      simp only [Ref.Host.start, Ref.Host.plug, Ref.State.know, Ref.start, Ref.listOr] at hl
      cases hl
      decide
    · unfold Ref.Serves at m3
      simp only [Ref.Host.plug, if_true] at m3
      rw [short2_run] at m3
      simp only [reduceCtorEq, if_false] at m3
      obtain ⟨R1, v1, m3, rfl⟩ := m3
      intro l args hl hv hne
      simp only [if_true, Option.some.injEq] at hl
      subst hl
      rw [short3_run] at hv
      cases hv
      intro c cmd hc hcmd
      rw [show commandOf (demo 0) [b!"lrange", b!"l", b!"0", b!"-1"] = some .lrange by decide] at hcmd
      cases hcmd
      intro j hj
      rw [show atoi b!"-1" = some (-1) by decide] at hj
      cases hj
      decide

/-- C93_partial applies to it. -/
example : ∃ w H o, run (init 1 [] false) short = some w ∧ Ref.Hosts 1 [] .start short H ∧ Heard w H ∧ w.net.clients 5 = some o ∧
    w.net.wire 5 = [] ∧ pending o = b!":2\r\n*2\r\n$1\r\na\r\n$1\r\nb\r\n" := by
  have hr : (run (init 1 [] false) short).map (fun w => (w.net.clients 5).map (fun o => (w.net.wire 5, pending o))) =
      some (some ([], b!":2\r\n*2\r\n$1\r\na\r\n$1\r\nb\r\n")) := by decide
  obtain ⟨w, h1, h2⟩ := Option.map_eq_some_iff.1 hr
  obtain ⟨o, h3, h4⟩ := Option.map_eq_some_iff.1 h2
  obtain ⟨H, h5, h6⟩ := C93_partial (hash := (demo 0).hash) (by
    intro ev hev
    simp only [short, List.mem_cons, List.not_mem_nil, or_false] at hev
    rcases hev with rfl | rfl | rfl | rfl
    · trivial
    all_goals exact envok_demo 0) (by
    intro ev hev
    simp only [short, List.mem_cons, List.not_mem_nil, or_false] at hev
    rcases hev with rfl | rfl | rfl | rfl <;> first | trivial | (show _ ≠ _; decide)) short_safe h1
  simp only [Prod.mk.injEq] at h4
  exact ⟨w, H, o, h1, h5, h6, h3, h4.1, h4.2⟩

end Metis.Props.HostP
