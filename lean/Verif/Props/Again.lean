import Verif.Proofs.Again
import Verif.Props.Levels
import Verif.Props.Durable
/-!
Property C83: clients cannot tell a server that was restarted from one that was not.
-/
set_option linter.unusedSectionVars false
set_option linter.unusedSimpArgs false
set_option linter.unusedVariables false
namespace Metis.Props.AgainP
open Metis Metis.Spec Metis.Node
open _root_.Metis.Props.ApartP (SameV Fixed Alike)
open _root_.Metis.Props.LevelsP (Sound Rewriting alike)
open _root_.Metis.Props.DurableP (Timely Orderly inv_run orderly_snoc val_vw deadline_vw H L P)
open _root_.Metis.Props.NodeP (turn ask conf0)

variable {hash : Bytes → Nat} {lower : Bytes → Bytes} {pf : Bytes → Option F64} {T : Int} {N : Nat}

/-- The requests do not depend on random choices (C82). -/
def Certain (hash : Bytes → Nat) (ev : Event) : Prop := EvOk hash ev ∧ Fixed ev ∧ Leveled ev ∧ Sound ev

/-- The client of the event is not connected. -/
def Newcomer (s : Sys) : Event → Prop
  | .connect fd => s.sess fd = none
  | .close fd => s.sess fd = none
  | .request fd _ _ => s.sess fd = none
  | .cron _ => True

/-- The full claim of C83: when the log buffer has been flushed and the process is killed and started again, clients that connect afterwards get the
replies that they would have got without the restart. -/
def C83 : Prop := ∀ (hash : Bytes → Nat) (lower : Bytes → Bytes) (pf : Bytes → Option F64) (T : Int) (N : Nat) (pw : Bytes) (conf : Conf)
  (evs : List Ev) (n n' : Node) (es : Nat → Env) (k k' : List Event) (s : Sys) (rs : List (List Bytes)), LowerOk lower → N < 2 ^ 63 → 0 ≤ T →
  (∀ ev ∈ evs, Timely hash lower pf T ev) → run (boot N pw true conf) evs = some n → n.sys.srv.aofBuf = [] → n.file.length ≤ 65536 →
  (∀ i, World hash lower pf T (es i)) → step n (.restart es) = some n' → (∀ ev ∈ k, Certain hash ev ∧ Newcomer n.sys ev) →
  List.Forall₂ (Reshape hash) k k' → Sys.run n.sys k = some (s, rs) → ∃ t rs', Sys.run n'.sys k' = some (t, rs') ∧ Alike (k.zip rs) rs'

/-- The client of the event. -/
def isOf (fd : Nat) : Event → Bool
  | .connect x => x == fd
  | .close x => x == fd
  | .request x _ _ => x == fd
  | .cron _ => false

theorem good_run (hlow : LowerOk lower) (hN : N < 2 ^ 63) (hT0 : 0 ≤ T) {pw : Bytes} {conf : Conf} (evs : List Ev) : ∀ {n : Node},
    Orderly hash lower pf T (boot N pw true conf) evs → run (boot N pw true conf) evs = some n → SysGood hash n.sys := by
  induction evs using List.reverseRecOn with
  | nil => intro n _ h; cases h; exact ⟨(init_good (hash := hash) N pw true).srv, fun fd c hc => by cases hc⟩
  | append_singleton evs ev ih =>
    intro n ho h
    obtain ⟨_, _, m, _, _, _, _, k'⟩ := inv_run hlow hN hT0 _ ho h
    obtain ⟨o1, o2⟩ := orderly_snoc evs ho
    obtain ⟨n1, h1, h2⟩ := Node.run_append.1 h
    simp only [Node.run, Option.bind_eq_bind, Option.bind_eq_some_iff] at h2
    obtain ⟨n2, h2, h3⟩ := h2
    cases h3
    obtain ⟨_, _, _, _, _, _, _, k⟩ := inv_run hlow hN hT0 _ o1 h1
    refine step_good (ih o1 h1) k'.data.good (k'.data.len.trans k.data.len.symm) ?_ h2
    rintro fd e args rfl
    exact (o2 n1 h1).1.1

/-- **C83, partial**: the claim holds after orderly histories (C48), from a file that can be read (C45), when the deadlines are whole seconds
(the file rounds them down) and no rewrite is running if a client asks for one. It holds for all types of values, all commands that make
no random choice, at all times, with any number of clients. -/
theorem C83_partial (hlow : LowerOk lower) (hN : N < 2 ^ 63) (hT0 : 0 ≤ T) {pw : Bytes} {conf : Conf} {evs : List Ev} {n n' : Node} {es : Nat → Env}
    (ho : Orderly hash lower pf T (boot N pw true conf) evs) (h : run (boot N pw true conf) evs = some n) (hbuf : n.sys.srv.aofBuf = [])
    (hl : Readable n.file) (hes : ∀ i, World hash lower pf T (es i)) (hre : step n (.restart es) = some n')
    (hsec : ∀ i key d, n.sys.deadline i key = some d → d % 1000 = 0)
    {k k' : List Event} {s : Sys} {rs : List (List Bytes)} (hk : ∀ ev ∈ k, Certain hash ev ∧ Newcomer n.sys ev)
    (hrw : (∃ ev ∈ k, Rewriting ev) → n.sys.srv.task = .none)
    (hkk : List.Forall₂ (Reshape hash) k k') (hrun : Sys.run n.sys k = some (s, rs)) :
    ∃ t rs', Sys.run n'.sys k' = some (t, rs') ∧ Alike (k.zip rs) rs' := by
  have g := good_run hlow hN hT0 evs ho h
  obtain ⟨_, _, m, _, _, _, _, inv⟩ := inv_run hlow hN hT0 evs ho h
  obtain ⟨recs, a1, a2, a3⟩ := inv.data.all
  rw [hbuf, List.append_nil] at a1
  rw [a1] at hl
  obtain ⟨srv1, s1, b1, b2, b3, b4, b5⟩ := load_moves a2 a3 hl hes n.sys.srv.password
  obtain ⟨t1, t2⟩ := replay_task recs es (fun i => (hes i).lower) a2 b3
  obtain ⟨srv, f, _, hpw, h2, h3⟩ := restart_spec (show restart es n = some n' from hre)
  rw [inv.data.aof, if_pos rfl, inv.data.len, a1, b1] at h3
  cases h3
  have hn' : n' = start n.conf n.file srv1 := by
    rcases launch_spec h2 with ⟨_, h⟩ | ⟨cs, _, hs, _⟩
    · exact h
    · rw [show (start n.conf n.file srv1).sys.srv.snapshot = srv1.snapshot from rfl, t2] at hs; cases hs
  subst hn'
  have g' : SysGood hash (start n.conf n.file srv1).sys := ⟨b5.good, fun fd c hc => by cases hc⟩
  have w : SameV VLike ⟨fun fd => k.any (isOf fd), fun _ _ => True, n.sys.srv.task = .none⟩ n.sys (start n.conf n.file srv1).sys := by
    refine ⟨hpw, b5.len.trans inv.data.len.symm, fun fd hfd => ?_, fun i key _ => ?_, fun ht => ?_⟩
    · obtain ⟨ev, he1, he2⟩ := List.any_eq_true.1 hfd
      have hnew := (hk ev he1).2
      have : n.sys.sess fd = none := by
        cases ev <;> simp only [isOf, beq_iff_eq] at he2 <;> first | (subst he2; exact hnew) | cases he2
      rw [this]; rfl
    · rw [val_vw, val_vw, deadline_vw, deadline_vw]
      by_cases hi : i < N
      · obtain ⟨d, hd, _, hs⟩ := b5.get hi
        rw [show vw (start n.conf n.file srv1).sys.srv.dbs i = d.view from vw_get hd]
        refine ⟨vlike_of (hs.v key), ?_⟩
        rw [hs.t key]
        cases hd2 : (vw n.sys.srv.dbs i).t key with
        | none => rfl
        | some x =>
          have := hsec i key x (by rw [deadline_vw]; exact hd2)
          simp only [Option.map_some, Option.some.injEq, fl]
          omega
      · rw [vw_out (by rw [inv.data.len]; omega), vw_out (by rw [show (start n.conf n.file srv1).sys.srv.dbs = srv1.dbs from rfl, b5.len]; omega)]
        exact ⟨vlike_none.2 rfl, rfl⟩
    · rw [ht]; exact t1
  refine (fun hm => ?_ : (∀ ev ∈ k, Zone.mine ⟨fun fd => k.any (isOf fd), fun _ _ => True, n.sys.srv.task = .none⟩ ev = true) → _) fun ev hev => ?_
  · obtain ⟨t, rs', q1, q2, _⟩ := alike hkk g g' w (fun _ _ => trivial) (fun ev hev => (hk ev hev).1) (fun ev hev => ⟨hm ev hev, fun hr => hrw ⟨ev, hev, hr⟩⟩) hrun
    exact ⟨t, rs', q1, q2⟩
  · have he2 := (hk ev hev).1.2.1
    cases ev with
    | cron => exact he2.elim
    | connect fd => exact List.any_eq_true.2 ⟨_, hev, by simp [isOf]⟩
    | close fd => exact List.any_eq_true.2 ⟨_, hev, by simp [isOf]⟩
    | request fd e args => exact List.any_eq_true.2 ⟨_, hev, by simp [isOf]⟩

/-! ### The full claim is false -/

/-- Half a second after the start of a second, a key is given ten seconds. The file says at which second it ends. -/
def half : List Ev := turn 0 [.accept 3, .request 3 (demo 500) [b!"setex", b!"k", b!"10", b!"v"]] ++ [.sleep 1]

/-- A client asks how much time is left. -/
def left : List Event := [.connect 4, .request 4 (demo 500) [b!"ttl", b!"k"]]

set_option maxRecDepth 8000 in
theorem half_result : (run (boot 1 [] true (conf0 .no)) half).bind (fun n => (step n (.restart fun _ => demo 500)).bind fun n' =>
    (Sys.run n.sys left).bind fun p => (Sys.run n'.sys left).map fun q =>
      ((n.sys.srv.aofBuf, decide (n.file.length ≤ 65536), (n.sys.sess 4).isNone), p.2, q.2)) =
    some (([], true, true), [[], [b!":10\r\n"]], [[], [b!":9\r\n"]]) := by decide

theorem demo_levels (t : Int) : LevelsOk (demo t).level := fun _ => ⟨(by decide : 1 ≤ 1), (by decide : 1 ≤ 32)⟩

theorem half_world : ∀ i : Nat, World H L P 500 ((fun _ => demo 500) i) :=
  fun _ => ⟨rfl, rfl, rfl, (by decide : (500 : Int) ≤ 500), demo_levels 500⟩

theorem reshape_demo (t : Int) (fd : Nat) (args : List Bytes) : Reshape H (.request fd (demo t) args) (.request fd (demo t) args) :=
  ⟨(demo t).level, demo_levels t, rfl⟩

theorem reshape_connect (fd : Nat) : Reshape H (.connect fd) (.connect fd) := ⟨(demo 0).level, demo_levels 0, rfl⟩

theorem C83_refuted : ¬ C83 := by
  intro hC
  have key := half_result
  simp only [Option.bind_eq_some_iff, Option.map_eq_some_iff] at key
  obtain ⟨n, h1, n', h2, ⟨s, rs⟩, h3, ⟨t, rs'⟩, h4, h5⟩ := key
  simp only [Prod.mk.injEq, decide_eq_true_eq, Option.isNone_iff_eq_none] at h5
  obtain ⟨⟨a1, a2, a3⟩, rfl, rfl⟩ := h5
  obtain ⟨t2, rs2, q1, q2⟩ := hC H L P 500 1 [] (conf0 .no) half n n' (fun _ => demo 500) left left s _ (fun _ _ => rfl) (by decide) (by decide)
    (by
      intro ev hev
      simp only [half, turn, List.cons_append, List.nil_append, List.mem_cons, List.not_mem_nil, or_false] at hev
      rcases hev with rfl | rfl | rfl | rfl | rfl | rfl <;> first | trivial | exact ⟨rfl, by decide, by decide, rfl, rfl⟩)
    h1 a1 a2 half_world h2
    (by
      intro ev hev
      simp only [left, List.mem_cons, List.not_mem_nil, or_false] at hev
      rcases hev with rfl | rfl
      · exact ⟨⟨trivial, trivial, trivial, trivial⟩, a3⟩
      · refine ⟨⟨rfl, ⟨by decide, by decide⟩, demo_levels 500, fun cmd h => ?_⟩, a3⟩
        have : commandOf (demo 500) [b!"ttl", b!"k"] = some .ttl := by decide
        rw [this] at h; cases h
        exact ⟨(fun h => by cases h), fun h => by cases h⟩)
    (.cons (reshape_connect 4) (.cons (reshape_demo 500 4 _) .nil)) h3
  rw [h4] at q1; cases q1
  cases q2 with
  | cons _ q2 => cases q2 with
    | cons q _ =>
      rcases q with q | ⟨⟨cmd, q, hu⟩, _⟩
      · revert q; decide
      · have : commandOf (demo 500) [b!"ttl", b!"k"] = some .ttl := by decide
        rw [this] at q; cases q; cases hu

/-! ### The hypotheses of `C83_partial` can be met -/

/-- A sorted set from which a range was removed and in which a score was changed (so that it lists the member twice, C23), a hash with a deadline, a list and a set; all of it flushed. -/
def evening : List Ev := turn 0 [.accept 3, ask [b!"zadd", b!"z", b!"1", b!"w"], ask [b!"zremrangebyscore", b!"z", b!"1", b!"1"],
    ask [b!"zadd", b!"z", b!"1", b!"m"], ask [b!"zadd", b!"z", b!"2", b!"m"], ask [b!"hset", b!"h", b!"f", b!"1"], ask [b!"expire", b!"h", b!"100"],
    ask [b!"rpush", b!"l", b!"p", b!"q"], ask [b!"select", b!"1"], ask [b!"sadd", b!"s", b!"x"]] ++ [.sleep 1]

theorem demo_nan {args : List Bytes} : NoNaN (demo 0) args := LogP.demo_numbers _

theorem evening_fair : ∀ ev ∈ evening, DurableP.Fair H L P 0 ev := by
  intro ev hev
  simp only [evening, turn, List.cons_append, List.nil_append, List.mem_cons, List.not_mem_nil, or_false] at hev
  rcases hev with rfl | rfl | rfl | rfl | rfl | rfl | rfl | rfl | rfl | rfl | rfl | rfl | rfl | rfl
  all_goals first
    | exact DurableP.fair_ask (cmd := .hset) (by decide) trivial
    | exact DurableP.fair_ask (cmd := .sadd) (by decide) trivial
    | exact DurableP.fair_ask (cmd := .select) (by decide) trivial
    | exact DurableP.fair_ask (cmd := .rpush) (by decide) trivial
    | exact DurableP.fair_ask (cmd := .zremrangebyscore) (by decide) demo_nan
    | exact DurableP.fair_ask (cmd := .zadd) (by decide) ⟨by intro sc h; cases h; decide, demo_nan⟩
    | exact DurableP.fair_ask (cmd := .expire) (by decide) (fun a n h1 h2 => by
        cases h1
        have : atoi b!"100" = some 100 := by decide
        rw [this] at h2; cases h2; decide)
    | trivial

set_option maxRecDepth 8000 in
theorem evening_tame : DurableP.tameRun (boot 2 [] true (conf0 .no)) evening = true := by decide

/-- What a new client asks. -/
def morning : List Event := [.connect 4, .request 4 (demo 50) [b!"zrange", b!"z", b!"0", b!"1"], .request 4 (demo 50) [b!"ttl", b!"h"],
  .request 4 (demo 200000) [b!"hget", b!"h", b!"f"], .request 4 (demo 0) [b!"lrange", b!"l", b!"0", b!"9"]]

/-- Whole seconds, checked on the tables. -/
theorem whole {n : Node} (h : n.sys.srv.dbs.all (fun d => d.expire.toList.all (fun p => p.2 % 1000 == 0)) = true) (i : Nat) (key : Bytes) (d : Int)
    (hd : n.sys.deadline i key = some d) : d % 1000 = 0 := by
  unfold Sys.deadline at hd
  rw [Option.bind_eq_some_iff] at hd
  obtain ⟨db, h1, h2⟩ := hd
  have := List.all_eq_true.1 (List.all_eq_true.1 h db (List.mem_of_getElem? h1)) (key, d) (DurableP.abs_mem h2)
  simpa using this

set_option maxRecDepth 16000 in
theorem evening_result : (run (boot 2 [] true (conf0 .no)) evening).bind (fun n => (step n (.restart fun _ => demo 0)).bind fun n' =>
    (Sys.run n.sys morning).map fun p =>
      ((n.sys.srv.aofBuf, decide (n.file.length ≤ 65536), (n.sys.sess 4).isNone), (n.sys.srv.dbs.all (fun d => d.expire.toList.all (fun p => p.2 % 1000 == 0)),
        n.sys.deadline 0 b!"h"), p.2.map (fun r => r.flatten))) =
    some (([], true, true), (true, some 100000), [[], b!"*2\r\n$1\r\nm\r\n$1\r\nm\r\n", b!":99\r\n", b!"$-1\r\n", b!"*2\r\n$1\r\np\r\n$1\r\nq\r\n"]) := by decide

/-- The replies to these requests are the same after the restart, whatever the levels of the new skiplists and the hash function. -/
example {k' : List Event} (hk : List.Forall₂ (Reshape H) morning k') : ∃ n n' s rs t rs', run (boot 2 [] true (conf0 .no)) evening = some n ∧
    step n (.restart fun _ => demo 0) = some n' ∧ Sys.run n.sys morning = some (s, rs) ∧ Sys.run n'.sys k' = some (t, rs') ∧ Alike (morning.zip rs) rs' := by
  have key := evening_result
  simp only [Option.bind_eq_some_iff, Option.map_eq_some_iff] at key
  obtain ⟨n, h1, n', h2, ⟨s, rs⟩, h3, h5⟩ := key
  simp only [Prod.mk.injEq, decide_eq_true_eq, Option.isNone_iff_eq_none] at h5
  obtain ⟨⟨a1, a2, a3⟩, ⟨a4, a5⟩, a6⟩ := h5
  have go : ∀ t args cmd, commandOf (demo t) args = some cmd → cmd ≠ .spop → cmd ≠ .randomget → cmd ≠ .zremrangebyrank → scoring cmd = false →
      Certain H (.request 4 (demo t) args) ∧ Newcomer n.sys (.request 4 (demo t) args) := fun t args cmd h h1 h2 h3 h4 =>
    ⟨⟨rfl, ⟨by rw [h]; simpa using h1, by rw [h]; simpa using h2⟩, demo_levels t,
      fun c hc => by rw [h] at hc; cases hc; exact ⟨fun h => absurd h h3, fun hx => by rw [h4] at hx; cases hx⟩⟩, a3⟩
  obtain ⟨t, rs', q1, q2⟩ := C83_partial (T := 0) (fun _ _ => rfl) (by decide) (by decide) (DurableP.orderly_of _ evening_fair evening_tame) h1 a1
    (Aof.readable_small a2) DurableP.demo_world h2 (whole a4) (k := morning)
    (by
      intro ev hev
      simp only [morning, List.mem_cons, List.not_mem_nil, or_false] at hev
      rcases hev with rfl | rfl | rfl | rfl | rfl
      · exact ⟨⟨trivial, trivial, trivial, trivial⟩, a3⟩
      · exact go _ _ .zrange (by decide) (by decide) (by decide) (by decide) rfl
      · exact go _ _ .ttl (by decide) (by decide) (by decide) (by decide) rfl
      · exact go _ _ .hget (by decide) (by decide) (by decide) (by decide) rfl
      · exact go _ _ .lrange (by decide) (by decide) (by decide) (by decide) rfl)
    (by
      rintro ⟨ev, hev, hr⟩
      simp only [morning, List.mem_cons, List.not_mem_nil, or_false] at hev
      rcases hev with rfl | rfl | rfl | rfl | rfl
      · exact hr.elim
      all_goals exact absurd hr (by unfold Rewriting; decide))
    hk h3
  exact ⟨n, n', s, rs, t, rs', h1, h2, h3, q1, q2⟩

end Metis.Props.AgainP
