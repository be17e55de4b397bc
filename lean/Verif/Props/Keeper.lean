import Verif.Proofs.Keeper
/-!
Property C96: through rewrites, kills and restarts, the process is the reference of `Spec/Keeper.lean`.
-/
set_option linter.unusedSectionVars false
set_option linter.unusedSimpArgs false
set_option linter.unusedVariables false
namespace Metis.Props.KeepP
open Metis Metis.Spec Metis.Node Metis.KeepSim
open _root_.Metis.Props.DurableP (Fair Tame Orderly Timely H L P dice demo_world fair_ask orderly_of tameRun calm_of twoDbs)
open _root_.Metis.Props.NodeP (turn ask conf0)
variable {hash : Bytes → Nat} {lower : Bytes → Bytes} {pf : Bytes → Option F64} {T : Int} {N : Nat} {pw : Bytes} {conf : Conf} {evs : List Ev} {n : Node}

/-- Floating-point numbers are printed without line ends and never as the empty string. -/
def Prints : Ev → Prop
  | .request _ e _ => Floats e
  | _ => True

/-- A life of the reference, `Bs k` after `k` events, in which it says the same as the process at every moment: the same connections are open, and on each of them the
same bytes have been sent or are queued. -/
def Follows (N : Nat) (pw : Bytes) (n0 : Node) (B : Ref.Keeper) (evs : List Ev) (Bs : Nat → Ref.Keeper) : Prop :=
  Bs 0 = B ∧ (∀ k ev, evs[k]? = some ev → Ref.Lives N pw (Bs k) ev (Bs (k + 1))) ∧
    ∀ k m, run n0 (evs.take k) = some m → ∀ fd, (m.net.clients fd).map (fun o => m.net.wire fd ++ Net.pending o) = (Bs k).out fd

/-- The full claim of C96: whatever happens, within the limits of C92. -/
def C96 : Prop := ∀ (hash : Bytes → Nat) (lower : Bytes → Bytes) (pf : Bytes → Option F64) (T : Int) (N : Nat) (pw : Bytes) (conf : Conf) (evs : List Ev) (n : Node),
  LowerOk lower → N < 2 ^ 63 → 0 ≤ T → (∀ ev ∈ evs, Timely hash lower pf T ev ∧ Prints ev) → Ref.Keeper.Safe N pw .start evs →
  run (boot N pw true conf) evs = some n → ∃ Bs, Follows N pw (boot N pw true conf) .start evs Bs

theorem follow (hlow : LowerOk lower) (hN : N < 2 ^ 63) (hT0 : 0 ≤ T) : ∀ (evs : List Ev) {n n' : Node} {B : Ref.Keeper}, KOk hash lower pf T N pw n B →
    Orderly hash lower pf T n evs → (∀ ev ∈ evs, Prints ev) → Ref.Keeper.Safe N pw B evs → run n evs = some n' →
    ∃ Bs : Nat → Ref.Keeper, Bs 0 = B ∧ (∀ k ev, evs[k]? = some ev → Ref.Lives N pw (Bs k) ev (Bs (k + 1))) ∧
      ∀ k m, run n (evs.take k) = some m → KOk hash lower pf T N pw m (Bs k)
  | [], n, n', B, h, _, _, _, _ => ⟨fun _ => B, rfl, fun k ev he => by simp at he, fun k m hm => by
      simp only [List.take_nil, Node.run, Option.some.injEq] at hm; subst hm; exact h⟩
  | ev :: evs, n, n', B, h, ho, hp, hs, hr => by
    simp only [Node.run, Option.bind_eq_bind, Option.bind_eq_some_iff] at hr
    obtain ⟨n1, h1, h2⟩ := hr
    obtain ⟨B1, m1, ok1⟩ := keep_step hlow hN hT0 h (calm_of ho.1 ho.2.1) (fun fd e args he => by subst he; exact hp (.request fd e args) (by simp)) hs.1 h1
    obtain ⟨Bs, q1, q2, q3⟩ := follow hlow hN hT0 evs ok1 (ho.2.2 n1 h1) (fun x hx => hp x (by simp [hx])) (hs.2 B1 m1) h2
    refine ⟨fun | 0 => B | k + 1 => Bs k, rfl, fun k ev' he => ?_, fun k m hm => ?_⟩
    · cases k with
      | zero => simp at he; subst he; simp only; rw [q1]; exact m1
      | succ k => exact q2 k ev' (by simpa using he)
    · cases k with
      | zero => simp only [List.take_zero, Node.run, Option.some.injEq] at hm; subst hm; exact h
      | succ k =>
        simp only [List.take_succ_cons, Node.run, h1, Option.bind_eq_bind, Option.bind_some] at hm
        exact q3 k m hm

/-- **C96, partial**: through an orderly history (commands of any clients, rewrites with any interleaving of the goroutine, kills and restarts) within the limits of C92 the
process says at every moment what the reference says that is killed and started at the same moments: after a restart it knows what was there at the last flush, with
deadlines to the second, and nothing else. What is missing: what breaks the claim (see C48, C50, C51 and below), and deadlines that pass. -/
theorem C96_partial (hlow : LowerOk lower) (hN : N < 2 ^ 63) (hT0 : 0 ≤ T) (ho : Orderly hash lower pf T (boot N pw true conf) evs) (hp : ∀ ev ∈ evs, Prints ev)
    (hs : Ref.Keeper.Safe N pw .start evs) (h : run (boot N pw true conf) evs = some n) : ∃ Bs, Follows N pw (boot N pw true conf) .start evs Bs := by
  obtain ⟨Bs, q1, q2, q3⟩ := follow hlow hN hT0 evs KOk.boot ho hp hs h
  exact ⟨Bs, q1, q2, fun k m hm fd => (q3 k m hm).out fd⟩

/-! ### Refutation -/

/-- Requests whose limits do not depend on the state. -/
def Free (ev : Ev) : Prop := ∀ B : Ref.Keeper, B.Fine ev

theorem safe_free : ∀ (evs : List Ev) {B : Ref.Keeper}, (∀ ev ∈ evs, Free ev) → Ref.Keeper.Safe N pw B evs
  | [], _, _ => trivial
  | ev :: evs, B, h => ⟨h ev (by simp) B, fun B' _ => safe_free evs (fun x hx => h x (by simp [hx]))⟩

theorem free_ask {args : List Bytes} {cmd : Cmd} (h : commandOf (demo 0) args = some cmd) (hw : ∀ s, Ref.Within (demo 0) cmd (args.drop 1) s) : Free (ask args) := by
  intro B c cmd' _ h'
  rw [h] at h'; cases h'
  exact hw _

theorem prints_demo (args : List Bytes) : Prints (ask args) := ReplyP.demo_floats 0

/-- A write in database 1, a restart, a write in database 0, a restart, and a look at what was written last. -/
def lost : List Ev := twoDbs ++ [.sleep 3, .restart (fun _ => demo 0)] ++ turn 4 [.accept 3, ask [b!"get", b!"b"]]

set_option maxRecDepth 8000 in
theorem lost_result : (run (boot 2 [] true (conf0 .no)) lost).map (fun n => (n.net.clients 3).map (fun o => n.net.wire 3 ++ Net.pending o)) = some (some b!"$-1\r\n") := by decide

/-- A SET, in the reference. -/
theorem ref_set {R R' : Ref.State} {c : Ref.Client} {v : Value} {k x : Bytes} (hc : R.client 3 = some c) (hcmd : commandOf (demo 0) [b!"set", k, x] = some .set)
    (m : Ref.Moves 2 [] R (.request 3 (demo 0) [b!"set", k, x]) R' (some v)) :
    R' = R.store c.db ⟨Ref.put (R.dbs c.db).val k (some (.str x)), Ref.put (R.dbs c.db).due k none⟩ := by
  unfold Ref.Moves at m
  simp only [hc] at m
  obtain ⟨v', m, _⟩ := m
  unfold Ref.answers at m
  simp only [hcmd] at m
  rw [if_neg (by simp [accepts]), if_neg (by simp)] at m
  obtain ⟨d, m, rfl⟩ := m
  unfold Ref.perform Ref.set at m
  simp only [List.drop_succ_cons, List.drop_zero] at m
  obtain ⟨rfl, rfl⟩ := m
  rfl

/-- A GET of a string without deadline, in the reference. -/
theorem ref_get {R R' : Ref.State} {c : Ref.Client} {v : Value} {k x : Bytes} (hc : R.client 3 = some c) (hcmd : commandOf (demo 0) [b!"get", k] = some .get)
    (hv : (R.dbs c.db).val k = some (.str x)) (hd : (R.dbs c.db).due k = none)
    (m : Ref.Moves 2 [] R (.request 3 (demo 0) [b!"get", k]) R' (some v)) : v = .bulk x := by
  unfold Ref.Moves at m
  simp only [hc] at m
  obtain ⟨v', m, hv'⟩ := m
  cases hv'
  unfold Ref.answers at m
  simp only [hcmd] at m
  rw [if_neg (by simp [accepts]), if_neg (by simp)] at m
  obtain ⟨d, m, _⟩ := m
  unfold Ref.perform Ref.get Ref.fresh at m
  simp only [List.drop_succ_cons, List.drop_zero] at m
  rw [if_neg (by rintro ⟨y, hy, _⟩; rw [hd] at hy; cases hy), hv] at m
  exact m.2

/-- A new connection. -/
theorem ref_accept {B B' : Ref.Keeper} (m : Ref.Lives 2 [] B (.accept 3) B') : B'.state.client 3 = some ⟨0, false⟩ ∧ B'.state.dbs = B.state.dbs ∧ B'.out 3 = some [] := by
  cases m
  exact ⟨by simp [Ref.State.know], rfl, by simp⟩

/-- **C96 is false**: what was written after the first restart is in the wrong database after the second. -/
theorem C96_refuted : ¬ C96 := by
  intro hC
  obtain ⟨n, h1, h2⟩ := Option.map_eq_some_iff.1 lost_result
  obtain ⟨Bs, q1, q2, q3⟩ := hC H L P 0 2 [] (conf0 .no) lost n (fun _ _ => rfl) (by decide) (by decide)
    (by
      intro ev hev
      simp only [lost, twoDbs, turn, List.cons_append, List.nil_append, List.append_assoc, List.mem_cons, List.not_mem_nil, or_false] at hev
      rcases hev with rfl | rfl | rfl | rfl | rfl | rfl | rfl | rfl | rfl | rfl | rfl | rfl | rfl | rfl | rfl | rfl | rfl | rfl | rfl | rfl <;>
        exact ⟨DurableP.Shown.timely (by constructor), by first | exact prints_demo _ | trivial⟩)
    (safe_free _ (by
      intro ev hev
      simp only [lost, twoDbs, turn, List.cons_append, List.nil_append, List.append_assoc, List.mem_cons, List.not_mem_nil, or_false] at hev
      rcases hev with rfl | rfl | rfl | rfl | rfl | rfl | rfl | rfl | rfl | rfl | rfl | rfl | rfl | rfl | rfl | rfl | rfl | rfl | rfl | rfl
      all_goals first
        | exact free_ask (cmd := .set) (by decide) (fun _ => trivial)
        | exact free_ask (cmd := .get) (by decide) (fun _ => trivial)
        | exact free_ask (cmd := .select) (by decide) (fun _ i hi => by
            have : atoi b!"1" = some 1 := by decide
            rw [this] at hi; cases hi; decide)
        | exact fun _ => trivial)) h1
  -- from the second connection on
  have m8 := ref_accept (q2 10 (.accept 3) rfl)
  obtain ⟨R, v, m9, e9⟩ := q2 11 _ rfl
  have s9 := ref_set m8.1 (by decide) m9
  have e10 : Bs 13 = Bs 12 := q2 12 .turn rfl
  have e11 : Bs 14 = { Bs 13 with disk := (Bs 13).state.dbs } := q2 13 (.sleep 3) rfl
  have e12 : Bs 15 = (Bs 14).reborn := q2 14 (.restart _) rfl
  have e13 : Bs 16 = { Bs 15 with disk := (Bs 15).state.dbs } := q2 15 (.sleep 4) rfl
  have e14 : Bs 17 = Bs 16 := q2 16 .noCron rfl
  have m15 := ref_accept (q2 17 (.accept 3) rfl)
  obtain ⟨R', v', m16, e16⟩ := q2 18 _ rfl
  have e17 : Bs 20 = Bs 19 := q2 19 .turn rfl
  have hdb : (Bs 18).state.dbs 0 = (R.dbs 0).rounded := by
    rw [m15.2.1, e14, e13, e12, e11, e10, e9]; rfl
  have hv := ref_get m15.1 (by decide) (x := b!"2") (by rw [hdb, s9]; simp [Ref.State.store, Ref.Store.rounded, Ref.put]) (by rw [hdb, s9]; simp [Ref.State.store, Ref.Store.rounded, Ref.put]) m16
  subst hv
  have h3 := q3 20 n (by rw [show lost.take 20 = lost from rfl]; exact h1) 3
  rw [h2, e17, e16] at h3
  simp only [if_true, m15.2.2] at h3
  exact absurd h3 (by decide)

/-! ### The theorem applies -/

/-- Strings, a hash with a deadline and a set in two databases; a rewrite, during which all of them are changed; a write that is not flushed; a restart; a look at the data. -/
def diary : List Ev :=
  turn 0 [.accept 3, ask [b!"set", b!"a", b!"1"], ask [b!"hset", b!"h", b!"f", b!"1"], ask [b!"expire", b!"h", b!"100"],
    ask [b!"select", b!"1"], ask [b!"sadd", b!"s", b!"x"], ask [b!"bgrewriteaof"]] ++
  [.work 0 (demo 0) .whole, .work 0 (demo 0) .whole] ++
  turn 1 [ask [b!"sadd", b!"s", b!"y"], ask [b!"select", b!"0"], ask [b!"hset", b!"h", b!"g", b!"2"], ask [b!"set", b!"a", b!"2"]] ++
  List.replicate 4 (.work 0 (demo 0) .whole) ++ [.sleep 2, .cron dice 2, ask [b!"set", b!"z", b!"1"], .turn, .restart (fun _ => demo 0)] ++
  turn 3 [.accept 3, ask [b!"get", b!"a"], ask [b!"get", b!"z"], ask [b!"hget", b!"h", b!"g"], ask [b!"select", b!"1"], ask [b!"sismember", b!"s", b!"y"]]

theorem diary_events : ∀ ev ∈ diary, Fair H L P 0 ev ∧ Prints ev ∧ Free ev := by
  intro ev hev
  simp only [diary, turn, List.replicate, List.cons_append, List.nil_append, List.append_assoc, List.mem_cons, List.not_mem_nil, or_false] at hev
  have two : ∀ {args : List Bytes} {cmd : Cmd}, commandOf (demo 0) args = some cmd → Spec.Plain 0 (demo 0) cmd args → (∀ s, Ref.Within (demo 0) cmd (args.drop 1) s) →
      Fair H L P 0 (ask args) ∧ Prints (ask args) ∧ Free (ask args) := fun h1 h2 h3 => ⟨fair_ask h1 h2, prints_demo _, free_ask h1 h3⟩
  rcases hev with rfl | rfl | rfl | rfl | rfl | rfl | rfl | rfl | rfl | rfl | rfl | rfl | rfl | rfl | rfl | rfl | rfl | rfl | rfl | rfl | rfl | rfl | rfl | rfl | rfl | rfl | rfl | rfl | rfl |
    rfl | rfl | rfl | rfl | rfl | rfl | rfl | rfl
  all_goals first
    | exact two (cmd := .set) (by decide) trivial (fun _ => trivial)
    | exact two (cmd := .get) (by decide) trivial (fun _ => trivial)
    | exact two (cmd := .hset) (by decide) trivial (fun _ => trivial)
    | exact two (cmd := .hget) (by decide) trivial (fun _ => trivial)
    | exact two (cmd := .sadd) (by decide) trivial (fun _ => trivial)
    | exact two (cmd := .sismember) (by decide) trivial (fun _ => trivial)
    | exact two (cmd := .select) (by decide) trivial (fun _ i hi => by
        first
          | (have : atoi b!"1" = some 1 := by decide
             rw [this] at hi; cases hi; decide)
          | (have : atoi b!"0" = some 0 := by decide
             rw [this] at hi; cases hi; decide))
    | exact two (cmd := .bgrewriteaof) (by decide) trivial (fun _ => trivial)
    | exact two (cmd := .expire) (by decide) (fun a n h1 h2 => by
        cases h1
        have : atoi b!"100" = some 100 := by decide
        rw [this] at h2; cases h2; decide) (fun _ n hn => by
        have : atoi b!"100" = some 100 := by decide
        rw [this] at hn; cases hn; exact ⟨by decide, by decide⟩)
    | exact ⟨demo_world, trivial, fun _ => trivial⟩
    | exact ⟨⟨rfl, by decide⟩, trivial, fun _ => trivial⟩
    | exact ⟨trivial, trivial, fun _ => trivial⟩

set_option maxRecDepth 16000 in
theorem diary_tame : tameRun (boot 2 [] true (conf0 .no)) diary = true := by decide

set_option maxRecDepth 16000 in
/-- What was flushed is there after the restart, the write that was not is not. -/
theorem diary_result : (run (boot 2 [] true (conf0 .no)) diary).map (fun n => (n.net.clients 3).map (fun o => n.net.wire 3 ++ Net.pending o)) =
    some (some b!"$1\r\n2\r\n$-1\r\n$1\r\n2\r\n+OK\r\n:1\r\n") := by decide

/-- So it is with the reference. -/
example : ∃ Bs, Follows 2 [] (boot 2 [] true (conf0 .no)) .start diary Bs ∧ (Bs diary.length).out 3 = some b!"$1\r\n2\r\n$-1\r\n$1\r\n2\r\n+OK\r\n:1\r\n" := by
  obtain ⟨n, h1, h2⟩ := Option.map_eq_some_iff.1 diary_result
  obtain ⟨Bs, h⟩ := C96_partial (T := 0) (fun _ _ => rfl) (by decide) (by decide) (orderly_of _ (fun ev he => (diary_events ev he).1) diary_tame)
    (fun ev he => (diary_events ev he).2.1) (safe_free _ fun ev he => (diary_events ev he).2.2) h1
  exact ⟨Bs, h, by rw [← h.2.2 diary.length n (by rw [List.take_length]; exact h1) 3]; exact h2⟩

end Metis.Props.KeepP
