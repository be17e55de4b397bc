import Verif.Spec.Mem
import Verif.Proofs.RespSafe
/-!
The parser over memory does what the parser over values does; helper lemmas for `Props/Mem.lean`.
-/
set_option linter.unusedSectionVars false
set_option linter.unusedSimpArgs false
set_option linter.unusedVariables false

namespace Metis
namespace Heap

/-- The size of an array. -/
def size (m : Mem) (a : Nat) : Nat := ((m[a]?).getD []).length

theorem window_length {m : Mem} {a off len : Nat} (h : off + len ≤ size m a) : (window m a off len).length = len := by
  simp [window, size] at *; omega

theorem window_drop (m : Mem) (a off n k : Nat) : (window m a off n).drop k = window m a (off + k) (n - k) := by
  simp [window, List.drop_take, List.drop_drop]

theorem window_take (m : Mem) (a off n k : Nat) (h : k ≤ n) : (window m a off n).take k = window m a off k := by
  simp [window, List.take_take, Nat.min_eq_left h]

theorem window_zero (m : Mem) (a off : Nat) : window m a off 0 = [] := by simp [window]

theorem window_add (m : Mem) (a off n k : Nat) : window m a off (n + k) = window m a off n ++ window m a (off + n) k := by
  simp [window, List.take_add, List.drop_drop]

theorem str_empty {m : Mem} {v : View} (h : v.len = 0) : str m v = [] := by simp [str, h, window_zero]

/-- The memory of a client's buffer is in order: it lies in its array, and the bytes not yet received are zero. -/
structure WF (m : Mem) (c : Client) : Prop where
  fits : c.queryBuf.off + c.queryBuf.cap ≤ size m c.queryBuf.a
  len  : c.queryBuf.len ≤ c.queryBuf.cap
  qlen : c.queryLen ≤ c.queryBuf.len
  zero : window m c.queryBuf.a (c.queryBuf.off + c.queryLen) (c.queryBuf.len - c.queryLen) = List.replicate (c.queryBuf.len - c.queryLen) 0

/-- The client as the value-level model has it. -/
def abs (m : Mem) (c : Client) : Conn :=
  { buf := received m c, slack := c.queryBuf.len - c.queryLen, cmdType := c.cmdType, args := c.args.map (str m), multiBulkLen := c.multiBulkLen, bulkLen := c.bulkLen }

/-- `c'` is `c` after consuming bytes; its arguments are those of `c` or lie in the bytes consumed. -/
structure Adv (c c' : Client) : Prop where
  a : c'.queryBuf.a = c.queryBuf.a
  le : c.queryBuf.off ≤ c'.queryBuf.off
  fin : c'.queryBuf.off + c'.queryBuf.cap = c.queryBuf.off + c.queryBuf.cap
  args : ∀ v ∈ c'.args, v ∈ c.args ∨ v.len = 0 ∨ (v.a = c.queryBuf.a ∧ v.off + v.len ≤ c'.queryBuf.off)

theorem Adv.refl (c : Client) : Adv c c := ⟨rfl, Nat.le_refl _, rfl, fun _ h => Or.inl h⟩

theorem Adv.trans {c c' c'' : Client} (h : Adv c c') (h' : Adv c' c'') : Adv c c'' := by
  refine ⟨h'.a.trans h.a, Nat.le_trans h.le h'.le, h'.fin.trans h.fin, ?_⟩
  intro v hv
  rcases h'.args v hv with h1 | h1 | ⟨h1, h2⟩
  · rcases h.args v h1 with h3 | h3 | ⟨h3, h4⟩
    · exact Or.inl h3
    · exact Or.inr (Or.inl h3)
    · exact Or.inr (Or.inr ⟨h3, Nat.le_trans h4 h'.le⟩)
  · exact Or.inr (Or.inl h1)
  · exact Or.inr (Or.inr ⟨h1.trans h.a, h2⟩)

theorem received_length {m : Mem} {c : Client} (h : WF m c) : (received m c).length = c.queryLen := by
  apply window_length
  have := h.fits; have := h.len; have := h.qlen; omega

theorem abs_length {m : Mem} {c : Client} (h : WF m c) : (abs m c).buf.length = c.queryLen := received_length h

theorem crlf_le {m : Mem} {c : Client} (h : WF m c) {i : Nat} (hi : Conn.crlf (received m c) = some i) : i + 2 ≤ c.queryLen := by
  have := (Conn.crlf_split _ _ hi).2
  rwa [received_length h] at this

theorem abs_move {m : Mem} {c : Client} (i : Nat) (hi : i + 2 ≤ c.queryLen) : abs m (move c i) = Conn.move (abs m c) i := by
  simp only [abs, move, Conn.move, received, window_drop]
  congr 1
  omega

theorem WF.move {m : Mem} {c : Client} (h : WF m c) {i : Nat} (hi : i + 2 ≤ c.queryLen) : WF m (move c i) := by
  have h1 := h.fits; have h2 := h.len; have h3 := h.qlen; have h4 := h.zero
  refine ⟨?_, ?_, ?_, ?_⟩
  · simp only [Heap.move]; omega
  · simp only [Heap.move]; omega
  · simp only [Heap.move]; omega
  · simp only [Heap.move]
    rw [show c.queryBuf.off + (i + 2) + (c.queryLen - (i + 2)) = c.queryBuf.off + c.queryLen by omega,
      show c.queryBuf.len - (i + 2) - (c.queryLen - (i + 2)) = c.queryBuf.len - c.queryLen by omega]
    exact h4

theorem Adv.move {m : Mem} {c : Client} (h : WF m c) {i : Nat} (hi : i + 2 ≤ c.queryLen) : Adv c (move c i) := by
  have h2 := h.len; have h3 := h.qlen
  refine ⟨rfl, ?_, ?_, fun v hv => Or.inl hv⟩
  · simp [Heap.move]
  · simp only [Heap.move]; omega

/-- Changes to the other fields do not matter. -/
theorem WF.congr {m : Mem} {c c' : Client} (h : WF m c) (hb : c'.queryBuf = c.queryBuf) (hq : c'.queryLen = c.queryLen) : WF m c' := by
  obtain ⟨h1, h2, h3, h4⟩ := h
  exact ⟨by rw [hb]; exact h1, by rw [hb]; exact h2, by rw [hb, hq]; exact h3, by rw [hb, hq]; exact h4⟩

theorem whole {m : Mem} {c : Client} (h : WF m c) :
    window m c.queryBuf.a c.queryBuf.off c.queryBuf.len = received m c ++ List.replicate (c.queryBuf.len - c.queryLen) 0 := by
  rw [← h.zero, received, ← window_add]
  congr 1
  have := h.qlen; omega

theorem byteAt_abs {m : Mem} {c : Client} (h : WF m c) (i : Int) : byteAt m c i = Conn.byteAt (abs m c) i := by
  unfold byteAt Conn.byteAt
  rw [abs_length h]
  by_cases h0 : i < 0
  · simp [h0]
  rw [if_neg h0, if_neg h0, whole h]
  by_cases h1 : i < c.queryLen
  · rw [if_pos h1, List.getElem?_append_left (by rw [received_length h]; omega)]; rfl
  · rw [if_neg h1, List.getElem?_append_right (by rw [received_length h]; omega), received_length h, List.getElem?_replicate]
    have h3 := h.qlen
    have hsl : (abs m c).slack = c.queryBuf.len - c.queryLen := rfl
    rw [hsl]
    by_cases h2 : i < c.queryLen + ((c.queryBuf.len - c.queryLen : Nat) : Int)
    · rw [if_pos h2, if_pos (by omega)]
    · rw [if_neg h2, if_neg (by omega)]

theorem getNum_abs {m : Mem} {c : Client} {i : Nat} (hi : i ≤ c.queryLen) : getNum m c i = Conn.getNum (abs m c) i := by
  simp only [getNum, Conn.getNum, abs, received, str]
  rw [window_take _ _ _ _ _ hi, window_drop]

theorem split_str (m : Mem) (a : Nat) : ∀ (b : Bytes) (off : Nat), window m a off b.length = b → (split a off b).map (str m) = Conn.split b := by
  intro b
  induction b with
  | nil => intro off _; simp [split, Conn.split, str, window_zero]
  | cons x b ih =>
    intro off h
    have hb : window m a (off + 1) b.length = b := by
      have := congrArg (List.drop 1) h
      rwa [window_drop] at this
    have h1 : window m a off 1 = [x] := by
      have := congrArg (List.take 1) h
      rwa [window_take _ _ _ _ _ (by simp)] at this
    have ih := ih (off + 1) hb
    unfold split Conn.split
    by_cases hx : x = 32
    · rw [if_pos hx, if_pos hx, List.map_cons, ih]; simp [str, window_zero]
    · rw [if_neg hx, if_neg hx, ← ih]
      have hoff : ∀ w ws, split a (off + 1) b = w :: ws → w.a = a ∧ w.off = off + 1 := by
        intro w ws e
        cases b with
        | nil => simp [split] at e; simp [← e.1]
        | cons y b =>
          unfold split at e
          split at e
          · simp at e; simp [← e.1]
          · split at e <;> (simp at e; simp [← e.1])
      cases e : split a (off + 1) b with
      | nil => simp [str, h1]
      | cons w ws =>
        obtain ⟨ea, eo⟩ := hoff w ws e
        simp only [List.map_cons, str, ea, eo]
        rw [Nat.add_comm, window_add, h1]; rfl

theorem split_mem (a : Nat) : ∀ (b : Bytes) (off : Nat), ∀ v ∈ split a off b, v.a = a ∧ off ≤ v.off ∧ v.off + v.len ≤ off + b.length := by
  intro b
  induction b with
  | nil => intro off v hv; simp [split] at hv; subst hv; simp
  | cons x b ih =>
    intro off v hv
    unfold split at hv
    split at hv
    · rcases List.mem_cons.1 hv with rfl | hv
      · simp
      · have := ih _ _ hv; simp; omega
    · have hoff : ∀ w ws, split a (off + 1) b = w :: ws → w.a = a ∧ w.off = off + 1 := by
        intro w ws e
        cases b with
        | nil => simp [split] at e; simp [← e.1]
        | cons y b =>
          unfold split at e
          split at e
          · simp at e; simp [← e.1]
          · split at e <;> (simp at e; simp [← e.1])
      cases e : split a (off + 1) b with
      | nil => rw [e] at hv; simp at hv; subst hv; simp
      | cons w ws =>
        rw [e] at hv
        rcases List.mem_cons.1 hv with rfl | hv
        · have := ih (off + 1) w (by rw [e]; simp)
          have := hoff w ws e
          simp; omega
        · have := ih (off + 1) v (by rw [e]; simp [hv]); simp; omega

/-- The results correspond. -/
def Step.abs (m : Mem) : Step → Conn.Step
  | .err => .err
  | .more c => .more (Heap.abs m c)
  | .done c => .done (Heap.abs m c)

/-- `r`, computed from `c`, stands for `r'`. -/
def Sim (m : Mem) (c : Client) (r : Option Step) (r' : Option Conn.Step) : Prop :=
  r.map (Step.abs m) = r' ∧ ∀ c', r = some (.more c') ∨ r = some (.done c') → WF m c' ∧ Adv c c'

theorem Sim.err {m : Mem} {c : Client} : Sim m c (some .err) (some .err) := ⟨rfl, by rintro c' (h | h) <;> cases h⟩

theorem Sim.none {m : Mem} {c : Client} : Sim m c .none .none := ⟨rfl, by rintro c' (h | h) <;> cases h⟩

theorem Sim.more {m : Mem} {c c' : Client} {d : Conn} (e : Heap.abs m c' = d) (h : WF m c') (ha : Adv c c') : Sim m c (some (.more c')) (some (.more d)) := by
  refine ⟨by simp [Step.abs, e], ?_⟩
  rintro c'' (h' | h') <;> cases h'
  exact ⟨h, ha⟩

theorem Sim.done {m : Mem} {c c' : Client} {d : Conn} (e : Heap.abs m c' = d) (h : WF m c') (ha : Adv c c') : Sim m c (some (.done c')) (some (.done d)) := by
  refine ⟨by simp [Step.abs, e], ?_⟩
  rintro c'' (h' | h') <;> cases h'
  exact ⟨h, ha⟩

theorem Sim.trans {m : Mem} {c c1 : Client} {r r'} (h : Sim m c1 r r') (ha : Adv c c1) : Sim m c r r' :=
  ⟨h.1, fun c' hc => ⟨(h.2 c' hc).1, ha.trans (h.2 c' hc).2⟩⟩

theorem noLine_sim {m : Mem} {c : Client} (h : WF m c) :
    Sim m c (some (if c.queryLen > Conn.maxInline then .err else .more c)) (some (if (abs m c).buf.length > Conn.maxInline then .err else .more (abs m c))) := by
  rw [abs_length h]
  split
  · exact .err
  · exact .more rfl h (.refl c)

theorem inlineBuf_sim {m : Mem} {c : Client} (h : WF m c) : Sim m c (inlineBuf m c) (Conn.inlineBuf (abs m c)) := by
  unfold inlineBuf Conn.inlineBuf
  have hb : (abs m c).buf = received m c := rfl
  rw [hb]
  cases e : Conn.crlf (received m c) with
  | none => exact noLine_sim h
  | some i =>
    have hi := crlf_le h e
    cases i with
    | zero => exact .none
    | succ i =>
      have hstr : str m ⟨c.queryBuf.a, c.queryBuf.off + 1, i⟩ = ((received m c).take (i + 1)).drop 1 := by
        rw [received, window_take _ _ _ _ _ (by omega), window_drop]; rfl
      have hlen : (str m ⟨c.queryBuf.a, c.queryBuf.off + 1, i⟩).length = i := by
        apply window_length
        have := h.fits; have := h.len; have := h.qlen; show c.queryBuf.off + 1 + i ≤ size m c.queryBuf.a; omega
      let c1 : Client := { c with args := split c.queryBuf.a (c.queryBuf.off + 1) (str m ⟨c.queryBuf.a, c.queryBuf.off + 1, i⟩) }
      have hw : WF m c1 := h.congr rfl rfl
      show Sim m c (some (.done (move c1 (i + 1)))) _
      refine .done ?_ (hw.move hi) ?_
      · rw [abs_move (c := c1) _ hi]
        congr 1
        simp only [abs, c1]
        congr 1
        rw [← hstr]
        apply split_str
        rw [hlen]; rfl
      · have := Adv.move hw hi
        refine ⟨this.a, this.le, this.fin, ?_⟩
        intro v hv
        obtain ⟨v1, v2, v3⟩ := split_mem _ _ _ v hv
        refine Or.inr (Or.inr ⟨v1, ?_⟩)
        rw [hlen] at v3
        simp only [move, c1]; omega

theorem bulkData_sim {m : Mem} {c : Client} (h : WF m c) : Sim m c (bulkData m c) (Conn.bulkData (abs m c)) := by
  unfold bulkData Conn.bulkData
  rw [abs_length h]
  have hb : (abs m c).bulkLen = c.bulkLen := rfl
  rw [hb]
  by_cases h1 : c.bulkLen + 2 < 2 ^ 63 ∧ (c.queryLen : Int) < c.bulkLen + 2
  · rw [if_pos h1, if_pos h1]; exact .more rfl h (.refl c)
  rw [if_neg h1, if_neg h1]
  by_cases h2 : c.bulkLen < 0 ∨ c.bulkLen + 2 ≥ 2 ^ 63
  · rw [if_pos h2, if_pos h2]; exact .none
  rw [if_neg h2, if_neg h2]
  have hi : c.bulkLen.toNat + 2 ≤ c.queryLen := by omega
  let c1 : Client := { c with args := c.args ++ [⟨c.queryBuf.a, c.queryBuf.off, c.bulkLen.toNat⟩] }
  have hw : WF m c1 := h.congr rfl rfl
  have hm : WF m (move c1 c.bulkLen.toNat) := hw.move hi
  refine .done ?_ (hm.congr rfl rfl) ?_
  · have := abs_move (m := m) (c := c1) c.bulkLen.toNat hi
    have e : (abs m c).args ++ [(abs m c).buf.take c.bulkLen.toNat] = (abs m c1).args := by
      simp only [abs, received, c1, List.map_append, List.map_cons, List.map_nil, str]
      rw [window_take _ _ _ _ _ (by omega)]
    rw [e]
    show { abs m (move c1 c.bulkLen.toNat) with bulkLen := 0 } = _
    rw [this]
    rfl
  · have := Adv.move hw hi
    refine ⟨this.a, this.le, this.fin, ?_⟩
    intro v hv
    rcases List.mem_append.1 hv with hv | hv
    · exact Or.inl hv
    · simp only [List.mem_singleton] at hv
      subst hv
      refine Or.inr (Or.inr ⟨rfl, ?_⟩)
      simp only [move, c1]; omega

theorem bulkBuf_sim {m : Mem} {c : Client} (h : WF m c) : Sim m c (bulkBuf m c) (Conn.bulkBuf (abs m c)) := by
  unfold bulkBuf Conn.bulkBuf
  have hb : (abs m c).bulkLen = c.bulkLen := rfl
  have hr : (abs m c).buf = received m c := rfl
  rw [hb]
  by_cases h1 : c.bulkLen = 0
  · rw [if_pos h1, if_pos h1, hr]
    cases e : Conn.crlf (received m c) with
    | none => exact noLine_sim h
    | some i =>
      have hi := crlf_le h e
      simp only []
      rw [getNum_abs (by omega)]
      cases Conn.getNum (abs m c) i with
      | none => exact .err
      | some num =>
        simp only []
        by_cases h2 : num = 0
        · rw [if_pos h2, if_pos h2]; exact .done (abs_move i hi) (h.move hi) (.move h hi)
        · rw [if_neg h2, if_neg h2]
          have hw : WF m { move c i with bulkLen := num } := (h.move hi).congr rfl rfl
          have := bulkData_sim hw
          have e2 : abs m { move c i with bulkLen := num } = { Conn.move (abs m c) i with bulkLen := num } := by
            show { abs m (move c i) with bulkLen := num } = _
            rw [abs_move i hi]
          rw [e2] at this
          have ha := Adv.move h hi
          exact this.trans ⟨ha.a, ha.le, ha.fin, ha.args⟩
  · rw [if_neg h1, if_neg h1]; exact bulkData_sim h

/-- A byte that is not zero has been received. -/
theorem byteAt_received {m : Mem} {c : Client} (h : WF m c) {i : Int} {x : UInt8} (hx : x ≠ 0) (e : byteAt m c i = some x) : 0 ≤ i ∧ i < c.queryLen := by
  rw [byteAt_abs h] at e
  unfold Conn.byteAt at e
  rw [abs_length h] at e
  by_cases h0 : i < 0
  · simp [h0] at e
  rw [if_neg h0] at e
  by_cases h1 : i < c.queryLen
  · omega
  · rw [if_neg h1] at e
    split at e
    · cases e; exact absurd rfl hx
    · cases e

theorem multiData_sim {m : Mem} {c : Client} (h : WF m c) : Sim m c (multiData m c) (Conn.multiData (abs m c)) := by
  unfold multiData Conn.multiData
  rw [abs_length h]
  have hb : (abs m c).bulkLen = c.bulkLen := rfl
  rw [hb]
  by_cases h1 : (c.queryLen : Int) < c.bulkLen
  · rw [if_pos h1, if_pos h1]; exact .more rfl h (.refl c)
  rw [if_neg h1, if_neg h1, ← byteAt_abs h, ← byteAt_abs h]
  cases e1 : byteAt m c c.bulkLen with
  | none => exact .none
  | some x =>
    simp only []
    by_cases hx : x ≠ 13
    · rw [if_pos hx, if_pos hx]; exact .err
    rw [if_neg hx, if_neg hx]
    cases e2 : byteAt m c (c.bulkLen + 1) with
    | none => exact .none
    | some y =>
      simp only []
      by_cases hy : y ≠ 10
      · rw [if_pos hy, if_pos hy]; exact .err
      rw [if_neg hy, if_neg hy]
      have hy' : y = 10 := by simpa using hy
      have hx' : x = 13 := by simpa using hx
      have r1 := byteAt_received h (by rw [hx']; decide) e1
      have r2 := byteAt_received h (by rw [hy']; decide) e2
      have hi : c.bulkLen.toNat + 2 ≤ c.queryLen := by omega
      let c1 : Client := { c with
        args := c.args.set (c.args.length - c.multiBulkLen.toNat) ⟨c.queryBuf.a, c.queryBuf.off, c.bulkLen.toNat⟩,
        bulkLen := 0, multiBulkLen := c.multiBulkLen - 1 }
      have hw : WF m c1 := h.congr rfl rfl
      refine .done ?_ (hw.move hi) ?_
      · have := abs_move (m := m) (c := c1) c.bulkLen.toNat hi
        rw [this]
        congr 1
        simp only [abs, received, c1, List.map_set, str, List.length_map]
        rw [window_take _ _ _ _ _ (by omega)]
      · have := Adv.move hw hi
        refine ⟨this.a, this.le, this.fin, ?_⟩
        intro v hv
        rcases List.mem_or_eq_of_mem_set hv with hv | hv
        · exact Or.inl hv
        · subst hv
          refine Or.inr (Or.inr ⟨rfl, ?_⟩)
          simp only [move, c1]; omega

theorem multiTurn_sim {m : Mem} {c : Client} (h : WF m c) : Sim m c (multiTurn m c) (Conn.multiTurn (abs m c)) := by
  unfold multiTurn Conn.multiTurn
  have hb : (abs m c).bulkLen = c.bulkLen := rfl
  have hr : (abs m c).buf = received m c := rfl
  rw [hb]
  by_cases h1 : c.bulkLen = 0
  · rw [if_pos h1, if_pos h1, hr]
    cases e : Conn.crlf (received m c) with
    | none => exact noLine_sim h
    | some i =>
      have hi := crlf_le h e
      simp only []
      rw [byteAt_abs h]
      by_cases h2 : Conn.byteAt (abs m c) 0 ≠ some 36
      · rw [if_pos h2, if_pos h2]; exact .err
      rw [if_neg h2, if_neg h2, getNum_abs (by omega)]
      cases Conn.getNum (abs m c) i with
      | none => exact .err
      | some num =>
        have hw : WF m { c with bulkLen := num } := h.congr rfl rfl
        have hm : WF m (move { c with bulkLen := num } i) := hw.move hi
        have := multiData_sim hm
        rw [abs_move (c := { c with bulkLen := num }) i hi] at this
        have ha := Adv.move hw hi
        exact this.trans ⟨ha.a, ha.le, ha.fin, ha.args⟩
  · rw [if_neg h1, if_neg h1]; exact multiData_sim h

theorem multiLoop_sim {m : Mem} : ∀ (fuel : Nat) (c : Client), WF m c → Sim m c (multiLoop m fuel c) (Conn.multiLoop fuel (abs m c)) := by
  intro fuel
  induction fuel with
  | zero => intro c _; exact .none
  | succ fuel ih =>
    intro c h
    unfold multiLoop Conn.multiLoop
    have hb : (abs m c).multiBulkLen = c.multiBulkLen := rfl
    rw [hb]
    by_cases h1 : c.multiBulkLen > 0
    · rw [if_pos h1, if_pos h1]
      have ht := multiTurn_sim h
      obtain ⟨e, hr⟩ := ht
      rw [← e]
      cases hs : multiTurn m c with
      | none => exact .none
      | some r =>
        cases r with
        | err => exact .err
        | more c' => have := hr c' (Or.inl hs); exact .more rfl this.1 this.2
        | done c' => have := hr c' (Or.inr hs); exact (ih c' this.1).trans this.2
    · rw [if_neg h1, if_neg h1]; exact .done rfl h (.refl c)

theorem multiBuf_sim {m : Mem} {c : Client} (h : WF m c) : Sim m c (multiBuf m c) (Conn.multiBuf (abs m c)) := by
  unfold multiBuf Conn.multiBuf
  have hb : (abs m c).multiBulkLen = c.multiBulkLen := rfl
  have hr : (abs m c).buf = received m c := rfl
  rw [hb]
  by_cases h1 : c.multiBulkLen = 0
  · rw [if_pos h1, if_pos h1, hr]
    cases e : Conn.crlf (received m c) with
    | none => exact noLine_sim h
    | some i =>
      have hi := crlf_le h e
      simp only []
      rw [getNum_abs (by omega)]
      cases Conn.getNum (abs m c) i with
      | none => exact .err
      | some num =>
        simp only []
        by_cases h2 : num = 0
        · rw [if_pos h2, if_pos h2]; exact .done (abs_move i hi) (h.move hi) (.move h hi)
        rw [if_neg h2, if_neg h2]
        by_cases h3 : num < 0 ∨ num > Conn.maxStrCap
        · rw [if_pos h3, if_pos h3]; exact .none
        rw [if_neg h3, if_neg h3]
        let c1 : Client := { move c i with multiBulkLen := num, args := List.replicate num.toNat ⟨0, 0, 0⟩ }
        have hw : WF m c1 := (h.move hi).congr rfl rfl
        have hs := multiLoop_sim (num.toNat + 1) c1 hw
        have e2 : abs m c1 = { Conn.move (abs m c) i with multiBulkLen := num, args := List.replicate num.toNat [] } := by
          rw [← abs_move i hi]
          simp only [abs, c1, List.map_replicate, str, window_zero, move, received]
        rw [e2] at hs
        have ha := Adv.move h hi
        refine hs.trans ⟨ha.a, ha.le, ha.fin, ?_⟩
        intro v hv
        have := List.eq_of_mem_replicate hv
        subst this
        exact Or.inr (Or.inl rfl)
  · rw [if_neg h1, if_neg h1]; exact multiLoop_sim _ _ h

theorem setType_sim {m : Mem} {c : Client} (h : WF m c) (hq : 0 < c.queryLen) : abs m (setType m c) = Conn.setType (abs m c) ∧ WF m (setType m c) ∧ Adv c (setType m c) := by
  have hh : byteAt m c 0 = (abs m c).buf.head? := by
    rw [byteAt_abs h]
    unfold Conn.byteAt
    rw [abs_length h, if_neg (by omega), if_pos (by omega)]
    simp [List.head?_eq_getElem?]
  unfold setType Conn.setType
  have ht : (abs m c).cmdType = c.cmdType := rfl
  rw [ht, ← hh]
  by_cases h1 : c.cmdType = .unknown
  · rw [if_pos h1, if_pos h1]
    exact ⟨rfl, h.congr rfl rfl, rfl, Nat.le_refl _, rfl, fun _ hv => Or.inl hv⟩
  · rw [if_neg h1, if_neg h1]
    exact ⟨rfl, h, .refl c⟩

theorem parse_sim {m : Mem} {c : Client} (h : WF m c) : Sim m c (parse m c) (Conn.parse (abs m c)) := by
  unfold parse Conn.parse
  have ht : (abs m c).cmdType = c.cmdType := rfl
  rw [ht]
  cases c.cmdType with
  | inline => exact inlineBuf_sim h
  | bulk => exact bulkBuf_sim h
  | multiBulk => exact multiBuf_sim h
  | unknown => exact .more rfl h (.refl c)

theorem WF.nil (m : Mem) (c : Client) : WF m (reset c) := by
  refine ⟨?_, ?_, ?_, ?_⟩ <;> simp [reset, nilSlice, window_zero]

/-- `processInputBuffer`: the same commands, and the client afterwards. -/
theorem processInput_sim {m : Mem} : ∀ (fuel : Nat) (c : Client), WF m c →
    (processInput m fuel c).map (fun r => (r.1.map (·.map (str m)), r.2.map (abs m))) = Conn.processInput fuel (abs m c) ∧
    ∀ cmds c', processInput m fuel c = some (cmds, c') →
      (∀ c1, c' = some c1 → WF m c1 ∧ ((c1.queryBuf.cap = 0 ∧ c1.args = []) ∨ Adv c c1)) ∧
      ∀ args ∈ cmds, ∀ v ∈ args, v ∈ c.args ∨ v.len = 0 ∨ (v.a = c.queryBuf.a ∧ v.off + v.len ≤ c.queryBuf.off + c.queryBuf.cap ∧
        ∀ c1, c' = some c1 → c1.queryBuf.cap = 0) := by
  intro fuel c h
  cases fuel with
  | zero => exact ⟨rfl, by intro _ _ e; cases e⟩
  | succ fuel =>
    have hreset : ∀ c1 : Client, (processInput m fuel (reset c1) = none ∨ processInput m fuel (reset c1) = some ([], some (reset c1))) ∧
        Conn.processInput fuel (Conn.reset (abs m c1)) = (processInput m fuel (reset c1)).map (fun r => (r.1.map (·.map (str m)), r.2.map (abs m))) := by
      intro c1
      cases fuel with
      | zero => exact ⟨Or.inl rfl, rfl⟩
      | succ fuel => exact ⟨Or.inr rfl, rfl⟩
    unfold processInput Conn.processInput
    rw [abs_length h]
    by_cases hq : c.queryLen > 0
    · rw [if_pos hq, if_pos hq]
      obtain ⟨e1, hw, ha⟩ := setType_sim h hq
      rw [← e1]
      have hp := (parse_sim hw).trans ha
      obtain ⟨e2, hr⟩ := hp
      rw [← e2]
      cases hs : parse m (setType m c) with
      | none => exact ⟨rfl, by intro _ _ e; cases e⟩
      | some r =>
        cases r with
        | err => exact ⟨rfl, by intro _ _ e; cases e; exact ⟨(by intro _ h; cases h), (by intro _ h; cases h)⟩⟩
        | more c1 =>
          have h1 := hr c1 (Or.inl hs)
          refine ⟨rfl, ?_⟩
          intro _ _ e
          cases e
          exact ⟨(by intro _ e; cases e; exact ⟨h1.1, Or.inr h1.2⟩), (by intro _ h; cases h)⟩
        | done c1 =>
          have h1 := hr c1 (Or.inr hs)
          obtain ⟨ho, hc⟩ := hreset c1
          have hl : (abs m c1).args.length = c1.args.length := by simp [abs]
          simp only [Option.map, Step.abs]
          rw [hl]
          by_cases hn : c1.args.length > 0
          · rw [if_pos hn, if_pos hn, hc]
            rcases ho with ho | ho
            · rw [ho]; exact ⟨rfl, by intro _ _ e; cases e⟩
            · rw [ho]
              refine ⟨rfl, ?_⟩
              intro _ _ e
              cases e
              refine ⟨(by intro _ e; cases e; exact ⟨WF.nil m c1, Or.inl ⟨rfl, rfl⟩⟩), ?_⟩
              intro args hargs v hv
              simp only [List.mem_singleton] at hargs
              subst hargs
              rcases h1.2.args v hv with h2 | h2 | ⟨h2, h3⟩
              · exact Or.inl h2
              · exact Or.inr (Or.inl h2)
              · have := h1.2.fin
                exact Or.inr (Or.inr ⟨h2, by omega, by intro _ e; cases e; rfl⟩)
          · rw [if_neg hn, if_neg hn, hc]
            rcases ho with ho | ho
            · rw [ho]; exact ⟨rfl, by intro _ _ e; cases e⟩
            · rw [ho]
              refine ⟨rfl, ?_⟩
              intro _ _ e
              cases e
              exact ⟨(by intro _ e; cases e; exact ⟨WF.nil m c1, Or.inl ⟨rfl, rfl⟩⟩), (by intro _ h; cases h)⟩
    · rw [if_neg hq, if_neg hq]
      refine ⟨rfl, ?_⟩
      intro _ _ e
      cases e
      exact ⟨(by intro _ e; cases e; exact ⟨h, Or.inr (.refl c)⟩), (by intro _ h; cases h)⟩

/-! ### Writing -/

theorem write_get_ne {m : Mem} {a a' p : Nat} {d : Bytes} (h : a' ≠ a) : (write m a p d)[a']? = m[a']? := by
  unfold write
  cases e : m[a]? with
  | none => rfl
  | some b => simp only []; rw [List.getElem?_set_ne (Ne.symm h)]

theorem write_get {m : Mem} {a p : Nat} {d : Bytes} (h : p + d.length ≤ size m a) (hd : d ≠ []) :
    (write m a p d)[a]? = some (patch ((m[a]?).getD []) p d) := by
  have hpos : 0 < d.length := List.length_pos_iff.2 hd
  unfold write
  cases e : m[a]? with
  | none => simp [size, e] at h; exact absurd h.2 hd
  | some b =>
    have hl : a < m.length := by
      rcases Nat.lt_or_ge a m.length with h | h
      · exact h
      · rw [List.getElem?_eq_none h] at e; cases e
    simp [List.getElem?_set_self hl]

theorem write_nil (m : Mem) (a p : Nat) : write m a p [] = m := by
  unfold write
  cases e : m[a]? with
  | none => rfl
  | some b =>
    simp only [patch, List.append_nil, List.length_nil, Nat.add_zero, List.take_append_drop]
    apply List.ext_getElem?
    intro i
    by_cases hi : a = i
    · subst hi
      have hl : a < m.length := by
        rcases Nat.lt_or_ge a m.length with h | h
        · exact h
        · rw [List.getElem?_eq_none h] at e; cases e
      rw [List.getElem?_set_self hl, e]
    · rw [List.getElem?_set_ne hi]

theorem write_length (m : Mem) (a p : Nat) (d : Bytes) : (write m a p d).length = m.length := by
  unfold write; split <;> simp

theorem size_write {m : Mem} {a p : Nat} {d : Bytes} (h : p + d.length ≤ size m a) (a' : Nat) : size (write m a p d) a' = size m a' := by
  by_cases hd : d = []
  · subst hd; rw [write_nil]
  by_cases ha : a' = a
  · subst ha
    unfold size
    rw [write_get h hd]
    unfold size at h
    simp [patch]; omega
  · unfold size; rw [write_get_ne ha]

theorem window_write_ne {m : Mem} {a a' p : Nat} {d : Bytes} (h : a' ≠ a) (off len : Nat) : window (write m a p d) a' off len = window m a' off len := by
  unfold window; rw [write_get_ne h]

theorem window_write_before {m : Mem} {a p : Nat} {d : Bytes} (h : p + d.length ≤ size m a) {off len : Nat} (hb : off + len ≤ p) :
    window (write m a p d) a off len = window m a off len := by
  by_cases hd : d = []
  · subst hd; rw [write_nil]
  unfold window
  rw [write_get h hd]
  unfold size at h
  simp only [Option.getD_some, patch]
  rw [List.append_assoc, List.drop_append_of_le_length (by simp; omega), List.take_append_of_le_length (by simp; omega), List.drop_take, List.take_take,
    Nat.min_eq_left (by omega)]

theorem window_write_at {m : Mem} {a p : Nat} {d : Bytes} (h : p + d.length ≤ size m a) : window (write m a p d) a p d.length = d := by
  by_cases hd : d = []
  · subst hd; simp [window]
  unfold window
  rw [write_get h hd]
  unfold size at h
  simp only [Option.getD_some, patch]
  rw [List.append_assoc, List.drop_append, List.drop_take, Nat.sub_self, List.take_zero, List.nil_append, List.length_take, Nat.min_eq_left (by omega), Nat.sub_self,
    List.drop_zero, List.take_append_of_le_length (Nat.le_refl _), List.take_length]

theorem window_write_after {m : Mem} {a p : Nat} {d : Bytes} (h : p + d.length ≤ size m a) {off len : Nat} (hb : p + d.length ≤ off) :
    window (write m a p d) a off len = window m a off len := by
  by_cases hd : d = []
  · subst hd; rw [write_nil]
  unfold window
  rw [write_get h hd]
  unfold size at h
  simp only [Option.getD_some, patch]
  have hl : (((m[a]?).getD []).take p ++ d).length = p + d.length := by simp; omega
  rw [List.drop_append, hl, List.drop_eq_nil_of_le (by rw [hl]; exact hb), List.nil_append, List.drop_drop]
  congr 2
  omega

/-! ### Changes of memory -/

/-- Not in the writable part of the slice. -/
def Out (b : Slice) (a off len : Nat) : Prop := len = 0 ∨ b.cap = 0 ∨ a ≠ b.a ∨ off + len ≤ b.off

/-- Memory changes from `m` to `m'` only inside the slice `b` and in new arrays. -/
structure Chg (b : Slice) (m m' : Mem) : Prop where
  grows : m.length ≤ m'.length
  size  : ∀ a, a < m.length → size m' a = size m a
  same  : ∀ a off len, a < m.length → Out b a off len → window m' a off len = window m a off len

theorem Chg.refl (b : Slice) (m : Mem) : Chg b m m := ⟨Nat.le_refl _, fun _ _ => rfl, fun _ _ _ _ _ => rfl⟩

theorem Chg.trans {b : Slice} {m m' m'' : Mem} (h : Chg b m m') (h' : Chg b m' m'') : Chg b m m'' := by
  refine ⟨Nat.le_trans h.grows h'.grows, ?_, ?_⟩
  · intro a ha
    rw [h'.size a (Nat.lt_of_lt_of_le ha h.grows), h.size a ha]
  · intro a off len ha ho
    rw [h'.same a off len (Nat.lt_of_lt_of_le ha h.grows) ho, h.same a off len ha ho]

theorem append_get {m : Mem} (l : List Bytes) {a : Nat} (ha : a < m.length) : (m ++ l)[a]? = m[a]? := List.getElem?_append_left ha

theorem Chg.new (b : Slice) (m : Mem) (x : Bytes) : Chg b m (m ++ [x]) := by
  refine ⟨by simp, ?_, ?_⟩
  · intro a ha; unfold Heap.size; rw [append_get _ ha]
  · intro a off len ha _; unfold window; rw [append_get _ ha]

theorem Chg.write {b : Slice} {m : Mem} {p : Nat} {d : Bytes} (hp : b.off ≤ p) (hd : p + d.length ≤ b.off + b.cap) (hs : b.off + b.cap ≤ Heap.size m b.a) :
    Chg b m (write m b.a p d) := by
  have hsz : p + d.length ≤ Heap.size m b.a := Nat.le_trans hd hs
  refine ⟨by rw [write_length]; exact Nat.le_refl _, fun a _ => size_write hsz a, ?_⟩
  intro a off len _ ho
  rcases ho with ho | ho | ho | ho
  · subst ho; simp [window_zero]
  · have : d = [] := List.length_eq_zero_iff.1 (by omega)
    subst this; rw [write_nil]
  · exact window_write_ne ho _ _
  · by_cases ha : a = b.a
    · subst ha; exact window_write_before hsz (by omega)
    · exact window_write_ne ha _ _

/-- A string outside the slice keeps its bytes. -/
theorem Chg.str {b : Slice} {m m' : Mem} (h : Chg b m m') {v : View} (hv : v.len = 0 ∨ (v.a < m.length ∧ Out b v.a v.off v.len)) : str m' v = str m v := by
  rcases hv with hv | ⟨h1, h2⟩
  · rw [str_empty hv, str_empty hv]
  · exact h.same _ _ _ h1 h2

theorem size_pos {m : Mem} {a : Nat} (h : 0 < size m a) : a < m.length := by
  rcases Nat.lt_or_ge a m.length with h' | h'
  · exact h'
  · simp [size, List.getElem?_eq_none h'] at h

/-- Another client does not notice. -/
theorem Chg.other {b : Slice} {m m' : Mem} (h : Chg b m m') {c : Client} (hw : WF m c) (hd : b.cap = 0 ∨ c.queryBuf.cap = 0 ∨ c.queryBuf.a ≠ b.a)
    (hargs : ∀ v ∈ c.args, v.len = 0 ∨ (v.a < m.length ∧ Out b v.a v.off v.len)) : WF m' c ∧ abs m' c = abs m c := by
  have key : ∀ off len, len ≤ c.queryBuf.cap → window m' c.queryBuf.a off len = window m c.queryBuf.a off len := by
    intro off len hl
    by_cases h0 : len = 0
    · subst h0; simp [window_zero]
    · have hf := hw.fits
      have ha : c.queryBuf.a < m.length := size_pos (m := m) (by omega)
      refine h.same _ _ _ ha ?_
      rcases hd with hd | hd | hd
      · exact Or.inr (Or.inl hd)
      · omega
      · exact Or.inr (Or.inr (Or.inl hd))
  refine ⟨⟨?_, hw.len, hw.qlen, ?_⟩, ?_⟩
  · have hf := hw.fits
    by_cases ha : c.queryBuf.a < m.length
    · rw [h.size _ ha]; exact hf
    · have : Heap.size m c.queryBuf.a = 0 := by simp [Heap.size, List.getElem?_eq_none (Nat.le_of_not_lt ha)]
      omega
  · rw [key _ _ (by have := hw.len; omega)]; exact hw.zero
  · unfold abs received
    rw [key _ _ (by have := hw.len; have := hw.qlen; omega)]
    congr 1
    exact List.map_congr_left fun v hv => h.str (hargs v hv)

theorem window_replicate {m : Mem} {a off n : Nat} (k : Nat) (h : window m a off n = List.replicate n 0) (hk : k ≤ n) : window m a (off + k) (n - k) = List.replicate (n - k) 0 := by
  rw [← window_drop, h, List.drop_replicate]

/-- `append` as the value-level model has it. -/
theorem grow_ok {m : Mem} {c : Client} (extra : Bytes) (h : WF m c)
    (hargs : ∀ v ∈ c.args, v.len = 0 ∨ (v.a < m.length ∧ Out c.queryBuf v.a v.off v.len)) :
    Chg c.queryBuf m (grow m c extra).1 ∧ WF (grow m c extra).1 (grow m c extra).2 ∧ abs (grow m c extra).1 (grow m c extra).2 = Conn.grow (abs m c) ∧
    (grow m c extra).2.args = c.args ∧ (grow m c extra).2.queryLen = c.queryLen ∧ Conn.maxBulk ≤ (grow m c extra).2.queryBuf.len - (grow m c extra).2.queryLen ∧
    (((grow m c extra).2.queryBuf.a = m.length ∧ m.length < (grow m c extra).1.length) ∨ ((grow m c extra).2.queryBuf.a = c.queryBuf.a ∧ (grow m c extra).2.queryBuf.off = c.queryBuf.off ∧
      (grow m c extra).2.queryBuf.cap = c.queryBuf.cap)) := by
  have hf := h.fits; have hl := h.len; have hq := h.qlen; have hz := h.zero
  unfold grow Conn.grow
  have hsl : (abs m c).slack = c.queryBuf.len - c.queryLen := rfl
  rw [hsl]
  by_cases h1 : c.queryBuf.len - c.queryLen < Conn.maxBulk
  · simp only [if_pos h1]
    have hzeros : (List.replicate Conn.maxBulk (0 : UInt8)).length = Conn.maxBulk := List.length_replicate
    by_cases h2 : c.queryBuf.len + Conn.maxBulk ≤ c.queryBuf.cap
    · simp only [if_pos h2]
      have hfit : c.queryBuf.off + c.queryBuf.len + (List.replicate Conn.maxBulk (0 : UInt8)).length ≤ size m c.queryBuf.a := by rw [hzeros]; omega
      have hc : Chg c.queryBuf m (write m c.queryBuf.a (c.queryBuf.off + c.queryBuf.len) (List.replicate Conn.maxBulk 0)) :=
        .write (by omega) (by rw [hzeros]; omega) hf
      refine ⟨hc, ⟨?_, ?_, ?_, ?_⟩, ?_, by trivial, by trivial, by omega, Or.inr (by simp)⟩
      · show c.queryBuf.off + c.queryBuf.cap ≤ _
        rw [size_write hfit]; exact hf
      · exact h2
      · show c.queryLen ≤ c.queryBuf.len + Conn.maxBulk; omega
      · show window _ c.queryBuf.a (c.queryBuf.off + c.queryLen) (c.queryBuf.len + Conn.maxBulk - c.queryLen) = _
        rw [show c.queryBuf.len + Conn.maxBulk - c.queryLen = (c.queryBuf.len - c.queryLen) + Conn.maxBulk by omega, window_add,
          window_write_before hfit (by omega), hz, show c.queryBuf.off + c.queryLen + (c.queryBuf.len - c.queryLen) = c.queryBuf.off + c.queryBuf.len by omega]
        have := window_write_at hfit
        rw [hzeros] at this
        rw [this, List.replicate_append_replicate]
      · unfold abs received
        simp only [Conn.mk.injEq, true_and, and_true]
        refine ⟨window_write_before hfit (by omega), by omega, List.map_congr_left fun v hv => hc.str (hargs v hv)⟩
    · simp only [if_neg h2]
      have hc : Chg c.queryBuf m (m ++ [window m c.queryBuf.a c.queryBuf.off c.queryBuf.len ++ List.replicate Conn.maxBulk 0 ++ extra]) := .new _ _ _
      have hget : ∀ X : Bytes, (m ++ [X])[m.length]? = some X := by intro X; simp
      have hwl : (window m c.queryBuf.a c.queryBuf.off c.queryBuf.len).length = c.queryBuf.len := window_length (by omega)
      have hwin : ∀ off len, off + len ≤ c.queryBuf.len →
          window (m ++ [window m c.queryBuf.a c.queryBuf.off c.queryBuf.len ++ List.replicate Conn.maxBulk 0 ++ extra]) m.length off len = window m c.queryBuf.a (c.queryBuf.off + off) len := by
        intro off len hle
        unfold window
        rw [hget]
        simp only [Option.getD_some]
        rw [List.append_assoc, List.drop_append_of_le_length (by unfold window at hwl; rw [hwl]; omega),
          List.take_append_of_le_length (by rw [List.length_drop]; unfold window at hwl; rw [hwl]; omega), List.drop_take, List.take_take, List.drop_drop, Nat.min_eq_left (by omega)]
      have hwin2 : window (m ++ [window m c.queryBuf.a c.queryBuf.off c.queryBuf.len ++ List.replicate Conn.maxBulk 0 ++ extra]) m.length c.queryBuf.len Conn.maxBulk = List.replicate Conn.maxBulk 0 := by
        unfold window
        rw [hget]
        simp only [Option.getD_some]
        unfold window at hwl
        rw [List.append_assoc, List.drop_append, hwl, Nat.sub_self, List.drop_eq_nil_of_le (by rw [hwl]; exact Nat.le_refl _), List.nil_append, List.drop_zero,
          List.take_append_of_le_length (by rw [hzeros]; exact Nat.le_refl _), List.take_of_length_le (by rw [hzeros]; exact Nat.le_refl _)]
      refine ⟨hc, ⟨?_, ?_, ?_, ?_⟩, ?_, by trivial, by trivial, ?_, Or.inl (by simp)⟩
      · show 0 + (c.queryBuf.len + Conn.maxBulk + extra.length) ≤ _
        unfold size
        rw [hget]
        simp [hwl]; omega
      · show c.queryBuf.len + Conn.maxBulk ≤ c.queryBuf.len + Conn.maxBulk + extra.length; omega
      · show c.queryLen ≤ c.queryBuf.len + Conn.maxBulk; omega
      · show window _ m.length (0 + c.queryLen) (c.queryBuf.len + Conn.maxBulk - c.queryLen) = _
        rw [show c.queryBuf.len + Conn.maxBulk - c.queryLen = (c.queryBuf.len - c.queryLen) + Conn.maxBulk by omega, window_add, Nat.zero_add,
          hwin _ _ (by omega), hz, show c.queryLen + (c.queryBuf.len - c.queryLen) = c.queryBuf.len by omega, hwin2, List.replicate_append_replicate]
      · unfold abs received
        simp only [Conn.mk.injEq, true_and, and_true]
        refine ⟨?_, by omega, List.map_congr_left fun v hv => hc.str (hargs v hv)⟩
        rw [hwin _ _ (by omega)]; rfl
      · show Conn.maxBulk ≤ c.queryBuf.len + Conn.maxBulk - c.queryLen; omega
  · simp only [if_neg h1]
    exact ⟨.refl _ _, h, by trivial, by trivial, by trivial, by omega, Or.inr (by simp)⟩

/-- `read` as the value-level model has it. -/
theorem write_ok {m : Mem} {c : Client} {data : Bytes} (h : WF m c) (hd : data.length ≤ c.queryBuf.len - c.queryLen)
    (hargs : ∀ v ∈ c.args, v.len = 0 ∨ (v.a < m.length ∧ Out c.queryBuf v.a v.off v.len)) :
    Chg c.queryBuf m (write m c.queryBuf.a (c.queryBuf.off + c.queryLen) data) ∧
    WF (write m c.queryBuf.a (c.queryBuf.off + c.queryLen) data) { c with queryLen := c.queryLen + data.length } ∧
    abs (write m c.queryBuf.a (c.queryBuf.off + c.queryLen) data) { c with queryLen := c.queryLen + data.length } =
      { abs m c with buf := (abs m c).buf ++ data, slack := (abs m c).slack - data.length } := by
  have hf := h.fits; have hl := h.len; have hq := h.qlen; have hz := h.zero
  have hfit : c.queryBuf.off + c.queryLen + data.length ≤ size m c.queryBuf.a := by omega
  have hc : Chg c.queryBuf m (write m c.queryBuf.a (c.queryBuf.off + c.queryLen) data) := .write (by omega) (by omega) hf
  refine ⟨hc, ⟨?_, hl, ?_, ?_⟩, ?_⟩
  · show c.queryBuf.off + c.queryBuf.cap ≤ _
    rw [size_write hfit]; exact hf
  · show c.queryLen + data.length ≤ c.queryBuf.len; omega
  · show window _ c.queryBuf.a (c.queryBuf.off + (c.queryLen + data.length)) (c.queryBuf.len - (c.queryLen + data.length)) = _
    rw [← Nat.add_assoc, window_write_after hfit (Nat.le_refl _), ← Nat.sub_sub]
    exact window_replicate _ hz hd
  · unfold abs received
    simp only [Conn.mk.injEq, true_and, and_true]
    refine ⟨?_, by omega, List.map_congr_left fun v hv => hc.str (hargs v hv)⟩
    rw [window_add, window_write_before hfit (by omega), window_write_at hfit]

/-! ### All clients -/

/-- No client can write to the string any more. -/
def Kept (w : World) (v : View) : Prop := v.len = 0 ∨ (v.a < w.mem.length ∧ ∀ fd c, w.clients fd = some c → Out c.queryBuf v.a v.off v.len)

/-- The invariant; `K` are the strings handed out. -/
structure Inv (w : World) (K : View → Prop) : Prop where
  wf    : ∀ fd c, w.clients fd = some c → WF w.mem c
  apart : ∀ fd fd' c c', fd ≠ fd' → w.clients fd = some c → w.clients fd' = some c' → c.queryBuf.cap = 0 ∨ c'.queryBuf.cap = 0 ∨ c'.queryBuf.a ≠ c.queryBuf.a
  args  : ∀ fd c, w.clients fd = some c → ∀ v ∈ c.args, Kept w v
  kept  : ∀ v, K v → Kept w v

theorem Kept.out {w : World} {v : View} (h : Kept w v) {fd : Nat} {c : Client} (hc : w.clients fd = some c) :
    v.len = 0 ∨ (v.a < w.mem.length ∧ Out c.queryBuf v.a v.off v.len) := h.imp id fun h => ⟨h.1, h.2 fd c hc⟩

/-- The clients as the value-level model has them. -/
def values (w : World) : Nat → Option Conn := fun fd => (w.clients fd).map (abs w.mem)

/-- One client changes its memory and its state. -/
theorem Inv.change {w : World} {K : View → Prop} (hi : Inv w K) {fd : Nat} {b : Slice} (hc : b.cap = 0 ∨ ∃ c, w.clients fd = some c ∧ c.queryBuf = b) {m' : Mem} (hm : Chg b w.mem m')
    {r : Option Client} (hr : ∀ c', r = some c' → WF m' c')
    (hplace : ∀ c', r = some c' → c'.queryBuf.cap = 0 ∨ w.mem.length ≤ c'.queryBuf.a ∨ (c'.queryBuf.a = b.a ∧ b.off ≤ c'.queryBuf.off ∧ 0 < b.cap))
    {N : View → Prop} (hN : ∀ v, N v → v.len = 0 ∨ (v.a < m'.length ∧ (∀ c', r = some c' → Out c'.queryBuf v.a v.off v.len) ∧
      (w.mem.length ≤ v.a ∨ (v.a = b.a ∧ 0 < b.cap))))
    (hargs : ∀ c', r = some c' → ∀ v ∈ c'.args, Kept w v ∨ N v) :
    Inv ⟨m', fun x => if x = fd then r else w.clients x⟩ (fun v => Kept w v ∨ N v) ∧
    (∀ v, Kept w v → str m' v = str w.mem v) ∧
    ∀ x, x ≠ fd → (w.clients x).map (abs m') = (w.clients x).map (abs w.mem) := by
  have mine : ∀ v, Kept w v → v.len = 0 ∨ (v.a < w.mem.length ∧ Out b v.a v.off v.len) := by
    intro v hv
    rcases hc with hc | ⟨c, hc, rfl⟩
    · exact hv.imp id fun h => ⟨h.1, Or.inr (Or.inl hc)⟩
    · exact hv.out hc
  have ap : ∀ x c1, x ≠ fd → w.clients x = some c1 → b.cap = 0 ∨ c1.queryBuf.cap = 0 ∨ c1.queryBuf.a ≠ b.a := by
    intro x c1 hx h1
    rcases hc with hc | ⟨c, hc, rfl⟩
    · exact Or.inl hc
    · exact hi.apart fd x c c1 (Ne.symm hx) hc h1
  have oth : ∀ x c1, x ≠ fd → w.clients x = some c1 → WF m' c1 ∧ abs m' c1 = abs w.mem c1 := by
    intro x c1 hx h1
    exact hm.other (hi.wf x c1 h1) (ap x c1 hx h1) fun v hv => mine v (hi.args x c1 h1 v hv)
  have old : ∀ v, Kept w v → Kept ⟨m', fun x => if x = fd then r else w.clients x⟩ v := by
    intro v hv
    have hb := mine v hv
    rcases hv with hv | ⟨h1, h2⟩
    · exact Or.inl hv
    refine Or.inr ⟨Nat.lt_of_lt_of_le h1 hm.grows, ?_⟩
    intro x c1 hx
    simp only at hx
    by_cases hxf : x = fd
    · rw [if_pos hxf] at hx
      rcases hplace c1 hx with h3 | h3 | ⟨h3, h4, h5⟩
      · exact Or.inr (Or.inl h3)
      · exact Or.inr (Or.inr (Or.inl (by omega)))
      · rcases hb with hb | ⟨_, hb⟩
        · exact Or.inl hb
        rcases hb with h6 | h6 | h6 | h6
        · exact Or.inl h6
        · omega
        · exact Or.inr (Or.inr (Or.inl (by rw [h3]; exact h6)))
        · exact Or.inr (Or.inr (Or.inr (by omega)))
    · rw [if_neg hxf] at hx
      exact h2 x c1 hx
  have new : ∀ v, N v → Kept ⟨m', fun x => if x = fd then r else w.clients x⟩ v := by
    intro v hv
    rcases hN v hv with h1 | ⟨h1, h2, h3⟩
    · exact Or.inl h1
    refine Or.inr ⟨h1, ?_⟩
    intro x c1 hx
    simp only at hx
    by_cases hxf : x = fd
    · rw [if_pos hxf] at hx; exact h2 c1 hx
    · rw [if_neg hxf] at hx
      have hw := (hi.wf x c1 hx).fits
      by_cases h0 : c1.queryBuf.cap = 0
      · exact Or.inr (Or.inl h0)
      have hlt : c1.queryBuf.a < w.mem.length := size_pos (by omega)
      rcases h3 with h3 | ⟨h3, h4⟩
      · exact Or.inr (Or.inr (Or.inl (by omega)))
      · rcases ap x c1 hxf hx with h5 | h5 | h5
        · omega
        · exact Or.inr (Or.inl h5)
        · exact Or.inr (Or.inr (Or.inl (by rw [h3]; exact Ne.symm h5)))
  refine ⟨⟨?_, ?_, ?_, ?_⟩, fun v hv => hm.str (mine v hv), ?_⟩
  · intro x c1 hx
    simp only at hx
    by_cases hxf : x = fd
    · rw [if_pos hxf] at hx; exact hr c1 hx
    · rw [if_neg hxf] at hx; exact (oth x c1 hxf hx).1
  · have half : ∀ x c1 c2, x ≠ fd → w.clients x = some c1 → r = some c2 → c2.queryBuf.cap = 0 ∨ c1.queryBuf.cap = 0 ∨ c1.queryBuf.a ≠ c2.queryBuf.a := by
      intro x c1 c2 hx h1 h2
      have hw := (hi.wf x c1 h1).fits
      by_cases h0 : c1.queryBuf.cap = 0
      · exact Or.inr (Or.inl h0)
      have hlt : c1.queryBuf.a < w.mem.length := size_pos (by omega)
      rcases hplace c2 h2 with h3 | h3 | ⟨h3, h4, h5⟩
      · exact Or.inl h3
      · exact Or.inr (Or.inr (by omega))
      · rcases ap x c1 hx h1 with h5 | h5 | h5
        · omega
        · exact Or.inr (Or.inl h5)
        · exact Or.inr (Or.inr (by rw [h3]; exact h5))
    intro x y c1 c2 hxy h1 h2
    simp only at h1 h2
    by_cases hxf : x = fd
    · rw [if_pos hxf] at h1
      have hyf : y ≠ fd := fun h => hxy (hxf.trans h.symm)
      rw [if_neg hyf] at h2
      exact half y c2 c1 hyf h2 h1
    · rw [if_neg hxf] at h1
      by_cases hyf : y = fd
      · rw [if_pos hyf] at h2
        rcases half x c1 c2 hxf h1 h2 with h | h | h
        · exact Or.inr (Or.inl h)
        · exact Or.inl h
        · exact Or.inr (Or.inr (Ne.symm h))
      · rw [if_neg hyf] at h2
        exact hi.apart x y c1 c2 hxy h1 h2
  · intro x c1 hx v hv
    simp only at hx
    by_cases hxf : x = fd
    · rw [if_pos hxf] at hx
      rcases hargs c1 hx v hv with h | h
      · exact old v h
      · exact new v h
    · rw [if_neg hxf] at hx
      exact old v (hi.args x c1 hx v hv)
  · intro v hv
    rcases hv with hv | hv
    · exact old v hv
    · exact new v hv
  · intro x hx
    cases h1 : w.clients x with
    | none => rfl
    | some c1 => simp [(oth x c1 hx h1).2]

theorem Inv.mono {w : World} {K K' : View → Prop} (h : Inv w K) (hk : ∀ v, K' v → K v) : Inv w K' := ⟨h.wf, h.apart, h.args, fun v hv => h.kept v (hk v hv)⟩

theorem values_set {w : World} {m' : Mem} {fd : Nat} {r : Option Client} (h : ∀ x, x ≠ fd → (w.clients x).map (abs m') = (w.clients x).map (abs w.mem)) :
    values ⟨m', fun x => if x = fd then r else w.clients x⟩ = fun x => if x = fd then r.map (abs m') else values w x := by
  funext x
  simp only [values]
  by_cases hx : x = fd
  · simp [hx]
  · simp only [if_neg hx]; exact h x hx

/-- One event: the invariant, the strings kept, and the parsers over values. -/
theorem step_ok {w : World} {K : View → Prop} (hi : Inv w K) (ev : Event) :
    (step w ev).map (fun r => (values r.1, r.2.map (·.map (str r.1.mem)))) = vstep (values w) ev ∧
    ∀ w' cmds, step w ev = some (w', cmds) →
      Inv w' (fun v => K v ∨ ∃ args ∈ cmds, v ∈ args) ∧ ∀ v, Kept w v → str w'.mem v = str w.mem v := by
  cases ev with
  | connect fd =>
    have hm : Chg nilSlice w.mem (w.mem ++ [List.replicate Conn.maxBulk 0]) := .new _ _ _
    have hget : (w.mem ++ [List.replicate Conn.maxBulk (0 : UInt8)])[w.mem.length]? = some (List.replicate Conn.maxBulk 0) := by simp
    let c1 : Client := ⟨⟨w.mem.length, 0, Conn.maxBulk, Conn.maxBulk⟩, 0, .unknown, [], 0, 0⟩
    have hw : WF (w.mem ++ [List.replicate Conn.maxBulk 0]) c1 := by
      refine ⟨?_, Nat.le_refl _, Nat.zero_le _, ?_⟩
      · simp only [size, c1, hget, Option.getD_some, List.length_replicate]; omega
      · simp only [window, c1, hget, Option.getD_some]
        simp
    obtain ⟨h1, h2, h3⟩ := hi.change (fd := fd) (b := nilSlice) (Or.inl rfl) hm (r := some c1) (by intro c' e; cases e; exact hw)
      (by intro c' e; cases e; exact Or.inr (Or.inl (Nat.le_refl _))) (N := fun _ => False) (by intro _ h; exact h.elim) (by intro c' e v hv; cases e; cases hv)
    refine ⟨?_, ?_⟩
    · simp only [step, newClient, vstep, Option.map_some, List.map_nil]
      rw [values_set h3]
      have : abs (w.mem ++ [List.replicate Conn.maxBulk 0]) c1 = Conn.new := by
        simp [abs, c1, Conn.new, received, window_zero]
      simp [← this, c1]
    · intro w' cmds e
      simp only [step, newClient] at e
      cases e
      exact ⟨h1.mono (by rintro v (h | ⟨_, h, _⟩); exact Or.inl (hi.kept v h); cases h), h2⟩
  | close fd =>
    have hm : Chg nilSlice w.mem w.mem := .refl _ _
    obtain ⟨h1, h2, h3⟩ := hi.change (fd := fd) (b := nilSlice) (Or.inl rfl) hm (r := none) (by intro c' e; cases e)
      (by intro c' e; cases e) (N := fun _ => False) (by intro _ h; exact h.elim) (by intro c' e v hv; cases e)
    refine ⟨?_, ?_⟩
    · simp only [step, vstep, Option.map_some, List.map_nil]
      rw [values_set h3]; rfl
    · intro w' cmds e
      simp only [step] at e
      cases e
      exact ⟨h1.mono (by rintro v (h | ⟨_, h, _⟩); exact Or.inl (hi.kept v h); cases h), h2⟩
  | again fd extra =>
    cases hc : w.clients fd with
    | none =>
      refine ⟨?_, ?_⟩
      · simp [step, vstep, values, hc]
      · intro w' cmds e; simp [step, hc] at e
    | some c =>
      have hargs := fun v hv => (hi.args fd c hc v hv).out hc
      obtain ⟨g1, g2, g3, g4, g5, g6, g7⟩ := grow_ok extra (hi.wf fd c hc) hargs
      have hwf := hi.wf fd c hc
      obtain ⟨h1, h2, h3⟩ := hi.change (fd := fd) (b := c.queryBuf) (Or.inr ⟨c, hc, rfl⟩) g1 (r := some (grow w.mem c extra).2)
        (by intro c' e; cases e; exact g2)
        (by
          intro c' e; cases e
          rcases g7 with ⟨g7, _⟩ | ⟨g7, g8, g9⟩
          · exact Or.inr (Or.inl (by omega))
          · by_cases h0 : c.queryBuf.cap = 0
            · exact Or.inl (by omega)
            · exact Or.inr (Or.inr ⟨g7, by omega, by omega⟩))
        (N := fun _ => False) (by intro _ h; exact h.elim) (by intro c' e v hv; cases e; rw [g4] at hv; exact Or.inl (hi.args fd c hc v hv))
      refine ⟨?_, ?_⟩
      · simp only [step, vstep, hc, Option.map_some, List.map_nil]
        rw [values_set h3]
        simp [values, hc, g3]
      · intro w' cmds e
        simp only [step, hc] at e
        cases e
        exact ⟨h1.mono (by rintro v (h | ⟨_, h, _⟩); exact Or.inl (hi.kept v h); cases h), h2⟩
  | read fd extra data =>
    cases hc : w.clients fd with
    | none =>
      refine ⟨?_, ?_⟩
      · simp [step, vstep, values, hc]
      · intro w' cmds e; simp [step, hc] at e
    | some c =>
      have hargs := fun v hv => (hi.args fd c hc v hv).out hc
      obtain ⟨g1, g2, g3, g4, g5, g6, g7⟩ := grow_ok extra (hi.wf fd c hc) hargs
      have hwf := hi.wf fd c hc
      generalize hg : grow w.mem c extra = G at g1 g2 g3 g4 g5 g6 g7
      obtain ⟨m1, c1⟩ := G
      simp only at g1 g2 g3 g4 g5 g6 g7
      have hv : values w fd = some (abs w.mem c) := by simp [values, hc]
      have hsl : (Conn.grow (abs w.mem c)).slack = c1.queryBuf.len - c1.queryLen := by rw [← g3]; rfl
      have hbl : (Conn.grow (abs w.mem c)).buf.length = c1.queryLen := by rw [← g3]; exact abs_length g2
      simp only [step, vstep, hc, hg, hv]
      rw [hsl]
      by_cases hfit : data.length ≤ c1.queryBuf.len - c1.queryLen
      · rw [if_pos hfit, if_pos hfit]
        -- strings kept so far lie outside the slice in use now
        have hout : ∀ v, Kept w v → v.len = 0 ∨ (v.a < m1.length ∧ Out c1.queryBuf v.a v.off v.len) := by
          intro v hk
          rcases hk.out hc with h | ⟨h, h'⟩
          · exact Or.inl h
          refine Or.inr ⟨Nat.lt_of_lt_of_le h g1.grows, ?_⟩
          rcases g7 with ⟨g7, _⟩ | ⟨g7, g8, g9⟩
          · exact Or.inr (Or.inr (Or.inl (by omega)))
          · unfold Out at h' ⊢; rw [g7, g8, g9]; exact h'
        have hargs1 : ∀ v ∈ c1.args, v.len = 0 ∨ (v.a < m1.length ∧ Out c1.queryBuf v.a v.off v.len) := by
          intro v hv; rw [g4] at hv; exact hout v (hi.args fd c hc v hv)
        obtain ⟨w1, w2, w3⟩ := write_ok g2 hfit hargs1
        generalize hm2 : write m1 c1.queryBuf.a (c1.queryBuf.off + c1.queryLen) data = m2 at w1 w2 w3
        obtain ⟨p1, p2⟩ := processInput_sim (c1.queryLen + data.length + 2) _ w2
        have hread : Conn.read (abs w.mem c) data = Conn.processInput (c1.queryLen + data.length + 2) (abs m2 { c1 with queryLen := c1.queryLen + data.length }) := by
          rw [w3, g3]
          unfold Conn.read
          simp only
          rw [hbl]
        rw [hread, ← p1]
        -- the change of memory as one from the old slice
        have hm : Chg c.queryBuf w.mem m2 := by
          rcases g7 with ⟨g7, g8⟩ | ⟨g7, g8, g9⟩
          · refine ⟨Nat.le_trans g1.grows w1.grows, ?_, ?_⟩
            · intro a ha
              rw [w1.size a (Nat.lt_of_lt_of_le ha g1.grows), g1.size a ha]
            · intro a off len ha ho
              rw [w1.same a off len (Nat.lt_of_lt_of_le ha g1.grows) (Or.inr (Or.inr (Or.inl (by omega)))), g1.same a off len ha ho]
          · refine g1.trans ?_
            refine ⟨w1.grows, w1.size, ?_⟩
            intro a off len ha ho
            refine w1.same a off len ha ?_
            unfold Out at ho ⊢; rw [g7, g8, g9]; exact ho
        cases hp : processInput m2 (c1.queryLen + data.length + 2) { c1 with queryLen := c1.queryLen + data.length } with
        | none => exact ⟨rfl, by intro _ _ e; cases e⟩
        | some r =>
          obtain ⟨cmds, r⟩ := r
          obtain ⟨q1, q2⟩ := p2 cmds r hp
          have hcap : 0 < c1.queryBuf.cap := by
            have := g2.len; have : 0 < Conn.maxBulk := by decide
            omega
          have place : ∀ v : View, (v.a = c1.queryBuf.a) → v.a < m2.length ∧ (w.mem.length ≤ v.a ∨ (v.a = c.queryBuf.a ∧ 0 < c.queryBuf.cap)) := by
            intro v hv
            have hs := w2.fits
            have hlt : c1.queryBuf.a < m2.length := size_pos (m := m2) (by simp only at hs; omega)
            refine ⟨by omega, ?_⟩
            rcases g7 with ⟨g7, _⟩ | ⟨g7, g8, g9⟩
            · exact Or.inl (by omega)
            · exact Or.inr ⟨by omega, by omega⟩
          obtain ⟨h1, h2, h3⟩ := hi.change (fd := fd) (b := c.queryBuf) (Or.inr ⟨c, hc, rfl⟩) hm (r := r) (fun c' e => (q1 c' e).1)
            (by
              intro c' e
              rcases (q1 c' e).2 with ⟨h0, _⟩ | ha
              · exact Or.inl h0
              · have a1 := ha.a; have a2 := ha.le; have a3 := ha.fin
                simp only at a1 a2 a3
                rcases g7 with ⟨g7, _⟩ | ⟨g7, g8, g9⟩
                · exact Or.inr (Or.inl (by omega))
                · by_cases h0 : c'.queryBuf.cap = 0
                  · exact Or.inl h0
                  · exact Or.inr (Or.inr ⟨by omega, by omega, by omega⟩))
            (N := fun v => v.len = 0 ∨ (v.a = c1.queryBuf.a ∧ ∀ c', r = some c' → Out c'.queryBuf v.a v.off v.len))
            (by
              rintro v (h | ⟨h, h'⟩)
              · exact Or.inl h
              · have := place v h
                exact Or.inr ⟨this.1, h', this.2⟩)
            (by
              intro c' e v hv
              rcases (q1 c' e).2 with ⟨_, h0⟩ | ha
              · rw [h0] at hv; cases hv
              · rcases ha.args v hv with h | h | ⟨h, h'⟩
                · simp only [g4] at h
                  exact Or.inl (hi.args fd c hc v h)
                · exact Or.inr (Or.inl h)
                · refine Or.inr (Or.inr ⟨h, ?_⟩)
                  intro c'' e'
                  rw [e] at e'; cases e'
                  exact Or.inr (Or.inr (Or.inr h')))
          refine ⟨?_, ?_⟩
          · simp only [Option.map_some, Option.some.injEq, Prod.mk.injEq, and_true]
            rw [values_set h3]
          · intro w' cmds' e
            cases e
            refine ⟨⟨h1.wf, h1.apart, h1.args, ?_⟩, h2⟩
            rintro v (hk | ⟨args, ha, hv⟩)
            · exact h1.kept v (Or.inl (hi.kept v hk))
            · rcases q2 args ha v hv with h | h | ⟨h, _, h'⟩
              · simp only [g4] at h
                exact h1.kept v (Or.inl (hi.args fd c hc v h))
              · exact Or.inl h
              · exact h1.kept v (Or.inr (Or.inr ⟨h, fun c' e => Or.inr (Or.inl (h' c' e))⟩))
      · rw [if_neg hfit, if_neg hfit]
        exact ⟨rfl, by intro _ _ e; cases e⟩

theorem Inv.init : Inv init (fun _ => False) :=
  ⟨(by intro _ _ h; cases h), (by intro _ _ _ _ _ h; cases h), (by intro _ _ h; cases h), (by intro _ h; exact h.elim)⟩

/-- A history. -/
theorem run_ok : ∀ (evs : List Event) (w : World) (K : View → Prop), Inv w K →
    (run w evs).map (fun r => (values r.1, r.2.map (·.map (·.map (str r.1.mem))))) = vrun (values w) evs ∧
    ∀ w' out, run w evs = some (w', out) →
      Inv w' (fun v => K v ∨ ∃ cmds ∈ out, ∃ args ∈ cmds, v ∈ args) ∧ ∀ v, Kept w v → str w'.mem v = str w.mem v := by
  intro evs
  induction evs with
  | nil =>
    intro w K hi
    refine ⟨rfl, ?_⟩
    intro w' out e
    cases e
    exact ⟨hi.mono (by rintro v (h | ⟨_, h, _⟩); exact h; cases h), fun _ _ => rfl⟩
  | cons ev evs ih =>
    intro w K hi
    obtain ⟨s1, s2⟩ := step_ok hi ev
    unfold run vrun
    rw [← s1]
    cases hs : step w ev with
    | none => exact ⟨rfl, by intro _ _ e; cases e⟩
    | some r =>
      obtain ⟨w1, cmds⟩ := r
      obtain ⟨i1, k1⟩ := s2 w1 cmds hs
      obtain ⟨t1, t2⟩ := ih w1 _ i1
      simp only [Option.map_some]
      rw [← t1]
      cases hr : run w1 evs with
      | none => exact ⟨rfl, by intro _ _ e; cases e⟩
      | some r =>
        obtain ⟨w2, more⟩ := r
        obtain ⟨i2, k2⟩ := t2 w2 more hr
        refine ⟨?_, ?_⟩
        · simp only [Option.map_some, List.map_cons, Option.some.injEq, Prod.mk.injEq, List.cons.injEq, true_and, and_true]
          apply List.map_congr_left
          intro args ha
          apply List.map_congr_left
          intro v hv
          exact k2 v (i1.kept v (Or.inr ⟨args, ha, hv⟩))
        · intro w' out e
          cases e
          refine ⟨i2.mono ?_, ?_⟩
          · rintro v (h | ⟨c, hc, args, ha, hv⟩)
            · exact Or.inl (Or.inl h)
            · rcases List.mem_cons.1 hc with rfl | hc
              · exact Or.inl (Or.inr ⟨args, ha, hv⟩)
              · exact Or.inr ⟨c, hc, args, ha, hv⟩
          · intro v hv
            have : Kept w1 v := by
              have hi' : Inv w (fun v => Kept w v) := ⟨hi.wf, hi.apart, hi.args, fun _ h => h⟩
              exact ((step_ok hi' ev).2 w1 cmds hs).1.kept v (Or.inl hv)
            rw [k2 v this, k1 v hv]

/-! ### One client -/

theorem grow_twice (c : Conn) : Conn.grow (Conn.grow c) = Conn.grow c := by
  unfold Conn.grow
  by_cases h : c.slack < Conn.maxBulk
  · rw [if_pos h, if_neg]; show ¬ c.slack + Conn.maxBulk < Conn.maxBulk; omega
  · rw [if_neg h, if_neg h]

theorem read_grow {c c' : Conn} (h : Conn.grow c = Conn.grow c') (d : Bytes) : Conn.read c d = Conn.read c' d := by
  unfold Conn.read; rw [h]

/-- A closed connection receives nothing. -/
theorem vrun_closed {fd : Nat} : ∀ (evs : List Event) (V V' : Nat → Option Conn) (out : List (List (List Bytes))), vrun V evs = some (V', out) → V fd = none →
    (∀ ev ∈ evs, ev.keeps fd) → V' fd = none ∧ received_from fd evs = [] ∧ executed_for fd evs out = [] := by
  intro evs
  induction evs with
  | nil => intro V V' out h hn _; cases h; exact ⟨hn, rfl, rfl⟩
  | cons ev evs ih =>
    intro V V' out h hn hk
    unfold vrun at h
    cases hs : vstep V ev with
    | none => rw [hs] at h; cases h
    | some r =>
      obtain ⟨V1, cmds⟩ := r
      rw [hs] at h
      simp only at h
      cases hr : vrun V1 evs with
      | none => rw [hr] at h; cases h
      | some r =>
        obtain ⟨V2, more⟩ := r
        rw [hr] at h
        cases h
        have hke := hk ev (by simp)
        have ih := fun hn => ih V1 V' more hr hn fun e he => hk e (by simp [he])
        have : ev.fd ≠ fd ∧ V1 fd = none := by
          cases ev with
          | connect x => exact ⟨hke, by cases hs; simp [Ne.symm hke, hn]⟩
          | close x => exact ⟨hke, by cases hs; simp [hn]⟩
          | again x e =>
            have hx : x ≠ fd := by intro hx; subst hx; simp [vstep, hn] at hs
            refine ⟨hx, ?_⟩
            simp only [vstep, Option.map_eq_some_iff] at hs
            obtain ⟨c, _, e⟩ := hs
            cases e
            simp [Ne.symm hx, hn]
          | read x e d =>
            have hx : x ≠ fd := by intro hx; subst hx; simp [vstep, hn] at hs
            refine ⟨hx, ?_⟩
            simp only [vstep] at hs
            cases hv : V x with
            | none => rw [hv] at hs; cases hs
            | some c =>
              rw [hv] at hs
              simp only at hs
              split at hs
              · split at hs
                · cases hs
                · cases hs; simp [Ne.symm hx, hn]
              · cases hs
        obtain ⟨h1, h2, h3⟩ := ih this.2
        refine ⟨h1, ?_, ?_⟩
        · cases ev with
          | read x e d => have hx : x ≠ fd := this.1; simp only [received_from, if_neg hx]; exact h2
          | connect x => exact h2
          | close x => exact h2
          | again x e => exact h2
        · simp only [executed_for, if_neg this.1]; exact h3

/-- What one client sends decides what is executed for it. -/
theorem vrun_client {fd : Nat} : ∀ (evs : List Event) (V V' : Nat → Option Conn) (out : List (List (List Bytes))) (c c0 : Conn), vrun V evs = some (V', out) → V fd = some c0 →
    Conn.grow c0 = Conn.grow c → (∀ ev ∈ evs, ev.keeps fd) →
    ∃ r, Conn.reads c (received_from fd evs) = some (executed_for fd evs out, r) ∧ r.map Conn.grow = (V' fd).map Conn.grow := by
  intro evs
  induction evs with
  | nil => intro V V' out c c0 h hv hg _; cases h; exact ⟨some c, rfl, by simp [hv, hg]⟩
  | cons ev evs ih =>
    intro V V' out c c0 h hv hg hk
    unfold vrun at h
    cases hs : vstep V ev with
    | none => rw [hs] at h; cases h
    | some r =>
      obtain ⟨V1, cmds⟩ := r
      rw [hs] at h
      simp only at h
      cases hr : vrun V1 evs with
      | none => rw [hr] at h; cases h
      | some r =>
        obtain ⟨V2, more⟩ := r
        rw [hr] at h
        cases h
        have hke := hk ev (by simp)
        have hk' : ∀ e ∈ evs, e.keeps fd := fun e he => hk e (by simp [he])
        have go := fun c0 hv hg => ih V1 V' more c c0 hr hv hg hk'
        have hexec : ev.fd ≠ fd → executed_for fd (ev :: evs) (cmds :: more) = executed_for fd evs more := by intro h; simp only [executed_for, if_neg h]
        cases ev with
        | connect x =>
          have hx : x ≠ fd := hke
          rw [hexec hx]
          cases hs
          exact go c0 (by simp [Ne.symm hx, hv]) hg
        | close x =>
          have hx : x ≠ fd := hke
          rw [hexec hx]
          cases hs
          exact go c0 (by simp [Ne.symm hx, hv]) hg
        | again x e =>
          simp only [vstep, Option.map_eq_some_iff] at hs
          obtain ⟨c1, hc1, e⟩ := hs
          cases e
          by_cases hx : x = fd
          · subst hx
            rw [hv] at hc1; cases hc1
            simp only [received_from, executed_for, Event.fd, if_pos, List.nil_append]
            exact go (Conn.grow c0) (by simp) (by rw [grow_twice, hg])
          · rw [hexec hx]
            exact go c0 (by simp [Ne.symm hx, hv]) hg
        | read x e d =>
          simp only [vstep] at hs
          by_cases hx : x = fd
          · subst hx
            rw [hv] at hs
            simp only at hs
            split at hs
            · cases hrd : Conn.read c0 d with
              | none => rw [hrd] at hs; cases hs
              | some q =>
                obtain ⟨cs, q⟩ := q
                rw [hrd] at hs
                cases hs
                simp only [received_from, executed_for, Event.fd, if_pos]
                rw [read_grow hg] at hrd
                unfold Conn.reads
                rw [hrd]
                cases q with
                | none =>
                  obtain ⟨h1, h2, h3⟩ := vrun_closed evs _ V' more hr (by simp) hk'
                  exact ⟨none, by simp [h3], by simp [h1]⟩
                | some c1 =>
                  obtain ⟨r, h1, h2⟩ := ih _ V' more c1 c1 hr (by simp) rfl hk'
                  exact ⟨r, by simp [h1], h2⟩
            · cases hs
          · rw [hexec hx]
            simp only [received_from, if_neg hx]
            have : V1 fd = some c0 := by
              cases hvx : V x with
              | none => rw [hvx] at hs; cases hs
              | some c1 =>
                rw [hvx] at hs
                simp only at hs
                split at hs
                · split at hs
                  · cases hs
                  · cases hs; simp [Ne.symm hx, hv]
                · cases hs
            exact go c0 this hg

theorem executed_for_map {α β : Type} (f : α → β) (fd : Nat) : ∀ (evs : List Event) (out : List (List α)), executed_for fd evs (out.map (·.map f)) = (executed_for fd evs out).map f := by
  intro evs
  induction evs with
  | nil => intro out; cases out <;> rfl
  | cons ev evs ih =>
    intro out
    cases out with
    | nil => rfl
    | cons x out =>
      simp only [List.map_cons, executed_for, ih]
      split <;> simp

end Heap
end Metis
