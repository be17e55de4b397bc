import Verif.Proofs.RespSafe
import Verif.Spec.Frame
/-! The incremental parser does what `verdict` says of all the bytes since the last command. -/
set_option linter.unusedSectionVars false
set_option linter.unusedSimpArgs false
set_option linter.unusedVariables false
namespace Metis.Conn
open Metis.Spec

theorem line_crlf : ∀ (b : Bytes), line b = (crlf b).map (fun i => (b.take i, b.drop (i + 2)))
  | [] => rfl
  | [a] => by simp [line, crlf]
  | a :: b :: r => by
    have ih := line_crlf (b :: r)
    unfold line crlf
    simp only [List.head?_cons, Option.some.injEq, List.tail_cons]
    by_cases h : a = 13 ∧ b = 10
    · rw [if_pos h, if_pos h]; rfl
    · rw [if_neg h, if_neg h, ih]
      cases crlf (b :: r) <;> simp

theorem line_eq : ∀ {b h r : Bytes}, line b = some (h, r) → b = h ++ 13 :: 10 :: r
  | [], _, _, e => by cases e
  | x :: b, h, r, e => by
    unfold line at e
    split at e
    · next hc =>
      cases e
      obtain ⟨rfl, hc⟩ := hc
      cases b with
      | nil => cases hc
      | cons y b => simp only [List.head?_cons, Option.some.injEq] at hc; subst hc; rfl
    · cases hl : line b with
      | none => rw [hl] at e; cases e
      | some p =>
        rw [hl] at e
        cases e
        rw [line_eq hl]; rfl

theorem line_append {b h r : Bytes} (d : Bytes) (e : line b = some (h, r)) : line (b ++ d) = some (h, r ++ d) := by
  induction b generalizing h with
  | nil => cases e
  | cons x b ih =>
    unfold line at e
    rw [List.cons_append]
    unfold line
    split at e
    · next hc =>
      cases e
      cases b with
      | nil => cases hc.2
      | cons y b => rw [if_pos (by simpa using hc)]; rfl
    · next hc =>
      cases hl : line b with
      | none => rw [hl] at e; cases e
      | some p =>
        rw [hl] at e
        cases e
        rw [if_neg (by
          cases b with
          | nil => cases hl
          | cons y b => simpa using hc), ih hl]
        rfl

/-- Waiting within an array: `k` arguments are missing, and `rest` is what has been received of them. -/
structure Mid (c : Conn) (k : Nat) (args : List Bytes) (rest : Bytes) : Prop where
  typ   : c.cmdType = .multiBulk
  multi : c.multiBulkLen = k
  args  : c.args = args ++ List.replicate k []
  at_   : (c.bulkLen = 0 ∧ c.buf = rest) ∨
          (c.bulkLen ≠ 0 ∧ ∃ h, line rest = some (h, c.buf) ∧ h.head? = some 36 ∧ atoi (h.drop 1) = some c.bulkLen)

/-- Waiting, with `x` received since the last command. -/
inductive Held : Conn → Bytes → Prop
  | fresh (s : Nat) : Held { slack := s } []
  | first (s : Nat) (x : Bytes) (t : CmdType) : x ≠ [] → t = (if x.head? = some 42 then .multiBulk else if x.head? = some 36 then .bulk else .inline) →
      line x = none → Held { slack := s, buf := x, cmdType := t } x
  | bulk (s : Nat) (x h r : Bytes) (m : Int) : x.head? = some 36 → line x = some (h, r) → atoi (h.drop 1) = some m → m ≠ 0 →
      Held { slack := s, buf := r, cmdType := .bulk, bulkLen := m } x
  | multi (c : Conn) (x : Bytes) (k : Nat) (args : List Bytes) (rest : Bytes) : 0 < k → Mid c k args rest → (∀ room d, verdict room (x ++ d) = items room k args (rest ++ d)) → Held c x

/-- What the parser returns, and what it should. -/
inductive Agrees (room : Nat) (x : Bytes) : Verdict → Option Step → Prop
  | crash : Agrees room x .crash none
  | close : Agrees room x .close (some .err)
  | wait (c : Conn) : Held c x → c.slack = room → Agrees room x .wait (some (.more c))
  | run (c : Conn) : Agrees room x (.run c.args) (some (.done c))

/-- What the loop over the arguments returns, and what it should. -/
inductive AgreesM (room : Nat) (k : Nat) (args : List Bytes) (rest : Bytes) : Verdict → Option Step → Prop
  | crash : AgreesM room k args rest .crash none
  | close : AgreesM room k args rest .close (some .err)
  | wait (c : Conn) (k' : Nat) (args' : List Bytes) (rest' : Bytes) : 0 < k' → Mid c k' args' rest' → c.slack = room →
      (∀ room d, items room k args (rest ++ d) = items room k' args' (rest' ++ d)) → AgreesM room k args rest .wait (some (.more c))
  | run (c : Conn) : AgreesM room k args rest (.run c.args) (some (.done c))

theorem byteAt_buf {c : Conn} {m : Nat} {y : UInt8} {t : Bytes} (h : c.buf.drop m = y :: t) : byteAt c m = some y := by
  have hlt : m < c.buf.length := by
    rcases Nat.lt_or_ge m c.buf.length with h' | h'
    · exact h'
    · rw [List.drop_eq_nil_of_le h'] at h; cases h
  rw [byteAt_nat hlt]
  have := congrArg List.head? h
  rw [List.head?_drop] at this
  exact this

theorem byteAt_end {c : Conn} {m : Nat} (h : c.buf.length = m) : byteAt c m = if c.slack = 0 then none else some 0 := by
  unfold byteAt
  rw [if_neg (by omega), if_neg (by omega)]
  by_cases hs : c.slack = 0
  · rw [if_pos hs, if_neg (by omega)]
  · rw [if_neg hs, if_pos (by omega)]

/-- One argument, from the data on. -/
theorem multiData_item {c : Conn} {k : Nat} {args : List Bytes} {rest h : Bytes} (hm : Mid { c with bulkLen := 0, buf := rest } (k + 1) args rest)
    (hl : line rest = some (h, c.buf)) (hh : h.head? = some 36) (hn : atoi (h.drop 1) = some c.bulkLen) :
    ((∀ c', multiData c ≠ some (.done c')) ∧ AgreesM c.slack (k + 1) args rest (items c.slack (k + 1) args rest) (multiData c)) ∨
    (∃ r' c', multiData c = some (.done c') ∧ c'.slack = c.slack ∧ c'.cmdType = c.cmdType ∧ c'.bulkLen = 0 ∧ c'.buf = r' ∧ c'.multiBulkLen = k ∧
      c'.args = (args ++ [c.buf.take c.bulkLen.toNat]) ++ List.replicate k [] ∧
      ∀ room d, items room (k + 1) args (rest ++ d) = items room k (args ++ [c.buf.take c.bulkLen.toNat]) (r' ++ d)) := by
  have hit : items c.slack (k + 1) args rest = if c.bulkLen < 0 then .crash
          else if (c.buf.length : Int) < c.bulkLen then .wait
          else if c.buf.drop c.bulkLen.toNat = [] ∨ c.buf.drop c.bulkLen.toNat = [13] then (if c.slack = 0 then .crash else .close)
          else if (c.buf.drop c.bulkLen.toNat).take 2 = [13, 10] then items c.slack k (args ++ [c.buf.take c.bulkLen.toNat]) (c.buf.drop (c.bulkLen.toNat + 2))
          else .close := by
    conv => lhs; unfold items
    simp only [hl, hh, hn, ne_eq, not_true_eq_false, if_false]
  by_cases hneg : c.bulkLen < 0
  · left
    have hd : multiData c = none := by
      unfold multiData
      rw [if_neg (by omega)]
      have : byteAt c c.bulkLen = none := by unfold byteAt; rw [if_pos hneg]
      rw [this]
    rw [hd, hit, if_pos hneg]
    exact ⟨(fun c' h => by cases h), .crash⟩
  rw [if_neg hneg] at hit
  obtain ⟨m, hbm⟩ : ∃ m : Nat, c.bulkLen = m := ⟨c.bulkLen.toNat, by omega⟩
  rw [hbm, Int.toNat_natCast] at hit
  by_cases hshort : (c.buf.length : Int) < m
  · left
    rw [if_pos hshort] at hit
    have hd : multiData c = some (.more c) := by unfold multiData; rw [hbm, if_pos hshort]
    rw [hit, hd]
    refine ⟨(fun c' h => by cases h), ?_⟩
    refine .wait c (k + 1) args rest (by omega) ⟨hm.typ, hm.multi, hm.args, Or.inr ⟨by omega, h, hl, hh, hn⟩⟩ rfl (fun _ _ => rfl)
  rw [if_neg hshort] at hit
  have hle : m ≤ c.buf.length := by omega
  have hd0 : multiData c = match byteAt c (m : Int) with
      | none => none
      | some x =>
        if x ≠ 13 then some .err
        else
          match byteAt c ((m : Int) + 1) with
          | none => none
          | some y =>
            if y ≠ 10 then some .err
            else some (.done (move { c with
              args := c.args.set (c.args.length - c.multiBulkLen.toNat) (c.buf.take m), bulkLen := 0, multiBulkLen := c.multiBulkLen - 1 } m)) := by
    unfold multiData
    rw [hbm, if_neg hshort]
    rfl
  cases hdr : c.buf.drop m with
  | nil =>
    left
    have hlen : c.buf.length = m := by
      have := congrArg List.length hdr
      rw [List.length_drop, List.length_nil] at this
      omega
    rw [if_pos (Or.inl hdr)] at hit
    rw [byteAt_end hlen] at hd0
    by_cases hs : c.slack = 0
    · rw [if_pos hs] at hit hd0
      have hd1 : multiData c = none := hd0
      rw [hit, hd1]; exact ⟨(fun c' h => by cases h), .crash⟩
    · rw [if_neg hs] at hit hd0
      have hd1 : multiData c = some .err := hd0
      rw [hit, hd1]; exact ⟨(fun c' h => by cases h), .close⟩
  | cons y t =>
    rw [byteAt_buf hdr] at hd0
    simp only at hd0
    by_cases hy : y = 13
    · subst hy
      rw [if_neg (by simp)] at hd0
      cases t with
      | nil =>
        left
        have hlen : c.buf.length = m + 1 := by
          have := congrArg List.length hdr
          rw [List.length_drop, List.length_cons, List.length_nil] at this
          omega
        rw [if_pos (Or.inr hdr)] at hit
        have : byteAt c ((m : Int) + 1) = if c.slack = 0 then none else some 0 := byteAt_end hlen
        rw [this] at hd0
        by_cases hs : c.slack = 0
        · rw [if_pos hs] at hit hd0
          have hd1 : multiData c = none := hd0
          rw [hit, hd1]; exact ⟨(fun c' h => by cases h), .crash⟩
        · rw [if_neg hs] at hit hd0
          have hd1 : multiData c = some .err := hd0
          rw [hit, hd1]; exact ⟨(fun c' h => by cases h), .close⟩
      | cons z t =>
        have hz : byteAt c ((m : Int) + 1) = some z := by
          have : c.buf.drop (m + 1) = z :: t := by
            rw [← List.drop_drop, hdr]; rfl
          exact byteAt_buf this
        rw [hz] at hd0
        simp only at hd0
        rw [if_neg (by rw [hdr]; simp)] at hit
        by_cases hz10 : z = 10
        · subst hz10
          right
          rw [if_neg (by simp)] at hd0
          refine ⟨c.buf.drop (m + 2), _, hd0, rfl, rfl, rfl, rfl, ?_, ?_, ?_⟩
          · show c.multiBulkLen - 1 = k
            have := hm.multi
            simp only at this
            rw [this]; omega
          · show c.args.set (c.args.length - c.multiBulkLen.toNat) (c.buf.take m) = _
            have h1 := hm.args
            have h2 := hm.multi
            simp only at h1 h2
            rw [h1, h2, hbm]
            simp only [Int.toNat_natCast]
            exact set_arg args (c.buf.take m) k
          · intro room d
            conv => lhs; unfold items
            have h1 : ((c.buf ++ d).drop m) = c.buf.drop m ++ d := by rw [List.drop_append_of_le_length hle]
            have h2 : ((c.buf ++ d).take m) = c.buf.take m := by rw [List.take_append_of_le_length hle]
            have h3 : ((c.buf ++ d).drop (m + 2)) = c.buf.drop (m + 2) ++ d := by
              rw [List.drop_append_of_le_length]
              have := congrArg List.length hdr
              rw [List.length_drop, List.length_cons, List.length_cons] at this
              omega
            simp only [line_append d hl, hh, hn, ne_eq, not_true_eq_false, if_false, hbm, Int.toNat_natCast, h1, h2, h3, hdr]
            rw [if_neg (by omega), if_neg (by rw [List.length_append]; omega), if_neg (by simp), if_pos (by simp)]
        · left
          rw [if_pos (by simpa using hz10)] at hd0
          rw [if_neg (by rw [hdr]; simpa using hz10)] at hit
          rw [hit, hd0]; exact ⟨(fun c' h => by cases h), .close⟩
    · left
      rw [if_pos (by simpa using hy)] at hd0
      rw [if_neg (by rw [hdr]; simp [hy]), if_neg (by rw [hdr]; cases t <;> simp [hy])] at hit
      rw [hit, hd0]; exact ⟨(fun c' h => by cases h), .close⟩

theorem AgreesM.shift {room k k' : Nat} {args args' : List Bytes} {rest rest' : Bytes} {v : Verdict} {r : Option Step} (h : AgreesM room k' args' rest' v r)
    (e : ∀ room d, items room k args (rest ++ d) = items room k' args' (rest' ++ d)) : AgreesM room k args rest v r := by
  cases h with
  | crash => exact .crash
  | close => exact .close
  | wait c k2 a2 r2 h0 h1 h2 h3 => exact .wait c k2 a2 r2 h0 h1 h2 (fun room d => (e room d).trans (h3 room d))
  | run c => exact .run c

theorem head_line {b h r : Bytes} (e : line b = some (h, r)) : (b.head? = some 36 ↔ h.head? = some 36) ∧ (b.head? = some 42 ↔ h.head? = some 42) := by
  have := line_eq e
  subst this
  cases h with
  | nil => simp
  | cons x h => simp

theorem byteAt_zero {c : Conn} (h : c.buf ≠ []) : byteAt c 0 = c.buf.head? := by
  have : 0 < c.buf.length := List.length_pos_iff.mpr h
  have := byteAt_nat (c := c) (i := 0) this
  rw [List.head?_eq_getElem?]
  exact this

/-- The loop over the arguments. -/
theorem multiLoop_items : ∀ (fuel k : Nat) (c : Conn) (args : List Bytes) (rest : Bytes), k < fuel → Mid c k args rest →
    AgreesM c.slack k args rest (items c.slack k args rest) (multiLoop fuel c)
  | 0, _, _, _, _, h, _ => absurd h (by omega)
  | fuel + 1, 0, c, args, rest, _, hm => by
    unfold multiLoop
    rw [if_neg (by rw [hm.multi]; simp)]
    have : items c.slack 0 args rest = .run c.args := by rw [hm.args]; simp [items]
    rw [this]
    exact .run c
  | fuel + 1, k + 1, c, args, rest, hk, hm => by
    unfold multiLoop
    rw [if_pos (by rw [hm.multi]; omega)]
    have main : ∀ c2 : Conn, c2.slack = c.slack → c2.cmdType = c.cmdType → c2.multiBulkLen = c.multiBulkLen → c2.args = c.args →
        multiTurn c = multiData c2 → (∃ h, line rest = some (h, c2.buf) ∧ h.head? = some 36 ∧ atoi (h.drop 1) = some c2.bulkLen) →
        AgreesM c.slack (k + 1) args rest (items c.slack (k + 1) args rest) (match multiTurn c with | some (.done c) => multiLoop fuel c | r => r) := by
      rintro c2 e1 e2 e3 e4 e5 ⟨h, hl, hh, hn⟩
      rw [e5]
      rcases multiData_item (c := c2) (k := k) (args := args) (rest := rest)
        ⟨e2.trans hm.typ, e3.trans hm.multi, e4.trans hm.args, Or.inl ⟨rfl, rfl⟩⟩ hl hh hn with ⟨h1, h2⟩ | ⟨r', c', h1, h2, h3, h4, h5, h6, h7, h8⟩
      · rw [e1] at h2
        revert h2
        cases hd : multiData c2 with
        | none => exact fun h2 => h2
        | some st =>
          cases st with
          | err => exact fun h2 => h2
          | more _ => exact fun h2 => h2
          | done c' => exact absurd hd (h1 c')
      · rw [h1]
        simp only
        have ih := multiLoop_items fuel k c' _ r' (by omega) ⟨h3.trans (e2.trans hm.typ), h6, h7, Or.inl ⟨h4, h5⟩⟩
        have e8 := h8 c.slack []
        rw [List.append_nil, List.append_nil] at e8
        rw [e8]
        rw [h2.trans e1] at ih
        exact ih.shift h8
    rcases hm.at_ with ⟨hb, hbuf⟩ | ⟨hb, hx⟩
    · have ht : multiTurn c = match crlf c.buf with
          | none => some (if c.buf.length > maxInline then .err else .more c)
          | some i =>
            if byteAt c 0 ≠ some 36 then some .err
            else
              match getNum c i with
              | none => some .err
              | some num => multiData (move { c with bulkLen := num } i) := by
        unfold multiTurn; rw [if_pos hb]; rfl
      have hline := line_crlf rest
      rw [← hbuf] at hline
      cases hi : crlf c.buf with
      | none =>
        rw [hi] at ht hline
        simp only at ht
        rw [ht]
        have hit : items c.slack (k + 1) args rest = endless rest := by
          conv => lhs; unfold items
          rw [← hbuf, show line c.buf = none from hline]
        rw [hit, endless, ← hbuf]
        change AgreesM _ _ _ _ (if c.buf.length > maxInline then _ else _) _
        by_cases hbig : c.buf.length > maxInline
        · rw [if_pos hbig, if_pos hbig]; exact .close
        · rw [if_neg hbig, if_neg hbig]; exact .wait c (k + 1) args c.buf (by omega) ⟨hm.typ, hm.multi, hm.args, Or.inl ⟨hb, rfl⟩⟩ rfl (fun _ _ => rfl)
      | some i =>
        rw [hi] at ht hline
        simp only [Option.map_some] at ht hline
        have hne : c.buf ≠ [] := by intro h0; rw [h0] at hi; cases hi
        rw [byteAt_zero hne] at ht
        have hhd := (head_line hline).1
        have hit : items c.slack (k + 1) args rest = if (c.buf.take i).head? ≠ some 36 then .close else
            match atoi ((c.buf.take i).drop 1) with
            | none => .close
            | some m => items c.slack (k + 1) args rest := by
          by_cases h1 : (c.buf.take i).head? ≠ some 36
          · rw [if_pos h1]
            conv => lhs; unfold items
            rw [← hbuf, hline]
            simp only
            rw [if_pos h1]
          · rw [if_neg h1]
            cases h2 : atoi ((c.buf.take i).drop 1) with
            | none =>
              conv => lhs; unfold items
              rw [← hbuf, hline]
              simp only
              rw [if_neg h1, h2]
            | some m => rfl
        by_cases h1 : (c.buf.take i).head? = some 36
        · rw [if_neg (fun h => h (hhd.2 h1))] at ht
          rw [if_neg (fun h => h h1)] at hit
          cases h2 : atoi ((c.buf.take i).drop 1) with
          | none =>
            rw [h2] at hit
            rw [show getNum c i = none from h2] at ht
            rw [hit, ht]
            exact .close
          | some m =>
            rw [show getNum c i = some m from h2] at ht
            exact main (move { c with bulkLen := m } i) rfl rfl rfl rfl ht ⟨c.buf.take i, by rw [← hbuf]; exact hline, h1, h2⟩
        · rw [if_pos (fun h => h1 (hhd.1 h))] at ht
          rw [if_pos h1] at hit
          rw [hit, ht]
          exact .close
    · exact main c rfl rfl rfl rfl (by unfold multiTurn; rw [if_neg hb]) hx

theorem AgreesM.lift {room k : Nat} {args : List Bytes} {rest x : Bytes} {v : Verdict} {r : Option Step} (h : AgreesM room k args rest v r)
    (e : ∀ room d, verdict room (x ++ d) = items room k args (rest ++ d)) : Agrees room x v r := by
  cases h with
  | crash => exact .crash
  | close => exact .close
  | wait c k2 a2 r2 h0 h1 h2 h3 => exact .wait c (.multi c x k2 a2 r2 h0 h1 (fun room d => (e room d).trans (h3 room d))) h2
  | run c => exact .run c

/-- The type of a command by its first byte. -/
def typeOf (x : Bytes) : CmdType := if x.head? = some 42 then .multiBulk else if x.head? = some 36 then .bulk else .inline

theorem bulkData_ok {room : Nat} {x h r : Bytes} {m : Int} (hx : x.head? = some 36) (hl : line x = some (h, r)) (hn : atoi (h.drop 1) = some m) (h0 : m ≠ 0) :
    Agrees room x (verdict room x) (bulkData { slack := room, buf := r, cmdType := .bulk, bulkLen := m }) := by
  have hv : verdict room x = if m + 2 < 2 ^ 63 ∧ (r.length : Int) < m + 2 then .wait
        else if m < 0 ∨ 2 ^ 63 ≤ m + 2 then .crash
        else .run [r.take m.toNat] := by
    unfold verdict
    rw [hl]
    simp only [hx, hn]
    rw [if_neg (by simp), if_pos trivial, if_neg h0]
  rw [hv]
  unfold bulkData
  simp only
  by_cases h1 : m + 2 < 2 ^ 63 ∧ (r.length : Int) < m + 2
  · rw [if_pos h1, if_pos h1]
    exact .wait _ (.bulk room x h r m hx hl hn h0) rfl
  · rw [if_neg h1, if_neg h1]
    by_cases h2 : m < 0 ∨ 2 ^ 63 ≤ m + 2
    · rw [if_pos h2, if_pos (by omega)]; exact .crash
    · rw [if_neg h2, if_neg (by omega)]
      exact .run (move { slack := room, buf := r, cmdType := .bulk, bulkLen := 0, args := [r.take m.toNat] } m.toNat)

/-- From the first byte of a command. -/
theorem parse_first {room : Nat} {y : Bytes} (hy : y ≠ []) :
    Agrees room y (verdict room y) (parse { slack := room, buf := y, cmdType := typeOf y }) := by
  have hline := line_crlf y
  cases hi : crlf y with
  | none =>
    rw [hi] at hline
    have hline : line y = none := hline
    have hv : verdict room y = endless y := by unfold verdict; rw [hline]
    have hp : parse { slack := room, buf := y, cmdType := typeOf y } =
        some (if y.length > maxInline then .err else .more { slack := room, buf := y, cmdType := typeOf y }) := by
      unfold parse typeOf
      by_cases h1 : y.head? = some 42
      · simp only [if_pos h1, multiBuf, hi, if_true]
      · by_cases h2 : y.head? = some 36
        · simp only [if_neg h1, if_pos h2, bulkBuf, hi, if_true]
        · simp only [if_neg h1, if_neg h2, inlineBuf, hi]
    rw [hv, hp, endless]
    change Agrees _ _ (if y.length > maxInline then _ else _) _
    by_cases hbig : y.length > maxInline
    · rw [if_pos hbig, if_pos hbig]; exact .close
    · rw [if_neg hbig, if_neg hbig]; exact .wait _ (.first room y _ hy rfl hline) rfl
  | some i =>
    rw [hi] at hline
    simp only [Option.map_some] at hline
    by_cases h1 : y.head? = some 42
    · have ht : typeOf y = .multiBulk := by unfold typeOf; rw [if_pos h1]
      rw [ht]
      unfold parse multiBuf
      simp only [hi, if_true]
      have hv : ∀ room d, verdict room (y ++ d) = match atoi ((y.take i).drop 1) with
          | none => .close
          | some n =>
            if n = 0 then .run []
            else if n < 0 ∨ 2 ^ 44 < n then .crash
            else items room n.toNat [] (y.drop (i + 2) ++ d) := by
        intro room d
        unfold verdict
        have h1' : (y ++ d).head? = some 42 := by
          cases y with
          | nil => exact absurd rfl hy
          | cons a y => exact h1
        rw [line_append d hline]
        simp only
        rw [if_pos h1']
        cases atoi ((y.take i).drop 1) <;> rfl
      have hv0 := hv room []
      rw [List.append_nil, List.append_nil] at hv0
      change Agrees _ _ _ (match atoi ((y.take i).drop 1) with | none => _ | some num => _)
      cases hn : atoi ((y.take i).drop 1) with
      | none => rw [hn] at hv0; rw [hv0]; exact .close
      | some n =>
        rw [hn] at hv0
        simp only at hv0 ⊢
        by_cases hz : n = 0
        · rw [if_pos hz] at hv0 ⊢; rw [hv0]; exact .run (move { slack := room, buf := y, cmdType := .multiBulk } i)
        · rw [if_neg hz] at hv0 ⊢
          by_cases hb : n < 0 ∨ 2 ^ 44 < n
          · rw [if_pos hb] at hv0
            rw [if_pos (by unfold maxStrCap; exact hb), hv0]; exact .crash
          · rw [if_neg hb] at hv0
            rw [if_neg (by unfold maxStrCap; exact hb), hv0]
            have := multiLoop_items (n.toNat + 1) n.toNat { move { slack := room, buf := y, cmdType := .multiBulk } i with multiBulkLen := n, args := List.replicate n.toNat [] }
              [] (y.drop (i + 2)) (by omega) ⟨rfl, by show n = _; omega, rfl, Or.inl ⟨rfl, rfl⟩⟩
            refine this.lift (fun room d => ?_)
            rw [hv room d, hn]
            simp only
            rw [if_neg hz, if_neg hb]
    · by_cases h2 : y.head? = some 36
      · have ht : typeOf y = .bulk := by unfold typeOf; rw [if_neg h1, if_pos h2]
        rw [ht]
        unfold parse bulkBuf
        simp only [hi, if_true]
        have hv : verdict room y = match atoi ((y.take i).drop 1) with
            | none => .close
            | some m => if m = 0 then .run [] else verdict room y := by
          cases hn : atoi ((y.take i).drop 1) with
          | none => simp only; unfold verdict; rw [hline]; simp only; rw [if_neg h1, if_pos h2, hn]
          | some m =>
            simp only
            by_cases hz : m = 0
            · rw [if_pos hz]; unfold verdict; rw [hline]; simp only; rw [if_neg h1, if_pos h2, hn]; simp only; rw [if_pos hz]
            · rw [if_neg hz]
        change Agrees _ _ _ (match atoi ((y.take i).drop 1) with | none => _ | some num => _)
        cases hn : atoi ((y.take i).drop 1) with
        | none => rw [hn] at hv; rw [hv]; exact .close
        | some m =>
          rw [hn] at hv
          simp only at hv ⊢
          by_cases hz : m = 0
          · rw [if_pos hz] at hv ⊢; rw [hv]; exact .run (move { slack := room, buf := y, cmdType := .bulk } i)
          · rw [if_neg hz]
            exact bulkData_ok h2 hline hn hz
      · have ht : typeOf y = .inline := by unfold typeOf; rw [if_neg h1, if_neg h2]
        rw [ht]
        unfold parse inlineBuf
        simp only [hi]
        have hv : verdict room y = if y.take i = [] then .crash else .run (split ((y.take i).drop 1)) := by
          unfold verdict; rw [hline]; simp only; rw [if_neg h1, if_neg h2]
        rw [hv]
        cases i with
        | zero => rw [if_pos (by simp)]; exact .crash
        | succ i =>
          rw [if_neg (by
            cases y with
            | nil => exact absurd rfl hy
            | cons a y => simp)]
          exact .run (move { slack := room, buf := y, cmdType := .inline, args := split ((y.take (i + 1)).drop 1) } (i + 1))

theorem head_app {x d : Bytes} (h : x ≠ []) : (x ++ d).head? = x.head? := by
  cases x with
  | nil => exact absurd rfl h
  | cons a x => rfl

/-- The buffer after the system call. -/
def got (c : Conn) (d : Bytes) : Conn := { grow c with buf := c.buf ++ d, slack := roomAfter c.slack d.length }

theorem got_eq (c : Conn) (d : Bytes) : ({ grow c with buf := (grow c).buf ++ d, slack := (grow c).slack - d.length } : Conn) = got c d := by
  unfold got grow roomAfter maxBulk
  split <;> rfl

/-- Every read. -/
theorem parse_held {c : Conn} {x d : Bytes} (h : Held c x) (hd : d ≠ []) :
    Agrees (roomAfter c.slack d.length) (x ++ d) (verdict (roomAfter c.slack d.length) (x ++ d)) (parse (setType (got c d))) := by
  have hgrow : ∀ c : Conn, (grow c).cmdType = c.cmdType ∧ (grow c).args = c.args ∧ (grow c).multiBulkLen = c.multiBulkLen ∧ (grow c).bulkLen = c.bulkLen := by
    intro c; unfold grow; split <;> exact ⟨rfl, rfl, rfl, rfl⟩
  obtain ⟨g1, g2, g3, g4⟩ := hgrow c
  have hgot : got c d = { buf := c.buf ++ d, slack := roomAfter c.slack d.length, cmdType := c.cmdType, args := c.args, multiBulkLen := c.multiBulkLen, bulkLen := c.bulkLen } := by
    unfold got; rw [← g1, ← g2, ← g3, ← g4]
  rw [hgot]
  cases h with
  | fresh s =>
    have : setType { buf := [] ++ d, slack := roomAfter s d.length } = { slack := roomAfter s d.length, buf := d, cmdType := typeOf d } := by
      unfold setType; rw [if_pos rfl]; rfl
    rw [List.nil_append]
    change Agrees _ _ _ (parse (setType { buf := [] ++ d, slack := roomAfter s d.length }))
    rw [this]
    exact parse_first hd
  | first s x t hx ht hl =>
    have hty : t = typeOf (x ++ d) := by unfold typeOf; rw [head_app hx]; exact ht
    have hu : t ≠ .unknown := by
      rw [ht]
      split
      · intro h; cases h
      · split <;> (intro h; cases h)
    have : setType { buf := x ++ d, slack := roomAfter s d.length, cmdType := t } = { slack := roomAfter s d.length, buf := x ++ d, cmdType := typeOf (x ++ d) } := by
      unfold setType; rw [if_neg hu, hty]
    change Agrees _ _ _ (parse (setType { buf := x ++ d, slack := roomAfter s d.length, cmdType := t }))
    rw [this]
    exact parse_first (by simp [hx])
  | bulk s x h r m hx hl hn h0 =>
    have hx' : (x ++ d).head? = some 36 := by
      rw [head_app (by intro h; rw [h] at hx; cases hx)]; exact hx
    change Agrees _ _ _ (parse (setType { buf := r ++ d, slack := roomAfter s d.length, cmdType := .bulk, bulkLen := m }))
    have : parse (setType { buf := r ++ d, slack := roomAfter s d.length, cmdType := .bulk, bulkLen := m }) =
        bulkData { buf := r ++ d, slack := roomAfter s d.length, cmdType := .bulk, bulkLen := m } := by
      unfold setType parse bulkBuf
      simp only [if_neg (show ¬ CmdType.bulk = .unknown from fun h => by cases h), if_neg h0]
    rw [this]
    exact bulkData_ok hx' (line_append d hl) hn h0
  | multi c x k args rest hk hm hv =>
    have ht := hm.typ
    have hmb := hm.multi
    have : parse (setType { buf := c.buf ++ d, slack := roomAfter c.slack d.length, cmdType := c.cmdType, args := c.args, multiBulkLen := c.multiBulkLen, bulkLen := c.bulkLen }) =
        multiLoop (k + 1) { buf := c.buf ++ d, slack := roomAfter c.slack d.length, cmdType := c.cmdType, args := c.args, multiBulkLen := c.multiBulkLen, bulkLen := c.bulkLen } := by
      unfold setType parse multiBuf
      simp only [ht, if_neg (show ¬ CmdType.multiBulk = .unknown from fun h => by cases h)]
      rw [if_neg (by rw [hmb]; omega), hmb]
      rfl
    rw [this, hv]
    refine (multiLoop_items (k + 1) k { buf := c.buf ++ d, slack := roomAfter c.slack d.length, cmdType := c.cmdType, args := c.args, multiBulkLen := c.multiBulkLen, bulkLen := c.bulkLen } args (rest ++ d) (by omega) ⟨ht, hmb, hm.args, ?_⟩).lift (fun room d' => ?_)
    · rcases hm.at_ with ⟨h1, h2⟩ | ⟨h1, h, h2, h3, h4⟩
      · exact Or.inl ⟨h1, by show c.buf ++ d = _; rw [h2]⟩
      · exact Or.inr ⟨h1, h, line_append d h2, h3, h4⟩
    · rw [List.append_assoc, List.append_assoc]; exact hv room _

/-- What a read does. -/
inductive Reads (room : Nat) (x : Bytes) : Verdict → Option (List (List Bytes) × Option Conn) → Prop
  | crash : Reads room x .crash none
  | close : Reads room x .close (some ([], none))
  | wait (c : Conn) : Held c x → c.slack = room → Reads room x .wait (some ([], some c))
  | run (args : List Bytes) : Reads room x (.run args) (some (if args = [] then [] else [args], some {}))

theorem read_held {c : Conn} {x d : Bytes} (h : Held c x) (hd : d ≠ []) :
    Reads (roomAfter c.slack d.length) (x ++ d) (verdict (roomAfter c.slack d.length) (x ++ d)) (read c d) := by
  have hp := parse_held h hd
  have hb : (got c d).buf.length > 0 := by
    show (c.buf ++ d).length > 0
    have := List.length_pos_iff.mpr hd
    rw [List.length_append]; omega
  unfold read
  simp only
  rw [got_eq]
  rw [processInput, if_pos hb]
  revert hp
  generalize verdict (roomAfter c.slack d.length) (x ++ d) = v
  generalize parse (setType (got c d)) = r
  intro hp
  cases hp with
  | crash => exact .crash
  | close => exact .close
  | wait c' h1 h2 => exact .wait c' h1 h2
  | run c' =>
    simp only
    have hr : processInput ((grow c).buf.length + d.length + 1) (reset c') = some ([], some {}) := by
      unfold processInput reset
      rw [if_neg (by simp)]
    by_cases ha : c'.args = []
    · rw [if_neg (by rw [ha]; simp)]
      rw [hr]
      have := Reads.run (room := roomAfter c.slack d.length) (x := x ++ d) c'.args
      rw [if_pos ha] at this
      exact this
    · rw [if_pos (List.length_pos_iff.mpr ha)]
      rw [hr]
      have := Reads.run (room := roomAfter c.slack d.length) (x := x ++ d) c'.args
      rw [if_neg ha] at this
      exact this

theorem reads_held : ∀ (ds : List Bytes) {c : Conn} {x : Bytes}, Held c x → (∀ d ∈ ds, d ≠ []) →
    (reads c ds).map (fun p => (p.1, p.2.isSome)) = serve x c.slack ds
  | [], c, x, _, _ => rfl
  | d :: ds, c, x, h, hd => by
    have hr := read_held h (hd d (by simp))
    have ih := fun {c : Conn} {x : Bytes} (h : Held c x) => reads_held ds h (fun d' h' => hd d' (by simp [h']))
    unfold reads serve
    revert hr
    generalize verdict (roomAfter c.slack d.length) (x ++ d) = v
    generalize read c d = r
    intro hr
    cases hr with
    | crash => rfl
    | close => rfl
    | wait c' h1 h2 =>
      simp only
      rw [← h2, ← ih h1]
      cases reads c' ds with
      | none => rfl
      | some p => rfl
    | run args =>
      simp only
      rw [← ih (Held.fresh 0)]
      cases reads {} ds with
      | none => rfl
      | some p =>
        by_cases ha : args = []
        · simp [ha]
        · simp [ha]

end Metis.Conn
