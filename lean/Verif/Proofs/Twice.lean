import Verif.Proofs.Torn
import Verif.Proofs.Node
import Verif.Proofs.Numeral
import Verif.Proofs.Log
/-!
A log that ends inside a record and is continued (C114): the reader, and the process that continues it.
-/
set_option linter.unusedSectionVars false
set_option linter.unusedSimpArgs false
set_option linter.unusedVariables false
namespace Metis.Aof
open Metis.Spec

/-! ### The reader -/

/-- What is trimmed is behind the last other byte. -/
theorem trim_append {t l : Bytes} (h : trimRight l ≠ []) : trimRight (t ++ l) = t ++ trimRight l := by
  unfold trimRight at h ⊢
  rw [List.reverse_append, List.dropWhile_append]
  have h1 : (l.reverse.dropWhile (fun c => c == 13 || c == 10)).isEmpty = false := by
    cases hx : l.reverse.dropWhile (fun c => c == 13 || c == 10) with
    | nil => rw [hx] at h; simp at h
    | cons _ _ => rfl
  rw [h1]
  simp

/-- A text with a star in it is no number. -/
theorem atoi_star {a b : Bytes} : atoi (a ++ 42 :: b) = none := by
  cases h : atoi (a ++ 42 :: b) with
  | none => rfl
  | some i =>
    exfalso
    obtain ⟨_, sign, ds, h1, h2, h3, h4⟩ := NumeralSim.atoi_numeral.1 h
    have hm : (42 : UInt8) ∈ sign ++ ds := by rw [← h1]; simp
    rcases List.mem_append.1 hm with hm | hm
    · rcases h4 with ⟨rfl | rfl, _⟩ | ⟨rfl, _⟩
      · cases hm
      · exact absurd hm (by decide)
      · exact absurd hm (by decide)
    · exact absurd (h3 42 hm).1 (by decide)

/-- The beginning of a first line and a log behind it. -/
theorem records_joined {cap m k : Nat} (h0 : 0 < cap) (hm : m ≤ cap) {t u : Bytes} {r q : List Bytes} {z : Bytes} (he : request r = t ++ u) (ht : (10 : UInt8) ∉ t) (ht0 : t ≠ []) :
    records cap (k + 1) (at_ (t ++ (request q ++ z)) m) = none := by
  obtain ⟨t', rfl⟩ : ∃ t', t = 42 :: t' := by
    cases t with
    | nil => exact absurd rfl ht0
    | cons c t => rw [request_line, line] at he; simp at he; exact ⟨t, by rw [he.1]⟩
  have hcut : cut ((42 :: t') ++ (request q ++ z)) = some ((42 :: t') ++ line 42 q.length, (q.map Spec.bulk).flatten ++ z) := by
    rw [cut_none_append (cut_none fun c hc e => ht (e ▸ hc)), request_line, List.append_assoc, cut_line 42 (by decide)]
    rfl
  obtain ⟨rd, hr⟩ := readLine_cut h0 hm hcut
  have htr : trimRight ((42 :: t') ++ line 42 q.length) = 42 :: (t' ++ 42 :: dec q.length) := by
    rw [trim_append (by rw [trim_line]; simp), trim_line]; rfl
  have hl : lengthOf 42 (42 :: (t' ++ 42 :: dec q.length)) = none := by
    simp only [lengthOf, ne_eq, not_true_eq_false, if_false, atoi_star, Option.bind_eq_bind, Option.bind_none]
  simp only [records, hr, htr, hl, Option.bind_eq_bind, Option.bind_none]

/-- An argument with any two bytes behind it. -/
theorem readArg_two {cap m m' : Nat} (hcap : 22 ≤ cap) (hm : m ≤ cap) {a x : Bytes} (ha : a.length < 2 ^ 63) (hx : x.length = 2) (hw : window cap m (pieceArg a) = some m') (s : Bytes) :
    readArg cap (at_ (line 36 a.length ++ (a ++ (x ++ s))) m) = some (a, at_ s m') := by
  have h1 := readLine_at (m := m) 36 (by decide) ha hcap hm (a ++ (x ++ s))
  have hm1 : (if (dec a.length).length + 3 ≤ m then m - ((dec a.length).length + 3) else cap - ((dec a.length).length + 3)) ≤ cap := by split <;> omega
  have hww : window cap (if (dec a.length).length + 3 ≤ m then m - ((dec a.length).length + 3) else cap - ((dec a.length).length + 3)) [.data a.length, .data 2] = some m' := by
    rw [← hw]
    simp only [pieceArg, header, window]
    split <;> rfl
  generalize (if (dec a.length).length + 3 ≤ m then m - ((dec a.length).length + 3) else cap - ((dec a.length).length + 3)) = m1 at *
  simp only [readArg, h1, Option.bind_eq_bind, Option.bind_some, lengthOf_line 36 ha]
  have hok : a.length ≤ m1 ∨ m1 = 0 := by
    by_contra hc
    simp only [window, if_neg (show ¬ a.length ≤ m1 by omega), if_neg (show ¬ m1 = 0 by omega)] at hww
    cases hww
  have h2 := read_at (by omega) hm1 a (x ++ s) hok
  have hm2 : (if a.length ≤ m1 then m1 - a.length else cap - a.length) ≤ cap := by split <;> omega
  have hw2 : window cap (if a.length ≤ m1 then m1 - a.length else cap - a.length) [.data 2] = some m' := by
    rw [← hww]
    by_cases h : a.length ≤ m1
    · simp only [window, if_pos h]
    · have h0 : m1 = 0 := by omega
      simp only [window, if_neg h, if_pos h0]
  generalize (if a.length ≤ m1 then m1 - a.length else cap - a.length) = m2 at *
  simp only [h2, Option.bind_some, Nat.sub_self, List.replicate_zero, List.append_nil]
  have hok2 : 2 ≤ m2 ∨ m2 = 0 := by
    by_contra hc
    simp only [window, if_neg (show ¬ 2 ≤ m2 by omega), if_neg (show ¬ m2 = 0 by omega)] at hw2
    cases hw2
  have h3 := read_at (by omega) hm2 x s (by rw [hx]; exact hok2)
  rw [hx] at h3
  have hw3 : window cap m2 [.data 2] = some (if 2 ≤ m2 then m2 - 2 else cap - 2) := by
    by_cases h : 2 ≤ m2
    · simp only [window, if_pos h]
    · have h0 : m2 = 0 := by omega
      simp only [window, if_neg h, if_pos h0]
  rw [hw3] at hw2
  cases hw2
  simp only [h3, Option.bind_some]

/-- The arguments of a record without its last byte, and another byte there. -/
theorem readArgs_joined {cap : Nat} (hcap : 22 ≤ cap) (c : UInt8) (z : Bytes) : ∀ (args : List Bytes) {m m' : Nat}, m ≤ cap → args ≠ [] → (∀ a ∈ args, a.length < 2 ^ 63) →
    ∀ {v : Bytes}, (args.map Spec.bulk).flatten = v ++ [10] → window cap m (args.flatMap pieceArg) = some m' →
    readArgs cap args.length (at_ (v ++ c :: z) m) = some (args, at_ z m')
  | [], _, _, _, h, _, _, _, _ => absurd rfl h
  | [a], m, m', hm, _, ha, v, hv, hw => by
    have e : v = line 36 a.length ++ (a ++ [13]) := by
      have : line 36 a.length ++ (a ++ [13]) ++ [10] = v ++ [10] := by rw [← hv]; simp [bulk_line, CRLF]
      exact (List.append_cancel_right this).symm
    have e2 : v ++ c :: z = line 36 a.length ++ (a ++ ([13, c] ++ z)) := by rw [e]; simp
    have h1 := readArg_two (x := [13, c]) hcap hm (ha a (by simp)) rfl (by simpa using hw) z
    simp only [List.length_cons, List.length_nil, readArgs, e2, h1, Option.bind_eq_bind, Option.bind_some]
  | a :: b :: as, m, m', hm, _, ha, v, hv, hw => by
    obtain ⟨w, hw'⟩ : ∃ w, ((b :: as).map Spec.bulk).flatten = w ++ [10] := by
      have hne : ((b :: as).map Spec.bulk).flatten ≠ [] := by simp [Spec.bulk]
      refine ⟨((b :: as).map Spec.bulk).flatten.dropLast, ?_⟩
      have h1 := List.dropLast_concat_getLast hne
      have h2 : (((b :: as).map Spec.bulk).flatten).getLast hne = 10 := by
        have h3 : (Spec.bulk a ++ ((b :: as).map Spec.bulk).flatten).getLast (by simp [Spec.bulk]) = 10 := by
          have : Spec.bulk a ++ ((b :: as).map Spec.bulk).flatten = v ++ [10] := by rw [← hv]; simp
          simp only [this, List.getLast_append_of_ne_nil _ (show [(10 : UInt8)] ≠ [] by simp), List.getLast_singleton]
        rw [← h3, List.getLast_append_of_ne_nil _ hne]
      rw [← h2]; exact h1.symm
    have e : v = Spec.bulk a ++ w := by
      have : Spec.bulk a ++ w ++ [10] = v ++ [10] := by rw [← hv, List.append_assoc, ← hw']; simp
      exact (List.append_cancel_right this).symm
    have ew : window cap m ((a :: b :: as).flatMap pieceArg) = (window cap m (pieceArg a)).bind (fun m' => window cap m' ((b :: as).flatMap pieceArg)) := by
      rw [List.flatMap_cons, window_append]
    rw [ew] at hw
    obtain ⟨m1, h1, h2⟩ := Option.bind_eq_some_iff.1 hw
    have h3 := (readArg_at hcap hm (ha a (by simp)) (w ++ c :: z)).1 m1 h1
    have ih := readArgs_joined hcap c z (b :: as) (window_le _ hm h1) (by simp) (fun x hx => ha x (by simp [hx])) hw' h2
    have e2 : v ++ c :: z = Spec.bulk a ++ (w ++ c :: z) := by rw [e]; simp
    have el : (a :: b :: as).length = (b :: as).length + 1 := rfl
    rw [el, e2]
    simp only [readArgs, h3, Option.bind_eq_bind, Option.bind_some, ih]

/-- A record without its last byte and a log behind it. -/
theorem records_swallowed {cap m m' k : Nat} (hcap : 22 ≤ cap) (hm : m ≤ cap) {t : Bytes} {r q : List Bytes} {z : Bytes} (hs : Sized r) (hr : r ≠ []) (he : request r = t ++ [10])
    (hw : window cap m (Spec.pieces r) = some m') : records cap (k + 2) (at_ (t ++ (request q ++ z)) m) = none := by
  obtain ⟨hsz, hsa⟩ := hs
  have hne : (r.map Spec.bulk).flatten ≠ [] := by cases r with | nil => exact absurd rfl hr | cons a r => simp [Spec.bulk]
  obtain ⟨v, hv, ht⟩ : ∃ v, (r.map Spec.bulk).flatten = v ++ [10] ∧ t = line 42 r.length ++ v := by
    rw [request_line] at he
    rcases List.append_eq_append_iff.1 he with ⟨v, hv, hv'⟩ | ⟨v, hv, hv'⟩
    · exact ⟨v, hv', hv⟩
    · cases v with
      | nil => exact ⟨[], by simpa using hv'.symm, by simpa using hv.symm⟩
      | cons x v =>
        have : (v ++ (r.map Spec.bulk).flatten) = [] := by simpa using (List.cons.inj hv').2.symm
        exact absurd (List.append_eq_nil_iff.1 this).2 hne
  have e : t ++ (request q ++ z) = line 42 r.length ++ (v ++ 42 :: (dec q.length ++ CRLF ++ ((q.map Spec.bulk).flatten ++ z))) := by
    rw [ht, request_line]; simp [line]
  have h1 := readLine_at (m := m) 42 (by decide) hsz hcap hm (v ++ 42 :: (dec q.length ++ CRLF ++ ((q.map Spec.bulk).flatten ++ z)))
  have hm1 : (if (dec r.length).length + 3 ≤ m then m - ((dec r.length).length + 3) else cap - ((dec r.length).length + 3)) ≤ cap := by split <;> omega
  have hw1 : window cap (if (dec r.length).length + 3 ≤ m then m - ((dec r.length).length + 3) else cap - ((dec r.length).length + 3)) (r.flatMap pieceArg) = some m' := by
    rw [← hw, pieces_eq]
    simp only [header, window]
    split <;> rfl
  generalize (if (dec r.length).length + 3 ≤ m then m - ((dec r.length).length + 3) else cap - ((dec r.length).length + 3)) = m1 at *
  have h2 := readArgs_joined hcap 42 (dec q.length ++ CRLF ++ ((q.map Spec.bulk).flatten ++ z)) r hm1 hr hsa hv hw1
  have hst : Stuck cap (at_ (dec q.length ++ CRLF ++ ((q.map Spec.bulk).flatten ++ z)) m') := by
    obtain ⟨d, ds, hd⟩ := List.exists_cons_of_ne_nil (dec_ne q.length)
    have hdd : 48 ≤ d.toNat ∧ d.toNat ≤ 57 := dec_digit (n := q.length) (by rw [hd]; simp)
    have hc : cut (dec q.length ++ CRLF ++ ((q.map Spec.bulk).flatten ++ z)) = some (dec q.length ++ CRLF, (q.map Spec.bulk).flatten ++ z) := by
      have : dec q.length ++ CRLF ++ ((q.map Spec.bulk).flatten ++ z) = (dec q.length ++ [13]) ++ 10 :: ((q.map Spec.bulk).flatten ++ z) := by simp [CRLF]
      rw [this, cut_some]
      · simp [CRLF]
      · intro c hc
        rcases List.mem_append.1 hc with hc | hc
        · exact (dec_ne_lf _ c hc).1
        · simp at hc; rw [hc]; decide
    refine stuck_of (by omega) (window_le _ hm1 hw1) hc fun x hx => ?_
    have := trim_head hx
    rw [hd] at this
    simp at this
    subst this
    refine ⟨fun h => ?_, fun h => ?_⟩ <;> (rw [h] at hdd; exact absurd hdd.1 (by decide))
  rw [e]
  simp only [records, h1, lengthOf_line 42 hsz, h2, if_neg hr, Option.bind_eq_bind, Option.bind_some]
  obtain ⟨l, r', s1, _, s3⟩ := hst
  simp only [s1, s3, Option.bind_none]

/-- A log that ends inside a record, at a place where it can be loaded, and is continued cannot be loaded. -/
theorem parse_joined {recs more : List (List Bytes)} {r : List Bytes} {t u : Bytes} (h : Records (recs ++ [r])) (hl : Whole (recs ++ [r])) (he : request r = t ++ u) (ht : t ≠ [])
    (hc : (10 : UInt8) ∉ t ∨ u = [10]) (hm : more ≠ []) : parse readerSize (log recs ++ t ++ log more) = none := by
  obtain ⟨q, more, rfl⟩ := List.exists_cons_of_ne_nil hm
  have hrs : ∀ x ∈ recs, x ≠ [] ∧ Sized x := fun x hx => h x (by simp [hx])
  obtain ⟨m', hw⟩ := Option.ne_none_iff_exists'.1 hl
  rw [List.flatMap_append, window_append] at hw
  obtain ⟨m1, hw1, hw2⟩ := Option.bind_eq_some_iff.1 hw
  rw [List.flatMap_cons, List.flatMap_nil, List.append_nil] at hw2
  have hm1 : m1 ≤ 65536 := window_le _ (Nat.zero_le _) hw1
  have e : log recs ++ t ++ log (q :: more) = (recs.map request).flatten ++ (t ++ (request q ++ log more)) := by simp [log]
  have hlen : 4 ≤ (request q).length := request_length q
  have hrl := records_length recs
  have hk : (log recs ++ t ++ log (q :: more)).length + 1 = ((log recs ++ t ++ log (q :: more)).length - 1 - recs.length + 2) + recs.length := by
    rw [e, List.length_append, List.length_append, List.length_append]
    omega
  have := records_tail (cap := readerSize) (by decide) (t ++ (request q ++ log more)) recs (m := 0) (m' := m1)
    (k := (log recs ++ t ++ log (q :: more)).length - 1 - recs.length + 2) (by decide) hrs hw1
  unfold parse
  rw [hk]
  have e0 : (⟨[], log recs ++ t ++ log (q :: more)⟩ : Rd) = at_ ((recs.map request).flatten ++ (t ++ (request q ++ log more))) 0 := by rw [e]; simp [at_]
  rw [e0, this]
  rcases hc with hc | rfl
  · rw [records_joined (cap := readerSize) (k := (log recs ++ t ++ log (q :: more)).length - 1 - recs.length + 1) (by decide) hm1 he hc ht]; rfl
  · rw [records_swallowed (cap := readerSize) (k := (log recs ++ t ++ log (q :: more)).length - 1 - recs.length) (by decide) hm1 (h r (by simp)).2 (h r (by simp)).1 he hw2]; rfl

end Metis.Aof

namespace Metis
open Spec

/-! ### The process -/

theorem record_bytes {e : Env} {name b : Bytes} {args : List Bytes} (h : Aof.record e name args = some b) : ∃ rs, b = log rs := by
  have hx : ∀ {args b}, Aof.catExpire e args = some b → ∃ r, b = request r := by
    intro args b h
    simp only [Aof.catExpire, Option.bind_eq_bind, Option.bind_eq_some_iff] at h
    obtain ⟨a, _, n, _, h⟩ := h
    cases h
    exact ⟨_, Aof.cat_spec _⟩
  unfold Aof.record at h
  split at h
  · obtain ⟨r, rfl⟩ := hx h
    exact ⟨[r], by simp [log]⟩
  · split at h
    · simp only [Option.bind_eq_bind, Option.bind_eq_some_iff] at h
      obtain ⟨k, _, v, _, n, _, x, h1, h⟩ := h
      cases h
      obtain ⟨r, rfl⟩ := hx h1
      exact ⟨[[b!"set", k, v], r], by simp [log, Aof.cat_spec]⟩
    · cases h
      exact ⟨[args], by simp [log, Aof.cat_spec]⟩

/-- A sequence of records. -/
def IsLog (b : Bytes) : Prop := ∃ rs, b = log rs

theorem IsLog.nil : IsLog [] := ⟨[], rfl⟩
theorem IsLog.app {a b : Bytes} : IsLog a → IsLog b → IsLog (a ++ b)
  | ⟨x, hx⟩, ⟨y, hy⟩ => ⟨x ++ y, by rw [hx, hy, log_append]⟩

theorem feed_bytes {e : Env} {name : Bytes} {i : Nat} {args : List Bytes} {srv srv' : Server} (h : Aof.feed e name i args srv = some srv') :
    ∃ x, IsLog x ∧ srv'.aofBuf = srv.aofBuf ++ x ∧ (srv'.aofRewriteBuf = srv.aofRewriteBuf ++ x ∨ srv'.aofRewriteBuf = srv.aofRewriteBuf) := by
  unfold Aof.feed at h
  simp only [Option.bind_eq_bind, Option.bind_eq_some_iff] at h
  obtain ⟨b, hb, h⟩ := h
  obtain ⟨rs, rfl⟩ := record_bytes hb
  cases h
  refine ⟨(if srv.aofSelect ≠ i then Aof.cat [b!"select", itoa i] else []) ++ log rs, ?_, rfl, ?_⟩
  · refine IsLog.app ?_ ⟨rs, rfl⟩
    split
    · exact ⟨[selectRec i], by simp [log, Aof.cat_spec, selectRec]⟩
    · exact IsLog.nil
  · dsimp only
    split
    · exact Or.inl rfl
    · exact Or.inr rfl

theorem proc_bytes {c : Cmd} {e : Env} {args : List Bytes} {srv srv' : Server} {s s' : Session} {r : List Bytes} (hp : Server.proc c e args srv s = some (srv', s', r)) :
    srv'.aofBuf = srv.aofBuf ∧ srv'.aofRewriteBuf = srv.aofRewriteBuf := by
  rcases proc_db_iff c with ⟨f, hf⟩ | hc | hc | hc
  · rw [proc_db hf] at hp
    unfold Server.onDb at hp
    simp only [Option.bind_eq_bind, Option.bind_eq_some_iff] at hp
    obtain ⟨db, _, o, _, hp⟩ := hp
    cases hp
    exact ⟨rfl, rfl⟩
  · rw [hc] at hp
    have := select_same (show Server.select e args srv s = some (srv', s', r) from hp)
    subst this
    exact ⟨rfl, rfl⟩
  · rw [hc] at hp
    have := auth_same (show Server.auth e args srv s = some (srv', s', r) from hp)
    subst this
    exact ⟨rfl, rfl⟩
  · rw [hc] at hp
    have hp : Server.bgRewriteAof e args srv s = some (srv', s', r) := hp
    unfold Server.bgRewriteAof at hp
    split at hp
    · cases hp; exact ⟨rfl, rfl⟩
    · next ht =>
      simp only [Option.bind_eq_bind, Option.bind_eq_some_iff] at hp
      obtain ⟨srv2, h2, hp⟩ := hp
      cases hp
      obtain ⟨_, _, k3, k4, _, _⟩ := startRewrite_logs h2 (by simpa using ht)
      exact ⟨k3, k4⟩

theorem processCommand_bytes {e : Env} {args : List Bytes} {srv srv' : Server} {s s' : Session} {r : List Bytes}
    (h : Server.processCommand e args srv s = some (srv', s', r)) :
    ∃ x, IsLog x ∧ srv'.aofBuf = srv.aofBuf ++ x ∧ (srv'.aofRewriteBuf = srv.aofRewriteBuf ++ x ∨ srv'.aofRewriteBuf = srv.aofRewriteBuf) := by
  have none_ : ∀ {srv' : Server}, srv'.aofBuf = srv.aofBuf → srv'.aofRewriteBuf = srv.aofRewriteBuf →
      ∃ x, IsLog x ∧ srv'.aofBuf = srv.aofBuf ++ x ∧ (srv'.aofRewriteBuf = srv.aofRewriteBuf ++ x ∨ srv'.aofRewriteBuf = srv.aofRewriteBuf) :=
    fun h1 h2 => ⟨[], IsLog.nil, by rw [h1, List.append_nil], Or.inr h2⟩
  unfold Server.processCommand at h
  simp only [Option.bind_eq_bind, Option.bind_eq_some_iff] at h
  obtain ⟨a0, _, h⟩ := h
  cases hl : lookupCommand (e.lower a0) with
  | none => rw [hl] at h; cases h; exact none_ rfl rfl
  | some cmd =>
    rw [hl] at h
    simp only at h
    split at h
    · cases h; exact none_ rfl rfl
    · split at h
      · cases h; exact none_ rfl rfl
      · unfold Server.call at h
        simp only [Option.bind_eq_bind, Option.bind_eq_some_iff] at h
        obtain ⟨⟨srv1, s1, r1⟩, hp, h⟩ := h
        have hb := proc_bytes hp
        split at h
        · simp only [Option.bind_eq_some_iff] at h
          obtain ⟨srv2, h2, h⟩ := h
          cases h
          have := feed_bytes h2
          rw [hb.1, hb.2] at this
          exact this
        · cases h; exact none_ hb.1 hb.2

namespace Node

/-- All that is or will be written consists of records. -/
structure Tidy (n : Node) : Prop where
  aof  : n.sys.srv.aofEnable = true
  buf  : IsLog n.sys.srv.aofBuf
  rbuf : IsLog n.sys.srv.aofRewriteBuf
  jobs : ∀ j ∈ n.jobs, IsLog j.tmp
  done : ∀ d ∈ n.done, IsLog d

theorem Tidy.launch {e : Env} {n n' : Node} (h : Tidy n) (hl : launch e n = some n') : Tidy n' ∧ n'.file = n.file ∧ n'.done = n.done := by
  rcases launch_spec hl with ⟨_, rfl⟩ | ⟨cs, ch, _, _, rfl⟩
  · exact ⟨h, rfl, rfl⟩
  · refine ⟨⟨h.aof, h.buf, h.rbuf, fun j hj => ?_, h.done⟩, rfl, rfl⟩
    rcases List.mem_append.1 hj with hj | hj
    · exact h.jobs j hj
    · rw [List.mem_singleton.1 hj]; exact IsLog.nil

theorem followed {e : Env} {a b : List Db} {js : List Job} (h : ∀ j ∈ js, IsLog j.tmp) : ∀ j ∈ followAll e a b js, IsLog j.tmp := by
  intro j hj
  obtain ⟨j', hj', rfl⟩ := List.mem_map.1 hj
  exact h j' hj'

/-- A new process. -/
theorem restart_tidy {n n' : Node} {es : Nat → Env} (h : restart es n = some n') (ha : n.sys.srv.aofEnable = true) : Tidy n' ∧ n'.file = n.file := by
  obtain ⟨srv, f, h1, _, h2, _⟩ := restart_spec h
  have h4 := Tidy.launch (n := start n.conf n.file srv) ⟨h1.trans ha, by show IsLog srv.aofBuf; rw [f.buf]; exact IsLog.nil,
    by show IsLog srv.aofRewriteBuf; rw [f.rbuf]; exact IsLog.nil, fun j hj => (by cases hj), fun d hd => (by cases hd)⟩ h2
  exact ⟨h4.1, h4.2.1⟩

/-- The server's timer. -/
theorem cron_tidy {n n' : Node} {e : Env} {t : Int} (h : step n (.cron e t) = some n') (k : Tidy n) :
    Tidy n' ∧ (n.done = [] → n'.file = n.file) ∧ (n.done ≠ [] → IsLog n'.file) := by
  simp only [step] at h
  split at h
  · obtain ⟨n2, h2, rfl⟩ := Option.map_eq_some_iff.1 h
    obtain ⟨dbs, n3, _, h3, h4⟩ := cron_spec h2
    have h5 : Tidy n3 ∧ n3.file = n.file ∧ n3.done = n.done := by
      split at h3
      · next hc =>
        obtain ⟨srv, h6, h7⟩ := h3
        obtain ⟨_, _, l3, l4, l5, _⟩ := startRewrite_logs h6 hc.1
        have key := fun t => Tidy.launch t h7
        exact key ⟨l5.trans k.aof, by show IsLog srv.aofBuf; rw [l3]; exact k.buf, by show IsLog srv.aofRewriteBuf; rw [l4]; exact k.rbuf, followed k.jobs, k.done⟩
      · subst h3; exact ⟨⟨k.aof, k.buf, k.rbuf, followed k.jobs, k.done⟩, rfl, rfl⟩
    obtain ⟨k3, h6, h7⟩ := h5
    rcases h4 with ⟨h8, rfl⟩ | ⟨tmp, rest, h8, rfl⟩
    · exact ⟨⟨k3.aof, k3.buf, k3.rbuf, k3.jobs, k3.done⟩, fun _ => h6, fun hne => absurd (h7.symm.trans h8) hne⟩
    · obtain ⟨f1, _, _, f2, _, _, f3, f4, _⟩ := finish_same t tmp { n3 with done := rest }
      have hdn : ∀ d ∈ n3.done, IsLog d := k3.done
      rw [h8] at hdn
      refine ⟨⟨?_, ?_, ?_, ?_, ?_⟩, fun hne => ?_, fun _ => ?_⟩
      · show (finish t tmp { n3 with done := rest }).sys.srv.aofEnable = true
        rw [f1]; exact k3.aof
      · show IsLog (finish t tmp { n3 with done := rest }).sys.srv.aofBuf
        rw [f1]; exact k3.buf
      · show IsLog (finish t tmp { n3 with done := rest }).sys.srv.aofRewriteBuf
        rw [f1]; exact IsLog.nil
      · show ∀ j ∈ (finish t tmp { n3 with done := rest }).jobs, _
        rw [f3]; exact k3.jobs
      · show ∀ j ∈ (finish t tmp { n3 with done := rest }).done, _
        rw [f4]; exact fun d hd => hdn d (List.mem_cons_of_mem _ hd)
      · rw [h7, hne] at h8; cases h8
      · show IsLog (finish t tmp { n3 with done := rest }).file
        rw [f2]; exact (hdn tmp (by simp)).app k3.rbuf
  · cases h

theorem step_tidy {n n' : Node} {ev : Ev} (h : step n ev = some n') (hc : ∀ m es, ev ≠ .crashInDone m es) (k : Tidy n) :
    Tidy n' ∧ ((∃ x, IsLog x ∧ n'.file = n.file ++ x) ∨ (n.done ≠ [] ∧ IsLog n'.file)) := by
  have same : ∀ {n' : Node}, n'.file = n.file → (∃ x, IsLog x ∧ n'.file = n.file ++ x) ∨ (n.done ≠ [] ∧ IsLog n'.file) :=
    fun h => Or.inl ⟨[], IsLog.nil, by rw [h, List.append_nil]⟩
  by_cases hq : ev.quiet = true
  · obtain ⟨sess, net, phase, rfl⟩ := quiet_spec h hq
    exact ⟨⟨k.aof, k.buf, k.rbuf, k.jobs, k.done⟩, same rfl⟩
  · cases ev with
    | sleep t =>
      simp only [step] at h
      split at h
      · cases h
        obtain ⟨_, _, f1, _, f2, f3, _, f4, _⟩ := flush_same t n
        refine ⟨⟨?_, ?_, ?_, ?_, ?_⟩, Or.inl ⟨_, k.buf, f1⟩⟩
        · show (flush t n).sys.srv.aofEnable = true
          rw [f4]; exact k.aof
        · show IsLog (flush t n).sys.srv.aofBuf
          rw [f4]; exact IsLog.nil
        · show IsLog (flush t n).sys.srv.aofRewriteBuf
          rw [f4]; exact k.rbuf
        · show ∀ j ∈ (flush t n).jobs, _
          rw [f2]; exact k.jobs
        · show ∀ j ∈ (flush t n).done, _
          rw [f3]; exact k.done
      · cases h
    | cron e t =>
      obtain ⟨k1, k2, k3⟩ := cron_tidy h k
      refine ⟨k1, ?_⟩
      by_cases hd : n.done = []
      · exact same (k2 hd)
      · exact Or.inr ⟨hd, k3 hd⟩
    | request fd e args =>
      simp only [step] at h
      split at h
      · simp only [request, Option.bind_eq_bind, Option.bind_eq_some_iff] at h
        obtain ⟨⟨sys, r⟩, h1, net, h2, h3⟩ := h
        have h5 := (request_logs h1).2.1
        simp only [Sys.step, Option.bind_eq_bind, Option.bind_eq_some_iff] at h1
        obtain ⟨c, _, ⟨srv', c', r'⟩, h6, h7⟩ := h1
        cases h7
        obtain ⟨x, hx, h8, h9⟩ := processCommand_bytes h6
        have h4 := Tidy.launch (n := { n with sys := _, net := net, jobs := _ }) ⟨h5.trans k.aof, by show IsLog srv'.aofBuf; rw [h8]; exact k.buf.app hx,
          by
            show IsLog srv'.aofRewriteBuf
            rcases h9 with h9 | h9 <;> rw [h9]
            · exact k.rbuf.app hx
            · exact k.rbuf, followed k.jobs, k.done⟩ h3
        exact ⟨h4.1, same h4.2.1⟩
      · cases h
    | work i e p =>
      obtain ⟨j, hj, h1⟩ := work_spec (show work i e p n = some n' from h)
      have hjm : IsLog j.tmp := k.jobs j (List.mem_of_getElem? hj)
      have cats : ∀ recs : List (List Bytes), IsLog (recs.map Aof.cat).flatten := fun recs => ⟨recs, by simp only [log]; congr 2; funext x; exact Aof.cat_spec x⟩
      rcases h1 with ⟨_, _, recs, _, _, rfl⟩ | ⟨_, _, _, rfl⟩ | ⟨_, _, _, _, _, _, rfl⟩
      · refine ⟨⟨k.aof, k.buf, k.rbuf, fun x hx => ?_, k.done⟩, same rfl⟩
        rcases List.mem_or_eq_of_mem_set hx with hx | rfl
        · exact k.jobs x hx
        · exact hjm.app (cats recs)
      · refine ⟨⟨k.aof, k.buf, k.rbuf, fun x hx => k.jobs x (List.mem_of_mem_eraseIdx hx), fun d hd => ?_⟩, same rfl⟩
        rw [List.mem_singleton.1 hd]; exact hjm
      · refine ⟨⟨k.aof, k.buf, k.rbuf, fun x hx => ?_, k.done⟩, same rfl⟩
        rcases List.mem_or_eq_of_mem_set hx with hx | rfl
        · exact k.jobs x hx
        · exact hjm
    | restart es =>
      have h4 := restart_tidy (show restart es n = some n' from h) k.aof
      exact ⟨h4.1, same h4.2⟩
    | crashInDone m es => exact absurd rfl (hc m es)
    | _ => exact absurd rfl hq

theorem run_keeps_tidy : ∀ (evs : List Ev) {n n' : Node}, run n evs = some n' → (∀ m es, .crashInDone m es ∉ evs) → Tidy n → Tidy n'
  | [], _, _, h, _, k => by cases h; exact k
  | ev :: evs, n, n', h, hc, k => by
    simp only [run, Option.bind_eq_bind, Option.bind_eq_some_iff] at h
    obtain ⟨n1, h1, h2⟩ := h
    exact run_keeps_tidy evs h2 (fun m es hm => hc m es (by simp [hm])) (step_tidy h1 (fun m es he => hc m es (by rw [he]; simp)) k).1

/-- The file is `F` and records behind it until a rewrite replaces it; then it consists of records. -/
theorem run_tidy {F : Bytes} : ∀ (evs : List Ev) {n n' : Node}, run n evs = some n' → (∀ m es, .crashInDone m es ∉ evs) → Tidy n →
    ((∃ x, IsLog x ∧ n.file = F ++ x) ∨ IsLog n.file) →
    ((∃ x, IsLog x ∧ n'.file = F ++ x) ∨ IsLog n'.file) ∧ ((∃ x, IsLog x ∧ n.file = F ++ x) → (∀ k m, run n (evs.take k) = some m → m.done = []) → ∃ x, IsLog x ∧ n'.file = F ++ x)
  | [], _, _, h, _, _, hf => by cases h; exact ⟨hf, fun h _ => h⟩
  | ev :: evs, n, n', h, hc, k, hf => by
    simp only [run, Option.bind_eq_bind, Option.bind_eq_some_iff] at h
    obtain ⟨n1, h1, h2⟩ := h
    obtain ⟨k1, hs⟩ := step_tidy h1 (fun m es he => hc m es (by rw [he]; simp)) k
    have next : (∃ x, IsLog x ∧ n.file = F ++ x) → (∃ x, IsLog x ∧ n1.file = n.file ++ x) → ∃ x, IsLog x ∧ n1.file = F ++ x := by
      rintro ⟨x, hx, e⟩ ⟨y, hy, e'⟩
      exact ⟨x ++ y, hx.app hy, by rw [e', e, List.append_assoc]⟩
    have hf1 : (∃ x, IsLog x ∧ n1.file = F ++ x) ∨ IsLog n1.file := by
      rcases hs with hs | hs
      · rcases hf with hf | hf
        · exact Or.inl (next hf hs)
        · obtain ⟨y, hy, e'⟩ := hs
          exact Or.inr (by rw [e']; exact hf.app hy)
      · exact Or.inr hs.2
    obtain ⟨r1, r2⟩ := run_tidy evs h2 (fun m es hm => hc m es (by simp [hm])) k1 hf1
    refine ⟨r1, fun hF hd => r2 ?_ fun j m hm => hd (j + 1) m ?_⟩
    · rcases hs with hs | hs
      · exact next hF hs
      · exact absurd (hd 0 n rfl) hs.1
    · simp only [List.take_succ_cons, run, h1, Option.bind_eq_bind, Option.bind_some, hm]

end Node
end Metis
