import Verif.Proofs.Decode
import Verif.Spec.Demo
/-!
Property C30: the replies.
-/
set_option linter.unusedSectionVars false
set_option linter.unusedSimpArgs false
set_option linter.unusedVariables false
namespace Metis.Props.ReplyP
open Metis Metis.Spec
variable {hash : Bytes → Nat}

/-- **C30**: a decoder recovers what the reply functions are given, for all payloads, whatever follows. -/
theorem C30_encoders (rest : Bytes) :
    (∀ b, decode ((Reply.bulk b).flatten ++ rest) = some (.bulk b, rest)) ∧
    (∀ l, decode ((Reply.array l).flatten ++ rest) = some (.arr l, rest)) ∧
    (∀ n, decode ((Reply.int n).flatten ++ rest) = some (.int n, rest)) ∧
    decode (Reply.null.flatten ++ rest) = some (.null, rest) ∧
    decode (Reply.ok.flatten ++ rest) = some (.status b!"OK", rest) ∧
    (∀ s, Clean s → decode ((Reply.simple s).flatten ++ rest) = some (.status s, rest)) ∧
    (∀ s, Clean s → decode ((Reply.error s).flatten ++ rest) = some (.err (b!"ERR " ++ s), rest)) := by
  refine ⟨fun b => ?_, fun l => ?_, fun n => ?_, ?_, ?_, fun s h => ?_, fun s h => ?_⟩
  · rw [says_bulk b]; exact decode_encode (v := .bulk b) trivial rest
  · rw [says_array l]; exact decode_encode (v := .arr l) trivial rest
  · rw [says_int n]; exact decode_encode (v := .int n) trivial rest
  · rw [says_null]; exact decode_encode (v := .null) trivial rest
  · rw [says_ok]; exact decode_encode (by unfold Value.Plain Clean; decide) rest
  · rw [says_simple s]; exact decode_encode (v := .status s) h rest
  · rw [says_error s]; exact decode_encode (v := .err (b!"ERR " ++ s)) (clean_append (by unfold Clean; decide) h) rest

/-- The whole property: every request is answered with exactly one value. -/
def C30 : Prop := ∀ (hash : Bytes → Nat) (s s' : Sys) (fd : Nat) (e : Env) (args r : List Bytes),
  Reach hash s → e.hash = hash → Floats e → Texts e → Sys.step s (.request fd e args) = some (s', r) → ∃ v, decode r.flatten = some (v, [])

/-- **C30** (partial): exactly one value, and nothing else, is decoded from the reply to any request in any state that can be reached,
if no argument contains a line end, or if the reply is not an error. -/
theorem C30_partial {s s' : Sys} {fd : Nat} {e : Env} {args r : List Bytes} (hs : Reach hash s) (he : e.hash = hash) (hf : Floats e)
    (h : Sys.step s (.request fd e args) = some (s', r)) :
    ∃ v : Value, r.flatten = v.encode ∧ (Texts e → (∀ a ∈ args, Clean a) → decode r.flatten = some (v, [])) ∧
      (¬ v.isErr → decode r.flatten = some (v, [])) := by
  simp only [Sys.step, Option.bind_eq_bind, Option.bind_eq_some_iff] at h
  obtain ⟨c, _, ⟨srv', c', r'⟩, h1, h2⟩ := h
  cases h2
  obtain ⟨_, v, h3, h4, h5⟩ := one_process he hf hs.good.srv h1
  refine ⟨v, h3, fun ht ha => ?_, fun hn => ?_⟩
  · have := decode_encode (h5 ⟨ht, ha⟩) []
    rwa [List.append_nil, ← h3] at this
  · have := decode_encode (h4 hn) []
    rwa [List.append_nil, ← h3] at this

/-- Decoding a whole stream. -/
inductive Stream : Bytes → List Value → Prop
  | nil : Stream [] []
  | cons {b r : Bytes} {v : Value} {vs : List Value} (h : decode b = some (v, r)) (t : Stream r vs) : Stream b (v :: vs)

/-- A request whose arguments contain no line end, served with the standard library's error texts. -/
def CleanRequest (hash : Bytes → Nat) : Event → Prop
  | .request _ e args => e.hash = hash ∧ Floats e ∧ Texts e ∧ ∀ a ∈ args, Clean a
  | _ => False

/-- **C30** (partial): from the replies to any number of requests without line ends in their arguments, one after the other, as many values are
decoded as there were requests, and nothing else. -/
theorem C30_stream_partial : ∀ (evs : List Event) {s s' : Sys} {rs : List (List Bytes)}, Reach hash s → (∀ ev ∈ evs, CleanRequest hash ev) →
    Sys.run s evs = some (s', rs) → ∃ vs, vs.length = evs.length ∧ Stream rs.flatten.flatten vs
  | [], s, s', rs, hs, he, h => by
    cases h
    exact ⟨[], rfl, .nil⟩
  | ev :: evs, s, s', rs, hs, he, h => by
    simp only [Sys.run, Option.bind_eq_bind, Option.bind_eq_some_iff] at h
    obtain ⟨⟨s1, r⟩, h1, ⟨s2, rs'⟩, h2, h3⟩ := h
    cases h3
    have hev := he ev (by simp)
    cases ev with
    | request fd e args =>
      obtain ⟨e1, e2, e3, e4⟩ := hev
      obtain ⟨vs, l, st⟩ := C30_stream_partial evs (hs.step (ev := .request fd e args) e1 h1) (fun x hx => he x (by simp [hx])) h2
      simp only [Sys.step, Option.bind_eq_bind, Option.bind_eq_some_iff] at h1
      obtain ⟨c, _, ⟨srv', c', r'⟩, h1, h4⟩ := h1
      cases h4
      obtain ⟨_, v, k1, _, k2⟩ := one_process e1 e2 hs.good.srv h1
      refine ⟨v :: vs, by simp [l], ?_⟩
      simp only [List.flatten_cons, List.flatten_append]
      rw [k1]
      exact .cons (decode_encode (k2 ⟨e3, e4⟩) _) st
    | connect fd => exact hev.elim
    | close fd => exact hev.elim
    | cron e => exact hev.elim

/-- **C30**: no string given to `addReply` is empty (used by C31 and C32). -/
theorem C30_nonempty {s s' : Sys} {fd : Nat} {e : Env} {args r : List Bytes} (hs : Reach hash s) (he : e.hash = hash) (hf : Floats e)
    (h : Sys.step s (.request fd e args) = some (s', r)) : ∀ x ∈ r, x ≠ [] := by
  simp only [Sys.step, Option.bind_eq_bind, Option.bind_eq_some_iff] at h
  obtain ⟨c, _, ⟨srv', c', r'⟩, h1, h2⟩ := h
  cases h2
  exact (one_process he hf hs.good.srv h1).1

/-! ### refutation -/

/-- EXPIRE with a "number" that contains a line end and a complete reply. -/
def evil : List Bytes := [b!"expire", b!"k", b!"x\r\n+OK"]

theorem demo_texts (t : Int) : Texts (demo t) := by
  constructor <;> intro a _ <;> (unfold Clean; show (13 : UInt8) ∉ b!"bad" ∧ (10 : UInt8) ∉ b!"bad"; decide)

theorem demo_floats (t : Int) : Floats (demo t) := by
  intro x
  show Clean (if x.bits = one.bits then b!"1" else b!"2")
  split <;> (unfold Clean; decide)

/-- What a client makes of the reply to `evil`: an error, and a second value that nobody sent. -/
theorem evil_decodes : (Sys.run (Sys.init 1 [] false) [.connect 3, .request 3 (demo 0) evil]).map (fun p => decode p.2.flatten.flatten) =
    some (some (.err b!"ERR invalid expire: x", b!"+OK, error: bad\r\n")) := by decide

theorem C30_refuted : ¬ C30 := by
  intro h
  have key := evil_decodes
  simp only [Option.map_eq_some_iff] at key
  obtain ⟨⟨s2, rs⟩, hrun, hdec⟩ := key
  simp only [Sys.run, Option.bind_eq_bind, Option.bind_eq_some_iff] at hrun
  obtain ⟨⟨s1, r1⟩, h1, ⟨s2', rs1⟩, ⟨⟨s2'', r2⟩, h2, ⟨s3, rs2⟩, h3, h4⟩, h5⟩ := hrun
  cases h3; cases h4; cases h5
  have hr : Reach (demo 0).hash s1 := Reach.step (s := Sys.init 1 [] false) ⟨1, [], false, [], [], by simp, rfl⟩ (ev := .connect 3) trivial h1
  obtain ⟨v, hv⟩ := h (demo 0).hash s1 _ 3 (demo 0) evil r2 hr rfl (demo_floats 0) (demo_texts 0) h2
  have hr1 : r1 = [] := by
    simp only [Sys.step] at h1
    split at h1
    · cases h1
    · cases h1; rfl
  subst hr1
  simp only [List.flatten_cons, List.flatten_nil, List.append_nil, List.nil_append] at hdec
  rw [hv] at hdec
  cases hdec

/-! ### non-vacuity -/
example : (Sys.run (Sys.init 1 [] false) [.connect 3, .request 3 (demo 0) [b!"set", b!"k", b!"a\r\nb"], .request 3 (demo 0) [b!"get", b!"k"]]).map
    (fun p => p.2.map (fun r => decode r.flatten)) = some [none, some (.status b!"OK", []), some (.bulk b!"a\r\nb", [])] := by decide
example : ∀ a ∈ [b!"expire", b!"k", b!"x"], Clean a := by unfold Clean; decide

end Metis.Props.ReplyP
