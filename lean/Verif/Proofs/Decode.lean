import Verif.Proofs.Reply
import Verif.Proofs.Sys
import Verif.Spec.ReplyDecode
/-! The decoder inverts the encoder; every command gives exactly one reply. -/
set_option linter.unusedSectionVars false
set_option linter.unusedSimpArgs false
set_option linter.unusedVariables false
namespace Metis
open Spec
variable {hash : Bytes → Nat}

theorem line_of : ∀ (s r : Bytes), (13 : UInt8) ∉ s → line (s ++ CRLF ++ r) = some (s, r)
  | [], r, _ => by simp [line, CRLF]
  | b :: s, r, h => by
    have hb : b ≠ 13 := fun e => h (by simp [e])
    have hs := line_of s r (fun e => h (by simp [e]))
    simp only [List.cons_append, line]
    rw [if_neg (fun h => hb h.1), hs]; rfl

theorem digitsFrom_val : ∀ (s : Bytes) (acc : Nat), digitsFrom acc s = digitsVal s acc
  | [], _ => rfl
  | c :: cs, acc => by simp only [digitsFrom, digitsVal]; split
                       · exact digitsFrom_val cs _
                       · rfl

theorem intOf_dec (n : Nat) : intOf (dec n) = some (n : Int) := by
  cases h : dec n with
  | nil => exact absurd h (dec_ne n)
  | cons c cs =>
    have hc : c ≠ 45 := by
      intro e
      have := dec_digit (n := n) (c := c) (by rw [h]; simp)
      rw [e] at this; exact absurd this.1 (by decide)
    simp only [intOf, if_neg hc]
    rw [digitsFrom_val, ← h, dec_val]; rfl

theorem intOf_decI (n : Int) : intOf (decI n) = some n := by
  unfold decI
  split
  · next hn =>
    simp only [intOf, if_true]
    rw [if_neg (dec_ne _), digitsFrom_val, dec_val]
    simp only [Option.map_some]
    congr 1; omega
  · rw [intOf_dec]; congr 1; omega

theorem dec_no13 (n : Nat) : (13 : UInt8) ∉ dec n := fun h => absurd (dec_digit h).1 (by decide)
theorem decI_no13 (n : Int) : (13 : UInt8) ∉ decI n := by
  unfold decI
  split
  · intro h
    rcases List.mem_cons.1 h with h | h
    · cases h
    · exact dec_no13 _ h
  · exact dec_no13 _

theorem payload_of (a r : Bytes) : payload a.length (a ++ CRLF ++ r) = some (a, r) := by
  unfold payload
  have h1 : ¬ (a ++ CRLF ++ r).length < a.length + 2 := by simp [CRLF]
  rw [if_neg h1, List.append_assoc, List.drop_left, List.take_left]
  have h2 : (CRLF ++ r).take 2 = CRLF := by simp [CRLF]
  rw [if_pos h2, ← List.drop_drop, List.drop_left]
  simp [CRLF]

theorem bulkAt_of (a r : Bytes) : bulkAt (Spec.bulk a ++ r) = some (a, r) := by
  simp only [Spec.bulk, List.cons_append, bulkAt, if_true]
  have : dec a.length ++ CRLF ++ a ++ CRLF ++ r = dec a.length ++ CRLF ++ (a ++ CRLF ++ r) := by simp [List.append_assoc]
  rw [this, line_of _ _ (dec_no13 _)]
  simp only [Option.bind_eq_bind, Option.bind_some, intOf_dec]
  rw [if_neg (by omega)]
  exact payload_of a r

theorem bulksAt_of : ∀ (l : List Bytes) (r : Bytes), bulksAt l.length ((l.map Spec.bulk).flatten ++ r) = some (l, r)
  | [], r => rfl
  | a :: l, r => by
    simp only [List.length_cons, bulksAt, List.map_cons, List.flatten_cons, List.append_assoc, bulkAt_of, Option.bind_eq_bind, Option.bind_some,
      bulksAt_of l r]

theorem decode_encode {v : Value} (h : v.Plain) (r : Bytes) : decode (v.encode ++ r) = some (v, r) := by
  cases v with
  | status s =>
    simp only [Value.encode, List.cons_append, decode, if_true]
    rw [line_of _ _ h.1]; rfl
  | err s =>
    simp only [Value.encode, List.cons_append, decode, if_true]
    rw [line_of _ _ h.1]; rfl
  | int n =>
    simp only [Value.encode, List.cons_append, decode, if_true]
    rw [line_of _ _ (decI_no13 n)]
    simp [intOf_decI]
  | bulk b =>
    have : dec b.length ++ CRLF ++ b ++ CRLF ++ r = dec b.length ++ CRLF ++ (b ++ CRLF ++ r) := by simp [List.append_assoc]
    simp only [Value.encode, Spec.bulk, List.cons_append, decode, if_true]
    rw [this, line_of _ _ (dec_no13 _)]
    simp only [Option.bind_eq_bind, Option.bind_some, intOf_dec]
    have : payload ((b.length : Int)).toNat (b ++ CRLF ++ r) = some (b, r) := payload_of b r
    simp only [this, Option.bind_some]
    rw [if_neg (by decide), if_neg (by decide)]
    rw [if_neg (by decide), if_neg (by omega), if_neg (by omega)]
  | null =>
    rfl
  | arr l =>
    have : dec l.length ++ CRLF ++ (l.map Spec.bulk).flatten ++ r = dec l.length ++ CRLF ++ ((l.map Spec.bulk).flatten ++ r) := by
      simp [List.append_assoc]
    simp only [Value.encode, List.cons_append, decode, if_true]
    rw [this, line_of _ _ (dec_no13 _)]
    simp only [Option.bind_eq_bind, Option.bind_some, intOf_dec]
    have : bulksAt ((l.length : Int)).toNat ((l.map Spec.bulk).flatten ++ r) = some (l, r) := bulksAt_of l r
    simp only [this, Option.bind_some]
    rw [if_neg (by decide), if_neg (by decide), if_neg (by decide), if_neg (by decide), if_neg (by omega)]

/-! ### every command gives exactly one reply -/

/-- The texts of the standard library's errors about an argument that fits into a line fit into a line. -/
structure Texts (e : Env) : Prop where
  atoi : ∀ a, Clean a → Clean (e.atoiErr a)
  int : ∀ a, Clean a → Clean (e.intErr a)
  float : ∀ a, Clean a → Clean (e.floatErr a)
  regexp : ∀ a, Clean a → Clean (e.regexpErr a)

/-- Numbers are printed on one line. -/
def Floats (e : Env) : Prop := ∀ x, Clean (e.fmtFloat x)

/-- One reply: its pieces are not empty, and it is the encoding of one value; `q`: its text fits into a line. -/
def One (q : Prop) (r : List Bytes) : Prop := (∀ x ∈ r, x ≠ []) ∧ ∃ v : Value, Says r v ∧ (¬ v.isErr → v.Plain) ∧ (q → v.Plain)

theorem clean_append {a b : Bytes} (ha : Clean a) (hb : Clean b) : Clean (a ++ b) := by
  unfold Clean at *
  simp only [List.mem_append, not_or]
  exact ⟨⟨ha.1, hb.1⟩, ha.2, hb.2⟩

theorem one_simple {q : Prop} {s : Bytes} (h : Clean s) : One q (Reply.simple s) :=
  ⟨by simp [Reply.simple], .status s, says_simple s, fun _ => h, fun _ => h⟩
theorem one_ok {q : Prop} : One q Reply.ok := ⟨by simp [Reply.ok], .status b!"OK", says_ok, fun _ => by unfold Value.Plain Clean; decide, fun _ => by unfold Value.Plain Clean; decide⟩
theorem one_null {q : Prop} : One q Reply.null := ⟨by simp [Reply.null], .null, says_null, fun _ => trivial, fun _ => trivial⟩
theorem one_int {q : Prop} (n : Int) : One q (Reply.int n) := ⟨by simp [Reply.int], .int n, says_int n, fun _ => trivial, fun _ => trivial⟩
theorem one_bulk {q : Prop} (b : Bytes) : One q (Reply.bulk b) := ⟨by simp [Reply.bulk], .bulk b, says_bulk b, fun _ => trivial, fun _ => trivial⟩
theorem one_array {q : Prop} (l : List Bytes) : One q (Reply.array l) := by
  refine ⟨?_, .arr l, says_array l, fun _ => trivial, fun _ => trivial⟩
  intro x hx
  simp only [Reply.array, Reply.header, List.mem_append, List.mem_singleton, List.mem_flatten, List.mem_map] at hx
  rcases hx with rfl | ⟨_, ⟨a, _, rfl⟩, hx⟩
  · simp
  · simp only [Reply.bulk, List.mem_singleton] at hx; subst hx; simp
theorem one_error {q : Prop} {s : Bytes} (h : q → Clean s) : One q (Reply.error s) := by
  refine ⟨by simp [Reply.error], .err (b!"ERR " ++ s), says_error s, fun hn => absurd trivial hn, fun hq => ?_⟩
  exact clean_append (by unfold Clean; decide) (h hq)

theorem one_invalid {q : Prop} {w a t : Bytes} (hw : Clean w) (ha : q → Clean a) (ht : q → Clean t) : One q (Cmds.invalid w a t) := by
  unfold Cmds.invalid
  exact one_error (fun h => clean_append (clean_append (clean_append (clean_append (by unfold Clean; decide) hw) (by unfold Clean; decide) |> fun x => clean_append x (ha h)) (by unfold Clean; decide)) (ht h))

theorem zElems_bulks {e : Env} {ws : Bool} : ∀ {els : List (Option Elem)} {r : List Bytes}, Reply.zElems e ws els = some r →
    ∃ l : List Bytes, r = (l.map Reply.bulk).flatten ∧ l.length = if ws then els.length * 2 else els.length
  | [], r, h => by cases h; exact ⟨[], rfl, by cases ws <;> rfl⟩
  | none :: _, r, h => by cases h
  | some el :: rest, r, h => by
    simp only [Reply.zElems, Option.bind_eq_bind, Option.bind_eq_some_iff] at h
    obtain ⟨r1, h1, h2⟩ := h
    cases h2
    obtain ⟨l, e1, e2⟩ := zElems_bulks h1
    cases ws with
    | false => exact ⟨el.member :: l, by simp [e1], by simpa using e2⟩
    | true => exact ⟨el.member :: e.fmtFloat el.score :: l, by simp [e1], by simp at e2 ⊢; omega⟩

theorem one_zset {q : Prop} {e : Env} {args : List Bytes} {els : List (Option Elem)} {r : List Bytes} (hq : q → ∀ a ∈ args, Clean a)
    (h : Reply.zset e args els = some r) : One q r := by
  unfold Reply.zset at h
  split at h
  · simp only [Option.bind_eq_bind, Option.bind_eq_some_iff] at h
    obtain ⟨r1, h1, h2⟩ := h
    cases h2
    obtain ⟨l, e1, e2⟩ := zElems_bulks h1
    have : Reply.header (els.length : Int) ++ r1 = Reply.array l := by
      simp only [Bool.false_eq_true, if_false] at e2
      rw [Reply.array, e1, e2]
    rw [this]; exact one_array l
  · next opt ho =>
    split at h
    · simp only [Option.bind_eq_bind, Option.bind_eq_some_iff] at h
      obtain ⟨r1, h1, h2⟩ := h
      cases h2
      obtain ⟨l, e1, e2⟩ := zElems_bulks h1
      have : Reply.header ((els.length * 2 : Nat) : Int) ++ r1 = Reply.array l := by
        simp only [if_true] at e2
        rw [Reply.array, e1, e2]
      rw [this]; exact one_array l
    · cases h
      exact one_error (fun hh => clean_append (by unfold Clean; decide) (hq hh opt (List.mem_of_getElem? ho)))

/-- all replies are one value -/
def Ones (q : Prop) (a : AOut) : Prop := ∀ r, a.reply r → One q r

theorem ones_ex {q : Prop} {s : AS} {n : Nat} {r : List Bytes} (h : One q r) : Ones q ⟨s, n, A.ex r⟩ := fun r' h' => by
  have h' : r' = r := h'
  exact h' ▸ h
theorem ones_dom {q : Prop} {V : Type} {s : AS} {n : Nat} {f : Fn V} : Ones q ⟨s, n, A.dom f⟩ := fun r' ⟨l, _, h⟩ => h ▸ one_array l
theorem ones_card {q : Prop} {V : Type} {s : AS} {n : Nat} {f : Fn V} : Ones q ⟨s, n, A.card f⟩ := fun r' ⟨l, _, h⟩ => h ▸ one_int _

/-- closes the goals about the replies of a command -/
macro "one_reply" : tactic =>
  `(tactic| first
      | exact ones_dom
      | exact ones_card
      | exact ones_ex one_null
      | exact ones_ex one_ok
      | exact ones_ex (one_int _)
      | exact ones_ex (one_bulk _)
      | exact ones_ex (one_array _)
      | exact ones_ex (one_error (fun _ => by unfold Clean; decide))
      | exact ones_ex (one_simple (by unfold Clean; decide)))

theorem ones_opLoop {q : Prop} {f stop} {e : Env} : ∀ (rest : List Bytes) (h : Fn Unit) (s : AS) {r s'}, A.opLoop f stop e rest h s = (.inr r, s') → One q r
  | [], h, s, r, s', hh => by cases hh
  | key :: rest, h, s, r, s', hh => by
    unfold A.opLoop at hh
    simp only at hh
    split at hh
    · split at hh
      · cases hh; exact one_array []
      · exact ones_opLoop rest _ _ hh
    · cases hh; exact one_error (fun _ => by unfold Clean; decide)
    · exact ones_opLoop rest _ _ hh

theorem ones_setOp {q : Prop} {f stop e args s} : All (Ones q) (A.setOp f stop e args s) := by
  unfold A.setOp
  refine all_bind fun key hk => ?_
  dsimp only
  split
  · exact all_some (ones_ex (one_array []))
  · exact all_some (ones_ex (one_error (fun _ => by unfold Clean; decide)))
  · split
    · next heq => exact all_some (ones_ex (ones_opLoop _ _ _ heq))
    · exact all_some ones_dom

section
variable {e : Env} {args : List Bytes}

theorem arg_clean {i : Nat} {a : Bytes} (h : args[i]? = some a) (hq : ∀ a ∈ args, Clean a) : Clean a := hq a (List.mem_of_getElem? h)

theorem zadd_bad : ∀ (l : List Bytes) (i : Nat) (z : AZ) (n : Nat) {z' i' n' sc}, A.zaddLoop e l i z n = some (z', i', n', some sc) → sc ∈ l
  | [], i, z, n, _, _, _, _, h => by cases h
  | [_], i, z, n, _, _, _, _, h => by cases h
  | sc :: m :: rest, i, z, n, z', i', n', sc', h => by
    unfold A.zaddLoop at h
    split at h
    · cases h; simp
    · simp only [Option.bind_eq_bind, Option.bind_eq_some_iff] at h
      obtain ⟨p, _, h2⟩ := h
      have := zadd_bad rest _ _ _ h2
      simp [this]

/-- closes the goals about the error replies that repeat an argument -/
macro "one_inv" : tactic =>
  `(tactic| first
      | one_reply
      | exact ones_ex (one_invalid (by unfold Clean; decide) (fun hq => arg_clean (by assumption) hq.2) (fun hq => hq.1.int _ (arg_clean (by assumption) hq.2)))
      | exact ones_ex (one_invalid (by unfold Clean; decide) (fun hq => arg_clean (by assumption) hq.2) (fun hq => hq.1.atoi _ (arg_clean (by assumption) hq.2)))
      | exact ones_ex (one_invalid (by unfold Clean; decide) (fun hq => arg_clean (by assumption) hq.2) (fun hq => hq.1.float _ (arg_clean (by assumption) hq.2))))

theorem ones_det (hf : Floats e) {s : AS} {c : Cmd} {f} (hc : aFn c = some f) :
    All (Ones (Texts e ∧ ∀ a ∈ args, Clean a)) (f e args s) := by
  cases c <;> cases hc
  case sdiff => exact ones_setOp
  case sinter => exact ones_setOp
  case sunion => exact ones_setOp
  case ping => unfold A.ping; cmd_all; all_goals one_inv
  case expire => unfold A.expire; cmd_all; all_goals one_inv
  case expireat => unfold A.expireAt; cmd_all; all_goals one_inv
  case ttl => unfold A.ttl; cmd_all; all_goals one_inv
  case keys =>
    unfold A.keys
    refine all_bind fun p hp => ?_
    split
    · refine all_some (fun r hr => ?_)
      rcases hr with ⟨_, rfl⟩ | ⟨_, rfl⟩
      · exact one_array []
      · exact one_invalid (by unfold Clean; decide) (fun hq => arg_clean hp hq.2) (fun hq => hq.1.regexp _ (arg_clean hp hq.2))
    · exact all_some ones_dom
  case set => unfold A.set; cmd_all; all_goals one_inv
  case setex => unfold A.setEx; cmd_all; all_goals one_inv
  case get => unfold A.get; cmd_all; all_goals one_inv
  case hset => unfold A.hset; cmd_all; all_goals one_inv
  case hget => unfold A.hget; cmd_all; all_goals one_inv
  case hdel => unfold A.hdel; cmd_all; all_goals one_inv
  case hexists => unfold A.hexists; cmd_all; all_goals one_inv
  case hkeys => unfold A.hkeys; cmd_all; all_goals one_inv
  case hlen => unfold A.hlen; cmd_all; all_goals one_inv
  case lpush => unfold A.lpush; cmd_all; all_goals one_inv
  case rpush => unfold A.rpush; cmd_all; all_goals one_inv
  case lpop => unfold A.lpop A.popCmd; cmd_all; all_goals one_inv
  case rpop => unfold A.rpop A.popCmd; cmd_all; all_goals one_inv
  case llen => unfold A.llen; cmd_all; all_goals one_inv
  case lindex => unfold A.lindex; cmd_all; all_goals one_inv
  case lrange => unfold A.lrange; cmd_all; all_goals one_inv
  case sadd => unfold A.sadd; cmd_all; all_goals one_inv
  case srem => unfold A.srem; cmd_all; all_goals one_inv
  case scard => unfold A.scard; cmd_all; all_goals one_inv
  case sismember => unfold A.sismember; cmd_all; all_goals one_inv
  case smembers => unfold A.smembers; cmd_all; all_goals one_inv
  case zadd =>
    unfold A.zadd; cmd_all
    all_goals first
      | one_inv
      | (rename_i x hx _ sc hb
         have hm : sc ∈ args := by
           obtain ⟨z', n', k', b'⟩ := x
           have hb : b' = some sc := hb
           subst hb
           exact List.mem_of_mem_drop (zadd_bad _ _ _ _ hx)
         exact ones_ex (one_invalid (by unfold Clean; decide) (fun hq => hq.2 _ hm) (fun hq => hq.1.float _ (hq.2 _ hm))))
  case zrange => unfold A.zrange; cmd_all; all_goals first | one_inv | exact ones_ex (one_zset (fun hq => hq.2) (by assumption))
  case zrangebyscore => unfold A.zrangeByScore; cmd_all; all_goals first | one_inv | exact ones_ex (one_zset (fun hq => hq.2) (by assumption))
  case zrem => unfold A.zrem; cmd_all; all_goals one_inv
  case zremrangebyrank => unfold A.zremRangeByRank; cmd_all; all_goals one_inv
  case zremrangebyscore => unfold A.zremRangeByScore; cmd_all; all_goals one_inv
  case zcard => unfold A.zcard; cmd_all; all_goals one_inv
  case zcount => unfold A.zcount; cmd_all; all_goals one_inv
  case zscore => unfold A.zscore; cmd_all; all_goals first | one_inv | exact ones_ex (one_simple (hf _))

theorem ones_random {q : Prop} : ∀ (ks : List Bytes) (s : AS), All (Ones q) (A.randomGet e ks s)
  | [], s => all_some (fun r ⟨_, h⟩ => h ▸ one_null)
  | k :: ks, s => by
    unfold A.randomGet
    split
    · exact all_none
    · split
      · exact ones_random ks _
      · exact all_some (ones_ex (one_bulk _))

theorem ones_step (hf : Floats e) {s : AS} {c : Cmd} {a : AOut} (h : AStep e args s c a) : Ones (Texts e ∧ ∀ a ∈ args, Clean a) a := by
  cases h with
  | det hc h => exact ones_det hf hc a h
  | @spop m a h =>
    have : All (Ones (Texts e ∧ ∀ a ∈ args, Clean a)) (A.spop m e args s) := by unfold A.spop; cmd_all; all_goals one_inv
    exact this a h
  | spopEmpty h =>
    have : All (Ones (Texts e ∧ ∀ a ∈ args, Clean a)) (A.spopEmpty e args s) := by
      unfold A.spopEmpty; cmd_all
      exact fun r ⟨_, h⟩ => h ▸ one_null
    exact this a h
  | randomget h => exact ones_random _ _ a h

theorem one_process (he : e.hash = hash) (hf : Floats e) {srv : Server} {s : Session} (g : SrvGood hash srv) {srv' s' r}
    (h : Server.processCommand e args srv s = some (srv', s', r)) : One (Texts e ∧ ∀ a ∈ args, Clean a) r := by
  cases served he g h with
  | db a0 ha cmd hl hok hauth f hff d hd o ho a hs hrel srv' hfeed => exact ones_step hf hs _ hrel.reply
  | select a0 ha cmd hl hc s' r h =>
    unfold Server.select at h
    cases ha : args[1]? with
    | none => rw [ha] at h; cases h
    | some a =>
      rw [ha] at h
      simp only [Option.bind_eq_bind, Option.bind_some] at h
      split at h
      · cases h; exact one_error (fun hq => hq.1.atoi _ (arg_clean ha hq.2))
      · split at h
        · cases h; exact one_error (fun _ => by unfold Clean; decide)
        · split at h
          · cases h
          · cases h; exact one_ok
  | auth a0 ha cmd hl hc s' r h =>
    unfold Server.auth at h
    split at h
    · cases h; exact one_ok
    · cases ha : args[1]? with
      | none => rw [ha] at h; cases h
      | some a =>
        rw [ha] at h
        simp only [Option.bind_eq_bind, Option.bind_some] at h
        split at h
        · cases h; exact one_ok
        · cases h; exact one_error (fun _ => by unfold Clean; decide)
  | rewrite a0 ha cmd hl hc srv' r h =>
    unfold Server.bgRewriteAof at h
    split at h
    · cases h; exact one_simple (by unfold Clean; decide)
    · simp only [Option.bind_eq_bind, Option.bind_eq_some_iff] at h
      obtain ⟨x, _, h2⟩ := h
      cases h2; exact one_simple (by unfold Clean; decide)
  | unknown r a0 ha hl hr =>
    unfold Server.processCommand at h
    simp only [ha, Option.bind_eq_bind, Option.bind_some, hl] at h
    cases h; exact one_error (fun _ => by unfold Clean; decide)
  | rejected r a0 ha cmd hl hh hr =>
    unfold Server.processCommand at h
    simp only [ha, Option.bind_eq_bind, Option.bind_some, hl] at h
    rcases hh with hh | ⟨h1, h2, h3⟩
    · rw [if_pos hh] at h
      cases h; exact one_error (fun _ => by unfold Clean; decide)
    · split at h
      · cases h; exact one_error (fun _ => by unfold Clean; decide)
      · obtain ⟨hm, hn⟩ := lookup_mem hl
        rw [if_pos ⟨h1, h2, fun hx => h3 ((table_auth cmd hm).1 (hn.trans hx))⟩] at h
        cases h; exact one_error (fun _ => by unfold Clean; decide)
end
end Metis
