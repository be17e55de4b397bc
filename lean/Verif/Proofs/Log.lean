import Verif.Proofs.Sys
import Verif.Proofs.AofLoad
import Verif.Spec.Log
/-!
What `feedAppendOnlyFile` appends to the log.
-/
set_option linter.unusedSectionVars false
set_option linter.unusedSimpArgs false
set_option linter.unusedVariables false
namespace Metis
open Spec
variable {hash : Bytes → Nat}

theorem log_append (a b : List (List Bytes)) : log (a ++ b) = log a ++ log b := by simp [log]
theorem log_one (r : List Bytes) : log [r] = request r := by simp [log]

theorem table_expire : ∀ c ∈ commandTable, (c.name = b!"expire" ↔ c.proc = .expire) ∧ (c.name = b!"setex" ↔ c.proc = .setex) := by decide

theorem arity_three {c : Cmd} {args : List Bytes} (ha : arity c = 3) (h : Server.badArity args.length (arity c) = false) :
    ∃ x y z, args = [x, y, z] := by
  have := (arity_ok h).1
  match args with
  | [x, y, z] => exact ⟨x, y, z, rfl⟩
  | [] | [_] | [_, _] | _ :: _ :: _ :: _ :: _ => simp [ha] at this <;> omega

theorem arity_four {c : Cmd} {args : List Bytes} (ha : arity c = 4) (h : Server.badArity args.length (arity c) = false) :
    ∃ x y z w, args = [x, y, z, w] := by
  have := (arity_ok h).1
  match args with
  | [x, y, z, w] => exact ⟨x, y, z, w, rfl⟩
  | [] | [_] | [_, _] | [_, _, _] | _ :: _ :: _ :: _ :: _ :: _ => simp [ha] at this <;> omega

/-- The bytes written for a command are its records. -/
theorem record_entries {e : Env} {n : Bytes} {cmd : CmdEntry} {args : List Bytes} (hl : lookupCommand n = some cmd)
    (hok : Server.badArity args.length (arity cmd.proc) = false) :
    Aof.record e cmd.name args = (entries e.now cmd.proc args).map log := by
  obtain ⟨h1, h2⟩ := table_expire cmd (lookup_mem hl).1
  unfold Aof.record
  by_cases he : cmd.proc = .expire
  · obtain ⟨x, k, a, rfl⟩ := arity_three (by rw [he]; rfl) hok
    rw [if_pos (h1.2 he), he]
    simp only [entries, Aof.catExpire, List.getElem?_cons_succ, List.getElem?_cons_zero, Option.bind_eq_bind, Option.bind_some]
    cases atoi a <;> simp [log_one, Aof.cat_spec, deadlineRec]
  · rw [if_neg (fun h => he (h1.1 h))]
    by_cases hs : cmd.proc = .setex
    · obtain ⟨x, k, a, v, rfl⟩ := arity_four (by rw [hs]; rfl) hok
      rw [if_pos (h2.2 hs), hs]
      simp only [entries, Aof.catExpire, List.getElem?_cons_succ, List.getElem?_cons_zero, Option.bind_eq_bind, Option.bind_some]
      cases atoi a <;> simp [log, Aof.cat_spec, deadlineRec]
    · rw [if_neg (fun h => hs (h2.1 h))]
      have : entries e.now cmd.proc args = some [args] := by
        unfold entries
        split
        · next h => exact absurd h he
        · next h => exact absurd h hs
        · rfl
      rw [this]; simp [log_one, Aof.cat_spec]

/-- `feedAppendOnlyFile` appends a SELECT if the log is in another database, and the command's records. -/
theorem feed_log {e : Env} {n : Bytes} {cmd : CmdEntry} {i : Nat} {args : List Bytes} {srv srv' : Server} (hl : lookupCommand n = some cmd)
    (hok : Server.badArity args.length (arity cmd.proc) = false) (h : Aof.feed e cmd.name i args srv = some srv') :
    ∃ rs, entries e.now cmd.proc args = some rs ∧
      srv'.aofBuf = srv.aofBuf ++ log ((if srv.aofSelect ≠ i then [selectRec i] else []) ++ rs) ∧
      srv'.aofRewriteBuf = (if srv.task = .aofRewrite then
        srv.aofRewriteBuf ++ log ((if srv.aofSelect ≠ i then [selectRec i] else []) ++ rs) else srv.aofRewriteBuf) ∧
      srv'.aofSelect = i ∧ srv'.dbs = srv.dbs := by
  unfold Aof.feed at h
  rw [record_entries hl hok] at h
  simp only [Option.bind_eq_bind, Option.bind_eq_some_iff, Option.map_eq_some_iff] at h
  obtain ⟨b, ⟨rs, h1, rfl⟩, h2⟩ := h
  cases h2
  have : (if srv.aofSelect ≠ i then Aof.cat [b!"select", itoa i] else []) ++ log rs =
      log ((if srv.aofSelect ≠ i then [selectRec i] else []) ++ rs) := by
    rw [log_append]
    split <;> simp [log_one, Aof.cat_spec, selectRec, log]
  refine ⟨rs, h1, ?_, ?_, rfl, rfl⟩
  · simp only [this]
  · simp only [this]

/-- The log can be written: `log.Fatal` is not reached after a successful command. -/
theorem feed_total {e : Env} {n : Bytes} {cmd : CmdEntry} {i : Nat} {args : List Bytes} {srv : Server} (hl : lookupCommand n = some cmd)
    (hok : Server.badArity args.length (arity cmd.proc) = false) (h : (entries e.now cmd.proc args).isSome = true) :
    ∃ srv', Aof.feed e cmd.name i args srv = some srv' := by
  obtain ⟨rs, h⟩ := Option.isSome_iff_exists.1 h
  unfold Aof.feed
  rw [record_entries hl hok, h]
  exact ⟨_, rfl⟩

/-! ### Logged commands that do change something -/

theorem pushBack_len {ps : Nat} {q : Quicklist Bytes} {v : Bytes} : (Quicklist.pushBack ps q v).length = q.length + 1 := by
  unfold Quicklist.pushBack
  split
  · rfl
  · split <;> rfl

theorem rpushLoop_len : ∀ (vs : List Bytes) (q : Quicklist Bytes), (Cmds.rpushLoop vs q).length = q.length + vs.length
  | [], q => rfl
  | v :: vs, q => by
    have := rpushLoop_len vs (Quicklist.pushBack pageSize q v)
    simp only [Cmds.rpushLoop, List.foldl_cons, List.length_cons] at this ⊢
    rw [this, pushBack_len]; omega

theorem pushFront_len {ps : Nat} {q q' : Quicklist Bytes} {v : Bytes} (h : Quicklist.pushFront ps q v = some q') : q'.length = q.length + 1 := by
  unfold Quicklist.pushFront Quicklist.insert at h
  rw [if_neg (by omega)] at h
  split at h
  · cases h; exact pushBack_len
  · simp only [Option.bind_eq_bind, Option.bind_eq_some_iff] at h
    obtain ⟨⟨b, q1⟩, ⟨it, _, n, _, page, _, h1⟩, h2⟩ := h
    cases h2
    split at h1
    · simp only [Option.bind_eq_some_iff] at h1
      obtain ⟨_, _, h1⟩ := h1; cases h1; rfl
    · split at h1
      · simp only [Option.bind_eq_some_iff] at h1
        obtain ⟨_, _, h1⟩ := h1; cases h1; rfl
      · simp only [Option.bind_eq_some_iff] at h1
        obtain ⟨_, _, h1⟩ := h1; cases h1; rfl

theorem lpushLoop_len : ∀ (vs : List Bytes) (q : Quicklist Bytes) {q'}, Cmds.lpushLoop vs q = some q' → q'.length = q.length + vs.length
  | [], q, q', h => by cases h; rfl
  | v :: vs, q, q', h => by
    simp only [Cmds.lpushLoop, Option.bind_eq_bind, Option.bind_eq_some_iff] at h
    obtain ⟨q1, h1, h2⟩ := h
    rw [lpushLoop_len vs q1 h2, pushFront_len h1, List.length_cons]; omega

theorem remove_len {q q' : Quicklist Bytes} {i : Int} {v : Bytes} (h : Quicklist.remove q i = some (some v, q')) : q'.length = q.length - 1 := by
  unfold Quicklist.remove at h
  split at h
  · cases h
  · simp only [Option.bind_eq_bind, Option.bind_eq_some_iff] at h
    obtain ⟨n, _, page, _, h⟩ := h
    split at h
    · cases h
    · simp only [Option.bind_eq_some_iff] at h
      obtain ⟨w, _, h⟩ := h
      split at h <;> cases h <;> rfl

theorem delLoop_ne {V : Type} : ∀ (l : List Bytes) (h : Fn V) (n : Nat), (A.delLoop l h n).2 ≠ n → ∃ f, (h f).isSome = true ∧ (A.delLoop l h n).1 f = none
  | [], h, n, hn => absurd rfl hn
  | f :: l, h, n, hn => by
    have gone : ∀ (l : List Bytes) (h : Fn V) (n : Nat) (f : Bytes), h f = none → (A.delLoop l h n).1 f = none := by
      intro l
      induction l with
      | nil => intro h n f hf; exact hf
      | cons x l ih => intro h n f hf; exact ih _ _ f (by simp only [upd]; split <;> simp_all)
    simp only [A.delLoop] at hn ⊢
    by_cases hf : (h f).isSome = true
    · exact ⟨f, hf, gone _ _ _ _ (by simp [upd])⟩
    · rw [if_neg hf] at hn ⊢
      obtain ⟨x, h1, h2⟩ := delLoop_ne l _ n hn
      refine ⟨x, ?_, h2⟩
      simp only [upd] at h1
      split at h1
      · cases h1
      · exact h1

/-- The commands that are logged only when they change something. -/
def strict : Cmd → Bool
  | .lpush | .rpush | .lpop | .rpop | .hdel | .srem | .spop => true
  | _ => false

/-- There is a key with a new value. -/
def Fresh (s : AS) (a : AOut) : Prop := a.dirty ≠ 0 → ∃ k o', a.s.v k = some o' ∧ s.v k ≠ some o'

theorem exp_some {e : Env} {s : AS} {k : Bytes} {o : AObj} (h : (A.exp e s k).v k = some o) : A.exp e s k = s := by
  unfold A.exp at h ⊢
  split
  · next hc => rw [if_pos hc] at h; simp [upd] at h
  · rfl

theorem fresh_pop {i : Quicklist Bytes → Int} {e : Env} {args : List Bytes} {s : AS} :
    All (Fresh s) (A.popCmd (fun q => Quicklist.remove q (i q)) e args s) := by
  intro a ha hd
  unfold A.popCmd at ha
  cases hk : args[1]? with
  | none => rw [hk] at ha; cases ha
  | some k =>
    rw [hk] at ha
    simp only [Option.bind_eq_bind, Option.bind_some] at ha
    split at ha
    · cases ha; exact absurd rfl hd
    · cases ha; exact absurd rfl hd
    · next q hq =>
      have hv := look_list hq
      rw [exp_some hv] at ha hv
      split at ha
      · cases ha; exact absurd rfl hd
      · next hl =>
        simp only [Option.bind_eq_some_iff] at ha
        obtain ⟨⟨v, q'⟩, h1, w, h2, h3⟩ := ha
        cases h2; cases h3
        have := remove_len h1
        refine ⟨k, .list q', by simp [A.put, upd], ?_⟩
        rw [hv]
        rintro h
        cases h
        simp only [Quicklist.len] at hl
        omega

theorem fresh {e : Env} {args : List Bytes} {s : AS} {c : Cmd} {a : AOut} (h : AStep e args s c a) (hc : strict c = true)
    (hok : Server.badArity args.length (arity c) = false) : Fresh s a := by
  have lens := arity_ok hok
  cases h with
  | @det c f a hf h =>
    cases c <;> first | (cases hc; done) | (cases hf; done) | skip
    case hdel =>
      cases hf
      intro hd
      simp only [A.hdel, Option.bind_eq_bind, Option.bind_eq_some_iff] at h
      obtain ⟨k, _, h⟩ := h
      split at h
      · cases h; exact absurd rfl hd
      · cases h; exact absurd rfl hd
      · next q hq =>
        have hv := look_hash hq
        rw [exp_some hv] at h hv
        cases h
        obtain ⟨x, h1, h2⟩ := delLoop_ne _ _ _ hd
        refine ⟨k, _, by simp only [A.put, upd, if_true]; rfl, ?_⟩
        rw [hv]
        intro hc
        simp only [Option.some.injEq, AObj.hash.injEq] at hc
        rw [← hc] at h2; rw [h2] at h1; cases h1
    case lpush =>
      cases hf
      have h3 : arity .lpush = -3 := rfl
      intro hd
      simp only [A.lpush, Option.bind_eq_bind, Option.bind_eq_some_iff] at h
      obtain ⟨k, _, h⟩ := h
      split at h
      · cases h; exact absurd rfl hd
      · next q hq =>
        simp only [Option.bind_eq_some_iff] at h
        obtain ⟨q', h1, h2⟩ := h
        cases h2
        have := lpushLoop_len _ _ h1
        refine ⟨k, .list q', by simp [A.put, upd], ?_⟩
        intro hs
        unfold A.orNew at hq
        rw [hs] at hq
        simp only [AObj.asList, Option.some.injEq] at hq
        subst hq
        simp only at hd
        omega
    case rpush =>
      cases hf
      have h3 : arity .rpush = -3 := rfl
      intro hd
      simp only [A.rpush, Option.bind_eq_bind, Option.bind_eq_some_iff] at h
      obtain ⟨k, _, h⟩ := h
      split at h
      · cases h; exact absurd rfl hd
      · next q hq =>
        cases h
        have := rpushLoop_len (args.drop 2) q
        refine ⟨k, .list (Cmds.rpushLoop (args.drop 2) q), by simp [A.put, upd], ?_⟩
        intro hs
        unfold A.orNew at hq
        rw [hs] at hq
        simp only [AObj.asList, Option.some.injEq] at hq
        rw [hq] at this
        simp only at hd
        omega
    case lpop => cases hf; exact fresh_pop (i := fun _ => 0) a h
    case rpop => cases hf; exact fresh_pop (i := fun q => (q.length : Int) - 1) a h
    case srem =>
      cases hf
      intro hd
      simp only [A.srem, Option.bind_eq_bind, Option.bind_eq_some_iff] at h
      obtain ⟨k, _, h⟩ := h
      split at h
      · cases h; exact absurd rfl hd
      · cases h; exact absurd rfl hd
      · next q hq =>
        have hv := look_set hq
        rw [exp_some hv] at h hv
        cases h
        obtain ⟨x, h1, h2⟩ := delLoop_ne _ _ _ hd
        refine ⟨k, _, by simp only [A.put, upd, if_true]; rfl, ?_⟩
        rw [hv]
        intro hc
        simp only [Option.some.injEq, AObj.set.injEq] at hc
        rw [← hc] at h2; rw [h2] at h1; cases h1
  | randomget => cases hc
  | @spop m a h =>
    intro hd
    simp only [A.spop, Option.bind_eq_bind, Option.bind_eq_some_iff] at h
    obtain ⟨k, _, h⟩ := h
    split at h
    · cases h; exact absurd rfl hd
    · cases h; exact absurd rfl hd
    · next q hq =>
      have hv := look_set hq
      rw [exp_some hv] at h hv
      split at h
      · next hm =>
        cases h
        refine ⟨k, _, by simp only [A.put, upd, if_true]; rfl, ?_⟩
        rw [hv]
        intro hc
        simp only [Option.some.injEq, AObj.set.injEq] at hc
        rw [hc] at hm
        simp [upd] at hm
      · cases h
  | spopEmpty h =>
    intro hd
    simp only [A.spopEmpty, Option.bind_eq_bind, Option.bind_eq_some_iff] at h
    obtain ⟨k, _, h⟩ := h
    split at h
    · cases h; exact absurd rfl hd
    · cases h

end Metis
