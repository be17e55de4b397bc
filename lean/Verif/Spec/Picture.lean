import Verif.Spec.Exact
import Verif.Spec.Log
/-!
What a rewrite that nothing interrupts writes for the databases of the exact reference.
-/
namespace Metis.Spec.Exact
open Metis

/-- Commands that hold these items in this order, `n` to a command. -/
def Portions (name k : Bytes) (n : Nat) (items : List Bytes) (R : List (List Bytes)) : Prop :=
  ∃ cs : List (List Bytes), cs.flatten = items ∧ (∀ c ∈ cs, c ≠ [] ∧ c.length ≤ n) ∧ (∀ c ∈ cs.dropLast, c.length = n) ∧ R = cs.map (fun c => name :: k :: c)

/-- The fields with their values, each once, in any order. -/
def Listed {V : Type} (f : Bytes → Option V) (l : List (Bytes × V)) : Prop := (l.map Prod.fst).Nodup ∧ ∀ x v, (x, v) ∈ l ↔ f x = some v

/-- The commands for the value of a key. A list is pushed from the left, beginning with its first element; of a sorted set the entries are written, each with the score of its member in the
table, and the member stands where ZADD expects the score. -/
def Shot (e : Env) (S : Store) (k : Bytes) : Ref.Val → List (List Bytes) → Prop
  | .str s, R => R = [[b!"set", k, s]]
  | .list l, R => Portions b!"lpush" k 64 l R
  | .hash f, R => ∃ l, Listed f l ∧ Portions b!"hset" k 128 (l.flatMap (fun x => [x.1, x.2])) R
  | .set p, R => ∃ l : List Bytes, l.Nodup ∧ (∀ x, x ∈ l ↔ p x = true) ∧ Portions b!"sadd" k 64 l R
  | .zset f, R => ∃ l ps, Tally.InOrder ⟨f, S.entries k⟩ l ∧ l.length ≤ 2 ^ 45 ∧ Tally.told ⟨f, S.entries k⟩ l = some ps ∧
      Portions b!"zadd" k 128 (ps.flatMap (fun p => [p.2, e.fmtFloat p.1])) R

/-- The command for its deadline: whole seconds. -/
def term (S : Store) (k : Bytes) : List (List Bytes) :=
  match S.base.due k with
  | none => []
  | some d => [[b!"expireat", k, itoa (d.tdiv 1000)]]

/-- The commands for some keys. -/
inductive Shots (e : Env) (S : Store) : List Bytes → List (List Bytes) → Prop
  | nil : Shots e S [] []
  | cons {k v ks R R'} (hv : S.base.val k = some v) (h : Shot e S k v R) (h' : Shots e S ks R') : Shots e S (k :: ks) (R ++ term S k ++ R')

/-- The commands for the database `i`: all keys, in any order; nothing at all if there are none. -/
def Photo (e : Env) (S : Store) (i : Nat) (R : List (List Bytes)) : Prop :=
  ∃ ks R', ks.Nodup ∧ (∀ k, k ∈ ks ↔ S.base.val k ≠ none) ∧ Shots e S ks R' ∧ R = if ks = [] then [] else selectRec i :: R'

/-- The commands for `n` databases from number `i` on. -/
def Album (e : Env) (D : Nat → Store) : Nat → Nat → List (List Bytes) → Prop
  | 0, _, R => R = []
  | n + 1, i, R => ∃ A B, Photo e (D i) i A ∧ Album e D n (i + 1) B ∧ R = A ++ B

/-- A sorted set that cannot be written: an entry is left of a member that is not in the table (or there are too many entries). -/
def Spoiled (S : Store) (k : Bytes) : Prop :=
  ∃ f, S.base.val k = some (.zset f) ∧ ∀ l, Tally.InOrder ⟨f, S.entries k⟩ l → 2 ^ 45 < l.length ∨ Tally.told ⟨f, S.entries k⟩ l = none

end Metis.Spec.Exact
