import Verif.Spec.Keyspace
import Verif.Model.Sys
/-!
Clients that keep to some keys, and what it means that the rest of the world does not concern them.
-/
namespace Metis.Spec

/-- Some clients (by file descriptor) and the keys, by database, that belong to them; and whether background rewrites do. -/
structure Zone where
  who : Nat → Bool
  keys : Nat → Bytes → Prop
  rewrites : Prop

/-- The commands whose reply lists something in no particular order. -/
def unordered : Cmd → Bool
  | .keys | .hkeys | .smembers | .sdiff | .sinter | .sunion => true
  | _ => false

/-- The two replies to the request say the same. -/
def Like : Event → List Bytes → List Bytes → Prop
  | .request _ e args, r, r' => r' = r ∨
      ((∃ cmd, commandOf e args = some cmd ∧ unordered cmd = true) ∧ ∃ l l', List.Perm l l' ∧ r = Reply.array l ∧ r' = Reply.array l')
  | _, r, r' => r' = r

/-- The event belongs to the zone's clients. -/
def Zone.mine (z : Zone) : Event → Bool
  | .connect fd => z.who fd
  | .close fd => z.who fd
  | .request fd _ _ => z.who fd
  | .cron _ => false

/-- A request of the zone's clients keeps to the zone: it names only keys of the zone (all keys of the database belong to the zone
if it asks for KEYS) and makes no random choice. -/
def Zone.Keeps (z : Zone) (db : Nat) (cmd : Cmd) (args : List Bytes) : Prop :=
  cmd ≠ .spop ∧ cmd ≠ .randomget ∧ (cmd = .bgrewriteaof → z.rewrites) ∧ (∀ k ∈ keysOf cmd args, z.keys db k) ∧ (cmd = .keys → ∀ k, z.keys db k)

/-- A request of another client keeps out of the zone. -/
def Zone.Avoids (z : Zone) (db : Nat) (cmd : Cmd) (args : List Bytes) : Prop :=
  (cmd = .bgrewriteaof → ¬ z.rewrites) ∧ ∀ k ∈ keysOf cmd args, ¬ z.keys db k

/-- The event with another hash function. -/
def Event.hashed (h : Bytes → Nat) : Event → Event
  | .request fd e args => .request fd { e with hash := h } args
  | .cron e => .cron { e with hash := h }
  | ev => ev

/-- The event with another hash function and other levels. -/
def Event.reshaped (h : Bytes → Nat) (lv : Nat → Nat) : Event → Event
  | .request fd e args => .request fd { e with hash := h, level := lv } args
  | .cron e => .cron { e with hash := h, level := lv }
  | ev => ev

end Metis.Spec
