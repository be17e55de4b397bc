import Verif.Spec.ZsetSpec
/-!
What a sorted set of this server is, whatever was done to it: a table of scores, and beside it a collection of entries that need not
agree with the table. Scores of entries count as the integers they stand for.
-/
namespace Metis.Spec

/-- A score (as an integer) and a member. -/
abbrev Entry := Int × Bytes

/-- Strictly before: by score, then by member. -/
def Entry.lt (p q : Entry) : Prop := p.1 < q.1 ∨ (p.1 = q.1 ∧ lexLt p.2 q.2)

/-- The table of scores, and the entries in no particular order. -/
structure Tally where
  scores  : Bytes → Option F64
  entries : List Entry

/-- `l` lists the entries in order. -/
def Tally.InOrder (t : Tally) (l : List Entry) : Prop := l.Perm t.entries ∧ l.Pairwise (fun p q => ¬ Entry.lt q p)

/-- Nothing at all. -/
def Tally.none : Tally := ⟨fun _ => .none, []⟩

/-- A score in the table. -/
def Tally.entered (t : Tally) (x : F64) (m : Bytes) : Bytes → Option F64 := fun m' => if m' = m then some x else t.scores m'

/-- Every member of the table has its entry. -/
def Tally.Covers (t : Tally) : Prop := ∀ m v, t.scores m = some v → (v.key, m) ∈ t.entries

/-- Adding: a new member gets an entry; a new score for a member gets an entry, and the entry of the OLD score stays. -/
def Tally.add (t : Tally) (x : F64) (m : Bytes) : Tally :=
  match t.scores m with
  | .none => ⟨t.entered x m, (x.key, m) :: t.entries⟩
  | some v => if numEq v x then t else ⟨t.entered x m, (x.key, m) :: t.entries.erase (x.key, m)⟩

/-- Removing: one entry goes, that of the score in the table. -/
def Tally.rem (t : Tally) (m : Bytes) : Tally :=
  match t.scores m with
  | .none => t
  | some v => ⟨fun m' => if m' = m then .none else t.scores m', t.entries.erase (v.key, m)⟩

/-- The score of the entry is in the range. -/
def within (min max : F64) (p : Entry) : Bool := decide (min.key ≤ p.1) && decide (p.1 ≤ max.key)

/-- Removing a range of scores: the entries in the range go, and so do their members from the table, whatever their scores there. -/
def Tally.cut (t : Tally) (min max : F64) : Tally :=
  ⟨fun m => if t.entries.any (fun p => within min max p && p.2 == m) then .none else t.scores m, t.entries.filter (fun p => !within min max p)⟩

/-- Several additions. -/
def Tally.addAll (t : Tally) (ps : List Pair) : Tally := ps.foldl (fun t p => t.add p.1 p.2) t

/-- Several removals. -/
def Tally.remAll (t : Tally) (ms : List Bytes) : Tally := ms.foldl Tally.rem t

/-- How many of the additions were of members not in the table. -/
def Tally.fresh : Tally → List Pair → Nat
  | _, [] => 0
  | t, p :: ps => (if (t.scores p.2).isNone then 1 else 0) + Tally.fresh (t.add p.1 p.2) ps

/-- How many of the removals were of members in the table. -/
def Tally.gone : Tally → List Bytes → Nat
  | _, [] => 0
  | t, m :: ms => (if (t.scores m).isSome then 1 else 0) + Tally.gone (t.rem m) ms

/-- What is told of a selection of entries: the members with their scores in the table; `none` (a crash) if a member is not in the table. -/
def Tally.told (t : Tally) : List Entry → Option (List Pair)
  | [] => some []
  | p :: ps =>
    match t.scores p.2, t.told ps with
    | some v, some l => some ((v, p.2) :: l)
    | _, _ => .none

/-- The ranks `i` to `j` of a list; 2^63-1 stands for the last rank; negative ranks select nothing. `none` (a crash) beyond 2^45 ranks. -/
def ranks {α : Type} (l : List α) (i j : Int) : Option (List α) :=
  let j := if j = 2 ^ 63 - 1 then (l.length : Int) - 1 else j
  if i < 0 ∨ j < 0 ∨ j < i then some []
  else if 2 ^ 45 < j - i + 1 then .none
  else some ((l.drop i.toNat).take (j - i + 1).toNat)

/-- Where the ranks `i` to `j` begin in a list of length `n`, and how many of them there are to take. -/
def stretch (n : Nat) (i j : Int) : Nat × Nat :=
  let j := if j = 2 ^ 63 - 1 then (n : Int) - 1 else j
  if i < 0 ∨ j < i then (0, 0) else (i.toNat, (j - i + 1).toNat)

/-- The entries of rank `i` to `j` of a list of entries. -/
def picked (l : List Entry) (i j : Int) : List Entry := (l.drop (stretch l.length i j).1).take (stretch l.length i j).2

/-- Removing the ranks `i` to `j` of the entries in order `l`: the entries go, and so do their members from the table, whatever their scores there. -/
def Tally.shed (t : Tally) (l : List Entry) (i j : Int) : Tally :=
  ⟨fun m => if (picked l i j).any (fun p => p.2 == m) then .none else t.scores m,
   l.take (stretch l.length i j).1 ++ l.drop ((stretch l.length i j).1 + (stretch l.length i j).2)⟩

end Metis.Spec
