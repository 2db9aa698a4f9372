import Verif.Go.Core
/-!
# The textbook Merkle root

A specification on lists of byte strings; it knows nothing about nodes.
-/

namespace Dusk.Merkle.Spec

variable (H : Bytes → Bytes)

/-- One round: hash the concatenation of adjacent pairs; a last element without a partner is paired with
itself. -/
def level : List Bytes → List Bytes
  | [] => []
  | [x] => [H (x ++ x)]
  | x :: y :: l => H (x ++ y) :: level l

theorem level_length : ∀ l, (level H l).length = (l.length + 1) / 2
  | [] => rfl
  | [_] => by simp [level]
  | x :: y :: l => by
    simp only [level, List.length_cons, level_length l]; omega

/-- Rounds until one value remains. -/
def rounds (l : List Bytes) : Bytes :=
  if _h : l.length ≤ 1 then l.headD [] else rounds (level H l)
termination_by l.length
decreasing_by rw [level_length]; omega

/-- The Merkle root of a list of leaf hashes: at least one round. -/
def root (l : List Bytes) : Bytes := rounds H (level H l)

/-- The number of rounds from `n` values to one. -/
def height (n : Nat) : Nat := if n ≤ 1 then 0 else height ((n + 1) / 2) + 1
termination_by n
decreasing_by omega

/-! ## Collision extraction -/

/-- The first adjacent pair of the two lists whose concatenations differ, if any. -/
def pairDiff : List Bytes → List Bytes → Option (Bytes × Bytes)
  | [x], [x'] => if x ++ x = x' ++ x' then none else some (x ++ x, x' ++ x')
  | x :: y :: l, x' :: y' :: l' => if x ++ y = x' ++ y' then pairDiff l l' else some (x ++ y, x' ++ y')
  | _, _ => none

/-- Search the computation of two Merkle roots, level by level, for two inputs of `H` that differ although
the next level agrees. -/
def collision (l l' : List Bytes) : Option (Bytes × Bytes) :=
  if level H l = level H l' then pairDiff l l'
  else if _h : l.length ≤ 2 then none
  else collision (level H l) (level H l')
termination_by l.length
decreasing_by rw [level_length]; omega

end Dusk.Merkle.Spec

namespace Dusk.Merkle.Spec

/-- Repeat the last element of a list of odd length. -/
def pad {β : Type} (l : List β) : List β := if l.length % 2 = 1 then l ++ l.getLast?.toList else l

end Dusk.Merkle.Spec

namespace Dusk.Merkle.Spec

/-- The number of inner nodes above `n` leaves: every level has half as many nodes as the one below, rounded up. -/
def inner (n : Nat) : Nat := if n ≤ 1 then 0 else (n + 1) / 2 + inner ((n + 1) / 2)
termination_by n
decreasing_by omega

end Dusk.Merkle.Spec
