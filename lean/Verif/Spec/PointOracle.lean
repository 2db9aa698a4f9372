import Mathlib.Data.Fintype.BigOperators
import Verif.Spec.RPSound
/-!
# Hash to points as a random oracle, with a discrete logarithm hidden in it

The hash to points (`Point.Derive`) is a table on a finite set of strings: for every string two coins `a`, `b`; the point is
`a B + b X`, where `B` is the base point and `X = x B` is given. For uniform coins all points are uniform multiples of `B`, so nobody can
see that they were made in this way, and whoever sees the points learns nothing about the coins `b`.
-/

namespace Dusk

variable {F G : Type} [Field F] [AddCommGroup G] [Module F G]

/-- The library with another hash to points. -/
def Ristretto.withPoints (R : Ristretto F G) (D : Bytes → G) : Ristretto F G := { R with pDerive := D }

namespace PointOracle

/-- The entry of a table; 0 for strings without entry. -/
def val {W : Finset Bytes} (f : W → F) (s : Bytes) : F := if h : s ∈ W then f ⟨s, h⟩ else 0

/-- The points made from the tables `a` and `b`. -/
def points (B X : G) {W : Finset Bytes} (a b : W → F) (s : Bytes) : G := val a s • B + val b s • X

/-- The string that the `i`-th generator of a chain is derived from. -/
def inAt (R : Ristretto F G) (data : Bytes) : Nat → Bytes
  | 0 => data
  | i + 1 => R.pBytes (chainAt R data i)

/-- A sum of entries at the inputs of the public points, with the coefficients of a relation; `R` gives the points. -/
def sumAt (R : Ristretto F G) (n : Nat) (f : Bytes → F) (ρ : RP.Coef F) : F :=
  ∑ i ∈ Finset.range n, ρ.1 i * f (inAt R (strBytes "dusk.BulletProof.vec1") i)
    + ∑ i ∈ Finset.range n, ρ.2.1 i * f (inAt R (strBytes "dusk.BulletProof.vec1" ++ [1]) i)
    + ρ.2.2.1 * f (strBytes "blindPoint")

/-- The logarithm computed from a relation between the public points. -/
def dlog (R : Ristretto F G) (n : Nat) {W : Finset Bytes} (a b : W → F) (ρ : RP.Coef F) : F :=
  -(sumAt R n (val a) ρ + ρ.2.2.2) / sumAt R n (val b) ρ

/-- The set of strings contains all that is hashed for the public points. -/
structure Covers (R : Ristretto F G) (W : Finset Bytes) : Prop where
  g : strBytes "dusk.BulletProof.vec1" ∈ W
  h : strBytes "dusk.BulletProof.vec1" ++ [1] ∈ W
  b : strBytes "blindPoint" ∈ W
  enc : ∀ P, R.pBytes P ∈ W

end PointOracle
end Dusk
