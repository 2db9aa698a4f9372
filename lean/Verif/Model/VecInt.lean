import Verif.Model.Vector
/-!
# `Exp` with the integers of the machine

`Vec.exp` multiplies `N` and `M` as numbers. Go's `int` has 64 bits, so the product wraps.
-/

namespace Dusk.Vec

variable {F G : Type} [Field F] [AddCommGroup G] [Module F G] [DecidableEq F]

/-- The value of an integer expression in a variable of type `int` (64 bits, two's complement). -/
def int64 (n : Int) : Int := Int.bmod n (2 ^ 64)

/-- `Exp` (rangeproof/vector/vector.go:116-141) with the product `N*M` of line 124 taken in `int`. -/
def exp64 (a : List F) (b : List G) (N M : Int) : Res G :=
  if a.length ≠ b.length then
    .err "length of slice of scalars a does not equal length of slices of points b"
  else if (a.length : Int) < int64 (N * M) then .err "length of scalar a is not less than N*M"
  else .ok ((a.zip b).foldl (fun res p => res + p.1 • p.2) 0)

end Dusk.Vec
