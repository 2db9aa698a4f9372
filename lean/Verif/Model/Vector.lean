import Verif.Model.Ristretto
/-!
# Model of rangeproof/vector/vector.go

Index loops `for i := 0; i < len(a); i++ { res[i] = f(a[i], b[i]) }` are `List.map` / `List.zipWith`;
accumulating loops are left folds over the zipped lists.
-/

namespace Dusk.Vec

variable {F G : Type} [Field F] [AddCommGroup G] [Module F G] [DecidableEq F]

/-- `Add` (rangeproof/vector/vector.go:12-24). -/
def add (a b : List F) : Res (List F) :=
  if a.length ≠ b.length then .err "Length of a does not equal b"
  else .ok (List.zipWith (fun x y => x + y) a b)

/-- `AddScalar` (rangeproof/vector/vector.go:28-37). -/
def addScalar (a : List F) (b : F) : List F := a.map fun x => x + b

/-- `Sub` (rangeproof/vector/vector.go:40-52). -/
def sub (a b : List F) : Res (List F) :=
  if a.length ≠ b.length then .err "Length of a does not equal b"
  else .ok (List.zipWith (fun x y => x - y) a b)

/-- `Neg` (rangeproof/vector/vector.go:55-67). -/
def neg (a : List F) : List F := if a.length = 0 then a else a.map fun x => -x

/-- `SubScalar` (rangeproof/vector/vector.go:70-83): for `b = 0` the slice `a` itself is returned. -/
def subScalar (a : List F) (b : F) : List F := if b = 0 then a else a.map fun x => x - b

/-- `MulScalar` (rangeproof/vector/vector.go:87-96). -/
def mulScalar (a : List F) (b : F) : List F := a.map fun x => x * b

/-- `InnerProduct` (rangeproof/vector/vector.go:99-113): `res.MulAdd(&a[i], &b[i], &res)`. -/
def innerProduct (a b : List F) : Res F :=
  if a.length ≠ b.length then .err "[Inner Product]:Length of a does not equal length of b"
  else .ok ((a.zip b).foldl (fun res p => p.1 * p.2 + res) 0)

/-- `Exp` (rangeproof/vector/vector.go:116-141); `N`, `M` are Go `int`s. -/
def exp (a : List F) (b : List G) (N M : Int) : Res G :=
  if a.length ≠ b.length then
    .err "length of slice of scalars a does not equal length of slices of points b"
  else if (a.length : Int) < N * M then .err "length of scalar a is not less than N*M"
  else .ok ((a.zip b).foldl (fun res p => res + p.1 • p.2) 0)

/-- The loop `for i := 2; i < n; i++ { res[i] = res[i-1] * a }` of `ScalarPowers`: `k` remaining entries,
`prev` the entry before them. -/
def powersLoop (a : F) : Nat → F → List F
  | 0, _ => []
  | k + 1, prev => prev * a :: powersLoop a k (prev * a)

/-- `ScalarPowers` (rangeproof/vector/vector.go:145-171): for `a = 0` the freshly made (all zero) slice is returned. -/
def scalarPowers (a : F) (n : Nat) : List F :=
  if n = 0 then []
  else if a = 0 then List.replicate n 0
  else if n = 1 then [1]
  else 1 :: a :: powersLoop a (n - 2) a

/-- The loop of `ScalarPowersSum`: `k` remaining iterations, loop variable `i`, accumulators `res`, `prev`. -/
def powersSumLoop (a : F) : Nat → Nat → F → F → F
  | 0, _, res, _ => res
  | k + 1, i, res, prev =>
    let prev' := if i > 1 then prev * a else prev
    powersSumLoop a k (i + 1) (res + prev') prev'

/-- `ScalarPowersSum` (rangeproof/vector/vector.go:174-199). -/
def scalarPowersSum (a : F) (n : Nat) : F :=
  if n = 0 then 0
  else if n = 1 then 1
  else powersSumLoop a (n - 1) 1 1 a

/-- `Hadamard` (rangeproof/vector/vector.go:202-214). -/
def hadamard (a b : List F) : Res (List F) :=
  if a.length ≠ b.length then .err "Length of a does not equal length of b"
  else .ok (List.zipWith (fun x y => x * y) a b)

/-- `FromScalar` (rangeproof/vector/vector.go:217-225). -/
def fromScalar (a : F) (n : Nat) : List F := List.replicate n a

/-- `SplitPoints` (rangeproof/vector/vector.go:229-237) and `SplitScalars` (rangeproof/vector/vector.go:243-251); `n` is a `uint32`,
`uint32(len(x))` truncates. -/
def split {α : Type} (x : List α) (n : Nat) : Res (List α × List α) :=
  if x.length = 0 then .err "Original vector has length of zero"
  else if n ≥ x.length % 2 ^ 32 then .err "n is larger than the size of the slice x"
  else .ok (x.take n, x.drop n)

end Dusk.Vec
