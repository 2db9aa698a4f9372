import Verif.Model.Vector
import Verif.Go.Heap
/-!
# Package vector in memory

The functions of rangeproof/vector/vector.go which return slices, with their loops and the memory they allocate. Scalars are
elements of `F`; the zero value of a scalar is zero.
-/

namespace Dusk.VecMem

open Go

variable {F : Type} [Field F] [DecidableEq F]

/-- `Add` (rangeproof/vector/vector.go:12-24). -/
def add (a b : Slice) : St (Mem F) Slice :=
  if a.len ≠ b.len then St.lift (.err "Length of a does not equal b")
  else do
    let res ← make 0 a.len
    St.loop (fun i => do
      let x ← get a i
      let y ← get b i
      put res i (x + y)) a.len 0
    pure res

/-- `AddScalar` (rangeproof/vector/vector.go:28-37). -/
def addScalar (a : Slice) (b : F) : St (Mem F) Slice := do
  let res ← make 0 a.len
  St.loop (fun i => do
    let x ← get a i
    put res i (x + b)) a.len 0
  pure res

/-- `Sub` (rangeproof/vector/vector.go:40-52). -/
def sub (a b : Slice) : St (Mem F) Slice :=
  if a.len ≠ b.len then St.lift (.err "Length of a does not equal b")
  else do
    let res ← make 0 a.len
    St.loop (fun i => do
      let x ← get a i
      let y ← get b i
      put res i (x - y)) a.len 0
    pure res

/-- `Neg` (rangeproof/vector/vector.go:55-67). -/
def neg (a : Slice) : St (Mem F) Slice :=
  if a.len = 0 then pure a
  else do
    let res ← make 0 a.len
    St.loop (fun i => do
      let x ← get a i
      put res i (-x)) a.len 0
    pure res

/-- `SubScalar` (rangeproof/vector/vector.go:70-83). -/
def subScalar (a : Slice) (b : F) : St (Mem F) Slice :=
  if b = 0 then pure a
  else do
    let res ← make 0 a.len
    St.loop (fun i => do
      let x ← get a i
      put res i (x - b)) a.len 0
    pure res

/-- `MulScalar` (rangeproof/vector/vector.go:87-96). -/
def mulScalar (a : Slice) (b : F) : St (Mem F) Slice := do
  let res ← make 0 a.len
  St.loop (fun i => do
    let x ← get a i
    put res i (x * b)) a.len 0
  pure res

/-- `ScalarPowers` (rangeproof/vector/vector.go:145-171). -/
def scalarPowers (a : F) (n : Nat) : St (Mem F) Slice := do
  let res ← make 0 n
  if n = 0 then pure res
  else if a = 0 then pure res
  else do
    put res 0 1
    if n = 1 then pure res
    else do
      put res 1 a
      St.loop (fun i => do
        let x ← get res (i - 1)
        put res i (x * a)) (n - 2) 2
      pure res

/-- `Hadamard` (rangeproof/vector/vector.go:202-214). -/
def hadamard (a b : Slice) : St (Mem F) Slice :=
  if a.len ≠ b.len then St.lift (.err "Length of a does not equal length of b")
  else do
    let res ← make 0 a.len
    St.loop (fun i => do
      let x ← get a i
      let y ← get b i
      put res i (x * y)) a.len 0
    pure res

/-- `FromScalar` (rangeproof/vector/vector.go:217-225). -/
def fromScalar (a : F) (n : Nat) : St (Mem F) Slice := do
  let res ← make 0 n
  St.loop (fun i => put res i a) n 0
  pure res

/-- `SplitPoints` (rangeproof/vector/vector.go:229-237) and `SplitScalars` (rangeproof/vector/vector.go:243-251). -/
def split (x : Slice) (n : Nat) : Res (Slice × Slice) :=
  if x.len = 0 then .err "Original vector has length of zero"
  else if n ≥ x.len % 2 ^ 32 then .err "n is larger than the size of the slice x"
  else .ok (x.front n, x.back n)

end Dusk.VecMem
