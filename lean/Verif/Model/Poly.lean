import Verif.Model.Vector
import Verif.Model.BitCommit
/-!
# Model of rangeproof/poly.go

The package variable `M` is an explicit argument. In `computePoly` it is read by the function itself (`m`) and
again by `sumZMTwoN` (`m'`).
-/

namespace Dusk.RP

variable {F : Type} [Field F] [DecidableEq F]

/-- `polynomial` (rangeproof/poly.go:13-16). -/
structure Polynomial (F : Type) where
  l0 : List F
  l1 : List F
  r0 : List F
  r1 : List F
  t0 : F
  t1 : F
  t2 : F

/-- The inner loop of `sumZMTwoN` for index `i`: `k` iterations left, loop variable `j`. -/
def sumInner (zM twoN : List F) (i : Nat) : Nat → Nat → F → Res F
  | 0, _, acc => .ok acc
  | k + 1, j, acc =>
    if (j - 1) * nBits ≤ i ∧ i < j * nBits then
      (idx zM (j + 1)).bind fun a =>
      (idx twoN (i - (j - 1) * nBits)).bind fun b =>
        sumInner zM twoN i k (j + 1) (a * b + acc)
    else sumInner zM twoN i k (j + 1) acc

/-- `sumZMTwoN` (rangeproof/poly.go:159-201). -/
def sumZMTwoN (z : F) (m : Nat) : Res (List F) :=
  let zM := Vec.scalarPowers z ((m + 3) % 2 ^ 32)
  let twoN := Vec.scalarPowers (2 : F) nBits
  mapRes (fun i => sumInner zM twoN i m 1 0) (List.range (m * nBits))

/-- `computePoly` (rangeproof/poly.go:18-80). -/
def computePoly (m m' : Nat) (aL aR sL sR : List F) (y z : F) : Res (Polynomial F) :=
  let l0 := Vec.subScalar aL z
  let l1 := sL
  let yNM := Vec.scalarPowers y ((nBits * m) % 2 ^ 32)
  (sumZMTwoN z m').bind fun zMTwoN =>
  (Vec.hadamard (Vec.addScalar aR z) yNM).bind fun r0 =>
  (Vec.add r0 zMTwoN).bind fun r0 =>
  (Vec.hadamard yNM sR).bind fun r1 =>
  (Vec.innerProduct l0 r0).bind fun t0 =>
  (Vec.innerProduct l1 r0).bind fun t1Left =>
  (Vec.innerProduct l0 r1).bind fun t1Right =>
  (Vec.innerProduct l1 r1).bind fun t2 =>
  .ok ⟨l0, l1, r0, r1, t0, t1Left + t1Right, t2⟩

/-- `polynomial.eval` (rangeproof/poly.go:84-100). -/
def Polynomial.eval (p : Polynomial F) (x : F) : F := x * p.t1 + x * x * p.t2 + p.t0

/-- `polynomial.computeL` (rangeproof/poly.go:103-114). -/
def Polynomial.computeL (p : Polynomial F) (x : F) : Res (List F) := Vec.add p.l0 (Vec.mulScalar p.l1 x)

/-- `polynomial.computeR` (rangeproof/poly.go:117-127). -/
def Polynomial.computeR (p : Polynomial F) (x : F) : Res (List F) := Vec.add p.r0 (Vec.mulScalar p.r1 x)

/-- `computeDelta` (rangeproof/poly.go:205-233); `n`, `m` are `uint32`, so `n*m` wraps. -/
def computeDelta (y z : F) (n m : Nat) : F :=
  let sumY := Vec.scalarPowersSum y (n * m % 2 ^ 32)
  let sumZ := Vec.scalarPowersSum z m
  let sum2 := Vec.scalarPowersSum (2 : F) n
  (z - z * z) * sumY - sum2 * sumZ * (z * (z * z))

/-- The loop `sumZmV.MulAdd(&zM[i], &v[i], &sumZmV)` of `computeT0`; `zM` has the length of `v`. -/
def t0Loop : List F → List F → F → Res F
  | _, [], acc => .ok acc
  | z :: zs, v :: vs, acc => t0Loop zs vs (z * v + acc)
  | [], _ :: _, _ => .panic

/-- `polynomial.computeT0` (rangeproof/poly.go:130-153) (the receiver is not used). -/
def computeT0 (y z : F) (v : List F) (n m : Nat) : Res F :=
  let delta := computeDelta y z n (m % 2 ^ 32)
  let zM := Vec.mulScalar (Vec.scalarPowers z (v.length % 2 ^ 32)) (z * z)
  (t0Loop zM v 0).bind fun s => .ok (delta + s)

end Dusk.RP
