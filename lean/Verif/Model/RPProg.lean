import Verif.Model.RangeProof
/-!
# rangeproof.Prove and rangeproof.Verify with every access of `M`

`Model/RangeProof` gives `Prove` one value of `M` per function that reads it. Here every read and write of the package variable
is a step of its own, also those in the loop conditions of `computeS` and `sumZMTwoN` and the arguments of the debug functions.
The functions are programs that read and write `M` and are otherwise pure; calls running at the same time are interleaved
step by step (sequential consistency; the Go memory model allows more for racy programs).

Left out: reads whose value has no effect, which are those for capacities (rangeproof.go:66, 84, 85) and those of the inner
loop of `sumZMTwoN` after its only iteration with an effect (if `M` grew for ever this loop would not end).
-/

namespace Dusk.RP

/-- A program with access to `M`. -/
inductive Prog (α : Type) : Type
  | done (r : Res α)
  | read (k : Nat → Prog α)
  | write (m : Nat) (p : Prog α)

namespace Prog

variable {α β : Type}

/-- Sequencing; errors and panics end the call. -/
def bind : Prog α → (α → Prog β) → Prog β
  | done (.ok a), f => f a
  | done (.err e), _ => done (.err e)
  | done .panic, _ => done .panic
  | read k, f => read fun m => (k m).bind f
  | write m p, f => write m (p.bind f)

/-- A computation without access to `M`. -/
def lift (r : Res α) : Prog α := done r

/-- Reading `M`. -/
def get : Prog Nat := read fun m => done (.ok m)

/-- Writing `M`. -/
def set (m : Nat) : Prog Unit := write m (done (.ok ()))

/-- The program running alone: the last value of `M` and the result. -/
def run : Nat → Prog α → Nat × Res α
  | M, done r => (M, r)
  | M, read k => run M (k M)
  | _, write m p => run m p

/-- The result, once the program has ended. -/
def result : Prog α → Option (Res α)
  | done r => some r
  | _ => none

/-- One step: the new value of `M` and the rest of the program. -/
def step (M : Nat) : Prog α → Nat × Prog α
  | done r => (M, done r)
  | read k => (M, k M)
  | write m p => (m, p)

end Prog

/-- Running calls: the value of `M`, and what is left of each call. -/
structure Calls (ι : Type) (τ : ι → Type) where
  M : Nat
  prog : ∀ i, Prog (τ i)

/-- One step of call `i`. -/
def Calls.step {ι : Type} [DecidableEq ι] {τ : ι → Type} (s : Calls ι τ) (i : ι) : Calls ι τ :=
  ⟨((s.prog i).step s.M).1, Function.update s.prog i ((s.prog i).step s.M).2⟩

/-- An execution: the schedule lists which call makes the next step. -/
def Calls.exec {ι : Type} [DecidableEq ι] {τ : ι → Type} (s : Calls ι τ) (sched : List ι) : Calls ι τ := sched.foldl Calls.step s

open Prog

variable {F G : Type} [Field F] [DecidableEq F]

/-- The inner loop of `sumZMTwoN` (rangeproof/poly.go:171-175) for index `i`: at most `k` iterations, loop variable `j`. -/
def sumInnerP (zM twoN : List F) (i : Nat) : Nat → Nat → F → Prog F
  | 0, _, acc => lift (.ok acc)
  | k + 1, j, acc =>
    get.bind fun m =>
    if j ≤ m then
      if (j - 1) * nBits ≤ i ∧ i < j * nBits then
        (lift (idx zM (j + 1))).bind fun a =>
        (lift (idx twoN (i - (j - 1) * nBits))).bind fun b =>
        sumInnerP zM twoN i k (j + 1) (a * b + acc)
      else sumInnerP zM twoN i k (j + 1) acc
    else lift (.ok acc)

/-- The outer loop of `sumZMTwoN` (rangeproof/poly.go:169-177): `k` elements left, loop variable `i`, elements written so far.
The elements not reached stay zero; the first element beyond the slice panics. -/
def sumOuterP (zM twoN : List F) : Nat → Nat → List F → Prog (List F)
  | 0, i, acc => get.bind fun m => if i < m * nBits then lift .panic else lift (.ok acc)
  | k + 1, i, acc =>
    get.bind fun m =>
    if i < m * nBits then
      (sumInnerP zM twoN i (i / nBits + 1) 1 0).bind fun x => sumOuterP zM twoN k (i + 1) (acc ++ [x])
    else lift (.ok (acc ++ List.replicate (k + 1) 0))

/-- `sumZMTwoN` (rangeproof/poly.go:159-201). -/
def sumZMTwoNP (z : F) : Prog (List F) :=
  get.bind fun m1 =>
  get.bind fun m2 =>
  sumOuterP (Vec.scalarPowers z ((m2 + 3) % 2 ^ 32)) (Vec.scalarPowers (2 : F) nBits) (nBits * m1) 0 []

/-- `computePoly` (rangeproof/poly.go:18-80). -/
def computePolyP (aL aR sL sR : List F) (y z : F) : Prog (Polynomial F) :=
  let l0 := Vec.subScalar aL z
  let l1 := sL
  get.bind fun m =>
  let yNM := Vec.scalarPowers y ((nBits * m) % 2 ^ 32)
  (sumZMTwoNP z).bind fun zMTwoN =>
  lift (
    (Vec.hadamard (Vec.addScalar aR z) yNM).bind fun r0 =>
    (Vec.add r0 zMTwoN).bind fun r0 =>
    (Vec.hadamard yNM sR).bind fun r1 =>
    (Vec.innerProduct l0 r0).bind fun t0 =>
    (Vec.innerProduct l1 r0).bind fun t1Left =>
    (Vec.innerProduct l0 r1).bind fun t1Right =>
    (Vec.innerProduct l1 r1).bind fun t2 =>
    .ok ⟨l0, l1, r0, r1, t0, t1Left + t1Right, t2⟩)

/-- The loop of `computeS` (rangeproof/rangeproof.go:222-230), `k` elements of `sL` left, loop variable `i`, `n2` the length of
`sR`: the number of elements drawn; the first element beyond a slice panics. -/
def sLoopP (n2 : Nat) : Nat → Nat → Prog Nat
  | 0, i => get.bind fun m => if i < nBits * m then lift .panic else lift (.ok i)
  | k + 1, i => get.bind fun m => if i < nBits * m then (if i < n2 then sLoopP n2 k (i + 1) else lift .panic) else lift (.ok i)

variable [AddCommGroup G] [Module F G]

/-- `computeS` (rangeproof/rangeproof.go:219-235): elements that are not drawn are zero. -/
def computeSP (R : Ristretto F G) (ped : Pedersen G) (coins : Coins F) :
    Prog ((Commitment F G × Pedersen G) × List F × List F) :=
  get.bind fun m1 =>
  get.bind fun m2 =>
  (sLoopP (nBits * m2) (nBits * m1) 0).bind fun c =>
  let sL := (List.range c).map coins.sL ++ List.replicate (nBits * m1 - c) 0
  let sR := (List.range c).map coins.sR ++ List.replicate (nBits * m2 - c) 0
  lift ((ped.commitToVectors R [sL, sR] coins.sBlind).bind fun c => .ok (c, sL, sR))

/-- `debugT0` (rangeproof/debug.go:40-66). -/
def debugT0P (aL aR : List F) (y z : F) : Prog F :=
  get.bind fun m =>
  let yNM := Vec.scalarPowers y ((nBits * m) % 2 ^ 32)
  (lift (Vec.hadamard yNM (Vec.addScalar aR z))).bind fun hada =>
  (sumZMTwoNP z).bind fun zMTwoN =>
  (lift (Vec.add zMTwoN hada)).bind fun right =>
  lift (Vec.innerProduct (Vec.subScalar aL z) right)

/-- `debugLxG` (rangeproof/debug.go:69-110). -/
def debugLxGP [DecidableEq G] (R : Ristretto F G) (l : List F) (x z : F) (aL sL : List F) : Prog Bool :=
  get.bind fun m =>
  let Gv := ((Pedersen.new R genData).baseVector.compute R ((nBits * m) % 2 ^ 32)).bases
  get.bind fun m => (lift (Vec.exp l Gv nBits m)).bind fun lG =>
  get.bind fun m => (lift (Vec.exp aL Gv nBits m)).bind fun aLG =>
  get.bind fun m => (lift (Vec.exp sL Gv nBits m)).bind fun sLG =>
  get.bind fun m1 => get.bind fun m2 =>
  (lift (Vec.exp (Vec.fromScalar (-z) ((nBits * m1) % 2 ^ 32)) Gv nBits m2)).bind fun zNegG =>
  lift (.ok (decide (lG = aLG + x • sLG + zNegG)))

/-- `debugRxHPrime` (rangeproof/debug.go:113-172). -/
def debugRxHPrimeP [DecidableEq G] (R : Ristretto F G) (r : List F) (x y z : F) (aR sR : List F) : Prog Bool :=
  get.bind fun m =>
  let Hv := ((Pedersen.new R (genData ++ [1])).baseVector.compute R ((nBits * m) % 2 ^ 32)).bases
  let Hprime := computeHprime R Hv y
  get.bind fun m => (lift (Vec.exp r Hprime nBits m)).bind fun rH =>
  get.bind fun m => (lift (Vec.exp aR Hv nBits m)).bind fun aRH =>
  get.bind fun m => (lift (Vec.exp sR Hv nBits m)).bind fun sRH =>
  get.bind fun m =>
  let yNM := Vec.scalarPowers y ((nBits * m) % 2 ^ 32)
  get.bind fun m => (lift (Vec.exp (Vec.mulScalar yNM z) Hprime nBits m)).bind fun p =>
  (sumZMTwoNP z).bind fun zs =>
  get.bind fun m => (lift (Vec.exp zs Hprime nBits m)).bind fun k =>
  lift (.ok (decide (rH = aRH + x • sRH + p + k)))

/-- `debugProve` (rangeproof/debug.go:15-36); see `debugProve` for the case that an equation does not hold. -/
def debugProveP [DecidableEq G] (R : Ristretto F G) (x y z : F) (v l r aL aR sL sR : List F) : Prog Unit :=
  (debugLxGP R l x z aL sL).bind fun ok =>
  if ok = false then lift (.ok ())
  else
    (debugRxHPrimeP R r x y z aR sR).bind fun ok =>
    if ok = false then lift (.ok ())
    else if v.all fun vi => debugsizeOfV (R.sNat vi) then lift (.ok ())
    else lift (.err "[DEBUG]: Value v is more than 2^N - 1")

/-- The debug block of `Prove` (rangeproof/rangeproof.go:45-208). -/
def debugBlockP [DecidableEq G] (R : Ristretto F G) (x y z t : F) (v l r aL aR sL sR : List F)
    (poly : Polynomial F) : Prog Unit :=
  (debugProveP R x y z v l r aL aR sL sR).bind fun _ =>
  (debugT0P aL aR y z).bind fun testT0 =>
  if testT0 ≠ poly.t0 then
    lift (.err "[Prove]: Test t0 value does not match the value calculated from the polynomial")
  else
    get.bind fun m =>
    (lift (computeT0 y z v nBits m)).bind fun polyt0 =>
    if polyt0 ≠ poly.t0 then
      lift (.err "[Prove]: t0 value from delta function, does not match the polynomial t0 value(Correct)")
    else if t ≠ poly.eval x then
      lift (.err "[Prove]: The t value computed from the t-poly, does not match the t value computed from the inner product of l and r")
    else lift (.ok ())

/-- `Prove` (rangeproof/rangeproof.go:45-208) from line 84 on, as `proveTail`. -/
def proveTailP [DecidableEq G] (R : Ristretto F G) (ped : Pedersen G) (hs : HashCacher) (v : List F)
    (Vs : List (Commitment F G)) (debug : Bool) (coins : Coins F) : Prog (Proof F G) :=
  let aLs := v.flatMap fun vi => (bitCommit (F := F) (R.sNat vi)).AL
  let aRs := v.flatMap fun vi => (bitCommit (F := F) (R.sNat vi)).AR
  (lift (computeA R ped aLs aRs coins.aBlind)).bind fun a =>
  let A := a.1
  (computeSP R a.2 coins).bind fun s =>
  let S := s.1.1; let ped := s.1.2; let sL := s.2.1; let sR := s.2.2
  let hs := hs.append [R.pBytes A.value, R.pBytes S.value]
  let y := (computeYAndZ R hs).1; let z := (computeYAndZ R hs).2
  (computePolyP aLs aRs sL sR y z).bind fun poly =>
  let T1 := ped.commitToScalar poly.t1 coins.t1Blind
  let T2 := ped.commitToScalar poly.t2 coins.t2Blind
  let hs := hs.append [R.sBytes z, R.pBytes T1.value, R.pBytes T2.value]
  let x := computeX R hs
  let taux := computeTaux x z T1.blindingFactor T2.blindingFactor Vs
  let mu := computeMu x A.blindingFactor S.blindingFactor
  (lift (poly.computeL x)).bind fun l =>
  (lift (poly.computeR x)).bind fun r =>
  (lift (Vec.innerProduct l r)).bind fun t =>
  (if debug then debugBlockP R x y z t v l r aLs aRs sL sR poly else lift (.ok ())).bind fun _ =>
  if x = 0 ∨ y = 0 ∨ z = 0 then
    lift (.err "[Prove] - One of the challenge scalars, x, y, or z was equal to zero. Generate proof again")
  else
    let hs := hs.append [R.sBytes x, R.sBytes taux, R.sBytes mu, R.sBytes t]
    let w := hs.derive R
    let Q := w • ped.basePoint
    get.bind fun m =>
    let Hpf := Vec.scalarPowers y⁻¹ ((nBits * m) % 2 ^ 32)
    get.bind fun m =>
    let ped2 := (Pedersen.new R (genData ++ [1])).baseVector.compute R ((nBits * m) % 2 ^ 32)
    (lift (IP.generate R ped.baseVector.bases ped2.bases l r Hpf Q)).bind fun ip =>
    lift (.ok { V := Vs, A := A.value, S := S.value, T1 := T1.value, T2 := T2.value, t := t, taux := taux, mu := mu,
                ip := some ip })

/-- `Prove` (rangeproof/rangeproof.go:45-208). -/
def proveP [DecidableEq G] (R : Ristretto F G) (v : List F) (debug : Bool) (coins : Coins F) : Prog (Proof F G) :=
  if v.length < 1 then lift (.err "length of slice v is zero")
  else
    (set v.length).bind fun _ =>
    get.bind fun m =>
    if m > maxM then lift (.err "maximum amount of values must be less than 16")
    else
      get.bind fun m1 =>
      get.bind fun m2 =>
      (set (m2 + padAmount m1)).bind fun _ =>
      let v := v ++ List.replicate (padAmount m1) 0
      get.bind fun m =>
      let ped := newPed R m
      let c := proveCommit R ped v coins
      proveTailP R ped c.2 v c.1 debug coins

/-- `megacheckWithC` (rangeproof/rangeproof.go:353-493). -/
def megacheckP [DecidableEq G] (R : Ristretto F G) (c : F) (ipproof : Option (IP.Proof F G))
    (mu x y z t taux w : F) (A Gp Hp S T1 T2 : G) (GVec HVec : List G) (V : List (Commitment F G)) : Prog Bool :=
  match ipproof with
  | none => lift .panic
  | some ip =>
    (lift (IP.verifScalars R ip)).bind fun vs =>
    let uSq := vs.1; let uInvSq := vs.2.1; let s := vs.2.2
    let g := Vec.mulScalar (Vec.addScalar (Vec.mulScalar s ip.A) z) c
    (lift (Vec.exp g GVec GVec.length 1)).bind fun c1 =>
    let bs := Vec.mulScalar s.reverse ip.B
    (sumZMTwoNP z).bind fun zAnd2 =>
    (lift (Vec.sub bs zAnd2)).bind fun h =>
    get.bind fun m =>
    let Hpf := Vec.scalarPowers y⁻¹ ((nBits * m) % 2 ^ 32)
    (lift (Vec.hadamard h Hpf)).bind fun h =>
    let h := Vec.mulScalar (Vec.subScalar h z) c
    (lift (Vec.exp h HVec HVec.length 1)).bind fun c2 =>
    get.bind fun m =>
    let delta := computeDelta y z nBits (m % 2 ^ 32)
    let gBP := c * w * (ip.A * ip.B - t) + (t - delta)
    let c3 := gBP • Gp
    let hBP := mu * c + taux
    let c4 := hBP • Hp
    let c5 := c • A
    let c6 := (c * x) • S
    (lift (Vec.exp uSq ip.L ip.L.length 1)).bind fun c7 =>
    (lift (Vec.exp uInvSq ip.R ip.R.length 1)).bind fun c8 =>
    get.bind fun m =>
    let zM := Vec.mulScalar (Vec.scalarPowers z (m % 2 ^ 32)) (z * z)
    (lift (c9Loop zM V 0)).bind fun c9 =>
    let c10 := x • T1
    let c11 := (x * x) • T2
    let sum := c1 + c2 + c3 + c4 - c5 - c6 - c • c7 - c • c8 - c9 - c10 - c11
    if sum = 0 then lift (.ok true) else lift (.err "megacheck failed")

/-- `Verify` (rangeproof/rangeproof.go:323-351). -/
def verifyP [DecidableEq G] (R : Ristretto F G) (p : Proof F G) (c : F) : Prog Bool :=
  get.bind fun m =>
  let ped := newPed R m
  get.bind fun m =>
  let H := ((Pedersen.new R (genData ++ [1])).baseVector.compute R ((nBits * m) % 2 ^ 32)).bases
  let ch := verifyChallenges R p
  megacheckP R c p.ip p.mu ch.2.2.1 ch.1 ch.2.1 p.t p.taux ch.2.2.2 p.A ped.basePoint ped.blindPoint p.S p.T1
    p.T2 ped.baseVector.bases H p.V

end Dusk.RP
