import Verif.Model.Trace
import Verif.Model.RangeProof
/-!
# The steps computed by rangeproof.Prove

As in `Model/Trace.lean`, for `Prove` of package rangeproof running alone and without debug, and everything it calls. A loop that makes
the same calls for every element of a slice makes them as often as the slice has elements (`times`). `SetZero`, `SetOne`, `SetBase`,
copies and comparisons of lengths are no steps; the test of a bit in `BitCommit` is one. `Props/TraceRP.lean` shows that leaving the steps
out gives back the functions of `Model/RangeProof.lean`.
-/

namespace Dusk

open Traced

/-- The same steps `n` times. -/
def times (n : Nat) (S : List Step) : List Step := (List.replicate n S).flatten

variable {F G : Type} [Field F] [AddCommGroup G] [Module F G]

namespace Vec

variable [DecidableEq F]

/-- `Add` (rangeproof/vector/vector.go:12-24). -/
def addT (a b : List F) : Traced (List F) := ⟨add a b, if a.length ≠ b.length then [] else times a.length [.sAdd]⟩

/-- `AddScalar` (rangeproof/vector/vector.go:28-37). -/
def addScalarT (a : List F) (b : F) : Traced (List F) := did (times a.length [.sAdd]) (addScalar a b)

/-- `SubScalar` (rangeproof/vector/vector.go:70-83). -/
def subScalarT (a : List F) (b : F) : Traced (List F) :=
  did (.isNonZero :: if b = 0 then [] else times a.length [.sSub]) (subScalar a b)

/-- `MulScalar` (rangeproof/vector/vector.go:87-96). -/
def mulScalarT (a : List F) (b : F) : Traced (List F) := did (times a.length [.sMul]) (mulScalar a b)

/-- `InnerProduct` (rangeproof/vector/vector.go:99-113). -/
def innerProductT (a b : List F) : Traced F := ⟨innerProduct a b, if a.length ≠ b.length then [] else times a.length [.sMulAdd]⟩

/-- `Exp` (rangeproof/vector/vector.go:116-141). -/
def expT (a : List F) (b : List G) (N M : Int) : Traced G :=
  ⟨exp a b N M, if a.length ≠ b.length then [] else if (a.length : Int) < N * M then [] else times b.length [.mult, .add]⟩

/-- `ScalarPowers` (rangeproof/vector/vector.go:145-171). -/
def scalarPowersT (a : F) (n : Nat) : Traced (List F) :=
  did (if n = 0 then [] else .isNonZero :: if a = 0 then [] else times (n - 2) [.sMul]) (scalarPowers a n)

/-- `Hadamard` (rangeproof/vector/vector.go:202-214). -/
def hadamardT (a b : List F) : Traced (List F) := ⟨hadamard a b, if a.length ≠ b.length then [] else times a.length [.sMul]⟩

end Vec

namespace Gen

/-- `Generator.Iterate` (rangeproof/generators/generator.go:34-47). -/
def iterateT (R : Ristretto F G) (g : Gen G) : Traced G :=
  match g.bases.getLast? with
  | none => did [.derive] (R.pDerive g.data)
  | some prev => (did [.bytes] (R.pBytes prev)).bind fun b => did [.derive] (R.pDerive b)

/-- `Generator.Compute` (rangeproof/generators/generator.go:51-57). -/
def computeT (R : Ristretto F G) (g : Gen G) : Nat → Traced (Gen G)
  | 0 => lift (.ok g)
  | n + 1 => (iterateT R g).bind fun p => computeT R { g with bases := g.bases ++ [p] } n

end Gen

namespace Pedersen

/-- `New` (rangeproof/pedersen/pedersen.go:25-40). -/
def newT (R : Ristretto F G) (genData : Bytes) : Traced (Pedersen G) := did [.derive] (new R genData)

/-- `Pedersen.commitToScalars` (rangeproof/pedersen/pedersen.go:116-152). -/
def commitToScalarsT (R : Ristretto F G) (p : Pedersen G) (blind : Option F) (scalars : List F) : Traced (G × Pedersen G) :=
  (match blind with
    | some b => (did [.mult] (b • p.blindPoint)).bind fun P => did [.add] (0 + P)
    | none => lift (.ok 0)).bind fun sum =>
  (if p.baseVector.bases.length < scalars.length then
      p.baseVector.computeT R ((scalars.length - p.baseVector.bases.length) % 2 ^ 32)
    else lift (.ok p.baseVector)).bind fun gen =>
  (⟨commitLoop scalars gen.bases sum, times scalars.length [.mult, .add]⟩ : Traced G).bind fun s =>
  lift (.ok (s, { p with baseVector := gen }))

/-- `Pedersen.CommitToScalar` (rangeproof/pedersen/pedersen.go:155-176). -/
def commitToScalarT (p : Pedersen G) (v blind : F) : Traced (Commitment F G) :=
  (did [.rand] blind).bind fun blind =>
  (did [.mult] (v • p.basePoint)).bind fun V =>
  (did [.mult] (blind • p.blindPoint)).bind fun B =>
  did [.add] ⟨V + B, blind⟩

/-- The loop of `CommitToVectors`, from index `i` on. -/
def commitVecLoopT (R : Ristretto F G) (blind : F) : Nat → List (List F) → Pedersen G → G → Traced (G × Pedersen G)
  | _, [], p, sum => lift (.ok (sum, p))
  | i, v :: vs, p, sum =>
    if i = 0 then
      (commitToScalarsT R p (some blind) v).bind fun c =>
      (did [.add] (sum + c.1)).bind fun sum => commitVecLoopT R blind (i + 1) vs c.2 sum
    else
      (newT R (p.genData ++ [UInt8.ofNat i])).bind fun ped2 =>
      (commitToScalarsT R ped2 none v).bind fun c =>
      (did [.add] (sum + c.1)).bind fun sum => commitVecLoopT R blind (i + 1) vs p sum

/-- `Pedersen.CommitToVectors` (rangeproof/pedersen/pedersen.go:181-212). -/
def commitToVectorsT (R : Ristretto F G) (p : Pedersen G) (vectors : List (List F)) (blind : F) :
    Traced (Commitment F G × Pedersen G) :=
  (did [.rand] blind).bind fun blind =>
  (commitVecLoopT R blind 0 vectors p 0).bind fun r => lift (.ok (⟨r.1, blind⟩, r.2))

end Pedersen

namespace IP

variable [DecidableEq F]

/-- The loop `v[i].Mul(&v[i], &f[off+i])` (innerproduct.go:78-80, 107-109). -/
def mulFactorsT : List F → List F → Traced (List F)
  | [], _ => lift (.ok [])
  | _ :: _, [] => lift .panic
  | x :: v, f :: fs => (did [.sMul] (x * f)).bind fun y => (mulFactorsT v fs).bind fun r => lift (.ok (y :: r))

/-- The body of the loop which folds the vectors, in the first round (innerproduct.go:134-153). -/
def foldFirst : List Step :=
  [.sMul, .sMul, .sAdd, .sMul, .sMul, .sAdd, .mult, .mult, .add, .sMul, .mult, .sMul, .mult, .add]

/-- The body of the loop which folds the vectors, in the other rounds (innerproduct.go:231-247). -/
def foldNext : List Step := [.sMul, .sMul, .sAdd, .sMul, .sMul, .sAdd, .mult, .mult, .add, .mult, .mult, .add]

/-- The first round of `Generate` (rangeproof/innerproduct/innerproduct.go:25-263), with `n` already halved. -/
def firstRoundT (R : Ristretto F G) (n : Nat) (a b : List F) (Gv Hv : List G) (hpf : List F) (Q : G)
    (hs : HashCacher) : Traced (Round F G) :=
  let aL := (splitNil a n).1; let aR := (splitNil a n).2
  let bL := (splitNil b n).1; let bR := (splitNil b n).2
  let GL := (splitNil Gv n).1; let GR := (splitNil Gv n).2
  let HL := (splitNil Hv n).1; let HR := (splitNil Hv n).2
  (⟨.ok (match Vec.innerProduct aL bR with
    | .ok c => c
    | _ => 0), (Vec.innerProductT aL bR).steps⟩ : Traced F).bind fun cL =>
  (Vec.innerProductT aR bL).bind fun cR =>
  (Vec.expT aL GR n 1).bind fun e1 =>
  (mulFactorsT bR hpf).bind fun bRYi =>
  (Vec.expT bRYi HL n 1).bind fun e2 =>
  (did [.mult] (cL • Q)).bind fun e3 =>
  (did [.add] (e1 + e2)).bind fun L =>
  (did [.add] (L + e3)).bind fun L =>
  (Vec.expT aR GL n 1).bind fun e4 =>
  (mulFactorsT bL (hpf.drop n)).bind fun bLYi =>
  (Vec.expT bLYi HR n 1).bind fun e5 =>
  (did [.mult] (cR • Q)).bind fun e6 =>
  (did [.add] (e4 + e5)).bind fun Rp =>
  (did [.add] (Rp + e6)).bind fun Rp =>
  (did [.bytes] (R.pBytes L)).bind fun bytesL =>
  (did [.bytes] (R.pBytes Rp)).bind fun bytesR =>
  let hs := hs.append [bytesL, bytesR]
  (did [.hash hs.cache.length] (hs.derive R)).bind fun u =>
  (did [.sInv] u⁻¹).bind fun uinv =>
  did (times n foldFirst) {
    L := L
    R := Rp
    a := List.zipWith (fun x y => x * u + y * uinv) aL aR
    b := List.zipWith (fun x y => x * uinv + y * u) bL bR
    Gs := List.zipWith (fun x y => uinv • x + u • y) GL GR
    Hs := List.zipWith (fun x y => x + y)
      (List.zipWith (fun f x => (f * u) • x) hpf HL)
      (List.zipWith (fun f x => (f * uinv) • x) (hpf.drop n) HR)
    hs := hs }

/-- One round of the loop of `Generate` (rangeproof/innerproduct/innerproduct.go:25-263), with `n` already halved. -/
def nextRoundT (R : Ristretto F G) (n : Nat) (a b : List F) (Gv Hv : List G) (Q : G)
    (hs : HashCacher) : Traced (Round F G) :=
  let aL := (splitNil a n).1; let aR := (splitNil a n).2
  let bL := (splitNil b n).1; let bR := (splitNil b n).2
  let GL := (splitNil Gv n).1; let GR := (splitNil Gv n).2
  let HL := (splitNil Hv n).1; let HR := (splitNil Hv n).2
  (Vec.innerProductT aL bR).bind fun cL =>
  (Vec.innerProductT aR bL).bind fun cR =>
  (Vec.expT aL GR n 1).bind fun e1 =>
  (Vec.expT bR HL n 1).bind fun e2 =>
  (did [.mult] (cL • Q)).bind fun e3 =>
  (did [.add] (e1 + e2)).bind fun L =>
  (did [.add] (L + e3)).bind fun L =>
  (Vec.expT aR GL n 1).bind fun e4 =>
  (Vec.expT bL HR n 1).bind fun e5 =>
  (did [.mult] (cR • Q)).bind fun e6 =>
  (did [.add] (e4 + e5)).bind fun Rp =>
  (did [.add] (Rp + e6)).bind fun Rp =>
  (did [.bytes] (R.pBytes L)).bind fun bytesL =>
  (did [.bytes] (R.pBytes Rp)).bind fun bytesR =>
  let hs := hs.append [bytesL, bytesR]
  (did [.hash hs.cache.length] (hs.derive R)).bind fun u =>
  (did [.sInv] u⁻¹).bind fun uinv =>
  did (times n foldNext) {
    L := L
    R := Rp
    a := List.zipWith (fun x y => x * u + y * uinv) aL aR
    b := List.zipWith (fun x y => x * uinv + y * u) bL bR
    Gs := List.zipWith (fun x y => uinv • x + u • y) GL GR
    Hs := List.zipWith (fun x y => u • x + uinv • y) HL HR
    hs := hs }

/-- The loop `for n > 1` of `Generate` (rangeproof/innerproduct/innerproduct.go:25-263) followed by the return statement. -/
def genLoopT (R : Ristretto F G) (Q : G) (n : Nat) (a b : List F) (Gv Hv : List G) (hs : HashCacher)
    (Lj Rj : List G) : Traced (Proof F G) :=
  if _h : n > 1 then
    (nextRoundT R (n / 2) a b Gv Hv Q hs).bind fun r =>
      genLoopT R Q (n / 2) r.a r.b r.Gs r.Hs r.hs (Lj ++ [r.L]) (Rj ++ [r.R])
  else lift (finish Lj Rj a b)
termination_by n
decreasing_by omega

/-- `Generate` (rangeproof/innerproduct/innerproduct.go:25-263). -/
def generateT (R : Ristretto F G) (Gv Hv : List G) (a b hpf : List F) (Q : G) : Traced (Proof F G) :=
  let n := Gv.length % 2 ^ 32
  if ¬ isPower2 (UInt32.ofNat n) then lift (.err "[IPProof]: size of n (NM) is not a power of 2")
  else if n ≠ 1 then
    (firstRoundT R (n / 2) a b Gv Hv hpf Q {}).bind fun r =>
      genLoopT R Q (n / 2) r.a r.b r.Gs r.Hs r.hs [r.L] [r.R]
  else lift (finish [] [] a b)

end IP

namespace RP

variable [DecidableEq F]

/-- The loop of `BitCommit`: `k` remaining iterations on the running value `num`. -/
def bitLoopT : Nat → UInt64 → Traced (BitCommitment F)
  | 0, _ => lift (.ok ⟨[], []⟩)
  | k + 1, num =>
    if num % 2 = 0 then
      (did [.branch false] ()).bind fun _ => (bitLoopT k (num >>> 1)).bind fun r => lift (.ok ⟨0 :: r.AL, -1 :: r.AR⟩)
    else (did [.branch true] ()).bind fun _ => (bitLoopT k (num >>> 1)).bind fun r => lift (.ok ⟨1 :: r.AL, 0 :: r.AR⟩)

/-- `BitCommit` (rangeproof/bitCommitment.go:17-51). -/
def bitCommitT (v : Int) : Traced (BitCommitment F) :=
  (did [.sNeg] ()).bind fun _ => bitLoopT nBits (UInt64.ofNat v.natAbs)

/-- The loop over the values (rangeproof/rangeproof.go:87-92). -/
def bitsT (R : Ristretto F G) : List F → Traced (List F × List F)
  | [] => lift (.ok ([], []))
  | v :: vs =>
    (did [.bigInt] (R.sNat v)).bind fun n => (bitCommitT (F := F) n).bind fun bc => (bitsT R vs).bind fun r =>
    lift (.ok (bc.AL ++ r.1, bc.AR ++ r.2))

/-- `computeA` (rangeproof/rangeproof.go:211-216). -/
def computeAT (R : Ristretto F G) (ped : Pedersen G) (aLs aRs : List F) (blind : F) : Traced (Commitment F G × Pedersen G) :=
  ped.commitToVectorsT R [aLs, aRs] blind

/-- `computeS` (rangeproof/rangeproof.go:219-235). -/
def computeST (R : Ristretto F G) (ped : Pedersen G) (m : Nat) (coins : Coins F) :
    Traced ((Commitment F G × Pedersen G) × List F × List F) :=
  (did (times (nBits * m) [.rand, .rand]) ((List.range (nBits * m)).map coins.sL, (List.range (nBits * m)).map coins.sR)).bind fun s =>
  (ped.commitToVectorsT R [s.1, s.2] coins.sBlind).bind fun c => lift (.ok (c, s.1, s.2))

/-- `computeYAndZ` (rangeproof/rangeproof.go:237-246). -/
def computeYAndZT (R : Ristretto F G) (hs : HashCacher) : Traced (F × F) :=
  (did [.hash hs.result.length] (R.sDerive hs.result)).bind fun y =>
  (did [.sBytes] (R.sBytes y)).bind fun b =>
  did [.hash b.length] (y, R.sDerive b)

/-- `computeX` (rangeproof/rangeproof.go:248-252). -/
def computeXT (R : Ristretto F G) (hs : HashCacher) : Traced F := did [.hash hs.result.length] (R.sDerive hs.result)

/-- `computeTaux` (rangeproof/rangeproof.go:257-281). -/
def computeTauxT (x z t1Blind t2Blind : F) (vBlinds : List (Commitment F G)) : Traced F :=
  did ([.sMul, .sSquare, .sMul, .sSquare] ++ times vBlinds.length [.sMulAdd, .sMul] ++ [.sAdd, .sAdd])
    (computeTaux x z t1Blind t2Blind vBlinds)

/-- `computeMu` (rangeproof/rangeproof.go:286-293). -/
def computeMuT (x alpha rho : F) : Traced F := did [.sMulAdd] (computeMu x alpha rho)

/-- The inner loop of `sumZMTwoN` for index `i`. -/
def sumInnerT (zM twoN : List F) (i : Nat) : Nat → Nat → F → Traced F
  | 0, _, acc => lift (.ok acc)
  | k + 1, j, acc =>
    if (j - 1) * nBits ≤ i ∧ i < j * nBits then
      (lift (idx zM (j + 1))).bind fun a =>
      (lift (idx twoN (i - (j - 1) * nBits))).bind fun b =>
      (did [.sMulAdd] (a * b + acc)).bind fun acc => sumInnerT zM twoN i k (j + 1) acc
    else sumInnerT zM twoN i k (j + 1) acc

/-- `sumZMTwoN` (rangeproof/poly.go:159-201). -/
def sumZMTwoNT (z : F) (m : Nat) : Traced (List F) :=
  (Vec.scalarPowersT z ((m + 3) % 2 ^ 32)).bind fun zM =>
  (did [.setBigInt] (2 : F)).bind fun two =>
  (Vec.scalarPowersT two nBits).bind fun twoN =>
  map (fun i => sumInnerT zM twoN i m 1 0) (List.range (m * nBits))

/-- `computePoly` (rangeproof/poly.go:18-80). -/
def computePolyT (m m' : Nat) (aL aR sL sR : List F) (y z : F) : Traced (Polynomial F) :=
  (Vec.subScalarT aL z).bind fun l0 =>
  (Vec.scalarPowersT y ((nBits * m) % 2 ^ 32)).bind fun yNM =>
  (sumZMTwoNT z m').bind fun zMTwoN =>
  (Vec.addScalarT aR z).bind fun r0 =>
  (Vec.hadamardT r0 yNM).bind fun r0 =>
  (Vec.addT r0 zMTwoN).bind fun r0 =>
  (Vec.hadamardT yNM sR).bind fun r1 =>
  (Vec.innerProductT l0 r0).bind fun t0 =>
  (Vec.innerProductT sL r0).bind fun t1Left =>
  (Vec.innerProductT l0 r1).bind fun t1Right =>
  (did [.sAdd] (t1Left + t1Right)).bind fun t1 =>
  (Vec.innerProductT sL r1).bind fun t2 =>
  lift (.ok ⟨l0, sL, r0, r1, t0, t1, t2⟩)

/-- `polynomial.computeL` (rangeproof/poly.go:103-114). -/
def Polynomial.computeLT (p : Polynomial F) (x : F) : Traced (List F) := (Vec.mulScalarT p.l1 x).bind fun l => Vec.addT p.l0 l

/-- `polynomial.computeR` (rangeproof/poly.go:117-127). -/
def Polynomial.computeRT (p : Polynomial F) (x : F) : Traced (List F) := (Vec.mulScalarT p.r1 x).bind fun r => Vec.addT p.r0 r

/-- `Prove` (rangeproof/rangeproof.go:45-208) from line 84 on, without debug, where `M` is `m` throughout. -/
def proveTailT (R : Ristretto F G) (m : Nat) (ped : Pedersen G) (hs : HashCacher) (v : List F)
    (Vs : List (Commitment F G)) (coins : Coins F) : Traced (Proof F G) :=
  (bitsT R v).bind fun bits =>
  (computeAT R ped bits.1 bits.2 coins.aBlind).bind fun a =>
  (computeST R a.2 m coins).bind fun s =>
  (did [.bytes] (R.pBytes a.1.value)).bind fun bA =>
  (did [.bytes] (R.pBytes s.1.1.value)).bind fun bS =>
  let hs := hs.append [bA, bS]
  (computeYAndZT R hs).bind fun yz =>
  (computePolyT m m bits.1 bits.2 s.2.1 s.2.2 yz.1 yz.2).bind fun poly =>
  (s.1.2.commitToScalarT poly.t1 coins.t1Blind).bind fun T1 =>
  (s.1.2.commitToScalarT poly.t2 coins.t2Blind).bind fun T2 =>
  (did [.sBytes] (R.sBytes yz.2)).bind fun bz =>
  (did [.bytes] (R.pBytes T1.value)).bind fun bT1 =>
  (did [.bytes] (R.pBytes T2.value)).bind fun bT2 =>
  let hs := hs.append [bz, bT1, bT2]
  (computeXT R hs).bind fun x =>
  (computeTauxT x yz.2 T1.blindingFactor T2.blindingFactor Vs).bind fun taux =>
  (computeMuT x a.1.blindingFactor s.1.1.blindingFactor).bind fun mu =>
  (poly.computeLT x).bind fun l =>
  (poly.computeRT x).bind fun r =>
  (Vec.innerProductT l r).bind fun t =>
  (did [.isNonZero] (x = 0 : Bool)).bind fun zx =>
  (if zx then lift (.ok true) else did [.isNonZero] (yz.1 = 0 : Bool)).bind fun zy =>
  (if zy then lift (.ok true) else did [.isNonZero] (yz.2 = 0 : Bool)).bind fun zz =>
  if zz then lift (.err "[Prove] - One of the challenge scalars, x, y, or z was equal to zero. Generate proof again")
  else
    (did [.sBytes] (R.sBytes x)).bind fun bx =>
    (did [.sBytes] (R.sBytes taux)).bind fun btaux =>
    (did [.sBytes] (R.sBytes mu)).bind fun bmu =>
    (did [.sBytes] (R.sBytes t)).bind fun bt =>
    let hs := hs.append [bx, btaux, bmu, bt]
    (did [.hash hs.cache.length] (hs.derive R)).bind fun w =>
    (did [.mult] (w • s.1.2.basePoint)).bind fun Q =>
    (did [.sInv] yz.1⁻¹).bind fun yinv =>
    (Vec.scalarPowersT yinv ((nBits * m) % 2 ^ 32)).bind fun Hpf =>
    (Pedersen.newT R (genData ++ [1])).bind fun ped2 =>
    (ped2.baseVector.computeT R ((nBits * m) % 2 ^ 32)).bind fun g2 =>
    (IP.generateT R s.1.2.baseVector.bases g2.bases l r Hpf Q).bind fun ip =>
    lift (.ok { V := Vs, A := a.1.value, S := s.1.1.value, T1 := T1.value, T2 := T2.value, t := t, taux := taux, mu := mu,
                ip := some ip })

/-- The loop which commits to the values (rangeproof/rangeproof.go:74-82), from index `i` on. -/
def commitAllT (R : Ristretto F G) (ped : Pedersen G) (coins : Coins F) :
    Nat → List F → HashCacher → Traced (List (Commitment F G) × HashCacher)
  | _, [], hs => lift (.ok ([], hs))
  | i, v :: vs, hs =>
    (ped.commitToScalarT v (coins.vBlind i)).bind fun V =>
    (did [.bytes] (R.pBytes V.value)).bind fun b =>
    (commitAllT R ped coins (i + 1) vs (hs.append [b])).bind fun r => lift (.ok (V :: r.1, r.2))

/-- `Prove` (rangeproof/rangeproof.go:45-208) running alone, without debug; it does not depend on the value of `M` before. -/
def proveT (R : Ristretto F G) (v : List F) (coins : Coins F) : Traced (Proof F G) :=
  if v.length < 1 then lift (.err "length of slice v is zero")
  else if v.length > maxM then lift (.err "maximum amount of values must be less than 16")
  else
    let m := v.length + padAmount v.length
    let v := v ++ List.replicate (padAmount v.length) 0
    (Pedersen.newT R genData).bind fun ped =>
    (ped.baseVector.computeT R ((nBits * m) % 2 ^ 32)).bind fun g =>
    let ped := { ped with baseVector := g }
    (commitAllT R ped coins 0 v {}).bind fun c =>
    proveTailT R m ped c.2 v c.1 coins

end RP

end Dusk
