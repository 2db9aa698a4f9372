import Verif.Model.InnerProduct
import Verif.Model.Poly
/-!
# Model of rangeproof/rangeproof.go and rangeproof/debug.go

The package variable `M` is explicit state. Since other goroutines may write it while `Prove` or `Verify` runs, the
values read by one call are collected in `Reads` / `VReads` (one value per reading function; the several reads inside
`computeS`, `sumZMTwoN` or one debug function are taken to see one value); a call that runs alone sees its own value
everywhere (`prove`, `verify`). Random scalars are explicit (`Coins`, and the verifier's `c`).
-/

namespace Dusk.RP

variable {F G : Type} [Field F] [AddCommGroup G] [Module F G] [DecidableEq F]

/-- The constant `maxM` (rangeproof/rangeproof.go:26). -/
abbrev maxM : Nat := 16

/-- `Proof` (rangeproof/rangeproof.go:29-42). The field `Blinders` is never read or written by the package and is left out;
`IPProof` is a pointer. -/
structure Proof (F G : Type) where
  V : List (Commitment F G)
  A : G
  S : G
  T1 : G
  T2 : G
  taux : F
  mu : F
  t : F
  ip : Option (IP.Proof F G)
  deriving DecidableEq

/-- The random scalars drawn by `Prove`. -/
structure Coins (F : Type) where
  vBlind : Nat → F
  aBlind : F
  sL : Nat → F
  sR : Nat → F
  sBlind : F
  t1Blind : F
  t2Blind : F

/-- The values of `M` seen by one run of `Prove`, in program order. -/
structure Reads where
  /-- the test `M > maxM` (line 52) -/
  check : Nat
  /-- the argument of `DiffNextPow2` (line 57) -/
  pad : Nat
  /-- the right-hand side of `M = M + int(padAmount)` (line 58) -/
  upd : Nat
  /-- `ped.BaseVector.Compute` (line 69) -/
  base : Nat
  /-- `computeS` (lines 221, 222) -/
  s : Nat
  /-- `computePoly` (poly.go:27) and `sumZMTwoN` called by it -/
  poly : Nat
  polySum : Nat
  /-- `debugLxG`, `debugRxHPrime` and `sumZMTwoN` called by it -/
  dbgL : Nat
  dbgR : Nat
  dbgRSum : Nat
  /-- `debugT0` (debug.go:46) and `sumZMTwoN` called by it -/
  dbgT0 : Nat
  dbgT0Sum : Nat
  /-- the argument of `computeT0` (line 157) -/
  dbgDelta : Nat
  /-- `Hpf` (line 183) -/
  hpf : Nat
  /-- `ped2.BaseVector.Compute` (line 187) -/
  base2 : Nat

/-- A run that sees `m0` before and `m` after its own update. -/
def Reads.const (m0 m : Nat) : Reads :=
  ⟨m0, m0, m0, m, m, m, m, m, m, m, m, m, m, m, m⟩

/-- The generator seed. -/
def genData : Bytes := strBytes "dusk.BulletProof.vec1"

/-! ## Pieces of Prove -/

/-- `computeA` (rangeproof/rangeproof.go:211-216). -/
def computeA (R : Ristretto F G) (ped : Pedersen G) (aLs aRs : List F) (blind : F) :
    Res (Commitment F G × Pedersen G) :=
  ped.commitToVectors R [aLs, aRs] blind

/-- `computeS` (rangeproof/rangeproof.go:219-235). -/
def computeS (R : Ristretto F G) (ped : Pedersen G) (m : Nat) (coins : Coins F) :
    Res ((Commitment F G × Pedersen G) × List F × List F) :=
  let sL := (List.range (nBits * m)).map coins.sL
  let sR := (List.range (nBits * m)).map coins.sR
  (ped.commitToVectors R [sL, sR] coins.sBlind).bind fun c => .ok (c, sL, sR)

/-- `computeYAndZ` (rangeproof/rangeproof.go:237-246). -/
def computeYAndZ (R : Ristretto F G) (hs : HashCacher) : F × F :=
  let y := R.sDerive hs.result
  (y, R.sDerive (R.sBytes y))

/-- `computeX` (rangeproof/rangeproof.go:248-252). -/
def computeX (R : Ristretto F G) (hs : HashCacher) : F := R.sDerive hs.result

/-- `computeTaux` (rangeproof/rangeproof.go:257-281): the pair is (`zNBlindSum`, `zN`). -/
def computeTaux (x z t1Blind t2Blind : F) (vBlinds : List (Commitment F G)) : F :=
  let s := vBlinds.foldl (fun (s : F × F) c => (s.2 * c.blindingFactor + s.1, s.2 * z)) (0, z * z)
  x * t1Blind + x * x * t2Blind + s.1

/-- `computeMu` (rangeproof/rangeproof.go:286-293). -/
def computeMu (x alpha rho : F) : F := rho * x + alpha

/-- `computeHprime` (rangeproof/rangeproof.go:297-320): powers are taken as integers, then reduced. -/
def computeHprime (R : Ristretto F G) (H : List G) (y : F) : List G :=
  let invY := R.sNat y⁻¹
  H.zipIdx.map fun p => ((invY ^ p.2 : Nat) : F) • p.1

/-! ## Debug checks (rangeproof/debug.go) -/

/-- `debugsizeOfV` (rangeproof/debug.go:175-182). -/
def debugsizeOfV (v : Nat) : Bool := decide ((v : Int) < 2 ^ nBits - 1)

/-- `debugT0` (rangeproof/debug.go:40-66). -/
def debugT0 (m m' : Nat) (aL aR : List F) (y z : F) : Res F :=
  let yNM := Vec.scalarPowers y ((nBits * m) % 2 ^ 32)
  (Vec.hadamard yNM (Vec.addScalar aR z)).bind fun hada =>
  (sumZMTwoN z m').bind fun zMTwoN =>
  (Vec.add zMTwoN hada).bind fun right =>
  Vec.innerProduct (Vec.subScalar aL z) right

/-- `debugLxG` (rangeproof/debug.go:69-110). -/
def debugLxG [DecidableEq G] (R : Ristretto F G) (m : Nat) (l : List F) (x z : F) (aL sL : List F) : Res Bool :=
  let Gv := ((Pedersen.new R genData).baseVector.compute R ((nBits * m) % 2 ^ 32)).bases
  (Vec.exp l Gv nBits m).bind fun lG =>
  (Vec.exp aL Gv nBits m).bind fun aLG =>
  (Vec.exp sL Gv nBits m).bind fun sLG =>
  (Vec.exp (Vec.fromScalar (-z) ((nBits * m) % 2 ^ 32)) Gv nBits m).bind fun zNegG =>
  .ok (decide (lG = aLG + x • sLG + zNegG))

/-- `debugRxHPrime` (rangeproof/debug.go:113-172). -/
def debugRxHPrime [DecidableEq G] (R : Ristretto F G) (m m' : Nat) (r : List F) (x y z : F) (aR sR : List F) : Res Bool :=
  let Hv := ((Pedersen.new R (genData ++ [1])).baseVector.compute R ((nBits * m) % 2 ^ 32)).bases
  let Hprime := computeHprime R Hv y
  (Vec.exp r Hprime nBits m).bind fun rH =>
  (Vec.exp aR Hv nBits m).bind fun aRH =>
  (Vec.exp sR Hv nBits m).bind fun sRH =>
  let yNM := Vec.scalarPowers y ((nBits * m) % 2 ^ 32)
  (Vec.exp (Vec.mulScalar yNM z) Hprime nBits m).bind fun p =>
  (sumZMTwoN z m').bind fun zs =>
  (Vec.exp zs Hprime nBits m).bind fun k =>
  .ok (decide (rH = aRH + x • sRH + p + k))

/-- `debugProve` (rangeproof/debug.go:15-36). `errors.Wrap(err, …)` is nil when `err` is nil: if one of the two group
equations is computed without error and does not hold, `debugProve` returns nil (and skips the remaining checks). -/
def debugProve [DecidableEq G] (R : Ristretto F G) (rd : Reads) (x y z : F) (v l r aL aR sL sR : List F) : Res Unit :=
  match debugLxG R rd.dbgL l x z aL sL with
  | .panic => .panic
  | .err e => .err e
  | .ok false => .ok ()
  | .ok true =>
    match debugRxHPrime R rd.dbgR rd.dbgRSum r x y z aR sR with
    | .panic => .panic
    | .err e => .err e
    | .ok false => .ok ()
    | .ok true =>
      if v.all fun vi => debugsizeOfV (R.sNat vi) then .ok ()
      else .err "[DEBUG]: Value v is more than 2^N - 1"

/-- The debug block of `Prove` (rangeproof/rangeproof.go:45-208). -/
def debugBlock [DecidableEq G] (R : Ristretto F G) (rd : Reads) (x y z t : F) (v l r aL aR sL sR : List F)
    (poly : Polynomial F) : Res Unit :=
  (debugProve R rd x y z v l r aL aR sL sR).bind fun _ =>
  (debugT0 rd.dbgT0 rd.dbgT0Sum aL aR y z).bind fun testT0 =>
  if testT0 ≠ poly.t0 then
    .err "[Prove]: Test t0 value does not match the value calculated from the polynomial"
  else
    (computeT0 y z v nBits rd.dbgDelta).bind fun polyt0 =>
    if polyt0 ≠ poly.t0 then
      .err "[Prove]: t0 value from delta function, does not match the polynomial t0 value(Correct)"
    else if t ≠ poly.eval x then
      .err "[Prove]: The t value computed from the t-poly, does not match the t value computed from the inner product of l and r"
    else .ok ()

/-! ## Prove -/

/-- `Prove` (rangeproof/rangeproof.go:45-208) from line 84 on: `v` is the padded list, `Vs` the commitments to it,
`hs` the hash cache containing the commitments. -/
def proveTail [DecidableEq G] (R : Ristretto F G) (rd : Reads) (ped : Pedersen G) (hs : HashCacher) (v : List F)
    (Vs : List (Commitment F G)) (debug : Bool) (coins : Coins F) : Res (Proof F G) :=
  let aLs := v.flatMap fun vi => (bitCommit (F := F) (R.sNat vi)).AL
  let aRs := v.flatMap fun vi => (bitCommit (F := F) (R.sNat vi)).AR
  (computeA R ped aLs aRs coins.aBlind).bind fun a =>
  let A := a.1
  (computeS R a.2 rd.s coins).bind fun s =>
  let S := s.1.1; let ped := s.1.2; let sL := s.2.1; let sR := s.2.2
  let hs := hs.append [R.pBytes A.value, R.pBytes S.value]
  let y := (computeYAndZ R hs).1; let z := (computeYAndZ R hs).2
  (computePoly rd.poly rd.polySum aLs aRs sL sR y z).bind fun poly =>
  let T1 := ped.commitToScalar poly.t1 coins.t1Blind
  let T2 := ped.commitToScalar poly.t2 coins.t2Blind
  let hs := hs.append [R.sBytes z, R.pBytes T1.value, R.pBytes T2.value]
  let x := computeX R hs
  let taux := computeTaux x z T1.blindingFactor T2.blindingFactor Vs
  let mu := computeMu x A.blindingFactor S.blindingFactor
  (poly.computeL x).bind fun l =>
  (poly.computeR x).bind fun r =>
  (Vec.innerProduct l r).bind fun t =>
  (if debug then debugBlock R rd x y z t v l r aLs aRs sL sR poly else .ok ()).bind fun _ =>
  if x = 0 ∨ y = 0 ∨ z = 0 then
    .err "[Prove] - One of the challenge scalars, x, y, or z was equal to zero. Generate proof again"
  else
    let hs := hs.append [R.sBytes x, R.sBytes taux, R.sBytes mu, R.sBytes t]
    let w := hs.derive R
    let Q := w • ped.basePoint
    let Hpf := Vec.scalarPowers y⁻¹ ((nBits * rd.hpf) % 2 ^ 32)
    let ped2 := (Pedersen.new R (genData ++ [1])).baseVector.compute R ((nBits * rd.base2) % 2 ^ 32)
    (IP.generate R ped.baseVector.bases ped2.bases l r Hpf Q).bind fun ip =>
    .ok { V := Vs, A := A.value, S := S.value, T1 := T1.value, T2 := T2.value, t := t, taux := taux, mu := mu,
          ip := some ip }

/-- The commitments to the padded values and the hash cache (lines 65-82 of `Prove` (rangeproof/rangeproof.go:45-208)). -/
def proveCommit (R : Ristretto F G) (ped : Pedersen G) (v : List F) (coins : Coins F) :
    List (Commitment F G) × HashCacher :=
  let Vs := v.zipIdx.map fun p => ped.commitToScalar p.1 (coins.vBlind p.2)
  (Vs, Vs.foldl (fun (hs : HashCacher) V => hs.append [R.pBytes V.value]) {})

/-- `ped := pedersen.New(genData); ped.BaseVector.Compute(uint32(N * M))` (lines 67-69, 325-327). -/
def newPed (R : Ristretto F G) (m : Nat) : Pedersen G :=
  { Pedersen.new R genData with
    baseVector := (Pedersen.new R genData).baseVector.compute R ((nBits * m) % 2 ^ 32) }

/-- `DiffNextPow2(uint32(M))` as a number. -/
def padAmount (m : Nat) : Nat := (IP.diffNextPow2 (UInt32.ofNat m)).toNat

/-- `Prove` (rangeproof/rangeproof.go:45-208), given the values of `M` it reads. -/
def proveWith [DecidableEq G] (R : Ristretto F G) (rd : Reads) (v : List F) (debug : Bool) (coins : Coins F) :
    Res (Proof F G) :=
  if v.length < 1 then .err "length of slice v is zero"
  else if rd.check > maxM then .err "maximum amount of values must be less than 16"
  else
    let v := v ++ List.replicate (padAmount rd.pad) 0
    let ped := newPed R rd.base
    let c := proveCommit R ped v coins
    proveTail R rd ped c.2 v c.1 debug coins

/-- The value of `M` after a `Prove` call on `n` values that runs alone, started with `M = m`. -/
def nextM (m n : Nat) : Nat :=
  if n < 1 then m else if n > maxM then n else n + padAmount n

/-- `Prove` (rangeproof/rangeproof.go:45-208) running alone: new value of `M`, and the result. -/
def prove [DecidableEq G] (R : Ristretto F G) (m : Nat) (v : List F) (debug : Bool) (coins : Coins F) :
    Nat × Res (Proof F G) :=
  (nextM m v.length, proveWith R (Reads.const v.length (nextM m v.length)) v debug coins)

/-! ## Verify -/

/-- The values of `M` seen by one run of `Verify`, in program order. -/
structure VReads where
  /-- `Compute` calls (lines 327, 332) -/
  base : Nat
  base2 : Nat
  /-- `sumZMTwoN` -/
  sum : Nat
  /-- `Hpf` (line 389) -/
  hpf : Nat
  /-- `computeDelta` (line 404) -/
  delta : Nat
  /-- `zM` (line 452) -/
  zM : Nat

/-- A run that sees the same value everywhere. -/
def VReads.const (m : Nat) : VReads := ⟨m, m, m, m, m, m⟩

/-- The loop over `zM` computing `c9` (lines 456-461): `V[i]` panics when out of range. -/
def c9Loop : List F → List (Commitment F G) → G → Res G
  | [], _, acc => .ok acc
  | z :: zs, V :: Vs, acc => c9Loop zs Vs (acc + z • V.value)
  | _ :: _, [], _ => .panic

/-- `megacheckWithC` (rangeproof/rangeproof.go:353-493). `c` is the random scalar it draws. A nil inner product proof is
dereferenced. The failed check is reported as an error, so the result is never `(false, nil)`. -/
def megacheckWithC [DecidableEq G] (R : Ristretto F G) (rd : VReads) (c : F) (ipproof : Option (IP.Proof F G))
    (mu x y z t taux w : F) (A Gp Hp S T1 T2 : G) (GVec HVec : List G) (V : List (Commitment F G)) : Res Bool :=
  match ipproof with
  | none => .panic
  | some ip =>
    (IP.verifScalars R ip).bind fun vs =>
    let uSq := vs.1; let uInvSq := vs.2.1; let s := vs.2.2
    let g := Vec.mulScalar (Vec.addScalar (Vec.mulScalar s ip.A) z) c
    (Vec.exp g GVec GVec.length 1).bind fun c1 =>
    let bs := Vec.mulScalar s.reverse ip.B
    (sumZMTwoN z rd.sum).bind fun zAnd2 =>
    (Vec.sub bs zAnd2).bind fun h =>
    let Hpf := Vec.scalarPowers y⁻¹ ((nBits * rd.hpf) % 2 ^ 32)
    (Vec.hadamard h Hpf).bind fun h =>
    let h := Vec.mulScalar (Vec.subScalar h z) c
    (Vec.exp h HVec HVec.length 1).bind fun c2 =>
    let delta := computeDelta y z nBits (rd.delta % 2 ^ 32)
    let gBP := c * w * (ip.A * ip.B - t) + (t - delta)
    let c3 := gBP • Gp
    let hBP := mu * c + taux
    let c4 := hBP • Hp
    let c5 := c • A
    let c6 := (c * x) • S
    (Vec.exp uSq ip.L ip.L.length 1).bind fun c7 =>
    (Vec.exp uInvSq ip.R ip.R.length 1).bind fun c8 =>
    let zM := Vec.mulScalar (Vec.scalarPowers z (rd.zM % 2 ^ 32)) (z * z)
    (c9Loop zM V 0).bind fun c9 =>
    let c10 := x • T1
    let c11 := (x * x) • T2
    let sum := c1 + c2 + c3 + c4 - c5 - c6 - c • c7 - c • c8 - c9 - c10 - c11
    if sum = 0 then .ok true else .err "megacheck failed"

/-- The challenges `y, z, x, w` recomputed by `Verify` (lines 337-348). -/
def verifyChallenges (R : Ristretto F G) (p : Proof F G) : F × F × F × F :=
  let hs := p.V.foldl (fun (hs : HashCacher) V => hs.append [R.pBytes V.value]) {}
  let hs := hs.append [R.pBytes p.A, R.pBytes p.S]
  let y := (computeYAndZ R hs).1; let z := (computeYAndZ R hs).2
  let hs := hs.append [R.sBytes z, R.pBytes p.T1, R.pBytes p.T2]
  let x := computeX R hs
  let hs := hs.append [R.sBytes x, R.sBytes p.taux, R.sBytes p.mu, R.sBytes p.t]
  (y, z, x, hs.derive R)

/-- `Verify` (rangeproof/rangeproof.go:323-351), given the values of `M` it reads and the random scalar `c`. -/
def verifyWith [DecidableEq G] (R : Ristretto F G) (rd : VReads) (p : Proof F G) (c : F) : Res Bool :=
  let ped := newPed R rd.base
  let H := ((Pedersen.new R (genData ++ [1])).baseVector.compute R ((nBits * rd.base2) % 2 ^ 32)).bases
  let ch := verifyChallenges R p
  megacheckWithC R rd c p.ip p.mu ch.2.2.1 ch.1 ch.2.1 p.t p.taux ch.2.2.2 p.A ped.basePoint ped.blindPoint p.S p.T1
    p.T2 ped.baseVector.bases H p.V

/-- `Verify` (rangeproof/rangeproof.go:323-351) running alone with `M = m`. -/
def verify [DecidableEq G] (R : Ristretto F G) (m : Nat) (p : Proof F G) (c : F) : Res Bool :=
  verifyWith R (VReads.const m) p c

/-! ## Encoding -/

/-- `Proof.Encode` (rangeproof/rangeproof.go:496-534); encoding a nil inner product proof dereferences it. -/
def Proof.encode (R : Ristretto F G) (p : Proof F G) (includeCommits : Bool) : Wr Unit :=
  Wr.bind (if includeCommits then Commitment.encodeAll R p.V else Wr.pure ()) fun _ =>
  Wr.bind (writeB (R.pBytes p.A)) fun _ =>
  Wr.bind (writeB (R.pBytes p.S)) fun _ =>
  Wr.bind (writeB (R.pBytes p.T1)) fun _ =>
  Wr.bind (writeB (R.pBytes p.T2)) fun _ =>
  Wr.bind (writeB (R.sBytes p.taux)) fun _ =>
  Wr.bind (writeB (R.sBytes p.mu)) fun _ =>
  Wr.bind (writeB (R.sBytes p.t)) fun _ =>
  match p.ip with
  | some ip => ip.encode R
  | none => Wr.panic

/-- `readerToPoint` (rangeproof/rangeproof.go:628-639). -/
def readerToPoint (R : Ristretto F G) : Rd G :=
  Rd.bind (readN 32) fun b =>
    if (R.pOfBytes b).2 then Rd.pure (R.pOfBytes b).1 else Rd.fail "point not encodable"

/-- `readerToScalar` (rangeproof/rangeproof.go:640-648). -/
def readerToScalar (R : Ristretto F G) : Rd F := Rd.bind (readN 32) fun b => Rd.pure (R.sOfBytes b)

/-- `Proof.Decode` (rangeproof/rangeproof.go:537-581) into `p` (non-nil): the new value of `p` when no error is returned. -/
def Proof.decode (R : Ristretto F G) (p : Proof F G) (includeCommits : Bool) : Rd (Proof F G) :=
  Rd.bind (if includeCommits then Commitment.decodeAll R else Rd.pure p.V) fun V =>
  Rd.bind (readerToPoint R) fun A =>
  Rd.bind (readerToPoint R) fun S =>
  Rd.bind (readerToPoint R) fun T1 =>
  Rd.bind (readerToPoint R) fun T2 =>
  Rd.bind (readerToScalar R) fun taux =>
  Rd.bind (readerToScalar R) fun mu =>
  Rd.bind (readerToScalar R) fun t =>
  Rd.bind (IP.Proof.decode R) fun ip =>
  Rd.pure ⟨V, A, S, T1, T2, taux, mu, t, some ip⟩

/-- The loop of `Equals`: `p.V[i].EqualValue(other.V[i])`; indexing the other list past its end panics. -/
def equalsLoop [DecidableEq G] : List (Commitment F G) → List (Commitment F G) → Res Bool
  | [], _ => .ok true
  | _ :: _, [] => .panic
  | c :: cs, d :: ds => if c.equalValue d then equalsLoop cs ds else .ok false

/-- `Proof.Equals` (rangeproof/rangeproof.go:584-626). -/
def Proof.equals [DecidableEq G] (p other : Proof F G) (includeCommits : Bool) : Res Bool :=
  if p.V.length ≠ other.V.length ∧ includeCommits then .ok false
  else
    (equalsLoop p.V other.V).bind fun ok =>
      .ok (ok && decide (p.A = other.A) && decide (p.S = other.S) && decide (p.T1 = other.T1) &&
        decide (p.T2 = other.T2) && decide (p.taux = other.taux) && decide (p.mu = other.mu) &&
        decide (p.t = other.t))

end Dusk.RP
