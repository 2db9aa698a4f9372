import Verif.Model.Ristretto
/-!
# Model of package blsag

`Sign` leaves all entries of its ring except its own at the Go zero value of `ristretto.Point`. That value is not the
neutral element nor any other group element (all its projective coordinates are zero), and the library does not specify what
its methods return on it. So here a point is an element of a type `P` of raw values, into which the group is embedded; the
operations on other raw values are unspecified functions.
-/

namespace Dusk.Blsag

variable {F G : Type} [Field F] [AddCommGroup G] [Module F G]

/-- `ristretto.Point` including values that represent no group element. -/
structure Raw (F G P : Type) where
  /-- representation of a group element -/
  inj : G → P
  /-- the Go zero value `ristretto.Point{}` -/
  zero : P
  smulBase : F → P
  smul : P → F → P
  add : P → P → P
  bytes : P → Bytes
  derive : Bytes → P

/-- On representations of group elements the methods compute the group operations. -/
structure Raw.Lawful {P : Type} (V : Raw F G P) (R : Ristretto F G) : Prop where
  smulBase : ∀ s, V.smulBase s = V.inj (s • R.base)
  smul : ∀ g s, V.smul (V.inj g) s = V.inj (s • g)
  add : ∀ a b, V.add (V.inj a) (V.inj b) = V.inj (a + b)
  bytes : ∀ g, V.bytes (V.inj g) = R.pBytes g
  derive : ∀ b, V.derive b = V.inj (R.pDerive b)

/-- `RingSignature` (ringsig/blsag/blsag.go:12-17). -/
structure RingSignature (F P : Type) where
  I : P
  C : F
  S : List F
  pubKeys : List P

/-- Random choices of `Sign`: `rand.Intn(n)` is `position % n`; `alpha`; `s.Rand()` for index `i`. -/
structure Coins (F : Type) where
  position : Nat
  alpha : F
  s : Nat → F

variable {P : Type}

/-- `computeCLR` (ringsig/blsag/blsag.go:165-189) with `appendToBuf` (ringsig/blsag/blsag.go:191-196). -/
def computeCLR (R : Ristretto F G) (V : Raw F G P) (m : Bytes) (I pubKey : P) (s c : F) : F × P × P :=
  let h := V.derive (V.bytes pubKey)
  let L := V.add (V.smulBase s) (V.smul pubKey c)
  let Rp := V.add (V.smul h s) (V.smul I c)
  (R.sDerive (m ++ V.bytes L ++ V.bytes Rp), L, Rp)

/-- The loop of `Sign` (lines 73-86): `for i := j + 1; ; i++`; state is `cVals` and `cPlus1`. The number bounds the iterations; `signLoop_run`
shows that the break is reached. -/
def signLoop (R : Ristretto F G) (V : Raw F G P) (m : Bytes) (I : P) (pubKeys : List P) (sVals : List F) (j : Nat) :
    Nat → Nat → List F × F → Res (List F × F)
  | 0, _, _ => .panic
  | fuel + 1, i, st =>
    let l := i % pubKeys.length
    if l = j then .ok st
    else
      let k := (i + 1) % pubKeys.length
      (idx pubKeys l).bind fun pk =>
      (idx sVals l).bind fun s =>
      let c := (computeCLR R V m I pk s st.2).1
      signLoop R V m I pubKeys sVals j fuel (i + 1) (st.1.set k c, c)

/-- `Sign` (ringsig/blsag/blsag.go:21-100). -/
def sign (R : Ristretto F G) (V : Raw F G P) (m : Bytes) (mixin : List P) (sK : F) (coins : Coins F) :
    Res (RingSignature F P) :=
  let pK := V.smulBase sK
  let n := mixin.length + 1
  let j := coins.position % n
  let hPK := V.derive (V.bytes pK)
  let I := V.smul hPK sK
  let sVals := (List.range n).map fun i => if i = 0 then 0 else coins.s i
  let cVals := List.replicate n (0 : F)
  let Lj := V.smulBase coins.alpha
  let Rj := V.smul hPK coins.alpha
  let cPlus1 := R.sDerive (m ++ V.bytes Lj ++ V.bytes Rj)
  let cVals := cVals.set ((j + 1) % n) cPlus1
  let pubKeys := (List.replicate n V.zero).set j pK
  (signLoop R V m I pubKeys sVals j n (j + 1) (cVals, cPlus1)).bind fun st =>
  let sj := -(st.2 * sK) + coins.alpha
  (idx st.1 0).bind fun c0 =>
  .ok ⟨I, c0, sVals.set j sj, pubKeys⟩

/-- The first loop of `Verify`, at index `i` with all keys from `i` on; state is `Cs`, `Ls`, `Rs` and `currC`. -/
def verifyLoop (R : Ristretto F G) (V : Raw F G P) (m : Bytes) (I : P) (S : List F) (n : Nat) :
    Nat → List P → List F × List P × List P × F → Res (List F × List P × List P × F)
  | _, [], st => .ok st
  | i, pk :: pks, (Cs, Ls, Rs, currC) =>
    (idx S i).bind fun s =>
    let r := computeCLR R V m I pk s currC
    verifyLoop R V m I S n (i + 1) pks (Cs.set ((i + 1) % n) r.1, Ls.set i r.2.1, Rs.set i r.2.2, r.1)

/-- The second loop of `Verify`: all indices of `Cs`. -/
def checkLoop [DecidableEq F] (R : Ristretto F G) (V : Raw F G P) (m : Bytes) (Cs : List F) (Ls Rs : List P) : List Nat → Res Bool
  | [] => .ok true
  | i :: is =>
    (idx Ls i).bind fun L =>
    (idx Rs i).bind fun Rp =>
    (idx Cs ((i + 1) % Cs.length)).bind fun c =>
    if c ≠ R.sDerive (m ++ V.bytes L ++ V.bytes Rp) then .ok false else checkLoop R V m Cs Ls Rs is

/-- `Verify` (ringsig/blsag/blsag.go:104-162). Scalars are compared as values. -/
def verify [DecidableEq F] (R : Ristretto F G) (V : Raw F G P) (m : Bytes) (sig : RingSignature F P) : Res Bool :=
  let n := sig.pubKeys.length
  (verifyLoop R V m sig.I sig.S n 0 sig.pubKeys
    (List.replicate n (0 : F), List.replicate n V.zero, List.replicate n V.zero, sig.C)).bind fun st =>
  let Cs := st.1
  let Ls := st.2.1
  let Rs := st.2.2.1
  if Ls.length ≠ Rs.length ∧ Rs.length ≠ Cs.length then .ok false
  else
    (checkLoop R V m Cs Ls Rs (List.range Cs.length)).bind fun ok =>
    if !ok then .ok false
    else (idx Cs 0).bind fun c0 => if c0 ≠ sig.C then .ok false else .ok true

end Dusk.Blsag
