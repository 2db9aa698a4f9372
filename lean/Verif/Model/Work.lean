import Verif.Model.RangeProof
/-!
# What `Verify` of package rangeproof computes, also when it fails

The functions called by `Verify` are written again with a count of
* the scalars written into slices (32 bytes each),
* the multiplications of a point by a scalar,
* the generators computed.

`Lemmas/Work.lean` shows that leaving the counts out gives back the functions of `Model/RangeProof.lean`.
-/

namespace Dusk.RP

/-- The counters. -/
structure Cost where
  scalars : Nat := 0
  mults : Nat := 0
  gens : Nat := 0
  deriving DecidableEq

/-- One after the other. -/
def Cost.add (a b : Cost) : Cost := ⟨a.scalars + b.scalars, a.mults + b.mults, a.gens + b.gens⟩

/-- The outcome of a call and what was computed until it returned. -/
structure Counted (α : Type) where
  res : Res α
  cost : Cost

namespace Counted

/-- Nothing to compute. -/
def lift {α : Type} (r : Res α) : Counted α := ⟨r, {}⟩

/-- Sequencing: what was computed before an error or a panic stays counted. -/
def bind {α β : Type} (m : Counted α) (f : α → Counted β) : Counted β :=
  match m.res with
  | .ok a => ⟨(f a).res, m.cost.add (f a).cost⟩
  | .err e => ⟨.err e, m.cost⟩
  | .panic => ⟨.panic, m.cost⟩

/-- A scalar is written into a slice. -/
def scalar {α : Type} (a : α) : Counted α := ⟨.ok a, { scalars := 1 }⟩

/-- A point is multiplied. -/
def mult {α : Type} (a : α) : Counted α := ⟨.ok a, { mults := 1 }⟩

/-- A loop that writes one scalar in every iteration. -/
def map {α β : Type} (f : α → β) : List α → Counted (List β)
  | [] => lift (.ok [])
  | a :: as => (scalar (f a)).bind fun b => (map f as).bind fun bs => lift (.ok (b :: bs))

end Counted

open Counted

variable {F G : Type} [Field F] [AddCommGroup G] [Module F G] [DecidableEq F]

/-- The loop computing the challenges (rangeproof/innerproduct/innerproduct.go:281-284). -/
def chalLoopW (R : Ristretto F G) : HashCacher → List (G × G) → Counted (List F)
  | _, [] => lift (.ok [])
  | hs, (l, r) :: rest =>
    let hs := hs.append [R.pBytes l, R.pBytes r]
    (scalar (hs.derive R)).bind fun x => (chalLoopW R hs rest).bind fun xs => lift (.ok (x :: xs))

/-- The loop of step 4 (rangeproof/innerproduct/innerproduct.go:323-333). -/
def sLoopW (chalSq : List F) (lgN : Nat) : Nat → Nat → List F → Counted (List F)
  | 0, _, s => lift (.ok s)
  | rem + 1, i, s =>
    let lgI := Nat.log2 i
    if lgN < lgI + 1 then lift .panic
    else
      (lift (idx chalSq (lgN - 1 - lgI))).bind fun u =>
      (lift (idx s (i - 2 ^ lgI))).bind fun x =>
      (scalar (x * u)).bind fun y => sLoopW chalSq lgN rem (i + 1) (s ++ [y])

/-- `Proof.VerifScalars` (rangeproof/innerproduct/innerproduct.go:267-336). -/
def verifScalarsW (R : Ristretto F G) (p : IP.Proof F G) : Counted (List F × List F × List F) :=
  if p.L.length ≠ p.R.length then lift (.ok ([], [], []))
  else
    let lgN := p.L.length
    let n := 2 ^ lgN % 2 ^ 32
    (chalLoopW R {} (p.L.zip p.R)).bind fun xChals =>
    (map (fun x => x⁻¹) xChals).bind fun invXChals =>
    let invProd := invXChals.foldl (fun acc x => acc * x) 1
    (map (fun x => x * x) xChals).bind fun chalSq =>
    (map (fun x => x * x) invXChals).bind fun invChalSq =>
    (scalar invProd).bind fun invProd =>
    (sLoopW chalSq lgN (n - 1) 1 [invProd]).bind fun s => lift (.ok (chalSq, invChalSq, s))

/-- The loop of `Exp` (rangeproof/vector/vector.go:128-138). -/
def expLoopW : List (F × G) → G → Counted G
  | [], acc => lift (.ok acc)
  | q :: qs, acc => (mult (q.1 • q.2)).bind fun t => expLoopW qs (acc + t)

/-- `Exp` (rangeproof/vector/vector.go:116-141). -/
def expW (a : List F) (b : List G) (N M : Int) : Counted G :=
  if a.length ≠ b.length then
    lift (.err "length of slice of scalars a does not equal length of slices of points b")
  else if (a.length : Int) < N * M then lift (.err "length of scalar a is not less than N*M")
  else expLoopW (a.zip b) 0

/-- A function returning a fresh slice of scalars. -/
def fresh (r : Res (List F)) : Counted (List F) :=
  match r with
  | .ok a => ⟨.ok a, { scalars := a.length }⟩
  | .err e => ⟨.err e, {}⟩
  | .panic => ⟨.panic, {}⟩

/-- `sumZMTwoN` (rangeproof/poly.go:159-201): two vectors of powers and the result. -/
def sumZMTwoNW (z : F) (m : Nat) : Counted (List F) :=
  (fresh (.ok (Vec.scalarPowers z ((m + 3) % 2 ^ 32)))).bind fun _ =>
  (fresh (.ok (Vec.scalarPowers (2 : F) nBits))).bind fun _ => fresh (sumZMTwoN z m)

/-- `SubScalar` (rangeproof/vector/vector.go:70-83) returns its argument for `b = 0`. -/
def subScalarW (a : List F) (b : F) : Counted (List F) :=
  if b = 0 then lift (.ok a) else map (fun x => x - b) a

/-- The loop over `zM` computing `c9` (rangeproof/rangeproof.go:456-461). -/
def c9LoopW : List F → List (Commitment F G) → G → Counted G
  | [], _, acc => lift (.ok acc)
  | z :: zs, V :: Vs, acc => (mult (z • V.value)).bind fun t => c9LoopW zs Vs (acc + t)
  | _ :: _, [], _ => lift .panic

/-- `megacheckWithC` (rangeproof/rangeproof.go:353-493). -/
def megacheckW [DecidableEq G] (R : Ristretto F G) (rd : VReads) (c : F) (ipproof : Option (IP.Proof F G))
    (mu x y z t taux w : F) (A Gp Hp S T1 T2 : G) (GVec HVec : List G) (V : List (Commitment F G)) : Counted Bool :=
  match ipproof with
  | none => lift .panic
  | some ip =>
    (verifScalarsW R ip).bind fun vs =>
    let uSq := vs.1; let uInvSq := vs.2.1; let s := vs.2.2
    (map (fun x => x) s).bind fun sInv =>
    (map (fun x => x * ip.A) s).bind fun as =>
    (map (fun x => x + z) as).bind fun g =>
    (map (fun x => x * c) g).bind fun g =>
    (expW g GVec GVec.length 1).bind fun c1 =>
    (map (fun x => x * ip.B) sInv.reverse).bind fun bs =>
    (sumZMTwoNW z rd.sum).bind fun zAnd2 =>
    (fresh (Vec.sub bs zAnd2)).bind fun h =>
    (fresh (.ok (Vec.scalarPowers y⁻¹ ((nBits * rd.hpf) % 2 ^ 32)))).bind fun Hpf =>
    (fresh (Vec.hadamard h Hpf)).bind fun h =>
    (subScalarW h z).bind fun h =>
    (map (fun x => x * c) h).bind fun h =>
    (expW h HVec HVec.length 1).bind fun c2 =>
    let delta := computeDelta y z nBits (rd.delta % 2 ^ 32)
    (mult ((c * w * (ip.A * ip.B - t) + (t - delta)) • Gp)).bind fun c3 =>
    (mult ((mu * c + taux) • Hp)).bind fun c4 =>
    (mult (c • A)).bind fun c5 =>
    (mult ((c * x) • S)).bind fun c6 =>
    (expW uSq ip.L ip.L.length 1).bind fun c7 =>
    (mult (c • c7)).bind fun c7 =>
    (expW uInvSq ip.R ip.R.length 1).bind fun c8 =>
    (mult (c • c8)).bind fun c8 =>
    (fresh (.ok (Vec.scalarPowers z (rd.zM % 2 ^ 32)))).bind fun zM =>
    (map (fun x => x * (z * z)) zM).bind fun zM =>
    (c9LoopW zM V 0).bind fun c9 =>
    (mult (x • T1)).bind fun c10 =>
    (mult ((x * x) • T2)).bind fun c11 =>
    if c1 + c2 + c3 + c4 - c5 - c6 - c7 - c8 - c9 - c10 - c11 = 0 then lift (.ok true) else lift (.err "megacheck failed")

/-- `ped.BaseVector.Compute(uint32(N * M))` on a new vector: one generator per entry. -/
def gensW (bases : List G) : Counted (List G) := ⟨.ok bases, { gens := bases.length }⟩

/-- `Verify` (rangeproof/rangeproof.go:323-351), given the values of `M` it reads and the random scalar `c`. -/
def verifyW [DecidableEq G] (R : Ristretto F G) (rd : VReads) (p : Proof F G) (c : F) : Counted Bool :=
  let ped := newPed R rd.base
  (gensW ped.baseVector.bases).bind fun Gs =>
  (gensW ((Pedersen.new R (genData ++ [1])).baseVector.compute R ((nBits * rd.base2) % 2 ^ 32)).bases).bind fun Hs =>
  let ch := verifyChallenges R p
  megacheckW R rd c p.ip p.mu ch.2.2.1 ch.1 ch.2.1 p.t p.taux ch.2.2.2 p.A ped.basePoint ped.blindPoint p.S p.T1
    p.T2 Gs Hs p.V

end Dusk.RP
