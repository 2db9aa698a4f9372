import Verif.Spec.RPAlgebraic
/-!
# Two accepted range proofs with the same points
-/

namespace Dusk.RP

variable {F G : Type} [Field F] [AddCommGroup G] [Module F G]

/-- The two proofs have the same points. -/
structure SamePoints (p p' : Proof F G) : Prop where
  V : (p.V.map fun V => V.value) = p'.V.map fun V => V.value
  A : p.A = p'.A
  S : p.S = p'.S
  T1 : p.T1 = p'.T1
  T2 : p.T2 = p'.T2
  L : p.inner.L = p'.inner.L
  R : p.inner.R = p'.inner.R

/-- The two proofs have the same scalars. -/
structure SameScalars (p p' : Proof F G) : Prop where
  t : p.t = p'.t
  taux : p.taux = p'.taux
  mu : p.mu = p'.mu
  a : p.inner.A = p'.inner.A
  b : p.inner.B = p'.inner.B

/-- No challenge that is inverted is zero. -/
def Invertible (R : Ristretto F G) (p : Proof F G) : Prop :=
  (chalOf R p).y ≠ 0 ∧ ∀ u ∈ IP.challenges R p.inner.L p.inner.R, u ≠ 0

/-- `Verify` accepts with two different coins, so for every coin (C63). -/
def AcceptedTwice [DecidableEq F] [DecidableEq G] (R : Ristretto F G) (m : Nat) (p : Proof F G) : Prop :=
  ∃ c d, c ≠ d ∧ verify R m p c = .ok true ∧ verify R m p d = .ok true

/-- The relation between the value base and the blinding base. -/
def diff1 (p p' : Proof F G) : Coef F := ((0 : Nat → F), (0 : Nat → F), p.t - p'.t, p.taux - p'.taux)

/-- The relation between all public points. -/
def diff2 (R : Ristretto F G) (p p' : Proof F G) : Coef F :=
  let us := IP.challenges R p.inner.L p.inner.R
  (fun i => (p.inner.A - p'.inner.A) * IP.weight us i,
   fun i => (p.inner.B - p'.inner.B) * (IP.weight us i)⁻¹ * (chalOf R p).y⁻¹ ^ i,
   (chalOf R p).w * (p.inner.A * p.inner.B - p.t) - (chalOf R p').w * (p'.inner.A * p'.inner.B - p'.t),
   p.mu - p'.mu)

open Classical in
/-- The first of the two relations unless it is trivial. -/
noncomputable def diff (R : Ristretto F G) (n : Nat) (p p' : Proof F G) : Coef F :=
  if (diff1 p p').Nonzero n then diff1 p p' else diff2 R p p'

end Dusk.RP
