import Mathlib.Algebra.QuadraticAlgebra.Basic
import Mathlib.NumberTheory.LegendreSymbol.Basic
import Mathlib.AlgebraicGeometry.EllipticCurve.Affine.Point
import Verif.Lemmas.PrimeBn
/-!
# The two curves of bn256

The library used by package bls works on the Barreto–Naehrig curve `y² = x³ + 3` with parameter `u = 1868033³`, and on its sextic
twist `y² = x³ + 3 / (i + 3)`. Here they are written with the definitions of Mathlib: the field of integers modulo a prime, the
quadratic extension by a root `i` of `-1`, and the group of points of a Weierstrass curve.
-/

namespace Dusk.BnCurve

/-- The order of the field: `36 u⁴ + 36 u³ + 24 u² + 6 u + 1`. -/
def p : Nat := 65000549695646603732796438742359905742825358107623003571877145026864184071783

/-- The order of the groups: `36 u⁴ + 36 u³ + 18 u² + 6 u + 1`. -/
def r : Nat := 65000549695646603732796438742359905742570406053903786389881062969044166799969

instance fact_p : Fact p.Prime := ⟨PrimeBn.prime_p⟩
instance fact_r : Fact r.Prime := ⟨PrimeBn.prime_r⟩

/-- The field of the curve. -/
abbrev Fp : Type := ZMod p

/-- `-1` is not a square: `p` is 3 modulo 4. -/
instance noRoot : Fact (∀ s : Fp, s ^ 2 ≠ (-1) + 0 * s) := ⟨fun s h => by
  have : IsSquare (-1 : ZMod p) := ⟨s, by rw [← sq, h]; ring⟩
  rw [ZMod.exists_sq_eq_neg_one_iff] at this
  exact this (by decide +kernel)⟩

/-- The field of the twist: `re + im i` with `i² = -1`. -/
abbrev Fp2 : Type := QuadraticAlgebra Fp (-1) 0

/-- `y² = x³ + 3`. -/
noncomputable def E1 : WeierstrassCurve.Affine Fp := ⟨0, 0, 0, 0, 3⟩

/-- `y² = x³ + 3 / (i + 3)`. -/
noncomputable def E2 : WeierstrassCurve.Affine Fp2 := ⟨0, 0, 0, 0, 3 / ⟨3, 1⟩⟩

end Dusk.BnCurve
