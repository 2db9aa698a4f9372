import Verif.Lemmas.BnGroup
/-!
# The twist of bn256: the base point of the second group, and a point outside of it
-/

namespace Dusk.BnCurve

open Curve WeierstrassCurve.Affine

theorem nat2 (n : Nat) : ((n : Nat) : Fp2) = ⟨n, 0⟩ := by
  induction n with
  | zero => refine QuadraticAlgebra.ext ?_ ?_ <;> simp
  | succ n ih =>
    rw [Nat.cast_succ, ih]
    refine QuadraticAlgebra.ext ?_ ?_
    · simp; rfl
    · simp; rfl

theorem three2 : (3 : Fp2) = ⟨3, 0⟩ := by
  have := nat2 3
  exact_mod_cast this

theorem two2 : (2 : Fp2) = ⟨2, 0⟩ := by
  have := nat2 2
  exact_mod_cast this

theorem three_ne2 : (3 : Fp2) ≠ 0 := by
  intro h
  rw [three2] at h
  exact three_ne (congrArg QuadraticAlgebra.re h)

theorem two_ne2 : (2 : Fp2) ≠ 0 := by
  intro h
  rw [two2] at h
  exact two_ne (congrArg QuadraticAlgebra.re h)

theorem xi_ne : (⟨3, 1⟩ : Fp2) ≠ 0 := fun h => one_ne_zero (congrArg QuadraticAlgebra.im h)

theorem E2_nonsingular (x y : Fp2) : E2.Nonsingular x y ↔ ⟨3, 1⟩ * (y ^ 2 - x ^ 3) = 3 := by
  have hx := xi_ne
  have key : y ^ 2 = x ^ 3 + E2.a₆ ↔ ⟨3, 1⟩ * (y ^ 2 - x ^ 3) = 3 := by
    rw [show E2.a₆ = 3 / ⟨3, 1⟩ from rfl, ← sub_eq_iff_eq_add', eq_div_iff hx, mul_comm]
  rw [← key, nonsingular_iff, equation_iff, E2_a1, E2_a2, E2_a3, E2_a4]
  constructor
  · intro h
    linear_combination h.1
  · intro h
    refine ⟨by linear_combination h, ?_⟩
    by_cases hy : y = 0
    · left
      subst hy
      have h6 : E2.a₆ ≠ 0 := div_ne_zero three_ne2 hx
      have hx0 : x ≠ 0 := by
        rintro rfl
        exact h6 (by linear_combination -h)
      intro e
      have : (3 : Fp2) * x ^ 2 = 0 := by linear_combination -e
      exact mul_ne_zero three_ne2 (pow_ne_zero 2 hx0) this
    · right
      intro e
      have : (2 : Fp2) * y = 0 := by linear_combination e
      exact mul_ne_zero two_ne2 hy this

/-- `3 + i` -/
def xi : A2.C := ((3, 1) : Nat × Nat)

/-- `3` -/
def c3 : A2.C := ((3, 0) : Nat × Nat)

/-- The equation of the twist, on residues. -/
def onTwist (x y : A2.C) : Bool :=
  A2.eqb (A2.mul xi (A2.sub (A2.mul y y) (A2.mul x (A2.mul x x)))) c3

theorem nonsingular2 {x y : A2.C} (h : onTwist x y = true) : E2.Nonsingular (A2.val x) (A2.val y) := by
  have h := A2.eqb_sound _ _ h
  simp only [A2.val_mul, A2.val_sub] at h
  rw [E2_nonsingular, three2]
  have e1 : A2.val xi = ⟨3, 1⟩ := by
    refine QuadraticAlgebra.ext ?_ ?_
    · exact Nat.cast_ofNat
    · exact Nat.cast_one
  have e2 : A2.val c3 = ⟨3, 0⟩ := by
    refine QuadraticAlgebra.ext ?_ ?_
    · exact Nat.cast_ofNat
    · exact Nat.cast_zero
  rw [e1, e2] at h
  rw [← h]
  ring

theorem g2_onTwist : onTwist g2x g2y = true := by decide +kernel

/-- The base point of the second group. -/
noncomputable def base2 : E2.Point := .some _ _ (nonsingular2 g2_onTwist)

theorem base2_order : addOrderOf base2 = r :=
  order_eq (annihilates A2 E2_a1 E2_a2 E2_a3 E2_a4 (nonsingular2 g2_onTwist) check2) (Point.some_ne_zero _)

/-- A point of the twist with first coordinate 1. -/
def qx : Nat × Nat := (1, 0)
def qy : Nat × Nat := (60017546380119062826957397408017377348850932045349023667004598817198945910585, 817582143740061302333002282166865739860407669707778357189292805180780962832)

theorem q_onTwist : onTwist qx qy = true := by decide +kernel

/-- `(r - 1)` times the point has another first coordinate. -/
def checkQ : Bool :=
  match A2.run qx qy (bitsOf 300 (r - 1) []) qx qy with
  | none => false
  | some s => s.1.1 % p != 1

theorem checkQ_true : checkQ = true := by decide +kernel

noncomputable def pointQ : E2.Point := .some _ _ (nonsingular2 q_onTwist)

theorem pointQ_order : r • pointQ ≠ 0 := by
  have hc := checkQ_true
  unfold checkQ at hc
  split at hc
  · cases hc
  · rename_i s hs
    have hone : IsMul E2 pointQ 1 (A2.val qx) (A2.val qy) := ⟨nonsingular2 q_onTwist, one_smul _ _⟩
    obtain ⟨h', e⟩ := run_sound A2 E2_a1 E2_a2 E2_a3 E2_a4 hone _ 1 qx qy s hone hs
    intro h0
    rw [← bits_r, add_smul, one_smul, e, pointQ] at h0
    have hne : A2.val s.1 ≠ A2.val qx := by
      intro e
      have e := congrArg QuadraticAlgebra.re e
      have e : ((s.1.1 : Nat) : Fp) = ((1 : Nat) : Fp) := e
      rw [ZMod.natCast_eq_natCast_iff'] at e
      rw [e] at hc
      revert hc
      decide +kernel
    rw [Point.add_of_X_ne hne] at h0
    exact Point.some_ne_zero _ h0

end Dusk.BnCurve
