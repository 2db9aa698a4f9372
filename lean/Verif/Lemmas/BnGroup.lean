import Verif.Lemmas.BnOrder
import Mathlib.GroupTheory.Perm.Cycle.Type
import Mathlib.GroupTheory.SpecificGroups.Cyclic
/-!
# The group of points of the curve of bn256 has order `r`

Every `x` has at most two `y`, so there are at most `2p + 1` points; the order `r` of the base point divides their number; and
there is no point of order two, since `-3` is not a cube modulo `p`.
-/

namespace Dusk.BnCurve

open Curve WeierstrassCurve.Affine

theorem E1_a1 : E1.a₁ = 0 := rfl
theorem E1_a2 : E1.a₂ = 0 := rfl
theorem E1_a3 : E1.a₃ = 0 := rfl
theorem E1_a4 : E1.a₄ = 0 := rfl
theorem E2_a1 : E2.a₁ = 0 := rfl
theorem E2_a2 : E2.a₂ = 0 := rfl
theorem E2_a3 : E2.a₃ = 0 := rfl
theorem E2_a4 : E2.a₄ = 0 := rfl

theorem two_ne : (2 : Fp) ≠ 0 := by
  intro h
  have : ((2 : Nat) : Fp) = 0 := by exact_mod_cast h
  rw [ZMod.natCast_eq_zero_iff] at this
  revert this
  decide +kernel

theorem three_ne : (3 : Fp) ≠ 0 := by
  intro h
  have : ((3 : Nat) : Fp) = 0 := by exact_mod_cast h
  rw [ZMod.natCast_eq_zero_iff] at this
  revert this
  decide +kernel

theorem cubic_check : PrimeEll.pm' (p - 3) p 300 ((p - 1) / 3) ≠ 1 := by decide +kernel

theorem pow_ne_of_pm {m a k f : Nat} (hk : k < 2 ^ f) (hm : 1 < m) (h : PrimeEll.pm' a m f k ≠ 1) : (a : ZMod m) ^ k ≠ 1 := by
  intro e
  rw [← Nat.cast_pow, ← Nat.cast_one, ZMod.natCast_eq_natCast_iff', Nat.mod_eq_of_lt hm] at e
  exact h (by rw [PrimeEll.pm'_eq, PrimeEll.pm_eq _ _ _ _ hk, e])

/-- `-3` is not a cube. -/
theorem no_root (x : Fp) : x ^ 3 + 3 ≠ 0 := by
  intro h
  have hx : x ≠ 0 := by
    rintro rfl
    exact three_ne (by linear_combination h)
  have h3 : x ^ 3 = ((p - 3 : Nat) : Fp) := by
    rw [Nat.cast_sub (by decide +kernel), ZMod.natCast_self]
    push_cast
    linear_combination h
  have h1 : ((p - 3 : Nat) : Fp) ^ ((p - 1) / 3) = 1 := by
    rw [← h3, ← pow_mul, show 3 * ((p - 1) / 3) = p - 1 by decide +kernel, ZMod.pow_card_sub_one_eq_one hx]
  exact pow_ne_of_pm (by decide +kernel) (by decide +kernel) cubic_check h1

theorem neg_ne {y : Fp} (hy : y ≠ 0) : y + y ≠ 0 := by
  rw [← two_mul]; exact mul_ne_zero two_ne hy

theorem E1_nonsingular (x y : Fp) : E1.Nonsingular x y ↔ y ^ 2 = x ^ 3 + 3 := by
  constructor
  · intro h
    have := (equation_iff _ _).1 h.1
    rw [E1_a1, E1_a2, E1_a3, E1_a4, show E1.a₆ = 3 from rfl] at this
    linear_combination this
  · intro h
    refine nonsingular_of E1_a1 E1_a2 E1_a3 E1_a4 (neg_ne ?_) h
    rintro rfl
    exact no_root x (by rw [← h]; ring)

theorem odd_p : p % 2 = 1 := by decide +kernel

/-- A point is determined by the first coordinate and the parity of the second. -/
noncomputable def tag : E1.Point → Option (Fp × Bool)
  | .zero => none
  | .some x y _ => some (x, y.val % 2 == 0)

theorem tag_injective : Function.Injective tag := by
  rintro (_ | ⟨x, y, h⟩) (_ | ⟨x', y', h'⟩) he
  · rfl
  · cases he
  · cases he
  · simp only [tag, Option.some.injEq, Prod.mk.injEq] at he
    obtain ⟨rfl, hb⟩ := he
    have e : y ^ 2 = y' ^ 2 := by rw [(E1_nonsingular _ _).1 h, (E1_nonsingular _ _).1 h']
    rcases sq_eq_sq_iff_eq_or_eq_neg.1 e with rfl | rfl
    · rfl
    · exfalso
      have hy' : y' ≠ 0 := by
        rintro rfl
        exact no_root x (by rw [← (E1_nonsingular _ _).1 h']; ring)
      have : NeZero y' := ⟨hy'⟩
      have hv := ZMod.val_neg_of_ne_zero y'
      have hlt := ZMod.val_lt y'
      have ho := odd_p
      rw [hv, Bool.eq_iff_iff] at hb
      simp only [beq_iff_eq] at hb
      omega

instance : Finite E1.Point := Finite.of_injective tag tag_injective

theorem card_le : Nat.card E1.Point ≤ 2 * p + 1 := by
  refine (Nat.card_le_card_of_injective tag tag_injective).trans ?_
  rw [Finite.card_option, Nat.card_prod, Nat.card_zmod, Nat.card_eq_fintype_card, Fintype.card_bool]
  omega

theorem g1_nonsingular : E1.Nonsingular (A1.val g1x) (A1.val g1y) := by
  rw [E1_nonsingular]
  change ((p - 2 : Nat) : Fp) ^ 2 = ((1 : Nat) : Fp) ^ 3 + 3
  rw [Nat.cast_sub (by decide +kernel), ZMod.natCast_self]
  push_cast
  ring

/-- The base point of the first group. -/
noncomputable def base1 : E1.Point := .some _ _ g1_nonsingular

theorem base1_order : addOrderOf base1 = r :=
  order_eq (annihilates A1 E1_a1 E1_a2 E1_a3 E1_a4 g1_nonsingular check1) (Point.some_ne_zero _)

theorem no_two (P : E1.Point) : addOrderOf P ≠ 2 := by
  intro h
  have h0 : P ≠ 0 := by rintro rfl; simp at h
  have h2 : P + P = 0 := by rw [← two_nsmul, ← h]; exact addOrderOf_nsmul_eq_zero P
  rcases P with _ | ⟨x, y, hn⟩
  · exact h0 rfl
  · have hy : y = 0 := by
      by_contra hy
      have : y ≠ E1.negY x y := by
        simp only [negY, E1_a1, E1_a3]
        intro e
        exact neg_ne hy (by linear_combination e)
      rw [Point.add_self_of_Y_ne this] at h2
      exact Point.some_ne_zero _ h2
    subst hy
    exact no_root x (by rw [← (E1_nonsingular _ _).1 hn]; ring)

theorem card_E1 : Nat.card E1.Point = r := by
  obtain ⟨k, hk⟩ : r ∣ Nat.card E1.Point := base1_order ▸ addOrderOf_dvd_natCard base1
  have hpos : 0 < Nat.card E1.Point := Nat.card_pos
  have hle := card_le
  have h3 : 2 * p + 1 < r * 3 := by decide +kernel
  have hk3 : k < 3 := by
    rw [hk] at hle
    exact Nat.lt_of_mul_lt_mul_left (hle.trans_lt h3)
  have hk0 : k ≠ 0 := by rintro rfl; rw [hk] at hpos; exact Nat.lt_irrefl _ hpos
  have hk2 : k ≠ 2 := by
    rintro rfl
    obtain ⟨P, hP⟩ := exists_prime_addOrderOf_dvd_card' (G := E1.Point) 2 (hk ▸ Dvd.intro_left r rfl)
    exact no_two P hP
  rw [hk, show k = 1 by omega, mul_one]

theorem mem_multiples {G : Type} [AddGroup G] [Finite G] (hc : Nat.card G = r) {Q : G} (hQ : Q ≠ 0) (P : G) :
    ∃ k < r, P = k • Q := by
  classical
  have : P ∈ AddSubgroup.zmultiples Q := mem_zmultiples_of_prime_card hc hQ
  have ho : addOrderOf Q = r := addOrderOf_eq_prime_iff.2 ⟨by rw [← hc]; exact card_nsmul_eq_zero', hQ⟩
  rw [mem_zmultiples_iff_mem_range_addOrderOf, ho] at this
  simp only [Finset.mem_image, Finset.mem_range] at this
  obtain ⟨k, hk, e⟩ := this
  exact ⟨k, hk, e.symm⟩

end Dusk.BnCurve
