import Mathlib.Algebra.Polynomial.Roots
import Mathlib.Algebra.Polynomial.BigOperators
/-!
# Few roots
-/

namespace Dusk

variable {F : Type} [Field F]

/-- If `∑ c_j z^j` vanishes at `m` distinct points, all the coefficients are zero. -/
theorem coeffs_zero {m : Nat} (c : Nat → F) (S : Finset F) (hS : m ≤ S.card)
    (h : ∀ z ∈ S, ∑ j ∈ Finset.range m, c j * z ^ j = 0) : ∀ j < m, c j = 0 := by
  classical
  let p : Polynomial F := ∑ j ∈ Finset.range m, Polynomial.C (c j) * Polynomial.X ^ j
  have hev : ∀ z, p.eval z = ∑ j ∈ Finset.range m, c j * z ^ j := by
    intro z
    simp [p, Polynomial.eval_finsetSum]
  have hco : ∀ j < m, p.coeff j = c j := by
    intro j hj
    simp only [p, Polynomial.finsetSum_coeff, Polynomial.coeff_C_mul_X_pow]
    rw [Finset.sum_eq_single j]
    · simp
    · intro b _ hb
      rw [if_neg (Ne.symm hb)]
    · intro h; exact absurd (Finset.mem_range.2 hj) h
  have hp : p = 0 := by
    rcases Nat.eq_zero_or_pos m with hm | hm
    · subst hm; simp [p]
    · by_contra hp
      have hdeg : p.natDegree < m := by
        have : p.natDegree ≤ m - 1 := Polynomial.natDegree_sum_le_of_forall_le _ _ fun j hj => by
          refine (Polynomial.natDegree_C_mul_X_pow_le (c j) j).trans ?_
          have := Finset.mem_range.1 hj; omega
        omega
      have h2 : S.card ≤ p.natDegree := by
        refine Polynomial.card_le_degree_of_subset_roots ?_
        intro z hz
        rw [Polynomial.mem_roots hp, Polynomial.IsRoot.def, hev]
        exact h z hz
      omega
  intro j hj
  rw [← hco j hj, hp, Polynomial.coeff_zero]

end Dusk
