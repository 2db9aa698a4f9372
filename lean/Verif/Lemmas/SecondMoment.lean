import Mathlib.Data.Fintype.BigOperators
import Mathlib.Data.Fintype.Pi
import Mathlib.Algebra.BigOperators.Ring.Finset
import Mathlib.Algebra.Order.BigOperators.Group.Finset
import Mathlib.Algebra.Order.BigOperators.Ring.Finset
import Mathlib.Algebra.Order.Ring.Int
import Mathlib.Tactic.Abel
import Mathlib.Tactic.Ring
import Mathlib.Tactic.Linarith
import Mathlib.Tactic.LinearCombination
/-!
# Most tables have a row of entries with a given sum

A table gives for each column `j` and each row `i` a value. If the values are uniform in a finite group, then among the choices of one
entry in each column there is one with a given sum, unless the table is one of a few. By counting the solutions and the pairs of solutions.
-/

namespace Dusk.Moment

variable {V H : Type}

/-- A condition on one entry of a table holds for one in `|H|` of the tables. -/
theorem card_entry {I : Type} [Fintype I] [DecidableEq I] [Fintype V] [Fintype H] [DecidableEq H] (φ : V → H) (r : Nat) (hr : 0 < r) (hφ : ∀ h, (Finset.univ.filter fun v => φ v = h).card = r) (i : I)
    (Q : (I → V) → Prop) [DecidablePred Q] (c : (I → V) → H) (hQ : ∀ u v, Q (Function.update u i v) ↔ Q u)
    (hc : ∀ u v, c (Function.update u i v) = c u) :
    Fintype.card H * (Finset.univ.filter fun u : I → V => Q u ∧ φ (u i) = c u).card = (Finset.univ.filter fun u : I → V => Q u).card := by
  have hV : Fintype.card V = Fintype.card H * r := by
    rw [← Finset.card_univ, Finset.card_eq_sum_card_fiberwise (f := φ) (t := Finset.univ) (fun _ _ => Finset.mem_coe.2 (Finset.mem_univ _))]
    rw [Finset.sum_congr rfl fun h _ => hφ h, Finset.sum_const, Finset.card_univ, smul_eq_mul]
  -- exchange the entry with a free one
  have e : ((Finset.univ.filter fun u : I → V => Q u ∧ φ (u i) = c u) ×ˢ (Finset.univ : Finset V)).card =
      ((Finset.univ.filter fun u : I → V => Q u).sigma fun u => Finset.univ.filter fun v => φ v = c u).card := by
    refine Finset.card_bij' (fun p _ => ⟨Function.update p.1 i p.2, p.1 i⟩) (fun p _ => (Function.update p.1 i p.2, p.1 i)) ?_ ?_ ?_ ?_
    · intro p hp
      have hp := Finset.mem_filter.1 (Finset.mem_product.1 hp).1
      refine Finset.mem_sigma.2 ⟨Finset.mem_filter.2 ⟨Finset.mem_univ _, (hQ _ _).2 hp.2.1⟩, Finset.mem_filter.2 ⟨Finset.mem_univ _, ?_⟩⟩
      rw [hc]
      exact hp.2.2
    · intro p hp
      have hp := Finset.mem_sigma.1 hp
      refine Finset.mem_product.2 ⟨Finset.mem_filter.2 ⟨Finset.mem_univ _, (hQ _ _).2 (Finset.mem_filter.1 hp.1).2, ?_⟩, Finset.mem_univ _⟩
      rw [hc]
      simpa using (Finset.mem_filter.1 hp.2).2
    · intro p _
      simp
    · intro p _
      simp
  rw [Finset.card_product, Finset.card_univ, hV, Finset.card_sigma, Finset.sum_congr rfl fun u _ => hφ (c u), Finset.sum_const,
    smul_eq_mul] at e
  refine Nat.eq_of_mul_eq_mul_right hr ?_
  rw [← e]
  ring

variable {J W : Type} [Fintype J] [DecidableEq J] [AddCommGroup H]

/-- The choice `e` of one row in each column has the sum wanted. -/
def Hits (φ : V → H) (z : H) (u : J × W → V) (e : J → W) : Prop := z + ∑ j, φ (u (j, e j)) = 0

instance [DecidableEq H] (φ : V → H) (z : H) (u : J × W → V) (e : J → W) : Decidable (Hits φ z u e) := inferInstanceAs (Decidable (_ = _))

theorem hits_iff (φ : V → H) (z : H) (u : J × W → V) (e : J → W) (j : J) :
    Hits φ z u e ↔ φ (u (j, e j)) = -(z + ∑ k ∈ Finset.univ.erase j, φ (u (k, e k))) := by
  rw [Hits, ← Finset.add_sum_erase _ _ (Finset.mem_univ j), ← sub_eq_zero (a := φ _)]
  constructor <;> intro h <;> rw [← h] <;> abel

theorem hits_update [DecidableEq W] (φ : V → H) (z : H) (u : J × W → V) (e : J → W) {j : J} {i : W} (h : e j ≠ i) (v : V) :
    Hits φ z (Function.update u (j, i) v) e ↔ Hits φ z u e := by
  rw [Hits, Hits]
  have : ∀ k, Function.update u (j, i) v (k, e k) = u (k, e k) := by
    intro k
    refine Function.update_of_ne (fun hk => ?_) _ _
    cases hk
    exact h rfl
  simp only [this]

theorem rest_update [DecidableEq W] (φ : V → H) (z : H) (u : J × W → V) (e : J → W) (j : J) (v : V) :
    -(z + ∑ k ∈ Finset.univ.erase j, φ (Function.update u (j, e j) v (k, e k))) = -(z + ∑ k ∈ Finset.univ.erase j, φ (u (k, e k))) := by
  congr 2
  refine Finset.sum_congr rfl fun k hk => ?_
  rw [Function.update_of_ne]
  intro h
  exact Finset.ne_of_mem_erase hk (Prod.mk.inj h).1

variable [Nonempty J] [Fintype W] [DecidableEq W] [Fintype V] [Fintype H] [DecidableEq H]

theorem card_one (φ : V → H) (r : Nat) (hr : 0 < r) (hφ : ∀ h, (Finset.univ.filter fun v => φ v = h).card = r) (z : H) (e : J → W) :
    Fintype.card H * (Finset.univ.filter fun u : J × W → V => Hits φ z u e).card = Fintype.card (J × W → V) := by
  have j : J := Classical.arbitrary J
  have h := card_entry φ r hr hφ (j, e j) (fun _ => True) (fun u => -(z + ∑ k ∈ Finset.univ.erase j, φ (u (k, e k)))) (fun _ _ => Iff.rfl)
    (fun u v => rest_update φ z u e j v)
  simp only [true_and, Finset.filter_true, Finset.card_univ] at h
  rw [← h]
  simp only [hits_iff φ z _ e j]

theorem card_two (φ : V → H) (r : Nat) (hr : 0 < r) (hφ : ∀ h, (Finset.univ.filter fun v => φ v = h).card = r) (z : H) {e e' : J → W}
    (hne : e ≠ e') : Fintype.card H ^ 2 * (Finset.univ.filter fun u : J × W → V => Hits φ z u e ∧ Hits φ z u e').card =
      Fintype.card (J × W → V) := by
  obtain ⟨j, hj⟩ := Function.ne_iff.1 hne
  have h := card_entry φ r hr hφ (j, e' j) (fun u => Hits φ z u e) (fun u => -(z + ∑ k ∈ Finset.univ.erase j, φ (u (k, e' k))))
    (fun u v => hits_update φ z u e hj v) (fun u v => rest_update φ z u e' j v)
  rw [← card_one φ r hr hφ z e, ← h]
  simp only [hits_iff φ z _ e' j]
  ring

/-- All but a fraction of `|H| / |W|^|J|` of the tables have a choice of one row in each column with the sum wanted. -/
theorem card_miss (φ : V → H) (r : Nat) (hr : 0 < r) (hφ : ∀ h, (Finset.univ.filter fun v => φ v = h).card = r) (z : H) :
    (Finset.univ.filter fun u : J × W → V => ∀ e, ¬ Hits φ z u e).card * Fintype.card W ^ Fintype.card J ≤
      Fintype.card H * Fintype.card (J × W → V) := by
  set q := Fintype.card H
  set M := Fintype.card (J × W → V)
  set D := Fintype.card W ^ Fintype.card J with hD
  have hD' : Fintype.card (J → W) = D := by rw [Fintype.card_fun]
  rcases Nat.eq_zero_or_pos D with h0 | hpos
  · rw [h0]; simp
  let N : (J × W → V) → ℤ := fun u => ∑ e : J → W, if Hits φ z u e then 1 else 0
  have s1 : (q : ℤ) * ∑ u, N u = D * M := by
    rw [Finset.sum_comm, Finset.mul_sum, ← hD', ← Finset.card_univ, ← nsmul_eq_mul, ← Finset.sum_const]
    refine Finset.sum_congr rfl fun e _ => ?_
    rw [Finset.sum_boole]
    exact_mod_cast card_one φ r hr hφ z e
  have s2 : (q : ℤ) ^ 2 * ∑ u, N u ^ 2 = D * (q * M) + D * ((D - 1) * M) := by
    have e1 : ∀ u, N u ^ 2 = ∑ e : J → W, ∑ e' : J → W, if Hits φ z u e ∧ Hits φ z u e' then (1 : ℤ) else 0 := by
      intro u
      rw [sq, Finset.sum_mul_sum]
      refine Finset.sum_congr rfl fun e _ => Finset.sum_congr rfl fun e' _ => ?_
      by_cases h : Hits φ z u e <;> by_cases h' : Hits φ z u e' <;> simp [h, h']
    rw [Finset.sum_congr rfl fun u _ => e1 u, Finset.sum_comm, Finset.mul_sum, ← mul_add (D : ℤ), ← hD', ← Finset.card_univ,
      ← nsmul_eq_mul (Finset.univ : Finset (J → W)).card, ← Finset.sum_const]
    refine Finset.sum_congr rfl fun e _ => ?_
    rw [Finset.sum_comm, ← Finset.add_sum_erase _ _ (Finset.mem_univ e), mul_add]
    congr 1
    · simp only [and_self]
      rw [Finset.sum_boole, sq, mul_assoc]
      congr 1
      exact_mod_cast card_one φ r hr hφ z e
    · rw [Finset.mul_sum]
      have : ∀ e' ∈ Finset.univ.erase e, (q : ℤ) ^ 2 * (∑ u, if Hits φ z u e ∧ Hits φ z u e' then (1 : ℤ) else 0) = M := by
        intro e' he
        rw [Finset.sum_boole]
        exact_mod_cast card_two φ r hr hφ z (Finset.ne_of_mem_erase he).symm
      rw [Finset.sum_congr rfl this, Finset.sum_const, Finset.card_erase_of_mem (Finset.mem_univ _), Finset.card_univ, nsmul_eq_mul,
        Nat.cast_sub (by rw [hD']; exact hpos)]
      simp
  -- the variance
  have s3 : ∑ u, ((q : ℤ) * N u - D) ^ 2 = (q - 1) * D * M := by
    have : ∀ u, ((q : ℤ) * N u - D) ^ 2 = q ^ 2 * N u ^ 2 - 2 * D * (q * N u) + D ^ 2 := fun u => by ring
    rw [Finset.sum_congr rfl fun u _ => this u, Finset.sum_add_distrib, Finset.sum_sub_distrib, ← Finset.mul_sum, ← Finset.mul_sum,
      ← Finset.mul_sum, s1, s2, Finset.sum_const, Finset.card_univ, nsmul_eq_mul]
    ring
  have s4 : ((Finset.univ.filter fun u : J × W → V => ∀ e, ¬ Hits φ z u e).card : ℤ) * D ^ 2 ≤ ∑ u, ((q : ℤ) * N u - D) ^ 2 := by
    rw [← nsmul_eq_mul, ← Finset.sum_const]
    refine (Finset.sum_le_sum fun u hu => ?_).trans (Finset.sum_le_sum_of_subset_of_nonneg (Finset.filter_subset _ _) fun _ _ _ => sq_nonneg _)
    have : N u = 0 := Finset.sum_eq_zero fun e _ => if_neg ((Finset.mem_filter.1 hu).2 e)
    rw [this]
    simp
  have s5 : ((Finset.univ.filter fun u : J × W → V => ∀ e, ¬ Hits φ z u e).card : ℤ) * D * D ≤ q * M * D := by
    rw [s3] at s4
    have : (0 : ℤ) ≤ D * M := by positivity
    nlinarith
  have s6 := le_of_mul_le_mul_right s5 (by exact_mod_cast hpos)
  exact_mod_cast s6

end Dusk.Moment
