import Mathlib.Tactic.FieldSimp
import Mathlib.Tactic.LinearCombination
import Mathlib.SetTheory.Cardinal.Finite
import Mathlib.Algebra.Order.BigOperators.Group.Finset
import Mathlib.Data.Fintype.Pi
import Verif.Spec.PointOracle
/-!
# Counting tables
-/

namespace Dusk.PointOracle

variable {F W : Type}

/-- The first `j` answers to questions that depend on the earlier answers. -/
def walk (q : List F → W) (p : W → F) : Nat → List F
  | 0 => []
  | j + 1 => walk q p j ++ [p (q (walk q p j))]

theorem walk_length (q : List F → W) (p : W → F) (j : Nat) : (walk q p j).length = j := by
  induction j with
  | zero => rfl
  | succ j ih => simp [walk, ih]

theorem walk_take (q : List F → W) (p : W → F) {i j : Nat} (h : i ≤ j) : (walk q p j).take i = walk q p i := by
  induction j with
  | zero => obtain rfl : i = 0 := by omega
            rfl
  | succ j ih =>
    rcases Nat.lt_or_ge j i with hc | hc
    · obtain rfl : i = j + 1 := by omega
      exact List.take_of_length_le (by rw [walk_length])
    · rw [walk, List.take_append_of_le_length (by rw [walk_length]; exact hc), ih hc]

theorem walk_get (q : List F → W) (p : W → F) {i j : Nat} (h : i < j) : (walk q p j)[i]? = some (p (q (walk q p i))) := by
  have := walk_take q p (i := i + 1) (j := j) h
  rw [← List.getElem?_take_of_lt (j := i + 1) (by omega), this, walk, List.getElem?_append_right (by rw [walk_length]), walk_length]
  simp

/-- Questions repeat only after answers have repeated. -/
def Separated (q : List F → W) (N : Nat) : Prop :=
  ∀ l : List F, ∀ i j, i < j → j < N → l.length = j → q (l.take i) = q l → ¬ l.Nodup

/-- Another answer to the last question does not change the earlier ones. -/
theorem walk_update [DecidableEq W] {q : List F → W} {N : Nat} (hq : Separated q N) {p : W → F} {j : Nat} (hj : j < N)
    (hn : (walk q p j).Nodup) (v : F) : ∀ i ≤ j, walk q (Function.update p (q (walk q p j)) v) i = walk q p i := by
  intro i hi
  induction i with
  | zero => rfl
  | succ i ih =>
    rw [walk, walk, ih (by omega), Function.update_of_ne]
    intro e
    refine hq (walk q p j) i j (by omega) hj (walk_length _ _ _) ?_ hn
    rw [walk_take q p (by omega), e]

/-- Few tables have a fresh question whose answer was given before. -/
theorem card_again [Fintype F] [DecidableEq F] [Fintype W] [DecidableEq W] {q : List F → W} {N : Nat} (hq : Separated q N) {j : Nat}
    (hj : j < N) :
    Fintype.card F * (Finset.univ.filter fun p : W → F => (walk q p j).Nodup ∧ p (q (walk q p j)) ∈ walk q p j).card ≤
      j * Fintype.card F ^ Fintype.card W := by
  classical
  have key : ((Finset.univ : Finset F) ×ˢ
      (Finset.univ.filter fun p : W → F => (walk q p j).Nodup ∧ p (q (walk q p j)) ∈ walk q p j)).card ≤
      ((Finset.range j) ×ˢ (Finset.univ : Finset (W → F))).card := by
    refine Finset.card_le_card_of_injOn
      (fun y => ((walk q y.2 j).idxOf (y.2 (q (walk q y.2 j))), Function.update y.2 (q (walk q y.2 j)) y.1)) ?_ ?_
    · rintro ⟨v, p⟩ h
      have h := (Finset.mem_filter.1 (Finset.mem_product.1 h).2).2
      simp only [Finset.coe_product, Set.mem_prod, Finset.mem_coe, Finset.mem_univ, and_true, Finset.mem_range]
      have := List.idxOf_lt_length_iff.2 h.2
      rwa [walk_length] at this
    · rintro ⟨v, p⟩ h ⟨v', p'⟩ h' e
      have h := (Finset.mem_filter.1 (Finset.mem_product.1 h).2).2
      have h' := (Finset.mem_filter.1 (Finset.mem_product.1 h').2).2
      simp only [Prod.mk.injEq] at e
      obtain ⟨e1, e2⟩ := e
      have hw : walk q p j = walk q p' j := by
        rw [← walk_update hq hj h.1 v j le_rfl, e2, walk_update hq hj h'.1 v' j le_rfl]
      rw [← hw] at e1 e2 h'
      have h3 : p (q (walk q p j)) = p' (q (walk q p j)) := by
        have g1 := List.getElem_idxOf (List.idxOf_lt_length_iff.2 h.2)
        have g2 := List.getElem_idxOf (List.idxOf_lt_length_iff.2 h'.2)
        refine g1.symm.trans (Eq.trans ?_ g2)
        simp only [e1]
      have hv : v = v' := by
        have := congrFun e2 (q (walk q p j))
        simpa using this
      subst hv
      refine Prod.ext rfl (funext fun w => ?_)
      show p w = p' w
      by_cases hc : w = q (walk q p j)
      · rw [hc, h3]
      · have := congrFun e2 w
        rwa [Function.update_of_ne hc, Function.update_of_ne hc] at this
  rw [Finset.card_product, Finset.card_product, Finset.card_univ, Finset.card_univ, Finset.card_range, Fintype.card_fun] at key
  exact key

/-- Few tables give repeated answers. -/
theorem card_repeat [Fintype F] [DecidableEq F] [Fintype W] [DecidableEq W] {q : List F → W} {N : Nat} (hq : Separated q N) :
    Fintype.card F * (Finset.univ.filter fun p : W → F => ¬ (walk q p N).Nodup).card ≤
      N ^ 2 * Fintype.card F ^ Fintype.card W := by
  have hsub : (Finset.univ.filter fun p : W → F => ¬ (walk q p N).Nodup) ⊆
      (Finset.range N).biUnion fun j =>
        Finset.univ.filter fun p : W → F => (walk q p j).Nodup ∧ p (q (walk q p j)) ∈ walk q p j := by
    intro p hp
    have hp := (Finset.mem_filter.1 hp).2
    by_contra hno
    simp only [Finset.mem_biUnion, Finset.mem_range, Finset.mem_filter, Finset.mem_univ, true_and, not_exists, not_and] at hno
    have : ∀ j ≤ N, (walk q p j).Nodup := by
      intro j
      induction j with
      | zero => intro _; exact List.nodup_nil
      | succ j ih =>
        intro hj
        have h1 := ih (by omega)
        rw [walk, List.nodup_append]
        refine ⟨h1, by simp, fun a ha b hb => ?_⟩
        rw [List.mem_singleton] at hb
        subst hb
        rintro rfl
        exact hno j (by omega) h1 ha
    exact hp (this N le_rfl)
  calc Fintype.card F * (Finset.univ.filter fun p : W → F => ¬ (walk q p N).Nodup).card
      ≤ Fintype.card F * ∑ j ∈ Finset.range N,
          (Finset.univ.filter fun p : W → F => (walk q p j).Nodup ∧ p (q (walk q p j)) ∈ walk q p j).card :=
        Nat.mul_le_mul_left _ ((Finset.card_le_card hsub).trans Finset.card_biUnion_le)
    _ = ∑ j ∈ Finset.range N, Fintype.card F *
          (Finset.univ.filter fun p : W → F => (walk q p j).Nodup ∧ p (q (walk q p j)) ∈ walk q p j).card := Finset.mul_sum _ _ _
    _ ≤ ∑ _j ∈ Finset.range N, N * Fintype.card F ^ Fintype.card W := by
        refine Finset.sum_le_sum fun j hj => (card_again hq (Finset.mem_range.1 hj)).trans ?_
        exact Nat.mul_le_mul_right _ (Finset.mem_range.1 hj).le
    _ = N ^ 2 * Fintype.card F ^ Fintype.card W := by
        rw [Finset.sum_const, Finset.card_range, smul_eq_mul, pow_two, mul_assoc]

/-- With distinct questions a repeated one shows repeated answers. -/
theorem walk_inj {q : List F → W} {N : Nat} (hq : Separated q N) {p : W → F} (hn : (walk q p N).Nodup) {i j : Nat} (hi : i < N)
    (hj : j < N) (e : q (walk q p i) = q (walk q p j)) : i = j := by
  have aux : ∀ i j, i < j → j < N → q (walk q p i) ≠ q (walk q p j) := by
    intro i j hij hj e
    refine hq (walk q p j) i j hij hj (walk_length _ _ _) ?_ ?_
    · rw [walk_take q p hij.le, e]
    · rw [← walk_take q p hj.le]
      exact hn.sublist (List.take_sublist _ _)
  rcases lt_trichotomy i j with h | h | h
  · exact absurd e (aux i j h hj)
  · exact h
  · exact absurd e.symm (aux j i h hi)

/-- A linear equation with a nonzero coefficient, for entries at different places, holds for one in `|F|` tables. -/
theorem card_linear [Field F] [Fintype F] [DecidableEq F] [Fintype W] [DecidableEq W] {N : Nat} (c : Nat → F) (w : Nat → W)
    (hw : ∀ i < N, ∀ j < N, w i = w j → i = j) (hc : ∃ j < N, c j ≠ 0) :
    Fintype.card F * (Finset.univ.filter fun b : W → F => ∑ j ∈ Finset.range N, c j * b (w j) = 0).card ≤
      Fintype.card F ^ Fintype.card W := by
  classical
  obtain ⟨k, hk, hck⟩ := hc
  have key : ((Finset.univ : Finset F) ×ˢ
      (Finset.univ.filter fun b : W → F => ∑ j ∈ Finset.range N, c j * b (w j) = 0)).card ≤ (Finset.univ : Finset (W → F)).card := by
    refine Finset.card_le_card_of_injOn (fun y => Function.update y.2 (w k) y.1) (fun _ _ => Finset.mem_univ _) ?_
    rintro ⟨v, b⟩ h ⟨v', b'⟩ h' e
    have h := (Finset.mem_filter.1 (Finset.mem_product.1 h).2).2
    have h' := (Finset.mem_filter.1 (Finset.mem_product.1 h').2).2
    have e : Function.update b (w k) v = Function.update b' (w k) v' := e
    have hv : v = v' := by simpa using congrFun e (w k)
    have ho : ∀ u, u ≠ w k → b u = b' u := fun u hu => by
      have := congrFun e u
      rwa [Function.update_of_ne hu, Function.update_of_ne hu] at this
    refine Prod.ext hv (funext fun u => ?_)
    show b u = b' u
    by_cases hu : u = w k
    · rw [hu]
      have hmem : k ∈ Finset.range N := Finset.mem_range.2 hk
      simp only at h h'
      rw [← Finset.add_sum_erase _ _ hmem] at h h'
      have : ∑ j ∈ (Finset.range N).erase k, c j * b (w j) = ∑ j ∈ (Finset.range N).erase k, c j * b' (w j) := by
        refine Finset.sum_congr rfl fun j hj => ?_
        obtain ⟨h1, h2⟩ := Finset.mem_erase.1 hj
        rw [ho _ fun e => h1 (hw j (Finset.mem_range.1 h2) k hk e)]
      rw [this] at h
      exact mul_left_cancel₀ hck (by linear_combination h - h')
    · exact ho u hu
  rw [Finset.card_product, Finset.card_univ, Finset.card_univ, Fintype.card_fun] at key
  exact key

end Dusk.PointOracle
