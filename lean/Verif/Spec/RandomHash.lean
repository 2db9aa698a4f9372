import Mathlib.Data.Fintype.BigOperators
import Mathlib.Data.Fintype.Pi
import Mathlib.SetTheory.Cardinal.Finite
import Mathlib.Data.Set.Finite.List
import Mathlib.Data.Finset.Card
import Mathlib.Tactic.Ring
import Mathlib.Algebra.Order.BigOperators.Group.Finset
import Mathlib.Algebra.BigOperators.Ring.Finset
import Verif.Go.Core
/-!
# Random functions, by counting

All functions from a finite set of inputs to the scalars. The number of those for which a computation goes wrong, divided by their
number, is the probability that it goes wrong with a hash function chosen at random.
-/

namespace Dusk.RandomHash

variable {F : Type}

/-- The hash function given by `h` on `W`; outside, it is any function `d`. -/
def on (W : Finset Bytes) (d : Bytes → F) (h : W → F) (b : Bytes) : F := if hb : b ∈ W then h ⟨b, hb⟩ else d b

theorem on_mem {W : Finset Bytes} (d : Bytes → F) (h : W → F) {b : Bytes} (hb : b ∈ W) : on W d h b = h ⟨b, hb⟩ := dif_pos hb

/-- There are such sets: the strings of at most `N` bytes. -/
theorem exists_short (N : Nat) : ∃ W : Finset Bytes, ∀ b : Bytes, b ∈ W ↔ b.length ≤ N :=
  haveI : Finite UInt8 := Finite.of_injective UInt8.toFin fun _ _ h => UInt8.toFin_inj.1 h
  ⟨(List.finite_length_le UInt8 N).toFinset, fun b => by simp⟩

/-- A computation asks its questions `q h 0, q h 1, …` to `h`, and the question `i` depends on the earlier answers only. Then for at
most `|S|` out of `|F|` functions the question `i` is a new one and the answer is in `S`. -/
theorem card_hit [Fintype F] {W : Type} [Fintype W] [DecidableEq W] (q : (W → F) → Nat → W)
    (hq : ∀ h h' i, (∀ j, j < i → h (q h j) = h' (q h j)) → q h i = q h' i) (i : Nat) (S : Finset F) :
    Fintype.card F * Nat.card {h : W → F // h (q h i) ∈ S ∧ ∀ j, j < i → q h j ≠ q h i} ≤ S.card * Fintype.card (W → F) := by
  classical
  have key : ∀ h : W → F, (∀ j, j < i → q h j ≠ q h i) → ∀ a, q (Function.update h (q h i) a) i = q h i := by
    intro h hf a
    refine (hq h _ i fun j hj => ?_).symm
    rw [Function.update_of_ne (hf j hj)]
  rw [← Nat.card_eq_fintype_card, ← Nat.card_prod, mul_comm, ← Nat.card_eq_fintype_card (α := W → F), ← Nat.card_eq_finsetCard S,
    ← Nat.card_prod]
  refine Nat.card_le_card_of_injective (fun p => (Function.update p.2.1 (q p.2.1 i) p.1, ⟨p.2.1 (q p.2.1 i), p.2.2.1⟩)) ?_
  rintro ⟨a, h, hh⟩ ⟨a', h', hh'⟩ e
  simp only [Prod.mk.injEq, Subtype.mk.injEq] at e
  have eq : q h i = q h' i := by rw [← key h hh.2 a, e.1, key h' hh'.2 a']
  have ea : a = a' := by
    have := congrFun e.1 (q h i)
    rw [Function.update_self, eq, Function.update_self] at this
    exact this
  have ehh : h = h' := by
    funext w
    by_cases hw : w = q h i
    · subst hw; rw [e.2, eq]
    · have := congrFun e.1 w
      rwa [Function.update_of_ne hw, Function.update_of_ne (by rwa [← eq])] at this
  subst ea; subst ehh; rfl

/-- For at most `T` out of `|F|` functions one of the first `T` answers is zero. -/
theorem card_zero [Fintype F] [Zero F] {W : Type} [Fintype W] [DecidableEq W] (q : (W → F) → Nat → W)
    (hq : ∀ h h' i, (∀ j, j < i → h (q h j) = h' (q h j)) → q h i = q h' i) (T : Nat) :
    Fintype.card F * Nat.card {h : W → F // ∃ i, i < T ∧ h (q h i) = 0} ≤ T * Fintype.card (W → F) := by
  classical
  have one : ∀ i, Fintype.card F * (Finset.univ.filter fun h : W → F => h (q h i) = 0 ∧ ∀ j, j < i → q h j ≠ q h i).card ≤
      Fintype.card (W → F) := by
    intro i
    have := card_hit q hq i {0}
    simpa [Nat.card_eq_fintype_card, Fintype.card_subtype] using this
  have hsub : (Finset.univ.filter fun h : W → F => ∃ i, i < T ∧ h (q h i) = 0) ⊆
      (Finset.range T).biUnion fun i => Finset.univ.filter fun h : W → F => h (q h i) = 0 ∧ ∀ j, j < i → q h j ≠ q h i := by
    intro h hh
    obtain ⟨i, hi, h0⟩ := (Finset.mem_filter.1 hh).2
    have hex : ∃ j, q h j = q h i := ⟨i, rfl⟩
    refine Finset.mem_biUnion.2 ⟨Nat.find hex, Finset.mem_range.2 ((Nat.find_min' hex rfl).trans_lt hi),
      Finset.mem_filter.2 ⟨Finset.mem_univ _, ?_, fun j hj => ?_⟩⟩
    · rw [Nat.find_spec hex]; exact h0
    · rw [Nat.find_spec hex]; exact Nat.find_min hex hj
  rw [Nat.card_eq_fintype_card, Fintype.card_subtype]
  calc _ ≤ Fintype.card F * ∑ i ∈ Finset.range T,
        (Finset.univ.filter fun h : W → F => h (q h i) = 0 ∧ ∀ j, j < i → q h j ≠ q h i).card :=
        Nat.mul_le_mul_left _ ((Finset.card_le_card hsub).trans Finset.card_biUnion_le)
    _ ≤ ∑ _i ∈ Finset.range T, Fintype.card (W → F) := by
        rw [Finset.mul_sum]; exact Finset.sum_le_sum fun i _ => one i
    _ = T * Fintype.card (W → F) := by simp

/-- One out of `|F|` functions maps a given input to zero. -/
theorem card_zero_at [Fintype F] [Zero F] {W : Type} [Fintype W] [DecidableEq W] (w : W) :
    Fintype.card (W → F) ≤ Fintype.card F * Nat.card {h : W → F // h w = 0} := by
  classical
  rw [← Nat.card_eq_fintype_card, ← Nat.card_eq_fintype_card, ← Nat.card_prod]
  refine Nat.card_le_card_of_injective (fun h => (h w, ⟨Function.update h w 0, Function.update_self _ _ _⟩)) ?_
  intro h h' e
  simp only [Prod.mk.injEq, Subtype.mk.injEq] at e
  funext v
  by_cases hv : v = w
  · rw [hv]; exact e.1
  · have := congrFun e.2 v
    rwa [Function.update_of_ne hv, Function.update_of_ne hv] at this

end Dusk.RandomHash
