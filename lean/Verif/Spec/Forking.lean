import Mathlib.Algebra.Order.Chebyshev
import Mathlib.Logic.Equiv.Fin.Basic
import Verif.Spec.Oracle
/-!
# Rewinding, by counting

A run is given by a sequence of coins. Runs with a property get a label, and each label has a point at which the run is rewound: the
coins before the point are kept, the others are replaced by fresh ones. If `ε` is the probability of getting a label, then the
probability that the second run gets the same label, with another coin at the point, is at least `ε² / (number of labels) - ε / |F|`.
-/

namespace Dusk.Oracle

variable {F : Type}

/-- Keep the coins before `t`. -/
def rewind {m : Nat} (t : Fin m) (c f : Fin m → F) : Fin m → F := fun k => if k < t then c k else f k

theorem rewind_lt {m : Nat} {t k : Fin m} (c f : Fin m → F) (h : k < t) : rewind t c f k = c k := if_pos h

theorem rewind_self {m : Nat} (t : Fin m) (c f : Fin m → F) : rewind t c f t = f t := if_neg (lt_irrefl _)

/-- The two runs have the same beginning. -/
theorem rewind_take {m : Nat} (t : Fin m) (c f : Fin m → F) (i : Nat) (hi : i ≤ t) :
    (List.ofFn (rewind t c f)).take i = (List.ofFn c).take i := by
  apply List.ext_getElem
  · simp
  · intro k h1 h2
    simp only [List.length_take, List.length_ofFn, lt_inf_iff] at h1
    rw [List.getElem_take, List.getElem_take, List.getElem_ofFn, List.getElem_ofFn]
    exact rewind_lt c f (by rw [Fin.lt_def]; simp; omega)

/-- Cauchy and Schwarz: two runs with the same beginning. -/
theorem card_pairs {α β : Type} [Fintype α] [Fintype β] (A : α × β → Prop) [DecidablePred A] :
    (Finset.univ.filter A).card ^ 2 ≤
      (Finset.univ.filter fun p : (α × β) × (α × β) => A p.1 ∧ A (p.1.1, p.2.2)).card := by
  classical
  have h1 : (Finset.univ.filter A).card = ∑ a : α, (Finset.univ.filter fun b => A (a, b)).card := by
    rw [Finset.card_filter, Fintype.sum_prod_type]
    exact Finset.sum_congr rfl fun a _ => (Finset.card_filter _ _).symm
  have h2 : (Finset.univ.filter fun p : (α × β) × (α × β) => A p.1 ∧ A (p.1.1, p.2.2)).card =
      Fintype.card α * ∑ a : α, (Finset.univ.filter fun b => A (a, b)).card ^ 2 := by
    have e : ∀ a : α, (Finset.univ.filter fun b => A (a, b)).card ^ 2 = ∑ b : β, ∑ b' : β, if A (a, b) ∧ A (a, b') then 1 else 0 := by
      intro a
      rw [pow_two, Finset.card_filter, Finset.sum_mul_sum]
      refine Finset.sum_congr rfl fun b _ => Finset.sum_congr rfl fun b' _ => ?_
      by_cases h : A (a, b) <;> by_cases h' : A (a, b') <;> simp [h, h']
    rw [Finset.card_filter, Fintype.sum_prod_type, Fintype.sum_prod_type, Finset.mul_sum]
    refine Finset.sum_congr rfl fun a _ => ?_
    rw [e, Finset.mul_sum]
    refine Finset.sum_congr rfl fun b _ => ?_
    rw [Fintype.sum_prod_type]
    show (∑ _x : α, ∑ y : β, if A (a, b) ∧ A (a, y) then 1 else 0) = _
    rw [Finset.sum_const, Finset.card_univ, smul_eq_mul]
  rw [h1, h2]
  have := sq_sum_le_card_mul_sum_sq (s := (Finset.univ : Finset α)) (f := fun a => (Finset.univ.filter fun b => A (a, b)).card)
  simpa using this

/-- Two runs with the same beginning before `t`. -/
theorem card_rewind [Fintype F] {m : Nat} (t : Fin m) (A : (Fin m → F) → Prop) [DecidablePred A] :
    (Finset.univ.filter A).card ^ 2 ≤
      (Finset.univ.filter fun p : (Fin m → F) × (Fin m → F) => A p.1 ∧ A (rewind t p.1 p.2)).card := by
  classical
  let e : (Fin m → F) ≃ ({k // k < t} → F) × ({k // ¬ k < t} → F) := Equiv.piEquivPiSubtypeProd (fun k => k < t) fun _ => F
  have he : ∀ c f, e.symm ((e c).1, (e f).2) = rewind t c f := by
    intro c f
    funext k
    simp only [e, Equiv.piEquivPiSubtypeProd, Equiv.coe_fn_symm_mk, Equiv.coe_fn_mk, rewind]
    split <;> rfl
  have h := card_pairs fun p => A (e.symm p)
  have h1 : (Finset.univ.filter fun p => A (e.symm p)).card = (Finset.univ.filter A).card := by
    refine Finset.card_equiv e.symm ?_
    intro p
    simp
  have h2 : (Finset.univ.filter fun p : (({k // k < t} → F) × ({k // ¬ k < t} → F)) × (({k // k < t} → F) × ({k // ¬ k < t} → F)) =>
      A (e.symm p.1) ∧ A (e.symm (p.1.1, p.2.2))).card =
      (Finset.univ.filter fun p : (Fin m → F) × (Fin m → F) => A p.1 ∧ A (rewind t p.1 p.2)).card := by
    refine Finset.card_equiv (Equiv.prodCongr e.symm e.symm) ?_
    rintro ⟨p, q⟩
    simp only [Finset.mem_filter, Finset.mem_univ, true_and, Equiv.prodCongr_apply, Prod.map_apply]
    rw [← he]
    simp
  rw [h1, h2] at h
  exact h

/-- A fresh coin is one of `b` given ones with probability at most `b / |F|`. -/
theorem card_fresh [Fintype F] [DecidableEq F] {m : Nat} (t : Fin m) (A : (Fin m → F) → Prop) [DecidablePred A]
    (S : (Fin m → F) → Finset F) (b : Nat) (hS : ∀ c, (S c).card ≤ b) :
    Fintype.card F * (Finset.univ.filter fun p : (Fin m → F) × (Fin m → F) => A p.1 ∧ p.2 t ∈ S p.1).card ≤
      b * ((Finset.univ.filter A).card * Fintype.card F ^ m) := by
  classical
  have h1 : (Finset.univ.filter fun p : (Fin m → F) × (Fin m → F) => A p.1 ∧ p.2 t ∈ S p.1).card =
      ∑ c ∈ Finset.univ.filter A, (Finset.univ.filter fun f : Fin m → F => f t ∈ S c).card := by
    rw [Finset.card_filter, Fintype.sum_prod_type, Finset.sum_filter]
    refine Finset.sum_congr rfl fun c _ => ?_
    split
    · rename_i hc
      rw [Finset.card_filter]
      simp [hc]
    · rename_i hc
      simp [hc]
  have h2 : ∀ s : Finset F, Fintype.card F * (Finset.univ.filter fun f : Fin m → F => f t ∈ s).card = s.card * Fintype.card F ^ m := by
    intro s
    have : (Finset.univ.filter fun f : Fin m → F => f t ∈ s) = Fintype.piFinset fun k => if k = t then s else Finset.univ := by
      ext f
      simp only [Finset.mem_filter, Finset.mem_univ, true_and, Fintype.mem_piFinset]
      constructor
      · intro h k
        split
        · rename_i hk; subst hk; exact h
        · simp
      · intro h
        simpa using h t
    rw [this, Fintype.card_piFinset, ← Finset.mul_prod_erase _ _ (Finset.mem_univ t)]
    rw [if_pos rfl, Finset.prod_congr rfl (g := fun _ => Fintype.card F), Finset.prod_const,
      Finset.card_erase_of_mem (Finset.mem_univ t), Finset.card_univ, Fintype.card_fin]
    · have := t.pos
      rw [mul_left_comm, ← pow_succ', Nat.sub_add_cancel this]
    · intro k hk
      rw [if_neg (Finset.ne_of_mem_erase hk), Finset.card_univ]
  rw [h1, Finset.mul_sum, Finset.sum_congr rfl fun c _ => h2 (S c)]
  calc _ ≤ ∑ _c ∈ Finset.univ.filter A, b * Fintype.card F ^ m := Finset.sum_le_sum fun c _ => Nat.mul_le_mul_right _ (hS c)
    _ = _ := by rw [Finset.sum_const, smul_eq_mul]; ring

/-- The forking lemma. `lab` labels the successful runs; `pt` is where a run with this label is rewound; the fresh coin there has to
avoid `b` scalars that depend on the first run. -/
theorem forking_avoid [Fintype F] [DecidableEq F] {m : Nat} {Λ : Type} [Fintype Λ] [DecidableEq Λ] (lab : (Fin m → F) → Option Λ)
    (pt : Λ → Fin m) (S : Λ → (Fin m → F) → Finset F) (b : Nat) (hS : ∀ x c, (S x c).card ≤ b) :
    Fintype.card F * (Finset.univ.filter fun c => (lab c).isSome).card ^ 2 ≤ Fintype.card Λ *
      (Fintype.card F * (Finset.univ.filter fun p : (Fin m → F) × (Fin m → F) =>
          ∃ x, lab p.1 = some x ∧ lab (rewind (pt x) p.1 p.2) = some x ∧ p.2 (pt x) ∉ S x p.1).card +
        b * ((Finset.univ.filter fun c => (lab c).isSome).card * Fintype.card F ^ m)) := by
  classical
  have hW : (Finset.univ.filter fun c => (lab c).isSome).card = ∑ x : Λ, (Finset.univ.filter fun c => lab c = some x).card := by
    rw [← Finset.card_biUnion]
    · congr 1
      ext c
      simp [Option.isSome_iff_exists]
    · intro x _ y _ hxy
      rw [Function.onFun, Finset.disjoint_left]
      intro c h1 h2
      simp only [Finset.mem_filter, Finset.mem_univ, true_and] at h1 h2
      exact hxy (Option.some.inj (h1.symm.trans h2))
  have hS' : (Finset.univ.filter fun p : (Fin m → F) × (Fin m → F) =>
          ∃ x, lab p.1 = some x ∧ lab (rewind (pt x) p.1 p.2) = some x ∧ p.2 (pt x) ∉ S x p.1).card =
      ∑ x : Λ, (Finset.univ.filter fun p : (Fin m → F) × (Fin m → F) =>
          lab p.1 = some x ∧ lab (rewind (pt x) p.1 p.2) = some x ∧ p.2 (pt x) ∉ S x p.1).card := by
    rw [← Finset.card_biUnion]
    · congr 1
      ext c
      simp
    · intro x _ y _ hxy
      rw [Function.onFun, Finset.disjoint_left]
      intro c h1 h2
      simp only [Finset.mem_filter, Finset.mem_univ, true_and] at h1 h2
      exact hxy (Option.some.inj (h1.1.symm.trans h2.1))
  have hx : ∀ x : Λ, Fintype.card F * (Finset.univ.filter fun c => lab c = some x).card ^ 2 ≤
      Fintype.card F * (Finset.univ.filter fun p : (Fin m → F) × (Fin m → F) =>
          lab p.1 = some x ∧ lab (rewind (pt x) p.1 p.2) = some x ∧ p.2 (pt x) ∉ S x p.1).card +
        b * ((Finset.univ.filter fun c => lab c = some x).card * Fintype.card F ^ m) := by
    intro x
    have h1 := card_rewind (pt x) fun c => lab c = some x
    have h2 := card_fresh (pt x) (fun c => lab c = some x) (S x) b (hS x)
    have h3 : (Finset.univ.filter fun p : (Fin m → F) × (Fin m → F) => lab p.1 = some x ∧ lab (rewind (pt x) p.1 p.2) = some x).card ≤
        (Finset.univ.filter fun p : (Fin m → F) × (Fin m → F) =>
          lab p.1 = some x ∧ lab (rewind (pt x) p.1 p.2) = some x ∧ p.2 (pt x) ∉ S x p.1).card +
        (Finset.univ.filter fun p : (Fin m → F) × (Fin m → F) => lab p.1 = some x ∧ p.2 (pt x) ∈ S x p.1).card := by
      refine le_trans (Finset.card_le_card ?_) (Finset.card_union_le _ _)
      intro p hp
      simp only [Finset.mem_filter, Finset.mem_univ, true_and, Finset.mem_union] at hp ⊢
      by_cases h : p.2 (pt x) ∈ S x p.1
      · exact .inr ⟨hp.1, h⟩
      · exact .inl ⟨hp.1, hp.2, h⟩
    calc _ ≤ Fintype.card F * _ := Nat.mul_le_mul_left _ (h1.trans h3)
      _ = _ := Nat.mul_add _ _ _
      _ ≤ _ := Nat.add_le_add_left h2 _
  have hcs := sq_sum_le_card_mul_sum_sq (s := (Finset.univ : Finset Λ)) (f := fun x => (Finset.univ.filter fun c => lab c = some x).card)
  rw [← hW, Finset.card_univ] at hcs
  calc Fintype.card F * (Finset.univ.filter fun c => (lab c).isSome).card ^ 2
      ≤ Fintype.card F * (Fintype.card Λ * ∑ x : Λ, (Finset.univ.filter fun c => lab c = some x).card ^ 2) := Nat.mul_le_mul_left _ hcs
    _ = Fintype.card Λ * ∑ x : Λ, Fintype.card F * (Finset.univ.filter fun c => lab c = some x).card ^ 2 := by
        rw [← Finset.mul_sum]; ring
    _ ≤ Fintype.card Λ * ∑ x : Λ, (Fintype.card F * (Finset.univ.filter fun p : (Fin m → F) × (Fin m → F) =>
          lab p.1 = some x ∧ lab (rewind (pt x) p.1 p.2) = some x ∧ p.2 (pt x) ∉ S x p.1).card +
        b * ((Finset.univ.filter fun c => lab c = some x).card * Fintype.card F ^ m)) :=
        Nat.mul_le_mul_left _ (Finset.sum_le_sum fun x _ => hx x)
    _ = _ := by rw [Finset.sum_add_distrib, ← Finset.mul_sum, ← Finset.mul_sum, ← Finset.sum_mul, ← hW, ← hS']

/-- The forking lemma: the fresh coin differs from the old one. -/
theorem forking [Fintype F] [DecidableEq F] {m : Nat} {Λ : Type} [Fintype Λ] [DecidableEq Λ] (lab : (Fin m → F) → Option Λ)
    (pt : Λ → Fin m) :
    Fintype.card F * (Finset.univ.filter fun c => (lab c).isSome).card ^ 2 ≤ Fintype.card Λ *
      (Fintype.card F * (Finset.univ.filter fun p : (Fin m → F) × (Fin m → F) =>
          ∃ x, lab p.1 = some x ∧ lab (rewind (pt x) p.1 p.2) = some x ∧ p.2 (pt x) ≠ p.1 (pt x)).card +
        (Finset.univ.filter fun c => (lab c).isSome).card * Fintype.card F ^ m) := by
  have := forking_avoid lab pt (fun x c => {c (pt x)}) 1 fun x c => (Finset.card_singleton _).le
  simpa only [Finset.mem_singleton, one_mul, ne_eq] using this

end Dusk.Oracle
