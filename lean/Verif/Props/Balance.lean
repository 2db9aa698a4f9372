import Verif.Props.RPCases
import Verif.Props.Pedersen
/-!
# C149: sums of commitments to values in range
-/

set_option linter.unusedSectionVars false

namespace Dusk

variable {F G : Type} [Field F] [AddCommGroup G] [Module F G]

theorem sum_le_of_lt : ∀ (l : List Nat), (∀ n ∈ l, n < 2 ^ 64) → l.sum ≤ l.length * (2 ^ 64 - 1)
  | [], _ => by simp
  | n :: l, h => by
    have h1 := h n (by simp)
    have h2 := sum_le_of_lt l fun n hn => h n (by simp [hn])
    rw [List.sum_cons, List.length_cons, Nat.succ_mul]
    omega

theorem cast_list_sum (l : List Nat) : ((l.sum : Nat) : F) = (l.map fun n : Nat => (n : F)).sum := by
  induction l with
  | nil => simp
  | cons n l ih => rw [List.sum_cons, List.map_cons, List.sum_cons, Nat.cast_add, ih]

/-- C149: commitments to values below `2^64` on both sides, with a fee in the clear on the right. If the points add up to the same point,
the values add up to the same number, or the openings give the logarithm of the value base with respect to the blinding base. This holds for
any numbers of commitments for which the totals cannot reach the group order (about `2^188` commitments). -/
theorem C149_totals (R : Ristretto F G) (data : Bytes) (ins outs : List (Nat × F)) (fee : Nat)
    (hi : ∀ x ∈ ins, x.1 < 2 ^ 64) (ho : ∀ x ∈ outs, x.1 < 2 ^ 64) (hni : ins.length * (2 ^ 64 - 1) < R.order)
    (hno : outs.length * (2 ^ 64 - 1) + fee < R.order) :
    let p := Pedersen.new R data
    (ins.map fun x => (p.commitToScalar (x.1 : F) x.2).value).sum = (outs.map fun x => (p.commitToScalar (x.1 : F) x.2).value).sum
      + (fee : F) • p.basePoint →
    (ins.map Prod.fst).sum = (outs.map Prod.fst).sum + fee ∨
    p.basePoint = (((outs.map Prod.snd).sum - (ins.map Prod.snd).sum) /
      (((ins.map Prod.fst).sum : Nat) - (((outs.map Prod.fst).sum + fee : Nat) : F))) • p.blindPoint := by
  intro p h
  by_cases he : (ins.map Prod.fst).sum = (outs.map Prod.fst).sum + fee
  · exact Or.inl he
  · right
    have hom : ∀ l : List (Nat × F), (l.map fun x => (p.commitToScalar (x.1 : F) x.2).value).sum =
        (p.commitToScalar (((l.map Prod.fst).sum : Nat) : F) (l.map Prod.snd).sum).value := by
      intro l
      have := C50_homomorphic p (l.map fun x => ((x.1 : F), x.2))
      rw [List.map_map, List.map_map, List.map_map] at this
      rw [cast_list_sum, List.map_map]
      exact this
    rw [hom, hom] at h
    have h' : (p.commitToScalar (((ins.map Prod.fst).sum : Nat) : F) (ins.map Prod.snd).sum).value =
        (p.commitToScalar (((outs.map Prod.fst).sum + fee : Nat) : F) (outs.map Prod.snd).sum).value := by
      rw [h]
      simp only [Pedersen.commitToScalar, Nat.cast_add, add_smul]
      abel
    refine C50_binding p _ _ _ _ h' fun e => he (R.cast_inj ?_ ?_ e)
    · refine lt_of_le_of_lt (sum_le_of_lt _ fun n hn => ?_) (by rw [List.length_map]; exact hni)
      obtain ⟨x, hx, rfl⟩ := List.mem_map.1 hn
      exact hi x hx
    · have := sum_le_of_lt (outs.map Prod.fst) fun n hn => by
        obtain ⟨x, hx, rfl⟩ := List.mem_map.1 hn
        exact ho x hx
      rw [List.length_map] at this
      omega

/-- Values below `2^64` with any given total that so many of them can reach. -/
theorem exists_values : ∀ (n t : Nat), t ≤ n * (2 ^ 64 - 1) → ∃ l : List Nat, l.length = n ∧ (∀ v ∈ l, v < 2 ^ 64) ∧ l.sum = t
  | 0, t, h => ⟨[], rfl, by simp, by simp at h; simp [h]⟩
  | n + 1, t, h => by
    obtain ⟨l, h1, h2, h3⟩ := exists_values n (t - min t (2 ^ 64 - 1)) (by rw [Nat.succ_mul] at h; omega)
    refine ⟨min t (2 ^ 64 - 1) :: l, by simp [h1], ?_, ?_⟩
    · intro v hv
      rcases List.mem_cons.1 hv with rfl | hv
      · omega
      · exact h2 v hv
    · rw [List.sum_cons, h3]
      omega

/-- C149 (the bound on the number is exact): as many values as can reach the group order can have commitments that add up to nothing although
every value is in range and their total is not zero. -/
theorem C149_number (R : Ristretto F G) (data : Bytes) (n : Nat) (hn : R.order ≤ n * (2 ^ 64 - 1)) :
    ∃ l : List Nat, l.length = n ∧ (∀ v ∈ l, v < 2 ^ 64) ∧ l.sum = R.order ∧
      (l.map fun v : Nat => ((Pedersen.new R data).commitToScalar (v : F) 0).value).sum = 0 := by
  obtain ⟨l, h1, h2, h3⟩ := exists_values n R.order hn
  refine ⟨l, h1, h2, h3, ?_⟩
  have := C50_homomorphic (Pedersen.new R data) (l.map fun v : Nat => ((v : F), (0 : F)))
  rw [List.map_map, List.map_map, List.map_map] at this
  refine (Eq.trans rfl this).trans ?_
  have hz : (List.map (Prod.snd ∘ fun v : Nat => ((v : F), (0 : F))) l).sum = 0 := by
    clear h1 h2 h3 this
    induction l with
    | nil => rfl
    | cons v l ih => rw [List.map_cons, List.sum_cons, ih]; simp
  have hv : (List.map (Prod.fst ∘ fun v : Nat => ((v : F), (0 : F))) l).sum = 0 := by
    rw [show (Prod.fst ∘ fun v : Nat => ((v : F), (0 : F))) = fun v : Nat => (v : F) from rfl, ← cast_list_sum, h3]
    exact (R.cast_eq_zero _).2 dvd_rfl
  rw [hz, hv]
  simp [Pedersen.commitToScalar]

/-- C149 (violated without range proofs): commitments to one and to the order less one add up to nothing. -/
theorem C149_unchecked_violated (R : Ristretto F G) (data : Bytes) (v : Nat) (hv : v ≤ R.order) :
    ((Pedersen.new R data).commitToScalar (v : F) 0).value + ((Pedersen.new R data).commitToScalar ((R.order - v : Nat) : F) 0).value = 0 := by
  simp only [Pedersen.commitToScalar, zero_smul, add_zero]
  rw [← add_smul, ← Nat.cast_add, Nat.add_sub_cancel' hv, (R.cast_eq_zero _).2 dvd_rfl, zero_smul]

namespace RP

variable [DecidableEq F]

/-- The sum of the openings of the first commitments. -/
noncomputable def openTotal {k : Nat} (s : Strategy F G k) (q : Queries F) (m : Nat) (y : F) : F × F :=
  ∑ j ∈ Finset.range m, openV s q m y j

/-- C149: two provers whose proofs for `m` and `m'` commitments are accepted (rewound, as in C69). If the points of the commitments of the first
add up to the same as those of the second and a fee, then the extracted values are below `2^64` and have the same total, or one of the listed
coefficient vectors is a relation between the generators: those of C69 for either prover, or the difference of the totals. -/
theorem C149_proofs [DecidableEq G] (R : Ristretto F G) {k k' m m' : Nat} (P P' : Pub G) (hB : P'.B = P.B) (hBl : P'.Bl = P.Bl)
    (s : Strategy F G k) (s' : Strategy F G k') (q q' : Queries F) (fee : Nat)
    (hk : k < 32) (hm : 2 ^ k = 64 * m) (hG : P.Gv.length = 64 * m) (hH : P.Hv.length = 64 * m) (hV : m ≤ s.V.length)
    (hq : q.Good s m) (hacc : s.Accepting q P m) {y₀ z₀ : F} (hy₀ : y₀ ∈ q.ys) (hz₀ : z₀ ∈ q.zs y₀)
    (hk' : k' < 32) (hm' : 2 ^ k' = 64 * m') (hG' : P'.Gv.length = 64 * m') (hH' : P'.Hv.length = 64 * m') (hV' : m' ≤ s'.V.length)
    (hq' : q'.Good s' m') (hacc' : s'.Accepting q' P' m') {y₁ z₁ : F} (hy₁ : y₁ ∈ q'.ys) (hz₁ : z₁ ∈ q'.zs y₁)
    (hord : 2 ^ 91 + fee ≤ R.order)
    (hsum : ∑ j ∈ Finset.range m, (s.V.map fun V => V.value).getD j 0 =
      ∑ j ∈ Finset.range m', (s'.V.map fun V => V.value).getD j 0 + (fee : F) • P.B) :
    (∃ ρ ∈ relations s q (64 * m) m y₀ z₀, ev P (64 * m) ρ = 0 ∧ ρ.Nonzero (64 * m)) ∨
    (∃ ρ ∈ relations s' q' (64 * m') m' y₁ z₁, ev P' (64 * m') ρ = 0 ∧ ρ.Nonzero (64 * m')) ∨
    (∃ ρ : Coef F, ρ = (0, 0, (openTotal s q m y₀).1 - (openTotal s' q' m' y₁).1 - fee, (openTotal s q m y₀).2 - (openTotal s' q' m' y₁).2) ∧
      ev P (64 * m) ρ = 0 ∧ ρ.Nonzero (64 * m)) ∨
    ∃ n n' : Nat → Nat, (∀ j < m, n j < 2 ^ 64 ∧ (openV s q m y₀ j).1 = (n j : F)) ∧
      (∀ j < m', n' j < 2 ^ 64 ∧ (openV s' q' m' y₁ j).1 = (n' j : F)) ∧
      ∑ j ∈ Finset.range m, n j = ∑ j ∈ Finset.range m', n' j + fee := by
  rcases C69_extraction P s q hk hm hG hH hV hq hacc hy₀ hz₀ with h | h
  · exact Or.inl h
  rcases C69_extraction P' s' q' hk' hm' hG' hH' hV' hq' hacc' hy₁ hz₁ with h' | h'
  · exact Or.inr (Or.inl h')
  right; right
  choose! n hn using fun j hj => (h j hj).2
  choose! n' hn' using fun j hj => (h' j hj).2
  have hm26 : m < 2 ^ 26 := by
    have : 2 ^ k < 2 ^ 32 := Nat.pow_lt_pow_right (by norm_num) hk
    omega
  have hm26' : m' < 2 ^ 26 := by
    have : 2 ^ k' < 2 ^ 32 := Nat.pow_lt_pow_right (by norm_num) hk'
    omega
  have bound : ∀ (a : Nat) (f : Nat → Nat), a < 2 ^ 26 → (∀ j < a, f j < 2 ^ 64) → ∑ j ∈ Finset.range a, f j < 2 ^ 91 := by
    intro a f ha hf
    have h1 : ∑ j ∈ Finset.range a, f j ≤ ∑ _j ∈ Finset.range a, 2 ^ 64 :=
      Finset.sum_le_sum fun j hj => (hf j (Finset.mem_range.1 hj)).le
    rw [Finset.sum_const, Finset.card_range, smul_eq_mul] at h1
    have h2 : a * 2 ^ 64 ≤ 2 ^ 26 * 2 ^ 64 := Nat.mul_le_mul_right _ ha.le
    have h3 : (2 : Nat) ^ 26 * 2 ^ 64 < 2 ^ 91 := by norm_num
    omega
  have t1 : (openTotal s q m y₀).1 = ((∑ j ∈ Finset.range m, n j : Nat) : F) := by
    rw [openTotal, Prod.fst_sum, Nat.cast_sum]
    exact Finset.sum_congr rfl fun j hj => (hn j (Finset.mem_range.1 hj)).2
  have t2 : (openTotal s' q' m' y₁).1 = ((∑ j ∈ Finset.range m', n' j : Nat) : F) := by
    rw [openTotal, Prod.fst_sum, Nat.cast_sum]
    exact Finset.sum_congr rfl fun j hj => (hn' j (Finset.mem_range.1 hj)).2
  have e1 : ∑ j ∈ Finset.range m, (s.V.map fun V => V.value).getD j 0 = (openTotal s q m y₀).1 • P.B + (openTotal s q m y₀).2 • P.Bl := by
    rw [openTotal, Prod.fst_sum, Prod.snd_sum, Finset.sum_smul, Finset.sum_smul, ← Finset.sum_add_distrib]
    exact Finset.sum_congr rfl fun j hj => (h j (Finset.mem_range.1 hj)).1
  have e2 : ∑ j ∈ Finset.range m', (s'.V.map fun V => V.value).getD j 0 =
      (openTotal s' q' m' y₁).1 • P.B + (openTotal s' q' m' y₁).2 • P.Bl := by
    rw [openTotal, Prod.fst_sum, Prod.snd_sum, Finset.sum_smul, Finset.sum_smul, ← Finset.sum_add_distrib]
    refine Finset.sum_congr rfl fun j hj => ?_
    rw [← hB, ← hBl]
    exact (h' j (Finset.mem_range.1 hj)).1
  have hev : ev P (64 * m) ((0, 0, (openTotal s q m y₀).1 - (openTotal s' q' m' y₁).1 - fee,
      (openTotal s q m y₀).2 - (openTotal s' q' m' y₁).2) : Coef F) = 0 := by
    rw [e1, e2] at hsum
    have : ∀ a b c d f : F, a • P.B + b • P.Bl = c • P.B + d • P.Bl + f • P.B → (a - c - f) • P.B + (b - d) • P.Bl = 0 := by
      intro a b c d f hh
      have : (a - c - f) • P.B + (b - d) • P.Bl = (a • P.B + b • P.Bl) - (c • P.B + d • P.Bl + f • P.B) := by module
      rw [this, hh, sub_self]
    unfold ev
    simp only [Pi.zero_apply, zero_smul, Finset.sum_const_zero, zero_add]
    exact this _ _ _ _ _ hsum
  by_cases hz : (openTotal s q m y₀).1 - (openTotal s' q' m' y₁).1 - fee = 0
  · right
    refine ⟨n, n', hn, hn', ?_⟩
    rw [t1, t2, sub_sub, sub_eq_zero, ← Nat.cast_add] at hz
    have b1 := bound m n hm26 fun j hj => (hn j hj).1
    have b2 := bound m' n' hm26' fun j hj => (hn' j hj).1
    exact R.cast_inj (by omega) (by omega) hz
  · exact Or.inl ⟨_, rfl, hev, Or.inr (Or.inr (Or.inl hz))⟩

end RP

/-! ## Examples -/

section Examples
open RP

theorem toy_order : 2 ^ 91 + 2 ^ 70 ≤ Toy.ris.order := by
  show 2 ^ 91 + 2 ^ 70 ≤ PrimeEll.ell
  decide +kernel

/-- Inputs 5 and 7, one output 11, fee 1. -/
example (data : Bytes) : let p := Pedersen.new Toy.ris data
    [5, 7].sum = [11].sum + 1 ∨ p.basePoint = ((([3] : List Toy.K).sum - ([1, 2] : List Toy.K).sum) /
      ((([5, 7].sum : Nat) : Toy.K) - (([11].sum + 1 : Nat) : Toy.K))) • p.blindPoint :=
  C149_totals Toy.ris data [(5, (1 : Toy.K)), (7, 2)] [(11, 3)] 1 (by simp) (by simp) (by have := toy_order; simp only [List.length]; omega)
    (by have := toy_order; simp only [List.length]; omega) (by
      simp only [Pedersen.commitToScalar, List.map_cons, List.map_nil, List.sum_cons, List.sum_nil]
      push_cast
      module)

example : ∃ l : List Nat, l.length = PrimeEll.ell ∧ (∀ v ∈ l, v < 2 ^ 64) ∧ l.sum = PrimeEll.ell ∧
    (l.map fun v : Nat => ((Pedersen.new Toy.ris [1]).commitToScalar (v : Toy.K) 0).value).sum = 0 :=
  C149_number Toy.ris [1] PrimeEll.ell (Nat.le_mul_of_pos_right _ (by norm_num))

example : ((Pedersen.new Toy.ris [1]).commitToScalar ((1 : Nat) : Toy.K) 0).value +
    ((Pedersen.new Toy.ris [1]).commitToScalar ((Toy.ris.order - 1 : Nat) : Toy.K) 0).value = 0 :=
  C149_unchecked_violated Toy.ris [1] 1 (by have := Toy.ris.two64_lt; omega)

/-- Honest provers of 1 and 2 on both sides, with points without a relation: the totals are the same. -/
example [DecidableEq (Nat → Toy.K)] (coins : Coins Toy.K) : ∃ (s : Strategy Toy.K (Nat → Toy.K) 7) (q : Queries Toy.K) (y : Toy.K) (n n' : Nat → Nat),
    (∀ j < 2, n j < 2 ^ 64 ∧ (openV s q 2 y j).1 = (n j : Toy.K)) ∧ (∀ j < 2, n' j < 2 ^ 64 ∧ (openV s q 2 y j).1 = (n' j : Toy.K)) ∧
      ∑ j ∈ Finset.range 2, n j = ∑ j ∈ Finset.range 2, n' j + 0 := by
  obtain ⟨P, s, q, h1, h2, h3, h4, h5, h6, h7⟩ := case_sound coins
  obtain ⟨y₀, hy₀⟩ : q.ys.Nonempty := Finset.card_pos.1 (by have := h4.y_card; omega)
  obtain ⟨z₀, hz₀⟩ : (q.zs y₀).Nonempty := Finset.card_pos.1 (by have := h4.z_card y₀ hy₀; omega)
  rcases C149_proofs caseRis P P rfl rfl s s q q 0 (by norm_num) (by norm_num) h1 h2 h3 h4 h5 hy₀ hz₀ (by norm_num) (by norm_num) h1 h2 h3 h4 h5
    hy₀ hz₀ (by have : 2 ^ 91 + 2 ^ 70 ≤ caseRis.order := toy_order; omega) (by simp) with ⟨ρ, -, e, e'⟩ | ⟨ρ, -, e, e'⟩ | ⟨ρ, -, e, e'⟩ | h
  · exact absurd e' (h6 ρ e)
  · exact absurd e' (h6 ρ e)
  · exact absurd e' (h6 ρ e)
  · exact ⟨s, q, y₀, h⟩

end Examples

end Dusk
