import Verif.Lemmas.ListAlg
/-!
# C47, C48: vector operations
-/

set_option linter.unusedSectionVars false

namespace Dusk.Vec

variable {F G : Type} [Field F] [AddCommGroup G] [Module F G] [DecidableEq F]

/-! ## C47

Specification: a call `f a b` with result `r` is the pointwise operation `op`, guarded by equal lengths. -/

/-- `r` is an error exactly if the lengths differ, and otherwise the list of `op a_i b_i`. -/
def Pointwise (op : F → F → F) (a b : List F) (r : Res (List F)) : Prop :=
  (a.length ≠ b.length ∧ r.IsErr) ∨
  (a.length = b.length ∧ ∃ c, r = .ok c ∧ c.length = a.length ∧
    ∀ i (h : i < c.length) (ha : i < a.length) (hb : i < b.length), c[i] = op a[i] b[i])

theorem pointwise_zipWith (op : F → F → F) (a b : List F) (e : String) :
    Pointwise op a b (if a.length ≠ b.length then .err e else .ok (List.zipWith op a b)) := by
  by_cases h : a.length = b.length
  · exact Or.inr ⟨h, List.zipWith op a b, by simp [h], by simp [h], by simp⟩
  · exact Or.inl ⟨h, by simp [h]⟩

/-- C47: `Add`, `Sub`, `Hadamard`. -/
theorem C47_add (a b : List F) : Pointwise (· + ·) a b (add a b) := pointwise_zipWith _ a b _

example : ∃ c, add ([1, 2] : List ℚ) [3, 4] = .ok c ∧ c.length = 2 := by
  rcases C47_add ([1, 2] : List ℚ) [3, 4] with h | ⟨-, c, hc, hl, -⟩
  · exact absurd rfl h.1
  · exact ⟨c, hc, hl⟩

theorem C47_sub (a b : List F) : Pointwise (· - ·) a b (sub a b) := pointwise_zipWith _ a b _
theorem C47_hadamard (a b : List F) : Pointwise (· * ·) a b (hadamard a b) := pointwise_zipWith _ a b _

example : (sub ([1, 2] : List ℚ) [3]).IsErr ∧ ∃ c, hadamard ([2, 3] : List ℚ) [5, 7] = .ok c ∧ c[1]? = some 21 := by
  constructor
  · rcases C47_sub ([1, 2] : List ℚ) [3] with h | h
    · exact h.2
    · exact absurd h.1 (by decide)
  · rcases C47_hadamard ([2, 3] : List ℚ) [5, 7] with h | ⟨-, c, hc, hl, hi⟩
    · exact absurd rfl h.1
    · refine ⟨c, hc, ?_⟩
      have h1 : 1 < c.length := by rw [hl]; decide
      rw [List.getElem?_eq_getElem h1, hi 1 h1 (by decide) (by decide)]
      norm_num

/-- C47: `InnerProduct`. -/
theorem C47_innerProduct (a b : List F) :
    (a.length ≠ b.length ∧ (innerProduct a b).IsErr) ∨
    (a.length = b.length ∧
      innerProduct a b = .ok (∑ i ∈ Finset.range a.length, a.getD i 0 * b.getD i 0)) := by
  by_cases h : a.length = b.length
  · exact Or.inr ⟨h, by rw [innerProduct_eq h, dot_eq_sum a b h]⟩
  · exact Or.inl ⟨h, by simp [innerProduct, h]⟩

example : (innerProduct ([1, 2] : List ℚ) [3]).IsErr ∧ innerProduct ([1, 2] : List ℚ) [3, 4] = .ok 11 := by
  constructor
  · rcases C47_innerProduct ([1, 2] : List ℚ) [3] with h | h
    · exact h.2
    · exact absurd h.1 (by decide)
  · rcases C47_innerProduct ([1, 2] : List ℚ) [3, 4] with h | h
    · exact absurd rfl h.1
    · rw [h.2]; norm_num [Finset.sum_range_succ]

/-- C47: `Exp` is a multi-scalar multiplication over all entries; it fails iff the lengths differ or are
smaller than `N*M`. -/
theorem C47_exp (a : List F) (g : List G) (N M : Int) :
    ((a.length ≠ g.length ∨ (a.length : Int) < N * M) ∧ (exp a g N M).IsErr) ∨
    (a.length = g.length ∧ N * M ≤ a.length ∧
      exp a g N M = .ok (∑ i ∈ Finset.range a.length, a.getD i 0 • g.getD i 0)) := by
  by_cases h : a.length = g.length
  · by_cases h' : (a.length : Int) < N * M
    · exact Or.inl ⟨Or.inr h', by rw [h] at h'; simp [exp, h, h']⟩
    · exact Or.inr ⟨h, by omega, by rw [exp_eq h (by omega), msm_eq_sum a g h]⟩
  · exact Or.inl ⟨Or.inl h, by simp [exp, h]⟩

example : (exp ([1, 2] : List ℚ) ([3, 4] : List ℚ) 3 1).IsErr ∧ exp ([1, 2] : List ℚ) ([3, 4] : List ℚ) 1 1 = .ok 11 := by
  constructor
  · rcases C47_exp ([1, 2] : List ℚ) ([3, 4] : List ℚ) 3 1 with h | h
    · exact h.2
    · exact absurd h.2.1 (by decide)
  · rcases C47_exp ([1, 2] : List ℚ) ([3, 4] : List ℚ) 1 1 with h | h
    · exact absurd h.1 (by decide)
    · rw [h.2.2]; norm_num [Finset.sum_range_succ]

/-- C47: operations with a scalar and negation act on every entry. -/
theorem C47_scalar_ops (a : List F) (b : F) (i : Nat) (x : F) (h : a[i]? = some x) :
    (addScalar a b)[i]? = some (x + b) ∧ (subScalar a b)[i]? = some (x - b) ∧
    (mulScalar a b)[i]? = some (x * b) ∧ (neg a)[i]? = some (-x) := by
  refine ⟨by simp [addScalar, h], by simp [subScalar_eq, h], by simp [mulScalar, h], ?_⟩
  unfold neg
  split
  · rename_i h0; rw [List.length_eq_zero_iff] at h0; simp [h0] at h
  · simp [h]

theorem C47_scalar_ops_length (a : List F) (b : F) :
    (addScalar a b).length = a.length ∧ (subScalar a b).length = a.length ∧
    (mulScalar a b).length = a.length ∧ (neg a).length = a.length := by
  refine ⟨by simp [addScalar], by simp [subScalar_eq], by simp [mulScalar], ?_⟩
  unfold neg; split <;> simp

example : (neg ([] : List ℚ)).length = 0 ∧ (neg ([1, 2] : List ℚ)).length = 2 :=
  ⟨(C47_scalar_ops_length [] 5).2.2.2, (C47_scalar_ops_length [1, 2] 5).2.2.2⟩

/-- C47: `FromScalar`. -/
theorem C47_fromScalar (a : F) (n : Nat) :
    (fromScalar a n).length = n ∧ ∀ x ∈ fromScalar a n, x = a := by
  refine ⟨by simp [fromScalar], fun x hx => ?_⟩
  exact List.eq_of_mem_replicate hx

example : ∀ x ∈ fromScalar (7 : ℚ) 3, x = 7 := (C47_fromScalar 7 3).2

/-- C47: `SplitScalars` / `SplitPoints` partition the slice into the first `n` entries and the rest, and fail
iff `n` is not below the length. -/
theorem C47_split {α : Type} (x : List α) (n : Nat) (hx : x.length < 2 ^ 32) :
    (x.length ≤ n ∧ (split x n).IsErr) ∨
    (n < x.length ∧ ∃ l r, split x n = .ok (l, r) ∧ l ++ r = x ∧ l.length = n) := by
  have hm : x.length % 2 ^ 32 = x.length := Nat.mod_eq_of_lt hx
  by_cases h : x.length ≤ n
  · refine Or.inl ⟨h, ?_⟩
    unfold split; rw [hm]; split
    · exact ⟨_, rfl⟩
    · exact ⟨_, rfl⟩
  · refine Or.inr ⟨by omega, x.take n, x.drop n, ?_, List.take_append_drop n x, by simp; omega⟩
    unfold split; rw [hm, if_neg (by omega), if_neg (by omega)]

example : add ([1, 2] : List ℚ) [3, 4] = .ok [4, 6] ∧ (add ([1, 2] : List ℚ) [3]).IsErr := by
  constructor
  · norm_num [add]
  · simp [add]
example : exp ([2, 3] : List ℚ) ([5, 7] : List ℚ) 2 1 = .ok 31 := by norm_num [exp]
example : ([1, 2, 3] : List ℚ)[1]? = some 2 := rfl
example : split [1, 2, 3] 1 = .ok ([1], [2, 3]) := rfl

/-! ## C48 -/

/-- C48: for a nonzero base, `ScalarPowers` is the list of powers. -/
theorem C48_powers (a : F) (ha : a ≠ 0) (n : Nat) :
    (scalarPowers a n).length = n ∧ ∀ i, i < n → (scalarPowers a n)[i]? = some (a ^ i) := by
  rw [scalarPowers_eq ha]
  refine ⟨powers_length a n, fun i hi => ?_⟩
  simp [powers, hi]

/-- C48: `ScalarPowersSum` is the sum of the powers, for every base (with `0^0 = 1`). -/
theorem C48_sum (a : F) (n : Nat) : scalarPowersSum a n = ∑ i ∈ Finset.range n, a ^ i :=
  scalarPowersSum_eq a n

example : scalarPowersSum (5 : ℚ) 3 = 31 ∧ scalarPowersSum (0 : ℚ) 3 = 1 := by
  rw [C48_sum, C48_sum]; norm_num [Finset.sum_range_succ]

/-- C48 (violation): for base zero, `ScalarPowers` is all zeros although `0^0 = 1`; so for every `n ≥ 1`
the sum of its entries disagrees with `ScalarPowersSum`. -/
theorem C48_zero_violated (n : Nat) (hn : 1 ≤ n) :
    scalarPowers (0 : F) n = List.replicate n 0 ∧
    (scalarPowers (0 : F) n)[0]? ≠ some ((0 : F) ^ 0) ∧
    (scalarPowers (0 : F) n).sum ≠ scalarPowersSum (0 : F) n := by
  have h0 : scalarPowers (0 : F) n = List.replicate n 0 := by
    unfold scalarPowers
    rw [if_neg (by omega), if_pos rfl]
  refine ⟨h0, ?_, ?_⟩
  · rw [h0, List.getElem?_replicate, if_pos (by omega)]
    simp
  · rw [h0, scalarPowersSum_eq]
    obtain ⟨m, rfl⟩ : ∃ m, n = m + 1 := ⟨n - 1, by omega⟩
    rw [Finset.sum_range_succ']
    simp

/-- C48: for a nonzero base the two functions agree. -/
theorem C48_agree (a : F) (ha : a ≠ 0) (n : Nat) : (scalarPowers a n).sum = scalarPowersSum a n := by
  rw [scalarPowers_eq ha, scalarPowersSum_eq, powers, Finset.sum_range]
  rw [← List.sum_ofFn]
  congr 1
  apply List.ext_getElem <;> simp

example : scalarPowers (5 : ℚ) 3 = [1, 5, 25] := by norm_num [scalarPowers, powersLoop]

end Dusk.Vec
