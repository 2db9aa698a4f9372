import Verif.Model.VecInt
import Verif.Model.Poly
import Verif.Lemmas.ListAlg
import Verif.Props.Vector
/-!
# C152: the length check of `Exp`
-/

set_option linter.unusedSectionVars false

namespace Dusk.Vec

variable {F G : Type} [Field F] [AddCommGroup G] [Module F G] [DecidableEq F]

theorem int64_spec (n : Int) : -(2 : Int) ^ 63 ≤ int64 n ∧ int64 n < 2 ^ 63 ∧ ∃ k : Int, int64 n = n + k * 2 ^ 64 := by
  unfold int64 Int.bmod
  norm_num
  split_ifs with h
  · exact ⟨by omega, by omega, -(n / 2 ^ 64), by omega⟩
  · exact ⟨by omega, by omega, -(n / 2 ^ 64) - 1, by omega⟩

theorem int64_eq {n r k : Int} (h1 : -(2 : Int) ^ 63 ≤ r) (h2 : r < 2 ^ 63) (h : r = n + k * 2 ^ 64) : int64 n = r := by
  obtain ⟨g1, g2, k', g⟩ := int64_spec n
  omega

/-- C152: `Exp` returns the sum exactly if there are as many scalars as points and the product of `N` and `M`, brought into the range of
`int` by a multiple of `2^64`, is at most this number. In all other cases it returns an error. -/
theorem C152_outcome (a : List F) (b : List G) (N M : Int) :
    ((a.length = b.length ∧ ∃ k : Int, -(2 : Int) ^ 63 ≤ N * M + k * 2 ^ 64 ∧ N * M + k * 2 ^ 64 < 2 ^ 63 ∧ N * M + k * 2 ^ 64 ≤ a.length) ∧
      exp64 a b N M = .ok (∑ i ∈ Finset.range a.length, a.getD i 0 • b.getD i 0)) ∨
    (¬ (a.length = b.length ∧ ∃ k : Int, -(2 : Int) ^ 63 ≤ N * M + k * 2 ^ 64 ∧ N * M + k * 2 ^ 64 < 2 ^ 63 ∧ N * M + k * 2 ^ 64 ≤ a.length) ∧
      (exp64 a b N M).IsErr) := by
  obtain ⟨g1, g2, k, g⟩ := int64_spec (N * M)
  by_cases h : a.length = b.length
  · by_cases h' : (a.length : Int) < int64 (N * M)
    · refine Or.inr ⟨?_, by rw [exp64, if_neg (not_not.2 h), if_pos h']; simp⟩
      rintro ⟨-, k', e1, e2, e3⟩
      rw [int64_eq e1 e2 rfl] at h'
      omega
    · refine Or.inl ⟨⟨h, k, by omega, by omega, by omega⟩, ?_⟩
      rw [exp64, if_neg (not_not.2 h), if_neg h', foldl_msm, zero_add, msm_eq_sum a b h]
  · exact Or.inr ⟨fun e => h e.1, by rw [exp64, if_pos h]; simp⟩

/-- C152: as long as the product is in the range of `int`, it is compared as a number, and `Exp` is the function of C47. -/
theorem C152_fits (a : List F) (b : List G) (N M : Int) (h1 : -(2 : Int) ^ 63 ≤ N * M) (h2 : N * M < 2 ^ 63) :
    exp64 a b N M = exp a b N M := by
  unfold exp64 exp
  rw [int64_eq (k := 0) h1 h2 (by ring)]

/-- C152: so for all calls inside the repository. The number of elements of a list is at most the largest `int`; the range proofs give the
number of bits and of commitments, the others a length and one. -/
theorem C152_calls (a : List F) (b : List G) :
    (∀ n : Nat, n < 2 ^ 63 → exp64 a b n 1 = exp a b n 1) ∧ (∀ m : Nat, m < 2 ^ 57 → exp64 a b RP.nBits m = exp a b RP.nBits m) := by
  refine ⟨fun n hn => C152_fits a b _ _ (by omega) (by omega), fun m hm => C152_fits a b _ _ ?_ ?_⟩
  · have : (0 : Int) ≤ (RP.nBits : Nat) * (m : Nat) := by positivity
    omega
  · have : ((RP.nBits : Nat) : Int) * (m : Nat) = 64 * (m : Int) := rfl
    omega

/-- C152 (violated): there are `N` and `M` of type `int` whose product is larger than any list, for which `Exp` accepts every two lists of the
same length. -/
theorem C152_violated : ∃ N M : Int, (0 < N ∧ N < 2 ^ 63) ∧ (0 < M ∧ M < 2 ^ 63) ∧ (2 : Int) ^ 63 ≤ N * M ∧
    ∀ (a : List F) (b : List G), a.length = b.length → exp64 a b N M = .ok (∑ i ∈ Finset.range a.length, a.getD i 0 • b.getD i 0) := by
  refine ⟨2 ^ 32, 2 ^ 32, by norm_num, by norm_num, by norm_num, fun a b h => ?_⟩
  rcases C152_outcome a b (2 ^ 32) (2 ^ 32) with ⟨-, e⟩ | ⟨hn, -⟩
  · exact e
  · exact absurd ⟨h, -1, by norm_num, by norm_num, by norm_num⟩ hn

/-- C152: and some products wrap to a number so large that `Exp` refuses lists that are long enough (here the product is negative). -/
theorem C152_refused : ∃ N M : Int, (-(2 : Int) ^ 63 ≤ N ∧ N < 2 ^ 63) ∧ (-(2 : Int) ^ 63 ≤ M ∧ M < 2 ^ 63) ∧ N * M < 0 ∧
    ∀ (a : List F) (b : List G), a.length < 2 ^ 62 → (exp64 a b N M).IsErr := by
  refine ⟨-(2 ^ 62), 3, by norm_num, by norm_num, by norm_num, fun a b h => ?_⟩
  rcases C152_outcome a b (-(2 ^ 62)) 3 with ⟨⟨-, k, e1, e2, e3⟩, -⟩ | ⟨-, e⟩
  · omega
  · exact e

/-- Three scalars and three points, and room for `2^32 · 2^32` asked for. -/
example : exp64 ([1, 2, 3] : List Toy.K) ([4, 5, 6] : List Toy.K) (2 ^ 32) (2 ^ 32) = .ok 32 := by
  have h := C152_outcome ([1, 2, 3] : List Toy.K) ([4, 5, 6] : List Toy.K) (2 ^ 32) (2 ^ 32)
  rcases h with ⟨-, e⟩ | ⟨hn, -⟩
  · rw [e]
    norm_num [Finset.sum_range_succ]
  · exact absurd ⟨rfl, -1, by norm_num, by norm_num, by norm_num⟩ hn

/-- The same lists and two by two: one more than there is. -/
example : (exp64 ([1, 2, 3] : List Toy.K) ([4, 5, 6] : List Toy.K) 2 2).IsErr := by
  rw [C152_fits _ _ _ _ (by norm_num) (by norm_num)]
  simp [exp]

end Dusk.Vec
