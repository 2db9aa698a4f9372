import Verif.Model.InnerProduct
import Mathlib.Tactic.IntervalCases
/-!
# Bit tricks: `nextPow2`, `isPower2`
-/

namespace Dusk.IP

/-- Bits above position `m` are clear, the topmost `w` bits up to `m` are set. -/
def TopSet (m w x : Nat) : Prop := ∀ i, (m < i → x.testBit i = false) ∧ (i ≤ m → m < i + w → x.testBit i = true)

theorem topSet_step {m w x : Nat} (h : TopSet m w x) : TopSet m (w + w) (x ||| x >>> w) := by
  intro i
  rw [Nat.testBit_or, Nat.testBit_shiftRight]
  refine ⟨fun hi => ?_, fun hi hw => ?_⟩
  · rw [(h i).1 hi, (h (w + i)).1 (by omega)]; rfl
  · by_cases h1 : m < i + w
    · rw [(h i).2 hi h1]; rfl
    · rw [(h (w + i)).2 (by omega) (by omega), Bool.or_true]

theorem topSet_one {m x : Nat} (h1 : 2 ^ m ≤ x) (h2 : x < 2 ^ (m + 1)) : TopSet m 1 x := by
  intro i
  refine ⟨fun hi => Nat.testBit_lt_two_pow (lt_of_lt_of_le h2 (Nat.pow_le_pow_right (by norm_num) hi)),
    fun hi hw => ?_⟩
  have : i = m := by omega
  subst this
  rw [pow_succ] at h2
  have hx : x = 2 ^ i + (x - 2 ^ i) := by omega
  rw [hx, Nat.testBit_two_pow_add_eq, Nat.testBit_lt_two_pow (by omega)]; rfl

theorem topSet_full {m w x : Nat} (h : TopSet m w x) (hw : m < w) : x = 2 ^ (m + 1) - 1 := by
  apply Nat.eq_of_testBit_eq
  intro i
  rw [Nat.testBit_two_pow_sub_one]
  by_cases hi : i ≤ m
  · rw [(h i).2 hi (by omega)]; simp; omega
  · rw [(h i).1 (by omega)]; simp; omega

/-- The smearing sequence on natural numbers. -/
def smear (x : Nat) : Nat :=
  let x := x ||| x >>> 1
  let x := x ||| x >>> 2
  let x := x ||| x >>> 4
  let x := x ||| x >>> 8
  x ||| x >>> 16

theorem smear_eq {m x : Nat} (hm : m < 32) (h1 : 2 ^ m ≤ x) (h2 : x < 2 ^ (m + 1)) :
    smear x = 2 ^ (m + 1) - 1 := by
  have s1 := topSet_step (topSet_one h1 h2)
  have s2 := topSet_step s1
  have s3 := topSet_step s2
  have s4 := topSet_step s3
  have s5 := topSet_step s4
  exact topSet_full s5 hm

theorem nextPow2_toNat (n : UInt64) (hn : 1 ≤ n.toNat) : (nextPow2 n).toNat = smear (n.toNat - 1) := by
  have h1 : (n - 1).toNat = n.toNat - 1 := by
    rw [UInt64.toNat_sub_of_le]
    · rfl
    · rw [UInt64.le_iff_toNat_le]; exact hn
  unfold nextPow2 smear
  simp [UInt64.toNat_or, UInt64.toNat_shiftRight, h1]

/-- Least exponent whose power of two is at least `n`. -/
theorem exists_clog (n : Nat) (hn : 2 ≤ n) : ∃ m, 2 ^ m ≤ n - 1 ∧ n - 1 < 2 ^ (m + 1) := by
  refine ⟨Nat.log2 (n - 1), Nat.log2_self_le (by omega), Nat.lt_log2_self⟩

end Dusk.IP
