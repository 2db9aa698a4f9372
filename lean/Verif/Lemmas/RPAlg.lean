import Verif.Spec.RangeProof
import Verif.Lemmas.InnerProduct
import Mathlib.Tactic.Ring
import Mathlib.Tactic.LinearCombination
/-!
# Algebra of the range proof: bit vectors, powers, the polynomial
-/

set_option linter.unusedSectionVars false

namespace Dusk

theorem mapRes_ok {α β : Type} (f : α → Res β) (g : α → β) : ∀ (l : List α), (∀ x ∈ l, f x = .ok (g x)) →
    mapRes f l = .ok (l.map g)
  | [], _ => rfl
  | a :: l, h => by
    rw [mapRes, h a (by simp), Res.bind_ok, mapRes_ok f g l fun x hx => h x (by simp [hx]), Res.bind_ok,
      List.map_cons]

namespace RP

variable {F G : Type} [Field F] [AddCommGroup G] [Module F G] [DecidableEq F]

/-! ## Lists -/

theorem msm_sub_const (z : F) : ∀ (a : List F) (g : List G), a.length = g.length →
    msm (a.map fun x => x - z) g = msm a g - z • g.sum
  | [], [], _ => by simp
  | x :: a, p :: g, h => by
    simp only [List.length_cons, Nat.add_right_cancel_iff] at h
    simp only [List.map_cons, msm_cons, msm_sub_const z a g h, List.sum_cons]
    module

theorem msm_add_const (z : F) : ∀ (a : List F) (g : List G), a.length = g.length →
    msm (a.map fun x => x + z) g = msm a g + z • g.sum
  | [], [], _ => by simp
  | x :: a, p :: g, h => by
    simp only [List.length_cons, Nat.add_right_cancel_iff] at h
    simp only [List.map_cons, msm_cons, msm_add_const z a g h, List.sum_cons]
    module

theorem dot_sub_const (z : F) (a g : List F) (h : a.length = g.length) :
    dot (a.map fun x => x - z) g = dot a g - z * g.sum := msm_sub_const z a g h

/-- Pointwise difference. -/
def vsub (a b : List F) : List F := List.zipWith (fun x y => x - y) a b

@[simp] theorem vsub_length (a b : List F) : (vsub a b).length = min a.length b.length := by simp [vsub]
@[simp] theorem vsub_cons (x y : F) (a b : List F) : vsub (x :: a) (y :: b) = (x - y) :: vsub a b := rfl
@[simp] theorem vsub_nil (b : List F) : vsub [] b = [] := by simp [vsub]

theorem msm_vsub : ∀ (a b : List F) (g : List G), a.length = b.length → msm (vsub a b) g = msm a g - msm b g
  | [], [], g, _ => by simp
  | x :: a, y :: b, [], _ => by simp
  | x :: a, y :: b, p :: g, h => by
    simp only [List.length_cons, Nat.add_right_cancel_iff] at h
    simp only [vsub_cons, msm_cons, msm_vsub a b g h]
    module

theorem had_vsub : ∀ (a b f : List F), a.length = b.length → had (vsub a b) f = vsub (had a f) (had b f)
  | [], [], f, _ => by simp
  | x :: a, y :: b, [], _ => by simp
  | x :: a, y :: b, p :: g, h => by
    simp only [List.length_cons, Nat.add_right_cancel_iff] at h
    simp [had_vsub a b g h, sub_mul]

/-- `<a - z, (b + z) ∘ y> = <a ∘ b, y> + z (<a,y> - <b,y> - <1,y>) + (z - z²) <1,y>`. -/
theorem dot_bits (z : F) : ∀ (a b y : List F), a.length = b.length → a.length = y.length →
    dot (a.map fun x => x - z) (had (b.map fun x => x + z) y) =
      dot (had a b) y + z * (dot a y - dot b y - y.sum) + (z - z * z) * y.sum
  | [], [], [], _, _ => by simp
  | p :: a, q :: b, r :: y, h, h' => by
    simp only [List.length_cons, Nat.add_right_cancel_iff] at h h'
    simp only [List.map_cons, had_cons, dot_cons, dot_bits z a b y h h', List.sum_cons]
    ring

/-! ## Bits -/

theorem bitLoop_spec : ∀ (k : Nat) (num : UInt64),
    (bitLoop (F := F) k num).AL.length = k ∧
    (bitLoop (F := F) k num).AR = (bitLoop (F := F) k num).AL.map (fun x => x - 1) ∧
    (∀ x ∈ (bitLoop (F := F) k num).AL, x = 0 ∨ x = 1) ∧
    (bitLoop (F := F) k num).AL = (List.range k).map fun i => if num.toNat.testBit i then 1 else 0
  | 0, _ => by simp [bitLoop]
  | k + 1, num => by
    obtain ⟨h1, h2, h3, h4⟩ := bitLoop_spec k (num >>> 1)
    have hsh : (num >>> 1).toNat = num.toNat / 2 := by
      rw [UInt64.toNat_shiftRight]; simp [Nat.shiftRight_eq_div_pow]
    have hm : (num % 2 = 0) ↔ num.toNat % 2 = 0 := by
      rw [← UInt64.toNat_inj, UInt64.toNat_mod]; rfl
    have htail : (List.range (k + 1)).map (fun i => if num.toNat.testBit i then (1 : F) else 0) =
        (if num.toNat % 2 = 0 then (0 : F) else 1) :: (bitLoop (F := F) k (num >>> 1)).AL := by
      rw [List.range_succ_eq_map, List.map_cons, List.map_map, h4]
      congr 1
      · rw [Nat.testBit_zero]
        rcases Nat.mod_two_eq_zero_or_one num.toNat with h | h <;> simp [h]
      · apply List.map_congr_left
        intro i _
        simp only [Function.comp, hsh, Nat.testBit_succ]
    rw [htail, bitLoop]
    simp only [hm]
    split
    · refine ⟨by simp [h1], by simp [h2], ?_, rfl⟩
      intro x hx
      rcases List.mem_cons.1 hx with rfl | hx
      · exact Or.inl rfl
      · exact h3 x hx
    · refine ⟨by simp [h1], by simp [h2], ?_, rfl⟩
      intro x hx
      rcases List.mem_cons.1 hx with rfl | hx
      · exact Or.inr rfl
      · exact h3 x hx

theorem powers_succ' (a : F) (n : Nat) : powers a (n + 1) = 1 :: (powers a n).map fun x => x * a := by
  unfold powers
  rw [List.range_succ_eq_map, List.map_cons, List.map_map, List.map_map, pow_zero]
  congr 1
  apply List.map_congr_left
  intro i _
  exact pow_succ _ _

theorem bitLoop_dot : ∀ (k : Nat) (num : UInt64),
    dot (bitLoop (F := F) k num).AL (powers 2 k) = ((num.toNat % 2 ^ k : Nat) : F)
  | 0, _ => by simp [bitLoop, Nat.mod_one]
  | k + 1, num => by
    have ih := bitLoop_dot k (num >>> 1)
    have hsh : (num >>> 1).toNat = num.toNat / 2 := by
      rw [UInt64.toNat_shiftRight]; simp [Nat.shiftRight_eq_div_pow]
    have hm : (num % 2 = 0) ↔ num.toNat % 2 = 0 := by
      rw [← UInt64.toNat_inj, UInt64.toNat_mod]; rfl
    have hmod : num.toNat % 2 ^ (k + 1) = num.toNat % 2 + 2 * (num.toNat / 2 % 2 ^ k) := by
      rw [pow_succ', Nat.mod_mul]
    rw [hmod, powers_succ']
    unfold bitLoop
    simp only [hm]
    rw [hsh] at ih
    split
    · rename_i h
      simp only [dot_cons, dot_smul_right, ih, h]
      push_cast; ring
    · rename_i h
      have h : num.toNat % 2 = 1 := by omega
      simp only [dot_cons, dot_smul_right, ih, h]
      push_cast; ring

theorem bitCommit_length (v : Int) : (bitCommit (F := F) v).AL.length = nBits := (bitLoop_spec _ _).1

theorem bitCommit_AR (v : Int) : (bitCommit (F := F) v).AR = (bitCommit (F := F) v).AL.map fun x => x - 1 :=
  (bitLoop_spec _ _).2.1

theorem bitCommit_bit (v : Int) : ∀ x ∈ (bitCommit (F := F) v).AL, x = 0 ∨ x = 1 := (bitLoop_spec _ _).2.2.1

theorem bitCommit_dot (v : Int) :
    dot (bitCommit (F := F) v).AL (powers 2 nBits) = ((v.natAbs % 2 ^ 64 : Nat) : F) := by
  unfold bitCommit
  rw [bitLoop_dot, UInt64.toNat_ofNat', Nat.mod_mod]

/-! ## The vector `∑ z^(j+1) 2^n` -/

/-- Blocks `z^k 2^n, z^(k+1) 2^n, …` -/
def sumZ (z : F) : Nat → Nat → List F
  | _, 0 => []
  | k, m + 1 => ((powers 2 nBits).map fun x => x * z ^ k) ++ sumZ z (k + 1) m

theorem sumZ_length (z : F) : ∀ m k, (sumZ z k m).length = nBits * m
  | 0, _ => rfl
  | m + 1, k => by simp only [sumZ, List.length_append, List.length_map, powers_length, sumZ_length z m, Nat.mul_succ]; omega

theorem sumZ_eq (z : F) : ∀ m k, sumZ z k m =
    (List.range (m * nBits)).map fun i => z ^ (i / nBits + k) * 2 ^ (i % nBits)
  | 0, _ => by simp [sumZ]
  | m + 1, k => by
    rw [sumZ, sumZ_eq z m, Nat.succ_mul, Nat.add_comm (m * nBits) nBits, List.range_add, List.map_append,
      List.map_map]
    congr 1
    · unfold powers
      rw [List.map_map]
      apply List.map_congr_left
      intro i hi
      have hi := List.mem_range.1 hi
      simp only [Function.comp]
      rw [Nat.div_eq_of_lt hi, Nat.mod_eq_of_lt hi, Nat.zero_add, mul_comm]
    · apply List.map_congr_left
      intro i _
      simp only [Function.comp]
      rw [Nat.add_mod_left, Nat.add_comm nBits i, Nat.add_div_right _ (by norm_num)]
      congr 2
      omega

theorem idx_scalarPowers (z : F) {n j : Nat} (hj : 1 ≤ j) (hn : j < n) :
    idx (Vec.scalarPowers z n) j = .ok (z ^ j) := by
  by_cases hz : z = 0
  · subst hz
    unfold Vec.scalarPowers
    rw [if_neg (by omega), if_pos rfl, idx_of_lt (by simpa)]
    simp [show j ≠ 0 by omega]
  · rw [scalarPowers_eq hz, idx_of_lt (by simpa [powers_length])]
    simp [powers]

theorem idx_powers {a : F} (ha : a ≠ 0) {n j : Nat} (hn : j < n) :
    idx (Vec.scalarPowers a n) j = .ok (a ^ j) := by
  rw [scalarPowers_eq ha, idx_of_lt (by simpa [powers_length])]
  simp [powers]

theorem sumInner_eq (h2 : (2 : F) ≠ 0) (z : F) (n i : Nat) : ∀ (k j : Nat) (acc : F), 1 ≤ j → j + k < n →
    sumInner (Vec.scalarPowers z n) (Vec.scalarPowers (2 : F) nBits) i k j acc =
      .ok (if j ≤ i / nBits + 1 ∧ i / nBits + 1 < j + k then z ^ (i / nBits + 2) * 2 ^ (i % nBits) + acc else acc)
  | 0, j, acc, _, _ => by
    rw [sumInner, if_neg (by omega)]
  | k + 1, j, acc, hj, hn => by
    rw [sumInner]
    have hb : ((j - 1) * nBits ≤ i ∧ i < j * nBits) ↔ i / nBits + 1 = j := by
      constructor
      · rintro ⟨h, h'⟩
        have h1 := (Nat.le_div_iff_mul_le (show 0 < nBits by norm_num)).2 h
        have h2 := (Nat.div_lt_iff_lt_mul (show 0 < nBits by norm_num)).2 h'
        omega
      · intro h
        have := Nat.div_add_mod i nBits
        have := Nat.mod_lt i (show 0 < nBits by norm_num)
        subst h
        rw [Nat.add_sub_cancel, Nat.mul_comm, Nat.add_mul, Nat.mul_comm (i / nBits)]
        omega
    by_cases h : i / nBits + 1 = j
    · rw [if_pos (hb.2 h)]
      have hm : i - (j - 1) * nBits = i % nBits := by
        have := Nat.div_add_mod i nBits
        subst h
        rw [Nat.add_sub_cancel, Nat.mul_comm]
        omega
      rw [idx_scalarPowers z (by omega) (by omega), Res.bind_ok, hm,
        idx_powers h2 (Nat.mod_lt i (by norm_num)), Res.bind_ok,
        sumInner_eq h2 z n i k (j + 1) _ (by omega) (by omega), if_neg (by omega), if_pos (by omega), ← h]
    · rw [if_neg (fun hh => h (hb.1 hh)), sumInner_eq h2 z n i k (j + 1) _ (by omega) (by omega)]
      congr 1
      by_cases h' : j + 1 ≤ i / nBits + 1 ∧ i / nBits + 1 < j + 1 + k
      · rw [if_pos h', if_pos (by omega)]
      · rw [if_neg h', if_neg (by omega)]

theorem sumZMTwoN_eq (h2 : (2 : F) ≠ 0) (z : F) {m : Nat} (hm : m + 3 < 2 ^ 32) :
    sumZMTwoN z m = .ok (sumZ z 2 m) := by
  unfold sumZMTwoN
  rw [Nat.mod_eq_of_lt hm, sumZ_eq]
  apply mapRes_ok
  intro i hi
  have hi := List.mem_range.1 hi
  have := (Nat.div_lt_iff_lt_mul (show 0 < nBits by norm_num)).2 hi
  have := Nat.zero_le (i / nBits)
  rw [sumInner_eq h2 z _ i m 1 0 le_rfl (by omega), if_pos (by omega), add_zero]

/-- The `j`-th block of 64 entries. -/
def block (a : List F) (j : Nat) : List F := (a.drop (nBits * j)).take nBits

theorem dot_sumZ (z : F) : ∀ (m k : Nat) (a : List F), a.length = nBits * m →
    dot a (sumZ z k m) = ∑ j ∈ Finset.range m, z ^ (j + k) * dot (block a j) (powers 2 nBits)
  | 0, k, a, _ => by simp [sumZ]
  | m + 1, k, a, h => by
    have h1 : (a.take nBits).length = nBits := by simp [h]
    have h2 : (a.drop nBits).length = nBits * m := by rw [List.length_drop, h, Nat.mul_succ]; omega
    have hb : ∀ j, block (a.drop nBits) j = block a (j + 1) := by
      intro j; unfold block; rw [List.drop_drop, Nat.mul_succ, Nat.add_comm]
    conv_lhs => rw [← List.take_append_drop nBits a]
    rw [sumZ, dot_append _ _ _ _ (by simp [h1, powers_length]), dot_smul_right, dot_sumZ z m (k + 1) _ h2,
      Finset.sum_range_succ', add_comm]
    congr 1
    · apply Finset.sum_congr rfl
      intro j _
      rw [hb]
      congr 2
      omega
    · simp [block]

theorem sum_sumZ (z : F) : ∀ (m k : Nat),
    (sumZ z k m).sum = (∑ i ∈ Finset.range nBits, (2 : F) ^ i) * (z ^ k * ∑ j ∈ Finset.range m, z ^ j)
  | 0, k => by simp [sumZ]
  | m + 1, k => by
    have hp : ((powers (2 : F) nBits).map fun x => x * z ^ k).sum =
        (∑ i ∈ Finset.range nBits, (2 : F) ^ i) * z ^ k := by
      rw [List.sum_map_mul_right]
      congr 1
    have hs : ∑ j ∈ Finset.range (m + 1), z ^ j = z * (∑ j ∈ Finset.range m, z ^ j) + 1 := by
      rw [Finset.sum_range_succ', Finset.mul_sum, pow_zero]
      congr 1
      exact Finset.sum_congr rfl fun j _ => pow_succ' _ _
    rw [sumZ, List.sum_append, sum_sumZ z m, hp, hs]
    generalize ∑ i ∈ Finset.range nBits, (2 : F) ^ i = T
    ring

theorem powers_sum (y : F) (n : Nat) : (powers y n).sum = ∑ i ∈ Finset.range n, y ^ i := by
  rfl

theorem had_powers_inv {y : F} (hy : y ≠ 0) (n : Nat) : had (powers y n) (powers y⁻¹ n) = List.replicate n 1 := by
  unfold had powers
  apply List.ext_getElem
  · simp
  · intro i h1 h2
    simp [hy]

theorem computeDelta_eq (y z : F) {m : Nat} (hm : nBits * m < 2 ^ 32) :
    computeDelta y z nBits m = delta y z m := by
  unfold computeDelta delta
  rw [Nat.mod_eq_of_lt hm, scalarPowersSum_eq, scalarPowersSum_eq, scalarPowersSum_eq]
  ring

/-- The constant coefficient in terms of the openings: for any vectors. -/
theorem t0_general (y z : F) (m : Nat) (aL aR : List F) (hL : aL.length = nBits * m) (hR : aR.length = nBits * m) :
    dot (aL.map fun x => x - z) (vadd (had (aR.map fun x => x + z) (powers y (nBits * m))) (sumZ z 2 m)) =
      delta y z m + (dot (had aL aR) (powers y (nBits * m))
        + z * (dot aL (powers y (nBits * m)) - dot aR (powers y (nBits * m)) - (powers y (nBits * m)).sum)
        + ∑ j ∈ Finset.range m, z ^ (j + 2) * dot (block aL j) (powers 2 nBits)) := by
  rw [dot_vadd_right _ _ _ (by simp [hR, powers_length, sumZ_length]),
    dot_bits z aL aR _ (by omega) (by rw [powers_length, hL]),
    dot_sub_const _ _ _ (by rw [hL, sumZ_length]), sum_sumZ, dot_sumZ z m 2 aL hL, powers_sum, delta]
  ring

end RP

end Dusk
