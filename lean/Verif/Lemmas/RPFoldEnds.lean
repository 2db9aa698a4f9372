import Verif.Lemmas.RPFold
import Verif.Props.RPSound
/-!
# Unwinding the challenges of an accepted range proof: the last and the first challenges
-/

set_option linter.unusedSectionVars false

namespace Dusk.RPFold

open Dusk.RP (Coef delta)

variable {F : Type} [Field F]

/-- Coordinates of the points of a proof. -/
structure Pts (F : Type) where
  V : Nat → Coef F
  A : Coef F
  S : Coef F
  T1 : Coef F
  T2 : Coef F
  L : Nat → Coef F
  R : Nat → Coef F

/-- The equations of a proof with the coordinates `P` under the challenges `y`, `z`. -/
def lin (m : Nat) (P : Pts F) (y z : F) : Lin F where
  c i := P.A.1 i - z
  c' i := y ^ i * (P.A.2.1 i + z) + z ^ (i / 64 + 2) * 2 ^ (i % 64)
  s i := P.S.1 i
  s' i := y ^ i * P.S.2.1 i
  l j i := (P.L j).1 i
  l' j i := y ^ i * (P.L j).2.1 i
  r j i := (P.R j).1 i
  r' j i := y ^ i * (P.R j).2.1 i
  b := P.A.2.2.1
  sb := P.S.2.2.1
  lb j := (P.L j).2.2.1
  rb j := (P.R j).2.2.1
  th := delta y z m + ∑ j ∈ Finset.range m, z ^ (j + 2) * (P.V j).2.2.1
  t1 := P.T1.2.2.1
  t2 := P.T2.2.2.1
  v i := ∑ j ∈ Finset.range m, z ^ (j + 2) * (P.V j).1 i
  v' i := ∑ j ∈ Finset.range m, z ^ (j + 2) * (P.V j).2.1 i
  p i := P.T1.1 i
  p' i := P.T1.2.1 i
  q i := P.T2.1 i
  q' i := P.T2.2.1 i

/-! ## All challenges known -/

theorem weight_fl (us : List F) (h0 : ∀ u ∈ us, u ≠ 0) {j i : Nat} (hj : j < us.length)
    (hb : i.testBit (us.length - 1 - j) = false) :
    IP.weight us (fl us.length j i) = us.getD j 0 ^ 2 * IP.weight us i := by
  have hne : us.getD j 0 ≠ 0 := h0 _ (by simp [List.getD_eq_getElem?_getD, hj])
  unfold IP.weight
  rw [← Finset.mul_prod_erase _ _ (Finset.mem_range.2 hj), ← Finset.mul_prod_erase _ _ (Finset.mem_range.2 hj), fl_bit, hb]
  have : ∀ x ∈ (Finset.range us.length).erase j, (if (fl us.length j i).testBit (us.length - 1 - x) then us.getD x 0 else
      (us.getD x 0)⁻¹) = if i.testBit (us.length - 1 - x) then us.getD x 0 else (us.getD x 0)⁻¹ := by
    intro x hx
    have h1 := Finset.ne_of_mem_erase hx
    have h2 := Finset.mem_range.1 (Finset.mem_of_mem_erase hx)
    have : (fl us.length j i).testBit (us.length - 1 - x) = i.testBit (us.length - 1 - x) := by
      unfold fl
      rw [Nat.testBit_xor, Nat.testBit_two_pow_of_ne (by omega), Bool.xor_false]
    rw [this]
  rw [Finset.prod_congr rfl this]
  simp only [Bool.not_false, if_true, Bool.false_eq_true, if_false]
  field_simp

theorem weight_ne_zero (us : List F) (h0 : ∀ u ∈ us, u ≠ 0) (i : Nat) : IP.weight us i ≠ 0 := by
  unfold IP.weight
  refine Finset.prod_ne_zero_iff.2 fun j hj => ?_
  have hj := Finset.mem_range.1 hj
  have hne : us.getD j 0 ≠ 0 := h0 _ (by simp [List.getD_eq_getElem?_getD, hj])
  split
  · exact hne
  · exact inv_ne_zero hne

theorem Inv.final {d : Lin F} {x w a b t : F} {us : List F} {n k : Nat} (hk : us.length = k) (hn : n = 2 ^ k)
    (h0 : ∀ u ∈ us, u ≠ 0) (st : Stat F) (hX : st.X = some x) (hW : st.W = some w) (hU : ∀ j < k, st.U j = some (us.getD j 0))
    (hG : ∀ i < n, cAt d st k i = a * IP.weight us i) (hH : ∀ i < n, cAt' d st k i = b * (IP.weight us i)⁻¹)
    (hB : bAt d st k + w * (t - a * b) = 0) (hT : thAt d st = t)
    (hV : ∀ i < n, d.v i + x * d.p i + x ^ 2 * d.q i = 0) (hV' : ∀ i < n, d.v' i + x * d.p' i + x ^ 2 * d.q' i = 0) :
    Inv d st n k := by
  refine ⟨?_, ?_, ?_, fun i hi => by rw [hX]; exact hV i hi, fun i hi => by rw [hX]; exact hV' i hi⟩
  · intro j hj u hu i hi hb
    rw [hU j hj] at hu
    cases hu
    rw [hG i hi, hG _ (by rw [hn]; exact fl_lt hj (hn ▸ hi))]
    have := weight_fl us h0 (i := i) (by rw [hk]; exact hj) (by rw [hk]; exact hb)
    rw [hk] at this
    rw [this]
    ring
  · intro j hj u hu i hi hb
    rw [hU j hj] at hu
    cases hu
    have hne : us.getD j 0 ≠ 0 := h0 _ (by simp [List.getD_eq_getElem?_getD, hk, hj])
    rw [hH i hi, hH _ (by rw [hn]; exact fl_lt hj (hn ▸ hi))]
    have := weight_fl us h0 (i := i) (by rw [hk]; exact hj) (by rw [hk]; exact hb)
    rw [hk] at this
    rw [this]
    have := weight_ne_zero us h0 i
    field_simp
  · rw [hW]
    dsimp only
    have hnum : num st k = 2 ^ k := by
      unfold num
      rw [Finset.prod_congr rfl (g := fun _ => (2 : F)) (fun j hj => by rw [hU j (Finset.mem_range.1 hj)]; rfl)]
      simp
    have hdot : dotAt d st n k = 2 ^ k * (a * b) := by
      unfold dotAt
      rw [Finset.sum_congr rfl (g := fun _ => a * b) (fun i hi => by
        have := weight_ne_zero us h0 i
        rw [hG i (Finset.mem_range.1 hi), hH i (Finset.mem_range.1 hi)]
        field_simp)]
      rw [Finset.sum_const, Finset.card_range, hn, nsmul_eq_mul]
      push_cast
      rfl
    rw [hnum, hdot, hT]
    linear_combination 2 ^ k * hB

/-- Only the coordinates that belong to known challenges matter. -/
theorem Inv.congr {d d' : Lin F} {st : Stat F} {n k : Nat} (hc : d.c = d'.c) (hc' : d.c' = d'.c') (hs : d.s = d'.s) (hs' : d.s' = d'.s')
    (hu : ∀ j < k, st.U j ≠ none → d.l j = d'.l j ∧ d.l' j = d'.l' j ∧ d.r j = d'.r j ∧ d.r' j = d'.r' j ∧ d.lb j = d'.lb j ∧ d.rb j = d'.rb j)
    (hb : d.b = d'.b) (hsb : d.sb = d'.sb) (hth : d.th = d'.th) (hv : d.v = d'.v) (hv' : d.v' = d'.v')
    (hx : st.X ≠ none → d.t1 = d'.t1 ∧ d.t2 = d'.t2 ∧ d.p = d'.p ∧ d.p' = d'.p' ∧ d.q = d'.q ∧ d.q' = d'.q')
    (h : Inv d st n k) : Inv d' st n k := by
  have hcomb : ∀ (c s : F) (l r l' r' : Nat → F), (∀ j < k, st.U j ≠ none → l j = l' j ∧ r j = r' j) →
      comb st k c s l r = comb st k c s l' r' := by
    intro c s l r l' r' hh
    unfold comb
    congr 1
    refine Finset.sum_congr rfl fun j hj => ?_
    cases hU : st.U j with
    | none => simp [sq, isq]
    | some u =>
      obtain ⟨h1, h2⟩ := hh j (Finset.mem_range.1 hj) (by rw [hU]; simp)
      rw [h1, h2]
  have hC : ∀ i, cAt d' st k i = cAt d st k i := by
    intro i
    unfold cAt
    rw [hc, hs]
    refine (hcomb _ _ _ _ _ _ fun j hj hU => ?_).symm
    obtain ⟨e1, -, e3, -⟩ := hu j hj hU
    rw [e1, e3]
    exact ⟨rfl, rfl⟩
  have hC' : ∀ i, cAt' d' st k i = cAt' d st k i := by
    intro i
    unfold cAt'
    rw [hc', hs']
    refine (hcomb _ _ _ _ _ _ fun j hj hU => ?_).symm
    obtain ⟨-, e1, -, e3, -⟩ := hu j hj hU
    rw [e1, e3]
    exact ⟨rfl, rfl⟩
  have hB : bAt d' st k = bAt d st k := by
    unfold bAt
    rw [hb, hsb]
    refine (hcomb _ _ _ _ _ _ fun j hj hU => ?_).symm
    obtain ⟨-, -, -, -, e1, e2⟩ := hu j hj hU
    exact ⟨e1, e2⟩
  have hX : ∀ (a b a' b' c : F), (st.X ≠ none → a = a' ∧ b = b') →
      c + st.X.getD 0 * a' + st.X.getD 0 ^ 2 * b' = c + st.X.getD 0 * a + st.X.getD 0 ^ 2 * b := by
    intro a b a' b' c hh
    cases hX : st.X with
    | none => simp
    | some x =>
      obtain ⟨h1, h2⟩ := hh (by rw [hX]; simp)
      rw [h1, h2]
  have hT : thAt d' st = thAt d st := by
    unfold thAt
    rw [hth]
    exact hX _ _ _ _ _ fun hh => ⟨(hx hh).1, (hx hh).2.1⟩
  have hD : dotAt d' st n k = dotAt d st n k := by
    unfold dotAt
    simp only [hC, hC']
  refine ⟨?_, ?_, ?_, ?_, ?_⟩
  · simp only [hC]; exact h.fold
  · simp only [hC']; exact h.fold'
  · simp only [hB, hT, hD]; exact h.scalar
  · intro i hi
    rw [← hv, hX (d.p i) (d.q i) _ _ _ (fun hh => by obtain ⟨-, -, e1, -, e2, -⟩ := hx hh; rw [e1, e2]; exact ⟨rfl, rfl⟩)]
    exact h.vecs i hi
  · intro i hi
    rw [← hv', hX (d.p' i) (d.q' i) _ _ _ (fun hh => by obtain ⟨-, -, -, e1, -, e2⟩ := hx hh; rw [e1, e2]; exact ⟨rfl, rfl⟩)]
    exact h.vecs' i hi

/-! ## The challenge z -/

/-- Coefficients of the folding equation of round `j` at index 0, in `z`. -/
def zFold (P : Pts F) (st : Stat F) (k j : Nat) : Nat → F :=
  match st.U j with
  | none => 0
  | some u => fun e =>
    [u ^ 2 * comb st k (P.A.1 0) 0 (fun j => (P.L j).1 0) (fun j => (P.R j).1 0) -
      comb st k (P.A.1 (fl k j 0)) 0 (fun i => (P.L i).1 (fl k j 0)) (fun i => (P.R i).1 (fl k j 0)), 1 - u ^ 2].getD e 0

/-- Coefficients of the scalar equation, in `z`. -/
def zScalar (P : Pts F) (m : Nat) (y : F) : Nat → F
  | 0 => ∑ i ∈ Finset.range (64 * m), P.A.1 i * P.A.2.1 i * y ^ i
  | 1 => ∑ i ∈ Finset.range (64 * m), (P.A.1 i - P.A.2.1 i - 1) * y ^ i
  | j + 2 => ∑ b ∈ Finset.range 64, P.A.1 (64 * j + b) * 2 ^ b - (P.V j).2.2.1

def zVec (P : Pts F) (i : Nat) : Nat → F
  | 0 => 0
  | 1 => 0
  | j + 2 => (P.V j).1 i

def zVec' (P : Pts F) (i : Nat) : Nat → F
  | 0 => 0
  | 1 => 0
  | j + 2 => (P.V j).2.1 i

structure GoodZ [Fintype F] (P : Pts F) (st : Stat F) (m k : Nat) (y z : F) : Prop where
  fold : ∀ j < k, z ∉ roots 2 (zFold P st k j)
  scalar : z ∉ roots (m + 2) (zScalar P m y)
  vecs : ∀ i < 64 * m, z ∉ roots (m + 2) (zVec P i)
  vecs' : ∀ i < 64 * m, z ∉ roots (m + 2) (zVec' P i)

theorem range_two (m : Nat) (c : Nat → F) (z : F) : ∑ e ∈ Finset.range (m + 2), c e * z ^ e =
    c 0 + z * c 1 + ∑ j ∈ Finset.range m, z ^ (j + 2) * c (j + 2) := by
  rw [Finset.sum_range_succ', Finset.sum_range_succ']
  have : ∑ j ∈ Finset.range m, c (j + 1 + 1) * z ^ (j + 1 + 1) = ∑ j ∈ Finset.range m, z ^ (j + 2) * c (j + 2) :=
    Finset.sum_congr rfl fun j _ => mul_comm _ _
  rw [this]
  ring

/-- What remains after the challenges have been taken back up to `z`. -/
structure AfterZ (P : Pts F) (m : Nat) (y : F) : Prop where
  prod : ∑ i ∈ Finset.range (64 * m), P.A.1 i * P.A.2.1 i * y ^ i = 0
  diff : ∑ i ∈ Finset.range (64 * m), (P.A.1 i - P.A.2.1 i - 1) * y ^ i = 0
  value : ∀ j < m, (P.V j).2.2.1 = ∑ b ∈ Finset.range 64, P.A.1 (64 * j + b) * 2 ^ b
  vecs : ∀ j < m, ∀ i < 64 * m, (P.V j).1 i = 0
  vecs' : ∀ j < m, ∀ i < 64 * m, (P.V j).2.1 i = 0

theorem Inv.afterZ [Fintype F] {P : Pts F} {st : Stat F} {m k : Nat} {y z : F} (hn : 64 * m = 2 ^ k) (hX : st.X = none)
    (hW : st.W = none) (hU : ∀ j < k, ∀ u, st.U j = some u → u ^ 2 ≠ 1) (hg : GoodZ P st m k y z)
    (h : Inv (lin m P y z) st (64 * m) k) : AfterZ P m y := by
  classical
  have hnone : ∀ j < k, st.U j = none := by
    intro j hj
    cases hu : st.U j with
    | none => rfl
    | some u =>
      exfalso
      have hpos : 0 < 64 * m := by rw [hn]; positivity
      have h0 := h.fold j hj u hu 0 hpos (by simp)
      have hr := hg.fold j hj
      unfold zFold at hr
      rw [hu] at hr
      have := roots_spec hr (by
        simp only [Finset.sum_range_succ, Finset.sum_range_zero, List.getD_cons_zero, List.getD_cons_succ]
        simp only [cAt, comb, hX, lin, Option.getD_none, zero_mul] at h0 ⊢
        linear_combination h0) 1 (by norm_num)
      simp only [List.getD_cons_zero, List.getD_cons_succ] at this
      exact hU j hj u hu (sub_eq_zero.1 this).symm
  have hcomb : ∀ (c s : F) (l r : Nat → F), comb st k c s l r = c := by
    intro c s l r
    unfold comb
    rw [hX, Finset.sum_eq_zero (fun j hj => by rw [hnone j (Finset.mem_range.1 hj)]; simp [sq, isq])]
    simp
  have hnum : num st k = 1 := by
    unfold num
    exact Finset.prod_eq_one fun j hj => by rw [hnone j (Finset.mem_range.1 hj)]; rfl
  have hs := h.scalar
  rw [hW] at hs
  dsimp only at hs
  rw [hnum] at hs
  simp only [thAt, dotAt, cAt, cAt', hcomb, hX, lin, Option.getD_none, zero_mul, add_zero, one_mul, ne_eq, OfNat.ofNat_ne_zero,
    not_false_eq_true, zero_pow] at hs
  have ht := RP.t0_sub_delta y z m P.A.1 P.A.2.1
  have hz := roots_spec hg.scalar (by
    rw [range_two]
    simp only [zScalar, mul_sub, Finset.sum_sub_distrib]
    linear_combination -ht - hs)
  have hv : ∀ i < 64 * m, ∀ e < m + 2, zVec P i e = 0 := fun i hi => roots_spec (hg.vecs i hi) (by
    have := h.vecs i hi
    rw [range_two]
    simp only [hX, lin, Option.getD_none, zero_mul, add_zero, ne_eq, OfNat.ofNat_ne_zero, not_false_eq_true, zero_pow] at this
    simp only [zVec, mul_zero, add_zero, zero_add]
    exact this)
  have hv' : ∀ i < 64 * m, ∀ e < m + 2, zVec' P i e = 0 := fun i hi => roots_spec (hg.vecs' i hi) (by
    have := h.vecs' i hi
    rw [range_two]
    simp only [hX, lin, Option.getD_none, zero_mul, add_zero, ne_eq, OfNat.ofNat_ne_zero, not_false_eq_true, zero_pow] at this
    simp only [zVec', mul_zero, add_zero, zero_add]
    exact this)
  refine ⟨hz 0 (by omega), hz 1 (by omega), fun j hj => ?_, fun j hj i hi => hv i hi (j + 2) (by omega),
    fun j hj i hi => hv' i hi (j + 2) (by omega)⟩
  exact (sub_eq_zero.1 (hz (j + 2) (by omega))).symm

/-! ## The challenge y -/

structure GoodY [Fintype F] (P : Pts F) (m : Nat) (y : F) : Prop where
  prod : y ∉ roots (64 * m) fun i => P.A.1 i * P.A.2.1 i
  diff : y ∉ roots (64 * m) fun i => P.A.1 i - P.A.2.1 i - 1

/-- The coordinates of the commitments: only on the two bases, and a number below `2^64` on the value base. -/
def Opened (P : Pts F) (m : Nat) : Prop :=
  ∀ j < m, (∀ i < 64 * m, (P.V j).1 i = 0) ∧ (∀ i < 64 * m, (P.V j).2.1 i = 0) ∧ ∃ N < 2 ^ 64, (P.V j).2.2.1 = ((N : Nat) : F)

theorem AfterZ.opened [Fintype F] {P : Pts F} {m : Nat} {y : F} (h : AfterZ P m y) (hg : GoodY P m y) : Opened P m := by
  classical
  have h1 := roots_spec hg.prod h.prod
  have h2 := roots_spec hg.diff h.diff
  intro j hj
  refine ⟨h.vecs j hj, h.vecs' j hj, ?_⟩
  rw [h.value j hj]
  refine RP.bits_lt (fun b => P.A.1 (64 * j + b)) fun b hb => ?_
  have e1 := h1 (64 * j + b) (by omega)
  have e2 := h2 (64 * j + b) (by omega)
  have : P.A.1 (64 * j + b) * (P.A.1 (64 * j + b) - 1) = 0 := by
    linear_combination e1 + P.A.1 (64 * j + b) * e2
  rcases mul_eq_zero.1 this with h | h
  · exact Or.inl h
  · exact Or.inr (sub_eq_zero.1 h)

end Dusk.RPFold
