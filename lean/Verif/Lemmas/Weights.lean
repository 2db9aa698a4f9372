import Verif.Model.InnerProduct
import Verif.Spec.IPA
/-!
# The weights computed by `VerifScalars`
-/

set_option linter.unusedSectionVars false

namespace Dusk.IP

variable {F G : Type} [Field F] [AddCommGroup G] [Module F G] [DecidableEq F]

theorem weight_cons (u : F) (us : List F) (i : Nat) :
    weight (u :: us) i = (if i.testBit us.length then u else u⁻¹) * weight us i := by
  unfold weight
  rw [List.length_cons, Finset.prod_range_succ', mul_comm]
  congr 1
  · apply Finset.prod_congr rfl
    intro j hj
    rw [show us.length + 1 - 1 - (j + 1) = us.length - 1 - j by omega, List.getD_cons_succ]

/-- Only the low bits matter. -/
theorem weight_congr (us : List F) {i j : Nat} (h : ∀ b < us.length, i.testBit b = j.testBit b) :
    weight us i = weight us j := by
  unfold weight
  apply Finset.prod_congr rfl
  intro x hx
  have : x < us.length := Finset.mem_range.1 hx
  rw [h _ (by omega)]

/-- The weights as a list. -/
def sVec : List F → List F
  | [] => [1]
  | u :: us => (sVec us).map (fun x => x * u⁻¹) ++ (sVec us).map (fun x => x * u)

theorem sVec_length : ∀ us : List F, (sVec us).length = 2 ^ us.length
  | [] => rfl
  | u :: us => by simp [sVec, sVec_length us, pow_succ]; omega

theorem sVec_eq : ∀ us : List F, sVec us = (List.range (2 ^ us.length)).map (weight us)
  | [] => by simp [sVec, weight]
  | u :: us => by
    have h2 : (2 : Nat) ^ (us.length + 1) = 2 ^ us.length + 2 ^ us.length := by rw [pow_succ]; omega
    rw [sVec, sVec_eq us, List.length_cons, h2, List.range_add, List.map_append, List.map_map,
      List.map_map, List.map_map]
    congr 1
    · apply List.map_congr_left
      intro i hi
      have hi : i < 2 ^ us.length := List.mem_range.1 hi
      simp only [Function.comp, weight_cons, Nat.testBit_lt_two_pow hi]
      simp [mul_comm]
    · apply List.map_congr_left
      intro i hi
      have hi : i < 2 ^ us.length := List.mem_range.1 hi
      simp only [Function.comp, weight_cons, Nat.testBit_two_pow_add_eq, Nat.testBit_lt_two_pow hi]
      rw [weight_congr us (i := 2 ^ us.length + i) (j := i)
        fun b hb => Nat.testBit_two_pow_add_gt hb i]
      simp [mul_comm]

theorem sVec_reverse : ∀ us : List F, (sVec us).reverse = sVec (us.map fun u => u⁻¹)
  | [] => rfl
  | u :: us => by
    simp [sVec, ← sVec_reverse us]

/-- Removing the top bit divides the weight by the square of the corresponding challenge. -/
theorem weight_top (us : List F) (i : Nat) (hi : i ≠ 0) (hlt : i < 2 ^ us.length) :
    weight us i = weight us (i - 2 ^ Nat.log2 i) *
      (us.getD (us.length - 1 - Nat.log2 i) 0 * us.getD (us.length - 1 - Nat.log2 i) 0) := by
  set l := Nat.log2 i with hl
  have hle : 2 ^ l ≤ i := Nat.log2_self_le hi
  have hlt2 : i < 2 ^ (l + 1) := Nat.lt_log2_self
  have hlk : l < us.length := by
    by_contra hcon
    have : 2 ^ us.length ≤ 2 ^ l := Nat.pow_le_pow_right (by norm_num) (by omega)
    omega
  set r := i - 2 ^ l with hr
  have hi' : i = 2 ^ l + r := by omega
  have hr2 : r < 2 ^ l := by rw [pow_succ] at hlt2; omega
  have hmem : us.length - 1 - l ∈ Finset.range us.length := Finset.mem_range.2 (by omega)
  unfold weight
  rw [← Finset.mul_prod_erase _ _ hmem, ← Finset.mul_prod_erase (Finset.range us.length) _ hmem]
  have hb : us.length - 1 - (us.length - 1 - l) = l := by omega
  have h1 : i.testBit l = true := by
    rw [hi', Nat.testBit_two_pow_add_eq, Nat.testBit_lt_two_pow hr2]; rfl
  have h2 : r.testBit l = false := Nat.testBit_lt_two_pow hr2
  rw [hb, h1, h2]
  have hrest : ∏ x ∈ (Finset.range us.length).erase (us.length - 1 - l),
      (if i.testBit (us.length - 1 - x) then us.getD x 0 else (us.getD x 0)⁻¹) =
      ∏ x ∈ (Finset.range us.length).erase (us.length - 1 - l),
      (if r.testBit (us.length - 1 - x) then us.getD x 0 else (us.getD x 0)⁻¹) := by
    apply Finset.prod_congr rfl
    intro x hx
    rw [Finset.mem_erase, Finset.mem_range] at hx
    have hbit : i.testBit (us.length - 1 - x) = r.testBit (us.length - 1 - x) := by
      rcases lt_trichotomy (us.length - 1 - x) l with hlt | heq | hgt
      · rw [hi', Nat.testBit_two_pow_add_gt hlt]
      · omega
      · rw [Nat.testBit_lt_two_pow (lt_of_lt_of_le hlt2 (Nat.pow_le_pow_right (by norm_num) hgt)),
          Nat.testBit_lt_two_pow (lt_of_lt_of_le hr2 (Nat.pow_le_pow_right (by norm_num) hgt.le))]
    rw [hbit]
  rw [hrest]
  generalize us.getD (us.length - 1 - l) 0 = u
  simp only [if_true, Bool.false_eq_true, if_false]
  by_cases hu : u = 0
  · simp [hu]
  · field_simp

theorem foldl_mul : ∀ (l : List F) (c : F), l.foldl (fun acc x => acc * x) c = c * l.prod
  | [], c => by simp
  | x :: l, c => by simp [foldl_mul l, mul_assoc]

theorem weight_zero (us : List F) : weight us 0 = (us.map fun x => x⁻¹).prod := by
  induction us with
  | nil => simp [weight]
  | cons u us ih => simp [weight_cons, ih]

theorem sLoop_eq (us : List F) : ∀ (rem i : Nat), 1 ≤ i → i + rem = 2 ^ us.length →
    sLoop (us.map fun x => x * x) us.length rem i ((List.range i).map (weight us)) = .ok (sVec us)
  | 0, i, _, h => by
    rw [sLoop, sVec_eq, ← h, Nat.add_zero]
  | rem + 1, i, hi, h => by
    have hlt : i < 2 ^ us.length := by omega
    have hlk : Nat.log2 i < us.length := by
      rw [Nat.log2_lt (by omega)]; exact hlt
    have hle : 2 ^ Nat.log2 i ≤ i := Nat.log2_self_le (by omega)
    have hpos : 0 < 2 ^ Nat.log2 i := Nat.two_pow_pos _
    rw [sLoop]
    rw [if_neg (by omega)]
    have e1 : idx (us.map fun x => x * x) (us.length - 1 - Nat.log2 i) =
        .ok (us.getD (us.length - 1 - Nat.log2 i) 0 * us.getD (us.length - 1 - Nat.log2 i) 0) := by
      have hx : us.length - 1 - Nat.log2 i < us.length := by omega
      rw [idx_of_lt (by simpa using hx)]
      simp [hx]
    have e2 : idx ((List.range i).map (weight us)) (i - 2 ^ Nat.log2 i) =
        .ok (weight us (i - 2 ^ Nat.log2 i)) := by
      rw [idx_of_lt (by simp; omega)]
      simp
    rw [e1, Res.bind_ok, e2, Res.bind_ok, ← weight_top us i (by omega) hlt]
    have e3 : (List.range i).map (weight us) ++ [weight us i] = (List.range (i + 1)).map (weight us) := by
      simp [List.range_succ]
    rw [e3]
    exact sLoop_eq us rem (i + 1) (by omega) (by omega)

/-- The challenges derived from the proof's points. -/
def chals (R : Ristretto F G) (p : Proof F G) : List F := chalLoop R {} (p.L.zip p.R)

theorem chalLoop_eq (R : Ristretto F G) : ∀ (l : List (G × G)) (hs : HashCacher),
    chalLoop R hs l = (List.range l.length).map fun j =>
      R.sDerive (hs.cache ++ (l.take (j + 1)).flatMap fun p => R.pBytes p.1 ++ R.pBytes p.2)
  | [], hs => rfl
  | (a, b) :: l, hs => by
    rw [chalLoop, chalLoop_eq R l, List.length_cons, List.range_succ_eq_map]
    simp [HashCacher.append, HashCacher.derive]

theorem chals_eq (R : Ristretto F G) (p : Proof F G) : chals R p = challenges R p.L p.R := by
  rw [chals, chalLoop_eq]; simp [challenges]

theorem chalLoop_length (R : Ristretto F G) : ∀ (l : List (G × G)) (hs : HashCacher),
    (chalLoop R hs l).length = l.length
  | [], hs => rfl
  | (a, b) :: l, hs => by simp [chalLoop, chalLoop_length R l]

theorem verifScalars_eq (R : Ristretto F G) (p : Proof F G) (h : p.L.length = p.R.length)
    (hk : p.L.length < 32) :
    verifScalars R p = .ok ((chals R p).map fun x => x * x, (chals R p).map fun x => x⁻¹ * x⁻¹,
      sVec (chals R p)) := by
  have hlen : (chals R p).length = p.L.length := by
    simp [chals, chalLoop_length, h]
  unfold verifScalars
  rw [if_neg (by simpa using h)]
  simp only
  rw [foldl_mul, one_mul]
  have hlt : 2 ^ p.L.length < 2 ^ 32 := Nat.pow_lt_pow_right (by norm_num) hk
  have hpos : 0 < 2 ^ p.L.length := Nat.two_pow_pos _
  rw [Nat.mod_eq_of_lt hlt]
  have := sLoop_eq (chals R p) (2 ^ p.L.length - 1) 1 le_rfl (by rw [hlen]; omega)
  have h0 : (List.range 1).map (weight (chals R p)) = [((chals R p).map fun x => x⁻¹).prod] := by
    simp [weight_zero]
  rw [h0, hlen] at this
  change ((sLoop ((chals R p).map fun x => x * x) p.L.length (2 ^ p.L.length - 1) 1
    [((chals R p).map fun x => x⁻¹).prod]).bind fun s => _) = _
  rw [this]
  simp [chals]

/-- Beyond 31 rounds the number of weights, a `uint32`, is zero: only one weight is produced. -/
theorem verifScalars_overflow (R : Ristretto F G) (p : Proof F G) (h : p.L.length = p.R.length)
    (hk : 32 ≤ p.L.length) :
    verifScalars R p = .ok ((chals R p).map fun x => x * x, (chals R p).map fun x => x⁻¹ * x⁻¹,
      [weight (chals R p) 0]) := by
  unfold verifScalars
  rw [if_neg (by simpa using h)]
  simp only
  rw [foldl_mul, one_mul]
  have : 2 ^ p.L.length % 2 ^ 32 = 0 := Nat.mod_eq_zero_of_dvd (pow_dvd_pow 2 hk)
  rw [this, weight_zero]
  simp [sLoop, chals]

end Dusk.IP
