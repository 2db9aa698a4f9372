import Verif.Lemmas.BnReal
/-!
# The orders of the base points of package bls (C133)

C85 shows that the two constants of bls.go are coordinates of points of the curve `y² = x³ + 3` and of its twist. Here the curves
are those of Mathlib, with Mathlib's group law (`Spec/BnCurve`).
-/

namespace Dusk.BnCurve

open WeierstrassCurve.Affine Bls.Base

/-- C133: the two numbers are the values of the Barreto–Naehrig polynomials at the parameter of the curve, and prime. -/
theorem C133_primes : p = Bls.Base.p ∧ r = 36 * u ^ 4 + 36 * u ^ 3 + 18 * u ^ 2 + 6 * u + 1 ∧ p.Prime ∧ r.Prime :=
  ⟨by decide +kernel, by decide +kernel, fact_p.1, fact_r.1⟩

/-- C133: the constant for the base point of the first group is the hexadecimal form of the coordinates of a point of order `r`. -/
theorem C133_g1 : ∃ b : Bytes, Bls.g1Str.toList = hex b ∧ b.length = 64 ∧
    ∃ h : E1.Nonsingular (word b 0 0) (word b 0 1), addOrderOf (Point.some _ _ h : E1.Point) = r := by
  refine ⟨Bls.g1Bytes', Bls.g1Str_hex_eq, by decide +kernel, ?_⟩
  have h0 : word Bls.g1Bytes' 0 0 = g1x := by decide +kernel
  have h1 : word Bls.g1Bytes' 0 1 = g1y := by decide +kernel
  rw [h0, h1]
  exact ⟨g1_nonsingular, base1_order⟩

/-- C133: the curve has `r` points. Every solution of the equation is a point, and every point but the neutral one generates all
points: a point that passes the test of the equation needs no test of its order. -/
theorem C133_curve : Nat.card E1.Point = r ∧ (∀ x y : Fp, E1.Nonsingular x y ↔ y ^ 2 = x ^ 3 + 3) ∧
    ∀ P Q : E1.Point, Q ≠ 0 → ∃ k < r, P = k • Q :=
  ⟨card_E1, E1_nonsingular, fun P _ hQ => mem_multiples card_E1 hQ P⟩

/-- C133: the constant for the base point of the second group is the hexadecimal form of the coordinates of a point of order `r` of
the twist. -/
theorem C133_g2 : ∃ b : Bytes, Bls.g2Str.toList = hex b ∧ b.length = 129 ∧
    ∃ h : E2.Nonsingular ⟨word b 1 1, word b 1 0⟩ ⟨word b 1 3, word b 1 2⟩, addOrderOf (Point.some _ _ h : E2.Point) = r := by
  obtain ⟨hl, h0, h1, h2, h3⟩ : Bls.g2Bytes'.length = 129 ∧ word Bls.g2Bytes' 1 0 = g2x.2 ∧ word Bls.g2Bytes' 1 1 = g2x.1 ∧
      word Bls.g2Bytes' 1 2 = g2y.2 ∧ word Bls.g2Bytes' 1 3 = g2y.1 := by decide +kernel
  refine ⟨Bls.g2Bytes', Bls.g2Str_hex_eq, hl, ?_⟩
  rw [h0, h1, h2, h3]
  exact ⟨nonsingular2 g2_onTwist, base2_order⟩

/-- C133: on the twist the equation is not enough: there are points of the twist that are not annihilated by `r`. So package bls
relies on `Unmarshal` of the library to test the order of public keys. -/
theorem C133_twist : (∀ x y : Fp2, E2.Nonsingular x y ↔ ⟨3, 1⟩ * (y ^ 2 - x ^ 3) = 3) ∧
    ∃ Q : E2.Point, r • Q ≠ 0 ∧ ∀ P : E2.Point, r • P = 0 → ∀ k : Int, Q ≠ k • P := by
  refine ⟨E2_nonsingular, pointQ, pointQ_order, fun P hP k h => pointQ_order ?_⟩
  rw [h, smul_comm, hP]
  exact zsmul_zero k

theorem word_take (b : Bytes) : word b 0 0 = beNat ((b.take 64).take 32) ∧ word b 0 1 = beNat ((b.take 64).drop 32) := by
  constructor
  · rw [word, List.take_take]; simp
  · rw [word, List.drop_take]

theorem curve_cast {m n : Nat} (hm : m < p) (hn : n < p) : OnCurve m n ↔ ((n : Nat) : Fp) ^ 2 = ((m : Nat) : Fp) ^ 3 + 3 := by
  have e : Bls.Base.p = p := C133_primes.1.symm
  rw [OnCurve, e]
  have : ((n : Nat) : Fp) ^ 2 = ((m : Nat) : Fp) ^ 3 + 3 ↔ ((n ^ 2 : Nat) : Fp) = ((m ^ 3 + 3 : Nat) : Fp) := by push_cast; rfl
  rw [this, ZMod.natCast_eq_natCast_iff']
  exact ⟨fun h => h.2.2, fun h => ⟨hm, hn, h⟩⟩

/-- C133: the assumptions on the library hold for the actual curves: there is an instance of `Bn256` whose first group is the group of
all points of the curve and whose second group is generated by the base point on the twist, both of order `r`, with the base points
of the constants, and whose decoder of the first group accepts exactly the coordinates of points of the curve, and zeros. -/
theorem C133_instance : real.order = r ∧
    (∀ x y h, real.g1Bytes (.some x y h) = be x.val ++ be y.val) ∧
    (∀ b, (∃ P rest, real.g1OfBytes b = some (P, rest)) ↔
      64 ≤ b.length ∧ (word b 0 0 = 0 ∧ word b 0 1 = 0 ∨ OnCurve (word b 0 0) (word b 0 1))) ∧
    Bls.newG1Base real Bls.g1Str = .ok real.g1 ∧ Bls.newG2Base real Bls.g2Str = .ok real.g2 ∧
    addOrderOf real.g1 = r ∧ addOrderOf real.g2 = r := by
  refine ⟨rfl, fun _ _ _ => rfl, ?_, ?_, ?_, base1_order, ?_⟩
  · intro b
    obtain ⟨w0, w1⟩ := word_take b
    have hp : 0 < p := fact_p.1.pos
    change (∃ P rest, dec1 b = some (P, rest)) ↔ _
    constructor
    · rintro ⟨P, rest, h⟩
      rw [dec1] at h
      split at h
      · rename_i hP
        obtain ⟨Q, hQ⟩ := hP
        have hlen := congrArg List.length hQ
        rw [enc1_length, List.length_take] at hlen
        refine ⟨by omega, ?_⟩
        rw [w0, w1, ← hQ]
        rcases Q with _ | ⟨x, y, hn⟩
        · left
          rw [enc1_zero, ← be_length (0 : Fp).val, List.take_left, List.drop_left, beNat_be (ZMod.val_lt _), ZMod.val_zero]
          exact ⟨rfl, rfl⟩
        · right
          rw [enc1, ← be_length x.val, List.take_left, List.drop_left, beNat_be (ZMod.val_lt x), beNat_be (ZMod.val_lt y),
            curve_cast (ZMod.val_lt x) (ZMod.val_lt y), ZMod.natCast_zmod_val, ZMod.natCast_zmod_val]
          exact (E1_nonsingular _ _).1 hn
      · cases h
    · rintro ⟨hl, h⟩
      have ht : b.take 64 = be (word b 0 0) ++ be (word b 0 1) := by
        rw [w0, w1, be_beNat (by simp; omega), be_beNat (by simp; omega), List.take_append_drop]
      have hex : ∃ P, enc1 P = b.take 64 := by
        rw [ht]
        rcases h with ⟨h1, h2⟩ | h
        · refine ⟨.zero, ?_⟩
          rw [h1, h2, enc1_zero, ZMod.val_zero]
        · have e : Bls.Base.p = p := C133_primes.1.symm
          have hx : word b 0 0 < p := e ▸ h.1
          have hy : word b 0 1 < p := e ▸ h.2.1
          refine ⟨.some _ _ ((E1_nonsingular _ _).2 ((curve_cast hx hy).1 h)), ?_⟩
          rw [enc1, val_natCast hx, val_natCast hy]
      exact ⟨hex.choose, b.drop 64, by rw [dec1, dif_pos hex]⟩
  · rw [(Bls.C85_init real _ _ Bls.g1Str_hex_eq).1, real.g1Str_decodes _ (by rw [Bls.g1Str_hex_eq, Bls.C85_hex])]
  · rw [(Bls.C85_init real _ _ Bls.g2Str_hex_eq).2, real.g2Str_decodes _ (by rw [Bls.g2Str_hex_eq, Bls.C85_hex])]
  · change addOrderOf gen2 = r
    rw [← base2_order, gen2, AddSubgroup.addOrderOf_mk]

/-- The base point and its double are different points of the curve, and the base point is a multiple of its double. -/
example : base1 ≠ 0 ∧ 2 • base1 ≠ base1 ∧ ∃ k < r, base1 = k • (2 • base1) := by
  have h2 : 2 • base1 ≠ 0 := by
    intro h
    have := addOrderOf_dvd_of_nsmul_eq_zero h
    rw [base1_order] at this
    revert this
    decide +kernel
  refine ⟨base1_ne, ?_, C133_curve.2.2 _ _ h2⟩
  intro h
  rw [two_nsmul] at h
  exact base1_ne (by simpa using h)

end Dusk.BnCurve
