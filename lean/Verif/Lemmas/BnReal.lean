import Verif.Lemmas.BnTwist
import Verif.Props.BlsBase
import Mathlib.LinearAlgebra.BilinearMap
import Mathlib.Algebra.Module.ZMod
/-!
# An instance of the assumptions on bn256 with the actual curves

The first group is the group of all points of `y² = x³ + 3`, the second the multiples of the base point of the twist, the wire
format the big-endian coordinates. The target group and the pairing are the integers modulo `r` with `e(a g1, b g2) = a b`; every
non-degenerate bilinear pairing of the two groups is this one followed by an isomorphism.
-/

namespace Dusk.BnCurve

open Curve WeierstrassCurve.Affine

/-- The scalars. -/
abbrev Fr : Type := ZMod r

theorem E1_torsion (P : E1.Point) : r • P = 0 := by rw [← card_E1]; exact card_nsmul_eq_zero'

noncomputable instance : Module Fr E1.Point := AddCommGroup.zmodModule E1_torsion

/-- The second group. -/
abbrev G2 : Type := AddSubgroup.zmultiples base2

theorem G2_torsion (P : G2) : r • P = 0 := by
  obtain ⟨P, k, rfl⟩ := P
  apply Subtype.ext
  rw [AddSubgroup.coe_nsmul, AddSubgroup.coe_zero]
  change r • k • base2 = 0
  rw [smul_comm, ← base2_order, addOrderOf_nsmul_eq_zero, smul_zero]

noncomputable instance : Module Fr G2 := AddCommGroup.zmodModule G2_torsion

/-- The base point as an element of the second group. -/
noncomputable def gen2 : G2 := ⟨base2, AddSubgroup.mem_zmultiples base2⟩

theorem base1_ne : base1 ≠ 0 := Point.some_ne_zero _
theorem gen2_ne : gen2 ≠ 0 := fun h => Point.some_ne_zero (nonsingular2 g2_onTwist) (congrArg Subtype.val h)

theorem smul_nat {M : Type} [AddCommGroup M] [Module Fr M] (n : Nat) (m : M) : ((n : Nat) : Fr) • m = n • m :=
  Nat.cast_smul_eq_nsmul Fr n m

theorem span1 : Function.Bijective (LinearMap.toSpanSingleton Fr E1.Point base1) := by
  constructor
  · rw [← LinearMap.ker_eq_bot, LinearMap.ker_toSpanSingleton _ base1_ne]
  · intro P
    obtain ⟨k, -, rfl⟩ := mem_multiples card_E1 base1_ne P
    exact ⟨((k : Nat) : Fr), by rw [LinearMap.toSpanSingleton_apply, smul_nat]⟩

theorem span2 : Function.Bijective (LinearMap.toSpanSingleton Fr G2 gen2) := by
  constructor
  · rw [← LinearMap.ker_eq_bot, LinearMap.ker_toSpanSingleton _ gen2_ne]
  · intro P
    obtain ⟨P, k, rfl⟩ := P
    refine ⟨((k : Int) : Fr), ?_⟩
    rw [LinearMap.toSpanSingleton_apply, Int.cast_smul_eq_zsmul]
    rfl

/-- The logarithm in the first group. -/
noncomputable def log1 : E1.Point ≃ₗ[Fr] Fr := (LinearEquiv.ofBijective _ span1).symm

/-- The logarithm in the second group. -/
noncomputable def log2 : G2 ≃ₗ[Fr] Fr := (LinearEquiv.ofBijective _ span2).symm

theorem log2_gen : log2 gen2 = 1 := by
  rw [log2, LinearEquiv.symm_apply_eq, LinearEquiv.ofBijective_apply, LinearMap.toSpanSingleton_apply, one_smul]

/-- 32 big-endian bytes. -/
def be (n : Nat) : Bytes := (leBytes 32 n).reverse

theorem be_length (n : Nat) : (be n).length = 32 := by rw [be, List.length_reverse, leBytes_length]

theorem beNat_reverse : ∀ l : Bytes, beNat l.reverse = leNat l
  | [] => rfl
  | b :: l => by
    have := beNat_reverse l
    rw [beNat] at this
    rw [beNat, List.reverse_cons, List.foldl_append, this, leNat]
    simp only [List.foldl_cons, List.foldl_nil]
    omega

theorem beNat_be {n : Nat} (h : n < p) : beNat (be n) = n := by
  rw [be, beNat_reverse, leNat_leBytes, Nat.mod_eq_of_lt (h.trans (by decide +kernel))]

theorem leBytes_leNat : ∀ l : Bytes, leBytes l.length (leNat l) = l
  | [] => rfl
  | b :: l => by
    have hb := b.toNat_lt
    rw [List.length_cons, leBytes, leNat]
    congr 1
    · apply UInt8.toNat_inj.1
      rw [UInt8.toNat_ofNat']
      omega
    · rw [show (b.toNat + 256 * leNat l) / 256 = leNat l by omega]
      exact leBytes_leNat l

theorem be_beNat {l : Bytes} (h : l.length = 32) : be (beNat l) = l := by
  have := leBytes_leNat l.reverse
  rw [List.length_reverse, h, ← beNat_reverse, List.reverse_reverse] at this
  rw [be, this, List.reverse_reverse]

theorem be_val_inj {x y : Fp} (h : be x.val = be y.val) : x = y := by
  have := congrArg beNat h
  rw [beNat_be (ZMod.val_lt x), beNat_be (ZMod.val_lt y)] at this
  exact ZMod.val_injective _ this

/-- The first point on the wire. -/
def enc1 : E1.Point → Bytes
  | .zero => List.replicate 64 0
  | .some x y _ => be x.val ++ be y.val

theorem enc1_length : ∀ P, (enc1 P).length = 64
  | .zero => by rw [enc1, List.length_replicate]
  | .some x y _ => by rw [enc1, List.length_append, be_length, be_length]

theorem be_zero : be 0 = List.replicate 32 0 := by decide +kernel

theorem enc1_zero : enc1 .zero = be (0 : Fp).val ++ be (0 : Fp).val := by
  rw [enc1, ZMod.val_zero, be_zero, ← List.replicate_add]

theorem not_origin (h : E1.Nonsingular 0 0) : False := by
  have := (E1_nonsingular _ _).1 h
  exact three_ne (by linear_combination -this)

theorem enc1_injective : Function.Injective enc1 := by
  have key : ∀ {x y x' y' : Fp}, be x.val ++ be y.val = be x'.val ++ be y'.val → x = x' ∧ y = y' := by
    intro x y x' y' h
    obtain ⟨h1, h2⟩ := List.append_inj h (by rw [be_length, be_length])
    exact ⟨be_val_inj h1, be_val_inj h2⟩
  rintro (_ | ⟨x, y, h⟩) (_ | ⟨x', y', h'⟩) he
  · rfl
  · rw [enc1_zero, enc1] at he
    obtain ⟨rfl, rfl⟩ := key he
    exact (not_origin h').elim
  · rw [enc1_zero, enc1] at he
    obtain ⟨rfl, rfl⟩ := key he
    exact (not_origin h).elim
  · obtain ⟨rfl, rfl⟩ := key he
    rfl

/-- The second point on the wire: a zero byte, or a one and the coordinates. -/
def enc2 : E2.Point → Bytes
  | .zero => [0]
  | .some x y _ => 1 :: (be x.im.val ++ be x.re.val ++ be y.im.val ++ be y.re.val)

theorem enc2_prefix {P Q : E2.Point} {s t : Bytes} (h : enc2 P ++ s = enc2 Q ++ t) : P = Q ∧ s = t := by
  rcases P with _ | ⟨x, y, hP⟩ <;> rcases Q with _ | ⟨x', y', hQ⟩
  · exact ⟨rfl, by simpa [enc2] using h⟩
  · rw [enc2, enc2] at h
    simp at h
  · rw [enc2, enc2] at h
    simp at h
  · simp only [enc2, List.cons_append, List.cons.injEq, true_and] at h
    obtain ⟨h, e⟩ := List.append_inj h (by simp only [List.length_append, be_length])
    obtain ⟨h, h4⟩ := List.append_inj h (by simp only [List.length_append, be_length])
    obtain ⟨h, h3⟩ := List.append_inj h (by simp only [List.length_append, be_length])
    obtain ⟨h1, h2⟩ := List.append_inj h (by simp only [be_length])
    have ex : x = x' := QuadraticAlgebra.ext (be_val_inj h2) (be_val_inj h1)
    have ey : y = y' := QuadraticAlgebra.ext (be_val_inj h4) (be_val_inj h3)
    subst ex
    subst ey
    exact ⟨rfl, e⟩

/-- The first coordinate, and a byte for the parity of the second. -/
def short : E1.Point → Bytes
  | .zero => List.replicate 32 0 ++ [0]
  | .some x y _ => be x.val ++ [if y.val % 2 == 0 then 2 else 3]

theorem short_injective : Function.Injective short := by
  intro P Q h
  apply tag_injective
  rcases P with _ | ⟨x, y, hP⟩ <;> rcases Q with _ | ⟨x', y', hQ⟩
  · rfl
  · rw [short, short] at h
    have := (List.append_inj h (by rw [be_length, List.length_replicate])).2
    split at this <;> simp at this
  · rw [short, short] at h
    have := (List.append_inj h (by rw [be_length, List.length_replicate])).2
    split at this <;> simp at this
  · rw [short, short] at h
    obtain ⟨h1, h2⟩ := List.append_inj h (by rw [be_length, be_length])
    rw [tag, tag, be_val_inj h1]
    congr 2
    cases hy : (y.val % 2 == 0) <;> cases hy' : (y'.val % 2 == 0) <;> simp [hy, hy'] at h2 ⊢

open Classical in
/-- The decoder of the first group: the point with the encoding at the front. -/
noncomputable def dec1 (b : Bytes) : Option (E1.Point × Bytes) :=
  if h : ∃ P, enc1 P = b.take 64 then some (h.choose, b.drop 64) else none

open Classical in
/-- The decoder of the second group. -/
noncomputable def dec2 (b : Bytes) : Option (G2 × Bytes) :=
  if h : ∃ q : G2 × Bytes, enc2 q.1 ++ q.2 = b then some h.choose else none

open Classical in
noncomputable def unshort (b : Bytes) : Option E1.Point :=
  if h : ∃ P, short P = b then some h.choose else none

theorem dec1_enc1 (P : E1.Point) (rest : Bytes) : dec1 (enc1 P ++ rest) = some (P, rest) := by
  have ht : (enc1 P ++ rest).take 64 = enc1 P := by rw [← enc1_length P, List.take_left]
  have hd : (enc1 P ++ rest).drop 64 = rest := by rw [← enc1_length P, List.drop_left]
  have h : ∃ Q, enc1 Q = (enc1 P ++ rest).take 64 := ⟨P, ht.symm⟩
  rw [dec1, dif_pos h, hd]
  rw [enc1_injective (h.choose_spec.trans ht)]

theorem dec2_enc2 (P : G2) (rest : Bytes) : dec2 (enc2 P ++ rest) = some (P, rest) := by
  have h : ∃ q : G2 × Bytes, enc2 q.1 ++ q.2 = enc2 P ++ rest := ⟨(P, rest), rfl⟩
  rw [dec2, dif_pos h]
  obtain ⟨h1, h2⟩ := enc2_prefix h.choose_spec
  have e : h.choose = (P, rest) := Prod.ext (Subtype.ext h1) h2
  rw [e]

theorem val_natCast {n : Nat} (h : n < p) : ((n : Nat) : Fp).val = n := ZMod.val_cast_of_lt h

theorem enc1_base : enc1 base1 = Bls.g1Bytes' := by
  rw [base1, enc1]
  change be ((g1x : Nat) : Fp).val ++ be ((g1y : Nat) : Fp).val = _
  rw [val_natCast (by decide +kernel), val_natCast (by decide +kernel)]
  decide +kernel

theorem enc2_base : enc2 base2 = Bls.g2Bytes' := by
  rw [base2, enc2]
  change 1 :: (be ((g2x.2 : Nat) : Fp).val ++ be ((g2x.1 : Nat) : Fp).val ++ be ((g2y.2 : Nat) : Fp).val ++
    be ((g2y.1 : Nat) : Fp).val) = _
  rw [val_natCast (by decide +kernel), val_natCast (by decide +kernel), val_natCast (by decide +kernel),
    val_natCast (by decide +kernel)]
  decide +kernel

/-- The assumptions on the library hold for the actual curves. -/
noncomputable def real : Bls.Bn256 Fr E1.Point G2 Fr where
  order := r
  order_prime := fact_r.1
  cast_eq_zero n := ZMod.natCast_eq_zero_iff n r
  g1 := base1
  g2 := gen2
  pair := (LinearMap.mul Fr Fr).compl₁₂ log1.toLinearMap log2.toLinearMap
  pair_g2_inj a h := by
    rw [LinearMap.compl₁₂_apply] at h
    simp only [LinearEquiv.coe_coe, log2_gen, LinearMap.mul_apply', mul_one] at h
    exact (LinearEquiv.map_eq_zero_iff _).1 h
  gtBytes a := leBytes 384 a.val
  gtBytes_inj a b h := by
    have h := congrArg leNat h
    have hr : r < 256 ^ 384 := by decide +kernel
    rw [leNat_leBytes, leNat_leBytes, Nat.mod_eq_of_lt ((ZMod.val_lt a).trans hr), Nat.mod_eq_of_lt ((ZMod.val_lt b).trans hr)] at h
    exact ZMod.val_injective _ h
  gtBytes_length a := leBytes_length _ _
  g1Bytes := enc1
  g1OfBytes := dec1
  g1OfBytes_g1Bytes := dec1_enc1
  g1Bytes_length := enc1_length
  g1OfBytes_short b h := by
    rw [dec1, dif_neg]
    rintro ⟨P, e⟩
    have := congrArg List.length e
    rw [enc1_length, List.length_take] at this
    omega
  g2Bytes P := enc2 P
  g2OfBytes := dec2
  g2OfBytes_g2Bytes := dec2_enc2
  compress := short
  decompress := unshort
  decompress_compress P _ := by
    have h : ∃ Q, short Q = short P := ⟨P, rfl⟩
    rw [unshort, dif_pos h, short_injective h.choose_spec]
  compress_length
    | .zero, h => absurd rfl h
    | .some x y _, _ => by rw [short, List.length_append, be_length]; rfl
  g1Str_decodes b h := by
    rw [Bls.g1Str_hex_eq, Bls.C85_hex, Option.some.injEq] at h
    rw [← h, ← enc1_base]
    simpa using dec1_enc1 base1 []
  g2Str_decodes b h := by
    rw [Bls.g2Str_hex_eq, Bls.C85_hex, Option.some.injEq] at h
    rw [← h, ← enc2_base]
    have := dec2_enc2 gen2 []
    rwa [List.append_nil] at this

end Dusk.BnCurve
