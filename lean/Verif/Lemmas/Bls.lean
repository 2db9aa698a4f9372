import Mathlib.FieldTheory.Finite.Basic
import Mathlib.Algebra.Module.LinearMap.Basic
import Mathlib.Tactic.LinearCombination
import Mathlib.Tactic.Module
import Verif.Model.Bls
import Verif.Model.Ristretto
import Verif.Spec.Bls
/-!
# Lemmas about the BLS model, and a concrete instance of the pairing library
-/

namespace Dusk.Bls

set_option linter.unusedSectionVars false

variable {F G1 G2 GT : Type} [Field F] [AddCommGroup G1] [AddCommGroup G2] [AddCommGroup GT]
  [Module F G1] [Module F G2] [Module F GT]
variable (P : Bn256 F G1 G2 GT) (A : Hash.Algs)

theorem g1Str_hex : (Hex.decode g1Str.toList).isSome = true := by decide +kernel
theorem g2Str_hex : (Hex.decode g2Str.toList).isSome = true := by decide +kernel

theorem newG1Base_eq (s : String) {b : Bytes} {g : G1} {r : Bytes} (h : Hex.decode s.toList = some b)
    (hg : P.g1OfBytes b = some (g, r)) : newG1Base P s = .ok g := by
  unfold newG1Base
  rw [h]
  dsimp only
  rw [hg]

theorem newG2Base_eq (s : String) {b : Bytes} {g : G2} {r : Bytes} (h : Hex.decode s.toList = some b)
    (hg : P.g2OfBytes b = some (g, r)) : newG2Base P s = .ok g := by
  unfold newG2Base
  rw [h]
  dsimp only
  rw [hg]

theorem init_eq : init P = .ok (P.g1, P.g2) := by
  obtain ⟨b1, h1⟩ := Option.isSome_iff_exists.1 g1Str_hex
  obtain ⟨b2, h2⟩ := Option.isSome_iff_exists.1 g2Str_hex
  have e1 := newG1Base_eq P _ h1 (P.g1Str_decodes b1 h1)
  have e2 := newG2Base_eq P _ h2 (P.g2Str_decodes b2 h2)
  unfold init
  rw [e1, e2, Res.bind_ok, Res.bind_ok]

theorem g2Base_eq : g2Base P = .pt P.g2 := by
  simp only [g2Base, init_eq]

theorem h0_eq (m : Bytes) : h0 P A m = .ok ((digest A m : F) • P.g1) := by
  simp [h0, Hash.performHash, digest]

theorem h1_eq (g : G2) : h1 P A (some ⟨.pt g⟩) = .ok (digest A (P.g2Bytes g)) := by
  simp [h1, Hash.performHash, digest, PublicKey.marshal]

theorem pkt_eq (g : G2) : pkt P A (some ⟨.pt g⟩) = .ok ((digest A (P.g2Bytes g) : F) • g) := by
  simp [pkt, h1_eq]

theorem newApk_eq (g : G2) :
    newApk P A (some ⟨.pt g⟩) = .ok (some ⟨some ⟨.pt ((digest A (P.g2Bytes g) : F) • g)⟩⟩) := by
  simp [newApk, pkt_eq]

theorem apk_aggregate_eq (a g : G2) :
    Apk.aggregate P A (some ⟨some ⟨.pt a⟩⟩) (some ⟨.pt g⟩) =
      (.ok (), some ⟨some ⟨.pt (a + (digest A (P.g2Bytes g) : F) • g)⟩⟩) := by
  simp [Apk.aggregate, pkt_eq, Apk.gx]

theorem aggregateLoop_eq : ∀ (gs : List G2) (a : G2),
    aggregateLoop P A (some ⟨some ⟨.pt a⟩⟩) (gs.map fun g => some ⟨.pt g⟩) =
      .ok (some ⟨some ⟨.pt (a + (gs.map fun g => (digest A (P.g2Bytes g) : F) • g).sum)⟩⟩)
  | [], a => by simp [aggregateLoop]
  | g :: gs, a => by
    simp only [List.map_cons, aggregateLoop, apk_aggregate_eq]
    rw [aggregateLoop_eq gs, List.sum_cons, add_assoc]

theorem unsafeSign_eq (x : Nat) (m : Bytes) :
    unsafeSign P A ⟨x⟩ m = .ok ⟨.pt ((x : F) • (digest A m : F) • P.g1)⟩ := by
  simp [unsafeSign, h0_eq]

theorem apkSigWrap_eq (g : G2) (s : G1) :
    apkSigWrap P A (some ⟨.pt g⟩) ⟨.pt s⟩ = .ok ⟨.pt ((digest A (P.g2Bytes g) : F) • s)⟩ := by
  simp [apkSigWrap, h1_eq]

theorem sign_eq (x : Nat) (g : G2) (m : Bytes) :
    sign P A ⟨x⟩ (some ⟨.pt g⟩) m =
      .ok ⟨.pt ((digest A (P.g2Bytes g) : F) • (x : F) • (digest A m : F) • P.g1)⟩ := by
  simp [sign, unsafeSign_eq, apkSigWrap_eq]

theorem pair_inj {a b : G1} (h : P.pair a P.g2 = P.pair b P.g2) : a = b := by
  have := P.pair_g2_inj (a - b) (by rw [map_sub, LinearMap.sub_apply, h, sub_self])
  exact sub_eq_zero.1 this

theorem verify_eq (g : G2) (m : Bytes) (s : G1) [Decidable (P.pair ((digest A m : F) • P.g1) g = P.pair s P.g2)] :
    verify P A (.pt g) m (.pt s) =
      if P.pair ((digest A m : F) • P.g1) g = P.pair s P.g2 then .ok ()
      else .err "bls apk: Invalid Signature." := by
  simp only [verify, h0_eq, g2Base_eq, Res.bind_ok, Ptr.get_pt]
  by_cases h : P.pair ((digest A m : F) • P.g1) g = P.pair s P.g2
  · rw [if_pos h, h, if_neg (not_not_intro rfl)]
  · have hb : P.gtBytes (P.pair ((digest A m : F) • P.g1) g) ≠ P.gtBytes (P.pair s P.g2) :=
      fun hb => h (P.gtBytes_inj _ _ hb)
    rw [if_neg h, if_pos hb, if_neg]
    rw [P.gtBytes_length, P.gtBytes_length]
    omega

theorem verify_iff (g : G2) (m : Bytes) (s : G1) :
    verify P A (.pt g) m (.pt s) = .ok () ↔ P.pair ((digest A m : F) • P.g1) g = P.pair s P.g2 := by
  classical
  rw [verify_eq]
  split_ifs with h
  · exact ⟨fun _ => h, fun _ => rfl⟩
  · exact ⟨fun h' => by simp at h', fun h' => absurd h' h⟩

/-! ## Scalars -/

theorem cast_order : (P.order : F) = 0 := (P.cast_eq_zero _).2 dvd_rfl

theorem cast_mod (n : Nat) : ((n % P.order : Nat) : F) = n := by
  conv_rhs => rw [← Nat.div_add_mod n P.order]
  push_cast
  rw [cast_order P]; ring

theorem cast_pow_order {a : Nat} (h : (a : F) ≠ 0) : (a : F) ^ (P.order - 1) = 1 := by
  haveI : Fact P.order.Prime := ⟨P.order_prime⟩
  have hz : (a : ZMod P.order) ≠ 0 := fun hz => h ((P.cast_eq_zero a).2 ((ZMod.natCast_eq_zero_iff a _).1 hz))
  have h1 := ZMod.pow_card_sub_one_eq_one hz
  have h2 : ((a ^ (P.order - 1) : Nat) : ZMod P.order) = (1 : Nat) := by push_cast; exact h1
  rw [ZMod.natCast_eq_natCast_iff] at h2
  have h3 : ((a ^ (P.order - 1) : Nat) : F) = ((1 : Nat) : F) := by
    rw [← cast_mod P (a ^ _), h2, cast_mod]
  simpa using h3

/-- The residue `b / a` modulo the group order, by Fermat. -/
theorem quot_spec {a : Nat} (b : Nat) (h : (a : F) ≠ 0) : (quot P.order a b : F) * a = b := by
  have hp := P.order_prime.two_le
  rw [quot, cast_mod]
  push_cast
  rw [mul_assoc, ← pow_succ, show P.order - 2 + 1 = P.order - 1 by omega, cast_pow_order P h, mul_one]

end Dusk.Bls

namespace Dusk.Toy

open Dusk.Bls Dusk.PrimeEll

/-- Value of the coordinate bytes of the `G1` generator constant. -/
def n1 : Nat := leNat ((Hex.decode g1Str.toList).getD [])
/-- Value of the coordinate bytes of the `G2` generator constant. -/
def n2 : Nat := leNat (((Hex.decode g2Str.toList).getD []).drop 1)

theorem n1_pos : 0 < n1 := by decide +kernel
theorem n1_lt : n1 + ell < 256 ^ 64 := by decide +kernel
theorem n2_lt : n2 + ell < 256 ^ 128 := by decide +kernel
theorem ell_lt_33 : ell < 256 ^ 33 := by decide +kernel
theorem ell_lt_384 : ell < 256 ^ 384 := by decide +kernel

attribute [irreducible] n1 n2

/-- Encoding of `G1`: all zero for the identity, otherwise the exponent shifted so that the generator is
encoded by the constant of the package. -/
def g1Bytes (x : K) : Bytes := leBytes 64 (if x = 0 then 0 else n1 + (x.val - 1))

def g1OfBytes (b : Bytes) : Option (K × Bytes) :=
  if b.length < 64 then none
  else if leNat (b.take 64) = 0 then some (0, b.drop 64)
  else if n1 ≤ leNat (b.take 64) ∧ leNat (b.take 64) < n1 + ell then
    some (((leNat (b.take 64) - n1 + 1 : Nat) : K), b.drop 64)
  else none

/-- Encoding of `G2`: one byte for the identity, otherwise 129 bytes. -/
def g2Bytes (x : K) : Bytes := if x = 0 then [0] else 1 :: leBytes 128 (n2 + (x.val - 1))

def g2OfBytes : Bytes → Option (K × Bytes)
  | [] => none
  | c :: b =>
    if c = 0 then some (0, b)
    else if b.length < 128 then none
    else if n2 ≤ leNat (b.take 128) ∧ leNat (b.take 128) < n2 + ell then
      some (((leNat (b.take 128) - n2 + 1 : Nat) : K), b.drop 128)
    else none

def gtBytes (x : K) : Bytes := leBytes 384 x.val
def compress (x : K) : Bytes := leBytes 33 x.val
def decompress (b : Bytes) : Option K := if leNat b < ell then some (leNat b : K) else none

theorem val_pred {x : K} (hx : x ≠ 0) : ((x.val - 1 + 1 : Nat) : K) = x := by
  have : x.val ≠ 0 := fun h => hx ((ZMod.val_eq_zero x).1 h)
  rw [show x.val - 1 + 1 = x.val by omega]
  exact ZMod.natCast_zmod_val x

theorem g1_round (x : K) (rest : Bytes) : g1OfBytes (g1Bytes x ++ rest) = some (x, rest) := by
  have hl : (g1Bytes x).length = 64 := leBytes_length _ _
  have ht : (g1Bytes x ++ rest).take 64 = g1Bytes x := by rw [← hl]; exact List.take_left
  have hd : (g1Bytes x ++ rest).drop 64 = rest := by rw [← hl]; exact List.drop_left
  have hv : x.val < ell := ZMod.val_lt x
  have hn := n1_lt
  have hp := n1_pos
  have hle : leNat (g1Bytes x) = if x = 0 then 0 else n1 + (x.val - 1) := by
    rw [g1Bytes, leNat_leBytes, Nat.mod_eq_of_lt]
    split_ifs <;> omega
  rw [g1OfBytes, ht, hd, hle, if_neg (by rw [List.length_append, hl]; omega)]
  by_cases hx : x = 0
  · simp [hx]
  · rw [if_neg hx, if_neg (by omega), if_pos (by omega)]
    rw [show n1 + (x.val - 1) - n1 + 1 = x.val - 1 + 1 by omega, val_pred hx]

theorem g2_round (x : K) (rest : Bytes) : g2OfBytes (g2Bytes x ++ rest) = some (x, rest) := by
  have hv : x.val < ell := ZMod.val_lt x
  have hn := n2_lt
  by_cases hx : x = 0
  · simp [g2Bytes, hx, g2OfBytes]
  · have hle : leNat (leBytes 128 (n2 + (x.val - 1))) = n2 + (x.val - 1) := by
      rw [leNat_leBytes, Nat.mod_eq_of_lt (by omega)]
    have hl : (leBytes 128 (n2 + (x.val - 1))).length = 128 := leBytes_length _ _
    have ht : (leBytes 128 (n2 + (x.val - 1)) ++ rest).take 128 = leBytes 128 (n2 + (x.val - 1)) := by
      conv_lhs => rw [← hl]
      exact List.take_left
    have hd : (leBytes 128 (n2 + (x.val - 1)) ++ rest).drop 128 = rest := by
      conv_lhs => rw [← hl]
      exact List.drop_left
    rw [g2Bytes, if_neg hx, List.cons_append, g2OfBytes, if_neg (by decide), ht, hd, hle,
      if_neg (by rw [List.length_append, hl]; omega), if_pos (by omega)]
    rw [show n2 + (x.val - 1) - n2 + 1 = x.val - 1 + 1 by omega, val_pred hx]

theorem g1Str_toy : ∀ b, Hex.decode g1Str.toList = some b → g1OfBytes b = some ((1 : K), []) := by
  intro b hb
  have hl : (((Hex.decode g1Str.toList).getD []).length) = 64 := by decide +kernel
  have hn : n1 = leNat ((Hex.decode g1Str.toList).getD []) := by unfold n1; rfl
  rw [hb, Option.getD_some] at hl hn
  have ht : b.take 64 = b := List.take_of_length_le (by omega)
  have hd : b.drop 64 = [] := List.drop_eq_nil_of_le (by omega)
  have hp := n1_pos
  have he := ell_prime.pos
  rw [g1OfBytes, ht, hd, ← hn, if_neg (by omega), if_neg (by omega), if_pos (by omega)]
  simp

theorem g2Str_toy : ∀ b, Hex.decode g2Str.toList = some b → g2OfBytes b = some ((1 : K), []) := by
  intro b hb
  have hl : (((Hex.decode g2Str.toList).getD []).length) = 129 := by decide +kernel
  have h0 : ((Hex.decode g2Str.toList).getD []).head? = some 1 := by decide +kernel
  have hn : n2 = leNat (((Hex.decode g2Str.toList).getD []).drop 1) := by unfold n2; rfl
  rw [hb, Option.getD_some] at hl h0 hn
  cases b with
  | nil => simp at hl
  | cons c b =>
    simp only [List.head?_cons, Option.some.injEq] at h0
    simp only [List.drop_one, List.tail_cons] at hn
    simp only [List.length_cons] at hl
    have ht : b.take 128 = b := List.take_of_length_le (by omega)
    have hd : b.drop 128 = [] := List.drop_eq_nil_of_le (by omega)
    have he := ell_prime.pos
    rw [g2OfBytes, ht, hd, ← hn, h0, if_neg (by decide), if_neg (by omega), if_pos (by omega)]
    simp

/-- A concrete instance of the assumptions on the pairing library: `e(a, b) = a * b` on `ℤ/ℓ`. -/
def bn : Bn256 K K K K where
  order := ell
  order_prime := ell_prime
  cast_eq_zero n := ZMod.natCast_eq_zero_iff n ell
  g1 := 1
  g2 := 1
  pair := LinearMap.mul K K
  pair_g2_inj a h := by simpa using h
  gtBytes := gtBytes
  gtBytes_inj a b h := by
    have h := congrArg leNat h
    rw [gtBytes, gtBytes, leNat_leBytes, leNat_leBytes, Nat.mod_eq_of_lt ((ZMod.val_lt a).trans ell_lt_384),
      Nat.mod_eq_of_lt ((ZMod.val_lt b).trans ell_lt_384)] at h
    exact ZMod.val_injective _ h
  gtBytes_length a := leBytes_length _ _
  g1Bytes := g1Bytes
  g1OfBytes := g1OfBytes
  g1OfBytes_g1Bytes := g1_round
  g1Bytes_length p := leBytes_length _ _
  g1OfBytes_short b h := by rw [g1OfBytes, if_pos h]
  g2Bytes := g2Bytes
  g2OfBytes := g2OfBytes
  g2OfBytes_g2Bytes := g2_round
  compress := compress
  decompress := decompress
  decompress_compress p _ := by
    have hv : p.val < ell := ZMod.val_lt p
    rw [compress, decompress, leNat_leBytes, Nat.mod_eq_of_lt (hv.trans ell_lt_33), if_pos hv]
    exact congrArg some (ZMod.natCast_zmod_val p)
  compress_length p _ := leBytes_length _ _
  g1Str_decodes := g1Str_toy
  g2Str_decodes := g2Str_toy

theorem bn_pair (a b : K) : bn.pair a b = a * b := rfl
theorem bn_g1 : bn.g1 = 1 := rfl
theorem bn_g2 : bn.g2 = 1 := rfl
theorem bn_order : bn.order = ell := rfl

end Dusk.Toy
