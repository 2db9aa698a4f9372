import Verif.Model.StdHash
import Verif.Props.Binding
import Verif.Props.MerkleTamper
import Verif.Props.MlsagCodec
import Verif.Props.MlsagDual
import Verif.Lemmas.RPProve
/-!
# The repository's own tests (C122)

What the tests of the repository check for a few values is stated here for all values, as far as no other property says it already:
the negative tests (another message, another key), the closed forms of `computeDelta` and `computeT0`, two calls of `prove` on one
object followed by a round trip. The fixtures of the tests are run on the model at the end of the file.
-/

set_option linter.unusedSectionVars false

namespace Dusk.RP

variable {F : Type} [Field F] [DecidableEq F]

/-- C122 (rangeproof/poly_test.go, TestDelta): `computeDelta` for all numbers of bits and values with a product below `2^32`. -/
theorem C122_delta (y z : F) (n m : Nat) (h : n * m < 2 ^ 32) :
    computeDelta y z n m = (z - z ^ 2) * ∑ i ∈ Finset.range (n * m), y ^ i -
      ∑ j ∈ Finset.range m, z ^ (j + 3) * ∑ i ∈ Finset.range n, (2 : F) ^ i := by
  have e : ∑ j ∈ Finset.range m, z ^ (j + 3) * ∑ i ∈ Finset.range n, (2 : F) ^ i =
      z ^ 3 * (∑ j ∈ Finset.range m, z ^ j) * ∑ i ∈ Finset.range n, (2 : F) ^ i := by
    rw [← Finset.sum_mul, Finset.mul_sum (Finset.range m)]
    congr 1
    exact Finset.sum_congr rfl fun j _ => by ring
  rw [e]
  unfold computeDelta
  rw [Nat.mod_eq_of_lt h, scalarPowersSum_eq, scalarPowersSum_eq, scalarPowersSum_eq]
  ring

/-- C122 (TestDelta): for one value, the sum that the test computes. -/
theorem C122_delta_one (y z : F) (n : Nat) (h : n < 2 ^ 32) :
    computeDelta y z n 1 = ∑ i ∈ Finset.range n, ((z - z ^ 2) * y ^ i - z ^ 3 * 2 ^ i) := by
  rw [C122_delta y z n 1 (by omega), Finset.sum_sub_distrib, Finset.mul_sum, mul_one]
  simp [Finset.mul_sum]

/-- C122 (TestComputeT0, -Case2, -Case3): `computeT0` is `computeDelta` plus the values, weighted with powers of `z`. -/
theorem C122_t0 (y z : F) (v : List F) (n m : Nat) (hv : v.length < 2 ^ 32) (hm : m < 2 ^ 32) :
    computeT0 y z v n m = .ok (computeDelta y z n m + ∑ j ∈ Finset.range v.length, z ^ (j + 2) * v.getD j 0) := by
  unfold computeT0
  dsimp only
  rw [Nat.mod_eq_of_lt hv, Nat.mod_eq_of_lt hm, zM_eq, t0Loop_eq _ _ _ (by simp), Res.bind_ok, zero_add,
    dot_eq_msm, msm_map_range _ _ _ rfl]
  rfl

/-- TestComputeT0. -/
example : computeDelta (0 : F) 1 1 1 = -1 := by
  rw [C122_delta_one _ _ _ (by norm_num)]
  simp
example : computeT0 (0 : F) 1 [1] 1 1 = .ok 0 := by
  rw [C122_t0 _ _ _ _ _ (by simp) (by norm_num), C122_delta_one _ _ _ (by norm_num)]
  simp

/-- TestComputeT0Case2. -/
example : computeDelta (1 : F) 1 32 2 = ((-4294967295 * 2 : Int) : F) := by
  rw [C122_delta _ _ _ _ (by norm_num)]
  norm_num [Finset.sum_range_succ]
example : computeT0 (1 : F) 1 [1, 1] 32 2 = .ok (computeDelta (1 : F) 1 32 2 + 2) := by
  rw [C122_t0 _ _ _ _ _ (by simp) (by norm_num)]
  norm_num [Finset.sum_range_succ]

/-- TestComputeT0Case3. -/
example : computeDelta (1 : F) 2 32 2 = ((-103079215208 : Int) : F) := by
  rw [C122_delta _ _ _ _ (by norm_num)]
  norm_num [Finset.sum_range_succ]
example : computeT0 (1 : F) 2 [1, 1] 32 2 = .ok (computeDelta (1 : F) 2 32 2 + 12) := by
  rw [C122_t0 _ _ _ _ _ (by simp) (by norm_num)]
  norm_num [Finset.sum_range_succ]

end Dusk.RP

namespace Dusk.Mlsag

variable {F G : Type} [Field F] [AddCommGroup G] [Module F G] [DecidableEq F]

/-- C122 (mlsag/mlsag_test.go, TestMLSAGBadSig): the signature that `prove` returns, with another message in it, makes `Verify` return
an error, unless what is hashed last is a collision of the hash to scalars. -/
theorem C122_bad_message {R : Ristretto F G} (E : R.Encodings) (msg msg' : Bytes) (hm : msg ≠ msg') (ops : List (Op F G)) (skip : Bool)
    (coins : Coins F) (hd : decoys ops ≠ []) (hx : secrets ops ≠ []) (hskip : skip = true → 2 ≤ (secrets ops).length)
    (hdim : ∀ k ∈ decoys ops, k.length = (secrets ops).length) :
    ∃ sig I, ((build R msg ops).prove R skip coins).2 = .ok (sig, I) ∧ sig.msg = msg ∧
      ((Signature.verify R { sig with msg := msg' } I).IsErr ∨
        lastQuery R msg I (tour sig) sig.c ≠ lastQuery R msg' I (tour sig) sig.c ∧
        R.sDerive (lastQuery R msg I (tour sig) sig.c) = R.sDerive (lastQuery R msg' I (tour sig) sig.c)) := by
  obtain ⟨sig, I, h, hp⟩ := C14_prove R msg ops skip coins hd hx hskip hdim
  refine ⟨sig, I, h, hp.msg, ?_⟩
  have hlen : sig.r.length = (decoys ops).length + 1 := by
    rw [hp.lenR, hp.perm.length_eq]
    simp
  have hpl : sig.pubKeys.length = sig.r.length := by rw [hp.ring, hp.lenR]
  have hpos := List.length_pos_iff.2 hd
  have hI : I ≠ [] := by
    intro hI
    obtain ⟨e, he⟩ := C17_empty R sig I (.inr (.inr hI))
    rw [hp.accepted] at he
    cases he
  have hr : 2 ≤ sig.r.length := by omega
  have hacc := hp.accepted
  obtain rfl := hp.msg
  clear hp h hlen hpos
  have hf : Fits I (ringOf sig) := verify_fits hacc
  have h2 := C17_verify R { sig with msg := msg' } I hr hpl.ge hI hf
  by_cases hc : Signature.verify R { sig with msg := msg' } I = .ok true
  · exact .inr (C121_mlsag_message E sig I msg' hm hacc hc)
  · exact .inl (h2.2 fun e => hc (h2.1.2 e))

/-- Three members with two keys each. -/
example (coins : Coins Toy.K) : ∃ sig I, ((build Toy.ris [1] [.decoy ⟨false, [10, 11]⟩, .secret 5, .decoy ⟨true, [12, 13]⟩,
    .secret 7]).prove Toy.ris true coins).2 = .ok (sig, I) ∧ sig.msg = [1] ∧
    ((Signature.verify Toy.ris { sig with msg := [2] } I).IsErr ∨
      lastQuery Toy.ris [1] I (tour sig) sig.c ≠ lastQuery Toy.ris [2] I (tour sig) sig.c ∧
      Toy.ris.sDerive (lastQuery Toy.ris [1] I (tour sig) sig.c) = Toy.ris.sDerive (lastQuery Toy.ris [2] I (tour sig) sig.c)) :=
  C122_bad_message Toy.ris_encodings [1] [2] (by simp) _ _ _ (by simp [decoys]) (by simp [secrets]) (by simp [secrets])
    (by simp [decoys, secrets])

end Dusk.Mlsag

namespace Dusk.Blsag

variable {F G P : Type} [Field F] [AddCommGroup G] [Module F G] [DecidableEq F]

/-- C122 (ringsig/blsag/blsag_test.go, TestVerify): `Verify` accepts what `Sign` returns and, for another message, returns false, unless
what is hashed last is a collision of the hash to scalars. -/
theorem C122_wrong_message {R : Ristretto F G} {V : Raw F G P} (hV : V.Lawful R) (hb : ∀ p, (V.bytes p).length = 32) (m m' : Bytes)
    (hm : m ≠ m') (mixin : List P) (sK : F) (coins : Coins F) :
    ∃ sig, sign R V m mixin sK coins = .ok sig ∧ verify R V m sig = .ok true ∧
      (verify R V m' sig = .ok false ∨
        lastQuery R V m sig.I (sig.pubKeys.zip sig.S) sig.C ≠ lastQuery R V m' sig.I (sig.pubKeys.zip sig.S) sig.C ∧
        R.sDerive (lastQuery R V m sig.I (sig.pubKeys.zip sig.S) sig.C) =
          R.sDerive (lastQuery R V m' sig.I (sig.pubKeys.zip sig.S) sig.C)) := by
  obtain ⟨sig, h1, h2⟩ := C29_completeness hV m mixin sK coins
  refine ⟨sig, h1, h2, ?_⟩
  have hn : sig.pubKeys ≠ [] := fun e => by
    rw [C32_empty R V m sig e] at h2
    cases h2
  have hS : sig.pubKeys.length ≤ sig.S.length := by
    by_contra hcon
    rw [C32_short R V m sig (by omega)] at h2
    cases h2
  obtain ⟨b, h3, -⟩ := C32_verify R V m' sig hn hS
  cases b with
  | false => exact .inl h3
  | true => exact .inr ((C121_blsag R hb rfl h2 h3).resolve_left fun e => hm e.1)

theorem toyRaw32_lawful : toyRaw32.Lawful Toy.ris where
  smulBase _ := rfl
  smul _ _ := rfl
  add _ _ := rfl
  bytes _ := rfl
  derive _ := rfl

example (sK : Toy.K) (coins : Coins Toy.K) : ∃ sig, sign Toy.ris toyRaw32 [1] [some 5, some 6] sK coins = .ok sig ∧
    verify Toy.ris toyRaw32 [1] sig = .ok true ∧ (verify Toy.ris toyRaw32 [2] sig = .ok false ∨
      lastQuery Toy.ris toyRaw32 [1] sig.I (sig.pubKeys.zip sig.S) sig.C ≠
        lastQuery Toy.ris toyRaw32 [2] sig.I (sig.pubKeys.zip sig.S) sig.C ∧
      Toy.ris.sDerive (lastQuery Toy.ris toyRaw32 [1] sig.I (sig.pubKeys.zip sig.S) sig.C) =
        Toy.ris.sDerive (lastQuery Toy.ris toyRaw32 [2] sig.I (sig.pubKeys.zip sig.S) sig.C)) :=
  C122_wrong_message toyRaw32_lawful (fun _ => Toy.ris_encodings.pBytes_length _) [1] [2] (by simp) _ sK coins

end Dusk.Blsag

namespace Dusk.Bls

variable {F G1 G2 GT : Type} [Field F] [AddCommGroup G1] [AddCommGroup G2] [AddCommGroup GT]
  [Module F G1] [Module F G2] [Module F GT]
variable (P : Bn256 F G1 G2 GT) (A : Hash.Algs)

/-- C122 (bls/bls_test.go, TestSignVerify): for the key pairs of two nonzero secrets, `VerifyUnsafe` accepts the signature of the first
for its message; for another message it returns an error exactly if the digests differ modulo the group order; under the other key it
returns an error if the secrets differ modulo the group order and the order does not divide the digest. -/
theorem C122_sign_verify (h1 : P.g1 ≠ 0) {coin coin' : Res Nat} {pk pk' : PublicKey G2} {sk sk' : SecretKey}
    (h : genKeyPair P coin = .ok (pk, sk)) (h' : genKeyPair P coin' = .ok (pk', sk')) (hx : ¬ P.order ∣ sk.x) (m m' : Bytes) :
    ∃ s, unsafeSign P A sk m = .ok s ∧ VerifyUnsafe P A (some pk) m (some s) = .ok () ∧
      ((VerifyUnsafe P A (some pk) m' (some s)).IsErr ↔ ¬ digest A m ≡ digest A m' [MOD P.order]) ∧
      (¬ P.order ∣ digest A m → ((VerifyUnsafe P A (some pk') m (some s)).IsErr ↔ ¬ sk.x ≡ sk'.x [MOD P.order])) := by
  classical
  obtain ⟨s, g1, g2⟩ := C34_unsafe P A h m
  obtain ⟨x, -, rfl, rfl⟩ := genKeyPair_eq P h
  obtain ⟨y, -, rfl, rfl⟩ := genKeyPair_eq P h'
  have tot : ∀ (g : G2) (m : Bytes), (VerifyUnsafe P A (some ⟨.pt g⟩) m (some s)).IsErr ↔
      VerifyUnsafe P A (some ⟨.pt g⟩) m (some s) ≠ .ok () := by
    intro g m
    obtain rfl : s = ⟨.pt ((x : F) • (digest A _ : F) • P.g1)⟩ := Res.ok.inj (g1.symm.trans (unsafeSign_eq P A x _))
    simp only [VerifyUnsafe, deref_some, Res.bind_ok]
    rw [verify_eq]
    split_ifs <;> simp [Res.IsErr]
  refine ⟨s, g1, g2, ?_, fun hm => ?_⟩
  · rw [tot, ne_eq, C121_bls_message P A h1 x hx m m' s g2]
  · rw [tot, ne_eq, not_iff_not]
    refine ⟨C121_bls_key P A h1 x y m hm s g2, fun e => ?_⟩
    have : (x : F) = y := by
      rcases Nat.le_total x y with hle | hle
      · have := (P.cast_eq_zero _).2 ((Nat.modEq_iff_dvd' hle).1 e)
        rw [Nat.cast_sub hle] at this
        exact (sub_eq_zero.1 this).symm
      · have := (P.cast_eq_zero _).2 ((Nat.modEq_iff_dvd' hle).1 e.symm)
        rw [Nat.cast_sub hle] at this
        exact sub_eq_zero.1 this
    rw [← this]
    exact g2

example (m m' : Bytes) := C122_sign_verify Toy.bn Hash.toyAlgs (coin := .ok 5) (coin' := .ok 6) (by decide +kernel) rfl rfl (by decide +kernel) m m'

example : Toy.bn.g1 ≠ 0 ∧ ¬ Toy.bn.order ∣ 3 ∧ ¬ 3 ≡ 5 [MOD Toy.bn.order] ∧ ∃ pk, genKeyPair Toy.bn (.ok 3) = .ok (pk, ⟨3⟩) := by
  refine ⟨?_, ?_, ?_, _, rfl⟩
  · rw [Toy.bn_g1]
    exact one_ne_zero
  · show ¬ PrimeEll.ell ∣ 3
    decide +kernel
  · show ¬ (_ % PrimeEll.ell = _ % PrimeEll.ell)
    decide +kernel

end Dusk.Bls

/-! ## Fixtures -/

namespace Dusk.Merkle

/-- `TestPayload.CalculateHash` (merkletree/merkletree_test.go:16-18). -/
def testHash (x : Bytes) : Res Bytes := Hash.sha3256 Hash.std x

/-- What to do with the tree, if there is one. -/
def andThen {β γ : Type} (r : Run β) (f : β → Option γ) : Option γ :=
  match r with
  | some (.ok b) => f b
  | _ => none

def bella : Bytes := [66, 101, 108, 108, 97]
def ciao : Bytes := [67, 105, 97, 111]
def ndo : Bytes := [78, 100, 111]
def scappi : Bytes := [83, 99, 97, 112, 112, 105]

/-- `testTable[0]` (merkletree/merkletree_test.go:55-73). -/
def table0 : List Bytes := [bella, ciao, ndo, scappi]
def root0 : Bytes :=
  [88, 206, 79, 67, 184, 243, 45, 145, 95, 208, 173, 187, 93, 119, 173, 216, 206, 250, 233, 54, 65, 0, 166, 185, 102, 156, 49, 227, 107,
   3, 178, 119]

/-- `testTable[1]` (merkletree/merkletree_test.go:75-93): "Hello", "Hi", "Hey", "Hola". -/
def table1 : List Bytes := [[72, 101, 108, 108, 111], [72, 105], [72, 101, 121], [72, 111, 108, 97]]
def root1 : Bytes :=
  [32, 188, 172, 153, 245, 171, 51, 156, 161, 201, 80, 58, 155, 97, 1, 79, 86, 175, 244, 91, 137, 105, 238, 155, 233, 126, 112, 151, 195,
   101, 37, 220]

/-- The digests in the comment of the test file (merkletree/merkletree_test.go:20-48). -/
example : testHash bella = .ok [123, 84, 169, 215, 192, 54, 108, 20, 6, 245, 41, 14, 121, 178, 145, 55, 94, 238, 113, 30, 4, 1, 80, 41,
    151, 97, 73, 228, 46, 101, 217, 66] := by decide +kernel
example : testHash ciao = .ok [240, 108, 25, 222, 241, 183, 15, 22, 31, 89, 41, 192, 69, 200, 232, 63, 131, 145, 226, 85, 237, 211, 110,
    40, 176, 99, 27, 26, 82, 181, 47, 28] := by decide +kernel

/-- newTreeTest, merkleRootTest. -/
theorem fixture0 : (newTree Hash.std testHash 9 table0 []).map (Res.map fun t => t.1.merkleRoot) = some (.ok root0) := by decide +kernel
theorem fixture1 : (newTree Hash.std testHash 9 table1 []).map (Res.map fun t => t.1.merkleRoot) = some (.ok root1) := by decide +kernel

/-- TestMerkleTree_RebuildWithPayload. -/
theorem fixture_rebuild : andThen (newTree Hash.std testHash 9 table0 []) (fun t =>
    (rebuildTreeUsing Hash.std testHash 9 t.1 table1 t.2).map fun r => (r.1, r.2.1.merkleRoot)) = some (.ok (), root1) := by decide +kernel

/-- verifyTree: true, and false once the hash of the root and the Merkle root have been overwritten. -/
theorem fixture_verifyTree : andThen (newTree Hash.std testHash 9 table0 []) (fun t =>
    some (verifyTree Hash.std testHash 9 t.1 t.2,
      verifyTree Hash.std testHash 9 { t.1 with merkleRoot := [1] } (t.2.modify 6 fun n => { n with hash := [1] }))) =
    some (some (.ok true), some (.ok false)) := by decide +kernel

/-- verifyContent: true for the four payloads, false for "NotInTestTable". -/
theorem fixture_verifyContent : andThen (newTree Hash.std testHash 9 table0 []) (fun t =>
    some ((table0 ++ [[78, 111, 116, 73, 110, 84, 101, 115, 116, 84, 97, 98, 108, 101]]).map fun x =>
      verifyContent Hash.std testHash 9 t.1 x t.2)) =
    some [some (.ok true), some (.ok true), some (.ok true), some (.ok true), some (.ok false)] := by decide +kernel

end Dusk.Merkle

namespace Dusk.Hash

/-! Known digests of the four library functions: of "abc", and of the bytes 0, 1, …, 199. -/

/-- The bytes 0, 1, …, n - 1. -/
def upTo (n : Nat) : Bytes := (List.range n).map UInt8.ofNat

example : Keccak.sha3_256 [97, 98, 99] = [58, 152, 93, 167, 79, 226, 37, 178, 4, 92, 23, 45, 107, 211, 144, 189, 133, 95, 8, 110, 62,
    157, 82, 91, 70, 191, 226, 69, 17, 67, 21, 50] := by decide +kernel
example : Keccak.sha3_256 (upTo 200) = [95, 114, 143, 99, 191, 94, 228, 140, 119, 244, 83, 192, 73, 3, 152, 250, 100, 91, 141, 76, 78,
    86, 190, 154, 65, 207, 236, 52, 77, 108, 168, 153] := by decide +kernel
example : Keccak.sha3_512 [97, 98, 99] = [183, 81, 133, 11, 26, 87, 22, 138, 86, 147, 205, 146, 75, 107, 9, 110, 8, 246, 33, 130, 116,
    68, 247, 13, 136, 79, 93, 2, 64, 210, 113, 46, 16, 225, 22, 233, 25, 42, 243, 201, 26, 126, 197, 118, 71, 227, 147, 64, 87, 52, 11,
    76, 244, 8, 213, 165, 101, 146, 248, 39, 78, 236, 83, 240] := by decide +kernel
example : Keccak.sha3_512 (upTo 200) = [234, 93, 5, 241, 147, 72, 221, 88, 151, 147, 53, 71, 147, 161, 95, 55, 167, 59, 76, 11, 180,
    231, 80, 185, 160, 7, 87, 223, 206, 47, 139, 101, 166, 65, 145, 187, 155, 19, 125, 224, 15, 238, 246, 71, 76, 253, 71, 171, 247,
    136, 14, 251, 197, 22, 20, 165, 113, 93, 241, 44, 254, 12, 174, 227] := by decide +kernel
example : blake2b 32 [97, 98, 99] = [189, 221, 129, 60, 99, 66, 57, 114, 49, 113, 239, 63, 238, 152, 87, 155, 148, 150, 78, 59, 177,
    203, 62, 66, 114, 98, 200, 192, 104, 213, 35, 25] := by decide +kernel
example : blake2b 32 (upTo 200) = [99, 195, 217, 122, 159, 136, 148, 213, 224, 67, 167, 7, 176, 254, 231, 247, 236, 76, 4, 154, 35,
    187, 241, 7, 157, 242, 11, 65, 101, 249, 226, 45] := by decide +kernel
example : blake2b 64 [97, 98, 99] = [186, 128, 165, 63, 152, 28, 77, 13, 106, 39, 151, 182, 159, 18, 246, 233, 76, 33, 47, 20, 104, 90,
    196, 183, 75, 18, 187, 111, 219, 255, 162, 209, 125, 135, 197, 57, 42, 171, 121, 45, 194, 82, 213, 222, 69, 51, 204, 149, 24, 211,
    138, 168, 219, 241, 146, 90, 185, 35, 134, 237, 212, 0, 153, 35] := by decide +kernel
example : blake2b 64 (upTo 200) = [251, 60, 31, 15, 86, 165, 111, 142, 49, 111, 223, 93, 133, 60, 140, 135, 44, 57, 99, 93, 8, 54, 52,
    195, 144, 79, 195, 172, 7, 209, 181, 120, 232, 95, 240, 228, 128, 233, 45, 68, 173, 227, 59, 98, 232, 147, 238, 50, 52, 62, 121,
    221, 246, 239, 41, 46, 137, 181, 130, 211, 18, 80, 35, 20] := by decide +kernel
example : xxh64 [97, 98, 99] = 0x44bc2cf5ad770999 ∧ xxh64 (upTo 79) = 5982490102027564625 ∧ xxh64 (upTo 200) = 5826550132901840796 := by
  decide +kernel

/-- The functions of package hash use them. -/
example : blake2b256 std [97, 98, 99] = .ok [189, 221, 129, 60, 99, 66, 57, 114, 49, 113, 239, 63, 238, 152, 87, 155, 148, 150, 78, 59, 177,
      203, 62, 66, 114, 98, 200, 192, 104, 213, 35, 25] ∧
    blake2b512 std [97, 98, 99] = .ok [186, 128, 165, 63, 152, 28, 77, 13, 106, 39, 151, 182, 159, 18, 246, 233, 76, 33, 47, 20, 104, 90,
      196, 183, 75, 18, 187, 111, 219, 255, 162, 209, 125, 135, 197, 57, 42, 171, 121, 45, 194, 82, 213, 222, 69, 51, 204, 149, 24, 211,
      138, 168, 219, 241, 146, 90, 185, 35, 134, 237, 212, 0, 153, 35] ∧
    sha3512 std [97, 98, 99] = .ok [183, 81, 133, 11, 26, 87, 22, 138, 86, 147, 205, 146, 75, 107, 9, 110, 8, 246, 33, 130, 116,
      68, 247, 13, 136, 79, 93, 2, 64, 210, 113, 46, 16, 225, 22, 233, 25, 42, 243, 201, 26, 126, 197, 118, 71, 227, 147, 64, 87, 52, 11,
      76, 244, 8, 213, 165, 101, 146, 248, 39, 78, 236, 83, 240] ∧
    sha3256 std [97, 98, 99] = .ok [58, 152, 93, 167, 79, 226, 37, 178, 4, 92, 23, 45, 107, 211, 144, 189, 133, 95, 8, 110, 62,
      157, 82, 91, 70, 191, 226, 69, 17, 67, 21, 50] ∧
    xxhash std [97, 98, 99] = .ok [0x44, 0xbc, 0x2c, 0xf5, 0xad, 0x77, 0x09, 0x99] := by decide +kernel

/-! At the boundaries of blocks. -/

example : blake2b 32 (upTo 0) = [14, 87, 81, 192, 38, 229, 67, 178, 232, 171, 46, 176, 96, 153, 218, 161, 209, 229, 223, 71,
    119, 143, 119, 135, 250, 171, 69, 205, 241, 47, 227, 168] := by decide +kernel
example : blake2b 32 (upTo 128) = [195, 88, 47, 113, 235, 178, 190, 102, 250, 93, 215, 80, 248, 11, 170, 233, 117, 84, 243, 176,
    21, 102, 60, 139, 227, 119, 207, 203, 36, 136, 193, 209] := by decide +kernel
example : blake2b 64 (upTo 128) = [35, 25, 227, 120, 156, 71, 226, 218, 165, 254, 128, 127, 97, 190, 194, 161, 166, 83, 127,
    160, 63, 25, 255, 50, 232, 126, 236, 191, 214, 75, 126, 14, 140, 207, 244, 57, 172, 51, 59, 4, 15, 25, 176, 196, 221, 209,
    26, 97, 226, 74, 193, 254, 15, 16, 160, 57, 128, 108, 93, 204, 13, 163, 209, 21] := by decide +kernel
example : Keccak.sha3_256 (upTo 135) = [253, 237, 143, 217, 214, 85, 28, 96, 30, 235, 59, 124, 107, 197, 229, 207, 216, 170,
    209, 208, 21, 183, 233, 170, 169, 201, 185, 71, 82, 49, 213, 226] := by decide +kernel
example : Keccak.sha3_256 (upTo 136) = [207, 60, 207, 249, 36, 128, 162, 145, 96, 194, 211, 131, 23, 196, 48, 225, 71, 73, 191,
    238, 23, 136, 16, 105, 87, 223, 231, 63, 140, 73, 48, 229] := by decide +kernel
example : Keccak.sha3_512 (upTo 71) = [60, 204, 133, 13, 83, 161, 40, 122, 247, 180, 86, 11, 46, 240, 212, 62, 181, 217, 168,
    13, 98, 160, 233, 207, 29, 188, 4, 1, 53, 146, 17, 4, 212, 57, 81, 104, 233, 11, 252, 135, 23, 115, 235, 179, 75, 202, 27,
    214, 112, 86, 225, 204, 125, 199, 164, 143, 247, 195, 22, 125, 56, 159, 17, 124] := by decide +kernel
example : Keccak.sha3_512 (upTo 72) = [93, 99, 242, 187, 233, 113, 169, 131, 172, 104, 71, 72, 1, 6, 228, 225, 38, 78, 227, 160,
    190, 253, 121, 149, 73, 20, 225, 216, 110, 121, 91, 46, 24, 35, 143, 18, 252, 94, 70, 203, 156, 199, 142, 253, 236, 97, 10,
    147, 100, 124, 192, 78, 28, 35, 216, 202, 170, 106, 88, 194, 29, 210, 108, 7] := by decide +kernel
example : xxh64 [] = 17241709254077376921 ∧ xxh64 (upTo 31) = 14071165763202158305 ∧ xxh64 (upTo 32) = 14696824831085589172 ∧ xxh64 (upTo 36) = 15988042035494842460 ∧
    xxh64 (upTo 63) = 16315039391072357967 := by
  decide +kernel

/-- C122 (hash/hash.go:81-101): with the hash function that the package imports, the checksum of one 3-byte string is accepted for
another. -/
theorem C122_checksum_violated : checksum std [0, 0x41, 0xd9] = .ok 1168553751 ∧
    compareChecksum std [0, 0xc1, 0xcc] 1168553751 = .ok true := by decide +kernel

end Dusk.Hash
