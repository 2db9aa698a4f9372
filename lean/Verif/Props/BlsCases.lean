import Verif.Props.Bls
import Verif.Props.BlsCodec
import Verif.Props.BlsHeap
import Verif.Props.MerkleCases
/-!
# Concrete cases for the theorems about BLS signatures

Every example applies a theorem of C34–C45 to concrete values, so that its hypotheses are seen to be satisfiable.
-/

namespace Dusk.Bls

local notation "B" => Toy.bn
local notation "H" => Hash.toyAlgs

/-- C34: the key pair for the secret 5. -/
example : ∃ pk sk s, genKeyPair B (.ok 5) = .ok (pk, sk) ∧ unsafeSign B H sk [7] = .ok s ∧ VerifyUnsafe B H (some pk) [7] (some s) = .ok () := by
  obtain ⟨s, h⟩ := C34_unsafe B H (coin := .ok 5) rfl [7]
  exact ⟨_, _, s, rfl, h⟩

example : ∃ pk sk s apk, genKeyPair B (.ok 5) = .ok (pk, sk) ∧ sign B H sk (some pk) [7] = .ok s ∧ newApk B H (some pk) = .ok (some apk) ∧
    Verify B H (some apk) [7] (some s) = .ok () := by
  obtain ⟨s, apk, h⟩ := C34_safe B H (coin := .ok 5) rfl [7]
  exact ⟨_, _, s, apk, rfl, h⟩

/-- C35: three signers, one of them twice. -/
example : ∃ s₀ s apk, sign B H ⟨5⟩ (some ⟨.pt (((5 : Nat) : Toy.K) • Toy.bn.g2)⟩) [7] = .ok s₀ ∧
    contributeAll B H [7] s₀ [(2, .add), (3, .bytes), (2, .compressed)] = .ok s ∧ Verify B H (some apk) [7] (some s) = .ok () := by
  obtain ⟨s₀, s, a₀, apk, h1, h2, -, -, -, h3⟩ := C35_multisig B H [7] 5 [(2, .add), (3, .bytes), (2, .compressed)] 2
    [(3, false), (2, true), (5, true)] (by decide) (by
      intro x hx
      simp only [List.mem_cons, Prod.mk.injEq, reduceCtorEq, and_false, false_or, and_true, List.not_mem_nil, or_false] at hx
      subst hx
      rw [sign_eq, Ne, Res.ok.injEq, Signature.mk.injEq, Ptr.pt.injEq]
      decide +kernel)
  exact ⟨s₀, s, apk, h1, h2, h3⟩

/-- In the toy library also 0 can be decompressed. -/
theorem case_decompress (p : Toy.K) : Toy.bn.decompress (Toy.bn.compress p) = some p := by
  by_cases h : p = 0
  · subst h
    decide +kernel
  · exact Toy.bn.decompress_compress p h

theorem case_distinct : (([[7], [8]] : List Bytes).map Hash.toyAlgs.sha3_256).Nodup := by decide

/-- The sum of the signatures of 7 and 8 under the keys `x` and `y`. -/
def caseAgg (x y : Toy.K) : Toy.K := (digest Hash.toyAlgs [7] : Toy.K) * x + (digest Hash.toyAlgs [8] : Toy.K) * y

theorem case_one (m : Bytes) (x : Toy.K) : VerifyUnsafe B H (some ⟨.pt x⟩) m (some ⟨.pt ((digest Hash.toyAlgs m : Toy.K) * x)⟩) = .ok () :=
  (toy_verify _ _ _ _).2 rfl

theorem case_apk (m : Bytes) (x : Toy.K) : Verify B H (some ⟨some ⟨.pt x⟩⟩) m (some ⟨.pt ((digest Hash.toyAlgs m : Toy.K) * x)⟩) = .ok () :=
  case_one m x

theorem case_batch (x y : Toy.K) : VerifyUnsafeBatch B H ([x, y].map fun g => some ⟨.pt g⟩) [[7], [8]] (some ⟨.pt (caseAgg x y)⟩) = .ok () := by
  obtain ⟨agg, h1, h2⟩ := C36_complete B H [([7], x, (digest Hash.toyAlgs [7] : Toy.K) * x), ([8], y, (digest Hash.toyAlgs [8] : Toy.K) * y)]
    (by simp) case_distinct (by
      intro t ht
      simp only [List.mem_cons, List.not_mem_nil, or_false] at ht
      rcases ht with rfl | rfl
      · exact case_one _ _
      · exact case_one _ _)
  cases Option.some.inj (Res.ok.inj h1)
  exact h2

/-- C36: the equation for two messages, in all three functions. -/
example (x y : Toy.K) : Toy.bn.pair (caseAgg x y) Toy.bn.g2 =
    batchSum (fun a b => Toy.bn.pair a b) (hashPoint B H) (([[7], [8]] : List Bytes).zip [x, y]) :=
  (C36_unsafe B H [x, y] [[7], [8]] (caseAgg x y) (by simp) (by simp) case_distinct).1.1 (case_batch x y)

example (x y : Toy.K) : VerifyBatch B H ([x, y].map fun g => some ⟨some ⟨.pt g⟩⟩) [[7], [8]] (some ⟨.pt (caseAgg x y)⟩) = .ok () :=
  (C36_safe B H [x, y] [[7], [8]] (caseAgg x y) (by simp) (by simp) case_distinct).1.2
    ((C36_unsafe B H [x, y] [[7], [8]] (caseAgg x y) (by simp) (by simp) case_distinct).1.1 (case_batch x y))

example (x y z : Toy.K) : VerifyCompressed B H ([x, y, z].map .pt) [[7], [8]] (Toy.bn.compress (caseAgg x y)) false = .ok () :=
  (C36_compressed B H [x, y, z] [[7], [8]] _ (caseAgg x y) false (by simp) (case_decompress _) (by simp) (.inr case_distinct)).1.2
    ((C36_unsafe B H [x, y] [[7], [8]] (caseAgg x y) (by simp) (by simp) case_distinct).1.1 (case_batch x y))

example (x y : Toy.K) : ∃ agg, aggregateSigs (⟨.pt ((digest Hash.toyAlgs [7] : Toy.K) * x)⟩ : Signature Toy.K) [⟨.pt ((digest Hash.toyAlgs [8] : Toy.K) * y)⟩] = .ok agg ∧
    VerifyBatch B H [some ⟨some ⟨.pt x⟩⟩, some ⟨some ⟨.pt y⟩⟩] [[7], [8]] (some agg) = .ok () :=
  C36_complete_safe B H ([7], x, (digest Hash.toyAlgs [7] : Toy.K) * x) [([8], y, (digest Hash.toyAlgs [8] : Toy.K) * y)] case_distinct (by
      intro t ht
      simp only [List.mem_cons, List.not_mem_nil, or_false] at ht
      rcases ht with rfl | rfl
      · exact case_one _ _
      · exact case_one _ _)

/-- C37: the only accepted signatures. -/
example (s : Option (UnsafeSignature Toy.K)) (h : VerifyUnsafe B H (some ⟨.pt 3⟩) [7] s = .ok ()) :
    s = some ⟨.pt ((digest Hash.toyAlgs [7] : Toy.K) * 3)⟩ := C37_unsafe B H _ _ _ _ h (case_one [7] 3)

example (s : Option (Signature Toy.K)) (h : Verify B H (some ⟨some ⟨.pt 3⟩⟩) [7] s = .ok ()) :
    s = some ⟨.pt ((digest Hash.toyAlgs [7] : Toy.K) * 3)⟩ := C37_safe B H _ _ _ _ h (case_apk [7] 3)

example (s : Toy.K) (h : VerifyUnsafeBatch B H ([3, 4].map fun g => some ⟨.pt g⟩) [[7], [8]] (some ⟨.pt s⟩) = .ok ()) : s = caseAgg 3 4 :=
  C37_batch B H [3, 4] [[7], [8]] s (caseAgg 3 4) (by simp) (by simp) case_distinct h (case_batch 3 4)

/-- C38: the signature of `[7]` moved to another message. -/
example (m' : Bytes) : VerifyUnsafe B H (some ⟨.pt 3⟩) m'
    (some ⟨.pt ((quot Toy.bn.order (digest H [7]) (digest H m') : Toy.K) • ((digest Hash.toyAlgs [7] : Toy.K) * 3))⟩) = .ok () :=
  C38_unsafe_violated B H 3 [7] _ toy_digest.1 (case_one [7] 3) m'

example (m' : Bytes) : Verify B H (some ⟨some ⟨.pt 3⟩⟩) m'
    (some ⟨.pt ((quot Toy.bn.order (digest H [7]) (digest H m') : Toy.K) • ((digest Hash.toyAlgs [7] : Toy.K) * 3))⟩) = .ok () :=
  C38_safe_violated B H 3 [7] _ toy_digest.1 (case_apk [7] 3) m'

example (m' : Bytes) : ∃ e, sign B H ⟨5⟩ (some ⟨.pt 5⟩) [7] = .ok ⟨.pt e⟩ ∧
    sign B H ⟨5⟩ (some ⟨.pt 5⟩) m' = .ok ⟨.pt ((quot Toy.bn.order (digest H [7]) (digest H m') : Toy.K) • e)⟩ :=
  C38_sign_violated B H 5 5 [7] m' toy_digest.1

/-- C39: a rogue key against the key 3. -/
example : ∃ s, unsafeSign B H ⟨6⟩ [8] = .ok s ∧ VerifyUnsafeBatch B H
    [some ⟨.pt 3⟩, some ⟨.pt (rogueKey B 3 (digest H [7]) (digest H [8]) 6)⟩] [[7], [8]] (some s) = .ok () :=
  C39_distinct_violated B H 3 [7] [8] 6 (by decide) toy_digest.2

/-- C40: a repeated message, and a colliding hash function. -/
example (pk : PublicKey Toy.K) (s : UnsafeSignature Toy.K) : (VerifyUnsafeBatch B H [some pk, some pk, some pk] [[1], [2], [1]] (some s)).IsErr :=
  (C40_unsafe B H [[1], [2], [1]] (by decide)).1 [pk, pk, pk] s

example (pk : PublicKey Toy.K) (s : Signature Toy.K) : (VerifyBatch B H [some ⟨some pk⟩, some ⟨some pk⟩] [[1], [1]] (some s)).IsErr :=
  (C40_safe B H [[1], [1]] (by decide)).1 [pk, pk] s

example (pks : List (Ptr Toy.K)) (b : Bytes) : (VerifyCompressed B H pks [[1], [1]] b false).IsErr := C40_compressed B H [[1], [1]] (by decide) pks b

example (pks : List (Ptr Toy.K)) (s : Ptr Toy.K) : ∃ m ∈ ([[1], [2]] : List Bytes), ∃ m' ∈ ([[1], [2]] : List Bytes), m ≠ m' ∧
    Merkle.zeroAlgs.sha3_256 m = Merkle.zeroAlgs.sha3_256 m' :=
  C40_collision B Merkle.zeroAlgs pks [[1], [2]] s false (by decide) (by
    unfold verifyBatch
    rw [show distinct Merkle.zeroAlgs [[1], [2]] = false by decide +kernel]
    rfl)

/-- C41: unequal numbers. -/
example (a : Apk Toy.K) (s : Option (Signature Toy.K)) : (VerifyBatch B H [some a, some a] [[1]] s).IsErr := C41_lengths B H _ _ _ (by simp)

example (p q : PublicKey Toy.K) (s : Option (UnsafeSignature Toy.K)) :
    VerifyUnsafeBatch B H [some p, some q] [[1]] s = VerifyUnsafeBatch B H [some p] [[1]] s :=
  C41_surplus_unsafe B H [p] [q] [[1]] s (by simp)

example (p q : Ptr Toy.K) (b : Bytes) : VerifyCompressed B H [p, q] [[1]] b true = VerifyCompressed B H [p] [[1]] b true :=
  C41_surplus_compressed B H [p] [q] [[1]] b true (by simp)

example (g : Toy.K) (s : UnsafeSignature Toy.K) : VerifyUnsafeBatch B H [some ⟨.pt g⟩] [[7], [8]] (some s) = .panic :=
  C41_missing_unsafe B H [g] [[7], [8]] s case_distinct (by simp)

example (g s : Toy.K) : VerifyCompressed B H [.pt g] [[7], [8]] (Toy.bn.compress s) false = .panic :=
  C41_missing_compressed B H [g] [[7], [8]] _ s false (case_decompress s) (.inr case_distinct) (by simp)

example (pk : PublicKey Toy.K) (s : UnsafeSignature Toy.K) (s' : Signature Toy.K) (e : Toy.K) :
    VerifyUnsafeBatch B H [some pk] [] (some s) = .panic ∧ VerifyBatch B H [] [] (some s') = .panic ∧
    VerifyCompressed B H [] [] (Toy.bn.compress e) true = .panic :=
  C41_empty B H [pk] s s' [] _ e true (case_decompress e)

/-- C43: no bytes into a public key. -/
example : (PublicKey.unmarshal B ⟨.pt 3⟩ []).1.IsErr ∧ (PublicKey.unmarshal B ⟨.pt 3⟩ []).2 ≠ ⟨.pt 3⟩ :=
  ⟨(C43_publicKey_violated B 3 [] rfl).1, (C43_publicKey_violated B 3 [] rfl).2.1⟩

/-! ## C45: two keys, an `Apk` of the first and a copy of it; a signature and a copy of it -/

section Heap

variable {F G1 G2 GT : Type} [Field F] [AddCommGroup G1] [AddCommGroup G2] [AddCommGroup GT]
  [Module F G1] [Module F G2] [Module F GT] (P : Bn256 F G1 G2 GT) (A : Hash.Algs)

def caseCalls : List HOp := [.genKeyPair 2, .genKeyPair 3, .newApk 0, .apkCopy 0, .sign 2 0 [1], .sigCopy 0]

theorem case_heap : ∃ (h : Heap G1 G2) (g a q : G2) (s : G1), Heap.run P A {} caseCalls = .ok h ∧ h.pk.length = 4 ∧ h.apk = [2, 3] ∧ h.sig.length = 2 ∧
    h.rdPk 0 = .ok ⟨.pt g⟩ ∧ h.rdPk 1 = .ok ⟨.pt q⟩ ∧ h.rdPk 2 = .ok ⟨.pt a⟩ ∧ h.rdPk 3 = .ok ⟨.pt a⟩ ∧
    h.rdSig 0 = .ok ⟨.pt s⟩ ∧ h.rdSig 1 = .ok ⟨.pt s⟩ ∧ g = ((2 : Nat) : F) • P.g2 ∧ q = ((3 : Nat) : F) • P.g2 ∧
    a = (digest A (P.g2Bytes g) : F) • g := by
  have h2 : ∀ g, P.g2OfBytes (P.g2Bytes g) = some (g, []) := fun g => by
    simpa using P.g2OfBytes_g2Bytes g []
  have h1 : ∀ g, P.g1OfBytes (P.g1Bytes g) = some (g, []) := fun g => by
    simpa using P.g1OfBytes_g1Bytes g []
  let g := ((2 : Nat) : F) • P.g2
  let a := (digest A (P.g2Bytes g) : F) • g
  let s := (digest A (P.g2Bytes g) : F) • ((2 : Nat) : F) • (digest A [1] : F) • P.g1
  refine ⟨⟨[.pt g, .pt (((3 : Nat) : F) • P.g2), .pt a, .pt a], [0, 1, 2, 3], [2, 3], [.pt s, .pt s], [0, 1], []⟩, g, a,
    ((3 : Nat) : F) • P.g2, s, ?e, rfl, rfl, rfl, rfl, rfl, rfl, rfl, rfl, rfl, rfl, rfl, rfl⟩
  simp only [caseCalls, Heap.run, Heap.step, Heap.newApk, Heap.rdPk, Heap.rdSig, Heap.allocPk, Heap.allocApk, Heap.allocSig, idx,
    Res.bind_ok, List.nil_append, List.cons_append, List.length_cons, List.length_nil, List.getElem?_cons_zero,
    List.getElem?_cons_succ, pkt_eq, Apk.copy, Apk.gx, deref_some, Ptr.get_pt, h2, h1, sign_eq, Signature.copy,
    Nat.zero_add, Nat.reduceAdd, g, a, s]

/-- Aggregating the second key into the copy changes the copy only. -/
example : ∃ (h h' : Heap G1 G2) (a q : G2), Heap.run P A {} caseCalls = .ok h ∧ h.step P A (.apkAggregate 1 1) = .ok h' ∧
    h'.rdPk 3 = .ok ⟨.pt (a + (digest A (P.g2Bytes q) : F) • q)⟩ ∧ h'.rdPk 2 = .ok ⟨.pt a⟩ ∧ h'.rdPk 1 = .ok ⟨.pt q⟩ := by
  obtain ⟨h, g, a, q, s, e, l1, l2, l3, r0, r1, r2, r3, s0, s1, -⟩ := case_heap P A
  obtain ⟨h', e', k⟩ := C45_apk_receiver P A ⟨_, e⟩ (a := 1) (p := 3) (i := 1) (by rw [l2]; rfl) r3 r1
  obtain ⟨p1, p2⟩ := C45_apk_independent P A (os := caseCalls) (by simp [NoLiteral, caseCalls]) e e'
  exact ⟨h, h', a, q, e, e', k, by rw [p1 0 2 (by rw [l2]; rfl) (by simp), r2], by rw [p2 1 (by omega) (by simp [l2]), r1]⟩

example : ∃ (h h' : Heap G1 G2) (s : G1), Heap.run P A {} caseCalls = .ok h ∧ h.step P A (.sigAggregate 1 0) = .ok h' ∧
    h'.rdSig 1 = .ok ⟨.pt (s + s)⟩ ∧ h'.rdSig 0 = .ok ⟨.pt s⟩ := by
  obtain ⟨h, g, a, q, s, e, l1, l2, l3, r0, r1, r2, r3, s0, s1, -⟩ := case_heap P A
  obtain ⟨h', e', k⟩ := C45_sig_receiver P A ⟨_, e⟩ s1 s0
  exact ⟨h, h', s, e, e', k, by rw [(C45_frame P A ⟨_, e⟩ e').2.1 0 (by omega) (by simp [writesSig]), s0]⟩

example : ∃ (h h' h'' : Heap G1 G2) (a : G2) (s : G1), Heap.run P A {} caseCalls = .ok h ∧ h.step P A (.apkCopy 1) = .ok h' ∧ h'.rdPk 4 = .ok ⟨.pt a⟩ ∧
    h.step P A (.sigCopy 1) = .ok h'' ∧ h''.rdSig 2 = .ok ⟨.pt s⟩ := by
  obtain ⟨h, g, a, q, s, e, l1, l2, l3, r0, r1, r2, r3, s0, s1, -⟩ := case_heap P A
  obtain ⟨h', e', -, k, -⟩ := C45_apk_copy P A ⟨_, e⟩ (a := 1) (p := 3) (by rw [l2]; rfl) r3
  obtain ⟨h'', e'', -, k', -⟩ := C45_sig_copy P A ⟨_, e⟩ s1
  exact ⟨h, h', h'', a, s, e, e', by rwa [l1] at k, e'', by rwa [l3] at k'⟩

example : ∃ (h h' : Heap G1 G2), Heap.run P A {} caseCalls = .ok h ∧ h.run P A [.newApk 1] = .ok h' ∧ 0 ∉ h'.apk ∧ 1 ∉ h'.apk := by
  obtain ⟨h, g, a, q, s, e, l1, l2, l3, r0, r1, r2, r3, s0, s1, -⟩ := case_heap P A
  have e' : h.run P A [.newApk 1] = .ok (h.allocApk (.pt ((digest A (P.g2Bytes q) : F) • q))) := by
    simp only [Heap.run, Heap.step, Heap.newApk, r1, Res.bind_ok, pkt_eq]
  obtain ⟨-, k⟩ := C45_separate P A (os := caseCalls) (os' := [.newApk 1]) (by simp [NoLiteral, caseCalls]) (by simp [NoLiteral]) e e'
  exact ⟨h, _, e, e', k 0 (by omega) (by simp [l2]), k 1 (by omega) (by simp [l2])⟩

/-- An `Apk` literal of the first key shares it. -/
example : ∃ (h h' : Heap G1 G2) (g q : G2), Heap.run P A {} caseCalls = .ok h ∧ h.run P A [.apkLiteral 0, .apkAggregate 2 1] = .ok h' ∧
    h'.rdPk 0 = .ok ⟨.pt (g + (digest A (P.g2Bytes q) : F) • q)⟩ := by
  obtain ⟨h, g, a, q, s, e, l1, l2, l3, r0, r1, r2, r3, s0, s1, -⟩ := case_heap P A
  obtain ⟨h', e', k⟩ := C45_literal_shares P A ⟨_, e⟩ r0 r1
  exact ⟨h, h', g, q, e, by rw [l2] at e'; exact e', k⟩

end Heap

end Dusk.Bls
