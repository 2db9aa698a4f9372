import Verif.Props.Bls
/-!
# C42–C44: BLS encodings
-/

namespace Dusk.Bls

set_option linter.unusedSectionVars false

variable {F G1 G2 GT : Type} [Field F] [AddCommGroup G1] [AddCommGroup G2] [AddCommGroup GT]
  [Module F G1] [Module F G2] [Module F GT]
variable (P : Bn256 F G1 G2 GT) (A : Hash.Algs)

/-! ## C42 -/

/-- C42: every public key survives `Marshal`/`Unmarshal`, into any receiver and with any bytes appended. -/
theorem C42_publicKey (g : G2) (recv : PublicKey G2) (rest : Bytes) :
    ∃ b, PublicKey.marshal P ⟨.pt g⟩ = .ok b ∧
      recv.unmarshal P (b ++ rest) = (.ok (), ⟨.pt g⟩) ∧ unmarshalPk P (b ++ rest) = .ok ⟨.pt g⟩ := by
  refine ⟨_, rfl, ?_, ?_⟩
  · simp [PublicKey.unmarshal, P.g2OfBytes_g2Bytes]
  · simp [unmarshalPk, PublicKey.unmarshal, P.g2OfBytes_g2Bytes]

example (recv : PublicKey Toy.K) : ∃ b, PublicKey.marshal Toy.bn ⟨.pt 5⟩ = .ok b ∧ recv.unmarshal Toy.bn (b ++ [1, 2]) = (.ok (), ⟨.pt 5⟩) :=
  let ⟨b, h1, h2, _⟩ := C42_publicKey Toy.bn 5 recv [1, 2]
  ⟨b, h1, h2⟩

/-- C42: the same for aggregated public keys. -/
theorem C42_apk (g : G2) (recv : PublicKey G2) (rest : Bytes) :
    ∃ b, Apk.marshal P ⟨some ⟨.pt g⟩⟩ = .ok b ∧
      Apk.unmarshal P ⟨some recv⟩ (b ++ rest) = (.ok (), ⟨some ⟨.pt g⟩⟩) ∧
      unmarshalApk P (b ++ rest) = .ok ⟨some ⟨.pt g⟩⟩ := by
  refine ⟨_, rfl, ?_, ?_⟩
  · simp [Apk.unmarshal, PublicKey.unmarshal, P.g2OfBytes_g2Bytes]
  · simp [unmarshalApk, Apk.unmarshal, PublicKey.unmarshal, P.g2OfBytes_g2Bytes]

example (recv : PublicKey Toy.K) : ∃ b, Apk.marshal Toy.bn ⟨some ⟨.pt 5⟩⟩ = .ok b ∧
    Apk.unmarshal Toy.bn ⟨some recv⟩ (b ++ [1, 2]) = (.ok (), ⟨some ⟨.pt 5⟩⟩) :=
  let ⟨b, h1, h2, _⟩ := C42_apk Toy.bn 5 recv [1, 2]
  ⟨b, h1, h2⟩

/-- C42: every signature survives `Marshal`/`Unmarshal` (any bytes appended), and if it is not the point at infinity both `Decompress`
and `Unmarshal` restore it from its 33-byte compressed form. -/
theorem C42_signature (e : G1) (recv : Signature G1) (rest : Bytes) :
    ∃ b c, Signature.marshal P ⟨.pt e⟩ = .ok b ∧ Signature.compress P ⟨.pt e⟩ = .ok c ∧
      recv.unmarshal P (b ++ rest) = (.ok (), ⟨.pt e⟩) ∧ unmarshalSignature P (b ++ rest) = .ok ⟨.pt e⟩ ∧
      (e ≠ 0 → c.length = 33 ∧ recv.decompress P c = (.ok (), ⟨.pt e⟩) ∧ recv.unmarshal P c = (.ok (), ⟨.pt e⟩) ∧
        unmarshalSignature P c = .ok ⟨.pt e⟩) := by
  have hl : (P.g1Bytes e ++ rest).length ≠ 33 := by
    rw [List.length_append, P.g1Bytes_length]; omega
  refine ⟨_, _, rfl, rfl, ?_, ?_, fun he => ⟨P.compress_length e he, ?_, ?_, ?_⟩⟩
  · rw [Signature.unmarshal, if_neg hl, P.g1OfBytes_g1Bytes]
  · rw [unmarshalSignature, Signature.unmarshal, if_neg hl, P.g1OfBytes_g1Bytes]; rfl
  · rw [Signature.decompress, P.decompress_compress e he]
  · rw [Signature.unmarshal, if_pos (P.compress_length e he), P.decompress_compress e he]
  · rw [unmarshalSignature, Signature.unmarshal, if_pos (P.compress_length e he), P.decompress_compress e he]; rfl

/-- C42: unsafe signatures; here `Unmarshal` does not accept the compressed form. -/
theorem C42_unsafeSignature (e : G1) (recv : UnsafeSignature G1) (rest : Bytes) :
    ∃ b c, UnsafeSignature.marshal P ⟨.pt e⟩ = .ok b ∧ UnsafeSignature.compress P ⟨.pt e⟩ = .ok c ∧
      recv.unmarshal P (b ++ rest) = (.ok (), ⟨.pt e⟩) ∧
      (e ≠ 0 → recv.decompress P c = (.ok (), ⟨.pt e⟩) ∧ (recv.unmarshal P c).1.IsErr) := by
  refine ⟨_, _, rfl, rfl, ?_, fun he => ⟨?_, ?_⟩⟩
  · rw [UnsafeSignature.unmarshal, P.g1OfBytes_g1Bytes]
  · rw [UnsafeSignature.decompress, P.decompress_compress e he]
  · rw [UnsafeSignature.unmarshal, P.g1OfBytes_short _ (by rw [P.compress_length e he]; omega)]; simp

/-- Both signature types with their two encodings: only one of the two types reads a compressed encoding with `Unmarshal`. -/
example (recv : Signature Toy.K) (recv' : UnsafeSignature Toy.K) : ∃ c, Signature.compress Toy.bn ⟨.pt 5⟩ = .ok c ∧
    recv.unmarshal Toy.bn c = (.ok (), ⟨.pt 5⟩) ∧ (recv'.unmarshal Toy.bn c).1.IsErr := by
  have h5 : (5 : Toy.K) ≠ 0 := by decide +kernel
  obtain ⟨b, c, -, h1, -, -, h⟩ := C42_signature Toy.bn 5 recv []
  obtain ⟨b', c', -, h3, -, h'⟩ := C42_unsafeSignature Toy.bn 5 recv' []
  have h2 := (h h5).2.2.1
  have h4 := (h' h5).2
  have : c = c' := Res.ok.inj (h1.symm.trans h3)
  exact ⟨c, h1, h2, this ▸ h4⟩

/-- C42: distinct values have distinct encodings; for `Signature` also across the two wire forms. -/
theorem C42_injective (g g' : G2) (e e' : G1) :
    (PublicKey.marshal P ⟨.pt g⟩ = PublicKey.marshal P ⟨.pt g'⟩ → g = g') ∧
    (Signature.marshal P ⟨.pt e⟩ = Signature.marshal P ⟨.pt e'⟩ → e = e') ∧
    (e ≠ 0 → e' ≠ 0 → Signature.compress P ⟨.pt e⟩ = Signature.compress P ⟨.pt e'⟩ → e = e') ∧
    (e' ≠ 0 → Signature.marshal P ⟨.pt e⟩ ≠ Signature.compress P ⟨.pt e'⟩) := by
  refine ⟨fun h => ?_, fun h => ?_, fun he he' h => ?_, fun he' h => ?_⟩
  · have h := Res.ok.inj h
    have := P.g2OfBytes_g2Bytes g []
    rw [h, P.g2OfBytes_g2Bytes] at this
    simpa using this.symm
  · have h := Res.ok.inj h
    have := P.g1OfBytes_g1Bytes e []
    rw [h, P.g1OfBytes_g1Bytes] at this
    simpa using this.symm
  · have h := Res.ok.inj h
    have := P.decompress_compress e he
    rw [h, P.decompress_compress e' he'] at this
    simpa using this.symm
  · have h := congrArg List.length (Res.ok.inj h)
    rw [P.g1Bytes_length, P.compress_length e' he'] at h
    omega

example : PublicKey.marshal Toy.bn ⟨.pt 5⟩ ≠ PublicKey.marshal Toy.bn ⟨.pt 6⟩ := fun h =>
  absurd ((C42_injective Toy.bn 5 6 0 0).1 h) (by decide +kernel)

/-- C42: decoding a public key succeeds exactly if the library finds a point at the start of the bytes, and yields this point;
otherwise it returns an error. -/
theorem C42_accepts_keys (recv : PublicKey G2) (b : Bytes) :
    (∀ g rest, P.g2OfBytes b = some (g, rest) → recv.unmarshal P b = (.ok (), ⟨.pt g⟩) ∧ unmarshalPk P b = .ok ⟨.pt g⟩ ∧
      Apk.unmarshal P ⟨some recv⟩ b = (.ok (), ⟨some ⟨.pt g⟩⟩) ∧ unmarshalApk P b = .ok ⟨some ⟨.pt g⟩⟩) ∧
    (P.g2OfBytes b = none → (recv.unmarshal P b).1.IsErr ∧ (unmarshalPk P b).IsErr ∧ (Apk.unmarshal P ⟨some recv⟩ b).1.IsErr ∧
      (unmarshalApk P b).IsErr) := by
  constructor
  · intro g rest h
    simp [PublicKey.unmarshal, unmarshalPk, Apk.unmarshal, unmarshalApk, h]
  · intro h
    simp [PublicKey.unmarshal, unmarshalPk, Apk.unmarshal, unmarshalApk, h]

/-- C42: the same for signatures: 33 bytes are taken as compressed, everything else as uncompressed. -/
theorem C42_accepts_signatures (recv : Signature G1) (u : UnsafeSignature G1) (b : Bytes) :
    (∀ e, (unmarshalSignature P b = .ok ⟨.pt e⟩ ↔ recv.unmarshal P b = (.ok (), ⟨.pt e⟩)) ∧
      (recv.unmarshal P b = (.ok (), ⟨.pt e⟩) ↔
        if b.length = 33 then P.decompress b = some e else ∃ rest, P.g1OfBytes b = some (e, rest)) ∧
      (recv.decompress P b = (.ok (), ⟨.pt e⟩) ↔ P.decompress b = some e) ∧
      (u.decompress P b = (.ok (), ⟨.pt e⟩) ↔ P.decompress b = some e) ∧
      (u.unmarshal P b = (.ok (), ⟨.pt e⟩) ↔ ∃ rest, P.g1OfBytes b = some (e, rest))) ∧
    ((if b.length = 33 then P.decompress b = none else P.g1OfBytes b = none) →
      (recv.unmarshal P b).1.IsErr ∧ (unmarshalSignature P b).IsErr) ∧
    (P.decompress b = none → (recv.decompress P b).1.IsErr ∧ (u.decompress P b).1.IsErr) ∧
    (P.g1OfBytes b = none → (u.unmarshal P b).1.IsErr) := by
  have hd : P.decompress b = none ∨ ∃ e, P.decompress b = some e := by
    cases P.decompress b <;> simp
  have hg : P.g1OfBytes b = none ∨ ∃ e rest, P.g1OfBytes b = some (e, rest) := by
    rcases h : P.g1OfBytes b with _ | ⟨e, r⟩ <;> simp
  by_cases hl : b.length = 33 <;> rcases hd with hd | ⟨e, hd⟩ <;> rcases hg with hg | ⟨e', rest, hg⟩ <;>
    simp [Signature.unmarshal, unmarshalSignature, Signature.decompress, UnsafeSignature.decompress, UnsafeSignature.unmarshal, hl, hd, hg]

/-- C42: `AggregateBytes` is `Aggregate` of the decoded value, and fails if the bytes do not decode. -/
theorem C42_aggregateBytes (apk : Option (Apk G2)) (sigma : Signature G1) (b : Bytes) :
    (∀ pk, unmarshalPk P b = .ok pk → Apk.aggregateBytes P A apk b = Apk.aggregate P A apk (some pk)) ∧
    ((unmarshalPk P b).IsErr → (Apk.aggregateBytes P A apk b).1.IsErr) ∧
    (∀ a e, sigma.e = .pt a → unmarshalSignature P b = .ok ⟨.pt e⟩ → sigma.aggregateBytes P b = (.ok (), ⟨.pt (a + e)⟩)) ∧
    ((unmarshalSignature P b).IsErr → (sigma.aggregateBytes P b).1.IsErr) := by
  refine ⟨?_, ?_, ?_, ?_⟩
  · intro pk h
    unfold unmarshalPk at h
    unfold Apk.aggregateBytes
    revert h
    rcases PublicKey.unmarshal P ⟨.nil⟩ b with ⟨r | e | _, pk'⟩ <;> simp
    rintro rfl
    rfl
  · unfold unmarshalPk Apk.aggregateBytes
    rcases PublicKey.unmarshal P ⟨.nil⟩ b with ⟨r | e | _, pk'⟩ <;> simp
  · intro a e ha h
    unfold unmarshalSignature at h
    unfold Signature.aggregateBytes
    revert h
    rcases Signature.unmarshal P ⟨.nil⟩ b with ⟨r | e | _, s'⟩ <;> simp
    rintro rfl
    simp [Signature.aggregate, ha, Ptr.get]
  · unfold unmarshalSignature Signature.aggregateBytes
    rcases Signature.unmarshal P ⟨.nil⟩ b with ⟨r | e | _, s'⟩ <;> simp

example (A : Hash.Algs) : (Apk.aggregateBytes Toy.bn A none []).1.IsErr ∧ (Signature.aggregateBytes Toy.bn ⟨.pt 3⟩ []).1.IsErr :=
  ⟨(C42_aggregateBytes Toy.bn A none ⟨.nil⟩ []).2.1 ((C42_accepts_keys Toy.bn ⟨.nil⟩ []).2 (by rfl) |>.2.1),
    (C42_aggregateBytes Toy.bn A none ⟨.pt 3⟩ []).2.2.2 ((C42_accepts_signatures Toy.bn ⟨.nil⟩ ⟨.nil⟩ []).2.1 (by rfl) |>.2)⟩

/-- Both cases occur. -/
example : (unmarshalPk Toy.bn []).IsErr ∧ (unmarshalSignature Toy.bn []).IsErr ∧
    unmarshalPk Toy.bn (Toy.bn.g2Bytes 5) = .ok ⟨.pt 5⟩ ∧ unmarshalSignature Toy.bn (Toy.bn.g1Bytes 5) = .ok ⟨.pt 5⟩ :=
  ⟨(C42_accepts_keys Toy.bn ⟨.nil⟩ []).2 (by rfl) |>.2.1,
    (C42_accepts_signatures Toy.bn ⟨.nil⟩ ⟨.nil⟩ []).2.1 (by rfl) |>.2,
    ((C42_accepts_keys Toy.bn ⟨.nil⟩ (Toy.bn.g2Bytes 5)).1 5 [] (by simpa using Toy.bn.g2OfBytes_g2Bytes 5 [])).2.1,
    ((C42_accepts_signatures Toy.bn ⟨.nil⟩ ⟨.nil⟩ (Toy.bn.g1Bytes 5)).1 5).1.2 (((C42_accepts_signatures Toy.bn ⟨.nil⟩ ⟨.nil⟩ _).1 5).2.1.2 (by
      rw [if_neg (by rw [Toy.bn.g1Bytes_length]; decide)]
      exact ⟨[], by simpa using Toy.bn.g1OfBytes_g1Bytes 5 []⟩))⟩

/-! ## C43 -/

/-- C43: a failing decode or byte aggregation of a signature leaves the receiver as it was, for every input. -/
theorem C43_signature (s : Signature G1) (u : UnsafeSignature G1) (b : Bytes) :
    ((s.unmarshal P b).1 ≠ .ok () → (s.unmarshal P b).2 = s) ∧
    ((s.decompress P b).1 ≠ .ok () → (s.decompress P b).2 = s) ∧
    ((s.aggregateBytes P b).1 ≠ .ok () → (s.aggregateBytes P b).2 = s) ∧
    ((u.unmarshal P b).1 ≠ .ok () → (u.unmarshal P b).2 = u) ∧
    ((u.decompress P b).1 ≠ .ok () → (u.decompress P b).2 = u) := by
  refine ⟨?_, ?_, ?_, ?_, ?_⟩
  · unfold Signature.unmarshal
    split_ifs <;> split <;> simp
  · unfold Signature.decompress
    split <;> simp
  · unfold Signature.aggregateBytes
    split
    · simp
    · simp
    · split <;> simp
  · unfold UnsafeSignature.unmarshal
    split <;> simp
  · unfold UnsafeSignature.decompress
    split <;> simp

example (s : Signature Toy.K) : (s.aggregateBytes Toy.bn []).2 = s ∧ (s.unmarshal Toy.bn []).2 = s := by
  obtain ⟨h1, -, h3, -⟩ := C43_signature Toy.bn s ⟨.nil⟩ []
  refine ⟨h3 fun h => ?_, h1 fun h => ?_⟩
  · obtain ⟨e, he⟩ := (C42_aggregateBytes Toy.bn Hash.toyAlgs none s []).2.2.2
      ((C42_accepts_signatures Toy.bn ⟨.nil⟩ ⟨.nil⟩ []).2.1 (by rfl) |>.2)
    rw [he] at h; cases h
  · obtain ⟨e, he⟩ := (C42_accepts_signatures Toy.bn s ⟨.nil⟩ []).2.1 (by rfl) |>.1
    rw [he] at h; cases h

/-- C43: a failing `Apk.AggregateBytes` or `Apk.Aggregate` leaves the Apk as it was. -/
theorem C43_apk (apk : Option (Apk G2)) (pk : Option (PublicKey G2)) (b : Bytes) :
    ((Apk.aggregate P A apk pk).1 ≠ .ok () → (Apk.aggregate P A apk pk).2 = apk) ∧
    ((Apk.aggregateBytes P A apk b).1 ≠ .ok () → (Apk.aggregateBytes P A apk b).2 = apk) := by
  have h : ∀ pk, (Apk.aggregate P A apk pk).1 ≠ .ok () → (Apk.aggregate P A apk pk).2 = apk := by
    intro pk
    unfold Apk.aggregate
    split
    · simp
    · simp
    · split <;> simp
  refine ⟨h pk, ?_⟩
  unfold Apk.aggregateBytes
  split
  · exact h _
  · simp
  · simp

example (A : Hash.Algs) (apk : Option (Apk Toy.K)) : (Apk.aggregateBytes Toy.bn A apk []).2 = apk := by
  refine (C43_apk Toy.bn A apk none []).2 fun h => ?_
  obtain ⟨e, he⟩ := (C42_aggregateBytes Toy.bn A apk ⟨.nil⟩ []).2.1 ((C42_accepts_keys Toy.bn ⟨.nil⟩ []).2 (by rfl) |>.2.1)
  rw [he] at h; cases h

/-- C43 (violated): a failing `PublicKey.Unmarshal` (or `Apk.Unmarshal`) destroys the key that was there,
whatever it was. -/
theorem C43_publicKey_violated (g : G2) (b : Bytes) (hb : P.g2OfBytes b = none) :
    (PublicKey.unmarshal P ⟨.pt g⟩ b).1.IsErr ∧ (PublicKey.unmarshal P ⟨.pt g⟩ b).2 ≠ ⟨.pt g⟩ ∧
    (Apk.unmarshal P ⟨some ⟨.pt g⟩⟩ b).1.IsErr ∧ (Apk.unmarshal P ⟨some ⟨.pt g⟩⟩ b).2 ≠ ⟨some ⟨.pt g⟩⟩ := by
  simp [PublicKey.unmarshal, Apk.unmarshal, hb]

/-- C43 (violated): `UnmarshalText` keeps the key when the text is not base64, and destroys it when the decoded
bytes are not a point. -/
theorem C43_text_violated (g : G2) (t : Bytes) :
    (decodeText t ≠ .panic) ∧
    (∀ e, decodeText t = .err e → PublicKey.unmarshalText P ⟨.pt g⟩ t = (.err e, ⟨.pt g⟩)) ∧
    (∀ b, decodeText t = .ok b → P.g2OfBytes b = none →
      (PublicKey.unmarshalText P ⟨.pt g⟩ t).1.IsErr ∧ (PublicKey.unmarshalText P ⟨.pt g⟩ t).2 ≠ ⟨.pt g⟩) := by
  refine ⟨?_, ?_, ?_⟩
  · unfold decodeText Base64.decode
    split <;> simp
  · intro e h
    simp [PublicKey.unmarshalText, h]
  · intro b h hb
    simp [PublicKey.unmarshalText, h, hb]

example : (PublicKey.unmarshalText Toy.bn ⟨.pt 5⟩ []).1.IsErr ∧ (PublicKey.unmarshalText Toy.bn ⟨.pt 5⟩ []).2 ≠ ⟨.pt 5⟩ :=
  (C43_text_violated Toy.bn 5 []).2.2 [] rfl rfl

/-- The empty input is such a failing input, directly and as text. -/
example : Toy.bn.g2OfBytes [] = none ∧ decodeText [] = .ok [] ∧ ∃ e, decodeText [64] = .err e :=
  ⟨rfl, rfl, _, rfl⟩

/-! ## C44 -/

/-- The 64 characters of the URL-safe base64 alphabet (RFC 4648 §5). -/
def urlAlphabet : List UInt8 :=
  "ABCDEFGHIJKLMNOPQRSTUVWXYZabcdefghijklmnopqrstuvwxyz0123456789-_".toList.map fun c => UInt8.ofNat c.toNat

theorem digit_value : ∀ s < 64, Base64.value (Base64.digit s) = some s ∧ Base64.digit s ≠ 10 ∧
    Base64.digit s ≠ 13 ∧ Base64.digit s ∈ urlAlphabet := by decide +kernel

theorem value_iff_aux : ∀ n < 256, (Base64.value (UInt8.ofNat n)).isSome = true ↔ UInt8.ofNat n ∈ urlAlphabet := by
  decide +kernel

theorem value_iff (c : UInt8) : (Base64.value c).isSome = true ↔ c ∈ urlAlphabet := by
  have := value_iff_aux c.toNat (UInt8.toNat_lt c)
  rwa [UInt8.ofNat_toNat] at this

/-- The characters that count: all but line feed and carriage return. -/
def significant (t : Bytes) : Bytes := t.filter fun c => c ≠ 10 ∧ c ≠ 13

theorem values_iff : ∀ t : Bytes,
    (∀ c ∈ significant t, c ∈ urlAlphabet) ∧ (∃ vs, Base64.values t = some vs ∧ vs.length = (significant t).length) ∨
    (¬ ∀ c ∈ significant t, c ∈ urlAlphabet) ∧ Base64.values t = none
  | [] => .inl ⟨by simp [significant], [], rfl, rfl⟩
  | c :: t => by
    have ih := values_iff t
    by_cases hc : c = 10 ∨ c = 13
    · have hs : significant (c :: t) = significant t := by
        rcases hc with rfl | rfl <;> simp [significant]
      have hv : Base64.values (c :: t) = Base64.values t := by simp [Base64.values, hc]
      rw [hs, hv]; exact ih
    · have hc' : c ≠ 10 ∧ c ≠ 13 := not_or.1 hc
      have hs : significant (c :: t) = c :: significant t := by simp [significant, hc']
      cases hval : Base64.value c with
      | none =>
        refine .inr ⟨fun h => ?_, by simp [Base64.values, hc, hval]⟩
        have := (value_iff c).2 (h c (by rw [hs]; exact List.mem_cons_self))
        rw [hval] at this; cases this
      | some v =>
        have hm : c ∈ urlAlphabet := (value_iff c).1 (by rw [hval]; rfl)
        rcases ih with ⟨h1, vs, h2, h3⟩ | ⟨h1, h2⟩
        · refine .inl ⟨?_, v :: vs, by simp [Base64.values, hc, hval, h2], by rw [hs]; simp [h3]⟩
          rw [hs]
          intro d hd
          rcases List.mem_cons.1 hd with rfl | hd
          · exact hm
          · exact h1 d hd
        · refine .inr ⟨fun h => h1 fun d hd => h d (by rw [hs]; exact List.mem_cons_of_mem _ hd), ?_⟩
          simp [Base64.values, hc, hval, h2]

theorem assemble_iff : ∀ vs : List Nat, (Base64.assemble vs).isSome = true ↔ vs.length % 4 ≠ 1
  | [] => by simp [Base64.assemble]
  | [_] => by simp [Base64.assemble]
  | [_, _] => by simp [Base64.assemble]
  | [_, _, _] => by simp [Base64.assemble]
  | w :: x :: y :: z :: rest => by
    have ih := assemble_iff rest
    simp only [Base64.assemble, Option.isSome_map, ih, List.length_cons]
    omega

/-- C44: decoding a text succeeds exactly if every character other than CR and LF belongs to the URL-safe
alphabet and the number of those characters is not 1 modulo 4. It never panics. -/
theorem C44_accepts (t : Bytes) :
    ((∃ b, decodeText t = .ok b) ↔
      (∀ c ∈ t, c ≠ 10 → c ≠ 13 → c ∈ urlAlphabet) ∧ (significant t).length % 4 ≠ 1) ∧
    decodeText t ≠ .panic := by
  have hmem : (∀ c ∈ t, c ≠ 10 → c ≠ 13 → c ∈ urlAlphabet) ↔ ∀ c ∈ significant t, c ∈ urlAlphabet := by
    simp only [significant, List.mem_filter, decide_eq_true_eq, and_imp]
  rw [hmem, decodeText, Base64.decode]
  rcases values_iff t with ⟨h1, vs, h2, h3⟩ | ⟨h1, h2⟩
  · rw [h2, Option.bind_some, ← h3, ← assemble_iff]
    cases h : Base64.assemble vs with
    | none => simp
    | some b => simp; exact h1
  · rw [h2]
    simp [h1]

theorem values_cons_digit {s : Nat} (h : s < 64) (t : Bytes) :
    Base64.values (Base64.digit s :: t) = (Base64.values t).map (s :: ·) := by
  obtain ⟨h1, h2, h3, -⟩ := digit_value s h
  simp [Base64.values, h1, h2, h3]

theorem ofNat_eq {a : UInt8} {n : Nat} (h : n % 256 = a.toNat) : UInt8.ofNat n = a := by
  apply UInt8.toNat_inj.1
  rw [UInt8.toNat_ofNat', ← h]

theorem decode_encode : ∀ b : Bytes, (Base64.values (Base64.encode b)).bind Base64.assemble = some b
  | [] => rfl
  | [a] => by
    have ha := UInt8.toNat_lt a
    simp only [Base64.encode]
    rw [values_cons_digit (by omega), values_cons_digit (by omega)]
    simp only [Base64.values, Option.map_some, Option.bind_some, Base64.assemble, Option.some.injEq,
      List.cons.injEq, and_true]
    exact ofNat_eq (by omega)
  | [a, b] => by
    have ha := UInt8.toNat_lt a
    have hb := UInt8.toNat_lt b
    simp only [Base64.encode]
    rw [values_cons_digit (by omega), values_cons_digit (by omega), values_cons_digit (by omega)]
    simp only [Base64.values, Option.map_some, Option.bind_some, Base64.assemble, Option.some.injEq,
      List.cons.injEq, and_true]
    exact ⟨ofNat_eq (by omega), ofNat_eq (by omega)⟩
  | a :: b :: c :: rest => by
    have ih := decode_encode rest
    have ha := UInt8.toNat_lt a
    have hb := UInt8.toNat_lt b
    have hc := UInt8.toNat_lt c
    simp only [Base64.encode]
    rw [values_cons_digit (by omega), values_cons_digit (by omega), values_cons_digit (by omega),
      values_cons_digit (by omega)]
    cases hv : Base64.values (Base64.encode rest) with
    | none => rw [hv] at ih; cases ih
    | some vs =>
      rw [hv, Option.bind_some] at ih
      simp only [Option.map_some, Option.bind_some, Base64.assemble, ih, Option.some.injEq, List.cons.injEq, and_true]
      exact ⟨ofNat_eq (by omega), ofNat_eq (by omega), ofNat_eq (by omega)⟩

theorem encode_mem : ∀ b : Bytes, ∀ c ∈ Base64.encode b, c ∈ urlAlphabet
  | [] => by simp [Base64.encode]
  | [a] => by
    intro c hc
    simp only [Base64.encode, List.mem_cons, List.not_mem_nil, or_false] at hc
    rcases hc with rfl | rfl <;> exact (digit_value _ (by omega)).2.2.2
  | [a, b] => by
    intro c hc
    simp only [Base64.encode, List.mem_cons, List.not_mem_nil, or_false] at hc
    rcases hc with rfl | rfl | rfl <;> exact (digit_value _ (by omega)).2.2.2
  | a :: b :: d :: rest => by
    intro c hc
    simp only [Base64.encode, List.mem_cons] at hc
    rcases hc with rfl | rfl | rfl | rfl | hc
    · exact (digit_value _ (by omega)).2.2.2
    · exact (digit_value _ (by omega)).2.2.2
    · exact (digit_value _ (by omega)).2.2.2
    · exact (digit_value _ (by omega)).2.2.2
    · exact encode_mem rest c hc

theorem encode_length : ∀ b : Bytes, (Base64.encode b).length = (b.length * 4 + 2) / 3
  | [] => by simp [Base64.encode]
  | [_] => by simp [Base64.encode]
  | [_, _] => by simp [Base64.encode]
  | a :: b :: c :: rest => by
    simp only [Base64.encode, List.length_cons, encode_length rest]
    omega

/-- C44: the text form of every public key decodes to the same key, in any receiver; it consists of URL-safe
characters only, without padding or line breaks, and has the length `⌈4n/3⌉`. -/
theorem C44_text (g : G2) (recv : PublicKey G2) :
    ∃ t, PublicKey.marshalText P ⟨.pt g⟩ = .ok t ∧ recv.unmarshalText P t = (.ok (), ⟨.pt g⟩) ∧
      (∀ c ∈ t, c ∈ urlAlphabet) ∧ t.length = ((P.g2Bytes g).length * 4 + 2) / 3 := by
  refine ⟨_, rfl, ?_, encode_mem _, encode_length _⟩
  simp [PublicKey.unmarshalText, decodeText, encodeToText, Base64.decode, decode_encode, g2OfBytes_marshal]

example (recv : PublicKey Toy.K) : ∃ t, PublicKey.marshalText Toy.bn ⟨.pt 5⟩ = .ok t ∧ recv.unmarshalText Toy.bn t = (.ok (), ⟨.pt 5⟩) :=
  let ⟨t, h1, h2, _⟩ := C44_text Toy.bn 5 recv
  ⟨t, h1, h2⟩

/-- C44: the byte-level codec round trips on every byte string. -/
theorem C44_bytes (b : Bytes) : decodeText (encodeToText b) = .ok b := by
  simp [decodeText, encodeToText, Base64.decode, decode_encode]

example : encodeToText [255, 254] = [95, 95, 52] ∧ decodeText [95, 95, 52] = .ok [255, 254] :=
  ⟨by decide, (by decide : encodeToText [255, 254] = [95, 95, 52]) ▸ C44_bytes [255, 254]⟩

/-- C44: texts are not unique: line breaks may be inserted anywhere in any text without changing the result. -/
theorem C44_line_breaks (t₁ t₂ : Bytes) : decodeText (t₁ ++ [13, 10] ++ t₂) = decodeText (t₁ ++ t₂) := by
  have h : ∀ t₁ t₂ : Bytes, Base64.values (t₁ ++ [13, 10] ++ t₂) = Base64.values (t₁ ++ t₂) := by
    intro t₁
    induction t₁ with
    | nil => intro t₂; simp [Base64.values]
    | cons c t₁ ih =>
      intro t₂
      have ih := ih t₂
      simp only [List.cons_append] at ih ⊢
      simp only [Base64.values, ih]
  simp only [decodeText, Base64.decode, h]

example : decodeText [65, 65, 13, 10, 65, 66] = .ok [0, 0, 1] := (C44_line_breaks [65, 65] [65, 66]).trans (by decide)

/-- A text outside the accepted language and one inside. -/
example : (∀ b, decodeText [65, 65, 65, 65, 65] ≠ .ok b) ∧ decodeText [65, 65, 10, 65, 66] = .ok [0, 0, 1] := by
  constructor
  · intro b hb
    exact ((C44_accepts [65, 65, 65, 65, 65]).1.1 ⟨b, hb⟩).2 (by decide)
  · decide

end Dusk.Bls
