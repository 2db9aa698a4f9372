import Verif.Props.MlsagCodec
import Verif.Props.MlsagDual
import Verif.Props.BlsagForge
/-!
# Concrete cases for the theorems about MLSAG signatures

Every example applies a theorem of C16–C28 to concrete values, so that its hypotheses are seen to be satisfiable.
-/

namespace Dusk.Mlsag

/-- Calls with two decoys and two secrets. -/
def caseOps : List (Op Toy.K Toy.K) := [.decoy ⟨false, [10, 11]⟩, .secret 5, .decoy ⟨true, [12, 13]⟩, .secret 7]

theorem case_prove (msg : Bytes) (skip : Bool) (coins : Coins Toy.K) : ∃ sig I,
    ((build Toy.ris msg caseOps).prove Toy.ris skip coins).2 = .ok (sig, I) ∧
      Proved Toy.ris msg (secrets caseOps) ((decoys caseOps).map (fun k => ⟨true, k⟩)) skip coins
        ((build Toy.ris msg caseOps).prove Toy.ris skip coins).1 sig I :=
  C14_prove Toy.ris msg caseOps skip coins (by simp [decoys, caseOps]) (by simp [secrets, caseOps]) (by simp [secrets, caseOps])
    (by simp [decoys, secrets, caseOps])

/-- C16: signatures of two messages with the same secrets. -/
example (coins coins' : Coins Toy.K) : ∃ sig I sig' I', ((build Toy.ris [1] caseOps).prove Toy.ris false coins).2 = .ok (sig, I) ∧
    ((build Toy.ris [2] (.decoy ⟨false, [8, 9]⟩ :: caseOps)).prove Toy.ris false coins').2 = .ok (sig', I') ∧ I[1]? = I'[1]? := by
  obtain ⟨sig, I, h, -⟩ := case_prove [1] false coins
  obtain ⟨sig', I', h', -⟩ := C14_prove Toy.ris [2] (.decoy ⟨false, [8, 9]⟩ :: caseOps) false coins' (by simp [decoys, caseOps])
    (by simp [secrets, caseOps]) (by simp [secrets, caseOps]) (by simp [decoys, secrets, caseOps])
  obtain ⟨e, e'⟩ := C16_link Toy.ris [1] [2] caseOps (.decoy ⟨false, [8, 9]⟩ :: caseOps) coins coins' (by simp [decoys, caseOps])
    (by simp [decoys, caseOps]) (by simp [decoys, secrets, caseOps]) (by simp [decoys, secrets, caseOps]) sig sig' I I' 1 7 h h' rfl rfl
  exact ⟨sig, I, sig', I', h, h', by rw [e, e']⟩

/-- C17: the ring of a returned signature returns to its challenge. -/
example (coins : Coins Toy.K) : ∃ sig I, ((build Toy.ris [1] caseOps).prove Toy.ris true coins).2 = .ok (sig, I) ∧
    around Toy.ris sig.msg I (ringOf sig) sig.c = sig.c := by
  obtain ⟨sig, I, h, hp⟩ := case_prove [1] true coins
  have hl : sig.r.length = 3 := by rw [hp.lenR, hp.perm.length_eq]; simp [decoys, caseOps]
  have hpl : sig.pubKeys.length = 3 := by rw [← hl, hp.lenR, hp.ring]
  have hI : I = [image Toy.ris 5] := by rw [hp.images]; simp [secrets, caseOps]
  have hne : I ≠ [] := by simp [hI]
  have hf : Fits I (ringOf sig) := by
    by_contra hf
    exact absurd ((C26_panic_iff Toy.ris sig I (by intro h; simp [h] at hpl) (by intro h; simp [h] at hl) hne).2 fun h => hf h.2) (by rw [hp.accepted]; simp)
  exact ⟨sig, I, h, (C17_verify Toy.ris sig I (by omega) (by omega) hne hf).1.1 hp.accepted⟩

/-- C17: a wrong signature. -/
example : ((⟨0, [[2], [3]], [⟨true, [4]⟩, ⟨true, [5]⟩], []⟩ : Signature Toy.K Toy.K).verify Toy.ris [6]).IsErr := by
  refine (C17_verify Toy.ris _ _ (by simp) (by simp) (by simp) (by simp [Fits, ringOf])).2 ?_
  intro h
  exact Toy.dv_ne_zero _ h

/-- C17: a single member. -/
example : (⟨0, [[2]], [⟨true, [4]⟩], []⟩ : Signature Toy.K Toy.K).verify Toy.ris [6] ≠ .ok true := by
  rw [Ne, C17_single Toy.ris _ _ (by simp) (by simp) (by simp) (by simp [Fits, ringOf])]
  intro h
  exact Toy.dv_ne_zero _ h

example : ((⟨0, [[2], [3]], [⟨true, [4]⟩, ⟨true, [5]⟩], []⟩ : Signature Toy.K Toy.K).verify Toy.ris []).IsErr :=
  C17_empty Toy.ris _ _ (.inr (.inr rfl))

/-- A signature with two members and two keys each. -/
def caseSig : Signature Toy.K Toy.K := ⟨1, [[2, 3], [4, 5]], [⟨true, [6, 7]⟩, ⟨false, [8, 9]⟩], [1]⟩

/-- C18, C19: its encoding has 32 + 8 + 4 * 32 bytes, or 128 more with the keys. -/
example : (caseSig.encode Toy.ris false).Emits 7 (encoding Toy.ris caseSig 2 false) :=
  C18_encode Toy.ris caseSig false (by simp [caseSig]) (by simp [caseSig]) rfl

example : ({ caseSig with r := [] }.encode Toy.ris true).Emits 2 (Toy.ris.sBytes 1 ++ be32 0) :=
  C18_encode_empty Toy.ris { caseSig with r := [] } true rfl

example (t : Signature Toy.K Toy.K) : (t.decode Toy.ris true).Decodes (encoding Toy.ris caseSig 2 true)
    { t with c := 1, r := [[2, 3], [4, 5]], pubKeys := [⟨false, [6, 7]⟩, ⟨false, [8, 9]⟩] } :=
  C18_decode Toy.ris_encodings t caseSig true 2 (by simp [caseSig]) (by simp) (by simp [caseSig]) (by simp [caseSig])

/-- A writer without a limit in reach, and the written bytes in chunks of one byte. -/
example (t : Signature Toy.K Toy.K) : ∃ b, (caseSig.encode Toy.ris true { out := [9], left := 100, part := 3 }).2.out = [9] ++ b ∧
    ∃ r', t.decode Toy.ris true ⟨b.map fun x => [x], .eof⟩ = .ok (received t caseSig true, r') ∧ r'.flat = [] := by
  have he := C18_encode Toy.ris caseSig true (n := 2) (by simp [caseSig]) (by simp [caseSig]) rfl
  have h := he.good { out := [9], left := 100, part := 3 } (by simp [writes, caseSig])
  refine ⟨encoding Toy.ris caseSig 2 true, by rw [h], ?_⟩
  obtain ⟨r', h1, h2, -⟩ := C18_roundtrip Toy.ris_encodings t caseSig true 2 (by simp [caseSig]) (by simp [caseSig]) (by simp) (by simp [caseSig])
    (by simp [caseSig]) { out := [9], left := 100, part := 3 } (by rw [h]) (encoding Toy.ris caseSig 2 true) [] (by rw [h])
    ⟨(encoding Toy.ris caseSig 2 true).map fun x => [x], .eof⟩ (by simp [Reader.flat, ← List.flatMap_def])
  exact ⟨r', h1, h2⟩

example (t : Signature Toy.K Toy.K) : ∃ b, { caseSig with r := [] }.encode Toy.ris true { out := [], left := 2, part := 3 } = (.ok (), { out := b, left := 0, part := 3 }) ∧
    (t.decode Toy.ris true ⟨[b], .eof⟩).IsErr := by
  obtain ⟨b, h1, h2⟩ := C18_empty Toy.ris_encodings t { caseSig with r := [] } true true rfl { out := [], left := 2, part := 3 } (by simp)
  exact ⟨b, by simpa using h1, h2 _ (by simp [Reader.flat])⟩

/-- All but the last byte. -/
example (t : Signature Toy.K Toy.K) : (t.decode Toy.ris true ⟨[(encoding Toy.ris caseSig 2 true).dropLast], .eof⟩).IsErr := by
  refine C19_truncated Toy.ris_encodings t caseSig true 2 (by simp [caseSig]) (by simp) (by simp [caseSig]) (by simp [caseSig]) _ ?_ ?_
  · simpa [Reader.flat] using List.dropLast_prefix _
  · intro h
    have h := congrArg List.length h
    have e : 0 < (encoding Toy.ris caseSig 2 true).length := by
      simp only [encoding, List.length_append, Toy.ris_encodings.sBytes_length]
      omega
    simp only [Reader.flat, List.flatten_cons, List.flatten_nil, List.append_nil, List.length_dropLast] at h
    omega

/-- C21: a signature, an inner product proof of two rounds and a range proof around it. -/
example : ReportsFailures (caseSig.encode Toy.ris true) (encoding Toy.ris caseSig 2 true) :=
  C21_mlsag Toy.ris caseSig true (by simp [caseSig])

example (a b : Toy.K) : ReportsFailures ((⟨[1, 2], [3, 4], a, b⟩ : IP.Proof Toy.K Toy.K).encode Toy.ris) (IP.encoding Toy.ris ⟨[1, 2], [3, 4], a, b⟩) :=
  C21_innerproduct Toy.ris ⟨[1, 2], [3, 4], a, b⟩ rfl (by simp)

example (a b : Toy.K) : ReportsFailures ((⟨[⟨11, 12⟩], 5, 6, 7, 8, 9, 10, 11, some ⟨[1, 2], [3, 4], a, b⟩⟩ : RP.Proof Toy.K Toy.K).encode Toy.ris true)
    (RP.outerEncoding Toy.ris ⟨[⟨11, 12⟩], 5, 6, 7, 8, 9, 10, 11, some ⟨[1, 2], [3, 4], a, b⟩⟩ true ++ IP.encoding Toy.ris ⟨[1, 2], [3, 4], a, b⟩) :=
  C21_rangeproof Toy.ris _ _ rfl true rfl (by simp)

/-- C22: equal responses and different keys. -/
example : ∃ b, caseSig.equals { caseSig with pubKeys := [] } true = .ok b ∧ b = false := by
  obtain ⟨b, h, hb⟩ := C22_equal_counts caseSig { caseSig with pubKeys := [] } true rfl
  refine ⟨b, h, ?_⟩
  cases b
  · rfl
  · have := (hb.1 rfl).2.2 rfl
    simp [caseSig] at this

/-- C26: a decoded signature. -/
example (t : Signature Toy.K Toy.K) : ∃ s r', t.decode Toy.ris true ⟨[encoding Toy.ris caseSig 2 true], .eof⟩ = .ok (s, r') ∧
    (∃ n, s.pubKeys.length = s.r.length ∧ (∀ x ∈ s.r, x.length = n) ∧ ∀ k ∈ s.pubKeys, k.keys.length = n) ∧ s.verify Toy.ris [6, 7] ≠ .panic := by
  obtain ⟨r', h, -⟩ := (C18_decode Toy.ris_encodings t caseSig true 2 (by simp [caseSig]) (by simp) (by simp [caseSig]) (by simp [caseSig])).full
    ⟨[encoding Toy.ris caseSig 2 true], .eof⟩ [] (by simp [Reader.flat])
  exact ⟨_, r', h, C26_decoded Toy.ris t _ _ r' h, C26_decoded_verify Toy.ris t _ _ r' h [6, 7] (by simp [received, caseSig])⟩

theorem case_ne_zero (n : Nat) (h0 : n ≠ 0) (h : n < 2 ^ 64) : (n : Toy.K) ≠ 0 := by
  intro h'
  rw [Toy.ris.cast_eq_zero] at h'
  have := Nat.le_of_dvd (by omega) h'
  have := Toy.ris.two64_lt
  omega

/-- Calls on a dual key. -/
def caseDual : List (DOp Toy.K Toy.K) := [.decoy ⟨false, [10, 11]⟩, .primary 5, .decoy ⟨true, [12, 13]⟩, .comm 7, .sub 3, .msg [1, 2]]

theorem case_run : DOp.run Toy.ris DualKey.new caseDual =
    .ok ⟨{ matrix := [⟨true, [10, 11 - 3]⟩, ⟨true, [12, 13 - 3]⟩], msg := [1, 2] }, 5, 7⟩ := rfl

theorem case_five : (5 : Toy.K) ≠ 0 := by simpa using case_ne_zero 5 (by simp) (by simp)
theorem case_seven : (7 : Toy.K) ≠ 0 := by simpa using case_ne_zero 7 (by simp) (by simp)

/-- C16, C23: a dual key with two sets of coins, and a zero key. -/
example (coins coins' : Coins Toy.K) : ∃ d sig im sig' im', DOp.run Toy.ris DualKey.new caseDual = .ok d ∧ (d.prove Toy.ris coins).2 = .ok (sig, im) ∧
    (d.prove Toy.ris coins').2 = .ok (sig', im') ∧ im = im' ∧ sig.verify Toy.ris [im] = .ok true := by
  obtain ⟨sig, h, -⟩ := C23_prove Toy.ris _ _ case_run coins case_five case_seven (by simp) (by simp)
  obtain ⟨sig', h', -⟩ := C23_prove Toy.ris _ _ case_run coins' case_five case_seven (by simp) (by simp)
  exact ⟨_, sig, _, sig', _, case_run, h, h', C16_dual Toy.ris _ _ _ _ case_run case_run coins coins' sig sig' _ _ h h' rfl,
    (C23_success Toy.ris _ _ case_run coins sig _ h).2⟩

example (coins : Coins Toy.K) : ((DualKey.new : DualKey Toy.K Toy.K).prove Toy.ris coins).2.IsErr := (C23_zero Toy.ris _ coins (.inl rfl)).2

/-- C24: the second `Prove` fails, also after another decoy. -/
example (coins coins' : Coins Toy.K) : ∃ d, DOp.run Toy.ris DualKey.new caseDual = .ok d ∧
    ∀ r ∈ DCall.outcomes Toy.ris (d.prove Toy.ris coins).1 [.prove coins', .op (.decoy ⟨false, [1, 2]⟩), .prove coins'], r.IsErr :=
  ⟨_, case_run, C24_violated Toy.ris _ _ case_run coins case_five case_seven _⟩

theorem case_query : query Toy.ris [1] [image Toy.ris 3] [(3 : Toy.K) • Toy.ris.base] [10 - 4 * 3] 4 =
    query Toy.ris [1] [image Toy.ris 3] [(3 : Toy.K) • Toy.ris.base] [(10 - 5 * 3 : Toy.K)] 5 := by
  have e : ∀ B : Toy.K, (10 - 4 * 3 : Toy.K) • B + (4 : Toy.K) • (3 : Toy.K) • B = (10 - 5 * 3 : Toy.K) • B + (5 : Toy.K) • (3 : Toy.K) • B := by
    intro B
    simp only [smul_eq_mul]
    ring
  unfold query image
  simp only [List.zipWith_cons_cons, List.zip_cons_cons]
  rw [e, e]
  rfl

theorem case_four : (4 : Toy.K) ≠ 5 := by
  intro h
  have := case_ne_zero 1 (by simp) (by simp)
  apply this
  linear_combination (-1 : Toy.K) * h

/-- C28: the keys of a member with equal hash inputs for the challenges 4 and 5. -/
example : (3 : Toy.K) = ((10 - 5 * 3) - (10 - 4 * 3)) / (4 - 5) := by
  have := (C28_special_soundness Toy.ris_encodings [1] [image Toy.ris 3] [(3 : Toy.K) • Toy.ris.base] [10 - 4 * 3] [10 - 5 * 3] 4 5 case_four (by simp) (by simp) (by simp)
    case_query).1 0 (by simp) (by simp) (by simp)
  simpa [Toy.ris] using this

/-- C28: two rings of two members with the same hash input at the first member. -/
example (K : List Toy.K) (r r' : List Toy.K) (hr : K.length ≤ r.length) (hr' : K.length ≤ r'.length) (hK : K.length = 1) :
    ∃ x : Nat → Toy.K, (3 : Toy.K) • Toy.ris.base = x 0 • Toy.ris.base ∧ image Toy.ris 3 = image Toy.ris (x 0) := by
  obtain ⟨x, h1, h2⟩ := C28_extract (R := Toy.ris) (R' := Toy.ris) Toy.ris_encodings rfl rfl rfl [1] [image Toy.ris 3] 4 5
    [([(3 : Toy.K) • Toy.ris.base], [10 - 4 * 3]), (K, r)] [([(3 : Toy.K) • Toy.ris.base], [10 - 5 * 3]), (K, r')]
    (by simp [Fits, hK]; omega) (by simp [Fits, hK]; omega) 0 (by simp) (by simp) rfl case_query.symm case_four.symm
  exact ⟨x, h1 0 (by simp), h2 0 (by simp)⟩

/-- C28: a returned signature, with the length of a hash input as its time. -/
example (coins : Coins Toy.K) : ∃ sig I, ((build Toy.ris [1] caseOps).prove Toy.ris true coins).2 = .ok (sig, I) ∧
    ∃ j k, (k + 1) % (ringOf sig).length = j ∧ ∃ (hj : j < (ringOf sig).length) (hk : k < (ringOf sig).length),
      (queryAt Toy.ris sig.msg I (ringOf sig) sig.c j hj).length ≤ (queryAt Toy.ris sig.msg I (ringOf sig) sig.c k hk).length := by
  obtain ⟨sig, I, h, hp⟩ := case_prove [1] true coins
  have hl : sig.r.length = 3 := by rw [hp.lenR, hp.perm.length_eq]; simp [decoys, caseOps]
  obtain ⟨j, k, hj, hk, e, -, ht⟩ := C28_order Toy.ris sig I (by omega) hp.accepted List.length
  exact ⟨sig, I, h, j, k, e, hj, hk, ht⟩

end Dusk.Mlsag
