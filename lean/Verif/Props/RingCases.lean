import Verif.Props.MlsagCases
import Verif.Props.MlsagMalleable
import Verif.Props.Shuffle
import Verif.Props.MlsagMem
import Verif.Props.MlsagSecrets
import Verif.Props.MlsagAnon
import Verif.Props.BlsagAnon
import Verif.Props.BlsBase
import Verif.Props.DecodeState
/-!
# Further concrete cases for the theorems about ring signatures

Every example applies a theorem of C30–C33, C76–C87, C95–C97, C107 or C108 to concrete values, so that its hypotheses are seen to be
satisfiable.
-/

namespace Dusk.Mlsag

/-- A returned signature with its dimensions. -/
theorem case_signature (coins : Coins Toy.K) : ∃ (sig : Signature Toy.K Toy.K) (I : List Toy.K),
    ((build Toy.ris [1] caseOps).prove Toy.ris true coins).2 = .ok (sig, I) ∧ sig.verify Toy.ris I = .ok true ∧ sig.r.length = 3 ∧
    sig.pubKeys.length = 3 ∧ I.length = 1 ∧ ∀ r ∈ sig.r, r.length = 2 := by
  obtain ⟨sig, I, h, hp⟩ := case_prove [1] true coins
  have hrl : sig.r.length = 3 := by rw [hp.lenR, hp.perm.length_eq]; simp [decoys, caseOps]
  refine ⟨sig, I, h, hp.accepted, hrl, by rw [← hrl, hp.lenR, hp.ring], by rw [hp.images]; simp [secrets, caseOps], ?_⟩
  intro r hr
  obtain ⟨j, hj, e⟩ := List.mem_iff_getElem.1 hr
  by_cases hij : j = ((build Toy.ris [1] caseOps).prove Toy.ris true coins).1.index
  · obtain ⟨c, hc⟩ := hp.real
    rw [← hij, List.getElem?_eq_getElem hj, e] at hc
    rw [Option.some.inj hc]
    simp [secrets, caseOps]
  · rw [hp.resp j hij r (by rw [List.getElem?_eq_getElem hj, e])]
    simp [secrets, caseOps]

/-- C76: more responses and other flags. -/
example (coins : Coins Toy.K) (x : Toy.K) : ∃ (sig : Signature Toy.K Toy.K) (I : List Toy.K), sig.verify Toy.ris I = .ok true ∧
    (⟨sig.c, sig.r.map (· ++ [x, x]), sig.pubKeys.map fun k => ⟨true, k.keys⟩, sig.msg⟩ : Signature Toy.K Toy.K).verify Toy.ris I = .ok true := by
  obtain ⟨sig, I, -, h, h1, h2, h3, h4⟩ := case_signature coins
  exact ⟨sig, I, h, C76_surplus Toy.ris sig _ I rfl rfl (by simp) (by simp [Function.comp_def]) (by intro j h h'; simp) h⟩

/-- C76: the same on the wire. -/
example (coins : Coins Toy.K) (x : Toy.K) : ∃ (sig : Signature Toy.K Toy.K) (I : List Toy.K) (b : Bytes) (s : Signature Toy.K Toy.K) (r' : Reader), sig.verify Toy.ris I = .ok true ∧
    ({ sig with r := [], c := 0 } : Signature Toy.K Toy.K).decode Toy.ris false ⟨[b], .eof⟩ = .ok (s, r') ∧ s.r = sig.r.map (· ++ [x]) ∧ s.verify Toy.ris I = .ok true := by
  obtain ⟨sig, I, -, h, h1, h2, h3, h4⟩ := case_signature coins
  have hh : ({ sig with r := sig.r.map (· ++ [x]) } : Signature Toy.K Toy.K).r.head?.map List.length = some 3 := by
    have hr := sig.r.ne_nil_of_length_eq_add_one (n := 2) h1
    obtain ⟨r, rs, e⟩ := List.exists_cons_of_ne_nil hr
    simp [e, h4 r (by simp [e])]
  have he := (C18_encode Toy.ris { sig with r := sig.r.map (· ++ [x]) } false (by intro e; simp at e; simp [e] at h1) (by simp [h1]) hh).good
    ⟨[], 100, 0⟩ (by
      have : (sig.r.map fun r => r.length + 1) = List.replicate 3 3 := by
        rw [List.eq_replicate_iff]
        simp only [List.length_map, h1, List.mem_map, true_and]
        rintro b ⟨r, hr, rfl⟩
        rw [h4 r hr]
      simp [writes, Function.comp_def, this])
  obtain ⟨s, r', e1, e2, e3⟩ := C76_wire_violated Toy.ris_encodings sig { sig with r := [], c := 0 } I x 2 (by simp) (by simp [h1]) h4 rfl rfl h ⟨[], 100, 0⟩
    (by rw [he]) (encoding Toy.ris { sig with r := sig.r.map (· ++ [x]) } 3 false) [] (by rw [he])
    ⟨[encoding Toy.ris { sig with r := sig.r.map (· ++ [x]) } 3 false], .eof⟩ (by simp [Reader.flat])
  exact ⟨sig, I, _, s, r', h, e1, e2, e3⟩

/-- C77: the second key of the first member moved. -/
example (coins : Coins Toy.K) (δ : Toy.K) : ∃ (sig : Signature Toy.K Toy.K) (I : List Toy.K), sig.verify Toy.ris I = .ok true ∧
    (shiftKey Toy.ris sig 0 1 sig.c δ).verify Toy.ris I = .ok true := by
  obtain ⟨sig, I, -, h, h1, h2, h3, h4⟩ := case_signature coins
  exact ⟨sig, I, h, C77_shift Toy.ris sig I (by omega) 0 1 (by omega) (by omega) δ h⟩

example (coins : Coins Toy.K) : ∃ sig I, ((build Toy.ris [1] caseOps).prove Toy.ris true coins).2 = .ok (sig, I) ∧ sig.r.length = 3 := by
  obtain ⟨sig, I, h, -, h', -⟩ := C77_skip_violated Toy.ris [1] caseOps coins (by simp [decoys, caseOps]) (by simp [secrets, caseOps]) (by simp [decoys, secrets, caseOps])
  exact ⟨sig, I, h, by simpa [decoys, caseOps] using h'⟩

/-- C80: two signers within a second. -/
example (rng : Int → Nat → Nat) (t : Int) (nonce : Nat → Toy.K) (resp : Nat → Nat → Toy.K) : ∃ (sig sig' : Signature Toy.K Toy.K) (I I' : List Toy.K) (pos : Nat),
    ((build Toy.ris [1] caseOps).prove Toy.ris true ⟨nonce, resp, rng t⟩).2 = .ok (sig, I) ∧
    ((build Toy.ris [2] [.secret 8, .decoy ⟨true, [3]⟩, .decoy ⟨true, [4]⟩]).prove Toy.ris false ⟨nonce, resp, rng t⟩).2 = .ok (sig', I') ∧
    (sig.pubKeys[pos]?).map (·.keys) = some [(5 : Toy.K) • Toy.ris.base, (7 : Toy.K) • Toy.ris.base] ∧
    (sig'.pubKeys[pos]?).map (·.keys) = some [(8 : Toy.K) • Toy.ris.base] := by
  obtain ⟨sig, I, sig', I', pos, h⟩ := C80_same_second_violated Toy.ris rng t [1] [2] caseOps [.secret 8, .decoy ⟨true, [3]⟩, .decoy ⟨true, [4]⟩] true false
    ⟨nonce, resp, rng t⟩ ⟨nonce, resp, rng t⟩ rfl rfl (by simp [decoys, caseOps]) (by simp [secrets, caseOps]) (by simp [secrets, caseOps])
    (by simp [decoys, secrets, caseOps]) (by simp [secrets]) (by simp) (by simp [decoys, secrets]) (by simp [decoys, caseOps])
  exact ⟨sig, sig', I, I', pos, h⟩

/-- C83: no `AddSecret`, and one. -/
example (coins : Coins Toy.K) : ∃ d s, EOp.run Toy.ris DualKey.new [.op (.decoy ⟨false, [10, 11]⟩), .op (.primary 5), .op (.comm 7)] = .ok d ∧
    (d.prove Toy.ris coins).2 = .ok s := by
  obtain ⟨s, h⟩ := (C83_ok_iff Toy.ris [.op (.decoy ⟨false, [10, 11]⟩), .op (.primary 5), .op (.comm 7)] _ rfl coins).2
    ⟨case_five, case_seven, rfl, by simp [Proof.addDecoy, Proof.addPubKeys, DualKey.setPrimaryKey, DualKey.setCommToZero, DualKey.new],
      by simp [Proof.addDecoy, Proof.addPubKeys, DualKey.setPrimaryKey, DualKey.setCommToZero, DualKey.new]⟩
  exact ⟨_, s, rfl, h⟩

/-- C87: headers without the announced content. -/
example (s : Signature Toy.K Toy.K) : (Signature.dec Toy.ris true s (Reader.ofBytes (header (List.replicate 32 0) 1000000 7))).made = 1000000 :=
  (C87_mlsag_alloc_failed_violated Toy.ris true s (List.replicate 32 0) (by simp) 1000000 7 (by simp) (by simp) (by simp) (by simp) _
    (by simp [Reader.ofBytes, Reader.flat])).2.2.2

example (s : Signature Toy.K Toy.K) : (Signature.dec Toy.ris true s (Reader.ofBytes (List.replicate 36 1))).recv.r = s.r := by
  rw [(C87_mlsag_mixture_violated Toy.ris true s (Reader.ofBytes (List.replicate 36 1)) (by simp [Reader.ofBytes, Reader.flat])
    (by simp [Reader.ofBytes, Reader.flat])).2.1]

/-- C87: two members with one response each. -/
example (s : Signature Toy.K Toy.K) : 16 * (Signature.dec Toy.ris false s (Reader.ofBytes (header (List.replicate 32 0) 2 1 ++ List.replicate 64 0))).made ≤ 104 := by
  have hf : (Reader.ofBytes (header (List.replicate 32 0) 2 1 ++ List.replicate 64 0)).flat = header (List.replicate 32 0) 2 1 ++ List.replicate 64 0 := by
    simp [Reader.ofBytes, Reader.flat]
  have hl : (header (List.replicate 32 0) 2 1 ++ List.replicate 64 (0 : UInt8)).length = 104 := by decide +kernel
  have hn : perMemberOf (header (List.replicate 32 0) 2 1 ++ List.replicate 64 0) = 1 := by decide +kernel
  have hm : membersOf (header (List.replicate 32 0) 2 1 ++ List.replicate 64 0) = 2 := by decide +kernel
  have := C87_mlsag_bound Toy.ris false s (Reader.ofBytes (header (List.replicate 32 0) 2 1 ++ List.replicate 64 0))
    ((C87_mlsag Toy.ris false s _).accepted.2 (by rw [hf, hl, hn, hm]; simp)) (by rw [hf, hn]; simp)
  rwa [hf, hl] at this

/-- C97: the ring turned by one place. -/
example (coins : Coins Toy.K) : ∃ (sig : Signature Toy.K Toy.K) (I : List Toy.K), sig.verify Toy.ris I = .ok true ∧
    ({ sig with
        c := around Toy.ris sig.msg I ((ringOf sig).take 1) sig.c
        r := sig.r.drop 1 ++ sig.r.take 1
        pubKeys := sig.pubKeys.drop 1 ++ sig.pubKeys.take 1 } : Signature Toy.K Toy.K).verify Toy.ris I = .ok true := by
  obtain ⟨sig, I, -, h, h1, h2, h3, h4⟩ := case_signature coins
  exact ⟨sig, I, h, C97_mlsag_violated Toy.ris sig I (by omega) (by omega) h 1 (by omega)⟩

/-- C107: the number of signatures. -/
example (sh : Nat → Nat) : ∃ ring : List (PubKeys Toy.K), ring.length = 3 ∧
    Nat.card {sig // Accepted Toy.ris [1] ring 2 (imagesOf Toy.ris true [5, 7]) sig} = PrimeEll.ell ^ 6 := by
  obtain ⟨ring, h1, -, h2⟩ := C107_count Toy.ris [1] caseOps true sh (by simp [decoys, caseOps]) (by simp [secrets, caseOps]) (by simp [secrets, caseOps])
    (by simp [decoys, secrets, caseOps])
  refine ⟨ring, by simpa [decoys, caseOps] using h1, ?_⟩
  rw [show Nat.card Toy.K = PrimeEll.ell from Nat.card_zmod _] at h2
  exact h2

end Dusk.Mlsag

namespace Dusk.RP

example (p : Proof Toy.K Toy.K) (bad : Toy.K → Bytes → Toy.K) : (Proof.dec Toy.ris bad true p (Reader.ofBytes (be32 1000000))).made = 1000000 :=
  (C87_rangeproof_alloc_violated Toy.ris bad p 1000000 (by simp) (by simp) _ (by simp [Reader.ofBytes, Reader.flat])).2.2

end Dusk.RP

namespace Dusk.Bls

/-- C85: the byte 171, also with capitals. -/
example : Hex.decode "aB".toList = some [171] := (C85_hex_accepts _ [171]).2 (by decide +kernel)

example (b : Bytes) (hb : Toy.bn.g1OfBytes b = none) (s : String) (h : s.toList = Base.hex b) : newG1Base Toy.bn s = .panic := by
  rw [(C85_init Toy.bn s b h).1, hb]

end Dusk.Bls

namespace Dusk.MlsagMem

open Dusk.Mlsag Toy

/-- C81: the vector `[10, 11]` twice in the ring: the point is subtracted twice, from both. -/
example (P : K) : ∃ w', (⟨{ matrix := ⟨some 0, 2⟩ }, 5, 6⟩ : MDual K).subCommToZero
      ⟨[[10, 11]], [[⟨true, ⟨some 0, 2⟩⟩, ⟨true, ⟨some 0, 2⟩⟩]]⟩ P = .ok w' ∧
    ring w' ⟨some 0, 2⟩ = [⟨true, [10, 11 - (P + P)]⟩, ⟨true, [10, 11 - (P + P)]⟩] := by
  refine ⟨_, rfl, ?_⟩
  rw [C81_twice_violated ⟨[[10, 11]], [[⟨true, ⟨some 0, 2⟩⟩, ⟨true, ⟨some 0, 2⟩⟩]]⟩ (⟨{ matrix := ⟨some 0, 2⟩ }, 5, 6⟩ : MDual K) ⟨true, ⟨some 0, 2⟩⟩ P _ rfl rfl]
  rfl

/-- C81: a caller's vector after it was added to the ring that already has it. -/
example (g : Growth) (P : K) (w' : World K)
    (h : ({ exDual with proof := (exDual.proof.addDecoy g exWorld ⟨false, ⟨some 0, 2⟩⟩).2 } : MDual K).subCommToZero
      (exDual.proof.addDecoy g exWorld ⟨false, ⟨some 0, 2⟩⟩).1 P = .ok w') :
    (view w' ⟨false, ⟨some 0, 2⟩⟩).keys = [10, 11 - 2 • P] := by
  rw [C81_caller_violated g exWorld exDual ⟨false, ⟨some 0, 2⟩⟩ P exWF.matrix w' h]
  rfl

/-- C82: the second `Prove` on a dual key whose ring has room, and on one without. -/
example (g : Growth) (coins coins' : Coins K) (s : MSig K) (hs : s.pubKeys = (exDual.prove ris g exWorld coins).2.1.proof.matrix) :
    ((exDual.prove ris g exWorld coins).2.1.prove ris g (exDual.prove ris g exWorld coins).1 coins').2.2.IsErr := by
  obtain ⟨r1, -, r3, -⟩ := C82_refines ris g exWorld exDual exWF coins
  obtain ⟨p1, p2⟩ := C82_room ris g exWorld exDual exWF coins exKeys.1 exKeys.2
  have hring : ring exWorld exDual.proof.matrix = [⟨true, [10, 11]⟩, ⟨true, [12, 13]⟩] := rfl
  have hk : (exDual.prove ris g exWorld coins).2.1.key0 = exDual.key0 ∧ (exDual.prove ris g exWorld coins).2.1.key1 = exDual.key1 := by
    unfold MDual.prove
    split
    · exact ⟨rfl, rfl⟩
    · exact ⟨rfl, rfl⟩
  refine (C82_second_violated ris g _ _ r3 coins' (by rw [hk.1]; exact exKeys.1) (by rw [hk.2]; exact exKeys.2) ?_ s hs ?_).1
  · rw [r1]
    exact Spent.of_prove ris _ coins ⟨rfl, rfl, by intro k hk; change k ∈ ring exWorld exDual.proof.matrix at hk; rw [hring] at hk; simp at hk; rcases hk with rfl | rfl <;> rfl⟩
      exKeys.1 exKeys.2
  · rw [p1, p2, if_pos (by decide)]
    decide

example (g : Growth) (coins : Coins K) (s : MSig K) (hs : s.pubKeys = ⟨some 0, 2⟩) :
    let w : World K := ⟨[[10, 11], [12, 13]], [[⟨true, ⟨some 0, 2⟩⟩, ⟨true, ⟨some 1, 2⟩⟩]]⟩
    s.value (exDual.prove ris g w coins).1 = s.value w := by
  refine C82_full ris g _ exDual ?_ coins s hs rfl
  refine ⟨by simp [Valid, arrOf, exDual], ?_, by simp [Valid, exDual]⟩
  intro k hk
  have : read [[(⟨true, ⟨some 0, 2⟩⟩ : Keys), ⟨true, ⟨some 1, 2⟩⟩]] exDual.proof.matrix = [⟨true, ⟨some 0, 2⟩⟩, ⟨true, ⟨some 1, 2⟩⟩] := rfl
  rw [this] at hk
  simp only [List.mem_cons, List.not_mem_nil, or_false] at hk
  rcases hk with rfl | rfl
  · exact ⟨by simp [Valid, arrOf], by simp [exDual]⟩
  · exact ⟨by simp [Valid, arrOf], by simp [exDual]⟩

end Dusk.MlsagMem

namespace Dusk.Blsag

/-- C30: other mixins, the same signature. -/
example (m : Bytes) (sK : Toy.K) (coins : Coins Toy.K) : sign Toy.ris toyRaw m [some 5, some 6] sK coins = sign Toy.ris toyRaw m [none, some 9] sK coins :=
  C30_mixins_ignored_violated Toy.ris toyRaw m _ _ sK coins rfl

/-- C32: a ring of two with one response too many, an empty ring, and a response missing. -/
example (m : Bytes) (I : Option Toy.K) : ∃ b, verify Toy.ris toyRaw m ⟨I, 0, [1, 2, 3], [some 4, some 5]⟩ = .ok b ∧ b = false := by
  obtain ⟨b, h, hb⟩ := C32_verify Toy.ris toyRaw m ⟨I, (0 : Toy.K), [1, 2, 3], [some 4, some 5]⟩ (by simp) (by simp)
  refine ⟨b, h, ?_⟩
  cases b
  · rfl
  · exact absurd (hb.1 rfl) (Toy.dv_ne_zero _)

example (m : Bytes) (I : Option Toy.K) : verify Toy.ris toyRaw m ⟨I, (0 : Toy.K), [1], []⟩ = .panic := C32_empty Toy.ris toyRaw m _ rfl
example (m : Bytes) (I : Option Toy.K) : verify Toy.ris toyRaw m ⟨I, (0 : Toy.K), [1], [some 4, some 5]⟩ = .panic := C32_short Toy.ris toyRaw m _ (by simp)

example (m : Bytes) (I c : Toy.K) : around Toy.ris toyRaw m (some I) [(some 4, 1), (some 5, 2)] c = glink Toy.ris m I 5 2 (glink Toy.ris m I 4 1 c) :=
  C32_group toyRaw_lawful m I [(4, 1), (5, 2)] c

example (m : Bytes) (sK : Toy.K) (coins : Coins Toy.K) : ∃ sig, sign Toy.ris toyRaw m [some 5, some 6] sK coins = .ok sig ∧
    sig.I = some (sK • Toy.ris.pDerive (Toy.ris.pBytes (sK • Toy.ris.base))) := C33_image toyRaw_lawful m _ sK coins

theorem case_gquery (m : Bytes) : gquery Toy.ris m ((3 : Toy.K) • Toy.ris.pDerive (Toy.ris.pBytes ((3 : Toy.K) • Toy.ris.base))) ((3 : Toy.K) • Toy.ris.base) (10 - 4 * 3) (4 : Toy.K) =
    gquery Toy.ris m ((3 : Toy.K) • Toy.ris.pDerive (Toy.ris.pBytes ((3 : Toy.K) • Toy.ris.base))) ((3 : Toy.K) • Toy.ris.base) (10 - 5 * 3) (5 : Toy.K) := by
  have e : ∀ (B : Toy.K) (c : Toy.K), (10 - c * 3) • B + c • (3 : Toy.K) • B = (10 : Toy.K) • B := by
    intro B c
    rw [sub_smul, mul_smul, sub_add_cancel]
  simp only [gquery, e]

/-- C95: the owner of the key 3 answers two challenges. -/
example (m : Bytes) : (3 : Toy.K) • Toy.ris.base = (((10 - 5 * 3) - (10 - 4 * 3)) / (4 - 5) : Toy.K) • Toy.ris.base :=
  (C95_special_soundness Toy.ris_encodings m _ _ _ _ 4 5 Mlsag.case_four (case_gquery m)).1

example (m : Bytes) (K s s' : Toy.K) : ∃ x : Toy.K, (3 : Toy.K) • Toy.ris.base = x • Toy.ris.base := by
  obtain ⟨x, h, -⟩ := C95_extract (R := Toy.ris) (R' := Toy.ris) Toy.ris_encodings rfl rfl rfl m
    ((3 : Toy.K) • Toy.ris.pDerive (Toy.ris.pBytes ((3 : Toy.K) • Toy.ris.base))) 4 5 [((3 : Toy.K) • Toy.ris.base, 10 - 4 * 3), (K, s)]
    [((3 : Toy.K) • Toy.ris.base, 10 - 5 * 3), (K, s')] 0 (by simp) (by simp) rfl (case_gquery m).symm Mlsag.case_four.symm
  exact ⟨x, h⟩

/-- A ring with the signer's key only. -/
theorem case_single (m : Bytes) (x : Toy.K) (coins : Coins Toy.K) : ∃ I c s, verify Toy.ris toyRaw m ⟨some I, c, [s], [some (x • Toy.ris.base)]⟩ = .ok true := by
  obtain ⟨sig, h1, h2⟩ := C29_completeness toyRaw_lawful m [] x coins
  obtain ⟨sig', h1', h3, h4⟩ := C30_violated toyRaw_lawful m [] x coins
  obtain ⟨sig'', c, h1'', h5, -⟩ := C31_violated toyRaw_lawful m [] x coins
  obtain ⟨sig''', h1''', h6⟩ := C33_image toyRaw_lawful m [] x coins
  rw [h1] at h1' h1'' h1'''
  cases h1'
  cases h1''
  cases h1'''
  have h := h4 0 (by simp)
  simp only [List.length_nil, Nat.zero_add, Nat.mod_one, if_true] at h h3 h5
  obtain ⟨a, ha⟩ := List.length_eq_one_iff.1 h3
  obtain ⟨s, hs⟩ := List.length_eq_one_iff.1 h5
  rw [ha] at h
  simp only [List.getElem?_cons_zero, Option.some.injEq] at h
  refine ⟨x • Toy.ris.pDerive (Toy.ris.pBytes (x • Toy.ris.base)), sig.C, s, ?_⟩
  rw [← h2]
  congr 1
  cases sig
  simp only at h6 hs ha
  rw [h6, hs, ha, h]
  rfl

example (m : Bytes) (x : Toy.K) (coins : Coins Toy.K) : ∃ I c s, chalAt Toy.ris m I [(x • Toy.ris.base, s)] c 0 =
    Toy.ris.sDerive (queryAt Toy.ris m I [(x • Toy.ris.base, s)] c 0 (by simp)) := by
  obtain ⟨I, c, s, h⟩ := case_single m x coins
  exact ⟨I, c, s, (C95_closed toyRaw_lawful m I c [(x • Toy.ris.base, s)] (by simp)).1 h⟩

example (m : Bytes) (x : Toy.K) (coins : Coins Toy.K) : ∃ I c s, ∃ (j k : Nat) (hj : j < 1) (hk : k < 1), (k + 1) % 1 = j ∧
    (queryAt Toy.ris m I [(x • Toy.ris.base, s)] c j hj).length ≤ (queryAt Toy.ris m I [(x • Toy.ris.base, s)] c k hk).length := by
  obtain ⟨I, c, s, h⟩ := case_single m x coins
  obtain ⟨j, k, hj, hk, e, -, ht⟩ := C95_order toyRaw_lawful m I c [(x • Toy.ris.base, s)] (by simp) h List.length
  exact ⟨I, c, s, j, k, hj, hk, e, ht⟩

/-- C96: the zero key between two others. -/
example (m : Bytes) (a b : Option Toy.K) : ∃ C, verify Toy.ris toyRaw m ⟨none, C, [1, 2, 3], [a, none, b]⟩ = .ok true :=
  ⟨_, C96_forgery_violated toyRaw_absorbs m [(a, 1)] [(b, 3)] 2 (Toy.dv_ne_zero _)⟩

/-- C97: the ring turned by one place. -/
example (m : Bytes) (sK : Toy.K) (coins : Coins Toy.K) : ∃ sig, sign Toy.ris toyRaw m [some 5, some 6] sK coins = .ok sig ∧
    verify Toy.ris toyRaw m ⟨sig.I, around Toy.ris toyRaw m sig.I ((sig.pubKeys.zip sig.S).take 1) sig.C, sig.S.drop 1 ++ sig.S.take 1,
      sig.pubKeys.drop 1 ++ sig.pubKeys.take 1⟩ = .ok true := by
  obtain ⟨sig, h1, h2⟩ := C29_completeness toyRaw_lawful m [some 5, some 6] sK coins
  obtain ⟨sig', h1', h3, h4⟩ := C30_violated toyRaw_lawful m [some 5, some 6] sK coins
  obtain ⟨sig'', c, h1'', h5, -⟩ := C31_violated toyRaw_lawful m [some 5, some 6] sK coins
  rw [h1] at h1' h1''
  cases h1'
  cases h1''
  exact ⟨sig, h1, C97_blsag_violated Toy.ris toyRaw m sig (by rw [h3, h5]) h2 1 (by rw [h3]; simp)⟩

/-- C108: the number of signatures of a signer at the first and at another position of three. -/
example (m : Bytes) (sK : Toy.K) : Nat.card {sig // ∃ alpha s, sign Toy.ris toyRaw m [some 5, some 6] sK ⟨0, alpha, s⟩ = .ok sig} = PrimeEll.ell ^ 3 ∧
    Nat.card {sig // ∃ alpha s, sign Toy.ris toyRaw m [some 5, some 6] sK ⟨1, alpha, s⟩ = .ok sig} = PrimeEll.ell ^ 2 := by
  have hc : Nat.card Toy.K = PrimeEll.ell := Nat.card_zmod _
  rw [C108_count toyRaw_lawful, C108_count toyRaw_lawful, hc]
  simp

end Dusk.Blsag
