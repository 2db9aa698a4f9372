import Verif.Props.RPCodec
import Verif.Props.IPShape
/-!
# Range proof verification on every shape of proof (C86)
-/

set_option linter.unusedSectionVars false

namespace Dusk.RP

variable {F G : Type} [Field F] [AddCommGroup G] [Module F G] [DecidableEq F] [DecidableEq G]

/-- The inner product proof has as many rounds as `m` values need. -/
def Fits (m : Nat) (ip : IP.Proof F G) : Prop := ip.L.length = ip.R.length ∧ 2 ^ ip.L.length = 64 * m

/-- C86: the outcome of `Verify` for every shape of proof, with `M = m`: a panic without inner product proof; an error if the
inner product proof has not the right number of rounds; a panic if it has, but there are fewer than `m` commitments; and
otherwise a verdict, negative ones being reported as errors. -/
theorem C86_shapes (R : Ristretto F G) (m : Nat) (hm : 1 ≤ m) (hlt : 64 * m < 2 ^ 32) (p : Proof F G) (c : F) :
    (p.ip = none → verify R m p c = .panic) ∧
    (∀ ip, p.ip = some ip → ¬ Fits m ip → (verify R m p c).IsErr) ∧
    (∀ ip, p.ip = some ip → Fits m ip → p.V.length < m → verify R m p c = .panic) ∧
    (∀ ip, p.ip = some ip → Fits m ip → m ≤ p.V.length → verify R m p c = .ok true ∨ (verify R m p c).IsErr) := by
  have hlt' : nBits * m < 2 ^ 32 := hlt
  have hv : verify R m p c = megacheckWithC R (VReads.const m) c p.ip p.mu (chalOf R p).x (chalOf R p).y (chalOf R p).z p.t p.taux
      (chalOf R p).w p.A (pub R (nBits * m)).B (pub R (nBits * m)).Bl p.S p.T1 p.T2 (pub R (nBits * m)).Gv (pub R (nBits * m)).Hv p.V := by
    unfold verify verifyWith
    rw [verifyChallenges_eq, newPed_eq R (by simpa [VReads.const] using hlt'), compute_new]
    simp only [VReads.const]
    rw [Nat.mod_eq_of_lt hlt']
    rfl
  have hG : (pub R (nBits * m)).Gv.length = nBits * m := by simp [pub]
  have hH : (pub R (nBits * m)).Hv.length = nBits * m := by simp [pub]
  have hk32 : ∀ ip : IP.Proof F G, Fits m ip → ip.L.length < 32 := by
    intro ip hf
    by_contra h
    have : 2 ^ 32 ≤ 2 ^ ip.L.length := Nat.pow_le_pow_right (by norm_num) (by omega)
    rw [hf.2] at this
    omega
  refine ⟨fun h => by rw [hv, h]; rfl, fun ip hip hf => ?_, fun ip hip hf hV => ?_, fun ip hip hf hV => ?_⟩
  · rw [hv, hip]
    have hs : ∃ a b s, IP.verifScalars R ip = .ok (a, b, s) ∧ s.length ≠ nBits * m := by
      by_cases hLR : ip.L.length = ip.R.length
      · obtain ⟨a, b, s, h1, -, -, h4⟩ := IP.verifScalars_lengths R ip hLR
        refine ⟨a, b, s, h1, ?_⟩
        rw [h4]
        unfold IP.width
        split
        · exact fun h => hf ⟨hLR, h⟩
        · unfold nBits
          omega
      · refine ⟨[], [], [], by simp [IP.verifScalars, hLR], ?_⟩
        unfold nBits
        simp
        omega
    obtain ⟨a, b, s, h1, h2⟩ := hs
    unfold megacheckWithC
    simp only [h1, Res.bind_ok]
    rw [Vec.exp, if_pos (by simpa [Vec.mulScalar, Vec.addScalar, hG] using h2)]
    exact Res.isErr_err _
  · rw [hv, hip]
    obtain ⟨a, b, s, h1, h2, h3, h4⟩ := IP.verifScalars_lengths R ip hf.1
    have hs : s.length = nBits * m := by
      rw [h4, IP.width, if_pos (hk32 ip hf), hf.2, nBits]
    obtain ⟨hs3, hs0⟩ := small hlt'
    unfold megacheckWithC
    simp only [h1, Res.bind_ok]
    rw [exp_eq (by simp [Vec.mulScalar, Vec.addScalar, hs, hG]) (by simp [Vec.mulScalar, Vec.addScalar, hs, hG])]
    simp only [Res.bind_ok]
    rw [show (VReads.const m).sum = m from rfl, sumZMTwoN_eq R.two_ne_zero _ hs3]
    simp only [Res.bind_ok]
    rw [sub_eq (by simp [Vec.mulScalar, hs, sumZ_length])]
    simp only [Res.bind_ok]
    rw [show nBits * (VReads.const m).hpf % 2 ^ 32 = nBits * m from Nat.mod_eq_of_lt hlt',
      hadamard_eq (by simp [Vec.mulScalar, hs, sumZ_length, scalarPowers_length])]
    simp only [Res.bind_ok]
    rw [subScalar_eq, exp_eq (by simp [Vec.mulScalar, hs, hH, sumZ_length, scalarPowers_length])
      (by simp [Vec.mulScalar, hs, hH, sumZ_length, scalarPowers_length])]
    simp only [Res.bind_ok]
    rw [exp_eq (by simp [h2]) (by simp [h2])]
    simp only [Res.bind_ok]
    rw [exp_eq (by simp [h3, hf.1]) (by simp [h3, hf.1])]
    simp only [Res.bind_ok]
    rw [show (VReads.const m).zM % 2 ^ 32 = m from Nat.mod_eq_of_lt hs0, zM_eq, c9Loop_panic _ _ _ (by simpa using hV)]
    rfl
  · rw [verify_eq R c p ip hip (hk32 ip hf) hf.2 rfl hf.1.symm hV]
    split
    · exact .inl rfl
    · exact .inr (Res.isErr_err _)

/-- C86: `Verify` with `M = m` panics exactly if the proof has no inner product proof, or one with the right number of rounds
but fewer than `m` commitments. -/
theorem C86_panic (R : Ristretto F G) (m : Nat) (hm : 1 ≤ m) (hlt : 64 * m < 2 ^ 32) (p : Proof F G) (c : F) :
    verify R m p c = .panic ↔ p.ip = none ∨ ∃ ip, p.ip = some ip ∧ Fits m ip ∧ p.V.length < m := by
  obtain ⟨h1, h2, h3, h4⟩ := C86_shapes R m hm hlt p c
  constructor
  · intro h
    cases hip : p.ip with
    | none => exact .inl rfl
    | some ip =>
      refine .inr ⟨ip, rfl, ?_⟩
      by_cases hf : Fits m ip
      · refine ⟨hf, ?_⟩
        by_contra hV
        rcases h4 ip hip hf (by omega) with e | e <;> rw [h] at e
        · cases e
        · simp [Res.IsErr] at e
      · have := h2 ip hip hf
        rw [h] at this
        simp [Res.IsErr] at this
  · rintro (h | ⟨ip, hip, hf, hV⟩)
    · exact h1 h
    · exact h3 ip hip hf hV

/-- C86 (violated): Expected: whatever bytes `Decode` accepts, `Verify` of the result does not panic. For every number of values
`m = 2^j` and every choice of the points and scalars, the encoding with too few commitments is decoded without error, and
`Verify` panics on the result. -/
theorem C86_remote_violated {R : Ristretto F G} (E : R.Encodings) (j : Nat) (hj : j < 26) (recv p : Proof F G) (ip : IP.Proof F G)
    (hip : p.ip = some ip) (hL : ip.L.length = j + 6) (hR : ip.R.length = j + 6) (hV : p.V.length < 2 ^ j) (r : Reader)
    (hf : r.flat = outerEncoding R p true ++ IP.encoding R ip) (he : r.fin = .eof) :
    ∃ q, recv.decode R true r = .ok (q, ⟨[], .eof⟩) ∧ ∀ c, verify R (2 ^ j) q c = .panic := by
  have hp : 2 ^ (j + 6) = 64 * 2 ^ j := by rw [pow_add]; ring
  have hb : (2 : Nat) ^ j ≤ 2 ^ 25 := Nat.pow_le_pow_right (by norm_num) (by omega)
  refine ⟨_, C66_roundtrip E recv p ip hip true (by omega) (by rw [hL, hR]) (by omega) [] (.inl rfl) r (by simpa using hf) he,
    fun c => ?_⟩
  refine (C86_panic R (2 ^ j) Nat.one_le_two_pow (by omega) _ c).2 (.inr ⟨ip, hip, ⟨by rw [hL, hR], by rw [hL, hp]⟩, ?_⟩)
  simpa [received] using hV

/-- In a fresh process (`M = 1`): 4 + 7·32 + 2·32 + 12·32 bytes without commitment, here all scalars zero and all points the
base point, are accepted by `Decode` and crash `Verify`. -/
example (recv : Proof Toy.K Toy.K) (r : Reader)
    (hf : r.flat = outerEncoding Toy.ris ⟨[], 1, 1, 1, 1, 0, 0, 0, some ⟨List.replicate 6 1, List.replicate 6 1, 0, 0⟩⟩ true ++
      IP.encoding Toy.ris ⟨List.replicate 6 1, List.replicate 6 1, 0, 0⟩) (he : r.fin = .eof) :
    ∃ q, recv.decode Toy.ris true r = .ok (q, ⟨[], .eof⟩) ∧ ∀ c, verify Toy.ris 1 q c = .panic :=
  C86_remote_violated Toy.ris_encodings 0 (by norm_num) recv _ _ rfl rfl rfl (by simp) r hf he

end Dusk.RP
