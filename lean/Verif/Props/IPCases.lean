import Verif.Props.Vector
import Verif.Props.Pedersen
import Verif.Props.InnerProduct
import Verif.Props.IPSound
import Verif.Props.IPShape
import Verif.Props.IPGen
import Verif.Props.WeakFS
import Verif.Props.Decode
import Verif.Props.MlsagCases
/-!
# Concrete cases for the theorems about vectors, commitments and inner product proofs

Every example applies a theorem of C47–C58, C67, C71–C73 or C100 to concrete values, so that its hypotheses are seen to be satisfiable.
-/

namespace Dusk.Vec

example : sub ([5, 7] : List ℚ) [1, 2] = .ok [5 - 1, 7 - 2] := by
  rcases C47_sub ([5, 7] : List ℚ) [1, 2] with ⟨h, -⟩ | ⟨-, h⟩
  · exact absurd rfl h
  · obtain ⟨r, h, hl, hr⟩ := h
    have h0 := hr 0
    have h1 := hr 1
    simp at h0 h1 hl
    obtain ⟨x, y, rfl⟩ := List.length_eq_two.1 hl
    simp at h0 h1
    rw [h, h0, h1]

example : (subScalar ([5, 7] : List ℚ) 2)[1]? = some (7 - 2) := (C47_scalar_ops [5, 7] 2 1 7 rfl).2.1

example : ∃ l r, split [1, 2, 3] 1 = .ok (l, r) ∧ l ++ r = [1, 2, 3] ∧ l.length = 1 :=
  ((C47_split [1, 2, 3] 1 (by simp)).resolve_left (by simp)).2

example : (split [1, 2, 3] 3).IsErr := ((C47_split [1, 2, 3] 3 (by simp)).resolve_right (by simp)).2

example : (scalarPowers (2 : ℚ) 5)[4]? = some (2 ^ 4) := (C48_powers (2 : ℚ) (by norm_num) 5).2 4 (by norm_num)
example : scalarPowers (0 : ℚ) 3 = [0, 0, 0] := (C48_zero_violated (F := ℚ) 3 (by norm_num)).1
example : (scalarPowers (2 : ℚ) 5).sum = scalarPowersSum 2 5 := C48_agree (2 : ℚ) (by norm_num) 5

end Dusk.Vec

namespace Dusk

variable {F G : Type} [Field F] [AddCommGroup G] [Module F G]

example (R : Ristretto F G) (d : Bytes) : ((Gen.new d : Gen G).compute R 2).compute R 3 = (Gen.new d : Gen G).compute R 5 :=
  C49_split R (Gen.new d) (Gen.onChain_new R d) 2 3

theorem case_opening : ((Pedersen.new Toy.ris [1]).commitToScalar (0 : Toy.K) (Toy.dv (strBytes "blindPoint"))).value =
    ((Pedersen.new Toy.ris [1]).commitToScalar (1 : Toy.K) 0).value := by
  simp [Pedersen.commitToScalar, Pedersen.new, Toy.ris]

/-- C50: two openings of one commitment give the logarithm. -/
example : (Pedersen.new Toy.ris [1]).basePoint = ((0 - Toy.dv (strBytes "blindPoint")) / (0 - 1)) • (Pedersen.new Toy.ris [1]).blindPoint :=
  C50_binding (Pedersen.new Toy.ris [1]) 0 _ 1 0 case_opening zero_ne_one

example (v b b' : Toy.K) (h : ((Pedersen.new Toy.ris [1]).commitToScalar v b).value = ((Pedersen.new Toy.ris [1]).commitToScalar v b').value) : b = b' :=
  C50_blinding_unique (Pedersen.new Toy.ris [1]) (by simp [Pedersen.new, Toy.ris]) v b b' h

example (v b v' : Toy.K) : ∃ k : Toy.K, ((Pedersen.new Toy.ris [1]).commitToScalar v' (b + (v - v') * k)).value =
    ((Pedersen.new Toy.ris [1]).commitToScalar v b).value :=
  ⟨_, C50_hiding (Pedersen.new Toy.ris [1]) (Toy.dv (strBytes "blindPoint")) (by simp [Pedersen.new, Toy.ris]) v b v'⟩

/-- C51: the seeds of the vectors 3 and 7, 3 and 259. -/
example (d : Bytes) : vectorSeed d 3 ≠ vectorSeed d 7 := fun h => absurd (C51_seeds_distinct d 3 7 (by norm_num) (by norm_num) h) (by norm_num)
example (d : Bytes) : vectorSeed d 259 = vectorSeed d 3 := C51_seeds_repeat_violated d 3 (by norm_num)

/-- C52: a cacher used, cleared and used again. -/
example (R : Ristretto F G) : (([.append [[1], [2]], .clear, .append [[3, 4], [5]]] : List FSOp).foldl FSOp.run ⟨[]⟩).derive R = R.sDerive [3, 4, 5] :=
  (C52_cache R ⟨[]⟩ [.append [[1], [2]], .clear, .append [[3, 4], [5]]]).2

example (R : Ristretto F G) (h : HashCacher) : (h.append [[1, 2], [3]]).derive R = (h.append [[1], [2, 3]]).derive R :=
  C52_no_domain_separation R h [[1, 2], [3]] [[1], [2, 3]] rfl

end Dusk

namespace Dusk.IP

/-- A proof of two rounds. -/
def caseProof : Proof Toy.K Toy.K := ⟨[1, 2], [3, 4], 5, 6⟩

example : ∃ us : List Toy.K, verifScalars Toy.ris caseProof = .ok (us.map fun u => u ^ 2, us.map fun u => (u ^ 2)⁻¹,
    [weight us 0, weight us 1, weight us 2, weight us 3]) :=
  ⟨challenges Toy.ris [1, 2] [3, 4], C54_scalars Toy.ris caseProof rfl (by simp [caseProof])⟩

example (u v : Toy.K) : weight [u, v] 2 = (weight [u, v] 1)⁻¹ := C54_reverse [u, v] 1 (by simp)

example : verifScalars Toy.ris (⟨[1], [], 5, 6⟩ : Proof Toy.K Toy.K) = .ok ([], [], []) := C54_mismatch Toy.ris _ (by simp)

example : ∃ uSq uInvSq s, verifScalars Toy.ris (⟨List.replicate 40 1, List.replicate 40 2, 5, 6⟩ : Proof Toy.K Toy.K) = .ok (uSq, uInvSq, s) ∧ s.length = 1 :=
  C54_overflow Toy.ris _ (by simp) (by simp)

example (g h a b f : Toy.K) : ¬ ∃ p, generate Toy.ris [g, g] [h, h] [a, a] [b] [f, f] 1 = .ok p := by
  rw [C55_lengths Toy.ris [g, g] [h, h] [a, a] [b] [f, f] 1 1 le_rfl (by norm_num) rfl]
  simp

example (g h a b f : Toy.K) : (generate Toy.ris [g, g, g] [h, h, h] [a, a, a] [b, b, b] [f, f, f] 1).IsErr := by
  refine C55_not_power Toy.ris _ _ _ _ _ _ (by simp) (by simp) ?_
  intro k
  rcases k with _ | _ | k
  · simp
  · simp
  · have : 1 ≤ 2 ^ k := Nat.one_le_two_pow
    simp only [List.length_cons, List.length_nil, pow_succ]; omega

example : generate Toy.ris [] [] [] [] [2] (1 : Toy.K) = .panic := C55_empty_panics Toy.ris [2] 1

example : ∃ k, 5 + (diffNextPow2 5).toNat = 2 ^ k := (C56_diffNextPow2 5 (by decide)).imp fun _ h => h.1

example : (caseProof.encode Toy.ris).Emits 6 (encoding Toy.ris caseProof) := C57_encode Toy.ris caseProof rfl (by simp [caseProof])

example : Proof.decode Toy.ris ⟨[encoding Toy.ris caseProof], .eof⟩ = .ok (caseProof, ⟨[], .eof⟩) :=
  C57_roundtrip Toy.ris_encodings caseProof rfl (by simp [caseProof]) [] (.inl rfl) _ (by simp [Reader.flat]) rfl

/-- Cut after the first round. -/
example : Proof.decode Toy.ris ⟨[(encoding Toy.ris caseProof).take 128], .eof⟩ = .ok (⟨[1], [3], 5, 6⟩, ⟨[], .eof⟩) :=
  C57_truncation_violated Toy.ris_encodings caseProof rfl (by simp [caseProof]) 1 _ (by simp [Reader.flat]) rfl

example (q : Proof Toy.K Toy.K) (h1 : q.L.length = 2) (h2 : q.R.length = 2) : caseProof.equals q = .ok (decide (caseProof = q)) :=
  C67_innerproduct caseProof q rfl h1 h2

example (g h a b f : Toy.K) : generate Toy.ris [g] [h] [a] [b] [f] 1 = .ok ⟨[], [], a, b⟩ :=
  (C100_single Toy.ris g [h] [a] [b] [f] 1).2 (by simp) (by simp)

/-- C71: 33 bytes. -/
example : Proof.decode Toy.ris ⟨[List.replicate 33 1], .eof⟩ = .err "EOF" := by
  rw [C71_innerproduct_violated Toy.ris ⟨[List.replicate 33 1], .eof⟩ (by simp [Reader.flat])]
  simp [Reader.flat]

/-- C72: a decoded commitment. -/
example : ∃ d r', Commitment.decode Toy.ris ⟨[Toy.ris.pBytes 7], .eof⟩ = .ok (d, r') ∧ Commitment.equalValue (⟨7, 5⟩ : Commitment Toy.K Toy.K) d = true ∧
    Commitment.equals (⟨7, 5⟩ : Commitment Toy.K Toy.K) d = false :=
  C72_decoded_violated Toy.ris_encodings ⟨7, 5⟩ Mlsag.case_five _ [] (by simp [Reader.flat])

/-- C73: the final scalars of a proof of one round. -/
example (g₁ g₂ h₁ h₂ Q a₁ a₂ b₁ b₂ f₁ f₂ : Toy.K) : ∃ p : Proof Toy.K Toy.K, generate Toy.ris [g₁, g₂] [h₁, h₂] [a₁, a₂] [b₁, b₂] [f₁, f₂] Q = .ok p ∧
    p.A = (weight (challenges Toy.ris p.L p.R) 0)⁻¹ * a₁ + (weight (challenges Toy.ris p.L p.R) 1)⁻¹ * a₂ := by
  obtain ⟨p, hp⟩ := (C55_lengths Toy.ris [g₁, g₂] [h₁, h₂] [a₁, a₂] [b₁, b₂] [f₁, f₂] Q 1 le_rfl (by norm_num) rfl).2 (by simp)
  refine ⟨p, hp, ?_⟩
  rw [(C73_scalars Toy.ris Q 1 (by norm_num) [a₁, a₂] [b₁, b₂] [f₁, f₂] [g₁, g₂] [h₁, h₂] rfl rfl rfl rfl (by simp) p hp).1]
  simp [Finset.sum_range_succ]

/-- C73: the same proof for every `Q`. -/
example (g₁ g₂ h₁ h₂ a₁ a₂ b₁ b₂ f₁ f₂ : Toy.K) : ∃ p : Proof Toy.K Toy.K, ∀ Q : Toy.K,
    verify Toy.ris p [g₁, g₂] [h₁, h₂] [f₁, f₂] Q (msm [a₁, a₂] [g₁, g₂] + msm (had [b₁, b₂] [f₁, f₂]) [h₁, h₂] + (p.A * p.B) • Q) 2 = .ok true := by
  obtain ⟨p, -, h⟩ := C73_any_claim Toy.ris 1 (by norm_num) [a₁, a₂] [b₁, b₂] [f₁, f₂] [g₁, g₂] [h₁, h₂] rfl rfl rfl rfl (by simp)
  refine ⟨p, fun Q => h ?_ Q 2 (by norm_num)⟩
  intro u hu
  simp only [challenges, List.mem_map] at hu
  obtain ⟨j, _, rfl⟩ := hu
  exact Toy.dv_ne_zero _

/-- Four challenges with distinct squares. -/
def caseU (i : Fin 4) : Toy.K := ((i.val + 1 : Nat) : Toy.K)

theorem caseU_ne (i : Fin 4) : caseU i ≠ 0 := Mlsag.case_ne_zero _ (by omega) (by omega)

theorem caseU_sq (i j : Fin 4) (hij : i ≠ j) : caseU i * caseU i ≠ caseU j * caseU j := by
  intro h
  unfold caseU at h
  rw [← Nat.cast_mul, ← Nat.cast_mul] at h
  have hb : ∀ k : Fin 4, (k.val + 1) * (k.val + 1) < Toy.ris.order := fun k => by
    have : (k.val + 1) * (k.val + 1) ≤ 4 * 4 := Nat.mul_le_mul (by omega) (by omega)
    have := Toy.ris.two64_lt
    omega
  have := Nat.mul_self_inj.1 (Toy.ris.cast_inj (hb i) (hb j) h)
  exact hij (Fin.ext (by omega))

/-- Five independent points of the group of `R5`. -/
theorem case_independent : Independent Toy.K ([![1, 0, 0, 0, 0], ![0, 1, 0, 0, 0]] : List (Fin 5 → Toy.K)) [![0, 0, 1, 0, 0], ![0, 0, 0, 1, 0]]
    ![0, 0, 0, 0, 1] := by
  intro g h q hg hh he
  obtain ⟨x, y, rfl⟩ := List.length_eq_two.1 hg
  obtain ⟨z, w, rfl⟩ := List.length_eq_two.1 hh
  have e0 := congrFun he 0
  have e1 := congrFun he 1
  have e2 := congrFun he 2
  have e3 := congrFun he 3
  have e4 := congrFun he 4
  simp [Matrix.cons_val] at e0 e1 e2 e3 e4
  simp [e0, e1, e2, e3, e4]

/-- C58: what is found in the tree of transcripts of the honest prover, for arbitrary points and for independent ones. -/
example (g₁ g₂ h₁ h₂ Q : Fin 5 → Toy.K) (a₁ a₂ b₁ b₂ : Toy.K) :
    (∃ a b, (honest Q caseU 1 [a₁, a₂] [b₁, b₂] [g₁, g₂] (vsmul [(1 : Toy.K), 1] [h₁, h₂])).extract = .wit a b ∧ a.length = 2 ∧ b.length = 2 ∧
      commitPoint [g₁, g₂] [h₁, h₂] [(1 : Toy.K), 1] Q [a₁, a₂] [b₁, b₂] = commitPoint [g₁, g₂] [h₁, h₂] [1, 1] Q a b) ∨
    ∃ g h q, (honest Q caseU 1 [a₁, a₂] [b₁, b₂] [g₁, g₂] (vsmul [(1 : Toy.K), 1] [h₁, h₂])).extract = .rel g h q := by
  obtain ⟨h1, h2⟩ := C58_satisfiable R5 Q caseU caseU_ne caseU_sq 1 (by norm_num) [a₁, a₂] [b₁, b₂] [1, 1] [g₁, g₂] [h₁, h₂] rfl rfl rfl rfl rfl
  rcases C58_extraction (k := 1) (by norm_num) _ [g₁, g₂] [h₁, h₂] [1, 1] Q _ rfl rfl rfl (by simp) h1 h2 with h | ⟨g, h, q, e, -⟩
  · exact .inl h
  · exact .inr ⟨g, h, q, e⟩

example (a₁ a₂ b₁ b₂ : Toy.K) : ∃ (T : Tree Toy.K (Fin 5 → Toy.K) 1) (P : Fin 5 → Toy.K) (a b : List Toy.K), T.extract = .wit a b ∧
    P = commitPoint [![1, 0, 0, 0, 0], ![0, 1, 0, 0, 0]] [![0, 0, 1, 0, 0], ![0, 0, 0, 1, 0]] [1, 1] ![0, 0, 0, 0, 1] [a₁, a₂] [b₁, b₂] ∧
    P = commitPoint [![1, 0, 0, 0, 0], ![0, 1, 0, 0, 0]] [![0, 0, 1, 0, 0], ![0, 0, 0, 1, 0]] [1, 1] ![0, 0, 0, 0, 1] a b := by
  obtain ⟨h1, h2⟩ := C58_satisfiable R5 ![0, 0, 0, 0, 1] caseU caseU_ne caseU_sq 1 (by norm_num) [a₁, a₂] [b₁, b₂] [1, 1]
    [![1, 0, 0, 0, 0], ![0, 1, 0, 0, 0]] [![0, 0, 1, 0, 0], ![0, 0, 0, 1, 0]] rfl rfl rfl rfl rfl
  obtain ⟨a, b, e, -, -, h⟩ := C58_soundness (k := 1) (by norm_num) _ _ _ [1, 1] _ _ rfl rfl rfl (by simp) h1 h2 case_independent
  exact ⟨_, _, a, b, e, rfl, h⟩

end Dusk.IP
