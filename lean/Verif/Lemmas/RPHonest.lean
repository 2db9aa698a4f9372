import Verif.Lemmas.RangeProof
/-!
# What an honest prover computes
-/

set_option linter.unusedSectionVars false

namespace Dusk.RP

variable {F G : Type} [Field F] [AddCommGroup G] [Module F G] [DecidableEq F]

/-- The left vector `l(x) = aL - z + x sL`. -/
def lVec (z x : F) (aL sL : List F) : List F := vadd (aL.map fun a => a - z) (sL.map fun s => s * x)

/-- `r₀ = (aR + z) ∘ y^n + ∑ z^(j+1) 2^n`. -/
def r0Vec (m : Nat) (y z : F) (aR : List F) : List F :=
  vadd (had (aR.map fun a => a + z) (powers y (nBits * m))) (sumZ z 2 m)

/-- `r₁ = y^n ∘ sR`. -/
def r1Vec (m : Nat) (y : F) (sR : List F) : List F := had (powers y (nBits * m)) sR

/-- The right vector `r(x) = r₀ + x r₁`. -/
def rVec (m : Nat) (y z x : F) (aR sR : List F) : List F := vadd (r0Vec m y z aR) ((r1Vec m y sR).map fun s => s * x)

/-- Coefficients of `<l(x), r(x)>`. -/
def t0Of (m : Nat) (y z : F) (aL aR : List F) : F := dot (aL.map fun a => a - z) (r0Vec m y z aR)
def t1Of (m : Nat) (y z : F) (aL aR sL sR : List F) : F :=
  dot sL (r0Vec m y z aR) + dot (aL.map fun a => a - z) (r1Vec m y sR)
def t2Of (m : Nat) (y : F) (sL sR : List F) : F := dot sL (r1Vec m y sR)

section
variable {m : Nat} {aL aR sL sR : List F}

theorem r0Vec_length (y z : F) (hR : aR.length = nBits * m) : (r0Vec m y z aR).length = nBits * m := by
  simp [r0Vec, hR, powers_length, sumZ_length]

theorem r1Vec_length (y : F) (hR : sR.length = nBits * m) : (r1Vec m y sR).length = nBits * m := by
  simp [r1Vec, hR, powers_length]

theorem lVec_length (z x : F) (hL : aL.length = nBits * m) (hs : sL.length = nBits * m) :
    (lVec z x aL sL).length = nBits * m := by
  simp [lVec, hL, hs]

theorem rVec_length (y z x : F) (hR : aR.length = nBits * m) (hs : sR.length = nBits * m) :
    (rVec m y z x aR sR).length = nBits * m := by
  simp [rVec, r0Vec_length y z hR, r1Vec_length y hs]

theorem computePoly_eq (h2 : (2 : F) ≠ 0) (y z : F) (hy : y ≠ 0) (hlt : nBits * m < 2 ^ 32)
    (haL : aL.length = nBits * m) (haR : aR.length = nBits * m) (hsL : sL.length = nBits * m)
    (hsR : sR.length = nBits * m) :
    computePoly m m aL aR sL sR y z = .ok ⟨aL.map fun a => a - z, sL, r0Vec m y z aR, r1Vec m y sR,
      t0Of m y z aL aR, t1Of m y z aL aR sL sR, t2Of m y sL sR⟩ := by
  unfold computePoly
  dsimp only
  rw [sumZMTwoN_eq h2 z (small hlt).1, Res.bind_ok, Nat.mod_eq_of_lt hlt, scalarPowers_eq hy,
    hadamard_eq (by simp [Vec.addScalar, haR, powers_length]), Res.bind_ok,
    add_eq (by simp [Vec.addScalar, haR, powers_length, sumZ_length]), Res.bind_ok,
    hadamard_eq (by simp [powers_length, hsR]), Res.bind_ok, subScalar_eq]
  have e0 : vadd (had (Vec.addScalar aR z) (powers y (nBits * m))) (sumZ z 2 m) = r0Vec m y z aR := rfl
  have e1 : had (powers y (nBits * m)) sR = r1Vec m y sR := rfl
  rw [e0, e1, innerProduct_eq (by simp [haL, r0Vec_length y z haR]), Res.bind_ok,
    innerProduct_eq (by simp [hsL, r0Vec_length y z haR]), Res.bind_ok,
    innerProduct_eq (by simp [haL, r1Vec_length y hsR]), Res.bind_ok,
    innerProduct_eq (by simp [hsL, r1Vec_length y hsR]), Res.bind_ok]
  rfl

theorem dot_lr (y z x : F) (haL : aL.length = nBits * m) (haR : aR.length = nBits * m) (hsL : sL.length = nBits * m)
    (hsR : sR.length = nBits * m) :
    dot (lVec z x aL sL) (rVec m y z x aR sR) =
      t0Of m y z aL aR + x * t1Of m y z aL aR sL sR + x ^ 2 * t2Of m y sL sR := by
  unfold lVec rVec
  rw [dot_vadd_left _ _ _ (by simp [haL, hsL]),
    dot_vadd_right _ _ _ (by simp [r0Vec_length y z haR, r1Vec_length y hsR]),
    dot_vadd_right _ _ _ (by simp [r0Vec_length y z haR, r1Vec_length y hsR]),
    dot_smul_left, dot_smul_left, dot_smul_right, dot_smul_right]
  unfold t0Of t1Of t2Of
  ring

/-- `r(x) ∘ y^-n = aR + z + x sR + (∑ z^(j+1) 2^n) ∘ y^-n`. -/
theorem had_rVec {y : F} (hy : y ≠ 0) (z x : F) (haR : aR.length = nBits * m) (hsR : sR.length = nBits * m) :
    had (rVec m y z x aR sR) (hpfOf y (nBits * m)) =
      vadd (vadd (aR.map fun a => a + z) (sR.map fun s => s * x)) (had (sumZ z 2 m) (hpfOf y (nBits * m))) := by
  rw [hpfOf_ne hy]
  unfold rVec r0Vec r1Vec had vadd powers
  apply List.ext_getElem
  · simp [haR, hsR, sumZ_length]
  · intro i h1 h2
    have hyi : y ^ i * (y⁻¹) ^ i = 1 := by rw [← mul_pow, mul_inv_cancel₀ hy, one_pow]
    simp only [List.getElem_zipWith, List.getElem_map, List.getElem_range]
    linear_combination (aR[i]'(by simp at h1; omega) + z + sR[i]'(by simp at h1; omega) * x) * hyi

variable {P : Pub G}

/-- The statement for the inner product argument in terms of the commitments. -/
theorem commitPoint_lr {y : F} (hy : y ≠ 0) (z x : F) (Q : G) (hG : P.Gv.length = nBits * m)
    (hH : P.Hv.length = nBits * m) (haL : aL.length = nBits * m) (haR : aR.length = nBits * m)
    (hsL : sL.length = nBits * m) (hsR : sR.length = nBits * m) :
    IP.commitPoint P.Gv P.Hv (hpfOf y (nBits * m)) Q (lVec z x aL sL) (rVec m y z x aR sR) =
      (msm aL P.Gv + msm aR P.Hv) + x • (msm sL P.Gv + msm sR P.Hv) - z • P.Gv.sum + z • P.Hv.sum
        + msm (had (sumZ z 2 m) (hpfOf y (nBits * m))) P.Hv
        + dot (lVec z x aL sL) (rVec m y z x aR sR) • Q := by
  unfold IP.commitPoint
  rw [had_rVec hy z x haR hsR, msm_vadd_left _ _ _ (by simp [haR, hsR, sumZ_length, hpfOf_length]),
    msm_vadd_left _ _ _ (by simp [haR, hsR]), msm_add_const _ _ _ (by rw [haR, hH]), msm_smul_left]
  have : msm (lVec z x aL sL) P.Gv = msm aL P.Gv - z • P.Gv.sum + x • msm sL P.Gv := by
    unfold lVec
    rw [msm_vadd_left _ _ _ (by simp [haL, hsL]), msm_sub_const _ _ _ (by rw [haL, hG]), msm_smul_left]
  rw [this]
  module

/-- The inner-product residue of an honest proof vanishes. -/
theorem residue2_honest {ch : Chal F} (hy : ch.y ≠ 0) {us : List F} {p : Proof F G} {ip : IP.Proof F G} {alpha rho : F}
    (hG : P.Gv.length = nBits * m) (hH : P.Hv.length = nBits * m) (haL : aL.length = nBits * m)
    (haR : aR.length = nBits * m) (hsL : sL.length = nBits * m) (hsR : sR.length = nBits * m)
    (hA : p.A = alpha • P.Bl + (msm aL P.Gv + msm aR P.Hv)) (hS : p.S = rho • P.Bl + (msm sL P.Gv + msm sR P.Hv))
    (hmu : p.mu = rho * ch.x + alpha)
    (ht : p.t = dot (lVec ch.z ch.x aL sL) (rVec m ch.y ch.z ch.x aR sR))
    (hv : IP.VerEq P.Gv (vsmul (hpfOf ch.y (nBits * m)) P.Hv) (ch.w • P.B)
      (IP.commitPoint P.Gv P.Hv (hpfOf ch.y (nBits * m)) (ch.w • P.B) (lVec ch.z ch.x aL sL)
        (rVec m ch.y ch.z ch.x aR sR)) us ip.L ip.R ip.A ip.B) :
    residue2L P m ch us p ip = 0 := by
  unfold IP.VerEq at hv
  rw [commitPoint_lr hy _ _ _ hG hH haL haR hsL hsR, ← ht] at hv
  unfold residue2L
  rw [hA, hS, hmu]
  have := sub_eq_zero.2 hv
  rw [← this]
  module

/-- The commitment residue of a proof with polynomial coefficients `t1`, `t2`. -/
theorem residue1_honest {ch : Chal F} {p : Proof F G} {t0 t1 t2 tau1 tau2 : F} {v gamma : Nat → F}
    (hV : ∀ j < m, (p.V.map fun V => V.value).getD j 0 = v j • P.B + gamma j • P.Bl)
    (hT1 : p.T1 = t1 • P.B + tau1 • P.Bl) (hT2 : p.T2 = t2 • P.B + tau2 • P.Bl)
    (ht : p.t = t0 + ch.x * t1 + ch.x ^ 2 * t2)
    (htaux : p.taux = ch.x * tau1 + ch.x ^ 2 * tau2 + ∑ j ∈ Finset.range m, ch.z ^ (j + 2) * gamma j) :
    residue1 P m ch p =
      (t0 - delta ch.y ch.z m - ∑ j ∈ Finset.range m, ch.z ^ (j + 2) * v j) • P.B := by
  have hs : ∑ j ∈ Finset.range m, ch.z ^ (j + 2) • ((p.V.map fun V => V.value).getD j 0) =
      (∑ j ∈ Finset.range m, ch.z ^ (j + 2) * v j) • P.B +
      (∑ j ∈ Finset.range m, ch.z ^ (j + 2) * gamma j) • P.Bl := by
    rw [Finset.sum_smul, Finset.sum_smul, ← Finset.sum_add_distrib]
    apply Finset.sum_congr rfl
    intro j hj
    rw [hV j (Finset.mem_range.1 hj)]
    module
  unfold residue1
  rw [hs, hT1, hT2, ht, htaux]
  module

end

/-! ## Bit vectors of the values -/

/-- The concatenated bit vectors. -/
def aLOf (R : Ristretto F G) (v : List F) : List F := v.flatMap fun vi => (bitCommit (F := F) (R.sNat vi)).AL
def aROf (R : Ristretto F G) (v : List F) : List F := v.flatMap fun vi => (bitCommit (F := F) (R.sNat vi)).AR

theorem aLOf_length (R : Ristretto F G) : ∀ v : List F, (aLOf R v).length = nBits * v.length
  | [] => rfl
  | x :: v => by
    have := aLOf_length R v
    unfold aLOf at this ⊢
    rw [List.flatMap_cons, List.length_append, this, bitCommit_length, List.length_cons, Nat.mul_succ, Nat.add_comm]

theorem aROf_eq (R : Ristretto F G) : ∀ v : List F, aROf R v = (aLOf R v).map fun x => x - 1
  | [] => rfl
  | x :: v => by
    have := aROf_eq R v
    unfold aROf aLOf at this ⊢
    rw [List.flatMap_cons, List.flatMap_cons, List.map_append, this, bitCommit_AR]

theorem aROf_length (R : Ristretto F G) (v : List F) : (aROf R v).length = nBits * v.length := by
  rw [aROf_eq, List.length_map, aLOf_length]

theorem aLOf_bit (R : Ristretto F G) (v : List F) : ∀ a ∈ aLOf R v, a = 0 ∨ a = 1 := by
  intro a ha
  obtain ⟨x, -, hx⟩ := List.mem_flatMap.1 ha
  exact bitCommit_bit _ a hx

theorem had_bits : ∀ (a y : List F), (∀ x ∈ a, x = 0 ∨ x = 1) → dot (had a (a.map fun x => x - 1)) y = 0
  | [], y, _ => by simp
  | x :: a, [], _ => by simp
  | x :: a, y :: ys, h => by
    rw [List.map_cons, had_cons, dot_cons, had_bits a ys fun z hz => h z (by simp [hz])]
    rcases h x (by simp) with rfl | rfl <;> simp

theorem dot_sub_one (a y : List F) (h : a.length = y.length) :
    dot a y - dot (a.map fun x => x - 1) y - y.sum = 0 := by
  rw [dot_sub_const _ _ _ h]; ring

theorem block_aLOf (R : Ristretto F G) : ∀ (v : List F) (j : Nat) (h : j < v.length),
    block (aLOf R v) j = (bitCommit (F := F) (R.sNat v[j])).AL
  | x :: v, 0, _ => by
    unfold block aLOf
    rw [List.flatMap_cons, Nat.mul_zero, List.drop_zero]
    exact List.take_left' (bitCommit_length _)
  | x :: v, j + 1, h => by
    have ih := block_aLOf R v j (by simpa using h)
    unfold block at ih ⊢
    unfold aLOf at ih ⊢
    rw [List.flatMap_cons, Nat.mul_succ, Nat.add_comm, ← List.drop_drop, List.drop_left' (bitCommit_length _), ih]
    rfl

/-- The constant coefficient of an honest prover: `D + ∑ z^(j+2) (v_j mod 2^64)`. -/
theorem t0_honest (R : Ristretto F G) (y z : F) (v : List F) :
    t0Of v.length y z (aLOf R v) (aROf R v) =
      delta y z v.length + ∑ j ∈ Finset.range v.length, z ^ (j + 2) * ((R.sNat (v.getD j 0) % 2 ^ 64 : Nat) : F) := by
  unfold t0Of r0Vec
  rw [t0_general y z v.length _ _ (aLOf_length R v) (aROf_length R v), aROf_eq, had_bits _ _ (aLOf_bit R v),
    dot_sub_one _ _ (by rw [aLOf_length, powers_length]), mul_zero, zero_add, zero_add]
  congr 1
  apply Finset.sum_congr rfl
  intro j hj
  have hj := Finset.mem_range.1 hj
  rw [block_aLOf R v j hj, bitCommit_dot]
  simp [hj]

end Dusk.RP
