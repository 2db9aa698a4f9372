import Verif.Lemmas.RPAlg
import Verif.Props.Pedersen
/-!
# Lemmas about the range proof verifier
-/

set_option linter.unusedSectionVars false

namespace Dusk.RP

variable {F G : Type} [Field F] [AddCommGroup G] [Module F G] [DecidableEq F]

/-! ## Generators -/

theorem compute_new (R : Ristretto F G) (d : Bytes) (n : Nat) :
    (Pedersen.new R d).baseVector.compute R n = ⟨d, chain R d n⟩ := by
  have := Gen.compute_onChain n (Gen.onChain_new R d)
  simpa [Gen.new, Pedersen.new] using this

theorem newPed_eq (R : Ristretto F G) {m : Nat} (hm : nBits * m < 2 ^ 32) :
    newPed R m = ⟨⟨genData, (pub R (nBits * m)).Gv⟩, genData, (pub R (nBits * m)).Bl, (pub R (nBits * m)).B⟩ := by
  unfold newPed
  rw [compute_new, Nat.mod_eq_of_lt hm]
  rfl

/-! ## List forms of the residues -/

/-- The inverse powers as the code computes them. -/
def hpfOf (y : F) (n : Nat) : List F := Vec.scalarPowers y⁻¹ n

theorem hpfOf_eq (y : F) (n : Nat) : hpfOf y n = (List.range n).map (invPow y) := by
  unfold hpfOf
  by_cases hy : y = 0
  · subst hy
    unfold Vec.scalarPowers
    rw [inv_zero, if_pos rfl]
    by_cases hn : n = 0
    · simp [hn]
    · rw [if_neg hn]
      apply List.ext_getElem <;> simp [invPow]
  · rw [scalarPowers_eq (inv_ne_zero hy)]
    unfold powers
    apply List.map_congr_left
    intro i _
    rw [invPow, if_neg hy]

theorem hpfOf_length (y : F) (n : Nat) : (hpfOf y n).length = n := by rw [hpfOf_eq]; simp

theorem hpfOf_ne {y : F} (hy : y ≠ 0) (n : Nat) : hpfOf y n = powers y⁻¹ n := scalarPowers_eq (inv_ne_zero hy) n

/-- `residue2` over lists. -/
def residue2L (P : Pub G) (m : Nat) (ch : Chal F) (us : List F) (p : Proof F G) (ip : IP.Proof F G) : G :=
  ip.A • msm (IP.sVec us) P.Gv + ch.z • P.Gv.sum
    + (ip.B • msm (IP.sVec (us.map fun u => u⁻¹)) (vsmul (hpfOf ch.y (nBits * m)) P.Hv)
        - msm (had (sumZ ch.z 2 m) (hpfOf ch.y (nBits * m))) P.Hv - ch.z • P.Hv.sum)
    + (ch.w * (ip.A * ip.B - p.t)) • P.B + p.mu • P.Bl - p.A - ch.x • p.S
    - (msm (us.map fun u => u * u) ip.L + msm (us.map fun u => u⁻¹ * u⁻¹) ip.R)

theorem msm_map_range (f : Nat → F) (n : Nat) (g : List G) (hg : g.length = n) :
    msm ((List.range n).map f) g = ∑ i ∈ Finset.range n, f i • g.getD i 0 := by
  rw [msm_eq_sum _ _ (by simp [hg])]
  simp only [List.length_map, List.length_range]
  apply Finset.sum_congr rfl
  intro i hi
  have := Finset.mem_range.1 hi
  simp [this]

theorem map_mul_right (l : List F) (c : F) : Vec.mulScalar l c = l.map fun x => x * c := rfl

theorem weight_inv (us : List F) (i : Nat) : IP.weight (us.map fun u => u⁻¹) i = (IP.weight us i)⁻¹ := by
  induction us with
  | nil => simp [IP.weight]
  | cons u us ih =>
    rw [List.map_cons, IP.weight_cons, IP.weight_cons, ih, List.length_map, mul_inv]
    congr 1
    split <;> simp

theorem residue2_eq (P : Pub G) (m : Nat) (ch : Chal F) (us : List F) (p : Proof F G) (ip : IP.Proof F G)
    (hu : 2 ^ us.length = nBits * m) (hg : P.Gv.length = nBits * m) (hh : P.Hv.length = nBits * m) :
    residue2 P m ch us p ip = residue2L P m ch us p ip := by
  have h1 : (∑ i ∈ Finset.range (64 * m), (ip.A * IP.weight us i + ch.z) • P.Gv.getD i 0) =
      ip.A • msm (IP.sVec us) P.Gv + ch.z • P.Gv.sum := by
    rw [← msm_map_range _ _ _ hg, IP.sVec_eq, hu]
    rw [← msm_smul_left, ← msm_add_const _ _ _ (by simp [hg]), List.map_map, List.map_map]
    congr 1
    apply List.map_congr_left
    intro i _
    simp only [Function.comp]
    ring
  have h2 : (∑ i ∈ Finset.range (64 * m),
        ((ip.B * (IP.weight us i)⁻¹ - ch.z ^ (i / 64 + 2) * 2 ^ (i % 64)) * invPow ch.y i - ch.z) • P.Hv.getD i 0) =
      ip.B • msm (IP.sVec (us.map fun u => u⁻¹)) (vsmul (hpfOf ch.y (nBits * m)) P.Hv)
        - msm (had (sumZ ch.z 2 m) (hpfOf ch.y (nBits * m))) P.Hv - ch.z • P.Hv.sum := by
    rw [← msm_map_range _ _ _ hh, ← msm_had, ← msm_smul_left, ← msm_vsub _ _ _ (by
      simp [IP.sVec_length, hu, hpfOf_length, sumZ_length]), ← msm_sub_const _ _ _ (by
      simp [IP.sVec_length, hu, hpfOf_length, sumZ_length, hh])]
    congr 1
    rw [IP.sVec_eq, hpfOf_eq, sumZ_eq, List.length_map, hu, Nat.mul_comm m nBits]
    apply List.ext_getElem
    · simp
    · intro i hi hi'
      simp only [List.getElem_map, List.getElem_range, vsub, had, List.getElem_zipWith, weight_inv]
      ring
  unfold residue2 residue2L
  rw [h1, h2]
  congr 2
  · rw [msm, List.zipWith_map_left]
  · rw [msm, List.zipWith_map_left]

/-! ## The verifier's check -/

theorem c9Loop_eq : ∀ (zs : List F) (V : List (Commitment F G)) (acc : G), zs.length ≤ V.length →
    c9Loop zs V acc = .ok (acc + msm zs (V.map fun V => V.value))
  | [], V, acc, _ => by simp [c9Loop]
  | z :: zs, V :: Vs, acc, h => by
    simp only [List.length_cons, Nat.add_le_add_iff_right] at h
    rw [c9Loop, c9Loop_eq zs Vs _ h, List.map_cons, msm_cons, add_assoc]
  | _ :: _, [], _, h => by simp at h

theorem c9Loop_panic : ∀ (zs : List F) (V : List (Commitment F G)) (acc : G), V.length < zs.length →
    c9Loop zs V acc = .panic
  | [], V, acc, h => by simp at h
  | z :: zs, V :: Vs, acc, h => by
    simp only [List.length_cons, Nat.add_lt_add_iff_right] at h
    rw [c9Loop, c9Loop_panic zs Vs _ h]
  | _ :: _, [], _, _ => rfl

theorem sub_eq {a b : List F} (h : a.length = b.length) : Vec.sub a b = .ok (vsub a b) := by
  simp [Vec.sub, h, vsub]

theorem scalarPowers_length (a : F) (n : Nat) : (Vec.scalarPowers a n).length = n := by
  by_cases ha : a = 0
  · unfold Vec.scalarPowers
    rw [if_pos ha]
    by_cases hn : n = 0 <;> simp [hn]
  · rw [scalarPowers_eq ha, powers_length]

/-- `z^2, z^3, …` -/
theorem zM_eq (z : F) (m : Nat) : Vec.mulScalar (Vec.scalarPowers z m) (z * z) =
    (List.range m).map fun j => z ^ (j + 2) := by
  unfold Vec.mulScalar
  by_cases hz : z = 0
  · subst hz
    apply List.ext_getElem
    · simp [scalarPowers_length]
    · intro i h1 h2
      simp
  · rw [scalarPowers_eq hz]
    unfold powers
    rw [List.map_map]
    apply List.map_congr_left
    intro i _
    simp only [Function.comp]
    ring

/-- The dimensions under which the check is a single equation. -/
structure WF (m k : Nat) (P : Pub G) (V : List (Commitment F G)) (ip : IP.Proof F G) : Prop where
  k_lt : k < 32
  size : 2 ^ k = nBits * m
  lenG : P.Gv.length = nBits * m
  lenH : P.Hv.length = nBits * m
  lenL : ip.L.length = k
  lenR : ip.R.length = k
  lenV : m ≤ V.length

theorem WF.lt {m k : Nat} {P : Pub G} {V : List (Commitment F G)} {ip : IP.Proof F G} (h : WF m k P V ip) :
    nBits * m < 2 ^ 32 := by
  rw [← h.size]; exact Nat.pow_lt_pow_right (by norm_num) h.k_lt

theorem small {m : Nat} (h : nBits * m < 2 ^ 32) : m + 3 < 2 ^ 32 ∧ m < 2 ^ 32 := by
  unfold nBits at h; omega

theorem msm_range_getD {f : Nat → F} {m : Nat} (g : List G) (hg : m ≤ g.length) :
    msm ((List.range m).map f) g = ∑ j ∈ Finset.range m, f j • g.getD j 0 := by
  have := msm_take_right ((List.range m).map f) g
  rw [← this, List.length_map, List.length_range, msm_map_range _ _ _ (by simp [hg])]
  apply Finset.sum_congr rfl
  intro j hj
  have := Finset.mem_range.1 hj
  rw [List.getD_eq_getElem?_getD, List.getD_eq_getElem?_getD, List.getElem?_take_of_lt this]

theorem mega_eq [DecidableEq G] (R : Ristretto F G) (P : Pub G) (ch : Chal F) (c : F) (p : Proof F G)
    (ip : IP.Proof F G) {m k : Nat} (h : WF m k P p.V ip) :
    megacheckWithC R (VReads.const m) c (some ip) p.mu ch.x ch.y ch.z p.t p.taux ch.w p.A P.B P.Bl p.S p.T1 p.T2
      P.Gv P.Hv p.V =
    if residue1 P m ch p + c • residue2L P m ch (IP.chals R ip) p ip = 0 then .ok true
    else .err "megacheck failed" := by
  have hlt := h.lt
  obtain ⟨hs3, hs0⟩ := small hlt
  have hc : (IP.chals R ip).length = k := by simp [IP.chals, IP.chalLoop_length, h.lenL, h.lenR]
  have hs : (IP.sVec (IP.chals R ip)).length = nBits * m := by rw [IP.sVec_length, hc, h.size]
  have r1 : (VReads.const m).sum = m := rfl
  have r2 : nBits * (VReads.const m).hpf % 2 ^ 32 = nBits * m := Nat.mod_eq_of_lt hlt
  have r3 : (VReads.const m).delta % 2 ^ 32 = m := Nat.mod_eq_of_lt hs0
  have r4 : (VReads.const m).zM % 2 ^ 32 = m := Nat.mod_eq_of_lt hs0
  unfold megacheckWithC
  generalize VReads.const m = rd at r1 r2 r3 r4
  dsimp only
  rw [IP.verifScalars_eq R ip (by rw [h.lenL, h.lenR]) (by rw [h.lenL]; exact h.k_lt)]
  simp only [Res.bind_ok]
  rw [exp_eq (by simp [Vec.mulScalar, Vec.addScalar, hs, h.lenG]) (by simp [Vec.mulScalar, Vec.addScalar, hs, h.lenG])]
  simp only [Res.bind_ok]
  rw [r1, sumZMTwoN_eq R.two_ne_zero _ hs3]
  simp only [Res.bind_ok]
  rw [sub_eq (by simp [Vec.mulScalar, hs, sumZ_length])]
  simp only [Res.bind_ok]
  rw [r2,
    hadamard_eq (by simp [Vec.mulScalar, hs, sumZ_length, scalarPowers_length])]
  simp only [Res.bind_ok]
  rw [subScalar_eq, exp_eq (by simp [Vec.mulScalar, hs, h.lenH, sumZ_length, scalarPowers_length])
    (by simp [Vec.mulScalar, hs, h.lenH, sumZ_length, scalarPowers_length])]
  simp only [Res.bind_ok]
  rw [exp_eq (by simp [hc, h.lenL]) (by simp [hc, h.lenL])]
  simp only [Res.bind_ok]
  rw [exp_eq (by simp [hc, h.lenR]) (by simp [hc, h.lenR])]
  simp only [Res.bind_ok]
  rw [r4, zM_eq, c9Loop_eq _ _ _ (by simp [h.lenV])]
  simp only [Res.bind_ok]
  have e1 : msm (Vec.mulScalar (Vec.addScalar (Vec.mulScalar (IP.sVec (IP.chals R ip)) ip.A) ch.z) c) P.Gv =
      c • (ip.A • msm (IP.sVec (IP.chals R ip)) P.Gv + ch.z • P.Gv.sum) := by
    unfold Vec.mulScalar Vec.addScalar
    rw [msm_smul_left, msm_add_const _ _ _ (by simp [hs, h.lenG]), msm_smul_left]
  have e2 : msm (Vec.mulScalar (List.map (fun x => x - ch.z) (had (vsub (Vec.mulScalar (IP.sVec (IP.chals R ip)).reverse
      ip.B) (sumZ ch.z 2 m)) (Vec.scalarPowers ch.y⁻¹ (nBits * m)))) c) P.Hv =
      c • (ip.B • msm (IP.sVec ((IP.chals R ip).map fun u => u⁻¹)) (vsmul (hpfOf ch.y (nBits * m)) P.Hv)
        - msm (had (sumZ ch.z 2 m) (hpfOf ch.y (nBits * m))) P.Hv - ch.z • P.Hv.sum) := by
    unfold Vec.mulScalar
    rw [msm_smul_left, msm_sub_const _ _ _ (by simp [hs, h.lenH, sumZ_length, scalarPowers_length]),
      had_vsub _ _ _ (by simp [hs, sumZ_length]), msm_vsub _ _ _ (by simp [hs, sumZ_length]), msm_had, msm_smul_left,
      IP.sVec_reverse, hpfOf]
  refine if_congr ?_ rfl rfl
  rw [e1, e2, r3, computeDelta_eq _ _ hlt, msm_range_getD _ (by simp [h.lenV])]
  unfold residue1 residue2L
  generalize msm (IP.sVec (IP.chals R ip)) P.Gv = X
  generalize msm (IP.sVec ((IP.chals R ip).map fun u => u⁻¹)) (vsmul (hpfOf ch.y (nBits * m)) P.Hv) = Y
  generalize msm ((IP.chals R ip).map fun u => u * u) ip.L = Z
  generalize msm ((IP.chals R ip).map fun u => u⁻¹ * u⁻¹) ip.R = W
  generalize msm (had (sumZ ch.z 2 m) (hpfOf ch.y (nBits * m))) P.Hv = U
  generalize ∑ j ∈ Finset.range m, ch.z ^ (j + 2) • ((p.V.map fun V => V.value).getD j 0) = T
  generalize delta ch.y ch.z m = D
  refine Eq.congr ?_ rfl
  module

/-! ## The transcript -/

theorem foldl_append (R : Ristretto F G) : ∀ (Vs : List (Commitment F G)) (hs : HashCacher),
    (Vs.foldl (fun (hs : HashCacher) V => hs.append [R.pBytes V.value]) hs).cache =
      hs.cache ++ Vs.flatMap fun V => R.pBytes V.value
  | [], hs => by simp
  | V :: Vs, hs => by
    rw [List.foldl_cons, foldl_append R Vs, HashCacher.append_cache]
    simp

theorem verifyChallenges_eq (R : Ristretto F G) (p : Proof F G) :
    verifyChallenges R p = ((chalOf R p).y, (chalOf R p).z, (chalOf R p).x, (chalOf R p).w) := by
  unfold verifyChallenges chalOf computeYAndZ computeX HashCacher.derive HashCacher.result
  simp [HashCacher.append_cache, foldl_append]

theorem verify_eq [DecidableEq G] (R : Ristretto F G) (c : F) (p : Proof F G)
    (ip : IP.Proof F G) (hip : p.ip = some ip) {m k : Nat} (hk : k < 32) (hm : 2 ^ k = nBits * m)
    (hL : ip.L.length = k) (hR : ip.R.length = k) (hV : m ≤ p.V.length) :
    verify R m p c =
    if residue1 (pub R (nBits * m)) m (chalOf R p) p +
      c • residue2L (pub R (nBits * m)) m (chalOf R p) (IP.chals R ip) p ip = 0 then .ok true
    else .err "megacheck failed" := by
  have hlt : nBits * m < 2 ^ 32 := by rw [← hm]; exact Nat.pow_lt_pow_right (by norm_num) hk
  have hw : WF m k (pub R (nBits * m)) p.V ip := ⟨hk, hm, by simp [pub], by simp [pub], hL, hR, hV⟩
  rw [← mega_eq R _ _ c p ip hw]
  unfold verify verifyWith
  rw [verifyChallenges_eq, newPed_eq R (by simpa [VReads.const] using hlt), compute_new, hip]
  simp only [VReads.const]
  rw [Nat.mod_eq_of_lt hlt]
  rfl

end Dusk.RP
