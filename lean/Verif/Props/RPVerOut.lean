import Verif.Props.RPDisturbed
/-!
# The outcomes of Verify for all accesses of `M` (C106)
-/

set_option linter.unusedSectionVars false

namespace Dusk.RP

open Prog

variable {F G : Type} [Field F] [AddCommGroup G] [Module F G] [DecidableEq F] [DecidableEq G]

/-- The points of the missing elements, with the inverse the code computes (zero for `y = 0`). -/
def lackInv (R : Ristretto F G) (m : Nat) (W : Nat → Bool) (y z : F) : G :=
  ∑ i ∈ Finset.range (64 * m), (missAt W z i * invPow y i) • (pub R (64 * m)).Hv.getD i 0

/-- The check for a given vector in place of `sumZMTwoN`. -/
def megaD (R : Ristretto F G) (c : F) (ip : IP.Proof F G) (zAnd2 : List F) (hpf delta zM : Nat)
    (mu x y z t taux w : F) (A Gp Hp S T1 T2 : G) (GVec HVec : List G) (V : List (Commitment F G)) : Res Bool :=
  (IP.verifScalars R ip).bind fun vs =>
  let uSq := vs.1; let uInvSq := vs.2.1; let s := vs.2.2
  let g := Vec.mulScalar (Vec.addScalar (Vec.mulScalar s ip.A) z) c
  (Vec.exp g GVec GVec.length 1).bind fun c1 =>
  let bs := Vec.mulScalar s.reverse ip.B
  (Vec.sub bs zAnd2).bind fun h =>
  let Hpf := Vec.scalarPowers y⁻¹ ((nBits * hpf) % 2 ^ 32)
  (Vec.hadamard h Hpf).bind fun h =>
  let h := Vec.mulScalar (Vec.subScalar h z) c
  (Vec.exp h HVec HVec.length 1).bind fun c2 =>
  let delta := computeDelta y z nBits (delta % 2 ^ 32)
  let gBP := c * w * (ip.A * ip.B - t) + (t - delta)
  let c3 := gBP • Gp
  let hBP := mu * c + taux
  let c4 := hBP • Hp
  let c5 := c • A
  let c6 := (c * x) • S
  (Vec.exp uSq ip.L ip.L.length 1).bind fun c7 =>
  (Vec.exp uInvSq ip.R ip.R.length 1).bind fun c8 =>
  let zM := Vec.mulScalar (Vec.scalarPowers z (zM % 2 ^ 32)) (z * z)
  (c9Loop zM V 0).bind fun c9 =>
  let c10 := x • T1
  let c11 := (x * x) • T2
  let sum := c1 + c2 + c3 + c4 - c5 - c6 - c • c7 - c • c8 - c9 - c10 - c11
  if sum = 0 then .ok true else .err "megacheck failed"

theorem out_mega {D : Nat → Prop} (hD : ∃ m, D m) (R : Ristretto F G) (c : F) (ip : IP.Proof F G)
    (mu x y z t taux w : F) (A Gp Hp S T1 T2 : G) (GVec HVec : List G) (V : List (Commitment F G)) (b : Bool) :
    Out D (megacheckP R c (some ip) mu x y z t taux w A Gp Hp S T1 T2 GVec HVec V) (.ok b) ↔
    ∃ l hpf delta zM, Out D (sumZMTwoNP z) (.ok l) ∧ D hpf ∧ D delta ∧ D zM ∧
      megaD R c ip l hpf delta zM mu x y z t taux w A Gp Hp S T1 T2 GVec HVec V = .ok b := by
  unfold megacheckP megaD
  dsimp only
  constructor
  · intro h
    obtain ⟨vs, h1, h⟩ := out_bind_ok.1 h
    obtain ⟨c1, h2, h⟩ := out_bind_ok.1 h
    obtain ⟨l, h3, h⟩ := out_bind_ok.1 h
    obtain ⟨d, h4, h⟩ := out_bind_ok.1 h
    obtain ⟨hpf, h5, h⟩ := out_get_bind.1 h
    obtain ⟨hd, h6, h⟩ := out_bind_ok.1 h
    obtain ⟨c2, h7, h⟩ := out_bind_ok.1 h
    obtain ⟨dl, h8, h⟩ := out_get_bind.1 h
    obtain ⟨c7, h9, h⟩ := out_bind_ok.1 h
    obtain ⟨c8, h10, h⟩ := out_bind_ok.1 h
    obtain ⟨zM, h11, h⟩ := out_get_bind.1 h
    obtain ⟨c9, h12, h⟩ := out_bind_ok.1 h
    refine ⟨l, hpf, dl, zM, h3, h5, h8, h11, ?_⟩
    rw [← out_lift.1 h1, Res.bind_ok, ← out_lift.1 h2, Res.bind_ok, ← out_lift.1 h4, Res.bind_ok, ← out_lift.1 h6, Res.bind_ok,
      ← out_lift.1 h7, Res.bind_ok, ← out_lift.1 h9, Res.bind_ok, ← out_lift.1 h10, Res.bind_ok, ← out_lift.1 h12, Res.bind_ok]
    split at h
    · next hs => rw [if_pos hs]; exact (out_lift.1 h).symm
    · next hs => rw [if_neg hs]; exact (out_lift.1 h).symm
  · rintro ⟨l, hpf, dl, zM, h3, h5, h8, h11, h⟩
    obtain ⟨vs, h1, h⟩ := Res.bind_eq_ok.1 h
    obtain ⟨c1, h2, h⟩ := Res.bind_eq_ok.1 h
    obtain ⟨d, h4, h⟩ := Res.bind_eq_ok.1 h
    obtain ⟨hd, h6, h⟩ := Res.bind_eq_ok.1 h
    obtain ⟨c2, h7, h⟩ := Res.bind_eq_ok.1 h
    obtain ⟨c7, h9, h⟩ := Res.bind_eq_ok.1 h
    obtain ⟨c8, h10, h⟩ := Res.bind_eq_ok.1 h
    obtain ⟨c9, h12, h⟩ := Res.bind_eq_ok.1 h
    refine out_bind_ok.2 ⟨vs, h1.symm, out_bind_ok.2 ⟨c1, h2.symm, out_bind_ok.2 ⟨l, h3, out_bind_ok.2 ⟨d, h4.symm, out_get_bind.2 ⟨hpf, h5,
      out_bind_ok.2 ⟨hd, h6.symm, out_bind_ok.2 ⟨c2, h7.symm, out_get_bind.2 ⟨dl, h8, out_bind_ok.2 ⟨c7, h9.symm, out_bind_ok.2 ⟨c8, h10.symm,
      out_get_bind.2 ⟨zM, h11, out_bind_ok.2 ⟨c9, h12.symm, ?_⟩⟩⟩⟩⟩⟩⟩⟩⟩⟩⟩⟩
    split
    · next hs => rw [if_pos hs] at h; exact out_lift.2 h.symm
    · next hs => rw [if_neg hs] at h; exact out_lift.2 h.symm

/-- The check for fitting lengths, with missing elements. -/
theorem megaD_eq (R : Ristretto F G) (ch : Chal F) (c : F) (p : Proof F G)
    (ip : IP.Proof F G) {m d n : Nat} (W : Nat → Bool) (hf : Fits m ip) (hlt : 64 * m < 2 ^ 32) (hd : 64 * d < 2 ^ 32) (hn : 64 * n < 2 ^ 32) :
    megaD R c ip ((List.range (64 * m)).map (maskAt W ch.z)) m d n p.mu ch.x ch.y ch.z p.t p.taux ch.w p.A (pub R (nBits * m)).B
      (pub R (nBits * m)).Bl p.S p.T1 p.T2 (pub R (nBits * m)).Gv (pub R (nBits * m)).Hv p.V =
    if p.V.length < n then .panic
    else if residueAt (pub R (nBits * m)) d n ch p +
      c • (residue2L (pub R (nBits * m)) m ch (IP.chals R ip) p ip + lackInv R m W ch.y ch.z) = 0 then .ok true
    else .err "megacheck failed" := by
  have hG : (pub R (nBits * m)).Gv.length = nBits * m := by simp [pub]
  have hH : (pub R (nBits * m)).Hv.length = nBits * m := by simp [pub]
  have hk := hf.lt hlt
  have hc : (IP.chals R ip).length = ip.L.length := by simp [IP.chals, IP.chalLoop_length, hf.1]
  have hl : (IP.sVec (IP.chals R ip)).length = nBits * m := by rw [IP.sVec_length, hc, hf.2]
  have hz : (vsub (sumZ ch.z 2 m) (missL W (nBits * m) ch.z)).length = nBits * m := by simp [vsub, sumZ_length, missL_length]
  have r2 : nBits * m % 2 ^ 32 = nBits * m := Nat.mod_eq_of_lt hlt
  have r3 : d % 2 ^ 32 = d := Nat.mod_eq_of_lt (small hd).2
  have r4 : n % 2 ^ 32 = n := Nat.mod_eq_of_lt (small hn).2
  rw [maskL_eq]
  unfold megaD
  dsimp only
  rw [IP.verifScalars_eq R ip hf.1 hk]
  simp only [Res.bind_ok]
  rw [exp_eq (by simp [Vec.mulScalar, Vec.addScalar, hl, hG]) (by simp [Vec.mulScalar, Vec.addScalar, hl, hG])]
  simp only [Res.bind_ok]
  rw [sub_eq (by simp [Vec.mulScalar, hl, hz])]
  simp only [Res.bind_ok]
  rw [r2,
    hadamard_eq (by rw [scalarPowers_length]; simp [Vec.mulScalar, hl, hz, vsub, sumZ_length, missL_length])]
  simp only [Res.bind_ok]
  rw [subScalar_eq, exp_eq (by simp [Vec.mulScalar, hl, hH, sumZ_length, scalarPowers_length, missL_length, vsub])
    (by simp [Vec.mulScalar, hl, hH, sumZ_length, scalarPowers_length, missL_length, vsub])]
  simp only [Res.bind_ok]
  rw [exp_eq (by simp [hc]) (by simp [hc])]
  simp only [Res.bind_ok]
  rw [exp_eq (by simp [hc, hf.1]) (by simp [hc, hf.1])]
  simp only [Res.bind_ok]
  rw [r4, zM_eq]
  by_cases hV : p.V.length < n
  · rw [if_pos hV, c9Loop_panic _ _ _ (by simpa using hV)]
    rfl
  rw [if_neg hV]
  have hV : n ≤ p.V.length := by omega
  rw [c9Loop_eq _ _ _ (by simp [hV])]
  simp only [Res.bind_ok]
  have e1 : msm (Vec.mulScalar (Vec.addScalar (Vec.mulScalar (IP.sVec (IP.chals R ip)) ip.A) ch.z) c) (pub R (nBits * m)).Gv =
      c • (ip.A • msm (IP.sVec (IP.chals R ip)) (pub R (nBits * m)).Gv + ch.z • (pub R (nBits * m)).Gv.sum) := by
    unfold Vec.mulScalar Vec.addScalar
    rw [msm_smul_left, msm_add_const _ _ _ (by simp [hl, hG]), msm_smul_left]
  have e3 : msm (had (missL W (nBits * m) ch.z) (hpfOf ch.y (nBits * m))) (pub R (nBits * m)).Hv = lackInv R m W ch.y ch.z := by
    have e : had (missL W (nBits * m) ch.z) (hpfOf ch.y (nBits * m)) =
        (List.range (nBits * m)).map fun i => missAt W ch.z i * invPow ch.y i := by
      rw [hpfOf_eq]
      unfold had missL
      apply List.ext_getElem
      · simp [nBits]
      · intro i a b; simp
    rw [e, msm_map_range _ _ _ hH]
    rfl
  have e2 : msm (Vec.mulScalar (List.map (fun x => x - ch.z) (had (vsub (Vec.mulScalar (IP.sVec (IP.chals R ip)).reverse
      ip.B) (vsub (sumZ ch.z 2 m) (missL W (nBits * m) ch.z))) (Vec.scalarPowers ch.y⁻¹ (nBits * m)))) c) (pub R (nBits * m)).Hv =
      c • (ip.B • msm (IP.sVec ((IP.chals R ip).map fun u => u⁻¹)) (vsmul (hpfOf ch.y (nBits * m)) (pub R (nBits * m)).Hv)
        - (msm (had (sumZ ch.z 2 m) (hpfOf ch.y (nBits * m))) (pub R (nBits * m)).Hv - lackInv R m W ch.y ch.z)
        - ch.z • (pub R (nBits * m)).Hv.sum) := by
    unfold Vec.mulScalar
    rw [msm_smul_left, msm_sub_const _ _ _ (by simp [hl, hH, sumZ_length, scalarPowers_length, missL_length, vsub]),
      had_vsub _ _ _ (by simp [hl, hz]), msm_vsub _ _ _ (by simp [hl, hz]), msm_had, msm_smul_left,
      IP.sVec_reverse, ← e3, had_vsub _ _ _ (by simp [sumZ_length, missL_length]), msm_vsub _ _ _ (by simp [sumZ_length, missL_length]), hpfOf]
  refine if_congr ?_ rfl rfl
  rw [e1, e2, r3, computeDelta_eq _ _ hd, msm_range_getD _ (by simp [hV])]
  unfold residueAt residue2L
  generalize msm (IP.sVec (IP.chals R ip)) (pub R (nBits * m)).Gv = X
  generalize msm (IP.sVec ((IP.chals R ip).map fun u => u⁻¹)) (vsmul (hpfOf ch.y (nBits * m)) (pub R (nBits * m)).Hv) = Y
  generalize msm ((IP.chals R ip).map fun u => u * u) ip.L = Z
  generalize msm ((IP.chals R ip).map fun u => u⁻¹ * u⁻¹) ip.R = W'
  generalize msm (had (sumZ ch.z 2 m) (hpfOf ch.y (nBits * m))) (pub R (nBits * m)).Hv = U
  generalize lackInv R m W ch.y ch.z = L
  generalize ∑ j ∈ Finset.range n, ch.z ^ (j + 2) • ((p.V.map fun V => V.value).getD j 0) = T
  generalize delta ch.y ch.z d = D
  refine Eq.congr ?_ rfl
  module

theorem mega_short {D : Nat → Prop} (R : Ristretto F G) (c : F) (ip : IP.Proof F G)
    (mu x y z t taux w : F) (A Gp Hp S T1 T2 : G) (GVec HVec : List G) (V : List (Commitment F G)) {a b s : List F}
    (h : IP.verifScalars R ip = .ok (a, b, s)) (hs : s.length ≠ GVec.length) : ∃ e, ∀ r,
    Out D (megacheckP R c (some ip) mu x y z t taux w A Gp Hp S T1 T2 GVec HVec V) r ↔ r = .err e := by
  have he : ∃ e, Vec.exp (Vec.mulScalar (Vec.addScalar (Vec.mulScalar s ip.A) z) c) GVec GVec.length 1 = .err e := by
    rw [Vec.exp, if_pos (by simpa [Vec.mulScalar, Vec.addScalar] using hs)]
    exact ⟨_, rfl⟩
  obtain ⟨e, he⟩ := he
  refine ⟨e, fun r => ?_⟩
  unfold megacheckP
  dsimp only
  rw [h, out_bind]
  simp only [out_lift]
  constructor
  · rintro (⟨a, h1, h2⟩ | ⟨_, h1, _⟩ | ⟨h1, _⟩)
    · cases h1
      dsimp only at h2
      rw [he, out_bind] at h2
      rcases h2 with ⟨_, h1, _⟩ | ⟨_, h1, h2⟩ | ⟨h1, _⟩
      · cases h1
      · cases h1; exact h2
      · cases h1
    · cases h1
    · cases h1
  · rintro rfl
    refine Or.inl ⟨_, rfl, ?_⟩
    dsimp only
    rw [he]
    rfl

theorem fits_width {ip : IP.Proof F G} (R : Ristretto F G) : ∃ a b s, IP.verifScalars R ip = .ok (a, b, s) ∧
    ∀ m, 1 ≤ m → s.length = nBits * m → Fits m ip := by
  by_cases hLR : ip.L.length = ip.R.length
  · obtain ⟨a, b, s, h1, -, -, h4⟩ := IP.verifScalars_lengths R ip hLR
    refine ⟨a, b, s, h1, fun m hm => ?_⟩
    rw [h4]
    unfold IP.width
    split
    · exact fun h => ⟨hLR, h⟩
    · unfold nBits
      omega
  · refine ⟨[], [], [], by simp [IP.verifScalars, hLR], fun m hm => ?_⟩
    unfold nBits
    simp
    omega

/-- A check that succeeds has fitting lengths. -/
theorem megaD_lengths (R : Ristretto F G) (c : F) (ip : IP.Proof F G) (l : List F) {base base2 sum hpf d n : Nat} (h1 : 1 ≤ base)
    (hp : 64 * hpf < 2 ^ 32) (mu x y z t taux w : F) (A Gp Hp S T1 T2 : G) (Gv Hv : List G) (V : List (Commitment F G))
    (hG : Gv.length = 64 * base) (hH : Hv.length = 64 * base2) (hl : l.length = 64 * sum) (b : Bool)
    (h : megaD R c ip l hpf d n mu x y z t taux w A Gp Hp S T1 T2 Gv Hv V = .ok b) :
    Fits base ip ∧ base2 = base ∧ sum = base ∧ hpf = base := by
  obtain ⟨a', b', s, e1, e2⟩ := fits_width (ip := ip) R
  unfold megaD at h
  simp only [e1, Res.bind_ok] at h
  by_cases hs : s.length = nBits * base
  swap
  · rw [Vec.exp, if_pos (by simpa [Vec.mulScalar, Vec.addScalar, hG] using hs)] at h
    cases h
  rw [exp_eq (by simp [Vec.mulScalar, Vec.addScalar, hs, hG, nBits]) (by simp [Vec.mulScalar, Vec.addScalar, hs, hG, nBits])] at h
  simp only [Res.bind_ok] at h
  by_cases hsum : sum = base
  swap
  · rw [Vec.sub, if_pos (by simp [Vec.mulScalar, hs, hl, nBits]; omega)] at h
    cases h
  rw [sub_eq (by simp [Vec.mulScalar, hs, hl, hsum, nBits])] at h
  simp only [Res.bind_ok] at h
  by_cases hhpf : hpf = base
  swap
  · rw [Vec.hadamard, if_pos (by
      rw [scalarPowers_length, show nBits * hpf % 2 ^ 32 = nBits * hpf from Nat.mod_eq_of_lt hp]
      simp [Vec.mulScalar, hs, hl, hsum, nBits, vsub]
      omega)] at h
    cases h
  rw [show nBits * hpf % 2 ^ 32 = nBits * base by rw [hhpf]; exact Nat.mod_eq_of_lt (by rw [← hhpf]; exact hp),
    hadamard_eq (by simp [Vec.mulScalar, vsub, hs, hl, scalarPowers_length, hsum, nBits])] at h
  simp only [Res.bind_ok] at h
  by_cases hb : base2 = base
  swap
  · rw [subScalar_eq, Vec.exp, if_pos] at h
    · cases h
    · simp [Vec.mulScalar, vsub, had_length, hs, hl, scalarPowers_length, hsum, hH, nBits]
      omega
  exact ⟨e2 _ h1 hs, hb, hsum, hhpf⟩

theorem verifyP_reads (R : Ristretto F G) (p : Proof F G) (c : F) (r : Res Bool) : Out Usual (verifyP R p c) r ↔
    ∃ b1 b2, Usual b1 ∧ Usual b2 ∧ Out Usual (megacheckP R c p.ip p.mu (chalOf R p).x (chalOf R p).y (chalOf R p).z p.t p.taux
      (chalOf R p).w p.A (pub R (nBits * b1)).B (pub R (nBits * b1)).Bl p.S p.T1 p.T2 (pub R (nBits * b1)).Gv
      (pub R (nBits * b2)).Hv p.V) r := by
  have key : ∀ b1 b2, Usual b1 → Usual b2 → megacheckP R c p.ip p.mu (verifyChallenges R p).2.2.1 (verifyChallenges R p).1
      (verifyChallenges R p).2.1 p.t p.taux (verifyChallenges R p).2.2.2 p.A (newPed R b1).basePoint (newPed R b1).blindPoint p.S p.T1
      p.T2 (newPed R b1).baseVector.bases ((Pedersen.new R (genData ++ [1])).baseVector.compute R ((nBits * b2) % 2 ^ 32)).bases p.V =
      megacheckP R c p.ip p.mu (chalOf R p).x (chalOf R p).y (chalOf R p).z p.t p.taux
      (chalOf R p).w p.A (pub R (nBits * b1)).B (pub R (nBits * b1)).Bl p.S p.T1 p.T2 (pub R (nBits * b1)).Gv
      (pub R (nBits * b2)).Hv p.V := by
    intro b1 b2 h1 h2
    rw [verifyChallenges_eq, newPed_eq R h1.2, compute_new]
    dsimp only
    rw [Nat.mod_eq_of_lt (show nBits * b2 < 2 ^ 32 from h2.2)]
    rfl
  unfold verifyP
  dsimp only
  constructor
  · intro h
    obtain ⟨b1, h1, h⟩ := out_get_bind.1 h
    obtain ⟨b2, h2, h⟩ := out_get_bind.1 h
    rw [key b1 b2 h1 h2] at h
    exact ⟨b1, b2, h1, h2, h⟩
  · rintro ⟨b1, b2, h1, h2, h⟩
    rw [← key b1 b2 h1 h2] at h
    exact out_get_bind.2 ⟨b1, h1, out_get_bind.2 ⟨b2, h2, h⟩⟩

/-- C106: while `M` changes, `Verify` can accept exactly the proofs that satisfy the equation in which the constant is the one for any
number `d` of values, only the first `n` commitments count, for any `n`, and any elements but the first 64 of the vector
`z² 2^n, z³ 2^n, …` are missing. -/
theorem C106_accepts (R : Ristretto F G) (p : Proof F G) (c : F) (b : Bool) : Out Usual (verifyP R p c) (.ok b) ↔ b = true ∧
    ∃ ip m d n W, p.ip = some ip ∧ Usual m ∧ Fits m ip ∧ Usual d ∧ Usual n ∧ n ≤ p.V.length ∧ (∀ i < 64, W i) ∧
      residueAt (pub R (64 * m)) d n (chalOf R p) p +
        c • (residue2 (pub R (64 * m)) m (chalOf R p) (IP.challenges R ip.L ip.R) p ip + lackInv R m W (chalOf R p).y (chalOf R p).z) = 0 := by
  rw [verifyP_reads]
  have hu : ∃ m, Usual m := ⟨1, le_rfl, by norm_num⟩
  have hres : ∀ {m ip}, Fits m ip → residue2L (pub R (nBits * m)) m (chalOf R p) (IP.chals R ip) p ip =
      residue2 (pub R (nBits * m)) m (chalOf R p) (IP.challenges R ip.L ip.R) p ip := by
    intro m ip hf
    have hc : (IP.chals R ip).length = ip.L.length := by simp [IP.chals, IP.chalLoop_length, hf.1]
    rw [← residue2_eq _ _ _ _ _ _ (by rw [hc]; exact hf.2) (by simp [pub]) (by simp [pub]), IP.chals_eq]
  constructor
  · rintro ⟨b1, b2, h1, h2, h⟩
    cases hip : p.ip with
    | none =>
      rw [hip] at h
      cases h
    | some ip =>
      rw [hip, out_mega hu] at h
      obtain ⟨l, hpf, d, n, hl, up, ud, un, h⟩ := h
      obtain ⟨m, um, W, hW, rfl⟩ := (C103_sum R.two_ne_zero _ _).1 hl
      obtain ⟨hf, rfl, e, e'⟩ := megaD_lengths R c ip _ (base2 := b2) (sum := m) h1.1 up.2 _ _ _ _ _ _ _ _ _ _ _ _ _ _ _ _
        (by simp [pub, nBits]) (by simp [pub, nBits]) (by simp) b h
      subst e
      subst e'
      rw [megaD_eq R (chalOf R p) c p ip W hf um.2 ud.2 un.2] at h
      split at h
      · cases h
      · next hV =>
        split at h
        · next he =>
          refine ⟨(Res.ok.inj h).symm, ip, _, d, n, W, rfl, um, hf, ud, un, by omega, hW, ?_⟩
          rw [hres hf] at he
          exact he
        · cases h
  · rintro ⟨rfl, ip, m, d, n, W, hip, um, hf, ud, un, hV, hW, he⟩
    refine ⟨m, m, um, um, ?_⟩
    rw [hip, out_mega hu]
    refine ⟨_, m, d, n, (C103_sum R.two_ne_zero _ _).2 ⟨m, um, W, hW, rfl⟩, um, ud, un, ?_⟩
    rw [megaD_eq R (chalOf R p) c p ip W hf um.2 ud.2 un.2, if_neg (by omega), if_pos]
    rw [hres hf]
    exact he

/-- C106: it can panic exactly on the proofs without inner product proof and on those whose inner product proof has the
number of rounds for some number of values. -/
theorem C106_panics (R : Ristretto F G) (p : Proof F G) (c : F) : Out Usual (verifyP R p c) .panic ↔
    p.ip = none ∨ ∃ ip m, p.ip = some ip ∧ Usual m ∧ Fits m ip := by
  rw [verifyP_reads]
  have hu : Usual 1 := ⟨le_rfl, by norm_num⟩
  cases hip : p.ip with
  | none =>
    refine ⟨fun _ => Or.inl rfl, fun _ => ⟨1, 1, hu, hu, ?_⟩⟩
    rfl
  | some ip =>
    obtain ⟨a', b', s, e1, e2⟩ := fits_width (ip := ip) R
    constructor
    · rintro ⟨b1, b2, h1, h2, h⟩
      refine Or.inr ⟨ip, b1, rfl, h1, ?_⟩
      by_cases hs : s.length = nBits * b1
      · exact e2 _ h1.1 hs
      · obtain ⟨e, he⟩ := mega_short (D := Usual) R c ip p.mu (chalOf R p).x (chalOf R p).y (chalOf R p).z p.t p.taux
          (chalOf R p).w p.A (pub R (nBits * b1)).B (pub R (nBits * b1)).Bl p.S p.T1 p.T2 (pub R (nBits * b1)).Gv
          (pub R (nBits * b2)).Hv p.V e1 (by simpa [pub] using hs)
        cases (he _).1 h
    · rintro (h | ⟨ip', m, h, um, hf⟩)
      · cases h
      · cases h
        refine ⟨m, m, um, um, ?_⟩
        have hc : (IP.chals R ip).length = ip.L.length := by simp [IP.chals, IP.chalLoop_length, hf.1]
        have hl : (IP.sVec (IP.chals R ip)).length = nBits * m := by rw [IP.sVec_length, hc, hf.2]
        unfold megacheckP
        dsimp only
        rw [IP.verifScalars_eq R ip hf.1 (hf.lt um.2)]
        refine out_bind.2 (Or.inl ⟨_, rfl, ?_⟩)
        rw [exp_eq (by simp [Vec.mulScalar, Vec.addScalar, hl, pub]) (by simp [Vec.mulScalar, Vec.addScalar, hl, pub])]
        refine out_bind.2 (Or.inl ⟨_, rfl, ?_⟩)
        exact out_bind.2 (Or.inr (Or.inr ⟨(C103_sum_fail _).2, rfl⟩))

/-- C106: every proof with an inner product proof can be refused. -/
theorem C106_refuses_violated (R : Ristretto F G) (p : Proof F G) (c : F) (ip : IP.Proof F G) (hip : p.ip = some ip) :
    ∃ e, Out Usual (verifyP R p c) (.err e) := by
  have : ∃ m, Usual m ∧ ¬ Fits m ip := by
    by_cases h : Fits 1 ip
    · refine ⟨2, ⟨by norm_num, by norm_num⟩, fun h' => ?_⟩
      have := h.2.symm.trans h'.2
      omega
    · exact ⟨1, ⟨le_rfl, by norm_num⟩, h⟩
  obtain ⟨m, um, hf⟩ := this
  obtain ⟨a', b', s, e1, e2⟩ := fits_width (ip := ip) R
  have hs : ¬ s.length = nBits * m := fun h => hf (e2 _ um.1 h)
  obtain ⟨e, he⟩ := mega_short (D := Usual) R c ip p.mu (chalOf R p).x (chalOf R p).y (chalOf R p).z p.t p.taux
    (chalOf R p).w p.A (pub R (nBits * m)).B (pub R (nBits * m)).Bl p.S p.T1 p.T2 (pub R (nBits * m)).Gv
    (pub R (nBits * m)).Hv p.V e1 (by simpa [pub] using hs)
  refine ⟨e, (verifyP_reads R p c _).2 ⟨m, m, um, um, ?_⟩⟩
  rw [hip]
  exact (he _).2 rfl

/-- C106: each of these outcomes is reached in some execution with other calls of `Prove`. -/
theorem C106_reached (R : Ristretto F G) (p : Proof F G) (c : F) (r : Res Bool) (h : Out Usual (verifyP R p c) r) (coins : Coins F) (M0 : Nat) :
    ∃ (v : Nat → List F) (sched : List (Option Nat)), (∀ j, Usual (v j).length) ∧
      (((Calls.mk M0 (withProves R (verifyP R p c) v coins)).exec sched).prog none).result = some r :=
  C103_reachable R (fun _ h => h.1) ⟨le_rfl, by norm_num⟩ coins _ _ M0 h

/-- C106: and no others, if `M` does not become unusually large. -/
theorem C106_interleaved (R : Ristretto F G) {ι κ : Type} [DecidableEq ι] [DecidableEq κ] (M0 : Nat) (v : ι → List F)
    (debug : ι → Bool) (coins : ι → Coins F) (p : κ → Proof F G) (c : κ → F) (sched : List (ι ⊕ κ))
    (hM : ∀ pre, pre <+: sched → Usual ((Calls.mk M0 (mixed R v debug coins p c)).exec pre).M) (j : κ) (r : Res Bool)
    (h : (((Calls.mk M0 (mixed R v debug coins p c)).exec sched).prog (.inr j)).result = some r) : Out Usual (verifyP R (p j) (c j)) r := by
  have ho := Calls.exec_out (.inr j) r sched (Calls.mk M0 (mixed R v debug coins p c)) hM h
  exact ho

/-- A concrete case: the honest proof for one value, which `Verify` alone accepts, can be accepted and refused, and it can crash `Verify`. -/
example (coins : Coins Toy.K) (c : Toy.K) : ∃ p : Proof Toy.K Toy.K,
    (prove Toy.ris 1 [0] false coins).2 = .ok p ∧ verify Toy.ris 1 p c = .ok true ∧ Out Usual (verifyP Toy.ris p c) (.ok true) ∧
    Out Usual (verifyP Toy.ris p c) .panic ∧ ∃ e, Out Usual (verifyP Toy.ris p c) (.err e) := by
  obtain ⟨p, hok, hver⟩ := C60_nonzero_hash Toy.ris Toy.dv_ne_zero 1 [0] coins (by simp) (by simp) (by intro x hx; rw [List.mem_singleton.1 hx]; exact toy_zero)
  have hM : (prove Toy.ris 1 [0] false coins).1 = 1 := by
    show nextM 1 1 = 1
    decide
  rw [hM] at hver
  have hu : Usual 1 := ⟨le_rfl, by norm_num⟩
  obtain ⟨h1, h2, h3, h4⟩ := C86_shapes Toy.ris 1 le_rfl (by norm_num) p c
  cases hip : p.ip with
  | none => exact absurd (hver c) (by rw [h1 hip]; simp)
  | some ip =>
    have hf : Fits 1 ip := by
      by_contra hf
      have := h2 ip hip hf
      rw [hver c] at this
      simp [Res.IsErr] at this
    have hl := (C68_commitments Toy.ris 1 [0] false coins p hok).1
    refine ⟨p, hok, hver c, (C106_accepts ..).2 ⟨rfl, ip, 1, 1, 1, fun _ => true, hip, hu, hf, hu, hu, by omega, fun _ _ => rfl, ?_⟩,
      (C106_panics ..).2 (Or.inr ⟨ip, 1, hip, hu, hf⟩), C106_refuses_violated Toy.ris p c ip hip⟩
    have := ((C98_reads Toy.ris (VReads.const 1) ⟨by decide, by decide, by decide, by decide, by decide, by decide⟩ le_rfl p c).2 ip hip).2
      ⟨hf, rfl, rfl, rfl⟩ |>.2 (by show 1 ≤ _; omega)
    have hv := hver c
    unfold verify at hv
    rw [hv] at this
    have h0 : lackInv Toy.ris 1 (fun _ => true) (chalOf Toy.ris p).y (chalOf Toy.ris p).z = 0 := by simp [lackInv, missAt]
    rw [h0, add_zero]
    split at this
    · next h => exact h
    · cases this

end Dusk.RP
