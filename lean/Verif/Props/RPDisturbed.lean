import Verif.Lemmas.RPMask
/-!
# Proofs made while `M` changes (C104, C105)
-/

set_option linter.unusedSectionVars false

namespace Dusk.RP

open Prog

variable {F G : Type} [Field F] [AddCommGroup G] [Module F G] [DecidableEq F] [DecidableEq G]

theorem r0Vec_mask (R : Ristretto F G) (v : List F) (pad m : Nat) (hm : v.length + pad = m) (W : Nat → Bool) {y : F} (hy : y ≠ 0) (z : F) :
    r0Vec m y z (aRM (aROf R (v ++ List.replicate pad 0)) (missL W (nBits * m) z) y) = (List.range (64 * m)).map (r0AtS R v W y z) := by
  have hvl : (v ++ List.replicate pad (0 : F)).length = m := by simp [hm]
  rw [r0Vec_aRM hy z (by rw [aROf_length, hvl]) (missL_length ..), ← maskL_eq, aROf_pad R v pad m hm]
  unfold had vadd powers
  apply List.ext_getElem
  · simp [nBits]
  · intro i h1 h2
    simp [r0AtS]
    ring

/-- The proof computed from a run with missing elements is the protocol's, with these elements missing. -/
theorem runM_disturbed (R : Ristretto F G) (v : List F) (pad m : Nat) (hm : v.length + pad = m)
    (Vs : List (Commitment F G)) (coins : Coins F) (W : Nat → Bool)
    (hVs : Vs = (List.range m).map fun j =>
      ⟨v.getD j 0 • (pub R (nBits * m)).B + coins.vBlind j • (pub R (nBits * m)).Bl, coins.vBlind j⟩) {q : Run F G}
    (hq : q = runM R (Vs.flatMap fun V => R.pBytes V.value) (v ++ List.replicate pad 0) Vs coins (missL W (nBits * m))) (hy : q.y ≠ 0)
    (ip : IP.Proof F G)
    (hip : IP.generate R (pub R (nBits * m)).Gv (pub R (nBits * m)).Hv q.l q.r
        (hpfOf q.y (nBits * m)) (q.w • (pub R (nBits * m)).B) = .ok ip) :
    chalOf R (q.proof Vs ip) = q.chal ∧ Disturbed R m v coins W (q.proof Vs ip) ip := by
  have hc : chalOf R (q.proof Vs ip) = q.chal := by rw [hq]; rfl
  refine ⟨hc, ?_⟩
  have hvl : (v ++ List.replicate pad (0 : F)).length = m := by simp [hm]
  have hg : (pub R (nBits * m)).Gv.length = 64 * m := by simp [pub]
  have hh : (pub R (nBits * m)).Hv.length = 64 * m := by simp [pub]
  have haL := aLOf_pad R v pad m hm
  have haR := aROf_pad R v pad m hm
  have hr0 := r0Vec_mask R v pad m hm W hy q.z
  have hsL : q.sL = (List.range (64 * m)).map coins.sL := by rw [hq]; unfold runM; rw [hvl]
  have hsR : q.sR = (List.range (64 * m)).map coins.sR := by rw [hq]; unfold runM; rw [hvl]
  have hl : q.l = (List.range (64 * m)).map fun i => l0At R v q.z i + coins.sL i * q.x := by
    have : q.l = lVec q.z q.x (aLOf R (v ++ List.replicate pad 0)) q.sL := by rw [hq]; rfl
    rw [this, haL, hsL, lVec, List.map_map, map_range_vadd]
    rfl
  have hr : q.r = (List.range (64 * m)).map fun i => r0AtS R v W q.y q.z i + r1At q.y coins.sR i * q.x := by
    have : q.r = rVec m q.y q.z q.x (aRM (aROf R (v ++ List.replicate pad 0)) (missL W (nBits * m) q.z) q.y) q.sR := by
      rw [hq]; unfold runM; rw [hvl]
    rw [this, hsR, rVec, hr0, r1Vec_range, map_range_vadd]
  constructor
  · exact hVs
  · show q.A = _
    have : q.A = coins.aBlind • (pub R (nBits * m)).Bl + (msm (aLOf R (v ++ List.replicate pad 0)) (pub R (nBits * m)).Gv +
      msm (aROf R (v ++ List.replicate pad 0)) (pub R (nBits * m)).Hv) := by rw [hq]; unfold runM; rw [hvl]
    rw [this, haL, haR, msm_ranges _ _ hg hh]
  · show q.S = _
    have : q.S = coins.sBlind • (pub R (nBits * m)).Bl + (msm q.sL (pub R (nBits * m)).Gv +
      msm q.sR (pub R (nBits * m)).Hv) := by rw [hq]; unfold runM; rw [hvl]
    rw [this, hsL, hsR, msm_ranges _ _ hg hh]
  · rw [hc]
    show q.T1 = _
    have : q.T1 = t1Of m q.y q.z (aLOf R (v ++ List.replicate pad 0))
        (aRM (aROf R (v ++ List.replicate pad 0)) (missL W (nBits * m) q.z) q.y) q.sL q.sR •
        (pub R (nBits * m)).B + coins.t1Blind • (pub R (nBits * m)).Bl := by rw [hq]; unfold runM; rw [hvl]
    rw [this, t1Of, hr0, hsL, hsR, r1Vec_range, haL, List.map_map, dot_ranges, dot_ranges,
      ← Finset.sum_add_distrib]
    rfl
  · rw [hc]
    show q.T2 = _
    have : q.T2 = t2Of m q.y q.sL q.sR •
        (pub R (nBits * m)).B + coins.t2Blind • (pub R (nBits * m)).Bl := by rw [hq]; unfold runM; rw [hvl]
    rw [this, t2Of, hsL, hsR, r1Vec_range, dot_ranges]
    rfl
  · rw [hc]
    show q.taux = _
    have : q.taux = computeTaux q.x q.z coins.t1Blind coins.t2Blind Vs := by rw [hq]; rfl
    rw [this, computeTaux_eq, hVs, List.length_map, List.length_range]
    congr 1
    apply Finset.sum_congr rfl
    intro j hj
    have := Finset.mem_range.1 hj
    simp [List.getD_eq_getElem?_getD, this, Run.chal]
  · rw [hc]
    show q.mu = _
    have : q.mu = coins.sBlind * q.x + coins.aBlind := by rw [hq]; rfl
    rw [this]
    simp only [Run.chal]
    ring
  · rw [hc]
    show q.t = _
    have : q.t = dot q.l q.r := by rw [hq]; rfl
    rw [this, hl, hr, dot_ranges]
    rfl
  · rfl
  · rw [hc]
    rw [hl, hr, hpfOf_eq] at hip
    exact hip

/-- How far the commitments are off, and how far the inner product statement is off, because of the missing elements. -/
def lackB (R : Ristretto F G) (m : Nat) (v : List F) (W : Nat → Bool) (z : F) : F :=
  ∑ i ∈ Finset.range (64 * m), missAt W z i * (bit R v i - z)
def lackH (R : Ristretto F G) (m : Nat) (W : Nat → Bool) (y z : F) : G :=
  ∑ i ∈ Finset.range (64 * m), (missAt W z i * y⁻¹ ^ i) • (pub R (64 * m)).Hv.getD i 0

theorem r0At_split (R : Ristretto F G) (v : List F) (W : Nat → Bool) (y z : F) (i : Nat) : r0AtS R v W y z i = r0At R v y z i - missAt W z i := by
  unfold r0AtS r0At maskAt missAt
  split <;> ring

/-- Acceptance of a proof with missing elements. -/
theorem runM_verify (R : Ristretto F G) (v : List F) (pad m : Nat) (hm : v.length + pad = m)
    (Vs : List (Commitment F G)) (coins : Coins F) (W : Nat → Bool) {k : Nat}
    (hk : 2 ^ k = nBits * m) (hk32 : k < 32) (hV : Commits (pub R (nBits * m)) (v ++ List.replicate pad 0) Vs) {q : Run F G}
    (hq : q = runM R (Vs.flatMap fun V => R.pBytes V.value) (v ++ List.replicate pad 0) Vs coins (missL W (nBits * m))) (hy : q.y ≠ 0)
    (ip : IP.Proof F G)
    (hip : IP.generate R (pub R (nBits * m)).Gv (pub R (nBits * m)).Hv q.l q.r
        (hpfOf q.y (nBits * m)) (q.w • (pub R (nBits * m)).B) = .ok ip) :
      2 ^ ip.L.length = 64 * m ∧ ip.L.length = ip.R.length ∧
      ((∀ u ∈ IP.challenges R ip.L ip.R, u ≠ 0) → ∀ c, verify R m (q.proof Vs ip) c =
        if (excess R q.z v + lackB R m v W q.z) • (pub R (64 * m)).B + c • lackH R m W q.y q.z = 0 then .ok true
        else .err "megacheck failed") := by
  have hvl : (v ++ List.replicate pad (0 : F)).length = m := by simp [hm]
  have haL : (aLOf R (v ++ List.replicate pad 0)).length = nBits * m := by rw [aLOf_length, hvl]
  have haR : (aROf R (v ++ List.replicate pad 0)).length = nBits * m := by rw [aROf_length, hvl]
  have hm' := missL_length W (nBits * m) q.z
  have haR' : (aRM (aROf R (v ++ List.replicate pad 0)) (missL W (nBits * m) q.z) q.y).length = nBits * m := by
    rw [aRM_length _ (by rw [haR, hm']), haR]
  have hsL : q.sL.length = nBits * m := by rw [hq]; simp [runM, hm]
  have hsR : q.sR.length = nBits * m := by rw [hq]; simp [runM, hm]
  have hl : q.l = lVec q.z q.x (aLOf R (v ++ List.replicate pad 0)) q.sL := by rw [hq]; rfl
  have hr : q.r = rVec m q.y q.z q.x (aRM (aROf R (v ++ List.replicate pad 0)) (missL W (nBits * m) q.z) q.y) q.sR := by
    rw [hq]; unfold runM; rw [hvl]
  have htd : q.t = dot q.l q.r := by rw [hq]; rfl
  have hH : (pub R (nBits * m)).Hv.length = nBits * m := by simp [pub]
  have hG : (pub R (nBits * m)).Gv.length = nBits * m := by simp [pub]
  obtain ⟨ip', h1, h2, h3, h4⟩ := IP.generate_eq R (q.w • (pub R (nBits * m)).B) k hk32 q.l q.r
    (hpfOf q.y (nBits * m)) (pub R (nBits * m)).Gv (pub R (nBits * m)).Hv
    (by rw [hl, lVec_length _ _ haL hsL, hk]) (by rw [hr, rVec_length _ _ _ haR' hsR, hk]) (by rw [hG, hk])
    (by rw [hH, hk]) (by rw [hpfOf_length, hk])
  rw [hip] at h1
  cases Res.ok.inj h1
  refine ⟨by rw [h2]; exact hk, by rw [h2, h3], fun hu c => ?_⟩
  have hch : chalOf R (q.proof Vs ip) = q.chal := by rw [hq]; rfl
  have hVl : Vs.length = m := by rw [hV.2, hvl]
  have hres1 : residue1 (pub R (nBits * m)) m q.chal (q.proof Vs ip) = -((excess R q.z v + lackB R m v W q.z) • (pub R (nBits * m)).B) := by
    rw [residue1_honest (t0 := t0Of m q.y q.z (aLOf R (v ++ List.replicate pad 0))
        (aRM (aROf R (v ++ List.replicate pad 0)) (missL W (nBits * m) q.z) q.y))
      (t1 := t1Of m q.y q.z (aLOf R (v ++ List.replicate pad 0))
        (aRM (aROf R (v ++ List.replicate pad 0)) (missL W (nBits * m) q.z) q.y) q.sL q.sR) (t2 := t2Of m q.y q.sL q.sR)
      (tau1 := coins.t1Blind) (tau2 := coins.t2Blind) (v := fun j => (v ++ List.replicate pad 0).getD j 0)
      (gamma := fun j => (Vs.map fun V => V.blindingFactor).getD j 0)]
    · have ht0 := t0_honest R q.y q.z (v ++ List.replicate pad 0)
      rw [hvl] at ht0
      have hd : t0Of m q.y q.z (aLOf R (v ++ List.replicate pad 0))
          (aRM (aROf R (v ++ List.replicate pad 0)) (missL W (nBits * m) q.z) q.y) =
          t0Of m q.y q.z (aLOf R (v ++ List.replicate pad 0)) (aROf R (v ++ List.replicate pad 0)) - lackB R m v W q.z := by
        unfold t0Of
        rw [r0Vec_mask R v pad m hm W hy, r0Vec_pad R v pad m hm, aLOf_pad R v pad m hm, List.map_map, dot_ranges, dot_ranges,
          lackB, ← Finset.sum_sub_distrib]
        apply Finset.sum_congr rfl
        intro i _
        rw [r0At_split]
        simp only [Function.comp]
        ring
      rw [hd, ht0, ← neg_smul, ← excess_pad R q.z v pad]
      congr 1
      unfold excess Run.chal
      rw [hvl]
      simp only [mul_sub, Finset.sum_sub_distrib]
      ring
    · intro j hj
      exact hV.getD (by rw [hvl]; exact hj)
    · rw [hq]; unfold runM; rw [hvl]; rfl
    · rw [hq]; unfold runM; rw [hvl]; rfl
    · show q.t = _
      rw [htd, hl, hr, dot_lr _ _ _ haL haR' hsL hsR]
      rfl
    · show q.taux = _
      have : q.taux = computeTaux q.x q.z coins.t1Blind coins.t2Blind Vs := by rw [hq]; rfl
      rw [this, computeTaux_eq, hVl]
      rfl
  have hres2 : residue2L (pub R (nBits * m)) m q.chal (IP.chals R ip) (q.proof Vs ip) ip = -lackH R m W q.y q.z := by
    have hv := h4 (by rwa [IP.chals_eq])
    rw [hl, hr] at hv
    unfold IP.VerEq at hv
    rw [commitPoint_lr hy _ _ _ hG hH haL haR' hsL hsR, ← hl, ← hr, ← htd] at hv
    have hmsm : msm (aRM (aROf R (v ++ List.replicate pad 0)) (missL W (nBits * m) q.z) q.y) (pub R (nBits * m)).Hv =
        msm (aROf R (v ++ List.replicate pad 0)) (pub R (nBits * m)).Hv - lackH R m W q.y q.z := by
      unfold aRM
      rw [msm_vsub _ _ _ (by rw [had_length, hpfOf_length, hm', haR, min_self]), hm', hpfOf_ne hy]
      congr 1
      have e : had (missL W (nBits * m) q.z) (powers q.y⁻¹ (nBits * m)) =
          (List.range (nBits * m)).map fun i => missAt W q.z i * q.y⁻¹ ^ i := by
        unfold had missL powers
        apply List.ext_getElem
        · simp
        · intro i a b; simp
      rw [e, msm_map_range _ _ _ hH]
      rfl
    rw [hmsm] at hv
    have hA : q.A = coins.aBlind • (pub R (nBits * m)).Bl + (msm (aLOf R (v ++ List.replicate pad 0)) (pub R (nBits * m)).Gv +
      msm (aROf R (v ++ List.replicate pad 0)) (pub R (nBits * m)).Hv) := by rw [hq]; unfold runM; rw [hvl]
    have hS : q.S = coins.sBlind • (pub R (nBits * m)).Bl + (msm q.sL (pub R (nBits * m)).Gv +
      msm q.sR (pub R (nBits * m)).Hv) := by rw [hq]; unfold runM; rw [hvl]
    have hmu : q.mu = coins.sBlind * q.x + coins.aBlind := by rw [hq]; rfl
    unfold residue2L
    show ip.A • msm (IP.sVec (IP.chals R ip)) (pub R (nBits * m)).Gv + q.z • (pub R (nBits * m)).Gv.sum
      + (ip.B • msm (IP.sVec ((IP.chals R ip).map fun u => u⁻¹)) (vsmul (hpfOf q.y (nBits * m)) (pub R (nBits * m)).Hv)
        - msm (had (sumZ q.z 2 m) (hpfOf q.y (nBits * m))) (pub R (nBits * m)).Hv - q.z • (pub R (nBits * m)).Hv.sum)
      + (q.w * (ip.A * ip.B - q.t)) • (pub R (nBits * m)).B + q.mu • (pub R (nBits * m)).Bl - q.A - q.x • q.S
      - (msm ((IP.chals R ip).map fun u => u * u) ip.L + msm ((IP.chals R ip).map fun u => u⁻¹ * u⁻¹) ip.R) = _
    rw [hA, hS, hmu]
    have := sub_eq_zero.2 hv
    rw [← sub_eq_zero, ← this]
    module
  rw [verify_eq R c _ ip rfl hk32 hk h2 h3 (by simp [Run.proof, hVl]), hch, hres1, hres2]
  have e : -((excess R q.z v + lackB R m v W q.z) • (pub R (nBits * m)).B) + c • -lackH R m W q.y q.z =
      -((excess R q.z v + lackB R m v W q.z) • (pub R (64 * m)).B + c • lackH R m W q.y q.z) := by
    rw [smul_neg, ← neg_add]
  simp only [e, neg_eq_zero]

/-- The data determine the proof. -/
theorem Disturbed.unique {R : Ristretto F G} {m : Nat} {v : List F} {coins : Coins F} {W : Nat → Bool} {p p' : Proof F G} {ip ip' : IP.Proof F G}
    (h : Disturbed R m v coins W p ip) (h' : Disturbed R m v coins W p' ip') : p = p' ∧ ip = ip' := by
  have eV : p.V = p'.V := by rw [h.V, h'.V]
  have eA : p.A = p'.A := by rw [h.A, h'.A]
  have eS : p.S = p'.S := by rw [h.S, h'.S]
  have ey : (chalOf R p).y = (chalOf R p').y := by unfold chalOf; dsimp only; rw [eV, eA, eS]
  have ez : (chalOf R p).z = (chalOf R p').z := by unfold chalOf; dsimp only; rw [eV, eA, eS]
  have e1 : p.T1 = p'.T1 := by rw [h.T1, h'.T1, ey, ez]
  have e2 : p.T2 = p'.T2 := by rw [h.T2, h'.T2, ey]
  have ex : (chalOf R p).x = (chalOf R p').x := by unfold chalOf; dsimp only; rw [eV, eA, eS, e1, e2]
  have e3 : p.taux = p'.taux := by rw [h.taux, h'.taux, ex, ez]
  have e4 : p.mu = p'.mu := by rw [h.mu, h'.mu, ex]
  have e5 : p.t = p'.t := by rw [h.t, h'.t, ex, ey, ez]
  have ec : chalOf R p = chalOf R p' := by unfold chalOf; dsimp only; rw [eV, eA, eS, e1, e2, e3, e4, e5]
  have ei : ip = ip' := by
    have := h.gen
    rw [ec, h'.gen] at this
    exact (Res.ok.inj this).symm
  have e6 : p.ip = p'.ip := by rw [h.hasIp, h'.hasIp, ei]
  refine ⟨?_, ei⟩
  cases p; cases p'
  simp_all

/-- With nothing missing it is the honest proof. -/
theorem disturbed_iff_honest {R : Ristretto F G} {m : Nat} {v : List F} {coins : Coins F} {p : Proof F G} {ip : IP.Proof F G} :
    Disturbed R m v coins (fun _ => true) p ip ↔ Honest R m v coins p ip := by
  have e : r0AtS R v (fun _ => true) = r0At R v := by
    funext y z i
    simp [r0AtS, r0At, maskAt]
  constructor
  · rintro ⟨h1, h2, h3, h4, h5, h6, h7, h8, h9, h10⟩
    rw [e] at h4 h8 h10
    exact ⟨h1, h2, h3, h4, h5, h6, h7, h8, h9, h10⟩
  · rintro ⟨h1, h2, h3, h4, h5, h6, h7, h8, h9, h10⟩
    rw [← e] at h4 h8 h10
    exact ⟨h1, h2, h3, h4, h5, h6, h7, h8, h9, h10⟩

/-- A disturbed proof with `y ≠ 0` comes from the run. -/
theorem Disturbed.run_eq (R : Ristretto F G) {v : List F} {pad m k : Nat} (hm : v.length + pad = m) {Vs : List (Commitment F G)} {coins : Coins F}
    {W : Nat → Bool} (hVs : Vs = (List.range m).map fun j =>
      ⟨v.getD j 0 • (pub R (nBits * m)).B + coins.vBlind j • (pub R (nBits * m)).Bl, coins.vBlind j⟩) (hk : 2 ^ k = nBits * m) (hk32 : k < 32)
    {p : Proof F G} {ip : IP.Proof F G} (h : Disturbed R m v coins W p ip) (hy : (chalOf R p).y ≠ 0) :
    let q := runM R (Vs.flatMap fun V => R.pBytes V.value) (v ++ List.replicate pad 0) Vs coins (missL W (nBits * m))
    q.y = (chalOf R p).y ∧ IP.generate R (pub R (nBits * m)).Gv (pub R (nBits * m)).Hv q.l q.r (hpfOf q.y (nBits * m))
      (q.w • (pub R (nBits * m)).B) = .ok ip ∧ p = q.proof Vs ip := by
  dsimp only
  have hvl : (v ++ List.replicate pad (0 : F)).length = m := by simp [hm]
  have hg : (pub R (nBits * m)).Gv.length = 64 * m := by simp [pub]
  have hh : (pub R (nBits * m)).Hv.length = 64 * m := by simp [pub]
  have haL := aLOf_pad R v pad m hm
  have haR := aROf_pad R v pad m hm
  generalize hq : runM R (Vs.flatMap fun V => R.pBytes V.value) (v ++ List.replicate pad 0) Vs coins (missL W (nBits * m)) = q
  have hsL : q.sL = (List.range (64 * m)).map coins.sL := by rw [← hq]; unfold runM; rw [hvl]
  have hsR : q.sR = (List.range (64 * m)).map coins.sR := by rw [← hq]; unfold runM; rw [hvl]
  have hA : q.A = p.A := by
    have : q.A = coins.aBlind • (pub R (nBits * m)).Bl + (msm (aLOf R (v ++ List.replicate pad 0)) (pub R (nBits * m)).Gv +
      msm (aROf R (v ++ List.replicate pad 0)) (pub R (nBits * m)).Hv) := by rw [← hq]; unfold runM; rw [hvl]
    rw [this, haL, haR, msm_ranges _ _ hg hh, h.A]
  have hS : q.S = p.S := by
    have : q.S = coins.sBlind • (pub R (nBits * m)).Bl + (msm q.sL (pub R (nBits * m)).Gv +
      msm q.sR (pub R (nBits * m)).Hv) := by rw [← hq]; unfold runM; rw [hvl]
    rw [this, hsL, hsR, msm_ranges _ _ hg hh, h.S]
  have hV : Vs = p.V := by rw [h.V, hVs]
  have hqy : q.y = (chalOf R p).y := by
    have : q.y = R.sDerive ((Vs.flatMap fun V => R.pBytes V.value) ++ R.pBytes q.A ++ R.pBytes q.S) := by rw [← hq]; rfl
    rw [this, hA, hS, hV]
    rfl
  have hy' : q.y ≠ 0 := by rw [hqy]; exact hy
  have haR' : (aRM (aROf R (v ++ List.replicate pad 0)) (missL W (nBits * m) q.z) q.y).length = nBits * m := by
    rw [aRM_length _ (by rw [aROf_length, hvl, missL_length]), aROf_length, hvl]
  obtain ⟨ip', g1, -⟩ := IP.generate_eq R (q.w • (pub R (nBits * m)).B) k hk32 q.l q.r
    (hpfOf q.y (nBits * m)) (pub R (nBits * m)).Gv (pub R (nBits * m)).Hv
    (by
      have hl : q.l = lVec q.z q.x (aLOf R (v ++ List.replicate pad 0)) q.sL := by rw [← hq]; rfl
      rw [hl, lVec_length (m := m) _ _ (by rw [aLOf_length, hvl]) (by rw [hsL]; simp [nBits]), hk])
    (by
      have hr : q.r = rVec m q.y q.z q.x (aRM (aROf R (v ++ List.replicate pad 0)) (missL W (nBits * m) q.z) q.y) q.sR := by
        rw [← hq]; unfold runM; rw [hvl]
      rw [hr, rVec_length _ _ _ haR' (by rw [hsR]; simp [nBits]), hk])
    (by rw [hg, hk, nBits]) (by rw [hh, hk, nBits]) (by rw [hpfOf_length, hk])
  obtain ⟨-, hd⟩ := runM_disturbed R v pad m hm Vs coins W hVs hq.symm hy' ip' g1
  obtain ⟨e1, e2⟩ := h.unique hd
  subst e2
  exact ⟨hqy, g1, e1⟩

theorem pow_of_V {m k : Nat} (hk : m = 2 ^ k) (hlt : 64 * m < 2 ^ 32) : 2 ^ (k + 6) = nBits * m ∧ k + 6 < 32 := by
  have hk6 : 2 ^ (k + 6) = nBits * m := by rw [hk, pow_add, Nat.mul_comm]; rfl
  refine ⟨hk6, ?_⟩
  by_contra hc
  have : 2 ^ 32 ≤ 2 ^ (k + 6) := Nat.pow_le_pow_right (by norm_num) (by omega)
  rw [hk6, nBits] at this
  omega

/-- The commitments of a call do not depend on the bases. -/
theorem proveCommit_spec (R : Ristretto F G) (b : Nat) (v : List F) (coins : Coins F) (pad m : Nat) (hm : v.length + pad = m)
    (hlt : 64 * m < 2 ^ 32) (c : List (Commitment F G) × HashCacher) (hc : c = proveCommit R (newPed R b) (v ++ List.replicate pad 0) coins) :
    c.1 = ((List.range m).map fun j =>
      (⟨v.getD j 0 • (pub R (nBits * m)).B + coins.vBlind j • (pub R (nBits * m)).Bl, coins.vBlind j⟩ : Commitment F G)) ∧
    c.2.cache = (c.1.flatMap fun V => R.pBytes V.value) ∧ Commits (pub R (nBits * m)) (v ++ List.replicate pad 0) c.1 := by
  have hvl : (v ++ List.replicate pad (0 : F)).length = m := by simp [hm]
  have hVs := proveCommit_eq R (m := m) hlt (v ++ List.replicate pad 0) coins hvl
  have hcache := proveCommit_cache R (newPed R m) (v ++ List.replicate pad 0) coins
  have hcom := proveCommit_commits R (m := m) hlt (v ++ List.replicate pad 0) coins hvl
  simp only [getD_pad] at hVs
  rw [proveCommit_base R b m] at hc
  rw [hc]
  exact ⟨hVs, hcache, hcom⟩

theorem tail_V (R : Ristretto F G) (ped : Pedersen G) (hs : HashCacher) (v : List F) (Vs : List (Commitment F G)) (coins : Coins F)
    (p : Proof F G) (h : Out Usual (proveTailP R ped hs v Vs false coins) (.ok p)) : p.V = Vs := by
  obtain ⟨m1, m2, c, m, m', h1, h2, W, -, -, -, -, -, -, -, -, -, -, h⟩ := (proveTailP_tailD R ped hs v Vs coins p).1 h
  unfold tailD at h
  dsimp only at h
  obtain ⟨a, -, h⟩ := Res.bind_eq_ok.1 h
  obtain ⟨s, -, h⟩ := Res.bind_eq_ok.1 h
  obtain ⟨poly, -, h⟩ := Res.bind_eq_ok.1 h
  obtain ⟨l, -, h⟩ := Res.bind_eq_ok.1 h
  obtain ⟨r, -, h⟩ := Res.bind_eq_ok.1 h
  obtain ⟨t, -, h⟩ := Res.bind_eq_ok.1 h
  split at h
  · cases h
  · obtain ⟨ip, -, h⟩ := Res.bind_eq_ok.1 h
    rw [← Res.ok.inj h]

theorem proveP_out (R : Ristretto F G) (v : List F) (coins : Coins F) (p : Proof F G) : Out Usual (proveP R v false coins) (.ok p) ↔
    1 ≤ v.length ∧ ∃ m1 b, Usual m1 ∧ Usual b ∧
      Out Usual (proveTailP R (newPed R b) (proveCommit R (newPed R b) (v ++ List.replicate (padAmount m1) 0) coins).2
        (v ++ List.replicate (padAmount m1) 0) (proveCommit R (newPed R b) (v ++ List.replicate (padAmount m1) 0) coins).1 false coins) (.ok p) := by
  unfold proveP
  constructor
  · intro h
    split at h
    · cases h
    next h1 =>
    rw [out_set_bind] at h
    obtain ⟨m, -, h⟩ := out_get_bind.1 h
    split at h
    · cases h
    obtain ⟨m1, u1, h⟩ := out_get_bind.1 h
    obtain ⟨m2, -, h⟩ := out_get_bind.1 h
    rw [out_set_bind] at h
    obtain ⟨b, ub, h⟩ := out_get_bind.1 h
    exact ⟨by omega, m1, b, u1, ub, h⟩
  · rintro ⟨h1, m1, b, u1, ub, h⟩
    rw [if_neg (by omega), out_set_bind]
    have hu : Usual 1 := ⟨le_rfl, by norm_num⟩
    refine out_get_bind.2 ⟨1, hu, ?_⟩
    rw [if_neg (by decide)]
    refine out_get_bind.2 ⟨m1, u1, out_get_bind.2 ⟨1, hu, ?_⟩⟩
    rw [out_set_bind]
    exact out_get_bind.2 ⟨b, ub, h⟩

theorem proveCommit_length (R : Ristretto F G) (ped : Pedersen G) (v : List F) (coins : Coins F) : (proveCommit R ped v coins).1.length = v.length := by
  simp [proveCommit]

/-- C104: the proofs `Prove` without debug returns while `M` changes are exactly these: for the values padded to a power of two, with the blinding
scalars from some index `c` on replaced by zero, and with any elements after the first 64 of the vector `z² 2^n, z³ 2^n, …`
missing. The number of padding values is determined by the value `M` has when it is computed. -/
theorem C104_returned (R : Ristretto F G) (v : List F) (coins : Coins F) (p : Proof F G) (hlt : 64 * p.V.length < 2 ^ 32) :
    Out Usual (proveP R v false coins) (.ok p) ↔
    1 ≤ v.length ∧ (∃ m1, Usual m1 ∧ p.V.length = v.length + padAmount m1) ∧ (∃ k, p.V.length = 2 ^ k) ∧
    (chalOf R p).x ≠ 0 ∧ (chalOf R p).y ≠ 0 ∧ (chalOf R p).z ≠ 0 ∧
    ∃ (c : Nat) (W : Nat → Bool) (ip : IP.Proof F G), 64 ≤ c ∧ c ≤ 64 * p.V.length ∧ (∀ i < 64, W i) ∧
      Disturbed R p.V.length v (cut coins c) W p ip := by
  rw [proveP_out]
  constructor
  · rintro ⟨h1, m1, b, u1, ub, h⟩
    have hVl : p.V.length = v.length + padAmount m1 := by
      rw [tail_V _ _ _ _ _ _ _ h, proveCommit_length]
      simp
    have hvl : (v ++ List.replicate (padAmount m1) (0 : F)).length = p.V.length := by simp [hVl]
    have hu : Usual (v ++ List.replicate (padAmount m1) (0 : F)).length := by
      rw [hvl]; exact ⟨by omega, hlt⟩
    rw [proveTailP_out R ub _ _ _ _ hu, hvl] at h
    obtain ⟨⟨k, hk⟩, -, c, W, ip, c1, c2, hW, hx, hy, hz, hg, hp⟩ := h
    obtain ⟨hVs, hcache, -⟩ := proveCommit_spec R b v coins _ _ hVl.symm hlt _ rfl
    rw [hcache] at hx hy hz hg hp
    obtain ⟨hc, hd⟩ := runM_disturbed R v _ _ hVl.symm _ (cut coins c) W hVs rfl hy ip hg
    rw [← hp] at hc hd
    refine ⟨h1, ⟨m1, u1, hVl⟩, ⟨k, hk⟩, ?_, ?_, ?_, c, W, ip, c1, c2, hW, hd⟩
    · rw [hc]; exact hx
    · rw [hc]; exact hy
    · rw [hc]; exact hz
  · rintro ⟨h1, ⟨m1, u1, hVl⟩, ⟨k, hk⟩, hx, hy, hz, c, W, ip, c1, c2, hW, hd⟩
    have u : Usual 1 := ⟨le_rfl, by norm_num⟩
    refine ⟨h1, m1, 1, u1, u, ?_⟩
    have hvl : (v ++ List.replicate (padAmount m1) (0 : F)).length = p.V.length := by simp [hVl]
    have hu : Usual (v ++ List.replicate (padAmount m1) (0 : F)).length := by
      rw [hvl]; exact ⟨by omega, hlt⟩
    rw [proveTailP_out R u _ _ _ _ hu, hvl]
    obtain ⟨hVs, hcache, -⟩ := proveCommit_spec R 1 v coins _ _ hVl.symm hlt _ rfl
    obtain ⟨hk6, hk32⟩ := pow_of_V hk hlt
    obtain ⟨e1, e2, e3⟩ := Disturbed.run_eq R hVl.symm (coins := cut coins c) hVs hk6 hk32 hd hy
    rw [hcache]
    have hqy := e1 ▸ hy
    obtain ⟨hc, -⟩ := runM_disturbed R v _ _ hVl.symm _ (cut coins c) W hVs rfl hqy ip e2
    rw [← e3] at hc
    rw [hc] at hx hz
    exact ⟨⟨k, hk⟩, by omega, c, W, ip, c1, c2, hW, hx, hqy, hz, e2, e3⟩

/-- C104: what `Verify` with `M` the number of commitments makes of such a proof. -/
theorem C104_verify (R : Ristretto F G) (v : List F) (coins : Coins F) (p : Proof F G) (hlt : 64 * p.V.length < 2 ^ 32) {k : Nat}
    (hk : p.V.length = 2 ^ k) (hl : v.length ≤ p.V.length) (hy : (chalOf R p).y ≠ 0) (W : Nat → Bool) (ip : IP.Proof F G)
    (hd : Disturbed R p.V.length v coins W p ip) (hu : ∀ u ∈ IP.challenges R ip.L ip.R, u ≠ 0) (c : F) :
    verify R p.V.length p c =
      if (excess R (chalOf R p).z v + lackB R p.V.length v W (chalOf R p).z) • (pub R (64 * p.V.length)).B +
        c • lackH R p.V.length W (chalOf R p).y (chalOf R p).z = 0 then .ok true
      else .err "megacheck failed" := by
  have hVl : v.length + (p.V.length - v.length) = p.V.length := by omega
  obtain ⟨hVs, -, hC⟩ := proveCommit_spec R 1 v coins _ _ hVl hlt _ rfl
  obtain ⟨hk6, hk32⟩ := pow_of_V hk hlt
  obtain ⟨e1, e2, e3⟩ := hd.run_eq R hVl hVs hk6 hk32 hy
  have hqy := e1 ▸ hy
  obtain ⟨hc, -⟩ := runM_disturbed R v _ _ hVl _ coins W hVs rfl hqy ip e2
  obtain ⟨-, -, h⟩ := runM_verify R v _ _ hVl _ coins W hk6 hk32 hC rfl hqy ip e2
  have := h hu c
  rw [← e3] at this hc
  rw [this, hc]
  rfl

/-- The proof for given missing elements exists. -/
theorem Disturbed.exists (R : Ristretto F G) (hR : ∀ b, R.sDerive b ≠ 0) (v : List F) (coins : Coins F) {m k : Nat} (hm : v.length ≤ m) (hk : m = 2 ^ k)
    (hlt : 64 * m < 2 ^ 32) (W : Nat → Bool) : ∃ p ip, Disturbed R m v coins W p ip := by
  have hVl : v.length + (m - v.length) = m := by omega
  obtain ⟨hVs, -, -⟩ := proveCommit_spec R 1 v coins _ _ hVl hlt _ rfl
  obtain ⟨hk6, hk32⟩ := pow_of_V hk hlt
  have hvl : (v ++ List.replicate (m - v.length) (0 : F)).length = m := by simp [hm]
  generalize proveCommit R (newPed R 1) (v ++ List.replicate (m - v.length) 0) coins = Vs at hVs
  generalize hq : runM R (Vs.1.flatMap fun V => R.pBytes V.value) (v ++ List.replicate (m - v.length) 0) Vs.1 coins (missL W (nBits * m)) = q
  have hsL : q.sL = (List.range (64 * m)).map coins.sL := by rw [← hq]; unfold runM; rw [hvl]
  have hsR : q.sR = (List.range (64 * m)).map coins.sR := by rw [← hq]; unfold runM; rw [hvl]
  have haR' : (aRM (aROf R (v ++ List.replicate (m - v.length) 0)) (missL W (nBits * m) q.z) q.y).length = nBits * m := by
    rw [aRM_length _ (by rw [aROf_length, hvl, missL_length]), aROf_length, hvl]
  obtain ⟨ip, g1, -⟩ := IP.generate_eq R (q.w • (pub R (nBits * m)).B) _ hk32 q.l q.r
    (hpfOf q.y (nBits * m)) (pub R (nBits * m)).Gv (pub R (nBits * m)).Hv
    (by
      have hl : q.l = lVec q.z q.x (aLOf R (v ++ List.replicate (m - v.length) 0)) q.sL := by rw [← hq]; rfl
      rw [hl, lVec_length (m := m) _ _ (by rw [aLOf_length, hvl]) (by rw [hsL]; simp [nBits]), hk6])
    (by
      have hr : q.r = rVec m q.y q.z q.x (aRM (aROf R (v ++ List.replicate (m - v.length) 0)) (missL W (nBits * m) q.z) q.y) q.sR := by
        rw [← hq]; unfold runM; rw [hvl]
      rw [hr, rVec_length _ _ _ haR' (by rw [hsR]; simp [nBits]), hk6])
    (by simp [pub, hk6]) (by simp [pub, hk6]) (by rw [hpfOf_length, hk6])
  have hqy : q.y ≠ 0 := by rw [← hq]; exact hR _
  exact ⟨_, ip, (runM_disturbed R v _ _ hVl _ coins W hVs hq.symm hqy ip g1).2⟩

theorem Disturbed.length {R : Ristretto F G} {m : Nat} {v : List F} {coins : Coins F} {W : Nat → Bool} {p : Proof F G} {ip : IP.Proof F G}
    (h : Disturbed R m v coins W p ip) : p.V.length = m := by
  rw [h.V]; simp

/-- C104: if no challenge is zero, every one of these proofs is returned in some execution, next to other calls of `Prove`. -/
theorem C104_reached (R : Ristretto F G) (hR : ∀ b, R.sDerive b ≠ 0) (v : List F) (hv : 1 ≤ v.length) (coins : Coins F) {m m1 k : Nat}
    (hm1 : Usual m1) (hm : m = v.length + padAmount m1) (hk : m = 2 ^ k) (hlt : 64 * m < 2 ^ 32) (c : Nat) (hc : 64 ≤ c) (hc' : c ≤ 64 * m)
    (W : Nat → Bool) (hW : ∀ i < 64, W i) (M0 : Nat) :
    ∃ (p : Proof F G) (ip : IP.Proof F G) (v' : Nat → List F) (sched : List (Option Nat)), (∀ j, Usual (v' j).length) ∧
      (((Calls.mk M0 (withProves R (proveP R v false coins) v' coins)).exec sched).prog none).result = some (.ok p) ∧
      Disturbed R m v (cut coins c) W p ip := by
  obtain ⟨p, ip, hd⟩ := Disturbed.exists R hR v (cut coins c) (m := m) (by omega) hk hlt W
  have hl := hd.length
  have h := (C104_returned R v coins p (by rw [hl]; exact hlt)).2 ⟨hv, ⟨m1, hm1, by rw [hl, hm]⟩, ⟨k, by rw [hl, hk]⟩, hR _, hR _, hR _,
    c, W, ip, hc, by rw [hl]; exact hc', hW, by rw [hl]; exact hd⟩
  obtain ⟨v', sched, h1, h2⟩ := C103_reachable R (D := Usual) (fun _ h => h.1) ⟨le_rfl, by norm_num⟩ coins _ _ M0 h
  exact ⟨p, ip, v', sched, h1, h2, hd⟩

/-- C104: conversely, in every execution of calls of `Prove` and `Verify` in which `M` does not become unusually large, a proof returned by a
call of `Prove` without debug is one of these. -/
theorem C104_interleaved (R : Ristretto F G) {ι κ : Type} [DecidableEq ι] [DecidableEq κ] (M0 : Nat) (v : ι → List F)
    (debug : ι → Bool) (coins : ι → Coins F) (p : κ → Proof F G) (c : κ → F) (sched : List (ι ⊕ κ))
    (hM : ∀ pre, pre <+: sched → Usual ((Calls.mk M0 (mixed R v debug coins p c)).exec pre).M) (i : ι) (hi : debug i = false) (q : Proof F G)
    (hlt : 64 * q.V.length < 2 ^ 32) (h : (((Calls.mk M0 (mixed R v debug coins p c)).exec sched).prog (.inl i)).result = some (.ok q)) :
    ∃ (n : Nat) (W : Nat → Bool) (ip : IP.Proof F G), 64 ≤ n ∧ n ≤ 64 * q.V.length ∧ (∀ i < 64, W i) ∧
      Disturbed R q.V.length (v i) (cut (coins i) n) W q ip := by
  have ho := Calls.exec_out (.inl i) (.ok q) sched (Calls.mk M0 (mixed R v debug coins p c)) hM h
  change Out Usual (proveP R (v i) (debug i) (coins i)) (.ok q) at ho
  rw [hi] at ho
  obtain ⟨-, -, -, -, -, -, h⟩ := (C104_returned R (v i) (coins i) q hlt).1 ho
  exact h

/-- C104: a call of `Prove` on values in range can return, without an error, a proof `Verify` rejects for all verifier scalars but one at most. -/
theorem C104_rejected_violated (R : Ristretto F G) (hR : ∀ b, R.sDerive b ≠ 0) (v : List F) (hv : 1 ≤ v.length)
    (coins : Coins F) {m m1 k : Nat} (hm1 : Usual m1) (hm : m = v.length + padAmount m1) (hk : m = 2 ^ k) (h2 : 2 ≤ m) (hlt : 64 * m < 2 ^ 32)
    (hH : (pub R (64 * m)).Hv.getD 64 0 ≠ 0) (M0 : Nat) :
    ∃ (p : Proof F G) (v' : Nat → List F) (sched : List (Option Nat)), (∀ j, Usual (v' j).length) ∧
      (((Calls.mk M0 (withProves R (proveP R v false coins) v' coins)).exec sched).prog none).result = some (.ok p) ∧
      p.V.length = m ∧ ∀ c c', verify R m p c = .ok true → verify R m p c' = .ok true → c = c' := by
  obtain ⟨p, ip, v', sched, h1, h3, hd⟩ := C104_reached R hR v hv coins hm1 hm hk hlt (64 * m) (by omega) le_rfl (fun i => i != 64)
    (fun i hi => by simp; omega) M0
  refine ⟨p, v', sched, h1, h3, hd.length, fun c c' e e' => ?_⟩
  have hl := hd.length
  have hver := C104_verify R v _ p (by rw [hl]; exact hlt) (by rw [hl]; exact hk) (by rw [hl]; omega) (hR _) _ ip (by rw [hl]; exact hd)
    (challenges_ne R hR _ _)
  rw [hl] at hver
  rw [hver] at e e'
  split at e
  · next z1 =>
    split at e'
    · next z2 =>
      have hne : lackH R m (fun i => i != 64) (chalOf R p).y (chalOf R p).z ≠ 0 := by
        unfold lackH
        rw [Finset.sum_eq_single 64]
        · refine smul_ne_zero ?_ hH
          have hz : (chalOf R p).z ≠ 0 := hR _
          have hy : (chalOf R p).y ≠ 0 := hR _
          simp [missAt, hz, hy]
        · intro i _ hi
          simp [missAt, hi]
        · intro h
          exact absurd (Finset.mem_range.2 (by omega)) h
      have : (c - c') • lackH R m (fun i => i != 64) (chalOf R p).y (chalOf R p).z = 0 := by
        rw [sub_smul, eq_neg_of_add_eq_zero_right z1, eq_neg_of_add_eq_zero_right z2, sub_self]
      rcases smul_eq_zero.1 this with h | h
      · exact sub_eq_zero.1 h
      · exact absurd h hne
    · cases e'
  · cases e

/-- C105: a call of `Prove` on values in range can return a proof that `Verify` accepts, but in which only the first 64 bits are blinded:
it is the honest proof for blinding scalars that are zero from any index `c ≥ 64` on. -/
theorem C105_unblinded_violated (R : Ristretto F G) (hR : ∀ b, R.sDerive b ≠ 0) (v : List F) (hv : 1 ≤ v.length) (hv' : ∀ a ∈ v, R.sNat a < 2 ^ 64)
    (coins : Coins F) {m m1 k : Nat} (hm1 : Usual m1) (hm : m = v.length + padAmount m1) (hk : m = 2 ^ k) (hlt : 64 * m < 2 ^ 32)
    (c : Nat) (hc : 64 ≤ c) (hc' : c ≤ 64 * m) (M0 : Nat) :
    ∃ (p : Proof F G) (ip : IP.Proof F G) (v' : Nat → List F) (sched : List (Option Nat)), (∀ j, Usual (v' j).length) ∧
      (((Calls.mk M0 (withProves R (proveP R v false coins) v' coins)).exec sched).prog none).result = some (.ok p) ∧
      Honest R m v (cut coins c) p ip ∧ ∀ d, verify R m p d = .ok true := by
  obtain ⟨p, ip, v', sched, h1, h3, hd⟩ := C104_reached R hR v hv coins hm1 hm hk hlt c hc hc' (fun _ => true) (fun _ _ => rfl) M0
  refine ⟨p, ip, v', sched, h1, h3, disturbed_iff_honest.1 hd, fun d => ?_⟩
  have hl := hd.length
  have hver := C104_verify R v _ p (by rw [hl]; exact hlt) (by rw [hl]; exact hk) (by rw [hl]; omega) (hR _) _ ip (by rw [hl]; exact hd)
    (challenges_ne R hR _ _) d
  rw [hl] at hver
  rw [hver, excess_zero R _ hv']
  simp [lackB, lackH, missAt]

theorem toy_H (m i : Nat) (h : i < 64 * m) : (pub Toy.ris (64 * m)).Hv.getD i 0 ≠ 0 := by
  have : (pub Toy.ris (64 * m)).Hv.getD i 0 = chainAt Toy.ris (strBytes "dusk.BulletProof.vec1" ++ [1]) i := by
    simp [pub, chain, List.getD_eq_getElem?_getD, h]
  rw [this]
  cases i with
  | zero => exact Toy.dv_ne_zero _
  | succ i => exact Toy.dv_ne_zero _

theorem toy_two : ∀ a ∈ [(1 : Toy.K), 2], Toy.ris.sNat a < 2 ^ 64 := by
  intro a ha
  rcases List.mem_cons.1 ha with rfl | ha
  · have := toy_sNat 1 (by norm_num)
    rw [Nat.cast_one] at this
    rw [this]; norm_num
  · have := toy_sNat 2 (by norm_num)
    rw [Nat.cast_ofNat] at this
    rw [List.mem_singleton.1 ha, this]; norm_num

example (coins : Coins Toy.K) (M0 : Nat) : ∃ (p : Proof Toy.K Toy.K) (v' : Nat → List Toy.K) (sched : List (Option Nat)), (∀ j, Usual (v' j).length) ∧
    (((Calls.mk M0 (withProves Toy.ris (proveP Toy.ris [1, 2] false coins) v' coins)).exec sched).prog none).result = some (.ok p) ∧
    p.V.length = 2 ∧ ∀ c c', verify Toy.ris 2 p c = .ok true → verify Toy.ris 2 p c' = .ok true → c = c' :=
  C104_rejected_violated Toy.ris Toy.dv_ne_zero [1, 2] (by simp) coins (m1 := 2) (k := 1) ⟨by norm_num, by norm_num⟩ (by decide) (by norm_num) le_rfl
    (by norm_num) (toy_H 2 64 (by norm_num)) M0

example (coins : Coins Toy.K) (M0 : Nat) : ∃ (p : Proof Toy.K Toy.K) (ip : IP.Proof Toy.K Toy.K) (v' : Nat → List Toy.K) (sched : List (Option Nat)),
    (∀ j, Usual (v' j).length) ∧
    (((Calls.mk M0 (withProves Toy.ris (proveP Toy.ris [1, 2] false coins) v' coins)).exec sched).prog none).result = some (.ok p) ∧
    Honest Toy.ris 2 [1, 2] (cut coins 64) p ip ∧ ∀ d, verify Toy.ris 2 p d = .ok true :=
  C105_unblinded_violated Toy.ris Toy.dv_ne_zero [1, 2] (by simp) toy_two coins (m1 := 2) (k := 1) ⟨by norm_num, by norm_num⟩ (by decide) (by norm_num)
    (by norm_num) 64 le_rfl (by norm_num) M0

end Dusk.RP
