import Verif.Lemmas.RPProve
/-!
# `Prove` as the protocol of the paper
-/

set_option linter.unusedSectionVars false

namespace Dusk.RP

variable {F G : Type} [Field F] [AddCommGroup G] [Module F G] [DecidableEq F]

/-- Number of values after padding. -/
theorem padAmount_spec {n : Nat} (h1 : 1 ≤ n) (h2 : n ≤ 16) :
    ∃ k, n + padAmount n = 2 ^ k ∧ k ≤ 4 ∧ ∀ j, n ≤ 2 ^ j → k ≤ j := by
  have hn : (UInt32.ofNat n).toNat = n := by rw [UInt32.toNat_ofNat']; omega
  obtain ⟨k, h3, -, h5⟩ := IP.C56_diffNextPow2 (UInt32.ofNat n) (by rw [hn]; exact h1)
  rw [hn] at h3 h5
  exact ⟨k, h3, h5 4 (by omega), h5⟩

theorem bitCommit_AL (n : Nat) : (bitCommit (F := F) (n : Int)).AL =
    (List.range 64).map fun i => if n.testBit i then 1 else 0 := by
  unfold bitCommit
  rw [(bitLoop_spec (F := F) _ _).2.2.2]
  apply List.map_congr_left
  intro i hi
  have hi := List.mem_range.1 hi
  rw [UInt64.toNat_ofNat', Int.natAbs_natCast, Nat.testBit_mod_two_pow]
  simp [hi]

theorem aLOf_bits (R : Ristretto F G) : ∀ v : List F,
    aLOf R v = (List.range (64 * v.length)).map (bit R v)
  | [] => rfl
  | x :: v => by
    have ih := aLOf_bits R v
    unfold aLOf at ih ⊢
    rw [List.flatMap_cons, ih, bitCommit_AL, List.length_cons, Nat.mul_succ, Nat.add_comm, List.range_add,
      List.map_append, List.map_map]
    have e1 : (List.range 64).map (fun i => if (R.sNat x).testBit i then (1 : F) else 0) =
        (List.range 64).map (bit R (x :: v)) := by
      apply List.map_congr_left
      intro i hi
      have hi := List.mem_range.1 hi
      unfold bit
      rw [Nat.div_eq_of_lt hi, Nat.mod_eq_of_lt hi, List.getD_cons_zero]
    rw [e1]
    refine congrArg _ (List.map_congr_left fun i _ => ?_)
    unfold bit
    simp only [Function.comp]
    rw [show (64 + i) / 64 = i / 64 + 1 by omega, show (64 + i) % 64 = i % 64 by omega, List.getD_cons_succ]

theorem getD_pad (v : List F) (n j : Nat) : (v ++ List.replicate n 0).getD j 0 = v.getD j 0 := by
  simp only [List.getD_eq_getElem?_getD]
  by_cases h : j < v.length
  · rw [List.getElem?_append_left h]
  · rw [List.getElem?_append_right (by omega), List.getElem?_replicate, List.getElem?_eq_none (by omega : v.length ≤ j)]
    split <;> rfl

theorem bit_pad (R : Ristretto F G) (v : List F) (n i : Nat) : bit R (v ++ List.replicate n 0) i = bit R v i := by
  unfold bit; rw [getD_pad]

/-- The commitments made by `Prove`. -/
theorem proveCommit_eq (R : Ristretto F G) {m : Nat} (hlt : nBits * m < 2 ^ 32) (v : List F) (coins : Coins F)
    (hv : v.length = m) :
    (proveCommit R (newPed R m) v coins).1 = (List.range m).map fun j =>
      ⟨v.getD j 0 • (pub R (nBits * m)).B + coins.vBlind j • (pub R (nBits * m)).Bl, coins.vBlind j⟩ := by
  unfold proveCommit
  rw [newPed_eq R hlt]
  unfold Pedersen.commitToScalar
  apply List.ext_getElem
  · simp [hv]
  · intro i h1 h2
    simp only [List.length_map, List.length_zipIdx] at h1
    simp [List.getD_eq_getElem?_getD, h1]

theorem proveCommit_commits (R : Ristretto F G) {m : Nat} (hlt : nBits * m < 2 ^ 32) (v : List F) (coins : Coins F)
    (hv : v.length = m) : Commits (pub R (nBits * m)) v (proveCommit R (newPed R m) v coins).1 := by
  rw [proveCommit_eq R hlt v coins hv]
  refine ⟨?_, by simp [hv]⟩
  apply List.ext_getElem
  · simp [hv]
  · intro i h1 h2
    simp only [List.length_map, List.length_range] at h1
    simp [List.getD_eq_getElem?_getD, hv, h1]

theorem proveCommit_cache (R : Ristretto F G) (ped : Pedersen G) (v : List F) (coins : Coins F) :
    (proveCommit R ped v coins).2.cache = (proveCommit R ped v coins).1.flatMap fun V => R.pBytes V.value := by
  unfold proveCommit
  rw [foldl_append]
  rfl

/-! ## The run in terms of the specification -/

theorem msm_ranges (f g : Nat → F) {n : Nat} {a b : List G} (ha : a.length = n) (hb : b.length = n) :
    msm ((List.range n).map f) a + msm ((List.range n).map g) b =
      ∑ i ∈ Finset.range n, (f i • a.getD i 0 + g i • b.getD i 0) := by
  rw [msm_map_range f n a ha, msm_map_range g n b hb, Finset.sum_add_distrib]

theorem dot_ranges (f g : Nat → F) (n : Nat) :
    dot ((List.range n).map f) ((List.range n).map g) = ∑ i ∈ Finset.range n, f i * g i := by
  rw [dot_eq_sum _ _ (by simp)]
  simp only [List.length_map, List.length_range]
  apply Finset.sum_congr rfl
  intro i hi
  have := Finset.mem_range.1 hi
  simp [List.getD_eq_getElem?_getD, this]

section
variable (R : Ristretto F G) (v : List F) (pad m : Nat) (hm : v.length + pad = m)
include hm

theorem aLOf_pad : aLOf R (v ++ List.replicate pad 0) = (List.range (64 * m)).map (bit R v) := by
  rw [aLOf_bits]
  simp only [List.length_append, List.length_replicate, hm]
  apply List.map_congr_left
  intro i _
  exact bit_pad R v pad i

theorem aROf_pad : aROf R (v ++ List.replicate pad 0) = (List.range (64 * m)).map fun i => bit R v i - 1 := by
  rw [aROf_eq, aLOf_pad R v pad m hm, List.map_map]; rfl

theorem r0Vec_pad (y z : F) : r0Vec m y z (aROf R (v ++ List.replicate pad 0)) =
    (List.range (64 * m)).map (r0At R v y z) := by
  rw [aROf_pad R v pad m hm]
  unfold r0Vec
  rw [sumZ_eq, Nat.mul_comm m nBits]
  unfold vadd had powers
  apply List.ext_getElem
  · simp
  · intro i h1 h2
    simp only [List.getElem_zipWith, List.getElem_map, List.getElem_range, r0At]
    ring

end

theorem r1Vec_range (m : Nat) (y : F) (sR : Nat → F) : r1Vec m y ((List.range (nBits * m)).map sR) =
    (List.range (64 * m)).map (r1At y sR) := by
  unfold r1Vec had powers
  apply List.ext_getElem
  · simp
  · intro i h1 h2
    simp only [List.getElem_zipWith, List.getElem_map, List.getElem_range, r1At]

theorem map_range_vadd (f g : Nat → F) (n : Nat) (x : F) :
    vadd ((List.range n).map f) (((List.range n).map g).map fun s => s * x) =
      (List.range n).map fun i => f i + g i * x := by
  unfold vadd
  apply List.ext_getElem
  · simp
  · intro i h1 h2
    simp

/-- The proof computed from a run with the commitments of `Prove` is the protocol's. -/
theorem run_honest (R : Ristretto F G) (v : List F) (pad m : Nat) (hm : v.length + pad = m)
    (Vs : List (Commitment F G)) (coins : Coins F)
    (hVs : Vs = (List.range m).map fun j =>
      ⟨v.getD j 0 • (pub R (nBits * m)).B + coins.vBlind j • (pub R (nBits * m)).Bl, coins.vBlind j⟩) {q : Run F G}
    (hq : q = run R (Vs.flatMap fun V => R.pBytes V.value) (v ++ List.replicate pad 0) Vs coins) (ip : IP.Proof F G)
    (hip : IP.generate R (pub R (nBits * m)).Gv (pub R (nBits * m)).Hv q.l q.r
        (hpfOf q.y (nBits * m)) (q.w • (pub R (nBits * m)).B) = .ok ip) :
    Honest R m v coins (q.proof Vs ip) ip := by
  have hc : chalOf R (q.proof Vs ip) = q.chal := by rw [hq]; exact proof_chal R _ _ _ _
  have hvl : (v ++ List.replicate pad (0 : F)).length = m := by simp [hm]
  have hg : (pub R (nBits * m)).Gv.length = 64 * m := by simp [pub]
  have hh : (pub R (nBits * m)).Hv.length = 64 * m := by simp [pub]
  have haL := aLOf_pad R v pad m hm
  have haR := aROf_pad R v pad m hm
  have hsL : q.sL = (List.range (64 * m)).map coins.sL := by rw [hq]; unfold run; rw [hvl]
  have hsR : q.sR = (List.range (64 * m)).map coins.sR := by rw [hq]; unfold run; rw [hvl]
  have hl : q.l = (List.range (64 * m)).map fun i => l0At R v q.z i + coins.sL i * q.x := by
    have : q.l = lVec q.z q.x (aLOf R (v ++ List.replicate pad 0)) q.sL := by rw [hq]; rfl
    rw [this, haL, hsL, lVec, List.map_map, map_range_vadd]
    rfl
  have hr : q.r = (List.range (64 * m)).map fun i => r0At R v q.y q.z i + r1At q.y coins.sR i * q.x := by
    have : q.r = rVec m q.y q.z q.x (aROf R (v ++ List.replicate pad 0)) q.sR := by rw [hq]; unfold run; rw [hvl]
    rw [this, hsR, rVec, r0Vec_pad R v pad m hm, r1Vec_range, map_range_vadd]
  constructor
  · exact hVs
  · show q.A = _
    have : q.A = coins.aBlind • (pub R (nBits * m)).Bl + (msm (aLOf R (v ++ List.replicate pad 0)) (pub R (nBits * m)).Gv +
      msm (aROf R (v ++ List.replicate pad 0)) (pub R (nBits * m)).Hv) := by rw [hq]; unfold run; rw [hvl]
    rw [this, haL, haR, msm_ranges _ _ hg hh]
  · show q.S = _
    have : q.S = coins.sBlind • (pub R (nBits * m)).Bl + (msm q.sL (pub R (nBits * m)).Gv +
      msm q.sR (pub R (nBits * m)).Hv) := by rw [hq]; unfold run; rw [hvl]
    rw [this, hsL, hsR, msm_ranges _ _ hg hh]
  · rw [hc]
    show q.T1 = _
    have : q.T1 = t1Of m q.y q.z (aLOf R (v ++ List.replicate pad 0)) (aROf R (v ++ List.replicate pad 0)) q.sL q.sR •
        (pub R (nBits * m)).B + coins.t1Blind • (pub R (nBits * m)).Bl := by rw [hq]; unfold run; rw [hvl]
    rw [this, t1Of, r0Vec_pad R v pad m hm, hsL, hsR, r1Vec_range, haL, List.map_map, dot_ranges, dot_ranges,
      ← Finset.sum_add_distrib]
    rfl
  · rw [hc]
    show q.T2 = _
    have : q.T2 = t2Of m q.y q.sL q.sR •
        (pub R (nBits * m)).B + coins.t2Blind • (pub R (nBits * m)).Bl := by rw [hq]; unfold run; rw [hvl]
    rw [this, t2Of, hsL, hsR, r1Vec_range, dot_ranges]
    rfl
  · rw [hc]
    show q.taux = _
    have : q.taux = computeTaux q.x q.z coins.t1Blind coins.t2Blind Vs := by rw [hq]; rfl
    rw [this, computeTaux_eq, hVs, List.length_map, List.length_range]
    congr 1
    apply Finset.sum_congr rfl
    intro j hj
    have := Finset.mem_range.1 hj
    simp [List.getD_eq_getElem?_getD, this, Run.chal]
  · rw [hc]
    show q.mu = _
    have : q.mu = coins.sBlind * q.x + coins.aBlind := by rw [hq]; rfl
    rw [this]
    simp only [Run.chal]
    ring
  · rw [hc]
    show q.t = _
    have : q.t = dot q.l q.r := by rw [hq]; rfl
    rw [this, hl, hr, dot_ranges]
    rfl
  · rfl
  · rw [hc]
    rw [hl, hr, hpfOf_eq] at hip
    exact hip

/-- `Prove` on 1 to 16 values. -/
theorem prove_eq [DecidableEq G] (R : Ristretto F G) (m0 : Nat) (v : List F) (debug : Bool) (coins : Coins F)
    (h1 : 1 ≤ v.length) (h2 : v.length ≤ 16) {m : Nat} (hm : v.length + padAmount v.length = m) :
    prove R m0 v debug coins = (m,
      let vp := v ++ List.replicate (padAmount v.length) 0
      let c := proveCommit R (newPed R m) vp coins
      proveTail R (Reads.const v.length m) (newPed R m) c.2 vp c.1 debug coins) := by
  have hn : nextM m0 v.length = m := by
    unfold nextM maxM
    rw [if_neg (by omega), if_neg (by omega), hm]
  unfold prove proveWith
  rw [hn, if_neg (by omega), if_neg (by show ¬ v.length > 16; omega)]
  rfl

/-- Everything about `Prove` on 1 to 16 values. -/
theorem prove_spec [DecidableEq G] (R : Ristretto F G) (m0 : Nat) (v : List F) (debug : Bool) (coins : Coins F)
    (h1 : 1 ≤ v.length) (h2 : v.length ≤ 16) :
    ∃ k p ip, k ≤ 4 ∧ v.length ≤ 2 ^ k ∧ (∀ j, v.length ≤ 2 ^ j → k ≤ j) ∧
      Honest R (2 ^ k) v coins p ip ∧ ip.L.length = k + 6 ∧ ip.R.length = k + 6 ∧
      (prove R m0 v debug coins).1 = 2 ^ k ∧
      (if (chalOf R p).x = 0 ∨ (chalOf R p).y = 0 ∨ (chalOf R p).z = 0 ∨ (debug = true ∧ ∃ a ∈ v, 2 ^ 64 - 1 ≤ R.sNat a) then
        (prove R m0 v debug coins).2.IsErr else (prove R m0 v debug coins).2 = .ok p) ∧
      ((∀ u ∈ IP.challenges R ip.L ip.R, u ≠ 0) → (chalOf R p).y ≠ 0 → ∀ c, verify R (2 ^ k) p c =
        if excess R (chalOf R p).z v • (pub R (64 * 2 ^ k)).B = 0 then .ok true else .err "megacheck failed") := by
  obtain ⟨k, hk, hk4, hmin⟩ := padAmount_spec h1 h2
  have hle : 2 ^ k ≤ 2 ^ 4 := Nat.pow_le_pow_right (by norm_num) hk4
  have hlt : nBits * 2 ^ k < 2 ^ 32 := by unfold nBits; omega
  have hvl : (v ++ List.replicate (padAmount v.length) (0 : F)).length = 2 ^ k := by simp [hk]
  have hk6 : 2 ^ (k + 6) = nBits * (v ++ List.replicate (padAmount v.length) (0 : F)).length := by
    rw [hvl, pow_add, Nat.mul_comm]; rfl
  rw [prove_eq R m0 v debug coins h1 h2 hk]
  dsimp only
  have hVs := proveCommit_eq R hlt (v ++ List.replicate (padAmount v.length) 0) coins hvl
  have hcache := proveCommit_cache R (newPed R (2 ^ k)) (v ++ List.replicate (padAmount v.length) 0) coins
  have hcom := proveCommit_commits R hlt (v ++ List.replicate (padAmount v.length) 0) coins hvl
  simp only [getD_pad] at hVs
  generalize proveCommit R (newPed R (2 ^ k)) (v ++ List.replicate (padAmount v.length) 0) coins = c at *
  obtain ⟨Vs, hs⟩ := c
  dsimp only at *
  have hex : excess R (run R hs.cache (v ++ List.replicate (padAmount v.length) 0) Vs coins).z
      (v ++ List.replicate (padAmount v.length) 0) =
      excess R (run R hs.cache (v ++ List.replicate (padAmount v.length) 0) Vs coins).z v := by
    generalize (run R hs.cache (v ++ List.replicate (padAmount v.length) 0) Vs coins).z = z
    unfold excess
    simp only [getD_pad, List.length_append, List.length_replicate]
    rw [Finset.sum_range_add, add_eq_left]
    apply Finset.sum_eq_zero
    intro j _
    have h0 : v.getD (v.length + j) 0 = 0 := by simp [List.getD_eq_getElem?_getD]
    have hz : R.sNat (0 : F) = 0 := by
      have := R.sNat_cast (n := 0) (by have := R.two64_lt; omega)
      simpa using this
    rw [h0, hz]
    simp
  have hdbg : (∀ a ∈ v ++ List.replicate (padAmount v.length) 0, R.sNat a < 2 ^ 64 - 1) ↔
      ¬ ∃ a ∈ v, 2 ^ 64 - 1 ≤ R.sNat a := by
    have hz : R.sNat (0 : F) = 0 := by
      have := R.sNat_cast (n := 0) (by have := R.two64_lt; omega)
      simpa using this
    constructor
    · rintro h ⟨a, ha, hle⟩
      have := h a (by simp [ha])
      omega
    · intro h a ha
      rw [List.mem_append] at ha
      rcases ha with ha | ha
      · by_contra hc
        exact h ⟨a, ha, by omega⟩
      · rw [List.eq_of_mem_replicate ha, hz]; norm_num
  rcases eq_or_ne (run R hs.cache (v ++ List.replicate (padAmount v.length) 0) Vs coins).y 0 with hy | hy
  · -- zero challenge
    obtain ⟨ip, g1, g2, g3, -⟩ := IP.generate_eq R
      ((run R hs.cache (v ++ List.replicate (padAmount v.length) 0) Vs coins).w • (pub R (nBits * 2 ^ k)).B) (k + 6) (by omega)
      (run R hs.cache (v ++ List.replicate (padAmount v.length) 0) Vs coins).l
      (run R hs.cache (v ++ List.replicate (padAmount v.length) 0) Vs coins).r
      (hpfOf (run R hs.cache (v ++ List.replicate (padAmount v.length) 0) Vs coins).y (nBits * 2 ^ k))
      (pub R (nBits * 2 ^ k)).Gv (pub R (nBits * 2 ^ k)).Hv
      (by rw [hk6]; exact lVec_length _ _ (aLOf_length R _) (by simp))
      (by rw [hk6]; exact rVec_length _ _ _ (aROf_length R _) (by simp))
      (by rw [hk6, hvl]; simp [pub]) (by rw [hk6, hvl]; simp [pub]) (by rw [hk6, hvl, hpfOf_length])
    have hch : chalOf R ((run R hs.cache (v ++ List.replicate (padAmount v.length) 0) Vs coins).proof Vs ip) =
        (run R hs.cache (v ++ List.replicate (padAmount v.length) 0) Vs coins).chal := by
      rw [hcache]; exact proof_chal R _ Vs coins ip
    refine ⟨k, (run R hs.cache (v ++ List.replicate (padAmount v.length) 0) Vs coins).proof Vs ip, ip, hk4, by omega, hmin,
      run_honest R v _ _ hk Vs coins hVs (by rw [hcache]) ip g1, g2, g3, rfl, ?_, ?_⟩
    · rw [if_pos (Or.inr (Or.inl (by rw [hch]; exact hy)))]
      have := proveTail_zero R v.length hs (v ++ List.replicate (padAmount v.length) 0) Vs debug coins (by rw [hvl]; exact hlt) hy
      rwa [hvl] at this
    · intro _ h0
      rw [hch] at h0
      exact absurd hy h0
  · obtain ⟨ip, g1, g2, g3, g4, g5⟩ := run_verify R (v ++ List.replicate (padAmount v.length) 0) Vs [] coins hk6 (by omega)
      (by rw [hvl]; exact hcom)
      (q := run R hs.cache (v ++ List.replicate (padAmount v.length) 0) Vs coins) (by rw [hcache, List.append_nil]) hy
    rw [hvl] at g1 g5
    rw [List.append_nil] at g4 g5
    refine ⟨k, (run R hs.cache (v ++ List.replicate (padAmount v.length) 0) Vs coins).proof Vs ip, ip, hk4, by omega, hmin,
      run_honest R v _ _ hk Vs coins hVs (by rw [hcache]) ip g1, g2, g3, rfl, ?_, ?_⟩
    · rw [g4]
      have heq := proveTail_eq R v.length hs (v ++ List.replicate (padAmount v.length) 0) Vs debug coins (by rw [hvl]; exact hlt) hy
      dsimp only at heq
      rw [debugBlock_eq R _ _ hs.cache Vs coins (by rw [hvl]; exact hlt) rfl hy, if_congr hdbg rfl rfl, hvl, g1, Res.bind_ok] at heq
      rw [heq]
      simp only [Run.chal]
      cases debug with
      | false => simp [hy]; split <;> simp_all
      | true =>
        by_cases hd : ∃ a ∈ v, 2 ^ 64 - 1 ≤ R.sNat a
        · simp only [hd, not_true_eq_false, if_false, if_true, and_self, or_true, Res.bind_err, Res.isErr_err]
        · simp only [hd, not_false_eq_true, if_true, and_false, or_false, Res.bind_ok]
          split <;> simp_all
    · intro hu _ c
      rw [g5 hu c, hex, g4]
      rfl

end Dusk.RP
