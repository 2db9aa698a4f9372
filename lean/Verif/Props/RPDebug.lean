import Verif.Props.RPState
/-!
# The debug checks of Prove by themselves (C65), and interference in the padding step (C70)
-/

set_option linter.unusedSectionVars false

namespace Dusk.RP

variable {F G : Type} [Field F] [AddCommGroup G] [Module F G] [DecidableEq F] [DecidableEq G]

/-- C65: on vectors of fitting lengths, with `y ≠ 0`, the first debug check of `Prove` reports an error exactly if both
group equations hold and some value is `2^64 - 1` or more. -/
theorem C65_checks (R : Ristretto F G) (rd : Reads) (m : Nat) (h1 : rd.dbgL = m) (h2 : rd.dbgR = m) (h3 : rd.dbgRSum = m)
    (hlt : nBits * m < 2 ^ 32) (x y z : F) (hy : y ≠ 0) (v l r aL aR sL sR : List F) (hl : l.length = nBits * m)
    (hr : r.length = nBits * m) (haL : aL.length = nBits * m) (haR : aR.length = nBits * m) (hsL : sL.length = nBits * m)
    (hsR : sR.length = nBits * m) :
    let Gv := chain R genData (nBits * m)
    let Hv := chain R (genData ++ [1]) (nBits * m)
    let H' := Hv.zipIdx.map fun p => (y⁻¹) ^ p.2 • p.1
    (debugProve R rd x y z v l r aL aR sL sR = .ok () ∨ (debugProve R rd x y z v l r aL aR sL sR).IsErr) ∧
    ((debugProve R rd x y z v l r aL aR sL sR).IsErr ↔
      msm l Gv = msm aL Gv + x • msm sL Gv - z • Gv.sum ∧
      msm r H' = msm aR Hv + x • msm sR Hv + z • Hv.sum + msm (sumZ z 2 m) H' ∧
      ∃ a ∈ v, 2 ^ 64 - 1 ≤ R.sNat a) := by
  dsimp only
  have hg : (chain R genData (nBits * m)).length = nBits * m := by simp
  have hh : (chain R (genData ++ [1]) (nBits * m)).length = nBits * m := by simp
  have hHp : (chain R (genData ++ [1]) (nBits * m)).zipIdx.map (fun p => (y⁻¹) ^ p.2 • p.1) =
      vsmul (hpfOf y (nBits * m)) (chain R (genData ++ [1]) (nBits * m)) := by
    rw [hpfOf_ne hy]
    unfold vsmul
    apply List.ext_getElem
    · simp [powers_length]
    · intro i h1 h2
      simp [powers]
  rw [hHp]
  have eL : debugLxG R m l x z aL sL = .ok (decide (msm l (chain R genData (nBits * m)) =
      msm aL (chain R genData (nBits * m)) + x • msm sL (chain R genData (nBits * m)) - z • (chain R genData (nBits * m)).sum)) := by
    unfold debugLxG
    rw [compute_new, sum_mod hlt]
    dsimp only
    rw [exp_eq (by rw [hl, hg]) (by rw [hl]; simp), Res.bind_ok, exp_eq (by rw [haL, hg]) (by rw [haL]; simp), Res.bind_ok,
      exp_eq (by rw [hsL, hg]) (by rw [hsL]; simp), Res.bind_ok,
      exp_eq (by rw [hg]; simp [Vec.fromScalar]) (by simp [Vec.fromScalar]), Res.bind_ok]
    have h0 : msm (Vec.fromScalar (-z) (nBits * m)) (chain R genData (nBits * m)) =
        -(z • (chain R genData (nBits * m)).sum) := by
      have : Vec.fromScalar (-z) (nBits * m) = (List.replicate (nBits * m) (0 : F)).map fun a => a - z := by
        simp [Vec.fromScalar]
      rw [this, msm_sub_const _ _ _ (by simp), msm_replicate_zero, zero_sub]
    rw [h0, ← sub_eq_add_neg]
  have eR : debugRxHPrime R m m r x y z aR sR = .ok (decide (msm r (vsmul (hpfOf y (nBits * m)) (chain R (genData ++ [1]) (nBits * m))) =
      msm aR (chain R (genData ++ [1]) (nBits * m)) + x • msm sR (chain R (genData ++ [1]) (nBits * m)) +
        z • (chain R (genData ++ [1]) (nBits * m)).sum +
        msm (sumZ z 2 m) (vsmul (hpfOf y (nBits * m)) (chain R (genData ++ [1]) (nBits * m))))) := by
    unfold debugRxHPrime
    rw [compute_new, sum_mod hlt]
    dsimp only
    generalize chain R (genData ++ [1]) (nBits * m) = H at hh
    rw [computeHprime_eq R H hy, hh, scalarPowers_eq hy]
    have hH : (vsmul (hpfOf y (nBits * m)) H).length = nBits * m := by simp [hpfOf_length, hh]
    rw [exp_eq (by rw [hr, hH]) (by rw [hr]; simp), Res.bind_ok, exp_eq (by rw [haR, hh]) (by rw [haR]; simp), Res.bind_ok,
      exp_eq (by rw [hsR, hh]) (by rw [hsR]; simp), Res.bind_ok,
      exp_eq (by rw [hH]; simp [Vec.mulScalar, powers_length]) (by simp [Vec.mulScalar, powers_length]), Res.bind_ok,
      sumZMTwoN_eq R.two_ne_zero z (small hlt).1, Res.bind_ok,
      exp_eq (by rw [hH, sumZ_length]) (by simp [sumZ_length]), Res.bind_ok]
    have : msm (Vec.mulScalar (powers y (nBits * m)) z) (vsmul (hpfOf y (nBits * m)) H) = z • H.sum := by
      rw [← msm_had]
      have : had (Vec.mulScalar (powers y (nBits * m)) z) (hpfOf y (nBits * m)) =
          (List.replicate (nBits * m) (0 : F)).map fun a => a + z := by
        rw [hpfOf_ne hy]
        unfold Vec.mulScalar had powers
        apply List.ext_getElem
        · simp
        · intro i h1 h2
          have hyi : y ^ i * (y⁻¹) ^ i = 1 := by rw [← mul_pow, mul_inv_cancel₀ hy, one_pow]
          simp only [List.getElem_zipWith, List.getElem_map, List.getElem_range, List.getElem_replicate]
          linear_combination z * hyi
      rw [this, msm_add_const _ _ _ (by simp [hh]), msm_replicate_zero, zero_add]
    rw [this]
  unfold debugProve
  rw [h1, h2, h3, eL, eR]
  by_cases hL : msm l (chain R genData (nBits * m)) =
      msm aL (chain R genData (nBits * m)) + x • msm sL (chain R genData (nBits * m)) - z • (chain R genData (nBits * m)).sum
  · simp only [decide_eq_true hL]
    by_cases hR : msm r (vsmul (hpfOf y (nBits * m)) (chain R (genData ++ [1]) (nBits * m))) =
      msm aR (chain R (genData ++ [1]) (nBits * m)) + x • msm sR (chain R (genData ++ [1]) (nBits * m)) +
        z • (chain R (genData ++ [1]) (nBits * m)).sum +
        msm (sumZ z 2 m) (vsmul (hpfOf y (nBits * m)) (chain R (genData ++ [1]) (nBits * m)))
    · simp only [decide_eq_true hR]
      have hs : ∀ a : F, debugsizeOfV (R.sNat a) = true ↔ ¬ 2 ^ 64 - 1 ≤ R.sNat a := by
        intro a
        unfold debugsizeOfV nBits
        rw [decide_eq_true_iff]
        omega
      by_cases hv : ∃ a ∈ v, 2 ^ 64 - 1 ≤ R.sNat a
      · have : (v.all fun vi => debugsizeOfV (R.sNat vi)) = false := by
          obtain ⟨a, ha, h⟩ := hv
          rw [List.all_eq_false]
          exact ⟨a, ha, by rw [hs]; simpa using h⟩
        simp only [this, Bool.false_eq_true, if_false]
        exact ⟨.inr (by simp), fun _ => ⟨hL, hR, hv⟩, fun _ => by simp⟩
      · have : (v.all fun vi => debugsizeOfV (R.sNat vi)) = true := by
          rw [List.all_eq_true]
          intro a ha
          rw [hs]
          exact fun h => hv ⟨a, ha, h⟩
        simp only [this, if_true]
        exact ⟨.inl trivial, fun h => by simp at h, fun h => absurd h.2.2 hv⟩
    · simp [hR]
  · simp [hL]

/-- C65 (violated expectation: if a group equation does not hold, the check reports an error): it returns nil and skips the
remaining checks, even for values out of range. -/
theorem C65_silent_violated (R : Ristretto F G) (rd : Reads) (m : Nat) (h1 : rd.dbgL = m) (h2 : rd.dbgR = m) (h3 : rd.dbgRSum = m)
    (hlt : nBits * m < 2 ^ 32) (x y z : F) (hy : y ≠ 0) (v l r aL aR sL sR : List F) (hl : l.length = nBits * m)
    (hr : r.length = nBits * m) (haL : aL.length = nBits * m) (haR : aR.length = nBits * m) (hsL : sL.length = nBits * m)
    (hsR : sR.length = nBits * m)
    (hne : msm l (chain R genData (nBits * m)) ≠ msm aL (chain R genData (nBits * m)) + x • msm sL (chain R genData (nBits * m)) -
      z • (chain R genData (nBits * m)).sum) :
    debugProve R rd x y z v l r aL aR sL sR = .ok () := by
  obtain ⟨h, hi⟩ := C65_checks R rd m h1 h2 h3 hlt x y z hy v l r aL aR sL sR hl hr haL haR hsL hsR
  rcases h with h | h
  · exact h
  · exact absurd (hi.1 h).1 hne

/-- All-zero vectors except one entry of `l`, and a value that is out of range. -/
example : ∃ l : List Toy.K, l.length = nBits * 1 ∧
    debugProve Toy.ris (Reads.const 1 1) 1 1 0 [((2 ^ 64 : Nat) : Toy.K)] l (List.replicate 64 0) (List.replicate 64 0) (List.replicate 64 0)
      (List.replicate 64 0) (List.replicate 64 0) = .ok () := by
  refine ⟨1 :: List.replicate 63 0, by simp [nBits], ?_⟩
  refine C65_silent_violated Toy.ris (Reads.const 1 1) 1 rfl rfl rfl (by norm_num [nBits]) 1 1 0 one_ne_zero _ _ _ _ _ _ _
    (by simp [nBits]) (by simp [nBits]) (by simp [nBits]) (by simp [nBits]) (by simp [nBits]) (by simp [nBits]) ?_
  have hc : chain Toy.ris genData (nBits * 1) = Toy.dv genData :: (List.range 63).map (fun i => chainAt Toy.ris genData (i + 1)) := by
    show (List.range (63 + 1)).map _ = _
    rw [List.range_succ_eq_map, List.map_cons, List.map_map]
    rfl
  have h0 : ∀ (n : Nat) (l : List Toy.K), msm (List.replicate n (0 : Toy.K)) l = 0 := fun n l => msm_replicate_zero l n
  rw [h0, smul_zero, zero_smul, add_zero, sub_zero, hc]
  unfold msm
  rw [List.zipWith_cons_cons, List.sum_cons]
  change (1 : Toy.K) • Toy.dv genData + msm (List.replicate 63 (0 : Toy.K)) _ ≠ 0
  rw [h0, add_zero, one_smul]
  exact Toy.dv_ne_zero _

/-- C70 (violated): a call on three values is interrupted after its size check by the first access of a call on two values.
It then does not pad its values, leaves `M = 2` and fails; alone it would pad to four values and leave `M = 4`. -/
theorem C70_pad_violated (R : Ristretto F G) (M0 : Nat) (a b c : F) (debug : Bool) (coins : Coins F) (procs : Nat → Proc)
    (h0 : procs 0 = Proc.start 3) (h1 : procs 1 = Proc.start 2) :
    let e := exec M0 procs (List.replicate 2 0 ++ List.replicate 1 1 ++ List.replicate 15 0)
    (e.2 0).pc = Proc.end ∧ e.1 = 2 ∧ ((e.2 0).result R [a, b, c] debug coins).IsErr ∧
      (exec M0 procs (List.replicate 17 0)).1 = 4 := by
  have e1 : padAmount 3 = 1 := by decide
  have e2 : padAmount 2 = 0 := by decide
  have key : ∀ e, e = exec M0 procs (List.replicate 2 0 ++ List.replicate 1 1 ++ List.replicate 15 0) →
      (e.2 0) = ⟨3, Proc.end, [3, 2, 2, 2, 2, 2, 2, 2, 2, 2, 2, 2, 2, 2, 2]⟩ ∧ e.1 = 2 := by
    rintro e rfl
    have er : List.replicate 2 0 ++ List.replicate 1 1 ++ List.replicate 15 0 =
      [0, 0, 1, 0, 0, 0, 0, 0, 0, 0, 0, 0, 0, 0, 0, 0, 0, 0] := rfl
    rw [er]
    simp [exec, h0, h1, Proc.step, Proc.start, maxM, Proc.end, e2]
  have ealone : (exec M0 procs (List.replicate 17 0)).1 = 4 := by
    have er : List.replicate 17 0 = [0, 0, 0, 0, 0, 0, 0, 0, 0, 0, 0, 0, 0, 0, 0, 0, 0] := rfl
    rw [er]
    simp [exec, h0, Proc.step, Proc.start, maxM, Proc.end, e1]
  intro e
  obtain ⟨k1, k2⟩ := key e rfl
  refine ⟨by rw [k1], k2, ?_, ealone⟩
  rw [k1]
  unfold Proc.result
  apply C70_mixed_reads R _ [a, b, c] debug coins (by simp)
  · simp [Reads.ofList, e2]
  · simp
  · simp [Reads.ofList, nBits]
  · simp [Reads.ofList, nBits]
  · simp [Reads.ofList, nBits]
  · simp [Reads.ofList, nBits]

/-- C70 (violated): a lost update. A call on three values has read `M` for its padding; a call on four values then runs to
completion and leaves `M = 4`; the first call overwrites `M` with `5`: the one of the values it read before plus the padding
computed from the other. -/
theorem C70_lost_update_violated (M0 : Nat) (procs : Nat → Proc) (h0 : procs 0 = Proc.start 3) (h1 : procs 1 = Proc.start 4) :
    (exec M0 procs (List.replicate 3 0 ++ List.replicate 17 1)).1 = 4 ∧
    (exec M0 procs (List.replicate 3 0 ++ List.replicate 17 1 ++ List.replicate 2 0)).1 = 5 := by
  have e1 : padAmount 3 = 1 := by decide
  have e2 : padAmount 4 = 0 := by decide
  constructor
  · have er : List.replicate 3 0 ++ List.replicate 17 1 =
      [0, 0, 0, 1, 1, 1, 1, 1, 1, 1, 1, 1, 1, 1, 1, 1, 1, 1, 1, 1] := rfl
    rw [er]
    simp [exec, h0, h1, Proc.step, Proc.start, maxM, Proc.end, e2]
  · have er : List.replicate 3 0 ++ List.replicate 17 1 ++ List.replicate 2 0 =
      [0, 0, 0, 1, 1, 1, 1, 1, 1, 1, 1, 1, 1, 1, 1, 1, 1, 1, 1, 1, 0, 0] := rfl
    rw [er]
    simp [exec, h0, h1, Proc.step, Proc.start, maxM, Proc.end, e1, e2]

end Dusk.RP
