import Verif.Props.RPShape
import Verif.Props.RPState
/-!
# Verification of range proofs while `M` changes (C98, C99)
-/

set_option linter.unusedSectionVars false

namespace Dusk.RP

variable {F G : Type} [Field F] [AddCommGroup G] [Module F G] [DecidableEq F] [DecidableEq G]

/-- None of the values read overflows a 32-bit counter. -/
structure VReads.Small (rd : VReads) : Prop where
  base : 64 * rd.base < 2 ^ 32
  base2 : 64 * rd.base2 < 2 ^ 32
  sum : 64 * rd.sum < 2 ^ 32
  hpf : 64 * rd.hpf < 2 ^ 32
  delta : 64 * rd.delta < 2 ^ 32
  zM : 64 * rd.zM < 2 ^ 32

/-- How far the first `n` commitments and `T1`, `T2` are from committing to `t`, with the constant for `d` values:
`(t - D_d) B + taux Bl - ∑_{j<n} z^(j+2) V_j - x T1 - x² T2`. -/
def residueAt (P : Pub G) (d n : Nat) (ch : Chal F) (p : Proof F G) : G :=
  (p.t - delta ch.y ch.z d) • P.B + p.taux • P.Bl
    - ∑ j ∈ Finset.range n, ch.z ^ (j + 2) • ((p.V.map fun V => V.value).getD j 0)
    - ch.x • p.T1 - ch.x ^ 2 • p.T2

theorem verifyWith_eq (R : Ristretto F G) (rd : VReads) (h : rd.Small) (p : Proof F G) (c : F) :
    verifyWith R rd p c = megacheckWithC R rd c p.ip p.mu (chalOf R p).x (chalOf R p).y (chalOf R p).z p.t p.taux
      (chalOf R p).w p.A (pub R (nBits * rd.base)).B (pub R (nBits * rd.base)).Bl p.S p.T1 p.T2 (pub R (nBits * rd.base)).Gv
      (pub R (nBits * rd.base2)).Hv p.V := by
  unfold verifyWith
  rw [verifyChallenges_eq, newPed_eq R h.base, compute_new]
  dsimp only
  rw [Nat.mod_eq_of_lt h.base2]
  rfl

theorem Fits.lt {m : Nat} {ip : IP.Proof F G} (h : Fits m ip) (hm : 64 * m < 2 ^ 32) : ip.L.length < 32 := by
  by_contra hc
  have : 2 ^ 32 ≤ 2 ^ ip.L.length := Nat.pow_le_pow_right (by norm_num) (by omega)
  rw [h.2] at this
  omega

theorem mega_wrong (R : Ristretto F G) (rd : VReads) (h : rd.Small) (h1 : 1 ≤ rd.base) (ip : IP.Proof F G) (c : F)
    (mu x y z t taux w : F) (A Gp Hp S T1 T2 : G) (Gv Hv : List G) (V : List (Commitment F G))
    (hG : Gv.length = 64 * rd.base) (hH : Hv.length = 64 * rd.base2)
    (hn : ¬ (Fits rd.base ip ∧ rd.base2 = rd.base ∧ rd.sum = rd.base ∧ rd.hpf = rd.base)) :
    (megacheckWithC R rd c (some ip) mu x y z t taux w A Gp Hp S T1 T2 Gv Hv V).IsErr := by
  have hs : ∃ a b s, IP.verifScalars R ip = .ok (a, b, s) ∧ (s.length = nBits * rd.base → Fits rd.base ip) := by
    by_cases hLR : ip.L.length = ip.R.length
    · obtain ⟨a, b, s, h1, -, -, h4⟩ := IP.verifScalars_lengths R ip hLR
      refine ⟨a, b, s, h1, ?_⟩
      rw [h4]
      unfold IP.width
      split
      · exact fun h => ⟨hLR, h⟩
      · unfold nBits
        omega
    · refine ⟨[], [], [], by simp [IP.verifScalars, hLR], ?_⟩
      unfold nBits
      simp
      omega
  obtain ⟨a, b, s, e1, e2⟩ := hs
  unfold megacheckWithC
  simp only [e1, Res.bind_ok]
  by_cases hl : s.length = nBits * rd.base
  swap
  · rw [Vec.exp, if_pos (by simpa [Vec.mulScalar, Vec.addScalar, hG] using hl)]
    exact Res.isErr_err _
  rw [exp_eq (by simp [Vec.mulScalar, Vec.addScalar, hl, hG, nBits]) (by simp [Vec.mulScalar, Vec.addScalar, hl, hG, nBits])]
  simp only [Res.bind_ok]
  rw [sumZMTwoN_eq R.two_ne_zero _ (small h.sum).1]
  simp only [Res.bind_ok]
  by_cases hsum : rd.sum = rd.base
  swap
  · rw [Vec.sub, if_pos (by simp [Vec.mulScalar, hl, sumZ_length, nBits]; omega)]
    exact Res.isErr_err _
  rw [sub_eq (by simp [Vec.mulScalar, hl, sumZ_length, hsum])]
  simp only [Res.bind_ok]
  by_cases hhpf : rd.hpf = rd.base
  swap
  · rw [Vec.hadamard, if_pos (by
      rw [scalarPowers_length, show nBits * rd.hpf % 2 ^ 32 = nBits * rd.hpf from Nat.mod_eq_of_lt h.hpf]
      simp [Vec.mulScalar, hl, sumZ_length, hsum, nBits, vsub]
      omega)]
    exact Res.isErr_err _
  rw [show nBits * rd.hpf % 2 ^ 32 = nBits * rd.base by rw [hhpf]; exact Nat.mod_eq_of_lt h.base,
    hadamard_eq (by simp [Vec.mulScalar, hl, sumZ_length, scalarPowers_length, hsum])]
  simp only [Res.bind_ok]
  have hb : rd.base2 ≠ rd.base := fun hb => hn ⟨e2 hl, hb, hsum, hhpf⟩
  rw [subScalar_eq, Vec.exp, if_pos]
  · exact Res.isErr_err _
  · simp [Vec.mulScalar, hl, sumZ_length, scalarPowers_length, hsum, hH, nBits]
    omega

theorem mega_reads (R : Ristretto F G) (rd : VReads) (hr : rd.Small) (P : Pub G) (ch : Chal F) (c : F) (p : Proof F G)
    (ip : IP.Proof F G) {m : Nat} (hf : Fits m ip) (hb : rd.base = m) (hs : rd.sum = m) (hp : rd.hpf = m)
    (hG : P.Gv.length = nBits * m) (hH : P.Hv.length = nBits * m) :
    megacheckWithC R rd c (some ip) p.mu ch.x ch.y ch.z p.t p.taux ch.w p.A P.B P.Bl p.S p.T1 p.T2
      P.Gv P.Hv p.V =
    if p.V.length < rd.zM then .panic
    else if residueAt P rd.delta rd.zM ch p + c • residue2L P m ch (IP.chals R ip) p ip = 0 then .ok true
    else .err "megacheck failed" := by
  have hlt : nBits * m < 2 ^ 32 := by rw [← hb]; exact hr.base
  obtain ⟨hs3, hs0⟩ := small hlt
  have hk := hf.lt hlt
  have hc : (IP.chals R ip).length = ip.L.length := by simp [IP.chals, IP.chalLoop_length, hf.1]
  have hl : (IP.sVec (IP.chals R ip)).length = nBits * m := by rw [IP.sVec_length, hc, hf.2]
  have r2 : nBits * rd.hpf % 2 ^ 32 = nBits * m := by rw [hp]; exact Nat.mod_eq_of_lt hlt
  have r3 : rd.delta % 2 ^ 32 = rd.delta := Nat.mod_eq_of_lt (small hr.delta).2
  have r4 : rd.zM % 2 ^ 32 = rd.zM := Nat.mod_eq_of_lt (small hr.zM).2
  unfold megacheckWithC
  dsimp only
  rw [IP.verifScalars_eq R ip hf.1 hk]
  simp only [Res.bind_ok]
  rw [exp_eq (by simp [Vec.mulScalar, Vec.addScalar, hl, hG]) (by simp [Vec.mulScalar, Vec.addScalar, hl, hG])]
  simp only [Res.bind_ok]
  rw [hs, sumZMTwoN_eq R.two_ne_zero _ hs3]
  simp only [Res.bind_ok]
  rw [sub_eq (by simp [Vec.mulScalar, hl, sumZ_length])]
  simp only [Res.bind_ok]
  rw [r2,
    hadamard_eq (by simp [Vec.mulScalar, hl, sumZ_length, scalarPowers_length])]
  simp only [Res.bind_ok]
  rw [subScalar_eq, exp_eq (by simp [Vec.mulScalar, hl, hH, sumZ_length, scalarPowers_length])
    (by simp [Vec.mulScalar, hl, hH, sumZ_length, scalarPowers_length])]
  simp only [Res.bind_ok]
  rw [exp_eq (by simp [hc]) (by simp [hc])]
  simp only [Res.bind_ok]
  rw [exp_eq (by simp [hc, hf.1]) (by simp [hc, hf.1])]
  simp only [Res.bind_ok]
  rw [r4, zM_eq]
  by_cases hV : p.V.length < rd.zM
  · rw [if_pos hV, c9Loop_panic _ _ _ (by simpa using hV)]
    rfl
  rw [if_neg hV]
  have hV : rd.zM ≤ p.V.length := by omega
  rw [c9Loop_eq _ _ _ (by simp [hV])]
  simp only [Res.bind_ok]
  have e1 : msm (Vec.mulScalar (Vec.addScalar (Vec.mulScalar (IP.sVec (IP.chals R ip)) ip.A) ch.z) c) P.Gv =
      c • (ip.A • msm (IP.sVec (IP.chals R ip)) P.Gv + ch.z • P.Gv.sum) := by
    unfold Vec.mulScalar Vec.addScalar
    rw [msm_smul_left, msm_add_const _ _ _ (by simp [hl, hG]), msm_smul_left]
  have e2 : msm (Vec.mulScalar (List.map (fun x => x - ch.z) (had (vsub (Vec.mulScalar (IP.sVec (IP.chals R ip)).reverse
      ip.B) (sumZ ch.z 2 m)) (Vec.scalarPowers ch.y⁻¹ (nBits * m)))) c) P.Hv =
      c • (ip.B • msm (IP.sVec ((IP.chals R ip).map fun u => u⁻¹)) (vsmul (hpfOf ch.y (nBits * m)) P.Hv)
        - msm (had (sumZ ch.z 2 m) (hpfOf ch.y (nBits * m))) P.Hv - ch.z • P.Hv.sum) := by
    unfold Vec.mulScalar
    rw [msm_smul_left, msm_sub_const _ _ _ (by simp [hl, hH, sumZ_length, scalarPowers_length]),
      had_vsub _ _ _ (by simp [hl, sumZ_length]), msm_vsub _ _ _ (by simp [hl, sumZ_length]), msm_had, msm_smul_left,
      IP.sVec_reverse, hpfOf]
  refine if_congr ?_ rfl rfl
  rw [e1, e2, r3, computeDelta_eq _ _ hr.delta, msm_range_getD _ (by simp [hV])]
  unfold residueAt residue2L
  generalize msm (IP.sVec (IP.chals R ip)) P.Gv = X
  generalize msm (IP.sVec ((IP.chals R ip).map fun u => u⁻¹)) (vsmul (hpfOf ch.y (nBits * m)) P.Hv) = Y
  generalize msm ((IP.chals R ip).map fun u => u * u) ip.L = Z
  generalize msm ((IP.chals R ip).map fun u => u⁻¹ * u⁻¹) ip.R = W
  generalize msm (had (sumZ ch.z 2 m) (hpfOf ch.y (nBits * m))) P.Hv = U
  generalize ∑ j ∈ Finset.range rd.zM, ch.z ^ (j + 2) • ((p.V.map fun V => V.value).getD j 0) = T
  generalize delta ch.y ch.z rd.delta = D
  refine Eq.congr ?_ rfl
  module

/-- C98: the outcome of `Verify` for all values of `M` it may read (at its six places) and all shapes of proof. It panics without
inner product proof; returns an error if the number of rounds does not fit the first value read, or if the second, third or
fourth value differs from the first; otherwise it panics if the sixth value exceeds the number of commitments; and otherwise
checks the equation in which the constant is the one for the fifth value and only as many commitments count as the sixth value
says. -/
theorem C98_reads (R : Ristretto F G) (rd : VReads) (h : rd.Small) (h1 : 1 ≤ rd.base) (p : Proof F G) (c : F) :
    (p.ip = none → verifyWith R rd p c = .panic) ∧
    ∀ ip, p.ip = some ip →
      (¬ (Fits rd.base ip ∧ rd.base2 = rd.base ∧ rd.sum = rd.base ∧ rd.hpf = rd.base) → (verifyWith R rd p c).IsErr) ∧
      (Fits rd.base ip ∧ rd.base2 = rd.base ∧ rd.sum = rd.base ∧ rd.hpf = rd.base →
        (p.V.length < rd.zM → verifyWith R rd p c = .panic) ∧
        (rd.zM ≤ p.V.length → verifyWith R rd p c =
          if residueAt (pub R (64 * rd.base)) rd.delta rd.zM (chalOf R p) p +
            c • residue2 (pub R (64 * rd.base)) rd.base (chalOf R p) (IP.challenges R ip.L ip.R) p ip = 0 then .ok true
          else .err "megacheck failed")) := by
  rw [verifyWith_eq R rd h]
  refine ⟨fun hip => by rw [hip]; rfl, fun ip hip => ⟨fun hn => ?_, ?_⟩⟩
  · rw [hip]
    exact mega_wrong R rd h h1 ip c _ _ _ _ _ _ _ _ _ _ _ _ _ _ _ _ (by simp [pub, nBits]) (by simp [pub, nBits]) hn
  · rintro ⟨hf, hb, hs, hp⟩
    have hc : (IP.chals R ip).length = ip.L.length := by simp [IP.chals, IP.chalLoop_length, hf.1]
    have hG : (pub R (nBits * rd.base)).Gv.length = nBits * rd.base := by simp [pub]
    have hH : (pub R (nBits * rd.base)).Hv.length = nBits * rd.base := by simp [pub]
    rw [hip, hb, mega_reads R rd h (pub R (nBits * rd.base)) (chalOf R p) c p ip hf rfl hs hp hG hH]
    refine ⟨fun hV => if_pos hV, fun hV => ?_⟩
    rw [if_neg (by omega), ← residue2_eq _ _ _ _ _ _ (by rw [hc]; exact hf.2) hG hH, IP.chals_eq]

/-! ## Executions -/

theorem Sys.exec_cons (s : Sys) (e : Nat ⊕ Nat) (l : List (Nat ⊕ Nat)) : s.exec (e :: l) = (s.step e).exec l := rfl

theorem Sys.exec_append (s : Sys) (l l' : List (Nat ⊕ Nat)) : s.exec (l ++ l') = (s.exec l).exec l' := by
  simp [Sys.exec]

/-- `n` reads of one verifier, from a state in which it has room for them. -/
theorem Sys.reads (j : Nat) : ∀ (n : Nat) (s : Sys), (s.verifiers j).length + n ≤ VReads.count →
    (s.exec (List.replicate n (.inr j))).M = s.M ∧ (s.exec (List.replicate n (.inr j))).provers = s.provers ∧
      (s.exec (List.replicate n (.inr j))).verifiers j = s.verifiers j ++ List.replicate n s.M
  | 0, s, _ => by simp [Sys.exec]
  | n + 1, s, h => by
    rw [List.replicate_succ, Sys.exec_cons]
    have e : (s.step (.inr j)).verifiers j = s.verifiers j ++ [s.M] := by
      simp only [Sys.step, true_and]
      rw [if_pos (by omega)]
    obtain ⟨h1, h2, h3⟩ := Sys.reads j n (s.step (.inr j)) (by rw [e]; simp; omega)
    refine ⟨h1, h2, ?_⟩
    rw [h3, e]
    simp [Sys.step, List.replicate_succ]

/-- The first access of a call of `Prove` on `n ≥ 1` values. -/
theorem Sys.write (i n : Nat) (hn : 1 ≤ n) (s : Sys) (h : s.provers i = Proc.start n) :
    (s.step (.inl i)).M = n ∧ (s.step (.inl i)).verifiers = s.verifiers := by
  simp [Sys.step, h, Proc.start, Proc.step, show ¬ n < 1 by omega]

/-- C98: a call of `Verify` that is not interrupted has the outcome for the value `M` has then. -/
theorem C98_alone (R : Ristretto F G) (s : Sys) (j : Nat) (h : s.verifiers j = []) (p : Proof F G) (c : F) :
    (s.exec (List.replicate 6 (.inr j))).verdict R j p c = verify R s.M p c := by
  obtain ⟨-, -, h3⟩ := Sys.reads j 6 s (by simp [h])
  unfold Sys.verdict
  rw [h3, h]
  rfl

/-- Two states that differ only in the calls of `Verify` other than `j`. -/
def Sys.AgreeFor (j : Nat) (s t : Sys) : Prop := s.M = t.M ∧ s.provers = t.provers ∧ s.verifiers j = t.verifiers j

theorem Sys.agree_exec (j : Nat) : ∀ (sched : List (Nat ⊕ Nat)) {s t : Sys}, Sys.AgreeFor j s t →
    Sys.AgreeFor j (s.exec sched) (t.exec (sched.filter fun e => e.isLeft || decide (e = .inr j)))
  | [], _, _, h => h
  | .inl i :: sched, s, t, ⟨h1, h2, h3⟩ => by
    rw [List.filter_cons_of_pos (by simp), Sys.exec_cons, Sys.exec_cons]
    exact Sys.agree_exec j sched ⟨by simp [Sys.step, h1, h2], by simp [Sys.step, h1, h2], by simp [Sys.step, h3]⟩
  | .inr i :: sched, s, t, ⟨h1, h2, h3⟩ => by
    by_cases hij : i = j
    · subst hij
      rw [List.filter_cons_of_pos (by simp), Sys.exec_cons, Sys.exec_cons]
      exact Sys.agree_exec i sched ⟨by simp [Sys.step, h1], by simp [Sys.step, h2], by simp [Sys.step, h1, h3]⟩
    · rw [List.filter_cons_of_neg (by simp [hij]), Sys.exec_cons]
      exact Sys.agree_exec j sched ⟨by simp [Sys.step, h1], by simp [Sys.step, h2], by
        simp [Sys.step, h3, show ¬ j = i from fun h => hij h.symm]⟩

/-- C98: calls of `Verify` do not disturb each other, nor calls of `Prove`: whatever the schedule, each call of `Verify` has the
verdict that it has when the accesses of all other calls of `Verify` are removed from the schedule, and so has every call of
`Prove` its state. -/
theorem C98_verifiers (R : Ristretto F G) (s : Sys) (sched : List (Nat ⊕ Nat)) (j : Nat) (p : Proof F G) (c : F) :
    (s.exec sched).verdict R j p c = (s.exec (sched.filter fun e => e.isLeft || decide (e = .inr j))).verdict R j p c ∧
      (s.exec sched).M = (s.exec (sched.filter Sum.isLeft)).M ∧
      (s.exec sched).provers = (s.exec (sched.filter Sum.isLeft)).provers := by
  refine ⟨?_, ?_⟩
  · unfold Sys.verdict
    rw [(Sys.agree_exec j sched ⟨rfl, rfl, rfl⟩ : Sys.AgreeFor j (s.exec sched) _).2.2]
  · have key : ∀ (sched : List (Nat ⊕ Nat)) (s t : Sys), s.M = t.M → s.provers = t.provers →
        (s.exec sched).M = (t.exec (sched.filter Sum.isLeft)).M ∧
          (s.exec sched).provers = (t.exec (sched.filter Sum.isLeft)).provers := by
      intro sched
      induction sched with
      | nil => exact fun s t h1 h2 => ⟨h1, h2⟩
      | cons e l ih =>
        intro s t h1 h2
        cases e with
        | inl i =>
          rw [List.filter_cons_of_pos (by simp), Sys.exec_cons, Sys.exec_cons]
          exact ih _ _ (by simp [Sys.step, h1, h2]) (by simp [Sys.step, h1, h2])
        | inr i =>
          rw [List.filter_cons_of_neg (by simp), Sys.exec_cons]
          exact ih _ _ (by simp [Sys.step, h1]) (by simp [Sys.step, h2])
    exact key sched s s rfl rfl

/-- Executions in which all calls of `Prove` have the same power-of-two number of values, which `M` has from the start. -/
def Sys.Uniform (n : Nat) (s : Sys) : Prop := s.M = n ∧ RP.Uniform n s.M s.provers ∧ ∀ j, ∀ x ∈ s.verifiers j, x = n

theorem Sys.uniform_step {n : Nat} (h1 : 1 ≤ n) (h2 : n ≤ 16) (hp : padAmount n = 0) {s : Sys} (h : s.Uniform n)
    (e : Nat ⊕ Nat) : (s.step e).Uniform n := by
  obtain ⟨g1, g2, g3⟩ := h
  cases e with
  | inl i =>
    have hu := RP.uniform_step h1 h2 hp g2 i
    refine ⟨?_, hu, g3⟩
    obtain ⟨k1, k2, k3, k4⟩ := g2 i
    have hu' := hu i
    simp only [if_true] at hu'
    by_cases hpc : ((s.provers i).step s.M).2.pc = 0
    · show ((s.provers i).step s.M).1 = n
      rw [Proc.step] at hpc ⊢
      split at hpc
      · rw [if_neg (by omega)] at hpc
        simp at hpc
      · rename_i h0
        exact absurd hpc (by
          split_ifs <;> simp <;> omega)
    · exact (hu'.2.2.2 hpc).1
  | inr i =>
    refine ⟨g1, g2, fun j x hx => ?_⟩
    simp only [Sys.step] at hx
    split at hx
    · rcases List.mem_append.1 hx with hx | hx
      · exact g3 i x hx
      · rw [List.mem_singleton.1 hx, g1]
    · exact g3 j x hx

theorem Sys.uniform_exec {n : Nat} (h1 : 1 ≤ n) (h2 : n ≤ 16) (hp : padAmount n = 0) : ∀ (l : List (Nat ⊕ Nat)) {s : Sys},
    s.Uniform n → (s.exec l).Uniform n
  | [], _, h => h
  | e :: l, _, h => Sys.uniform_exec h1 h2 hp l (Sys.uniform_step h1 h2 hp h e)

/-- C98: any number of calls of `Prove`, all on the same power-of-two number of values as `M` has at the start, and any number
of calls of `Verify`: in every interleaving each finished call of `Verify` has the outcome it has alone. -/
theorem C98_uniform (R : Ristretto F G) (k : Nat) (hk : k ≤ 4) (sched : List (Nat ⊕ Nat)) (j : Nat) (p : Proof F G) (c : F)
    (hend : ((Sys.exec ⟨2 ^ k, fun _ => Proc.start (2 ^ k), fun _ => []⟩ sched).verifiers j).length = 6) :
    (Sys.exec ⟨2 ^ k, fun _ => Proc.start (2 ^ k), fun _ => []⟩ sched).verdict R j p c = verify R (2 ^ k) p c := by
  have hle : 2 ^ k ≤ 2 ^ 4 := Nat.pow_le_pow_right (by norm_num) hk
  have h1 : 1 ≤ 2 ^ k := Nat.one_le_two_pow
  have hp : padAmount (2 ^ k) = 0 := by
    obtain ⟨k', e, -, hmin⟩ := padAmount_spec h1 (by omega)
    have : k' ≤ k := hmin k le_rfl
    have := Nat.pow_le_pow_right (show 0 < 2 by norm_num) this
    omega
  have hu := Sys.uniform_exec h1 (by omega) hp sched (s := ⟨2 ^ k, fun _ => Proc.start (2 ^ k), fun _ => []⟩)
    ⟨rfl, by intro i; simp [Proc.start, Proc.end], by simp⟩
  have := List.eq_replicate_of_mem (hu.2.2 j)
  unfold Sys.verdict
  rw [this, hend]
  rfl

/-- C98: the accepting calls in an execution with any calls of `Prove` and `Verify`, in terms of the six values of `M` that the call
read, in the order in which it read them: it accepts exactly if the first four are equal, the rounds fit them, there are as many
commitments as the sixth, and the equation with the fifth and the sixth holds. -/
theorem C98_interleaved (R : Ristretto F G) (s : Sys) (sched : List (Nat ⊕ Nat)) (j : Nat) (m a b d e n : Nat)
    (hl : (s.exec sched).verifiers j = [m, a, b, d, e, n]) (hs : ∀ v ∈ [m, a, b, d, e, n], 64 * v < 2 ^ 32) (hm : 1 ≤ m)
    (p : Proof F G) (ip : IP.Proof F G) (hip : p.ip = some ip) (c : F) :
    (s.exec sched).verdict R j p c = .ok true ↔ (a = m ∧ b = m ∧ d = m) ∧ Fits m ip ∧ n ≤ p.V.length ∧
      residueAt (pub R (64 * m)) e n (chalOf R p) p +
        c • residue2 (pub R (64 * m)) m (chalOf R p) (IP.challenges R ip.L ip.R) p ip = 0 := by
  unfold Sys.verdict
  rw [hl]
  simp only [List.forall_mem_cons] at hs
  obtain ⟨s1, s2, s3, s4, s5, s6, -⟩ := hs
  obtain ⟨h1, h2⟩ := (C98_reads R (VReads.ofList [m, a, b, d, e, n]) ⟨s1, s2, s3, s4, s5, s6⟩ hm p c).2 ip hip
  constructor
  · intro hok
    by_cases hc : Fits m ip ∧ a = m ∧ b = m ∧ d = m
    · refine ⟨hc.2, hc.1, ?_⟩
      obtain ⟨h3, h4⟩ := h2 hc
      by_cases hn : n ≤ p.V.length
      · have := h4 hn
        rw [hok] at this
        split at this
        · rename_i h0
          exact ⟨hn, h0⟩
        · cases this
      · have := h3 (by simpa [VReads.ofList] using hn)
        rw [hok] at this
        cases this
    · have := h1 hc
      rw [hok] at this
      simp [Res.IsErr] at this
  · rintro ⟨hc, hf, hn, h0⟩
    exact ((h2 ⟨hf, hc⟩).2 hn).trans (if_pos h0)

/-- C98 (violated): Expected: a call of `Verify` has the outcome that it has alone. If a call of `Prove` on another number of values
starts between its first and its second access of `M`, it returns an error, whatever the proof. -/
theorem C98_error_violated (R : Ristretto F G) (s : Sys) (i j n : Nat) (hi : s.provers i = Proc.start n) (hj : s.verifiers j = [])
    (hn : 1 ≤ n) (hn' : 64 * n < 2 ^ 32) (hm : 1 ≤ s.M) (hm' : 64 * s.M < 2 ^ 32) (hne : n ≠ s.M) (p : Proof F G)
    (ip : IP.Proof F G) (hip : p.ip = some ip) (c : F) :
    ((s.exec ([.inr j, .inl i] ++ List.replicate 5 (.inr j))).verdict R j p c).IsErr := by
  obtain ⟨a1, a2, a3⟩ := Sys.reads j 1 s (by simp [hj])
  obtain ⟨b1, b2⟩ := Sys.write i n hn (s.exec [.inr j]) (by rw [show [Sum.inr j] = List.replicate 1 (.inr j) from rfl, a2]; exact hi)
  obtain ⟨-, -, c3⟩ := Sys.reads j 5 ((s.exec [.inr j]).step (.inl i)) (by
    rw [b2, show [Sum.inr j] = List.replicate 1 (.inr j) from rfl, a3, hj]; simp)
  have e : (s.exec ([.inr j, .inl i] ++ List.replicate 5 (.inr j))).verifiers j = [s.M, n, n, n, n, n] := by
    rw [Sys.exec_append]
    change (((s.exec [.inr j]).step (.inl i)).exec _).verifiers j = _
    rw [c3, b1, b2, show [Sum.inr j] = List.replicate 1 (.inr j) from rfl, a3, hj]
    rfl
  unfold Sys.verdict
  rw [e]
  refine ((C98_reads R ⟨s.M, n, n, n, n, n⟩ ⟨hm', hn', hn', hn', hn', hn'⟩ hm p c).2 ip hip).1 ?_
  rintro ⟨-, h, -⟩
  exact hne h

/-- The schedule in which a call of `Prove` starts between the fifth and the sixth access of a call of `Verify`. -/
theorem late_write (R : Ristretto F G) (s : Sys) (i j n : Nat) (hi : s.provers i = Proc.start n) (hj : s.verifiers j = [])
    (hn : 1 ≤ n) (p : Proof F G) (c : F) :
    (s.exec (List.replicate 5 (.inr j) ++ [.inl i, .inr j])).verdict R j p c =
      verifyWith R ⟨s.M, s.M, s.M, s.M, s.M, n⟩ p c := by
  obtain ⟨a1, a2, a3⟩ := Sys.reads j 5 s (by simp [hj, VReads.count])
  obtain ⟨b1, b2⟩ := Sys.write i n hn (s.exec (List.replicate 5 (.inr j))) (by rw [a2]; exact hi)
  obtain ⟨-, -, c3⟩ := Sys.reads j 1 ((s.exec (List.replicate 5 (.inr j))).step (.inl i)) (by rw [b2, a3, hj]; simp)
  have e : (s.exec (List.replicate 5 (.inr j) ++ [.inl i, .inr j])).verifiers j = [s.M, s.M, s.M, s.M, s.M, n] := by
    rw [Sys.exec_append]
    change (((s.exec (List.replicate 5 (.inr j))).step (.inl i)).exec (List.replicate 1 (.inr j))).verifiers j = _
    rw [c3, b1, b2, a3, hj]
    rfl
  unfold Sys.verdict
  rw [e]
  rfl

/-- C98 (violated): Expected: `Verify` does not panic on the proofs `Prove` makes. If a call of `Prove` on more values than the
proof has commitments starts between the fifth and the sixth access of `M` by `Verify`, `Verify` panics. -/
theorem C98_panic_violated (R : Ristretto F G) (s : Sys) (i j n : Nat) (hi : s.provers i = Proc.start n) (hj : s.verifiers j = [])
    (hn : 1 ≤ n) (hn' : 64 * n < 2 ^ 32) (hm : 1 ≤ s.M) (hm' : 64 * s.M < 2 ^ 32) (p : Proof F G) (ip : IP.Proof F G)
    (hip : p.ip = some ip) (hf : Fits s.M ip) (hV : p.V.length < n) (c : F) :
    (s.exec (List.replicate 5 (.inr j) ++ [.inl i, .inr j])).verdict R j p c = .panic := by
  rw [late_write R s i j n hi hj hn]
  exact (((C98_reads R ⟨s.M, s.M, s.M, s.M, s.M, n⟩ ⟨hm', hm', hm', hm', hm', hn'⟩ hm p c).2 ip hip).2 ⟨hf, rfl, rfl, rfl⟩).1 hV

/-! ## C99 -/

/-- The commitments that do not count. -/
def omitted (z : F) (n m : Nat) (W : List G) : G := ∑ j ∈ Finset.Ico n m, z ^ (j + 2) • W.getD j 0

theorem residue1_split (P : Pub G) {n m : Nat} (h : n ≤ m) (ch : Chal F) (p : Proof F G) :
    residue1 P m ch p = residueAt P m n ch p - omitted ch.z n m (p.V.map fun V => V.value) := by
  unfold residue1 residueAt omitted
  rw [← Finset.sum_range_add_sum_Ico _ h]
  abel

theorem residueAt_eq (P : Pub G) {n m : Nat} (h : n ≤ m) (ch : Chal F) (p : Proof F G) (V' : List (Commitment F G))
    (h1 : ∀ j < n, (V'.map fun V => V.value).getD j 0 = (p.V.map fun V => V.value).getD j 0)
    (h2 : ∀ j, n ≤ j → (V'.map fun V => V.value).getD j 0 = 0) :
    residueAt P m n ch p = residue1 P m ch { p with V := V' } := by
  rw [residue1_split P h]
  have : omitted ch.z n m (V'.map fun V => V.value) = 0 := by
    refine Finset.sum_eq_zero fun j hj => ?_
    rw [h2 j (Finset.mem_Ico.1 hj).1, smul_zero]
  dsimp only
  rw [this, sub_zero]
  unfold residueAt
  dsimp only
  rw [Finset.sum_congr rfl fun j hj => by rw [← h1 j (Finset.mem_range.1 hj)]]

theorem commits_pad (R : Ristretto F G) (N : Nat) (v : List F) (g : Nat → F) (l : Nat) :
    Commits (pub R N) (v ++ List.replicate l 0)
      (((List.range v.length).map fun j => ⟨v.getD j 0 • (pub R N).B + g j • (pub R N).Bl, g j⟩) ++
        List.replicate l ⟨0, 0⟩) := by
  constructor
  · apply List.ext_getElem
    · simp
    · intro k h1 h2
      by_cases hk : k < v.length
      · simp [List.getElem_append, hk, List.getD_eq_getElem?_getD]
      · simp [List.getElem_append, hk]
  · simp

/-- C99 (violated): Expected: an accepted proof of `m` commitments shows that all of them commit to values in range. For all values `v`
in range, fewer than `m = 2^a` of them, and *arbitrary* points in place of the remaining commitments, there is a proof that
`Verify` accepts, for every coin, if a call of `Prove` on `v.length` values starts between its fifth and its sixth access of
`M`. Undisturbed, `Verify` accepts it iff the weighted sum of the arbitrary points vanishes. -/
theorem C99_forgery_violated (R : Ristretto F G) (hR : ∀ b, R.sDerive b ≠ 0) (a : Nat) (ha : a < 26) (v : List F) (coins : Coins F)
    (h1 : 1 ≤ v.length) (h2 : v.length < 2 ^ a) (hv : ∀ x ∈ v, R.sNat x < 2 ^ 64) (X : List G) (hX : v.length + X.length = 2 ^ a) :
    ∃ p : Proof F G,
      (p.V.map fun V => V.value) = (List.range v.length).map (fun j =>
        v.getD j 0 • (pub R (64 * 2 ^ a)).B + coins.vBlind j • (pub R (64 * 2 ^ a)).Bl) ++ X ∧
      (∀ (s : Sys) (i j : Nat), s.M = 2 ^ a → s.provers i = Proc.start v.length → s.verifiers j = [] → ∀ c,
        (s.exec (List.replicate 5 (.inr j) ++ [.inl i, .inr j])).verdict R j p c = .ok true) ∧
      ∀ c, verify R (2 ^ a) p c =
        if omitted (chalOf R p).z v.length (2 ^ a) (p.V.map fun V => V.value) = 0 then .ok true else .err "megacheck failed" := by
  have hlen : (v ++ List.replicate X.length (0 : F)).length = 2 ^ a := by simpa using hX
  have hb : (2 : Nat) ^ a ≤ 2 ^ 25 := Nat.pow_le_pow_right (by norm_num) (by omega)
  have hk : 2 ^ (a + 6) = nBits * (v ++ List.replicate X.length (0 : F)).length := by
    rw [hlen, pow_add, nBits]; ring
  obtain ⟨front, hfront⟩ : ∃ front : List (Commitment F G), front = (List.range v.length).map fun j =>
      ⟨v.getD j 0 • (pub R (64 * 2 ^ a)).B + coins.vBlind j • (pub R (64 * 2 ^ a)).Bl, coins.vBlind j⟩ := ⟨_, rfl⟩
  have hfl : front.length = v.length := by simp [hfront]
  have hcom := commits_pad R (nBits * (v ++ List.replicate X.length (0 : F)).length) v coins.vBlind X.length
  rw [show (pub R (nBits * (v ++ List.replicate X.length (0 : F)).length)).B = (pub R (64 * 2 ^ a)).B from rfl,
    show (pub R (nBits * (v ++ List.replicate X.length (0 : F)).length)).Bl = (pub R (64 * 2 ^ a)).Bl from rfl, ← hfront] at hcom
  obtain ⟨W, hW⟩ : ∃ W : List (Commitment F G), W = front ++ X.map fun x => ⟨x, 0⟩ := ⟨_, rfl⟩
  have hWl : W.length = 2 ^ a := by rw [hW]; simp [hfl, hX]
  obtain ⟨q, hq⟩ : ∃ q, q = run R (W.flatMap fun V => R.pBytes V.value) (v ++ List.replicate X.length (0 : F))
      (front ++ List.replicate X.length ⟨0, 0⟩) coins := ⟨_, rfl⟩
  have hy : q.y ≠ 0 := by rw [hq]; exact hR _
  obtain ⟨ip, -, hL, hRl, e1, e2⟩ := run_core R _ _ [] coins hk (by omega) hcom hq hy
  have hchal : chalOf R (q.proof W ip) = q.chal := by rw [hq]; rfl
  have hex : excess R q.z (v ++ List.replicate X.length (0 : F)) = 0 := by
    refine excess_zero R _ fun x hx => ?_
    rcases List.mem_append.1 hx with hx | hx
    · exact hv x hx
    · rw [(List.mem_replicate.1 hx).2]
      have := R.sNat_cast (n := 0) (by have := R.two64_lt; omega)
      rw [Nat.cast_zero] at this
      rw [this]
      norm_num
  have e2' := e2 (by rw [IP.chals_eq]; exact challenges_ne R hR _ _)
  rw [hex, zero_smul, neg_zero, List.append_nil] at e1
  rw [List.append_nil] at e2'
  rw [hlen, show nBits * 2 ^ a = 64 * 2 ^ a from rfl] at e1 e2'
  have hval : (W.map fun V => V.value) = (List.range v.length).map (fun j =>
        v.getD j 0 • (pub R (64 * 2 ^ a)).B + coins.vBlind j • (pub R (64 * 2 ^ a)).Bl) ++ X := by
    rw [hW, hfront]; simp [Function.comp_def]
  have hsplit : residueAt (pub R (64 * 2 ^ a)) (2 ^ a) v.length q.chal (q.proof W ip) = 0 := by
    rw [residueAt_eq _ h2.le _ _ (front ++ List.replicate X.length ⟨0, 0⟩) (fun j hj => ?_) (fun j hj => ?_)]
    · exact e1
    · show _ = (W.map fun V => V.value).getD j 0
      rw [hW, List.map_append, List.map_append, List.getD_append _ _ _ _ (by simpa [hfl] using hj),
        List.getD_append _ _ _ _ (by simpa [hfl] using hj)]
    · rw [List.map_append, List.getD_append_right _ _ _ _ (by simpa [hfl] using hj), List.map_replicate]
      rw [List.getD_eq_getElem?_getD, List.getElem?_replicate]
      split <;> rfl
  have hres2 : residue2 (pub R (64 * 2 ^ a)) (2 ^ a) q.chal (IP.challenges R ip.L ip.R) (q.proof W ip) ip = 0 := by
    rw [← IP.chals_eq, residue2_eq _ _ _ _ _ _ (by simp [IP.chals, IP.chalLoop_length, hL, hRl, nBits, pow_add]; ring)
      (by simp [pub, nBits]) (by simp [pub, nBits])]
    exact e2'
  have hfit : Fits (2 ^ a) ip := ⟨by rw [hL, hRl], by rw [hL, pow_add]; ring⟩
  refine ⟨q.proof W ip, hval, fun s i j hs hi hj c => ?_, fun c => ?_⟩
  · rw [late_write R s i j v.length hi hj h1, hs,
      (((C98_reads R ⟨2 ^ a, 2 ^ a, 2 ^ a, 2 ^ a, 2 ^ a, v.length⟩ ⟨by dsimp only; omega, by dsimp only; omega, by dsimp only; omega,
        by dsimp only; omega, by dsimp only; omega, by dsimp only; omega⟩ Nat.one_le_two_pow _ c).2 ip rfl).2 ⟨hfit, rfl, rfl, rfl⟩).2
        (by show v.length ≤ W.length; omega)]
    dsimp only
    rw [hchal, hsplit, hres2, smul_zero, add_zero, if_pos rfl]
  · rw [C63_equation R (2 ^ a) (a + 6) _ ip c rfl (by omega) (by rw [pow_add]; ring) hL hRl (by show 2 ^ a ≤ W.length; omega), hchal, hres2,
      smul_zero, add_zero]
    refine if_congr ?_ rfl rfl
    rw [residue1_split _ h2.le, hsplit, zero_sub, neg_eq_zero]

/-! ## Examples -/

theorem toy_zero : Toy.ris.sNat (0 : Toy.K) < 2 ^ 64 := by
  have := toy_sNat 0 (by norm_num)
  rw [Nat.cast_zero] at this
  rw [this]
  norm_num

/-- An honest proof of one value: accepted alone; an error or a panic if `Prove` on four values starts at the wrong moment. -/
example (coins : Coins Toy.K) (c : Toy.K) : ∃ p : Proof Toy.K Toy.K,
    (prove Toy.ris 1 [0] false coins).2 = .ok p ∧
    (Sys.exec ⟨1, fun _ => Proc.start 4, fun _ => []⟩ (List.replicate 6 (.inr 0))).verdict Toy.ris 0 p c = .ok true ∧
    ((Sys.exec ⟨1, fun _ => Proc.start 4, fun _ => []⟩ ([.inr 0, .inl 0] ++ List.replicate 5 (.inr 0))).verdict Toy.ris 0 p c).IsErr ∧
    (Sys.exec ⟨1, fun _ => Proc.start 4, fun _ => []⟩ (List.replicate 5 (.inr 0) ++ [.inl 0, .inr 0])).verdict Toy.ris 0 p c = .panic := by
  obtain ⟨p, hok, hver⟩ := C60_nonzero_hash Toy.ris Toy.dv_ne_zero 1 [0] coins (by simp) (by simp) (by intro x hx; rw [List.mem_singleton.1 hx]; exact toy_zero)
  have hM : (prove Toy.ris 1 [0] false coins).1 = 1 := by
    show nextM 1 1 = 1
    decide
  rw [hM] at hver
  obtain ⟨h1, h2, h3, h4⟩ := C86_shapes Toy.ris 1 le_rfl (by norm_num) p c
  cases hip : p.ip with
  | none => exact absurd (hver c) (by rw [h1 hip]; simp)
  | some ip =>
    have hf : Fits 1 ip := by
      by_contra hf
      have := h2 ip hip hf
      rw [hver c] at this
      simp [Res.IsErr] at this
    refine ⟨p, hok, by rw [C98_alone _ _ _ rfl]; exact hver c,
      C98_error_violated Toy.ris _ 0 0 4 rfl rfl (by norm_num) (by norm_num) le_rfl (by norm_num) (by norm_num) p ip hip c,
      C98_panic_violated Toy.ris _ 0 0 4 rfl rfl (by norm_num) (by norm_num) le_rfl (by norm_num) p ip hip hf ?_ c⟩
    have hl := (C68_commitments Toy.ris 1 [0] false coins p hok).1
    omega

/-- A call that read 4 once, between two writes of other calls, does not accept. -/
example (p : Proof Toy.K Toy.K) (ip : IP.Proof Toy.K Toy.K) (hip : p.ip = some ip) (c : Toy.K) :
    (Sys.exec ⟨1, fun i => Proc.start (if i = 0 then 4 else 1), fun _ => []⟩
      ([.inr 0, .inl 0, .inr 0, .inl 1] ++ List.replicate 4 (.inr 0))).verdict Toy.ris 0 p c ≠ .ok true := fun h =>
  absurd ((C98_interleaved Toy.ris _ _ 0 1 4 1 1 1 1 (by decide) (by decide) le_rfl p ip hip c).1 h).1.1 (by decide)

/-- One honest commitment to zero beside an arbitrary non-zero point: rejected alone, accepted when disturbed. -/
example (coins : Coins Toy.K) (X : Toy.K) (hX : X ≠ 0) (c : Toy.K) : ∃ p : Proof Toy.K Toy.K,
    (p.V.map fun V => V.value)[1]? = some X ∧ verify Toy.ris 2 p c = .err "megacheck failed" ∧
    (Sys.exec ⟨2, fun _ => Proc.start 1, fun _ => []⟩ (List.replicate 5 (.inr 0) ++ [.inl 0, .inr 0])).verdict Toy.ris 0 p c = .ok true := by
  obtain ⟨p, h1, h2, h3⟩ := C99_forgery_violated Toy.ris Toy.dv_ne_zero 1 (by norm_num) [0] coins (by simp) (by simp) (by intro x hx; rw [List.mem_singleton.1 hx]; exact toy_zero) [X]
    (by simp)
  refine ⟨p, by rw [h1]; simp, ?_, h2 _ 0 0 (by norm_num) rfl rfl c⟩
  rw [show (2 : Nat) = 2 ^ 1 from rfl, h3, if_neg]
  rw [h1, omitted]
  simp only [List.length_singleton, pow_one]
  rw [show Finset.Ico 1 2 = {1} from rfl, Finset.sum_singleton]
  simpa [hX] using (chalOf_ne Toy.ris Toy.dv_ne_zero p).2.2

end Dusk.RP
