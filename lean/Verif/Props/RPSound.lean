import Verif.Lemmas.RPSound
import Verif.Lemmas.RPHonest
import Verif.Lemmas.RPProve
import Verif.Props.IPSound
/-!
# C69: knowledge soundness of the range proof

A prover that is asked again with other challenges and keeps being accepted by the check of `Verify` gives, by an explicit
calculation that does not use the generators, openings of all its commitments to values below `2^64`, or explicit
coefficients of a non-trivial relation between the generators. Elements of a cyclic group always have such relations, so
the coefficients are named (`relations`): the theorem says that the listed ones contain a relation, not that one exists.
-/

set_option linter.unusedSectionVars false

namespace Dusk.RP

variable {F G : Type} [Field F] [AddCommGroup G] [Module F G] [DecidableEq F]

/-- A sum of 64 bits with their place values is below `2^64`. -/
theorem bits_lt (b : Nat → F) (hb : ∀ k < 64, b k = 0 ∨ b k = 1) :
    ∃ n < 2 ^ 64, ∑ k ∈ Finset.range 64, b k * 2 ^ k = ((n : Nat) : F) := by
  have h : ∀ l ≤ 64, ∃ n < 2 ^ l, ∑ k ∈ Finset.range l, b k * 2 ^ k = ((n : Nat) : F) := by
    intro l
    induction l with
    | zero => intro _; exact ⟨0, by norm_num, by simp⟩
    | succ l ih =>
      intro hl
      obtain ⟨n, hn, he⟩ := ih (by omega)
      rcases hb l (by omega) with h0 | h1
      · exact ⟨n, by rw [pow_succ]; omega, by rw [Finset.sum_range_succ, he, h0]; simp⟩
      · exact ⟨n + 2 ^ l, by rw [pow_succ]; omega, by rw [Finset.sum_range_succ, he, h1]; push_cast; ring⟩
  exact h 64 (by omega)

/-- C69: from accepted transcripts the extractor computes openings of the commitments to 64-bit values, or one of the listed
coefficient vectors is a non-trivial relation between the generators. -/
theorem C69_extraction [DecidableEq G] {k m : Nat} (P : Pub G) (s : Strategy F G k) (q : Queries F)
    (hk : k < 32) (hm : 2 ^ k = 64 * m) (hG : P.Gv.length = 64 * m) (hH : P.Hv.length = 64 * m) (hV : m ≤ s.V.length)
    (hq : q.Good s m) (hacc : s.Accepting q P m) {y₀ z₀ : F} (hy₀ : y₀ ∈ q.ys) (hz₀ : z₀ ∈ q.zs y₀) :
    (∃ ρ ∈ relations s q (64 * m) m y₀ z₀, ev P (64 * m) ρ = 0 ∧ ρ.Nonzero (64 * m)) ∨
    ∀ j < m, (s.V.map fun V => V.value).getD j 0 = (openV s q m y₀ j).1 • P.B + (openV s q m y₀ j).2 • P.Bl ∧
      ∃ n < 2 ^ 64, (openV s q m y₀ j).1 = ((n : Nat) : F) := by
  have hf := facts ⟨hk, hm, hG, hH, hV⟩ hq hacc
  by_cases hno : ∃ ρ ∈ relations s q (64 * m) m y₀ z₀, ev P (64 * m) ρ = 0 ∧ ρ.Nonzero (64 * m)
  · exact Or.inl hno
  · right
    intro j hj
    refine ⟨(ev_openV hq hf hy₀ hj).symm, ?_⟩
    obtain ⟨b, hb, he⟩ := extraction_core hq hf hy₀ hz₀ (fun ρ hρ h0 hn => hno ⟨ρ, hρ, h0, hn⟩) j hj
    rw [he]
    exact bits_lt b hb

/-- C69, with generators between which there is no relation: every commitment opens to a 64-bit value, and no commitment
opens to anything else. -/
theorem C69_soundness [DecidableEq G] {k m : Nat} (P : Pub G) (s : Strategy F G k) (q : Queries F)
    (hk : k < 32) (hm : 2 ^ k = 64 * m) (hG : P.Gv.length = 64 * m) (hH : P.Hv.length = 64 * m) (hV : m ≤ s.V.length)
    (hq : q.Good s m) (hacc : s.Accepting q P m) (hind : Independent F P (64 * m)) (j : Nat) (hj : j < m) (v γ : F)
    (ho : (s.V.map fun V => V.value).getD j 0 = v • P.B + γ • P.Bl) : ∃ n < 2 ^ 64, v = ((n : Nat) : F) := by
  have hpos : 0 < 64 * m := by rw [← hm]; positivity
  obtain ⟨y₀, hy₀⟩ : q.ys.Nonempty := Finset.card_pos.1 (by have := hq.y_card; omega)
  obtain ⟨z₀, hz₀⟩ : (q.zs y₀).Nonempty := Finset.card_pos.1 (by have := hq.z_card y₀ hy₀; omega)
  rcases C69_extraction P s q hk hm hG hH hV hq hacc hy₀ hz₀ with ⟨ρ, _, h0, hn⟩ | h
  · exact absurd hn (hind ρ h0)
  · obtain ⟨h1, n, hn, h2⟩ := h j hj
    refine ⟨n, hn, ?_⟩
    rw [ho] at h1
    have h3 := hind ((0 : Nat → F), (0 : Nat → F), v - (openV s q m y₀ j).1, γ - (openV s q m y₀ j).2) (by
      unfold ev
      simp only [Pi.zero_apply, zero_smul, Finset.sum_const_zero, zero_add, sub_smul]
      rw [sub_add_sub_comm, h1, sub_self])
    have h4 := (not_nonzero h3).2.2.1
    rw [← h2]
    exact sub_eq_zero.1 h4

/-- What `Verify` checks is the acceptance condition used above, with the challenges taken from the hash of the transcript
and the generators of the scheme. -/
theorem C69_verify [DecidableEq G] (R : Ristretto F G) (m : Nat) (hm : 64 * m < 2 ^ 32) (p : Proof F G) (c : F) :
    verify R m p c = megacheckWithC R (VReads.const m) c p.ip p.mu (chalOf R p).x (chalOf R p).y (chalOf R p).z p.t p.taux
      (chalOf R p).w p.A (pub R (64 * m)).B (pub R (64 * m)).Bl p.S p.T1 p.T2 (pub R (64 * m)).Gv (pub R (64 * m)).Hv p.V := by
  have hlt : nBits * m < 2 ^ 32 := hm
  unfold verify verifyWith
  rw [verifyChallenges_eq, newPed_eq R (by simpa [VReads.const] using hlt), compute_new]
  simp only [VReads.const]
  rw [Nat.mod_eq_of_lt hlt]
  rfl

/-! ## The hypotheses are satisfiable for every number of values -/

/-- An honest prover for the values `v` with coins `coins`, answering the folding challenges `u 0 … u 3` in every round. -/
def honestStrategy (R : Ristretto F G) (P : Pub G) (u : Fin 4 → F) (k : Nat) (v : List F) (coins : Coins F) :
    Strategy F G k :=
  let m := v.length
  let aL := aLOf R v
  let aR := aROf R v
  let sL := (List.range (64 * m)).map coins.sL
  let sR := (List.range (64 * m)).map coins.sR
  { V := (List.range m).map fun j => ⟨v.getD j 0 • P.B + coins.vBlind j • P.Bl, coins.vBlind j⟩
    A := coins.aBlind • P.Bl + (msm aL P.Gv + msm aR P.Hv)
    S := coins.sBlind • P.Bl + (msm sL P.Gv + msm sR P.Hv)
    T1 := fun y z => t1Of m y z aL aR sL sR • P.B + coins.t1Blind • P.Bl
    T2 := fun y _ => t2Of m y sL sR • P.B + coins.t2Blind • P.Bl
    taux := fun _ z x => x * coins.t1Blind + x ^ 2 * coins.t2Blind + ∑ j ∈ Finset.range m, z ^ (j + 2) * coins.vBlind j
    mu := fun _ _ x => coins.sBlind * x + coins.aBlind
    t := fun y z x => dot (lVec z x aL sL) (rVec m y z x aR sR)
    ip := fun y z x w => IP.honest (w • P.B) u k (lVec z x aL sL) (rVec m y z x aR sR) P.Gv
      (vsmul (hpfOf y (nBits * m)) P.Hv) }

/-- C69 is not vacuous: for every number of values (a power of two), all values in range, all coins, all generators and all
sufficiently many challenges, the honest prover meets the hypotheses. -/
theorem C69_satisfiable [DecidableEq G] (R : Ristretto F G) (P : Pub G) (u : Fin 4 → F) (hu : ∀ i, u i ≠ 0)
    (hd : ∀ i j, i ≠ j → u i * u i ≠ u j * u j) (k : Nat) (hk : k < 32) (v : List F) (hm : 2 ^ k = 64 * v.length)
    (hG : P.Gv.length = 64 * v.length) (hH : P.Hv.length = 64 * v.length) (hv : ∀ a ∈ v, R.sNat a < 2 ^ 64)
    (coins : Coins F) (q : Queries F) (h1 : 64 * v.length ≤ q.ys.card) (h2 : ∀ y ∈ q.ys, y ≠ 0)
    (h3 : ∀ y ∈ q.ys, v.length + 2 ≤ (q.zs y).card) (h4 : ∀ y z, Function.Injective (q.xs y z))
    (h5 : ∀ y z x, Function.Injective (q.ws y z x)) :
    q.Good (honestStrategy R P u k v coins) v.length ∧
      (honestStrategy R P u k v coins).Accepting q P v.length := by
  refine ⟨⟨h1, h2, h3, h4, h5, fun y hy z hz i l => IP.honest_good _ u hu hd k _ _ _ _⟩, ?_⟩
  intro y hy z hz i l σ
  dsimp only
  generalize q.xs y z i = x
  generalize q.ws y z x l = w
  have hy := h2 y hy
  have haL := aLOf_length R v
  have haR := aROf_length R v
  have hsL : ((List.range (64 * v.length)).map coins.sL).length = nBits * v.length := by simp [nBits]
  have hsR : ((List.range (64 * v.length)).map coins.sR).length = nBits * v.length := by simp [nBits]
  have hlen : (vsmul (hpfOf y (nBits * v.length)) P.Hv).length = 2 ^ k := by
    simp [hpfOf_length, hH, hm, nBits]
  have hver := IP.honest_verEq (w • P.B) u hu k _ _ P.Gv (vsmul (hpfOf y (nBits * v.length)) P.Hv)
    ((lVec_length z x haL hsL).trans hm.symm) ((rVec_length y z x haR hsR).trans hm.symm) (hG.trans hm.symm) hlen σ
  have hb := (((honestStrategy R P u k v coins).ip y z x w)).branch_length σ
  change IP.VerEq _ _ _ _ (((honestStrategy R P u k v coins).ip y z x w).branch σ).1
    (((honestStrategy R P u k v coins).ip y z x w).branch σ).2.L
    (((honestStrategy R P u k v coins).ip y z x w).branch σ).2.R
    (((honestStrategy R P u k v coins).ip y z x w).branch σ).2.A
    (((honestStrategy R P u k v coins).ip y z x w).branch σ).2.B at hver
  generalize ((honestStrategy R P u k v coins).ip y z x w).branch σ = b at hver hb
  obtain ⟨us, ip⟩ := b
  obtain ⟨hb1, hb2, hb3⟩ := hb
  dsimp only at hver hb1 hb2 hb3 ⊢
  have hc := IP.oracle_challenges R us ip.L ip.R (by omega) (by omega)
  have hw : WF v.length k P (honestStrategy R P u k v coins).V ip :=
    ⟨hk, hm, hG, hH, hb2, hb3, by simp [honestStrategy]⟩
  refine ⟨IP.oracle R us, 0, 1, zero_ne_one, hc, fun d _ => ?_⟩
  have he := mega_eq (IP.oracle R us) P ⟨y, z, x, w⟩ d ((honestStrategy R P u k v coins).proof y z x ip) ip hw
  refine he.trans (if_pos ?_)
  rw [IP.chals_eq, hc, residue2_honest (aL := aLOf R v) (aR := aROf R v)
    (sL := (List.range (64 * v.length)).map coins.sL) (sR := (List.range (64 * v.length)).map coins.sR)
    (alpha := coins.aBlind) (rho := coins.sBlind) hy hG hH haL haR hsL hsR rfl rfl rfl rfl ?_, smul_zero, add_zero,
    residue1_honest (t0 := t0Of v.length y z (aLOf R v) (aROf R v))
      (t1 := t1Of v.length y z (aLOf R v) (aROf R v) ((List.range (64 * v.length)).map coins.sL)
        ((List.range (64 * v.length)).map coins.sR))
      (t2 := t2Of v.length y ((List.range (64 * v.length)).map coins.sL) ((List.range (64 * v.length)).map coins.sR))
      (tau1 := coins.t1Blind) (tau2 := coins.t2Blind) (v := fun j => v.getD j 0) (gamma := coins.vBlind)
      ?_ rfl rfl ?_ rfl]
  · rw [t0_honest]
    have : ∑ j ∈ Finset.range v.length, z ^ (j + 2) * ((R.sNat (v.getD j 0) % 2 ^ 64 : Nat) : F) =
        ∑ j ∈ Finset.range v.length, z ^ (j + 2) * v.getD j 0 := by
      apply Finset.sum_congr rfl
      intro j hj
      have hj := Finset.mem_range.1 hj
      have hmem : v.getD j 0 ∈ v := by simp [List.getD_eq_getElem?_getD, hj]
      rw [Nat.mod_eq_of_lt (hv _ hmem), R.cast_sNat]
    rw [this]
    simp
  · intro j hj
    simp [Strategy.proof, honestStrategy, hj]
  · exact dot_lr _ _ _ haL haR hsL hsR
  · have hcp : IP.cur (w • P.B) (lVec z x (aLOf R v) ((List.range (64 * v.length)).map coins.sL))
        (rVec v.length y z x (aROf R v) ((List.range (64 * v.length)).map coins.sR)) P.Gv
        (vsmul (hpfOf y (nBits * v.length)) P.Hv) =
        IP.commitPoint P.Gv P.Hv (hpfOf y (nBits * v.length)) (w • P.B)
          (lVec z x (aLOf R v) ((List.range (64 * v.length)).map coins.sL))
          (rVec v.length y z x (aROf R v) ((List.range (64 * v.length)).map coins.sR)) := by
      unfold IP.cur IP.commitPoint
      rw [msm_had]
    rw [hcp] at hver
    exact hver

/-- Sufficiently many challenges exist for every `m` up to `2^32`. -/
theorem exists_queries (m : Nat) (hm : 64 * m < 2 ^ 32) : ∃ q : Queries Toy.K, 64 * m ≤ q.ys.card ∧ (∀ y ∈ q.ys, y ≠ 0) ∧
    (∀ y ∈ q.ys, m + 2 ≤ (q.zs y).card) ∧ (∀ y z, Function.Injective (q.xs y z)) ∧
    ∀ y z x, Function.Injective (q.ws y z x) := by
  have hc : ∀ a b : Nat, a < 2 ^ 64 → b < 2 ^ 64 → (a : Toy.K) = b → a = b := fun a b ha hb h =>
    Toy.ris.cast_inj (ha.trans Toy.ris.two64_lt) (hb.trans Toy.ris.two64_lt) h
  let S : Finset Toy.K := (Finset.range (64 * m + 2)).image fun i => ((i + 1 : Nat) : Toy.K)
  have hS : S.card = 64 * m + 2 := by
    rw [Finset.card_image_of_injOn, Finset.card_range]
    intro a ha b hb h
    have ha := Finset.mem_range.1 (Finset.mem_coe.1 ha)
    have hb := Finset.mem_range.1 (Finset.mem_coe.1 hb)
    have := hc (a + 1) (b + 1) (by omega) (by omega) h
    omega
  refine ⟨⟨S, fun _ => S, fun _ _ i => ((i.val : Nat) : Toy.K), fun _ _ _ i => ((i.val : Nat) : Toy.K)⟩, ?_, ?_, ?_, ?_, ?_⟩
  · show 64 * m ≤ S.card; omega
  · intro y hy h0
    obtain ⟨i, hi, rfl⟩ := Finset.mem_image.1 hy
    have hi := Finset.mem_range.1 hi
    have := hc (i + 1) 0 (by omega) (by norm_num) (by simpa using h0)
    omega
  · intro y _; show m + 2 ≤ S.card; omega
  · intro y z i j h; exact Fin.ext (hc _ _ (by omega) (by omega) h)
  · intro y z x i j h; exact Fin.ext (hc _ _ (by omega) (by omega) h)

/-- Points without a relation exist for every size. -/
theorem exists_independent (n : Nat) : ∃ P : Pub (Nat → Toy.K), P.Gv.length = n ∧ P.Hv.length = n ∧ Independent Toy.K P n := by
  let e : Nat → Nat → Toy.K := fun i j => if j = i then 1 else 0
  refine ⟨⟨(List.range n).map fun i => e (2 + i), (List.range n).map fun i => e (2 + n + i), e 0, e 1⟩, by simp, by simp, ?_⟩
  intro ρ h0 hn
  have hat : ∀ l, ∑ i ∈ Finset.range n, ρ.1 i * e (2 + i) l + ∑ i ∈ Finset.range n, ρ.2.1 i * e (2 + n + i) l +
      ρ.2.2.1 * e 0 l + ρ.2.2.2 * e 1 l = 0 := by
    intro l
    have := congrFun h0 l
    unfold ev at this
    simp only [Pi.add_apply, Finset.sum_apply, Pi.smul_apply, smul_eq_mul, Pi.zero_apply] at this
    refine Eq.trans ?_ this
    refine congrArg₂ (fun a b => a + b + _ + _) (Finset.sum_congr rfl fun i hi => ?_) (Finset.sum_congr rfl fun i hi => ?_)
    all_goals
      have hi := Finset.mem_range.1 hi
      simp [hi]
  rcases hn with ⟨i, hi, h⟩ | ⟨i, hi, h⟩ | h | h
  · apply h
    have := hat (2 + i)
    rw [Finset.sum_eq_single i (by intro b _ hb; simp [e]; omega) (by intro hh; simp at hh; omega),
      Finset.sum_eq_zero (by intro b hb; simp [e]; omega)] at this
    simpa [e, show ¬ 2 + i = 0 by omega, show ¬ 2 + i = 1 by omega] using this
  · apply h
    have := hat (2 + n + i)
    rw [Finset.sum_eq_zero (by intro b hb; have := Finset.mem_range.1 hb; simp [e]; omega),
      Finset.sum_eq_single i (by intro b _ hb; simp [e]; omega) (by intro hh; simp at hh; omega)] at this
    simpa [e, show ¬ 2 + n + i = 0 by omega, show ¬ 2 + n + i = 1 by omega] using this
  · apply h
    have := hat 0
    rw [Finset.sum_eq_zero (by intro b hb; simp [e]; omega), Finset.sum_eq_zero (by intro b hb; simp [e]; omega)] at this
    simpa [e] using this
  · apply h
    have := hat 1
    rw [Finset.sum_eq_zero (by intro b hb; simp [e]; omega), Finset.sum_eq_zero (by intro b hb; simp [e]; omega)] at this
    simpa [e] using this

end Dusk.RP
