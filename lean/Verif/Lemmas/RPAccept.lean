import Verif.Lemmas.RPUnwind
/-!
# The relation given by an accepted proof
-/

set_option linter.unusedSectionVars false

namespace Dusk.RP

open RPFold

variable {F G : Type} [Field F] [AddCommGroup G] [Module F G] [DecidableEq F]

/-! ## Evaluation -/

theorem ev_zero (P : Pub G) (n : Nat) : ev P n (0 : Coef F) = 0 := by simp [ev]

theorem ev_sum {ι : Type} (P : Pub G) (n : Nat) (s : Finset ι) (f : ι → Coef F) : ev P n (∑ i ∈ s, f i) = ∑ i ∈ s, ev P n (f i) := by
  classical
  induction s using Finset.induction_on with
  | empty => simp [ev_zero]
  | insert a s ha ih => rw [Finset.sum_insert ha, Finset.sum_insert ha, ev_add, ih]

theorem zipWith_sum_getD (f : F → G → G) (us : List F) (L : List G) (h : us.length = L.length) :
    (List.zipWith f us L).sum = ∑ j ∈ Finset.range us.length, f (us.getD j 0) (L.getD j 0) := by
  induction us generalizing L with
  | nil => simp
  | cons u us ih =>
    cases L with
    | nil => simp at h
    | cons a L =>
      rw [List.zipWith_cons_cons, List.sum_cons, ih L (by simpa using h), List.length_cons, Finset.sum_range_succ', add_comm]
      simp

/-- The relation evaluates to the verifier's check. -/
theorem relation_ev {R : Ristretto F G} {κ : Bytes → Coef F} {m : Nat} {p : Proof F G} (he : Explains R (64 * m) κ p)
    (h : Bytes → F) (hL : p.inner.L.length = p.inner.R.length) (hV : m ≤ p.V.length) (c : F) :
    ev (pub R (64 * m)) (64 * m) (relation R h κ m p c) = residue1 (pub R (64 * m)) m (chalAt R h p) p +
      c • residue2 (pub R (64 * m)) m (chalAt R h p) (foldAt R h p.inner) p p.inner := by
  have hlen : (foldAt R h p.inner).length = p.inner.L.length := by simp [foldAt, hL]
  have eA : ev (pub R (64 * m)) (64 * m) (κ (R.pBytes p.A)) = p.A := he _ (by simp [Proof.points])
  have eS : ev (pub R (64 * m)) (64 * m) (κ (R.pBytes p.S)) = p.S := he _ (by simp [Proof.points])
  have eT1 : ev (pub R (64 * m)) (64 * m) (κ (R.pBytes p.T1)) = p.T1 := he _ (by simp [Proof.points])
  have eT2 : ev (pub R (64 * m)) (64 * m) (κ (R.pBytes p.T2)) = p.T2 := he _ (by simp [Proof.points])
  have eV : ∀ j < m, ev (pub R (64 * m)) (64 * m) (κ (R.pBytes ((p.V.map fun V => V.value).getD j 0))) =
      (p.V.map fun V => V.value).getD j 0 := by
    intro j hj
    refine he _ ?_
    rw [List.getD_eq_getElem _ _ (by simp; omega)]
    simp only [Proof.points, List.mem_append]
    exact .inl (.inl (.inl (List.getElem_mem _)))
  have eL : ∀ j < p.inner.L.length, ev (pub R (64 * m)) (64 * m) (κ (R.pBytes (p.inner.L.getD j 0))) = p.inner.L.getD j 0 := by
    intro j hj
    refine he _ ?_
    rw [List.getD_eq_getElem _ _ hj]
    simp only [Proof.points, List.mem_append]
    exact .inl (.inr (List.getElem_mem _))
  have eR : ∀ j < p.inner.L.length, ev (pub R (64 * m)) (64 * m) (κ (R.pBytes (p.inner.R.getD j 0))) = p.inner.R.getD j 0 := by
    intro j hj
    refine he _ ?_
    rw [List.getD_eq_getElem _ _ (by omega)]
    simp only [Proof.points, List.mem_append]
    exact .inr (List.getElem_mem _)
  unfold relation rel1 rel2
  rw [ev_add, ev_smul]
  congr 1
  · rw [ev_sub, ev_sub, ev_sub, ev_smul, ev_smul, eT1, eT2, ev_sum]
    unfold residue1
    congr 3
    · simp [ev]
    · refine Finset.sum_congr rfl fun j hj => ?_
      rw [ev_smul, eV j (Finset.mem_range.1 hj)]
  · congr 1
    rw [ev_sub, ev_sub, ev_sub, ev_smul, eA, eS, ev_sum]
    unfold residue2
    congr 1
    rw [zipWith_sum_getD _ _ _ hlen, zipWith_sum_getD _ _ _ (hlen.trans hL), ← Finset.sum_add_distrib]
    refine Finset.sum_congr rfl fun j hj => ?_
    have hj := Finset.mem_range.1 hj
    rw [hlen] at hj
    rw [ev_add, ev_smul, ev_smul, eL j hj, eR j hj]

/-! ## The last coin -/

section coin
variable [Fintype F]

/-- Values of `c` for which the relation vanishes although its two parts do not. -/
noncomputable def cBad (ρ σ : Coef F) (n : Nat) : Finset F :=
  (Finset.range n).biUnion (fun i => roots 2 (fun e => if e = 0 then ρ.1 i else σ.1 i) ∪ roots 2 (fun e => if e = 0 then ρ.2.1 i else σ.2.1 i)) ∪
    roots 2 (fun e => if e = 0 then ρ.2.2.1 else σ.2.2.1)

theorem cBad_card (ρ σ : Coef F) (n : Nat) : (cBad ρ σ n).card ≤ n * 4 + 2 := by
  refine card_union3 ?_ (roots_card _ _)
  refine (card_biUnion_const _ _ 4 fun i _ => ?_).trans (by rw [Finset.card_range])
  exact card_union3 (roots_card _ _) (roots_card _ _)

theorem roots_two {a b c : F} (hc : c ∉ roots 2 (fun e => if e = 0 then a else b)) (h : a + c * b = 0) : a = 0 ∧ b = 0 := by
  have := roots_spec hc (by rw [Finset.sum_range_succ, Finset.sum_range_one]; simp; linear_combination h)
  exact ⟨this 0 (by omega), by simpa using this 1 (by omega)⟩

theorem cBad_spec {ρ σ : Coef F} {n : Nat} {c : F} (hc : c ∉ cBad ρ σ n) (h : ¬ Coef.Nonzero n (ρ + c • σ)) :
    (∀ i < n, ρ.1 i = 0 ∧ σ.1 i = 0) ∧ (∀ i < n, ρ.2.1 i = 0 ∧ σ.2.1 i = 0) ∧ ρ.2.2.1 = 0 ∧ σ.2.2.1 = 0 := by
  obtain ⟨h1, h2, h3, -⟩ := not_nonzero h
  unfold cBad at hc
  rw [Finset.mem_union, not_or] at hc
  have hi : ∀ i < n, c ∉ roots 2 (fun e => if e = 0 then ρ.1 i else σ.1 i) ∧ c ∉ roots 2 (fun e => if e = 0 then ρ.2.1 i else σ.2.1 i) := by
    intro i hi
    rw [← not_or, ← Finset.mem_union]
    exact fun hm => hc.1 (Finset.mem_biUnion.2 ⟨i, Finset.mem_range.2 hi, hm⟩)
  exact ⟨fun i hi' => roots_two (hi i hi').1 (h1 i hi'), fun i hi' => roots_two (hi i hi').2 (h2 i hi'), roots_two hc.2 h3⟩

end coin

/-! ## From the relation to the equations -/

theorem coef_sum_fst {ι : Type} (s : Finset ι) (f : ι → Coef F) (i : Nat) : (∑ j ∈ s, f j).1 i = ∑ j ∈ s, (f j).1 i := by
  rw [Prod.fst_sum, Finset.sum_apply]

theorem coef_sum_snd {ι : Type} (s : Finset ι) (f : ι → Coef F) (i : Nat) : (∑ j ∈ s, f j).2.1 i = ∑ j ∈ s, (f j).2.1 i := by
  rw [Prod.snd_sum, Prod.fst_sum, Finset.sum_apply]

theorem coef_sum_third {ι : Type} (s : Finset ι) (f : ι → Coef F) : (∑ j ∈ s, f j).2.2.1 = ∑ j ∈ s, (f j).2.2.1 := by
  rw [Prod.snd_sum, Prod.snd_sum, Prod.fst_sum]

theorem finalPts_eq [Fintype F] {R : Ristretto F G} (E : R.Encodings) (A : AlgProver F G) (log : Oracle.Log F) (p : Proof F G) :
    let P := finalPts A R log p
    (∀ j < p.V.length, P.V j = A.coef log (R.pBytes ((p.V.map fun V => V.value).getD j 0))) ∧ P.A = A.coef log (R.pBytes p.A) ∧
    P.S = A.coef log (R.pBytes p.S) ∧ P.T1 = A.coef log (R.pBytes p.T1) ∧ P.T2 = A.coef log (R.pBytes p.T2) ∧
    ∀ j < (p.inner.L.zip p.inner.R).length, P.L j = A.coef log (R.pBytes (p.inner.L.getD j 0)) ∧
      P.R j = A.coef log (R.pBytes (p.inner.R.getD j 0)) := by
  intro P
  have hW := len32W E log.hash p
  have hWl := blocksW_length R log.hash p
  have hn : nV (strW R log.hash p) 9 = p.V.length := by
    unfold nV
    rw [strW_eq, flat_length hW, hWl]
    omega
  have get : ∀ i < p.V.length + 9, ∀ b, (blocksW R log.hash p)[i]? = some b → blk (strW R log.hash p) i = b := by
    intro i hi b hb
    rw [strW_eq, blk_flat hW (by omega)]
    rw [List.getElem?_eq_getElem (by omega)] at hb
    exact Option.some.inj hb
  have hb : blocksW R log.hash p = p.V.map (fun V => R.pBytes V.value) ++ [R.pBytes p.A, R.pBytes p.S,
      R.sBytes (log.hash (R.sBytes (log.hash (strY R p)))), R.pBytes p.T1, R.pBytes p.T2, R.sBytes (log.hash (strX R log.hash p)),
      R.sBytes p.taux, R.sBytes p.mu, R.sBytes p.t] := by
    simp [blocksW, blocksX, blocksY]
  refine ⟨fun j hj => ?_, ?_, ?_, ?_, ?_, fun j hj => ?_⟩
  · show A.coef log (blk (strW R log.hash p) j) = _
    rw [get j (by omega) (R.pBytes ((p.V.map fun V => V.value).getD j 0))]
    rw [hb, List.getElem?_append_left (by simpa using hj)]
    simp [hj]
  · show A.coef log (blk (strW R log.hash p) (nV (strW R log.hash p) 9)) = _
    rw [hn, get _ (by omega) (R.pBytes p.A) (by rw [hb, List.getElem?_append_right (by simp)]; simp)]
  · show A.coef log (blk (strW R log.hash p) (nV (strW R log.hash p) 9 + 1)) = _
    rw [hn, get _ (by omega) (R.pBytes p.S) (by rw [hb, List.getElem?_append_right (by simp)]; simp)]
  · show A.coef log (blk (strW R log.hash p) (nV (strW R log.hash p) 9 + 3)) = _
    rw [hn, get _ (by omega) (R.pBytes p.T1) (by rw [hb, List.getElem?_append_right (by simp)]; simp)]
  · show A.coef log (blk (strW R log.hash p) (nV (strW R log.hash p) 9 + 4)) = _
    rw [hn, get _ (by omega) (R.pBytes p.T2) (by rw [hb, List.getElem?_append_right (by simp)]; simp)]
  · have hU := len32U E (p.inner.L.zip p.inner.R)
    have hUl := blocksU_length R (p.inner.L.zip p.inner.R)
    obtain ⟨g1, g2⟩ := blocksU_get R (p.inner.L.zip p.inner.R) j hj
    have hj' : j < p.inner.L.length ∧ j < p.inner.R.length := by simpa using hj
    rw [List.getElem?_eq_getElem (by omega)] at g1 g2
    have g1 := Option.some.inj g1
    have g2 := Option.some.inj g2
    constructor
    · show A.coef log (blk _ (2 * j)) = _
      rw [blk_flat hU (by omega), g1, List.getElem_zip, List.getD_eq_getElem _ _ hj'.1]
    · show A.coef log (blk _ (2 * j + 1)) = _
      rw [blk_flat hU (by omega), g2, List.getElem_zip, List.getD_eq_getElem _ _ hj'.2]

theorem relation_inv [Fintype F] {A : AlgProver F G} {R : Ristretto F G} {next : Oracle.Log F → Bytes} {l : List F} {p : Proof F G}
    {m k : Nat} (E : R.Encodings) (hp : Played A R next l p m k) (hn : 64 * m = 2 ^ k) {c : F}
    (hc : let log := Oracle.play next l
      c ∉ cBad (rel1 R (A.coef log) m (chalAt R log.hash p) p)
        (rel2 R (A.coef log) (chalAt R log.hash p) (foldAt R log.hash p.inner) p p.inner) (64 * m))
    (hr : ¬ (relation R (Oracle.play next l).hash (A.coef (Oracle.play next l)) m p c).Nonzero (64 * m)) :
    let H := (Oracle.play next l).hash
    Inv (lin m (finalPts A R (Oracle.play next l) p) (H (strY R p)) (H (R.sBytes (H (strY R p)))))
      (statAt R H p k (Oracle.play next l)) (64 * m) k := by
  intro H
  set log := Oracle.play next l with hlog
  obtain ⟨h1, h2, h3, h4⟩ := cBad_spec hc hr
  rw [show log.hash = H from rfl] at h1 h2 h3 h4
  obtain ⟨eV, eA, eS, eT1, eT2, eLR⟩ := finalPts_eq E A log p
  rw [hp.rounds] at eLR
  set P := finalPts A R log p with hP
  have hash_some : ∀ s, (∃ a, log.lookup s = some a) → log.lookup s = some (H s) := by
    rintro s ⟨a, ha⟩
    show log.lookup s = some (log.hash s)
    rw [Oracle.Log.hash, ha]
    rfl
  have hne : ∀ s, (∃ a, log.lookup s = some a) → H s ≠ 0 := by
    rintro s ⟨a, ha⟩
    obtain ⟨t, ht⟩ := firstAt next l s a ha
    have := ht.answer
    rw [show H s = l.getD t 0 from this]
    exact (not_special hp ht.lt).1
  have hus : (foldAt R H p.inner).length = k := by simp only [foldAt, List.length_map, List.length_range]; exact hp.rounds
  have hget : ∀ j < k, (foldAt R H p.inner).getD j 0 = H (strU R p.inner j) := by
    intro j hj
    rw [List.getD_eq_getElem _ _ (by omega)]
    simp [foldAt]
  have hy := hne _ hp.y
  have hX : (statAt R H p k log).X = some (H (strX R H p)) := hash_some _ hp.x
  have hW : (statAt R H p k log).W = some (H (strW R H p)) := hash_some _ hp.w
  have hU : ∀ j < k, (statAt R H p k log).U j = some ((foldAt R H p.inner).getD j 0) := by
    intro j hj
    rw [hget j hj]
    show (if j < k then log.lookup (strU R p.inner j) else none) = _
    rw [if_pos hj]
    exact hash_some _ (hp.u j hj)
  refine Inv.final (x := H (strX R H p)) (w := H (strW R H p)) (a := p.inner.A) (b := p.inner.B) (t := p.t)
    (us := foldAt R H p.inner) hus hn ?_ _ hX hW hU ?_ ?_ ?_ ?_ ?_ ?_
  · intro u hu
    simp only [foldAt, List.mem_map, List.mem_range] at hu
    obtain ⟨j, hj, rfl⟩ := hu
    exact hne _ (hp.u j (hp.rounds ▸ hj))
  · intro i hi
    have h := (h1 i hi).2
    unfold rel2 at h
    simp only [Prod.fst_sub, Prod.smul_fst, Pi.sub_apply, Pi.smul_apply, smul_eq_mul, coef_sum_fst, Prod.fst_add, Pi.add_apply] at h
    rw [hus] at h
    unfold cAt comb
    rw [hX, Option.getD_some]
    have hsum : ∑ j ∈ Finset.range k, (RPFold.sq ((statAt R H p k log).U j) * (lin m P (H (strY R p)) (H (R.sBytes (H (strY R p))))).l j i +
        RPFold.isq ((statAt R H p k log).U j) * (lin m P (H (strY R p)) (H (R.sBytes (H (strY R p))))).r j i) =
        ∑ j ∈ Finset.range k, ((foldAt R H p.inner).getD j 0 * (foldAt R H p.inner).getD j 0 * (A.coef log (R.pBytes (p.inner.L.getD j 0))).1 i
          + ((foldAt R H p.inner).getD j 0)⁻¹ * ((foldAt R H p.inner).getD j 0)⁻¹ * (A.coef log (R.pBytes (p.inner.R.getD j 0))).1 i) := by
      refine Finset.sum_congr rfl fun j hj => ?_
      have hj := Finset.mem_range.1 hj
      rw [hU j hj]
      simp only [lin, RPFold.sq, RPFold.isq, (eLR j hj).1, (eLR j hj).2]
      ring
    rw [hsum]
    simp only [lin, eA, eS]
    simp only [chalAt] at h
    linear_combination -h
  · intro i hi
    have h := (h2 i hi).2
    unfold rel2 at h
    simp only [Prod.fst_sub, Prod.snd_sub, Prod.smul_fst, Prod.smul_snd, Pi.sub_apply, Pi.smul_apply, smul_eq_mul, coef_sum_snd,
      Prod.fst_add, Prod.snd_add, Pi.add_apply] at h
    rw [hus] at h
    unfold cAt' comb
    rw [hX, Option.getD_some]
    have hsum : ∑ j ∈ Finset.range k, (RPFold.sq ((statAt R H p k log).U j) * (lin m P (H (strY R p)) (H (R.sBytes (H (strY R p))))).l' j i +
        RPFold.isq ((statAt R H p k log).U j) * (lin m P (H (strY R p)) (H (R.sBytes (H (strY R p))))).r' j i) =
        H (strY R p) ^ i * ∑ j ∈ Finset.range k, ((foldAt R H p.inner).getD j 0 * (foldAt R H p.inner).getD j 0 * (A.coef log (R.pBytes (p.inner.L.getD j 0))).2.1 i
          + ((foldAt R H p.inner).getD j 0)⁻¹ * ((foldAt R H p.inner).getD j 0)⁻¹ * (A.coef log (R.pBytes (p.inner.R.getD j 0))).2.1 i) := by
      rw [Finset.mul_sum]
      refine Finset.sum_congr rfl fun j hj => ?_
      have hj := Finset.mem_range.1 hj
      rw [hU j hj]
      simp only [lin, RPFold.sq, RPFold.isq, (eLR j hj).1, (eLR j hj).2]
      ring
    rw [hsum]
    simp only [lin, eA, eS]
    simp only [chalAt, invPow] at h
    have hy' : H (strY R p) ^ i ≠ 0 := pow_ne_zero _ hy
    change _ * (if H (strY R p) = 0 then 0 else _) - _ - _ - _ - _ = 0 at h
    rw [if_neg hy] at h
    have hinv : (H (strY R p))⁻¹ ^ i * H (strY R p) ^ i = 1 := by rw [inv_pow, inv_mul_cancel₀ hy']
    change (p.inner.B * (IP.weight (foldAt R H p.inner) i)⁻¹ - H (R.sBytes (H (strY R p))) ^ (i / 64 + 2) * 2 ^ (i % 64)) *
      (H (strY R p))⁻¹ ^ i - H (R.sBytes (H (strY R p))) - (A.coef log (R.pBytes p.A)).2.1 i -
      H (strX R H p) * (A.coef log (R.pBytes p.S)).2.1 i - _ = 0 at h
    linear_combination -(H (strY R p) ^ i) * h + (p.inner.B * (IP.weight (foldAt R H p.inner) i)⁻¹ -
      H (R.sBytes (H (strY R p))) ^ (i / 64 + 2) * 2 ^ (i % 64)) * hinv
  · have h := h4
    unfold rel2 at h
    simp only [Prod.fst_sub, Prod.snd_sub, Prod.smul_fst, Prod.smul_snd, smul_eq_mul, coef_sum_third, Prod.fst_add, Prod.snd_add] at h
    rw [hus] at h
    unfold bAt comb
    rw [hX, Option.getD_some]
    have hsum : ∑ j ∈ Finset.range k, (RPFold.sq ((statAt R H p k log).U j) * (lin m P (H (strY R p)) (H (R.sBytes (H (strY R p))))).lb j +
        RPFold.isq ((statAt R H p k log).U j) * (lin m P (H (strY R p)) (H (R.sBytes (H (strY R p))))).rb j) =
        ∑ j ∈ Finset.range k, ((foldAt R H p.inner).getD j 0 * (foldAt R H p.inner).getD j 0 * (A.coef log (R.pBytes (p.inner.L.getD j 0))).2.2.1
          + ((foldAt R H p.inner).getD j 0)⁻¹ * ((foldAt R H p.inner).getD j 0)⁻¹ * (A.coef log (R.pBytes (p.inner.R.getD j 0))).2.2.1) := by
      refine Finset.sum_congr rfl fun j hj => ?_
      have hj := Finset.mem_range.1 hj
      rw [hU j hj]
      simp only [lin, RPFold.sq, RPFold.isq, (eLR j hj).1, (eLR j hj).2]
      ring
    rw [hsum]
    simp only [lin, eA, eS]
    simp only [chalAt] at h
    linear_combination -h
  · have h := h3
    unfold rel1 at h
    simp only [Prod.fst_sub, Prod.snd_sub, Prod.smul_fst, Prod.smul_snd, smul_eq_mul, coef_sum_third] at h
    unfold thAt
    rw [hX, Option.getD_some]
    simp only [lin, eT1, eT2]
    have hsum : ∑ j ∈ Finset.range m, H (R.sBytes (H (strY R p))) ^ (j + 2) * (P.V j).2.2.1 = ∑ j ∈ Finset.range m,
        H (R.sBytes (H (strY R p))) ^ (j + 2) * (A.coef log (R.pBytes ((p.V.map fun V => V.value).getD j 0))).2.2.1 :=
      Finset.sum_congr rfl fun j hj => by rw [eV j ((Finset.mem_range.1 hj).trans_le hp.len)]
    rw [hsum]
    simp only [chalAt] at h
    linear_combination -h
  · intro i hi
    have h := (h1 i hi).1
    unfold rel1 at h
    simp only [Prod.fst_sub, Prod.smul_fst, Pi.sub_apply, Pi.smul_apply, smul_eq_mul, coef_sum_fst, Pi.zero_apply] at h
    simp only [lin, eT1, eT2]
    have hsum : ∑ j ∈ Finset.range m, H (R.sBytes (H (strY R p))) ^ (j + 2) * (P.V j).1 i = ∑ j ∈ Finset.range m,
        H (R.sBytes (H (strY R p))) ^ (j + 2) * (A.coef log (R.pBytes ((p.V.map fun V => V.value).getD j 0))).1 i :=
      Finset.sum_congr rfl fun j hj => by rw [eV j ((Finset.mem_range.1 hj).trans_le hp.len)]
    rw [hsum]
    simp only [chalAt] at h
    linear_combination -h
  · intro i hi
    have h := (h2 i hi).1
    unfold rel1 at h
    simp only [Prod.fst_sub, Prod.snd_sub, Prod.smul_fst, Prod.smul_snd, Pi.sub_apply, Pi.smul_apply, smul_eq_mul, coef_sum_snd, Pi.zero_apply] at h
    simp only [lin, eT1, eT2]
    have hsum : ∑ j ∈ Finset.range m, H (R.sBytes (H (strY R p))) ^ (j + 2) * (P.V j).2.1 i = ∑ j ∈ Finset.range m,
        H (R.sBytes (H (strY R p))) ^ (j + 2) * (A.coef log (R.pBytes ((p.V.map fun V => V.value).getD j 0))).2.1 i :=
      Finset.sum_congr rfl fun j hj => by rw [eV j ((Finset.mem_range.1 hj).trans_le hp.len)]
    rw [hsum]
    simp only [chalAt] at h
    linear_combination -h

end Dusk.RP
