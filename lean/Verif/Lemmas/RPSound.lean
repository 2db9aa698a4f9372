import Verif.Spec.RPSound
import Verif.Lemmas.RangeProof
import Verif.Lemmas.PolyRoots
import Mathlib.Tactic.LinearCombination
import Mathlib.Tactic.FieldSimp
/-!
# Extraction for range proofs
-/

set_option linter.unusedSectionVars false

namespace Dusk.RP

variable {F G : Type} [Field F] [AddCommGroup G] [Module F G] [DecidableEq F]

/-! ## Evaluation is linear -/

theorem ev_add (P : Pub G) (n : Nat) (ρ σ : Coef F) : ev P n (ρ + σ) = ev P n ρ + ev P n σ := by
  simp only [ev, Prod.fst_add, Prod.snd_add, Pi.add_apply, add_smul, Finset.sum_add_distrib]
  abel

theorem ev_smul (P : Pub G) (n : Nat) (c : F) (ρ : Coef F) : ev P n (c • ρ) = c • ev P n ρ := by
  simp only [ev, Prod.smul_fst, Prod.smul_snd, Pi.smul_apply, smul_eq_mul, mul_smul, smul_add, Finset.smul_sum]

theorem ev_neg (P : Pub G) (n : Nat) (ρ : Coef F) : ev P n (-ρ) = -ev P n ρ := by
  have := ev_smul P n (-1) ρ
  simpa using this

theorem ev_sub (P : Pub G) (n : Nat) (ρ σ : Coef F) : ev P n (ρ - σ) = ev P n ρ - ev P n σ := by
  rw [sub_eq_add_neg, ev_add, ev_neg, ← sub_eq_add_neg]

theorem not_nonzero {n : Nat} {ρ : Coef F} (h : ¬ ρ.Nonzero n) :
    (∀ i < n, ρ.1 i = 0) ∧ (∀ i < n, ρ.2.1 i = 0) ∧ ρ.2.2.1 = 0 ∧ ρ.2.2.2 = 0 := by
  unfold Coef.Nonzero at h
  simpa [not_or] using h

/-! ## One transcript -/

theorem accepted_residues [DecidableEq G] {P : Pub G} {m k : Nat} {ch : Chal F} {us : List F} {p : Proof F G}
    {ip : IP.Proof F G} (hw : WF m k P p.V ip) (h : AcceptedAt P m ch us p ip) :
    residue1 P m ch p = 0 ∧ residue2L P m ch us p ip = 0 := by
  obtain ⟨R, c, c', hne, hus, hacc⟩ := h
  have h1 := hacc c (Or.inl rfl)
  have h2 := hacc c' (Or.inr rfl)
  rw [mega_eq R P ch c p ip hw, IP.chals_eq, hus] at h1
  rw [mega_eq R P ch c' p ip hw, IP.chals_eq, hus] at h2
  have e1 : residue1 P m ch p + c • residue2L P m ch us p ip = 0 := by
    by_contra hh; rw [if_neg hh] at h1; cases h1
  have e2 : residue1 P m ch p + c' • residue2L P m ch us p ip = 0 := by
    by_contra hh; rw [if_neg hh] at h2; cases h2
  have : (c - c') • residue2L P m ch us p ip = 0 := by
    rw [sub_smul, sub_eq_zero]
    exact add_left_cancel (e1.trans e2.symm)
  have h0 := (smul_eq_zero.1 this).resolve_left (sub_ne_zero.2 hne)
  rw [h0, smul_zero, add_zero] at e1
  exact ⟨e1, h0⟩

/-- The point opened by the inner product argument. -/
def target (P : Pub G) (m : Nat) (ch : Chal F) (p : Proof F G) : G :=
  p.A + ch.x • p.S - ch.z • P.Gv.sum + msm (had (sumZ ch.z 2 m) (hpfOf ch.y (nBits * m))) P.Hv + ch.z • P.Hv.sum
    - p.mu • P.Bl + (ch.w * p.t) • P.B

theorem verEq_of_residue2 {P : Pub G} {m : Nat} {ch : Chal F} {us : List F} {p : Proof F G} {ip : IP.Proof F G}
    (h : residue2L P m ch us p ip = 0) :
    IP.VerEq P.Gv (vsmul (hpfOf ch.y (nBits * m)) P.Hv) (ch.w • P.B) (target P m ch p) us ip.L ip.R ip.A ip.B := by
  unfold residue2L at h
  unfold IP.VerEq target
  rw [← sub_eq_zero, ← h]
  module

theorem sum_eq_range (g : List G) {n : Nat} (hg : g.length = n) : g.sum = ∑ i ∈ Finset.range n, g.getD i 0 := by
  subst hg
  induction g with
  | nil => simp
  | cons x g ih =>
    rw [List.sum_cons, List.length_cons, Finset.sum_range_succ']
    simp only [List.getD_cons_succ, List.getD_cons_zero]
    rw [ih, add_comm]

theorem msm_getD (a : List F) (g : List G) {n : Nat} (ha : a.length = n) (hg : g.length = n) :
    msm a g = ∑ i ∈ Finset.range n, a.getD i 0 • g.getD i 0 := by
  rw [msm_eq_sum _ _ (by omega), ha]

theorem getD_had (a b : List F) (i : Nat) (h : a.length = b.length) :
    (had a b).getD i 0 = a.getD i 0 * b.getD i 0 := by
  by_cases hi : i < a.length
  · have hb : i < b.length := by omega
    simp [had, List.getD_eq_getElem?_getD, hi, hb]
  · have hb : ¬ i < b.length := by omega
    simp [had, List.getD_eq_getElem?_getD, hi, hb]

theorem getD_hpfOf {y : F} (hy : y ≠ 0) {n i : Nat} (hi : i < n) : (hpfOf y n).getD i 0 = y⁻¹ ^ i := by
  rw [hpfOf_ne hy, powers]
  simp [hi]

theorem getD_sumZ (z : F) {m i : Nat} (hi : i < 64 * m) : (sumZ z 2 m).getD i 0 = z ^ (i / 64 + 2) * 2 ^ (i % 64) := by
  rw [sumZ_eq]
  have : i < m * nBits := by unfold nBits; omega
  simp [this]

/-- The dimensions of the public points and of the statement. -/
structure Dims (P : Pub G) (V : List (Commitment F G)) (m k : Nat) : Prop where
  k_lt : k < 32
  size : 2 ^ k = 64 * m
  lenG : P.Gv.length = 64 * m
  lenH : P.Hv.length = 64 * m
  lenV : m ≤ V.length

theorem Dims.wf {P : Pub G} {V : List (Commitment F G)} {m k : Nat} (h : Dims P V m k) {ip : IP.Proof F G}
    (hL : ip.L.length = k) (hR : ip.R.length = k) : WF m k P V ip :=
  ⟨h.k_lt, h.size, h.lenG, h.lenH, hL, hR, h.lenV⟩

theorem transcript_open {P : Pub G} {m k : Nat} {s : Strategy F G k} (hd : Dims P s.V m k) {y z x w : F} (hy : y ≠ 0)
    (hgood : (s.ip y z x w).Good)
    (hacc : ∀ σ, residue2L P m ⟨y, z, x, w⟩ ((s.ip y z x w).branch σ).1
      (s.proof y z x ((s.ip y z x w).branch σ).2) ((s.ip y z x w).branch σ).2 = 0) :
    (ev P (64 * m) (openAt s (64 * m) y z x w) = s.A + x • s.S) ∨
    (ev P (64 * m) (relIP s y z x w) = 0 ∧ (relIP s y z x w).Nonzero (64 * m)) := by
  have hlen : (vsmul (hpfOf y (nBits * m)) P.Hv).length = 2 ^ k := by
    rw [vsmul_length, hpfOf_length, hd.lenH, hd.size]; simp [nBits]
  have hval := (s.ip y z x w).extract_valid P.Gv (vsmul (hpfOf y (nBits * m)) P.Hv) (w • P.B)
    (target P m ⟨y, z, x, w⟩ (s.proof y z x ⟨[], [], 0, 0⟩)) hgood (by rw [hd.lenG, hd.size]) hlen
    (fun σ => verEq_of_residue2 (p := s.proof y z x ((s.ip y z x w).branch σ).2) (hacc σ))
  have hn : (hpfOf y (nBits * m)).length = 64 * m := hpfOf_length _ _
  cases he : (s.ip y z x w).extract with
  | wit a b =>
    left
    rw [he] at hval
    obtain ⟨ha, hb, hP⟩ := hval
    have ha : a.length = 64 * m := by rw [ha, hd.lenG]
    have hb : b.length = 64 * m := by rw [hb, hlen, hd.size]
    unfold IP.cur target Strategy.proof at hP
    rw [← msm_had, msm_getD a P.Gv ha hd.lenG, msm_getD (had b _) P.Hv (by simp [hb, hn]) hd.lenH,
      msm_getD (had _ _) P.Hv (by simp [sumZ_length, hn, nBits]) hd.lenH, sum_eq_range P.Gv hd.lenG,
      sum_eq_range P.Hv hd.lenH, dot_eq_msm, msm_getD a b ha hb] at hP
    simp only [smul_eq_mul] at hP
    have hA : s.A + x • s.S = ∑ i ∈ Finset.range (64 * m), a.getD i 0 • P.Gv.getD i 0 +
        ∑ i ∈ Finset.range (64 * m), (had b (hpfOf y (nBits * m))).getD i 0 • P.Hv.getD i 0 +
        (∑ i ∈ Finset.range (64 * m), a.getD i 0 * b.getD i 0) • w • P.B
        + z • ∑ i ∈ Finset.range (64 * m), P.Gv.getD i 0
        - ∑ i ∈ Finset.range (64 * m), (had (sumZ z 2 m) (hpfOf y (nBits * m))).getD i 0 • P.Hv.getD i 0
        - z • ∑ i ∈ Finset.range (64 * m), P.Hv.getD i 0 + s.mu y z x • P.Bl - (w * s.t y z x) • P.B := by
      rw [← hP]; abel
    rw [hA]
    unfold openAt ev
    simp only [extA, extB, he]
    have e1 : ∑ i ∈ Finset.range (64 * m), (a.getD i 0 + z) • P.Gv.getD i 0 =
        ∑ i ∈ Finset.range (64 * m), a.getD i 0 • P.Gv.getD i 0 + z • ∑ i ∈ Finset.range (64 * m), P.Gv.getD i 0 := by
      simp only [add_smul, Finset.sum_add_distrib, Finset.smul_sum]
    have e2 : ∑ i ∈ Finset.range (64 * m),
          ((b.getD i 0 - z ^ (i / 64 + 2) * 2 ^ (i % 64)) * y⁻¹ ^ i - z) • P.Hv.getD i 0 =
        ∑ i ∈ Finset.range (64 * m), (had b (hpfOf y (nBits * m))).getD i 0 • P.Hv.getD i 0
        - ∑ i ∈ Finset.range (64 * m), (had (sumZ z 2 m) (hpfOf y (nBits * m))).getD i 0 • P.Hv.getD i 0
        - z • ∑ i ∈ Finset.range (64 * m), P.Hv.getD i 0 := by
      rw [Finset.smul_sum, ← Finset.sum_sub_distrib, ← Finset.sum_sub_distrib]
      apply Finset.sum_congr rfl
      intro i hi
      have hi := Finset.mem_range.1 hi
      rw [getD_had _ _ _ (by omega), getD_had _ _ _ (by rw [sumZ_length, hn]), getD_sumZ z hi,
        getD_hpfOf hy (by unfold nBits; omega)]
      module
    rw [e1, e2]
    module
  | rel g h c =>
    right
    rw [he] at hval
    obtain ⟨hg, hh, hrel, hnz⟩ := hval
    have hg : g.length = 64 * m := by rw [hg, hd.lenG]
    have hh : h.length = 64 * m := by rw [hh, hlen, hd.size]
    constructor
    · rw [← msm_had, msm_getD g P.Gv hg hd.lenG, msm_getD (had h _) P.Hv (by simp [hh, hn]) hd.lenH, smul_smul] at hrel
      unfold relIP ev
      simp only [he, zero_smul, add_zero]
      refine Eq.trans ?_ hrel
      refine congrArg (fun X => _ + X + _) (Finset.sum_congr rfl ?_)
      intro i hi
      have hi := Finset.mem_range.1 hi
      rw [getD_had _ _ _ (by omega), getD_hpfOf hy (by unfold nBits; omega)]
    · unfold relIP Coef.Nonzero
      simp only [he]
      rcases hnz with ⟨u, hu, hu0⟩ | ⟨u, hu, hu0⟩
      · left
        obtain ⟨i, hi, rfl⟩ := List.getElem_of_mem hu
        refine ⟨i, by omega, ?_⟩
        simpa [List.getD_eq_getElem?_getD, hi] using hu0
      · right; left
        obtain ⟨i, hi, rfl⟩ := List.getElem_of_mem hu
        refine ⟨i, by omega, mul_ne_zero ?_ (pow_ne_zero _ (inv_ne_zero hy))⟩
        simpa [List.getD_eq_getElem?_getD, hi] using hu0

/-! ## Interpolation -/

theorem lagrange_coeff (S : Finset F) {i l : Nat} (hl : l < S.card) :
    ∑ z ∈ S, (Lagrange.basis S id z).coeff i * z ^ l = if i = l then 1 else 0 := by
  have h := Lagrange.eq_interpolate (s := S) (v := id) (f := (Polynomial.X : _root_.Polynomial F) ^ l)
    (Set.injOn_id _) (by rw [Polynomial.degree_X_pow]; exact_mod_cast hl)
  have h2 := congrArg (fun p => Polynomial.coeff p i) h
  simp only [Polynomial.coeff_X_pow, Lagrange.interpolate_apply, Polynomial.finsetSum_coeff, Polynomial.coeff_C_mul,
    Polynomial.eval_pow, Polynomial.eval_X, id] at h2
  rw [h2]
  exact Finset.sum_congr rfl fun z _ => mul_comm _ _

theorem atZero_quadratic {x : Fin 3 → F} (hx : Function.Injective x) (a b c : F) :
    ∑ i, atZero x i * (a + b * x i + c * (x i * x i)) = a := by
  have h01 : x 0 - x 1 ≠ 0 := sub_ne_zero.2 (hx.ne (by decide))
  have h02 : x 0 - x 2 ≠ 0 := sub_ne_zero.2 (hx.ne (by decide))
  have h12 : x 1 - x 2 ≠ 0 := sub_ne_zero.2 (hx.ne (by decide))
  have h10 : x 1 - x 0 ≠ 0 := sub_ne_zero.2 (hx.ne (by decide))
  have h20 : x 2 - x 0 ≠ 0 := sub_ne_zero.2 (hx.ne (by decide))
  have h21 : x 2 - x 1 ≠ 0 := sub_ne_zero.2 (hx.ne (by decide))
  rw [Fin.sum_univ_three]
  unfold atZero
  generalize x 0 = p at *
  generalize x 1 = q at *
  generalize x 2 = r at *
  have e1 : q - p = -(p - q) := by ring
  have e2 : r - p = -(p - r) := by ring
  have e3 : r - q = -(q - r) := by ring
  rw [e1, e2, e3]
  field_simp
  ring

/-! ## Sums over blocks of 64 -/

theorem sum_blocks (f : Nat → F) : ∀ m : Nat,
    ∑ i ∈ Finset.range (64 * m), f i = ∑ j ∈ Finset.range m, ∑ k ∈ Finset.range 64, f (64 * j + k)
  | 0 => by simp
  | m + 1 => by rw [Nat.mul_succ, Finset.sum_range_add, Finset.sum_range_succ _ m, sum_blocks f m]

theorem sum_z_blocks (z : F) (f : Nat → F) (m : Nat) :
    ∑ i ∈ Finset.range (64 * m), f i * (z ^ (i / 64 + 2) * 2 ^ (i % 64)) =
      ∑ j ∈ Finset.range m, z ^ (j + 2) * ∑ k ∈ Finset.range 64, f (64 * j + k) * 2 ^ k := by
  rw [sum_blocks]
  apply Finset.sum_congr rfl
  intro j _
  rw [Finset.mul_sum]
  apply Finset.sum_congr rfl
  intro k hk
  have hk := Finset.mem_range.1 hk
  rw [show (64 * j + k) / 64 = j by omega, show (64 * j + k) % 64 = k by omega]
  ring

/-- The constant coefficient of the polynomial, less `delta`. -/
theorem t0_sub_delta (y z : F) (m : Nat) (aL aR : Nat → F) :
    ∑ i ∈ Finset.range (64 * m), (aL i - z) * (y ^ i * (aR i + z) + z ^ (i / 64 + 2) * 2 ^ (i % 64)) - delta y z m =
      ∑ i ∈ Finset.range (64 * m), aL i * aR i * y ^ i
        + z * ∑ i ∈ Finset.range (64 * m), (aL i - aR i - 1) * y ^ i
        + ∑ j ∈ Finset.range m, z ^ (j + 2) * ∑ k ∈ Finset.range 64, aL (64 * j + k) * 2 ^ k := by
  rw [← sum_z_blocks]
  have hd : delta y z m = ∑ i ∈ Finset.range (64 * m), (z - z ^ 2) * y ^ i -
      ∑ i ∈ Finset.range (64 * m), z * (z ^ (i / 64 + 2) * 2 ^ (i % 64)) := by
    rw [sum_z_blocks z (fun _ => z) m]
    unfold delta
    rw [Finset.mul_sum]
    congr 1
    rw [Finset.mul_sum]
    apply Finset.sum_congr rfl
    intro j _
    rw [← Finset.mul_sum]
    ring
  rw [hd, Finset.mul_sum, ← Finset.sum_sub_distrib, ← Finset.sum_sub_distrib, ← Finset.sum_add_distrib,
    ← Finset.sum_add_distrib]
  apply Finset.sum_congr rfl
  intro i _
  ring

/-! ## All transcripts -/

theorem atZero_points {x : Fin 3 → F} (hx : Function.Injective x) (X Y Z : G) :
    ∑ i, atZero x i • (X + x i • Y + (x i * x i) • Z) = X := by
  have h1 := atZero_quadratic hx 1 0 0
  have h2 := atZero_quadratic hx 0 1 0
  have h3 := atZero_quadratic hx 0 0 1
  simp only [zero_mul, add_zero, mul_one, one_mul, zero_add] at h1 h2 h3
  simp only [smul_add, smul_smul, Finset.sum_add_distrib, ← Finset.sum_smul]
  rw [h1, h2, h3]
  simp

/-- Consequences of an accepting tree. -/
structure Facts {k : Nat} (P : Pub G) (m : Nat) (s : Strategy F G k) (q : Queries F) : Prop where
  res1 : ∀ y ∈ q.ys, ∀ z ∈ q.zs y, ∀ i, let x := q.xs y z i
    (s.t y z x - delta y z m) • P.B + s.taux y z x • P.Bl =
      ∑ j ∈ Finset.range m, z ^ (j + 2) • ((s.V.map fun V => V.value).getD j 0) + x • s.T1 y z + (x * x) • s.T2 y z
  opens : ∀ y ∈ q.ys, ∀ z ∈ q.zs y, ∀ i l, let x := q.xs y z i
    let w := q.ws y z x l
    (ev P (64 * m) (openAt s (64 * m) y z x w) = s.A + x • s.S) ∨
    (ev P (64 * m) (relIP s y z x w) = 0 ∧ (relIP s y z x w).Nonzero (64 * m))

theorem facts [DecidableEq G] {P : Pub G} {m k : Nat} {s : Strategy F G k} {q : Queries F} (hd : Dims P s.V m k)
    (hq : q.Good s m) (hacc : s.Accepting q P m) : Facts P m s q := by
  have hres : ∀ y ∈ q.ys, ∀ z ∈ q.zs y, ∀ i l σ,
      let x := q.xs y z i
      let w := q.ws y z x l
      let b := (s.ip y z x w).branch σ
      residue1 P m ⟨y, z, x, w⟩ (s.proof y z x b.2) = 0 ∧ residue2L P m ⟨y, z, x, w⟩ b.1 (s.proof y z x b.2) b.2 = 0 := by
    intro y hy z hz i l σ
    have hb := (s.ip y z (q.xs y z i) (q.ws y z (q.xs y z i) l)).branch_length σ
    exact accepted_residues (p := s.proof y z _ _) (hd.wf hb.2.1 hb.2.2) (hacc y hy z hz i l σ)
  constructor
  · intro y hy z hz i
    have := (hres y hy z hz i 0 fun _ => 0).1
    unfold residue1 Strategy.proof at this
    dsimp only at this ⊢
    refine sub_eq_zero.1 (Eq.trans ?_ this)
    module
  · intro y hy z hz i l
    exact transcript_open hd (hq.y_ne y hy) (hq.ip y hy z hz i l) fun σ => (hres y hy z hz i l σ).2

section
variable {P : Pub G} {m k : Nat} {s : Strategy F G k} {q : Queries F}

theorem ev_openS (hq : q.Good s m) {y z : F}
    (ho : ∀ i, ev P (64 * m) (openAt s (64 * m) y z (q.xs y z i) (q.ws y z (q.xs y z i) 0)) = s.A + q.xs y z i • s.S) :
    ev P (64 * m) (openS s q (64 * m) y z) = s.S := by
  have h01 : q.xs y z 0 - q.xs y z 1 ≠ 0 := sub_ne_zero.2 ((hq.x_inj y z).ne (by decide))
  unfold openS
  dsimp only
  rw [ev_smul, ev_sub, ho 0, ho 1, add_sub_add_left_eq_sub, ← sub_smul, smul_smul, inv_mul_cancel₀ h01, one_smul]

theorem ev_openA (hq : q.Good s m) {y z : F}
    (ho : ∀ i, ev P (64 * m) (openAt s (64 * m) y z (q.xs y z i) (q.ws y z (q.xs y z i) 0)) = s.A + q.xs y z i • s.S) :
    ev P (64 * m) (openA s q (64 * m) y z) = s.A := by
  unfold openA
  rw [ev_sub, ev_smul, ev_openS hq ho, ho 0, add_sub_cancel_right]

/-- The opening of the weighted sum of the commitments. -/
theorem ev_openSum (hq : q.Good s m) (hf : Facts P m s q) {y z : F} (hy : y ∈ q.ys) (hz : z ∈ q.zs y) :
    (openSum s q m y z).1 • P.B + (openSum s q m y z).2 • P.Bl =
      ∑ j ∈ Finset.range m, z ^ (j + 2) • ((s.V.map fun V => V.value).getD j 0) := by
  have h := atZero_points (hq.x_inj y z)
    (∑ j ∈ Finset.range m, z ^ (j + 2) • ((s.V.map fun V => V.value).getD j 0)) (s.T1 y z) (s.T2 y z)
  rw [← h]
  have h1 := atZero_quadratic (hq.x_inj y z) 1 0 0
  simp only [zero_mul, add_zero, mul_one] at h1
  have : ∀ i, atZero (q.xs y z) i • (∑ j ∈ Finset.range m, z ^ (j + 2) • ((s.V.map fun V => V.value).getD j 0) +
      q.xs y z i • s.T1 y z + (q.xs y z i * q.xs y z i) • s.T2 y z) =
      (atZero (q.xs y z) i * s.t y z (q.xs y z i)) • P.B - atZero (q.xs y z) i • delta y z m • P.B +
      (atZero (q.xs y z) i * s.taux y z (q.xs y z i)) • P.Bl := by
    intro i
    rw [← hf.res1 y hy z hz i]
    module
  rw [Finset.sum_congr rfl fun i _ => this i]
  rw [Finset.sum_add_distrib, Finset.sum_sub_distrib, ← Finset.sum_smul, ← Finset.sum_smul, ← Finset.sum_smul, h1,
    one_smul]
  unfold openSum
  dsimp only
  rw [sub_smul]

theorem ev_openV (hq : q.Good s m) (hf : Facts P m s q) {y : F} (hy : y ∈ q.ys) {j : Nat} (hj : j < m) :
    (openV s q m y j).1 • P.B + (openV s q m y j).2 • P.Bl = (s.V.map fun V => V.value).getD j 0 := by
  have hs : (openV s q m y j).1 • P.B + (openV s q m y j).2 • P.Bl =
      ∑ z ∈ q.zs y, (Lagrange.basis (q.zs y) id z).coeff (j + 2) •
        ((openSum s q m y z).1 • P.B + (openSum s q m y z).2 • P.Bl) := by
    unfold openV
    rw [Prod.fst_sum, Prod.snd_sum, Finset.sum_smul, Finset.sum_smul, ← Finset.sum_add_distrib]
    apply Finset.sum_congr rfl
    intro z _
    simp only [Prod.smul_fst, Prod.smul_snd, smul_eq_mul, mul_smul, smul_add]
  rw [hs, Finset.sum_congr rfl fun z hz => by rw [ev_openSum hq hf hy hz, Finset.smul_sum]]
  rw [Finset.sum_comm]
  have : ∀ l ∈ Finset.range m, ∑ z ∈ q.zs y, (Lagrange.basis (q.zs y) id z).coeff (j + 2) • z ^ (l + 2) •
      ((s.V.map fun V => V.value).getD l 0) = if l = j then (s.V.map fun V => V.value).getD l 0 else 0 := by
    intro l hl
    have hl := Finset.mem_range.1 hl
    have hc := hq.z_card y hy
    rw [Finset.sum_congr rfl fun z _ => smul_smul _ _ _, ← Finset.sum_smul, lagrange_coeff (q.zs y) (by omega)]
    by_cases h : l = j
    · simp [h]
    · rw [if_neg (by omega), if_neg h, zero_smul]
  rw [Finset.sum_congr rfl this, Finset.sum_ite_eq' , if_pos (Finset.mem_range.2 hj)]

/-- What holds if none of the relations is non-trivial. -/
theorem extraction_core (hq : q.Good s m) (hf : Facts P m s q) {y₀ z₀ : F} (hy₀ : y₀ ∈ q.ys) (hz₀ : z₀ ∈ q.zs y₀)
    (hno : ∀ ρ ∈ relations s q (64 * m) m y₀ z₀, ev P (64 * m) ρ = 0 → ¬ ρ.Nonzero (64 * m)) :
    ∀ j < m, ∃ b : Nat → F, (∀ k < 64, b k = 0 ∨ b k = 1) ∧
      (openV s q m y₀ j).1 = ∑ k ∈ Finset.range 64, b k * 2 ^ k := by
  -- every transcript opens `A + x S`
  have ho : ∀ y ∈ q.ys, ∀ z ∈ q.zs y, ∀ i l,
      ev P (64 * m) (openAt s (64 * m) y z (q.xs y z i) (q.ws y z (q.xs y z i) l)) = s.A + q.xs y z i • s.S := by
    intro y hy z hz i l
    rcases hf.opens y hy z hz i l with h | ⟨h1, h2⟩
    · exact h
    · exact absurd h2 (hno _ (Or.inl ⟨y, hy, z, hz, i, l, Or.inl rfl⟩) h1)
  have hS := ev_openS hq fun i => ho y₀ hy₀ z₀ hz₀ i 0
  have hA := ev_openA hq fun i => ho y₀ hy₀ z₀ hz₀ i 0
  -- and always with the same vectors
  have hsame : ∀ y ∈ q.ys, ∀ z ∈ q.zs y, ∀ i l,
      ¬ (openAt s (64 * m) y z (q.xs y z i) (q.ws y z (q.xs y z i) l) -
        (openA s q (64 * m) y₀ z₀ + q.xs y z i • openS s q (64 * m) y₀ z₀)).Nonzero (64 * m) := by
    intro y hy z hz i l
    apply hno _ (Or.inl ⟨y, hy, z, hz, i, l, Or.inr rfl⟩)
    rw [ev_sub, ev_add, ev_smul, ho y hy z hz, hA, hS, sub_self]
  generalize openA s q (64 * m) y₀ z₀ = Ac at *
  generalize openS s q (64 * m) y₀ z₀ = Sc at *
  obtain ⟨aL, aR, bA, gA⟩ := Ac
  obtain ⟨sL, sR, bS, gS⟩ := Sc
  have hl : ∀ y ∈ q.ys, ∀ z ∈ q.zs y, ∀ i l, ∀ a < 64 * m,
      extA s y z (q.xs y z i) (q.ws y z (q.xs y z i) l) a = aL a - z + q.xs y z i * sL a := by
    intro y hy z hz i l a ha
    have := (not_nonzero (hsame y hy z hz i l)).1 a ha
    simp only [openAt, Prod.smul_mk, Prod.mk_add_mk, Prod.mk_sub_mk, Pi.sub_apply, Pi.add_apply, Pi.smul_apply,
      smul_eq_mul] at this
    linear_combination this
  have hr : ∀ y ∈ q.ys, ∀ z ∈ q.zs y, ∀ i l, ∀ a < 64 * m,
      extB s y z (q.xs y z i) (q.ws y z (q.xs y z i) l) a =
        y ^ a * (aR a + z + q.xs y z i * sR a) + z ^ (a / 64 + 2) * 2 ^ (a % 64) := by
    intro y hy z hz i l a ha
    have := (not_nonzero (hsame y hy z hz i l)).2.1 a ha
    simp only [openAt, Prod.smul_mk, Prod.mk_add_mk, Prod.mk_sub_mk, Pi.sub_apply, Pi.add_apply, Pi.smul_apply,
      smul_eq_mul] at this
    have hyy : y ^ a * y⁻¹ ^ a = 1 := by
      rw [← mul_pow, mul_inv_cancel₀ (hq.y_ne y hy), one_pow]
    linear_combination y ^ a * this - (extB s y z (q.xs y z i) (q.ws y z (q.xs y z i) l) a -
      z ^ (a / 64 + 2) * 2 ^ (a % 64)) * hyy
  -- the inner product is `t`
  have ht : ∀ y ∈ q.ys, ∀ z ∈ q.zs y, ∀ i, s.t y z (q.xs y z i) =
      ∑ a ∈ Finset.range (64 * m), (aL a - z + q.xs y z i * sL a) *
        (y ^ a * (aR a + z + q.xs y z i * sR a) + z ^ (a / 64 + 2) * 2 ^ (a % 64)) := by
    intro y hy z hz i
    have hc : ∀ l, q.ws y z (q.xs y z i) l * (∑ a ∈ Finset.range (64 * m), (aL a - z + q.xs y z i * sL a) *
        (y ^ a * (aR a + z + q.xs y z i * sR a) + z ^ (a / 64 + 2) * 2 ^ (a % 64)) - s.t y z (q.xs y z i)) =
        bA + q.xs y z i * bS := by
      intro l
      have := (not_nonzero (hsame y hy z hz i l)).2.2.1
      simp only [openAt, Prod.smul_mk, Prod.mk_add_mk, Prod.mk_sub_mk, smul_eq_mul] at this
      rw [Finset.sum_congr rfl fun a ha => by
        rw [hl y hy z hz i l a (Finset.mem_range.1 ha), hr y hy z hz i l a (Finset.mem_range.1 ha)]] at this
      linear_combination this
    have hne : q.ws y z (q.xs y z i) 0 - q.ws y z (q.xs y z i) 1 ≠ 0 :=
      sub_ne_zero.2 ((hq.w_inj y z _).ne (by decide))
    have h0 : (q.ws y z (q.xs y z i) 0 - q.ws y z (q.xs y z i) 1) * (∑ a ∈ Finset.range (64 * m),
        (aL a - z + q.xs y z i * sL a) * (y ^ a * (aR a + z + q.xs y z i * sR a) + z ^ (a / 64 + 2) * 2 ^ (a % 64)) -
        s.t y z (q.xs y z i)) = 0 := by
      rw [sub_mul, hc 0, hc 1, sub_self]
    have := (mul_eq_zero.1 h0).resolve_left hne
    linear_combination -this
  -- so the opened sum is the value at zero
  have hsum : ∀ y ∈ q.ys, ∀ z ∈ q.zs y, (openSum s q m y z).1 =
      ∑ i ∈ Finset.range (64 * m), aL i * aR i * y ^ i
        + z * ∑ i ∈ Finset.range (64 * m), (aL i - aR i - 1) * y ^ i
        + ∑ j ∈ Finset.range m, z ^ (j + 2) * ∑ k ∈ Finset.range 64, aL (64 * j + k) * 2 ^ k := by
    intro y hy z hz
    rw [← t0_sub_delta]
    unfold openSum
    dsimp only
    congr 1
    have hquad : ∀ i, s.t y z (q.xs y z i) =
        ∑ a ∈ Finset.range (64 * m), (aL a - z) * (y ^ a * (aR a + z) + z ^ (a / 64 + 2) * 2 ^ (a % 64)) +
        (∑ a ∈ Finset.range (64 * m), ((aL a - z) * (y ^ a * sR a) +
          sL a * (y ^ a * (aR a + z) + z ^ (a / 64 + 2) * 2 ^ (a % 64)))) * q.xs y z i +
        (∑ a ∈ Finset.range (64 * m), sL a * (y ^ a * sR a)) * (q.xs y z i * q.xs y z i) := by
      intro i
      rw [ht y hy z hz i, Finset.sum_mul, Finset.sum_mul, ← Finset.sum_add_distrib, ← Finset.sum_add_distrib]
      apply Finset.sum_congr rfl
      intro a _
      ring
    rw [Finset.sum_congr rfl fun i _ => by rw [hquad i]]
    exact atZero_quadratic (hq.x_inj y z) _ _ _
  -- the openings of the commitments are consistent
  have hcons : ∀ y ∈ q.ys, ∀ z ∈ q.zs y, (openSum s q m y z).1 =
      ∑ j ∈ Finset.range m, z ^ (j + 2) * (openV s q m y₀ j).1 := by
    intro y hy z hz
    have hev : ev P (64 * m) (((0 : Nat → F), (0 : Nat → F),
        openSum s q m y z - ∑ j ∈ Finset.range m, z ^ (j + 2) • openV s q m y₀ j) : Coef F) = 0 := by
      unfold ev
      simp only [Pi.zero_apply, zero_smul, Finset.sum_const_zero, zero_add, Prod.fst_sub, Prod.snd_sub, sub_smul,
        Prod.fst_sum, Prod.snd_sum, Finset.sum_smul, Prod.smul_fst, Prod.smul_snd, smul_eq_mul, mul_smul]
      have h1 := ev_openSum hq hf hy hz
      have h2 : ∑ j ∈ Finset.range m, z ^ (j + 2) • ((s.V.map fun V => V.value).getD j 0) =
          ∑ j ∈ Finset.range m, z ^ (j + 2) • (openV s q m y₀ j).1 • P.B +
          ∑ j ∈ Finset.range m, z ^ (j + 2) • (openV s q m y₀ j).2 • P.Bl := by
        rw [← Finset.sum_add_distrib]
        apply Finset.sum_congr rfl
        intro j hj
        rw [← ev_openV hq hf hy₀ (Finset.mem_range.1 hj), smul_add]
      rw [h2] at h1
      rw [sub_add_sub_comm, h1, sub_self]
    have := (not_nonzero (hno _ (Or.inr ⟨y, hy, z, hz, rfl⟩) hev)).2.2.1
    simp only [Prod.fst_sub, Prod.fst_sum, Prod.smul_fst, smul_eq_mul] at this
    exact sub_eq_zero.1 this
  -- separate the powers of `z`
  have hz : ∀ y ∈ q.ys, (∑ i ∈ Finset.range (64 * m), aL i * aR i * y ^ i = 0) ∧
      (∑ i ∈ Finset.range (64 * m), (aL i - aR i - 1) * y ^ i = 0) ∧
      ∀ j < m, ∑ k ∈ Finset.range 64, aL (64 * j + k) * 2 ^ k - (openV s q m y₀ j).1 = 0 := by
    intro y hy
    let c : Nat → F := fun l => match l with
      | 0 => ∑ i ∈ Finset.range (64 * m), aL i * aR i * y ^ i
      | 1 => ∑ i ∈ Finset.range (64 * m), (aL i - aR i - 1) * y ^ i
      | j + 2 => ∑ k ∈ Finset.range 64, aL (64 * j + k) * 2 ^ k - (openV s q m y₀ j).1
    have hc := coeffs_zero c (q.zs y) (hq.z_card y hy) (by
      intro z hz
      rw [Finset.sum_range_succ', Finset.sum_range_succ']
      have h1 := hsum y hy z hz
      rw [hcons y hy z hz] at h1
      have h2 : ∑ j ∈ Finset.range m, c (j + 1 + 1) * z ^ (j + 1 + 1) =
          ∑ j ∈ Finset.range m, z ^ (j + 2) * ∑ k ∈ Finset.range 64, aL (64 * j + k) * 2 ^ k -
          ∑ j ∈ Finset.range m, z ^ (j + 2) * (openV s q m y₀ j).1 := by
        rw [← Finset.sum_sub_distrib]
        apply Finset.sum_congr rfl
        intro j _
        simp only [c]
        ring
      rw [h2]
      simp only [c]
      linear_combination -h1)
    exact ⟨hc 0 (by omega), hc 1 (by omega), fun j hj => hc (j + 2) (by omega)⟩
  -- separate the powers of `y`
  have hb1 := coeffs_zero (m := 64 * m) (fun i => aL i * aR i) q.ys hq.y_card fun y hy => (hz y hy).1
  have hb2 := coeffs_zero (m := 64 * m) (fun i => aL i - aR i - 1) q.ys hq.y_card fun y hy => (hz y hy).2.1
  intro j hj
  refine ⟨fun k => aL (64 * j + k), ?_, (sub_eq_zero.1 ((hz y₀ hy₀).2.2 j hj)).symm⟩
  intro k hk
  have h1 := hb1 (64 * j + k) (by omega)
  have h2 := hb2 (64 * j + k) (by omega)
  have h3 : aL (64 * j + k) * (aL (64 * j + k) - 1) = 0 := by
    linear_combination h1 + aL (64 * j + k) * h2
  rcases mul_eq_zero.1 h3 with h | h
  · exact Or.inl h
  · exact Or.inr (sub_eq_zero.1 h)

end

end Dusk.RP
