import Verif.Lemmas.Weights
/-!
# The inner product argument: folding
-/

set_option linter.unusedSectionVars false

namespace Dusk.IP

variable {F G : Type} [Field F] [AddCommGroup G] [Module F G] [DecidableEq F]

/-! ## Halves -/

theorem splitNil_append {α : Type} {l r : List α} {n : Nat} (hl : l.length = n) (hr : r.length = n)
    (hn : 1 ≤ n) (hb : n + n < 2 ^ 32) : splitNil (l ++ r) n = (l, r) := by
  have h1 : (l ++ r).length = n + n := by simp [hl, hr]
  have h2 : (n + n) % 2 ^ 32 = n + n := Nat.mod_eq_of_lt hb
  unfold splitNil Vec.split
  rw [h1, h2, if_neg (by omega), if_neg (by omega)]
  simp [← hl]

theorem mulFactors_eq : ∀ (v f : List F), v.length ≤ f.length → mulFactors v f = .ok (had v f)
  | [], f, _ => by simp [mulFactors]
  | _ :: _, [], h => by simp at h
  | x :: v, y :: f, h => by
    simp only [List.length_cons, Nat.add_le_add_iff_right] at h
    simp [mulFactors, mulFactors_eq v f h]

theorem mulFactors_panic : ∀ (v f : List F), f.length < v.length → mulFactors v f = .panic
  | [], f, h => by simp at h
  | _ :: _, [], _ => rfl
  | x :: v, y :: f, h => by
    simp only [List.length_cons, Nat.add_lt_add_iff_right] at h
    simp [mulFactors, mulFactors_panic v f h]

theorem zipWith_fold (l r : List F) (u w : F) :
    List.zipWith (fun x y => x * u + y * w) l r =
      vadd (l.map fun x => x * u) (r.map fun x => x * w) := by
  simp [vadd, List.zipWith_map]

theorem zipWith_foldP (l r : List G) (u w : F) :
    List.zipWith (fun x y => u • x + w • y) l r =
      vadd (l.map fun x => u • x) (r.map fun x => w • x) := by
  simp [vadd, List.zipWith_map]

/-- The point committed to by the current vectors. -/
def cur (Q : G) (a b : List F) (Gv Hv : List G) : G := msm a Gv + msm b Hv + dot a b • Q

/-- Left and right cross terms. -/
def crossL (Q : G) (aL bR : List F) (GR HL : List G) : G := msm aL GR + msm bR HL + dot aL bR • Q

theorem msm_fold (a₁ a₂ : List F) (g₁ g₂ : List G) {n : Nat} (h1 : a₁.length = n) (h2 : a₂.length = n)
    (h3 : g₁.length = n) (h4 : g₂.length = n) (u w s t : F) :
    msm (vadd (a₁.map fun x => x * u) (a₂.map fun x => x * w))
      (vadd (g₁.map fun x => s • x) (g₂.map fun x => t • x)) =
    (u * s) • msm a₁ g₁ + (u * t) • msm a₁ g₂ + (w * s) • msm a₂ g₁ + (w * t) • msm a₂ g₂ := by
  rw [msm_vadd_left _ _ _ (by simp [h1, h2]), msm_vadd_right _ _ _ (by simp [h3, h4]),
    msm_vadd_right _ _ _ (by simp [h3, h4])]
  simp only [msm_smul_left, msm_smul_right]
  module

theorem dot_fold (a₁ a₂ b₁ b₂ : List F) {n : Nat} (h1 : a₁.length = n) (h2 : a₂.length = n)
    (h3 : b₁.length = n) (h4 : b₂.length = n) (u w s t : F) :
    dot (vadd (a₁.map fun x => x * u) (a₂.map fun x => x * w))
      (vadd (b₁.map fun x => x * s) (b₂.map fun x => x * t)) =
    (u * s) * dot a₁ b₁ + (u * t) * dot a₁ b₂ + (w * s) * dot a₂ b₁ + (w * t) * dot a₂ b₂ := by
  rw [dot_vadd_left _ _ _ (by simp [h1, h2]), dot_vadd_right _ _ _ (by simp [h3, h4]),
    dot_vadd_right _ _ _ (by simp [h3, h4])]
  simp only [dot_smul_left, dot_smul_right]
  ring

/-- One folding step. -/
theorem cur_fold (Q : G) {aL aR bL bR : List F} {GL GR HL HR : List G} {n : Nat} (ha : aL.length = n)
    (ha' : aR.length = n) (hb : bL.length = n) (hb' : bR.length = n) (hg : GL.length = n)
    (hg' : GR.length = n) (hh : HL.length = n) (hh' : HR.length = n) {u : F} (hu : u ≠ 0) :
    cur Q (vadd (aL.map fun x => x * u) (aR.map fun x => x * u⁻¹))
      (vadd (bL.map fun x => x * u⁻¹) (bR.map fun x => x * u))
      (vadd (GL.map fun x => u⁻¹ • x) (GR.map fun x => u • x))
      (vadd (HL.map fun x => u • x) (HR.map fun x => u⁻¹ • x)) =
    cur Q (aL ++ aR) (bL ++ bR) (GL ++ GR) (HL ++ HR) + (u * u) • crossL Q aL bR GR HL
      + (u⁻¹ * u⁻¹) • crossL Q aR bL GL HR := by
  unfold cur crossL
  rw [msm_fold aL aR GL GR ha ha' hg hg', msm_fold bL bR HL HR hb hb' hh hh',
    dot_fold aL aR bL bR ha ha' hb hb', msm_append _ _ _ _ (by rw [ha, hg]),
    msm_append _ _ _ _ (by rw [hb, hh]), dot_append _ _ _ _ (by rw [ha, hb])]
  rw [mul_inv_cancel₀ hu, inv_mul_cancel₀ hu]
  module

theorem nextRound_eq (R : Ristretto F G) (Q : G) (hs : HashCacher) {aL aR bL bR : List F}
    {GL GR HL HR : List G} {n : Nat} (ha : aL.length = n)
    (ha' : aR.length = n) (hb : bL.length = n) (hb' : bR.length = n) (hg : GL.length = n)
    (hg' : GR.length = n) (hh : HL.length = n) (hh' : HR.length = n) (hn : 1 ≤ n)
    (hbd : n + n < 2 ^ 32) :
    nextRound R n (aL ++ aR) (bL ++ bR) (GL ++ GR) (HL ++ HR) Q hs =
      let L := crossL Q aL bR GR HL
      let Rp := crossL Q aR bL GL HR
      let hs' := hs.append [R.pBytes L, R.pBytes Rp]
      let u : F := hs'.derive R
      .ok ⟨L, Rp, vadd (aL.map fun x => x * u) (aR.map fun x => x * u⁻¹),
        vadd (bL.map fun x => x * u⁻¹) (bR.map fun x => x * u),
        vadd (GL.map fun x => u⁻¹ • x) (GR.map fun x => u • x),
        vadd (HL.map fun x => u • x) (HR.map fun x => u⁻¹ • x), hs'⟩ := by
  unfold nextRound
  rw [splitNil_append ha ha' hn hbd, splitNil_append hb hb' hn hbd, splitNil_append hg hg' hn hbd,
    splitNil_append hh hh' hn hbd]
  simp only
  rw [innerProduct_eq (by rw [ha, hb']), innerProduct_eq (by rw [ha', hb]),
    exp_eq (by rw [ha, hg']) (by rw [ha]; omega), exp_eq (by rw [hb', hh]) (by rw [hb']; omega),
    exp_eq (by rw [ha', hg]) (by rw [ha']; omega), exp_eq (by rw [hb, hh']) (by rw [hb]; omega)]
  simp only [Res.bind_ok, zipWith_fold, zipWith_foldP, crossL]

theorem vsmul_append (a b : List F) (g h : List G) (hl : a.length = g.length) :
    vsmul (a ++ b) (g ++ h) = vsmul a g ++ vsmul b h := by
  unfold vsmul
  exact List.zipWith_append hl

theorem vsmul_smul (f : List F) (g : List G) (u : F) :
    List.zipWith (fun f x => (f * u) • x) f g = (vsmul f g).map fun x => u • x := by
  simp only [vsmul, List.map_zipWith, smul_smul, mul_comm]

theorem firstRound_eq (R : Ristretto F G) (Q : G) (hs : HashCacher) {aL aR bL bR hL hR : List F}
    {GL GR HL HR : List G} {n : Nat} (ha : aL.length = n)
    (ha' : aR.length = n) (hb : bL.length = n) (hb' : bR.length = n) (hg : GL.length = n)
    (hg' : GR.length = n) (hh : HL.length = n) (hh' : HR.length = n) (hf : hL.length = n)
    (hf' : n ≤ hR.length) (hn : 1 ≤ n) (hbd : n + n < 2 ^ 32) :
    firstRound R n (aL ++ aR) (bL ++ bR) (GL ++ GR) (HL ++ HR) (hL ++ hR) Q hs =
      nextRound R n (aL ++ aR) (bL ++ bR) (GL ++ GR) (vsmul (hL ++ hR) (HL ++ HR)) Q hs := by
  rw [vsmul_append _ _ _ _ (by rw [hf, hh]), nextRound_eq R Q hs ha ha' hb hb' hg hg'
    (by simp [hf, hh]) (by simp [hh', hf']) hn hbd]
  unfold firstRound
  rw [splitNil_append ha ha' hn hbd, splitNil_append hb hb' hn hbd, splitNil_append hg hg' hn hbd,
    splitNil_append hh hh' hn hbd]
  simp only
  have hd : (hL ++ hR).drop n = hR := by rw [← hf]; simp
  rw [innerProduct_eq (by omega), innerProduct_eq (by omega), hd,
    mulFactors_eq _ _ (by simp; omega), mulFactors_eq _ _ (by omega),
    exp_eq (by rw [ha, hg']) (by rw [ha]; omega),
    exp_eq (by rw [ha', hg]) (by rw [ha']; omega)]
  simp only [Res.bind_ok]
  rw [exp_eq (by simp; omega) (by simp; omega), exp_eq (by simp; omega) (by simp; omega)]
  simp only [Res.bind_ok, zipWith_fold, zipWith_foldP]
  have hz : ∀ u : F, List.zipWith (fun f x => (f * u) • x) (hL ++ hR) HL =
      (vsmul hL HL).map fun x => u • x := by
    intro u
    rw [← vsmul_smul]
    have := List.zipWith_append (f := fun (f : F) (x : G) => (f * u) • x) (l₁ := hL) (l₁' := hR) (l₂ := HL)
      (l₂' := []) (by rw [hf, hh])
    simpa using this
  have hbr : msm (had bR (hL ++ hR)) HL = msm bR (vsmul hL HL) := by
    have : had bR (hL ++ hR) = had bR hL := by
      unfold had
      have := List.zipWith_append (f := fun (f x : F) => f * x) (l₁ := bR) (l₁' := []) (l₂ := hL)
        (l₂' := hR) (by rw [hf, hb'])
      simpa using this
    rw [this, msm_had]
  simp only [hz, hbr, vsmul_smul, crossL, msm_had]
  rfl

/-! ## The verification equation -/

/-- What the verifier checks, as a function of the challenges. -/
def VerEq (Gv Hv : List G) (Q P : G) (us : List F) (Ls Rs : List G) (A B : F) : Prop :=
  A • msm (sVec us) Gv + B • msm (sVec (us.map fun u => u⁻¹)) Hv + (A * B) • Q =
    P + msm (us.map fun u => u * u) Ls + msm (us.map fun u => u⁻¹ * u⁻¹) Rs

instance [DecidableEq G] (Gv Hv : List G) (Q P : G) (us : List F) (Ls Rs : List G) (A B : F) :
    Decidable (VerEq Gv Hv Q P us Ls Rs A B) := by unfold VerEq; infer_instance

theorem msm_sVec_cons (u : F) (us : List F) {GL GR : List G} (h : GL.length = 2 ^ us.length)
    (h' : GR.length = 2 ^ us.length) :
    msm (sVec (u :: us)) (GL ++ GR) =
      msm (sVec us) (vadd (GL.map fun x => u⁻¹ • x) (GR.map fun x => u • x)) := by
  rw [sVec, msm_append _ _ _ _ (by simp [sVec_length, h]), msm_smul_left, msm_smul_left,
    msm_vadd_right _ _ _ (by simp [h, h']), msm_smul_right, msm_smul_right]

/-- One step of the verification equation. -/
theorem verEq_cons (Q P : G) (u : F) (us : List F) (L Rp : G) (Ls Rs : List G) (A B : F)
    {GL GR HL HR : List G} (h1 : GL.length = 2 ^ us.length) (h2 : GR.length = 2 ^ us.length)
    (h3 : HL.length = 2 ^ us.length) (h4 : HR.length = 2 ^ us.length) :
    VerEq (GL ++ GR) (HL ++ HR) Q P (u :: us) (L :: Ls) (Rp :: Rs) A B ↔
      VerEq (vadd (GL.map fun x => u⁻¹ • x) (GR.map fun x => u • x))
        (vadd (HL.map fun x => u • x) (HR.map fun x => u⁻¹ • x)) Q
        (P + (u * u) • L + (u⁻¹ * u⁻¹) • Rp) us Ls Rs A B := by
  unfold VerEq
  rw [msm_sVec_cons u us h1 h2, List.map_cons, msm_sVec_cons u⁻¹ _ (by simpa using h3) (by simpa using h4),
    inv_inv]
  simp only [List.map_cons, msm_cons]
  have e : ∀ X Y : G, P + ((u * u) • L + X) + ((u⁻¹ * u⁻¹) • Rp + Y) =
      P + (u * u) • L + (u⁻¹ * u⁻¹) • Rp + X + Y := fun X Y => by abel
  rw [e]

theorem split_half {α : Type} {l : List α} {k : Nat} (h : l.length = 2 ^ (k + 1)) :
    ∃ x y, l = x ++ y ∧ x.length = 2 ^ k ∧ y.length = 2 ^ k := by
  refine ⟨l.take (2 ^ k), l.drop (2 ^ k), by simp, ?_, ?_⟩ <;>
  · rw [pow_succ] at h; simp; omega

theorem two_pow_bound {k : Nat} (hk : k + 1 < 32) : 2 ^ k + 2 ^ k < 2 ^ 32 := by
  have : 2 ^ (k + 1) < 2 ^ 32 := Nat.pow_lt_pow_right (by norm_num) hk
  rw [pow_succ] at this; omega

theorem genLoop_eq (R : Ristretto F G) (Q : G) : ∀ (k : Nat), k < 32 → ∀ (a b : List F) (Gv Hv : List G)
    (hs : HashCacher) (Lj Rj : List G), a.length = 2 ^ k → b.length = 2 ^ k → Gv.length = 2 ^ k →
    Hv.length = 2 ^ k →
    ∃ Ls Rs A B, genLoop R Q (2 ^ k) a b Gv Hv hs Lj Rj = .ok ⟨Lj ++ Ls, Rj ++ Rs, A, B⟩ ∧
      Ls.length = k ∧ Rs.length = k ∧
      ((∀ u ∈ chalLoop R hs (Ls.zip Rs), u ≠ 0) →
        VerEq Gv Hv Q (cur Q a b Gv Hv) (chalLoop R hs (Ls.zip Rs)) Ls Rs A B)
  | 0, _, a, b, Gv, Hv, hs, Lj, Rj, ha, hb, hg, hh => by
    obtain ⟨x, rfl⟩ := List.length_eq_one_iff.1 ha
    obtain ⟨y, rfl⟩ := List.length_eq_one_iff.1 hb
    obtain ⟨g, rfl⟩ := List.length_eq_one_iff.1 hg
    obtain ⟨h, rfl⟩ := List.length_eq_one_iff.1 hh
    refine ⟨[], [], x, y, ?_, rfl, rfl, fun _ => ?_⟩
    · rw [genLoop]; simp [finish]
    · simp [VerEq, cur, sVec, chalLoop]
  | k + 1, hk, a, b, Gv, Hv, hs, Lj, Rj, ha, hb, hg, hh => by
    obtain ⟨aL, aR, rfl, ha1, ha2⟩ := split_half ha
    obtain ⟨bL, bR, rfl, hb1, hb2⟩ := split_half hb
    obtain ⟨GL, GR, rfl, hg1, hg2⟩ := split_half hg
    obtain ⟨HL, HR, rfl, hh1, hh2⟩ := split_half hh
    have hpos : 0 < 2 ^ k := Nat.two_pow_pos k
    have h2 : 2 ^ (k + 1) / 2 = 2 ^ k := by rw [pow_succ]; omega
    rw [genLoop, dif_pos (by rw [pow_succ]; omega), h2,
      nextRound_eq R Q hs ha1 ha2 hb1 hb2 hg1 hg2 hh1 hh2 hpos (two_pow_bound hk)]
    simp only [Res.bind_ok]
    set L := crossL Q aL bR GR HL
    set Rp := crossL Q aR bL GL HR
    set hs' := hs.append [R.pBytes L, R.pBytes Rp] with hhs
    set u : F := hs'.derive R with hu
    obtain ⟨Ls, Rs, A, B, e, hl1, hl2, hv⟩ := genLoop_eq R Q k (by omega)
      (vadd (aL.map fun x => x * u) (aR.map fun x => x * u⁻¹))
      (vadd (bL.map fun x => x * u⁻¹) (bR.map fun x => x * u))
      (vadd (GL.map fun x => u⁻¹ • x) (GR.map fun x => u • x))
      (vadd (HL.map fun x => u • x) (HR.map fun x => u⁻¹ • x)) hs' (Lj ++ [L]) (Rj ++ [Rp])
      (by simp [ha1, ha2]) (by simp [hb1, hb2]) (by simp [hg1, hg2]) (by simp [hh1, hh2])
    refine ⟨L :: Ls, Rp :: Rs, A, B, ?_, by simp [hl1], by simp [hl2], ?_⟩
    · rw [e]; simp
    · have hc : chalLoop R hs ((L :: Ls).zip (Rp :: Rs)) = u :: chalLoop R hs' (Ls.zip Rs) := rfl
      rw [hc]
      intro hnz
      have hlen : (chalLoop R hs' (Ls.zip Rs)).length = k := by simp [chalLoop_length, hl1, hl2]
      rw [verEq_cons Q _ u _ L Rp Ls Rs A B (by rw [hlen, hg1]) (by rw [hlen, hg2]) (by rw [hlen, hh1])
        (by rw [hlen, hh2]), ← cur_fold Q ha1 ha2 hb1 hb2 hg1 hg2 hh1 hh2 (hnz u (by simp))]
      exact hv fun v hv => hnz v (List.mem_cons_of_mem _ hv)

theorem isPower2_two_pow {k : Nat} (hk : k < 32) : isPower2 (UInt32.ofNat (2 ^ k)) = true := by
  have : ∀ k < 32, isPower2 (UInt32.ofNat (2 ^ k)) = true := by decide +kernel
  exact this k hk

theorem generate_eq (R : Ristretto F G) (Q : G) (k : Nat) (hk : k < 32) (a b hpf : List F)
    (Gv Hv : List G) (ha : a.length = 2 ^ k) (hb : b.length = 2 ^ k) (hg : Gv.length = 2 ^ k)
    (hh : Hv.length = 2 ^ k) (hf : 2 ^ k ≤ hpf.length) :
    ∃ p : Proof F G, generate R Gv Hv a b hpf Q = .ok p ∧ p.L.length = k ∧ p.R.length = k ∧
      ((∀ u ∈ chals R p, u ≠ 0) →
        VerEq Gv (vsmul hpf Hv) Q (commitPoint Gv Hv hpf Q a b) (chals R p) p.L p.R p.A p.B) := by
  have hlt : 2 ^ k < 2 ^ 32 := Nat.pow_lt_pow_right (by norm_num) hk
  unfold generate
  rw [hg, Nat.mod_eq_of_lt hlt]
  simp only [isPower2_two_pow hk, not_true_eq_false, if_false]
  have hcur : commitPoint Gv Hv hpf Q a b = cur Q a b Gv (vsmul hpf Hv) := by
    unfold commitPoint cur; rw [msm_had]
  rw [hcur]
  rcases k with _ | k
  · obtain ⟨x, rfl⟩ := List.length_eq_one_iff.1 ha
    obtain ⟨y, rfl⟩ := List.length_eq_one_iff.1 hb
    refine ⟨⟨[], [], x, y⟩, by simp [finish], rfl, rfl, fun _ => ?_⟩
    obtain ⟨g, rfl⟩ := List.length_eq_one_iff.1 hg
    obtain ⟨h, rfl⟩ := List.length_eq_one_iff.1 hh
    obtain ⟨f, fs, rfl⟩ : ∃ f fs, hpf = f :: fs := by
      cases hpf with
      | nil => simp at hf
      | cons f fs => exact ⟨f, fs, rfl⟩
    simp [VerEq, cur, sVec, chals, chalLoop]
  · obtain ⟨aL, aR, rfl, ha1, ha2⟩ := split_half ha
    obtain ⟨bL, bR, rfl, hb1, hb2⟩ := split_half hb
    obtain ⟨GL, GR, rfl, hg1, hg2⟩ := split_half hg
    obtain ⟨HL, HR, rfl, hh1, hh2⟩ := split_half hh
    have hpos : 0 < 2 ^ k := Nat.two_pow_pos k
    have h2 : 2 ^ (k + 1) / 2 = 2 ^ k := by rw [pow_succ]; omega
    obtain ⟨hL, hR, rfl, hf1, hf2⟩ : ∃ x y, hpf = x ++ y ∧ x.length = 2 ^ k ∧ 2 ^ k ≤ y.length := by
      refine ⟨hpf.take (2 ^ k), hpf.drop (2 ^ k), by simp, ?_, ?_⟩ <;>
      · rw [pow_succ] at hf; simp; omega
    rw [if_pos (by rw [pow_succ]; omega), h2, firstRound_eq R Q _ ha1 ha2 hb1 hb2 hg1 hg2 hh1 hh2 hf1 hf2
      hpos (two_pow_bound hk)]
    have hvs : (vsmul (hL ++ hR) (HL ++ HR)).length = 2 ^ (k + 1) := by
      simp only [vsmul_length, List.length_append]; rw [pow_succ]; omega
    have := genLoop_eq R Q (k + 1) hk (aL ++ aR) (bL ++ bR) (GL ++ GR) (vsmul (hL ++ hR) (HL ++ HR)) {}
      [] [] ha hb hg hvs
    rw [genLoop, dif_pos (by rw [pow_succ]; omega), h2] at this
    obtain ⟨Ls, Rs, A, B, e, h3, h4, h5⟩ := this
    exact ⟨_, e, by simpa using h3, by simpa using h4, h5⟩

theorem verify_eq [DecidableEq G] (R : Ristretto F G) (p : Proof F G) (Gv Hv : List G) (hpf : List F)
    (Q P : G) (n : Int) (k : Nat) (hk : k < 32) (hL : p.L.length = k) (hR : p.R.length = k)
    (hg : Gv.length = 2 ^ k) (hh : Hv.length = 2 ^ k) (hf : 2 ^ k ≤ hpf.length)
    (hn : n ≤ 1 + 2 ^ k + 2 ^ k + k + k) :
    verify R p Gv Hv hpf Q P n =
      .ok (decide (VerEq Gv (vsmul hpf Hv) Q P (chals R p) p.L p.R p.A p.B)) := by
  have hc : (chals R p).length = k := by simp [chals, chalLoop_length, hL, hR]
  have hs : (sVec (chals R p)).length = 2 ^ k := by rw [sVec_length, hc]
  unfold verify
  rw [verifScalars_eq R p (by rw [hL, hR]) (by omega)]
  simp only [Res.bind_ok]
  have hm : (Vec.mulScalar (sVec (chals R p)).reverse p.B).length = 2 ^ k := by
    simp [Vec.mulScalar, hs]
  rw [mulFactors_eq _ _ (by omega)]
  simp only [Res.bind_ok]
  have hhad : (had (Vec.mulScalar (sVec (chals R p)).reverse p.B) hpf).length = 2 ^ k := by
    rw [had_length, hm]; omega
  rw [exp_eq]
  · simp only [List.append_assoc, List.cons_append, List.nil_append, msm_cons]
    rw [msm_append _ _ _ _ (by simp [Vec.mulScalar, hs, hg]), msm_append _ _ _ _ (by rw [hhad, hh]),
      msm_append _ _ _ _ (by simp [hc, hL]), msm_neg_left, msm_neg_left, msm_had]
    unfold Vec.mulScalar
    rw [msm_smul_left, msm_smul_left, sVec_reverse]
    congr 1
    rw [decide_eq_decide]
    unfold VerEq
    generalize msm (sVec (chals R p)) Gv = X
    generalize msm (sVec ((chals R p).map fun u => u⁻¹)) (vsmul hpf Hv) = Y
    generalize msm ((chals R p).map fun u => u * u) p.L = Z
    generalize msm ((chals R p).map fun u => u⁻¹ * u⁻¹) p.R = W
    constructor
    · rintro rfl; abel
    · intro h
      have : (p.A * p.B) • Q + (p.A • X + (p.B • Y + (-Z + -W))) =
          p.A • X + p.B • Y + (p.A * p.B) • Q - Z - W := by abel
      rw [this, h]; abel
  · simp only [List.length_append, List.length_cons, List.length_nil, hhad, List.length_map, hc, hL, hR, hg, hh]
    simp [Vec.mulScalar, hs]
  · simp only [List.length_append, List.length_cons, List.length_nil, hhad, List.length_map, hc]
    simp only [Vec.mulScalar, List.length_map, hs]
    push_cast
    omega

end Dusk.IP
