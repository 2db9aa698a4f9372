import Verif.Lemmas.IPSound
import Mathlib.Algebra.Module.Pi
/-!
# C58: knowledge soundness of the inner product argument

Rewinding a prover gives a tree of transcripts: in every round the same `L`, `R` answered under four different
challenges. Each branch of the tree is a proof accepted by `Verify` under a hash function that returns the challenges of
that branch. The extractor `Tree.extract` is an explicit function; it returns the committed vectors or explicit
coefficients of a non-trivial relation between the generators (so the theorem is meaningful in a cyclic group,
where relations exist but are hard to find).
-/

set_option linter.unusedSectionVars false

namespace Dusk.IP

variable {F G : Type} [Field F] [AddCommGroup G] [Module F G] [DecidableEq F]

/-- Every branch is accepted by `Verify` under some hash function producing that branch's challenges. -/
def Tree.Accepting [DecidableEq G] {k : Nat} (T : Tree F G k) (Gv Hv : List G) (hpf : List F) (Q P : G) : Prop :=
  ∀ σ, ∃ (R : Ristretto F G) (n : Int), n ≤ 2 ^ k ∧
    challenges R (T.branch σ).2.L (T.branch σ).2.R = (T.branch σ).1 ∧
    verify R (T.branch σ).2 Gv Hv hpf Q P n = .ok true

theorem accepting_verEq [DecidableEq G] {k : Nat} (hk : k < 32) {T : Tree F G k} {Gv Hv : List G} {hpf : List F} {Q P : G}
    (hg : Gv.length = 2 ^ k) (hh : Hv.length = 2 ^ k) (hf : 2 ^ k ≤ hpf.length)
    (h : T.Accepting Gv Hv hpf Q P) (σ : Nat → Fin 4) :
    VerEq Gv (vsmul hpf Hv) Q P (T.branch σ).1 (T.branch σ).2.L (T.branch σ).2.R (T.branch σ).2.A (T.branch σ).2.B := by
  obtain ⟨R, n, hn, hc, hv⟩ := h σ
  obtain ⟨_, h2, h3⟩ := T.branch_length σ
  have hpos : (0 : Int) < 2 ^ k := by positivity
  rw [verify_eq R _ Gv Hv hpf Q P n k hk h2 h3 hg hh hf (by omega), chals_eq, hc] at hv
  simpa using hv

/-- C58: from a tree of accepting transcripts the extractor computes vectors opening `P`, or a non-trivial relation
between `G`, `H` and `Q`. -/
theorem C58_extraction [DecidableEq G] {k : Nat} (hk : k < 32) (T : Tree F G k) (Gv Hv : List G) (hpf : List F) (Q P : G)
    (hg : Gv.length = 2 ^ k) (hh : Hv.length = 2 ^ k) (hf : hpf.length = 2 ^ k) (hnz : ∀ x ∈ hpf, x ≠ 0)
    (hgood : T.Good) (hacc : T.Accepting Gv Hv hpf Q P) :
    (∃ a b, T.extract = .wit a b ∧ a.length = 2 ^ k ∧ b.length = 2 ^ k ∧ P = commitPoint Gv Hv hpf Q a b) ∨
    (∃ g h q, T.extract = .rel g h q ∧ g.length = 2 ^ k ∧ h.length = 2 ^ k ∧
      msm g Gv + msm (had h hpf) Hv + q • Q = 0 ∧ ((∃ x ∈ g, x ≠ 0) ∨ (∃ x ∈ had h hpf, x ≠ 0))) := by
  have hlen : (vsmul hpf Hv).length = 2 ^ k := by simp [hf, hh]
  have := T.extract_valid Gv (vsmul hpf Hv) Q P hgood hg hlen (accepting_verEq hk hg hh (by omega) hacc)
  cases he : T.extract with
  | wit a b =>
    left
    rw [he] at this
    obtain ⟨h1, h2, h3⟩ := this
    exact ⟨a, b, rfl, by omega, by omega, by rw [h3]; unfold cur commitPoint; rw [msm_had]⟩
  | rel g h q =>
    right
    rw [he] at this
    obtain ⟨h1, h2, h3, h4⟩ := this
    refine ⟨g, h, q, rfl, by omega, by omega, by rw [msm_had]; exact h3, ?_⟩
    rcases h4 with h4 | ⟨x, hx, hxn⟩
    · exact Or.inl h4
    · right
      obtain ⟨i, hi, rfl⟩ := List.getElem_of_mem hx
      refine ⟨(had h hpf)[i]'(by simp; omega), List.getElem_mem _, ?_⟩
      simp only [had, List.getElem_zipWith]
      exact mul_ne_zero hxn (hnz _ (List.getElem_mem _))

/-- No non-trivial relation between the generators. -/
def Independent (F : Type) {G : Type} [Field F] [AddCommGroup G] [Module F G] (Gv Hv : List G) (Q : G) : Prop :=
  ∀ (g h : List F) (q : F), g.length = Gv.length → h.length = Hv.length →
    msm g Gv + msm h Hv + q • Q = 0 → (∀ x ∈ g, x = 0) ∧ (∀ x ∈ h, x = 0) ∧ q = 0

/-- C58: with independent generators the extractor opens `P`. -/
theorem C58_soundness [DecidableEq G] {k : Nat} (hk : k < 32) (T : Tree F G k) (Gv Hv : List G) (hpf : List F) (Q P : G)
    (hg : Gv.length = 2 ^ k) (hh : Hv.length = 2 ^ k) (hf : hpf.length = 2 ^ k) (hnz : ∀ x ∈ hpf, x ≠ 0)
    (hgood : T.Good) (hacc : T.Accepting Gv Hv hpf Q P) (hind : Independent F Gv Hv Q) :
    ∃ a b, T.extract = .wit a b ∧ a.length = 2 ^ k ∧ b.length = 2 ^ k ∧ P = commitPoint Gv Hv hpf Q a b := by
  rcases C58_extraction hk T Gv Hv hpf Q P hg hh hf hnz hgood hacc with h | ⟨g, h, q, _, h1, h2, h3, h4⟩
  · exact h
  · obtain ⟨i1, i2, _⟩ := hind g (had h hpf) q (by omega) (by simp; omega) h3
    rcases h4 with ⟨x, hx, hn⟩ | ⟨x, hx, hn⟩
    · exact absurd (i1 x hx) hn
    · exact absurd (i2 x hx) hn

/-! ## The hypotheses are satisfiable for every size -/

/-- The tree of an honest prover answering the challenges `u 0 … u 3` in every round. -/
def honest (Q : G) (u : Fin 4 → F) : (k : Nat) → (a b : List F) → (Gv Hv : List G) → Tree F G k
  | 0, a, b, _, _ => .leaf (a.headD 0) (b.headD 0)
  | k + 1, a, b, Gv, Hv =>
    let aL := a.take (2 ^ k); let aR := a.drop (2 ^ k)
    let bL := b.take (2 ^ k); let bR := b.drop (2 ^ k)
    let GL := Gv.take (2 ^ k); let GR := Gv.drop (2 ^ k)
    let HL := Hv.take (2 ^ k); let HR := Hv.drop (2 ^ k)
    .node (crossL Q aL bR GR HL) (crossL Q aR bL GL HR) u fun i => honest Q u k
      (vadd (aL.map fun x => x * u i) (aR.map fun x => x * (u i)⁻¹))
      (vadd (bL.map fun x => x * (u i)⁻¹) (bR.map fun x => x * u i))
      (vadd (GL.map fun x => (u i)⁻¹ • x) (GR.map fun x => u i • x))
      (vadd (HL.map fun x => u i • x) (HR.map fun x => (u i)⁻¹ • x))

theorem honest_good (Q : G) (u : Fin 4 → F) (hu : ∀ i, u i ≠ 0) (hd : ∀ i j, i ≠ j → u i * u i ≠ u j * u j) :
    ∀ (k : Nat) (a b : List F) (Gv Hv : List G), (honest Q u k a b Gv Hv).Good
  | 0, _, _, _, _ => trivial
  | k + 1, _, _, _, _ => ⟨hu, hd, fun _ => honest_good Q u hu hd k _ _ _ _⟩

theorem honest_verEq (Q : G) (u : Fin 4 → F) (hu : ∀ i, u i ≠ 0) :
    ∀ (k : Nat) (a b : List F) (Gv Hv : List G), a.length = 2 ^ k → b.length = 2 ^ k → Gv.length = 2 ^ k →
      Hv.length = 2 ^ k → ∀ σ,
      let t := (honest Q u k a b Gv Hv).branch σ
      VerEq Gv Hv Q (cur Q a b Gv Hv) t.1 t.2.L t.2.R t.2.A t.2.B
  | 0, a, b, Gv, Hv, ha, hb, hg, hh => by
    intro σ
    obtain ⟨x, rfl⟩ := List.length_eq_one_iff.1 ha
    obtain ⟨y, rfl⟩ := List.length_eq_one_iff.1 hb
    obtain ⟨g, rfl⟩ := List.length_eq_one_iff.1 hg
    obtain ⟨h, rfl⟩ := List.length_eq_one_iff.1 hh
    simp [honest, Tree.branch, VerEq, sVec, cur]
  | k + 1, a, b, Gv, Hv, ha, hb, hg, hh => by
    intro σ
    obtain ⟨aL, aR, rfl, ha1, ha2⟩ := split_half ha
    obtain ⟨bL, bR, rfl, hb1, hb2⟩ := split_half hb
    obtain ⟨GL, GR, rfl, hg1, hg2⟩ := split_half hg
    obtain ⟨HL, HR, rfl, hh1, hh2⟩ := split_half hh
    have tk : ∀ {α : Type} (l r : List α), l.length = 2 ^ k → (l ++ r).take (2 ^ k) = l := fun l r h => by
      rw [← h]; simp
    have dr : ∀ {α : Type} (l r : List α), l.length = 2 ^ k → (l ++ r).drop (2 ^ k) = r := fun l r h => by
      rw [← h]; simp
    simp only [honest, Tree.branch, tk _ _ ha1, tk _ _ hb1, tk _ _ hg1, tk _ _ hh1, dr _ _ ha1, dr _ _ hb1, dr _ _ hg1,
      dr _ _ hh1]
    have ih := honest_verEq Q u hu k
      (vadd (aL.map fun x => x * u (σ 0)) (aR.map fun x => x * (u (σ 0))⁻¹))
      (vadd (bL.map fun x => x * (u (σ 0))⁻¹) (bR.map fun x => x * u (σ 0)))
      (vadd (GL.map fun x => (u (σ 0))⁻¹ • x) (GR.map fun x => u (σ 0) • x))
      (vadd (HL.map fun x => u (σ 0) • x) (HR.map fun x => (u (σ 0))⁻¹ • x))
      (by simp [ha1, ha2]) (by simp [hb1, hb2]) (by simp [hg1, hg2]) (by simp [hh1, hh2]) fun n => σ (n + 1)
    have hl := ((honest Q u k
      (vadd (aL.map fun x => x * u (σ 0)) (aR.map fun x => x * (u (σ 0))⁻¹))
      (vadd (bL.map fun x => x * (u (σ 0))⁻¹) (bR.map fun x => x * u (σ 0)))
      (vadd (GL.map fun x => (u (σ 0))⁻¹ • x) (GR.map fun x => u (σ 0) • x))
      (vadd (HL.map fun x => u (σ 0) • x) (HR.map fun x => (u (σ 0))⁻¹ • x))).branch_length fun n => σ (n + 1)).1
    rw [verEq_cons Q _ (u (σ 0)) _ _ _ _ _ _ _ (by rw [hl, hg1]) (by rw [hl, hg2]) (by rw [hl, hh1]) (by rw [hl, hh2]),
      ← cur_fold Q ha1 ha2 hb1 hb2 hg1 hg2 hh1 hh2 (hu (σ 0))]
    exact ih

/-- A library instance whose hash returns prescribed challenges in order. -/
def oracle (R : Ristretto F G) (us : List F) : Ristretto F G :=
  { R with pBytes := fun _ => [0], sDerive := fun b => us.getD (b.length / 2 - 1) 0 }

theorem oracle_challenges (R : Ristretto F G) (us : List F) (Ls Rs : List G) (h1 : Ls.length = us.length)
    (h2 : Rs.length = us.length) : challenges (oracle R us) Ls Rs = us := by
  have hz : (Ls.zip Rs).length = us.length := by simp [h1, h2]
  unfold challenges
  rw [hz]
  apply List.ext_getElem
  · simp
  · intro i hi hi'
    have hlen : ∀ l : List (G × G), (l.flatMap fun p => (oracle R us).pBytes p.1 ++ (oracle R us).pBytes p.2).length =
        2 * l.length := by
      intro l
      induction l with
      | nil => rfl
      | cons x l ih => rw [List.flatMap_cons, List.length_append, ih]; simp [oracle]; omega
    simp only [List.getElem_map, List.getElem_range]
    have : ∀ b : Bytes, (oracle R us).sDerive b = us.getD (b.length / 2 - 1) 0 := fun _ => rfl
    rw [this, hlen, List.length_take, hz, show min (i + 1) us.length = i + 1 by omega,
      show 2 * (i + 1) / 2 - 1 = i by omega]
    simp [hi']

/-- C58 is not vacuous: for every size, all vectors and every choice of four challenges with distinct squares the honest
prover's tree meets the hypotheses. -/
theorem C58_satisfiable [DecidableEq G] (R : Ristretto F G) (Q : G) (u : Fin 4 → F) (hu : ∀ i, u i ≠ 0)
    (hd : ∀ i j, i ≠ j → u i * u i ≠ u j * u j) (k : Nat) (hk : k < 32) (a b hpf : List F) (Gv Hv : List G)
    (ha : a.length = 2 ^ k) (hb : b.length = 2 ^ k) (hg : Gv.length = 2 ^ k) (hh : Hv.length = 2 ^ k)
    (hf : hpf.length = 2 ^ k) :
    (honest Q u k a b Gv (vsmul hpf Hv)).Good ∧
      (honest Q u k a b Gv (vsmul hpf Hv)).Accepting Gv Hv hpf Q (commitPoint Gv Hv hpf Q a b) := by
  refine ⟨honest_good Q u hu hd k a b Gv _, fun σ => ?_⟩
  have hlen : (vsmul hpf Hv).length = 2 ^ k := by simp [hf, hh]
  have hv := honest_verEq Q u hu k a b Gv (vsmul hpf Hv) ha hb hg hlen σ
  have hb := (honest Q u k a b Gv (vsmul hpf Hv)).branch_length σ
  generalize (honest Q u k a b Gv (vsmul hpf Hv)).branch σ = t at hv hb
  obtain ⟨h1, h2, h3⟩ := hb
  have hc := oracle_challenges R t.1 t.2.L t.2.R (by omega) (by omega)
  have hpos : (0 : Int) < 2 ^ k := by positivity
  refine ⟨oracle R t.1, 1, by omega, hc, ?_⟩
  rw [verify_eq _ t.2 Gv Hv hpf Q _ 1 k hk h2 h3 hg hh (by omega) (by omega), chals_eq, hc]
  have : cur Q a b Gv (vsmul hpf Hv) = commitPoint Gv Hv hpf Q a b := by
    unfold cur commitPoint; rw [msm_had]
  rw [this] at hv
  simpa using hv

/-- Independent generators exist. -/
example : Independent Toy.K ([(1, 0, 0)] : List (Toy.K × Toy.K × Toy.K)) [(0, 1, 0)] (0, 0, 1) := by
  intro g h q hg hh he
  obtain ⟨x, rfl⟩ := List.length_eq_one_iff.1 hg
  obtain ⟨y, rfl⟩ := List.length_eq_one_iff.1 hh
  simp only [msm_cons, msm_nil_left, add_zero, Prod.smul_mk, smul_eq_mul, mul_one, mul_zero, Prod.mk_add_mk, zero_add,
    Prod.mk_eq_zero] at he
  simpa using he
/-- Four challenges with distinct squares. -/
example : ∃ u : Fin 4 → Toy.K, (∀ i, u i ≠ 0) ∧ ∀ i j, i ≠ j → u i * u i ≠ u j * u j := by
  have hc : ∀ m n : Nat, m < 2 ^ 64 → n < 2 ^ 64 → m ≠ n → (m : Toy.K) ≠ n := fun m n hm hn h e =>
    h (Toy.ris.cast_inj (hm.trans Toy.ris.two64_lt) (hn.trans Toy.ris.two64_lt) e)
  refine ⟨fun i => ((i.val + 1 : Nat) : Toy.K), fun i => ?_, fun i j hij => ?_⟩
  · have := hc (i.val + 1) 0 (by omega) (by norm_num) (by omega)
    simpa using this
  · rw [← Nat.cast_mul, ← Nat.cast_mul]
    apply hc
    · have : (i.val + 1) * (i.val + 1) ≤ 4 * 4 := Nat.mul_le_mul (by omega) (by omega)
      omega
    · have : (j.val + 1) * (j.val + 1) ≤ 4 * 4 := Nat.mul_le_mul (by omega) (by omega)
      omega
    · intro h
      have := Nat.mul_self_inj.1 h
      exact hij (Fin.ext (by omega))

end Dusk.IP
