import Verif.Props.MlsagFrame
import Verif.Model.Pedersen
/-!
# Dual keys: the subtracted commitment has the value of a ring member

The second key of a member of a `DualKey` ring is the difference of two Pedersen commitments. An accepted signature shows that this
difference is a commitment to zero for one of the members, up to the discrete logarithm of the value base.
-/

set_option linter.unusedSectionVars false

namespace Dusk.Mlsag

variable {F G : Type} [Field F] [AddCommGroup G] [Module F G] [DecidableEq F]

/-- The scalar computed from two visits for column `j`, if the key there is `b K • Y + a K • base`. -/
def solve (a b : List G → F) (j : Nat) (x y : (List G × List F) × F) : F :=
  (y.1.2.getD j 0 - x.1.2.getD j 0 + y.2 * a y.1.1 - x.2 * a x.1.1) / (x.2 * b x.1.1 - y.2 * b y.1.1)

/-- As `Ready`, for a given member. -/
structure Linker.ReadyAt (A : Linker F G) (R : Ristretto F G) (pub : Finset (List G)) (v Q : Nat) (coins : List F) (i j : Nat)
    (x : (List G × List F) × F) : Prop where
  visited : x ∈ A.visited R Q coins
  published : x.1.1 ∈ pub
  images : v ≤ x.1.1.length
  fits : x.1.1.length ≤ x.1.2.length
  order : i ≤ j
  coin : coins[j]? = some x.2
  asked : ∃ msg I, I.length = v ∧ query R msg I x.1.1 x.1.2 x.2 = A.question R Q (Oracle.play (A.question R Q) (coins.take i))

/-- Two runs that part at `j` give the discrete logarithm of `Y`. -/
theorem Linker.ReadyAt.solve {A : Linker F G} {R : Ristretto F G} (E : R.Encodings) {pub : Finset (List G)} {v Q d k : Nat} {Y : G}
    {a b : List G → F} (hk : k < d) (hpub : ∀ K ∈ pub, K.length = d ∧ K.getD k 0 = b K • Y + a K • R.base)
    {l l' : List F} {i j : Nat} {x y : (List G × List F) × F} (h : A.ReadyAt R pub v Q l i j x) (h' : A.ReadyAt R pub v Q l' i j y)
    (htake : l'.take j = l.take j) (hne : x.2 * b x.1.1 - y.2 * b y.1.1 ≠ 0) : Mlsag.solve a b k x y • R.base = Y := by
  obtain ⟨msg, I, h2, h7⟩ := h.asked
  obtain ⟨msg', I', g2, g7⟩ := h'.asked
  have hti : l'.take i = l.take i := by
    rw [← Nat.min_eq_left h.order, ← List.take_take, htake, List.take_take]
  rw [hti, ← h7] at g7
  obtain ⟨hl, hK⟩ := hpub _ h.published
  obtain ⟨hl', hK'⟩ := hpub _ h'.published
  have h3 := h.images
  have h4 := h.fits
  have g4 := h'.fits
  have := query_keys E (by omega) (by omega) (by omega) (by omega) (by omega) g7 k (by omega)
  rw [hK, hK'] at this
  have e : (x.2 * b x.1.1 - y.2 * b y.1.1) • Y =
      (y.1.2.getD k 0 - x.1.2.getD k 0 + y.2 * a y.1.1 - x.2 * a x.1.1) • R.base := by
    have e2 : x.1.2.getD k 0 • R.base + ((x.2 * b x.1.1) • Y + (x.2 * a x.1.1) • R.base) =
        y.1.2.getD k 0 • R.base + ((y.2 * b y.1.1) • Y + (y.2 * a y.1.1) • R.base) := by
      rw [mul_smul, mul_smul, mul_smul, mul_smul, ← smul_add, ← smul_add]
      exact this.symm
    rw [sub_smul, sub_smul, add_smul, sub_smul]
    rw [← sub_eq_zero] at e2 ⊢
    rw [← e2]
    abel
  unfold Mlsag.solve
  rw [div_eq_inv_mul, mul_smul, ← e, inv_smul_smul₀ hne]

/-- Rewinding. The coefficients of `Y` are in `D`. -/
theorem solve_forking [Fintype F] {R : Ristretto F G} (E : R.Encodings) (A : Linker F G) (pub : Finset (List G)) (v d k Q n : Nat)
    (hn : 2 ≤ n) (hk : k < d) (Y : G) (a b : List G → F) (D : Finset F) (h0 : (0 : F) ∉ D)
    (hpub : ∀ K ∈ pub, K.length = d ∧ K.getD k 0 = b K • Y + a K • R.base ∧ b K ∈ D) :
    Fintype.card F * Nat.card {coins : Fin (Q + n) → F // ∃ sig I, A.Forges R pub v Q n (List.ofFn coins) sig I} ^ 2 ≤
      (Q + n) ^ 2 * (Fintype.card F * Nat.card {p : (Fin (Q + n) → F) × (Fin (Q + n) → F) // ∃ t : Fin (Q + n),
          ∃ x ∈ A.visited R Q (List.ofFn p.1), ∃ y ∈ A.visited R Q (List.ofFn (Oracle.rewind t p.1 p.2)),
            solve a b k x y • R.base = Y} +
        D.card * (Nat.card {coins : Fin (Q + n) → F // ∃ sig I, A.Forges R pub v Q n (List.ofFn coins) sig I} *
          Fintype.card F ^ (Q + n))) := by
  classical
  have hready : ∀ c : Fin (Q + n) → F, (∃ sig I, A.Forges R pub v Q n (List.ofFn c) sig I) →
      ∃ x : (Fin (Q + n) × Fin (Q + n)) × ((List G × List F) × F), A.ReadyAt R pub v Q (List.ofFn c) x.1.1 x.1.2 x.2 := by
    rintro c ⟨sig, I, h⟩
    obtain ⟨i, j, hj, x, h1, -, h2, h3, h4, h5, h6, h7⟩ := h.early hn (by simp)
    exact ⟨((⟨i, by omega⟩, ⟨j, hj⟩), x), h1, h2, h3, h4, h5, h6, sig.msg, I, h.images, h7⟩
  let lab : (Fin (Q + n) → F) → Option (Fin (Q + n) × Fin (Q + n)) := fun c =>
    if h : ∃ sig I, A.Forges R pub v Q n (List.ofFn c) sig I then some (hready c h).choose.1 else none
  let wit : (Fin (Q + n) → F) → (List G × List F) × F := fun c =>
    if h : ∃ sig I, A.Forges R pub v Q n (List.ofFn c) sig I then (hready c h).choose.2 else (([], []), 0)
  have hlab : ∀ c x, lab c = some x → A.ReadyAt R pub v Q (List.ofFn c) x.1 x.2 (wit c) := by
    intro c x hx
    simp only [lab] at hx
    simp only [wit]
    split at hx
    · rename_i h
      rw [← Option.some.inj hx, dif_pos h]
      exact (hready c h).choose_spec
    · cases hx
  have hW : Nat.card {coins : Fin (Q + n) → F // ∃ sig I, A.Forges R pub v Q n (List.ofFn coins) sig I} =
      (Finset.univ.filter fun c => (lab c).isSome).card := by
    rw [Nat.card_eq_fintype_card, Fintype.card_subtype]
    congr 1
    ext c
    simp only [Finset.mem_filter, Finset.mem_univ, true_and, lab]
    split <;> simp_all
  have h := Oracle.forking_avoid lab (fun x => x.2) (fun _ c => D.image fun w => (wit c).2 * b (wit c).1.1 / w) D.card
    fun _ _ => Finset.card_image_le
  rw [← hW, Fintype.card_prod, Fintype.card_fin, ← pow_two] at h
  refine h.trans (Nat.mul_le_mul_left _ (Nat.add_le_add_right (Nat.mul_le_mul_left _ ?_) _))
  rw [Nat.card_eq_fintype_card, Fintype.card_subtype]
  refine Finset.card_le_card fun p hp => ?_
  obtain ⟨x, h1, h2, h3⟩ := (Finset.mem_filter.1 hp).2
  have g1 := hlab _ _ h1
  have g2 := hlab _ _ h2
  refine Finset.mem_filter.2 ⟨Finset.mem_univ _, x.2, _, g1.visited, _, g2.visited, ?_⟩
  refine g1.solve E hk (fun K hK => ⟨(hpub K hK).1, (hpub K hK).2.1⟩) g2 (Oracle.rewind_take _ _ _ _ le_rfl) fun he => h3 ?_
  have hb := (hpub _ g2.published).2.2
  have hb0 : b (wit (Oracle.rewind x.2 p.1 p.2)).1.1 ≠ 0 := fun e => h0 (e ▸ hb)
  have hc := g2.coin
  simp only [List.getElem?_ofFn, x.2.2, dif_pos] at hc
  have hc : p.2 x.2 = (wit (Oracle.rewind x.2 p.1 p.2)).2 := by
    rw [← Oracle.rewind_self x.2 p.1 p.2]
    exact Option.some.inj hc
  refine Finset.mem_image.2 ⟨_, hb, ?_⟩
  rw [hc, sub_eq_zero.1 he, mul_div_assoc, div_self hb0, mul_one]

/-- C118, for a column `k` of the keys: if the keys in this column are `b Y + a G` with known `a` and known `b` in `D`, where `D` does not
contain zero, then an attacker as in C115 that makes `Verify` accept with probability `ε` gives the discrete logarithm of `Y`, when the
simulator is rerun, with probability at least `(ε - T² w / |F|)² / (T w + n)² - |D| / |F|`. -/
theorem C118_column [Fintype F] {R : Ristretto F G} (E : R.Encodings) (hB : R.base ≠ 0) (A : Chooser F G) (skip : Bool)
    (xs : Nat → List F) (d k w T n : Nat) (hk : k < d) (hw : 1 ≤ w) (hn : 2 ≤ n) (hx : ∀ u, (xs u).length = d) (hA : A.Valid d w)
    (pub : Finset (List G)) (Y : G) (a b : List G → F) (D : Finset F) (h0 : (0 : F) ∉ D)
    (hpub : ∀ K ∈ pub, K.length = d ∧ K.getD k 0 = b K • Y + a K • R.base ∧ b K ∈ D) (v : Nat) (hv : v = if skip then d - 1 else d)
    (ε δ σ : ℚ)
    (hε : ε = Nat.card {p : (Fin T → StepCoins d w F) × (Fin n → F) //
        ∃ sig I, A.Forges R skip xs pub v n (List.ofFn p.1) (List.ofFn p.2) sig I} / Nat.card ((Fin T → StepCoins d w F) × (Fin n → F)))
    (hδ : δ = T ^ 2 * w / Fintype.card F)
    (hσ : σ = Nat.card {p : (Fin T → SimCoins d w F) × (Fin (T * w + n) → F) × (Fin (T * w + n) → F) // ∃ t : Fin (T * w + n),
        ∃ x ∈ (A.simulator R (keysOf R xs) (imsOf R skip xs) T (ext p.1)).visited R (T * w) (List.ofFn p.2.1),
        ∃ y ∈ (A.simulator R (keysOf R xs) (imsOf R skip xs) T (ext p.1)).visited R (T * w) (List.ofFn (Oracle.rewind t p.2.1 p.2.2)),
          solve a b k x y • R.base = Y} /
      Nat.card ((Fin T → SimCoins d w F) × (Fin (T * w + n) → F) × (Fin (T * w + n) → F)))
    (hge : δ ≤ ε) : (ε - δ) ^ 2 / (T * w + n) ^ 2 - D.card / Fintype.card F ≤ σ := by
  have h1 := simulated_prob E hB A skip xs d w T n (by omega) hw hx hA pub (fun K hK => (hpub K hK).1) v hv fun _ _ => True
  simp only [and_true] at h1
  rw [← hε, ← hδ] at h1
  have h2 := reruns_avoid (α := Fin T → SimCoins d w F) (β := Fin (T * w + n) → F) (γ := (Fin (T * w + n) → F) × (Fin (T * w + n) → F))
    (Fintype.card F) (T * w + n) D.card Fintype.card_pos (by omega) Fintype.card_pos (by rw [Fintype.card_prod])
    (fun p => ∃ sig I, (A.simulator R (keysOf R xs) (imsOf R skip xs) T (ext p.1)).Forges R pub v (T * w) n (List.ofFn p.2) sig I)
    (fun p => ∃ t : Fin (T * w + n),
        ∃ x ∈ (A.simulator R (keysOf R xs) (imsOf R skip xs) T (ext p.1)).visited R (T * w) (List.ofFn p.2.1),
        ∃ y ∈ (A.simulator R (keysOf R xs) (imsOf R skip xs) T (ext p.1)).visited R (T * w) (List.ofFn (Oracle.rewind t p.2.1 p.2.2)),
          solve a b k x y • R.base = Y) (by
      intro ρ
      have := solve_forking E (A.simulator R (keysOf R xs) (imsOf R skip xs) T (ext ρ)) pub v d k (T * w) n hn hk Y a b D h0 hpub
      rw [Fintype.card_fun, Fintype.card_fin]
      exact this)
  rw [← hσ] at h2
  have h3 := (square_mono ((T * w + n : Nat) : ℚ) (D.card / Fintype.card F) (sub_nonneg.2 hge) h1).trans h2
  push_cast at h3
  exact h3

/-- The differences of two different values below `2^64`. -/
def differences (F : Type) [Field F] [DecidableEq F] : Finset F :=
  (Finset.Ico 1 (2 ^ 64)).image (fun n : Nat => (n : F)) ∪ (Finset.Ico 1 (2 ^ 64)).image fun n : Nat => -(n : F)

theorem differences_card : (differences F).card ≤ 2 ^ 65 := by
  have h : ∀ f : Nat → F, ((Finset.Ico 1 (2 ^ 64)).image f).card ≤ 2 ^ 64 := fun f =>
    Finset.card_image_le.trans (by rw [Nat.card_Ico]; omega)
  exact (Finset.card_union_le _ _).trans ((Nat.add_le_add (h _) (h _)).trans (by norm_num))

theorem differences_zero (R : Ristretto F G) : (0 : F) ∉ differences F := by
  have h : ∀ n : Nat, n ∈ Finset.Ico 1 (2 ^ 64) → (n : F) ≠ 0 := by
    intro n hn h
    obtain ⟨h1, h2⟩ := Finset.mem_Ico.1 hn
    exact absurd (Nat.le_of_dvd h1 ((R.cast_eq_zero n).1 h)) (by have := R.two64_lt; omega)
  unfold differences
  rw [Finset.mem_union, Finset.mem_image, Finset.mem_image]
  rintro (⟨n, hn, e⟩ | ⟨n, hn, e⟩)
  · exact h n hn e
  · exact h n hn (neg_eq_zero.1 e)

theorem mem_differences {m n : Nat} (hm : m < 2 ^ 64) (hn : n < 2 ^ 64) (hne : m ≠ n) : (m : F) - n ∈ differences F := by
  unfold differences
  rcases Nat.lt_or_gt_of_ne hne with h | h
  · refine Finset.mem_union_right _ (Finset.mem_image.2 ⟨n - m, Finset.mem_Ico.2 (by omega), ?_⟩)
    rw [Nat.cast_sub h.le, neg_sub]
  · refine Finset.mem_union_left _ (Finset.mem_image.2 ⟨m - n, Finset.mem_Ico.2 (by omega), ?_⟩)
    rw [Nat.cast_sub h.le]

/-- An opening of a commitment: the value and the blinding factor. -/
structure Opening (F : Type) where
  value : Nat
  blind : F

/-- The point committed to by an opening (`CommitToScalar`). -/
def Opening.point (R : Ristretto F G) (gen : Bytes) (o : Opening F) : G :=
  ((Pedersen.new R gen).commitToScalar (o.value : F) o.blind).value

/-- C118: dual keys. All published key vectors are a key and the difference `C - C'` of two commitments, as made by `SubCommToZero`,
with known openings to different values below `2^64`. Then an attacker as in C115 that makes `Verify` accept with probability `ε` gives
the discrete logarithm of the value base of package pedersen, when the simulator is rerun, with probability at least
`(ε - T² w / |F|)² / (T w + n)² - 2^65 / |F|`. The attacker may choose `C` and `C'` in the end: the number of published vectors does not
matter. -/
theorem C118_same_value [Fintype F] {R : Ristretto F G} (E : R.Encodings) (hB : R.base ≠ 0) (A : Chooser F G) (xs : Nat → List F)
    (w T n : Nat) (hw : 1 ≤ w) (hn : 2 ≤ n) (hx : ∀ u, (xs u).length = 2) (hA : A.Valid 2 w) (gen : Bytes)
    (pub : Finset (List G)) (old new : List G → Opening F)
    (hpub : ∀ K ∈ pub, (∃ P, K = [P, (old K).point R gen - (new K).point R gen]) ∧ (old K).value < 2 ^ 64 ∧ (new K).value < 2 ^ 64 ∧
      (old K).value ≠ (new K).value)
    (ε δ σ : ℚ)
    (hε : ε = Nat.card {p : (Fin T → StepCoins 2 w F) × (Fin n → F) //
        ∃ sig I, A.Forges R true xs pub 1 n (List.ofFn p.1) (List.ofFn p.2) sig I} / Nat.card ((Fin T → StepCoins 2 w F) × (Fin n → F)))
    (hδ : δ = T ^ 2 * w / Fintype.card F)
    (hσ : σ = Nat.card {p : (Fin T → SimCoins 2 w F) × (Fin (T * w + n) → F) × (Fin (T * w + n) → F) // ∃ t : Fin (T * w + n),
        ∃ x ∈ (A.simulator R (keysOf R xs) (imsOf R true xs) T (ext p.1)).visited R (T * w) (List.ofFn p.2.1),
        ∃ y ∈ (A.simulator R (keysOf R xs) (imsOf R true xs) T (ext p.1)).visited R (T * w) (List.ofFn (Oracle.rewind t p.2.1 p.2.2)),
          solve (fun K => (old K).blind - (new K).blind) (fun K => ((old K).value : F) - (new K).value) 1 x y • R.base =
            (Pedersen.new R gen).basePoint} /
      Nat.card ((Fin T → SimCoins 2 w F) × (Fin (T * w + n) → F) × (Fin (T * w + n) → F)))
    (hge : δ ≤ ε) : (ε - δ) ^ 2 / (T * w + n) ^ 2 - 2 ^ 65 / Fintype.card F ≤ σ := by
  have h := C118_column E hB A true xs 2 1 w T n (by omega) hw hn hx hA pub (Pedersen.new R gen).basePoint
    (fun K => (old K).blind - (new K).blind) (fun K => ((old K).value : F) - (new K).value) (differences F) (differences_zero R) (by
      intro K hK
      obtain ⟨⟨P, hP⟩, h1, h2, h3⟩ := hpub K hK
      refine ⟨by rw [hP]; rfl, ?_, mem_differences h1 h2 h3⟩
      have : K.getD 1 0 = (old K).point R gen - (new K).point R gen := by
        conv_lhs => rw [hP]
        rfl
      rw [this]
      simp only [Opening.point, Pedersen.commitToScalar, Pedersen.new]
      module) 1 rfl ε δ σ hε hδ hσ hge
  refine le_trans (sub_le_sub_left ?_ _) h
  have : ((differences F).card : ℚ) ≤ 2 ^ 65 := by exact_mod_cast differences_card (F := F)
  gcongr

/-- C118, violated if the values are not known to be small: the owner of a key gets a signature accepted for a commitment `C'` that it
chooses after the hash, to a value different from that of its own commitment `C`. Its secret key, both openings and any `u ≠ 0` give the
signature; the ring has one member. -/
theorem C118_any_value_violated (R : Ristretto F G) (gen msg : Bytes) (x v r l l' u : F) (hu : u ≠ 0) (C : G)
    (hC : C = ((Pedersen.new R gen).commitToScalar v r).value)
    (hc : R.sDerive (msg ++ (R.pBytes (l • R.base) ++ R.pBytes (u • (Pedersen.new R gen).basePoint + l' • R.base)) ++
      R.pBytes (l • R.pDerive (R.pBytes (x • R.base)))) ≠ 0) :
    ∃ (v' r' : F) (sig : Signature F G), v' ≠ v ∧ sig.msg = msg ∧
      sig.pubKeys = [⟨true, [x • R.base, C - ((Pedersen.new R gen).commitToScalar v' r').value]⟩] ∧
      sig.verify R [image R x] = .ok true := by
  generalize hcd : R.sDerive _ = c at hc
  refine ⟨v - u / c, 0, ⟨c, [[l - c * x, l' - c * r]],
    [⟨true, [x • R.base, C - ((Pedersen.new R gen).commitToScalar (v - u / c) 0).value]⟩], msg⟩, ?_, rfl, rfl, ?_⟩
  · intro h
    exact div_ne_zero hu hc (by simpa using h)
  · have hl : link R msg [image R x] [x • R.base, C - ((Pedersen.new R gen).commitToScalar (v - u / c) 0).value] [l - c * x, l' - c * r] c = c := by
      have e1 : (l - c * x) • R.base + c • x • R.base = l • R.base := by module
      have e2 : (l - c * x) • R.pDerive (R.pBytes (x • R.base)) + c • image R x = l • R.pDerive (R.pBytes (x • R.base)) := by
        unfold image
        module
      have e3 : (l' - c * r) • R.base + c • (C - ((Pedersen.new R gen).commitToScalar (v - u / c) 0).value) =
          u • (Pedersen.new R gen).basePoint + l' • R.base := by
        rw [hC]
        simp only [Pedersen.commitToScalar]
        have : u = c * (u / c) := by field_simp
        conv_rhs => rw [this]
        simp only [Pedersen.new]
        module
      unfold link query
      simp only [List.zipWith_cons_cons, List.zip_cons_cons, List.zip_nil_right, List.zipWith_nil_right, List.flatten_cons, List.flatten_nil,
        List.append_nil]
      rw [e1, e2, e3]
      exact hcd
    refine (C17_single _ _ _ rfl le_rfl (by simp) ?_).2 ?_
    · simp [Fits, ringOf]
    · simp only [ringOf, List.map_cons, List.map_nil, List.zip_cons_cons, List.zip_nil_right, around, List.singleton_append,
        List.foldl_cons, List.foldl_nil]
      rw [hl, hl]

/-- The hash of the toy instance is never zero: key 3, value 5, blinding 7, nonces 11 and 13, `u = 1`. -/
example : ∃ (v' r' : Toy.K) (sig : Signature Toy.K Toy.K), v' ≠ 5 ∧ sig.msg = [1] ∧
    sig.pubKeys = [⟨true, [(3 : Toy.K) • Toy.ris.base, ((Pedersen.new Toy.ris [2]).commitToScalar (5 : Toy.K) 7).value -
      ((Pedersen.new Toy.ris [2]).commitToScalar v' r').value]⟩] ∧
    sig.verify Toy.ris [image Toy.ris 3] = .ok true :=
  C118_any_value_violated Toy.ris [2] [1] 3 5 7 11 13 1 one_ne_zero _ rfl (Toy.dv_ne_zero _)

/-! ### A concrete attacker

It knows the discrete logarithm of the value base; so it can sign for commitments to different values. -/

/-- The question for the nonces `l` and `l'`. -/
def ownQuery2 (R : Ristretto F G) (msg : Bytes) (x l l' : F) : Bytes :=
  msg ++ (R.pBytes (l • R.base) ++ R.pBytes (l' • R.base)) ++ R.pBytes (l • R.pDerive (R.pBytes (x • R.base)))

/-- Sign for the ring of the own keys `x` and `z`, visited twice. -/
def cheater (R : Ristretto F G) (x z l l' : F) : Chooser F G where
  act _ _ := .hash (ownQuery2 R [1, 2] x l l')
  out log _ := (⟨log.hash (ownQuery2 R [1, 2] x l l'),
    [[l - log.hash (ownQuery2 R [1, 2] x l l') * x, l' - log.hash (ownQuery2 R [1, 2] x l l') * z]],
    [⟨true, [x • R.base, z • R.base]⟩], [1, 2]⟩, [image R x])

theorem cheater_forges (R : Ristretto F G) (x z l l' : F) (xs : Nat → List F) (c : StepCoins 2 1 F) (ver : List F) :
    ∃ sig I, (cheater R x z l l').Forges R true xs {[x • R.base, z • R.base]} 1 2 [c] ver sig I := by
  have h2 : [c].foldl ((cheater R x z l l').step R true xs) {} = ⟨Oracle.Log.ask [] (ownQuery2 R [1, 2] x l l') (ext c.2.2 0), []⟩ := by
    rw [List.foldl_cons, List.foldl_nil, step_hash rfl]
  generalize ext c.2.2 0 = a at h2
  have ha : (Oracle.Log.ask [] (ownQuery2 R [1, 2] x l l') a).lookup (ownQuery2 R [1, 2] x l l') = some a := by
    rw [lookup_ask, if_pos rfl]
    rfl
  have hh : Oracle.Log.hash (Oracle.Log.ask [] (ownQuery2 R [1, 2] x l l') a) (ownQuery2 R [1, 2] x l l') = a := by
    rw [Oracle.Log.hash, ha]
    rfl
  refine ⟨⟨a, [[l - a * x, l' - a * z]], [⟨true, [x • R.base, z • R.base]⟩], [1, 2]⟩, [image R x], ?_, ?_, by simp, by simp, rfl, ?_⟩
  · rw [h2]
    simp only [cheater, hh]
  · rw [h2]
    generalize hL : verifying R _ _ _ _ _ = L
    have hlook : L.lookup (ownQuery2 R [1, 2] x l l') = some a := by rw [← hL]; exact verifying_lookup _ _ _ ha
    refine (C17_single _ _ _ rfl le_rfl (by simp) ?_).2 ?_
    · simp [Fits, ringOf]
    · have hl : link (withHash R L.hash) [1, 2] [image R x] [x • R.base, z • R.base] [l - a * x, l' - a * z] a = a := by
        have hq : query R [1, 2] [image R x] [x • R.base, z • R.base] [l - a * x, l' - a * z] a = ownQuery2 R [1, 2] x l l' := by
          have e1 : ∀ y m : F, (m - a * y) • R.base + a • y • R.base = m • R.base := fun y m => by module
          have e2 : (l - a * x) • R.pDerive (R.pBytes (x • R.base)) + a • image R x = l • R.pDerive (R.pBytes (x • R.base)) := by
            unfold image
            module
          unfold query ownQuery2
          simp only [List.zipWith_cons_cons, List.zip_cons_cons, List.zip_nil_right, List.zipWith_nil_right, List.flatten_cons, List.flatten_nil,
            List.append_nil]
          rw [e1, e2, e1]
        show L.hash (query R [1, 2] [image R x] [x • R.base, z • R.base] [l - a * x, l' - a * z] a) = a
        rw [hq, Oracle.Log.hash, hlook]
        rfl
      simp only [ringOf, List.map_cons, List.map_nil, List.zip_cons_cons, List.zip_nil_right, around, List.singleton_append,
        List.foldl_cons, List.foldl_nil]
      rw [hl, hl]
  · rw [h2]
    simp

/-- In the toy group every point is its own discrete logarithm, and the signature for commitments to the values 5 and 6 is always
accepted. Rerunning the simulator gives the discrete logarithm of the value base. -/
theorem cheater_solved (x l l' r r' : Toy.K) :
    ((1 : ℚ) - 1 / Fintype.card Toy.K) ^ 2 / 9 - 2 ^ 65 / Fintype.card Toy.K ≤
      Nat.card {p : (Fin 1 → SimCoins 2 1 Toy.K) × (Fin (1 * 1 + 2) → Toy.K) × (Fin (1 * 1 + 2) → Toy.K) // ∃ t : Fin (1 * 1 + 2),
        ∃ y ∈ ((cheater Toy.ris x ((⟨5, r⟩ : Opening Toy.K).point Toy.ris [2] - (⟨6, r'⟩ : Opening Toy.K).point Toy.ris [2]) l l').simulator
          Toy.ris (keysOf Toy.ris fun _ => [x, l]) (imsOf Toy.ris true fun _ => [x, l]) 1 (ext p.1)).visited Toy.ris (1 * 1) (List.ofFn p.2.1),
        ∃ z ∈ ((cheater Toy.ris x ((⟨5, r⟩ : Opening Toy.K).point Toy.ris [2] - (⟨6, r'⟩ : Opening Toy.K).point Toy.ris [2]) l l').simulator
          Toy.ris (keysOf Toy.ris fun _ => [x, l]) (imsOf Toy.ris true fun _ => [x, l]) 1 (ext p.1)).visited Toy.ris (1 * 1)
            (List.ofFn (Oracle.rewind t p.2.1 p.2.2)),
          solve (fun _ => r - r') (fun _ => ((5 : Nat) : Toy.K) - ((6 : Nat) : Toy.K)) 1 y z • Toy.ris.base =
            (Pedersen.new Toy.ris [2]).basePoint} /
      Nat.card ((Fin 1 → SimCoins 2 1 Toy.K) × (Fin (1 * 1 + 2) → Toy.K) × (Fin (1 * 1 + 2) → Toy.K)) := by
  generalize hz : (⟨5, r⟩ : Opening Toy.K).point Toy.ris [2] - (⟨6, r'⟩ : Opening Toy.K).point Toy.ris [2] = z
  have hall : ∀ p : (Fin 1 → StepCoins 2 1 Toy.K) × (Fin 2 → Toy.K), ∃ sig I,
      (cheater Toy.ris x z l l').Forges Toy.ris true (fun _ => [x, l]) {[x • Toy.ris.base, z • Toy.ris.base]} 1 2 (List.ofFn p.1)
        (List.ofFn p.2) sig I := by
    intro p
    exact cheater_forges Toy.ris x z l l' _ (p.1 0) (List.ofFn p.2)
  have hε : (1 : ℚ) = Nat.card {p : (Fin 1 → StepCoins 2 1 Toy.K) × (Fin 2 → Toy.K) // ∃ sig I,
      (cheater Toy.ris x z l l').Forges Toy.ris true (fun _ => [x, l]) {[x • Toy.ris.base, z • Toy.ris.base]} 1 2 (List.ofFn p.1)
        (List.ofFn p.2) sig I} / Nat.card ((Fin 1 → StepCoins 2 1 Toy.K) × (Fin 2 → Toy.K)) := by
    rw [Nat.card_congr (Equiv.subtypeUnivEquiv hall), div_self]
    rw [Nat.card_eq_fintype_card]
    exact_mod_cast Fintype.card_ne_zero
  have hl : (1 : ℚ) ≤ Fintype.card Toy.K := by exact_mod_cast Fintype.card_pos (α := Toy.K)
  have h := C118_same_value Toy.ris_encodings (by simp [Toy.ris]) (cheater Toy.ris x z l l') (fun _ => [x, l]) 1 1 2 le_rfl le_rfl
    (fun _ => rfl) (fun _ _ _ h => by cases h) [2] {[x • Toy.ris.base, z • Toy.ris.base]} (fun _ => ⟨5, r⟩) (fun _ => ⟨6, r'⟩) (by
      intro K hK
      rw [Finset.mem_singleton.1 hK]
      refine ⟨⟨x • Toy.ris.base, ?_⟩, by norm_num, by norm_num, by norm_num⟩
      rw [hz]
      have : z • Toy.ris.base = z := mul_one z
      rw [this]) 1 (1 / Fintype.card Toy.K) _ hε (by norm_num) rfl (by
        rw [div_le_one (by linarith)]
        exact hl)
  norm_num at h ⊢
  exact h

end Dusk.Mlsag
