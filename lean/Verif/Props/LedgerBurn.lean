import Verif.Props.LedgerTheft
/-!
# C165: nobody can make the coin of somebody else unspendable

An input with the image of a coin makes the coin unspendable, since images may occur only once. The attacker is a thief of C164 that may use its own coins in the ring,
too. C116 does not apply, as its bound counts the key vectors of possible rings; here only the keys of the coins count.
-/

set_option linter.unusedSectionVars false

namespace Dusk.Mlsag

variable {F G : Type} [Field F] [AddCommGroup G] [Module F G] [DecidableEq F]

/-- As `query_points`, for members with different keys after the first ones. -/
theorem query_images {R : Ristretto F G} (E : R.Encodings) {msg msg' : Bytes} {I I' K K' : List G} {r r' : List F} {c c' : F}
    (hI : I.length = I'.length) (hK : I.length ≤ K.length) (hKK : K.length = K'.length) (hr : K.length ≤ r.length) (hr' : K.length ≤ r'.length)
    (h : query R msg I K r c = query R msg' I' K' r' c') :
    ∀ j < I.length, r.getD j 0 • R.pDerive (R.pBytes (K.getD j 0)) + c • I.getD j 0 =
      r'.getD j 0 • R.pDerive (R.pBytes (K'.getD j 0)) + c' • I'.getD j 0 := by
  have h32 : ∀ {α β : Type} (f : α → β → G) (a : List α) (b : List β), ∀ x ∈ List.zipWith (fun s t => R.pBytes (f s t)) a b, x.length = 32 := by
    intro α β f a b x hx
    obtain ⟨j, hj, rfl⟩ := List.mem_iff_getElem.1 hx
    simp [E.pBytes_length]
  unfold query at h
  obtain ⟨-, h2⟩ := List.append_inj' h (by
    rw [flatten32_length _ (h32 _ _ _), flatten32_length _ (h32 _ _ _)]
    simp; omega)
  have e2 := flatten32_inj _ _ (by simp; omega) (h32 _ _ _) (h32 _ _ _) h2
  intro j hj
  have := congrArg (fun l => l[j]?) e2
  simp only [List.getElem?_zipWith, List.zip_eq_zipWith, List.getElem?_eq_getElem (show j < K.length by omega),
    List.getElem?_eq_getElem (show j < K'.length by omega),
    List.getElem?_eq_getElem (show j < r.length by omega), List.getElem?_eq_getElem hj,
    List.getElem?_eq_getElem (show j < I'.length by omega),
    List.getElem?_eq_getElem (show j < r'.length by omega), Option.some.injEq] at this
  simpa [List.getD_eq_getElem?_getD, hj, show j < K.length by omega, show j < K'.length by omega, show j < r.length by omega,
    show j < r'.length by omega, show j < I'.length by omega] using E.pBytes_inj this

section

variable (R : Ristretto F G) (dl : G → F)

/-- The image of the key `k`, as a vector. -/
def im1 (k : G) : Fin 1 → G := imv R dl 1 [k]

variable {R dl}

theorem im1_eq (k K : G) : imv R dl 1 [k, K] = im1 R dl k := by
  funext j
  obtain rfl : j = 0 := Subsingleton.elim _ _
  rfl

/-- The second key does not matter for the excess. -/
theorem excess_first (E : R.Encodings) (hB : R.base ≠ 0) (hdl : ∀ P, P = dl P • R.base) {k K K' : G} {q : Bytes} {d d' : Fin 1 → G}
    (h : Excess R dl 1 [k, K] q d) (h' : Excess R dl 1 [k, K'] q d') : d = d' := by
  obtain ⟨msg, I, r, c, a1, a2, a3, a4, rfl⟩ := h
  obtain ⟨msg', I', r', c', b1, b2, b3, b4, rfl⟩ := h'
  have p1 := query_keys E (a1.trans b1.symm) (a1.le.trans a2) (show [k, K].length = [k, K'].length from rfl) a3 b3 (a4.symm.trans b4) 0 (by simp)
  have p2 := query_images E (a1.trans b1.symm) (a1.le.trans a2) (show [k, K].length = [k, K'].length from rfl) a3 b3 (a4.symm.trans b4) 0 (by omega)
  funext j
  obtain rfl : j = 0 := Subsingleton.elim _ _
  simp only [Pi.smul_apply, Pi.sub_apply, vec, imv, Fin.val_zero]
  simp only [List.getD_cons_zero] at p1 p2 ⊢
  generalize I.getD 0 0 = i at *
  generalize I'.getD 0 0 = i' at *
  generalize r.getD 0 0 = s at *
  generalize r'.getD 0 0 = s' at *
  generalize R.pDerive (R.pBytes k) = H at *
  have hk := hdl k
  have e : s + c * dl k = s' + c' * dl k := by
    have : (s + c * dl k - (s' + c' * dl k)) • R.base = 0 := by
      rw [hk, smul_smul, smul_smul, ← add_smul, ← add_smul] at p1
      rw [sub_smul, p1, sub_self]
    rcases smul_eq_zero.1 this with h | h
    · exact sub_eq_zero.1 h
    · exact absurd h hB
  have e2 : c • i - c' • i' = (s' - s) • H := by
    rw [sub_smul, sub_eq_sub_iff_add_eq_add, add_comm, p2, add_comm]
  have e3 : s' - s = c * dl k - c' * dl k := by linear_combination -e
  rw [smul_sub, smul_sub, sub_eq_sub_iff_sub_eq_sub, e2, e3, sub_smul, smul_smul, smul_smul]

variable (R dl)

open Classical in
/-- The answers after which an attacker may succeed with the image `I` without a coin that has it. -/
noncomputable def scorches [Fintype F] (vault : Finset (G × G)) (I : G) (log : Oracle.Log F) (q : Bytes) : Finset F :=
  (vault ×ˢ insert q (log.map (·.1)).toFinset).biUnion fun e => Finset.univ.filter fun c =>
    im1 R dl e.1.1 ≠ vec 1 [I] ∧ ∃ K, Excess R dl 1 [e.1.1, K] e.2 (c • (vec 1 [I] - im1 R dl e.1.1))

variable {R dl}

theorem scorches_card [Fintype F] (E : R.Encodings) (hB : R.base ≠ 0) (hdl : ∀ P, P = dl P • R.base) (vault : Finset (G × G)) (I : G)
    (log : Oracle.Log F) (q : Bytes) (m : Nat) (hm : log.length < m) : (scorches R dl vault I log q).card ≤ vault.card * m := by
  classical
  unfold scorches
  refine (Finset.card_biUnion_le_card_mul _ _ 1 fun e _ => ?_).trans ?_
  · rw [Finset.card_le_one]
    intro a ha b hb
    obtain ⟨h1, K, h2⟩ := (Finset.mem_filter.1 ha).2
    obtain ⟨-, K', g2⟩ := (Finset.mem_filter.1 hb).2
    have : (a - b) • (vec 1 [I] - im1 R dl e.1.1) = 0 := by rw [sub_smul, excess_first E hB hdl h2 g2, sub_self]
    rcases smul_eq_zero.1 this with h | h
    · exact sub_eq_zero.1 h
    · exact absurd (sub_eq_zero.1 h).symm h1
  · rw [mul_one, Finset.card_product]
    exact Nat.mul_le_mul_left _ ((Finset.card_insert_le _ _).trans ((Nat.add_le_add_right (List.toFinset_card_le _) 1).trans (by simp; omega)))

theorem mem_vaultKeys [Fintype F] {vault : Finset (G × G)} {K : List G} (h : K ∈ vaultKeys R vault) : ∃ k ∈ vault, ∃ x : F, K = [k.1, x • R.base] := by
  classical
  rw [vaultKeys, Finset.mem_image] at h
  obtain ⟨⟨k, q⟩, hk, rfl⟩ := h
  exact ⟨k, (Finset.mem_product.1 hk).1, q, rfl⟩

variable (R dl) in
/-- An answer was one of these. -/
def Scorched [Fintype F] (A : Linker F G) (vault : Finset (G × G)) (I : G) (Q n : Nat) (coins : Fin (Q + n) → F) : Prop :=
  ∃ t : Fin (Q + n), coins t ∈ scorches R dl vault I (Oracle.play (A.question R Q) ((List.ofFn coins).take t))
    (A.question R Q (Oracle.play (A.question R Q) ((List.ofFn coins).take t)))

theorem card_scorched [Fintype F] (E : R.Encodings) (hB : R.base ≠ 0) (hdl : ∀ P, P = dl P • R.base) (A : Linker F G) (vault : Finset (G × G)) (I : G)
    (Q n : Nat) :
    Fintype.card F * Nat.card {coins : Fin (Q + n) → F // Scorched R dl A vault I Q n coins} ≤
      (Q + n) * (vault.card * (Q + n)) * Fintype.card F ^ (Q + n) :=
  Oracle.card_guess (vault.card * (Q + n)) (Q + n)
    (fun l => scorches R dl vault I (Oracle.play (A.question R Q) l) (A.question R Q (Oracle.play (A.question R Q) l)))
    fun l hl => scorches_card E hB hdl vault I _ _ _ (by rw [Oracle.play_length]; exact hl)

/-- The member asked for first has the image, or an answer was one of these. -/
theorem image_or_scorched [Fintype F] (hdl : ∀ P, P = dl P • R.base) {A : Linker F G}
    {vault : Finset (G × G)} {Q n : Nat} {coins : Fin (Q + n) → F} {sig : Signature F G} {I : G}
    (h : A.Forges R (vaultKeys R vault) 1 Q n (List.ofFn coins) sig [I]) (hn : 2 ≤ n) (hno : ¬ Scorched R dl A vault I Q n coins) :
    ∃ i j, j < Q + n ∧ ∃ x ∈ A.visited R Q (List.ofFn coins), x.1.1 ∈ vaultKeys R vault ∧ HasImages R x.1.1 [I] ∧ 1 ≤ x.1.1.length ∧
      x.1.1.length ≤ x.1.2.length ∧ i ≤ j ∧ (List.ofFn coins)[j]? = some x.2 ∧
      query R sig.msg [I] x.1.1 x.1.2 x.2 = A.question R Q (Oracle.play (A.question R Q) ((List.ofFn coins).take i)) := by
  classical
  obtain ⟨i, j, hj, x, h1, h0, h2, h3, h4, h5, h6, h7⟩ := h.early hn (by simp)
  refine ⟨i, j, hj, x, h1, h2, hasImages_of_vec hdl h.images h3 ?_, h3, h4, h5, h6, h7⟩
  by_contra hne
  have hjl : j < (List.ofFn coins).length := by simpa using hj
  have hcj : coins ⟨j, hj⟩ = x.2 := by
    rw [List.getElem?_eq_getElem hjl] at h6
    simpa using h6
  obtain ⟨k, hk, y, hK⟩ := mem_vaultKeys h2
  refine hno ⟨⟨j, hj⟩, ?_⟩
  unfold scorches
  refine Finset.mem_biUnion.2 ⟨(k, A.question R Q (Oracle.play (A.question R Q) ((List.ofFn coins).take i))), Finset.mem_product.2 ⟨hk, ?_⟩,
    Finset.mem_filter.2 ⟨Finset.mem_univ _, ?_, y • R.base, ?_⟩⟩
  · rcases Nat.lt_or_ge i j with hij | hij
    · have := Oracle.play_entry (A.question R Q) ((List.ofFn coins).take j) i (by simp; omega)
      rw [List.take_take, Nat.min_eq_left hij.le] at this
      exact Finset.mem_insert_of_mem (List.mem_toFinset.2 (List.mem_map.2 ⟨_, List.mem_of_getElem? this, rfl⟩))
    · rw [Nat.le_antisymm h5 hij]
      exact Finset.mem_insert_self _ _
  · simp only
    rw [← im1_eq k.1 (y • R.base), ← hK]
    exact hne
  · simp only
    rw [← h7, hcj, ← im1_eq k.1 (y • R.base), ← hK]
    exact ⟨sig.msg, [I], x.1.2, x.2, rfl, h3, h4, rfl, rfl⟩

end

/-- The statement for families of attackers without signatures. -/
theorem burn_reruns {α : Type} [Fintype α] [Nonempty α] [Fintype F] {R : Ristretto F G} (E : R.Encodings) (hB : R.base ≠ 0)
    (hgen : ∀ P, ∃ x : F, P = x • R.base) (A : α → Linker F G) (vault : Finset (G × G)) (Q n : Nat) (hn : 2 ≤ n) (I K : G)
    (honly : ∀ k ∈ vault, ∀ x : F, k.1 = x • R.base → I = image R x → k.1 = K) (ε δ σ : ℚ)
    (hε : ε = Nat.card {p : α × (Fin (Q + n) → F) // ∃ sig, (A p.1).Forges R (vaultKeys R vault) 1 Q n (List.ofFn p.2) sig [I]} /
      Nat.card (α × (Fin (Q + n) → F)))
    (hδ : δ = vault.card * (Q + n) ^ 2 / Fintype.card F)
    (hσ : σ = Nat.card {p : α × (Fin (Q + n) → F) × (Fin (Q + n) → F) // ∃ t : Fin (Q + n),
        ∃ x ∈ (A p.1).visited R Q (List.ofFn p.2.1), ∃ y ∈ (A p.1).visited R Q (List.ofFn (Oracle.rewind t p.2.1 p.2.2)),
          pickLock (fun _ => 0) x y • R.base = K} /
      Nat.card (α × (Fin (Q + n) → F) × (Fin (Q + n) → F)))
    (hge : δ ≤ ε) : (ε - δ) ^ 2 / (Q + n) ^ 2 - 1 / Fintype.card F ≤ σ := by
  choose dl hdl using hgen
  have h2 := prob_split
    (fun p : α × (Fin (Q + n) → F) => ∃ sig, (A p.1).Forges R (vaultKeys R vault) 1 Q n (List.ofFn p.2) sig [I])
    (fun p => (∃ sig, (A p.1).Forges R (vaultKeys R vault) 1 Q n (List.ofFn p.2) sig [I]) ∧ ¬ Scorched R dl (A p.1) vault I Q n p.2)
    (fun p => Scorched R dl (A p.1) vault I Q n p.2) (by
      intro p h
      by_cases hh : Scorched R dl (A p.1) vault I Q n p.2
      · exact Or.inr hh
      · exact Or.inl ⟨h, hh⟩)
  have h3 := family_prob (Fintype.card F) ((Q + n) * (vault.card * (Q + n))) Fintype.card_pos Fintype.card_pos
    (fun p : α × (Fin (Q + n) → F) => Scorched R dl (A p.1) vault I Q n p.2) (by
      intro ρ
      have := card_scorched (R := R) (dl := dl) E hB hdl (A ρ) vault I Q n
      rw [Fintype.card_fun, Fintype.card_fin]
      exact this)
  have h4 := reruns (α := α) (β := Fin (Q + n) → F) (γ := (Fin (Q + n) → F) × (Fin (Q + n) → F))
    (Fintype.card F) (Q + n) Fintype.card_pos (by omega) Fintype.card_pos (by rw [Fintype.card_prod])
    (fun p => (∃ sig, (A p.1).Forges R (vaultKeys R vault) 1 Q n (List.ofFn p.2) sig [I]) ∧ ¬ Scorched R dl (A p.1) vault I Q n p.2)
    (fun p => ∃ t : Fin (Q + n),
        ∃ x ∈ (A p.1).visited R Q (List.ofFn p.2.1), ∃ y ∈ (A p.1).visited R Q (List.ofFn (Oracle.rewind t p.2.1 p.2.2)),
          ∀ j < 2, crack (fun K j => if j = 0 then 0 else dl (K.getD 1 0)) x y j • R.base = if j = 0 then K else 0) (by
      intro ρ
      rw [Fintype.card_fun, Fintype.card_fin]
      refine ready_forking E (A ρ) (vaultKeys R {(K, 0)}) 1 2 Q n (fun j => if j = 0 then K else 0) (fun K j => if j = 0 then 0 else dl (K.getD 1 0)) ?_ _ ?_
      · intro K' hK'
        obtain ⟨k, hk, y, rfl⟩ := mem_vaultKeys hK'
        rw [Finset.mem_singleton.1 hk]
        refine ⟨rfl, fun j hj => ?_⟩
        match j, hj with
        | 0, _ => simp
        | 1, _ => simpa using hdl (y • R.base)
      · rintro c ⟨⟨sig, hf⟩, hno⟩
        obtain ⟨i, j, hj, x, g1, g2, g3, g4, g5, g6⟩ := image_or_scorched hdl hf hn hno
        refine ⟨i, j, hj, x, g1, sig.msg, _, ?_, hf.images, g4, g5, g6⟩
        obtain ⟨k, hk, y, hK⟩ := mem_vaultKeys g2
        obtain ⟨z, e1, e2⟩ := g3 0 (by simp)
        rw [hK] at e1 ⊢
        have e3 : k.1 = K := honly k hk z (by simpa using e1) (by simpa using e2)
        classical
        rw [vaultKeys, Finset.mem_image]
        exact ⟨((K, 0), y), Finset.mem_product.2 ⟨Finset.mem_singleton_self _, Finset.mem_univ _⟩, by rw [e3]⟩)
  rw [← hε] at h2
  have h5 := h2.trans (add_le_add_right h3 _)
  have hδ' : (((Q + n) * (vault.card * (Q + n)) : Nat) : ℚ) / Fintype.card F = δ := by
    rw [hδ]
    push_cast
    ring
  rw [hδ', ← sub_le_iff_le_add] at h5
  have h6 := square_mono (Q + n) (1 / Fintype.card F) (sub_nonneg.2 hge) h5
  push_cast at h4
  refine (h6.trans h4).trans ?_
  rw [hσ]
  gcongr
  refine Nat.card_le_card_of_injective (Subtype.impEmbedding _ _ ?_) (Subtype.impEmbedding _ _ _).injective
  rintro p ⟨t, x, hx, y, hy, hc⟩
  exact ⟨t, x, hx, y, hy, by simpa [crack, pickLock] using hc 0 (by omega)⟩

/-- C165: making an input with the image of the coin of wallet `u` is as hard as the discrete logarithm problem. The attacker may use all `p` coins, its own ones
included, in the ring; no coin with another key has the same image. -/
theorem C165_burn [Fintype F] {R : Ristretto F G} (E : R.Encodings) (hB : R.base ≠ 0) (hgen : ∀ P, ∃ x : F, P = x • R.base) (gen : Bytes)
    (A : Thief F G) (s : Nat → Wallet F) (h1 : ∀ u, (s u).key ≠ 0) (h2 : ∀ u, (s u).blind ≠ (s u).old.blind) (w T n : Nat) (hw : 1 ≤ w) (hn : 2 ≤ n)
    (hA : A.Valid w) (coins : Finset (G × G)) (u : Nat)
    (honly : ∀ k ∈ coins, ∀ x : F, k.1 = x • R.base → image R (s u).key = image R x → k.1 = (s u).key • R.base) (ε δ σ : ℚ)
    (hε : ε = Nat.card {p : (Fin T → StepCoins 2 w F) × (Fin n → F) //
        ∃ ring P sig, A.Steals R gen s coins n (List.ofFn p.1) (List.ofFn p.2) ring P sig (image R (s u).key)} /
          Nat.card ((Fin T → StepCoins 2 w F) × (Fin n → F)))
    (hδ : δ = (T ^ 2 * w + coins.card * (T * w + n) ^ 2) / Fintype.card F)
    (hσ : σ = Nat.card {p : (Fin T → SimCoins 2 w F) × (Fin (T * w + n) → F) × (Fin (T * w + n) → F) // ∃ t : Fin (T * w + n),
        ∃ x ∈ ((A.chooser fun u => (s u).point R gen).simulator R (keysOf R (walletKeys s)) (imsOf R true (walletKeys s)) T (ext p.1)).visited
          R (T * w) (List.ofFn p.2.1),
        ∃ y ∈ ((A.chooser fun u => (s u).point R gen).simulator R (keysOf R (walletKeys s)) (imsOf R true (walletKeys s)) T (ext p.1)).visited
          R (T * w) (List.ofFn (Oracle.rewind t p.2.1 p.2.2)),
          pickLock (fun _ => 0) x y • R.base = (s u).key • R.base} /
      Nat.card ((Fin T → SimCoins 2 w F) × (Fin (T * w + n) → F) × (Fin (T * w + n) → F)))
    (hge : δ ≤ ε) : (ε - δ) ^ 2 / (T * w + n) ^ 2 - 1 / Fintype.card F ≤ σ := by
  have hpub : ∀ K ∈ vaultKeys R coins, K.length = 2 := by
    intro K hK
    obtain ⟨k, -, y, rfl⟩ := mem_vaultKeys hK
    rfl
  have g1 := simulated_prob E hB (A.chooser fun u => (s u).point R gen) true (walletKeys s) 2 w T n (by omega) hw (fun _ => rfl)
    (A.chooser_valid hA _) (vaultKeys R coins) hpub 1 rfl fun _ I => I = [image R (s u).key]
  have hset' : ∀ p : (Fin T → SimCoins 2 w F) × (Fin (T * w + n) → F),
      (∃ sig I, ((A.chooser fun u => (s u).point R gen).simulator R (keysOf R (walletKeys s)) (imsOf R true (walletKeys s)) T (ext p.1)).Forges R
        (vaultKeys R coins) 1 (T * w) n (List.ofFn p.2) sig I ∧ I = [image R (s u).key]) ↔
      ∃ sig, ((A.chooser fun u => (s u).point R gen).simulator R (keysOf R (walletKeys s)) (imsOf R true (walletKeys s)) T (ext p.1)).Forges R
        (vaultKeys R coins) 1 (T * w) n (List.ofFn p.2) sig [image R (s u).key] := by
    intro p
    constructor
    · rintro ⟨sig, I, h, rfl⟩
      exact ⟨sig, h⟩
    · rintro ⟨sig, h⟩
      exact ⟨sig, _, h, rfl⟩
  rw [Nat.card_congr (Equiv.subtypeEquivRight hset')] at g1
  have hle : ε ≤ Nat.card {p : (Fin T → StepCoins 2 w F) × (Fin n → F) //
        ∃ sig I, (A.chooser fun u => (s u).point R gen).Forges R true (walletKeys s) (vaultKeys R coins) 1 n (List.ofFn p.1) (List.ofFn p.2) sig I ∧
          I = [image R (s u).key]} / Nat.card ((Fin T → StepCoins 2 w F) × (Fin n → F)) := by
    rw [hε]
    gcongr
    refine Nat.card_le_card_of_injective (Subtype.impEmbedding _ _ ?_) (Subtype.impEmbedding _ _ _).injective
    rintro p ⟨ring, P, sig, hs⟩
    exact ⟨sig, _, hs.forges h1 h2 hgen hA, rfl⟩
  have g1 := (sub_le_sub_right hle _).trans g1
  have g2 := burn_reruns E hB hgen (fun ρ : Fin T → SimCoins 2 w F => (A.chooser fun u => (s u).point R gen).simulator R (keysOf R (walletKeys s))
    (imsOf R true (walletKeys s)) T (ext ρ)) coins (T * w) n hn (image R (s u).key) ((s u).key • R.base) honly _ _ σ rfl rfl hσ
  have hδ' : δ = T ^ 2 * w / Fintype.card F + coins.card * ((T * w : Nat) + n) ^ 2 / Fintype.card F := by
    rw [hδ]
    push_cast
    ring
  have g3 := sub_le_sub_right g1 (coins.card * ((T * w : Nat) + n) ^ 2 / Fintype.card F)
  rw [← sub_add_eq_sub_sub, ← hδ'] at g3
  have g4 := g2 (sub_nonneg.1 ((sub_nonneg.2 hge).trans g3))
  have g5 := (square_mono ((T * w : Nat) + n) (1 / Fintype.card F) (sub_nonneg.2 hge) g3).trans g4
  push_cast at g5
  exact g5

/-- The thief of C164 that has the key 3 of the wallet, among two coins: rerunning the simulator gives the key. -/
theorem burner_caught (C z l l' : Toy.K) (s : Nat → Wallet Toy.K) (hs : s = fun _ => ⟨3, ⟨5, 7⟩, 8⟩) (A : Thief Toy.K Toy.K)
    (hA : A = burglar Toy.ris 3 C z l l') :
    ((1 : ℚ) - 80 / Fintype.card Toy.K) ^ 2 / 36 - 1 / Fintype.card Toy.K ≤
      Nat.card {p : (Fin 2 → SimCoins 2 2 Toy.K) × (Fin (2 * 2 + 2) → Toy.K) × (Fin (2 * 2 + 2) → Toy.K) // ∃ t : Fin (2 * 2 + 2),
        ∃ u ∈ ((A.chooser fun u => (s u).point Toy.ris [2]).simulator Toy.ris (keysOf Toy.ris (walletKeys s)) (imsOf Toy.ris true (walletKeys s)) 2
          (ext p.1)).visited Toy.ris (2 * 2) (List.ofFn p.2.1),
        ∃ v ∈ ((A.chooser fun u => (s u).point Toy.ris [2]).simulator Toy.ris (keysOf Toy.ris (walletKeys s)) (imsOf Toy.ris true (walletKeys s)) 2
          (ext p.1)).visited Toy.ris (2 * 2) (List.ofFn (Oracle.rewind t p.2.1 p.2.2)),
          pickLock (fun _ => 0) u v • Toy.ris.base = (s 0).key • Toy.ris.base} /
      Nat.card ((Fin 2 → SimCoins 2 2 Toy.K) × (Fin (2 * 2 + 2) → Toy.K) × (Fin (2 * 2 + 2) → Toy.K)) := by
  have h0 : (s 0).key = 3 := by rw [hs]
  have h1 : ∀ u, (s u).key ≠ 0 := by
    rw [hs]
    intro _
    show (3 : Toy.K) ≠ 0
    decide +kernel
  have h2 : ∀ u, (s u).blind ≠ (s u).old.blind := by
    rw [hs]
    intro _
    show (8 : Toy.K) ≠ 7
    decide +kernel
  have h34 : image Toy.ris 3 ≠ image Toy.ris 4 := by decide +kernel
  have hb : ∀ x : Toy.K, x • Toy.ris.base = x := fun x => mul_one x
  have hall : ∀ p : (Fin 2 → StepCoins 2 2 Toy.K) × (Fin 2 → Toy.K), ∃ ring P sig,
      A.Steals Toy.ris [2] s {((3 : Toy.K) • Toy.ris.base, C), ((4 : Toy.K) • Toy.ris.base, 0)} 2 (List.ofFn p.1) (List.ofFn p.2) ring P sig
        (image Toy.ris (s 0).key) := by
    intro p
    obtain ⟨sig, h⟩ := burglar_steals Toy.ris [2] s h1 h2 3 C z l l' (p.1 0) (p.1 1) (List.ofFn p.2)
    rw [hA, h0]
    exact ⟨_, _, sig, { h with theirs := fun k hk => Finset.mem_insert.2 (Or.inl (Finset.mem_singleton.1 (h.theirs k hk))) }⟩
  have hε : (1 : ℚ) = Nat.card {p : (Fin 2 → StepCoins 2 2 Toy.K) × (Fin 2 → Toy.K) // ∃ ring P sig,
      A.Steals Toy.ris [2] s {((3 : Toy.K) • Toy.ris.base, C), ((4 : Toy.K) • Toy.ris.base, 0)} 2 (List.ofFn p.1) (List.ofFn p.2) ring P sig
        (image Toy.ris (s 0).key)} / Nat.card ((Fin 2 → StepCoins 2 2 Toy.K) × (Fin 2 → Toy.K)) := by
    rw [Nat.card_congr (Equiv.subtypeUnivEquiv hall), div_self]
    exact_mod_cast Nat.card_pos.ne'
  have hc : Fintype.card Toy.K = PrimeEll.ell := ZMod.card _
  have hl : (80 : ℚ) ≤ Fintype.card Toy.K := by
    have : 2 ^ 64 < Fintype.card Toy.K := by rw [hc]; exact PrimeEll.two64_lt_ell
    exact_mod_cast (by omega : 80 ≤ Fintype.card Toy.K)
  have hcard : ({((3 : Toy.K) • Toy.ris.base, C), ((4 : Toy.K) • Toy.ris.base, 0)} : Finset (Toy.K × Toy.K)).card = 2 := by
    refine Finset.card_pair fun h => ?_
    have : (3 : Toy.K) • Toy.ris.base = (4 : Toy.K) • Toy.ris.base := congrArg Prod.fst h
    rw [hb, hb] at this
    exact absurd this (by decide +kernel)
  have h := C165_burn Toy.ris_encodings (by simp [Toy.ris]) (fun P => ⟨P, (mul_one P).symm⟩) [2] A s h1 h2 2 2 2 (by omega) le_rfl
    (by rw [hA]; exact burglar_valid _ _ _ _ _ _) {((3 : Toy.K) • Toy.ris.base, C), ((4 : Toy.K) • Toy.ris.base, 0)} 0 (by
      intro k hk x hx him
      rcases Finset.mem_insert.1 hk with rfl | hk
      · rw [h0]
      · rw [Finset.mem_singleton.1 hk] at hx
        rw [hb, hb] at hx
        rw [h0, ← hx] at him
        exact absurd him h34) 1 (80 / Fintype.card Toy.K) _ hε (by rw [hcard]; norm_num) rfl (by
        rw [div_le_one (by linarith)]
        exact hl)
  norm_num at h ⊢
  exact h

end Dusk.Mlsag
