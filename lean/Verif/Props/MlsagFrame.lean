import Verif.Props.MlsagChosen
/-!
# Framing and linking, by attackers that see signatures

Nobody can sign with the key image of somebody else (C116), and the images link signatures also for attackers that have seen
signatures (C117).
-/

set_option linter.unusedSectionVars false

namespace Dusk.Mlsag

variable {F G : Type} [Field F] [AddCommGroup G] [Module F G] [DecidableEq F]

section

variable (R : Ristretto F G) (dl : G → F) (v : Nat)

open Classical in
/-- The answers after which an attacker may succeed with the image `I` without a member that has it: each question was asked with
points that fit to one challenge only. -/
noncomputable def hits [Fintype F] (pub : Finset (List G)) (I : List G) (log : Oracle.Log F) (q : Bytes) : Finset F :=
  (pub ×ˢ insert q (log.map (·.1)).toFinset).biUnion fun e => Finset.univ.filter fun c =>
    imv R dl v e.1 ≠ vec v I ∧ excess R dl v e.1 e.2 = c • (vec v I - imv R dl v e.1)

variable {R dl v}

theorem hits_card [Fintype F] (pub : Finset (List G)) (I : List G) (log : Oracle.Log F) (q : Bytes) (m : Nat) (hm : log.length < m) :
    (hits R dl v pub I log q).card ≤ pub.card * m := by
  classical
  unfold hits
  refine (Finset.card_biUnion_le_card_mul _ _ 1 fun e _ => ?_).trans ?_
  · rw [Finset.card_le_one]
    intro a ha b hb
    obtain ⟨h1, h2⟩ := (Finset.mem_filter.1 ha).2
    obtain ⟨-, g2⟩ := (Finset.mem_filter.1 hb).2
    have : (a - b) • (vec v I - imv R dl v e.1) = 0 := by rw [sub_smul, ← h2, g2, sub_self]
    rcases smul_eq_zero.1 this with h | h
    · exact sub_eq_zero.1 h
    · exact absurd (sub_eq_zero.1 h).symm h1
  · rw [mul_one, Finset.card_product]
    exact Nat.mul_le_mul_left _ ((Finset.card_insert_le _ _).trans ((Nat.add_le_add_right (List.toFinset_card_le _) 1).trans (by simp; omega)))

/-- The member asked for first has the image, or an answer was a hit. -/
theorem early_image [Fintype F] (E : R.Encodings) (hB : R.base ≠ 0) (hdl : ∀ P, P = dl P • R.base) {A : Linker F G}
    {pub : Finset (List G)} {Q n : Nat} {coins : List F} {sig : Signature F G} {I : List G} (h : A.Forges R pub v Q n coins sig I)
    (hn : 2 ≤ n) (hcoins : coins.length = Q + n)
    (hno : ∀ t (ht : t < coins.length), coins[t] ∉ hits R dl v pub I (Oracle.play (A.question R Q) (coins.take t))
      (A.question R Q (Oracle.play (A.question R Q) (coins.take t)))) :
    ∃ i j, j < Q + n ∧ ∃ x ∈ A.visited R Q coins, x.1 ∈ ringOf sig ∧ x.1.1 ∈ pub ∧ imv R dl v x.1.1 = vec v I ∧ v ≤ x.1.1.length ∧ x.1.1.length ≤ x.1.2.length ∧
      i ≤ j ∧ coins[j]? = some x.2 ∧ query R sig.msg I x.1.1 x.1.2 x.2 = A.question R Q (Oracle.play (A.question R Q) (coins.take i)) := by
  classical
  obtain ⟨i, j, hj, x, h1, h0, h2, h3, h4, h5, h6, h7⟩ := h.early hn hcoins
  refine ⟨i, j, hj, x, h1, h0, h2, ?_, h3, h4, h5, h6, h7⟩
  by_contra hne
  have hjl : j < coins.length := by omega
  have hcj : coins[j] = x.2 := by
    rw [List.getElem?_eq_getElem hjl] at h6
    exact Option.some.inj h6
  refine hno j hjl ?_
  have hex := excess_eq (v := v) E hB hdl (K := x.1.1) ⟨sig.msg, I, x.1.2, x.2, h.images, h3, h4, rfl, rfl⟩
  unfold hits
  refine Finset.mem_biUnion.2 ⟨(x.1.1, A.question R Q (Oracle.play (A.question R Q) (coins.take i))), Finset.mem_product.2 ⟨h2, ?_⟩,
    Finset.mem_filter.2 ⟨Finset.mem_univ _, hne, ?_⟩⟩
  · rcases Nat.lt_or_ge i j with hij | hij
    · have := Oracle.play_entry (A.question R Q) (coins.take j) i (by simp; omega)
      rw [List.take_take, Nat.min_eq_left hij.le] at this
      exact Finset.mem_insert_of_mem (List.mem_toFinset.2 (List.mem_map.2 ⟨_, List.mem_of_getElem? this, rfl⟩))
    · rw [Nat.le_antisymm h5 hij]
      exact Finset.mem_insert_self _ _
  · simp only
    rw [← h7, hex, hcj]

theorem hasImages_of_vec (hdl : ∀ P, P = dl P • R.base) {K I : List G} (hI : I.length = v) (hK : v ≤ K.length)
    (h : imv R dl v K = vec v I) : HasImages R K I := by
  intro j hj
  have hjv : j < v := by omega
  have hjK : j < K.length := by omega
  refine ⟨dl K[j], by rw [← hdl, List.getElem?_eq_getElem hjK], ?_⟩
  have := congrFun h ⟨j, hjv⟩
  unfold imv vec at this
  simp only [List.getD_eq_getElem?_getD, List.getElem?_eq_getElem hjK, List.getElem?_eq_getElem hj, Option.getD_some] at this
  rw [List.getElem?_eq_getElem hj, ← this]
  unfold image
  rw [← hdl]

variable (R dl v) in
/-- An answer was a hit. -/
def Hit [Fintype F] (A : Linker F G) (pub : Finset (List G)) (I : List G) (Q n : Nat) (coins : Fin (Q + n) → F) : Prop :=
  ∃ t : Fin (Q + n), coins t ∈ hits R dl v pub I (Oracle.play (A.question R Q) ((List.ofFn coins).take t))
    (A.question R Q (Oracle.play (A.question R Q) ((List.ofFn coins).take t)))

theorem card_hit [Fintype F] (A : Linker F G) (pub : Finset (List G)) (I : List G) (Q n : Nat) :
    Fintype.card F * Nat.card {coins : Fin (Q + n) → F // Hit R dl v A pub I Q n coins} ≤
      (Q + n) * (pub.card * (Q + n)) * Fintype.card F ^ (Q + n) :=
  Oracle.card_guess (pub.card * (Q + n)) (Q + n)
    (fun l => hits R dl v pub I (Oracle.play (A.question R Q) l) (A.question R Q (Oracle.play (A.question R Q) l)))
    fun l hl => hits_card pub I _ _ _ (by rw [Oracle.play_length]; exact hl)

theorem image_or_hit [Fintype F] (E : R.Encodings) (hB : R.base ≠ 0) (hdl : ∀ P, P = dl P • R.base) {A : Linker F G}
    {pub : Finset (List G)} {Q n : Nat} {coins : Fin (Q + n) → F} {sig : Signature F G} {I : List G}
    (h : A.Forges R pub v Q n (List.ofFn coins) sig I) (hn : 2 ≤ n) (hno : ¬ Hit R dl v A pub I Q n coins) :
    ∃ i j, j < Q + n ∧ ∃ x ∈ A.visited R Q (List.ofFn coins), x.1 ∈ ringOf sig ∧ x.1.1 ∈ pub ∧ HasImages R x.1.1 I ∧ v ≤ x.1.1.length ∧
      x.1.1.length ≤ x.1.2.length ∧ i ≤ j ∧ (List.ofFn coins)[j]? = some x.2 ∧
      query R sig.msg I x.1.1 x.1.2 x.2 = A.question R Q (Oracle.play (A.question R Q) ((List.ofFn coins).take i)) := by
  obtain ⟨i, j, hj, x, h1, h2, h3, h4, h5, h6⟩ := early_image E hB hdl h hn (by simp) (by
    intro t ht hc
    refine hno ⟨⟨t, by simpa using ht⟩, ?_⟩
    simpa using hc)
  exact ⟨i, j, hj, x, h1, h2, h3, hasImages_of_vec hdl h.images h5 h4, h5, h6⟩

end

/-- C116: an image given in advance is accepted only for rings with a member that has it. The attacker asks `Q` questions, computes
without bounds, and chooses message and ring among `p` published key vectors, its own ones included, in the end; the probability that
`Verify` accepts the images `I` for a ring of at most `n` members, none of which has the images `I`, is at most
`p (Q + n)² / |F|`. -/
theorem C116_image_of_member [Fintype F] {R : Ristretto F G} (E : R.Encodings) (hB : R.base ≠ 0) (hgen : ∀ P, ∃ x : F, P = x • R.base)
    (A : Linker F G) (pub : Finset (List G)) (v Q n : Nat) (hn : 2 ≤ n) (I : List G) :
    Fintype.card F * Nat.card {coins : Fin (Q + n) → F // ∃ sig, A.Forges R pub v Q n (List.ofFn coins) sig I ∧
        ∀ m ∈ ringOf sig, ¬ HasImages R m.1 I} ≤
      pub.card * (Q + n) ^ 2 * Fintype.card F ^ (Q + n) := by
  choose dl hdl using hgen
  refine le_trans (Nat.mul_le_mul_left _ ?_) ((card_hit (R := R) (dl := dl) (v := v) A pub I Q n).trans (le_of_eq (by ring)))
  refine Nat.card_le_card_of_injective (fun x => ⟨x.1, ?_⟩) fun x y h => Subtype.ext (by simpa using h)
  obtain ⟨coins, sig, h, hf⟩ := x
  by_contra hno
  obtain ⟨-, -, -, x, -, h1, -, h2, -⟩ := image_or_hit E hB hdl h hn hno
  exact hf _ h1 h2

/-- A bound for each choice of the coins of the simulator, together. -/
theorem family_prob {α β : Type} [Fintype α] [Fintype β] [Nonempty α] (q k : Nat) (hq : 0 < q) (hβ : 0 < Fintype.card β) (H : α × β → Prop)
    (h : ∀ x, q * Nat.card {y // H (x, y)} ≤ k * Fintype.card β) : (Nat.card {p // H p} : ℚ) / Nat.card (α × β) ≤ k / q := by
  classical
  have hH : Nat.card {p // H p} = ∑ x, Nat.card {y // H (x, y)} := by
    simp only [Nat.card_eq_fintype_card, Fintype.card_subtype]
    rw [Finset.card_filter, Fintype.sum_prod_type]
    exact Finset.sum_congr rfl fun a _ => (Finset.card_filter _ _).symm
  have h1 : q * Nat.card {p // H p} ≤ k * (Fintype.card α * Fintype.card β) := by
    rw [hH, Finset.mul_sum]
    calc _ ≤ ∑ _x : α, k * Fintype.card β := Finset.sum_le_sum fun x _ => h x
      _ = _ := by rw [Finset.sum_const, Finset.card_univ, smul_eq_mul]; ring
  rw [Nat.card_eq_fintype_card (α := α × β), Fintype.card_prod]
  have hF : (0 : ℚ) < q := by exact_mod_cast hq
  have hα : (0 : ℚ) < Fintype.card α := by exact_mod_cast Fintype.card_pos (α := α)
  have hβ : (0 : ℚ) < Fintype.card β := by exact_mod_cast hβ
  have h1 : (q : ℚ) * Nat.card {p // H p} ≤ k * (Fintype.card α * Fintype.card β) := by exact_mod_cast h1
  push_cast
  rw [div_le_div_iff₀ (by positivity) hF, mul_comm]
  exact h1

theorem prob_split {α : Type} [Fintype α] (W N H : α → Prop) (h : ∀ x, W x → N x ∨ H x) :
    (Nat.card {x // W x} : ℚ) / Nat.card α ≤ Nat.card {x // N x} / Nat.card α + Nat.card {x // H x} / Nat.card α := by
  classical
  rw [← add_div]
  gcongr
  have : Nat.card {x // W x} ≤ Nat.card {x // N x} + Nat.card {x // H x} := by
    simp only [Nat.card_eq_fintype_card, Fintype.card_subtype]
    refine le_trans (Finset.card_le_card ?_) (Finset.card_union_le _ _)
    intro x hx
    rcases h x (Finset.mem_filter.1 hx).2 with h | h
    · exact Finset.mem_union_left _ (by simp [h])
    · exact Finset.mem_union_right _ (by simp [h])
  exact_mod_cast this

theorem square_mono {a b : ℚ} (m c : ℚ) (ha : 0 ≤ a) (h : a ≤ b) : a ^ 2 / m ^ 2 - c ≤ b ^ 2 / m ^ 2 - c :=
  sub_le_sub_right (div_le_div_of_nonneg_right (pow_le_pow_left₀ ha h 2) (sq_nonneg m)) c

/-- The statement for families of attackers without signatures. -/
theorem frame_reruns {α : Type} [Fintype α] [Nonempty α] [Fintype F] {R : Ristretto F G} (E : R.Encodings) (hB : R.base ≠ 0)
    (hgen : ∀ P, ∃ x : F, P = x • R.base) (A : α → Linker F G) (pub : Finset (List G)) (v d Q n : Nat) (hn : 2 ≤ n) (I K : List G)
    (hK : K.length = d) (honly : ∀ K' ∈ pub, HasImages R K' I → K' = K) (ε δ σ : ℚ)
    (hε : ε = Nat.card {p : α × (Fin (Q + n) → F) // ∃ sig, (A p.1).Forges R pub v Q n (List.ofFn p.2) sig I} /
      Nat.card (α × (Fin (Q + n) → F)))
    (hδ : δ = pub.card * (Q + n) ^ 2 / Fintype.card F)
    (hσ : σ = Nat.card {p : α × (Fin (Q + n) → F) × (Fin (Q + n) → F) // ∃ t : Fin (Q + n),
        ∃ x ∈ (A p.1).visited R Q (List.ofFn p.2.1), ∃ y ∈ (A p.1).visited R Q (List.ofFn (Oracle.rewind t p.2.1 p.2.2)),
          ∀ j < d, crack (fun _ _ => 0) x y j • R.base = K.getD j 0} /
      Nat.card (α × (Fin (Q + n) → F) × (Fin (Q + n) → F)))
    (hge : δ ≤ ε) : (ε - δ) ^ 2 / (Q + n) ^ 2 - 1 / Fintype.card F ≤ σ := by
  choose dl hdl using hgen
  have h2 := prob_split
    (fun p : α × (Fin (Q + n) → F) => ∃ sig, (A p.1).Forges R pub v Q n (List.ofFn p.2) sig I)
    (fun p => (∃ sig, (A p.1).Forges R pub v Q n (List.ofFn p.2) sig I) ∧ ¬ Hit R dl v (A p.1) pub I Q n p.2)
    (fun p => Hit R dl v (A p.1) pub I Q n p.2) (by
      intro p h
      by_cases hh : Hit R dl v (A p.1) pub I Q n p.2
      · exact Or.inr hh
      · exact Or.inl ⟨h, hh⟩)
  have h3 := family_prob (Fintype.card F) ((Q + n) * (pub.card * (Q + n))) Fintype.card_pos Fintype.card_pos
    (fun p : α × (Fin (Q + n) → F) => Hit R dl v (A p.1) pub I Q n p.2) (by
      intro ρ
      have := card_hit (R := R) (dl := dl) (v := v) (A ρ) pub I Q n
      rw [Fintype.card_fun, Fintype.card_fin]
      exact this)
  have h4 := reruns (α := α) (β := Fin (Q + n) → F) (γ := (Fin (Q + n) → F) × (Fin (Q + n) → F))
    (Fintype.card F) (Q + n) Fintype.card_pos (by omega) Fintype.card_pos (by rw [Fintype.card_prod])
    (fun p => (∃ sig, (A p.1).Forges R pub v Q n (List.ofFn p.2) sig I) ∧ ¬ Hit R dl v (A p.1) pub I Q n p.2)
    (fun p => ∃ t : Fin (Q + n),
        ∃ x ∈ (A p.1).visited R Q (List.ofFn p.2.1), ∃ y ∈ (A p.1).visited R Q (List.ofFn (Oracle.rewind t p.2.1 p.2.2)),
          ∀ j < d, crack (fun _ _ => 0) x y j • R.base = K.getD j 0) (by
      intro ρ
      rw [Fintype.card_fun, Fintype.card_fin]
      refine ready_forking E (A ρ) {K} v d Q n (fun j => K.getD j 0) (fun _ _ => 0) ?_ _ ?_
      · intro K' hK'
        rw [Finset.mem_singleton.1 hK']
        exact ⟨hK, fun j _ => by simp⟩
      · rintro c ⟨⟨sig, hf⟩, hno⟩
        obtain ⟨i, j, hj, x, g1, -, g2, g3, g4, g5, g6⟩ := image_or_hit E hB hdl hf hn hno
        exact ⟨i, j, hj, x, g1, sig.msg, _, Finset.mem_singleton.2 (honly _ g2 g3), hf.images, g4, g5, g6⟩)
  rw [← hσ] at h4
  rw [← hε] at h2
  have h5 := h2.trans (add_le_add_right h3 _)
  have hδ' : (((Q + n) * (pub.card * (Q + n)) : Nat) : ℚ) / Fintype.card F = δ := by
    rw [hδ]
    push_cast
    ring
  rw [hδ', ← sub_le_iff_le_add] at h5
  have h6 := square_mono (Q + n) (1 / Fintype.card F) (sub_nonneg.2 hge) h5
  push_cast at h4
  exact h6.trans h4

/-- C116: nobody can be framed. The attacker sees signatures of its choice, made by the users with `Prove`; then it outputs a signature
for a message that was not signed, for any ring of published key vectors, its own ones included, with the images of user `u`. If no
other published key vector has these images, and `Verify` accepts with probability `ε`, then rerunning the simulator, which gets the
public keys and the images only, gives the discrete logarithms of the keys of `u` with probability at least
`(ε - δ)² / m² - 1 / |F|`, where `m = T w + n` and `δ = (T² w + p m²) / |F|`. -/
theorem C116_exculpable [Fintype F] {R : Ristretto F G} (E : R.Encodings) (hB : R.base ≠ 0) (hgen : ∀ P, ∃ x : F, P = x • R.base)
    (A : Chooser F G) (skip : Bool) (xs : Nat → List F) (d w T n : Nat) (hd : 1 ≤ d) (hw : 1 ≤ w) (hn : 2 ≤ n)
    (hx : ∀ u, (xs u).length = d) (hA : A.Valid d w) (pub : Finset (List G)) (hpub : ∀ K ∈ pub, K.length = d) (v : Nat)
    (hv : v = if skip then d - 1 else d) (u : Nat)
    (honly : ∀ K ∈ pub, HasImages R K (imsOf R skip xs u) → K = keysOf R xs u) (ε δ σ : ℚ)
    (hε : ε = Nat.card {p : (Fin T → StepCoins d w F) × (Fin n → F) //
        ∃ sig, A.Forges R skip xs pub v n (List.ofFn p.1) (List.ofFn p.2) sig (imsOf R skip xs u)} /
      Nat.card ((Fin T → StepCoins d w F) × (Fin n → F)))
    (hδ : δ = (T ^ 2 * w + pub.card * (T * w + n) ^ 2) / Fintype.card F)
    (hσ : σ = Nat.card {p : (Fin T → SimCoins d w F) × (Fin (T * w + n) → F) × (Fin (T * w + n) → F) // ∃ t : Fin (T * w + n),
        ∃ x ∈ (A.simulator R (keysOf R xs) (imsOf R skip xs) T (ext p.1)).visited R (T * w) (List.ofFn p.2.1),
        ∃ y ∈ (A.simulator R (keysOf R xs) (imsOf R skip xs) T (ext p.1)).visited R (T * w) (List.ofFn (Oracle.rewind t p.2.1 p.2.2)),
          ∀ j < d, crack (fun _ _ => 0) x y j • R.base = (keysOf R xs u).getD j 0} /
      Nat.card ((Fin T → SimCoins d w F) × (Fin (T * w + n) → F) × (Fin (T * w + n) → F)))
    (hge : δ ≤ ε) : (ε - δ) ^ 2 / (T * w + n) ^ 2 - 1 / Fintype.card F ≤ σ := by
  have h1 := simulated_prob E hB A skip xs d w T n hd hw hx hA pub hpub v hv fun _ I => I = imsOf R skip xs u
  have hset : ∀ p : (Fin T → StepCoins d w F) × (Fin n → F),
      (∃ sig I, A.Forges R skip xs pub v n (List.ofFn p.1) (List.ofFn p.2) sig I ∧ I = imsOf R skip xs u) ↔
      ∃ sig, A.Forges R skip xs pub v n (List.ofFn p.1) (List.ofFn p.2) sig (imsOf R skip xs u) := by
    intro p
    constructor
    · rintro ⟨sig, I, h, rfl⟩
      exact ⟨sig, h⟩
    · rintro ⟨sig, h⟩
      exact ⟨sig, _, h, rfl⟩
  have hset' : ∀ p : (Fin T → SimCoins d w F) × (Fin (T * w + n) → F),
      (∃ sig I, (A.simulator R (keysOf R xs) (imsOf R skip xs) T (ext p.1)).Forges R pub v (T * w) n (List.ofFn p.2) sig I ∧
        I = imsOf R skip xs u) ↔
      ∃ sig, (A.simulator R (keysOf R xs) (imsOf R skip xs) T (ext p.1)).Forges R pub v (T * w) n (List.ofFn p.2) sig
        (imsOf R skip xs u) := by
    intro p
    constructor
    · rintro ⟨sig, I, h, rfl⟩
      exact ⟨sig, h⟩
    · rintro ⟨sig, h⟩
      exact ⟨sig, _, h, rfl⟩
  rw [Nat.card_congr (Equiv.subtypeEquivRight hset), Nat.card_congr (Equiv.subtypeEquivRight hset'), ← hε] at h1
  have h2 := frame_reruns E hB hgen (fun ρ : Fin T → SimCoins d w F => A.simulator R (keysOf R xs) (imsOf R skip xs) T (ext ρ)) pub v d
    (T * w) n hn (imsOf R skip xs u) (keysOf R xs u) (by simp [keysOf, hx]) honly _ _ σ rfl rfl hσ
  have hδ' : δ = T ^ 2 * w / Fintype.card F + pub.card * ((T * w : Nat) + n) ^ 2 / Fintype.card F := by
    rw [hδ]
    push_cast
    ring
  have h3 := sub_le_sub_right h1 (pub.card * ((T * w : Nat) + n) ^ 2 / Fintype.card F)
  rw [← sub_add_eq_sub_sub, ← hδ'] at h3
  have h4 := h2 (sub_nonneg.1 ((sub_nonneg.2 hge).trans h3))
  have h5 := (square_mono ((T * w : Nat) + n) (1 / Fintype.card F) (sub_nonneg.2 hge) h3).trans h4
  push_cast at h5
  exact h5

/-- C117: key images link signatures, also for attackers that have seen signatures. The attacker sees signatures of its choice, made by
the users with `Prove`; then it outputs a signature for a message that was not signed and for a ring of published key vectors, its own
ones included, two of which have different images. The probability that `Verify` accepts images that belong to no member of the ring is
at most `(T² w + m (p² m² + p² + 1)) / |F|` with `m = T w + n` and `p` published key vectors. -/
theorem C117_linkable [Fintype F] {R : Ristretto F G} (E : R.Encodings) (hB : R.base ≠ 0) (hgen : ∀ P, ∃ x : F, P = x • R.base)
    (A : Chooser F G) (skip : Bool) (xs : Nat → List F) (d w T n : Nat) (hd : 1 ≤ d) (hw : 1 ≤ w)
    (hx : ∀ u, (xs u).length = d) (hA : A.Valid d w) (pub : Finset (List G)) (hpub : ∀ K ∈ pub, K.length = d) (v : Nat)
    (hv : v = if skip then d - 1 else d) (m p : Nat) (hm : m = T * w + n) (hp : p = pub.card) :
    (Nat.card {p : (Fin T → StepCoins d w F) × (Fin n → F) //
        ∃ sig I, A.Forges R skip xs pub v n (List.ofFn p.1) (List.ofFn p.2) sig I ∧
          (∃ m ∈ ringOf sig, ∃ m' ∈ ringOf sig, ImagesDiffer R v m.1 m'.1) ∧ ∀ m ∈ ringOf sig, ¬ HasImages R m.1 I} : ℚ) /
      Nat.card ((Fin T → StepCoins d w F) × (Fin n → F)) ≤ (T ^ 2 * w + m * (p ^ 2 * m ^ 2 + p ^ 2 + 1)) / Fintype.card F := by
  subst hm hp
  have h1 := simulated_prob E hB A skip xs d w T n hd hw hx hA pub hpub v hv fun sig I =>
    (∃ m ∈ ringOf sig, ∃ m' ∈ ringOf sig, ImagesDiffer R v m.1 m'.1) ∧ ∀ m ∈ ringOf sig, ¬ HasImages R m.1 I
  have h2 := family_prob (Fintype.card F) ((T * w + n) * (pub.card ^ 2 * (T * w + n) ^ 2 + pub.card ^ 2 + 1)) Fintype.card_pos Fintype.card_pos
    (fun p : (Fin T → SimCoins d w F) × (Fin (T * w + n) → F) => ∃ sig I,
      (A.simulator R (keysOf R xs) (imsOf R skip xs) T (ext p.1)).Forges R pub v (T * w) n (List.ofFn p.2) sig I ∧
        (∃ m ∈ ringOf sig, ∃ m' ∈ ringOf sig, ImagesDiffer R v m.1 m'.1) ∧ ∀ m ∈ ringOf sig, ¬ HasImages R m.1 I) (by
      intro ρ
      rw [Fintype.card_fun, Fintype.card_fin]
      refine le_trans (Nat.mul_le_mul_left _ ?_)
        (C110_linkable E hB hgen (A.simulator R (keysOf R xs) (imsOf R skip xs) T (ext ρ)) pub v (T * w) n)
      refine Nat.card_le_card_of_injective (fun x => ⟨x.1, ?_⟩) fun x y h => Subtype.ext (by simpa using h)
      obtain ⟨coins, sig, I, h, hd, hf⟩ := x
      exact ⟨sig, I, h.output, h.accepted, h.size, h.published, h.images, hd, hf⟩)
  have h3 := h1.trans h2
  rw [sub_le_iff_le_add] at h3
  refine h3.trans (le_of_eq ?_)
  push_cast
  ring

/-! ## Examples -/

/-- The lucky attacker of C110: the images of its signature belong to no member of the ring, and `Verify` accepts for some coins. -/
theorem luck_frame (c im : Toy.K) (h1 : im ≠ image Toy.ris ((1 : Nat) : Toy.K)) (h2 : im ≠ image Toy.ris ((2 : Nat) : Toy.K)) :
    0 < Nat.card {coins : Fin (0 + 2) → Toy.K // ∃ sig, (luckLinker c im).Forges Toy.ris luckKeys.toFinset 1 0 2 (List.ofFn coins) sig [im] ∧
      ∀ m ∈ ringOf sig, ¬ HasImages Toy.ris m.1 [im]} ∧
    Fintype.card Toy.K * Nat.card {coins : Fin (0 + 2) → Toy.K // ∃ sig,
      (luckLinker c im).Forges Toy.ris luckKeys.toFinset 1 0 2 (List.ofFn coins) sig [im] ∧ ∀ m ∈ ringOf sig, ¬ HasImages Toy.ris m.1 [im]} ≤
      2 * 2 ^ 2 * Fintype.card Toy.K ^ 2 := by
  constructor
  · have : Nonempty {coins : Fin (0 + 2) → Toy.K // ∃ sig, (luckLinker c im).Forges Toy.ris luckKeys.toFinset 1 0 2 (List.ofFn coins) sig [im] ∧
        ∀ m ∈ ringOf sig, ¬ HasImages Toy.ris m.1 [im]} := by
      have h := luck_wins c im h1 h2
      exact ⟨⟨fun _ => c, luckSig c, ⟨rfl, by simpa using h.accepted, h.size, h.published, h.images⟩, h.foreign⟩⟩
    exact Nat.card_pos
  · have := C116_image_of_member Toy.ris_encodings (by simp [Toy.ris]) (fun P => ⟨P, (mul_one P).symm⟩) (luckLinker c im) luckKeys.toFinset 1 0 2
      le_rfl [im]
    rw [luck_card, Nat.zero_add] at this
    exact this

example : ∃ c im : Toy.K, im ≠ image Toy.ris ((1 : Nat) : Toy.K) ∧ im ≠ image Toy.ris ((2 : Nat) : Toy.K) ∧ c ≠ 0 := by
  refine ⟨((9 : Nat) : Toy.K), ((100 : Nat) : Toy.K), ?_, ?_, ?_⟩
  · rw [toy_image 1 (by norm_num)]
    exact toy_ne _ _ (by norm_num) (by norm_num) (by norm_num)
  · rw [toy_image 2 (by norm_num)]
    exact toy_ne _ _ (by norm_num) (by norm_num) (by norm_num)
  · have := toy_ne 9 0 (by norm_num) (by norm_num) (by norm_num)
    simpa using this

/-- An attacker that knows the secret key of user `0` can frame them; rerunning the simulator gives their secret key, with probability
at least `(1 - 44 / |F|)² / 36 - 1 / |F|`. -/
theorem insider_frames (x l : Toy.K) :
    ((1 : ℚ) - 44 / Fintype.card Toy.K) ^ 2 / 36 - 1 / Fintype.card Toy.K ≤
      Nat.card {p : (Fin 2 → SimCoins 1 2 Toy.K) × (Fin (2 * 2 + 2) → Toy.K) × (Fin (2 * 2 + 2) → Toy.K) // ∃ t : Fin (2 * 2 + 2),
        ∃ u ∈ ((insider Toy.ris x l).simulator Toy.ris (keysOf Toy.ris fun _ => [x]) (imsOf Toy.ris false fun _ => [x]) 2 (ext p.1)).visited
          Toy.ris (2 * 2) (List.ofFn p.2.1),
        ∃ v ∈ ((insider Toy.ris x l).simulator Toy.ris (keysOf Toy.ris fun _ => [x]) (imsOf Toy.ris false fun _ => [x]) 2 (ext p.1)).visited
          Toy.ris (2 * 2) (List.ofFn (Oracle.rewind t p.2.1 p.2.2)),
          ∀ j < 1, crack (fun _ _ => 0) u v j • Toy.ris.base = (keysOf Toy.ris (fun _ => [x]) 0).getD j 0} /
      Nat.card ((Fin 2 → SimCoins 1 2 Toy.K) × (Fin (2 * 2 + 2) → Toy.K) × (Fin (2 * 2 + 2) → Toy.K)) := by
  have him : imsOf Toy.ris false (fun _ => [x]) 0 = [image Toy.ris x] := rfl
  have hall : ∀ p : (Fin 2 → StepCoins 1 2 Toy.K) × (Fin 2 → Toy.K), ∃ sig,
      (insider Toy.ris x l).Forges Toy.ris false (fun _ => [x]) {[x • Toy.ris.base]} 1 2 (List.ofFn p.1) (List.ofFn p.2) sig
        (imsOf Toy.ris false (fun _ => [x]) 0) := by
    intro p
    rw [him]
    exact insider_forges Toy.ris x l x (p.1 0) (p.1 1) (List.ofFn p.2)
  have hε : (1 : ℚ) = Nat.card {p : (Fin 2 → StepCoins 1 2 Toy.K) × (Fin 2 → Toy.K) // ∃ sig,
      (insider Toy.ris x l).Forges Toy.ris false (fun _ => [x]) {[x • Toy.ris.base]} 1 2 (List.ofFn p.1) (List.ofFn p.2) sig
        (imsOf Toy.ris false (fun _ => [x]) 0)} /
        Nat.card ((Fin 2 → StepCoins 1 2 Toy.K) × (Fin 2 → Toy.K)) := by
    rw [Nat.card_congr (Equiv.subtypeUnivEquiv hall), div_self]
    rw [Nat.card_eq_fintype_card]
    exact_mod_cast Fintype.card_ne_zero
  have hc : Fintype.card Toy.K = PrimeEll.ell := ZMod.card _
  have hl : (44 : ℚ) ≤ Fintype.card Toy.K := by
    have : 2 ^ 64 < Fintype.card Toy.K := by rw [hc]; exact PrimeEll.two64_lt_ell
    exact_mod_cast (by omega : 44 ≤ Fintype.card Toy.K)
  have h := C116_exculpable Toy.ris_encodings (by simp [Toy.ris]) (fun P => ⟨P, (mul_one P).symm⟩) (insider Toy.ris x l) false (fun _ => [x])
    1 2 2 2 le_rfl (by omega) le_rfl (fun _ => rfl) (insider_valid _ _ _) {[x • Toy.ris.base]} (by
      intro K hK
      rw [Finset.mem_singleton.1 hK]
      rfl) 1 rfl 0 (fun K hK _ => Finset.mem_singleton.1 hK) 1 (44 / Fintype.card Toy.K) _ hε (by
        rw [Finset.card_singleton]
        norm_num) rfl (by
        rw [div_le_one (by linarith)]
        exact hl)
  norm_num at h ⊢
  exact h

/-- The lucky attacker in the game with signatures: it asks one question. -/
def luckChooser (c im : Toy.K) : Chooser Toy.K Toy.K := ⟨fun _ _ => .hash [], fun _ _ => (luckSig c, [im])⟩

theorem luck_forges (c im : Toy.K) (h1 : im ≠ image Toy.ris ((1 : Nat) : Toy.K)) (h2 : im ≠ image Toy.ris ((2 : Nat) : Toy.K))
    (xs : Nat → List Toy.K) (s : StepCoins 2 1 Toy.K) (hs : ext s.2.2 0 = c) :
    (luckChooser c im).Forges Toy.ris true xs luckKeys.toFinset 1 2 [s] [c, c] (luckSig c) [im] := by
  have h := luck_wins c im h1 h2
  have hlog : [s].foldl ((luckChooser c im).step Toy.ris true xs) {} = ⟨[([], c)], []⟩ := by
    rw [List.foldl_cons, List.foldl_nil, step_hash rfl, hs]
    rfl
  refine ⟨rfl, ?_, h.size, h.published, h.images, ?_⟩
  · rw [hlog]
    have hg := game_verifying (R := Toy.ris) (luckLinker c im) 1 (sig := luckSig c) (I := [im]) [c] [c, c] rfl rfl
    have hg1 : (luckLinker c im).game Toy.ris 1 [c] = [([], c)] := rfl
    rw [hg1] at hg
    rw [← hg]
    have hfit : Fits [im] (ringOf (luckSig c)) := by
      rw [luck_ring]
      intro m hm
      simp only [luckKeys, List.map_cons, List.map_nil, List.mem_cons, List.not_mem_nil, or_false] at hm
      rcases hm with rfl | rfl <;> simp
    exact (C17_verify _ (luckSig c) _ le_rfl le_rfl (by simp) hfit).1.2
      (luck_chal (luckLinker c im) _ c (luckSig c) [im] 1 2 (fun _ => rfl) rfl rfl (by simp [luckSig]))
  · rw [hlog]
    simp

/-- Its success is possible and rare. -/
theorem luck_linked (c im : Toy.K) (h1 : im ≠ image Toy.ris ((1 : Nat) : Toy.K)) (h2 : im ≠ image Toy.ris ((2 : Nat) : Toy.K))
    (xs : Nat → List Toy.K) (hx : ∀ u, (xs u).length = 2) (P : ℚ)
    (hP : P = (Nat.card {p : (Fin 1 → StepCoins 2 1 Toy.K) × (Fin 2 → Toy.K) //
        ∃ sig I, (luckChooser c im).Forges Toy.ris true xs luckKeys.toFinset 1 2 (List.ofFn p.1) (List.ofFn p.2) sig I ∧
          (∃ m ∈ ringOf sig, ∃ m' ∈ ringOf sig, ImagesDiffer Toy.ris 1 m.1 m'.1) ∧ ∀ m ∈ ringOf sig, ¬ HasImages Toy.ris m.1 I} : ℚ) /
      Nat.card ((Fin 1 → StepCoins 2 1 Toy.K) × (Fin 2 → Toy.K))) : 0 < P ∧ P ≤ 124 / Fintype.card Toy.K := by
  constructor
  · rw [hP]
    have : Nonempty {p : (Fin 1 → StepCoins 2 1 Toy.K) × (Fin 2 → Toy.K) //
        ∃ sig I, (luckChooser c im).Forges Toy.ris true xs luckKeys.toFinset 1 2 (List.ofFn p.1) (List.ofFn p.2) sig I ∧
          (∃ m ∈ ringOf sig, ∃ m' ∈ ringOf sig, ImagesDiffer Toy.ris 1 m.1 m'.1) ∧ ∀ m ∈ ringOf sig, ¬ HasImages Toy.ris m.1 I} := by
      have h := luck_wins c im h1 h2
      exact ⟨⟨(fun _ => (fun _ => c, fun _ _ => c, fun _ => c), fun _ => c), luckSig c, [im],
        luck_forges c im h1 h2 xs _ (by simp [ext]), h.differ, h.foreign⟩⟩
    have g1 : 0 < Nat.card {p : (Fin 1 → StepCoins 2 1 Toy.K) × (Fin 2 → Toy.K) //
        ∃ sig I, (luckChooser c im).Forges Toy.ris true xs luckKeys.toFinset 1 2 (List.ofFn p.1) (List.ofFn p.2) sig I ∧
          (∃ m ∈ ringOf sig, ∃ m' ∈ ringOf sig, ImagesDiffer Toy.ris 1 m.1 m'.1) ∧ ∀ m ∈ ringOf sig, ¬ HasImages Toy.ris m.1 I} := Nat.card_pos
    have g2 : 0 < Nat.card ((Fin 1 → StepCoins 2 1 Toy.K) × (Fin 2 → Toy.K)) := Nat.card_pos
    exact div_pos (by exact_mod_cast g1) (by exact_mod_cast g2)
  · have h := C117_linkable Toy.ris_encodings (by simp [Toy.ris]) (fun P => ⟨P, (mul_one P).symm⟩) (luckChooser c im) true xs 2 1 1 2
      (by omega) le_rfl hx (fun _ _ _ h => by cases h) luckKeys.toFinset (by
        intro K hK
        have hK := List.mem_toFinset.1 hK
        simp only [luckKeys, List.mem_cons, List.not_mem_nil, or_false] at hK
        rcases hK with rfl | rfl <;> rfl) 1 rfl 3 2 rfl luck_card.symm
    rw [hP]
    refine h.trans (le_of_eq ?_)
    norm_num

end Dusk.Mlsag
