import Verif.Props.BlsagForking
import Verif.Props.MlsagFrame
/-!
# bLSAG: the key image of somebody else (C120)
-/

set_option linter.unusedSectionVars false

namespace Dusk.Blsag

variable {F G P : Type} [Field F] [AddCommGroup G] [Module F G] [DecidableEq F]

/-- C120: an image given in advance is accepted only for rings with a member that has it. The hash to scalars answers with uniformly
random scalars; the attacker asks `Q` questions, computes without bounds, and chooses message and ring among `p` published keys, its
own ones included, in the end. The probability that `Verify` accepts the image `I` for a ring of at most `n` members, none of which
has it, is at most `p (Q + n)² / |F|`. -/
theorem C120_image_of_member [Fintype F] {R : Ristretto F G} {V : Raw F G P} (hV : V.Lawful R) (E : R.Encodings) (hB : R.base ≠ 0)
    (hgen : ∀ P, ∃ x : F, P = x • R.base) (A : Linker F G) (pub : Finset G) (Q n : Nat) (hn : 2 ≤ n) (I : G) :
    Fintype.card F * Nat.card {coins : Fin (Q + n) → F // ∃ m c ring, A.Forges R V pub Q n (List.ofFn coins) m I c ring ∧
        ∀ x : F, (∃ k ∈ ring, k.1 = x • R.base) → I ≠ keyImage R x} ≤
      pub.card * (Q + n) ^ 2 * Fintype.card F ^ (Q + n) := by
  classical
  have h := Mlsag.C116_image_of_member E hB hgen A.vec (pub.image fun k => [k]) 1 Q n hn [I]
  rw [Finset.card_image_of_injective _ fun a b h => by simpa using h] at h
  refine le_trans (Nat.mul_le_mul_left _ ?_) h
  refine Nat.card_le_card_of_injective (fun x => ⟨x.1, ?_⟩) fun x y h => Subtype.ext (by simpa using h)
  obtain ⟨coins, m, c, ring, hw, hf⟩ := x
  refine ⟨_, hw.vec hV, ?_⟩
  rw [ringOf_vec]
  intro k hk hI
  obtain ⟨a, ha, rfl⟩ := List.mem_map.1 hk
  obtain ⟨z, h1, h2⟩ := hI 0 (by simp)
  simp only [List.getElem?_cons_zero, Option.some.injEq] at h1 h2
  exact hf z ⟨a, ha, h1⟩ h2

theorem unit_card {β : Type} (H : Unit × β → Prop) : Nat.card {p // H p} = Nat.card {b // H ((), b)} :=
  Nat.card_congr ⟨fun p => ⟨p.1.2, p.2⟩, fun b => ⟨((), b.1), b.2⟩, fun _ => rfl, fun _ => rfl⟩

theorem unit_prod {β : Type} : Nat.card (Unit × β) = Nat.card β := Nat.card_congr (Equiv.punitProd β)

/-- C120: nobody is framed by a signature that others make. The attacker knows the image of the key `K = x G` and outputs a signature
with this image, for any ring of published keys, its own ones included, of which only `K` has the image. If `Verify` accepts with
probability `ε`, then rerunning the attacker gives the discrete logarithm of `K` with probability at least
`(ε - δ)² / (Q + n)² - 1 / |F|`, where `δ = p (Q + n)² / |F|`. -/
theorem C120_exculpable [Fintype F] {R : Ristretto F G} {V : Raw F G P} (hV : V.Lawful R) (E : R.Encodings) (hB : R.base ≠ 0)
    (hgen : ∀ P, ∃ x : F, P = x • R.base) (A : Linker F G) (pub : Finset G) (Q n : Nat) (hn : 2 ≤ n) (x : F)
    (honly : ∀ y : F, y • R.base ∈ pub → keyImage R y = keyImage R x → y = x) (ε δ σ : ℚ)
    (hε : ε = Nat.card {coins : Fin (Q + n) → F // ∃ m c ring, A.Forges R V pub Q n (List.ofFn coins) m (keyImage R x) c ring} /
      Nat.card (Fin (Q + n) → F))
    (hδ : δ = pub.card * (Q + n) ^ 2 / Fintype.card F)
    (hσ : σ = Nat.card {p : (Fin (Q + n) → F) × (Fin (Q + n) → F) // ∃ t : Fin (Q + n),
        ∃ y ∈ A.visited R Q (List.ofFn p.1), ∃ z ∈ A.visited R Q (List.ofFn (Oracle.rewind t p.1 p.2)),
          crack (fun _ => 0) y z • R.base = x • R.base} / Nat.card ((Fin (Q + n) → F) × (Fin (Q + n) → F)))
    (hge : δ ≤ ε) : (ε - δ) ^ 2 / (Q + n) ^ 2 - 1 / Fintype.card F ≤ σ := by
  classical
  have hδ' : δ = (pub.image fun k => [k]).card * (Q + n) ^ 2 / Fintype.card F := by
    rw [hδ, Finset.card_image_of_injective _ fun a b h => by simpa using h]
  obtain ⟨ε', hε'⟩ : ∃ ε' : ℚ, ε' = Nat.card {p : Unit × (Fin (Q + n) → F) // ∃ sig,
      A.vec.Forges R (pub.image fun k => [k]) 1 Q n (List.ofFn p.2) sig [keyImage R x]} / Nat.card (Unit × (Fin (Q + n) → F)) :=
    ⟨_, rfl⟩
  obtain ⟨σ', hσ'⟩ : ∃ σ' : ℚ, σ' = Nat.card {p : Unit × (Fin (Q + n) → F) × (Fin (Q + n) → F) // ∃ t : Fin (Q + n),
        ∃ y ∈ A.vec.visited R Q (List.ofFn p.2.1), ∃ z ∈ A.vec.visited R Q (List.ofFn (Oracle.rewind t p.2.1 p.2.2)),
          ∀ j < 1, Mlsag.crack (fun _ _ => 0) y z j • R.base = [x • R.base].getD j 0} /
      Nat.card (Unit × (Fin (Q + n) → F) × (Fin (Q + n) → F)) := ⟨_, rfl⟩
  have h1 : ε ≤ ε' := by
    rw [hε, hε', unit_card, unit_prod]
    refine div_le_div_of_nonneg_right ?_ (Nat.cast_nonneg _)
    refine Nat.cast_le.2 (Nat.card_le_card_of_injective (fun p => ⟨p.1, ?_⟩) fun x y h => Subtype.ext (by simpa using h))
    obtain ⟨coins, m, c, ring, hw⟩ := p
    exact ⟨_, hw.vec hV⟩
  have h2 : σ' ≤ σ := by
    rw [hσ, hσ', unit_card, unit_prod]
    refine div_le_div_of_nonneg_right ?_ (Nat.cast_nonneg _)
    refine Nat.cast_le.2 (Nat.card_le_card_of_injective (fun p => ⟨p.1, ?_⟩) fun x y h => Subtype.ext (by simpa using h))
    obtain ⟨t, y, hy, z, hz, hc⟩ := p.2
    exact ⟨t, _, List.mem_map.2 ⟨y, hy, rfl⟩, _, List.mem_map.2 ⟨z, hz, rfl⟩, hc 0 Nat.one_pos⟩
  have h3 := Mlsag.frame_reruns (α := Unit) E hB hgen (fun _ => A.vec) (pub.image fun k => [k]) 1 1 Q n hn [keyImage R x]
    [x • R.base] rfl (by
      intro K hK hI
      obtain ⟨k, hk, rfl⟩ := Finset.mem_image.1 hK
      obtain ⟨z, h1, h2⟩ := hI 0 (by simp)
      simp only [List.getElem?_cons_zero, Option.some.injEq] at h1 h2
      rw [h1] at hk ⊢
      rw [honly z hk h2.symm]) ε' δ σ' hε' hδ' hσ' (hge.trans h1)
  exact (Mlsag.square_mono _ _ (sub_nonneg.2 hge) (sub_le_sub_right h1 _)).trans (h3.trans h2)

/-! ### Concrete attackers -/

/-- Two keys and an image of neither of them, accepted if all answers are the first challenge. -/
theorem luck_framed (a b c im : Toy.K) (hab : keyImage Toy.ris a ≠ keyImage Toy.ris b) (ha : im ≠ keyImage Toy.ris a)
    (hb : im ≠ keyImage Toy.ris b) :
    0 < Nat.card {coins : Fin (0 + 2) → Toy.K // ∃ m c' ring, (luckLinker a b c im).Forges Toy.ris toyRaw
        {a • Toy.ris.base, b • Toy.ris.base} 0 2 (List.ofFn coins) m im c' ring ∧
        ∀ x : Toy.K, (∃ k ∈ ring, k.1 = x • Toy.ris.base) → im ≠ keyImage Toy.ris x} := by
  have h := luck_wins a b c im hab ha hb
  have : Nonempty {coins : Fin (0 + 2) → Toy.K // ∃ m c' ring, (luckLinker a b c im).Forges Toy.ris toyRaw
        {a • Toy.ris.base, b • Toy.ris.base} 0 2 (List.ofFn coins) m im c' ring ∧
        ∀ x : Toy.K, (∃ k ∈ ring, k.1 = x • Toy.ris.base) → im ≠ keyImage Toy.ris x} :=
    ⟨⟨fun _ => c, _, _, _, ⟨rfl, by simpa using h.accepted, h.size, h.published⟩, h.foreign⟩⟩
  exact Nat.card_pos

/-- The keys 1 and 2 with the images 2 and 6, the challenge 9 and the image 100. -/
example : 0 < Nat.card {coins : Fin (0 + 2) → Toy.K // ∃ m c' ring, (luckLinker ((1 : Nat) : Toy.K) ((2 : Nat) : Toy.K) 9
    ((100 : Nat) : Toy.K)).Forges Toy.ris toyRaw {((1 : Nat) : Toy.K) • Toy.ris.base, ((2 : Nat) : Toy.K) • Toy.ris.base} 0 2
      (List.ofFn coins) m ((100 : Nat) : Toy.K) c' ring ∧
        ∀ x : Toy.K, (∃ k ∈ ring, k.1 = x • Toy.ris.base) → ((100 : Nat) : Toy.K) ≠ keyImage Toy.ris x} := by
  refine luck_framed _ _ 9 _ ?_ ?_ ?_
  · show Mlsag.image _ _ ≠ Mlsag.image _ _
    rw [Mlsag.toy_image 1 (by norm_num), Mlsag.toy_image 2 (by norm_num)]
    exact Mlsag.toy_ne _ _ (by norm_num) (by norm_num) (by norm_num)
  · show _ ≠ Mlsag.image _ _
    rw [Mlsag.toy_image 1 (by norm_num)]
    exact Mlsag.toy_ne _ _ (by norm_num) (by norm_num) (by norm_num)
  · show _ ≠ Mlsag.image _ _
    rw [Mlsag.toy_image 2 (by norm_num)]
    exact Mlsag.toy_ne _ _ (by norm_num) (by norm_num) (by norm_num)

/-- The owner of a key signs with its image, always: the premises hold with `ε = 1`, and the owner's key is found. -/
theorem owner_framed (x l : Toy.K) :
    ((1 : ℚ) - 9 / Fintype.card Toy.K) ^ 2 / 9 - 1 / Fintype.card Toy.K ≤
      Nat.card {p : (Fin (1 + 2) → Toy.K) × (Fin (1 + 2) → Toy.K) // ∃ t : Fin (1 + 2),
        ∃ y ∈ (owner Toy.ris [1, 2] x l).visited Toy.ris 1 (List.ofFn p.1),
        ∃ z ∈ (owner Toy.ris [1, 2] x l).visited Toy.ris 1 (List.ofFn (Oracle.rewind t p.1 p.2)),
          crack (fun _ => 0) y z • Toy.ris.base = x • Toy.ris.base} / Nat.card ((Fin (1 + 2) → Toy.K) × (Fin (1 + 2) → Toy.K)) := by
  have hall : ∀ coins : Fin (1 + 2) → Toy.K, ∃ m c ring, (owner Toy.ris [1, 2] x l).Forges Toy.ris toyRaw {x • Toy.ris.base} 1 2
      (List.ofFn coins) m (keyImage Toy.ris x) c ring := by
    intro coins
    rw [List.ofFn_succ]
    obtain ⟨m, I, c, ring, h⟩ := owner_forges toyRaw_lawful [1, 2] x l (coins 0) (List.ofFn fun i => coins i.succ)
    have hI : I = keyImage Toy.ris x := by
      have := h.output
      simp only [owner, Prod.mk.injEq] at this
      exact this.2.1.symm
    exact ⟨m, c, ring, hI ▸ h⟩
  have hbase : ∀ z : Toy.K, z • Toy.ris.base = z := fun z => mul_one z
  have h := C120_exculpable toyRaw_lawful Toy.ris_encodings (by simp [Toy.ris]) (fun P => ⟨P, (mul_one P).symm⟩)
    (owner Toy.ris [1, 2] x l) {x • Toy.ris.base} 1 2 le_rfl x (by
      intro y hy _
      rw [Finset.mem_singleton, hbase, hbase] at hy
      exact hy) _ _ _ rfl rfl rfl (by
      rw [Nat.card_congr (Equiv.subtypeUnivEquiv hall), div_self (by
        rw [Nat.card_eq_fintype_card]
        exact Nat.cast_ne_zero.2 Fintype.card_ne_zero), div_le_one (by exact_mod_cast Fintype.card_pos)]
      have hl : 2 ^ 64 < Fintype.card Toy.K := by
        rw [show Fintype.card Toy.K = PrimeEll.ell from ZMod.card _]
        exact PrimeEll.two64_lt_ell
      have : (9 : ℚ) ≤ Fintype.card Toy.K := by exact_mod_cast (by omega : 9 ≤ Fintype.card Toy.K)
      simp only [Finset.card_singleton]
      push_cast
      linarith)
  rw [Nat.card_congr (Equiv.subtypeUnivEquiv hall), div_self (by
    rw [Nat.card_eq_fintype_card]
    exact Nat.cast_ne_zero.2 Fintype.card_ne_zero)] at h
  refine le_trans (le_of_eq ?_) h
  simp only [Finset.card_singleton]
  push_cast
  norm_num

end Dusk.Blsag
