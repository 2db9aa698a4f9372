import Verif.Lemmas.PointOracle
import Verif.Props.RPFiatShamir
/-!
# C126: a relation between the generators gives a discrete logarithm
-/

namespace Dusk.PointOracle

variable {F G : Type} [Field F] [AddCommGroup G] [Module F G]

/-! ## The questions that make the public points -/

/-- The next string to hash: first the value base, then the two chains of `n` generators. -/
def ques (R : Ristretto F G) (n : Nat) (l : List F) : Bytes :=
  if l.length = 0 then strBytes "blindPoint"
  else if l.length = 1 then strBytes "dusk.BulletProof.vec1"
  else if l.length = n + 1 then strBytes "dusk.BulletProof.vec1" ++ [1]
  else R.pBytes (l.getLast?.getD 0 • R.base)

def quesW {R : Ristretto F G} {W : Finset Bytes} (hW : Covers R W) (n : Nat) (l : List F) : W :=
  ⟨ques R n l, by unfold ques; split; exact hW.b; split; exact hW.g; split; exact hW.h; exact hW.enc _⟩

theorem val_ques {R : Ristretto F G} {W : Finset Bytes} (hW : Covers R W) (n : Nat) (f : W → F) (l : List F) :
    val f (ques R n l) = f (quesW hW n l) := dif_pos (quesW hW n l).2

/-- The hash to points given by a table of logarithms. -/
def hashOf (R : Ristretto F G) {W : Finset Bytes} (p : W → F) (s : Bytes) : G := val p s • R.base

theorem chainAt_in (R : Ristretto F G) (data : Bytes) (i : Nat) : chainAt R data i = R.pDerive (inAt R data i) := by
  cases i <;> rfl

theorem seeds_length : (strBytes "blindPoint").length = 10 ∧ (strBytes "dusk.BulletProof.vec1").length = 21 ∧
    (strBytes "dusk.BulletProof.vec1" ++ [1]).length = 22 := by decide +kernel

/-- The inputs of a chain that starts with question `o`. -/
theorem inAt_walk {R : Ristretto F G} {W : Finset Bytes} (hW : Covers R W) {n : Nat} (p : W → F) {data : Bytes} {o : Nat}
    (h0 : ∀ l : List F, l.length = o → ques R n l = data)
    (h1 : ∀ l : List F, o < l.length → l.length < o + n → ques R n l = R.pBytes (l.getLast?.getD 0 • R.base)) :
    ∀ i < n, inAt (R.withPoints (hashOf R p)) data i = ques R n (walk (quesW hW n) p (o + i)) := by
  intro i hi
  induction i with
  | zero => exact (h0 _ (by rw [walk_length]; rfl)).symm
  | succ i ih =>
    rw [h1 _ (by rw [walk_length]; omega) (by rw [walk_length]; omega), ← add_assoc, walk, List.getLast?_concat, inAt, chainAt_in,
      ih (by omega)]
    show R.pBytes (val p (ques R n (walk (quesW hW n) p (o + i))) • R.base) = _
    rw [val_ques hW]
    rfl

/-- Coefficients of a relation in the order of the questions. -/
def coefAt (n : Nat) (ρ : RP.Coef F) (j : Nat) : F :=
  if j = 0 then ρ.2.2.1 else if j < n + 1 then ρ.1 (j - 1) else ρ.2.1 (j - (n + 1))

theorem sumAt_walk {R : Ristretto F G} {W : Finset Bytes} (hW : Covers R W) {n : Nat} (p f : W → F) (ρ : RP.Coef F) :
    sumAt (R.withPoints (hashOf R p)) n (val f) ρ =
      ∑ j ∈ Finset.range (1 + n + n), coefAt n ρ j * f (quesW hW n (walk (quesW hW n) p j)) := by
  have hg := inAt_walk hW p (n := n) (data := strBytes "dusk.BulletProof.vec1") (o := 1)
    (fun l hl => by simp [ques, hl]) (fun l h1 h2 => by
      unfold ques
      rw [if_neg (by omega), if_neg (by omega), if_neg (by omega)])
  have hh : ∀ i < n, inAt (R.withPoints (hashOf R p)) (strBytes "dusk.BulletProof.vec1" ++ [1]) i =
      ques R n (walk (quesW hW n) p (1 + n + i)) := by
    intro i hi
    refine inAt_walk hW p (n := n) (o := 1 + n) (fun l hl => ?_) (fun l h1 h2 => ?_) i hi
    · unfold ques
      rw [if_neg (by omega), if_neg (by omega), if_pos (by omega)]
    · unfold ques
      rw [if_neg (by omega), if_neg (by omega), if_neg (by omega)]
  rw [Finset.sum_range_add, Finset.sum_range_add, Finset.sum_range_one, sumAt]
  have e1 : ∑ i ∈ Finset.range n, ρ.1 i * val f (inAt (R.withPoints (hashOf R p)) (strBytes "dusk.BulletProof.vec1") i) =
      ∑ i ∈ Finset.range n, coefAt n ρ (1 + i) * f (quesW hW n (walk (quesW hW n) p (1 + i))) :=
    Finset.sum_congr rfl fun i hi => by
      have hi := Finset.mem_range.1 hi
      rw [hg i hi, val_ques hW, coefAt, if_neg (by omega), if_pos (by omega), Nat.add_sub_cancel_left]
  have e2 : ∑ i ∈ Finset.range n, ρ.2.1 i * val f (inAt (R.withPoints (hashOf R p)) (strBytes "dusk.BulletProof.vec1" ++ [1]) i) =
      ∑ i ∈ Finset.range n, coefAt n ρ (1 + n + i) * f (quesW hW n (walk (quesW hW n) p (1 + n + i))) :=
    Finset.sum_congr rfl fun i hi => by
      have hi := Finset.mem_range.1 hi
      rw [hh i hi, val_ques hW, coefAt, if_neg (by omega), if_neg (by omega), show 1 + n + i - (n + 1) = i by omega]
  have e3 : val f (strBytes "blindPoint") = f (quesW hW n (walk (quesW hW n) p 0)) :=
    val_ques hW n f []
  rw [e1, e2, e3]
  simp only [coefAt, if_pos]
  ring

/-- The questions repeat only if a point repeats. -/
theorem separated {R : Ristretto F G} (E : R.Encodings) (hB : R.base ≠ 0) {W : Finset Bytes} (hW : Covers R W) (n : Nat) :
    Separated (quesW (F := F) hW n) (1 + n + n) := by
  intro l i j hij hj hl e hnd
  have e : ques R n (l.take i) = ques R n l := congrArg Subtype.val e
  obtain ⟨s1, s2, s3⟩ := seeds_length
  have hti : (l.take i).length = i := by rw [List.length_take]; omega
  have enc : ∀ P, (R.pBytes P).length = 32 := E.pBytes_length
  unfold ques at e
  rw [hti, hl] at e
  by_cases h0 : i = 0
  · rw [if_pos h0, if_neg (by omega)] at e
    have e := congrArg List.length e
    split at e
    · omega
    · split at e
      · omega
      · rw [enc] at e; omega
  rw [if_neg h0, if_neg (by omega : ¬ j = 0)] at e
  by_cases h1 : i = 1
  · rw [if_pos h1, if_neg (by omega)] at e
    have e := congrArg List.length e
    split at e
    · omega
    · rw [enc] at e; omega
  rw [if_neg h1, if_neg (by omega : ¬ j = 1)] at e
  by_cases h2 : i = n + 1
  · rw [if_pos h2, if_neg (by omega)] at e
    have e := congrArg List.length e
    rw [enc] at e; omega
  rw [if_neg h2] at e
  split at e
  · have e := congrArg List.length e
    rw [enc] at e; omega
  have e := E.pBytes_inj e
  have e := smul_left_injective F hB e
  rw [List.getLast?_eq_getElem?, List.getLast?_eq_getElem?, hti, hl, List.getElem?_take_of_lt (by omega),
    List.getElem?_eq_getElem (by omega), List.getElem?_eq_getElem (by omega), Option.getD_some, Option.getD_some] at e
  have := (List.Nodup.getElem_inj_iff hnd).1 e
  omega

/-! ## Relations -/

/-- Value of a relation between points made from tables. -/
theorem ev_points (R : Ristretto F G) (X : G) {W : Finset Bytes} (a b : W → F) (n : Nat) (ρ : RP.Coef F) :
    RP.ev (RP.pub (R.withPoints (points R.base X a b)) n) n ρ =
      (sumAt (R.withPoints (points R.base X a b)) n (val a) ρ + ρ.2.2.2) • R.base +
      sumAt (R.withPoints (points R.base X a b)) n (val b) ρ • X := by
  have h : ∀ data, ∀ c : Nat → F, ∑ i ∈ Finset.range n, c i • (chain (R.withPoints (points R.base X a b)) data n).getD i 0 =
      (∑ i ∈ Finset.range n, c i * val a (inAt (R.withPoints (points R.base X a b)) data i)) • R.base +
      (∑ i ∈ Finset.range n, c i * val b (inAt (R.withPoints (points R.base X a b)) data i)) • X := by
    intro data c
    rw [Finset.sum_smul, Finset.sum_smul, ← Finset.sum_add_distrib]
    refine Finset.sum_congr rfl fun i hi => ?_
    rw [List.getD_eq_getElem _ _ (by simpa using Finset.mem_range.1 hi)]
    simp only [chain, List.getElem_map, List.getElem_range]
    rw [chainAt_in]
    show c i • (val a _ • R.base + val b _ • X) = _
    rw [smul_add, smul_smul, smul_smul]
  unfold RP.ev RP.pub sumAt
  simp only
  rw [h, h]
  show _ + _ + ρ.2.2.1 • (val a _ • R.base + val b _ • X) + ρ.2.2.2 • R.base = _
  module

/-- C126: a relation gives the logarithm, unless the sum of the hidden coins with its coefficients vanishes. -/
theorem C126_dlog (R : Ristretto F G) (hB : R.base ≠ 0) (x : F) {W : Finset Bytes} (a b : W → F) (n : Nat) (ρ : RP.Coef F)
    (he : RP.ev (RP.pub (R.withPoints (points R.base (x • R.base) a b)) n) n ρ = 0)
    (hb : sumAt (R.withPoints (points R.base (x • R.base) a b)) n (val b) ρ ≠ 0) :
    dlog (R.withPoints (points R.base (x • R.base) a b)) n a b ρ = x := by
  rw [ev_points, smul_smul, ← add_smul] at he
  have := (smul_eq_zero.1 he).resolve_right hB
  unfold dlog
  rw [div_eq_iff hb]
  linear_combination -this

theorem card_prod_le {α β : Type} [Fintype α] [Fintype β] (P : α → β → Prop) [∀ a b, Decidable (P a b)] (c K : Nat)
    (h : ∀ a, c * (Finset.univ.filter (P a)).card ≤ K) :
    c * (Finset.univ.filter fun y : α × β => P y.1 y.2).card ≤ Fintype.card α * K := by
  rw [Finset.card_filter, Fintype.sum_prod_type, Finset.mul_sum, ← smul_eq_mul (Fintype.card α), ← Finset.card_univ, ← Finset.sum_const]
  refine Finset.sum_le_sum fun a _ => ?_
  rw [← Finset.card_filter]
  exact h a

/-- C126: let the hash to points be uniform, with the logarithm of `x B` hidden in it. Whoever sees all points and finds a nontrivial
relation between the public points of the range proof for `n` bits, finds `x`: the coins for which this fails are a fraction of at most
`((2n+1)² + 1) / |F|`. -/
theorem C126_relation [Fintype F] (R : Ristretto F G) (E : R.Encodings) (hB : R.base ≠ 0) (W : Finset Bytes) (hW : Covers R W) (n : Nat)
    (adv : (Bytes → G) → RP.Coef F) (x : F) :
    Fintype.card F * Nat.card {ab : (W → F) × (W → F) //
        let D := points R.base (x • R.base) ab.1 ab.2
        let ρ := adv D
        RP.ev (RP.pub (R.withPoints D) n) n ρ = 0 ∧ ρ.Nonzero n ∧ dlog (R.withPoints D) n ab.1 ab.2 ρ ≠ x} ≤
      ((2 * n + 1) ^ 2 + 1) * Fintype.card ((W → F) × (W → F)) := by
  classical
  set q := quesW (F := F) hW n with hq
  have hsep := separated (F := F) E hB hW n
  let S1 : Finset ((W → F) × (W → F)) := (Finset.univ.filter fun p : W → F => ¬ (walk q p (1 + n + n)).Nodup) ×ˢ Finset.univ
  let P2 : (W → F) → (W → F) → Prop := fun p b => (walk q p (1 + n + n)).Nodup ∧ (∃ j < 1 + n + n, coefAt n (adv (hashOf R p)) j ≠ 0) ∧
    ∑ j ∈ Finset.range (1 + n + n), coefAt n (adv (hashOf R p)) j * b (q (walk q p j)) = 0
  let S2 : Finset ((W → F) × (W → F)) := Finset.univ.filter fun y => P2 y.1 y.2
  have h1 : Fintype.card F * S1.card ≤ (2 * n + 1) ^ 2 * Fintype.card ((W → F) × (W → F)) := by
    rw [Finset.card_product, ← mul_assoc, Fintype.card_prod, ← mul_assoc, Finset.card_univ]
    refine Nat.mul_le_mul_right _ ((card_repeat hsep).trans ?_)
    rw [Fintype.card_fun, show 1 + n + n = 2 * n + 1 by ring]
  have h2 : Fintype.card F * S2.card ≤ Fintype.card ((W → F) × (W → F)) := by
    rw [Fintype.card_prod]
    refine card_prod_le P2 _ _ fun p => ?_
    by_cases hc : (walk q p (1 + n + n)).Nodup ∧ ∃ j < 1 + n + n, coefAt n (adv (hashOf R p)) j ≠ 0
    · rw [Fintype.card_fun]
      refine le_trans (Nat.mul_le_mul_left _ (Finset.card_le_card ?_))
        (card_linear (coefAt n (adv (hashOf R p))) (fun j => q (walk q p j))
        (fun i hi j hj e => walk_inj hsep hc.1 hi hj e) hc.2)
      intro b hb
      exact Finset.mem_filter.2 ⟨Finset.mem_univ _, (Finset.mem_filter.1 hb).2.2.2⟩
    · have : (Finset.univ.filter (P2 p)) = ∅ := by
        refine Finset.filter_eq_empty_iff.2 fun b _ hb => hc ⟨hb.1, hb.2.1⟩
      rw [this]
      simp
  have h3 : Nat.card {ab : (W → F) × (W → F) //
        let D := points R.base (x • R.base) ab.1 ab.2
        let ρ := adv D
        RP.ev (RP.pub (R.withPoints D) n) n ρ = 0 ∧ ρ.Nonzero n ∧ dlog (R.withPoints D) n ab.1 ab.2 ρ ≠ x} ≤ (S1 ∪ S2).card := by
    rw [Nat.card_eq_fintype_card, Fintype.card_subtype]
    refine Finset.card_le_card_of_injOn (fun ab => (ab.1 + x • ab.2, ab.2)) ?_ ?_
    · rintro ⟨a, b⟩ h
      obtain ⟨he, hne, hx⟩ := (Finset.mem_filter.1 h).2
      simp only at he hne hx
      have hD : points R.base (x • R.base) a b = hashOf R (a + x • b) := by
        funext s
        unfold points hashOf val
        split
        · rw [smul_smul, ← add_smul, Pi.add_apply, Pi.smul_apply, smul_eq_mul, mul_comm x]
        · simp
      have hsum : sumAt (R.withPoints (points R.base (x • R.base) a b)) n (val b) (adv (points R.base (x • R.base) a b)) = 0 := by
        by_contra hc
        exact hx (C126_dlog R hB x a b n _ he hc)
      have hnz : ∃ j < 1 + n + n, coefAt n (adv (points R.base (x • R.base) a b)) j ≠ 0 := by
        by_contra hno
        push Not at hno
        have hz : ∀ f : W → F, sumAt (R.withPoints (points R.base (x • R.base) a b)) n (val f)
            (adv (points R.base (x • R.base) a b)) = 0 := by
          intro f
          rw [hD, sumAt_walk hW]
          refine Finset.sum_eq_zero fun j hj => ?_
          rw [← hD, hno j (Finset.mem_range.1 hj), zero_mul]
        rw [ev_points, hz, hz, zero_add, zero_smul, add_zero] at he
        have h4 := (smul_eq_zero.1 he).resolve_right hB
        rcases hne with ⟨i, hi, h⟩ | ⟨i, hi, h⟩ | h | h
        · have := hno (1 + i) (by omega)
          rw [coefAt, if_neg (by omega), if_pos (by omega), Nat.add_sub_cancel_left] at this
          exact h this
        · have := hno (1 + n + i) (by omega)
          rw [coefAt, if_neg (by omega), if_neg (by omega), show 1 + n + i - (n + 1) = i by omega] at this
          exact h this
        · exact h (hno 0 (by omega))
        · exact h h4
      rw [hD] at hsum hnz
      rw [sumAt_walk hW] at hsum
      simp only [Finset.coe_union, Set.mem_union, Finset.mem_coe]
      by_cases hnd : (walk q (a + x • b) (1 + n + n)).Nodup
      · exact .inr (Finset.mem_filter.2 ⟨Finset.mem_univ _, hnd, hnz, hsum⟩)
      · exact .inl (Finset.mem_product.2 ⟨Finset.mem_filter.2 ⟨Finset.mem_univ _, hnd⟩, Finset.mem_univ _⟩)
    · rintro ⟨a, b⟩ _ ⟨a', b'⟩ _ e
      simp only [Prod.mk.injEq] at e
      obtain ⟨e1, rfl⟩ := e
      rw [add_right_cancel e1]
  calc _ ≤ Fintype.card F * (S1 ∪ S2).card := Nat.mul_le_mul_left _ h3
    _ ≤ Fintype.card F * (S1.card + S2.card) := Nat.mul_le_mul_left _ (Finset.card_union_le _ _)
    _ = Fintype.card F * S1.card + Fintype.card F * S2.card := mul_add _ _ _
    _ ≤ _ := by rw [add_mul, one_mul]; exact Nat.add_le_add h1 h2

/-! ## What is seen of the coins -/

/-- C126: every hash to points in the multiples of `B` is made by `|F|^|W|` pairs of tables, for every `x`: the points are uniform, and
nobody can see whether a logarithm is hidden in them, or which. -/
theorem C126_uniform [Fintype F] (R : Ristretto F G) (hB : R.base ≠ 0) (W : Finset Bytes) (x : F) (p : W → F) :
    Nat.card {ab : (W → F) × (W → F) // ∀ s, points R.base (x • R.base) ab.1 ab.2 s = val p s • R.base} = Fintype.card F ^ W.card := by
  have hP : ∀ a b : W → F, (∀ s, points R.base (x • R.base) a b s = val p s • R.base) ↔ a = p - x • b := by
    intro a b
    have : ∀ s, points R.base (x • R.base) a b s = (val a s + val b s * x) • R.base := fun s => by
      rw [points, smul_smul, ← add_smul]
    constructor
    · intro h
      funext w
      have h1 := smul_left_injective F hB ((this w.1).symm.trans (h w.1))
      simp only [val, dif_pos w.2] at h1
      simp only [Pi.sub_apply, Pi.smul_apply, smul_eq_mul]
      linear_combination h1
    · rintro rfl s
      rw [this]
      congr 1
      unfold val
      split
      · simp only [Pi.sub_apply, Pi.smul_apply, smul_eq_mul]
        ring
      · simp
  have e : Nat.card {ab : (W → F) × (W → F) // ∀ s, points R.base (x • R.base) ab.1 ab.2 s = val p s • R.base} = Nat.card (W → F) := by
    refine Nat.card_congr ⟨fun y => y.1.2, fun b => ⟨(p - x • b, b), (hP _ _).2 rfl⟩, ?_, fun b => rfl⟩
    rintro ⟨⟨a, b⟩, h⟩
    exact Subtype.ext (Prod.ext ((hP a b).1 h).symm rfl)
  rw [e, Nat.card_eq_fintype_card, Fintype.card_fun, Fintype.card_coe]

example (W : Finset Bytes) (x : Toy.K) (p : W → Toy.K) : Nat.card {ab : (W → Toy.K) × (W → Toy.K) //
    ∀ s, points Toy.ris.base (x • Toy.ris.base) ab.1 ab.2 s = val p s • Toy.ris.base} = PrimeEll.ell ^ W.card := by
  haveI : NeZero PrimeEll.ell := ⟨PrimeEll.ell_prime.ne_zero⟩
  rw [C126_uniform Toy.ris one_ne_zero W x p, ZMod.card]

/-! ## Commitments -/

/-- C126: whoever opens a commitment to a scalar to two different values finds the logarithm, except for a fraction of at most
`2 / |F|` of the coins. -/
theorem C126_scalar_binding [Fintype F] (R : Ristretto F G) (E : R.Encodings) (hB : R.base ≠ 0) (W : Finset Bytes) (hW : Covers R W)
    (data : Bytes) (adv : (Bytes → G) → (F × F) × (F × F)) (x : F) :
    Fintype.card F * Nat.card {ab : (W → F) × (W → F) //
        let D := points R.base (x • R.base) ab.1 ab.2
        let P := Pedersen.new (R.withPoints D) data
        let o := (adv D).1
        let o' := (adv D).2
        (P.commitToScalar o.1 o.2).value = (P.commitToScalar o'.1 o'.2).value ∧ o ≠ o' ∧
          dlog (R.withPoints D) 0 ab.1 ab.2 ((0 : Nat → F), (0 : Nat → F), o.1 - o'.1, o.2 - o'.2) ≠ x} ≤
      2 * Fintype.card ((W → F) × (W → F)) := by
  classical
  refine le_trans (Nat.mul_le_mul_left _ ?_) (C126_relation R E hB W hW 0
    (fun D => ((0 : Nat → F), (0 : Nat → F), (adv D).1.1 - (adv D).2.1, (adv D).1.2 - (adv D).2.2)) x)
  refine Nat.card_le_card_of_injective (fun y => ⟨y.1, ?_, ?_, y.2.2.2⟩) fun y z h => Subtype.ext (by simpa using h)
  · have h := y.2.1
    simp only [Pedersen.commitToScalar, Pedersen.new] at h
    simp only [RP.ev, RP.pub, Finset.range_zero, Finset.sum_empty, zero_add]
    rw [sub_smul, sub_smul]
    rw [sub_add_sub_comm, sub_eq_zero]
    exact h
  · by_contra hc
    simp only [RP.Coef.Nonzero, not_or, not_not] at hc
    exact y.2.2.1 (Prod.ext (sub_eq_zero.1 hc.2.2.1) (sub_eq_zero.1 hc.2.2.2))

theorem vectors_value [DecidableEq F] (R : Ristretto F G) {n : Nat} (hn : n < 2 ^ 32) (l r : List F) (hl : l.length = n) (hr : r.length = n) (blind : F) :
    ∃ P, (Pedersen.new R (strBytes "dusk.BulletProof.vec1")).commitToVectors R [l, r] blind =
      .ok (⟨RP.ev (RP.pub R n) n ((fun i => l.getD i 0), (fun i => r.getD i 0), 0, blind), blind⟩, P) := by
  have h := C51_commit R (Pedersen.new R (strBytes "dusk.BulletProof.vec1")) (Gen.onChain_new R _) rfl l [r] blind (by simp; omega)
  have hv : blind • (Pedersen.new R (strBytes "dusk.BulletProof.vec1")).blindPoint +
      vectorsSum R (Pedersen.new R (strBytes "dusk.BulletProof.vec1")).genData 0 [l, r] =
      RP.ev (RP.pub R n) n ((fun i => l.getD i 0), (fun i => r.getD i 0), 0, blind) := by
    simp only [vectorsSum, RP.ev, RP.pub, vectorSeed, add_zero, zero_smul]
    rw [RP.msm_getD _ _ hl (by simp [hl]), RP.msm_getD _ _ hr (by simp [hr]), hl, hr]
    exact add_comm _ _
  rw [hv] at h
  exact ⟨_, h⟩

/-- C126: the same for the commitments to two vectors of length `n` that are part of a range proof (`A`, `S`). -/
theorem C126_vector_binding [Fintype F] [DecidableEq F] (R : Ristretto F G) (E : R.Encodings) (hB : R.base ≠ 0) (W : Finset Bytes)
    (hW : Covers R W) {n : Nat} (hn : n < 2 ^ 32) (adv : (Bytes → G) → (List F × List F × F) × (List F × List F × F))
    (hlen : ∀ D, (adv D).1.1.length = n ∧ (adv D).1.2.1.length = n ∧ (adv D).2.1.length = n ∧ (adv D).2.2.1.length = n) (x : F) :
    Fintype.card F * Nat.card {ab : (W → F) × (W → F) //
        let D := points R.base (x • R.base) ab.1 ab.2
        let R' := R.withPoints D
        let P := Pedersen.new R' (strBytes "dusk.BulletProof.vec1")
        let o := (adv D).1
        let o' := (adv D).2
        (P.commitToVectors R' [o.1, o.2.1] o.2.2).map (fun c => c.1.value) =
          (P.commitToVectors R' [o'.1, o'.2.1] o'.2.2).map (fun c => c.1.value) ∧ o ≠ o' ∧
          dlog R' n ab.1 ab.2 ((fun i => o.1.getD i 0 - o'.1.getD i 0), (fun i => o.2.1.getD i 0 - o'.2.1.getD i 0), 0,
            o.2.2 - o'.2.2) ≠ x} ≤
      ((2 * n + 1) ^ 2 + 1) * Fintype.card ((W → F) × (W → F)) := by
  classical
  refine le_trans (Nat.mul_le_mul_left _ ?_) (C126_relation R E hB W hW n
    (fun D => ((fun i => (adv D).1.1.getD i 0 - (adv D).2.1.getD i 0), (fun i => (adv D).1.2.1.getD i 0 - (adv D).2.2.1.getD i 0), 0,
      (adv D).1.2.2 - (adv D).2.2.2)) x)
  refine Nat.card_le_card_of_injective (fun y => ⟨y.1, ?_, ?_, y.2.2.2⟩) fun y z h => Subtype.ext (by simpa using h)
  · have h := y.2.1
    obtain ⟨l1, l2, l3, l4⟩ := hlen (points R.base (x • R.base) y.1.1 y.1.2)
    obtain ⟨P, hP⟩ := vectors_value (R.withPoints (points R.base (x • R.base) y.1.1 y.1.2)) hn _ _ l1 l2
      (adv (points R.base (x • R.base) y.1.1 y.1.2)).1.2.2
    obtain ⟨P', hP'⟩ := vectors_value (R.withPoints (points R.base (x • R.base) y.1.1 y.1.2)) hn _ _ l3 l4
      (adv (points R.base (x • R.base) y.1.1 y.1.2)).2.2.2
    simp only at h
    rw [hP, hP'] at h
    simp only [Res.map_ok, Res.ok.injEq] at h
    rw [← sub_eq_zero] at h
    rw [← h]
    simp only [RP.ev, sub_smul, Finset.sum_sub_distrib, zero_smul]
    abel
  · by_contra hc
    simp only [RP.Coef.Nonzero, not_or, not_not, not_exists, not_and] at hc
    obtain ⟨l1, l2, l3, l4⟩ := hlen (points R.base (x • R.base) y.1.1 y.1.2)
    have ext : ∀ u v : List F, u.length = n → v.length = n → (∀ i < n, u.getD i 0 - v.getD i 0 = 0) → u = v := by
      intro u v hu hv h
      refine List.ext_getElem (by omega) fun i h1 h2 => ?_
      have := sub_eq_zero.1 (h i (by omega))
      rwa [List.getD_eq_getElem _ _ h1, List.getD_eq_getElem _ _ h2] at this
    exact y.2.2.1 (Prod.ext (ext _ _ l1 l3 hc.1) (Prod.ext (ext _ _ l2 l4 hc.2.1) (sub_eq_zero.1 hc.2.2.2)))

example [NeZero PrimeEll.ell] (W : Finset Bytes) (hW : Covers Toy.ris W) (data : Bytes) (x : Toy.K) :=
  C126_scalar_binding Toy.ris Toy.ris_encodings one_ne_zero W hW data (fun D => ((0, D (strBytes "blindPoint")), (1, 0))) x

example [NeZero PrimeEll.ell] (W : Finset Bytes) (hW : Covers Toy.ris W) (x : Toy.K) :=
  C126_vector_binding Toy.ris Toy.ris_encodings one_ne_zero W hW (n := 1) (by norm_num)
    (fun D => (([0], [5], D (strBytes "dusk.BulletProof.vec1")), ([1], [5], 0))) (by simp) x

/-! ## Range proofs -/

/-- A prover (that may depend on all points) fools the verifier, and the logarithm is not found. -/
structure Fools [DecidableEq F] [DecidableEq G] (R : Ristretto F G) (A : (Bytes → G) → RP.AlgProver F G) (m k Q : Nat) (x : F)
    {W : Finset Bytes} (a b : W → F) (coins : Fin (Q + k + 5) → F) : Prop where
  accepted : let D := points R.base (x • R.base) a b
    let log := (A D).game (R.withPoints D) Q ((List.ofFn coins).take (Q + k + 4))
    RP.verify (Mlsag.withHash (R.withPoints D) log.hash) m ((A D).out (log.take Q)) (coins (Fin.last _)) = .ok true
  explained : let D := points R.base (x • R.base) a b
    let log := (A D).game (R.withPoints D) Q ((List.ofFn coins).take (Q + k + 4))
    RP.Explains (R.withPoints D) (64 * m) ((A D).coef log) ((A D).out (log.take Q))
  unknown : let D := points R.base (x • R.base) a b
    let log := (A D).game (R.withPoints D) Q ((List.ofFn coins).take (Q + k + 4))
    ¬ RP.Knows (R.withPoints D) ((A D).coef log) m ((A D).out (log.take Q))
  nolog : let D := points R.base (x • R.base) a b
    let log := (A D).game (R.withPoints D) Q ((List.ofFn coins).take (Q + k + 4))
    dlog (R.withPoints D) (64 * m) a b
      (RP.relation (R.withPoints D) log.hash ((A D).coef log) m ((A D).out (log.take Q)) (coins (Fin.last _))) ≠ x

/-- C126: both hash functions are random oracles. For every prover: either the coefficients of its commitments are openings to values
below `2^64`, or the logarithm of the given point is found, except for a fraction of the coins of at most
`((Q + k + 5) luckyAnswers + (128 m + 1)² + 1) / |F|`. -/
theorem C126_soundness [Fintype F] [DecidableEq F] [DecidableEq G] (R : Ristretto F G) (E : R.Encodings) (hB : R.base ≠ 0)
    (W : Finset Bytes) (hW : Covers R W) (A : (Bytes → G) → RP.AlgProver F G) (Q : Nat) {m k : Nat} (hk : k < 32)
    (hn : 64 * m = 2 ^ k) (x : F) :
    Fintype.card F * Nat.card {y : ((W → F) × (W → F)) × (Fin (Q + k + 5) → F) // Fools R A m k Q x y.1.1 y.1.2 y.2} ≤
      ((Q + k + 5) * RP.luckyAnswers k m (Q + k + 5) + (128 * m + 1) ^ 2 + 1) *
        Fintype.card (((W → F) × (W → F)) × (Fin (Q + k + 5) → F)) := by
  classical
  let P1 : (W → F) × (W → F) → (Fin (Q + k + 5) → F) → Prop := fun ab coins =>
    RP.Wins (A (points R.base (x • R.base) ab.1 ab.2)) (R.withPoints (points R.base (x • R.base) ab.1 ab.2)) m k Q coins
  let adv : (Fin (Q + k + 5) → F) → (Bytes → G) → RP.Coef F := fun coins D =>
    let log := (A D).game (R.withPoints D) Q ((List.ofFn coins).take (Q + k + 4))
    RP.relation (R.withPoints D) log.hash ((A D).coef log) m ((A D).out (log.take Q)) (coins (Fin.last _))
  let P2 : (Fin (Q + k + 5) → F) → (W → F) × (W → F) → Prop := fun coins ab =>
    let D := points R.base (x • R.base) ab.1 ab.2
    RP.ev (RP.pub (R.withPoints D) (64 * m)) (64 * m) (adv coins D) = 0 ∧ (adv coins D).Nonzero (64 * m) ∧
      dlog (R.withPoints D) (64 * m) ab.1 ab.2 (adv coins D) ≠ x
  let S1 : Finset (((W → F) × (W → F)) × (Fin (Q + k + 5) → F)) := Finset.univ.filter fun y => P1 y.1 y.2
  let S2 : Finset ((Fin (Q + k + 5) → F) × ((W → F) × (W → F))) := Finset.univ.filter fun y => P2 y.1 y.2
  have h1 : Fintype.card F * S1.card ≤
      (Q + k + 5) * RP.luckyAnswers k m (Q + k + 5) * Fintype.card (((W → F) × (W → F)) × (Fin (Q + k + 5) → F)) := by
    refine (card_prod_le P1 _ ((Q + k + 5) * RP.luckyAnswers k m (Q + k + 5) * Fintype.card F ^ (Q + k + 5)) fun ab => ?_).trans
      (le_of_eq ?_)
    · have := RP.C114_soundness (R.withPoints (points R.base (x • R.base) ab.1 ab.2)) ⟨E.1, E.2, E.3, E.4⟩
        (A (points R.base (x • R.base) ab.1 ab.2)) Q hk hn
      rw [Nat.card_eq_fintype_card, Fintype.card_subtype] at this
      exact this
    · rw [Fintype.card_prod (α := (W → F) × (W → F)), Fintype.card_fun (α := Fin (Q + k + 5)), Fintype.card_fin]
      ring
  have h2 : Fintype.card F * S2.card ≤ ((128 * m + 1) ^ 2 + 1) * Fintype.card (((W → F) × (W → F)) × (Fin (Q + k + 5) → F)) := by
    refine (card_prod_le P2 _ (((2 * (64 * m) + 1) ^ 2 + 1) * Fintype.card ((W → F) × (W → F))) fun coins => ?_).trans (le_of_eq ?_)
    · have := C126_relation R E hB W hW (64 * m) (adv coins) x
      rw [Nat.card_eq_fintype_card, Fintype.card_subtype] at this
      exact this
    · rw [Fintype.card_prod (α := (W → F) × (W → F))]
      ring
  have h3 : Nat.card {y : ((W → F) × (W → F)) × (Fin (Q + k + 5) → F) // Fools R A m k Q x y.1.1 y.1.2 y.2} ≤ S1.card + S2.card := by
    rw [Nat.card_eq_fintype_card, Fintype.card_subtype]
    have hsub : (Finset.univ.filter fun y : ((W → F) × (W → F)) × (Fin (Q + k + 5) → F) => Fools R A m k Q x y.1.1 y.1.2 y.2) ⊆
        S1 ∪ S2.image Prod.swap := by
      rintro ⟨⟨a, b⟩, coins⟩ hy
      obtain ⟨f1, f2, f3, f4⟩ := (Finset.mem_filter.1 hy).2
      rw [Finset.mem_union]
      by_cases hr : RP.ev (RP.pub (R.withPoints (points R.base (x • R.base) a b)) (64 * m)) (64 * m)
          (adv coins (points R.base (x • R.base) a b)) = 0 ∧ (adv coins (points R.base (x • R.base) a b)).Nonzero (64 * m)
      · right
        exact Finset.mem_image.2 ⟨(coins, (a, b)), Finset.mem_filter.2 ⟨Finset.mem_univ _, hr.1, hr.2, f4⟩, rfl⟩
      · left
        exact Finset.mem_filter.2 ⟨Finset.mem_univ _, f1, f2, f3, hr⟩
    exact (Finset.card_le_card hsub).trans ((Finset.card_union_le _ _).trans (Nat.add_le_add_left Finset.card_image_le _))
  calc _ ≤ Fintype.card F * (S1.card + S2.card) := Nat.mul_le_mul_left _ h3
    _ = Fintype.card F * S1.card + Fintype.card F * S2.card := mul_add _ _ _
    _ ≤ _ := (Nat.add_le_add h1 h2).trans (le_of_eq (by ring))

/-! ## A concrete case -/

section
open Toy

instance : NeZero PrimeEll.ell := ⟨PrimeEll.ell_prime.ne_zero⟩

/-- All strings that are hashed for the public points of the concrete instance. -/
noncomputable def toyW : Finset Bytes :=
  Finset.univ.image (fun P : K => ris.pBytes P) ∪
    {strBytes "dusk.BulletProof.vec1", strBytes "dusk.BulletProof.vec1" ++ [1], strBytes "blindPoint"}

theorem toyW_covers : Covers ris toyW where
  g := by simp [toyW]
  h := by simp [toyW]
  b := by simp [toyW]
  enc P := by simp [toyW]

/-- Logarithms are easy in the concrete instance: a relation is found for all coins. -/
theorem toy_relation (D : Bytes → K) (n : Nat) :
    RP.ev (RP.pub (ris.withPoints D) n) n (((0 : Nat → K), (0 : Nat → K), 1, -D (strBytes "blindPoint")) : RP.Coef K) = 0 ∧
      RP.Coef.Nonzero n (((0 : Nat → K), (0 : Nat → K), 1, -D (strBytes "blindPoint")) : RP.Coef K) := by
  constructor
  · simp only [RP.ev, RP.pub, Pi.zero_apply, zero_smul, Finset.sum_const_zero, zero_add, one_smul]
    show D _ + -D _ • (1 : K) = 0
    simp
  · exact .inr (.inr (.inl one_ne_zero))

/-- So the hidden logarithm is found, for nearly all coins. -/
example (x : K) : Fintype.card K * Nat.card {ab : (toyW → K) × (toyW → K) //
    dlog (ris.withPoints (points ris.base (x • ris.base) ab.1 ab.2)) 128 ab.1 ab.2
      ((0 : Nat → K), (0 : Nat → K), 1, -points ris.base (x • ris.base) ab.1 ab.2 (strBytes "blindPoint")) ≠ x} ≤
    ((2 * 128 + 1) ^ 2 + 1) * Fintype.card ((toyW → K) × (toyW → K)) := by
  refine le_trans (Nat.mul_le_mul_left _ ?_) (C126_relation ris ris_encodings (one_ne_zero) toyW toyW_covers 128
    (fun D => ((0 : Nat → K), (0 : Nat → K), 1, -D (strBytes "blindPoint"))) x)
  exact Nat.card_le_card_of_injective (fun y => ⟨y.1, (toy_relation _ _).1, (toy_relation _ _).2, y.2⟩)
    fun y z h => Subtype.ext (by simpa using h)

/-- Two openings of one commitment, for all coins. -/
example (D : Bytes → K) :
    ((Pedersen.new (ris.withPoints D) [1]).commitToScalar (0 : K) (D (strBytes "blindPoint"))).value =
      ((Pedersen.new (ris.withPoints D) [1]).commitToScalar (1 : K) 0).value ∧ ((0 : K), D (strBytes "blindPoint")) ≠ (1, 0) := by
  refine ⟨?_, by simp⟩
  show (0 : K) • D _ + D _ • (1 : K) = (1 : K) • D _ + (0 : K) • (1 : K)
  simp

example (D : Bytes → K) :
    let P := Pedersen.new (ris.withPoints D) (strBytes "dusk.BulletProof.vec1")
    (P.commitToVectors (ris.withPoints D) [[0], [5]] (D (strBytes "dusk.BulletProof.vec1"))).map (fun c => c.1.value) =
      (P.commitToVectors (ris.withPoints D) [[1], [5]] 0).map (fun c => c.1.value) := by
  intro P
  obtain ⟨P1, h1⟩ := vectors_value (ris.withPoints D) (n := 1) (by norm_num) [0] [5] rfl rfl (D (strBytes "dusk.BulletProof.vec1"))
  obtain ⟨P2, h2⟩ := vectors_value (ris.withPoints D) (n := 1) (by norm_num) [1] [5] rfl rfl 0
  rw [h1, h2]
  simp only [Res.map_ok, RP.ev, RP.pub, chain, Finset.sum_range_one, List.getD_cons_zero, List.range_one, List.map_cons, List.map_nil,
    chainAt]
  show Res.ok ((0 : K) • D _ + (5 : K) • D _ + (0 : K) • D _ + D _ • (1 : K)) =
    Res.ok ((1 : K) • D _ + (5 : K) • D _ + (0 : K) • D _ + (0 : K) • (1 : K))
  congr 1
  simp
  ring

/-- And for provers. -/
example (A : (Bytes → K) → RP.AlgProver K K) (x : K) :=
  C126_soundness ris ris_encodings one_ne_zero toyW toyW_covers A (2 ^ 40) (m := 2) (k := 7) (by norm_num) (by norm_num) x

end

end Dusk.PointOracle
