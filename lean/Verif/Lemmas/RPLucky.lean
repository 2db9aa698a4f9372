import Verif.Lemmas.RPGame
/-!
# Lucky answers

The answers of the random oracle that could help a prover of a false statement, given the earlier questions and answers, are few.
-/

set_option linter.unusedSectionVars false

namespace Dusk.RP

open RPFold

variable {F G : Type} [Field F] [AddCommGroup G] [Module F G] [DecidableEq F] [Fintype F]

theorem card_biUnion_const {ι : Type} [DecidableEq ι] (s : Finset ι) (f : ι → Finset F) (b : Nat) (h : ∀ i ∈ s, (f i).card ≤ b) :
    (s.biUnion f).card ≤ s.card * b := Finset.card_biUnion_le_card_mul s f b h

theorem card_union3 {a b : Finset F} {x y : Nat} (ha : a.card ≤ x) (hb : b.card ≤ y) : (a ∪ b).card ≤ x + y :=
  (Finset.card_union_le _ _).trans (Nat.add_le_add ha hb)

/-! ## The roots -/

noncomputable def stepBad (d : Lin F) (st : Stat F) (n k : Nat) (ρ : Role) : Finset F :=
  (Finset.range k).biUnion (fun j => (Finset.range n).biUnion fun i => roots 10 (pFold d st k ρ j i) ∪ roots 10 (pFold' d st k ρ j i)) ∪
  (roots 10 (pScalar d st n k ρ) ∪
    (Finset.range n).biUnion fun i => roots 10 (pVec d ρ i) ∪ roots 10 (pVec' d ρ i))

theorem stepBad_card (d : Lin F) (st : Stat F) (n k : Nat) (ρ : Role) : (stepBad d st n k ρ).card ≤ k * (n * 20) + (10 + n * 20) := by
  refine card_union3 ?_ (card_union3 (roots_card _ _) ?_)
  · refine (card_biUnion_const _ _ (n * 20) fun j _ => ?_).trans (by rw [Finset.card_range])
    refine (card_biUnion_const _ _ 20 fun i _ => ?_).trans (by rw [Finset.card_range])
    exact card_union3 (roots_card _ _) (roots_card _ _)
  · refine (card_biUnion_const _ _ 20 fun i _ => ?_).trans (by rw [Finset.card_range])
    exact card_union3 (roots_card _ _) (roots_card _ _)

theorem good_of_stepBad {d : Lin F} {st : Stat F} {n k : Nat} {ρ : Role} {ξ : F} (h0 : ξ ≠ 0) (h : ξ ∉ stepBad d st n k ρ) :
    Good d st n k ρ ξ := by
  simp only [stepBad, Finset.mem_union, Finset.mem_biUnion, Finset.mem_range, not_or, not_exists, not_and] at h
  obtain ⟨h1, h2, h3⟩ := h
  exact ⟨h0, fun j hj i hi => (h1 j hj i hi).1, fun j hj i hi => (h1 j hj i hi).2, h2, fun i hi => (h3 i hi).1, fun i hi => (h3 i hi).2⟩

noncomputable def zBad (P : Pts F) (st : Stat F) (m k : Nat) (y : F) : Finset F :=
  (Finset.range k).biUnion (fun j => roots 2 (zFold P st k j)) ∪
  (roots (m + 2) (zScalar P m y) ∪
    (Finset.range (64 * m)).biUnion fun i => roots (m + 2) (zVec P i) ∪ roots (m + 2) (zVec' P i))

theorem zBad_card (P : Pts F) (st : Stat F) (m k : Nat) (y : F) :
    (zBad P st m k y).card ≤ k * 2 + ((m + 2) + 64 * m * ((m + 2) + (m + 2))) := by
  refine card_union3 ?_ (card_union3 (roots_card _ _) ?_)
  · refine (card_biUnion_const _ _ 2 fun j _ => ?_).trans (by rw [Finset.card_range])
    exact roots_card _ _
  · refine (card_biUnion_const _ _ ((m + 2) + (m + 2)) fun i _ => ?_).trans (by rw [Finset.card_range])
    exact card_union3 (roots_card _ _) (roots_card _ _)

theorem goodZ_of_zBad {P : Pts F} {st : Stat F} {m k : Nat} {y z : F} (h : z ∉ zBad P st m k y) : GoodZ P st m k y z := by
  simp only [zBad, Finset.mem_union, Finset.mem_biUnion, Finset.mem_range, not_or, not_exists, not_and] at h
  obtain ⟨h1, h2, h3⟩ := h
  exact ⟨h1, h2, fun i hi => (h3 i hi).1, fun i hi => (h3 i hi).2⟩

noncomputable def yBad (P : Pts F) (m : Nat) : Finset F :=
  roots (64 * m) (fun i => P.A.1 i * P.A.2.1 i) ∪ roots (64 * m) fun i => P.A.1 i - P.A.2.1 i - 1

theorem yBad_card (P : Pts F) (m : Nat) : (yBad P m).card ≤ 64 * m + 64 * m := card_union3 (roots_card _ _) (roots_card _ _)

theorem goodY_of_yBad {P : Pts F} {m : Nat} {y : F} (h : y ∉ yBad P m) : GoodY P m y := by
  simp only [yBad, Finset.mem_union, not_or] at h
  exact ⟨h.1, h.2⟩

/-! ## Reading the questions -/

/-- The number of commitments in a string in which `kd` blocks follow them. -/
def nV (s : Bytes) (kd : Nat) : Nat := s.length / 32 - kd

/-- The points in the strings. -/
def ptsOf (κ : Bytes → Coef F) (s : Bytes) (kd : Nat) (s' : Bytes) : Pts F where
  V j := κ (blk s j)
  A := κ (blk s (nV s kd))
  S := κ (blk s (nV s kd + 1))
  T1 := κ (blk s (nV s kd + 3))
  T2 := κ (blk s (nV s kd + 4))
  L j := κ (blk s' (2 * j))
  R j := κ (blk s' (2 * j + 1))

/-- The beginning of the string, with `r` blocks after the commitments. -/
def pre (s : Bytes) (kd r : Nat) : Bytes := s.take (32 * (nV s kd + r))

def upre (s' : Bytes) (j : Nat) : Bytes := s'.take (32 * (2 * (j + 1)))

def statOf (log : Oracle.Log F) (s : Bytes) (kd : Nat) (s' : Bytes) : Stat F where
  X := if 5 ≤ kd then log.lookup (pre s kd 5) else none
  W := if 9 ≤ kd then log.lookup (pre s kd 9) else none
  U j := if 32 * (2 * (j + 1)) ≤ s'.length then log.lookup (upre s' j) else none

def roleOf (q s : Bytes) (kd : Nat) (s' : Bytes) : Role where
  x := decide (5 ≤ kd ∧ q = pre s kd 5)
  w := decide (9 ≤ kd ∧ q = pre s kd 9)
  u := if 1 ≤ q.length / 64 ∧ 32 * (2 * (q.length / 64 - 1 + 1)) ≤ s'.length ∧ q = upre s' (q.length / 64 - 1) then
    some (q.length / 64 - 1) else none

/-- The candidates: a question, a way to read it, and a question with the points of the inner product argument. -/
def cands (log : Oracle.Log F) (q : Bytes) : Finset (Bytes × Nat × Bytes) :=
  (askedIn log q).toFinset ×ˢ ({2, 5, 9} : Finset Nat) ×ˢ ([] :: askedIn log q).toFinset

theorem cands_card (log : Oracle.Log F) (q : Bytes) : (cands log q).card ≤ (log.length + 1) * (3 * (log.length + 2)) := by
  unfold cands
  rw [Finset.card_product, Finset.card_product]
  have h1 : (askedIn log q).toFinset.card ≤ log.length + 1 := (List.toFinset_card_le _).trans (by simp [askedIn])
  have h2 : ([] :: askedIn log q).toFinset.card ≤ log.length + 2 := (List.toFinset_card_le _).trans (by simp [askedIn])
  exact Nat.mul_le_mul h1 (Nat.mul_le_mul (by decide) h2)

/-- Answers that make an earlier question fit. -/
def guess (R : Ristretto F G) (log : Oracle.Log F) (q : Bytes) : Finset F :=
  (askedIn log q).toFinset.biUnion fun s => ({1, 3, 4} : Finset Nat).biUnion fun c =>
    Finset.univ.filter fun ξ => R.sBytes ξ = blk s (s.length / 32 - c)

theorem guess_card {R : Ristretto F G} (E : R.Encodings) (log : Oracle.Log F) (q : Bytes) : (guess R log q).card ≤ (log.length + 1) * 3 := by
  have h1 : (askedIn log q).toFinset.card ≤ log.length + 1 := (List.toFinset_card_le _).trans (by simp [askedIn])
  refine (card_biUnion_const _ _ 3 fun s _ => ?_).trans (Nat.mul_le_mul_right _ h1)
  refine (card_biUnion_const _ _ 1 fun c _ => ?_).trans (by decide)
  refine Finset.card_le_one.2 fun a ha b hb => E.sBytes_inj ?_
  rw [(Finset.mem_filter.1 ha).2, (Finset.mem_filter.1 hb).2]

/-- The lucky answers to the question `q`. -/
noncomputable def lucky (A : AlgProver F G) (R : Ristretto F G) (m k : Nat) (log : Oracle.Log F) (q : Bytes) : Finset F :=
  ({0, 1, -1} : Finset F) ∪ (guess R log q ∪ (cands log q).biUnion fun c =>
    let P := ptsOf (A.coefAt log q) c.1 c.2.1 c.2.2
    let st := statOf log c.1 c.2.1 c.2.2
    let y := log.hash (pre c.1 c.2.1 2)
    let z := log.hash (R.sBytes y)
    stepBad (lin m P y z) st (64 * m) k (roleOf q c.1 c.2.1 c.2.2) ∪ (zBad P st m k y ∪ yBad P m))

/-- The number of roots for one candidate. -/
def rootBound (k m : Nat) : Nat :=
  (k * (64 * m * 20) + (10 + 64 * m * 20)) + ((k * 2 + ((m + 2) + 64 * m * ((m + 2) + (m + 2)))) + (64 * m + 64 * m))

/-- The number of lucky answers after fewer than `T` questions. -/
def luckBound (k m T : Nat) : Nat := 3 + (T * 3 + T * (3 * (T + 1)) * rootBound k m)

theorem lucky_card {R : Ristretto F G} (E : R.Encodings) (A : AlgProver F G) (m k T : Nat) (log : Oracle.Log F) (q : Bytes)
    (hT : log.length < T) : (lucky A R m k log q).card ≤ luckBound k m T := by
  refine card_union3 Finset.card_le_three (card_union3 ((guess_card E log q).trans (Nat.mul_le_mul_right _ hT)) ?_)
  refine (card_biUnion_const _ _ (rootBound k m) fun c _ => ?_).trans (Nat.mul_le_mul_right _ ((cands_card log q).trans ?_))
  · exact card_union3 (stepBad_card _ _ _ _ _) (card_union3 (zBad_card _ _ _ _ _) (yBad_card _ _))
  · exact Nat.mul_le_mul hT (Nat.mul_le_mul_left _ (by omega))

end Dusk.RP
