import Verif.Lemmas.ListAlg
import Verif.Props.Pedersen
/-!
# C155: what a commitment to vectors determines

`CommitToVectors` adds up the entries of the vectors times the points of one chain for each vector. How long the vectors are, and how many there
are, does not enter.
-/

set_option linter.unusedSectionVars false

namespace Dusk

variable {F G : Type} [Field F] [AddCommGroup G] [Module F G]

/-- Entry `j` of vector `i`; zero if there is none. -/
def entry (vs : List (List F)) (i j : Nat) : F := (vs.getD i []).getD j 0

/-- The point number `j` for vector `i`. -/
def vecPoint (R : Ristretto F G) (data : Bytes) (i j : Nat) : G := chainAt R (vectorSeed data i) j

/-- The entries, as far as `m` vectors of `n` entries, on their points. -/
def entriesSum (R : Ristretto F G) (data : Bytes) (m n : Nat) (e : Nat → Nat → F) : G :=
  ∑ i ∈ Finset.range m, ∑ j ∈ Finset.range n, e i j • vecPoint R data i j

theorem msm_chain (R : Ristretto F G) (seed : Bytes) (v : List F) (n : Nat) (hn : v.length ≤ n) :
    msm v (chain R seed v.length) = ∑ j ∈ Finset.range n, v.getD j 0 • chainAt R seed j := by
  have h : msm v (chain R seed v.length) = ∑ j ∈ Finset.range v.length, v.getD j 0 • chainAt R seed j := by
    rw [msm_eq_sum v _ (by simp [chain])]
    refine Finset.sum_congr rfl fun j hj => ?_
    rw [Finset.mem_range] at hj
    simp [chain, List.getD_eq_getElem?_getD, hj]
  rw [h]
  refine Finset.sum_subset (by simpa using hn) fun j _ hj => ?_
  rw [Finset.mem_range, not_lt] at hj
  rw [List.getD_eq_getElem?_getD, List.getElem?_eq_none hj, Option.getD_none, zero_smul]

theorem vectorsSum_eq (R : Ristretto F G) (data : Bytes) (n : Nat) : ∀ (vs : List (List F)) (i m : Nat), vs.length ≤ m → (∀ v ∈ vs, v.length ≤ n) →
    vectorsSum R data i vs = ∑ k ∈ Finset.range m, ∑ j ∈ Finset.range n, entry vs k j • vecPoint R data (i + k) j
  | [], i, m, _, _ => by simp [vectorsSum, entry]
  | v :: vs, i, 0, h, _ => by simp at h
  | v :: vs, i, m + 1, h, hv => by
    rw [vectorsSum, msm_chain R _ v n (hv v (by simp)), vectorsSum_eq R data n vs (i + 1) m (by simpa using h) fun w hw => hv w (by simp [hw]),
      Finset.sum_range_succ', add_comm]
    congr 1
    refine Finset.sum_congr rfl fun k _ => Finset.sum_congr rfl fun j _ => ?_
    rw [show i + 1 + k = i + (k + 1) by omega]
    rfl

/-- C155: the point of a commitment to one vector or more is the blinding factor times the blinding base plus the entries on their points. -/
theorem C155_value (R : Ristretto F G) (p : Pedersen G) (hp : p.baseVector.OnChain R) (hd : p.baseVector.data = p.genData) (vs : List (List F))
    (hvs : vs ≠ []) (b : F) (m n : Nat) (hm : vs.length ≤ m) (hn : ∀ v ∈ vs, v.length ≤ n) (h32 : ∀ v ∈ vs, v.length < 2 ^ 32) :
    ∃ p', p.commitToVectors R vs b = .ok (⟨b • p.blindPoint + entriesSum R p.genData m n (entry vs), b⟩, p') := by
  obtain ⟨v, ws, rfl⟩ := List.exists_cons_of_ne_nil hvs
  rw [C51_commit R p hp hd v ws b h32]
  rw [vectorsSum_eq R p.genData n (v :: ws) 0 m hm hn]
  simp only [Nat.zero_add]
  exact ⟨_, rfl⟩

example : ∃ p', (Pedersen.new Toy.ris [1]).commitToVectors Toy.ris [[2, 3], [4]] (5 : Toy.K) =
    .ok (⟨(5 : Toy.K) • Toy.ris.base + entriesSum Toy.ris [1] 2 2 (entry [[2, 3], [4]]), 5⟩, p') :=
  C155_value Toy.ris (Pedersen.new Toy.ris [1]) (Gen.onChain_new _ _) rfl [[2, 3], [4]] (by simp) 5 2 2 (by simp) (by simp) (by simp)

/-- C155 (violated): different lists of vectors have different commitments. Vectors with the same entries, whatever their lengths and their number,
have the same commitment: zeros at the end of a vector and vectors of zeros at the end of the list do not count. -/
theorem C155_zeros_violated (R : Ristretto F G) (p : Pedersen G) (hp : p.baseVector.OnChain R) (hd : p.baseVector.data = p.genData)
    (vs ws : List (List F)) (hvs : vs ≠ []) (hws : ws ≠ []) (h32 : ∀ v ∈ vs ++ ws, v.length < 2 ^ 32) (he : entry vs = entry ws) (b : F) :
    ∃ C p' p'', p.commitToVectors R vs b = .ok (C, p') ∧ p.commitToVectors R ws b = .ok (C, p'') := by
  obtain ⟨p', h'⟩ := C155_value R p hp hd vs hvs b (max vs.length ws.length) (2 ^ 32) (by omega)
    (fun v hv => (h32 v (by simp [hv])).le) (fun v hv => h32 v (by simp [hv]))
  obtain ⟨p'', h''⟩ := C155_value R p hp hd ws hws b (max vs.length ws.length) (2 ^ 32) (by omega)
    (fun v hv => (h32 v (by simp [hv])).le) (fun v hv => h32 v (by simp [hv]))
  rw [← he] at h''
  exact ⟨_, p', p'', h', h''⟩

theorem entry_zeros (v : List F) (k : Nat) (vs : List (List F)) (l : Nat) :
    entry ((v ++ List.replicate k 0) :: vs ++ List.replicate l []) = entry (v :: vs) := by
  have h1 : ∀ (a : List F) j, (a ++ List.replicate k 0).getD j 0 = a.getD j 0 := by
    intro a j
    rw [List.getD_eq_getElem?_getD, List.getD_eq_getElem?_getD]
    rcases Nat.lt_or_ge j a.length with h | h
    · rw [List.getElem?_append_left h]
    · rw [List.getElem?_append_right h, List.getElem?_eq_none h, List.getElem?_replicate]
      split <;> rfl
  have h2 : ∀ (a : List (List F)) i, (a ++ List.replicate l []).getD i [] = a.getD i [] := by
    intro a i
    rw [List.getD_eq_getElem?_getD, List.getD_eq_getElem?_getD]
    rcases Nat.lt_or_ge i a.length with h | h
    · rw [List.getElem?_append_left h]
    · rw [List.getElem?_append_right h, List.getElem?_eq_none h, List.getElem?_replicate]
      split <;> rfl
  funext i j
  unfold entry
  rw [h2]
  cases i with
  | zero => exact h1 v j
  | succ i => rfl

/-- For instance zeros behind the first vector and empty vectors behind the last. -/
example (v : List Toy.K) (k : Nat) (vs : List (List Toy.K)) (l : Nat) (b : Toy.K) (hk : v.length + k < 2 ^ 32) (hv : ∀ w ∈ vs, w.length < 2 ^ 32) :
    ∃ C p' p'', (Pedersen.new Toy.ris [1]).commitToVectors Toy.ris ((v ++ List.replicate k 0) :: vs ++ List.replicate l []) b = .ok (C, p') ∧
      (Pedersen.new Toy.ris [1]).commitToVectors Toy.ris (v :: vs) b = .ok (C, p'') := by
  refine C155_zeros_violated Toy.ris _ (Gen.onChain_new _ _) rfl _ _ (by simp) (by simp) ?_ (entry_zeros v k vs l) b
  intro w hw
  simp only [List.cons_append, List.mem_cons, List.mem_append, List.mem_replicate] at hw
  rcases hw with rfl | (hw | ⟨-, rfl⟩) | rfl | hw
  · simpa using hk
  · exact hv w hw
  · simp
  · omega
  · exact hv w hw

theorem entriesSum_sub (R : Ristretto F G) (data : Bytes) (m n : Nat) (e f : Nat → Nat → F) :
    entriesSum R data m n (fun i j => e i j - f i j) = entriesSum R data m n e - entriesSum R data m n f := by
  unfold entriesSum
  rw [← Finset.sum_sub_distrib]
  refine Finset.sum_congr rfl fun i _ => ?_
  rw [← Finset.sum_sub_distrib]
  exact Finset.sum_congr rfl fun j _ => sub_smul _ _ _

/-- Lists of vectors of the same lengths are told apart by their entries. -/
theorem entry_shape {vs ws : List (List F)} (hl : vs.map List.length = ws.map List.length) (hne : vs ≠ ws) :
    ∃ i, i < vs.length ∧ ∃ j, j < (vs.getD i []).length ∧ entry vs i j ≠ entry ws i j := by
  by_contra hcon
  push Not at hcon
  have hlen : vs.length = ws.length := by simpa using congrArg List.length hl
  refine hne (List.ext_getElem hlen fun i h1 h2 => ?_)
  have hli : vs[i].length = ws[i].length := by
    have : (vs.map List.length)[i]'(by simpa using h1) = (ws.map List.length)[i]'(by simpa using h2) := by simp only [hl]
    simpa using this
  have e1 : vs.getD i [] = vs[i] := by simp [List.getD_eq_getElem?_getD, h1]
  have e2 : ws.getD i [] = ws[i] := by simp [List.getD_eq_getElem?_getD, h2]
  refine List.ext_getElem hli fun j g1 g2 => ?_
  have := hcon i h1 j (by rw [e1]; exact g1)
  unfold entry at this
  rw [e1, e2] at this
  simpa [List.getD_eq_getElem?_getD, g1, g2] using this

/-- C155: two commitments have the same point exactly if the differences of the blinding factors and of the entries are a relation between the
blinding base and the points of the chains. For lists of the same shape the relation is not trivial, unless vectors and blinding factors agree. -/
theorem C155_binding (R : Ristretto F G) (p q : Pedersen G) (hp : p.baseVector.OnChain R) (hd : p.baseVector.data = p.genData)
    (hq : q.baseVector.OnChain R) (hd' : q.baseVector.data = q.genData) (hg : q.genData = p.genData) (hb : q.blindPoint = p.blindPoint)
    (vs ws : List (List F)) (hvs : vs ≠ []) (hws : ws ≠ []) (b c : F) (m n : Nat) (hm : vs.length ≤ m ∧ ws.length ≤ m)
    (hn : ∀ v ∈ vs ++ ws, v.length ≤ n) (h32 : ∀ v ∈ vs ++ ws, v.length < 2 ^ 32) :
    ∃ C p' D q', p.commitToVectors R vs b = .ok (C, p') ∧ q.commitToVectors R ws c = .ok (D, q') ∧
      (C.value = D.value ↔ (b - c) • p.blindPoint + entriesSum R p.genData m n (fun i j => entry vs i j - entry ws i j) = 0) ∧
      (vs.map List.length = ws.map List.length → (vs, b) ≠ (ws, c) → b - c ≠ 0 ∨ ∃ i < m, ∃ j < n, entry vs i j - entry ws i j ≠ 0) := by
  obtain ⟨p', h1⟩ := C155_value R p hp hd vs hvs b m n hm.1 (fun v hv => hn v (by simp [hv])) (fun v hv => h32 v (by simp [hv]))
  obtain ⟨q', h2⟩ := C155_value R q hq hd' ws hws c m n hm.2 (fun v hv => hn v (by simp [hv])) (fun v hv => h32 v (by simp [hv]))
  refine ⟨_, p', _, q', h1, h2, ?_, ?_⟩
  · dsimp only
    rw [hg, hb, entriesSum_sub, sub_smul, ← sub_eq_zero (b := c • p.blindPoint + _)]
    constructor <;> intro h <;> rw [← h] <;> abel
  · intro hl hne
    by_cases hbc : b = c
    · have hvw : vs ≠ ws := fun e => hne (by rw [e, hbc])
      obtain ⟨i, hi, j, hj, h⟩ := entry_shape hl hvw
      refine Or.inr ⟨i, by omega, j, lt_of_lt_of_le hj (hn _ ?_), sub_ne_zero.2 h⟩
      rw [List.getD_eq_getElem?_getD, List.getElem?_eq_getElem hi, Option.getD_some]
      exact List.mem_append_left _ (List.getElem_mem hi)
    · exact Or.inl (sub_ne_zero.2 hbc)

/-- The second opening with a value that has grown its bases in between. -/
example : ∃ C p' D q', (Pedersen.new Toy.ris [1]).commitToVectors Toy.ris [[2, 3], [4]] (5 : Toy.K) = .ok (C, p') ∧
    ({ (Pedersen.new Toy.ris [1] : Pedersen Toy.K) with baseVector := (Gen.new [1]).compute Toy.ris 7 } : Pedersen Toy.K).commitToVectors Toy.ris
      [[2, 3], [6]] (5 : Toy.K) = .ok (D, q') ∧
    (C.value = D.value ↔ ((5 : Toy.K) - 5) • Toy.ris.base +
      entriesSum Toy.ris [1] 2 2 (fun i j => entry [[2, 3], [4]] i j - entry [[2, 3], [6]] i j) = 0) := by
  obtain ⟨C, p', D, q', h1, h2, h3, -⟩ := C155_binding Toy.ris (Pedersen.new Toy.ris [1])
    ({ (Pedersen.new Toy.ris [1] : Pedersen Toy.K) with baseVector := (Gen.new [1]).compute Toy.ris 7 } : Pedersen Toy.K)
    (Gen.onChain_new _ _) rfl (by
      show Gen.OnChain Toy.ris ((Gen.new [1]).compute Toy.ris 7)
      rw [Gen.compute_onChain 7 (Gen.onChain_new _ _)]
      simp [Gen.OnChain, Gen.new]) (by
      show ((Gen.new [1]).compute Toy.ris 7).data = [1]
      rw [Gen.compute_onChain 7 (Gen.onChain_new _ _)]
      rfl) rfl rfl [[2, 3], [4]] [[2, 3], [6]] (by simp) (by simp) 5 5 2 2 (by simp) (by simp) (by simp)
  exact ⟨C, p', D, q', h1, h2, h3⟩

/-- C155 (violated): a commitment tells whether it was made by `CommitToScalar` or by `CommitToVectors`. The commitment to a scalar, of a value with any
seed, is the commitment to the vector of this scalar for the seed `blindPoint`. -/
theorem C155_scalar_violated (R : Ristretto F G) (data : Bytes) (v b : F) :
    ∃ p', (Pedersen.new R (strBytes "blindPoint")).commitToVectors R [[v]] b = .ok ((Pedersen.new R data).commitToScalar v b, p') := by
  obtain ⟨p', h⟩ := C155_value R (Pedersen.new R (strBytes "blindPoint")) (Gen.onChain_new _ _) rfl [[v]] (by simp) b 1 1 (by simp) (by simp) (by simp)
  refine ⟨p', ?_⟩
  rw [h]
  simp [entriesSum, entry, vecPoint, vectorSeed, chainAt, Pedersen.commitToScalar, Pedersen.new, add_comm]

example : ∃ p', (Pedersen.new Toy.ris (strBytes "blindPoint")).commitToVectors Toy.ris [[7]] 3 =
    .ok ((Pedersen.new Toy.ris [1, 2]).commitToScalar (7 : Toy.K) 3, p') := C155_scalar_violated Toy.ris [1, 2] 7 3

/-- C155 (violated): a commitment is blinded. Without vectors its point is the neutral element, whatever the blinding factor it reports. With one empty
vector it is the blinding factor times the blinding base. -/
theorem C155_none_violated (R : Ristretto F G) (p : Pedersen G) (hp : p.baseVector.OnChain R) (hd : p.baseVector.data = p.genData) (b : F) :
    (∃ p', p.commitToVectors R [] b = .ok (⟨0, b⟩, p')) ∧ (∃ p', p.commitToVectors R [[]] b = .ok (⟨b • p.blindPoint, b⟩, p')) := by
  refine ⟨⟨p, rfl⟩, ?_⟩
  obtain ⟨p', h⟩ := C155_value R p hp hd [[]] (by simp) b 1 0 (by simp) (by simp) (by simp)
  refine ⟨p', ?_⟩
  rw [h]
  simp [entriesSum]

example : (∃ p', (Pedersen.new Toy.ris [1]).commitToVectors Toy.ris [] (3 : Toy.K) = .ok (⟨0, 3⟩, p')) ∧
    (∃ p', (Pedersen.new Toy.ris [1]).commitToVectors Toy.ris [[]] (3 : Toy.K) = .ok (⟨(3 : Toy.K) • Toy.ris.base, 3⟩, p')) :=
  C155_none_violated Toy.ris (Pedersen.new Toy.ris [1]) (Gen.onChain_new _ _) rfl 3

end Dusk
