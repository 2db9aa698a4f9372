import Verif.Spec.PointOracle
import Verif.Lemmas.RangeProof
import Verif.Props.GenRelations
import Verif.Props.Mlsag
/-!
# C153: what is hashed for different purposes

Generators, bases of key images and all challenges are made with the same two functions `Point.Derive` and `Scalar.Derive`, on strings that do
not say what they are for.
-/

set_option linter.unusedSectionVars false

namespace Dusk

variable {F G : Type} [Field F] [AddCommGroup G] [Module F G]

/-! ## Points -/

theorem chainAt_shift (R : Ristretto F G) (data : Bytes) (i : Nat) : ∀ j, chainAt R (R.pBytes (chainAt R data i)) j = chainAt R data (i + 1 + j)
  | 0 => rfl
  | j + 1 => by
    rw [chainAt, chainAt_shift R data i j]
    rfl

theorem chainAt_inAt (R : Ristretto F G) (data : Bytes) (i : Nat) : chainAt R data i = R.pDerive (PointOracle.inAt R data i) := by
  cases i <;> rfl

/-- C153 (violated): different seeds give different generators. A generator whose seed is the encoding of a point of another chain has the rest
of that chain as its bases. -/
theorem C153_seed_violated (R : Ristretto F G) (data : Bytes) (i n : Nat) :
    ((Gen.new (R.pBytes ((((Gen.new data).compute R (i + 1)).bases.getLast?).getD 0))).compute R n).bases =
      ((Gen.new data).compute R (i + 1 + n)).bases.drop (i + 1) := by
  have h : ∀ (d : Bytes) k, ((Gen.new d).compute R k).bases = chain R d k := by
    intro d k
    rw [Gen.compute_onChain k (Gen.onChain_new R d)]
    simp [Gen.new]
  rw [h, h, h, chain_succ]
  simp only [List.getLast?_append, List.getLast?_singleton, Option.some_or, Option.getD_some]
  apply List.ext_getElem
  · simp
  · intro j h1 h2
    simp only [chain, List.getElem_drop, List.getElem_map, List.getElem_range]
    exact chainAt_shift R data i j

example : ((Gen.new (Toy.ris.pBytes ((((Gen.new (strBytes "dusk.BulletProof.vec1")).compute Toy.ris 3).bases.getLast?).getD 0))).compute Toy.ris 2).bases =
    ((Gen.new (strBytes "dusk.BulletProof.vec1")).compute Toy.ris 5).bases.drop 3 := C153_seed_violated Toy.ris _ 2 2

theorem commit_one (R : Ristretto F G) (d : Bytes) (a : List F) (b : F) (ha : a.length < 2 ^ 32) :
    ∃ p, (Pedersen.new R d).commitToVectors R [a] b = .ok (⟨b • R.base + msm a (chain R d a.length), b⟩, p) := by
  unfold Pedersen.commitToVectors Pedersen.commitVecLoop
  rw [if_pos rfl, Pedersen.commitToScalars_eq (Gen.onChain_new R d) _ _ ha]
  simp only [Res.bind_ok, Pedersen.commitVecLoop, zero_add]
  exact ⟨_, rfl⟩

theorem msm_zeros (v : List F) (l : List G) : ∀ k, k ≤ l.length → msm (List.replicate k 0 ++ v) l = msm v (l.drop k) := by
  intro k
  induction k generalizing l with
  | zero => simp
  | succ k ih =>
    intro hk
    cases l with
    | nil => simp at hk
    | cons p l =>
      rw [List.replicate_succ, List.cons_append, msm_cons, zero_smul, zero_add, ih l (by simpa using hk), List.drop_succ_cons]

/-- C153 (violated): so a commitment says nothing about the seed. What opens to `v` for the seed that is the encoding of generator `i` opens
to `v` behind `i + 1` zeros for the first seed, with the same blinding factor. -/
theorem C153_commitment_violated (R : Ristretto F G) (data : Bytes) (i : Nat) (v : List F) (b : F) (hl : i + 1 + v.length < 2 ^ 32) :
    ∃ C p p', (Pedersen.new R (R.pBytes (chainAt R data i))).commitToVectors R [v] b = .ok (C, p) ∧
      (Pedersen.new R data).commitToVectors R [List.replicate (i + 1) 0 ++ v] b = .ok (C, p') := by
  obtain ⟨p, hp⟩ := commit_one R (R.pBytes (chainAt R data i)) v b (by omega)
  obtain ⟨p', hp'⟩ := commit_one R data (List.replicate (i + 1) 0 ++ v) b (by simpa using hl)
  refine ⟨_, p, p', hp, ?_⟩
  rw [hp']
  congr 4
  rw [msm_zeros v _ (i + 1) (by simp)]
  congr 1
  apply List.ext_getElem
  · simp
  · intro j h1 h2
    simp only [chain, List.getElem_drop, List.getElem_map, List.getElem_range]
    exact (chainAt_shift R data i j).symm

example : ∃ C p p', (Pedersen.new Toy.ris (Toy.ris.pBytes (chainAt Toy.ris (strBytes "dusk.BulletProof.vec1") 1))).commitToVectors Toy.ris
      [[5, 7]] 3 = .ok (C, p) ∧
    (Pedersen.new Toy.ris (strBytes "dusk.BulletProof.vec1")).commitToVectors Toy.ris [[0, 0, 5, 7]] 3 = .ok (C, p') :=
  C153_commitment_violated Toy.ris (strBytes "dusk.BulletProof.vec1") 1 [5, 7] 3 (by norm_num)

/-- C153 (violated): the base of a key image is the first generator of the seed that is the encoding of the key. A commitment to the secret key
for this seed is the key image of the key plus a multiple of the base point, so with its blinding factor it gives the key image away. -/
theorem C153_image_violated (R : Ristretto F G) (x b : F) :
    ∃ C p, (Pedersen.new R (R.pBytes (x • R.base))).commitToVectors R [[x]] b = .ok (C, p) ∧
      C.value - b • R.base = Mlsag.calculateKeyImage R x (x • R.base) := by
  obtain ⟨p, hp⟩ := commit_one R (R.pBytes (x • R.base)) [x] b (by simp)
  exact ⟨_, p, hp, by simp [chain, chainAt, Mlsag.calculateKeyImage]⟩

example : ∃ C p, (Pedersen.new Toy.ris (Toy.ris.pBytes ((5 : Toy.K) • Toy.ris.base))).commitToVectors Toy.ris [[5]] 3 = .ok (C, p) ∧
    C.value - (3 : Toy.K) • Toy.ris.base = Mlsag.calculateKeyImage Toy.ris 5 ((5 : Toy.K) • Toy.ris.base) := C153_image_violated Toy.ris 5 3

/-- C153: two chains meet only in the ways above. If generator `i` of one seed is generator `j` of another, then it is the same place of the same
chain, or one of the seeds is the encoding of a point of the other chain, as far before as the places tell, or at two places equally far before,
`Point.Derive` has the same value for two different strings. -/
theorem C153_meet {R : Ristretto F G} (E : R.Encodings) (data data' : Bytes) : ∀ (i j : Nat), chainAt R data i = chainAt R data' j →
    (data = data' ∧ i = j) ∨ (∃ k, data = R.pBytes (chainAt R data' k) ∧ j = i + k + 1) ∨
    (∃ k, data' = R.pBytes (chainAt R data k) ∧ i = j + k + 1) ∨
    ∃ d, d ≤ i ∧ d ≤ j ∧ PointOracle.inAt R data (i - d) ≠ PointOracle.inAt R data' (j - d) ∧
      R.pDerive (PointOracle.inAt R data (i - d)) = R.pDerive (PointOracle.inAt R data' (j - d)) := by
  intro i j h
  by_cases hne : PointOracle.inAt R data i = PointOracle.inAt R data' j
  · match i, j, h, hne with
    | 0, 0, h, hne => exact Or.inl ⟨hne, rfl⟩
    | 0, j + 1, h, hne => exact Or.inr (Or.inl ⟨j, hne, by omega⟩)
    | i + 1, 0, h, hne => exact Or.inr (Or.inr (Or.inl ⟨i, hne.symm, by omega⟩))
    | i + 1, j + 1, h, hne =>
      rcases C153_meet E data data' i j (E.pBytes_inj hne) with ⟨h1, h2⟩ | ⟨k, h1, h2⟩ | ⟨k, h1, h2⟩ | ⟨d, h1, h2, h3, h4⟩
      · exact Or.inl ⟨h1, by omega⟩
      · exact Or.inr (Or.inl ⟨k, h1, by omega⟩)
      · exact Or.inr (Or.inr (Or.inl ⟨k, h1, by omega⟩))
      · refine Or.inr (Or.inr (Or.inr ⟨d + 1, by omega, by omega, ?_, ?_⟩))
        · rwa [Nat.add_sub_add_right, Nat.add_sub_add_right]
        · rwa [Nat.add_sub_add_right, Nat.add_sub_add_right]
  · refine Or.inr (Or.inr (Or.inr ⟨0, by omega, by omega, hne, ?_⟩))
    rw [Nat.sub_zero, Nat.sub_zero, ← chainAt_inAt, ← chainAt_inAt, h]

example : chainAt Toy.ris (Toy.ris.pBytes (chainAt Toy.ris (strBytes "blindPoint") 2)) 4 = chainAt Toy.ris (strBytes "blindPoint") 7 :=
  chainAt_shift Toy.ris _ 2 4

/-- A collision is one of the ways: the chains of the two seeds `[1]` and `[1, 0]` meet for a hash that reads a number. -/
example : Toy.ris.pDerive [1] = Toy.ris.pDerive [1, 0] ∧ chainAt Toy.ris [1] 3 = chainAt Toy.ris [1, 0] 3 := by
  have h : Toy.ris.pDerive [1] = Toy.ris.pDerive [1, 0] := by decide +kernel
  exact ⟨h, by simp only [chainAt, h]⟩

/-- The seeds of the library: the value base, and the two chains of the range proofs. -/
def seeds : List Bytes := [strBytes "blindPoint", strBytes "dusk.BulletProof.vec1", strBytes "dusk.BulletProof.vec1" ++ [1]]

theorem seeds_ne {R : Ristretto F G} (E : R.Encodings) {s : Bytes} (hs : s ∈ seeds) (P : G) : s ≠ R.pBytes P := by
  intro h
  have h := congrArg List.length h
  rw [E.pBytes_length] at h
  obtain ⟨s1, s2, s3⟩ := PointOracle.seeds_length
  simp only [seeds, List.mem_cons, List.not_mem_nil, or_false] at hs
  rcases hs with rfl | rfl | rfl <;> omega

/-- C153: the points of the range proofs, and what `Compute` would append to them, are pairwise different, or `Point.Derive` has the same value
for two different strings, which the chains contain. -/
theorem C153_library {R : Ristretto F G} (E : R.Encodings) {s s' : Bytes} (hs : s ∈ seeds) (hs' : s' ∈ seeds) (i j : Nat)
    (h : chainAt R s i = chainAt R s' j) : (s = s' ∧ i = j) ∨
      ∃ d, d ≤ i ∧ d ≤ j ∧ PointOracle.inAt R s (i - d) ≠ PointOracle.inAt R s' (j - d) ∧
        R.pDerive (PointOracle.inAt R s (i - d)) = R.pDerive (PointOracle.inAt R s' (j - d)) := by
  rcases C153_meet E s s' i j h with h | ⟨k, h, -⟩ | ⟨k, h, -⟩ | h
  · exact Or.inl h
  · exact absurd h (seeds_ne E hs _)
  · exact absurd h (seeds_ne E hs' _)
  · exact Or.inr h

/-- The first points of the three chains are different for a hash that reads a number, and with a constant hash they are not: both cases occur. -/
example : (chainAt Toy.ris (strBytes "blindPoint") 0 ≠ chainAt Toy.ris (strBytes "dusk.BulletProof.vec1") 0 ∧
    chainAt Toy.ris (strBytes "dusk.BulletProof.vec1") 0 ≠ chainAt Toy.ris (strBytes "dusk.BulletProof.vec1" ++ [1]) 0) ∧
    chainAt (Toy.ris.withPoints fun _ => 1) (strBytes "blindPoint") 2 =
      chainAt (Toy.ris.withPoints fun _ => 1) (strBytes "dusk.BulletProof.vec1") 5 := by
  refine ⟨?_, rfl⟩
  constructor <;> decide +kernel

/-- C153: the base of a key image is one of these points only if the key is the point before it, or `Point.Derive` has the same value for two
different strings. -/
theorem C153_image_library {R : Ristretto F G} (E : R.Encodings) {s : Bytes} (hs : s ∈ seeds) (i : Nat) (K : G) :
    R.pDerive (R.pBytes K) = chainAt R s i ↔ (∃ j, i = j + 1 ∧ K = chainAt R s j) ∨
      (PointOracle.inAt R s i ≠ R.pBytes K ∧ R.pDerive (PointOracle.inAt R s i) = R.pDerive (R.pBytes K)) := by
  constructor
  · intro h
    by_cases hne : PointOracle.inAt R s i = R.pBytes K
    · match i, h, hne with
      | 0, h, hne => exact absurd hne (seeds_ne E hs K)
      | i + 1, h, hne => exact Or.inl ⟨i, rfl, (E.pBytes_inj hne).symm⟩
    · exact Or.inr ⟨hne, by rw [← chainAt_inAt, h]⟩
  · rintro (⟨j, rfl, rfl⟩ | ⟨-, h⟩)
    · rfl
    · rw [chainAt_inAt, h]

example : Toy.ris.pDerive (Toy.ris.pBytes (chainAt Toy.ris (strBytes "blindPoint") 4)) = chainAt Toy.ris (strBytes "blindPoint") 5 :=
  (C153_image_library Toy.ris_encodings (by simp [seeds]) 5 _).2 (Or.inl ⟨4, rfl, rfl⟩)

/-! ## Challenges -/

/-- The message that a ring signature must have to ask for the challenge `y` of a range proof. -/
def yMsg (R : Ristretto F G) (p : RP.Proof F G) : Bytes := p.V.flatMap fun V => R.pBytes V.value

/-- The message that a ring signature must have to ask for the challenge `x` of a range proof. -/
def xMsg (R : Ristretto F G) (p : RP.Proof F G) : Bytes :=
  yMsg R p ++ R.pBytes p.A ++ R.pBytes p.S ++ R.sBytes (RP.chalOf R p).z

/-- The key and the image for which a response and a challenge give two points. -/
def keyFor (R : Ristretto F G) (A : G) (r c : F) : G := c⁻¹ • (A - r • R.base)

def imageFor (R : Ristretto F G) (A S : G) (r c : F) : G := c⁻¹ • (S - r • R.pDerive (R.pBytes (keyFor R A r c)))

/-- C153: a member of a ring with one key asks for the challenge `y` of a range proof exactly if the message is the encodings of the commitments
and its two points are `A` and `S`. -/
theorem C153_query {R : Ristretto F G} (E : R.Encodings) (msg pre : Bytes) (A S K I : G) (r c : F) :
    Mlsag.query R msg [I] [K] [r] c = pre ++ R.pBytes A ++ R.pBytes S ↔
      msg = pre ∧ r • R.base + c • K = A ∧ r • R.pDerive (R.pBytes K) + c • I = S := by
  have h : Mlsag.query R msg [I] [K] [r] c =
      msg ++ R.pBytes (r • R.base + c • K) ++ R.pBytes (r • R.pDerive (R.pBytes K) + c • I) := by simp [Mlsag.query]
  rw [h]
  constructor
  · intro h
    obtain ⟨h1, h2⟩ := List.append_inj' h (by rw [E.pBytes_length, E.pBytes_length])
    obtain ⟨h3, h4⟩ := List.append_inj' h1 (by rw [E.pBytes_length, E.pBytes_length])
    exact ⟨h3, E.pBytes_inj h4, E.pBytes_inj h2⟩
  · rintro ⟨rfl, rfl, rfl⟩
    rfl

example : Mlsag.query Toy.ris [9] [2] [3] [4] 5 = [9] ++ Toy.ris.pBytes ((4 : Toy.K) • Toy.ris.base + (5 : Toy.K) • (3 : Toy.K)) ++
    Toy.ris.pBytes ((4 : Toy.K) • Toy.ris.pDerive (Toy.ris.pBytes 3) + (5 : Toy.K) • (2 : Toy.K)) :=
  (C153_query Toy.ris_encodings [9] [9] _ _ 3 2 4 5).2 ⟨rfl, rfl, rfl⟩

theorem query_for (R : Ristretto F G) (msg : Bytes) (A S : G) (r : F) {c : F} (hc : c ≠ 0) :
    Mlsag.query R msg [imageFor R A S r c] [keyFor R A r c] [r] c = msg ++ R.pBytes A ++ R.pBytes S := by
  have h1 : c • keyFor R A r c = A - r • R.base := smul_inv_smul₀ hc _
  have h2 : c • imageFor R A S r c = S - r • R.pDerive (R.pBytes (keyFor R A r c)) := smul_inv_smul₀ hc _
  simp [Mlsag.query, h1, h2]

theorem verify_for [DecidableEq F] (R : Ristretto F G) (msg : Bytes) (A S : G) (r : F)
    (hc : R.sDerive (msg ++ R.pBytes A ++ R.pBytes S) ≠ 0) :
    (⟨R.sDerive (msg ++ R.pBytes A ++ R.pBytes S), [[r]], [⟨false, [keyFor R A r (R.sDerive (msg ++ R.pBytes A ++ R.pBytes S))]⟩], msg⟩ :
      Mlsag.Signature F G).verify R [imageFor R A S r (R.sDerive (msg ++ R.pBytes A ++ R.pBytes S))] = .ok true := by
  rw [Mlsag.C17_single R _ _ rfl (by simp) (by simp) (by simp [Mlsag.Fits, Mlsag.ringOf])]
  have h := congrArg R.sDerive (query_for R msg A S r hc)
  show Mlsag.link R msg _ _ _ (Mlsag.link R msg _ _ _ _) = _
  unfold Mlsag.link
  rw [h]
  exact h

/-- C153 (violated): the challenges of a range proof are challenges of ring signatures. For every range proof and every response, the message of
the encodings of its commitments has a signature by one member with the challenge `y` of the range proof, and the message that goes on to `z`
one with the challenge `x`, which `Verify` accepts. -/
theorem C153_challenge_violated [DecidableEq F] (R : Ristretto F G) (p : RP.Proof F G) (r : F) :
    ((RP.verifyChallenges R p).1 ≠ 0 →
      (⟨(RP.verifyChallenges R p).1, [[r]], [⟨false, [keyFor R p.A r (RP.verifyChallenges R p).1]⟩], yMsg R p⟩ : Mlsag.Signature F G).verify R
        [imageFor R p.A p.S r (RP.verifyChallenges R p).1] = .ok true) ∧
    ((RP.verifyChallenges R p).2.2.1 ≠ 0 →
      (⟨(RP.verifyChallenges R p).2.2.1, [[r]], [⟨false, [keyFor R p.T1 r (RP.verifyChallenges R p).2.2.1]⟩], xMsg R p⟩ :
        Mlsag.Signature F G).verify R [imageFor R p.T1 p.T2 r (RP.verifyChallenges R p).2.2.1] = .ok true) := by
  rw [RP.verifyChallenges_eq]
  exact ⟨verify_for R (yMsg R p) p.A p.S r, verify_for R (xMsg R p) p.T1 p.T2 r⟩

/-- With a hash that is never zero, every range proof gives both signatures. -/
example (p : RP.Proof Toy.K Toy.K) (r : Toy.K) : (RP.verifyChallenges Toy.ris p).1 ≠ 0 ∧ (RP.verifyChallenges Toy.ris p).2.2.1 ≠ 0 ∧
    (⟨(RP.verifyChallenges Toy.ris p).1, [[r]], [⟨false, [keyFor Toy.ris p.A r (RP.verifyChallenges Toy.ris p).1]⟩], yMsg Toy.ris p⟩ :
      Mlsag.Signature Toy.K Toy.K).verify Toy.ris [imageFor Toy.ris p.A p.S r (RP.verifyChallenges Toy.ris p).1] = .ok true := by
  have h1 : (RP.verifyChallenges Toy.ris p).1 ≠ 0 := by rw [RP.verifyChallenges_eq]; exact Toy.dv_ne_zero _
  have h2 : (RP.verifyChallenges Toy.ris p).2.2.1 ≠ 0 := by rw [RP.verifyChallenges_eq]; exact Toy.dv_ne_zero _
  exact ⟨h1, h2, (C153_challenge_violated Toy.ris p r).1 h1⟩

/-- C153 (violated): so are the challenges of an inner product proof: challenge `j` is the one of a signature by one member of the encodings of
the points of the rounds before. -/
theorem C153_inner_violated [DecidableEq F] (R : Ristretto F G) (ip : IP.Proof F G) (r : F) (j : Nat) (h1 : j < ip.L.length)
    (h2 : j < ip.R.length) {c : F} (hj : (IP.chalLoop R {} (ip.L.zip ip.R))[j]? = some c) (hc : c ≠ 0) :
    (⟨c, [[r]], [⟨false, [keyFor R ip.L[j] r c]⟩], ((ip.L.zip ip.R).take j).flatMap fun p => R.pBytes p.1 ++ R.pBytes p.2⟩ :
      Mlsag.Signature F G).verify R [imageFor R ip.L[j] ip.R[j] r c] = .ok true := by
  have e : c = R.sDerive ((((ip.L.zip ip.R).take j).flatMap fun p => R.pBytes p.1 ++ R.pBytes p.2) ++ R.pBytes ip.L[j] ++
      R.pBytes ip.R[j]) := by
    have hl : j < (ip.L.zip ip.R).length := by simp; omega
    rw [IP.chalLoop_eq, List.getElem?_map, List.getElem?_range (by simpa using hl)] at hj
    simp only [Option.map_some, Option.some.injEq] at hj
    rw [← hj, List.take_add_one, List.getElem?_eq_getElem hl]
    simp
  subst e
  exact verify_for R _ _ _ r hc

example : ∃ c, (IP.chalLoop Toy.ris {} (([2, 3] : List Toy.K).zip [4, 5]))[1]? = some c ∧ c ≠ 0 ∧
    (⟨c, [[6]], [⟨false, [keyFor Toy.ris 3 6 c]⟩], Toy.ris.pBytes 2 ++ Toy.ris.pBytes 4⟩ : Mlsag.Signature Toy.K Toy.K).verify Toy.ris
      [imageFor Toy.ris 3 5 6 c] = .ok true := by
  refine ⟨_, rfl, Toy.dv_ne_zero _, ?_⟩
  have h := C153_inner_violated Toy.ris ⟨[2, 3], [4, 5], 0, 0⟩ 6 1 (by simp) (by simp) rfl (Toy.dv_ne_zero _)
  exact h

end Dusk
