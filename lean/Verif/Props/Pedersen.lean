import Verif.Lemmas.Pedersen
/-!
# C49–C52: generators, Pedersen commitments, Fiat–Shamir cache
-/

set_option linter.unusedSectionVars false

namespace Dusk

variable {F G : Type} [Field F] [AddCommGroup G] [Module F G]

/-! ## C49 -/

/-- Calls on a generator. -/
inductive GenOp where
  | compute (n : Nat)
  | iterate
  | clear

/-- One call (`Iterate` returns a point and does not change the generator). -/
def GenOp.run (R : Ristretto F G) (g : Gen G) : GenOp → Gen G
  | .compute n => g.compute R n
  | .iterate => g
  | .clear => g.clear

/-- Specification: number of points computed since the last `Clear`, starting from `k`. -/
def computed (k : Nat) : List GenOp → Nat
  | [] => k
  | .compute n :: ops => computed (k + n) ops
  | .iterate :: ops => computed k ops
  | .clear :: ops => computed 0 ops

/-- C49: after any history of calls on a new generator, its bases are the first `k` elements of the chain of
`data`, where `k` is the total computed since the last `Clear`; `Iterate` returns the next chain element. -/
theorem C49_chain (R : Ristretto F G) (data : Bytes) (ops : List GenOp) :
    let g := ops.foldl (GenOp.run R) (Gen.new data)
    g.data = data ∧ g.bases = chain R data (computed 0 ops) ∧
      g.iterate R = chainAt R data (computed 0 ops) := by
  have key : ∀ (ops : List GenOp) (g : Gen G) (k : Nat), g = ⟨data, chain R data k⟩ →
      ops.foldl (GenOp.run R) g = ⟨data, chain R data (computed k ops)⟩ := by
    intro ops
    induction ops with
    | nil => intro g k h; simpa [computed] using h
    | cons o ops ih =>
      intro g k h
      have hg : g.OnChain R := by subst h; simp [Gen.OnChain]
      rw [List.foldl_cons]
      cases o with
      | compute n =>
        apply ih; subst h
        simp [GenOp.run, Gen.compute_onChain n hg]
      | iterate => exact ih _ k h
      | clear => apply ih _ 0; subst h; rfl
  have h := key ops (Gen.new data) 0 rfl
  intro g
  have hg : g = ⟨data, chain R data (computed 0 ops)⟩ := h
  refine ⟨by rw [hg], by rw [hg], ?_⟩
  rw [Gen.iterate_onChain (by rw [hg]; simp [Gen.OnChain]), hg]
  simp

/-- C49: batches can be split arbitrarily. -/
theorem C49_split (R : Ristretto F G) (g : Gen G) (hg : g.OnChain R) (m n : Nat) :
    (g.compute R m).compute R n = g.compute R (m + n) := by
  rw [Gen.compute_onChain m hg, Gen.compute_onChain (m + n) hg, Gen.compute_onChain n (by simp [Gen.OnChain])]
  simp [Nat.add_assoc]

/-- C49: different call patterns with the same total give the same bases. -/
example (R : Ristretto F G) (d : Bytes) :
    ([.compute 2, .iterate, .compute 3].foldl (GenOp.run R) (Gen.new d : Gen G)).bases =
    ([.compute 7, .clear, .compute 5].foldl (GenOp.run R) (Gen.new d : Gen G)).bases := by
  rw [(C49_chain R d _).2.1, (C49_chain R d _).2.1]; rfl
example (R : Ristretto F G) (d : Bytes) : (Gen.new d : Gen G).OnChain R := Gen.onChain_new R d

/-! ## C50 -/

/-- C50: a commitment opens to its value and the returned blinding factor. -/
theorem C50_open (R : Ristretto F G) (data : Bytes) (v blind : F) :
    let c := (Pedersen.new R data).commitToScalar v blind
    c.value = v • R.pDerive (strBytes "blindPoint") + c.blindingFactor • R.base ∧
    c.blindingFactor = blind := ⟨rfl, rfl⟩

example (data : Bytes) : ((Pedersen.new Toy.ris data).commitToScalar (2 : Toy.K) 3).value =
    (2 : Toy.K) • Toy.ris.pDerive (strBytes "blindPoint") + (3 : Toy.K) • Toy.ris.base := (C50_open Toy.ris data 2 3).1

/-- C50: sums of commitments are commitments to the sums, for any number of commitments. -/
theorem C50_homomorphic (p : Pedersen G) (l : List (F × F)) :
    (l.map fun x => (p.commitToScalar x.1 x.2).value).sum =
      (p.commitToScalar (l.map Prod.fst).sum (l.map Prod.snd).sum).value := by
  induction l with
  | nil => simp [Pedersen.commitToScalar]
  | cons x l ih =>
    simp only [List.map_cons, List.sum_cons, ih]
    simp only [Pedersen.commitToScalar]
    module

example (p : Pedersen Toy.K) : (p.commitToScalar (2 : Toy.K) 3).value + ((p.commitToScalar (5 : Toy.K) 7).value + (p.commitToScalar (1 : Toy.K) 1).value) =
    (p.commitToScalar (2 + (5 + 1) : Toy.K) (3 + (7 + 1))).value := by
  simpa using C50_homomorphic p [((2 : Toy.K), 3), (5, 7), (1, 1)]

/-- C50: two openings of one point with different values yield the discrete logarithm of the value base with
respect to the blinding base. -/
theorem C50_binding (p : Pedersen G) (v b v' b' : F)
    (h : (p.commitToScalar v b).value = (p.commitToScalar v' b').value) (hv : v ≠ v') :
    p.basePoint = ((b' - b) / (v - v')) • p.blindPoint := by
  simp only [Pedersen.commitToScalar] at h
  have hd : v - v' ≠ 0 := sub_ne_zero.2 hv
  have h1 : (v - v') • p.basePoint = (b' - b) • p.blindPoint := by
    rw [sub_smul, sub_smul, sub_eq_sub_iff_add_eq_add, h]
    exact add_comm _ _
  rw [div_eq_inv_mul, mul_smul, ← h1, smul_smul, inv_mul_cancel₀ hd, one_smul]

/-- C50: with a nonzero blinding base, one value can be committed to the same point with one blinding only. -/
theorem C50_blinding_unique (p : Pedersen G) (hp : p.blindPoint ≠ 0) (v b b' : F)
    (h : (p.commitToScalar v b).value = (p.commitToScalar v b').value) : b = b' := by
  simp only [Pedersen.commitToScalar, add_right_inj] at h
  have : (b - b') • p.blindPoint = 0 := by rw [sub_smul, h, sub_self]
  rcases smul_eq_zero.1 this with h | h
  · exact sub_eq_zero.1 h
  · exact absurd h hp

/-- C50 (hiding): for every other value there is a blinding giving the same point, whenever the value base is a
multiple of the blinding base (as in a cyclic group). -/
theorem C50_hiding (p : Pedersen G) (k : F) (hk : p.basePoint = k • p.blindPoint) (v b v' : F) :
    (p.commitToScalar v' (b + (v - v') * k)).value = (p.commitToScalar v b).value := by
  simp only [Pedersen.commitToScalar, hk]
  module

/-- Two openings with different values exist in the concrete (discrete-log-free) instance. -/
example : ∃ v b v' b' : Toy.K, v ≠ v' ∧
    ((Pedersen.new Toy.ris [1]).commitToScalar v b).value = ((Pedersen.new Toy.ris [1]).commitToScalar v' b').value := by
  refine ⟨0, Toy.dv (strBytes "blindPoint"), 1, 0, zero_ne_one, ?_⟩
  simp [Pedersen.commitToScalar, Pedersen.new, Toy.ris]
example : (Pedersen.new Toy.ris [1]).blindPoint ≠ 0 := by
  simp [Pedersen.new, Toy.ris]

/-! ## C51 -/

/-- Specification: seed of the generator chain of the `i`-th vector. -/
def vectorSeed (data : Bytes) (i : Nat) : Bytes :=
  if i = 0 then data else data ++ [UInt8.ofNat i]

/-- Specification: `∑ᵢ <vᵢ, chain(seed i)>` for vectors numbered from `i` on. -/
def vectorsSum (R : Ristretto F G) (data : Bytes) : Nat → List (List F) → G
  | _, [] => 0
  | i, v :: vs => msm v (chain R (vectorSeed data i) v.length) + vectorsSum R data (i + 1) vs

theorem commitVecLoop_tail (R : Ristretto F G) (blind : F) : ∀ (vs : List (List F)) (i : Nat)
    (p : Pedersen G) (s : G), 1 ≤ i → (∀ v ∈ vs, v.length < 2 ^ 32) →
    Pedersen.commitVecLoop R blind i vs p s = .ok (s + vectorsSum R p.genData i vs, p)
  | [], i, p, s, _, _ => by simp [Pedersen.commitVecLoop, vectorsSum]
  | v :: vs, i, p, s, hi, hv => by
    rw [Pedersen.commitVecLoop, if_neg (by omega),
      Pedersen.commitToScalars_eq (Gen.onChain_new R _) none v (hv v (by simp))]
    simp only [Res.bind_ok, Pedersen.new, Gen.new, zero_add]
    rw [commitVecLoop_tail R blind vs (i + 1) p _ (by omega) fun w hw => hv w (by simp [hw])]
    simp only [vectorsSum, vectorSeed, if_neg (show i ≠ 0 by omega), add_assoc]

/-- C51: `CommitToVectors` on at least one vector never fails and returns
`blind * Blind + ∑ᵢ <vᵢ, chain(seed i)>` with that blinding factor; the base vector of the receiver grows to
`max(existing, len v₀)` elements of its chain and nothing else changes. -/
theorem C51_commit (R : Ristretto F G) (p : Pedersen G) (hp : p.baseVector.OnChain R)
    (hd : p.baseVector.data = p.genData) (v : List F) (vs : List (List F)) (blind : F)
    (hv : ∀ w ∈ v :: vs, w.length < 2 ^ 32) :
    p.commitToVectors R (v :: vs) blind =
      .ok (⟨blind • p.blindPoint + vectorsSum R p.genData 0 (v :: vs), blind⟩,
        { p with baseVector := ⟨p.genData, chain R p.genData (max p.baseVector.bases.length v.length)⟩ }) := by
  unfold Pedersen.commitToVectors
  rw [Pedersen.commitVecLoop, if_pos rfl, Pedersen.commitToScalars_eq hp (some blind) v (hv v (by simp))]
  simp only [Res.bind_ok]
  rw [commitVecLoop_tail R blind vs 1 _ _ le_rfl fun w hw => hv w (by simp [hw])]
  simp only [Res.bind_ok, vectorsSum, vectorSeed, if_true, hd, zero_add, add_assoc]

/-- C51 (corner case): without vectors the returned point is zero whatever the returned blinding factor. -/
theorem C51_empty (R : Ristretto F G) (p : Pedersen G) (blind : F) :
    p.commitToVectors R [] blind = .ok (⟨0, blind⟩, p) := rfl

example (p : Pedersen Toy.K) : p.commitToVectors Toy.ris [] (3 : Toy.K) = .ok (⟨0, 3⟩, p) := C51_empty Toy.ris p 3

/-- C51: the seeds of the first 256 vectors are pairwise distinct. -/
theorem C51_seeds_distinct (data : Bytes) (i j : Nat) (hi : i < 256) (hj : j < 256)
    (h : vectorSeed data i = vectorSeed data j) : i = j := by
  unfold vectorSeed at h
  split at h <;> split at h
  · omega
  · have := congrArg List.length h; simp at this
  · have := congrArg List.length h; simp at this
  · simp only [List.append_cancel_left_eq, List.cons.injEq, and_true] at h
    have := congrArg UInt8.toNat h
    simp only [UInt8.toNat_ofNat'] at this
    omega

/-- C51 (violation): from the 257th vector on, chains repeat: vector `i + 256` uses the seed of vector `i`. -/
theorem C51_seeds_repeat_violated (data : Bytes) (i : Nat) (hi : 1 ≤ i) :
    vectorSeed data (i + 256) = vectorSeed data i := by
  unfold vectorSeed
  rw [if_neg (by omega), if_neg (by omega)]
  congr 2
  apply UInt8.toNat_inj.1
  simp

/-- C51 (violation): consequently two different lists of 258 vectors have the same commitment. -/
theorem C51_collision_violated (R : Ristretto F G) (data : Bytes) (blind : F) :
    ∃ vs ws : List (List F), vs.length = 258 ∧ ws.length = 258 ∧ vs ≠ ws ∧
      ((Pedersen.new R data).commitToVectors R vs blind).map Prod.fst =
      ((Pedersen.new R data).commitToVectors R ws blind).map Prod.fst := by
  have tail : ∀ (n i : Nat) (c : F), vectorsSum R data i (List.replicate n [] ++ [[c]]) =
      msm [c] (chain R (vectorSeed data (i + n)) 1) := by
    intro n
    induction n with
    | zero => intro i c; simp [vectorsSum]
    | succ n ih =>
      intro i c
      rw [List.replicate_succ, List.cons_append, vectorsSum, ih]
      simp only [List.length_nil, msm_nil_left, zero_add]
      rw [Nat.add_right_comm, Nat.add_assoc]
  let vs : List (List F) := [] :: [1] :: (List.replicate 255 [] ++ [[0]])
  let ws : List (List F) := [] :: [0] :: (List.replicate 255 [] ++ [[1]])
  have hlen : ∀ c d : F, ∀ w ∈ ([] : List F) :: [c] :: (List.replicate 255 [] ++ [[d]]), w.length < 2 ^ 32 := by
    intro c d w hw
    simp only [List.mem_cons, List.mem_append, List.mem_replicate, List.not_mem_nil, or_false] at hw
    rcases hw with rfl | rfl | ⟨-, rfl⟩ | rfl <;> simp
  have hs : ∀ c d : F, vectorsSum R data 0 ([] :: [c] :: (List.replicate 255 [] ++ [[d]])) =
      (c + d) • chainAt R (vectorSeed data 1) 0 := by
    intro c d
    rw [vectorsSum, vectorsSum, tail, show 0 + 1 + 1 + 255 = 1 + 256 by rfl,
      C51_seeds_repeat_violated data 1 le_rfl]
    simp [chain, add_smul]
  have hl : ∀ c d : F, (([] : List F) :: [c] :: (List.replicate 255 [] ++ [[d]])).length = 258 := by
    intro c d
    simp only [List.length_cons, List.length_append, List.length_replicate, List.length_nil]
  refine ⟨vs, ws, hl _ _, hl _ _, ?_, ?_⟩
  · intro h
    have h1 := (List.cons.inj (List.cons.inj h).2).1
    exact one_ne_zero (List.cons.inj h1).1
  · rw [C51_commit R _ (Gen.onChain_new R _) rfl _ _ _ (hlen 1 0),
      C51_commit R _ (Gen.onChain_new R _) rfl _ _ _ (hlen 0 1)]
    simp only [Res.map_ok, Pedersen.new]
    rw [hs, hs, add_comm (1 : F) 0]

example : ∃ vs ws : List (List Toy.K), vs ≠ ws ∧ ((Pedersen.new Toy.ris [1]).commitToVectors Toy.ris vs 3).map Prod.fst =
    ((Pedersen.new Toy.ris [1]).commitToVectors Toy.ris ws 3).map Prod.fst :=
  let ⟨vs, ws, _, _, h, e⟩ := C51_collision_violated Toy.ris [1] (3 : Toy.K)
  ⟨vs, ws, h, e⟩

/-- The hypotheses of `C51_commit` hold for a new `Pedersen` value. -/
example (R : Ristretto F G) (d : Bytes) : (Pedersen.new R d).baseVector.OnChain R ∧
    (Pedersen.new R d).baseVector.data = (Pedersen.new R d).genData := ⟨Gen.onChain_new R d, rfl⟩

/-! ## C52 -/

/-- Calls on a hash cacher. -/
inductive FSOp where
  | append (vals : List Bytes)
  | clear

def FSOp.run (h : HashCacher) : FSOp → HashCacher
  | .append v => h.append v
  | .clear => h.clear

/-- Specification: everything appended since the last `Clear`, starting from `acc`. -/
def appended (acc : Bytes) : List FSOp → Bytes
  | [] => acc
  | .append vals :: ops => appended (acc ++ vals.flatten) ops
  | .clear :: ops => appended [] ops

theorem HashCacher.append_cache : ∀ (vals : List Bytes) (h : HashCacher),
    (h.append vals).cache = h.cache ++ vals.flatten
  | [], h => by simp [HashCacher.append]
  | v :: vals, h => by
    have := HashCacher.append_cache vals ⟨h.cache ++ v⟩
    simp only [HashCacher.append, List.foldl_cons] at this ⊢
    rw [this]; simp

/-- C52: after any history the cache is the concatenation of all values since the last `Clear`, and `Derive` is
the hash of it. -/
theorem C52_cache (R : Ristretto F G) (h : HashCacher) (ops : List FSOp) :
    (ops.foldl FSOp.run h).result = appended h.cache ops ∧
    (ops.foldl FSOp.run h).derive R = R.sDerive (appended h.cache ops) := by
  have key : (ops.foldl FSOp.run h).cache = appended h.cache ops := by
    induction ops generalizing h with
    | nil => rfl
    | cons o ops ih =>
      rw [List.foldl_cons, ih]
      cases o with
      | append v => rw [FSOp.run, HashCacher.append_cache]; rfl
      | clear => rfl
  exact ⟨key, by rw [HashCacher.derive, key]⟩

/-- C52 (no domain separation): two ways of cutting the same bytes into values give the same challenge. -/
theorem C52_no_domain_separation (R : Ristretto F G) (h : HashCacher) (vals vals' : List Bytes)
    (hv : vals.flatten = vals'.flatten) : (h.append vals).derive R = (h.append vals').derive R := by
  simp [HashCacher.derive, HashCacher.append_cache, hv]

example : ([[1, 2], [3]] : List Bytes).flatten = ([[1], [2, 3]] : List Bytes).flatten ∧
    ([[1, 2], [3]] : List Bytes) ≠ [[1], [2, 3]] := by decide

end Dusk
