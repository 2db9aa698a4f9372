import Verif.Spec.RPUnique
import Verif.Props.RPState
import Verif.Props.GenRelations
/-!
# C131: the points of an accepted range proof determine its scalars
-/

namespace Dusk.RP

variable {F G : Type} [Field F] [DecidableEq F] [AddCommGroup G] [DecidableEq G] [Module F G]

theorem twice_residues {R : Ristretto F G} {m k : Nat} (hk : k < 32) (hn : 64 * m = 2 ^ k) {p : Proof F G}
    (h : AcceptedTwice R m p) :
    residue1 (pub R (64 * m)) m (chalOf R p) p = 0 ∧
      residue2 (pub R (64 * m)) m (chalOf R p) (IP.challenges R p.inner.L p.inner.R) p p.inner = 0 := by
  obtain ⟨c, d, hcd, hc, hd⟩ := h
  obtain ⟨hip, hL, hR, hV⟩ := accepted_shape hk hn hc
  by_contra hno
  exact hcd ((C63_coin R m k p p.inner hip hk hn.symm hL hR hV).2 hno c d hc hd)

omit [DecidableEq F] in
theorem weight_ne_zero {us : List F} (h : ∀ u ∈ us, u ≠ 0) (i : Nat) : IP.weight us i ≠ 0 := by
  unfold IP.weight
  refine Finset.prod_ne_zero_iff.2 fun j hj => ?_
  have hj := Finset.mem_range.1 hj
  rw [List.getD_eq_getElem _ _ hj]
  have := h _ (List.getElem_mem hj)
  split
  · exact this
  · exact inv_ne_zero this

omit [DecidableEq F] [DecidableEq G] in
/-- The challenges `y`, `z`, `x` depend on the points only. -/
theorem chalOf_points (R : Ristretto F G) {p p' : Proof F G} (h : SamePoints p p') :
    (chalOf R p).y = (chalOf R p').y ∧ (chalOf R p).z = (chalOf R p').z ∧ (chalOf R p).x = (chalOf R p').x := by
  have hV : (p.V.flatMap fun V => R.pBytes V.value) = p'.V.flatMap fun V => R.pBytes V.value := by
    have e : ∀ q : Proof F G, (q.V.flatMap fun V => R.pBytes V.value) = (q.V.map fun V => V.value).flatMap R.pBytes := by
      intro q; rw [List.flatMap_map]
    rw [e, e, h.V]
  simp only [chalOf, hV, h.A, h.S, h.T1, h.T2, and_self]

/-- C131: two proofs with the same points that are both accepted give two relations between the public points, one of
which is non-trivial unless the proofs have the same scalars. -/
theorem C131_relations (R : Ristretto F G) {m k : Nat} (hk : k < 32) (hn : 64 * m = 2 ^ k) (p p' : Proof F G)
    (hs : SamePoints p p') (hi : Invertible R p) (h : AcceptedTwice R m p) (h' : AcceptedTwice R m p') :
    ev (pub R (64 * m)) (64 * m) (diff1 p p') = 0 ∧ ev (pub R (64 * m)) (64 * m) (diff2 R p p') = 0 ∧
      (¬ SameScalars p p' → (diff1 p p').Nonzero (64 * m) ∨ (diff2 R p p').Nonzero (64 * m)) := by
  obtain ⟨e1, e2⟩ := twice_residues hk hn h
  obtain ⟨e1', e2'⟩ := twice_residues hk hn h'
  obtain ⟨cy, cz, cx⟩ := chalOf_points R hs
  have hpos : 0 < 64 * m := by rw [hn]; exact Nat.two_pow_pos k
  refine ⟨?_, ?_, fun hne => ?_⟩
  · have : ev (pub R (64 * m)) (64 * m) (diff1 p p') =
        residue1 (pub R (64 * m)) m (chalOf R p) p - residue1 (pub R (64 * m)) m (chalOf R p') p' := by
      unfold residue1 ev diff1
      rw [hs.V, hs.T1, hs.T2, cy, cz, cx]
      simp only [Pi.zero_apply, zero_smul, Finset.sum_const_zero, zero_add]
      module
    rw [this, e1, e1', sub_zero]
  · have hy : ∀ i, invPow (chalOf R p').y i = (chalOf R p').y⁻¹ ^ i := by
      intro i
      rw [invPow, if_neg (cy ▸ hi.1)]
    have : ev (pub R (64 * m)) (64 * m) (diff2 R p p') =
        residue2 (pub R (64 * m)) m (chalOf R p) (IP.challenges R p.inner.L p.inner.R) p p.inner -
        residue2 (pub R (64 * m)) m (chalOf R p') (IP.challenges R p'.inner.L p'.inner.R) p' p'.inner := by
      unfold residue2 ev diff2
      rw [hs.A, hs.S, hs.L, hs.R, cx, cy, cz]
      simp only [hy]
      set us := IP.challenges R p'.inner.L p'.inner.R
      have s1 : ∑ i ∈ Finset.range (64 * m), ((p.inner.A - p'.inner.A) * IP.weight us i) • (pub R (64 * m)).Gv.getD i 0 =
          ∑ i ∈ Finset.range (64 * m), (p.inner.A * IP.weight us i + (chalOf R p').z) • (pub R (64 * m)).Gv.getD i 0 -
          ∑ i ∈ Finset.range (64 * m), (p'.inner.A * IP.weight us i + (chalOf R p').z) • (pub R (64 * m)).Gv.getD i 0 := by
        rw [← Finset.sum_sub_distrib]
        refine Finset.sum_congr rfl fun i _ => ?_
        rw [← sub_smul]
        congr 1
        ring
      have s2 : ∑ i ∈ Finset.range (64 * m), ((p.inner.B - p'.inner.B) * (IP.weight us i)⁻¹ * (chalOf R p').y⁻¹ ^ i) •
            (pub R (64 * m)).Hv.getD i 0 =
          ∑ i ∈ Finset.range (64 * m), ((p.inner.B * (IP.weight us i)⁻¹ - (chalOf R p').z ^ (i / 64 + 2) * 2 ^ (i % 64)) *
            (chalOf R p').y⁻¹ ^ i - (chalOf R p').z) • (pub R (64 * m)).Hv.getD i 0 -
          ∑ i ∈ Finset.range (64 * m), ((p'.inner.B * (IP.weight us i)⁻¹ - (chalOf R p').z ^ (i / 64 + 2) * 2 ^ (i % 64)) *
            (chalOf R p').y⁻¹ ^ i - (chalOf R p').z) • (pub R (64 * m)).Hv.getD i 0 := by
        rw [← Finset.sum_sub_distrib]
        refine Finset.sum_congr rfl fun i _ => ?_
        rw [← sub_smul]
        congr 1
        ring
      rw [s1, s2]
      module
    rw [this, e2, e2', sub_zero]
  · by_contra hc
    rw [not_or] at hc
    obtain ⟨c1, c2⟩ := hc
    simp only [Coef.Nonzero, not_or, not_exists, not_and, not_not] at c1 c2
    obtain ⟨-, -, q1, q2⟩ := c1
    obtain ⟨g, hh, -, q3⟩ := c2
    have w0 := weight_ne_zero hi.2 0
    refine hne ⟨sub_eq_zero.1 q1, sub_eq_zero.1 q2, sub_eq_zero.1 q3, ?_, ?_⟩
    · exact sub_eq_zero.1 ((mul_eq_zero.1 (g 0 hpos)).resolve_right w0)
    · have := hh 0 hpos
      rw [diff2] at this
      simp only [pow_zero, mul_one] at this
      exact sub_eq_zero.1 ((mul_eq_zero.1 this).resolve_right (inv_ne_zero w0))

/-- C131: if there is no relation between the public points, the scalars of an accepted proof are determined by its
points: nobody, not even the prover, can change them. -/
theorem C131_determined (R : Ristretto F G) {m k : Nat} (hk : k < 32) (hn : 64 * m = 2 ^ k) (p p' : Proof F G)
    (hs : SamePoints p p') (hi : Invertible R p) (h : AcceptedTwice R m p) (h' : AcceptedTwice R m p')
    (hind : Independent F (pub R (64 * m)) (64 * m)) : SameScalars p p' := by
  obtain ⟨e1, e2, e3⟩ := C131_relations R hk hn p p' hs hi h h'
  by_contra hne
  rcases e3 hne with h3 | h3
  · exact hind _ e1 h3
  · exact hind _ e2 h3

/-- C131: if `Point.Derive` is a random oracle in which the logarithm of a given point is hidden, then whoever finds two
accepted proofs with the same points and different scalars finds this logarithm, except for a fraction of the tables of at most
`((128 m + 1)² + 1) / |F|`. -/
theorem C131_dlog [Fintype F] (R : Ristretto F G) (E : R.Encodings) (hB : R.base ≠ 0) (W : Finset Bytes)
    (hW : PointOracle.Covers R W) {m k : Nat} (hk : k < 32) (hn : 64 * m = 2 ^ k)
    (adv : (Bytes → G) → Proof F G × Proof F G) (x : F) :
    Fintype.card F * Nat.card {ab : (W → F) × (W → F) //
        let D := PointOracle.points R.base (x • R.base) ab.1 ab.2
        let R' := R.withPoints D
        let p := (adv D).1
        let p' := (adv D).2
        SamePoints p p' ∧ Invertible R' p ∧ AcceptedTwice R' m p ∧ AcceptedTwice R' m p' ∧ ¬ SameScalars p p' ∧
          PointOracle.dlog R' (64 * m) ab.1 ab.2 (diff R' (64 * m) p p') ≠ x} ≤
      ((128 * m + 1) ^ 2 + 1) * Fintype.card ((W → F) × (W → F)) := by
  have h := PointOracle.C126_relation R E hB W hW (64 * m)
    (fun D => diff (R.withPoints D) (64 * m) (adv D).1 (adv D).2) x
  rw [show 2 * (64 * m) = 128 * m by ring] at h
  refine le_trans (Nat.mul_le_mul_left _ ?_) h
  refine Nat.card_le_card_of_injective (fun y => ⟨y.1, ?_⟩) fun y z h => Subtype.ext (by simpa using h)
  obtain ⟨hs, hi, ha, ha', hne, hd⟩ := y.2
  obtain ⟨e1, e2, e3⟩ := C131_relations _ hk hn _ _ hs hi ha ha'
  refine ⟨?_, ?_, hd⟩
  · unfold diff
    split
    · exact e1
    · exact e2
  · unfold diff
    split
    · assumption
    · rename_i hno
      exact (e3 hne).resolve_left hno

/-- C131: the exception is real. Whoever knows the logarithms of all points involved can choose two of the scalars: for all
points in the right numbers, every `t` and every `b ≠ 0` there are `taux`, `mu` and `a` such that `Verify` accepts with all
coins. -/
theorem C131_sharp (R : Ristretto F G) (hall : ∀ P : G, ∃ s : F, P = s • R.base) {m k : Nat} (hk : k < 32)
    (hn : 64 * m = 2 ^ k) (V : List (Commitment F G)) (hV : m ≤ V.length) (A S T1 T2 : G) (Ls Rs : List G)
    (hL : Ls.length = k) (hR : Rs.length = k) (t b : F) (hb : b ≠ 0) :
    ∃ taux mu a, ∀ c, verify R m
      { V := V, A := A, S := S, T1 := T1, T2 := T2, taux := taux, mu := mu, t := t, ip := some ⟨Ls, Rs, a, b⟩ } c =
        .ok true := by
  let q : F → F → Proof F G := fun taux mu =>
    { V := V, A := A, S := S, T1 := T1, T2 := T2, taux := taux, mu := mu, t := t, ip := some ⟨Ls, Rs, t / b, b⟩ }
  have hsame : ∀ taux mu, SamePoints (q taux mu) (q 0 0) := fun _ _ => ⟨rfl, rfl, rfl, rfl, rfl, rfl, rfl⟩
  obtain ⟨s1, hs1⟩ := hall (residue1 (pub R (64 * m)) m (chalOf R (q 0 0)) (q 0 0))
  obtain ⟨s2, hs2⟩ := hall (residue2 (pub R (64 * m)) m (chalOf R (q 0 0)) (IP.challenges R Ls Rs) (q 0 0) ⟨Ls, Rs, t / b, b⟩)
  refine ⟨-s1, -s2, t / b, ?_⟩
  obtain ⟨cy, cz, cx⟩ := chalOf_points R (hsame (-s1) (-s2))
  refine ((C63_coin R m k (q (-s1) (-s2)) ⟨Ls, Rs, t / b, b⟩ rfl hk hn.symm hL hR hV).1).1 ⟨?_, ?_⟩
  · have : residue1 (pub R (64 * m)) m (chalOf R (q (-s1) (-s2))) (q (-s1) (-s2)) =
        residue1 (pub R (64 * m)) m (chalOf R (q 0 0)) (q 0 0) + (-s1) • R.base := by
      unfold residue1
      rw [cy, cz, cx]
      simp only [q, show (pub R (64 * m)).Bl = R.base from rfl]
      module
    rw [this, hs1]
    module
  · have hab : t / b * b - t = 0 := by rw [div_mul_cancel₀ _ hb, sub_self]
    have : residue2 (pub R (64 * m)) m (chalOf R (q (-s1) (-s2))) (IP.challenges R Ls Rs) (q (-s1) (-s2)) ⟨Ls, Rs, t / b, b⟩ =
        residue2 (pub R (64 * m)) m (chalOf R (q 0 0)) (IP.challenges R Ls Rs) (q 0 0) ⟨Ls, Rs, t / b, b⟩ + (-s2) • R.base := by
      unfold residue2
      rw [cy, cz, cx]
      simp only [q, show (pub R (64 * m)).Bl = R.base from rfl, hab, mul_zero, zero_smul]
      module
    rw [this, hs2]
    module

/-- In the concrete instance all logarithms are known. -/
theorem toy_all (P : Toy.K) : ∃ s : Toy.K, P = s • Toy.ris.base := ⟨P, by show P = P * 1; rw [mul_one]⟩

/-- So it has two accepted proofs for two values with the same points (any points) and different scalars, and no challenge that is
inverted is zero: the hypotheses of `C131_relations` and `C131_dlog` can be met. -/
example (V : List (Commitment Toy.K Toy.K)) (hV : 2 ≤ V.length) (A S T1 T2 : Toy.K) (Ls Rs : List Toy.K) (hL : Ls.length = 7)
    (hR : Rs.length = 7) : ∃ p p' : Proof Toy.K Toy.K, SamePoints p p' ∧ Invertible Toy.ris p ∧ AcceptedTwice Toy.ris 2 p ∧
      AcceptedTwice Toy.ris 2 p' ∧ ¬ SameScalars p p' := by
  obtain ⟨x1, u1, a1, h1⟩ := C131_sharp Toy.ris toy_all (m := 2) (k := 7) (by norm_num) (by norm_num) V hV A S T1 T2 Ls Rs hL hR
    0 1 one_ne_zero
  obtain ⟨x2, u2, a2, h2⟩ := C131_sharp Toy.ris toy_all (m := 2) (k := 7) (by norm_num) (by norm_num) V hV A S T1 T2 Ls Rs hL hR
    1 1 one_ne_zero
  refine ⟨⟨V, A, S, T1, T2, x1, u1, 0, some ⟨Ls, Rs, a1, 1⟩⟩, ⟨V, A, S, T1, T2, x2, u2, 1, some ⟨Ls, Rs, a2, 1⟩⟩,
    ⟨rfl, rfl, rfl, rfl, rfl, rfl, rfl⟩, ⟨(chalOf_ne Toy.ris Toy.dv_ne_zero _).2.1, challenges_ne Toy.ris Toy.dv_ne_zero _ _⟩,
    ⟨0, 1, zero_ne_one, h1 0, h1 1⟩, ⟨0, 1, zero_ne_one, h2 0, h2 1⟩, fun h => ?_⟩
  exact zero_ne_one h.t

/-- The bound on the concrete instance. -/
example (adv : (Bytes → Toy.K) → Proof Toy.K Toy.K × Proof Toy.K Toy.K) (x : Toy.K) :=
  C131_dlog Toy.ris Toy.ris_encodings one_ne_zero PointOracle.toyW PointOracle.toyW_covers (m := 2) (k := 7) (by norm_num)
    (by norm_num) adv x

/-! ### An instance in which the generators made by the code are independent -/

open Classical in
/-- The points are sequences of scalars; the hash of `b` is the unit vector with index `b.length + 2`, and a point is encoded by as
many bytes as there are leading zeros. -/
noncomputable def freeRis : Ristretto Toy.K (Nat → Toy.K) where
  order := Toy.ris.order
  two64_lt := Toy.ris.two64_lt
  cast_eq_zero := Toy.ris.cast_eq_zero
  sNat := Toy.ris.sNat
  sNat_lt := Toy.ris.sNat_lt
  cast_sNat := Toy.ris.cast_sNat
  sBytes := Toy.ris.sBytes
  sOfBytes := Toy.ris.sOfBytes
  sDerive := Toy.ris.sDerive
  pBytes P := if h : ∃ j, P j ≠ 0 then List.replicate (Nat.find h) 0 else []
  pOfBytes _ := (0, false)
  pDerive b := Pi.single (b.length + 2) 1
  base := Pi.single 0 1

theorem free_chain (b : Bytes) (i : Nat) : chainAt freeRis b i = Pi.single (b.length + 2 + 2 * i) 1 := by
  classical
  induction i with
  | zero => rfl
  | succ i ih =>
    rw [chainAt, ih]
    have h : ∃ j, (Pi.single (b.length + 2 + 2 * i) 1 : Nat → Toy.K) j ≠ 0 := ⟨b.length + 2 + 2 * i, by simp⟩
    have hf : Nat.find h = b.length + 2 + 2 * i := by
      have := Nat.find_spec h
      by_contra hne
      exact this (Pi.single_eq_of_ne hne _)
    have hl : (freeRis.pBytes (Pi.single (b.length + 2 + 2 * i) 1)).length = b.length + 2 + 2 * i := by
      show (dite _ _ _ : Bytes).length = _
      rw [dif_pos h, List.length_replicate, hf]
    show Pi.single ((freeRis.pBytes (Pi.single (b.length + 2 + 2 * i) 1)).length + 2) 1 = _
    rw [hl]
    congr 1

theorem free_getD (b : Bytes) {n i : Nat} (hi : i < n) (j : Nat) :
    (chain freeRis b n).getD i 0 j = if j = b.length + 2 + 2 * i then 1 else 0 := by
  have : (chain freeRis b n).getD i 0 = chainAt freeRis b i := by simp [chain, hi]
  rw [this, free_chain, Pi.single_apply]

theorem free_independent (n : Nat) : Independent Toy.K (pub freeRis n) n := by
  rintro ⟨g, h, q, r⟩ e
  have hv : (strBytes "dusk.BulletProof.vec1").length = 21 := by decide
  have hb : (strBytes "blindPoint").length = 10 := by decide
  have key : ∀ j, (∑ i ∈ Finset.range n, if j = 23 + 2 * i then g i else 0) +
      (∑ i ∈ Finset.range n, if j = 24 + 2 * i then h i else 0) + (if j = 12 then q else 0) + (if j = 0 then r else 0) = 0 := by
    intro j
    have := congrFun e j
    simp only [ev, pub, Pi.add_apply, Finset.sum_apply, Pi.smul_apply, Pi.zero_apply, smul_eq_mul] at this
    refine Eq.trans ?_ this
    congr 1
    congr 1
    congr 1
    · refine Finset.sum_congr rfl fun i hi => ?_
      rw [free_getD _ (Finset.mem_range.1 hi), hv]
      simp
    · refine Finset.sum_congr rfl fun i hi => ?_
      rw [free_getD _ (Finset.mem_range.1 hi), List.length_append, hv]
      simp
    · show _ = q * (Pi.single ((strBytes "blindPoint").length + 2) 1 : Nat → Toy.K) j
      rw [hb, Pi.single_apply]
      simp
    · show _ = r * (Pi.single 0 1 : Nat → Toy.K) j
      rw [Pi.single_apply]
      simp
  simp only [Coef.Nonzero, not_or, not_exists, not_and, not_not]
  refine ⟨fun i hi => ?_, fun i hi => ?_, ?_, ?_⟩
  · have := key (23 + 2 * i)
    rw [Finset.sum_eq_single_of_mem i (Finset.mem_range.2 hi) (fun j _ hj => if_neg (by omega)),
      Finset.sum_eq_zero (fun j _ => if_neg (by omega)), if_pos rfl, if_neg (by omega), if_neg (by omega)] at this
    simpa using this
  · have := key (24 + 2 * i)
    rw [Finset.sum_eq_zero (fun j _ => if_neg (by omega)),
      Finset.sum_eq_single_of_mem i (Finset.mem_range.2 hi) (fun j _ hj => if_neg (by omega)), if_pos rfl, if_neg (by omega),
      if_neg (by omega)] at this
    simpa using this
  · have := key 12
    rw [Finset.sum_eq_zero (fun j _ => if_neg (by omega)), Finset.sum_eq_zero (fun j _ => if_neg (by omega))] at this
    simpa using this
  · have := key 0
    rw [Finset.sum_eq_zero (fun j _ => if_neg (by omega)), Finset.sum_eq_zero (fun j _ => if_neg (by omega))] at this
    simpa using this

/-- `Prove` makes a proof for the values 1 and 2 in this instance whose scalars nobody can change. -/
example [DecidableEq (Nat → Toy.K)] (coins : Coins Toy.K) : ∃ p : Proof Toy.K (Nat → Toy.K),
    (prove freeRis 1 [1, 2] false coins).2 = .ok p ∧ AcceptedTwice freeRis 2 p ∧
      ∀ p', SamePoints p p' → AcceptedTwice freeRis 2 p' → SameScalars p p' := by
  obtain ⟨k, p, ip, h1, h2, h5, hon, h3, h4, hif⟩ := C68_prove freeRis 1 [(1 : Toy.K), 2] false coins (by simp) (by simp)
  have hk : k = 1 := by
    have := h2 1 (by simp)
    have hk0 : k ≠ 0 := by rintro rfl; simp at h1
    omega
  subst hk
  obtain ⟨n1, n2, n3⟩ := chalOf_ne freeRis Toy.dv_ne_zero p
  rw [if_neg (by simp [n1, n2, n3])] at hif
  have ha := (C62_violated freeRis 1 [(1 : Toy.K), 2] coins p ip toy_two hif hon.hasIp (challenges_ne freeRis Toy.dv_ne_zero _ _)).1
  rw [h5] at ha
  have hacc : AcceptedTwice freeRis 2 p := ⟨0, 1, zero_ne_one, ha 0, ha 1⟩
  exact ⟨p, hif, hacc, fun p' hs h' => C131_determined freeRis (k := 7) (by norm_num) (by norm_num) p p' hs
    ⟨n2, challenges_ne freeRis Toy.dv_ne_zero _ _⟩ hacc h' (free_independent _)⟩

end Dusk.RP
