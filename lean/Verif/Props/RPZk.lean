import Verif.Props.RangeProof
import Verif.Lemmas.RPSound
import Mathlib.Data.List.GetD

/-!
C75: the published range proof does not reveal the values.

For any two lists of in-range values and any published proof there is a bijection of the random coins that turns the runs
of `Prove` on the first list that give this proof into the runs on the second list that give it. So under uniformly random
coins the proof has the same distribution for all lists of values of the same length.
-/

set_option linter.unusedSectionVars false

namespace Dusk.RP

variable {F G : Type} [Field F] [AddCommGroup G] [Module F G] [DecidableEq F]

/-- What `Encode` transmits of a proof: the commitments without their blinding factors. -/
def published (p : Proof F G) : Proof F G := { p with V := p.V.map fun c => ⟨c.value, 0⟩ }

/-- The coefficient of `x` and of `x²` of the polynomial `<l(x), r(x)>`. -/
def coeff1 (R : Ristretto F G) (m : Nat) (v : List F) (y z : F) (sL sR : Nat → F) : F :=
  ∑ i ∈ Finset.range (64 * m), (sL i * r0At R v y z i + l0At R v z i * r1At y sR i)
def coeff2 (m : Nat) (y : F) (sL sR : Nat → F) : F := ∑ i ∈ Finset.range (64 * m), sL i * r1At y sR i

/-- Discrete logarithms of the public points to the blinding base. -/
structure Logs (P : Pub G) (F : Type) [Field F] [Module F G] where
  b : F
  g : Nat → F
  h : Nat → F
  hb : P.B = b • P.Bl
  hg : ∀ i, P.Gv.getD i 0 = g i • P.Bl
  hh : ∀ i, P.Hv.getD i 0 = h i • P.Bl

/-- The coins for `v'` that give the same proof as `coins` for `v`. -/
def shift (R : Ristretto F G) (m : Nat) {P : Pub G} (l : Logs P F) (y z x : F) (v v' : List F) (c : Coins F) : Coins F :=
  let sL := fun i => c.sL i + (bit R v i - bit R v' i) * x⁻¹
  let sR := fun i => c.sR i + (bit R v i - bit R v' i) * x⁻¹
  { vBlind := fun j => c.vBlind j + (v.getD j 0 - v'.getD j 0) * l.b
    aBlind := c.aBlind + ∑ i ∈ Finset.range (64 * m), (bit R v i - bit R v' i) * (l.g i + l.h i)
    sL := sL
    sR := sR
    sBlind := c.sBlind - x⁻¹ * ∑ i ∈ Finset.range (64 * m), (bit R v i - bit R v' i) * (l.g i + l.h i)
    t1Blind := c.t1Blind + (coeff1 R m v y z c.sL c.sR - coeff1 R m v' y z sL sR) * l.b
    t2Blind := c.t2Blind + (coeff2 m y c.sL c.sR - coeff2 m y sL sR) * l.b }

theorem shift_shift (R : Ristretto F G) (m : Nat) {P : Pub G} (l : Logs P F) (y z x : F) (v v' : List F) (c : Coins F) :
    shift R m l y z x v' v (shift R m l y z x v v' c) = c := by
  have hL : ∀ a : Nat → F, (fun i => a i + (bit R v i - bit R v' i) * x⁻¹ + (bit R v' i - bit R v i) * x⁻¹) = a :=
    fun a => funext fun i => by ring
  have hs : ∑ i ∈ Finset.range (64 * m), (bit R v' i - bit R v i) * (l.g i + l.h i) =
      - ∑ i ∈ Finset.range (64 * m), (bit R v i - bit R v' i) * (l.g i + l.h i) := by
    rw [← Finset.sum_neg_distrib]
    exact Finset.sum_congr rfl fun i _ => by ring
  cases c
  simp only [shift, hL, hs, Coins.mk.injEq]
  refine ⟨funext fun j => by ring, by ring, trivial, trivial, by ring, by ring, by ring⟩

/-- The bits of an in-range value sum to it. -/
theorem bit_sum (R : Ristretto F G) (v : List F) (hv : ∀ a ∈ v, R.sNat a < 2 ^ 64) (j : Nat) :
    ∑ k ∈ Finset.range 64, bit R v (64 * j + k) * 2 ^ k = v.getD j 0 := by
  have hlt : R.sNat (v.getD j 0) < 2 ^ 64 := by
    rcases Nat.lt_or_ge j v.length with h | h
    · rw [List.getD_eq_getElem _ _ h]; exact hv _ (List.getElem_mem h)
    · rw [List.getD_eq_default _ _ h]
      have := R.sNat_cast (n := 0) (by have := R.two64_lt; omega)
      rw [Nat.cast_zero] at this
      omega
  have := bits_sum (R.sNat (v.getD j 0)) 64
  rw [Nat.mod_eq_of_lt hlt] at this
  refine Eq.trans ?_ (R.cast_sNat (v.getD j 0))
  rw [← this, Nat.cast_sum]
  refine Finset.sum_congr rfl fun k hk => ?_
  have hk := Finset.mem_range.1 hk
  unfold bit
  rw [show (64 * j + k) / 64 = j by omega, show (64 * j + k) % 64 = k by omega]
  split <;> simp

theorem bit_sq (R : Ristretto F G) (v : List F) (i : Nat) : bit R v i * bit R v i = bit R v i := by
  unfold bit; split <;> simp

/-- The constant coefficient for in-range values. -/
theorem coeff0 (R : Ristretto F G) (m : Nat) (v : List F) (hv : ∀ a ∈ v, R.sNat a < 2 ^ 64) (y z : F) :
    ∑ i ∈ Finset.range (64 * m), l0At R v z i * r0At R v y z i =
      delta y z m + ∑ j ∈ Finset.range m, z ^ (j + 2) * v.getD j 0 := by
  have h := t0_sub_delta y z m (bit R v) (fun i => bit R v i - 1)
  have e1 : ∑ i ∈ Finset.range (64 * m), bit R v i * (bit R v i - 1) * y ^ i = 0 :=
    Finset.sum_eq_zero fun i _ => by rw [mul_sub, bit_sq]; ring
  have e2 : ∑ i ∈ Finset.range (64 * m), (bit R v i - (bit R v i - 1) - 1) * y ^ i = 0 :=
    Finset.sum_eq_zero fun i _ => by ring
  simp only [e1, e2, bit_sum R v hv, mul_zero, zero_add] at h
  unfold l0At r0At
  linear_combination h

theorem chalOf_published (R : Ristretto F G) (p : Proof F G) : chalOf R (published p) = chalOf R p := by
  simp [chalOf, published, List.flatMap_map]

theorem chalOf_congr (R : Ristretto F G) {p q : Proof F G} (h : published p = published q) : chalOf R p = chalOf R q := by
  rw [← chalOf_published R p, h, chalOf_published]

/-- Shifting the coins turns an honest run on `v` into one on `v'` with the same published proof. -/
theorem honest_shift (R : Ristretto F G) (m : Nat) (l : Logs (pub R (64 * m)) F) (v v' : List F)
    (hv : ∀ a ∈ v, R.sNat a < 2 ^ 64) (hv' : ∀ a ∈ v', R.sNat a < 2 ^ 64) (c : Coins F) (p : Proof F G) (ip : IP.Proof F G)
    (hx : (chalOf R p).x ≠ 0) (h : Honest R m v c p ip) :
    ∃ q, published q = published p ∧
      Honest R m v' (shift R m l (chalOf R p).y (chalOf R p).z (chalOf R p).x v v' c) q ip := by
  set c' := shift R m l (chalOf R p).y (chalOf R p).z (chalOf R p).x v v' c with hc'
  let q : Proof F G := { p with V := (List.range m).map fun j =>
    ⟨v'.getD j 0 • (pub R (64 * m)).B + c'.vBlind j • (pub R (64 * m)).Bl, c'.vBlind j⟩ }
  have hpq : published q = published p := by
    unfold published
    simp only [q, h.V, List.map_map, Proof.mk.injEq, and_true]
    refine List.map_congr_left fun j _ => ?_
    simp only [Function.comp, Commitment.mk.injEq, and_true, hc', shift, l.hb, smul_smul, ← add_smul]
    congr 1; ring
  have hch := chalOf_congr R hpq
  refine ⟨q, hpq, ?_⟩
  have hl : ∀ i, l0At R v' (chalOf R p).z i + c'.sL i * (chalOf R p).x =
      l0At R v (chalOf R p).z i + c.sL i * (chalOf R p).x := by
    intro i
    simp only [hc', shift, l0At]
    field_simp
    ring
  have hr : ∀ i, r0At R v' (chalOf R p).y (chalOf R p).z i + r1At (chalOf R p).y c'.sR i * (chalOf R p).x =
      r0At R v (chalOf R p).y (chalOf R p).z i + r1At (chalOf R p).y c.sR i * (chalOf R p).x := by
    intro i
    simp only [hc', shift, r0At, r1At]
    field_simp
    ring
  have ht : ∀ (w : List F) (d : Coins F) (y z x : F), ∑ i ∈ Finset.range (64 * m), (l0At R w z i + d.sL i * x) *
      (r0At R w y z i + r1At y d.sR i * x) = ∑ i ∈ Finset.range (64 * m), l0At R w z i * r0At R w y z i +
        x * coeff1 R m w y z d.sL d.sR + x ^ 2 * coeff2 m y d.sL d.sR := by
    intro w d y z x
    unfold coeff1 coeff2
    rw [Finset.mul_sum, Finset.mul_sum, ← Finset.sum_add_distrib, ← Finset.sum_add_distrib]
    exact Finset.sum_congr rfl fun i _ => by ring
  have hteq := ht v' c' (chalOf R p).y (chalOf R p).z (chalOf R p).x
  simp only [hl, hr] at hteq
  rw [ht v c, coeff0 R m v hv, coeff0 R m v' hv'] at hteq
  constructor
  · rfl
  · show p.A = _
    rw [h.A]
    simp only [l.hg, l.hh, hc', shift, smul_smul, ← add_smul, ← Finset.sum_smul]
    congr 1
    rw [add_assoc, ← Finset.sum_add_distrib]
    congr 1
    exact Finset.sum_congr rfl fun i _ => by ring
  · show p.S = _
    rw [h.S]
    simp only [l.hg, l.hh, hc', shift, smul_smul, ← add_smul, ← Finset.sum_smul]
    congr 1
    rw [Finset.mul_sum, sub_add, ← Finset.sum_sub_distrib, sub_eq_add_neg, ← Finset.sum_neg_distrib]
    congr 1
    exact Finset.sum_congr rfl fun i _ => by ring
  · rw [hch]
    show p.T1 = _
    rw [h.T1]
    show coeff1 R m v _ _ c.sL c.sR • _ + _ = coeff1 R m v' _ _ c'.sL c'.sR • _ + _
    rw [l.hb]
    simp only [hc', shift, smul_smul, ← add_smul]
    congr 1; ring
  · rw [hch]
    show p.T2 = _
    rw [h.T2]
    show coeff2 m _ c.sL c.sR • _ + _ = coeff2 m _ c'.sL c'.sR • _ + _
    rw [l.hb]
    simp only [hc', shift, smul_smul, ← add_smul]
    congr 1; ring
  · rw [hch]
    show p.taux = _
    rw [h.taux]
    have e1 : c'.t1Blind = c.t1Blind + (coeff1 R m v (chalOf R p).y (chalOf R p).z c.sL c.sR -
      coeff1 R m v' (chalOf R p).y (chalOf R p).z c'.sL c'.sR) * l.b := rfl
    have e2 : c'.t2Blind = c.t2Blind + (coeff2 m (chalOf R p).y c.sL c.sR - coeff2 m (chalOf R p).y c'.sL c'.sR) * l.b := rfl
    have e3 : ∑ j ∈ Finset.range m, (chalOf R p).z ^ (j + 2) * c'.vBlind j =
        ∑ j ∈ Finset.range m, (chalOf R p).z ^ (j + 2) * c.vBlind j +
        (∑ j ∈ Finset.range m, (chalOf R p).z ^ (j + 2) * v.getD j 0 -
          ∑ j ∈ Finset.range m, (chalOf R p).z ^ (j + 2) * v'.getD j 0) * l.b := by
      rw [← Finset.sum_sub_distrib, Finset.sum_mul, ← Finset.sum_add_distrib]
      refine Finset.sum_congr rfl fun j _ => ?_
      simp only [hc', shift]
      ring
    rw [e1, e2, e3]
    linear_combination (-l.b) * hteq
  · rw [hch]
    show p.mu = _
    rw [h.mu]
    simp only [hc', shift]
    field_simp
    ring
  · rw [hch]
    simp only [hl, hr]
    exact h.t
  · exact h.hasIp
  · rw [hch]
    simp only [hl, hr]
    exact h.gen

theorem prove_iff [DecidableEq G] (R : Ristretto F G) (m0 : Nat) (v : List F) (h1 : 1 ≤ v.length) (h2 : v.length ≤ 16) (k : Nat)
    (hk : v.length ≤ 2 ^ k) (hmin : ∀ j, v.length ≤ 2 ^ j → k ≤ j) (c : Coins F) (q : Proof F G) :
    (prove R m0 v false c).2 = .ok q ↔ (∃ ip, Honest R (2 ^ k) v c q ip) ∧
      (chalOf R q).x ≠ 0 ∧ (chalOf R q).y ≠ 0 ∧ (chalOf R q).z ≠ 0 := by
  obtain ⟨k', p, ip, a1, a2, -, a4, -, -, hif⟩ := C68_prove R m0 v false c h1 h2
  obtain rfl : k' = k := Nat.le_antisymm (a2 k hk) (hmin k' a1)
  simp only [Bool.false_eq_true, false_and, or_false] at hif
  constructor
  · intro h
    split at hif
    · obtain ⟨e, he⟩ := hif
      rw [he] at h; cases h
    · rename_i hn
      rw [hif] at h
      cases h
      simp only [not_or] at hn
      exact ⟨⟨ip, a4⟩, hn⟩
  · rintro ⟨⟨ip', hq⟩, n1, n2, n3⟩
    obtain rfl := honest_unique a4 hq
    rwa [if_neg (by simp [n1, n2, n3])] at hif

/-- C75: for two lists of in-range values of the same length and every published proof `p` there is a bijection of the coins
that takes the runs of `Prove` on the first list that publish `p` to those on the second. (All points are assumed to be
multiples of the base point, as in a group of prime order.) -/
theorem C75_witness_indistinguishable [DecidableEq G] (R : Ristretto F G) (hgen : ∀ P : G, ∃ c : F, P = c • R.base) (m0 : Nat)
    (v v' : List F) (hlen : v.length = v'.length) (hv : ∀ a ∈ v, R.sNat a < 2 ^ 64) (hv' : ∀ a ∈ v', R.sNat a < 2 ^ 64)
    (p : Proof F G) :
    ∃ Φ : Coins F ≃ Coins F, ∀ c,
      (∃ q, (prove R m0 v false c).2 = .ok q ∧ published q = p) ↔
      (∃ q, (prove R m0 v' false (Φ c)).2 = .ok q ∧ published q = p) := by
  rcases Nat.lt_or_ge v.length 1 with h | h1
  · have e1 : v = [] := List.length_eq_zero_iff.1 (by omega)
    have e2 : v' = [] := List.length_eq_zero_iff.1 (by omega)
    subst e1 e2
    exact ⟨Equiv.refl _, fun c => Iff.rfl⟩
  rcases Nat.lt_or_ge 16 v.length with h | h2
  · refine ⟨Equiv.refl _, fun c => ?_⟩
    obtain ⟨e, he⟩ := (C68_many R m0 v false c h).2
    obtain ⟨e', he'⟩ := (C68_many R m0 v' false c (by omega)).2
    rw [Equiv.refl_apply, he, he']
    simp
  obtain ⟨k, -, -, hk, hmin, -⟩ := C68_prove R m0 v false ⟨0, 0, 0, 0, 0, 0, 0⟩ h1 h2
  have i1 := prove_iff R m0 v h1 h2 k hk hmin
  have i2 := prove_iff R m0 v' (by omega) (by omega) k (by omega) (by rw [← hlen]; exact hmin)
  let l : Logs (pub R (64 * 2 ^ k)) F :=
    { b := (hgen (pub R (64 * 2 ^ k)).B).choose
      g := fun i => (hgen ((pub R (64 * 2 ^ k)).Gv.getD i 0)).choose
      h := fun i => (hgen ((pub R (64 * 2 ^ k)).Hv.getD i 0)).choose
      hb := (hgen (pub R (64 * 2 ^ k)).B).choose_spec
      hg := fun i => (hgen ((pub R (64 * 2 ^ k)).Gv.getD i 0)).choose_spec
      hh := fun i => (hgen ((pub R (64 * 2 ^ k)).Hv.getD i 0)).choose_spec }
  let S := shift R (2 ^ k) l (chalOf R p).y (chalOf R p).z (chalOf R p).x
  have key : ∀ (w w' : List F), (∀ a ∈ w, R.sNat a < 2 ^ 64) → (∀ a ∈ w', R.sNat a < 2 ^ 64) → ∀ c q,
      ((∃ ip, Honest R (2 ^ k) w c q ip) ∧ (chalOf R q).x ≠ 0 ∧ (chalOf R q).y ≠ 0 ∧ (chalOf R q).z ≠ 0) → published q = p →
      ∃ q', ((∃ ip, Honest R (2 ^ k) w' (S w w' c) q' ip) ∧ (chalOf R q').x ≠ 0 ∧ (chalOf R q').y ≠ 0 ∧ (chalOf R q').z ≠ 0) ∧
        published q' = p := by
    rintro w w' hw hw' c q ⟨⟨ip, hq⟩, n1, n2, n3⟩ rfl
    obtain ⟨q', e, h'⟩ := honest_shift R (2 ^ k) l w w' hw hw' c q ip n1 hq
    refine ⟨q', ⟨⟨ip, ?_⟩, ?_⟩, e⟩
    · simp only [S, chalOf_published]; exact h'
    · rw [chalOf_congr R e]; exact ⟨n1, n2, n3⟩
  refine ⟨⟨S v v', S v' v, fun c => shift_shift R _ l _ _ _ v v' c, fun c => shift_shift R _ l _ _ _ v' v c⟩, fun c => ?_⟩
  simp only [i1, i2, Equiv.coe_fn_mk]
  constructor
  · rintro ⟨q, hq, e⟩
    exact key v v' hv hv' c q hq e
  · rintro ⟨q, hq, e⟩
    have := key v' v hv' hv _ q hq e
    rwa [show S v' v (S v v' c) = c from shift_shift R _ l _ _ _ v v' c] at this

theorem c9Loop_published : ∀ (zs : List F) (V : List (Commitment F G)) (acc : G),
    c9Loop zs (V.map fun c => ⟨c.value, 0⟩) acc = c9Loop zs V acc
  | [], _, _ => by simp [c9Loop]
  | _ :: _, [], _ => rfl
  | z :: zs, V :: Vs, acc => by
    simp only [List.map_cons, c9Loop]
    exact c9Loop_published zs Vs _

theorem hash_published (R : Ristretto F G) : ∀ (V : List (Commitment F G)) (hs : HashCacher),
    (V.map fun c => (⟨c.value, 0⟩ : Commitment F G)).foldl (fun (hs : HashCacher) V => hs.append [R.pBytes V.value]) hs =
      V.foldl (fun (hs : HashCacher) V => hs.append [R.pBytes V.value]) hs
  | [], _ => rfl
  | V :: Vs, hs => by
    simp only [List.map_cons, List.foldl_cons]
    exact hash_published R Vs _

/-- C75: `Verify` depends only on what is published. -/
theorem C75_verify_published [DecidableEq G] (R : Ristretto F G) (m : Nat) (p q : Proof F G) (h : published p = published q)
    (c : F) : verify R m p c = verify R m q c := by
  have key : ∀ p : Proof F G, verify R m (published p) c = verify R m p c := by
    intro p
    unfold verify verifyWith megacheckWithC
    have e1 : verifyChallenges R (published p) = verifyChallenges R p := by
      simp only [verifyChallenges, published, hash_published]
    rw [e1]
    simp only [published, c9Loop_published]
    rfl
  rw [← key p, h, key]

/-- Every element of the concrete group is a multiple of the base point, and 5 and 7 are in range. -/
example : (∀ P : Toy.K, ∃ c : Toy.K, P = c • Toy.ris.base) ∧ [(5 : Toy.K)].length = [(7 : Toy.K)].length ∧
    (∀ a ∈ [(5 : Toy.K)], Toy.ris.sNat a < 2 ^ 64) ∧ ∀ a ∈ [(7 : Toy.K)], Toy.ris.sNat a < 2 ^ 64 := by
  refine ⟨fun P => ⟨P, by simp [Toy.ris]⟩, rfl, ?_, ?_⟩ <;> simp only [List.mem_singleton, forall_eq]
  · rw [show (5 : Toy.K) = ((5 : Nat) : Toy.K) by norm_num, toy_sNat 5 (by norm_num)]; norm_num
  · rw [show (7 : Toy.K) = ((7 : Nat) : Toy.K) by norm_num, toy_sNat 7 (by norm_num)]; norm_num

end Dusk.RP
