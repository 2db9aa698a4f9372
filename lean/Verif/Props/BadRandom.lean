import Verif.Props.MlsagAnon
import Verif.Props.Blsag
import Verif.Props.RPZk
import Verif.Props.RPCases
import Verif.Model.Pedersen

/-!
C128: what is lost when the random numbers are bad.

No function tests what `Rand` returns (mlsag/mlsag.go:312, 332 with the remark in lines 318-320, ringsig/blsag/blsag.go:41, 47,
rangeproof/pedersen/pedersen.go:159, 185, rangeproof/rangeproof.go:224, 228). The theorems say what anybody can compute from the
published signature or proof, if the numbers drawn are known (for instance zero) or repeat.
-/

set_option linter.unusedSectionVars false

namespace Dusk.Mlsag

variable {F G : Type} [Field F] [AddCommGroup G] [Module F G] [DecidableEq F]

/-- The challenge of member `i`, as the verifier computes it on its way around the ring: everything here is public. -/
def challengeAt (R : Ristretto F G) (sig : Signature F G) (I : List G) (i : Nat) : F :=
  around R sig.msg I (((sig.pubKeys.map (·.keys)).zip sig.r).take i) sig.c

/-- The responses of a signature: the signer's are nonce minus challenge times secret, the others are the random ones. -/
theorem prove_response (R : Ristretto F G) (p : Proof F G) (skip : Bool) (coins : Coins F)
    (hs : p.signer.keys = p.privKeys.map (· • R.base))
    (hd : ∀ k ∈ p.matrix, k.decoy = true ∨ k = ⟨false, p.signer.keys⟩) (hne : p.matrix ≠ []) (hx : p.privKeys ≠ [])
    (hdim : ∀ k ∈ p.matrix, k.keys.length = p.privKeys.length) :
    ∃ sig I i, (p.prove R skip coins).2 = .ok (sig, I) ∧ sig.pubKeys[i]? = some ⟨false, p.signer.keys⟩ ∧
      sig.r.length = sig.pubKeys.length ∧
      sig.r[i]? = some (List.zipWith (fun x a => -(challengeAt R sig I i * x) + a) p.privKeys ((List.range p.privKeys.length).map coins.nonce)) ∧
      ∀ j r, j ≠ i → sig.r[j]? = some r → r = (List.range p.privKeys.length).map (coins.resp j) := by
  obtain ⟨nonce, resp, sh⟩ := coins
  obtain ⟨m, i, h1, h2, h3, h4⟩ := prove_sign R p skip sh hs hd hdim
  have hdl : p.matrix.length ≠ 0 := mt List.length_eq_zero_iff.1 hne
  have hml : m.length = p.matrix.length + 1 := by rw [h1.length_eq]; simp
  obtain ⟨C, r, I, g1, g2, g3, g4, g5⟩ := sign_eq R
    { p with signer := { p.signer with decoy := false }, matrix := m, index := i } skip ⟨nonce, resp, sh⟩ (p.matrix.length + 1) hml
    (by omega) hs ⟨_, h2, hs⟩ h3 (fun _ => hx)
  dsimp only at g1 g2 g3 g4 g5
  have hil : i < m.length := (List.getElem?_eq_some_iff.1 h2).1
  have hc : challengeAt R ⟨C 0, r, m, p.msg⟩ I i = C i := by
    unfold challengeAt
    dsimp only
    have hl : (((m.map (·.keys)).zip r).take i).length = i := by simp; omega
    have := around_cycle R p.msg I (fun k => C (k % (p.matrix.length + 1))) (((m.map (·.keys)).zip r).take i) 0 (by
      intro j hj
      rw [hl] at hj
      rw [Nat.zero_add, Nat.mod_eq_of_lt (show j < p.matrix.length + 1 by omega),
        g4 j _ _ (List.getElem?_eq_getElem (by omega)) (List.getElem?_eq_getElem (by omega))]
      simp)
    rw [hl, Nat.zero_add, Nat.zero_mod, Nat.mod_eq_of_lt (by omega)] at this
    exact this
  refine ⟨_, I, i, by rw [h4]; exact g5, h2, by dsimp only; omega, ?_, ?_⟩
  · rw [hc]
    dsimp only
    rw [List.getElem?_eq_getElem (by omega), g3 i (by omega), if_pos rfl]
    rfl
  · intro j x hj hx
    obtain ⟨h, rfl⟩ := List.getElem?_eq_some_iff.1 hx
    dsimp only at h ⊢
    rw [g3 j h, if_neg hj]

/-- C128 (violated): Expected: a signature does not reveal the secrets. If the nonces are known, anybody computes the secrets from the
signature; and if also all other random numbers are zero, the signer's responses are the only ones that are not zero. -/
theorem C128_mlsag_known_violated (R : Ristretto F G) (p : Proof F G) (skip : Bool) (coins : Coins F)
    (hs : p.signer.keys = p.privKeys.map (· • R.base))
    (hd : ∀ k ∈ p.matrix, k.decoy = true ∨ k = ⟨false, p.signer.keys⟩) (hne : p.matrix ≠ []) (hx : p.privKeys ≠ [])
    (hdim : ∀ k ∈ p.matrix, k.keys.length = p.privKeys.length) :
    ∃ sig I i, (p.prove R skip coins).2 = .ok (sig, I) ∧ sig.pubKeys[i]? = some ⟨false, p.signer.keys⟩ ∧
      (challengeAt R sig I i ≠ 0 →
        (List.range p.privKeys.length).map (fun j => (coins.nonce j - (sig.r.getD i []).getD j 0) / challengeAt R sig I i) = p.privKeys ∧
        ((∀ j k, coins.resp j k = 0) → (∀ j, coins.nonce j = 0) → (∃ x ∈ p.privKeys, x ≠ 0) →
          ∀ j r, sig.r[j]? = some r → ((∃ s ∈ r, s ≠ 0) ↔ j = i))) := by
  obtain ⟨sig, I, i, h1, h2, h3, h4, h5⟩ := prove_response R p skip coins hs hd hne hx hdim
  refine ⟨sig, I, i, h1, h2, fun hc => ⟨?_, fun hr hn hx0 j r hj => ⟨?_, ?_⟩⟩⟩
  · apply List.ext_getElem
    · simp
    · intro j hj hj'
      rw [List.getElem_map, List.getElem_range, List.getD_eq_getElem?_getD (l := sig.r), h4, Option.getD_some,
        List.getD_eq_getElem _ _ (by simpa using hj'), List.getElem_zipWith, List.getElem_map, List.getElem_range]
      field_simp
      ring
  · rintro ⟨s, hsr, hs0⟩
    by_contra hji
    rw [h5 j r hji hj] at hsr
    obtain ⟨k, -, rfl⟩ := List.mem_map.1 hsr
    exact hs0 (hr j k)
  · rintro rfl
    rw [h4] at hj
    obtain ⟨x, hxm, hx0⟩ := hx0
    obtain ⟨k, hk, rfl⟩ := List.mem_iff_getElem.1 hxm
    rw [← Option.some.inj hj]
    refine ⟨-(challengeAt R sig I j * p.privKeys[k]), ?_, neg_ne_zero.2 (mul_ne_zero hc hx0)⟩
    refine List.mem_iff_getElem.2 ⟨k, by simpa using hk, ?_⟩
    rw [List.getElem_zipWith, List.getElem_map, List.getElem_range, hn, add_zero]

/-- C128 (violated): two signatures with the same secrets and the same nonces reveal the secrets, unless the two challenges of the signer
are equal. -/
theorem C128_mlsag_repeated_violated (R : Ristretto F G) (p p' : Proof F G) (skip skip' : Bool) (coins coins' : Coins F)
    (hs : p.signer.keys = p.privKeys.map (· • R.base)) (hs' : p'.signer.keys = p'.privKeys.map (· • R.base))
    (hd : ∀ k ∈ p.matrix, k.decoy = true ∨ k = ⟨false, p.signer.keys⟩)
    (hd' : ∀ k ∈ p'.matrix, k.decoy = true ∨ k = ⟨false, p'.signer.keys⟩)
    (hne : p.matrix ≠ []) (hne' : p'.matrix ≠ []) (hx : p.privKeys ≠ []) (hsame : p'.privKeys = p.privKeys)
    (hdim : ∀ k ∈ p.matrix, k.keys.length = p.privKeys.length) (hdim' : ∀ k ∈ p'.matrix, k.keys.length = p'.privKeys.length)
    (hn : coins'.nonce = coins.nonce) :
    ∃ sig I i sig' I' i', (p.prove R skip coins).2 = .ok (sig, I) ∧ (p'.prove R skip' coins').2 = .ok (sig', I') ∧
      sig.pubKeys[i]? = some ⟨false, p.signer.keys⟩ ∧ sig'.pubKeys[i']? = some ⟨false, p'.signer.keys⟩ ∧
      (challengeAt R sig I i ≠ challengeAt R sig' I' i' →
        List.zipWith (fun r r' => (r - r') / (challengeAt R sig' I' i' - challengeAt R sig I i)) (sig.r.getD i []) (sig'.r.getD i' []) =
          p.privKeys) := by
  obtain ⟨sig, I, i, h1, h2, -, h4, -⟩ := prove_response R p skip coins hs hd hne hx hdim
  obtain ⟨sig', I', i', h1', h2', -, h4', -⟩ := prove_response R p' skip' coins' hs' hd' hne' (by rwa [hsame]) hdim'
  refine ⟨sig, I, i, sig', I', i', h1, h1', h2, h2', fun hc => ?_⟩
  have hc' : challengeAt R sig' I' i' - challengeAt R sig I i ≠ 0 := sub_ne_zero.2 (Ne.symm hc)
  rw [List.getD_eq_getElem?_getD, h4, List.getD_eq_getElem?_getD, h4', hsame, hn]
  generalize challengeAt R sig' I' i' = c' at *
  generalize challengeAt R sig I i = c at *
  apply List.ext_getElem
  · simp
  · intro j hj hj'
    simp only [Option.getD_some, List.getElem_zipWith, List.getElem_map, List.getElem_range]
    rw [div_eq_iff hc']
    ring

/-- Two messages and two rings with the same nonces. -/
example (coins : Coins Toy.K) (resp : Nat → Nat → Toy.K) (sh : Nat → Nat) :
    ∃ sig I i sig' I' i', ((build Toy.ris [1] [.decoy ⟨false, [10, 11]⟩, .secret 5, .secret 7]).prove Toy.ris false coins).2 = .ok (sig, I) ∧
      ((build Toy.ris [2] [.secret 5, .decoy ⟨true, [12, 13]⟩, .decoy ⟨true, [14, 15]⟩, .secret 7]).prove Toy.ris true ⟨coins.nonce, resp, sh⟩).2 =
        .ok (sig', I') ∧
      (challengeAt Toy.ris sig I i ≠ challengeAt Toy.ris sig' I' i' →
        List.zipWith (fun r r' => (r - r') / (challengeAt Toy.ris sig' I' i' - challengeAt Toy.ris sig I i)) (sig.r.getD i []) (sig'.r.getD i' []) =
          [5, 7]) := by
  obtain ⟨sig, I, i, sig', I', i', h1, h2, -, -, h3⟩ := C128_mlsag_repeated_violated Toy.ris
    (build Toy.ris [1] [.decoy ⟨false, [10, 11]⟩, .secret 5, .secret 7])
    (build Toy.ris [2] [.secret 5, .decoy ⟨true, [12, 13]⟩, .decoy ⟨true, [14, 15]⟩, .secret 7]) false true coins ⟨coins.nonce, resp, sh⟩ rfl rfl
    (by intro k hk; left; revert k; decide) (by intro k hk; left; revert k; decide) (by decide) (by decide) (by decide) rfl (by decide) (by decide) rfl
  exact ⟨sig, I, i, sig', I', i', h1, h2, h3⟩

/-- Secrets 5 and 7, one decoy: known nonces. -/
example (coins : Coins Toy.K) : ∃ sig I i, ((build Toy.ris [1] [.decoy ⟨false, [10, 11]⟩, .secret 5, .secret 7]).prove Toy.ris false coins).2 =
      .ok (sig, I) ∧ (challengeAt Toy.ris sig I i ≠ 0 →
    (List.range 2).map (fun j => (coins.nonce j - (sig.r.getD i []).getD j 0) / challengeAt Toy.ris sig I i) = [5, 7]) := by
  obtain ⟨sig, I, i, h1, -, h2⟩ := C128_mlsag_known_violated Toy.ris (build Toy.ris [1] [.decoy ⟨false, [10, 11]⟩, .secret 5, .secret 7])
    false coins rfl (by intro k hk; left; revert k; decide) (by decide) (by decide) (by decide)
  exact ⟨sig, I, i, h1, fun hc => (h2 hc).1⟩

end Dusk.Mlsag

namespace Dusk.Blsag

variable {F G P : Type} [Field F] [AddCommGroup G] [Module F G]

/-- The challenge of member `j`, as the verifier computes it. -/
def challengeAt (R : Ristretto F G) (V : Raw F G P) (m : Bytes) (sig : RingSignature F P) (j : Nat) : F :=
  around R V m sig.I ((sig.pubKeys.zip sig.S).take j) sig.C

theorem sign_response {R : Ristretto F G} {V : Raw F G P} (hV : V.Lawful R) (m : Bytes) (mixin : List P) (sK : F) (coins : Coins F) :
    ∃ sig, sign R V m mixin sK coins = .ok sig ∧
      sig.pubKeys[coins.position % (mixin.length + 1)]? = some (V.inj (sK • R.base)) ∧
      sig.S[coins.position % (mixin.length + 1)]? =
        some (-(challengeAt R V m sig (coins.position % (mixin.length + 1)) * sK) + coins.alpha) := by
  obtain ⟨C, sig, h1, h2, h3, h4, h5, h6⟩ := sign_eq hV m mixin sK coins
  have hpl : sig.pubKeys.length = mixin.length + 1 := by rw [h4]; simp
  have hsl : sig.S.length = mixin.length + 1 := by rw [h5]; simp [preS]
  have hj : coins.position % (mixin.length + 1) < mixin.length + 1 := Nat.mod_lt _ (by omega)
  generalize coins.position % (mixin.length + 1) = j at *
  have hc : challengeAt R V m sig j = C j := by
    unfold challengeAt
    have hl : ((sig.pubKeys.zip sig.S).take j).length = j := by simp; omega
    have := around_cycle R V m sig.I (fun k => C (k % (mixin.length + 1))) ((sig.pubKeys.zip sig.S).take j) 0 (by
      intro k hk
      rw [hl] at hk
      rw [Nat.zero_add, Nat.mod_eq_of_lt (show k < mixin.length + 1 by omega), h6 k (by omega) (by omega)]
      simp)
    rw [hl, Nat.zero_add, Nat.zero_mod, Nat.mod_eq_of_lt hj] at this
    rw [h3]
    exact this
  refine ⟨sig, h1, ?_, ?_⟩
  · rw [h4, List.getElem?_set_self (by simpa using hj)]
  · rw [hc, h5, List.getElem?_set_self (by simpa [preS] using hj)]

/-- C128 (violated): the same for bLSAG: the secret key is computed from a signature if `alpha` is known. -/
theorem C128_blsag_known_violated {R : Ristretto F G} {V : Raw F G P} (hV : V.Lawful R) (m : Bytes) (mixin : List P) (sK : F)
    (coins : Coins F) : ∃ sig j, sign R V m mixin sK coins = .ok sig ∧ sig.pubKeys[j]? = some (V.inj (sK • R.base)) ∧
      (challengeAt R V m sig j ≠ 0 → (coins.alpha - sig.S.getD j 0) / challengeAt R V m sig j = sK) := by
  obtain ⟨sig, h1, h2, h3⟩ := sign_response hV m mixin sK coins
  refine ⟨sig, _, h1, h2, fun hc => ?_⟩
  rw [List.getD_eq_getElem?_getD, h3, Option.getD_some, div_eq_iff hc]
  ring

/-- C128 (violated): two bLSAG signatures with the same `alpha` reveal the secret key, unless the challenges are equal. -/
theorem C128_blsag_repeated_violated {R : Ristretto F G} {V : Raw F G P} (hV : V.Lawful R) (m m' : Bytes) (mixin mixin' : List P) (sK : F)
    (coins coins' : Coins F) (ha : coins'.alpha = coins.alpha) :
    ∃ sig j sig' j', sign R V m mixin sK coins = .ok sig ∧ sign R V m' mixin' sK coins' = .ok sig' ∧
      sig.pubKeys[j]? = some (V.inj (sK • R.base)) ∧ sig'.pubKeys[j']? = some (V.inj (sK • R.base)) ∧
      (challengeAt R V m sig j ≠ challengeAt R V m' sig' j' →
        (sig.S.getD j 0 - sig'.S.getD j' 0) / (challengeAt R V m' sig' j' - challengeAt R V m sig j) = sK) := by
  obtain ⟨sig, h1, h2, h3⟩ := sign_response hV m mixin sK coins
  obtain ⟨sig', h1', h2', h3'⟩ := sign_response hV m' mixin' sK coins'
  refine ⟨sig, _, sig', _, h1, h1', h2, h2', fun hc => ?_⟩
  rw [List.getD_eq_getElem?_getD, h3, Option.getD_some, List.getD_eq_getElem?_getD, h3', Option.getD_some, ha,
    div_eq_iff (sub_ne_zero.2 (Ne.symm hc))]
  ring

example (coins : Coins Toy.K) (m m' : Bytes) := C128_blsag_repeated_violated toyRaw_lawful m m' [some 9] [some 4, none] 5 coins ⟨7, coins.alpha, fun _ => 3⟩ rfl

example (m : Bytes) (sK : Toy.K) (s : Nat → Toy.K) : ∃ sig j, sign Toy.ris toyRaw m [some 5, some 6] sK ⟨2, 0, s⟩ = .ok sig ∧
    (challengeAt Toy.ris toyRaw m sig j ≠ 0 → (0 - sig.S.getD j 0) / challengeAt Toy.ris toyRaw m sig j = sK) := by
  obtain ⟨sig, j, h1, -, h2⟩ := C128_blsag_known_violated toyRaw_lawful m [some 5, some 6] sK ⟨2, 0, s⟩
  exact ⟨sig, j, h1, h2⟩

end Dusk.Blsag

namespace Dusk.RP

variable {F G : Type} [Field F] [AddCommGroup G] [Module F G] [DecidableEq F] [DecidableEq G]

/-- C128 (violated): Expected: a range proof does not reveal the values. If the numbers of `computeS` are zero, whatever the blinding factors,
the published number `t` gives a linear combination of the values with public coefficients. -/
theorem C128_range_violated (R : Ristretto F G) (m0 : Nat) (v : List F) (h1 : 1 ≤ v.length) (h2 : v.length ≤ 16)
    (hv : ∀ a ∈ v, R.sNat a < 2 ^ 64) (coins : Coins F) (hL : ∀ i, coins.sL i = 0) (hR : ∀ i, coins.sR i = 0) (q : Proof F G)
    (hq : (prove R m0 v false coins).2 = .ok q) :
    q.t - delta (chalOf R q).y (chalOf R q).z q.V.length =
      ∑ j ∈ Finset.range v.length, (chalOf R q).z ^ (j + 2) * v.getD j 0 := by
  obtain ⟨k, p, ip, a1, a2, -, a4, -, -, hif⟩ := C68_prove R m0 v false coins h1 h2
  obtain ⟨⟨ip', hq'⟩, -⟩ := (prove_iff R m0 v h1 h2 k a1 a2 coins q).1 hq
  have hlen : q.V.length = 2 ^ k := by rw [hq'.V]; simp
  rw [hlen, hq'.t]
  generalize (chalOf R q).y = y
  generalize (chalOf R q).z = z
  have e : ∀ i, (l0At R v z i + coins.sL i * (chalOf R q).x) * (r0At R v y z i + r1At y coins.sR i * (chalOf R q).x) =
      l0At R v z i * r0At R v y z i := by
    intro i
    rw [hL, r1At, hR]
    ring
  rw [Finset.sum_congr rfl fun i _ => e i, coeff0 R _ v hv]
  obtain ⟨d, hd⟩ := Nat.exists_eq_add_of_le a1
  rw [hd, Finset.sum_range_add]
  have hz : ∑ x ∈ Finset.range d, z ^ (v.length + x + 2) * v.getD (v.length + x) 0 = 0 :=
    Finset.sum_eq_zero fun x _ => by rw [List.getD_eq_default _ _ (by omega), mul_zero]
  rw [hz]
  ring

/-- C128 (violated): so the value of a proof of one value is revealed. -/
theorem C128_range_value_violated (R : Ristretto F G) (m0 : Nat) (a : F) (ha : R.sNat a < 2 ^ 64) (coins : Coins F)
    (hL : ∀ i, coins.sL i = 0) (hR : ∀ i, coins.sR i = 0) (q : Proof F G) (hq : (prove R m0 [a] false coins).2 = .ok q) :
    (q.t - delta (chalOf R q).y (chalOf R q).z 1) / (chalOf R q).z ^ 2 = a := by
  have h := C128_range_violated R m0 [a] le_rfl (by simp) (by simpa using ha) coins hL hR q hq
  have hk := (prove_iff R m0 [a] le_rfl (by simp) 0 le_rfl (fun _ _ => Nat.zero_le _) coins q).1 hq
  have hlen : q.V.length = 1 := by
    obtain ⟨ip, hq'⟩ := hk.1
    rw [hq'.V]; simp
  rw [hlen] at h
  rw [h, div_eq_iff (pow_ne_zero _ hk.2.2.2)]
  simp [mul_comm]

/-- A proof of the value 1 with all random numbers zero. -/
example : ∃ q : Proof Toy.K Toy.K, (prove Toy.ris 1 [1] false ⟨fun _ => 0, 0, fun _ => 0, fun _ => 0, 0, 0, 0⟩).2 = .ok q ∧
    (q.t - delta (chalOf Toy.ris q).y (chalOf Toy.ris q).z 1) / (chalOf Toy.ris q).z ^ 2 = 1 := by
  have h1 : Toy.ris.sNat (1 : Toy.K) < 2 ^ 64 := by
    have := toy_sNat 1 (by norm_num)
    rw [Nat.cast_one] at this
    rw [this]
    norm_num
  obtain ⟨q, hq, -⟩ := C60_nonzero_hash Toy.ris Toy.dv_ne_zero 1 [1] ⟨fun _ => 0, 0, fun _ => 0, fun _ => 0, 0, 0, 0⟩ (by simp) (by simp)
    (by intro x hx; rw [List.mem_singleton.1 hx]; exact h1)
  exact ⟨q, hq, C128_range_value_violated Toy.ris 1 1 h1 _ (fun _ => rfl) (fun _ => rfl) q hq⟩

/-- C128 (violated): Expected: a commitment hides its value. Two commitments with equal blinding factors are equal exactly if the values are. -/
theorem C128_commitment_violated {p : Pedersen G} (hB : ∀ a : F, a • p.basePoint = 0 → a = 0) (v v' blind : F) :
    (Pedersen.commitToScalar p v blind).value = (Pedersen.commitToScalar p v' blind).value ↔ v = v' := by
  constructor
  · intro h
    have h' : v • p.basePoint + blind • p.blindPoint = v' • p.basePoint + blind • p.blindPoint := h
    have := add_right_cancel h'
    exact sub_eq_zero.1 (hB _ (by rw [sub_smul, this, sub_self]))
  · rintro rfl
    rfl

example : (Pedersen.commitToScalar (Pedersen.new Toy.ris [1]) (2 : Toy.K) 0).value ≠ (Pedersen.commitToScalar (Pedersen.new Toy.ris [1]) (3 : Toy.K) 0).value := by
  rw [Ne, C128_commitment_violated]
  · intro h
    have h1 : (1 : Toy.K) = 0 := by linear_combination -h
    exact one_ne_zero h1
  · intro a ha
    rcases smul_eq_zero.1 ha with h | h
    · exact h
    · exact absurd h (Toy.dv_ne_zero _)

end Dusk.RP
