import Verif.Props.IPGen
import Verif.Props.RPVerConc
/-!
# Proving while `M` changes (C101)
-/

set_option linter.unusedSectionVars false

namespace Dusk

namespace IP

variable {F G : Type} [Field F] [AddCommGroup G] [Module F G] [DecidableEq F]

theorem had_take (a f : List F) {n : Nat} (h : a.length ≤ n) : had a (f.take n) = had a f := by
  unfold had
  apply List.ext_getElem
  · simp; omega
  · intro i h1 h2
    simp

/-- Factors beyond the number of points are not used. -/
theorem generate_take (R : Ristretto F G) (Gv Hv : List G) (a b hpf : List F) (Q : G) (k : Nat) (hk' : k < 32)
    (hg : Gv.length = 2 ^ k) (ha : a.length = 2 ^ k) (hb : b.length = 2 ^ k) (hh : Hv.length = 2 ^ k) (hf : 2 ^ k ≤ hpf.length) :
    generate R Gv Hv a b hpf Q = generate R Gv Hv a b (hpf.take (2 ^ k)) Q := by
  have hlt : 2 ^ k < 2 ^ 32 := Nat.pow_lt_pow_right (by norm_num) hk'
  unfold generate
  rw [hg, Nat.mod_eq_of_lt hlt]
  simp only [isPower2_two_pow hk', not_true_eq_false, if_false]
  rcases k with _ | j
  · simp
  have h2 : 2 ^ (j + 1) / 2 = 2 ^ j := by rw [pow_succ]; omega
  have h3 : (2 : Nat) ^ (j + 1) = 2 ^ j + 2 ^ j := by rw [pow_succ]; omega
  have h4 := Nat.two_pow_pos j
  rw [if_pos (by omega), if_pos (by omega), h2]
  congr 1
  unfold firstRound
  rw [splitNil_of_lt (x := Gv) (n := 2 ^ j) (by omega) (by omega), splitNil_of_lt (x := Hv) (n := 2 ^ j) (by omega) (by omega),
    splitNil_of_lt (x := a) (n := 2 ^ j) (by omega) (by omega), splitNil_of_lt (x := b) (n := 2 ^ j) (by omega) (by omega)]
  dsimp only
  rw [mulFactors_eq (b.drop (2 ^ j)) hpf (by simp; omega), mulFactors_eq (b.drop (2 ^ j)) (hpf.take _) (by simp; omega),
    mulFactors_eq (b.take (2 ^ j)) (hpf.drop _) (by simp; omega),
    mulFactors_eq (b.take (2 ^ j)) ((hpf.take _).drop _) (by simp; omega), had_take _ _ (by simp; omega)]
  have e1 : had (b.take (2 ^ j)) ((hpf.take (2 ^ (j + 1))).drop (2 ^ j)) = had (b.take (2 ^ j)) (hpf.drop (2 ^ j)) := by
    rw [List.drop_take, had_take _ _ (by simp; omega)]
  have e2 : ∀ u : F, List.zipWith (fun f (x : G) => (f * u) • x) (hpf.take (2 ^ (j + 1))) (Hv.take (2 ^ j)) =
      List.zipWith (fun f (x : G) => (f * u) • x) hpf (Hv.take (2 ^ j)) := by
    intro u
    apply List.ext_getElem
    · simp; omega
    · intro i h1 h2; simp
  have e3 : ∀ u : F, List.zipWith (fun f (x : G) => (f * u) • x) ((hpf.take (2 ^ (j + 1))).drop (2 ^ j)) (Hv.drop (2 ^ j)) =
      List.zipWith (fun f (x : G) => (f * u) • x) (hpf.drop (2 ^ j)) (Hv.drop (2 ^ j)) := by
    intro u
    apply List.ext_getElem
    · simp; omega
    · intro i h1 h2; simp
  simp only [e1, e2, e3]

end IP

namespace RP

variable {F G : Type} [Field F] [AddCommGroup G] [Module F G] [DecidableEq F] [DecidableEq G]

/-- None of the values read after the update of `M` overflows a 32-bit counter. -/
structure Reads.Small (rd : Reads) : Prop where
  base : 64 * rd.base < 2 ^ 32
  s : 64 * rd.s < 2 ^ 32
  poly : 64 * rd.poly < 2 ^ 32
  polySum : 64 * rd.polySum < 2 ^ 32
  hpf : 64 * rd.hpf < 2 ^ 32
  base2 : 64 * rd.base2 < 2 ^ 32

theorem proveCommit_base (R : Ristretto F G) (a b : Nat) (v : List F) (coins : Coins F) :
    proveCommit R (newPed R a) v coins = proveCommit R (newPed R b) v coins := rfl

/-- Committing to two vectors of the same length, with bases computed for another number of values. -/
theorem vectors_base (R : Ristretto F G) {b m : Nat} (hb : nBits * b < 2 ^ 32) (hm : nBits * m < 2 ^ 32) (x y : List F)
    (hx : x.length = nBits * m) (hy : y.length = nBits * m) (blind : F) :
    (newPed R b).commitToVectors R [x, y] blind =
      .ok (⟨blind • (pub R (nBits * m)).Bl + (msm x (pub R (nBits * m)).Gv + msm y (pub R (nBits * m)).Hv), blind⟩,
        newPed R (max b m)) := by
  have hmax : nBits * max b m < 2 ^ 32 := by rcases max_cases b m with h | h <;> rw [h.1] <;> assumption
  rw [newPed_eq R hb, C51_commit R _ (by simp [Gen.OnChain, pub, genData]) rfl x [y] blind (by
    intro w hw
    simp only [List.mem_cons, List.not_mem_nil, or_false] at hw
    rcases hw with rfl | rfl
    · rw [hx]; exact hm
    · rw [hy]; exact hm), newPed_eq R hmax]
  simp only [vectorsSum, vectorSeed, add_zero, hx, hy, pub, chain_length, genData, zero_add, if_true,
    one_ne_zero, if_false, Nat.mul_max_mul_left]
  rfl

/-- `computePoly` succeeds only if all lengths agree. -/
theorem computePoly_mixed (h2 : (2 : F) ≠ 0) {m m' n s : Nat} (hm : 64 * m < 2 ^ 32) (hm' : 64 * m' < 2 ^ 32)
    (aL aR sL sR : List F) (y z : F) (haR : aR.length = nBits * n) (hsR : sR.length = nBits * s)
    (h : ¬ (s = n ∧ m = n ∧ m' = n)) : (computePoly m m' aL aR sL sR y z).IsErr := by
  apply np_isErr (computePoly_np h2 (by omega) _ _ _ _ _ _)
  intro p hp
  apply h
  unfold computePoly at hp
  dsimp only at hp
  rw [sumZMTwoN_eq h2 z (by omega), Res.bind_ok] at hp
  obtain ⟨r0, h0, hp⟩ := Res.bind_eq_ok.1 hp
  obtain ⟨r1, h1, hp⟩ := Res.bind_eq_ok.1 hp
  obtain ⟨r2, h3, hp⟩ := Res.bind_eq_ok.1 hp
  have hmod : nBits * m % 2 ^ 32 = 64 * m := Nat.mod_eq_of_lt hm
  rw [hmod] at h0 h3
  have nB : nBits = 64 := rfl
  have l0 : aR.length = 64 * m := by
    unfold Vec.hadamard at h0
    split at h0
    · cases h0
    · next h => simpa [Vec.addScalar, scalarPowers_length] using h
  have l0' : r0.length = 64 * n := by
    rw [hadamard_eq (by simp [Vec.addScalar, scalarPowers_length, l0])] at h0
    cases h0
    simp [Vec.addScalar, scalarPowers_length, haR, nB] at l0 ⊢
    omega
  have l1 : r0.length = 64 * m' := by
    unfold Vec.add at h1
    split at h1
    · cases h1
    · next h => simpa [sumZ_length, nB] using h
  have l2 : 64 * m = 64 * s := by
    unfold Vec.hadamard at h3
    split at h3
    · cases h3
    · next h => simpa [scalarPowers_length, hsR, nB] using h
  rw [haR, nB] at l0
  omega

/-- The tail of `Prove` when the reads before the polynomial disagree. -/
theorem proveTail_mixed (R : Ristretto F G) (rd : Reads) (hrd : rd.Small) (hs : HashCacher) (v : List F)
    (Vs : List (Commitment F G)) (debug : Bool) (coins : Coins F) (hlt : nBits * v.length < 2 ^ 32)
    (h : ¬ (rd.s = v.length ∧ rd.poly = v.length ∧ rd.polySum = v.length)) :
    (proveTail R rd (newPed R rd.base) hs v Vs debug coins).IsErr := by
  have haL := aLOf_length R v
  have haR := aROf_length R v
  have e1 : (v.flatMap fun vi => (bitCommit (F := F) (R.sNat vi)).AL) = aLOf R v := rfl
  have e2 : (v.flatMap fun vi => (bitCommit (F := F) (R.sNat vi)).AR) = aROf R v := rfl
  have hmax : nBits * max rd.base v.length < 2 ^ 32 := by
    have := hrd.base
    rcases max_cases rd.base v.length with h | h <;> rw [h.1]
    · exact this
    · exact hlt
  unfold proveTail
  rw [e1, e2]
  unfold computeA computeS
  dsimp only
  rw [vectors_base R hrd.base hlt _ _ haL haR]
  dsimp only [Res.bind_ok]
  rw [vectors_base R hmax hrd.s _ _ (by simp) (by simp)]
  dsimp only [Res.bind_ok]
  exact IP.bind_err (computePoly_mixed R.two_ne_zero hrd.poly hrd.polySum _ _ _ _ _ _ haR (by simp) h) _

/-- The tail of `Prove` when the reads before the polynomial agree, and `y ≠ 0`. -/
theorem proveTail_agree (R : Ristretto F G) (rd : Reads) (hrd : rd.Small) (hs : HashCacher) (v : List F)
    (Vs : List (Commitment F G)) (coins : Coins F) (hlt : nBits * v.length < 2 ^ 32)
    (r1 : rd.s = v.length) (r2 : rd.poly = v.length) (r3 : rd.polySum = v.length) 
    (hy : (run R hs.cache v Vs coins).y ≠ 0) :
    proveTail R rd (newPed R rd.base) hs v Vs false coins =
      let q := run R hs.cache v Vs coins
      if q.x = 0 ∨ q.y = 0 ∨ q.z = 0 then
        .err "[Prove] - One of the challenge scalars, x, y, or z was equal to zero. Generate proof again"
      else
        (IP.generate R (pub R (nBits * max rd.base v.length)).Gv (pub R (nBits * rd.base2)).Hv q.l q.r
          (hpfOf q.y (nBits * rd.hpf)) (q.w • (pub R (nBits * v.length)).B)).bind fun ip =>
          .ok (q.proof Vs ip) := by
  have hsL : ((List.range (nBits * v.length)).map coins.sL).length = nBits * v.length := by simp
  have hsR : ((List.range (nBits * v.length)).map coins.sR).length = nBits * v.length := by simp
  have haL := aLOf_length R v
  have haR := aROf_length R v
  have hmax : nBits * max rd.base v.length < 2 ^ 32 := by
    have := hrd.base
    rcases max_cases rd.base v.length with h | h <;> rw [h.1]
    · exact this
    · exact hlt
  unfold proveTail
  have e1 : (v.flatMap fun vi => (bitCommit (F := F) (R.sNat vi)).AL) = aLOf R v := rfl
  have e2 : (v.flatMap fun vi => (bitCommit (F := F) (R.sNat vi)).AR) = aROf R v := rfl
  rw [e1, e2]
  unfold computeA computeS
  dsimp only
  rw [vectors_base R hrd.base hlt _ _ haL haR]
  dsimp only [Res.bind_ok]
  rw [r1, vectors_base R hmax hlt _ _ hsL hsR, max_assoc, max_self]
  dsimp only [Res.bind_ok]
  have hcache : (hs.append [R.pBytes (run R hs.cache v Vs coins).A, R.pBytes (run R hs.cache v Vs coins).S]).cache =
      hs.cache ++ R.pBytes (run R hs.cache v Vs coins).A ++ R.pBytes (run R hs.cache v Vs coins).S := by
    rw [HashCacher.append_cache]; simp
  have hA : coins.aBlind • (pub R (nBits * v.length)).Bl + (msm (aLOf R v) (pub R (nBits * v.length)).Gv +
      msm (aROf R v) (pub R (nBits * v.length)).Hv) = (run R hs.cache v Vs coins).A := rfl
  have hS : coins.sBlind • (pub R (nBits * v.length)).Bl + (msm ((List.range (nBits * v.length)).map coins.sL)
      (pub R (nBits * v.length)).Gv + msm ((List.range (nBits * v.length)).map coins.sR)
      (pub R (nBits * v.length)).Hv) = (run R hs.cache v Vs coins).S := rfl
  rw [hA, hS]
  have hY : (computeYAndZ R (hs.append [R.pBytes (run R hs.cache v Vs coins).A, R.pBytes (run R hs.cache v Vs coins).S])).1
      = (run R hs.cache v Vs coins).y := by
    unfold computeYAndZ HashCacher.result; rw [hcache]; rfl
  have hZ : (computeYAndZ R (hs.append [R.pBytes (run R hs.cache v Vs coins).A, R.pBytes (run R hs.cache v Vs coins).S])).2
      = (run R hs.cache v Vs coins).z := by
    unfold computeYAndZ HashCacher.result; rw [hcache]; rfl
  rw [hY, hZ, r2, r3, computePoly_eq R.two_ne_zero _ _ hy hlt haL haR hsL hsR]
  dsimp only [Res.bind_ok]
  rw [newPed_eq R hmax]
  unfold Pedersen.commitToScalar
  dsimp only
  have hT1 : t1Of v.length (run R hs.cache v Vs coins).y (run R hs.cache v Vs coins).z (aLOf R v) (aROf R v)
      ((List.range (nBits * v.length)).map coins.sL) ((List.range (nBits * v.length)).map coins.sR) •
        (pub R (nBits * max rd.base v.length)).B + coins.t1Blind • (pub R (nBits * max rd.base v.length)).Bl =
        (run R hs.cache v Vs coins).T1 := rfl
  have hT2 : t2Of v.length (run R hs.cache v Vs coins).y
      ((List.range (nBits * v.length)).map coins.sL) ((List.range (nBits * v.length)).map coins.sR) •
        (pub R (nBits * max rd.base v.length)).B + coins.t2Blind • (pub R (nBits * max rd.base v.length)).Bl =
        (run R hs.cache v Vs coins).T2 := rfl
  rw [hT1, hT2]
  have hcache2 : ((hs.append [R.pBytes (run R hs.cache v Vs coins).A, R.pBytes (run R hs.cache v Vs coins).S]).append
      [R.sBytes (run R hs.cache v Vs coins).z, R.pBytes (run R hs.cache v Vs coins).T1,
        R.pBytes (run R hs.cache v Vs coins).T2]).cache =
      hs.cache ++ R.pBytes (run R hs.cache v Vs coins).A ++ R.pBytes (run R hs.cache v Vs coins).S ++
        R.sBytes (run R hs.cache v Vs coins).z ++ R.pBytes (run R hs.cache v Vs coins).T1 ++
        R.pBytes (run R hs.cache v Vs coins).T2 := by
    rw [HashCacher.append_cache, hcache]; simp
  generalize (hs.append [R.pBytes (run R hs.cache v Vs coins).A, R.pBytes (run R hs.cache v Vs coins).S]).append
      [R.sBytes (run R hs.cache v Vs coins).z, R.pBytes (run R hs.cache v Vs coins).T1,
        R.pBytes (run R hs.cache v Vs coins).T2] = hs2 at *
  have hX : computeX R hs2 = (run R hs.cache v Vs coins).x := by
    unfold computeX HashCacher.result; rw [hcache2]; rfl
  rw [hX]
  unfold Polynomial.computeL Polynomial.computeR
  dsimp only
  rw [add_eq (by simp [Vec.mulScalar, haL]), Res.bind_ok,
    add_eq (by rw [r0Vec_length _ _ haR, Vec.mulScalar, List.length_map, r1Vec_length _ hsR]), Res.bind_ok]
  have hl : vadd ((aLOf R v).map fun a => a - (run R hs.cache v Vs coins).z)
      (Vec.mulScalar ((List.range (nBits * v.length)).map coins.sL) (run R hs.cache v Vs coins).x) =
      (run R hs.cache v Vs coins).l := rfl
  have hr : vadd (r0Vec v.length (run R hs.cache v Vs coins).y (run R hs.cache v Vs coins).z (aROf R v))
      (Vec.mulScalar (r1Vec v.length (run R hs.cache v Vs coins).y ((List.range (nBits * v.length)).map coins.sR))
        (run R hs.cache v Vs coins).x) =
      (run R hs.cache v Vs coins).r := rfl
  have hll : (run R hs.cache v Vs coins).l.length = nBits * v.length := lVec_length _ _ haL hsL
  have hrl : (run R hs.cache v Vs coins).r.length = nBits * v.length := rVec_length _ _ _ haR hsR
  rw [hl, hr, innerProduct_eq (by rw [hll, hrl])]
  dsimp only [Res.bind_ok]
  have ht : dot (run R hs.cache v Vs coins).l (run R hs.cache v Vs coins).r = (run R hs.cache v Vs coins).t := rfl
  have hmu : computeMu (run R hs.cache v Vs coins).x coins.aBlind coins.sBlind = (run R hs.cache v Vs coins).mu := rfl
  have htaux : computeTaux (run R hs.cache v Vs coins).x (run R hs.cache v Vs coins).z coins.t1Blind coins.t2Blind Vs =
    (run R hs.cache v Vs coins).taux := rfl
  rw [ht, hmu, htaux, compute_new, sum_mod hrd.hpf, sum_mod hrd.base2]
  have hw : (hs2.append [R.sBytes (run R hs.cache v Vs coins).x, R.sBytes (run R hs.cache v Vs coins).taux,
      R.sBytes (run R hs.cache v Vs coins).mu, R.sBytes (run R hs.cache v Vs coins).t]).derive R =
      (run R hs.cache v Vs coins).w := by
    unfold HashCacher.derive
    rw [HashCacher.append_cache, hcache2]
    simp [run]
  rw [hw]
  simp only [Bool.false_eq_true, if_false, Res.bind_ok]
  rfl

/-- The same with `y = 0`: an error. -/
theorem proveTail_agree_zero (R : Ristretto F G) (rd : Reads) (hrd : rd.Small) (hs : HashCacher) (v : List F)
    (Vs : List (Commitment F G)) (coins : Coins F) (hlt : nBits * v.length < 2 ^ 32)
    (r1 : rd.s = v.length) (hy : (run R hs.cache v Vs coins).y = 0) :
    (proveTail R rd (newPed R rd.base) hs v Vs false coins).IsErr := by
  have hsL : ((List.range (nBits * v.length)).map coins.sL).length = nBits * v.length := by simp
  have hsR : ((List.range (nBits * v.length)).map coins.sR).length = nBits * v.length := by simp
  have haL := aLOf_length R v
  have haR := aROf_length R v
  have hmax : nBits * max rd.base v.length < 2 ^ 32 := by
    have := hrd.base
    rcases max_cases rd.base v.length with h | h <;> rw [h.1]
    · exact this
    · exact hlt
  have e1 : (v.flatMap fun vi => (bitCommit (F := F) (R.sNat vi)).AL) = aLOf R v := rfl
  have e2 : (v.flatMap fun vi => (bitCommit (F := F) (R.sNat vi)).AR) = aROf R v := rfl
  unfold proveTail
  rw [e1, e2]
  unfold computeA computeS
  dsimp only
  rw [vectors_base R hrd.base hlt _ _ haL haR]
  dsimp only [Res.bind_ok]
  rw [r1, vectors_base R hmax hlt _ _ hsL hsR, max_assoc, max_self]
  dsimp only [Res.bind_ok]
  have hcache : (hs.append [R.pBytes (run R hs.cache v Vs coins).A, R.pBytes (run R hs.cache v Vs coins).S]).cache =
      hs.cache ++ R.pBytes (run R hs.cache v Vs coins).A ++ R.pBytes (run R hs.cache v Vs coins).S := by
    rw [HashCacher.append_cache]; simp
  have hA : coins.aBlind • (pub R (nBits * v.length)).Bl + (msm (aLOf R v) (pub R (nBits * v.length)).Gv +
      msm (aROf R v) (pub R (nBits * v.length)).Hv) = (run R hs.cache v Vs coins).A := rfl
  have hS : coins.sBlind • (pub R (nBits * v.length)).Bl + (msm ((List.range (nBits * v.length)).map coins.sL)
      (pub R (nBits * v.length)).Gv + msm ((List.range (nBits * v.length)).map coins.sR)
      (pub R (nBits * v.length)).Hv) = (run R hs.cache v Vs coins).S := rfl
  rw [hA, hS]
  have hY : (computeYAndZ R (hs.append [R.pBytes (run R hs.cache v Vs coins).A, R.pBytes (run R hs.cache v Vs coins).S])).1
      = 0 := by
    rw [← hy]
    unfold computeYAndZ HashCacher.result; rw [hcache]; rfl
  rw [hY]
  apply np_isErr
  · refine bind_np (computePoly_np R.two_ne_zero (by have := hrd.polySum; omega) _ _ _ _ _ _) fun poly => ?_
    refine bind_np (add_np _ _) fun l => bind_np (add_np _ _) fun r => bind_np (innerProduct_np _ _) fun t => ?_
    simp only [Bool.false_eq_true, if_false, Res.bind_ok]
    rw [if_pos (by simp)]
    simp
  · intro p hp
    obtain ⟨poly, -, hp⟩ := Res.bind_eq_ok.1 hp
    obtain ⟨l, -, hp⟩ := Res.bind_eq_ok.1 hp
    obtain ⟨r, -, hp⟩ := Res.bind_eq_ok.1 hp
    obtain ⟨t, -, hp⟩ := Res.bind_eq_ok.1 hp
    obtain ⟨u, -, hp⟩ := Res.bind_eq_ok.1 hp
    rw [if_pos (by simp)] at hp
    cases hp

theorem hpfOf_take (y : F) {a b : Nat} (h : a ≤ b) : (hpfOf y b).take a = hpfOf y a := by
  rw [hpfOf_eq, hpfOf_eq, ← List.map_take, List.take_range, min_eq_left h]

theorem excess_pad (R : Ristretto F G) (z : F) (v : List F) (n : Nat) :
    excess R z (v ++ List.replicate n 0) = excess R z v := by
  unfold excess
  simp only [getD_pad, List.length_append, List.length_replicate]
  rw [Finset.sum_range_add, add_eq_left]
  apply Finset.sum_eq_zero
  intro j _
  have h0 : v.getD (v.length + j) 0 = 0 := by simp [List.getD_eq_getElem?_getD]
  have hz : R.sNat (0 : F) = 0 := by
    have := R.sNat_cast (n := 0) (by have := R.two64_lt; omega)
    simpa using this
  rw [h0, hz]
  simp

/-- The reads of `M` for which a call on `n` values padded to `m` gets as far as the inner product proof and passes it the
right number of points. -/
structure Reads.Agree (rd : Reads) (n m : Nat) : Prop where
  pos : 1 ≤ n
  check : rd.check ≤ 16
  s : rd.s = m
  poly : rd.poly = m
  polySum : rd.polySum = m
  base : rd.base ≤ m
  pow : ∃ k, m = 2 ^ k

/-- C101: without agreement the call returns an error. -/
theorem C101_disagree (R : Ristretto F G) (rd : Reads) (hrd : rd.Small) (v : List F) (coins : Coins F) (m : Nat)
    (hm : v.length + padAmount rd.pad = m) (hlt : 64 * m < 2 ^ 32) (h : ¬ rd.Agree v.length m) :
    (proveWith R rd v false coins).IsErr := by
  unfold proveWith
  by_cases h1 : v.length < 1
  · rw [if_pos h1]; exact Res.isErr_err _
  rw [if_neg h1]
  by_cases h2 : rd.check > maxM
  · rw [if_pos h2]; exact Res.isErr_err _
  rw [if_neg h2]
  dsimp only
  have hvl : (v ++ List.replicate (padAmount rd.pad) (0 : F)).length = m := by simp [hm]
  generalize proveCommit R (newPed R rd.base) (v ++ List.replicate (padAmount rd.pad) 0) coins = c
  generalize v ++ List.replicate (padAmount rd.pad) (0 : F) = vp at *
  have hlt' : nBits * vp.length < 2 ^ 32 := by rw [hvl]; exact hlt
  by_cases h3 : rd.s = vp.length ∧ rd.poly = vp.length ∧ rd.polySum = vp.length
  swap
  · exact proveTail_mixed R rd hrd _ _ _ _ _ hlt' h3
  by_cases hy : (run R c.2.cache vp c.1 coins).y = 0
  · exact proveTail_agree_zero R rd hrd _ _ _ _ hlt' h3.1 hy
  rw [proveTail_agree R rd hrd _ _ _ _ hlt' h3.1 h3.2.1 h3.2.2 hy]
  dsimp only
  split
  · exact Res.isErr_err _
  refine IP.bind_err ?_ _
  have hll : (run R c.2.cache vp c.1 coins).l.length = nBits * vp.length := lVec_length _ _ (aLOf_length R _) (by simp)
  have hrl : (run R c.2.cache vp c.1 coins).r.length = nBits * vp.length := rVec_length _ _ _ (aROf_length R _) (by simp)
  have hg : (pub R (nBits * max rd.base vp.length)).Gv.length = 64 * max rd.base m := by simp [pub, hvl, nBits]
  have hh : (pub R (nBits * rd.base2)).Hv.length = 64 * rd.base2 := by simp [pub, nBits]
  have hb := hrd.base
  have hb2 := hrd.base2
  rw [hvl] at h3
  have nB : nBits = 64 := rfl
  rw [hvl, nB] at hll hrl
  have hmax : 64 * max rd.base m < 2 ^ 32 := by
    rcases max_cases rd.base m with h | h <;> rw [h.1]
    · exact hb
    · exact hlt
  by_cases hp : ∃ k, (pub R (nBits * max rd.base vp.length)).Gv.length = 2 ^ k
  swap
  · exact IP.C55_not_power R _ _ _ _ _ _ (by rw [hg]; exact hmax) (by rw [hg]; omega) (fun k hk => hp ⟨k, hk⟩)
  obtain ⟨k, hk⟩ := hp
  have hk6 : 6 ≤ k := by
    by_contra hc
    have : 2 ^ k ≤ 2 ^ 5 := Nat.pow_le_pow_right (by norm_num) (by omega)
    rw [← hk, hg] at this
    omega
  have hk32 : k < 32 := by
    by_contra hc
    have : 2 ^ 32 ≤ 2 ^ k := Nat.pow_le_pow_right (by norm_num) (by omega)
    rw [← hk, hg] at this
    omega
  have hbm : m < rd.base := by
    by_contra hc
    refine h ⟨by omega, by unfold maxM at h2; omega, h3.1, h3.2.1, h3.2.2, by omega, k - 6, ?_⟩
    have e : 2 ^ k = 64 * 2 ^ (k - 6) := by
      rw [show (64 : Nat) = 2 ^ 6 from rfl, ← pow_add]; congr 1; omega
    rw [hg, e, max_eq_right (by omega)] at hk
    omega
  refine (IP.C100_shapes R _ _ _ _ _ _ k (by omega) hk32 hk (by omega) (by omega) (by rw [hh]; exact hb2)).2.2.2 ⟨?_, ?_⟩
  · rintro ⟨h, -⟩
    rw [hg, hll, max_eq_left hbm.le] at h
    omega
  · rintro ⟨h, -⟩
    rw [hg, hll, max_eq_left hbm.le] at h
    omega

/-- C101: with agreement there is one proof `p`, the honest prover's for `m` values, that the call can return. It does so exactly
if the challenges are not zero, the second points are as many as the values and the factors at least as many. It panics
exactly if the factors are too few, as below. -/
theorem C101_agree (R : Ristretto F G) (rd : Reads) (hrd : rd.Small) (v : List F) (coins : Coins F) (m : Nat)
    (hm : v.length + padAmount rd.pad = m) (hlt : 64 * m < 2 ^ 32) (h : rd.Agree v.length m) :
    ∃ p ip, Honest R m v coins p ip ∧ 2 ^ ip.L.length = 64 * m ∧ ip.L.length = ip.R.length ∧
      ((chalOf R p).x = 0 ∨ (chalOf R p).y = 0 ∨ (chalOf R p).z = 0 → (proveWith R rd v false coins).IsErr) ∧
      ((chalOf R p).x ≠ 0 → (chalOf R p).y ≠ 0 → (chalOf R p).z ≠ 0 →
        (proveWith R rd v false coins = .panic ↔ 2 * rd.hpf < m ∨ (m < 2 * rd.base2 ∧ rd.hpf < m)) ∧
        (proveWith R rd v false coins = .ok p ↔ rd.base2 = m ∧ m ≤ rd.hpf) ∧
        (∀ p', proveWith R rd v false coins = .ok p' → p' = p)) ∧
      ((∀ u ∈ IP.challenges R ip.L ip.R, u ≠ 0) → (chalOf R p).y ≠ 0 → ∀ c, verify R m p c =
        if excess R (chalOf R p).z v • (pub R (64 * m)).B = 0 then .ok true else .err "megacheck failed") := by
  obtain ⟨h1, h2, h3, h4, h5, h6, k, hk⟩ := h
  have hvl : (v ++ List.replicate (padAmount rd.pad) (0 : F)).length = m := by simp [hm]
  have hlt' : nBits * m < 2 ^ 32 := hlt
  have hk6 : 2 ^ (k + 6) = nBits * m := by rw [hk, pow_add, Nat.mul_comm]; rfl
  have hk32 : k + 6 < 32 := by
    by_contra hc
    have : 2 ^ 32 ≤ 2 ^ (k + 6) := Nat.pow_le_pow_right (by norm_num) (by omega)
    omega
  have hprove : proveWith R rd v false coins = proveTail R rd (newPed R rd.base)
      (proveCommit R (newPed R m) (v ++ List.replicate (padAmount rd.pad) 0) coins).2 (v ++ List.replicate (padAmount rd.pad) 0)
      (proveCommit R (newPed R m) (v ++ List.replicate (padAmount rd.pad) 0) coins).1 false coins := by
    unfold proveWith
    rw [if_neg (by omega), if_neg (by unfold maxM; omega)]
    rfl
  rw [hprove]
  have hVs := proveCommit_eq R hlt' (v ++ List.replicate (padAmount rd.pad) 0) coins hvl
  have hcache := proveCommit_cache R (newPed R m) (v ++ List.replicate (padAmount rd.pad) 0) coins
  have hcom := proveCommit_commits R hlt' (v ++ List.replicate (padAmount rd.pad) 0) coins hvl
  simp only [getD_pad] at hVs
  generalize proveCommit R (newPed R m) (v ++ List.replicate (padAmount rd.pad) 0) coins = c at *
  obtain ⟨Vs, hs⟩ := c
  dsimp only at *
  have hex := fun z => excess_pad R z v (padAmount rd.pad)
  have hrun : run R hs.cache (v ++ List.replicate (padAmount rd.pad) 0) Vs coins =
      run R (Vs.flatMap fun V => R.pBytes V.value) (v ++ List.replicate (padAmount rd.pad) 0) Vs coins := by rw [hcache]
  have hh := run_honest R v (padAmount rd.pad) m hm Vs coins hVs hrun
  have hll : (run R hs.cache (v ++ List.replicate (padAmount rd.pad) 0) Vs coins).l.length = 2 ^ (k + 6) := by
    rw [hk6, ← hvl]; exact lVec_length _ _ (aLOf_length R _) (by simp)
  have hrl : (run R hs.cache (v ++ List.replicate (padAmount rd.pad) 0) Vs coins).r.length = 2 ^ (k + 6) := by
    rw [hk6, ← hvl]; exact rVec_length _ _ _ (aROf_length R _) (by simp)
  have hagree := proveTail_agree R rd hrd hs (v ++ List.replicate (padAmount rd.pad) 0) Vs coins (by rw [hvl]; exact hlt)
    (by rw [hvl]; exact h3) (by rw [hvl]; exact h4) (by rw [hvl]; exact h5)
  have hzero := proveTail_agree_zero R rd hrd hs (v ++ List.replicate (padAmount rd.pad) 0) Vs coins (by rw [hvl]; exact hlt)
    (by rw [hvl]; exact h3)
  have hver := run_verify R (v ++ List.replicate (padAmount rd.pad) 0) Vs [] coins (k := k + 6) (by rw [hvl]; exact hk6) hk32
      (by rw [hvl]; exact hcom)
      (q := run R hs.cache (v ++ List.replicate (padAmount rd.pad) 0) Vs coins) (by rw [List.append_nil]; exact hrun)
  have hch : ∀ ip, chalOf R ((run R hs.cache (v ++ List.replicate (padAmount rd.pad) 0) Vs coins).proof Vs ip) =
      (run R hs.cache (v ++ List.replicate (padAmount rd.pad) 0) Vs coins).chal := fun ip => by
    rw [hrun]; exact proof_chal R _ Vs coins ip
  rw [hvl] at hver hagree
  generalize run R hs.cache (v ++ List.replicate (padAmount rd.pad) 0) Vs coins = q at *
  obtain ⟨ip, g1, g2, g3, -⟩ := IP.generate_eq R (q.w • (pub R (nBits * m)).B) (k + 6) hk32 q.l q.r (hpfOf q.y (nBits * m))
      (pub R (nBits * m)).Gv (pub R (nBits * m)).Hv hll hrl (by rw [hk6]; simp [pub]) (by rw [hk6]; simp [pub])
      (by rw [hk6, hpfOf_length])
  have hhip := hh ip g1
  refine ⟨q.proof Vs ip, ip, hhip, by rw [g2]; exact hk6, by rw [g2, g3], ?_, ?_, ?_⟩
  · rw [hch]
    intro hz
    have hz : q.x = 0 ∨ q.y = 0 ∨ q.z = 0 := hz
    by_cases hy : q.y = 0
    · exact hzero hy
    · rw [hagree hy]
      dsimp only
      rw [if_pos hz]
      exact Res.isErr_err _
  · rw [hch]
    intro hx hy hz
    have e := hagree hy
    dsimp only at e
    rw [if_neg (by simp only [not_or]; exact ⟨hx, hy, hz⟩), max_eq_right h6] at e
    have hsh := IP.C100_shapes R (pub R (nBits * m)).Gv (pub R (nBits * rd.base2)).Hv q.l q.r (hpfOf q.y (nBits * rd.hpf))
      (q.w • (pub R (nBits * m)).B) (k + 6) (by omega) hk32 (by rw [hk6]; simp [pub]) (by omega) (by omega)
      (by have := hrd.base2; simp [pub, nBits]; omega)
    have hG : (pub R (nBits * m)).Gv.length = 64 * m := by simp [pub, nBits]
    have hH : (pub R (nBits * rd.base2)).Hv.length = 64 * rd.base2 := by simp [pub, nBits]
    rw [hG, hH, hpfOf_length, hll, hrl, hk6] at hsh
    obtain ⟨s1, s2, -⟩ := hsh
    have nB : nBits = 64 := rfl
    have hokk : rd.base2 = m → m ≤ rd.hpf → proveTail R rd (newPed R rd.base) hs (v ++ List.replicate (padAmount rd.pad) 0) Vs
        false coins = .ok (q.proof Vs ip) := by
      intro i1 i2
      rw [e, i1, IP.generate_take R _ _ _ _ _ _ (k + 6) hk32 (by rw [hk6]; simp [pub]) hll hrl (by rw [hk6]; simp [pub])
        (by rw [hk6, hpfOf_length]; exact Nat.mul_le_mul_left _ i2), hk6, hpfOf_take _ (Nat.mul_le_mul_left _ i2), g1]
      rfl
    have hany : ∀ p', proveTail R rd (newPed R rd.base) hs (v ++ List.replicate (padAmount rd.pad) 0) Vs false coins = .ok p' →
        rd.base2 = m ∧ m ≤ rd.hpf := by
      intro p' hp
      rw [e] at hp
      obtain ⟨ip', i1, -⟩ := Res.bind_eq_ok.1 hp
      have := s2.1 ⟨ip', i1⟩
      rw [nB] at this
      omega
    refine ⟨?_, ⟨fun hp => hany _ hp, fun hp => hokk hp.1 hp.2⟩, fun p' hp => ?_⟩
    · rw [e]
      have e2 : (IP.generate R (pub R (nBits * m)).Gv (pub R (nBits * rd.base2)).Hv q.l q.r (hpfOf q.y (nBits * rd.hpf))
          (q.w • (pub R (nBits * m)).B)).bind (fun ip => Res.ok (q.proof Vs ip)) = .panic ↔ 
          IP.generate R (pub R (nBits * m)).Gv (pub R (nBits * rd.base2)).Hv q.l q.r (hpfOf q.y (nBits * rd.hpf))
          (q.w • (pub R (nBits * m)).B) = .panic := by
        cases IP.generate R (pub R (nBits * m)).Gv (pub R (nBits * rd.base2)).Hv q.l q.r (hpfOf q.y (nBits * rd.hpf))
          (q.w • (pub R (nBits * m)).B) <;> simp
      rw [e2, s1]
      unfold IP.Overrun
      rw [nB]
      omega
    · have := hany p' hp
      rw [hokk this.1 this.2] at hp
      exact (Res.ok.inj hp).symm
  · rw [hch]
    intro hu hy c
    obtain ⟨ip', i1, -, -, -, i5⟩ := hver hy
    rw [g1] at i1
    cases Res.ok.inj i1
    have := i5 hu c
    rw [List.append_nil, hex] at this
    exact this

/-- C101: whatever values of `M` a call sees, a proof it returns is the honest prover's for the values padded to the length
of `p.V`, and is accepted alone if the values are in range and no challenge is zero. -/
theorem C101_returned (R : Ristretto F G) (rd : Reads) (hrd : rd.Small) (v : List F) (coins : Coins F)
    (hlt : 64 * (v.length + padAmount rd.pad) < 2 ^ 32) (p : Proof F G) (hp : proveWith R rd v false coins = .ok p) :
    p.V.length = v.length + padAmount rd.pad ∧ (∃ k, p.V.length = 2 ^ k) ∧
    ∃ ip, Honest R p.V.length v coins p ip ∧ ((∀ a ∈ v, R.sNat a < 2 ^ 64) → (∀ u ∈ IP.challenges R ip.L ip.R, u ≠ 0) →
      ∀ c, verify R p.V.length p c = .ok true) := by
  by_cases h : rd.Agree v.length (v.length + padAmount rd.pad)
  swap
  · have := C101_disagree R rd hrd v coins _ rfl hlt h
    rw [hp] at this
    simp [Res.IsErr] at this
  obtain ⟨p', ip, h1, -, -, h4, h5, h6⟩ := C101_agree R rd hrd v coins _ rfl hlt h
  have hz : ¬ ((chalOf R p').x = 0 ∨ (chalOf R p').y = 0 ∨ (chalOf R p').z = 0) := by
    intro hz
    have := h4 hz
    rw [hp] at this
    simp [Res.IsErr] at this
  simp only [not_or] at hz
  obtain rfl := (h5 hz.1 hz.2.1 hz.2.2).2.2 p hp
  have hl : p.V.length = v.length + padAmount rd.pad := by rw [h1.V]; simp
  rw [hl]
  refine ⟨rfl, h.pow, ip, h1, fun hv hu c => ?_⟩
  rw [h6 hu hz.2.1 c, excess_zero R _ hv, zero_smul, if_pos rfl]

/-- C101: the same for a call in an execution with any other calls of `Prove`: `seen[1]` is the value of `M` read for the
padding. -/
theorem C101_interleaved (R : Ristretto F G) (M0 : Nat) (procs : Nat → Proc) (sched : List Nat) (i : Nat) (v : List F)
    (coins : Coins F) (l : List Nat) (hl : ((exec M0 procs sched).2 i).seen = l) (hs : ∀ m ∈ l, 64 * m < 2 ^ 32)
    (hlt : 64 * (v.length + padAmount (l.getD 1 0)) < 2 ^ 32) (p : Proof F G)
    (hp : ((exec M0 procs sched).2 i).result R v false coins = .ok p) :
    p.V.length = v.length + padAmount (l.getD 1 0) ∧ ∃ ip, Honest R p.V.length v coins p ip := by
  have hg : ∀ j, 64 * l.getD j 0 < 2 ^ 32 := by
    intro j
    rw [List.getD_eq_getElem?_getD]
    cases h : l[j]? with
    | none => simp
    | some m => exact hs m (List.mem_of_getElem? h)
  unfold Proc.result at hp
  rw [hl] at hp
  obtain ⟨h1, -, ip, h3, -⟩ := C101_returned R (Reads.ofList l) ⟨hg 3, hg 4, hg 5, hg 6, hg 13, hg 14⟩ v coins hlt p hp
  exact ⟨h1, ip, h3⟩

/-- The accesses of a call that is disturbed by the start of another one before its last two reads. -/
theorem late_start (M0 : Nat) (procs : Nat → Proc) (n n' : Nat) (h0 : procs 0 = Proc.start n) (h1 : procs 1 = Proc.start n')
    (hn : 1 ≤ n) (hn' : n ≤ 16) (hn2 : 1 ≤ n') :
    (exec M0 procs (List.replicate 15 0 ++ [1] ++ List.replicate 2 0)).2 0 =
      ⟨n, Proc.end, [n, n, n] ++ List.replicate 10 (n + padAmount n) ++ [n', n']⟩ := by
  have er : List.replicate 15 0 ++ [1] ++ List.replicate 2 0 =
      [0, 0, 0, 0, 0, 0, 0, 0, 0, 0, 0, 0, 0, 0, 0, 1, 0, 0] := rfl
  have hc : ¬ n < 1 := by omega
  have hc' : ¬ n > maxM := by unfold maxM; omega
  have hc2 : ¬ n' < 1 := by omega
  rw [er]
  simp [exec, h0, h1, Proc.step, Proc.start, hc, hc', hc2, Proc.end]

/-- C101 (violated): `Prove` on `n` values crashes if another call of `Prove`, on fewer than half as many values as the first
one is padded to, starts before the last two reads of `M` of the first. -/
theorem C101_panic_violated (R : Ristretto F G) (hR : ∀ b, R.sDerive b ≠ 0) (M0 : Nat) (procs : Nat → Proc) (v : List F) (n' : Nat)
    (coins : Coins F) (h0 : procs 0 = Proc.start v.length) (h1 : procs 1 = Proc.start n') (hn : 1 ≤ v.length)
    (hn' : v.length ≤ 16) (hn2 : 1 ≤ n') (hlt : 2 * n' < v.length + padAmount v.length) :
    let e := (exec M0 procs (List.replicate 15 0 ++ [1] ++ List.replicate 2 0)).2 0
    e.pc = Proc.end ∧ e.result R v false coins = .panic := by
  dsimp only
  rw [late_start M0 procs v.length n' h0 h1 hn hn' hn2]
  refine ⟨rfl, ?_⟩
  unfold Proc.result
  obtain ⟨k, hk, hk4, -⟩ := padAmount_spec hn hn'
  have hle : 2 ^ k ≤ 2 ^ 4 := Nat.pow_le_pow_right (by norm_num) hk4
  have e : Reads.ofList ([v.length, v.length, v.length] ++ List.replicate 10 (v.length + padAmount v.length) ++ [n', n']) =
      ⟨v.length, v.length, v.length, 2 ^ k, 2 ^ k, 2 ^ k, 2 ^ k, 2 ^ k, 2 ^ k, 2 ^ k, 2 ^ k, 2 ^ k, 2 ^ k, n', n'⟩ := by
    rw [hk]; rfl
  dsimp only
  rw [e]
  obtain ⟨p, ip, -, -, -, -, h, -⟩ := C101_agree R ⟨v.length, v.length, v.length, 2 ^ k, 2 ^ k, 2 ^ k, 2 ^ k, 2 ^ k, 2 ^ k, 2 ^ k,
      2 ^ k, 2 ^ k, 2 ^ k, n', n'⟩ ⟨by dsimp only; omega, by dsimp only; omega, by dsimp only; omega, by dsimp only; omega,
      by dsimp only; omega, by dsimp only; omega⟩ v coins (2 ^ k) hk (by omega) ⟨hn, hn', rfl, rfl, rfl, le_rfl, k, rfl⟩
  obtain ⟨n1, n2, n3⟩ := chalOf_ne R hR p
  exact (h n1 n2 n3).1.2 (.inl (by dsimp only; omega))

/-! ## Examples -/

/-- A call on three values (padded to four), disturbed by a call on one value. -/
example (coins : Coins Toy.K) : ((exec 7 (fun i => Proc.start (if i = 0 then 3 else 1))
    (List.replicate 15 0 ++ [1] ++ List.replicate 2 0)).2 0).result Toy.ris [0, 0, 0] false coins = .panic := by
  obtain ⟨-, h⟩ := C101_panic_violated Toy.ris Toy.dv_ne_zero 7 (fun i => Proc.start (if i = 0 then 3 else 1)) [0, 0, 0] 1 coins
    (by simp) (by simp) (by simp) (by simp) le_rfl (by rw [List.length_cons, List.length_cons, List.length_singleton]; decide)
  exact h

/-- Reads that agree, with bases computed for fewer and factors for more values: the proof is returned nevertheless. -/
example (coins : Coins Toy.K) : ∃ p, proveWith Toy.ris ⟨2, 2, 9, 1, 2, 2, 2, 0, 0, 0, 0, 0, 0, 5, 2⟩ [0, 0] false coins = .ok p := by
  obtain ⟨p, ip, -, -, -, -, h, -⟩ := C101_agree Toy.ris ⟨2, 2, 9, 1, 2, 2, 2, 0, 0, 0, 0, 0, 0, 5, 2⟩ ⟨by norm_num, by norm_num,
    by norm_num, by norm_num, by norm_num, by norm_num⟩ [0, 0] coins 2 (by decide) (by norm_num)
    ⟨by simp, by norm_num, rfl, rfl, rfl, by norm_num, 1, rfl⟩
  obtain ⟨n1, n2, n3⟩ := chalOf_ne Toy.ris Toy.dv_ne_zero p
  exact ⟨p, (h n1 n2 n3).2.1.2 ⟨rfl, by norm_num⟩⟩

/-- Reads that do not agree. -/
example (coins : Coins Toy.K) : (proveWith Toy.ris ⟨2, 2, 2, 2, 2, 2, 4, 0, 0, 0, 0, 0, 0, 2, 2⟩ [0, 0] false coins).IsErr :=
  C101_disagree Toy.ris _ ⟨by norm_num, by norm_num, by norm_num, by norm_num, by norm_num, by norm_num⟩ [0, 0] coins 2
    (by decide) (by norm_num) fun h => by have := h.polySum; simp at this

end RP
end Dusk
