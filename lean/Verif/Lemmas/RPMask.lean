import Verif.Props.RPProgOut
import Verif.Lemmas.RPSound
/-!
# Runs of `Prove` with missing elements in the vector of powers
-/

set_option linter.unusedSectionVars false

namespace Dusk.RP

open Prog

variable {F G : Type} [Field F] [AddCommGroup G] [Module F G] [DecidableEq F] [DecidableEq G]

/-- The vector `aR'` with `(aR' + z) ∘ y^n + ∑ z^(j+1) 2^n = (aR + z) ∘ y^n + ∑ z^(j+1) 2^n - miss`. -/
def aRM (aR miss : List F) (y : F) : List F := vsub aR (had miss (hpfOf y miss.length))

/-- The missing elements as a list. -/
def missL (W : Nat → Bool) (n : Nat) (z : F) : List F := (List.range n).map (missAt W z)

theorem missL_length (W : Nat → Bool) (n : Nat) (z : F) : (missL W n z).length = n := by simp [missL]

theorem aRM_length {aR miss : List F} (y : F) (h : miss.length = aR.length) : (aRM aR miss y).length = aR.length := by
  simp [aRM, vsub, had_length, hpfOf_length, h]

theorem r0Vec_aRM {m : Nat} {aR miss : List F} {y : F} (hy : y ≠ 0) (z : F) (haR : aR.length = nBits * m) (hm : miss.length = nBits * m) :
    r0Vec m y z (aRM aR miss y) = vadd (had (aR.map fun a => a + z) (powers y (nBits * m))) (vsub (sumZ z 2 m) miss) := by
  unfold r0Vec aRM
  rw [hm, hpfOf_ne hy]
  unfold had vadd vsub powers
  apply List.ext_getElem
  · simp [haR, sumZ_length, hm]
  · intro i h1 h2
    have hyi : y ^ i * (y⁻¹) ^ i = 1 := by rw [← mul_pow, mul_inv_cancel₀ hy, one_pow]
    simp only [List.getElem_zipWith, List.getElem_map, List.getElem_range]
    linear_combination (-(miss[i]'(by simp at h1; omega))) * hyi

theorem maskL_eq (W : Nat → Bool) (m : Nat) (z : F) :
    (List.range (64 * m)).map (maskAt W z) = vsub (sumZ z 2 m) (missL W (nBits * m) z) := by
  apply List.ext_getElem
  · simp [vsub, missL, sumZ_length, nBits]
  · intro i h1 h2
    have hi : i < 64 * m := by simpa using h1
    have := getD_sumZ z hi
    rw [List.getD_eq_getElem?_getD, List.getElem?_eq_getElem (by rw [sumZ_length]; exact hi), Option.getD_some] at this
    simp only [vsub, missL, List.getElem_zipWith, List.getElem_map, List.getElem_range, this, maskAt, missAt]
    split <;> simp

/-- The part of `computePoly` after the last read of `M`. -/
def polyD (aL aR sL sR : List F) (y z : F) (m : Nat) (zz : List F) : Res (Polynomial F) :=
  let l0 := Vec.subScalar aL z
  let l1 := sL
  let yNM := Vec.scalarPowers y ((nBits * m) % 2 ^ 32)
  (Vec.hadamard (Vec.addScalar aR z) yNM).bind fun r0 =>
  (Vec.add r0 zz).bind fun r0 =>
  (Vec.hadamard yNM sR).bind fun r1 =>
  (Vec.innerProduct l0 r0).bind fun t0 =>
  (Vec.innerProduct l1 r0).bind fun t1Left =>
  (Vec.innerProduct l0 r1).bind fun t1Right =>
  (Vec.innerProduct l1 r1).bind fun t2 =>
  .ok ⟨l0, l1, r0, r1, t0, t1Left + t1Right, t2⟩

theorem polyD_eq {m : Nat} {aL aR sL sR miss : List F} (y z : F) (hy : y ≠ 0) (hlt : nBits * m < 2 ^ 32)
    (haL : aL.length = nBits * m) (haR : aR.length = nBits * m) (hsL : sL.length = nBits * m)
    (hsR : sR.length = nBits * m) (hm : miss.length = nBits * m) :
    polyD aL aR sL sR y z m (vsub (sumZ z 2 m) miss) = .ok ⟨aL.map fun a => a - z, sL, r0Vec m y z (aRM aR miss y), r1Vec m y sR,
      t0Of m y z aL (aRM aR miss y), t1Of m y z aL (aRM aR miss y) sL sR, t2Of m y sL sR⟩ := by
  have haR' : (aRM aR miss y).length = nBits * m := by rw [aRM_length _ (by rw [haR, hm]), haR]
  unfold polyD
  dsimp only
  rw [Nat.mod_eq_of_lt hlt, scalarPowers_eq hy,
    hadamard_eq (by simp [Vec.addScalar, haR, powers_length]), Res.bind_ok,
    add_eq (by simp [Vec.addScalar, haR, powers_length, sumZ_length, vsub, hm]), Res.bind_ok,
    hadamard_eq (by simp [powers_length, hsR]), Res.bind_ok, subScalar_eq]
  have e0 : vadd (had (Vec.addScalar aR z) (powers y (nBits * m))) (vsub (sumZ z 2 m) miss) = r0Vec m y z (aRM aR miss y) :=
    (r0Vec_aRM hy z haR hm).symm
  have e1 : had (powers y (nBits * m)) sR = r1Vec m y sR := rfl
  rw [e0, e1, innerProduct_eq (by simp [haL, r0Vec_length y z haR']), Res.bind_ok,
    innerProduct_eq (by simp [hsL, r0Vec_length y z haR']), Res.bind_ok,
    innerProduct_eq (by simp [haL, r1Vec_length y hsR]), Res.bind_ok,
    innerProduct_eq (by simp [hsL, r1Vec_length y hsR]), Res.bind_ok]
  rfl

/-- It succeeds only if all lengths agree. -/
theorem polyD_lengths {m : Nat} {aL aR sL sR zz : List F} {y z : F} {p : Polynomial F} (hlt : nBits * m < 2 ^ 32)
    (h : polyD aL aR sL sR y z m zz = .ok p) : aR.length = nBits * m ∧ zz.length = nBits * m ∧ sR.length = nBits * m ∧ sL.length = nBits * m := by
  unfold polyD at h
  dsimp only at h
  rw [Nat.mod_eq_of_lt hlt] at h
  obtain ⟨r0, h0, h⟩ := Res.bind_eq_ok.1 h
  obtain ⟨r0', h1, h⟩ := Res.bind_eq_ok.1 h
  obtain ⟨r1, h3, h⟩ := Res.bind_eq_ok.1 h
  obtain ⟨t0, -, h⟩ := Res.bind_eq_ok.1 h
  obtain ⟨t1, h4, -⟩ := Res.bind_eq_ok.1 h
  have l0 : aR.length = nBits * m := by
    unfold Vec.hadamard at h0
    split at h0
    · cases h0
    · next h => simpa [Vec.addScalar, scalarPowers_length] using h
  have l0' : r0.length = nBits * m := by
    rw [hadamard_eq (by simp [Vec.addScalar, scalarPowers_length, l0])] at h0
    cases h0
    simp [Vec.addScalar, scalarPowers_length, l0]
  have l1 : r0.length = zz.length := by
    unfold Vec.add at h1
    split at h1
    · cases h1
    · next h => simpa using h
  have l1' : r0'.length = nBits * m := by
    rw [add_eq l1] at h1
    cases h1
    simp [← l1, l0']
  have l2 : nBits * m = sR.length := by
    unfold Vec.hadamard at h3
    split at h3
    · cases h3
    · next h => simpa [scalarPowers_length] using h
  have l3 : sL.length = r0'.length := by
    unfold Vec.innerProduct at h4
    split at h4
    · cases h4
    · next h => simpa using h
  omega

/-- The run with missing elements `miss z`; as `run` otherwise. -/
def runM (R : Ristretto F G) (pre : Bytes) (v : List F) (Vs : List (Commitment F G)) (coins : Coins F) (miss : F → List F) : Run F G :=
  let m := v.length
  let P := pub R (nBits * m)
  let aL := aLOf R v
  let aR := aROf R v
  let sL := (List.range (nBits * m)).map coins.sL
  let sR := (List.range (nBits * m)).map coins.sR
  let A := coins.aBlind • P.Bl + (msm aL P.Gv + msm aR P.Hv)
  let S := coins.sBlind • P.Bl + (msm sL P.Gv + msm sR P.Hv)
  let y := R.sDerive (pre ++ R.pBytes A ++ R.pBytes S)
  let z := R.sDerive (R.sBytes y)
  let aR' := aRM aR (miss z) y
  let T1 := t1Of m y z aL aR' sL sR • P.B + coins.t1Blind • P.Bl
  let T2 := t2Of m y sL sR • P.B + coins.t2Blind • P.Bl
  let x := R.sDerive (pre ++ R.pBytes A ++ R.pBytes S ++ R.sBytes z ++ R.pBytes T1 ++ R.pBytes T2)
  let taux := computeTaux x z coins.t1Blind coins.t2Blind Vs
  let mu := coins.sBlind * x + coins.aBlind
  let l := lVec z x aL sL
  let r := rVec m y z x aR' sR
  let t := dot l r
  ⟨sL, sR, A, S, y, z, T1, T2, x, taux, mu, l, r, t,
    R.sDerive (pre ++ R.pBytes A ++ R.pBytes S ++ R.sBytes z ++ R.pBytes T1 ++ R.pBytes T2 ++ R.sBytes x ++
      R.sBytes taux ++ R.sBytes mu ++ R.sBytes t)⟩

/-- `Prove` from line 84 on without debug, for given blinding vectors, given `sumZMTwoN`, and given reads of `M` for the powers of `y`, the factors
and the second points. -/
def tailD (R : Ristretto F G) (ped : Pedersen G) (hs : HashCacher) (v : List F) (Vs : List (Commitment F G)) (coins : Coins F)
    (sL sR : List F) (m : Nat) (zz : F → List F) (h1 h2 : Nat) : Res (Proof F G) :=
  (computeA R ped (aLOf R v) (aROf R v) coins.aBlind).bind fun a =>
  let A := a.1
  (a.2.commitToVectors R [sL, sR] coins.sBlind).bind fun s =>
  let S := s.1; let ped := s.2
  let hs := hs.append [R.pBytes A.value, R.pBytes S.value]
  let y := (computeYAndZ R hs).1; let z := (computeYAndZ R hs).2
  (polyD (aLOf R v) (aROf R v) sL sR y z m (zz z)).bind fun poly =>
  let T1 := ped.commitToScalar poly.t1 coins.t1Blind
  let T2 := ped.commitToScalar poly.t2 coins.t2Blind
  let hs := hs.append [R.sBytes z, R.pBytes T1.value, R.pBytes T2.value]
  let x := computeX R hs
  let taux := computeTaux x z T1.blindingFactor T2.blindingFactor Vs
  let mu := computeMu x A.blindingFactor S.blindingFactor
  (poly.computeL x).bind fun l =>
  (poly.computeR x).bind fun r =>
  (Vec.innerProduct l r).bind fun t =>
  if x = 0 ∨ y = 0 ∨ z = 0 then
    .err "[Prove] - One of the challenge scalars, x, y, or z was equal to zero. Generate proof again"
  else
    let hs := hs.append [R.sBytes x, R.sBytes taux, R.sBytes mu, R.sBytes t]
    let w := hs.derive R
    let Q := w • ped.basePoint
    let Hpf := Vec.scalarPowers y⁻¹ ((nBits * h1) % 2 ^ 32)
    let ped2 := (Pedersen.new R (genData ++ [1])).baseVector.compute R ((nBits * h2) % 2 ^ 32)
    (IP.generate R ped.baseVector.bases ped2.bases l r Hpf Q).bind fun ip =>
    .ok { V := Vs, A := A.value, S := S.value, T1 := T1.value, T2 := T2.value, t := t, taux := taux, mu := mu,
          ip := some ip }

/-- What the call returns for all reads, in terms of `tailD`. -/
theorem proveTailP_tailD (R : Ristretto F G) (ped : Pedersen G) (hs : HashCacher) (v : List F) (Vs : List (Commitment F G)) (coins : Coins F)
    (p : Proof F G) : Out Usual (proveTailP R ped hs v Vs false coins) (.ok p) ↔
    ∃ m1 m2 c m m' h1 h2, ∃ W : Nat → Bool, Usual m1 ∧ Usual m2 ∧ 64 ≤ c ∧ c ≤ 64 * m1 ∧ c ≤ 64 * m2 ∧ Usual m ∧ Usual m' ∧ (∀ i < 64, W i) ∧
      Usual h1 ∧ Usual h2 ∧
      tailD R ped hs v Vs coins ((List.range (64 * m1)).map (cut coins c).sL) ((List.range (64 * m2)).map (cut coins c).sR) m
        (fun z => (List.range (64 * m')).map (maskAt W z)) h1 h2 = .ok p := by
  unfold proveTailP tailD
  dsimp only
  constructor
  · intro h
    obtain ⟨a, ha, h⟩ := out_bind_ok.1 h
    obtain ⟨⟨s, sL, sR⟩, hs', h⟩ := out_bind_ok.1 h
    obtain ⟨m1, m2, c, u1, u2, c1, c2, c3, e1, e2, hs'⟩ := (C103_blinding _ _ _ _).1 hs'
    dsimp only at e1 e2 hs' h
    obtain ⟨poly, hpoly, h⟩ := out_bind_ok.1 h
    unfold computePolyP at hpoly
    obtain ⟨m, um, hpoly⟩ := out_get_bind.1 hpoly
    obtain ⟨zz, hzz, hpoly⟩ := out_bind_ok.1 hpoly
    obtain ⟨m', um', W, hW, rfl⟩ := (C103_sum R.two_ne_zero _ _).1 hzz
    obtain ⟨l, hl, h⟩ := out_bind_ok.1 h
    obtain ⟨r, hr, h⟩ := out_bind_ok.1 h
    obtain ⟨t, ht, h⟩ := out_bind_ok.1 h
    simp only [Bool.false_eq_true, if_false] at h
    obtain ⟨_, -, h⟩ := out_bind_ok.1 h
    split at h
    · cases h
    next hz =>
    obtain ⟨h1, uh1, h⟩ := out_get_bind.1 h
    obtain ⟨h2, uh2, h⟩ := out_get_bind.1 h
    obtain ⟨ip, hip, h⟩ := out_bind_ok.1 h
    refine ⟨m1, m2, c, m, m', h1, h2, W, u1, u2, c1, c2, c3, um, um', hW, uh1, uh2, ?_⟩
    rw [← e1, ← e2]
    refine Res.bind_eq_ok.2 ⟨a, (out_lift.1 ha).symm, Res.bind_eq_ok.2 ⟨s, hs', Res.bind_eq_ok.2 ⟨poly, (out_lift.1 hpoly).symm,
      Res.bind_eq_ok.2 ⟨l, (out_lift.1 hl).symm, Res.bind_eq_ok.2 ⟨r, (out_lift.1 hr).symm, Res.bind_eq_ok.2 ⟨t, (out_lift.1 ht).symm, ?_⟩⟩⟩⟩⟩⟩
    rw [if_neg hz]
    exact Res.bind_eq_ok.2 ⟨ip, (out_lift.1 hip).symm, (out_lift.1 h).symm⟩
  · rintro ⟨m1, m2, c, m, m', h1, h2, W, u1, u2, c1, c2, c3, um, um', hW, uh1, uh2, h⟩
    obtain ⟨a, ha, h⟩ := Res.bind_eq_ok.1 h
    obtain ⟨s, hs', h⟩ := Res.bind_eq_ok.1 h
    obtain ⟨poly, hpoly, h⟩ := Res.bind_eq_ok.1 h
    obtain ⟨l, hl, h⟩ := Res.bind_eq_ok.1 h
    obtain ⟨r, hr, h⟩ := Res.bind_eq_ok.1 h
    obtain ⟨t, ht, h⟩ := Res.bind_eq_ok.1 h
    split at h
    · cases h
    next hz =>
    obtain ⟨ip, hip, h⟩ := Res.bind_eq_ok.1 h
    refine out_bind_ok.2 ⟨a, ha.symm, out_bind_ok.2 ⟨(s, (List.range (64 * m1)).map (cut coins c).sL, (List.range (64 * m2)).map (cut coins c).sR),
      (C103_blinding _ _ _ _).2 ⟨m1, m2, c, u1, u2, c1, c2, c3, rfl, rfl, hs'⟩, ?_⟩⟩
    refine out_bind_ok.2 ⟨poly, ?_, ?_⟩
    · unfold computePolyP
      exact out_get_bind.2 ⟨m, um, out_bind_ok.2 ⟨_, (C103_sum R.two_ne_zero _ _).2 ⟨m', um', W, hW, rfl⟩, hpoly.symm⟩⟩
    refine out_bind_ok.2 ⟨l, hl.symm, out_bind_ok.2 ⟨r, hr.symm, out_bind_ok.2 ⟨t, ht.symm, ?_⟩⟩⟩
    simp only [Bool.false_eq_true, if_false]
    refine out_bind_ok.2 ⟨(), rfl, ?_⟩
    rw [if_neg hz]
    exact out_get_bind.2 ⟨h1, uh1, out_get_bind.2 ⟨h2, uh2, out_bind_ok.2 ⟨ip, hip.symm, h.symm⟩⟩⟩

/-- The deterministic tail when all lengths agree and `y ≠ 0`; `coins'` has the same scalars as `coins` but for the blinding vectors. -/
theorem tailD_agree (R : Ristretto F G) {b : Nat} (hb : nBits * b < 2 ^ 32) (hs : HashCacher) (v : List F)
    (Vs : List (Commitment F G)) (coins : Coins F) (c : Nat) (hlt : nBits * v.length < 2 ^ 32) (miss : F → List F)
    (hmiss : ∀ z, (miss z).length = nBits * v.length) {h1 h2 : Nat} (hh1 : nBits * h1 < 2 ^ 32) (hh2 : nBits * h2 < 2 ^ 32)
    (hy : (runM R hs.cache v Vs (cut coins c) miss).y ≠ 0) :
    tailD R (newPed R b) hs v Vs coins ((List.range (nBits * v.length)).map (cut coins c).sL)
        ((List.range (nBits * v.length)).map (cut coins c).sR) v.length (fun z => vsub (sumZ z 2 v.length) (miss z)) h1 h2 =
      let q := runM R hs.cache v Vs (cut coins c) miss
      if q.x = 0 ∨ q.y = 0 ∨ q.z = 0 then
        .err "[Prove] - One of the challenge scalars, x, y, or z was equal to zero. Generate proof again"
      else
        (IP.generate R (pub R (nBits * max b v.length)).Gv (pub R (nBits * h2)).Hv q.l q.r
          (hpfOf q.y (nBits * h1)) (q.w • (pub R (nBits * v.length)).B)).bind fun ip =>
          .ok (q.proof Vs ip) := by
  have hsL : ((List.range (nBits * v.length)).map (cut coins c).sL).length = nBits * v.length := by simp
  have hsR : ((List.range (nBits * v.length)).map (cut coins c).sR).length = nBits * v.length := by simp
  have haL := aLOf_length R v
  have haR := aROf_length R v
  have hmax : nBits * max b v.length < 2 ^ 32 := by
    rcases max_cases b v.length with h | h <;> rw [h.1] <;> assumption
  unfold tailD
  unfold computeA
  dsimp only
  rw [vectors_base R hb hlt _ _ haL haR]
  dsimp only [Res.bind_ok]
  rw [vectors_base R hmax hlt _ _ hsL hsR, max_assoc, max_self]
  dsimp only [Res.bind_ok]
  set q := runM R hs.cache v Vs (cut coins c) miss with hq
  have hcache : (hs.append [R.pBytes q.A, R.pBytes q.S]).cache = hs.cache ++ R.pBytes q.A ++ R.pBytes q.S := by
    rw [HashCacher.append_cache]; simp
  have hA : coins.aBlind • (pub R (nBits * v.length)).Bl + (msm (aLOf R v) (pub R (nBits * v.length)).Gv +
      msm (aROf R v) (pub R (nBits * v.length)).Hv) = q.A := rfl
  have hS : coins.sBlind • (pub R (nBits * v.length)).Bl + (msm ((List.range (nBits * v.length)).map (cut coins c).sL)
      (pub R (nBits * v.length)).Gv + msm ((List.range (nBits * v.length)).map (cut coins c).sR)
      (pub R (nBits * v.length)).Hv) = q.S := rfl
  rw [hA, hS]
  have hY : (computeYAndZ R (hs.append [R.pBytes q.A, R.pBytes q.S])).1 = q.y := by
    unfold computeYAndZ HashCacher.result; rw [hcache]; rfl
  have hZ : (computeYAndZ R (hs.append [R.pBytes q.A, R.pBytes q.S])).2 = q.z := by
    unfold computeYAndZ HashCacher.result; rw [hcache]; rfl
  rw [hY, hZ, polyD_eq _ _ hy hlt haL haR hsL hsR (hmiss _)]
  dsimp only [Res.bind_ok]
  rw [newPed_eq R hmax]
  unfold Pedersen.commitToScalar
  dsimp only
  have haR' : (aRM (aROf R v) (miss q.z) q.y).length = nBits * v.length := by rw [aRM_length _ (by rw [haR, hmiss]), haR]
  have hT1 : t1Of v.length q.y q.z (aLOf R v) (aRM (aROf R v) (miss q.z) q.y)
      ((List.range (nBits * v.length)).map (cut coins c).sL) ((List.range (nBits * v.length)).map (cut coins c).sR) •
        (pub R (nBits * max b v.length)).B + coins.t1Blind • (pub R (nBits * max b v.length)).Bl = q.T1 := rfl
  have hT2 : t2Of v.length q.y
      ((List.range (nBits * v.length)).map (cut coins c).sL) ((List.range (nBits * v.length)).map (cut coins c).sR) •
        (pub R (nBits * max b v.length)).B + coins.t2Blind • (pub R (nBits * max b v.length)).Bl = q.T2 := rfl
  rw [hT1, hT2]
  have hcache2 : ((hs.append [R.pBytes q.A, R.pBytes q.S]).append [R.sBytes q.z, R.pBytes q.T1, R.pBytes q.T2]).cache =
      hs.cache ++ R.pBytes q.A ++ R.pBytes q.S ++ R.sBytes q.z ++ R.pBytes q.T1 ++ R.pBytes q.T2 := by
    rw [HashCacher.append_cache, hcache]; simp
  generalize (hs.append [R.pBytes q.A, R.pBytes q.S]).append [R.sBytes q.z, R.pBytes q.T1, R.pBytes q.T2] = hs2 at *
  have hX : computeX R hs2 = q.x := by
    unfold computeX HashCacher.result; rw [hcache2]; rfl
  rw [hX]
  unfold Polynomial.computeL Polynomial.computeR
  dsimp only
  rw [add_eq (by simp [Vec.mulScalar, haL]), Res.bind_ok,
    add_eq (by rw [r0Vec_length _ _ haR', Vec.mulScalar, List.length_map, r1Vec_length _ hsR]), Res.bind_ok]
  have hl : vadd ((aLOf R v).map fun a => a - q.z)
      (Vec.mulScalar ((List.range (nBits * v.length)).map (cut coins c).sL) q.x) = q.l := rfl
  have hr : vadd (r0Vec v.length q.y q.z (aRM (aROf R v) (miss q.z) q.y))
      (Vec.mulScalar (r1Vec v.length q.y ((List.range (nBits * v.length)).map (cut coins c).sR)) q.x) = q.r := rfl
  have hll : q.l.length = nBits * v.length := lVec_length _ _ haL hsL
  have hrl : q.r.length = nBits * v.length := rVec_length _ _ _ haR' hsR
  rw [hl, hr, innerProduct_eq (by rw [hll, hrl])]
  dsimp only [Res.bind_ok]
  have ht : dot q.l q.r = q.t := rfl
  have hmu : computeMu q.x coins.aBlind coins.sBlind = q.mu := rfl
  have htaux : computeTaux q.x q.z coins.t1Blind coins.t2Blind Vs = q.taux := rfl
  rw [ht, hmu, htaux, compute_new, sum_mod hh1, sum_mod hh2]
  have hw : (hs2.append [R.sBytes q.x, R.sBytes q.taux, R.sBytes q.mu, R.sBytes q.t]).derive R = q.w := by
    unfold HashCacher.derive
    rw [HashCacher.append_cache, hcache2]
    simp [hq, runM]
  rw [hw]
  rfl

/-- The deterministic tail succeeds only if all lengths agree and `y ≠ 0`. -/
theorem tailD_lengths (R : Ristretto F G) {b : Nat} (hb : nBits * b < 2 ^ 32) (hs : HashCacher) (v : List F)
    (Vs : List (Commitment F G)) (coins : Coins F) (sL sR : List F) (hlt : nBits * v.length < 2 ^ 32) {m m' : Nat} (hm : nBits * m < 2 ^ 32)
    (zz : F → List F) (hzz : ∀ z, (zz z).length = nBits * m')
    {h1 h2 : Nat} {p : Proof F G} (h : tailD R (newPed R b) hs v Vs coins sL sR m zz h1 h2 = .ok p) :
    m = v.length ∧ m' = v.length ∧ sR.length = nBits * v.length ∧ sL.length = nBits * v.length := by
  unfold tailD at h
  obtain ⟨a, -, h⟩ := Res.bind_eq_ok.1 h
  obtain ⟨s, -, h⟩ := Res.bind_eq_ok.1 h
  dsimp only at h
  obtain ⟨poly, h, -⟩ := Res.bind_eq_ok.1 h
  have := polyD_lengths hm h
  rw [hzz, aROf_length] at this
  unfold nBits at *
  omega

theorem tailD_y (R : Ristretto F G) {b : Nat} (hb : nBits * b < 2 ^ 32) (hs : HashCacher) (v : List F)
    (Vs : List (Commitment F G)) (coins : Coins F) (c : Nat) (hlt : nBits * v.length < 2 ^ 32) (m : Nat) (zz : F → List F) (miss : F → List F)
    {h1 h2 : Nat} {p : Proof F G} (h : tailD R (newPed R b) hs v Vs coins ((List.range (nBits * v.length)).map (cut coins c).sL)
        ((List.range (nBits * v.length)).map (cut coins c).sR) m zz h1 h2 = .ok p) :
    (runM R hs.cache v Vs (cut coins c) miss).y ≠ 0 := by
  have hsL : ((List.range (nBits * v.length)).map (cut coins c).sL).length = nBits * v.length := by simp
  have hsR : ((List.range (nBits * v.length)).map (cut coins c).sR).length = nBits * v.length := by simp
  have haL := aLOf_length R v
  have haR := aROf_length R v
  have hmax : nBits * max b v.length < 2 ^ 32 := by
    rcases max_cases b v.length with h | h <;> rw [h.1] <;> assumption
  unfold tailD computeA at h
  dsimp only at h
  rw [vectors_base R hb hlt _ _ haL haR] at h
  dsimp only [Res.bind_ok] at h
  rw [vectors_base R hmax hlt _ _ hsL hsR, max_assoc, max_self] at h
  dsimp only [Res.bind_ok] at h
  intro hy
  set q := runM R hs.cache v Vs (cut coins c) miss with hq
  have hcache : (hs.append [R.pBytes q.A, R.pBytes q.S]).cache = hs.cache ++ R.pBytes q.A ++ R.pBytes q.S := by
    rw [HashCacher.append_cache]; simp
  have hA : coins.aBlind • (pub R (nBits * v.length)).Bl + (msm (aLOf R v) (pub R (nBits * v.length)).Gv +
      msm (aROf R v) (pub R (nBits * v.length)).Hv) = q.A := rfl
  have hS : coins.sBlind • (pub R (nBits * v.length)).Bl + (msm ((List.range (nBits * v.length)).map (cut coins c).sL)
      (pub R (nBits * v.length)).Gv + msm ((List.range (nBits * v.length)).map (cut coins c).sR)
      (pub R (nBits * v.length)).Hv) = q.S := rfl
  rw [hA, hS] at h
  have hY : (computeYAndZ R (hs.append [R.pBytes q.A, R.pBytes q.S])).1 = q.y := by
    unfold computeYAndZ HashCacher.result; rw [hcache]; rfl
  rw [hY, hy] at h
  obtain ⟨poly, -, h⟩ := Res.bind_eq_ok.1 h
  obtain ⟨l, -, h⟩ := Res.bind_eq_ok.1 h
  obtain ⟨r, -, h⟩ := Res.bind_eq_ok.1 h
  obtain ⟨t, -, h⟩ := Res.bind_eq_ok.1 h
  rw [if_pos (by simp)] at h
  cases h

/-- When the inner product proof is made, for given reads. -/
theorem generate_reads (R : Ristretto F G) {b m h1 h2 : Nat} (hm1 : 1 ≤ m) (hb : 64 * b < 2 ^ 32) (hm : 64 * m < 2 ^ 32)
    (hh2 : 64 * h2 < 2 ^ 32) {l r : List F} (hl : l.length = nBits * m) (hr : r.length = nBits * m) (y : F) (Q : G) (ip : IP.Proof F G) :
    IP.generate R (pub R (nBits * max b m)).Gv (pub R (nBits * h2)).Hv l r (hpfOf y (nBits * h1)) Q = .ok ip ↔
      (∃ k, m = 2 ^ k) ∧ b ≤ m ∧ h2 = m ∧ m ≤ h1 ∧
        IP.generate R (pub R (nBits * m)).Gv (pub R (nBits * m)).Hv l r (hpfOf y (nBits * m)) Q = .ok ip := by
  have hmax : 64 * max b m < 2 ^ 32 := by
    rcases max_cases b m with h | h <;> rw [h.1] <;> assumption
  have nB : nBits = 64 := rfl
  have hG : ∀ n, (pub R (nBits * n)).Gv.length = 64 * n := fun n => by simp [pub, nBits]
  have hH : ∀ n, (pub R (nBits * n)).Hv.length = 64 * n := fun n => by simp [pub, nBits]
  have take : ∀ k, m = 2 ^ k → m ≤ h1 → IP.generate R (pub R (nBits * m)).Gv (pub R (nBits * m)).Hv l r (hpfOf y (nBits * h1)) Q =
      IP.generate R (pub R (nBits * m)).Gv (pub R (nBits * m)).Hv l r (hpfOf y (nBits * m)) Q := by
    intro k hk i2
    have hk6 : 2 ^ (k + 6) = nBits * m := by rw [hk, pow_add, Nat.mul_comm]; rfl
    have hk32 : k + 6 < 32 := by
      by_contra hc
      have : 2 ^ 32 ≤ 2 ^ (k + 6) := Nat.pow_le_pow_right (by norm_num) (by omega)
      rw [hk6, nB] at this
      omega
    rw [IP.generate_take R _ _ _ _ _ _ (k + 6) hk32 (by rw [hk6]; simp [pub]) (by omega) (by omega) (by rw [hk6]; simp [pub])
        (by rw [hk6, hpfOf_length]; exact Nat.mul_le_mul_left _ i2), hk6, hpfOf_take _ (Nat.mul_le_mul_left _ i2)]
  constructor
  · intro h
    have hp : ∃ k, (pub R (nBits * max b m)).Gv.length = 2 ^ k := by
      by_contra hp
      have := IP.C55_not_power R (pub R (nBits * max b m)).Gv (pub R (nBits * h2)).Hv l r (hpfOf y (nBits * h1)) Q
        (by rw [hG]; exact hmax) (by rw [hG]; omega) (fun k hk => hp ⟨k, hk⟩)
      rw [h] at this
      simp [Res.IsErr] at this
    obtain ⟨k, hk⟩ := hp
    rw [hG] at hk
    have hk6 : 6 ≤ k := by
      by_contra hc
      have : 2 ^ k ≤ 2 ^ 5 := Nat.pow_le_pow_right (by norm_num) (by omega)
      omega
    have hk32 : k < 32 := by
      by_contra hc
      have : 2 ^ 32 ≤ 2 ^ k := Nat.pow_le_pow_right (by norm_num) (by omega)
      omega
    have e : 2 ^ k = 64 * 2 ^ (k - 6) := by
      rw [show (64 : Nat) = 2 ^ 6 from rfl, ← pow_add]; congr 1; omega
    have hsh := (IP.C100_shapes R (pub R (nBits * max b m)).Gv (pub R (nBits * h2)).Hv l r (hpfOf y (nBits * h1)) Q k (by omega) hk32
      (by rw [hG]; exact hk) (by rw [hl]; exact hm) (by rw [hr]; exact hm) (by rw [hH]; exact hh2)).2.1.1 ⟨ip, h⟩
    rw [hG, hH, hpfOf_length, hl, hr, nB] at hsh
    have hbm : b ≤ m := by
      rcases max_cases b m with h | h <;> omega
    rw [max_eq_right hbm] at hsh hk h
    have hpow : m = 2 ^ (k - 6) := by omega
    have e2 : h2 = m := by omega
    have e3 : m ≤ h1 := by omega
    refine ⟨⟨_, hpow⟩, hbm, e2, e3, ?_⟩
    rw [e2, take _ hpow e3] at h
    exact h
  · rintro ⟨⟨k, hk⟩, hbm, rfl, e3, h⟩
    rw [max_eq_right hbm, take k hk e3]
    exact h

/-- C104: everything `Prove` without debug returns after its commitments, whatever values of `M` it reads from there on. -/
theorem proveTailP_out (R : Ristretto F G) {b : Nat} (hb : Usual b) (hs : HashCacher) (v : List F) (Vs : List (Commitment F G)) (coins : Coins F)
    (hv : Usual v.length) (p : Proof F G) : Out Usual (proveTailP R (newPed R b) hs v Vs false coins) (.ok p) ↔
    (∃ k, v.length = 2 ^ k) ∧ b ≤ v.length ∧ ∃ (c : Nat) (W : Nat → Bool) (ip : IP.Proof F G), 64 ≤ c ∧ c ≤ 64 * v.length ∧ (∀ i < 64, W i) ∧
      let q := runM R hs.cache v Vs (cut coins c) (missL W (nBits * v.length))
      q.x ≠ 0 ∧ q.y ≠ 0 ∧ q.z ≠ 0 ∧
      IP.generate R (pub R (nBits * v.length)).Gv (pub R (nBits * v.length)).Hv q.l q.r (hpfOf q.y (nBits * v.length))
        (q.w • (pub R (nBits * v.length)).B) = .ok ip ∧ p = q.proof Vs ip := by
  have nB : nBits = 64 := rfl
  have hlen : ∀ (c : Nat) (W : Nat → Bool),
      (runM R hs.cache v Vs (cut coins c) (missL W (nBits * v.length))).l.length = nBits * v.length ∧
      (runM R hs.cache v Vs (cut coins c) (missL W (nBits * v.length))).r.length = nBits * v.length := by
    intro c W
    have haR' : ∀ y z, (aRM (aROf R v) (missL W (nBits * v.length) z) y).length = nBits * v.length := fun y z => by
      rw [aRM_length _ (by rw [aROf_length, missL_length]), aROf_length]
    exact ⟨lVec_length _ _ (aLOf_length R v) (by simp), rVec_length _ _ _ (haR' _ _) (by simp)⟩
  rw [proveTailP_tailD]
  constructor
  · rintro ⟨m1, m2, c, m, m', h1, h2, W, u1, u2, c1, c2, c3, um, um', hW, uh1, uh2, h⟩
    obtain ⟨e1, e2, e3, e4⟩ := tailD_lengths R hb.2 hs v Vs coins _ _ hv.2 um.2 _ (m' := m') (fun z => by simp [nB]) h
    simp only [List.length_map, List.length_range, nB] at e3 e4
    obtain rfl : m1 = v.length := by omega
    obtain rfl : m2 = v.length := by omega
    rw [e1, e2] at h
    simp only [maskL_eq] at h
    have hy := tailD_y R hb.2 hs v Vs coins c hv.2 _ _ (missL W (nBits * v.length)) h
    have hag := tailD_agree R hb.2 hs v Vs coins c hv.2 (missL W (nBits * v.length)) (fun z => missL_length ..) uh1.2 uh2.2 hy
    rw [show 64 * v.length = nBits * v.length from rfl, hag] at h
    dsimp only at h
    split at h
    · cases h
    next hz =>
    simp only [not_or] at hz
    obtain ⟨ip, hip, h⟩ := Res.bind_eq_ok.1 h
    obtain ⟨g1, g2, -, -, g5⟩ := (generate_reads R hv.1 hb.2 hv.2 uh2.2 (hlen c W).1 (hlen c W).2 _ _ ip).1 hip
    exact ⟨g1, g2, c, W, ip, c1, c2, hW, hz.1, hz.2.1, hz.2.2, g5, (Res.ok.inj h).symm⟩
  · rintro ⟨hk, hbv, c, W, ip, c1, c2, hW, hx, hy, hz, hip, rfl⟩
    refine ⟨v.length, v.length, c, v.length, v.length, v.length, v.length, W, hv, hv, c1, c2, c2, hv, hv, hW, hv, hv, ?_⟩
    have hag := tailD_agree R hb.2 hs v Vs coins c hv.2 (missL W (nBits * v.length)) (fun z => missL_length ..) hv.2 hv.2 hy
    simp only [maskL_eq]
    rw [show 64 * v.length = nBits * v.length from rfl, hag]
    dsimp only
    rw [if_neg (by simp only [not_or]; exact ⟨hx, hy, hz⟩), max_eq_right hbv, hip]
    rfl

end Dusk.RP
