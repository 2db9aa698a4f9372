import Verif.Lemmas.RPHonest
import Verif.Props.InnerProduct
/-!
# What `Prove` computes
-/

set_option linter.unusedSectionVars false

namespace Dusk.RP

variable {F G : Type} [Field F] [AddCommGroup G] [Module F G] [DecidableEq F]

/-- The values computed by a run of `Prove` after the commitments. -/
structure Run (F G : Type) where
  sL : List F
  sR : List F
  A : G
  S : G
  y : F
  z : F
  T1 : G
  T2 : G
  x : F
  taux : F
  mu : F
  l : List F
  r : List F
  t : F
  w : F

/-- The run on padded values `v` with commitments `Vs`, `pre` being the transcript of the commitments. -/
def run (R : Ristretto F G) (pre : Bytes) (v : List F) (Vs : List (Commitment F G)) (coins : Coins F) : Run F G :=
  let m := v.length
  let P := pub R (nBits * m)
  let aL := aLOf R v
  let aR := aROf R v
  let sL := (List.range (nBits * m)).map coins.sL
  let sR := (List.range (nBits * m)).map coins.sR
  let A := coins.aBlind • P.Bl + (msm aL P.Gv + msm aR P.Hv)
  let S := coins.sBlind • P.Bl + (msm sL P.Gv + msm sR P.Hv)
  let y := R.sDerive (pre ++ R.pBytes A ++ R.pBytes S)
  let z := R.sDerive (R.sBytes y)
  let T1 := t1Of m y z aL aR sL sR • P.B + coins.t1Blind • P.Bl
  let T2 := t2Of m y sL sR • P.B + coins.t2Blind • P.Bl
  let x := R.sDerive (pre ++ R.pBytes A ++ R.pBytes S ++ R.sBytes z ++ R.pBytes T1 ++ R.pBytes T2)
  let taux := computeTaux x z coins.t1Blind coins.t2Blind Vs
  let mu := coins.sBlind * x + coins.aBlind
  let l := lVec z x aL sL
  let r := rVec m y z x aR sR
  let t := dot l r
  ⟨sL, sR, A, S, y, z, T1, T2, x, taux, mu, l, r, t,
    R.sDerive (pre ++ R.pBytes A ++ R.pBytes S ++ R.sBytes z ++ R.pBytes T1 ++ R.pBytes T2 ++ R.sBytes x ++
      R.sBytes taux ++ R.sBytes mu ++ R.sBytes t)⟩

/-- The proof made from a run. -/
def Run.proof (r : Run F G) (Vs : List (Commitment F G)) (ip : IP.Proof F G) : Proof F G :=
  { V := Vs, A := r.A, S := r.S, T1 := r.T1, T2 := r.T2, t := r.t, taux := r.taux, mu := r.mu, ip := some ip }

def Run.chal (r : Run F G) : Chal F := ⟨r.y, r.z, r.x, r.w⟩

theorem computeTaux_loop (z : F) : ∀ (Vs : List (Commitment F G)) (s zn : F),
    (Vs.foldl (fun (s : F × F) c => (s.2 * c.blindingFactor + s.1, s.2 * z)) (s, zn)).1 =
      s + ∑ j ∈ Finset.range Vs.length, zn * z ^ j * (Vs.map fun V => V.blindingFactor).getD j 0
  | [], s, zn => by simp
  | V :: Vs, s, zn => by
    rw [List.foldl_cons, computeTaux_loop z Vs, List.length_cons, Finset.sum_range_succ']
    simp only [List.map_cons, List.getD_cons_zero, List.getD_cons_succ, pow_succ, pow_zero, mul_one]
    rw [show ∀ a b c : F, a + b + c = b + (c + a) by intros; ring, add_right_inj, add_left_inj]
    apply Finset.sum_congr rfl
    intro j _
    ring

theorem computeTaux_eq (x z t1 t2 : F) (Vs : List (Commitment F G)) :
    computeTaux x z t1 t2 Vs = x * t1 + x ^ 2 * t2 +
      ∑ j ∈ Finset.range Vs.length, z ^ (j + 2) * (Vs.map fun V => V.blindingFactor).getD j 0 := by
  unfold computeTaux
  dsimp only
  rw [computeTaux_loop, zero_add, pow_two]
  congr 1
  apply Finset.sum_congr rfl
  intro j _
  ring

theorem proof_chal (R : Ristretto F G) (v : List F) (Vs : List (Commitment F G)) (coins : Coins F) (ip : IP.Proof F G) :
    chalOf R ((run R (Vs.flatMap fun V => R.pBytes V.value) v Vs coins).proof Vs ip) =
      (run R (Vs.flatMap fun V => R.pBytes V.value) v Vs coins).chal := rfl

theorem vectors_eq (R : Ristretto F G) {m : Nat} (hm : nBits * m < 2 ^ 32) (a b : List F) (ha : a.length = nBits * m)
    (hb : b.length = nBits * m) (blind : F) :
    (newPed R m).commitToVectors R [a, b] blind =
      .ok (⟨blind • (pub R (nBits * m)).Bl + (msm a (pub R (nBits * m)).Gv + msm b (pub R (nBits * m)).Hv), blind⟩,
        newPed R m) := by
  rw [newPed_eq R hm, C51_commit R _ (by simp [Gen.OnChain, pub, genData]) rfl a [b] blind (by
    intro w hw
    simp only [List.mem_cons, List.not_mem_nil, or_false] at hw
    rcases hw with rfl | rfl
    · rw [ha]; exact hm
    · rw [hb]; exact hm)]
  simp only [vectorsSum, vectorSeed, add_zero, ha, hb, pub, chain_length, max_self, genData, zero_add, if_true,
    one_ne_zero, if_false]
  rfl

theorem sum_mod {m : Nat} (hlt : nBits * m < 2 ^ 32) : nBits * m % 2 ^ 32 = nBits * m := Nat.mod_eq_of_lt hlt

/-- What the tail of `Prove` does when `y ≠ 0`. -/
theorem proveTail_eq [DecidableEq G] (R : Ristretto F G) (m0 : Nat) (hs : HashCacher) (v : List F)
    (Vs : List (Commitment F G)) (debug : Bool) (coins : Coins F) (hlt : nBits * v.length < 2 ^ 32)
    (hy : (run R hs.cache v Vs coins).y ≠ 0) :
    proveTail R (Reads.const m0 v.length) (newPed R v.length) hs v Vs debug coins =
      let q := run R hs.cache v Vs coins
      let P := pub R (nBits * v.length)
      (if debug then debugBlock R (Reads.const m0 v.length) q.x q.y q.z q.t v q.l q.r (aLOf R v) (aROf R v) q.sL q.sR
        ⟨(aLOf R v).map fun a => a - q.z, q.sL, r0Vec v.length q.y q.z (aROf R v), r1Vec v.length q.y q.sR,
          t0Of v.length q.y q.z (aLOf R v) (aROf R v), t1Of v.length q.y q.z (aLOf R v) (aROf R v) q.sL q.sR,
          t2Of v.length q.y q.sL q.sR⟩ else .ok ()).bind fun _ =>
      if q.x = 0 ∨ q.y = 0 ∨ q.z = 0 then
        .err "[Prove] - One of the challenge scalars, x, y, or z was equal to zero. Generate proof again"
      else
        (IP.generate R P.Gv P.Hv q.l q.r (hpfOf q.y (nBits * v.length)) (q.w • P.B)).bind fun ip =>
          .ok (q.proof Vs ip) := by
  have hsL : ((List.range (nBits * v.length)).map coins.sL).length = nBits * v.length := by simp
  have hsR : ((List.range (nBits * v.length)).map coins.sR).length = nBits * v.length := by simp
  have haL := aLOf_length R v
  have haR := aROf_length R v
  unfold proveTail
  have e1 : (v.flatMap fun vi => (bitCommit (F := F) (R.sNat vi)).AL) = aLOf R v := rfl
  have e2 : (v.flatMap fun vi => (bitCommit (F := F) (R.sNat vi)).AR) = aROf R v := rfl
  have r1 : (Reads.const m0 v.length).s = v.length := rfl
  have r2 : (Reads.const m0 v.length).poly = v.length := rfl
  have r3 : (Reads.const m0 v.length).polySum = v.length := rfl
  have r4 : (Reads.const m0 v.length).hpf = v.length := rfl
  have r5 : (Reads.const m0 v.length).base2 = v.length := rfl
  rw [e1, e2]
  generalize Reads.const m0 v.length = rd at *
  unfold computeA computeS
  dsimp only
  rw [vectors_eq R hlt _ _ haL haR]
  dsimp only [Res.bind_ok]
  rw [r1, vectors_eq R hlt _ _ hsL hsR]
  dsimp only [Res.bind_ok]
  have hcache : (hs.append [R.pBytes (run R hs.cache v Vs coins).A, R.pBytes (run R hs.cache v Vs coins).S]).cache =
      hs.cache ++ R.pBytes (run R hs.cache v Vs coins).A ++ R.pBytes (run R hs.cache v Vs coins).S := by
    rw [HashCacher.append_cache]; simp
  have hA : coins.aBlind • (pub R (nBits * v.length)).Bl + (msm (aLOf R v) (pub R (nBits * v.length)).Gv +
      msm (aROf R v) (pub R (nBits * v.length)).Hv) = (run R hs.cache v Vs coins).A := rfl
  have hS : coins.sBlind • (pub R (nBits * v.length)).Bl + (msm ((List.range (nBits * v.length)).map coins.sL)
      (pub R (nBits * v.length)).Gv + msm ((List.range (nBits * v.length)).map coins.sR)
      (pub R (nBits * v.length)).Hv) = (run R hs.cache v Vs coins).S := rfl
  rw [hA, hS]
  have hY : (computeYAndZ R (hs.append [R.pBytes (run R hs.cache v Vs coins).A, R.pBytes (run R hs.cache v Vs coins).S])).1
      = (run R hs.cache v Vs coins).y := by
    unfold computeYAndZ HashCacher.result; rw [hcache]; rfl
  have hZ : (computeYAndZ R (hs.append [R.pBytes (run R hs.cache v Vs coins).A, R.pBytes (run R hs.cache v Vs coins).S])).2
      = (run R hs.cache v Vs coins).z := by
    unfold computeYAndZ HashCacher.result; rw [hcache]; rfl
  rw [hY, hZ, r2, r3, computePoly_eq R.two_ne_zero _ _ hy hlt haL haR hsL hsR]
  dsimp only [Res.bind_ok]
  rw [newPed_eq R hlt]
  unfold Pedersen.commitToScalar
  dsimp only
  have hT1 : t1Of v.length (run R hs.cache v Vs coins).y (run R hs.cache v Vs coins).z (aLOf R v) (aROf R v)
      ((List.range (nBits * v.length)).map coins.sL) ((List.range (nBits * v.length)).map coins.sR) •
        (pub R (nBits * v.length)).B + coins.t1Blind • (pub R (nBits * v.length)).Bl = (run R hs.cache v Vs coins).T1 := rfl
  have hT2 : t2Of v.length (run R hs.cache v Vs coins).y
      ((List.range (nBits * v.length)).map coins.sL) ((List.range (nBits * v.length)).map coins.sR) •
        (pub R (nBits * v.length)).B + coins.t2Blind • (pub R (nBits * v.length)).Bl = (run R hs.cache v Vs coins).T2 := rfl
  rw [hT1, hT2]
  have hcache2 : ((hs.append [R.pBytes (run R hs.cache v Vs coins).A, R.pBytes (run R hs.cache v Vs coins).S]).append
      [R.sBytes (run R hs.cache v Vs coins).z, R.pBytes (run R hs.cache v Vs coins).T1,
        R.pBytes (run R hs.cache v Vs coins).T2]).cache =
      hs.cache ++ R.pBytes (run R hs.cache v Vs coins).A ++ R.pBytes (run R hs.cache v Vs coins).S ++
        R.sBytes (run R hs.cache v Vs coins).z ++ R.pBytes (run R hs.cache v Vs coins).T1 ++
        R.pBytes (run R hs.cache v Vs coins).T2 := by
    rw [HashCacher.append_cache, hcache]; simp
  generalize (hs.append [R.pBytes (run R hs.cache v Vs coins).A, R.pBytes (run R hs.cache v Vs coins).S]).append
      [R.sBytes (run R hs.cache v Vs coins).z, R.pBytes (run R hs.cache v Vs coins).T1,
        R.pBytes (run R hs.cache v Vs coins).T2] = hs2 at *
  have hX : computeX R hs2 = (run R hs.cache v Vs coins).x := by
    unfold computeX HashCacher.result; rw [hcache2]; rfl
  rw [hX]
  unfold Polynomial.computeL Polynomial.computeR
  dsimp only
  rw [add_eq (by simp [Vec.mulScalar, haL]), Res.bind_ok,
    add_eq (by rw [r0Vec_length _ _ haR, Vec.mulScalar, List.length_map, r1Vec_length _ hsR]), Res.bind_ok]
  have hl : vadd ((aLOf R v).map fun a => a - (run R hs.cache v Vs coins).z)
      (Vec.mulScalar ((List.range (nBits * v.length)).map coins.sL) (run R hs.cache v Vs coins).x) =
      (run R hs.cache v Vs coins).l := rfl
  have hr : vadd (r0Vec v.length (run R hs.cache v Vs coins).y (run R hs.cache v Vs coins).z (aROf R v))
      (Vec.mulScalar (r1Vec v.length (run R hs.cache v Vs coins).y ((List.range (nBits * v.length)).map coins.sR))
        (run R hs.cache v Vs coins).x) =
      (run R hs.cache v Vs coins).r := rfl
  have hll : (run R hs.cache v Vs coins).l.length = nBits * v.length := lVec_length _ _ haL hsL
  have hrl : (run R hs.cache v Vs coins).r.length = nBits * v.length := rVec_length _ _ _ haR hsR
  rw [hl, hr, innerProduct_eq (by rw [hll, hrl])]
  dsimp only [Res.bind_ok]
  have ht : dot (run R hs.cache v Vs coins).l (run R hs.cache v Vs coins).r = (run R hs.cache v Vs coins).t := rfl
  have hmu : computeMu (run R hs.cache v Vs coins).x coins.aBlind coins.sBlind = (run R hs.cache v Vs coins).mu := rfl
  have htaux : computeTaux (run R hs.cache v Vs coins).x (run R hs.cache v Vs coins).z coins.t1Blind coins.t2Blind Vs =
    (run R hs.cache v Vs coins).taux := rfl
  rw [ht, hmu, htaux, r4, r5, compute_new, sum_mod hlt]
  have hw : (hs2.append [R.sBytes (run R hs.cache v Vs coins).x, R.sBytes (run R hs.cache v Vs coins).taux,
      R.sBytes (run R hs.cache v Vs coins).mu, R.sBytes (run R hs.cache v Vs coins).t]).derive R =
      (run R hs.cache v Vs coins).w := by
    unfold HashCacher.derive
    rw [HashCacher.append_cache, hcache2]
    simp [run]
  rw [hw]
  rfl

/-- Commitments `Vs` to the values `v`, with the blinding factors they carry. -/
def Commits (P : Pub G) (v : List F) (Vs : List (Commitment F G)) : Prop :=
  Vs.map (fun V => V.value) = List.zipWith (fun x (V : Commitment F G) => x • P.B + V.blindingFactor • P.Bl) v Vs ∧
    Vs.length = v.length

theorem Commits.getD {P : Pub G} {v : List F} {Vs : List (Commitment F G)} (h : Commits P v Vs) {j : Nat}
    (hj : j < v.length) : (Vs.map fun V => V.value).getD j 0 =
      v.getD j 0 • P.B + (Vs.map fun V => V.blindingFactor).getD j 0 • P.Bl := by
  have hj' : j < Vs.length := by rw [h.2]; exact hj
  rw [h.1]
  simp [List.getD_eq_getElem?_getD, hj, hj']

/-- By how much the values exceed their low 64 bits, weighted as in the verification equation. -/
def excess (R : Ristretto F G) (z : F) (v : List F) : F :=
  ∑ j ∈ Finset.range v.length, z ^ (j + 2) * (v.getD j 0 - ((R.sNat (v.getD j 0) % 2 ^ 64 : Nat) : F))

/-- The run of an honest prover, put into a proof that may contain further commitments. -/
theorem run_core (R : Ristretto F G) (v : List F) (Vs ext : List (Commitment F G)) (coins : Coins F) {k : Nat}
    (hk : 2 ^ k = nBits * v.length) (hk32 : k < 32) (hV : Commits (pub R (nBits * v.length)) v Vs) {q : Run F G}
    {pre : Bytes}     (hq : q = run R pre v Vs coins) (hy : q.y ≠ 0) :
    ∃ ip, IP.generate R (pub R (nBits * v.length)).Gv (pub R (nBits * v.length)).Hv q.l q.r
        (hpfOf q.y (nBits * v.length)) (q.w • (pub R (nBits * v.length)).B) = .ok ip ∧
      ip.L.length = k ∧ ip.R.length = k ∧
      residue1 (pub R (nBits * v.length)) v.length q.chal (q.proof (Vs ++ ext) ip) =
        -(excess R q.z v • (pub R (nBits * v.length)).B) ∧
      ((∀ u ∈ IP.chals R ip, u ≠ 0) →
        residue2L (pub R (nBits * v.length)) v.length q.chal (IP.chals R ip) (q.proof (Vs ++ ext) ip) ip = 0) := by
  have haL := aLOf_length R v
  have haR := aROf_length R v
  have hsL : q.sL.length = nBits * v.length := by rw [hq]; simp [run]
  have hsR : q.sR.length = nBits * v.length := by rw [hq]; simp [run]
  have hl : q.l = lVec q.z q.x (aLOf R v) q.sL := by rw [hq]; rfl
  have hr : q.r = rVec v.length q.y q.z q.x (aROf R v) q.sR := by rw [hq]; rfl
  obtain ⟨ip, h1, h2, h3, h4⟩ := IP.generate_eq R (q.w • (pub R (nBits * v.length)).B) k hk32 q.l q.r
    (hpfOf q.y (nBits * v.length)) (pub R (nBits * v.length)).Gv (pub R (nBits * v.length)).Hv
    (by rw [hl, lVec_length _ _ haL hsL, hk]) (by rw [hr, rVec_length _ _ _ haR hsR, hk]) (by simp [pub, hk])
    (by simp [pub, hk]) (by rw [hpfOf_length, hk])
  refine ⟨ip, h1, h2, h3, ?_, fun hu => ?_⟩
  · rw [residue1_honest (t0 := t0Of v.length q.y q.z (aLOf R v) (aROf R v))
      (t1 := t1Of v.length q.y q.z (aLOf R v) (aROf R v) q.sL q.sR) (t2 := t2Of v.length q.y q.sL q.sR)
      (tau1 := coins.t1Blind) (tau2 := coins.t2Blind) (v := fun j => v.getD j 0)
      (gamma := fun j => (Vs.map fun V => V.blindingFactor).getD j 0)]
    · rw [t0_honest, ← neg_smul]
      congr 1
      unfold excess Run.chal
      simp only [mul_sub, Finset.sum_sub_distrib]
      ring
    · intro j hj
      rw [← hV.getD hj]
      show ((Vs ++ ext).map fun V => V.value).getD j 0 = _
      rw [List.map_append, List.getD_eq_getElem?_getD, List.getElem?_append_left (by simpa [hV.2] using hj),
        ← List.getD_eq_getElem?_getD]
    · rw [hq]; rfl
    · rw [hq]; rfl
    · show q.t = _
      have : q.t = dot q.l q.r := by rw [hq]; rfl
      rw [this, hl, hr, dot_lr _ _ _ haL haR hsL hsR]
      rfl
    · show q.taux = _
      have : q.taux = computeTaux q.x q.z coins.t1Blind coins.t2Blind Vs := by rw [hq]; rfl
      rw [this, computeTaux_eq, hV.2]
      rfl
  · refine residue2_honest (alpha := coins.aBlind) (rho := coins.sBlind) hy (by simp [pub]) (by simp [pub]) haL haR hsL hsR
      ?_ ?_ ?_ ?_ ?_
    · rw [hq]; rfl
    · rw [hq]; rfl
    · rw [hq]; rfl
    · show q.t = _
      have : q.t = dot q.l q.r := by rw [hq]; rfl
      rw [this, hl, hr]
      rfl
    · have := h4 hu
      rw [hl, hr] at this
      exact this

/-- An honest run is accepted exactly if the values are in range (up to the weighted sum being zero). -/
theorem run_verify [DecidableEq G] (R : Ristretto F G) (v : List F) (Vs ext : List (Commitment F G)) (coins : Coins F)
    {k : Nat} (hk : 2 ^ k = nBits * v.length) (hk32 : k < 32) (hV : Commits (pub R (nBits * v.length)) v Vs) {q : Run F G}
    (hq : q = run R ((Vs ++ ext).flatMap fun V => R.pBytes V.value) v Vs coins) (hy : q.y ≠ 0) :
    ∃ ip, IP.generate R (pub R (nBits * v.length)).Gv (pub R (nBits * v.length)).Hv q.l q.r
        (hpfOf q.y (nBits * v.length)) (q.w • (pub R (nBits * v.length)).B) = .ok ip ∧
      ip.L.length = k ∧ ip.R.length = k ∧ chalOf R (q.proof (Vs ++ ext) ip) = q.chal ∧
      ((∀ u ∈ IP.challenges R ip.L ip.R, u ≠ 0) → ∀ c, verify R v.length (q.proof (Vs ++ ext) ip) c =
        if excess R q.z v • (pub R (nBits * v.length)).B = 0 then .ok true else .err "megacheck failed") := by
  obtain ⟨ip, h1, h2, h3, h5, h6⟩ := run_core R v Vs ext coins hk hk32 hV hq hy
  have h4 : chalOf R (q.proof (Vs ++ ext) ip) = q.chal := by rw [hq]; rfl
  refine ⟨ip, h1, h2, h3, h4, fun hu c => ?_⟩
  rw [verify_eq R c _ ip rfl hk32 hk h2 h3 (by simp [Run.proof, hV.2]), h4, h5, h6 (by rwa [IP.chals_eq])]
  simp

/-! ## Failure with a zero challenge -/

theorem bind_np {α β : Type} {a : Res α} {f : α → Res β} (h : a ≠ .panic) (h' : ∀ x, f x ≠ .panic) :
    a.bind f ≠ .panic := by
  cases a with
  | ok x => exact h' x
  | err e => simp
  | panic => exact absurd rfl h

theorem np_isErr {α : Type} {a : Res α} (h : a ≠ .panic) (h' : ∀ x, a ≠ .ok x) : a.IsErr := by
  cases a with
  | ok x => exact absurd rfl (h' x)
  | err e => exact ⟨e, rfl⟩
  | panic => exact absurd rfl h

theorem add_np (a b : List F) : Vec.add a b ≠ .panic := by unfold Vec.add; split <;> simp
theorem hadamard_np (a b : List F) : Vec.hadamard a b ≠ .panic := by unfold Vec.hadamard; split <;> simp
theorem innerProduct_np (a b : List F) : Vec.innerProduct a b ≠ .panic := by unfold Vec.innerProduct; split <;> simp
theorem exp_np (a : List F) (b : List G) (N M : Int) : Vec.exp a b N M ≠ .panic := by
  unfold Vec.exp; split
  · simp
  · split <;> simp

theorem t0Loop_eq : ∀ (zs vs : List F) (acc : F), vs.length ≤ zs.length → t0Loop zs vs acc = .ok (acc + dot zs vs)
  | zs, [], acc, _ => by simp [t0Loop]
  | z :: zs, v :: vs, acc, h => by
    simp only [List.length_cons, Nat.add_le_add_iff_right] at h
    rw [t0Loop, t0Loop_eq zs vs _ h, dot_cons]
    congr 1; ring
  | [], _ :: _, _, h => by simp at h

theorem computePoly_np (h2 : (2 : F) ≠ 0) {m m' : Nat} (hm : m' + 3 < 2 ^ 32) (aL aR sL sR : List F) (y z : F) :
    computePoly m m' aL aR sL sR y z ≠ .panic := by
  unfold computePoly
  dsimp only
  rw [sumZMTwoN_eq h2 z hm, Res.bind_ok]
  refine bind_np (hadamard_np _ _) fun _ => bind_np (add_np _ _) fun _ => bind_np (hadamard_np _ _) fun _ =>
    bind_np (innerProduct_np _ _) fun _ => bind_np (innerProduct_np _ _) fun _ => bind_np (innerProduct_np _ _) fun _ =>
    bind_np (innerProduct_np _ _) fun _ => by simp

theorem computeT0_np {v : List F} (hv : v.length < 2 ^ 32) (y z : F) (n m : Nat) : computeT0 y z v n m ≠ .panic := by
  unfold computeT0
  dsimp only
  rw [t0Loop_eq _ _ _ (by rw [Nat.mod_eq_of_lt hv]; simp [Vec.mulScalar, scalarPowers_length]), Res.bind_ok]
  simp

theorem debugLxG_np [DecidableEq G] (R : Ristretto F G) (m : Nat) (l : List F) (x z : F) (aL sL : List F) :
    debugLxG R m l x z aL sL ≠ .panic := by
  unfold debugLxG
  dsimp only
  exact bind_np (exp_np _ _ _ _) fun _ => bind_np (exp_np _ _ _ _) fun _ => bind_np (exp_np _ _ _ _) fun _ =>
    bind_np (exp_np _ _ _ _) fun _ => by simp

theorem debugRxHPrime_np [DecidableEq G] (R : Ristretto F G) {m m' : Nat} (hm : m' + 3 < 2 ^ 32) (r : List F)
    (x y z : F) (aR sR : List F) : debugRxHPrime R m m' r x y z aR sR ≠ .panic := by
  unfold debugRxHPrime
  dsimp only
  rw [sumZMTwoN_eq R.two_ne_zero z hm]
  exact bind_np (exp_np _ _ _ _) fun _ => bind_np (exp_np _ _ _ _) fun _ => bind_np (exp_np _ _ _ _) fun _ =>
    bind_np (exp_np _ _ _ _) fun _ => by
      rw [Res.bind_ok]
      exact bind_np (exp_np _ _ _ _) fun _ => by simp

theorem debugProve_np [DecidableEq G] (R : Ristretto F G) (rd : Reads) (h1 : rd.dbgRSum + 3 < 2 ^ 32)
    (x y z : F) (v l r aL aR sL sR : List F) : debugProve R rd x y z v l r aL aR sL sR ≠ .panic := by
  unfold debugProve
  have hL := debugLxG_np R rd.dbgL l x z aL sL
  have hR := debugRxHPrime_np R (m := rd.dbgR) h1 r x y z aR sR
  cases hL' : debugLxG R rd.dbgL l x z aL sL with
  | panic => exact absurd hL' hL
  | err e => simp
  | ok b =>
    cases b with
    | false => simp
    | true =>
      cases hR' : debugRxHPrime R rd.dbgR rd.dbgRSum r x y z aR sR with
      | panic => exact absurd hR' hR
      | err e => simp
      | ok b =>
        cases b with
        | false => simp
        | true => dsimp only; split <;> simp

theorem debugT0_np (h2 : (2 : F) ≠ 0) {m m' : Nat} (hm : m' + 3 < 2 ^ 32) (aL aR : List F) (y z : F) :
    debugT0 m m' aL aR y z ≠ .panic := by
  unfold debugT0
  dsimp only
  rw [sumZMTwoN_eq h2 z hm]
  exact bind_np (hadamard_np _ _) fun _ => by
    rw [Res.bind_ok]
    exact bind_np (add_np _ _) fun _ => innerProduct_np _ _

theorem debugBlock_np [DecidableEq G] (R : Ristretto F G) (rd : Reads) (h1 : rd.dbgRSum + 3 < 2 ^ 32)
    (h2 : rd.dbgT0Sum + 3 < 2 ^ 32) (x y z t : F) {v : List F} (hv : v.length < 2 ^ 32)
    (l r aL aR sL sR : List F) (poly : Polynomial F) :
    debugBlock R rd x y z t v l r aL aR sL sR poly ≠ .panic := by
  unfold debugBlock
  refine bind_np (debugProve_np R rd h1 _ _ _ _ _ _ _ _ _ _) fun _ => bind_np (debugT0_np R.two_ne_zero h2 _ _ _ _) fun a => ?_
  split
  · simp
  · refine bind_np (computeT0_np hv _ _ _ _) fun b => ?_
    split
    · simp
    · split <;> simp

/-- With `y = 0` the tail of `Prove` returns an error. -/
theorem proveTail_zero [DecidableEq G] (R : Ristretto F G) (m0 : Nat) (hs : HashCacher) (v : List F)
    (Vs : List (Commitment F G)) (debug : Bool) (coins : Coins F) (hlt : nBits * v.length < 2 ^ 32)
    (hy : (run R hs.cache v Vs coins).y = 0) :
    (proveTail R (Reads.const m0 v.length) (newPed R v.length) hs v Vs debug coins).IsErr := by
  have hsL : ((List.range (nBits * v.length)).map coins.sL).length = nBits * v.length := by simp
  have hsR : ((List.range (nBits * v.length)).map coins.sR).length = nBits * v.length := by simp
  have haL := aLOf_length R v
  have haR := aROf_length R v
  unfold proveTail
  have e1 : (v.flatMap fun vi => (bitCommit (F := F) (R.sNat vi)).AL) = aLOf R v := rfl
  have e2 : (v.flatMap fun vi => (bitCommit (F := F) (R.sNat vi)).AR) = aROf R v := rfl
  have r1 : (Reads.const m0 v.length).s = v.length := rfl
  have r3 : (Reads.const m0 v.length).polySum + 3 < 2 ^ 32 := (small hlt).1
  have r4 : (Reads.const m0 v.length).dbgRSum + 3 < 2 ^ 32 := (small hlt).1
  have r5 : (Reads.const m0 v.length).dbgT0Sum + 3 < 2 ^ 32 := (small hlt).1
  have r6 : v.length < 2 ^ 32 := (small hlt).2
  rw [e1, e2]
  generalize Reads.const m0 v.length = rd at *
  unfold computeA computeS
  dsimp only
  rw [vectors_eq R hlt _ _ haL haR]
  dsimp only [Res.bind_ok]
  rw [r1, vectors_eq R hlt _ _ hsL hsR]
  dsimp only [Res.bind_ok]
  have hcache : (hs.append [R.pBytes (run R hs.cache v Vs coins).A, R.pBytes (run R hs.cache v Vs coins).S]).cache =
      hs.cache ++ R.pBytes (run R hs.cache v Vs coins).A ++ R.pBytes (run R hs.cache v Vs coins).S := by
    rw [HashCacher.append_cache]; simp
  have hA : coins.aBlind • (pub R (nBits * v.length)).Bl + (msm (aLOf R v) (pub R (nBits * v.length)).Gv +
      msm (aROf R v) (pub R (nBits * v.length)).Hv) = (run R hs.cache v Vs coins).A := rfl
  have hS : coins.sBlind • (pub R (nBits * v.length)).Bl + (msm ((List.range (nBits * v.length)).map coins.sL)
      (pub R (nBits * v.length)).Gv + msm ((List.range (nBits * v.length)).map coins.sR)
      (pub R (nBits * v.length)).Hv) = (run R hs.cache v Vs coins).S := rfl
  rw [hA, hS]
  have hY : (computeYAndZ R (hs.append [R.pBytes (run R hs.cache v Vs coins).A, R.pBytes (run R hs.cache v Vs coins).S])).1
      = 0 := by
    rw [← hy]
    unfold computeYAndZ HashCacher.result; rw [hcache]; rfl
  rw [hY]
  apply np_isErr
  · refine bind_np (computePoly_np R.two_ne_zero r3 _ _ _ _ _ _) fun poly => ?_
    refine bind_np (add_np _ _) fun l => bind_np (add_np _ _) fun r => bind_np (innerProduct_np _ _) fun t => ?_
    refine bind_np ?_ fun _ => ?_
    · split
      · exact debugBlock_np R rd r4 r5 _ _ _ _ r6 _ _ _ _ _ _ _
      · simp
    · rw [if_pos (by simp)]
      simp
  · intro p hp
    obtain ⟨poly, -, hp⟩ := Res.bind_eq_ok.1 hp
    obtain ⟨l, -, hp⟩ := Res.bind_eq_ok.1 hp
    obtain ⟨r, -, hp⟩ := Res.bind_eq_ok.1 hp
    obtain ⟨t, -, hp⟩ := Res.bind_eq_ok.1 hp
    obtain ⟨u, -, hp⟩ := Res.bind_eq_ok.1 hp
    rw [if_pos (by simp)] at hp
    cases hp

/-! ## Debug mode -/

theorem computeHprime_eq (R : Ristretto F G) (H : List G) {y : F} (hy : y ≠ 0) :
    computeHprime R H y = vsmul (hpfOf y H.length) H := by
  unfold computeHprime vsmul
  rw [hpfOf_ne hy]
  apply List.ext_getElem
  · simp [powers_length]
  · intro i h1 h2
    simp only [List.getElem_map, List.getElem_zipIdx, List.getElem_zipWith, powers, List.getElem_range, zero_add]
    rw [Nat.cast_pow, R.cast_sNat]

section
variable [DecidableEq G] {m : Nat} {aL aR sL sR : List F}

theorem debugLxG_true (R : Ristretto F G) (hlt : nBits * m < 2 ^ 32) (x z : F) (haL : aL.length = nBits * m)
    (hsL : sL.length = nBits * m) : debugLxG R m (lVec z x aL sL) x z aL sL = .ok true := by
  unfold debugLxG
  rw [compute_new, sum_mod hlt]
  dsimp only
  have hg : (chain R genData (nBits * m)).length = nBits * m := by simp
  have hl := lVec_length z x haL hsL
  rw [exp_eq (by rw [hl, hg]) (by rw [hl]; simp), Res.bind_ok, exp_eq (by rw [haL, hg]) (by rw [haL]; simp), Res.bind_ok,
    exp_eq (by rw [hsL, hg]) (by rw [hsL]; simp), Res.bind_ok,
    exp_eq (by rw [hg]; simp [Vec.fromScalar]) (by simp [Vec.fromScalar]), Res.bind_ok]
  congr 1
  rw [decide_eq_true_iff]
  unfold lVec
  have h0 : msm (Vec.fromScalar (-z) (nBits * m)) (chain R genData (nBits * m)) =
      -(z • (chain R genData (nBits * m)).sum) := by
    have : Vec.fromScalar (-z) (nBits * m) = (List.replicate (nBits * m) (0 : F)).map fun a => a - z := by
      simp [Vec.fromScalar]
    rw [this, msm_sub_const _ _ _ (by simp), msm_replicate_zero, zero_sub]
  rw [h0, msm_vadd_left _ _ _ (by simp [haL, hsL]), msm_sub_const _ _ _ (by rw [haL, hg]), msm_smul_left]
  abel

theorem debugRxHPrime_true (R : Ristretto F G) (hlt : nBits * m < 2 ^ 32) (x z : F) {y : F} (hy : y ≠ 0)
    (haR : aR.length = nBits * m) (hsR : sR.length = nBits * m) :
    debugRxHPrime R m m (rVec m y z x aR sR) x y z aR sR = .ok true := by
  unfold debugRxHPrime
  rw [compute_new, sum_mod hlt]
  dsimp only
  have hg : (chain R (genData ++ [1]) (nBits * m)).length = nBits * m := by simp
  generalize chain R (genData ++ [1]) (nBits * m) = H at hg
  rw [computeHprime_eq R H hy, hg, scalarPowers_eq hy]
  have hH : (vsmul (hpfOf y (nBits * m)) H).length = nBits * m := by simp [hpfOf_length, hg]
  have hr := rVec_length y z x haR hsR
  rw [exp_eq (by rw [hr, hH]) (by rw [hr]; simp), Res.bind_ok, exp_eq (by rw [haR, hg]) (by rw [haR]; simp), Res.bind_ok,
    exp_eq (by rw [hsR, hg]) (by rw [hsR]; simp), Res.bind_ok,
    exp_eq (by rw [hH]; simp [Vec.mulScalar, powers_length]) (by simp [Vec.mulScalar, powers_length]), Res.bind_ok,
    sumZMTwoN_eq R.two_ne_zero z (small hlt).1, Res.bind_ok,
    exp_eq (by rw [hH, sumZ_length]) (by simp [sumZ_length]), Res.bind_ok]
  congr 1
  rw [decide_eq_true_iff, ← msm_had, ← msm_had, ← msm_had, had_rVec hy z x haR hsR,
    msm_vadd_left _ _ _ (by simp [haR, hsR, sumZ_length, hpfOf_length]),
    msm_vadd_left _ _ _ (by simp [haR, hsR]), msm_smul_left, msm_add_const _ _ _ (by rw [haR, hg])]
  have : had (Vec.mulScalar (powers y (nBits * m)) z) (hpfOf y (nBits * m)) =
      (List.replicate (nBits * m) (0 : F)).map fun a => a + z := by
    rw [hpfOf_ne hy]
    unfold Vec.mulScalar had powers
    apply List.ext_getElem
    · simp
    · intro i h1 h2
      have hyi : y ^ i * (y⁻¹) ^ i = 1 := by rw [← mul_pow, mul_inv_cancel₀ hy, one_pow]
      simp only [List.getElem_zipWith, List.getElem_map, List.getElem_range, List.getElem_replicate]
      linear_combination z * hyi
  rw [this, msm_add_const _ _ _ (by simp [hg]), msm_replicate_zero]
  abel

end

theorem computeT0_eq {v : List F} (hlt : nBits * v.length < 2 ^ 32) (y z : F) :
    computeT0 y z v nBits v.length = .ok (delta y z v.length + ∑ j ∈ Finset.range v.length, z ^ (j + 2) * v.getD j 0) := by
  unfold computeT0
  have hv := (small hlt).2
  dsimp only
  rw [Nat.mod_eq_of_lt hv, computeDelta_eq _ _ hlt, zM_eq, t0Loop_eq _ _ _ (by simp), Res.bind_ok, zero_add,
    dot_eq_msm, msm_map_range _ _ _ rfl]
  rfl

/-- In debug mode (with `y ≠ 0`) the only check that can fail is the size of the values. -/
theorem debugBlock_eq [DecidableEq G] (R : Ristretto F G) (m0 : Nat) (v : List F) (pre : Bytes)
    (Vs : List (Commitment F G)) (coins : Coins F) (hlt : nBits * v.length < 2 ^ 32) {q : Run F G}
    (hq : q = run R pre v Vs coins) (hy : q.y ≠ 0) :
    debugBlock R (Reads.const m0 v.length) q.x q.y q.z q.t v q.l q.r (aLOf R v) (aROf R v) q.sL q.sR
        ⟨(aLOf R v).map fun a => a - q.z, q.sL, r0Vec v.length q.y q.z (aROf R v), r1Vec v.length q.y q.sR,
          t0Of v.length q.y q.z (aLOf R v) (aROf R v), t1Of v.length q.y q.z (aLOf R v) (aROf R v) q.sL q.sR,
          t2Of v.length q.y q.sL q.sR⟩ =
      if ∀ a ∈ v, R.sNat a < 2 ^ 64 - 1 then .ok () else .err "[DEBUG]: Value v is more than 2^N - 1" := by
  have haL := aLOf_length R v
  have haR := aROf_length R v
  have hsL : q.sL.length = nBits * v.length := by rw [hq]; simp [run]
  have hsR : q.sR.length = nBits * v.length := by rw [hq]; simp [run]
  have hl : q.l = lVec q.z q.x (aLOf R v) q.sL := by rw [hq]; rfl
  have hr : q.r = rVec v.length q.y q.z q.x (aROf R v) q.sR := by rw [hq]; rfl
  have ht : q.t = dot q.l q.r := by rw [hq]; rfl
  unfold debugBlock debugProve
  simp only [Reads.const]
  rw [hl, debugLxG_true R hlt _ _ haL hsL, hr, debugRxHPrime_true R hlt _ _ hy haR hsR]
  dsimp only
  have hall : (v.all fun vi => debugsizeOfV (R.sNat vi)) = true ↔ ∀ a ∈ v, R.sNat a < 2 ^ 64 - 1 := by
    rw [List.all_eq_true]
    refine forall₂_congr fun a _ => ?_
    unfold debugsizeOfV
    rw [decide_eq_true_iff]
    norm_num
  by_cases hv : ∀ a ∈ v, R.sNat a < 2 ^ 64 - 1
  · rw [if_pos (hall.2 hv), if_pos hv, Res.bind_ok]
    have hT0 : debugT0 v.length v.length (aLOf R v) (aROf R v) q.y q.z =
        .ok (t0Of v.length q.y q.z (aLOf R v) (aROf R v)) := by
      unfold debugT0
      dsimp only
      rw [sum_mod hlt, scalarPowers_eq hy, hadamard_eq (by simp [powers_length, Vec.addScalar, haR]), Res.bind_ok,
        sumZMTwoN_eq R.two_ne_zero _ (small hlt).1, Res.bind_ok,
        add_eq (by simp [sumZ_length, powers_length, Vec.addScalar, haR]), Res.bind_ok, subScalar_eq,
        innerProduct_eq (by simp [haL, sumZ_length, powers_length, Vec.addScalar, haR])]
      unfold t0Of r0Vec
      rw [had_comm, Vec.addScalar, dot_vadd_right _ _ _ (by simp [sumZ_length, powers_length, haR]),
        dot_vadd_right _ _ _ (by simp [sumZ_length, powers_length, haR]), add_comm]
    rw [hT0, Res.bind_ok, if_neg (by simp), computeT0_eq hlt, Res.bind_ok, if_neg, if_neg]
    · rw [ht, hl, hr, dot_lr _ _ _ haL haR hsL hsR]
      unfold Polynomial.eval
      simp only [not_not]
      ring
    · rw [t0_honest, not_not]
      congr 1
      apply Finset.sum_congr rfl
      intro j hj
      have hj := Finset.mem_range.1 hj
      have h1 : R.sNat (v.getD j 0) < 2 ^ 64 := by
        have := hv (v.getD j 0) (by simp [List.getD_eq_getElem?_getD, hj])
        omega
      rw [Nat.mod_eq_of_lt h1, R.cast_sNat]
  · rw [if_neg (mt hall.1 hv), if_neg hv, Res.bind_err]

end Dusk.RP
