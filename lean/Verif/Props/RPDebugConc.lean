import Verif.Props.RPProveConc
import Verif.Props.RPDebug
/-!
# C160: the debug checks of Prove while other calls change the package variable

C101 is about `Prove` without the debug checks. With them the package variable is read six more times; the theorem here says which of these reads
have to agree.
-/

set_option linter.unusedSectionVars false

namespace Dusk.RP

variable {F G : Type} [Field F] [AddCommGroup G] [Module F G] [DecidableEq F] [DecidableEq G]

/-- None of the values read by the debug checks overflows a 32-bit counter. -/
structure Reads.DebugSmall (rd : Reads) : Prop where
  dbgL : 64 * rd.dbgL < 2 ^ 32
  dbgR : 64 * rd.dbgR < 2 ^ 32
  dbgRSum : 64 * rd.dbgRSum < 2 ^ 32
  dbgT0 : 64 * rd.dbgT0 < 2 ^ 32
  dbgT0Sum : 64 * rd.dbgT0Sum < 2 ^ 32
  dbgDelta : 64 * rd.dbgDelta < 2 ^ 32

/-- The polynomial of an honest run. -/
def honestPoly (R : Ristretto F G) (v : List F) (q : Run F G) : Polynomial F :=
  ⟨(aLOf R v).map fun a => a - q.z, q.sL, r0Vec v.length q.y q.z (aROf R v), r1Vec v.length q.y q.sR,
    t0Of v.length q.y q.z (aLOf R v) (aROf R v), t1Of v.length q.y q.z (aLOf R v) (aROf R v) q.sL q.sR, t2Of v.length q.y q.sL q.sR⟩

/-- The tail of `Prove` with the debug checks, when the reads before the polynomial agree, and `y ≠ 0`. -/
theorem proveTail_debug (R : Ristretto F G) (rd : Reads) (hrd : rd.Small) (hs : HashCacher) (v : List F)
    (Vs : List (Commitment F G)) (coins : Coins F) (hlt : nBits * v.length < 2 ^ 32)
    (r1 : rd.s = v.length) (r2 : rd.poly = v.length) (r3 : rd.polySum = v.length)
    (hy : (run R hs.cache v Vs coins).y ≠ 0) :
    proveTail R rd (newPed R rd.base) hs v Vs true coins =
      let q := run R hs.cache v Vs coins
      (debugBlock R rd q.x q.y q.z q.t v q.l q.r (aLOf R v) (aROf R v) q.sL q.sR (honestPoly R v q)).bind fun _ =>
      if q.x = 0 ∨ q.y = 0 ∨ q.z = 0 then
        .err "[Prove] - One of the challenge scalars, x, y, or z was equal to zero. Generate proof again"
      else
        (IP.generate R (pub R (nBits * max rd.base v.length)).Gv (pub R (nBits * rd.base2)).Hv q.l q.r
          (hpfOf q.y (nBits * rd.hpf)) (q.w • (pub R (nBits * v.length)).B)).bind fun ip =>
          .ok (q.proof Vs ip) := by
  have hsL : ((List.range (nBits * v.length)).map coins.sL).length = nBits * v.length := by simp
  have hsR : ((List.range (nBits * v.length)).map coins.sR).length = nBits * v.length := by simp
  have haL := aLOf_length R v
  have haR := aROf_length R v
  have hmax : nBits * max rd.base v.length < 2 ^ 32 := by
    have := hrd.base
    rcases max_cases rd.base v.length with h | h <;> rw [h.1]
    · exact this
    · exact hlt
  unfold proveTail
  have e1 : (v.flatMap fun vi => (bitCommit (F := F) (R.sNat vi)).AL) = aLOf R v := rfl
  have e2 : (v.flatMap fun vi => (bitCommit (F := F) (R.sNat vi)).AR) = aROf R v := rfl
  rw [e1, e2]
  unfold computeA computeS
  dsimp only
  rw [vectors_base R hrd.base hlt _ _ haL haR]
  dsimp only [Res.bind_ok]
  rw [r1, vectors_base R hmax hlt _ _ hsL hsR, max_assoc, max_self]
  dsimp only [Res.bind_ok]
  have hcache : (hs.append [R.pBytes (run R hs.cache v Vs coins).A, R.pBytes (run R hs.cache v Vs coins).S]).cache =
      hs.cache ++ R.pBytes (run R hs.cache v Vs coins).A ++ R.pBytes (run R hs.cache v Vs coins).S := by
    rw [HashCacher.append_cache]; simp
  have hA : coins.aBlind • (pub R (nBits * v.length)).Bl + (msm (aLOf R v) (pub R (nBits * v.length)).Gv +
      msm (aROf R v) (pub R (nBits * v.length)).Hv) = (run R hs.cache v Vs coins).A := rfl
  have hS : coins.sBlind • (pub R (nBits * v.length)).Bl + (msm ((List.range (nBits * v.length)).map coins.sL)
      (pub R (nBits * v.length)).Gv + msm ((List.range (nBits * v.length)).map coins.sR)
      (pub R (nBits * v.length)).Hv) = (run R hs.cache v Vs coins).S := rfl
  rw [hA, hS]
  have hY : (computeYAndZ R (hs.append [R.pBytes (run R hs.cache v Vs coins).A, R.pBytes (run R hs.cache v Vs coins).S])).1
      = (run R hs.cache v Vs coins).y := by
    unfold computeYAndZ HashCacher.result; rw [hcache]; rfl
  have hZ : (computeYAndZ R (hs.append [R.pBytes (run R hs.cache v Vs coins).A, R.pBytes (run R hs.cache v Vs coins).S])).2
      = (run R hs.cache v Vs coins).z := by
    unfold computeYAndZ HashCacher.result; rw [hcache]; rfl
  rw [hY, hZ, r2, r3, computePoly_eq R.two_ne_zero _ _ hy hlt haL haR hsL hsR]
  dsimp only [Res.bind_ok]
  rw [newPed_eq R hmax]
  unfold Pedersen.commitToScalar
  dsimp only
  have hT1 : t1Of v.length (run R hs.cache v Vs coins).y (run R hs.cache v Vs coins).z (aLOf R v) (aROf R v)
      ((List.range (nBits * v.length)).map coins.sL) ((List.range (nBits * v.length)).map coins.sR) •
        (pub R (nBits * max rd.base v.length)).B + coins.t1Blind • (pub R (nBits * max rd.base v.length)).Bl =
        (run R hs.cache v Vs coins).T1 := rfl
  have hT2 : t2Of v.length (run R hs.cache v Vs coins).y
      ((List.range (nBits * v.length)).map coins.sL) ((List.range (nBits * v.length)).map coins.sR) •
        (pub R (nBits * max rd.base v.length)).B + coins.t2Blind • (pub R (nBits * max rd.base v.length)).Bl =
        (run R hs.cache v Vs coins).T2 := rfl
  rw [hT1, hT2]
  have hcache2 : ((hs.append [R.pBytes (run R hs.cache v Vs coins).A, R.pBytes (run R hs.cache v Vs coins).S]).append
      [R.sBytes (run R hs.cache v Vs coins).z, R.pBytes (run R hs.cache v Vs coins).T1,
        R.pBytes (run R hs.cache v Vs coins).T2]).cache =
      hs.cache ++ R.pBytes (run R hs.cache v Vs coins).A ++ R.pBytes (run R hs.cache v Vs coins).S ++
        R.sBytes (run R hs.cache v Vs coins).z ++ R.pBytes (run R hs.cache v Vs coins).T1 ++
        R.pBytes (run R hs.cache v Vs coins).T2 := by
    rw [HashCacher.append_cache, hcache]; simp
  generalize (hs.append [R.pBytes (run R hs.cache v Vs coins).A, R.pBytes (run R hs.cache v Vs coins).S]).append
      [R.sBytes (run R hs.cache v Vs coins).z, R.pBytes (run R hs.cache v Vs coins).T1,
        R.pBytes (run R hs.cache v Vs coins).T2] = hs2 at *
  have hX : computeX R hs2 = (run R hs.cache v Vs coins).x := by
    unfold computeX HashCacher.result; rw [hcache2]; rfl
  rw [hX]
  unfold Polynomial.computeL Polynomial.computeR
  dsimp only
  rw [add_eq (by simp [Vec.mulScalar, haL]), Res.bind_ok,
    add_eq (by rw [r0Vec_length _ _ haR, Vec.mulScalar, List.length_map, r1Vec_length _ hsR]), Res.bind_ok]
  have hl : vadd ((aLOf R v).map fun a => a - (run R hs.cache v Vs coins).z)
      (Vec.mulScalar ((List.range (nBits * v.length)).map coins.sL) (run R hs.cache v Vs coins).x) =
      (run R hs.cache v Vs coins).l := rfl
  have hr : vadd (r0Vec v.length (run R hs.cache v Vs coins).y (run R hs.cache v Vs coins).z (aROf R v))
      (Vec.mulScalar (r1Vec v.length (run R hs.cache v Vs coins).y ((List.range (nBits * v.length)).map coins.sR))
        (run R hs.cache v Vs coins).x) =
      (run R hs.cache v Vs coins).r := rfl
  have hll : (run R hs.cache v Vs coins).l.length = nBits * v.length := lVec_length _ _ haL hsL
  have hrl : (run R hs.cache v Vs coins).r.length = nBits * v.length := rVec_length _ _ _ haR hsR
  rw [hl, hr, innerProduct_eq (by rw [hll, hrl])]
  dsimp only [Res.bind_ok]
  have ht : dot (run R hs.cache v Vs coins).l (run R hs.cache v Vs coins).r = (run R hs.cache v Vs coins).t := rfl
  have hmu : computeMu (run R hs.cache v Vs coins).x coins.aBlind coins.sBlind = (run R hs.cache v Vs coins).mu := rfl
  have htaux : computeTaux (run R hs.cache v Vs coins).x (run R hs.cache v Vs coins).z coins.t1Blind coins.t2Blind Vs =
    (run R hs.cache v Vs coins).taux := rfl
  rw [ht, hmu, htaux, compute_new, sum_mod hrd.hpf, sum_mod hrd.base2]
  have hw : (hs2.append [R.sBytes (run R hs.cache v Vs coins).x, R.sBytes (run R hs.cache v Vs coins).taux,
      R.sBytes (run R hs.cache v Vs coins).mu, R.sBytes (run R hs.cache v Vs coins).t]).derive R =
      (run R hs.cache v Vs coins).w := by
    unfold HashCacher.derive
    rw [HashCacher.append_cache, hcache2]
    simp [run]
  rw [hw]
  rfl

/-- The same with `y = 0`: an error. -/
theorem proveTail_debug_zero (R : Ristretto F G) (rd : Reads) (hrd : rd.Small) (hs : HashCacher) (v : List F)
    (Vs : List (Commitment F G)) (coins : Coins F) (hlt : nBits * v.length < 2 ^ 32)
    (r1 : rd.s = v.length) (hd : rd.DebugSmall) (hy : (run R hs.cache v Vs coins).y = 0) :
    (proveTail R rd (newPed R rd.base) hs v Vs true coins).IsErr := by
  have hsL : ((List.range (nBits * v.length)).map coins.sL).length = nBits * v.length := by simp
  have hsR : ((List.range (nBits * v.length)).map coins.sR).length = nBits * v.length := by simp
  have haL := aLOf_length R v
  have haR := aROf_length R v
  have hmax : nBits * max rd.base v.length < 2 ^ 32 := by
    have := hrd.base
    rcases max_cases rd.base v.length with h | h <;> rw [h.1]
    · exact this
    · exact hlt
  have e1 : (v.flatMap fun vi => (bitCommit (F := F) (R.sNat vi)).AL) = aLOf R v := rfl
  have e2 : (v.flatMap fun vi => (bitCommit (F := F) (R.sNat vi)).AR) = aROf R v := rfl
  unfold proveTail
  rw [e1, e2]
  unfold computeA computeS
  dsimp only
  rw [vectors_base R hrd.base hlt _ _ haL haR]
  dsimp only [Res.bind_ok]
  rw [r1, vectors_base R hmax hlt _ _ hsL hsR, max_assoc, max_self]
  dsimp only [Res.bind_ok]
  have hcache : (hs.append [R.pBytes (run R hs.cache v Vs coins).A, R.pBytes (run R hs.cache v Vs coins).S]).cache =
      hs.cache ++ R.pBytes (run R hs.cache v Vs coins).A ++ R.pBytes (run R hs.cache v Vs coins).S := by
    rw [HashCacher.append_cache]; simp
  have hA : coins.aBlind • (pub R (nBits * v.length)).Bl + (msm (aLOf R v) (pub R (nBits * v.length)).Gv +
      msm (aROf R v) (pub R (nBits * v.length)).Hv) = (run R hs.cache v Vs coins).A := rfl
  have hS : coins.sBlind • (pub R (nBits * v.length)).Bl + (msm ((List.range (nBits * v.length)).map coins.sL)
      (pub R (nBits * v.length)).Gv + msm ((List.range (nBits * v.length)).map coins.sR)
      (pub R (nBits * v.length)).Hv) = (run R hs.cache v Vs coins).S := rfl
  rw [hA, hS]
  have hY : (computeYAndZ R (hs.append [R.pBytes (run R hs.cache v Vs coins).A, R.pBytes (run R hs.cache v Vs coins).S])).1
      = 0 := by
    rw [← hy]
    unfold computeYAndZ HashCacher.result; rw [hcache]; rfl
  rw [hY]
  apply np_isErr
  · refine bind_np (computePoly_np R.two_ne_zero (by have := hrd.polySum; omega) _ _ _ _ _ _) fun poly => ?_
    refine bind_np (add_np _ _) fun l => bind_np (add_np _ _) fun r => bind_np (innerProduct_np _ _) fun t => ?_
    refine bind_np ?_ fun _ => ?_
    · have := hd.dbgRSum
      have := hd.dbgT0Sum
      exact debugBlock_np R rd (by omega) (by omega) _ _ _ _ (small hlt).2 _ _ _ _ _ _ _
    · rw [if_pos (by simp)]
      simp
  · intro p hp
    obtain ⟨poly, -, hp⟩ := Res.bind_eq_ok.1 hp
    obtain ⟨l, -, hp⟩ := Res.bind_eq_ok.1 hp
    obtain ⟨r, -, hp⟩ := Res.bind_eq_ok.1 hp
    obtain ⟨t, -, hp⟩ := Res.bind_eq_ok.1 hp
    obtain ⟨u, -, hp⟩ := Res.bind_eq_ok.1 hp
    rw [if_pos (by simp)] at hp
    cases hp

/-- Reads of `M` by the debug checks that agree. -/
structure Reads.DebugAgree (rd : Reads) (m : Nat) : Prop where
  dbgL : rd.dbgL = m
  dbgR : rd.dbgR = m
  dbgRSum : rd.dbgRSum = m
  dbgT0 : rd.dbgT0 = m
  dbgT0Sum : rd.dbgT0Sum = m

theorem exp_ok_length {a : List F} {b : List G} {N M : Int} {x : G} (h : Vec.exp a b N M = .ok x) : a.length = b.length := by
  unfold Vec.exp at h
  split at h
  · cases h
  · next g => simpa using g

theorem hadamard_ok_length {a b c : List F} (h : Vec.hadamard a b = .ok c) : a.length = b.length ∧ c.length = a.length := by
  unfold Vec.hadamard at h
  split at h
  · cases h
  · next g =>
    have g : a.length = b.length := by simpa using g
    cases h
    simp [g]

theorem add_ok_length {a b c : List F} (h : Vec.add a b = .ok c) : a.length = b.length := by
  unfold Vec.add at h
  split at h
  · cases h
  · next g => simpa using g

/-- The first check fails if it sees another value. -/
theorem debugLxG_other (R : Ristretto F G) {m n : Nat} (hm : 64 * m < 2 ^ 32) (l : List F) (x z : F) (aL sL : List F) (hl : l.length = nBits * n)
    (h : m ≠ n) : (debugLxG R m l x z aL sL).IsErr := by
  refine np_isErr (debugLxG_np R m l x z aL sL) fun b hb => h ?_
  unfold debugLxG at hb
  dsimp only at hb
  rw [compute_new, sum_mod hm] at hb
  obtain ⟨lG, g, -⟩ := Res.bind_eq_ok.1 hb
  have := exp_ok_length g
  rw [hl, chain_length] at this
  exact (Nat.eq_of_mul_eq_mul_left (by norm_num [nBits]) this).symm

/-- The second check fails if it, or the function it calls, sees another value. -/
theorem debugRxHPrime_other (R : Ristretto F G) {m m' n : Nat} (hm : 64 * m < 2 ^ 32) (hm' : 64 * m' < 2 ^ 32) (r : List F) (x y z : F) (aR sR : List F)
    (hr : r.length = nBits * n) (h : ¬ (m = n ∧ m' = n)) : (debugRxHPrime R m m' r x y z aR sR).IsErr := by
  refine np_isErr (debugRxHPrime_np R (by omega) r x y z aR sR) fun b hb => h ?_
  unfold debugRxHPrime at hb
  dsimp only at hb
  rw [compute_new, sum_mod hm] at hb
  have hH : (computeHprime R (chain R (genData ++ [1]) (nBits * m)) y).length = nBits * m := by simp [computeHprime]
  obtain ⟨rH, g, hb⟩ := Res.bind_eq_ok.1 hb
  obtain ⟨_, -, hb⟩ := Res.bind_eq_ok.1 hb
  obtain ⟨_, -, hb⟩ := Res.bind_eq_ok.1 hb
  obtain ⟨_, -, hb⟩ := Res.bind_eq_ok.1 hb
  rw [sumZMTwoN_eq R.two_ne_zero z (by omega), Res.bind_ok] at hb
  obtain ⟨k, g', -⟩ := Res.bind_eq_ok.1 hb
  have e1 := exp_ok_length g
  have e2 := exp_ok_length g'
  rw [hr, hH] at e1
  rw [sumZ_length, hH] at e2
  have e1 := Nat.eq_of_mul_eq_mul_left (by norm_num [nBits]) e1
  have e2 := Nat.eq_of_mul_eq_mul_left (by norm_num [nBits]) e2
  omega

/-- The check of `t0` fails if it, or the function it calls, sees another value. -/
theorem debugT0_other (h2 : (2 : F) ≠ 0) {m m' n : Nat} (hm : 64 * m < 2 ^ 32) (hm' : 64 * m' < 2 ^ 32) (aL aR : List F) (y z : F)
    (haR : aR.length = nBits * n) (h : ¬ (m = n ∧ m' = n)) : (debugT0 m m' aL aR y z).IsErr := by
  refine np_isErr (debugT0_np h2 (by omega) aL aR y z) fun b hb => h ?_
  unfold debugT0 at hb
  dsimp only at hb
  rw [sum_mod hm, sumZMTwoN_eq h2 z (by omega)] at hb
  obtain ⟨hada, g, hb⟩ := Res.bind_eq_ok.1 hb
  rw [Res.bind_ok] at hb
  obtain ⟨right, g', -⟩ := Res.bind_eq_ok.1 hb
  obtain ⟨e1, e2⟩ := hadamard_ok_length g
  have e3 := add_ok_length g'
  rw [scalarPowers_length] at e1 e2
  rw [e2, sumZ_length] at e3
  rw [Vec.addScalar, List.length_map, haR] at e1
  have e1 := Nat.eq_of_mul_eq_mul_left (by norm_num [nBits]) e1
  have e3 := Nat.eq_of_mul_eq_mul_left (by norm_num [nBits]) e3
  omega

theorem t0_check {v : List F} (hlt : nBits * v.length < 2 ^ 32) {d : Nat} (hd : 64 * d < 2 ^ 32) (y z : F) :
    computeT0 y z v nBits d = .ok (delta y z d + ∑ j ∈ Finset.range v.length, z ^ (j + 2) * v.getD j 0) := by
  unfold computeT0
  have hv := (small hlt).2
  dsimp only
  rw [Nat.mod_eq_of_lt hv, Nat.mod_eq_of_lt (by omega), computeDelta_eq _ _ hd, zM_eq, t0Loop_eq _ _ _ (by simp), Res.bind_ok, zero_add,
    dot_eq_msm, msm_map_range _ _ _ rfl]
  rfl

/-- When the debug checks of an honest run succeed. -/
theorem debugBlock_ok (R : Ristretto F G) (rd : Reads) (hd : rd.DebugSmall) (v : List F) (pre : Bytes) (Vs : List (Commitment F G)) (coins : Coins F)
    (hlt : nBits * v.length < 2 ^ 32) {q : Run F G} (hq : q = run R pre v Vs coins) (hy : q.y ≠ 0) :
    debugBlock R rd q.x q.y q.z q.t v q.l q.r (aLOf R v) (aROf R v) q.sL q.sR (honestPoly R v q) = .ok () ↔
      rd.DebugAgree v.length ∧ (∀ a ∈ v, R.sNat a < 2 ^ 64 - 1) ∧ delta q.y q.z rd.dbgDelta = delta q.y q.z v.length := by
  have haL := aLOf_length R v
  have haR := aROf_length R v
  have hsL : q.sL.length = nBits * v.length := by rw [hq]; simp [run]
  have hsR : q.sR.length = nBits * v.length := by rw [hq]; simp [run]
  have hl : q.l = lVec q.z q.x (aLOf R v) q.sL := by rw [hq]; rfl
  have hr : q.r = rVec v.length q.y q.z q.x (aROf R v) q.sR := by rw [hq]; rfl
  have hll : q.l.length = nBits * v.length := by rw [hl]; exact lVec_length _ _ haL hsL
  have hrl : q.r.length = nBits * v.length := by rw [hr]; exact rVec_length _ _ _ haR hsR
  have isErr_bind : ∀ {α : Type} {a : Res α} (f : α → Res Unit), a.IsErr → a.bind f ≠ .ok () := by
    rintro α a f ⟨e, rfl⟩
    simp
  unfold debugBlock
  by_cases h1 : rd.dbgL = v.length
  swap
  · obtain ⟨e, he⟩ := debugLxG_other R hd.dbgL q.l q.x q.z (aLOf R v) q.sL hll h1
    unfold debugProve
    rw [he]
    simp only [Res.bind_err]
    exact ⟨fun h => (by cases h), fun h => absurd h.1.dbgL h1⟩
  by_cases h2 : rd.dbgR = v.length ∧ rd.dbgRSum = v.length
  swap
  · obtain ⟨e, he⟩ := debugRxHPrime_other R hd.dbgR hd.dbgRSum q.r q.x q.y q.z (aROf R v) q.sR hrl h2
    unfold debugProve
    rw [he, h1, hl, debugLxG_true R hlt _ _ haL hsL]
    simp only [Res.bind_err]
    exact ⟨fun h => (by cases h), fun h => absurd ⟨h.1.dbgR, h.1.dbgRSum⟩ h2⟩
  have hb := debugBlock_eq R 0 v pre Vs coins hlt hq hy
  have hall : (v.all fun vi => debugsizeOfV (R.sNat vi)) = true ↔ ∀ a ∈ v, R.sNat a < 2 ^ 64 - 1 := by
    rw [List.all_eq_true]
    refine forall₂_congr fun a _ => ?_
    unfold debugsizeOfV
    rw [decide_eq_true_iff]
    norm_num
  have hP : debugProve R rd q.x q.y q.z v q.l q.r (aLOf R v) (aROf R v) q.sL q.sR =
      if ∀ a ∈ v, R.sNat a < 2 ^ 64 - 1 then .ok () else .err "[DEBUG]: Value v is more than 2^N - 1" := by
    unfold debugProve
    rw [h1, h2.1, h2.2, hl, debugLxG_true R hlt _ _ haL hsL, hr, debugRxHPrime_true R hlt _ _ hy haR hsR]
    simp only [hall]
  rw [hP]
  by_cases h3 : ∀ a ∈ v, R.sNat a < 2 ^ 64 - 1
  swap
  · rw [if_neg h3]
    simp only [Res.bind_err]
    exact ⟨fun h => (by cases h), fun h => absurd h.2.1 h3⟩
  rw [if_pos h3, Res.bind_ok]
  by_cases h4 : rd.dbgT0 = v.length ∧ rd.dbgT0Sum = v.length
  swap
  · have he := debugT0_other R.two_ne_zero hd.dbgT0 hd.dbgT0Sum (aLOf R v) (aROf R v) q.y q.z haR h4
    exact ⟨fun h => absurd h (isErr_bind _ he), fun h => absurd ⟨h.1.dbgT0, h.1.dbgT0Sum⟩ h4⟩
  have hP' : debugProve R (Reads.const 0 v.length) q.x q.y q.z v q.l q.r (aLOf R v) (aROf R v) q.sL q.sR = .ok () := by
    unfold debugProve
    simp only [Reads.const]
    rw [hl, debugLxG_true R hlt _ _ haL hsL, hr, debugRxHPrime_true R hlt _ _ hy haR hsR]
    simp only [hall]
    rw [if_pos h3]
  unfold debugBlock at hb
  rw [if_pos h3, hP', Res.bind_ok] at hb
  simp only [Reads.const] at hb
  rw [h4.1, h4.2]
  cases hT : debugT0 v.length v.length (aLOf R v) (aROf R v) q.y q.z with
  | err e => rw [hT] at hb; cases hb
  | panic => rw [hT] at hb; cases hb
  | ok t0 =>
    rw [hT, Res.bind_ok] at hb
    rw [Res.bind_ok]
    unfold honestPoly
    by_cases g1 : t0 ≠ t0Of v.length q.y q.z (aLOf R v) (aROf R v)
    · rw [if_pos g1] at hb; cases hb
    rw [if_neg g1] at hb
    rw [if_neg g1]
    rw [computeT0_eq hlt, Res.bind_ok] at hb
    rw [t0_check hlt hd.dbgDelta, Res.bind_ok]
    split at hb
    · cases hb
    rename_i g2
    simp only [not_not] at g2
    split at hb
    · cases hb
    rename_i g3
    by_cases g4 : delta q.y q.z rd.dbgDelta = delta q.y q.z v.length
    · rw [g4, if_neg (by simpa using g2), if_neg g3]
      exact ⟨fun _ => ⟨⟨h1, h2.1, h2.2, h4.1, h4.2⟩, h3, rfl⟩, fun _ => rfl⟩
    · rw [if_pos (by rw [← g2]; simpa using g4)]
      exact ⟨fun h => (by cases h), fun h => absurd h.2.2 g4⟩

theorem pad_sizes (R : Ristretto F G) (v : List F) (n : Nat) :
    (∀ a ∈ v ++ List.replicate n (0 : F), R.sNat a < 2 ^ 64 - 1) ↔ ∀ a ∈ v, R.sNat a < 2 ^ 64 - 1 := by
  refine ⟨fun h a ha => h a (List.mem_append_left _ ha), fun h a ha => ?_⟩
  rcases List.mem_append.1 ha with g | g
  · exact h a g
  · have hz : R.sNat (0 : F) = 0 := by
      have := R.sNat_cast (n := 0) (by have := R.two64_lt; omega)
      simpa using this
    rw [List.eq_of_mem_replicate g, hz]; norm_num

/-- C160: with the debug checks a call returns a proof exactly if it returns it without them, the padded values are below `2^64 - 1`, the checks
saw the padded number of values at five of their six reads of the package variable, and the constant `delta` of the challenges is the same for the
sixth. -/
theorem C160_debug (R : Ristretto F G) (rd : Reads) (hrd : rd.Small) (hd : rd.DebugSmall) (v : List F) (coins : Coins F) (m : Nat)
    (hm : v.length + padAmount rd.pad = m) (hlt : 64 * m < 2 ^ 32) (p : Proof F G) :
    proveWith R rd v true coins = .ok p ↔ proveWith R rd v false coins = .ok p ∧ (∀ a ∈ v, R.sNat a < 2 ^ 64 - 1) ∧
      (rd.dbgL = m ∧ rd.dbgR = m ∧ rd.dbgRSum = m ∧ rd.dbgT0 = m ∧ rd.dbgT0Sum = m) ∧
      delta (chalOf R p).y (chalOf R p).z rd.dbgDelta = delta (chalOf R p).y (chalOf R p).z m := by
  unfold proveWith
  by_cases h1 : v.length < 1
  · rw [if_pos h1, if_pos h1]; simp
  rw [if_neg h1, if_neg h1]
  by_cases h2 : rd.check > maxM
  · rw [if_pos h2, if_pos h2]; simp
  rw [if_neg h2, if_neg h2]
  dsimp only
  have hvl : (v ++ List.replicate (padAmount rd.pad) (0 : F)).length = m := by simp [hm]
  have hsz : (∀ a ∈ v ++ List.replicate (padAmount rd.pad) (0 : F), R.sNat a < 2 ^ 64 - 1) ↔ ∀ a ∈ v, R.sNat a < 2 ^ 64 - 1 := pad_sizes R v _
  have hcache := proveCommit_cache R (newPed R rd.base) (v ++ List.replicate (padAmount rd.pad) 0) coins
  rw [← hsz]
  generalize proveCommit R (newPed R rd.base) (v ++ List.replicate (padAmount rd.pad) 0) coins = c at *
  generalize v ++ List.replicate (padAmount rd.pad) (0 : F) = vp at *
  obtain ⟨Vs, hs⟩ := c
  dsimp only at *
  have hlt' : nBits * vp.length < 2 ^ 32 := by rw [hvl]; exact hlt
  have noterr : ∀ {a : Res (Proof F G)}, a.IsErr → a ≠ .ok p := by
    rintro a ⟨e, rfl⟩
    simp
  by_cases h3 : rd.s = vp.length ∧ rd.poly = vp.length ∧ rd.polySum = vp.length
  swap
  · exact ⟨fun h => absurd h (noterr (proveTail_mixed R rd hrd hs vp Vs true coins hlt' h3)),
      fun h => absurd h.1 (noterr (proveTail_mixed R rd hrd hs vp Vs false coins hlt' h3))⟩
  by_cases hy : (run R hs.cache vp Vs coins).y = 0
  · exact ⟨fun h => absurd h (noterr (proveTail_debug_zero R rd hrd hs vp Vs coins hlt' h3.1 hd hy)),
      fun h => absurd h.1 (noterr (proveTail_agree_zero R rd hrd hs vp Vs coins hlt' h3.1 hy))⟩
  have hch : ∀ ip, chalOf R ((run R hs.cache vp Vs coins).proof Vs ip) = (run R hs.cache vp Vs coins).chal := fun ip => by
    rw [hcache]; exact proof_chal R _ Vs coins ip
  have hb := debugBlock_ok R rd hd vp hs.cache Vs coins hlt' rfl hy
  rw [proveTail_debug R rd hrd hs vp Vs coins hlt' h3.1 h3.2.1 h3.2.2 hy, proveTail_agree R rd hrd hs vp Vs coins hlt' h3.1 h3.2.1 h3.2.2 hy]
  dsimp only
  have hp : ∀ {X : Res (Proof F G)}, X = .ok p → (X = if (run R hs.cache vp Vs coins).x = 0 ∨ (run R hs.cache vp Vs coins).y = 0 ∨ (run R hs.cache vp Vs coins).z = 0 then
        .err "[Prove] - One of the challenge scalars, x, y, or z was equal to zero. Generate proof again"
      else
        (IP.generate R (pub R (nBits * max rd.base vp.length)).Gv (pub R (nBits * rd.base2)).Hv (run R hs.cache vp Vs coins).l (run R hs.cache vp Vs coins).r
          (hpfOf (run R hs.cache vp Vs coins).y (nBits * rd.hpf)) ((run R hs.cache vp Vs coins).w • (pub R (nBits * vp.length)).B)).bind fun ip =>
          .ok ((run R hs.cache vp Vs coins).proof Vs ip)) → chalOf R p = (run R hs.cache vp Vs coins).chal := by
    rintro X rfl h
    split at h
    · cases h
    · obtain ⟨ip, -, g⟩ := Res.bind_eq_ok.1 h.symm
      rw [← Res.ok.inj g]
      exact hch ip
  constructor
  · intro h
    obtain ⟨u, g1, g2⟩ := Res.bind_eq_ok.1 h
    obtain ⟨b1, b2, b3⟩ := hb.1 g1
    refine ⟨g2, b2, ?_, ?_⟩
    · rw [← hvl]; exact ⟨b1.dbgL, b1.dbgR, b1.dbgRSum, b1.dbgT0, b1.dbgT0Sum⟩
    · rw [hp g2 rfl, ← hvl]; exact b3
  · rintro ⟨g, b2, ⟨d1, d2, d3, d4, d5⟩, b3⟩
    rw [hp g rfl] at b3
    rw [hb.2 ⟨⟨by rw [d1, hvl], by rw [d2, hvl], by rw [d3, hvl], by rw [d4, hvl], by rw [d5, hvl]⟩, b2, by rw [hvl]; exact b3⟩, Res.bind_ok]
    exact g

/-- C160: a call whose debug checks see another value at one of these five reads returns an error. -/
theorem C160_disagree (R : Ristretto F G) (rd : Reads) (hrd : rd.Small) (hd : rd.DebugSmall) (v : List F) (coins : Coins F) (m : Nat)
    (hm : v.length + padAmount rd.pad = m) (hlt : 64 * m < 2 ^ 32)
    (h : ¬ (rd.dbgL = m ∧ rd.dbgR = m ∧ rd.dbgRSum = m ∧ rd.dbgT0 = m ∧ rd.dbgT0Sum = m)) : (proveWith R rd v true coins).IsErr := by
  unfold proveWith
  by_cases h1 : v.length < 1
  · rw [if_pos h1]; exact Res.isErr_err _
  rw [if_neg h1]
  by_cases h2 : rd.check > maxM
  · rw [if_pos h2]; exact Res.isErr_err _
  rw [if_neg h2]
  dsimp only
  have hvl : (v ++ List.replicate (padAmount rd.pad) (0 : F)).length = m := by simp [hm]
  generalize proveCommit R (newPed R rd.base) (v ++ List.replicate (padAmount rd.pad) 0) coins = c
  generalize v ++ List.replicate (padAmount rd.pad) (0 : F) = vp at *
  have hlt' : nBits * vp.length < 2 ^ 32 := by rw [hvl]; exact hlt
  by_cases h3 : rd.s = vp.length ∧ rd.poly = vp.length ∧ rd.polySum = vp.length
  swap
  · exact proveTail_mixed R rd hrd _ _ _ _ _ hlt' h3
  by_cases hy : (run R c.2.cache vp c.1 coins).y = 0
  · exact proveTail_debug_zero R rd hrd _ _ _ _ hlt' h3.1 hd hy
  rw [proveTail_debug R rd hrd _ _ _ _ hlt' h3.1 h3.2.1 h3.2.2 hy]
  dsimp only
  refine IP.bind_err (np_isErr ?_ fun u hu => h ?_) _
  · have := hd.dbgRSum
    have := hd.dbgT0Sum
    exact debugBlock_np R rd (by omega) (by omega) _ _ _ _ (small hlt').2 _ _ _ _ _ _ _
  · obtain ⟨b, -⟩ := (debugBlock_ok R rd hd vp c.2.cache c.1 coins hlt' rfl hy).1 hu
    rw [← hvl]
    exact ⟨b.dbgL, b.dbgR, b.dbgRSum, b.dbgT0, b.dbgT0Sum⟩

/-- C160: the debug checks do not crash: a call that crashes with them crashes without them, and one that crashes without them does so with
them if all six reads agree and the values are small enough. -/
theorem C160_panic (R : Ristretto F G) (rd : Reads) (hrd : rd.Small) (hd : rd.DebugSmall) (v : List F) (coins : Coins F)
    (hlt : 64 * (v.length + padAmount rd.pad) < 2 ^ 32) :
    (proveWith R rd v true coins = .panic → proveWith R rd v false coins = .panic) ∧
    ((∀ a ∈ v, R.sNat a < 2 ^ 64 - 1) → (∀ m ∈ [rd.dbgL, rd.dbgR, rd.dbgRSum, rd.dbgT0, rd.dbgT0Sum, rd.dbgDelta], m = v.length + padAmount rd.pad) →
      proveWith R rd v false coins = .panic → proveWith R rd v true coins = .panic) := by
  unfold proveWith
  by_cases h1 : v.length < 1
  · rw [if_pos h1, if_pos h1]; simp
  rw [if_neg h1, if_neg h1]
  by_cases h2 : rd.check > maxM
  · rw [if_pos h2, if_pos h2]; simp
  rw [if_neg h2, if_neg h2]
  dsimp only
  have hsz : (∀ a ∈ v ++ List.replicate (padAmount rd.pad) (0 : F), R.sNat a < 2 ^ 64 - 1) ↔ ∀ a ∈ v, R.sNat a < 2 ^ 64 - 1 := pad_sizes R v _
  rw [← hsz]
  have hvl : (v ++ List.replicate (padAmount rd.pad) (0 : F)).length = v.length + padAmount rd.pad := by simp
  generalize proveCommit R (newPed R rd.base) (v ++ List.replicate (padAmount rd.pad) 0) coins = c at *
  generalize v ++ List.replicate (padAmount rd.pad) (0 : F) = vp at *
  have hlt' : nBits * vp.length < 2 ^ 32 := by rw [hvl]; exact hlt
  have noterr : ∀ {a : Res (Proof F G)}, a.IsErr → a ≠ .panic := by
    rintro a ⟨e, rfl⟩
    simp
  by_cases h3 : rd.s = vp.length ∧ rd.poly = vp.length ∧ rd.polySum = vp.length
  swap
  · exact ⟨fun h => absurd h (noterr (proveTail_mixed R rd hrd _ _ _ _ _ hlt' h3)),
      fun _ _ h => absurd h (noterr (proveTail_mixed R rd hrd _ _ _ _ _ hlt' h3))⟩
  by_cases hy : (run R c.2.cache vp c.1 coins).y = 0
  · exact ⟨fun h => absurd h (noterr (proveTail_debug_zero R rd hrd _ _ _ _ hlt' h3.1 hd hy)),
      fun _ _ h => absurd h (noterr (proveTail_agree_zero R rd hrd _ _ _ _ hlt' h3.1 hy))⟩
  have hok := debugBlock_ok R rd hd vp c.2.cache c.1 coins hlt' rfl hy
  rw [proveTail_debug R rd hrd _ _ _ _ hlt' h3.1 h3.2.1 h3.2.2 hy, proveTail_agree R rd hrd _ _ _ _ hlt' h3.1 h3.2.1 h3.2.2 hy]
  dsimp only
  have hnp := debugBlock_np R rd (by have := hd.dbgRSum; omega) (by have := hd.dbgT0Sum; omega) (run R c.2.cache vp c.1 coins).x
    (run R c.2.cache vp c.1 coins).y (run R c.2.cache vp c.1 coins).z (run R c.2.cache vp c.1 coins).t (small hlt').2 (run R c.2.cache vp c.1 coins).l
    (run R c.2.cache vp c.1 coins).r (aLOf R vp) (aROf R vp) (run R c.2.cache vp c.1 coins).sL (run R c.2.cache vp c.1 coins).sR
    (honestPoly R vp (run R c.2.cache vp c.1 coins))
  constructor
  · intro h
    generalize debugBlock R rd (run R c.2.cache vp c.1 coins).x (run R c.2.cache vp c.1 coins).y (run R c.2.cache vp c.1 coins).z
      (run R c.2.cache vp c.1 coins).t vp (run R c.2.cache vp c.1 coins).l (run R c.2.cache vp c.1 coins).r (aLOf R vp) (aROf R vp)
      (run R c.2.cache vp c.1 coins).sL (run R c.2.cache vp c.1 coins).sR (honestPoly R vp (run R c.2.cache vp c.1 coins)) = X at h hnp
    cases X with
    | ok u => rw [Res.bind_ok] at h; exact h
    | err e => cases h
    | panic => exact absurd rfl hnp
  · intro hv hm h
    have hm : ∀ m ∈ [rd.dbgL, rd.dbgR, rd.dbgRSum, rd.dbgT0, rd.dbgT0Sum, rd.dbgDelta], m = vp.length := by rw [hvl]; exact hm
    rw [hok.2 ⟨⟨hm _ (by simp), hm _ (by simp), hm _ (by simp), hm _ (by simp), hm _ (by simp)⟩, hv, by rw [hm rd.dbgDelta (by simp)]⟩, Res.bind_ok]
    exact h

/-- C160: a call with debug checks in an execution with any other calls of `Prove`. `l` are the values of `M` that it read. A proof that it returns is
returned without the checks too, and reads 7 to 11 gave the number of commitments of the proof. -/
theorem C160_interleaved (R : Ristretto F G) (M0 : Nat) (procs : Nat → Proc) (sched : List Nat) (i : Nat) (v : List F)
    (coins : Coins F) (l : List Nat) (hl : ((exec M0 procs sched).2 i).seen = l) (hs : ∀ m ∈ l, 64 * m < 2 ^ 32)
    (hlt : 64 * (v.length + padAmount (l.getD 1 0)) < 2 ^ 32) (p : Proof F G)
    (hp : ((exec M0 procs sched).2 i).result R v true coins = .ok p) :
    ((exec M0 procs sched).2 i).result R v false coins = .ok p ∧ (∀ a ∈ v, R.sNat a < 2 ^ 64 - 1) ∧
      ∀ j, 7 ≤ j → j ≤ 11 → l.getD j 0 = p.V.length := by
  have hg : ∀ j, 64 * l.getD j 0 < 2 ^ 32 := by
    intro j
    rw [List.getD_eq_getElem?_getD]
    cases h : l[j]? with
    | none => simp
    | some m => exact hs m (List.mem_of_getElem? h)
  unfold Proc.result at hp ⊢
  rw [hl] at hp ⊢
  obtain ⟨h1, h2, ⟨d1, d2, d3, d4, d5⟩, -⟩ := (C160_debug R (Reads.ofList l) ⟨hg 3, hg 4, hg 5, hg 6, hg 13, hg 14⟩ ⟨hg 7, hg 8, hg 9, hg 10, hg 11, hg 12⟩
    v coins _ rfl hlt p).1 hp
  obtain ⟨h3, -⟩ := C101_returned R (Reads.ofList l) ⟨hg 3, hg 4, hg 5, hg 6, hg 13, hg 14⟩ v coins hlt p h1
  refine ⟨h1, h2, fun j a b => ?_⟩
  rw [h3]
  obtain rfl | rfl | rfl | rfl | rfl : j = 7 ∨ j = 8 ∨ j = 9 ∨ j = 10 ∨ j = 11 := by omega
  · exact d1
  · exact d2
  · exact d3
  · exact d4
  · exact d5

/-- The accesses of a call that is disturbed by the start of another one before its debug checks. -/
theorem debug_start (M0 : Nat) (procs : Nat → Proc) (n n' : Nat) (h0 : procs 0 = Proc.start n) (h1 : procs 1 = Proc.start n')
    (hn : 1 ≤ n) (hn' : n ≤ 16) (hn2 : 1 ≤ n') :
    (exec M0 procs (List.replicate 9 0 ++ [1] ++ List.replicate 8 0)).2 0 =
      ⟨n, Proc.end, [n, n, n] ++ List.replicate 4 (n + padAmount n) ++ List.replicate 8 n'⟩ := by
  have er : List.replicate 9 0 ++ [1] ++ List.replicate 8 0 =
      [0, 0, 0, 0, 0, 0, 0, 0, 0, 1, 0, 0, 0, 0, 0, 0, 0, 0] := rfl
  have hc : ¬ n < 1 := by omega
  have hc' : ¬ n > maxM := by unfold maxM; omega
  have hc2 : ¬ n' < 1 := by omega
  rw [er]
  simp [exec, h0, h1, Proc.step, Proc.start, hc, hc', hc2, Proc.end]

/-- C160 (violated): Expected: whether `Prove` returns a proof depends on its arguments. A call with debug checks on valid values fails if another
call, on a number of values other than the padded number of the first, starts between its polynomial and its checks. -/
theorem C160_disturbed_violated (R : Ristretto F G) (M0 : Nat) (procs : Nat → Proc) (v : List F) (n' : Nat)
    (coins : Coins F) (h0 : procs 0 = Proc.start v.length) (h1 : procs 1 = Proc.start n') (hn : 1 ≤ v.length)
    (hn' : v.length ≤ 16) (hn2 : 1 ≤ n') (hn3 : 64 * n' < 2 ^ 32) (hne : n' ≠ v.length + padAmount v.length) :
    let e := (exec M0 procs (List.replicate 9 0 ++ [1] ++ List.replicate 8 0)).2 0
    e.pc = Proc.end ∧ (e.result R v true coins).IsErr := by
  dsimp only
  rw [debug_start M0 procs v.length n' h0 h1 hn hn' hn2]
  refine ⟨rfl, ?_⟩
  unfold Proc.result
  obtain ⟨k, hk, hk4, -⟩ := padAmount_spec hn hn'
  have hle : 2 ^ k ≤ 2 ^ 4 := Nat.pow_le_pow_right (by norm_num) hk4
  have e : Reads.ofList ([v.length, v.length, v.length] ++ List.replicate 4 (v.length + padAmount v.length) ++ List.replicate 8 n') =
      ⟨v.length, v.length, v.length, 2 ^ k, 2 ^ k, 2 ^ k, 2 ^ k, n', n', n', n', n', n', n', n'⟩ := by
    rw [hk]; rfl
  dsimp only
  rw [e]
  refine C160_disagree R _ ⟨?_, ?_, ?_, ?_, ?_, ?_⟩ ⟨hn3, hn3, hn3, hn3, hn3, hn3⟩ v coins (2 ^ k) hk (by omega) fun h => hne (by rw [hk]; exact h.1)
  all_goals dsimp only; omega

/-! ## Examples -/

/-- A call on three values with debug checks, disturbed by a call on three values: it has padded its own to four. -/
example (coins : Coins Toy.K) : (((exec 7 (fun i => Proc.start (if i = 0 then 3 else 3))
    (List.replicate 9 0 ++ [1] ++ List.replicate 8 0)).2 0).result Toy.ris [0, 0, 0] true coins).IsErr :=
  (C160_disturbed_violated Toy.ris 7 (fun i => Proc.start (if i = 0 then 3 else 3)) [0, 0, 0] 3 coins (by simp) (by simp) (by simp) (by simp) (by norm_num)
    (by norm_num) (by rw [List.length_cons, List.length_cons, List.length_singleton]; decide)).2

/-- Reads by the debug checks that agree, with bases computed for fewer and factors for more values. -/
example (coins : Coins Toy.K) : ∃ p, proveWith Toy.ris ⟨2, 2, 9, 1, 2, 2, 2, 2, 2, 2, 2, 2, 2, 5, 2⟩ [0, 0] true coins = .ok p := by
  have hrd : Reads.Small ⟨2, 2, 9, 1, 2, 2, 2, 2, 2, 2, 2, 2, 2, 5, 2⟩ := ⟨by norm_num, by norm_num, by norm_num, by norm_num, by norm_num, by norm_num⟩
  obtain ⟨p, ip, -, -, -, -, h, -⟩ := C101_agree Toy.ris ⟨2, 2, 9, 1, 2, 2, 2, 2, 2, 2, 2, 2, 2, 5, 2⟩ hrd [0, 0] coins 2 (by decide) (by norm_num)
    ⟨by simp, by norm_num, rfl, rfl, rfl, by norm_num, 1, rfl⟩
  obtain ⟨n1, n2, n3⟩ := chalOf_ne Toy.ris Toy.dv_ne_zero p
  refine ⟨p, (C160_debug Toy.ris _ hrd ⟨by norm_num, by norm_num, by norm_num, by norm_num, by norm_num, by norm_num⟩ [0, 0] coins 2 (by decide)
    (by norm_num) p).2 ⟨(h n1 n2 n3).2.1.2 ⟨rfl, by norm_num⟩, ?_, ⟨rfl, rfl, rfl, rfl, rfl⟩, rfl⟩⟩
  have h0 := toy_sNat 0 (by norm_num)
  simp only [Nat.cast_zero] at h0
  simp [h0]

/-- A call on two values alone. -/
example (coins : Coins Toy.K) : ∃ p, ((exec 7 (fun _ => Proc.start 2) (List.replicate 17 0)).2 0).result Toy.ris [0, 0] true coins = .ok p ∧
    ((exec 7 (fun _ => Proc.start 2) (List.replicate 17 0)).2 0).result Toy.ris [0, 0] false coins = .ok p ∧ p.V.length = 2 := by
  have hrd : Reads.Small ⟨2, 2, 2, 2, 2, 2, 2, 2, 2, 2, 2, 2, 2, 2, 2⟩ := ⟨by norm_num, by norm_num, by norm_num, by norm_num, by norm_num, by norm_num⟩
  have e2 : padAmount 2 = 0 := by decide
  have hseen : (exec 7 (fun _ => Proc.start 2) (List.replicate 17 0)).2 0 = ⟨2, Proc.end, List.replicate 15 2⟩ := by
    have er : List.replicate 17 0 = [0, 0, 0, 0, 0, 0, 0, 0, 0, 0, 0, 0, 0, 0, 0, 0, 0] := rfl
    rw [er]
    simp [exec, Proc.step, Proc.start, maxM, Proc.end, e2]
  obtain ⟨p, ip, -, -, -, -, h, -⟩ := C101_agree Toy.ris ⟨2, 2, 2, 2, 2, 2, 2, 2, 2, 2, 2, 2, 2, 2, 2⟩ hrd [0, 0] coins 2 (by decide) (by norm_num)
    ⟨by simp, by norm_num, rfl, rfl, rfl, by norm_num, 1, rfl⟩
  obtain ⟨n1, n2, n3⟩ := chalOf_ne Toy.ris Toy.dv_ne_zero p
  have h0 := toy_sNat 0 (by norm_num)
  simp only [Nat.cast_zero] at h0
  have hp := (C160_debug Toy.ris _ hrd ⟨by norm_num, by norm_num, by norm_num, by norm_num, by norm_num, by norm_num⟩ [0, 0] coins 2 (by decide)
    (by norm_num) p).2 ⟨(h n1 n2 n3).2.1.2 ⟨rfl, by norm_num⟩, by simp [h0], ⟨rfl, rfl, rfl, rfl, rfl⟩, rfl⟩
  have hp' : ((exec 7 (fun _ => Proc.start 2) (List.replicate 17 0)).2 0).result Toy.ris [0, 0] true coins = .ok p := by rw [hseen]; exact hp
  obtain ⟨i1, -, i3⟩ := C160_interleaved Toy.ris 7 (fun _ => Proc.start 2) (List.replicate 17 0) 0 [0, 0] coins (List.replicate 15 2) (by rw [hseen])
    (by simp) (by simp [e2]) p hp'
  exact ⟨p, hp', i1, (i3 7 le_rfl (by norm_num)).symm⟩

/-- One read that does not agree. -/
example (coins : Coins Toy.K) : (proveWith Toy.ris ⟨2, 2, 2, 2, 2, 2, 2, 2, 2, 2, 2, 4, 2, 2, 2⟩ [0, 0] true coins).IsErr :=
  C160_disagree Toy.ris _ ⟨by norm_num, by norm_num, by norm_num, by norm_num, by norm_num, by norm_num⟩
    ⟨by norm_num, by norm_num, by norm_num, by norm_num, by norm_num, by norm_num⟩ [0, 0] coins 2 (by decide) (by norm_num) (by norm_num)

/-- A crash with the checks, from factors that are too few. -/
example (coins : Coins Toy.K) : proveWith Toy.ris ⟨4, 4, 4, 4, 4, 4, 4, 4, 4, 4, 4, 4, 4, 1, 1⟩ [0, 0, 0, 0] true coins = .panic := by
  have hrd : Reads.Small ⟨4, 4, 4, 4, 4, 4, 4, 4, 4, 4, 4, 4, 4, 1, 1⟩ := ⟨by norm_num, by norm_num, by norm_num, by norm_num, by norm_num, by norm_num⟩
  have e : padAmount 4 = 0 := by decide
  obtain ⟨p, ip, -, -, -, -, h, -⟩ := C101_agree Toy.ris ⟨4, 4, 4, 4, 4, 4, 4, 4, 4, 4, 4, 4, 4, 1, 1⟩ hrd [0, 0, 0, 0] coins 4 (by rw [e]; rfl)
    (by norm_num) ⟨by simp, by norm_num, rfl, rfl, rfl, by norm_num, 2, rfl⟩
  obtain ⟨n1, n2, n3⟩ := chalOf_ne Toy.ris Toy.dv_ne_zero p
  have h0 := toy_sNat 0 (by norm_num)
  simp only [Nat.cast_zero] at h0
  exact (C160_panic Toy.ris _ hrd ⟨by norm_num, by norm_num, by norm_num, by norm_num, by norm_num, by norm_num⟩ [0, 0, 0, 0] coins
    (by rw [e]; simp)).2 (by simp [h0]) (by simp [e]) ((h n1 n2 n3).1.2 (Or.inl (by norm_num)))

end Dusk.RP
