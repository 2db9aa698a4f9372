import Verif.Lemmas.TraceRP
import Verif.Props.RangeProof
/-!
# C135: the steps of proving a range
-/

set_option linter.unusedSectionVars false

namespace Dusk.RP

open Traced

variable {F G : Type} [Field F] [AddCommGroup G] [Module F G] [DecidableEq F] [DecidableEq G]

theorem tests_res {α : Type} (x y z : F) (e : String) (m : Traced α) :
    ((if (decide (x = 0)) = true then lift (.ok true) else did [.isNonZero] (decide (y = 0)) : Traced Bool).res.bind fun zy =>
      (if zy = true then lift (.ok true) else did [.isNonZero] (decide (z = 0)) : Traced Bool).res.bind fun zz =>
      (if zz = true then lift (.err e) else m).res) = if x = 0 ∨ y = 0 ∨ z = 0 then .err e else m.res := by
  by_cases hx : x = 0
  · simp [hx]
  by_cases hy : y = 0
  · simp [hx, hy]
  by_cases hz : z = 0
  · simp [hx, hy, hz]
  simp [hx, hy, hz]

theorem tests_fails {α : Type} {x y z : F} {e : String} (m : Traced α) (h : x = 0 ∨ y = 0 ∨ z = 0) :
    Fails ((did [.isNonZero] (decide (x = 0)) : Traced Bool).bind fun zx =>
      (if zx = true then lift (.ok true) else did [.isNonZero] (decide (y = 0)) : Traced Bool).bind fun zy =>
      (if zy = true then lift (.ok true) else did [.isNonZero] (decide (z = 0)) : Traced Bool).bind fun zz =>
      if zz = true then lift (.err e) else m) := by
  intro a ha
  simp only [res_bind, res_did, Res.bind_ok] at ha
  rw [tests_res, if_pos h] at ha
  cases ha

theorem proveTailT_res (R : Ristretto F G) (m0 m : Nat) (ped : Pedersen G) (hs : HashCacher) (v : List F) (Vs : List (Commitment F G))
    (coins : Coins F) :
    (proveTailT R m ped hs v Vs coins).res = proveTail R (Reads.const m0 m) ped hs v Vs false coins := by
  unfold proveTailT proveTail
  simp only [res_bind, bitsT_res, Res.bind_ok, computeAT, computeST, Pedersen.commitToVectorsT_res, res_did, res_lift, computeYAndZT,
    computePolyT_res, Pedersen.commitToScalarT_res, computeXT, computeTauxT, computeMuT, Polynomial.computeLT, Polynomial.computeRT,
    Vec.mulScalarT, Vec.addT, Vec.innerProductT, computeA, computeS, Reads.const, computeYAndZ, computeX, Polynomial.computeL,
    Polynomial.computeR, Bool.false_eq_true, if_false]
  congr 1; funext a
  congr 1; funext s
  congr 1; funext poly
  congr 1; funext l
  congr 1; funext r
  congr 1; funext t
  rw [tests_res]
  refine if_congr Iff.rfl rfl ?_
  simp only [res_bind, res_did, Res.bind_ok, Vec.scalarPowersT, Pedersen.newT, Gen.computeT_res, IP.generateT_res, res_lift]

theorem proveT_res (R : Ristretto F G) (m0 : Nat) (v : List F) (coins : Coins F) :
    (proveT R v coins).res = (prove R m0 v false coins).2 := by
  unfold proveT prove proveWith nextM
  by_cases h1 : v.length < 1
  · simp [h1]
  by_cases h2 : v.length > maxM
  · simp only [h1, h2, if_true, if_false, res_lift, Reads.const]
  simp only [h1, h2, if_false, res_bind, Pedersen.newT, res_did, Res.bind_ok, Gen.computeT_res, commitAllT_res]
  rw [proveTailT_res R v.length]
  simp only [Reads.const, h2, if_false]
  rfl

theorem computeAT_does (R : Ristretto F G) {p : Pedersen G} {n : Nat} (hp : p.baseVector.bases.length = n) (b : F) {s t : List F}
    (hs : s.length = n) (ht : t.length = n) (h1 : 1 ≤ n) (hlt : n < 2 ^ 32) :
    Does (computeAT R p s t b) (vectorsSteps n) fun c => c.2.baseVector.bases.length = n :=
  Pedersen.commitToVectorsT_does R hp b hs ht h1 hlt

theorem computeST_does (R : Ristretto F G) {p : Pedersen G} {m : Nat} (hp : p.baseVector.bases.length = 64 * m) (coins : Coins F)
    (h1 : 1 ≤ 64 * m) (hlt : 64 * m < 2 ^ 32) :
    Does (computeST R p m coins) (masksSteps (64 * m)) fun s =>
      s.1.2.baseVector.bases.length = 64 * m ∧ s.2.1.length = 64 * m ∧ s.2.2.length = 64 * m := by
  unfold computeST
  refine Does.did_bind rfl ((Does.bind (T := []) (Pedersen.commitToVectorsT_does R hp _ (by simp) (by simp) h1 hlt) fun c hc =>
    Does.ok ?_).mono (by simp) fun _ h => h)
  exact ⟨hc, by simp, by simp⟩

theorem computeLT_does {p : Polynomial F} {n : Nat} (h0 : p.l0.length = n) (h1 : p.l1.length = n) (x : F) :
    Does (p.computeLT x) (evalSteps n) fun l => l.length = n :=
  Does.bind (Vec.mulScalarT_does h1 x) fun _ hl => Vec.addT_does h0 hl

theorem computeRT_does {p : Polynomial F} {n : Nat} (h0 : p.r0.length = n) (h1 : p.r1.length = n) (x : F) :
    Does (p.computeRT x) (evalSteps n) fun l => l.length = n :=
  Does.bind (Vec.mulScalarT_does h1 x) fun _ hl => Vec.addT_does h0 hl

/-- The part of `Prove` after taking the values apart. -/
theorem proveTailT_does {R : Ristretto F G} (E : R.Encodings) {k : Nat} (hk : k ≤ 4) {ped : Pedersen G}
    (hp : ped.baseVector.bases.length = 64 * 2 ^ k) {hs : HashCacher} (hh : hs.cache.length = 32 * 2 ^ k) {v : List F} (hv : v.length = 2 ^ k)
    {Vs : List (Commitment F G)} (hV : Vs.length = 2 ^ k) (coins : Coins F) :
    Does (proveTailT R (2 ^ k) ped hs v Vs coins) (bitsSteps (v.map R.sNat) ++ afterSteps k) fun _ => True := by
  have hle : 2 ^ k ≤ 2 ^ 4 := Nat.pow_le_pow_right (by norm_num) hk
  have h1 : 1 ≤ 2 ^ k := Nat.one_le_two_pow
  have hlt : 64 * 2 ^ k < 2 ^ 32 := by omega
  have hmod : nBits * 2 ^ k % 2 ^ 32 = 64 * 2 ^ k := Nat.mod_eq_of_lt hlt
  unfold proveTailT
  refine Does.bind (bitsT_does R hv) fun bits hb => ?_
  generalize hA : afterSteps k = A
  unfold afterSteps at hA
  simp only [List.append_assoc] at hA
  subst hA
  refine Does.bind (computeAT_does R hp _ hb.1 hb.2 (by omega) hlt) fun a ha => ?_
  refine Does.bind (computeST_does R ha coins (by omega) hlt) fun s hS => ?_
  refine Does.cons rfl ?_
  refine Does.last rfl ?_
  dsimp only
  have hh1 : (hs.append [R.pBytes a.1.value, R.pBytes s.1.1.value]).cache.length = 32 * 2 ^ k + 64 := by
    rw [append_cache_length]; simp [E.pBytes_length, hh]
  generalize hs.append [R.pBytes a.1.value, R.pBytes s.1.1.value] = hs1 at hh1 ⊢
  refine Does.bind (P := fun _ => True) ?_ fun yz _ => ?_
  · unfold computeYAndZT
    refine (Does.did_bind (S := [.hash (32 * 2 ^ k + 64)]) (by rw [HashCacher.result, hh1]) (Does.did_bind (S := [.sBytes]) rfl (Does.did (S := [.hash 32]) (by rw [E.sBytes_length]) trivial))).mono
      rfl fun _ h => h
  by_cases hz : yz.2 = 0
  · refine Does.fails ?_
    iterate 12 refine Fails.bind fun _ => ?_
    exact tests_fails _ (.inr (.inr hz))
  by_cases hy : yz.1 = 0
  · refine Does.fails ?_
    iterate 12 refine Fails.bind fun _ => ?_
    exact tests_fails _ (.inr (.inl hy))
  refine Does.bind (computePolyT_does R h1 hlt hb.1 hb.2 hS.2.1 hS.2.2 hy hz) fun poly hpoly => ?_
  refine Does.bind (Pedersen.commitToScalarT_does _ _ _) fun T1 _ => ?_
  refine Does.bind (Pedersen.commitToScalarT_does _ _ _) fun T2 _ => ?_
  refine Does.cons rfl ?_
  refine Does.cons rfl ?_
  refine Does.last rfl ?_
  have hh2 : (hs1.append [R.sBytes yz.2, R.pBytes T1.value, R.pBytes T2.value]).cache.length = 32 * 2 ^ k + 160 := by
    rw [append_cache_length]; simp [E.pBytes_length, E.sBytes_length, hh1]
  generalize hs1.append [R.sBytes yz.2, R.pBytes T1.value, R.pBytes T2.value] = hs2 at hh2 ⊢
  refine Does.last (by rw [HashCacher.result, hh2]) ?_
  generalize R.sDerive hs2.result = x
  refine Does.did_bind (S := tauxSteps (2 ^ k)) (by rw [hV]; rfl) ?_
  refine Does.last rfl ?_
  refine Does.bind (computeLT_does hpoly.1 hpoly.2.1 x) fun l hl => ?_
  refine Does.bind (computeRT_does hpoly.2.2.1 hpoly.2.2.2 x) fun r hr => ?_
  refine Does.bind (Vec.innerProductT_does hl hr) fun t _ => ?_
  by_cases hx : x = 0
  · exact Does.fails (tests_fails _ (.inl hx))
  refine Does.cons rfl ?_
  rw [decide_eq_false hx, if_neg Bool.false_ne_true]
  refine Does.cons rfl ?_
  rw [decide_eq_false hy, if_neg Bool.false_ne_true]
  refine Does.last rfl ?_
  rw [decide_eq_false hz, if_neg Bool.false_ne_true]
  refine Does.cons rfl ?_
  refine Does.cons rfl ?_
  refine Does.cons rfl ?_
  refine Does.last rfl ?_
  refine Does.last ?_ ?_
  · rw [append_cache_length]; simp [E.sBytes_length, hh2]
  refine Does.cons rfl ?_
  refine Does.last rfl ?_
  refine Does.bind (Vec.scalarPowersT_does (inv_ne_zero hy) hmod (by omega)) fun Hpf hH => ?_
  refine Does.last rfl ?_
  refine Does.bind (Gen.computeT_does R (g := (Pedersen.new R _).baseVector) rfl hmod (by omega)) fun g2 hg2 => ?_
  have e5 : 64 * 2 ^ k = 2 ^ (k + 5 + 1) := by rw [pow_add, pow_add]; ring
  have e6 : 32 * 2 ^ k = 2 ^ (k + 5) := by rw [pow_add]; ring
  rw [e5] at hl hr hH hg2 hS
  rw [e6]
  exact (Does.bind (T := []) (IP.generateT_does E (by omega) hl hr hS.1 hg2 hH _) fun ip _ => Does.ok trivial).mono (by simp) fun _ h => h

/-- C135: `Prove` makes the steps listed in `proveSteps`, whenever it returns a proof: they depend on the number of values, and on the 64
low bits of each, not on the random choices and not on anything computed from the values. -/
theorem C135_prove {R : Ristretto F G} (E : R.Encodings) (m0 : Nat) (v : List F) (coins : Coins F) (p : Proof F G)
    (h : (prove R m0 v false coins).2 = .ok p) :
    (proveT R v coins).res = .ok p ∧ (proveT R v coins).steps = proveSteps (Nat.clog 2 v.length) (v.map R.sNat) := by
  rw [← proveT_res] at h
  refine ⟨h, ?_⟩
  suffices hd : Does (proveT R v coins) (proveSteps (Nat.clog 2 v.length) (v.map R.sNat)) fun _ => True from (hd p h).1
  unfold proveT
  split
  · exact Does.fails (Fails.err _)
  next h1 =>
  split
  · exact Does.fails (Fails.err _)
  next h2 =>
  simp only [maxM] at h2
  obtain ⟨k, hk, hk4, hmin⟩ := padAmount_spec (n := v.length) (by omega) (by omega)
  have hc : Nat.clog 2 v.length = k :=
    le_antisymm (Nat.clog_le_of_le_pow (by omega)) (hmin _ (Nat.le_pow_clog (by norm_num) _))
  have hle : 2 ^ k ≤ 2 ^ 4 := Nat.pow_le_pow_right (by norm_num) hk4
  have hge : 1 ≤ 2 ^ k := Nat.one_le_two_pow
  have hlt : 64 * 2 ^ k < 2 ^ 32 := by omega
  have hmod : nBits * 2 ^ k % 2 ^ 32 = 64 * 2 ^ k := Nat.mod_eq_of_lt hlt
  have hpad : padAmount v.length = 2 ^ k - v.length := by omega
  have hlen : (v ++ List.replicate (padAmount v.length) 0).length = 2 ^ k := by simp [hk]
  have hzero : R.sNat 0 = 0 := by
    have := R.sNat_cast (n := 0) (by have := R.two64_lt; omega)
    rwa [Nat.cast_zero] at this
  have hbits : (v ++ List.replicate (padAmount v.length) 0).map R.sNat =
      v.map R.sNat ++ List.replicate (2 ^ k - (v.map R.sNat).length) 0 := by
    rw [List.map_append, List.map_replicate, hzero, hpad, List.length_map]
  rw [hc, hk]
  dsimp only
  refine (Does.did_bind (S := [.derive]) rfl <| Does.bind (Gen.computeT_does R (g := (Pedersen.new R _).baseVector) rfl hmod (by omega))
    fun g hg => Does.bind (commitAllT_does E _ coins 0 (h := 0) rfl hlen) fun c hc => proveTailT_does E hk4 (ped := ⟨g, _, _, _⟩) hg (by rw [hc.2]; omega) hlen hc.1 coins).mono
    ?_ fun _ h => h
  rw [hbits, proveSteps, beforeSteps, times_eq_rep]
  simp only [List.append_assoc, List.cons_append, List.nil_append]

/-! ## The branches -/

/-- No branches. -/
def NoBranch (L : List Step) : Prop := ∀ s ∈ L, branchOf s = none

@[simp] theorem noBranch_nil : NoBranch [] := by simp [NoBranch]

@[simp] theorem noBranch_cons (s : Step) (L : List Step) : NoBranch (s :: L) ↔ branchOf s = none ∧ NoBranch L := by simp [NoBranch]

@[simp] theorem noBranch_append (L M : List Step) : NoBranch (L ++ M) ↔ NoBranch L ∧ NoBranch M := by
  simp only [NoBranch, List.mem_append]
  exact ⟨fun h => ⟨fun s hs => h s (.inl hs), fun s hs => h s (.inr hs)⟩, fun h s hs => hs.elim (h.1 s) (h.2 s)⟩

theorem noBranch_rep (n : Nat) {L : List Step} (h : NoBranch L) : NoBranch (rep n L) := by
  intro s hs
  simp only [rep, List.mem_flatten, List.mem_replicate] at hs
  obtain ⟨l, ⟨-, rfl⟩, hs⟩ := hs
  exact h s hs

theorem noBranch_rounds : ∀ j h, NoBranch (roundsSteps j h)
  | 0, _ => noBranch_nil
  | j + 1, h => by
    have := noBranch_rounds j (h + 64)
    simp [roundsSteps, nextSteps, noBranch_rep, branchOf, this]

theorem noBranch_before (m : Nat) : NoBranch (beforeSteps m) := by
  simp [beforeSteps, basesSteps, noBranch_rep, branchOf]

theorem noBranch_after (k : Nat) : NoBranch (afterSteps k) := by
  unfold afterSteps
  simp [vectorsSteps, masksSteps, polySteps, powersSteps, tauxSteps, evalSteps, basesSteps, firstSteps, noBranch_rep, branchOf, noBranch_rounds]

theorem NoBranch.filterMap {L : List Step} (h : NoBranch L) : L.filterMap branchOf = [] := List.filterMap_eq_nil_iff.2 h

theorem NoBranch.filter {L : List Step} (h : NoBranch L) : L.filter (fun s => branchOf s = none) = L :=
  List.filter_eq_self.2 fun s hs => by simp [h s hs]

theorem branches_bits (vals : List Nat) : (bitsSteps vals).filterMap branchOf = vals.flatMap fun x => (List.range 64).map fun i => x.testBit i := by
  rw [bitsSteps, List.filterMap_flatMap]
  refine congrArg (fun f => vals.flatMap f) (funext fun x => ?_)
  rw [List.filterMap_append, List.filterMap_map]
  have : branchOf ∘ (fun i => Step.branch (x.testBit i)) = some ∘ fun i => x.testBit i := rfl
  rw [this, List.filterMap_eq_map]
  rfl

theorem others_bits : ∀ vals : List Nat, (bitsSteps vals).filter (fun s => branchOf s = none) = rep vals.length [.bigInt, .sNeg]
  | [] => rfl
  | x :: vals => by
    have ih := others_bits vals
    simp only [bitsSteps, List.flatMap_cons, List.filter_append] at ih ⊢
    rw [ih]
    have : ((List.range 64).map fun i => Step.branch (x.testBit i)).filter (fun s => branchOf s = none) = [] := by
      rw [List.filter_eq_nil_iff]
      intro s hs
      obtain ⟨i, -, rfl⟩ := List.mem_map.1 hs
      simp [branchOf]
    rw [this]
    simp [rep, List.replicate_succ, branchOf]

/-- C135: apart from the branches in `BitCommit`, the steps of two calls that return proofs for the same number of values are the same,
whatever the values and the random choices are. -/
theorem C135_independent {R : Ristretto F G} (E : R.Encodings) (m0 m0' : Nat) (v v' : List F) (coins coins' : Coins F)
    (hv : v.length = v'.length) (p p' : Proof F G) (h : (prove R m0 v false coins).2 = .ok p) (h' : (prove R m0' v' false coins').2 = .ok p') :
    (proveT R v coins).steps.filter (fun s => branchOf s = none) = (proveT R v' coins').steps.filter (fun s => branchOf s = none) ∧
    (proveT R v coins).steps.length = (proveT R v' coins').steps.length := by
  have key : ∀ vals : List Nat, (proveSteps (Nat.clog 2 v.length) vals).filter (fun s => branchOf s = none) =
      beforeSteps (2 ^ Nat.clog 2 v.length) ++ rep (vals.length + (2 ^ Nat.clog 2 v.length - vals.length)) [.bigInt, .sNeg] ++ afterSteps (Nat.clog 2 v.length) := by
    intro vals
    simp only [proveSteps, List.filter_append, (noBranch_before _).filter, (noBranch_after _).filter, others_bits, List.length_append,
      List.length_replicate]
  have hlen : ∀ vals : List Nat, (bitsSteps vals).length = vals.length * 66 := by
    intro vals
    simp [bitsSteps, List.length_flatMap]
  rw [(C135_prove E m0 v coins p h).2, (C135_prove E m0' v' coins' p' h').2, ← hv, key, key]
  refine ⟨by simp [hv], ?_⟩
  simp only [proveSteps, List.length_append, hlen, List.length_map, List.length_replicate, hv]

/-- C135 (violated): the branches taken by `Prove` are the 64 low bits of the values and of the padding, in order: who observes them learns
the values, which the proof hides. -/
theorem C135_branches_violated {R : Ristretto F G} (E : R.Encodings) (m0 : Nat) (v : List F) (coins : Coins F) (p : Proof F G)
    (h : (prove R m0 v false coins).2 = .ok p) :
    (proveT R v coins).steps.filterMap branchOf =
      (v.map R.sNat ++ List.replicate (2 ^ Nat.clog 2 v.length - v.length) 0).flatMap fun x : Nat => (List.range 64).map fun i => x.testBit i := by
  rw [(C135_prove E m0 v coins p h).2]
  simp only [proveSteps, List.filterMap_append, (noBranch_before _).filterMap, (noBranch_after _).filterMap, branches_bits, List.nil_append,
    List.append_nil, List.length_map]

theorem flatMap_bits_length (a : List Nat) : (a.flatMap fun x => (List.range 64).map fun i => x.testBit i).length = a.length * 64 := by
  simp [List.length_flatMap]

theorem flatMap_bits_inj : ∀ {a b : List Nat}, a.length = b.length → (∀ x ∈ a, x < 2 ^ 64) → (∀ x ∈ b, x < 2 ^ 64) →
    (a.flatMap fun x => (List.range 64).map fun i => x.testBit i) <+: (b.flatMap fun x => (List.range 64).map fun i => x.testBit i) → a = b
  | [], [], _, _, _, _ => rfl
  | x :: a, y :: b, hl, ha, hb, h => by
    simp only [List.flatMap_cons] at h
    obtain ⟨t, h⟩ := h
    rw [List.append_assoc] at h
    obtain ⟨h1, h2⟩ := List.append_inj h (by simp)
    have hx : x = y := by
      refine Nat.eq_of_testBit_eq fun i => ?_
      by_cases hi : i < 64
      · have := List.map_inj_left.1 h1 i (by simpa using hi)
        exact this
      · rw [Nat.testBit_lt_two_pow ((ha x (by simp)).trans_le (Nat.pow_le_pow_right (by norm_num) (by omega))),
          Nat.testBit_lt_two_pow ((hb y (by simp)).trans_le (Nat.pow_le_pow_right (by norm_num) (by omega)))]
    rw [hx, flatMap_bits_inj (by simpa using hl) (fun z hz => ha z (by simp [hz])) (fun z hz => hb z (by simp [hz])) ⟨t, h2⟩]

/-- C135 (violated): two calls for the same number of values, all of them in the range, that make the same steps, were given the same
values. -/
theorem C135_values_violated {R : Ristretto F G} (E : R.Encodings) (m0 m0' : Nat) (v v' : List F) (coins coins' : Coins F)
    (hv : v.length = v'.length) (hr : ∀ x ∈ v, R.sNat x < 2 ^ 64) (hr' : ∀ x ∈ v', R.sNat x < 2 ^ 64)
    (p p' : Proof F G) (h : (prove R m0 v false coins).2 = .ok p) (h' : (prove R m0' v' false coins').2 = .ok p') :
    (proveT R v coins).steps = (proveT R v' coins').steps ↔ v = v' := by
  constructor
  · intro e
    have e := congrArg (List.filterMap branchOf) e
    rw [C135_branches_violated E m0 v coins p h, C135_branches_violated E m0' v' coins' p' h', hv, List.flatMap_append, List.flatMap_append] at e
    have e := (List.append_inj e (by rw [flatMap_bits_length, flatMap_bits_length]; simp [hv])).1
    have e := flatMap_bits_inj (a := v.map R.sNat) (b := v'.map R.sNat) (by simp [hv]) (by simpa using hr) (by simpa using hr')
      ⟨[], by rw [List.append_nil]; exact e⟩
    have hi : Function.Injective R.sNat := fun a b hab => by
      have := congrArg (Nat.cast (R := F)) hab
      rwa [R.cast_sNat, R.cast_sNat] at this
    exact List.map_injective_iff.2 hi e
  · rintro rfl
    rw [(C135_prove E m0 v coins p h).2, (C135_prove E m0' v coins' p' h').2]

/-! ## Counting -/

theorem count_rep (s : Step) (n : Nat) (L : List Step) : (rep n L).count s = n * L.count s := by
  simp [rep, List.count_flatten]

theorem count_rounds_mult : ∀ j h, (roundsSteps j h).count .mult + 8 = 8 * 2 ^ j + 2 * j
  | 0, _ => rfl
  | j + 1, h => by
    have := count_rounds_mult j (h + 64)
    simp only [roundsSteps, nextSteps, List.count_append, count_rep]
    simp
    rw [pow_succ]
    omega

/-- C135: how often `Prove` multiplies a point by a scalar, derives a point, and draws a scalar, for `2 ^ k` values after padding. -/
theorem C135_cost {R : Ristretto F G} (E : R.Encodings) (m0 : Nat) (v : List F) (coins : Coins F) (p : Proof F G)
    (h : (prove R m0 v false coins).2 = .ok p) (k : Nat) (hk : k = Nat.clog 2 v.length) :
    (proveT R v coins).steps.count .mult = 770 * 2 ^ k + 2 * k + 11 ∧
    (proveT R v coins).steps.count .derive = 256 * 2 ^ k + 4 ∧
    (proveT R v coins).steps.count .rand = 129 * 2 ^ k + 4 := by
  rw [(C135_prove E m0 v coins p h).2, ← hk]
  have hb : ∀ s vals, s ≠ .bigInt → s ≠ .sNeg → (∀ b, s ≠ .branch b) → (bitsSteps vals).count s = 0 := by
    intro s vals h1 h2 h3
    rw [List.count_eq_zero]
    intro hs
    simp only [bitsSteps, List.mem_flatMap, List.mem_append, List.mem_cons, List.not_mem_nil, or_false, List.mem_map] at hs
    obtain ⟨x, -, (rfl | rfl) | ⟨i, -, rfl⟩⟩ := hs
    · exact h1 rfl
    · exact h2 rfl
    · exact h3 _ rfl
  have hn : ∀ j h, (roundsSteps j h).count .derive = 0 ∧ (roundsSteps j h).count .rand = 0 := by
    intro j
    induction j with
    | zero => intro h; exact ⟨rfl, rfl⟩
    | succ j ih =>
      intro h
      obtain ⟨i1, i2⟩ := ih (h + 64)
      constructor <;> simp [roundsSteps, nextSteps, count_rep, i1, i2]
  have hm := count_rounds_mult (k + 5) 64
  have hp : 2 ^ (k + 5) = 32 * 2 ^ k := by rw [pow_add]; ring
  have h1 : 1 ≤ 2 ^ k := Nat.one_le_two_pow
  rw [hp] at hm
  simp only [proveSteps, List.count_append]
  rw [hb _ _ (by simp) (by simp) (by simp), hb _ _ (by simp) (by simp) (by simp), hb _ _ (by simp) (by simp) (by simp)]
  unfold beforeSteps afterSteps
  simp only [vectorsSteps, masksSteps, polySteps, powersSteps, tauxSteps, evalSteps, basesSteps, firstSteps, List.count_append,
    List.count_cons, List.count_nil, count_rep, hn]
  simp
  omega

/-- Proofs for three values in the range, which are padded to four. -/
theorem case_trace (a b c : Nat) (ha : a < 2 ^ 64) (hb : b < 2 ^ 64) (hc : c < 2 ^ 64) (m0 : Nat) (coins : Coins Toy.K) :
    ∃ p, (prove Toy.ris m0 [(a : Toy.K), (b : Toy.K), (c : Toy.K)] false coins).2 = .ok p := by
  obtain ⟨p, h, -⟩ := C60_nonzero_hash Toy.ris Toy.dv_ne_zero m0 [(a : Toy.K), (b : Toy.K), (c : Toy.K)] coins (by simp) (by simp)
    (by
      intro x hx
      simp only [List.mem_cons, List.not_mem_nil, or_false] at hx
      rcases hx with rfl | rfl | rfl
      · rw [toy_sNat a ha]; exact ha
      · rw [toy_sNat b hb]; exact hb
      · rw [toy_sNat c hc]; exact hc)
  exact ⟨p, h⟩

/-- 3095 multiplications for three values. -/
example (a b c : Nat) (ha : a < 2 ^ 64) (hb : b < 2 ^ 64) (hc : c < 2 ^ 64) (coins : Coins Toy.K) :
    (proveT Toy.ris [(a : Toy.K), (b : Toy.K), (c : Toy.K)] coins).steps.count .mult = 3095 := by
  obtain ⟨p, h⟩ := case_trace a b c ha hb hc 1 coins
  exact (C135_cost Toy.ris_encodings 1 _ coins p h 2 (by show 2 = Nat.clog 2 3; decide +kernel)).1

/-- 781 for one. -/
example (a : Nat) (ha : a < 2 ^ 64) (coins : Coins Toy.K) :
    (proveT Toy.ris [(a : Toy.K)] coins).steps.count .mult = 781 := by
  obtain ⟨p, h, -⟩ := C60_nonzero_hash Toy.ris Toy.dv_ne_zero 1 [(a : Toy.K)] coins (by simp) (by simp)
    (by intro x hx; rw [List.mem_singleton.1 hx, toy_sNat a ha]; exact ha)
  exact (C135_cost Toy.ris_encodings 1 _ coins p h 0 (by simp)).1

/-- Other values and other random choices: the same steps except for the branches, which differ. -/
example (coins coins' : Coins Toy.K) :
    (proveT Toy.ris [((5 : Nat) : Toy.K), ((0 : Nat) : Toy.K), ((7 : Nat) : Toy.K)] coins).steps.filter (fun s => branchOf s = none) =
      (proveT Toy.ris [((5 : Nat) : Toy.K), ((1 : Nat) : Toy.K), ((7 : Nat) : Toy.K)] coins').steps.filter (fun s => branchOf s = none) ∧
    (proveT Toy.ris [((5 : Nat) : Toy.K), ((0 : Nat) : Toy.K), ((7 : Nat) : Toy.K)] coins).steps ≠
      (proveT Toy.ris [((5 : Nat) : Toy.K), ((1 : Nat) : Toy.K), ((7 : Nat) : Toy.K)] coins').steps := by
  obtain ⟨p, h⟩ := case_trace 5 0 7 (by norm_num) (by norm_num) (by norm_num) 1 coins
  obtain ⟨p', h'⟩ := case_trace 5 1 7 (by norm_num) (by norm_num) (by norm_num) 1 coins'
  refine ⟨(C135_independent Toy.ris_encodings 1 1 _ _ coins coins' (by rfl) p p' h h').1, fun e => ?_⟩
  have h5 := toy_sNat 5 (by norm_num)
  have h0 := toy_sNat 0 (by norm_num)
  have h1 := toy_sNat 1 (by norm_num)
  have h7 := toy_sNat 7 (by norm_num)
  have := (C135_values_violated Toy.ris_encodings 1 1 _ _ coins coins' (by rfl)
    (by
      intro x hx
      simp only [List.mem_cons, List.not_mem_nil, or_false] at hx
      rcases hx with rfl | rfl | rfl
      · rw [h5]; norm_num
      · rw [h0]; norm_num
      · rw [h7]; norm_num)
    (by
      intro x hx
      simp only [List.mem_cons, List.not_mem_nil, or_false] at hx
      rcases hx with rfl | rfl | rfl
      · rw [h5]; norm_num
      · rw [h1]; norm_num
      · rw [h7]; norm_num) p p' h h').1 e
  simp at this

/-- The branches for one value. -/
example (coins : Coins Toy.K) : (proveT Toy.ris [((5 : Nat) : Toy.K)] coins).steps.filterMap branchOf =
    [true, false, true] ++ List.replicate 61 false := by
  obtain ⟨p, h, -⟩ := C60_nonzero_hash Toy.ris Toy.dv_ne_zero 1 [((5 : Nat) : Toy.K)] coins (by simp) (by simp) (by
    intro x hx
    rw [List.mem_singleton.1 hx, toy_sNat 5 (by norm_num)]; norm_num)
  rw [C135_branches_violated Toy.ris_encodings 1 _ coins p h, List.map_cons, toy_sNat 5 (by norm_num)]
  decide +kernel

/-! ## The functions of package vector by themselves -/

/-- C135: what the functions on vectors do depends on the lengths alone, and, for `SubScalar` and `ScalarPowers`, on whether the scalar is
zero; a call that fails does nothing; otherwise there is one operation for each element (for `Exp` two, for `ScalarPowers` none for the
first two). -/
theorem C135_vector (a b : List F) (c : List G) (x : F) (N M : Int) (n : Nat) :
    ((Vec.addT a b).res.IsErr → (Vec.addT a b).steps = []) ∧
    ((Vec.hadamardT a b).res.IsErr → (Vec.hadamardT a b).steps = []) ∧
    ((Vec.innerProductT a b).res.IsErr → (Vec.innerProductT a b).steps = []) ∧
    ((Vec.expT a c N M).res.IsErr → (Vec.expT a c N M).steps = []) ∧
    (∀ r, (Vec.addT a b).res = .ok r → (Vec.addT a b).steps = rep r.length [.sAdd]) ∧
    (∀ r, (Vec.hadamardT a b).res = .ok r → (Vec.hadamardT a b).steps = rep r.length [.sMul]) ∧
    (∀ r, (Vec.innerProductT a b).res = .ok r → (Vec.innerProductT a b).steps = rep b.length [.sMulAdd]) ∧
    (∀ r, (Vec.expT a c N M).res = .ok r → (Vec.expT a c N M).steps = rep a.length [.mult, .add]) ∧
    (Vec.addScalarT a x).steps = rep a.length [.sAdd] ∧ (Vec.mulScalarT a x).steps = rep a.length [.sMul] ∧
    (x ≠ 0 → (Vec.subScalarT a x).steps = .isNonZero :: rep a.length [.sSub]) ∧ (Vec.subScalarT a 0).steps = [.isNonZero] ∧
    (x ≠ 0 → (Vec.scalarPowersT x (n + 1)).steps = .isNonZero :: rep (n - 1) [.sMul]) ∧
    (Vec.scalarPowersT (0 : F) (n + 1)).steps = [.isNonZero] ∧ (Vec.scalarPowersT x 0).steps = [] := by
  refine ⟨?_, ?_, ?_, ?_, ?_, ?_, ?_, ?_, rfl, rfl, fun h => ?_, ?_, fun h => ?_, ?_, rfl⟩
  · intro h
    simp only [Vec.addT, Vec.add] at h ⊢
    split_ifs at h ⊢
    · rfl
    · exact absurd h (Res.not_isErr_ok _)
  · intro h
    simp only [Vec.hadamardT, Vec.hadamard] at h ⊢
    split_ifs at h ⊢
    · rfl
    · exact absurd h (Res.not_isErr_ok _)
  · intro h
    simp only [Vec.innerProductT, Vec.innerProduct] at h ⊢
    split_ifs at h ⊢
    · rfl
    · exact absurd h (Res.not_isErr_ok _)
  · intro h
    simp only [Vec.expT, Vec.exp] at h ⊢
    split_ifs at h ⊢
    · rfl
    · rfl
    · exact absurd h (Res.not_isErr_ok _)
  · intro r h
    simp only [Vec.addT, Vec.add] at h ⊢
    split_ifs at h ⊢ with hl
    cases h
    rw [List.length_zipWith, not_not.1 hl, Nat.min_self]
    rfl
  · intro r h
    simp only [Vec.hadamardT, Vec.hadamard] at h ⊢
    split_ifs at h ⊢ with hl
    cases h
    rw [List.length_zipWith, not_not.1 hl, Nat.min_self]
    rfl
  · intro r h
    simp only [Vec.innerProductT, Vec.innerProduct] at h ⊢
    split_ifs at h ⊢ with hl
    rw [not_not.1 hl]
    rfl
  · intro r h
    simp only [Vec.expT, Vec.exp] at h ⊢
    split_ifs at h ⊢ with hl
    rw [not_not.1 hl]
    rfl
  · simp only [Vec.subScalarT, Traced.did, if_neg h]
    rfl
  · simp [Vec.subScalarT, Traced.did]
  · simp only [Vec.scalarPowersT, Traced.did, if_neg h, Nat.add_one_ne_zero, if_false]
    rfl
  · simp [Vec.scalarPowersT, Traced.did]

/-- Vectors of equal and of unequal lengths. -/
example : (Vec.addT [(1 : Toy.K), 2, 3] [4, 5, 6]).steps = [.sAdd, .sAdd, .sAdd] ∧ (Vec.addT [(1 : Toy.K), 2] [4]).steps = [] :=
  ⟨(C135_vector [(1 : Toy.K), 2, 3] [4, 5, 6] ([] : List Toy.K) 0 0 0 0).2.2.2.2.1 _ rfl,
    (C135_vector [(1 : Toy.K), 2] [4] ([] : List Toy.K) 0 0 0 0).1 ⟨_, rfl⟩⟩

end Dusk.RP
