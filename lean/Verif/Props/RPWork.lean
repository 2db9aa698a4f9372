import Verif.Model.Work
import Verif.Props.RPShape
/-!
# What `Verify` computes before it returns (C123)
-/

set_option linter.unusedSectionVars false

namespace Dusk.RP

variable {F G : Type} [Field F] [AddCommGroup G] [Module F G] [DecidableEq F] [DecidableEq G]

namespace Counted

@[simp] theorem res_lift {α : Type} (r : Res α) : (lift r).res = r := rfl
@[simp] theorem res_scalar {α : Type} (a : α) : (scalar a).res = .ok a := rfl
@[simp] theorem res_mult {α : Type} (a : α) : (mult a).res = .ok a := rfl

@[simp] theorem res_bind {α β : Type} (m : Counted α) (f : α → Counted β) : (m.bind f).res = m.res.bind fun a => (f a).res := by
  unfold bind
  cases m.res <;> rfl

@[simp] theorem res_map {α β : Type} (f : α → β) : ∀ l : List α, (map f l).res = .ok (l.map f)
  | [] => rfl
  | a :: l => by simp [map, res_map f l]

/-- Sequencing after a call that returned. -/
theorem cost_bind {α β : Type} {m : Counted α} {a : α} (h : m.res = .ok a) (f : α → Counted β) :
    (m.bind f).cost = m.cost.add (f a).cost := by
  unfold bind
  rw [h]

theorem cost_bind_err {α β : Type} {m : Counted α} (h : ∀ a, m.res ≠ .ok a) (f : α → Counted β) : (m.bind f).cost = m.cost := by
  unfold bind
  cases hm : m.res with
  | ok a => exact absurd hm (h a)
  | err e => rfl
  | panic => rfl

@[simp] theorem cost_lift {α : Type} (r : Res α) : (lift r).cost = {} := rfl
@[simp] theorem cost_scalar {α : Type} (a : α) : (scalar a).cost = { scalars := 1 } := rfl
@[simp] theorem cost_mult {α : Type} (a : α) : (mult a).cost = { mults := 1 } := rfl

@[simp] theorem cost_map {α β : Type} (f : α → β) : ∀ l : List α, (map f l).cost = { scalars := l.length }
  | [] => rfl
  | a :: l => by
    rw [map, cost_bind (res_scalar _), cost_bind (res_map f l), cost_map f l]
    simp [Cost.add, Nat.add_comm]

end Counted

open Counted

@[simp] theorem res_fresh (r : Res (List F)) : (fresh r).res = r := by cases r <;> rfl
@[simp] theorem cost_fresh (a : List F) : (fresh (.ok a)).cost = { scalars := a.length } := rfl
@[simp] theorem res_gensW (l : List G) : (gensW l).res = .ok l := rfl

@[simp] theorem res_chalLoopW (R : Ristretto F G) : ∀ (hs : HashCacher) (l : List (G × G)), (chalLoopW R hs l).res = .ok (IP.chalLoop R hs l)
  | _, [] => rfl
  | hs, (a, b) :: l => by simp [chalLoopW, IP.chalLoop, res_chalLoopW R _ l]

@[simp] theorem res_sLoopW (chalSq : List F) (lgN : Nat) : ∀ (rem i : Nat) (s : List F), (sLoopW chalSq lgN rem i s).res = IP.sLoop chalSq lgN rem i s
  | 0, _, _ => rfl
  | rem + 1, i, s => by
    rw [sLoopW, IP.sLoop]
    split
    · rfl
    · simp [res_sLoopW chalSq lgN rem]

@[simp] theorem res_verifScalarsW (R : Ristretto F G) (p : IP.Proof F G) : (verifScalarsW R p).res = IP.verifScalars R p := by
  unfold verifScalarsW IP.verifScalars
  split
  · rfl
  · simp

theorem res_expLoopW : ∀ (l : List (F × G)) (acc : G), (expLoopW l acc).res = .ok (l.foldl (fun res p => res + p.1 • p.2) acc)
  | [], _ => rfl
  | q :: l, acc => by simp [expLoopW, res_expLoopW l]

@[simp] theorem res_expW (a : List F) (b : List G) (N M : Int) : (expW a b N M).res = Vec.exp a b N M := by
  unfold expW Vec.exp
  split
  · rfl
  · split
    · rfl
    · exact res_expLoopW _ _

@[simp] theorem res_sumZMTwoNW (z : F) (m : Nat) : (sumZMTwoNW z m).res = sumZMTwoN z m := by simp [sumZMTwoNW]

@[simp] theorem res_subScalarW (a : List F) (b : F) : (subScalarW a b).res = .ok (Vec.subScalar a b) := by
  unfold subScalarW Vec.subScalar
  split <;> simp

@[simp] theorem res_c9LoopW : ∀ (zs : List F) (V : List (Commitment F G)) (acc : G), (c9LoopW zs V acc).res = c9Loop zs V acc
  | [], _, _ => rfl
  | _ :: zs, _ :: Vs, acc => by simp [c9LoopW, c9Loop, res_c9LoopW zs Vs]
  | _ :: _, [], _ => rfl

theorem res_megacheckW (R : Ristretto F G) (rd : VReads) (c : F) (ip : Option (IP.Proof F G)) (mu x y z t taux w : F)
    (A Gp Hp S T1 T2 : G) (GVec HVec : List G) (V : List (Commitment F G)) :
    (megacheckW R rd c ip mu x y z t taux w A Gp Hp S T1 T2 GVec HVec V).res =
      megacheckWithC R rd c ip mu x y z t taux w A Gp Hp S T1 T2 GVec HVec V := by
  unfold megacheckW megacheckWithC
  cases ip with
  | none => rfl
  | some ip =>
    simp only [res_bind, res_verifScalarsW, res_map, res_expW, res_sumZMTwoNW, res_fresh, res_subScalarW, res_mult, res_c9LoopW, Res.bind_ok,
      List.map_id', Vec.mulScalar, Vec.addScalar]
    congr 1
    funext vs
    congr 1
    funext c1
    congr 1
    funext zAnd2
    congr 1
    funext h
    congr 1
    funext h
    congr 1
    funext c2
    congr 1
    funext c7
    congr 1
    funext c8
    congr 1
    funext c9
    split <;> rfl

/-- C123: the counting functions compute what `Verify` computes. -/
theorem C123_same (R : Ristretto F G) (rd : VReads) (p : Proof F G) (c : F) : (verifyW R rd p c).res = verifyWith R rd p c := by
  unfold verifyW verifyWith
  simp only [res_bind, res_gensW, Res.bind_ok, res_megacheckW]

/-! ## Counts -/

theorem cost_chalLoopW (R : Ristretto F G) : ∀ (hs : HashCacher) (l : List (G × G)), (chalLoopW R hs l).cost = { scalars := l.length }
  | _, [] => rfl
  | hs, (a, b) :: l => by
    rw [chalLoopW]
    rw [cost_bind (res_scalar _), cost_bind (res_chalLoopW R _ l), cost_chalLoopW R _ l]
    simp [Cost.add, Nat.add_comm]

theorem cost_sLoopW (chalSq : List F) (lgN : Nat) : ∀ (rem i : Nat) (s s' : List F), IP.sLoop chalSq lgN rem i s = .ok s' →
    (sLoopW chalSq lgN rem i s).cost = { scalars := rem }
  | 0, _, _, _, _ => rfl
  | rem + 1, i, s, s', h => by
    rw [IP.sLoop] at h
    rw [sLoopW]
    split at h
    · cases h
    · rename_i hlt
      rw [if_neg hlt]
      cases hu : idx chalSq (lgN - 1 - Nat.log2 i) with
      | err e => rw [hu] at h; cases h
      | panic => rw [hu] at h; cases h
      | ok u =>
        cases hx : idx s (i - 2 ^ Nat.log2 i) with
        | err e => rw [hu, hx] at h; cases h
        | panic => rw [hu, hx] at h; cases h
        | ok x =>
          rw [hu, hx, Res.bind_ok, Res.bind_ok] at h
          rw [cost_bind (a := u) rfl, cost_bind (a := x) rfl, cost_bind (a := x * u) rfl, cost_sLoopW chalSq lgN rem _ _ s' h]
          simp [Cost.add, Nat.add_comm]

theorem cost_verifScalarsW (R : Ristretto F G) (p : IP.Proof F G) :
    (verifScalarsW R p).cost = { scalars := if p.L.length = p.R.length then 4 * p.L.length + IP.width p.L.length else 0 } := by
  unfold verifScalarsW
  by_cases h : p.L.length = p.R.length
  · rw [if_neg (by simpa using h), if_pos h]
    obtain ⟨uSq, uInvSq, s, h1, -, -, -⟩ := IP.verifScalars_lengths R p h
    unfold IP.verifScalars at h1
    rw [if_neg (by simpa using h)] at h1
    dsimp only at h1 ⊢
    rw [cost_bind (res_chalLoopW R _ _), cost_bind (res_map _ _), cost_bind (res_map _ _), cost_bind (res_map _ _), cost_bind (res_scalar _)]
    cases hs : IP.sLoop (List.map (fun x => x * x) (IP.chalLoop R {} (p.L.zip p.R))) p.L.length (2 ^ p.L.length % 2 ^ 32 - 1) 1
        [List.foldl (fun acc x => acc * x) 1 (List.map (fun x => x⁻¹) (IP.chalLoop R {} (p.L.zip p.R)))] with
    | err e => rw [hs] at h1; cases h1
    | panic => rw [hs] at h1; cases h1
    | ok s' =>
      rw [cost_bind (by rw [res_sLoopW]; exact hs), cost_sLoopW _ _ _ _ _ _ hs, cost_chalLoopW]
      simp only [cost_map, cost_scalar, cost_lift, Cost.add, List.length_map, IP.chalLoop_length, List.length_zip, h, Nat.min_self]
      congr 1
      unfold IP.width
      split
      · rename_i hk
        rw [Nat.mod_eq_of_lt (Nat.pow_lt_pow_right (by norm_num) hk)]
        have := Nat.one_le_two_pow (n := p.R.length)
        omega
      · rename_i hk
        have : 2 ^ p.R.length % 2 ^ 32 = 0 := Nat.mod_eq_zero_of_dvd (pow_dvd_pow 2 (by omega))
        omega
  · rw [if_pos (by simpa using h), if_neg h]
    rfl

theorem cost_expLoopW : ∀ (l : List (F × G)) (acc : G), (expLoopW l acc).cost = { mults := l.length }
  | [], _ => rfl
  | q :: l, acc => by
    rw [expLoopW, cost_bind (res_mult _), cost_expLoopW l]
    simp [Cost.add, Nat.add_comm]

theorem cost_expW {a : List F} {b : List G} {N M : Int} (h : a.length = b.length) (h' : N * M ≤ a.length) :
    (expW a b N M).cost = { mults := b.length } := by
  unfold expW
  rw [if_neg (by simpa using h), if_neg (by omega), cost_expLoopW]
  simp [h]

theorem cost_expW_err {a : List F} {b : List G} {N M : Int} (h : a.length ≠ b.length) : (expW a b N M).cost = {} := by
  unfold expW
  rw [if_pos h]
  rfl

theorem cost_sumZMTwoNW (h2 : (2 : F) ≠ 0) (z : F) {m : Nat} (hm : m + 3 < 2 ^ 32) :
    (sumZMTwoNW z m).cost = { scalars := 65 * m + 67 } := by
  unfold sumZMTwoNW
  rw [cost_bind (res_fresh _), cost_bind (res_fresh _), sumZMTwoN_eq h2 z hm]
  simp only [cost_fresh, Cost.add, scalarPowers_length, sumZ_length, Nat.mod_eq_of_lt hm, nBits]
  congr 1
  omega

theorem cost_subScalarW (a : List F) (b : F) : (subScalarW a b).cost = { scalars := if b = 0 then 0 else a.length } := by
  unfold subScalarW
  split <;> simp

theorem cost_c9LoopW : ∀ (zs : List F) (V : List (Commitment F G)) (acc : G), (c9LoopW zs V acc).cost = { mults := min zs.length V.length }
  | [], _, _ => by simp [c9LoopW]
  | _ :: zs, _ :: Vs, acc => by
    rw [c9LoopW, cost_bind (res_mult _), cost_c9LoopW zs Vs]
    simp only [cost_mult, Cost.add, List.length_cons]
    congr 1
    omega
  | _ :: _, [], _ => by simp [c9LoopW]

/-- `verifyW` with one value of `M`, in terms of the generators. -/
theorem verifyW_eq (R : Ristretto F G) {m : Nat} (hlt : nBits * m < 2 ^ 32) (p : Proof F G) (c : F) :
    (verifyW R (VReads.const m) p c).cost = Cost.add { gens := 128 * m }
      (megacheckW R (VReads.const m) c p.ip p.mu (chalOf R p).x (chalOf R p).y (chalOf R p).z p.t p.taux
        (chalOf R p).w p.A (pub R (nBits * m)).B (pub R (nBits * m)).Bl p.S p.T1 p.T2 (pub R (nBits * m)).Gv (pub R (nBits * m)).Hv p.V).cost := by
  have hG : (pub R (nBits * m)).Gv.length = nBits * m := by simp [pub]
  have hH : (pub R (nBits * m)).Hv.length = nBits * m := by simp [pub]
  have hH' : (Pedersen.new R (genData ++ [1])).baseVector.compute R (nBits * m % 2 ^ 32) = ⟨genData ++ [1], (pub R (nBits * m)).Hv⟩ := by
    rw [compute_new, Nat.mod_eq_of_lt hlt]
    rfl
  unfold verifyW
  dsimp only
  rw [cost_bind (res_gensW _), cost_bind (res_gensW _), verifyChallenges_eq, newPed_eq R (by simpa [VReads.const] using hlt)]
  simp only [VReads.const] at *
  rw [hH']
  simp only [gensW, hG, hH, Cost.add, nBits]
  congr 1 <;> omega

/-- C123: without an inner product proof nothing but the generators is computed. -/
theorem C123_nil (R : Ristretto F G) (m : Nat) (hlt : 64 * m < 2 ^ 32) (p : Proof F G) (c : F) (h : p.ip = none) :
    (verifyW R (VReads.const m) p c).cost = { gens := 128 * m } := by
  rw [verifyW_eq R hlt, h]
  rfl

example (p : Proof Toy.K Toy.K) (h : p.ip = none) (c : Toy.K) : (verifyW Toy.ris (VReads.const 16) p c).cost = { gens := 2048 } :=
  C123_nil Toy.ris 16 (by norm_num) p c h

/-- C123: the work for a proof whose inner product proof has not the number of rounds that `M = m` values need: nothing, if there are
not as many `L` as `R`; otherwise the scalars for the number of rounds, computed modulo `2^32`; and then an error. -/
theorem C123_wrong_rounds (R : Ristretto F G) (m : Nat) (hm : 1 ≤ m) (hlt : 64 * m < 2 ^ 32) (p : Proof F G) (ip : IP.Proof F G)
    (hip : p.ip = some ip) (hf : ¬ Fits m ip) (c : F) :
    (verifyW R (VReads.const m) p c).res.IsErr ∧
      (verifyW R (VReads.const m) p c).cost =
        { scalars := if ip.L.length = ip.R.length then 5 * (if ip.L.length < 32 then 2 ^ ip.L.length else 1) + 4 * ip.L.length else 0
          mults := 0
          gens := 128 * m } := by
  constructor
  · rw [C123_same]
    exact (C86_shapes R m hm hlt p c).2.1 ip hip hf
  · have hG : (pub R (nBits * m)).Gv.length = nBits * m := by simp [pub]
    have hs : ∃ a b s, IP.verifScalars R ip = .ok (a, b, s) ∧ s.length = (if ip.L.length = ip.R.length then IP.width ip.L.length else 0) ∧
        s.length ≠ (pub R (nBits * m)).Gv.length := by
      rw [hG]
      by_cases hLR : ip.L.length = ip.R.length
      · obtain ⟨a, b, s, h1, -, -, h4⟩ := IP.verifScalars_lengths R ip hLR
        refine ⟨a, b, s, h1, by rw [h4, if_pos hLR], ?_⟩
        rw [h4]
        unfold IP.width nBits
        split
        · exact fun h => hf ⟨hLR, h⟩
        · omega
      · refine ⟨[], [], [], by simp [IP.verifScalars, hLR], by rw [if_neg hLR]; rfl, ?_⟩
        unfold nBits
        simp
        omega
    obtain ⟨a, b, s, h1, h4, hs⟩ := hs
    rw [verifyW_eq R hlt, hip]
    unfold megacheckW
    dsimp only
    rw [cost_bind (by rw [res_verifScalarsW]; exact h1), cost_bind (res_map _ _), cost_bind (res_map _ _), cost_bind (res_map _ _),
      cost_bind (res_map _ _), cost_bind_err, cost_expW_err (by simpa using hs), cost_verifScalarsW]
    · simp only [cost_map, Cost.add, List.length_map, h4, Nat.add_zero, Nat.zero_add]
      rw [Cost.mk.injEq]
      refine ⟨?_, rfl, rfl⟩
      unfold IP.width
      split
      · generalize (if ip.L.length < 32 then 2 ^ ip.L.length else 1) = w
        omega
      · rfl
    · intro a
      rw [res_expW, Vec.exp, if_pos (by simpa using hs)]
      simp

/-- C123: the work for a proof with the right number of rounds, `M = m`: linear in `m`. -/
theorem C123_right_rounds (R : Ristretto F G) (m : Nat) (hlt : 64 * m < 2 ^ 32) (p : Proof F G) (ip : IP.Proof F G)
    (hip : p.ip = some ip) (hk : ip.L.length < 32) (hf : Fits m ip) (c : F) :
    (verifyW R (VReads.const m) p c).cost =
      { scalars := 707 * m + 4 * ip.L.length + 67 + (if (chalOf R p).z = 0 then 0 else 64 * m)
        mults := 2 * ip.L.length + if m ≤ p.V.length then 129 * m + 8 else 128 * m + p.V.length + 6
        gens := 128 * m } := by
  have hlt' : nBits * m < 2 ^ 32 := hlt
  have hG : (pub R (nBits * m)).Gv.length = nBits * m := by simp [pub]
  have hH : (pub R (nBits * m)).Hv.length = nBits * m := by simp [pub]
  obtain ⟨a, b, s, h1, h2, h3, h4⟩ := IP.verifScalars_lengths R ip hf.1
  have hw : IP.width ip.L.length = 64 * m := by rw [IP.width, if_pos hk, hf.2]
  have hs : s.length = nBits * m := by rw [h4, hw, nBits]
  obtain ⟨hs3, hs0⟩ := small hlt'
  rw [verifyW_eq R hlt, hip]
  unfold megacheckW
  dsimp only
  rw [cost_bind (by rw [res_verifScalarsW]; exact h1), cost_bind (res_map _ _), cost_bind (res_map _ _), cost_bind (res_map _ _),
    cost_bind (res_map _ _), cost_bind (by rw [res_expW, exp_eq (by simp [hs, hG]) (by simp [hs, hG])]), cost_bind (res_map _ _),
    cost_bind (by rw [res_sumZMTwoNW, show (VReads.const m).sum = m from rfl, sumZMTwoN_eq R.two_ne_zero _ hs3]),
    sub_eq (by simp [hs, sumZ_length]), cost_bind (res_fresh _), cost_bind (res_fresh _),
    show nBits * (VReads.const m).hpf % 2 ^ 32 = nBits * m from Nat.mod_eq_of_lt hlt', show (VReads.const m).sum = m from rfl,
    show (VReads.const m).zM % 2 ^ 32 = m from Nat.mod_eq_of_lt hs0,
    hadamard_eq (by simp [hs, sumZ_length, scalarPowers_length]), cost_bind (res_fresh _), cost_bind (res_subScalarW _ _),
    cost_bind (res_map _ _), cost_bind (by rw [res_expW, subScalar_eq, exp_eq (by simp [hs, hH, sumZ_length, scalarPowers_length])
      (by simp [hs, hH, sumZ_length, scalarPowers_length])]),
    cost_bind (res_mult _), cost_bind (res_mult _), cost_bind (res_mult _), cost_bind (res_mult _),
    cost_bind (by rw [res_expW, exp_eq (by simp [h2]) (by simp [h2])]), cost_bind (res_mult _),
    cost_bind (by rw [res_expW, exp_eq (by simp [h3, hf.1]) (by simp [h3, hf.1])]), cost_bind (res_mult _),
    cost_bind (res_fresh _), cost_bind (res_map _ _), cost_verifScalarsW, if_pos hf.1, hw,
    cost_expW (by simp [hs, hG]) (by simp [hs, hG]), cost_sumZMTwoNW R.two_ne_zero _ hs3,
    cost_expW (by simp [subScalar_eq, hs, hH, sumZ_length, scalarPowers_length])
      (by simp [subScalar_eq, hs, hH, sumZ_length, scalarPowers_length]),
    cost_expW (by simp [h2]) (by simp [h2]), cost_expW (by simp [h3, hf.1]) (by simp [h3, hf.1])]
  by_cases hV : m ≤ p.V.length
  · rw [cost_bind (by rw [res_c9LoopW, c9Loop_eq _ _ _ (by simpa [scalarPowers_length] using hV)]), cost_bind (res_mult _), cost_bind (res_mult _),
      cost_c9LoopW, apply_ite Counted.cost, cost_lift, cost_lift, ite_self, if_pos hV]
    simp only [cost_map, cost_mult, cost_fresh, cost_subScalarW, subScalar_eq, List.length_map, List.length_reverse, scalarPowers_length, hG, hH,
      hs, List.length_zipWith, had, vsub, sumZ_length, Cost.add, nBits]
    have hLR := hf.1
    clear hs h4 hw h1 hG hH hip hf h2 h3 hs3 hs0 hlt' hlt
    simp only [Nat.min_self, Nat.zero_add, Nat.add_zero, ← hLR]
    generalize ip.L.length = k
    generalize (chalOf R p).z = z
    generalize p.V.length = l at *
    rw [Cost.mk.injEq]
    refine ⟨?_, by omega, rfl⟩
    generalize (if z = 0 then 0 else 64 * m) = e
    omega
  · rw [cost_bind_err (by rw [res_c9LoopW, c9Loop_panic _ _ _ (by simpa [scalarPowers_length] using hV)]; simp), cost_c9LoopW, if_neg hV]
    simp only [cost_map, cost_mult, cost_fresh, cost_subScalarW, subScalar_eq, List.length_map, List.length_reverse, scalarPowers_length, hG, hH,
      hs, List.length_zipWith, had, vsub, sumZ_length, Cost.add, nBits]
    have hLR := hf.1
    clear hs h4 hw h1 hG hH hip hf h2 h3 hs3 hs0 hlt' hlt
    simp only [Nat.min_self, Nat.zero_add, Nat.add_zero, ← hLR]
    generalize ip.L.length = k
    generalize (chalOf R p).z = z
    generalize p.V.length = l at *
    rw [Cost.mk.injEq]
    refine ⟨?_, by omega, rfl⟩
    generalize (if z = 0 then 0 else 64 * m) = e
    omega

/-- Six rounds are right for `M = 1`; five are not, nor are forty. -/
example (V : Commitment Toy.K Toy.K) (c : Toy.K) :
    (verifyW Toy.ris (VReads.const 1) ⟨[V], 1, 1, 1, 1, 0, 0, 0, some ⟨List.replicate 6 1, List.replicate 6 1, 0, 0⟩⟩ c).cost.mults = 149 := by
  rw [C123_right_rounds Toy.ris 1 (by norm_num) _ _ rfl (by simp) ⟨rfl, by simp⟩]
  simp
example (c : Toy.K) :
    (verifyW Toy.ris (VReads.const 1) ⟨[], 1, 1, 1, 1, 0, 0, 0, some ⟨List.replicate 5 1, List.replicate 5 1, 0, 0⟩⟩ c).cost = ⟨180, 0, 128⟩ ∧
    (verifyW Toy.ris (VReads.const 1) ⟨[], 1, 1, 1, 1, 0, 0, 0, some ⟨List.replicate 40 1, List.replicate 40 1, 0, 0⟩⟩ c).cost = ⟨165, 0, 128⟩ := by
  rw [(C123_wrong_rounds Toy.ris 1 le_rfl (by norm_num) _ _ rfl (by simp [Fits]) c).2,
    (C123_wrong_rounds Toy.ris 1 le_rfl (by norm_num) _ _ rfl (by simp [Fits]) c).2]
  simp

theorem flatMap_length {α : Type} {n : Nat} (f : α → Bytes) : ∀ l : List α, (∀ a, (f a).length = n) → (l.flatMap f).length = n * l.length
  | [], _ => by simp
  | a :: l, h => by
    rw [List.flatMap_cons, List.length_append, h, flatMap_length f l h, List.length_cons, Nat.mul_succ, Nat.add_comm]

/-- The bytes of a proof. -/
theorem encoding_length {R : Ristretto F G} (E : R.Encodings) (p : Proof F G) (ip : IP.Proof F G) (h : ip.L.length = ip.R.length) :
    (outerEncoding R p true ++ IP.encoding R ip).length = 292 + 32 * p.V.length + 64 * ip.L.length := by
  have h1 := flatMap_length (n := 32) (fun c : Commitment F G => R.pBytes c.value) p.V fun _ => E.pBytes_length _
  have h2 := flatMap_length (n := 64) (fun x : G × G => R.pBytes x.1 ++ R.pBytes x.2) (ip.L.zip ip.R) fun _ => by
    simp [E.pBytes_length]
  unfold outerEncoding IP.encoding
  simp only [if_true, List.length_append, E.pBytes_length, E.sBytes_length, h1, h2, be32_length, List.length_zip, h, Nat.min_self]
  omega

/-- C123 (violated): Expected: what `Verify` computes is bounded by the size of the proof and `M`. For every number of rounds `k < 32`
that is not the one needed, a proof of `292 + 32·|V| + 64·k` bytes that `Decode` accepts makes `Verify` write `5·2^k + 4·k` scalars
before it returns an error. -/
theorem C123_exponential_violated {R : Ristretto F G} (E : R.Encodings) (m : Nat) (hm : 1 ≤ m) (hlt : 64 * m < 2 ^ 32) (recv p : Proof F G)
    (ip : IP.Proof F G) (hip : p.ip = some ip) (hk : ip.L.length < 32) (hR : ip.L.length = ip.R.length) (hn : 2 ^ ip.L.length ≠ 64 * m)
    (hV : p.V.length < 2 ^ 32) (r : Reader) (hf : r.flat = outerEncoding R p true ++ IP.encoding R ip) (he : r.fin = .eof) :
    r.flat.length = 292 + 32 * p.V.length + 64 * ip.L.length ∧
    ∃ q, recv.decode R true r = .ok (q, ⟨[], .eof⟩) ∧ ∀ c, (verifyW R (VReads.const m) q c).res.IsErr ∧
      (verifyW R (VReads.const m) q c).cost = { scalars := 5 * 2 ^ ip.L.length + 4 * ip.L.length, mults := 0, gens := 128 * m } := by
  refine ⟨by rw [hf, encoding_length E p ip hR], _,
    C66_roundtrip E recv p ip hip true hV hR (by omega) [] (.inl rfl) r (by simpa using hf) he, fun c => ?_⟩
  have h := C123_wrong_rounds R m hm hlt (received recv p true) ip hip (fun h => hn h.2) c
  rwa [if_pos hR, if_pos hk] at h

/-- In a fresh process (`M = 1`), 2276 bytes without commitment: 10737418364 scalars of 32 bytes. -/
example (recv : Proof Toy.K Toy.K) (r : Reader)
    (hf : r.flat = outerEncoding Toy.ris ⟨[], 1, 1, 1, 1, 0, 0, 0, some ⟨List.replicate 31 1, List.replicate 31 1, 0, 0⟩⟩ true ++
      IP.encoding Toy.ris ⟨List.replicate 31 1, List.replicate 31 1, 0, 0⟩) (he : r.fin = .eof) :
    r.flat.length = 2276 ∧ ∃ q, recv.decode Toy.ris true r = .ok (q, ⟨[], .eof⟩) ∧
      ∀ c, (verifyW Toy.ris (VReads.const 1) q c).res.IsErr ∧
        (verifyW Toy.ris (VReads.const 1) q c).cost = { scalars := 10737418364, mults := 0, gens := 128 } := by
  have := C123_exponential_violated Toy.ris_encodings 1 le_rfl (by norm_num) recv
    ⟨[], 1, 1, 1, 1, 0, 0, 0, some ⟨List.replicate 31 1, List.replicate 31 1, 0, 0⟩⟩ _ rfl (by simp) rfl (by simp) (by simp) r hf he
  simpa using this

theorem gens_bind {α β : Type} {m : Counted α} {f : α → Counted β} (h : m.cost.gens = 0) (h' : ∀ a, (f a).cost.gens = 0) :
    (m.bind f).cost.gens = 0 := by
  unfold Counted.bind
  cases m.res with
  | ok a => simp [Cost.add, h, h']
  | err e => exact h
  | panic => exact h

theorem gens_expW (a : List F) (b : List G) (N M : Int) : (expW a b N M).cost.gens = 0 := by
  unfold expW
  split
  · rfl
  · split
    · rfl
    · rw [cost_expLoopW]

theorem gens_fresh (r : Res (List F)) : (fresh r).cost.gens = 0 := by cases r <;> rfl

theorem gens_sumZMTwoNW (z : F) (m : Nat) : (sumZMTwoNW z m).cost.gens = 0 :=
  gens_bind (gens_fresh _) fun _ => gens_bind (gens_fresh _) fun _ => gens_fresh _

theorem gens_map {α β : Type} (f : α → β) (l : List α) : (Counted.map f l).cost.gens = 0 := by rw [cost_map]

theorem gens_megacheckW (R : Ristretto F G) (rd : VReads) (c : F) (ip : Option (IP.Proof F G)) (mu x y z t taux w : F)
    (A Gp Hp S T1 T2 : G) (GVec HVec : List G) (V : List (Commitment F G)) :
    (megacheckW R rd c ip mu x y z t taux w A Gp Hp S T1 T2 GVec HVec V).cost.gens = 0 := by
  unfold megacheckW
  cases ip with
  | none => rfl
  | some ip =>
    refine gens_bind (by rw [cost_verifScalarsW]) fun _ => gens_bind (gens_map _ _) fun _ => gens_bind (gens_map _ _) fun _ =>
      gens_bind (gens_map _ _) fun _ => gens_bind (gens_map _ _) fun _ => gens_bind (gens_expW _ _ _ _) fun _ =>
      gens_bind (gens_map _ _) fun _ => gens_bind (gens_sumZMTwoNW _ _) fun _ => gens_bind (gens_fresh _) fun _ =>
      gens_bind (gens_fresh _) fun _ => gens_bind (gens_fresh _) fun _ => gens_bind (by rw [cost_subScalarW]) fun _ =>
      gens_bind (gens_map _ _) fun _ => gens_bind (gens_expW _ _ _ _) fun _ => gens_bind rfl fun _ => gens_bind rfl fun _ =>
      gens_bind rfl fun _ => gens_bind rfl fun _ => gens_bind (gens_expW _ _ _ _) fun _ => gens_bind rfl fun _ =>
      gens_bind (gens_expW _ _ _ _) fun _ => gens_bind rfl fun _ => gens_bind (gens_fresh _) fun _ => gens_bind (gens_map _ _) fun _ =>
      gens_bind (by rw [cost_c9LoopW]) fun _ => gens_bind rfl fun _ => gens_bind rfl fun _ => ?_
    split <;> rfl

/-- C123 (violated): Expected: what `Verify` computes does not depend on earlier calls. A failed `Prove` on `n > 16` values leaves `M = n`,
and then `Verify` computes `128·n` generators, for every proof, until the next call of `Prove`. -/
theorem C123_failed_prove_violated (R : Ristretto F G) (m : Nat) (v : List F) (debug : Bool) (coins : Coins F) (hv : 16 < v.length)
    (hlt : 64 * v.length < 2 ^ 32) (p : Proof F G) (c : F) :
    (prove R m v debug coins).2.IsErr ∧
      (verifyW R (VReads.const (prove R m v debug coins).1) p c).cost.gens = 128 * v.length := by
  have hM : (prove R m v debug coins).1 = v.length := by
    show nextM m v.length = v.length
    unfold nextM maxM
    rw [if_neg (by omega), if_pos hv]
  refine ⟨?_, ?_⟩
  · unfold prove proveWith
    dsimp only
    rw [if_neg (by omega), if_pos]
    · exact Res.isErr_err _
    · show (Reads.const v.length (nextM m v.length)).check > maxM
      simp only [Reads.const, maxM]
      exact hv
  · rw [hM, verifyW_eq R hlt]
    simp [Cost.add, gens_megacheckW]

example (p : Proof Toy.K Toy.K) (coins : Coins Toy.K) (c : Toy.K) :
    (prove Toy.ris 1 (List.replicate 1000000 (5 : Toy.K)) false coins).2.IsErr ∧
      (verifyW Toy.ris (VReads.const (prove Toy.ris 1 (List.replicate 1000000 (5 : Toy.K)) false coins).1) p c).cost.gens = 128000000 := by
  have h := C123_failed_prove_violated Toy.ris 1 (List.replicate 1000000 (5 : Toy.K)) false coins
    (by rw [List.length_replicate]; norm_num) (by rw [List.length_replicate]; norm_num) p c
  rwa [List.length_replicate] at h

end Dusk.RP
