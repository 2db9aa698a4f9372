import Verif.Spec.Blsag
import Mathlib.Data.List.Basic
import Mathlib.Tactic.Module
import Mathlib.Tactic.Ring
/-!
# Properties of bLSAG ring signatures (C29 – C33)
-/

set_option linter.unusedSectionVars false

namespace Dusk.Blsag

variable {F G P : Type} [Field F] [AddCommGroup G] [Module F G]

theorem computeCLR_fst (R : Ristretto F G) (V : Raw F G P) (m : Bytes) (I K : P) (s c : F) :
    (computeCLR R V m I K s c).1 = link R V m I K s c := rfl

/-! ## C32: Verify -/

/-- The state of the first loop of `Verify` before index `i`. -/
structure Inv (R : Ristretto F G) (V : Raw F G P) (m : Bytes) (n : Nat) (i : Nat) (c0 : F)
    (st : List F × List P × List P × F) : Prop where
  lenC : st.1.length = n
  lenL : st.2.1.length = n
  lenR : st.2.2.1.length = n
  /-- what has been computed so far is consistent -/
  done : ∀ k < i, ∃ L Rp, st.2.1[k]? = some L ∧ st.2.2.1[k]? = some Rp ∧
    st.1[(k + 1) % n]? = some (R.sDerive (m ++ V.bytes L ++ V.bytes Rp))
  last : 0 < i → st.1[i % n]? = some st.2.2.2

theorem verifyLoop_inv (R : Ristretto F G) (V : Raw F G P) (m : Bytes) (I : P) (S : List F) (n : Nat) (c0 : F) :
    ∀ (pks : List P) (i : Nat) (st : List F × List P × List P × F), i + pks.length = n → n ≤ S.length →
      Inv R V m n i c0 st →
      ∃ st', verifyLoop R V m I S n i pks st = .ok st' ∧ Inv R V m n n c0 st' ∧
        st'.2.2.2 = around R V m I (pks.zip (S.drop i)) st.2.2.2
  | [], i, st, hi, hS, h => by
    have : i = n := by simpa using hi
    subst this
    exact ⟨st, rfl, h, rfl⟩
  | pk :: pks, i, (Cs, Ls, Rs, c), hi, hS, h => by
    simp only [List.length_cons] at hi
    have hiS : i < S.length := by omega
    unfold verifyLoop
    rw [idx_of_lt hiS, Res.bind_ok]
    dsimp only
    have hlenC := h.lenC
    have hlenL := h.lenL
    have hlenR := h.lenR
    dsimp only at hlenC hlenL hlenR
    have hn0 : 0 < n := by omega
    obtain ⟨st', e1, e2, e3⟩ := verifyLoop_inv R V m I S n c0 pks (i + 1)
      (Cs.set ((i + 1) % n) (computeCLR R V m I pk S[i] c).1, Ls.set i (computeCLR R V m I pk S[i] c).2.1,
        Rs.set i (computeCLR R V m I pk S[i] c).2.2, (computeCLR R V m I pk S[i] c).1) (by omega) hS
      ⟨by simp [hlenC], by simp [hlenL], by simp [hlenR], by
        intro k hk
        dsimp only
        by_cases hki : k = i
        · subst hki
          exact ⟨_, _, List.getElem?_set_self (by omega), List.getElem?_set_self (by omega),
            List.getElem?_set_self (by rw [hlenC]; exact Nat.mod_lt _ hn0)⟩
        · obtain ⟨L, Rp, g1, g2, g3⟩ := h.done k (by omega)
          refine ⟨L, Rp, by rw [List.getElem?_set_ne (by omega)]; exact g1, by rw [List.getElem?_set_ne (by omega)]; exact g2, ?_⟩
          rw [List.getElem?_set_ne]
          · exact g3
          · rw [Nat.mod_eq_of_lt (show k + 1 < n by omega)]
            rcases Nat.lt_or_ge (i + 1) n with h' | h'
            · rw [Nat.mod_eq_of_lt h']; omega
            · rw [show i + 1 = n by omega, Nat.mod_self]; omega, by
        intro _
        dsimp only
        exact List.getElem?_set_self (by rw [hlenC]; exact Nat.mod_lt _ hn0)⟩
    refine ⟨st', e1, e2, ?_⟩
    rw [e3, List.drop_eq_getElem_cons hiS, List.zip_cons_cons]
    rfl

theorem checkLoop_true [DecidableEq F] (R : Ristretto F G) (V : Raw F G P) (m : Bytes) (Cs : List F) (Ls Rs : List P) :
    ∀ (is : List Nat), (∀ k ∈ is, ∃ L Rp, Ls[k]? = some L ∧ Rs[k]? = some Rp ∧
      Cs[(k + 1) % Cs.length]? = some (R.sDerive (m ++ V.bytes L ++ V.bytes Rp))) →
    checkLoop R V m Cs Ls Rs is = .ok true
  | [], _ => rfl
  | k :: is, h => by
    obtain ⟨L, Rp, g1, g2, g3⟩ := h k (by simp)
    unfold checkLoop
    rw [idx_eq_ok.2 g1, Res.bind_ok, idx_eq_ok.2 g2, Res.bind_ok, idx_eq_ok.2 g3, Res.bind_ok, if_neg (by simp)]
    exact checkLoop_true R V m Cs Ls Rs is fun x hx => h x (by simp [hx])

theorem verify_eq [DecidableEq F] (R : Ristretto F G) (V : Raw F G P) (m : Bytes) (sig : RingSignature F P)
    (hn : sig.pubKeys ≠ []) (hS : sig.pubKeys.length ≤ sig.S.length) :
    verify R V m sig = .ok (decide (around R V m sig.I (sig.pubKeys.zip sig.S) sig.C = sig.C)) := by
  have hn0 : sig.pubKeys.length ≠ 0 := mt List.length_eq_zero_iff.1 hn
  obtain ⟨st, e1, e2, e3⟩ := verifyLoop_inv R V m sig.I sig.S sig.pubKeys.length sig.C sig.pubKeys 0
    (List.replicate sig.pubKeys.length (0 : F), List.replicate sig.pubKeys.length V.zero,
      List.replicate sig.pubKeys.length V.zero, sig.C) (by omega) hS
    ⟨by simp, by simp, by simp, by simp, by simp⟩
  unfold verify
  dsimp only
  rw [e1, Res.bind_ok, e2.lenC, e2.lenL, e2.lenR, if_neg (by simp), checkLoop_true, Res.bind_ok]
  · have h0 := e2.last (by omega)
    rw [Nat.mod_self] at h0
    rw [idx_eq_ok.2 h0]
    simp only [Bool.not_true, Bool.false_eq_true, if_false, Res.bind_ok]
    rw [e3, List.drop_zero]
    dsimp only
    split
    · rename_i h; rw [decide_eq_false h]
    · rename_i h; rw [not_not] at h; rw [decide_eq_true h]
  · intro k hk
    rw [e2.lenC]
    exact e2.done k (List.mem_range.1 hk)

/-- C32: for a non-empty ring with a response for every key, `Verify` returns whether the chain of challenges closes.
Responses beyond the number of keys are ignored. -/
theorem C32_verify [DecidableEq F] (R : Ristretto F G) (V : Raw F G P) (m : Bytes) (sig : RingSignature F P)
    (hn : sig.pubKeys ≠ []) (hS : sig.pubKeys.length ≤ sig.S.length) :
    ∃ b, verify R V m sig = .ok b ∧
      (b = true ↔ around R V m sig.I (sig.pubKeys.zip (sig.S.take sig.pubKeys.length)) sig.C = sig.C) := by
  refine ⟨_, verify_eq R V m sig hn hS, ?_⟩
  have e : sig.pubKeys.zip (sig.S.take sig.pubKeys.length) = sig.pubKeys.zip sig.S := by
    rw [List.zip_eq_zip_take_min (l₁ := sig.pubKeys) (l₂ := sig.S), Nat.min_eq_left hS, List.take_length]
  rw [e, decide_eq_true_eq]

/-- C32: an empty ring makes `Verify` panic. -/
theorem C32_empty [DecidableEq F] (R : Ristretto F G) (V : Raw F G P) (m : Bytes) (sig : RingSignature F P) (h : sig.pubKeys = []) :
    verify R V m sig = .panic := by
  unfold verify
  rw [h]
  rfl

theorem verifyLoop_panic (R : Ristretto F G) (V : Raw F G P) (m : Bytes) (I : P) (S : List F) (n : Nat) :
    ∀ (pks : List P) (i : Nat) (st : List F × List P × List P × F), i ≤ S.length → S.length < i + pks.length →
      verifyLoop R V m I S n i pks st = .panic
  | [], i, st, h, h' => by simp at h'; omega
  | pk :: pks, i, (Cs, Ls, Rs, c), h, h' => by
    unfold verifyLoop
    rcases Nat.lt_or_ge i S.length with hi | hi
    · rw [idx_of_lt hi, Res.bind_ok]
      exact verifyLoop_panic R V m I S n pks (i + 1) _ hi (by simp at h'; omega)
    · rw [idx_of_ge hi]
      rfl

/-- C32: fewer responses than keys make `Verify` panic. -/
theorem C32_short [DecidableEq F] (R : Ristretto F G) (V : Raw F G P) (m : Bytes) (sig : RingSignature F P)
    (h : sig.S.length < sig.pubKeys.length) : verify R V m sig = .panic := by
  unfold verify
  dsimp only
  rw [verifyLoop_panic R V m sig.I sig.S _ sig.pubKeys 0 _ (by omega) (by omega)]
  rfl

/-- C32 over group elements: with lawful operations and a ring of group elements, each step is
`Hs(m, s G + c K, s Hp(K) + c I)`. -/
theorem C32_group [DecidableEq F] {R : Ristretto F G} {V : Raw F G P} (hV : V.Lawful R) (m : Bytes) (I : G) (ring : List (G × F)) (c : F) :
    around R V m (V.inj I) (ring.map fun x => (V.inj x.1, x.2)) c = ring.foldl (fun c x => glink R m I x.1 x.2 c) c := by
  unfold around
  rw [List.foldl_map]
  congr 1
  funext c x
  simp [link, glink, hV.bytes, hV.add, hV.derive, hV.smul, hV.smulBase]

/-! ## Sign -/

/-- The challenge at distance `d` from the signer. -/
def chal (R : Ristretto F G) (V : Raw F G P) (m : Bytes) (I : P) (ring : List (P × F)) (j : Nat) (c1 : F) : Nat → F
  | 0 => c1
  | d + 1 =>
    match ring[(j + 1 + d) % ring.length]? with
    | some x => link R V m I x.1 x.2 (chal R V m I ring j c1 d)
    | none => 0

/-- The loop of `Sign` runs from the member after the signer to the signer. -/
theorem signLoop_run (R : Ristretto F G) (V : Raw F G P) (m : Bytes) (I : P) (pubKeys : List P) (sVals : List F) (j : Nat) (c1 : F)
    (n : Nat) (hn : pubKeys.length = n) (hs : sVals.length = n) (hj : j < n) :
    ∀ (r d : Nat) (cv : List F) (fuel : Nat), d + r = n - 1 → r < fuel → cv.length = n →
      (∀ e ≤ d, cv[(j + 1 + e) % n]? = some (chal R V m I (pubKeys.zip sVals) j c1 e)) →
      ∃ cv', signLoop R V m I pubKeys sVals j fuel (j + 1 + d) (cv, chal R V m I (pubKeys.zip sVals) j c1 d) =
          .ok (cv', chal R V m I (pubKeys.zip sVals) j c1 (n - 1)) ∧ cv'.length = n ∧
        ∀ e ≤ n - 1, cv'[(j + 1 + e) % n]? = some (chal R V m I (pubKeys.zip sVals) j c1 e) := by
  intro r
  induction r with
  | zero =>
    intro d cv fuel h1 h2 h3 h4
    obtain ⟨fuel, rfl⟩ : ∃ f, fuel = f + 1 := ⟨fuel - 1, by omega⟩
    have hd : d = n - 1 := by omega
    subst hd
    refine ⟨cv, ?_, h3, h4⟩
    unfold signLoop
    rw [hn]
    dsimp only
    rw [if_pos]
    rw [show j + 1 + (n - 1) = j + n by omega, Nat.add_mod_right, Nat.mod_eq_of_lt hj]
  | succ r ih =>
    intro d cv fuel h1 h2 h3 h4
    obtain ⟨fuel, rfl⟩ : ∃ f, fuel = f + 1 := ⟨fuel - 1, by omega⟩
    have hmod : ∀ a b, a < n → b < n → (j + 1 + a) % n = (j + 1 + b) % n → a = b := by
      intro a b ha hb h
      have h' : (j + 1 + a) ≡ (j + 1 + b) [MOD n] := h
      exact Nat.ModEq.eq_of_lt_of_lt (Nat.ModEq.add_left_cancel' (j + 1) h') ha hb
    have hl : (j + 1 + d) % n < n := Nat.mod_lt _ (by omega)
    have hne : (j + 1 + d) % n ≠ j := by
      intro h
      have : (j + 1 + d) % n = (j + 1 + (n - 1)) % n := by
        rw [h, show j + 1 + (n - 1) = j + n by omega, Nat.add_mod_right, Nat.mod_eq_of_lt hj]
      have := hmod _ _ (by omega) (by omega) this
      omega
    unfold signLoop
    rw [hn]
    dsimp only
    rw [if_neg hne, idx_of_lt (by omega), Res.bind_ok, idx_of_lt (by omega), Res.bind_ok]
    have hc : (computeCLR R V m I (pubKeys[(j + 1 + d) % n]'(by omega)) (sVals[(j + 1 + d) % n]'(by omega))
        (chal R V m I (pubKeys.zip sVals) j c1 d)).1 = chal R V m I (pubKeys.zip sVals) j c1 (d + 1) := by
      conv_rhs => unfold chal
      have hzl : (pubKeys.zip sVals).length = n := by simp [hn, hs]
      rw [hzl, List.getElem?_eq_getElem (by omega)]
      simp only [List.getElem_zip, computeCLR_fst]
    rw [hc]
    refine ih (d + 1) _ fuel (by omega) (by omega) (by simp [h3]) fun e he => ?_
    rw [show j + 1 + d + 1 = j + 1 + (d + 1) by omega]
    by_cases hed : e = d + 1
    · subst hed
      exact List.getElem?_set_self (by rw [h3]; exact Nat.mod_lt _ (by omega))
    · rw [List.getElem?_set_ne]
      · exact h4 e (by omega)
      · intro h
        exact hed (hmod _ _ (by omega) (by omega) h.symm)

/-- The responses before the signer's is filled in. -/
def preS (coins : Coins F) (n : Nat) : List F := (List.range n).map fun i => if i = 0 then 0 else coins.s i

/-- `Sign` with lawful operations: everything about its result. -/
theorem sign_eq {R : Ristretto F G} {V : Raw F G P} (hV : V.Lawful R) (m : Bytes) (mixin : List P) (sK : F) (coins : Coins F) :
    ∃ (C : Nat → F) (sig : RingSignature F P), sign R V m mixin sK coins = .ok sig ∧
      sig.I = V.inj (sK • R.pDerive (R.pBytes (sK • R.base))) ∧ sig.C = C 0 ∧
      sig.pubKeys = (List.replicate (mixin.length + 1) V.zero).set (coins.position % (mixin.length + 1)) (V.inj (sK • R.base)) ∧
      sig.S = (preS coins (mixin.length + 1)).set (coins.position % (mixin.length + 1))
        (-(C (coins.position % (mixin.length + 1)) * sK) + coins.alpha) ∧
      ∀ i (h1 : i < sig.pubKeys.length) (h2 : i < sig.S.length),
        C ((i + 1) % (mixin.length + 1)) = link R V m sig.I sig.pubKeys[i] sig.S[i] (C i) := by
  generalize hn : mixin.length + 1 = n
  have hn0 : 0 < n := by omega
  generalize hj : coins.position % n = j
  have hjn : j < n := by rw [← hj]; exact Nat.mod_lt _ hn0
  generalize hI : V.inj (sK • R.pDerive (R.pBytes (sK • R.base))) = I
  generalize hc1 : R.sDerive (m ++ V.bytes (V.smulBase coins.alpha) ++
    V.bytes (V.smul (V.derive (V.bytes (V.smulBase sK))) coins.alpha)) = c1
  have hIeq : V.smul (V.derive (V.bytes (V.smulBase sK))) sK = I := by
    rw [hV.smulBase, hV.bytes, hV.derive, hV.smul, hI]
  generalize hpk : (List.replicate n V.zero).set j (V.inj (sK • R.base)) = pubKeys
  have hpl : pubKeys.length = n := by rw [← hpk]; simp
  have hsl : (preS coins n).length = n := by simp [preS]
  generalize hring : pubKeys.zip (preS coins n) = ring
  obtain ⟨cv, e1, e2, e3⟩ := signLoop_run R V m I pubKeys (preS coins n) j c1 n hpl hsl hjn (n - 1) 0
    ((List.replicate n (0 : F)).set ((j + 1) % n) c1) n (by omega) (by omega) (by simp) (by
      intro e he
      have : e = 0 := by omega
      subst this
      exact List.getElem?_set_self (by simp [Nat.mod_lt _ hn0]))
  rw [hring] at e1 e3
  -- the challenge of a position
  let C : Nat → F := fun i => cv.getD i 0
  have hC : ∀ e ≤ n - 1, C ((j + 1 + e) % n) = chal R V m I ring j c1 e := by
    intro e he
    simp only [C, List.getD_eq_getElem?_getD, e3 e he, Option.getD_some]
  have hCj : C j = chal R V m I ring j c1 (n - 1) := by
    have := hC (n - 1) le_rfl
    rwa [show j + 1 + (n - 1) = j + n by omega, Nat.add_mod_right, Nat.mod_eq_of_lt hjn] at this
  have hcv0 : cv[0]? = some (C 0) := by
    rw [List.getElem?_eq_getElem (by omega)]
    simp [C, List.getD_eq_getElem?_getD, show 0 < cv.length by omega]
  refine ⟨C, ⟨I, C 0, (preS coins n).set j (-(C j * sK) + coins.alpha), pubKeys⟩, ?_, rfl, rfl, rfl, rfl, ?_⟩
  · unfold sign
    dsimp only
    rw [hn, hj, hIeq, hc1, hV.smulBase, hpk]
    show (signLoop R V m I pubKeys (preS coins n) j n (j + 1 + 0) (_, chal R V m I ring j c1 0)).bind _ = _
    rw [e1, Res.bind_ok]
    dsimp only
    rw [idx_eq_ok.2 hcv0, Res.bind_ok, hCj]
    rfl
  · dsimp only
    intro i h1 h2
    rw [hpl] at h1
    by_cases hij : i = j
    · subst hij
      have h0 := hC 0 (by omega)
      rw [Nat.add_zero] at h0
      rw [h0]
      have hpi : pubKeys[i] = V.inj (sK • R.base) := by
        simp [← hpk]
      rw [hpi, List.getElem_set_self]
      show c1 = _
      rw [← hc1]
      unfold link
      rw [← hI]
      simp only [hV.bytes, hV.add, hV.derive, hV.smul, hV.smulBase]
      congr 3
      · congr 1
        module
      · congr 1
        module
    · -- distance of `i` from the signer
      obtain ⟨d, hd, hdi⟩ : ∃ d, d < n - 1 ∧ (j + 1 + d) % n = i := by
        rcases Nat.lt_or_ge j i with h | h
        · exact ⟨i - j - 1, by omega, by rw [show j + 1 + (i - j - 1) = i by omega]; exact Nat.mod_eq_of_lt h1⟩
        · refine ⟨n - 1 - j + i, by omega, ?_⟩
          rw [show j + 1 + (n - 1 - j + i) = i + n by omega, Nat.add_mod_right, Nat.mod_eq_of_lt h1]
      have hCi : C i = chal R V m I ring j c1 d := by rw [← hdi]; exact hC d (by omega)
      have hCi1 : C ((i + 1) % n) = chal R V m I ring j c1 (d + 1) := by
        rw [← hC (d + 1) (by omega), ← hdi, Nat.mod_add_mod]
        congr 2
      rw [hCi1, hCi]
      conv_lhs => unfold chal
      have hzl : ring.length = n := by rw [← hring]; simp [hpl, hsl]
      rw [hzl, hdi]
      have hri : ring[i]? = some (pubKeys[i], (preS coins n)[i]'(by omega)) := by
        subst hring
        rw [List.getElem?_eq_getElem (by omega)]
        simp
      rw [hri]
      rw [List.getElem_set_ne (Ne.symm hij)]

theorem around_cycle (R : Ristretto F G) (V : Raw F G P) (m : Bytes) (I : P) (C : Nat → F) : ∀ (ms : List (P × F)) (i : Nat),
    (∀ j (h : j < ms.length), C (i + j + 1) = link R V m I ms[j].1 ms[j].2 (C (i + j))) →
    around R V m I ms (C i) = C (i + ms.length)
  | [], i, _ => rfl
  | x :: ms, i, h => by
    have h0 := h 0 (by simp)
    simp only [Nat.add_zero, List.getElem_cons_zero] at h0
    have := around_cycle R V m I C ms (i + 1) fun j hj => by
      have := h (j + 1) (by simp; omega)
      simp only [List.getElem_cons_succ] at this
      rw [show i + 1 + j + 1 = i + (j + 1) + 1 by omega, this, show i + 1 + j = i + (j + 1) by omega]
    unfold around at this ⊢
    rw [List.foldl_cons, ← h0, this, List.length_cons, show i + 1 + ms.length = i + (ms.length + 1) by omega]

/-- C29: what `Sign` returns is accepted, for every message, list of mixins, key, position and other random choices. -/
theorem C29_completeness [DecidableEq F] {R : Ristretto F G} {V : Raw F G P} (hV : V.Lawful R) (m : Bytes) (mixin : List P)
    (sK : F) (coins : Coins F) : ∃ sig, sign R V m mixin sK coins = .ok sig ∧ verify R V m sig = .ok true := by
  obtain ⟨C, sig, h1, h2, h3, h4, h5, h6⟩ := sign_eq hV m mixin sK coins
  have hpl : sig.pubKeys.length = mixin.length + 1 := by rw [h4]; simp
  have hsl : sig.S.length = mixin.length + 1 := by rw [h5]; simp [preS]
  refine ⟨sig, h1, ?_⟩
  rw [verify_eq R V m sig (by rintro h; rw [h] at hpl; simp at hpl) (by omega)]
  congr 1
  rw [decide_eq_true_eq, h3]
  have := around_cycle R V m sig.I (fun k => C (k % (mixin.length + 1))) (sig.pubKeys.zip sig.S) 0 (by
    intro j hj
    simp only [List.length_zip, hpl, hsl, Nat.min_self] at hj
    rw [Nat.zero_add, Nat.mod_eq_of_lt hj, h6 j (by omega) (by omega)]
    simp)
  simp only [List.length_zip, hpl, hsl, Nat.min_self, Nat.zero_add, Nat.mod_self, Nat.zero_mod] at this
  exact this

/-- C30 (violated): whatever the mixins, all keys of the ring but the signer's are the zero value. -/
theorem C30_violated {R : Ristretto F G} {V : Raw F G P} (hV : V.Lawful R) (m : Bytes) (mixin : List P) (sK : F) (coins : Coins F) :
    ∃ sig, sign R V m mixin sK coins = .ok sig ∧ sig.pubKeys.length = mixin.length + 1 ∧
      ∀ i, i < mixin.length + 1 → sig.pubKeys[i]? =
        some (if i = coins.position % (mixin.length + 1) then V.inj (sK • R.base) else V.zero) := by
  obtain ⟨C, sig, h1, h2, h3, h4, h5, h6⟩ := sign_eq hV m mixin sK coins
  refine ⟨sig, h1, by rw [h4]; simp, fun i hi => ?_⟩
  rw [h4]
  split
  · rename_i h
    rw [h, List.getElem?_set_self (by rw [← h]; simpa using hi)]
  · rename_i h
    rw [List.getElem?_set_ne (Ne.symm h), List.getElem?_replicate, if_pos hi]

/-- C30 (violated): the signature depends on the mixins only through their number. -/
theorem C30_mixins_ignored_violated (R : Ristretto F G) (V : Raw F G P) (m : Bytes) (mixin mixin' : List P) (sK : F) (coins : Coins F)
    (h : mixin.length = mixin'.length) : sign R V m mixin sK coins = sign R V m mixin' sK coins := by
  unfold sign
  rw [h]

/-- C31 (violated): the response at position 0 is zero unless the signer is at position 0; at the other positions it is the
random scalar drawn for it, and the signer's is `alpha - c sK`. -/
theorem C31_violated {R : Ristretto F G} {V : Raw F G P} (hV : V.Lawful R) (m : Bytes) (mixin : List P) (sK : F) (coins : Coins F) :
    ∃ sig c, sign R V m mixin sK coins = .ok sig ∧ sig.S.length = mixin.length + 1 ∧
      ∀ i, i < mixin.length + 1 → sig.S[i]? =
        some (if i = coins.position % (mixin.length + 1) then coins.alpha - c * sK else if i = 0 then 0 else coins.s i) := by
  obtain ⟨C, sig, h1, h2, h3, h4, h5, h6⟩ := sign_eq hV m mixin sK coins
  refine ⟨sig, C (coins.position % (mixin.length + 1)), h1, by rw [h5]; simp [preS], fun i hi => ?_⟩
  rw [h5]
  by_cases h : i = coins.position % (mixin.length + 1)
  · rw [if_pos h, h, List.getElem?_set_self (by rw [← h]; simpa [preS] using hi)]
    congr 1
    ring
  · rw [if_neg h, List.getElem?_set_ne (Ne.symm h)]
    simp [preS, hi]

/-- C33: the key image is `sK Hp(sK G)`, whatever the other inputs. -/
theorem C33_image {R : Ristretto F G} {V : Raw F G P} (hV : V.Lawful R) (m : Bytes) (mixin : List P) (sK : F) (coins : Coins F) :
    ∃ sig, sign R V m mixin sK coins = .ok sig ∧ sig.I = V.inj (sK • R.pDerive (R.pBytes (sK • R.base))) := by
  obtain ⟨C, sig, h1, h2, -⟩ := sign_eq hV m mixin sK coins
  exact ⟨sig, h1, h2⟩

/-! ## The hypotheses are satisfiable -/

/-- Raw points: group elements and one more value. -/
def toyRaw : Raw Toy.K Toy.K (Option Toy.K) where
  inj := some
  zero := none
  smulBase s := some (s • Toy.ris.base)
  smul p s := p.map (s • ·)
  add a b := match a, b with
    | some x, some y => some (x + y)
    | _, _ => none
  bytes p := match p with
    | some x => Toy.ris.pBytes x
    | none => []
  derive b := some (Toy.ris.pDerive b)

theorem toyRaw_lawful : toyRaw.Lawful Toy.ris where
  smulBase _ := rfl
  smul _ _ := rfl
  add _ _ := rfl
  bytes _ := rfl
  derive _ := rfl

example (m : Bytes) (sK : Toy.K) (coins : Coins Toy.K) :
    ∃ sig, sign Toy.ris toyRaw m [some 5, some 6] sK coins = .ok sig ∧ verify Toy.ris toyRaw m sig = .ok true :=
  C29_completeness toyRaw_lawful m _ sK coins

/-- A signer at position 2 of 3: the first response is zero and the mixins are missing. -/
example (m : Bytes) (sK alpha : Toy.K) (s : Nat → Toy.K) : ∃ sig, sign Toy.ris toyRaw m [some 5, some 6] sK ⟨2, alpha, s⟩ = .ok sig ∧
    sig.S[0]? = some 0 ∧ sig.pubKeys[0]? = some none := by
  obtain ⟨sig, c, h1, -, h2⟩ := C31_violated toyRaw_lawful m [some 5, some 6] sK ⟨2, alpha, s⟩
  obtain ⟨sig', h1', -, h3⟩ := C30_violated toyRaw_lawful m [some 5, some 6] sK ⟨2, alpha, s⟩
  rw [h1] at h1'
  cases h1'
  refine ⟨sig, h1, ?_, ?_⟩
  · rw [h2 0 (by simp)]; simp
  · rw [h3 0 (by simp)]; simp [toyRaw]

end Dusk.Blsag
