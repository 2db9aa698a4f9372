import Verif.Lemmas.InnerProduct
import Verif.Lemmas.Pow2
import Verif.Lemmas.IO
/-!
# C53 – C57: inner product proofs
-/

set_option linter.unusedSectionVars false

namespace Dusk.IP

variable {F G : Type} [Field F] [AddCommGroup G] [Module F G] [DecidableEq F]

/-! ## C53 -/

/-- C53: for vectors of length `2^k`, `Generate` succeeds, and if no challenge is zero `Verify` accepts the proof for
`P = <a,G> + <b ∘ h',H> + <a,b>Q` and for no other point. -/
theorem C53_completeness [DecidableEq G] (R : Ristretto F G) (Q : G) (k : Nat) (hk : k < 32)
    (a b hpf : List F) (Gv Hv : List G) (ha : a.length = 2 ^ k) (hb : b.length = 2 ^ k)
    (hg : Gv.length = 2 ^ k) (hh : Hv.length = 2 ^ k) (hf : 2 ^ k ≤ hpf.length) :
    ∃ p : Proof F G, generate R Gv Hv a b hpf Q = .ok p ∧ p.L.length = k ∧ p.R.length = k ∧
      ((∀ u ∈ challenges R p.L p.R, u ≠ 0) → ∀ (n : Int) (P : G), n ≤ 2 ^ k →
        verify R p Gv Hv hpf Q P n = .ok (decide (P = commitPoint Gv Hv hpf Q a b))) := by
  obtain ⟨p, h1, h2, h3, h4⟩ := generate_eq R Q k hk a b hpf Gv Hv ha hb hg hh hf
  refine ⟨p, h1, h2, h3, fun hnz n P hn => ?_⟩
  have hpos : (0 : Int) < 2 ^ k := by positivity
  rw [verify_eq R p Gv Hv hpf Q P n k hk h2 h3 hg hh hf (by omega)]
  rw [← chals_eq] at hnz
  have h5 := h4 hnz
  congr 1
  rw [decide_eq_decide]
  unfold VerEq at h5 ⊢
  rw [h5, add_assoc, add_assoc]
  constructor
  · intro h; exact (add_right_cancel h).symm
  · rintro rfl; rfl

/-- The hypotheses of `C53_completeness` are met, with no zero challenge, by the concrete instance, for every `k`. -/
example (k : Nat) (hk : k < 32) : ∃ p : Proof Toy.K Toy.K,
    generate Toy.ris (List.replicate (2 ^ k) 2) (List.replicate (2 ^ k) 3) (List.replicate (2 ^ k) 5)
      (List.replicate (2 ^ k) 7) (List.replicate (2 ^ k) 11) 13 = .ok p ∧
    verify Toy.ris p (List.replicate (2 ^ k) 2) (List.replicate (2 ^ k) 3) (List.replicate (2 ^ k) 11) 13
      (commitPoint (F := Toy.K) (List.replicate (2 ^ k) 2) (List.replicate (2 ^ k) 3) (List.replicate (2 ^ k) 11) 13
        (List.replicate (2 ^ k) 5) (List.replicate (2 ^ k) 7)) 1 = .ok true := by
  obtain ⟨p, h1, _, _, h4⟩ := C53_completeness Toy.ris 13 k hk (List.replicate (2 ^ k) 5)
    (List.replicate (2 ^ k) 7) (List.replicate (2 ^ k) 11) (List.replicate (2 ^ k) 2)
    (List.replicate (2 ^ k) 3) (by simp) (by simp) (by simp) (by simp) (by simp)
  refine ⟨p, h1, ?_⟩
  have hpos : (0 : Int) < 2 ^ k := by positivity
  rw [h4 ?_ 1 _ (by omega)]
  · rw [decide_eq_true rfl]
  · intro u hu
    simp only [challenges, List.mem_map] at hu
    obtain ⟨j, _, rfl⟩ := hu
    exact Toy.dv_ne_zero _

/-! ## C54 -/

/-- C54: the values returned by `VerifScalars` for `k < 32` rounds. -/
theorem C54_scalars (R : Ristretto F G) (p : Proof F G) (h : p.L.length = p.R.length) (hk : p.L.length < 32) :
    let us := challenges R p.L p.R
    verifScalars R p = .ok (us.map fun u => u ^ 2, us.map fun u => (u ^ 2)⁻¹,
      (List.range (2 ^ p.L.length)).map (weight us)) := by
  have hlen : (chals R p).length = p.L.length := by simp [chals, chalLoop_length, h]
  rw [verifScalars_eq R p h hk, sVec_eq, hlen, chals_eq]
  simp only [pow_two, mul_inv]

/-- C54: reversing the weights inverts each of them. -/
theorem C54_reverse (us : List F) (i : Nat) (hi : i < 2 ^ us.length) :
    weight us (2 ^ us.length - 1 - i) = (weight us i)⁻¹ := by
  unfold weight
  rw [← Finset.prod_inv_distrib]
  apply Finset.prod_congr rfl
  intro j hj
  have hj : j < us.length := Finset.mem_range.1 hj
  have : (2 ^ us.length - 1 - i).testBit (us.length - 1 - j) = !(i.testBit (us.length - 1 - j)) := by
    rw [show 2 ^ us.length - 1 - i = 2 ^ us.length - (i + 1) by omega, Nat.testBit_two_pow_sub_succ hi]
    have : us.length - 1 - j < us.length := by omega
    simp [this]
  rw [this]
  cases i.testBit (us.length - 1 - j) <;> simp

/-- C54: a proof with lists of different lengths gives nil vectors. -/
theorem C54_mismatch (R : Ristretto F G) (p : Proof F G) (h : p.L.length ≠ p.R.length) :
    verifScalars R p = .ok ([], [], []) := by
  simp [verifScalars, h]

/-- C54: from 32 rounds on the loop bound, a `uint32`, is zero and a single weight is returned. -/
theorem C54_overflow (R : Ristretto F G) (p : Proof F G) (h : p.L.length = p.R.length) (hk : 32 ≤ p.L.length) :
    ∃ uSq uInvSq s, verifScalars R p = .ok (uSq, uInvSq, s) ∧ s.length = 1 :=
  ⟨_, _, _, verifScalars_overflow R p h hk, rfl⟩

example : ∃ p : Proof Toy.K Toy.K, p.L.length = p.R.length ∧ p.L.length < 32 ∧ 0 < p.L.length :=
  ⟨⟨[1, 2], [3, 4], 5, 6⟩, rfl, by decide, by decide⟩
example : ∃ p : Proof Toy.K Toy.K, p.L.length ≠ p.R.length := ⟨⟨[1], [], 5, 6⟩, by decide⟩

/-! ## C55 -/

theorem exp_ok {a : List F} {g : List G} {N M : Int} {e : G} (h : Vec.exp a g N M = .ok e) :
    a.length = g.length ∧ N * M ≤ a.length := by
  unfold Vec.exp at h
  split at h
  · cases h
  · split at h
    · cases h
    · omega

theorem mulFactors_ok {v f r : List F} (h : mulFactors v f = .ok r) :
    v.length ≤ f.length ∧ r.length = v.length := by
  by_cases hl : v.length ≤ f.length
  · rw [mulFactors_eq _ _ hl] at h
    cases h
    refine ⟨hl, ?_⟩
    rw [had_length]; omega
  · rw [mulFactors_panic _ _ (by omega)] at h
    cases h

theorem splitNil_cases {α : Type} (x : List α) (n : Nat) :
    splitNil x n = ([], []) ∨ (splitNil x n = (x.take n, x.drop n) ∧ n < x.length) := by
  unfold splitNil Vec.split
  by_cases h : x.length = 0
  · left; simp [h]
  · rw [if_neg h]
    by_cases h2 : n ≥ x.length % 2 ^ 32
    · left; rw [if_pos h2]
    · right
      rw [if_neg h2]
      exact ⟨rfl, by have := Nat.mod_le x.length (2 ^ 32); omega⟩

theorem splitNil_lengths {α : Type} {x : List α} {n : Nat} (hn : 1 ≤ n)
    (h : n ≤ (splitNil x n).1.length ∨ n ≤ (splitNil x n).2.length) :
    (splitNil x n).1.length = n ∧ (splitNil x n).2.length + n = x.length := by
  rcases splitNil_cases x n with h' | ⟨h', hl⟩
  · rw [h'] at h; simp at h; omega
  · rw [h']; simp; omega

/-- C55: for a power of two `2^k ≥ 2`, a proof is returned only if all lengths agree and there are enough factors. -/
theorem C55_lengths (R : Ristretto F G) (Gv Hv : List G) (a b hpf : List F) (Q : G) (k : Nat) (hk : 1 ≤ k)
    (hk' : k < 32) (hg : Gv.length = 2 ^ k) :
    (∃ p, generate R Gv Hv a b hpf Q = .ok p) ↔
      a.length = Gv.length ∧ b.length = Gv.length ∧ Hv.length = Gv.length ∧ Gv.length ≤ hpf.length := by
  constructor
  · rintro ⟨p, h⟩
    have hlt : 2 ^ k < 2 ^ 32 := Nat.pow_lt_pow_right (by norm_num) hk'
    obtain ⟨j, rfl⟩ : ∃ j, k = j + 1 := ⟨k - 1, by omega⟩
    have hpos : 1 ≤ 2 ^ j := Nat.one_le_two_pow
    have h2 : 2 ^ (j + 1) / 2 = 2 ^ j := by rw [pow_succ]; omega
    have hdbl : 2 ^ (j + 1) = 2 ^ j + 2 ^ j := by rw [pow_succ]; omega
    unfold generate at h
    rw [hg, Nat.mod_eq_of_lt hlt] at h
    simp only [isPower2_two_pow hk', not_true_eq_false, if_false] at h
    rw [if_pos (by omega), h2] at h
    obtain ⟨r, h, _⟩ := Res.bind_eq_ok.1 h
    unfold firstRound at h
    simp only [Res.bind_eq_ok] at h
    generalize hm : 2 ^ j = m at h hpos hdbl
    have hgs : splitNil Gv m = (Gv.take m, Gv.drop m) := by
      rcases splitNil_cases Gv m with h' | ⟨h', _⟩
      · unfold splitNil Vec.split at h'
        rw [hg, Nat.mod_eq_of_lt hlt, if_neg (by omega), if_neg (by omega)] at h'
        simp only [Prod.mk.injEq] at h'
        have h'' := congrArg List.length h'.1
        simp only [List.length_take, List.length_nil] at h''
        omega
      · exact h'
    obtain ⟨cR, _, e1, he1, x, hx, e2, he2, e4, he4, y, hy, e5, he5, _⟩ := h
    have l1 := exp_ok he1
    have l2 := exp_ok he2
    have l4 := exp_ok he4
    have l5 := exp_ok he5
    have m1 := mulFactors_ok hx
    have m2 := mulFactors_ok hy
    rw [hgs] at l1 l4
    simp only [List.length_drop, List.length_take, mul_one] at l1 l2 l4 l5 m2
    have sa := splitNil_lengths (x := a) hpos (Or.inl (by omega))
    have sb := splitNil_lengths (x := b) hpos (Or.inr (by omega))
    have sh := splitNil_lengths (x := Hv) hpos (Or.inl (by omega))
    refine ⟨?_, ?_, ?_, ?_⟩ <;> omega
  · rintro ⟨h1, h2, h3, h4⟩
    obtain ⟨p, hp, _⟩ := generate_eq R Q k hk' a b hpf Gv Hv (by omega) (by omega) hg (by omega) (by omega)
    exact ⟨p, hp⟩

/-- `isPower2` (C56) in terms of natural numbers. -/
theorem isPower2_iff (n : UInt32) : isPower2 n = true ↔ n.toNat = 0 ∨ ∃ k, n.toNat = 2 ^ k := by
  unfold isPower2
  rw [beq_iff_eq, ← UInt32.toNat_inj, UInt32.toNat_and]
  by_cases h0 : n.toNat = 0
  · simp [h0]
  · have h1 : (n - 1).toNat = n.toNat - 1 := by
      rw [UInt32.toNat_sub_of_le]
      · rfl
      · rw [UInt32.le_iff_toNat_le]; exact Nat.one_le_iff_ne_zero.2 h0
    rw [h1]
    change n.toNat &&& (n.toNat - 1) = 0 ↔ _
    rw [Nat.and_sub_one_eq_zero_iff_isPowerOfTwo h0]
    simp [Nat.isPowerOfTwo, h0]

/-- C55: a number of generators that is neither zero nor a power of two gives an error. -/
theorem C55_not_power (R : Ristretto F G) (Gv Hv : List G) (a b hpf : List F) (Q : G)
    (hlt : Gv.length < 2 ^ 32) (h0 : Gv.length ≠ 0) (hp : ∀ k, Gv.length ≠ 2 ^ k) :
    (generate R Gv Hv a b hpf Q).IsErr := by
  have : ¬ (isPower2 (UInt32.ofNat (Gv.length % 2 ^ 32)) = true) := by
    rw [isPower2_iff, UInt32.toNat_ofNat', Nat.mod_mod, Nat.mod_eq_of_lt hlt]
    rintro (h | ⟨k, h⟩)
    · exact h0 h
    · exact hp k h
  simp only [generate]
  rw [if_pos this]
  exact Res.isErr_err _

/-- C55: without generators no proof is ever returned. -/
theorem C55_empty_never (R : Ristretto F G) (Hv : List G) (a b hpf : List F) (Q : G) (p : Proof F G) :
    generate R [] Hv a b hpf Q ≠ .ok p := by
  intro h
  unfold generate at h
  have h0 : isPower2 (UInt32.ofNat (([] : List G).length % 2 ^ 32)) = true := by
    rw [List.length_nil]; decide
  simp only [h0, not_true_eq_false, if_false] at h
  rw [if_pos (by simp)] at h
  obtain ⟨r, h, h'⟩ := Res.bind_eq_ok.1 h
  unfold firstRound at h
  simp only [Res.bind_eq_ok] at h
  obtain ⟨cR, _, e1, he1, x, hx, e2, he2, e4, he4, y, hy, e5, he5, h⟩ := h
  cases h
  have hl := (exp_ok he1).1
  have : (splitNil ([] : List G) (([] : List G).length % 2 ^ 32 / 2)).2 = [] := rfl
  rw [this] at hl
  have ha : (splitNil a (([] : List G).length % 2 ^ 32 / 2)).1 = [] := List.eq_nil_of_length_eq_zero hl
  rw [genLoop, dif_neg (by simp), ha] at h'
  simp [finish] at h'

/-- C55: with all vectors empty it panics. -/
theorem C55_empty_panics (R : Ristretto F G) (hpf : List F) (Q : G) :
    generate R [] [] [] [] hpf Q = .panic := by
  have h0 : isPower2 (UInt32.ofNat (([] : List G).length % 2 ^ 32)) = true := by
    rw [List.length_nil]; decide
  unfold generate
  simp only [h0, not_true_eq_false, if_false]
  rw [if_pos (by simp)]
  unfold firstRound
  simp only [splitNil, Vec.split, List.length_nil, if_true, Vec.innerProduct, Vec.exp, mulFactors, ne_eq, not_true_eq_false,
    if_false, Res.bind_ok]
  rw [if_neg (by simp)]
  simp only [Res.bind_ok]
  rw [genLoop, dif_neg (by simp)]
  simp [finish]

/-- C55 (corner case): with a single generator nothing is checked: the last elements of `a` and `b` are returned
whatever the lengths. -/
theorem C55_single (R : Ristretto F G) (g : G) (Hv : List G) (a b hpf : List F) (x y : F) (Q : G) :
    generate R [g] Hv (a ++ [x]) (b ++ [y]) hpf Q = .ok ⟨[], [], x, y⟩ := by
  have h0 : isPower2 (UInt32.ofNat ([g].length % 2 ^ 32)) = true := by
    simp only [List.length_singleton]; decide
  unfold generate
  simp only [h0, not_true_eq_false, if_false]
  simp [finish]

example : generate Toy.ris [(1 : Toy.K)] [2] [3] [4] [] 5 = .ok ⟨[], [], 3, 4⟩ := C55_single Toy.ris 1 [2] [] [] [] 3 4 5

example : ∃ Gv : List Toy.K, Gv.length < 2 ^ 32 ∧ Gv.length ≠ 0 ∧ ∀ k, Gv.length ≠ 2 ^ k := by
  refine ⟨[1, 2, 3], by decide, by decide, ?_⟩
  intro k
  rcases k with _ | _ | k
  · decide
  · decide
  · have : 1 ≤ 2 ^ k := Nat.one_le_two_pow
    simp only [List.length_cons, List.length_nil, pow_succ]; omega
example : ∃ Gv : List Toy.K, Gv.length = 2 ^ 1 := ⟨[1, 2], rfl⟩

/-! ## C56 -/

/-- C56: `n + DiffNextPow2(n)` is the least power of two that is at least `n`, for all 32-bit `n ≥ 1`. -/
theorem C56_diffNextPow2 (n : UInt32) (hn : 1 ≤ n.toNat) :
    ∃ k, n.toNat + (diffNextPow2 n).toNat = 2 ^ k ∧ k ≤ 32 ∧ ∀ j, n.toNat ≤ 2 ^ j → k ≤ j := by
  have hlt : n.toNat < 2 ^ 32 := n.toNat_lt
  have h64 : n.toUInt64.toNat = n.toNat := UInt32.toNat_toUInt64 n
  have hnp := nextPow2_toNat n.toUInt64 (by omega)
  rw [h64] at hnp
  have key : ∀ v : Nat, (nextPow2 n.toUInt64).toNat = v → v < 2 ^ 32 → n.toNat ≤ v + 1 →
      n.toNat + (diffNextPow2 n).toNat = v + 1 := by
    intro v hv hv2 hle
    unfold diffNextPow2
    rw [UInt32.toNat_add, UInt32.toNat_sub, UInt64.toNat_toUInt32, hv, Nat.mod_eq_of_lt hv2,
      show (1 : UInt32).toNat = 1 from rfl]
    omega
  rcases Nat.lt_or_ge n.toNat 2 with h | h
  · refine ⟨0, ?_, by omega, fun j _ => Nat.zero_le j⟩
    have h1 : n.toNat = 1 := by omega
    rw [h1] at hnp
    have := key 0 hnp (by norm_num) (by omega)
    simpa using this
  · obtain ⟨m, hm1, hm2⟩ := exists_clog n.toNat h
    have hm : m < 32 := by
      by_contra hc
      have : 2 ^ 32 ≤ 2 ^ m := Nat.pow_le_pow_right (by norm_num) (by omega)
      omega
    rw [smear_eq hm hm1 hm2] at hnp
    have hpos : 1 ≤ 2 ^ (m + 1) := Nat.one_le_two_pow
    have hle : 2 ^ (m + 1) ≤ 2 ^ 32 := Nat.pow_le_pow_right (by norm_num) hm
    refine ⟨m + 1, ?_, hm, ?_⟩
    · rw [key _ hnp (by omega) (by omega)]; omega
    · intro j hj
      by_contra hc
      have : 2 ^ j ≤ 2 ^ m := Nat.pow_le_pow_right (by norm_num) (by omega)
      omega

/-- C56: `isPower2(n)` holds exactly for zero and the powers of two. -/
theorem C56_isPower2 (n : UInt32) : isPower2 n = true ↔ n.toNat = 0 ∨ ∃ k, n.toNat = 2 ^ k := isPower2_iff n

example : isPower2 0 = true ∧ isPower2 64 = true ∧ isPower2 2147483648 = true :=
  ⟨(C56_isPower2 0).2 (.inl rfl), (C56_isPower2 64).2 (.inr ⟨6, rfl⟩), (C56_isPower2 2147483648).2 (.inr ⟨31, rfl⟩)⟩

example : 1 ≤ (5 : UInt32).toNat ∧ (diffNextPow2 5).toNat = 3 := by decide

/-! ## C57 -/

/-- Specification: the encoding of a proof. -/
def encoding (R : Ristretto F G) (p : Proof F G) : Bytes :=
  R.sBytes p.A ++ R.sBytes p.B ++ (p.L.zip p.R).flatMap fun x => R.pBytes x.1 ++ R.pBytes x.2

theorem encodeLoop_emits (R : Ristretto F G) : ∀ (L Rs : List G), L.length = Rs.length →
    (encodeLoop R L Rs).Emits (2 * L.length) ((L.zip Rs).flatMap fun x => R.pBytes x.1 ++ R.pBytes x.2)
  | [], _, _ => .pure
  | l :: ls, [], h => by simp at h
  | l :: ls, r :: rs, h => by
    simp only [List.length_cons, Nat.add_right_cancel_iff] at h
    have := (writeB_emits (R.pBytes l)).bind (f := fun _ => Wr.bind (writeB (R.pBytes r)) fun _ => encodeLoop R ls rs)
      ((writeB_emits (R.pBytes r)).bind (f := fun _ => encodeLoop R ls rs) (encodeLoop_emits R ls rs h))
    simp only [List.zip_cons_cons, List.flatMap_cons, List.length_cons, List.append_assoc]
    rw [show 2 * (ls.length + 1) = 1 + (1 + 2 * ls.length) by omega]
    exact this

/-- C57: `Encode` performs `2 + 2|L|` writes of the encoding; if the writer fails it returns an error after a
prefix of it. -/
theorem C57_encode (R : Ristretto F G) (p : Proof F G) (h : p.L.length = p.R.length) (hk : p.L.length < 2 ^ 32) :
    (p.encode R).Emits (2 + 2 * p.L.length) (encoding R p) := by
  have hl := encodeLoop_emits R p.L p.R h
  have := (writeB_emits (R.sBytes p.A)).bind
    (f := fun _ => Wr.bind (writeB (R.sBytes p.B)) fun _ => encodeLoop R p.L p.R)
    ((writeB_emits (R.sBytes p.B)).bind (f := fun _ => encodeLoop R p.L p.R) hl)
  unfold Proof.encode encoding
  rw [Nat.mod_eq_of_lt hk, List.take_length, List.append_assoc,
    show 2 + 2 * p.L.length = 1 + (1 + 2 * p.L.length) by omega]
  exact this

/-- `Encode` panics when `R` is shorter than `L` (and the writer does not fail before). -/
theorem encodeLoop_panic (R : Ristretto F G) : ∀ (L Rs : List G) (w : Writer), Rs.length < L.length →
    2 * L.length ≤ w.left → (encodeLoop R L Rs w).1 = .panic
  | [], _, _, h, _ => by simp at h
  | l :: ls, [], w, _, hw => by
    have h1 := (writeB_emits (R.pBytes l)).good w (by simp at hw; omega)
    simp [encodeLoop, Wr.bind, h1, Wr.panic]
  | l :: ls, r :: rs, w, h, hw => by
    simp only [List.length_cons, Nat.add_lt_add_iff_right] at h
    simp only [List.length_cons] at hw
    have h1 := (writeB_emits (R.pBytes l)).good w (by omega)
    have h2 := (writeB_emits (R.pBytes r)).good { w with out := w.out ++ R.pBytes l, left := w.left - 1 }
      (by simp only; omega)
    simp only [encodeLoop, Wr.bind, h1, h2]
    exact encodeLoop_panic R ls rs _ h (by simp only; omega)

theorem flatMap_length64 {α : Type} (f : α → Bytes) : ∀ (l : List α), (∀ x ∈ l, (f x).length = 64) →
    (l.flatMap f).length = 64 * l.length
  | [], _ => rfl
  | x :: l, h => by
    rw [List.flatMap_cons, List.length_append, h x (by simp),
      flatMap_length64 f l fun y hy => h y (by simp [hy]), List.length_cons]
    omega

theorem decodeLoop_eq (R : Ristretto F G) : ∀ (pairs : List (Bytes × Bytes)) (rest : Bytes),
    (∀ x ∈ pairs, x.1.length = 32 ∧ x.2.length = 32) →
    decodeLoop R pairs.length ((pairs.flatMap fun x => x.1 ++ x.2) ++ rest) =
      .ok (pairs.map fun x => (R.pOfBytes x.1).1, pairs.map fun x => (R.pOfBytes x.2).1)
  | [], rest, _ => rfl
  | (x, y) :: l, rest, h => by
    obtain ⟨hx, hy⟩ := h (x, y) (by simp)
    simp only at hx hy
    have ih := decodeLoop_eq R l rest fun z hz => h z (by simp [hz])
    simp only [List.length_cons, List.flatMap_cons, decodeLoop, List.append_assoc]
    have d1 : ∀ t : Bytes, (x ++ t).drop 32 = t := fun t => by rw [← hx]; simp
    have d2 : ∀ t : Bytes, (x ++ (y ++ t)).drop 64 = t := fun t => by
      rw [← List.append_assoc, show 64 = (x ++ y).length by simp [hx, hy]]; simp
    have t1 : ∀ t : Bytes, (x ++ t).take 32 = x := fun t => by rw [← hx]; simp
    have t2 : ∀ t : Bytes, (y ++ t).take 32 = y := fun t => by rw [← hy]; simp
    rw [d1, d2, t1, t2, if_neg (by simp only [List.length_append]; omega), if_neg (by simp only [List.length_append]; omega), ih]
    simp

/-- C57: `Decode` of two scalars followed by *any* 32-byte blocks `x₀ y₀ x₁ y₁ …`, valid points or not, and
optionally by 32 bytes that are ignored. Nothing is left in the stream. -/
theorem C57_decode (R : Ristretto F G) (sa sb rest : Bytes) (pairs : List (Bytes × Bytes)) (ha : sa.length = 32)
    (hb : sb.length = 32) (hp : ∀ x ∈ pairs, x.1.length = 32 ∧ x.2.length = 32) (hn : pairs.length < 2 ^ 32)
    (hr : rest.length = 0 ∨ rest.length = 32) (r : Reader)
    (hf : r.flat = sa ++ sb ++ (pairs.flatMap fun x => x.1 ++ x.2) ++ rest) (he : r.fin = .eof) :
    Proof.decode R r = .ok (⟨pairs.map fun x => (R.pOfBytes x.1).1, pairs.map fun x => (R.pOfBytes x.2).1,
      R.sOfBytes sa, R.sOfBytes sb⟩, ⟨[], .eof⟩) := by
  obtain ⟨r1, h1, h2, h3⟩ := (readN_decodes' ha).full r (sb ++ ((pairs.flatMap fun x => x.1 ++ x.2) ++ rest))
    (by rw [hf]; simp only [List.append_assoc])
  obtain ⟨r2, h4, h5, h6⟩ := (readN_decodes' hb).full r1 _ h2
  have hlen : ((pairs.flatMap fun x => x.1 ++ x.2) ++ rest).length = 64 * pairs.length + rest.length := by
    rw [List.length_append, flatMap_length64]
    intro x hx
    have := hp x hx
    simp [this.1, this.2]
  have hall : readAll r2 = .ok (r2.flat, ⟨[], .eof⟩) := by
    unfold readAll; rw [h6, h3, he]
  unfold Proof.decode
  simp only [Rd.bind, h1, h4, hall, Res.bind_ok]
  rw [h5, if_neg (by omega), show ((pairs.flatMap fun x => x.1 ++ x.2) ++ rest).length / 64 % 2 ^ 32 = pairs.length by omega,
    decodeLoop_eq R pairs rest hp]
  rfl

theorem decode_of_encoding {R : Ristretto F G} (E : R.Encodings) (A B : F) (l : List (G × G)) (rest : Bytes)
    (hn : l.length < 2 ^ 32) (hr : rest.length = 0 ∨ rest.length = 32) (r : Reader)
    (hf : r.flat = R.sBytes A ++ R.sBytes B ++ (l.flatMap fun x => R.pBytes x.1 ++ R.pBytes x.2) ++ rest)
    (he : r.fin = .eof) :
    Proof.decode R r = .ok (⟨l.map Prod.fst, l.map Prod.snd, A, B⟩, ⟨[], .eof⟩) := by
  have := C57_decode R (R.sBytes A) (R.sBytes B) rest (l.map fun x => (R.pBytes x.1, R.pBytes x.2))
    (E.sBytes_length _) (E.sBytes_length _) ?_ (by simpa using hn) hr r ?_ he
  · rw [this]
    simp [E.sOfBytes_sBytes, E.pOfBytes_pBytes]
  · intro x hx
    obtain ⟨y, _, rfl⟩ := List.mem_map.1 hx
    exact ⟨E.pBytes_length _, E.pBytes_length _⟩
  · rw [hf, List.flatMap_map]

/-- C57: `Decode ∘ Encode` is the identity on proofs with `|L| = |R|`, also when 32 arbitrary bytes follow. -/
theorem C57_roundtrip {R : Ristretto F G} (E : R.Encodings) (p : Proof F G) (h : p.L.length = p.R.length)
    (hk : p.L.length < 2 ^ 32) (rest : Bytes) (hr : rest.length = 0 ∨ rest.length = 32) (r : Reader)
    (hf : r.flat = encoding R p ++ rest) (he : r.fin = .eof) :
    Proof.decode R r = .ok (p, ⟨[], .eof⟩) := by
  rw [decode_of_encoding E p.A p.B (p.L.zip p.R) rest (by simp; omega) hr r hf he]
  have h1 : (p.L.zip p.R).map Prod.fst = p.L := List.map_fst_zip (by omega)
  have h2 : (p.L.zip p.R).map Prod.snd = p.R := List.map_snd_zip (by omega)
  rw [h1, h2]

/-- C57 (violation): an encoding cut after any number of pairs of points is accepted, as a proof with fewer
rounds. -/
theorem C57_truncation_violated {R : Ristretto F G} (E : R.Encodings) (p : Proof F G) (h : p.L.length = p.R.length)
    (hk : p.L.length < 2 ^ 32) (j : Nat) (r : Reader)
    (hf : r.flat = (encoding R p).take (64 + 64 * j)) (he : r.fin = .eof) :
    Proof.decode R r = .ok (⟨p.L.take j, p.R.take j, p.A, p.B⟩, ⟨[], .eof⟩) := by
  have hcut : ∀ (l : List (G × G)) (j : Nat),
      (l.flatMap fun x => R.pBytes x.1 ++ R.pBytes x.2).take (64 * j) =
        (l.take j).flatMap fun x => R.pBytes x.1 ++ R.pBytes x.2 := by
    intro l
    induction l with
    | nil => simp
    | cons x l ih =>
      intro j
      cases j with
      | zero => simp
      | succ j =>
        have hlen : (R.pBytes x.1 ++ R.pBytes x.2).length = 64 := by simp [E.pBytes_length]
        rw [List.flatMap_cons, List.take_succ_cons, List.flatMap_cons, ← ih j,
          show 64 * (j + 1) = (R.pBytes x.1 ++ R.pBytes x.2).length + 64 * j by rw [hlen]; omega,
          List.take_length_add_append]
  have hf' : r.flat = R.sBytes p.A ++ R.sBytes p.B ++
      (((p.L.zip p.R).take j).flatMap fun x => R.pBytes x.1 ++ R.pBytes x.2) ++ [] := by
    rw [hf, List.append_nil, ← hcut]
    have hlen : (R.sBytes p.A ++ R.sBytes p.B).length = 64 := by simp [E.sBytes_length]
    unfold encoding
    rw [show 64 + 64 * j = (R.sBytes p.A ++ R.sBytes p.B).length + 64 * j by rw [hlen],
      List.take_length_add_append]
  rw [decode_of_encoding E p.A p.B ((p.L.zip p.R).take j) [] (by simp; omega) (Or.inl rfl) r hf' he]
  have h1 : (p.L.zip p.R).map Prod.fst = p.L := List.map_fst_zip (by omega)
  have h2 : (p.L.zip p.R).map Prod.snd = p.R := List.map_snd_zip (by omega)
  rw [List.map_take, List.map_take, h1, h2]

/-- An encoding that is not a point is accepted in place of `L_0` (`C57_decode` covers it). -/
example : ∃ x : Bytes, x.length = 32 ∧ (Toy.ris.pOfBytes x).2 = false := by
  refine ⟨List.replicate 32 255, by rw [List.length_replicate], ?_⟩
  rw [Toy.ris_pOfBytes]
  have h1 : PrimeEll.ell < 2 ^ 253 := PrimeEll.ell_lt_253
  have h2 : leNat (List.replicate 32 255) = 2 ^ 256 - 1 := by decide +kernel
  simp only [h2, decide_eq_false_iff_not]
  omega
example : ∃ p : Proof Toy.K Toy.K, p.L.length = p.R.length ∧ p.L.length = 2 := ⟨⟨[1, 2], [3, 4], 5, 6⟩, rfl, rfl⟩

end Dusk.IP
