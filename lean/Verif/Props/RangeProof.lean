import Verif.Lemmas.RPTop
import Verif.Lemmas.PolyRoots
import Mathlib.Combinatorics.Colex
/-!
# Properties of the range proof (C59–C65, C68)
-/

set_option linter.unusedSectionVars false

namespace Dusk.RP

variable {F G : Type} [Field F] [AddCommGroup G] [Module F G] [DecidableEq F]

/-! ## C59 -/

theorem bits_sum (n : Nat) : ∀ k, ∑ i ∈ Finset.range k, (if n.testBit i then 2 ^ i else 0) = n % 2 ^ k
  | 0 => by simp [Nat.mod_one]
  | k + 1 => by
    rw [Finset.sum_range_succ, bits_sum n k, Nat.mod_pow_succ, Nat.testBit_eq_decide_div_mod_eq]
    rcases Nat.mod_two_eq_zero_or_one (n / 2 ^ k) with h | h <;> simp [h]

/-- C59: `BitCommit(v)` is the list of the low 64 bits of `|v|` and the same list minus one. -/
theorem C59_bits (v : Int) :
    (bitCommit (F := F) v).AL = (List.range 64).map (fun i => if v.natAbs.testBit i then 1 else 0) ∧
    (bitCommit (F := F) v).AR = (bitCommit (F := F) v).AL.map (fun x => x - 1) := by
  refine ⟨?_, bitCommit_AR v⟩
  rw [← bitCommit_AL]
  unfold bitCommit
  rw [Int.natAbs_natCast]

/-- C59: the bits represent `|v| mod 2^64`, entries are 0 or 1, and `AL ∘ AR = 0`. -/
theorem C59_value (v : Int) :
    (bitCommit (F := F) v).AL.length = 64 ∧ (bitCommit (F := F) v).AR.length = 64 ∧
    (∀ x ∈ (bitCommit (F := F) v).AL, x = 0 ∨ x = 1) ∧
    (∀ i (h : i < (bitCommit (F := F) v).AL.length) (h' : i < (bitCommit (F := F) v).AR.length),
      (bitCommit (F := F) v).AL[i] * (bitCommit (F := F) v).AR[i] = 0) ∧
    ∑ i ∈ Finset.range 64, (bitCommit (F := F) v).AL.getD i 0 * 2 ^ i = ((v.natAbs % 2 ^ 64 : Nat) : F) := by
  refine ⟨bitCommit_length v, ?_, bitCommit_bit v, ?_, ?_⟩
  · rw [bitCommit_AR, List.length_map, bitCommit_length]
  · intro i h h'
    have e : (bitCommit (F := F) v).AR[i] = (bitCommit (F := F) v).AL[i] - 1 := by simp [bitCommit_AR]
    rw [e]
    rcases bitCommit_bit (F := F) v _ (List.getElem_mem h) with h0 | h0 <;> rw [h0] <;> ring
  · rw [(C59_bits v).1, ← bits_sum, Nat.cast_sum]
    apply Finset.sum_congr rfl
    intro i hi
    have hi := Finset.mem_range.1 hi
    simp only [List.getD_eq_getElem?_getD, List.getElem?_map, List.getElem?_range hi, Option.map_some, Option.getD_some]
    split <;> simp

theorem debugLoop_eq (b : BitCommitment F) (n : Nat) (hL : b.AL.length = b.AR.length)
    (h1 : ∀ i (h : i < b.AL.length), b.AL[i] = 1 ↔ n.testBit i = true)
    (h2 : ∀ i (h : i < b.AR.length), b.AR[i] = 0 ↔ n.testBit i = true) :
    ∀ (k i : Nat) (l r : Int), i + k = b.AL.length →
      debugLoop b k i l r = .ok (l + ((∑ j ∈ Finset.range k, if n.testBit (i + j) then 2 ^ (i + j) else 0 : Nat) : Int),
        r + ((∑ j ∈ Finset.range k, if n.testBit (i + j) then 2 ^ (i + j) else 0 : Nat) : Int))
  | 0, i, l, r, _ => by simp [debugLoop]
  | k + 1, i, l, r, h => by
    have hi : i < b.AL.length := by omega
    have hi' : i < b.AR.length := by omega
    rw [debugLoop, idx_of_lt hi, Res.bind_ok, idx_of_lt hi', Res.bind_ok,
      debugLoop_eq b n hL h1 h2 k (i + 1) _ _ (by omega), Finset.sum_range_succ']
    simp only [h1 i hi, h2 i hi', Nat.add_zero, show ∀ j, i + 1 + j = i + (j + 1) by omega]
    cases n.testBit i
    · simp
    · simp only [if_true, Nat.cast_add, Nat.cast_pow, Nat.cast_ofNat]
      congr 2 <;> ring

/-- C59: `Debug(v)` accepts `BitCommit(v)` exactly for `0 ≤ v < 2^64`, and returns an error otherwise. -/
theorem C59_debug (v : Int) :
    ((bitCommit (F := F) v).debug v = .ok () ↔ 0 ≤ v ∧ v < 2 ^ 64) ∧
    (¬ (0 ≤ v ∧ v < 2 ^ 64) → ((bitCommit (F := F) v).debug v).IsErr) := by
  have hAR : (bitCommit (F := F) v).AR = (List.range 64).map (fun i => (if v.natAbs.testBit i then 1 else 0) - 1) := by
    rw [(C59_bits v).2, (C59_bits v).1, List.map_map]; rfl
  have := debugLoop_eq (bitCommit (F := F) v) v.natAbs (by rw [hAR, (C59_bits v).1]; simp)
    (by
      intro i h
      simp only [(C59_bits v).1, List.getElem_map, List.getElem_range]
      split <;> simp_all)
    (by
      intro i h
      simp only [hAR, List.getElem_map, List.getElem_range]
      split <;> simp_all)
    64 0 0 0 (by rw [bitCommit_length])
  simp only [zero_add, bits_sum] at this
  unfold BitCommitment.debug
  rw [show nBits = 64 from rfl, this, Res.bind_ok]
  dsimp only
  have hiff : ((v.natAbs % 2 ^ 64 : Nat) : Int) = v ↔ 0 ≤ v ∧ v < 2 ^ 64 := by omega
  by_cases hc : 0 ≤ v ∧ v < 2 ^ 64
  · rw [if_neg (by rw [not_not]; exact hiff.2 hc), if_neg (by rw [not_not]; exact hiff.2 hc)]
    exact ⟨⟨fun _ => hc, fun _ => rfl⟩, fun h => absurd hc h⟩
  · rw [if_pos (fun h => hc (hiff.1 h))]
    exact ⟨⟨fun h => by simp at h, fun h => absurd h hc⟩, fun _ => by simp⟩

example : (bitCommit (F := Toy.K) 6).debug 6 = .ok () := (C59_debug 6).1.2 (by norm_num)
example : ((bitCommit (F := Toy.K) (-6)).debug (-6)).IsErr := (C59_debug (-6)).2 (by norm_num)

theorem debugLoop_gen (b : BitCommitment F) : ∀ (k i : Nat) (l r : Int), i + k ≤ b.AL.length → i + k ≤ b.AR.length →
    debugLoop b k i l r = .ok (l + ((∑ j ∈ Finset.range k, if b.AL.getD (i + j) 0 = 1 then 2 ^ (i + j) else 0 : Nat) : Int),
      r + ((∑ j ∈ Finset.range k, if b.AR.getD (i + j) 0 = 0 then 2 ^ (i + j) else 0 : Nat) : Int))
  | 0, i, l, r, _, _ => by simp [debugLoop]
  | k + 1, i, l, r, h, h' => by
    have hi : i < b.AL.length := by omega
    have hi' : i < b.AR.length := by omega
    have e1 : b.AL.getD i 0 = b.AL[i] := by simp [hi]
    have e2 : b.AR.getD i 0 = b.AR[i] := by simp [hi']
    rw [debugLoop, idx_of_lt hi, Res.bind_ok, idx_of_lt hi', Res.bind_ok,
      debugLoop_gen b k (i + 1) _ _ (by omega) (by omega), Finset.sum_range_succ', Finset.sum_range_succ']
    simp only [Nat.add_zero, e1, e2, show ∀ j, i + 1 + j = i + (j + 1) by omega, Nat.cast_add]
    congr 2
    · split
      · push_cast; ring
      · simp
    · split
      · push_cast; ring
      · simp

theorem sum_bits_iff (f : Nat → Prop) [DecidablePred f] (v : Int) :
    ((∑ j ∈ Finset.range 64, if f j then 2 ^ j else 0 : Nat) : Int) = v ↔
      0 ≤ v ∧ v < 2 ^ 64 ∧ ∀ i < 64, f i ↔ v.natAbs.testBit i = true := by
  have hlt : ∀ k, (∑ j ∈ Finset.range k, if f j then 2 ^ j else 0 : Nat) < 2 ^ k := by
    intro k
    induction k with
    | zero => simp
    | succ k ih =>
      rw [Finset.sum_range_succ, pow_succ]
      split <;> omega
  constructor
  · rintro rfl
    refine ⟨by positivity, by exact_mod_cast hlt 64, ?_⟩
    rw [Int.natAbs_natCast]
    have h1 := bits_sum (∑ j ∈ Finset.range 64, if f j then 2 ^ j else 0) 64
    rw [Nat.mod_eq_of_lt (hlt 64), ← Finset.sum_filter, ← Finset.sum_filter] at h1
    have h2 := Finset.geomSum_injective (n := 2) le_rfl h1
    intro i hi
    have h3 := congrArg (fun s => i ∈ s) h2
    simp only [Finset.mem_filter, Finset.mem_range, hi, true_and, eq_iff_iff] at h3
    rw [Finset.sum_filter] at h3
    exact h3.symm
  · rintro ⟨h0, h1, h2⟩
    have : ∑ j ∈ Finset.range 64, (if f j then 2 ^ j else 0) =
        ∑ j ∈ Finset.range 64, (if v.natAbs.testBit j then 2 ^ j else 0) := by
      apply Finset.sum_congr rfl
      intro j hj
      simp only [h2 j (Finset.mem_range.1 hj)]
    rw [this, bits_sum, Nat.mod_eq_of_lt (by omega)]
    omega

/-- C59: on any pair of vectors of at least 64 entries, `Debug(v)` accepts exactly if `v` is a 64-bit number whose set bits
are the positions of the ones in `AL` and of the zeros in `AR`, and returns an error otherwise. (It does not check that the
other entries are 0 and −1.) -/
theorem C59_debug_any (b : BitCommitment F) (v : Int) (hL : 64 ≤ b.AL.length) (hR : 64 ≤ b.AR.length) :
    (b.debug v = .ok () ↔ 0 ≤ v ∧ v < 2 ^ 64 ∧
      ∀ i < 64, (b.AL.getD i 0 = 1 ↔ v.natAbs.testBit i = true) ∧ (b.AR.getD i 0 = 0 ↔ v.natAbs.testBit i = true)) ∧
    (b.debug v ≠ .ok () → (b.debug v).IsErr) := by
  have h := debugLoop_gen b 64 0 0 0 (by omega) (by omega)
  simp only [zero_add] at h
  have e1 := sum_bits_iff (fun i => b.AL.getD i 0 = 1) v
  have e2 := sum_bits_iff (fun i => b.AR.getD i 0 = 0) v
  unfold BitCommitment.debug
  rw [show nBits = 64 from rfl, h, Res.bind_ok]
  dsimp only at e1 e2 ⊢
  constructor
  · constructor
    · intro hd
      split at hd
      · cases hd
      split at hd
      · cases hd
      rename_i h1 h2
      rw [not_not] at h1 h2
      obtain ⟨a1, a2, a3⟩ := e1.1 h1
      obtain ⟨-, -, a4⟩ := e2.1 h2
      exact ⟨a1, a2, fun i hi => ⟨a3 i hi, a4 i hi⟩⟩
    · rintro ⟨a1, a2, a3⟩
      rw [if_neg (by rw [not_not]; exact e1.2 ⟨a1, a2, fun i hi => (a3 i hi).1⟩),
        if_neg (by rw [not_not]; exact e2.2 ⟨a1, a2, fun i hi => (a3 i hi).2⟩)]
  · split
    · intro _; simp
    split
    · intro _; simp
    · intro h; exact absurd rfl h

/-- C59: with fewer than 64 entries in one of the vectors `Debug` panics. -/
theorem C59_debug_short (b : BitCommitment F) (v : Int) (h : b.AL.length < 64 ∨ b.AR.length < 64) : b.debug v = .panic := by
  have key : ∀ (k i : Nat) (l r : Int), i ≤ b.AL.length → i ≤ b.AR.length →
      (b.AL.length < i + k ∨ b.AR.length < i + k) → debugLoop b k i l r = .panic := by
    intro k
    induction k with
    | zero => intro i l r h1 h2 h3; omega
    | succ k ih =>
      intro i l r h1 h2 h3
      rw [debugLoop]
      by_cases hi : i < b.AL.length
      · rw [idx_of_lt hi, Res.bind_ok]
        by_cases hi' : i < b.AR.length
        · rw [idx_of_lt hi', Res.bind_ok]
          exact ih _ _ _ hi hi' (by omega)
        · rw [idx_of_ge (by omega)]; rfl
      · rw [idx_of_ge (by omega)]; rfl
  unfold BitCommitment.debug
  rw [show nBits = 64 from rfl, key 64 0 0 0 (by omega) (by omega) (by omega)]
  rfl

/-- A vector with entries other than 0 and 1 that is accepted: 5 in the place of a zero. -/
example : (⟨5 :: List.replicate 63 0, List.replicate 64 (-1)⟩ : BitCommitment Toy.K).debug 0 = .ok () := by
  have h5 : (5 : Toy.K) ≠ 1 := by
    intro h
    have := Toy.ris.cast_inj (m := 5) (n := 1) (by have := Toy.ris.two64_lt; omega) (by have := Toy.ris.two64_lt; omega)
      (by simpa using h)
    omega
  refine (C59_debug_any _ 0 (by simp) (by simp)).1.2 ⟨le_rfl, by norm_num, fun i hi => ?_⟩
  rcases i with _ | i
  · simp [h5]
  · have hi' : i < 63 := by omega
    simp [-List.reduceReplicate, List.getD_eq_getElem?_getD, List.getElem?_replicate, hi', hi]

/-! ## C68 -/

variable [DecidableEq G]

/-- C68: no values is an error, and the package state is unchanged. -/
theorem C68_empty (R : Ristretto F G) (m : Nat) (debug : Bool) (coins : Coins F) :
    (prove R m [] debug coins).1 = m ∧ (prove R m [] debug coins).2.IsErr := by
  simp [prove, proveWith, nextM]

/-- C68: more than 16 values is an error (and `M` keeps the number of values). -/
theorem C68_many (R : Ristretto F G) (m : Nat) (v : List F) (debug : Bool) (coins : Coins F) (h : 16 < v.length) :
    (prove R m v debug coins).1 = v.length ∧ (prove R m v debug coins).2.IsErr := by
  have hn : nextM m v.length = v.length := by
    unfold nextM; rw [if_neg (by omega), if_pos (by unfold maxM; omega)]
  refine ⟨hn, ?_⟩
  unfold prove proveWith
  rw [if_neg (by omega), if_pos (by show v.length > 16; exact h)]
  simp

/-- C68: for 1 to 16 values `Prove` computes the proof `p` of the protocol for the values padded with zeros to the next
power of two. It returns `p`, unless one of the challenges `x`, `y`, `z` is zero or, in debug mode, some value is at least
`2^64 - 1`; in these cases it returns an error. -/
theorem C68_prove (R : Ristretto F G) (m0 : Nat) (v : List F) (debug : Bool) (coins : Coins F)
    (h1 : 1 ≤ v.length) (h2 : v.length ≤ 16) :
    ∃ k p ip, v.length ≤ 2 ^ k ∧ (∀ j, v.length ≤ 2 ^ j → k ≤ j) ∧ (prove R m0 v debug coins).1 = 2 ^ k ∧
      Honest R (2 ^ k) v coins p ip ∧ ip.L.length = k + 6 ∧ ip.R.length = k + 6 ∧
      (if (chalOf R p).x = 0 ∨ (chalOf R p).y = 0 ∨ (chalOf R p).z = 0 ∨ (debug = true ∧ ∃ a ∈ v, 2 ^ 64 - 1 ≤ R.sNat a) then
        (prove R m0 v debug coins).2.IsErr else (prove R m0 v debug coins).2 = .ok p) := by
  obtain ⟨k, p, ip, -, a2, a3, a4, a5, a6, a7, a8, -⟩ := prove_spec R m0 v debug coins h1 h2
  exact ⟨k, p, ip, a2, a3, a7, a4, a5, a6, a8⟩

/-- C68: `Prove` never panics. -/
theorem C68_no_panic (R : Ristretto F G) (m0 : Nat) (v : List F) (debug : Bool) (coins : Coins F) :
    (prove R m0 v debug coins).2 ≠ .panic := by
  rcases Nat.lt_or_ge v.length 1 with h | h
  · have : v = [] := List.length_eq_zero_iff.1 (by omega)
    subst this
    obtain ⟨e, he⟩ := (C68_empty R m0 debug coins).2
    rw [he]; simp
  rcases Nat.lt_or_ge 16 v.length with h' | h'
  · obtain ⟨e, he⟩ := (C68_many R m0 v debug coins h').2
    rw [he]; simp
  obtain ⟨k, p, ip, -, -, -, -, -, -, hif⟩ := C68_prove R m0 v debug coins h h'
  split at hif
  · obtain ⟨e, he⟩ := hif
    rw [he]; simp
  · rw [hif]; simp

/-- C68: a returned proof has the padded number of commitments, the first ones committing to the given values and the
rest to zero, with the blinding factors drawn. -/
theorem C68_commitments (R : Ristretto F G) (m0 : Nat) (v : List F) (debug : Bool) (coins : Coins F) (p : Proof F G)
    (h : (prove R m0 v debug coins).2 = .ok p) :
    p.V.length = (prove R m0 v debug coins).1 ∧ v.length ≤ p.V.length ∧
    ∀ j (hj : j < p.V.length), p.V[j] = (Pedersen.new R genData).commitToScalar (v.getD j 0) (coins.vBlind j) := by
  rcases Nat.lt_or_ge v.length 1 with h0 | h0
  · have : v = [] := List.length_eq_zero_iff.1 (by omega)
    subst this
    obtain ⟨e, he⟩ := (C68_empty R m0 debug coins).2
    rw [he] at h; cases h
  rcases Nat.lt_or_ge 16 v.length with h' | h'
  · obtain ⟨e, he⟩ := (C68_many R m0 v debug coins h').2
    rw [he] at h; cases h
  obtain ⟨k, p', ip, hle, -, hM, hon, -, -, hif⟩ := C68_prove R m0 v debug coins h0 h'
  split at hif
  · obtain ⟨e, he⟩ := hif
    rw [he] at h; cases h
  · rw [hif] at h
    cases h
    have hlen : p.V.length = 2 ^ k := by rw [hon.V]; simp
    refine ⟨by rw [hM, hlen], by omega, fun j hj => ?_⟩
    simp only [hon.V, List.getElem_map, List.getElem_range]
    rfl

/-! ## C60 -/

/-- No hash value is zero: every challenge is non-zero. (True in the concrete instance; only challenges that actually
occur are needed to be non-zero below.) -/
theorem chalOf_ne (R : Ristretto F G) (hR : ∀ b, R.sDerive b ≠ 0) (p : Proof F G) :
    (chalOf R p).x ≠ 0 ∧ (chalOf R p).y ≠ 0 ∧ (chalOf R p).z ≠ 0 := ⟨hR _, hR _, hR _⟩

theorem challenges_ne (R : Ristretto F G) (hR : ∀ b, R.sDerive b ≠ 0) (L Rs : List G) :
    ∀ u ∈ IP.challenges R L Rs, u ≠ 0 := by
  intro u hu
  simp only [IP.challenges, List.mem_map] at hu
  obtain ⟨i, -, rfl⟩ := hu
  exact hR _

theorem excess_zero (R : Ristretto F G) (z : F) {v : List F} (hv : ∀ a ∈ v, R.sNat a < 2 ^ 64) : excess R z v = 0 := by
  unfold excess
  apply Finset.sum_eq_zero
  intro j hj
  have hj := Finset.mem_range.1 hj
  rw [Nat.mod_eq_of_lt (hv _ (by simp [List.getD_eq_getElem?_getD, hj])), R.cast_sNat, sub_self, mul_zero]

/-- C60: for 1 to 16 values below `2^64`, whatever the state, the coins and the hash functions, `Prove` returns a proof
unless a challenge is zero; `Verify`, run with the state left by `Prove`, accepts it for every verifier coin if no folding
challenge is zero. -/
theorem C60_completeness (R : Ristretto F G) (m0 : Nat) (v : List F) (coins : Coins F)
    (h1 : 1 ≤ v.length) (h2 : v.length ≤ 16) (hv : ∀ a ∈ v, R.sNat a < 2 ^ 64) :
    ∃ p ip, p.ip = some ip ∧
      (((chalOf R p).x ≠ 0 ∧ (chalOf R p).y ≠ 0 ∧ (chalOf R p).z ≠ 0 ∧ (prove R m0 v false coins).2 = .ok p) ∨
        (((chalOf R p).x = 0 ∨ (chalOf R p).y = 0 ∨ (chalOf R p).z = 0) ∧ (prove R m0 v false coins).2.IsErr)) ∧
      ((prove R m0 v false coins).2 = .ok p → (∀ u ∈ IP.challenges R ip.L ip.R, u ≠ 0) →
        ∀ c, verify R (prove R m0 v false coins).1 p c = .ok true) := by
  obtain ⟨k, p, ip, -, -, -, hon, -, -, hM, hif, hver⟩ := prove_spec R m0 v false coins h1 h2
  refine ⟨p, ip, hon.hasIp, ?_, ?_⟩
  · split at hif
    · rename_i h
      exact Or.inr ⟨by simpa using h, hif⟩
    · rename_i h
      simp only [not_or] at h
      exact Or.inl ⟨h.1, h.2.1, h.2.2.1, hif⟩
  · intro hok hu c
    split at hif
    · obtain ⟨e, he⟩ := hif
      rw [he] at hok; cases hok
    · rename_i h
      simp only [not_or] at h
      rw [hM, hver hu h.2.1 c, excess_zero R _ hv, zero_smul, if_pos rfl]

/-- If no hash value is zero, `Prove` always succeeds and its proof always verifies. -/
theorem C60_nonzero_hash (R : Ristretto F G) (hR : ∀ b, R.sDerive b ≠ 0) (m0 : Nat) (v : List F) (coins : Coins F)
    (h1 : 1 ≤ v.length) (h2 : v.length ≤ 16) (hv : ∀ a ∈ v, R.sNat a < 2 ^ 64) :
    ∃ p, (prove R m0 v false coins).2 = .ok p ∧ ∀ c, verify R (prove R m0 v false coins).1 p c = .ok true := by
  obtain ⟨p, ip, hip, h, hver⟩ := C60_completeness R m0 v coins h1 h2 hv
  obtain ⟨n1, n2, n3⟩ := chalOf_ne R hR p
  rcases h with ⟨-, -, -, hok⟩ | ⟨h | h | h, -⟩
  · exact ⟨p, hok, hver hok (challenges_ne R hR _ _)⟩
  · exact absurd h n1
  · exact absurd h n2
  · exact absurd h n3

theorem toy_sNat (n : Nat) (h : n < 2 ^ 64) : Toy.ris.sNat ((n : Nat) : Toy.K) = n :=
  Toy.ris.sNat_cast (h.trans Toy.ris.two64_lt)

/-- A concrete case: three values in the concrete instance, padded to four. -/
example (coins : Coins Toy.K) : ∃ p, (prove Toy.ris 1 [(5 : Nat), (0 : Nat), ((2 ^ 64 - 1 : Nat) : Toy.K)] false coins).2 = .ok p ∧
    ∀ c, verify Toy.ris (prove Toy.ris 1 [(5 : Nat), (0 : Nat), ((2 ^ 64 - 1 : Nat) : Toy.K)] false coins).1 p c = .ok true := by
  refine C60_nonzero_hash Toy.ris Toy.dv_ne_zero 1 _ coins (by simp) (by simp) ?_
  intro a ha
  simp only [List.mem_cons, List.not_mem_nil, or_false] at ha
  rcases ha with rfl | rfl | rfl
  · rw [toy_sNat _ (by norm_num)]; norm_num
  · rw [toy_sNat _ (by norm_num)]; norm_num
  · rw [toy_sNat _ (by norm_num)]; norm_num

/-! ## C61 -/

/-- C61: values out of range do not make `Prove` without debug fail: for 1 to 16 arbitrary values it returns a proof unless a
challenge is zero. -/
theorem C61_returns (R : Ristretto F G) (m0 : Nat) (v : List F) (coins : Coins F) (h1 : 1 ≤ v.length) (h2 : v.length ≤ 16) :
    ∃ p : Proof F G, ((chalOf R p).x ≠ 0 → (chalOf R p).y ≠ 0 → (chalOf R p).z ≠ 0 → (prove R m0 v false coins).2 = .ok p) ∧
      ((∀ b, R.sDerive b ≠ 0) → (prove R m0 v false coins).2 = .ok p) := by
  obtain ⟨k, p, ip, -, -, -, hon, -, -, hM, hif, hver⟩ := prove_spec R m0 v false coins h1 h2
  have key : (chalOf R p).x ≠ 0 → (chalOf R p).y ≠ 0 → (chalOf R p).z ≠ 0 → (prove R m0 v false coins).2 = .ok p := by
    intro h1 h2 h3
    rwa [if_neg (by simp [h1, h2, h3])] at hif
  refine ⟨p, key, fun hR => ?_⟩
  obtain ⟨n1, n2, n3⟩ := chalOf_ne R hR p
  exact key n1 n2 n3

/-- C61: for arbitrary values `Prove` without debug behaves the same, and the proof is accepted iff
`∑ z^(j+2) (v_j - (v_j mod 2^64))` times the value base is zero. -/
theorem C61_out_of_range (R : Ristretto F G) (m0 : Nat) (v : List F) (coins : Coins F) (p : Proof F G) (ip : IP.Proof F G)
    (h : (prove R m0 v false coins).2 = .ok p) (hip : p.ip = some ip)
    (hu : ∀ u ∈ IP.challenges R ip.L ip.R, u ≠ 0) (c : F) :
    verify R (prove R m0 v false coins).1 p c =
      if (∑ j ∈ Finset.range v.length, (chalOf R p).z ^ (j + 2) *
          (v.getD j 0 - ((R.sNat (v.getD j 0) % 2 ^ 64 : Nat) : F))) • R.pDerive (strBytes "blindPoint") = 0
      then .ok true else .err "megacheck failed" := by
  rcases Nat.lt_or_ge v.length 1 with h0 | h0
  · have : v = [] := List.length_eq_zero_iff.1 (by omega)
    subst this
    obtain ⟨e, he⟩ := (C68_empty R m0 false coins).2
    rw [he] at h; cases h
  rcases Nat.lt_or_ge 16 v.length with h' | h'
  · obtain ⟨e, he⟩ := (C68_many R m0 v false coins h').2
    rw [he] at h; cases h
  obtain ⟨k, p', ip', -, -, -, hon, -, -, hM, hif, hver⟩ := prove_spec R m0 v false coins h0 h'
  split at hif
  · obtain ⟨e, he⟩ := hif
    rw [he] at h; cases h
  · rename_i hc
    rw [hif] at h
    cases h
    have : ip = ip' := by rw [hon.hasIp] at hip; exact (Option.some.inj hip).symm
    subst this
    simp only [not_or] at hc
    rw [hM, hver hu hc.2.1 c]
    rfl

/-- C61: a proof made for a single value `≥ 2^64` is always rejected (unless the value base is the zero point). -/
theorem C61_single (R : Ristretto F G) (hB : R.pDerive (strBytes "blindPoint") ≠ 0) (m0 : Nat) (a : F) (coins : Coins F)
    (p : Proof F G) (ip : IP.Proof F G) (h : (prove R m0 [a] false coins).2 = .ok p) (hip : p.ip = some ip)
    (hu : ∀ u ∈ IP.challenges R ip.L ip.R, u ≠ 0) (ha : 2 ^ 64 ≤ R.sNat a) (c : F) :
    (verify R (prove R m0 [a] false coins).1 p c).IsErr := by
  have hz : (chalOf R p).z ≠ 0 := by
    obtain ⟨k, p', ip', -, -, -, -, -, -, hif⟩ := C68_prove R m0 [a] false coins (by simp) (by simp)
    split at hif
    · obtain ⟨e, he⟩ := hif
      rw [he] at h; cases h
    · rename_i hc
      rw [hif] at h
      cases h
      simp only [not_or] at hc
      exact hc.2.2.1
  rw [C61_out_of_range R m0 [a] coins p ip h hip hu c, if_neg]
  · simp
  · simp only [List.length_singleton, Finset.sum_range_one, List.getD_cons_zero, zero_add]
    rw [smul_eq_zero]
    rintro (h | h)
    · rcases mul_eq_zero.1 h with h | h
      · exact hz (pow_eq_zero_iff (by norm_num) |>.1 h)
      · have h : ((R.sNat a : Nat) : F) = ((R.sNat a % 2 ^ 64 : Nat) : F) := by rw [R.cast_sNat]; exact sub_eq_zero.1 h
        have hlt := R.sNat_lt a
        have hm : R.sNat a % 2 ^ 64 < 2 ^ 64 := Nat.mod_lt _ (by norm_num)
        have := R.cast_inj hlt (by omega) h
        omega
    · exact hB h

/-- C61: for several values, not all in range, fewer than `len v` challenges `z` (other than zero) make the weighted sum
vanish. -/
theorem C61_few_challenges (R : Ristretto F G) (v : List F) (hv : ∃ a ∈ v, 2 ^ 64 ≤ R.sNat a) (S : Finset F)
    (hS : ∀ z ∈ S, z ≠ 0 ∧ ∑ j ∈ Finset.range v.length, z ^ (j + 2) *
      (v.getD j 0 - ((R.sNat (v.getD j 0) % 2 ^ 64 : Nat) : F)) = 0) : S.card < v.length := by
  by_contra hc
  have := coeffs_zero (m := v.length) (fun j => v.getD j 0 - ((R.sNat (v.getD j 0) % 2 ^ 64 : Nat) : F)) S (by omega) (by
    intro z hz
    obtain ⟨h0, hs⟩ := hS z hz
    have : z ^ 2 * ∑ j ∈ Finset.range v.length, (v.getD j 0 - ((R.sNat (v.getD j 0) % 2 ^ 64 : Nat) : F)) * z ^ j = 0 := by
      rw [Finset.mul_sum]
      refine Eq.trans (Finset.sum_congr rfl fun j _ => ?_) hs
      ring
    exact (mul_eq_zero.1 this).resolve_left (pow_ne_zero 2 h0))
  obtain ⟨a, ha, hge⟩ := hv
  obtain ⟨j, hj, rfl⟩ := List.getElem_of_mem ha
  have h := this j hj
  simp only [List.getD_eq_getElem?_getD, List.getElem?_eq_getElem hj, Option.getD_some] at h
  have h : ((R.sNat v[j] : Nat) : F) = ((R.sNat v[j] % 2 ^ 64 : Nat) : F) := by rw [R.cast_sNat]; exact sub_eq_zero.1 h
  have hlt := R.sNat_lt v[j]
  have hm : R.sNat v[j] % 2 ^ 64 < 2 ^ 64 := Nat.mod_lt _ (by norm_num)
  have := R.cast_inj hlt (by omega) h
  omega

/-- A value in range and one out of range: `Prove` returns a proof. -/
example (coins : Coins Toy.K) : ∃ p, (prove Toy.ris 0 [5, ((2 ^ 70 : Nat) : Toy.K)] false coins).2 = .ok p := by
  obtain ⟨p, -, h⟩ := C61_returns Toy.ris 0 [5, ((2 ^ 70 : Nat) : Toy.K)] coins (by simp) (by simp)
  exact ⟨p, h Toy.dv_ne_zero⟩

/-- A concrete out-of-range value: the hypotheses of `C61_single` are met by `2^64` in the concrete instance. -/
example (coins : Coins Toy.K) : ∃ p ip, (prove Toy.ris 1 [((2 ^ 64 : Nat) : Toy.K)] false coins).2 = .ok p ∧ p.ip = some ip ∧
    (∀ u ∈ IP.challenges Toy.ris ip.L ip.R, u ≠ 0) ∧ 2 ^ 64 ≤ Toy.ris.sNat ((2 ^ 64 : Nat) : Toy.K) ∧
    Toy.ris.pDerive (strBytes "blindPoint") ≠ 0 := by
  obtain ⟨k, p, ip, -, -, -, hon, -, -, hif⟩ := C68_prove Toy.ris 1 [((2 ^ 64 : Nat) : Toy.K)] false coins (by simp) (by simp)
  obtain ⟨n1, n2, n3⟩ := chalOf_ne Toy.ris Toy.dv_ne_zero p
  rw [if_neg (by simp [n1, n2, n3])] at hif
  refine ⟨p, ip, hif, hon.hasIp, challenges_ne Toy.ris Toy.dv_ne_zero _ _, ?_, Toy.dv_ne_zero _⟩
  rw [Toy.ris.sNat_cast Toy.ris.two64_lt]

/-! ## C65 -/

theorem chalOf_yz (R : Ristretto F G) {p q : Proof F G} (hV : p.V = q.V) (hA : p.A = q.A) (hS : p.S = q.S) :
    (chalOf R p).y = (chalOf R q).y ∧ (chalOf R p).z = (chalOf R q).z := by
  simp [chalOf, hV, hA, hS]

/-- The protocol determines the proof. -/
theorem honest_unique {R : Ristretto F G} {m : Nat} {v : List F} {coins : Coins F} {p q : Proof F G}
    {ip ip' : IP.Proof F G} (h : Honest R m v coins p ip) (h' : Honest R m v coins q ip') : p = q := by
  have hV : p.V = q.V := by rw [h.V, h'.V]
  have hA : p.A = q.A := by rw [h.A, h'.A]
  have hS : p.S = q.S := by rw [h.S, h'.S]
  obtain ⟨hy, hz⟩ := chalOf_yz R hV hA hS
  have hT1 : p.T1 = q.T1 := by rw [h.T1, h'.T1, hy, hz]
  have hT2 : p.T2 = q.T2 := by rw [h.T2, h'.T2, hy]
  have hx : (chalOf R p).x = (chalOf R q).x := by simp [chalOf, hV, hA, hS, hT1, hT2]
  have htaux : p.taux = q.taux := by rw [h.taux, h'.taux, hx, hz]
  have hmu : p.mu = q.mu := by rw [h.mu, h'.mu, hx]
  have ht : p.t = q.t := by rw [h.t, h'.t, hx, hy, hz]
  have hw : (chalOf R p).w = (chalOf R q).w := by simp [chalOf, hV, hA, hS, hT1, hT2, htaux, hmu, ht]
  have hip : ip = ip' := by
    have e := h.gen
    rw [hx, hy, hz, hw, h'.gen] at e
    cases e; rfl
  cases p; cases q
  simp only [Proof.mk.injEq]
  exact ⟨hV, hA, hS, hT1, hT2, htaux, hmu, ht, by have a := h.hasIp; have b := h'.hasIp; simp only at a b; rw [a, b, hip]⟩

/-- C65: with all values below `2^64 - 1`, debug mode returns exactly what normal mode returns. -/
theorem C65_debug_agrees (R : Ristretto F G) (m0 : Nat) (v : List F) (coins : Coins F) (p : Proof F G)
    (hv : ∀ a ∈ v, R.sNat a < 2 ^ 64 - 1) :
    (prove R m0 v true coins).2 = .ok p ↔ (prove R m0 v false coins).2 = .ok p := by
  rcases Nat.lt_or_ge v.length 1 with h | h
  · have : v = [] := List.length_eq_zero_iff.1 (by omega)
    subst this
    obtain ⟨e, he⟩ := (C68_empty R m0 true coins).2
    obtain ⟨e', he'⟩ := (C68_empty R m0 false coins).2
    rw [he, he']; simp
  rcases Nat.lt_or_ge 16 v.length with h' | h'
  · obtain ⟨e, he⟩ := (C68_many R m0 v true coins h').2
    obtain ⟨e', he'⟩ := (C68_many R m0 v false coins h').2
    rw [he, he']; simp
  obtain ⟨k, p1, ip1, ha1, ha2, -, hon1, -, -, hif1⟩ := C68_prove R m0 v true coins h h'
  obtain ⟨k', p2, ip2, hb1, hb2, -, hon2, -, -, hif2⟩ := C68_prove R m0 v false coins h h'
  have hk : k = k' := le_antisymm (ha2 _ hb1) (hb2 _ ha1)
  subst hk
  have hp : p1 = p2 := honest_unique hon1 hon2
  subst hp
  have hd : ¬ ∃ a ∈ v, 2 ^ 64 - 1 ≤ R.sNat a := by
    rintro ⟨a, ha, hle⟩
    have := hv a ha
    omega
  simp only [hd, and_false, or_false, Bool.false_eq_true, false_and] at hif1 hif2
  split at hif1
  · rename_i hc
    rw [if_pos hc] at hif2
    obtain ⟨e, he⟩ := hif1
    obtain ⟨e', he'⟩ := hif2
    rw [he, he']; simp
  · rename_i hc
    rw [if_neg hc] at hif2
    rw [hif1, hif2]

/-- C65 (violated at `2^64 - 1`): a value that is in range, and that normal mode proves, is rejected in debug mode. -/
theorem C65_debug_violated (R : Ristretto F G) (m0 : Nat) (v : List F) (coins : Coins F)
    (hv : ∃ a ∈ v, R.sNat a = 2 ^ 64 - 1) : (prove R m0 v true coins).2.IsErr := by
  obtain ⟨a, ha, hle⟩ := hv
  have h : 1 ≤ v.length := List.length_pos_of_mem ha
  rcases Nat.lt_or_ge 16 v.length with h' | h'
  · exact (C68_many R m0 v true coins h').2
  obtain ⟨k, p1, ip1, -, -, -, -, -, -, hif1⟩ := C68_prove R m0 v true coins h h'
  rwa [if_pos (Or.inr (Or.inr (Or.inr ⟨rfl, a, ha, by omega⟩)))] at hif1

/-- The value `2^64 - 1`: provable and accepted in normal mode, an error in debug mode. -/
example (coins : Coins Toy.K) :
    (∃ p, (prove Toy.ris 1 [((2 ^ 64 - 1 : Nat) : Toy.K)] false coins).2 = .ok p ∧
      ∀ c, verify Toy.ris (prove Toy.ris 1 [((2 ^ 64 - 1 : Nat) : Toy.K)] false coins).1 p c = .ok true) ∧
    (prove Toy.ris 1 [((2 ^ 64 - 1 : Nat) : Toy.K)] true coins).2.IsErr := by
  refine ⟨C60_nonzero_hash Toy.ris Toy.dv_ne_zero 1 _ coins (by simp) (by simp) ?_, C65_debug_violated _ _ _ _ ⟨_, List.mem_singleton.2 rfl, ?_⟩⟩
  · intro a ha
    rw [List.mem_singleton] at ha
    rw [ha, toy_sNat _ (by norm_num)]; norm_num
  · rw [toy_sNat _ (by norm_num)]

end Dusk.RP
