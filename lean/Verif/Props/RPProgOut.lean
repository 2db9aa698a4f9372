import Verif.Props.RPProg
/-!
# Outcomes of `sumZMTwoN` and of the blinding loop for all reads of `M` (C103)
-/

set_option linter.unusedSectionVars false

namespace Dusk.RP

open Prog

variable {F G : Type} [Field F] [AddCommGroup G] [Module F G] [DecidableEq F] [DecidableEq G]

section
variable {D : Nat → Prop}

theorem idx_ok_lt {α : Type} {l : List α} {i : Nat} {a : α} (h : idx l i = .ok a) : i < l.length := by
  by_contra hc
  unfold idx at h
  rw [List.getElem?_eq_none (by omega)] at h
  cases h

theorem inner_val (h2 : (2 : F) ≠ 0) (z : F) {n i j : Nat} {a b : F} (hc : (j - 1) * nBits ≤ i ∧ i < j * nBits)
    (ha : idx (Vec.scalarPowers z n) (j + 1) = .ok a) (hb : idx (Vec.scalarPowers (2 : F) nBits) (i - (j - 1) * nBits) = .ok b) :
    j = i / 64 + 1 ∧ a = z ^ (i / 64 + 2) ∧ b = 2 ^ (i % 64) := by
  unfold nBits at *
  have hj : j = i / 64 + 1 := by omega
  have hn := idx_ok_lt ha
  rw [scalarPowers_length] at hn
  rw [idx_scalarPowers z (by omega) hn] at ha
  rw [idx_powers h2 (by omega)] at hb
  subst hj
  refine ⟨rfl, (Res.ok.inj ha).symm, ?_⟩
  rw [← Res.ok.inj hb]
  congr 1
  omega

theorem inner_out (h2 : (2 : F) ≠ 0) (z : F) (n i : Nat) : ∀ (k j : Nat) (acc x : F), 1 ≤ j → j + k = i / 64 + 2 →
    Out D (sumInnerP (Vec.scalarPowers z n) (Vec.scalarPowers (2 : F) nBits) i k j acc) (.ok x) →
    x = acc ∨ x = z ^ (i / 64 + 2) * 2 ^ (i % 64) + acc
  | 0, j, acc, x, _, _, h => .inl (Res.ok.inj h)
  | k + 1, j, acc, x, hj, hk, h => by
    rw [sumInnerP] at h
    obtain ⟨m, -, h⟩ := out_get_bind.1 h
    split at h
    · split at h
      · next hc =>
        obtain ⟨a, ha, h⟩ := out_bind_ok.1 h
        obtain ⟨b, hb, h⟩ := out_bind_ok.1 h
        obtain ⟨hj', rfl, rfl⟩ := inner_val h2 z hc ha.symm hb.symm
        obtain rfl : k = 0 := by omega
        exact .inr (Res.ok.inj h)
      · exact inner_out h2 z n i k (j + 1) acc x (by omega) (by omega) h
    · exact .inl (Res.ok.inj h)

theorem inner_out_first (hD : ∀ m, D m → 1 ≤ m) (h2 : (2 : F) ≠ 0) (z : F) (n i : Nat) (hi : i < 64) (x : F)
    (h : Out D (sumInnerP (Vec.scalarPowers z n) (Vec.scalarPowers (2 : F) nBits) i (i / nBits + 1) 1 0) (.ok x)) :
    x = z ^ (i / 64 + 2) * 2 ^ (i % 64) := by
  have e : i / nBits + 1 = 0 + 1 := by unfold nBits; omega
  rw [e, sumInnerP] at h
  obtain ⟨m, hm, h⟩ := out_get_bind.1 h
  rw [if_pos (hD m hm), if_pos (by unfold nBits; omega)] at h
  obtain ⟨a, ha, h⟩ := out_bind_ok.1 h
  obtain ⟨b, hb, h⟩ := out_bind_ok.1 h
  obtain ⟨-, rfl, rfl⟩ := inner_val h2 z (by unfold nBits; omega) ha.symm hb.symm
  have := Res.ok.inj h
  rwa [add_zero] at this

theorem inner_full (h2 : (2 : F) ≠ 0) (z : F) {n mm i : Nat} (hmm : D mm) (hn : i / 64 + 2 < n) (hi : i / 64 + 1 ≤ mm) : ∀ (k j : Nat), 1 ≤ j →
    1 ≤ k → j + k = i / 64 + 2 →
    Out D (sumInnerP (Vec.scalarPowers z n) (Vec.scalarPowers (2 : F) nBits) i k j 0) (.ok (z ^ (i / 64 + 2) * 2 ^ (i % 64)))
  | 0, j, _, h, _ => by omega
  | k + 1, j, hj, _, hk => by
    rw [sumInnerP]
    refine out_get_bind.2 ⟨mm, hmm, ?_⟩
    rw [if_pos (by omega)]
    by_cases hk0 : k = 0
    · subst hk0
      obtain rfl : j = i / 64 + 1 := by omega
      rw [if_pos (by unfold nBits; omega)]
      refine out_bind_ok.2 ⟨z ^ (i / 64 + 2), (idx_scalarPowers z (by omega) (by omega)).symm, ?_⟩
      refine out_bind_ok.2 ⟨2 ^ (i % 64), ?_, ?_⟩
      · rw [show i - (i / 64 + 1 - 1) * nBits = i % 64 by unfold nBits; omega]
        exact (idx_powers h2 (by unfold nBits; omega)).symm
      · show Res.ok _ = Res.ok _
        rw [add_zero]
    · rw [if_neg (by unfold nBits; omega)]
      exact inner_full h2 z hmm hn hi k (j + 1) (by omega) (by omega) (by omega)

theorem inner_none (h1 : D 1) (z : F) {n i : Nat} (hi : 64 ≤ i) :
    Out D (sumInnerP (Vec.scalarPowers z n) (Vec.scalarPowers (2 : F) nBits) i (i / nBits + 1) 1 0) (.ok 0) := by
  obtain ⟨k, hk⟩ : ∃ k, i / nBits + 1 = k + 1 + 1 := ⟨i / 64 - 1, by unfold nBits; omega⟩
  rw [hk, sumInnerP]
  refine out_get_bind.2 ⟨1, h1, ?_⟩
  rw [if_pos le_rfl, if_neg (by unfold nBits; omega), sumInnerP]
  refine out_get_bind.2 ⟨1, h1, ?_⟩
  rw [if_neg (by omega)]
  rfl

theorem outer_out (hD : ∀ m, D m → 1 ≤ m) (h2 : (2 : F) ≠ 0) (z : F) (n : Nat) : ∀ (k i : Nat) (acc l : List F),
    Out D (sumOuterP (Vec.scalarPowers z n) (Vec.scalarPowers (2 : F) nBits) k i acc) (.ok l) →
    ∃ W : Nat → Bool, (∀ i < 64, W i) ∧ l = acc ++ (List.range' i k).map (maskAt W z)
  | 0, i, acc, l, h => by
    rw [sumOuterP] at h
    obtain ⟨m, -, h⟩ := out_get_bind.1 h
    split at h
    · cases h
    · exact ⟨fun _ => true, by simp, by rw [Res.ok.inj h]; simp⟩
  | k + 1, i, acc, l, h => by
    rw [sumOuterP] at h
    obtain ⟨m, hm, h⟩ := out_get_bind.1 h
    split at h
    · obtain ⟨x, hx, h⟩ := out_bind_ok.1 h
      obtain ⟨W, hW, hl⟩ := outer_out hD h2 z n k (i + 1) _ l h
      have hx' : ∃ b : Bool, (i < 64 → b) ∧ x = if b then z ^ (i / 64 + 2) * 2 ^ (i % 64) else 0 := by
        by_cases hi : i < 64
        · exact ⟨true, by simp, by rw [inner_out_first hD h2 z n i hi x hx]; simp⟩
        · rcases inner_out h2 z n i (i / nBits + 1) 1 0 x le_rfl (by unfold nBits; omega) hx with h | h
          · exact ⟨false, by omega, by simp [h]⟩
          · exact ⟨true, by simp, by simp [h]⟩
      obtain ⟨b, hb, hx'⟩ := hx'
      refine ⟨fun j => if j = i then b else W j, fun j hj => ?_, ?_⟩
      · dsimp only
        split
        · next h => exact hb (h ▸ hj)
        · exact hW j hj
      · rw [hl, List.range'_succ, List.map_cons, List.append_assoc, List.singleton_append]
        congr 1
        congr 1
        · rw [hx', maskAt]; simp
        · apply List.map_congr_left
          intro j hj
          have := (List.mem_range'_1.1 hj).1
          rw [maskAt, maskAt, if_neg (show ¬ j = i by omega)]
    · next hlt =>
      have hi : 64 ≤ i := by have := hD m hm; unfold nBits at hlt; omega
      refine ⟨fun j => decide (j < 64), by simp, ?_⟩
      rw [Res.ok.inj h]
      congr 1
      symm
      rw [List.eq_replicate_iff]
      refine ⟨by simp, fun x hx => ?_⟩
      obtain ⟨j, hj, rfl⟩ := List.mem_map.1 hx
      have := (List.mem_range'_1.1 hj).1
      rw [maskAt, if_neg (by simp; omega)]

theorem outer_reach (h1 : D 1) (h2 : (2 : F) ≠ 0) (z : F) {n mm : Nat} (hmm : D mm) (hn : mm + 1 < n)
    (W : Nat → Bool) (hW : ∀ i < 64, W i) : ∀ (k i : Nat) (acc : List F), i + k = 64 * mm →
    Out D (sumOuterP (Vec.scalarPowers z n) (Vec.scalarPowers (2 : F) nBits) k i acc) (.ok (acc ++ (List.range' i k).map (maskAt W z)))
  | 0, i, acc, h => by
    rw [sumOuterP]
    refine out_get_bind.2 ⟨mm, hmm, ?_⟩
    rw [if_neg (by unfold nBits; omega)]
    show Res.ok _ = Res.ok _
    simp
  | k + 1, i, acc, h => by
    rw [sumOuterP]
    refine out_get_bind.2 ⟨mm, hmm, ?_⟩
    rw [if_pos (by unfold nBits; omega)]
    refine out_bind_ok.2 ⟨maskAt W z i, ?_, ?_⟩
    · unfold maskAt
      cases hWi : W i with
      | true =>
        rw [if_pos rfl]
        exact inner_full h2 z hmm (by omega) (by omega) _ _ le_rfl (Nat.le_add_left ..) (by unfold nBits; omega)
      | false =>
        simp only [Bool.false_eq_true, if_false]
        refine inner_none h1 z ?_
        by_contra hc
        rw [hW i (by omega)] at hWi
        cases hWi
    · have := outer_reach h1 h2 z hmm hn W hW k (i + 1) (acc ++ [maskAt W z i]) (by omega)
      rwa [List.append_assoc, List.singleton_append, ← List.map_cons, ← List.range'_succ] at this

end

/-- C103: what `sumZMTwoN` returns while `M` changes: exactly the vectors `z² 2^n, z³ 2^n, …` for some number of values, from which any
elements after the first 64 may be missing. -/
theorem C103_sum (h2 : (2 : F) ≠ 0) (z : F) (l : List F) : Out Usual (sumZMTwoNP z) (.ok l) ↔
    ∃ m, Usual m ∧ ∃ W : Nat → Bool, (∀ i < 64, W i) ∧ l = (List.range (64 * m)).map (maskAt W z) := by
  unfold sumZMTwoNP
  constructor
  · intro h
    obtain ⟨m1, h1, h⟩ := out_get_bind.1 h
    obtain ⟨m2, -, h⟩ := out_get_bind.1 h
    obtain ⟨W, hW, rfl⟩ := outer_out (fun m (h : Usual m) => h.1) h2 z _ _ _ _ l h
    exact ⟨m1, h1, W, hW, by rw [List.nil_append, List.range_eq_range', nBits]⟩
  · rintro ⟨m, hm, W, hW, rfl⟩
    have hlt := hm.2
    refine out_get_bind.2 ⟨m, hm, out_get_bind.2 ⟨m, hm, ?_⟩⟩
    rw [Nat.mod_eq_of_lt (by omega)]
    have := outer_reach (D := Usual) ⟨le_rfl, by norm_num⟩ h2 z hm (n := m + 3) (by omega) W hW (64 * m) 0 [] (by omega)
    rwa [List.nil_append, ← List.range_eq_range'] at this

/-- C103: it never returns an error, and it may always panic. -/
theorem C103_sum_fail (z : F) : (∀ e, ¬ Out Usual (sumZMTwoNP z) (.err e)) ∧ Out Usual (sumZMTwoNP z) .panic := by
  have hidx : ∀ {α : Type} (l : List α) (i : Nat) e, idx l i ≠ .err e := by
    intro α l i e
    unfold idx
    cases l[i]? <;> simp
  have hin : ∀ (zM tw : List F) (i k j : Nat) (acc : F) e, ¬ Out Usual (sumInnerP zM tw i k j acc) (.err e) := by
    intro zM tw i k
    induction k with
    | zero => intro j acc e h; cases h
    | succ k ih =>
      intro j acc e h
      rw [sumInnerP] at h
      obtain ⟨m, -, h⟩ := out_get_bind.1 h
      split at h
      · split at h
        · rcases out_bind.1 h with ⟨a, -, h⟩ | ⟨e', h, -⟩ | ⟨-, h⟩
          · rcases out_bind.1 h with ⟨b, -, h⟩ | ⟨e', h, -⟩ | ⟨-, h⟩
            · exact ih _ _ _ h
            · exact hidx _ _ _ h.symm
            · cases h
          · exact hidx _ _ _ h.symm
          · cases h
        · exact ih _ _ _ h
      · cases h
  have hout : ∀ (zM tw : List F) (k i : Nat) (acc : List F) e, ¬ Out Usual (sumOuterP zM tw k i acc) (.err e) := by
    intro zM tw k
    induction k with
    | zero =>
      intro i acc e h
      rw [sumOuterP] at h
      obtain ⟨m, -, h⟩ := out_get_bind.1 h
      split at h <;> cases h
    | succ k ih =>
      intro i acc e h
      rw [sumOuterP] at h
      obtain ⟨m, -, h⟩ := out_get_bind.1 h
      split at h
      · rcases out_bind.1 h with ⟨a, -, h⟩ | ⟨e', h, -⟩ | ⟨-, h⟩
        · exact ih _ _ _ h
        · exact hin _ _ _ _ _ _ _ h
        · cases h
      · cases h
  refine ⟨fun e h => ?_, ?_⟩
  · unfold sumZMTwoNP at h
    obtain ⟨m1, -, h⟩ := out_get_bind.1 h
    obtain ⟨m2, -, h⟩ := out_get_bind.1 h
    exact hout _ _ _ _ _ _ h
  · unfold sumZMTwoNP
    have h1 : Usual 1 := ⟨le_rfl, by norm_num⟩
    have h2' : Usual 2 := ⟨by norm_num, by norm_num⟩
    refine out_get_bind.2 ⟨1, h1, out_get_bind.2 ⟨1, h1, ?_⟩⟩
    have key : ∀ (k i : Nat) (acc : List F), i + k = 64 →
        Out Usual (sumOuterP (Vec.scalarPowers z ((1 + 3) % 2 ^ 32)) (Vec.scalarPowers (2 : F) nBits) k i acc) .panic := by
      intro k
      induction k with
      | zero =>
        intro i acc h
        rw [sumOuterP]
        refine out_get_bind.2 ⟨2, h2', ?_⟩
        rw [if_pos (by unfold nBits; omega)]
        rfl
      | succ k ih =>
        intro i acc h
        rw [sumOuterP]
        refine out_get_bind.2 ⟨1, h1, ?_⟩
        rw [if_pos (by unfold nBits; omega)]
        have hx : ∃ x, Out Usual (sumInnerP (Vec.scalarPowers z ((1 + 3) % 2 ^ 32)) (Vec.scalarPowers (2 : F) nBits) i (i / nBits + 1) 1 0) (.ok x) := by
          have e : i / nBits + 1 = 0 + 1 := by unfold nBits; omega
          rw [e, sumInnerP]
          have l1 : ∃ a, idx (Vec.scalarPowers z ((1 + 3) % 2 ^ 32)) (1 + 1) = .ok a := ⟨_, idx_of_lt (by rw [scalarPowers_length]; norm_num)⟩
          have l2 : ∃ a, idx (Vec.scalarPowers (2 : F) nBits) (i - (1 - 1) * nBits) = .ok a :=
            ⟨_, idx_of_lt (by rw [scalarPowers_length]; unfold nBits; omega)⟩
          obtain ⟨a, ha⟩ := l1
          obtain ⟨b, hb⟩ := l2
          refine ⟨a * b + 0, out_get_bind.2 ⟨1, h1, ?_⟩⟩
          rw [if_pos le_rfl, if_pos (by unfold nBits; omega)]
          exact out_bind_ok.2 ⟨a, ha.symm, out_bind_ok.2 ⟨b, hb.symm, rfl⟩⟩
        obtain ⟨x, hx⟩ := hx
        exact out_bind.2 (.inl ⟨x, hx, ih (i + 1) _ (by omega)⟩)
    exact key _ _ _ rfl

/-! ## The blinding loop -/

section
variable {D : Nat → Prop}

theorem sLoop_out (hD : ∀ m, D m → 1 ≤ m) (n2 : Nat) : ∀ (k i c : Nat), Out D (sLoopP n2 k i) (.ok c) → i ≤ c ∧ c ≤ i + k ∧ 64 ≤ c ∧ (c = i ∨ c ≤ n2)
  | 0, i, c, h => by
    rw [sLoopP] at h
    obtain ⟨m, hm, h⟩ := out_get_bind.1 h
    split at h
    · cases h
    · next hlt =>
      have := Res.ok.inj h
      have := hD m hm
      unfold nBits at hlt
      omega
  | k + 1, i, c, h => by
    rw [sLoopP] at h
    obtain ⟨m, hm, h⟩ := out_get_bind.1 h
    split at h
    · split at h
      · have := sLoop_out hD n2 k (i + 1) c h
        omega
      · cases h
    · next hlt =>
      have := Res.ok.inj h
      have := hD m hm
      unfold nBits at hlt
      omega

theorem sLoop_reach (h1 : D 1) {mm : Nat} (hmm : D mm) {n2 c : Nat} (hc : 64 ≤ c) (hc1 : c ≤ 64 * mm) (hc2 : c ≤ n2) : ∀ (k i : Nat), i ≤ c → c ≤ i + k →
    Out D (sLoopP n2 k i) (.ok c)
  | 0, i, h1', h2' => by
    rw [sLoopP]
    refine out_get_bind.2 ⟨1, h1, ?_⟩
    rw [if_neg (by unfold nBits; omega)]
    show Res.ok _ = Res.ok _
    congr 1
    omega
  | k + 1, i, h1', h2' => by
    rw [sLoopP]
    by_cases hi : i = c
    · refine out_get_bind.2 ⟨1, h1, ?_⟩
      rw [if_neg (by unfold nBits; omega), hi]
      rfl
    · refine out_get_bind.2 ⟨mm, hmm, ?_⟩
      rw [if_pos (by unfold nBits; omega), if_pos (by omega)]
      exact sLoop_reach h1 hmm hc hc1 hc2 k (i + 1) (by omega) (by omega)

end

theorem range_cut (coins : Coins F) {c n : Nat} (h : c ≤ n) :
    (List.range c).map coins.sL ++ List.replicate (n - c) 0 = (List.range n).map (cut coins c).sL ∧
    (List.range c).map coins.sR ++ List.replicate (n - c) 0 = (List.range n).map (cut coins c).sR := by
  constructor <;>
  · apply List.ext_getElem
    · simp; omega
    · intro i h1 h2
      rw [List.getElem_append]
      simp only [List.length_map, List.length_range, List.getElem_map, List.getElem_range, List.getElem_replicate, cut]
      split <;> rfl

/-- C103: what `computeS` commits to while `M` changes: exactly the vectors of random scalars of which only the first `c`, at least 64,
are drawn, the others being zero. -/
theorem C103_blinding (R : Ristretto F G) (ped : Pedersen G) (coins : Coins F) (s : (Commitment F G × Pedersen G) × List F × List F) :
    Out Usual (computeSP R ped coins) (.ok s) ↔ ∃ m1 m2 c, Usual m1 ∧ Usual m2 ∧ 64 ≤ c ∧ c ≤ 64 * m1 ∧ c ≤ 64 * m2 ∧
      s.2.1 = (List.range (64 * m1)).map (cut coins c).sL ∧ s.2.2 = (List.range (64 * m2)).map (cut coins c).sR ∧
      ped.commitToVectors R [s.2.1, s.2.2] coins.sBlind = .ok s.1 := by
  unfold computeSP
  constructor
  · intro h
    obtain ⟨m1, h1, h⟩ := out_get_bind.1 h
    obtain ⟨m2, h2, h⟩ := out_get_bind.1 h
    obtain ⟨c, hc, h⟩ := out_bind_ok.1 h
    obtain ⟨-, c1, c2, c3⟩ := sLoop_out (fun m (h : Usual m) => h.1) _ _ _ _ hc
    have c3 : c ≤ nBits * m2 := by omega
    have c1 : c ≤ nBits * m1 := by omega
    rw [(range_cut coins c1).1, (range_cut coins c3).2] at h
    obtain ⟨d, hd, h⟩ := Res.bind_eq_ok.1 (out_lift.1 h).symm
    cases Res.ok.inj h
    exact ⟨m1, m2, c, h1, h2, c2, c1, c3, rfl, rfl, hd⟩
  · rintro ⟨m1, m2, c, h1, h2, c1, c2, c3, e1, e2, hs⟩
    refine out_get_bind.2 ⟨m1, h1, out_get_bind.2 ⟨m2, h2, out_bind_ok.2 ⟨c, ?_, ?_⟩⟩⟩
    · exact sLoop_reach (D := Usual) ⟨le_rfl, by norm_num⟩ h1 c1 c2 c3 _ _ (by omega) (by unfold nBits; omega)
    · rw [(range_cut coins (show c ≤ nBits * m1 from c2)).1, (range_cut coins (show c ≤ nBits * m2 from c3)).2]
      show Res.ok s = _
      have e1 : (List.range (nBits * m1)).map (cut coins c).sL = s.2.1 := e1.symm
      have e2 : (List.range (nBits * m2)).map (cut coins c).sR = s.2.2 := e2.symm
      rw [e1, e2, hs]
      rfl

/-! ## Examples -/

/-- With `M` = 2 the second half of the vector may be missing. -/
example (z : Toy.K) : Out Usual (sumZMTwoNP z) (.ok ((List.range 128).map fun i => if i < 64 then z ^ (i / 64 + 2) * 2 ^ (i % 64) else 0)) := by
  refine (C103_sum Toy.ris.two_ne_zero z _).2 ⟨2, ⟨by norm_num, by norm_num⟩, fun i => decide (i < 64), by simp, ?_⟩
  apply List.map_congr_left
  intro i _
  simp [maskAt]

example (coins : Coins Toy.K) (s : (Commitment Toy.K Toy.K × Pedersen Toy.K) × List Toy.K × List Toy.K)
    (h1 : s.2.1 = (List.range (64 * 2)).map (cut coins 64).sL) (h2 : s.2.2 = (List.range (64 * 2)).map (cut coins 64).sR)
    (h : (newPed Toy.ris 2).commitToVectors Toy.ris [s.2.1, s.2.2] coins.sBlind = .ok s.1) :
    Out Usual (computeSP Toy.ris (newPed Toy.ris 2) coins) (.ok s) :=
  (C103_blinding Toy.ris _ coins _).2 ⟨2, 2, 64, ⟨by norm_num, by norm_num⟩, ⟨by norm_num, by norm_num⟩, le_rfl, by norm_num, by norm_num, h1, h2, h⟩

end Dusk.RP
