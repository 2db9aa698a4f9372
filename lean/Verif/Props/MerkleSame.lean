import Verif.Props.MerkleCases
import Mathlib.Tactic.IntervalCases
import Mathlib.Data.List.GetD
import Mathlib.Tactic.Ring
import Mathlib.Tactic.NormNum
import Mathlib.Tactic.Positivity
import Mathlib.Tactic.Push
import Mathlib.Data.List.Nodup
/-!
# C142: exactly which payload lists have the same Merkle root
-/

namespace Dusk.Merkle

namespace Spec

variable (H : Bytes → Bytes)

/-- The number of rounds for `n` payloads: the least `d ≥ 1` with `n ≤ 2^d`. -/
def depth (n : Nat) : Nat := max 1 (Nat.clog 2 n)

/-- Which of `n` payloads stands at place `i` of the `2^d` places of the bottom of the tree: a node without a partner is
repeated, on every level. -/
def place : Nat → Nat → Nat → Nat
  | 0, _, _ => 0
  | d + 1, n, i => min (2 * place d ((n + 1) / 2) (i / 2) + i % 2) (n - 1)

/-- The bottom of the tree of a list of payload hashes. -/
def bottom (l : List Bytes) (i : Nat) : Bytes := l.getD (place (depth l.length) l.length i) []

/-- The value on top of `2^d` values. -/
def top : Nat → (Nat → Bytes) → Bytes
  | 0, g => g 0
  | d + 1, g => top d fun i => H (g (2 * i) ++ g (2 * i + 1))

/-- The value of the `i`-th node `k` levels above the bottom. -/
def above (k : Nat) (g : Nat → Bytes) (i : Nat) : Bytes := top H k fun j => g (i * 2 ^ k + j)

/-- The strings that are hashed in one round. -/
def pairs : List Bytes → List Bytes
  | [] => []
  | [x] => [x ++ x]
  | x :: y :: l => (x ++ y) :: pairs l

/-- The strings that are hashed to compute a Merkle root. -/
def inputs (l : List Bytes) : List Bytes := pairs l ++ if _h : l.length ≤ 2 then [] else inputs (level H l)
termination_by l.length
decreasing_by rw [level_length]; omega

end Spec

open Spec

theorem place_lt : ∀ (d n i : Nat), 1 ≤ n → place d n i < n
  | 0, n, i, h => by simp only [place]; omega
  | d + 1, n, i, h => by simp only [place]; omega

theorem place_surj : ∀ (d n p : Nat), n ≤ 2 ^ d → p < n → ∃ i < 2 ^ d, place d n i = p
  | 0, n, p, h, hp => ⟨0, by simp, by simp only [pow_zero] at h; simp only [place]; omega⟩
  | d + 1, n, p, h, hp => by
    rw [pow_succ] at h
    obtain ⟨i, hi, he⟩ := place_surj d ((n + 1) / 2) (p / 2) (by omega) (by omega)
    refine ⟨2 * i + p % 2, by rw [pow_succ]; omega, ?_⟩
    simp only [place]
    rw [show (2 * i + p % 2) / 2 = i by omega, he]
    omega

theorem level_getD (H : Bytes → Bytes) : ∀ (l : List Bytes) (p : Nat), p < (l.length + 1) / 2 →
    (level H l).getD p [] = H (l.getD (2 * p) [] ++ l.getD (min (2 * p + 1) (l.length - 1)) [])
  | [], p, h => by simp at h
  | [x], p, h => by
    obtain rfl : p = 0 := by simp at h; exact h
    simp [level]
  | x :: y :: l, 0, h => by simp [level]
  | x :: y :: l, p + 1, h => by
    simp only [List.length_cons] at h
    have ih := level_getD H l p (by omega)
    have hl : 1 ≤ l.length := by omega
    simp only [level, List.getD_cons_succ, List.length_cons]
    rw [ih, show 2 * (p + 1) = 2 * p + 1 + 1 by ring, List.getD_cons_succ, List.getD_cons_succ,
      show min (2 * p + 1 + 1 + 1) (l.length + 1 + 1 - 1) = min (2 * p + 1) (l.length - 1) + 1 + 1 by omega,
      List.getD_cons_succ, List.getD_cons_succ]

theorem pairs_mem : ∀ (l : List Bytes) (p : Nat), p < (l.length + 1) / 2 →
    l.getD (2 * p) [] ++ l.getD (min (2 * p + 1) (l.length - 1)) [] ∈ pairs l
  | [], p, h => by simp at h
  | [x], p, h => by
    obtain rfl : p = 0 := by simp at h; exact h
    simp [pairs]
  | x :: y :: l, 0, h => by simp [pairs]
  | x :: y :: l, p + 1, h => by
    simp only [List.length_cons] at h
    have ih := pairs_mem l p (by omega)
    simp only [pairs, List.length_cons]
    rw [show 2 * (p + 1) = 2 * p + 1 + 1 by ring, List.getD_cons_succ, List.getD_cons_succ,
      show min (2 * p + 1 + 1 + 1) (l.length + 1 + 1 - 1) = min (2 * p + 1) (l.length - 1) + 1 + 1 by omega,
      List.getD_cons_succ, List.getD_cons_succ]
    exact List.mem_cons_of_mem _ ih

/-- One round takes the bottom to the bottom of the next level. -/
theorem bottom_pair (l : List Bytes) (hl : l ≠ []) (d i : Nat) :
    l.getD (place (d + 1) l.length (2 * i)) [] ++ l.getD (place (d + 1) l.length (2 * i + 1)) [] =
      l.getD (2 * place d ((l.length + 1) / 2) i) [] ++ l.getD (min (2 * place d ((l.length + 1) / 2) i + 1) (l.length - 1)) [] := by
  have h1 : 1 ≤ l.length := List.length_pos_iff.2 hl
  have := place_lt d ((l.length + 1) / 2) i (by omega)
  simp only [place]
  rw [show 2 * i / 2 = i by omega, show (2 * i + 1) / 2 = i by omega, show 2 * i % 2 = 0 by omega, show (2 * i + 1) % 2 = 1 by omega,
    show min (2 * place d ((l.length + 1) / 2) i + 0) (l.length - 1) = 2 * place d ((l.length + 1) / 2) i by omega]

theorem top_level (H : Bytes → Bytes) (l : List Bytes) (hl : l ≠ []) (d : Nat) :
    top H (d + 1) (fun i => l.getD (place (d + 1) l.length i) []) =
      top H d (fun i => (level H l).getD (place d (level H l).length i) []) := by
  have h1 : 1 ≤ l.length := List.length_pos_iff.2 hl
  simp only [top]
  congr 1
  funext i
  rw [bottom_pair l hl d i, level_length, level_getD H l _ (place_lt d ((l.length + 1) / 2) i (by omega))]

theorem rounds_top (H : Bytes → Bytes) (n : Nat) : ∀ l : List Bytes, l.length = n → l ≠ [] →
    rounds H l = top H (height n) (fun i => l.getD (place (height n) l.length i) []) := by
  induction n using Nat.strong_induction_on with
  | _ n ih =>
    intro l hn hl
    have h1 : 1 ≤ l.length := List.length_pos_iff.2 hl
    by_cases h : n ≤ 1
    · rw [rounds, dif_pos (by omega), height, if_pos h]
      obtain ⟨x, rfl⟩ := List.length_eq_one_iff.1 (show l.length = 1 by omega)
      simp [top, place]
    · rw [rounds, dif_neg (by omega), height, if_neg h, top_level H l hl]
      have hll := level_length H l
      exact (ih ((n + 1) / 2) (by omega) (level H l) (by omega) (by intro h0; rw [h0] at hll; simp at hll; omega))

theorem depth_eq (n : Nat) (hn : 1 ≤ n) : depth n = height ((n + 1) / 2) + 1 := by
  unfold depth
  by_cases h : n = 1
  · subst h; rw [height]; simp
  · rw [← height_step (by omega), height_clog]
    have : 1 ≤ Nat.clog 2 n := Nat.clog_pos (by norm_num) (by omega)
    omega

theorem le_depth (n : Nat) : n ≤ 2 ^ depth n :=
  (Nat.le_pow_clog (by norm_num) n).trans (Nat.pow_le_pow_right (by norm_num) (le_max_right _ _))

/-- C142: the Merkle root is the value on top of a full binary tree over the bottom. -/
theorem root_top (H : Bytes → Bytes) (l : List Bytes) (hl : l ≠ []) : root H l = top H (depth l.length) (bottom l) := by
  have h1 : 1 ≤ l.length := List.length_pos_iff.2 hl
  have hll := level_length H l
  unfold bottom
  rw [root, depth_eq _ h1, top_level H l hl,
    rounds_top H ((l.length + 1) / 2) (level H l) hll (by intro h0; rw [h0] at hll; simp at hll; omega)]

/-! ## Values on the way to the top -/

theorem top_add (H : Bytes → Bytes) (d : Nat) : ∀ (k : Nat) (g : Nat → Bytes), top H (d + k) g = top H d (above H k g)
  | 0, g => by
    unfold above
    simp only [Nat.add_zero, pow_zero, Nat.mul_one, top]
  | k + 1, g => by
    rw [← Nat.add_assoc, top, top_add H d k]
    congr 1
    funext i
    simp only [above, top]
    congr 1
    funext j
    rw [pow_succ, show 2 * (i * 2 ^ k + j) = i * (2 ^ k * 2) + 2 * j by ring, Nat.add_assoc]

theorem above_step (H : Bytes → Bytes) (k : Nat) (g : Nat → Bytes) (i : Nat) :
    above H (k + 1) g i = H (above H k g (2 * i) ++ above H k g (2 * i + 1)) := by
  have h : above H (k + 1) g i = top H (1 + k) fun j => g (i * 2 ^ (k + 1) + j) := by rw [Nat.add_comm]; rfl
  rw [h, top_add]
  simp only [top, above]
  congr 2
  · congr 1; funext j; rw [pow_succ]; congr 1; ring
  · congr 1; funext j; rw [pow_succ]; congr 1; ring

/-- The strings hashed between two levels of a full tree. -/
def Asked (H : Bytes → Bytes) (d : Nat) (g : Nat → Bytes) (x : Bytes) : Prop :=
  ∃ k i, k < d ∧ i < 2 ^ (d - k - 1) ∧ x = above H k g (2 * i) ++ above H k g (2 * i + 1)

theorem above_zero (H : Bytes → Bytes) (g : Nat → Bytes) (i : Nat) : above H 0 g i = g i := by simp [above, top]

theorem above_above (H : Bytes → Bytes) (a k : Nat) (g : Nat → Bytes) (i : Nat) : above H a (above H k g) i = above H (a + k) g i := by
  have : above H (a + k) g i = top H (a + k) fun j => g (i * 2 ^ (a + k) + j) := rfl
  rw [this, top_add]
  unfold above
  congr 1
  funext j
  congr 1
  funext m
  rw [pow_add]
  congr 1
  ring

theorem asked_above {H : Bytes → Bytes} {d k : Nat} {g : Nat → Bytes} {x : Bytes} (h : Asked H d (above H k g) x) :
    Asked H (d + k) g x := by
  obtain ⟨a, i, ha, hi, rfl⟩ := h
  refine ⟨a + k, i, by omega, ?_, by rw [above_above, above_above]⟩
  rwa [show d + k - (a + k) - 1 = d - a - 1 by omega]

/-- Two full trees of one depth with the same top have the same bottom, or a collision. -/
theorem top_binding {H : Bytes → Bytes} (hH : ∀ x, (H x).length = 32) : ∀ (d : Nat) (g g' : Nat → Bytes),
    (∀ i < 2 ^ d, (g i).length = 32) → (∀ i < 2 ^ d, (g' i).length = 32) → top H d g = top H d g' →
    (∀ i < 2 ^ d, g i = g' i) ∨ ∃ x y, Asked H d g x ∧ Asked H d g' y ∧ x ≠ y ∧ H x = H y
  | 0, g, g', _, _, h => .inl fun i hi => by
    obtain rfl : i = 0 := by simpa using hi
    exact h
  | d + 1, g, g', hg, hg', h => by
    have e : ∀ g : Nat → Bytes, (fun i => H (g (2 * i) ++ g (2 * i + 1))) = above H 1 g := by
      intro g; funext i; rw [above_step, above_zero, above_zero]
    simp only [top, e] at h
    have hlen : ∀ g : Nat → Bytes, ∀ i, (above H 1 g i).length = 32 := by intro g i; rw [← e]; exact hH _
    rcases top_binding hH d (above H 1 g) (above H 1 g') (fun i _ => hlen g i) (fun i _ => hlen g' i) h with h1 | ⟨x, y, hx, hy, h1, h2⟩
    · by_cases hc : ∀ i < 2 ^ d, g (2 * i) ++ g (2 * i + 1) = g' (2 * i) ++ g' (2 * i + 1)
      · left
        intro i hi
        rw [pow_succ] at hi hg hg'
        have := hc (i / 2) (by omega)
        have hp := List.append_inj this (by rw [hg _ (by omega), hg' _ (by omega)])
        rcases Nat.mod_two_eq_zero_or_one i with h0 | h0
        · have := hp.1; rwa [show 2 * (i / 2) = i by omega] at this
        · have := hp.2; rwa [show 2 * (i / 2) + 1 = i by omega] at this
      · push Not at hc
        obtain ⟨i, hi, hne⟩ := hc
        right
        refine ⟨_, _, ⟨0, i, by omega, by simpa using hi, by rw [above_zero, above_zero]⟩,
          ⟨0, i, by omega, by simpa using hi, by rw [above_zero, above_zero]⟩, hne, ?_⟩
        have := h1 i hi
        rwa [← e, ← e] at this
    · exact .inr ⟨x, y, asked_above hx, asked_above hy, h1, h2⟩

/-- What a tree over the bottom hashes is hashed by the code. -/
theorem asked_inputs (H : Bytes → Bytes) (d : Nat) : ∀ l : List Bytes, l ≠ [] → depth l.length = d → ∀ x,
    Asked H d (bottom l) x → x ∈ inputs H l := by
  induction d with
  | zero => intro l hl hd; simp [depth] at hd
  | succ d ih =>
    intro l hl hd x hx
    have h1 : 1 ≤ l.length := List.length_pos_iff.2 hl
    obtain ⟨k, i, hk, hi, rfl⟩ := hx
    have hb : bottom l = fun i => l.getD (place (d + 1) l.length i) [] := by funext i; rw [bottom, hd]
    have hll := level_length H l
    rw [inputs, List.mem_append]
    cases k with
    | zero =>
      left
      rw [above_zero, above_zero, hb, bottom_pair l hl d i]
      exact pairs_mem l _ (place_lt d _ i (by omega))
    | succ k =>
      right
      have hd0 : height ((l.length + 1) / 2) = d := by rw [depth_eq _ h1] at hd; omega
      have h3 : ¬ l.length ≤ 2 := fun h => by
        have : (l.length + 1) / 2 = 1 := by omega
        rw [this, height_one] at hd0
        omega
      rw [dif_neg h3]
      have hne : level H l ≠ [] := by intro h0; rw [h0] at hll; simp at hll; omega
      have hdl : depth (level H l).length = d := by
        rw [hll, depth_eq _ (by omega), ← hd0, height_step (n := (l.length + 1) / 2) (by omega)]
      have hab : above H 1 (bottom l) = bottom (level H l) := by
        funext j
        rw [above_step, above_zero, above_zero, hb]
        simp only
        rw [bottom_pair l hl d j, ← level_getD H l _ (place_lt d _ j (by omega)), bottom, hdl, hll]
      refine ih (level H l) hne hdl _ ⟨k, i, by omega, ?_, ?_⟩
      · rwa [show d - k - 1 = d + 1 - (k + 1) - 1 by omega]
      · rw [← hab, above_above, above_above]

theorem bottom_length (l : List Bytes) (hl : l ≠ []) (h : ∀ x ∈ l, x.length = 32) (i : Nat) : (bottom l i).length = 32 := by
  have h1 : 1 ≤ l.length := List.length_pos_iff.2 hl
  have := place_lt (depth l.length) l.length i h1
  rw [bottom, List.getD_eq_getElem _ _ this]
  exact h _ (List.getElem_mem _)

theorem above_length {H : Bytes → Bytes} (hH : ∀ x, (H x).length = 32) (k : Nat) (g : Nat → Bytes) (hg : ∀ i, (g i).length = 32) (i : Nat) :
    (above H k g i).length = 32 := by
  cases k with
  | zero => rw [above_zero]; exact hg i
  | succ k => rw [above_step]; exact hH _

/-- C142 (sufficient, no hypothesis on the hash): if the bottom of the tree of `l'` is the level of the tree of `l` that has as many
places, the two lists have the same Merkle root. -/
theorem C142_same_violated (H : Bytes → Bytes) (l l' : List Bytes) (hl : l ≠ []) (hl' : l' ≠ [])
    (hd : depth l'.length ≤ depth l.length)
    (h : ∀ i < 2 ^ depth l'.length, above H (depth l.length - depth l'.length) (bottom l) i = bottom l' i) : root H l = root H l' := by
  rw [root_top H l hl, root_top H l' hl']
  generalize bottom l' = b at *
  obtain ⟨k, hk⟩ : ∃ k, depth l.length = depth l'.length + k := ⟨_, (Nat.add_sub_cancel' hd).symm⟩
  rw [hk, Nat.add_sub_cancel_left] at h
  rw [hk, top_add]
  generalize above H k (bottom l) = a at *
  generalize depth l'.length = d at *
  clear hk hd
  induction d generalizing a b with
  | zero => exact h 0 (by simp)
  | succ d ih =>
    simp only [top]
    refine ih _ _ fun i hi => ?_
    rw [pow_succ] at h
    rw [h (2 * i) (by omega), h (2 * i + 1) (by omega)]

/-- C142 (necessary): two lists of digests with the same Merkle root are related in this way, or two different strings that are hashed
to compute the two roots have the same SHA3-256 digest. -/
theorem C142_exact (A : Hash.Algs) (l l' : List Bytes) (hl : l ≠ []) (hl' : l' ≠ []) (h32 : ∀ x ∈ l, x.length = 32)
    (h32' : ∀ x ∈ l', x.length = 32) (hd : depth l'.length ≤ depth l.length) (h : root A.sha3_256 l = root A.sha3_256 l') :
    (∀ i < 2 ^ depth l'.length, above A.sha3_256 (depth l.length - depth l'.length) (bottom l) i = bottom l' i) ∨
    ∃ x ∈ inputs A.sha3_256 l, ∃ y ∈ inputs A.sha3_256 l', x ≠ y ∧ A.sha3_256 x = A.sha3_256 y := by
  rw [root_top _ l hl, root_top _ l' hl'] at h
  obtain ⟨k, hk⟩ : ∃ k, depth l.length = depth l'.length + k := ⟨_, (Nat.add_sub_cancel' hd).symm⟩
  rw [hk, top_add] at h
  rw [hk, Nat.add_sub_cancel_left]
  rcases top_binding A.sha3_256_length _ _ _ (fun i _ => above_length A.sha3_256_length k _ (bottom_length l hl h32) i)
    (fun i _ => bottom_length l' hl' h32' i) h with h1 | ⟨x, y, hx, hy, h1, h2⟩
  · exact .inl h1
  · refine .inr ⟨x, asked_inputs _ _ l hl hk x (asked_above hx), y, asked_inputs _ _ l' hl' rfl y hy, h1, h2⟩

theorem above_mem_hash (H : Bytes → Bytes) (l : List Bytes) (hl : l ≠ []) (k i : Nat) (hk : k < depth l.length)
    (hi : i < 2 ^ (depth l.length - k - 1)) : ∃ x ∈ inputs H l, above H (k + 1) (bottom l) i = H x :=
  ⟨_, asked_inputs H _ l hl rfl _ ⟨k, i, hk, hi, rfl⟩, above_step H k (bottom l) i⟩

/-- C142: the root does identify the list, up to a collision of SHA3-256, if the payload hashes of each list are pairwise different
and none of them is the hash of an inner node of the other tree. -/
theorem C142_distinct (A : Hash.Algs) (l l' : List Bytes) (hl : l ≠ []) (hl' : l' ≠ []) (h32 : ∀ x ∈ l, x.length = 32)
    (h32' : ∀ x ∈ l', x.length = 32) (hn : l.Nodup) (hn' : l'.Nodup) (hi : ∀ x ∈ inputs A.sha3_256 l, A.sha3_256 x ∉ l')
    (hi' : ∀ x ∈ inputs A.sha3_256 l', A.sha3_256 x ∉ l) (h : root A.sha3_256 l = root A.sha3_256 l') :
    l = l' ∨ ∃ x ∈ inputs A.sha3_256 l, ∃ y ∈ inputs A.sha3_256 l', x ≠ y ∧ A.sha3_256 x = A.sha3_256 y := by
  have wlog : ∀ l l' : List Bytes, l ≠ [] → l' ≠ [] → (∀ x ∈ l, x.length = 32) → (∀ x ∈ l', x.length = 32) → l.Nodup → l'.Nodup →
      (∀ x ∈ inputs A.sha3_256 l, A.sha3_256 x ∉ l') → root A.sha3_256 l = root A.sha3_256 l' → depth l'.length ≤ depth l.length →
      l = l' ∨ ∃ x ∈ inputs A.sha3_256 l, ∃ y ∈ inputs A.sha3_256 l', x ≠ y ∧ A.sha3_256 x = A.sha3_256 y := by
    intro l l' hl hl' h32 h32' hn hn' hi h hd
    rcases C142_exact A l l' hl hl' h32 h32' hd h with h1 | h1
    swap
    · exact .inr h1
    left
    have l1 : 1 ≤ l.length := List.length_pos_iff.2 hl
    have l1' : 1 ≤ l'.length := List.length_pos_iff.2 hl'
    have hmem : ∀ m : List Bytes, 1 ≤ m.length → ∀ i, bottom m i ∈ m := by
      intro m hm i
      have := place_lt (depth m.length) m.length i hm
      rw [bottom, List.getD_eq_getElem _ _ this]
      exact List.getElem_mem _
    obtain ⟨k, hk⟩ : ∃ k, depth l.length = depth l'.length + k := ⟨_, (Nat.add_sub_cancel' hd).symm⟩
    rw [hk, Nat.add_sub_cancel_left] at h1
    cases k with
    | succ k =>
      exfalso
      obtain ⟨x, hx, he⟩ := above_mem_hash A.sha3_256 l hl k 0 (by omega) (by positivity)
      refine hi x hx ?_
      rw [← he, h1 0 (by positivity)]
      exact hmem l' l1' 0
    | zero =>
      simp only [above_zero, Nat.add_zero] at h1 hk
      -- the two lists have the same members
      have hall : ∀ m : List Bytes, ∀ p (hp : p < m.length), ∃ i < 2 ^ depth m.length, bottom m i = m[p] := by
        intro m p hp
        obtain ⟨i, hi, he⟩ := place_surj _ _ p (le_depth m.length) hp
        exact ⟨i, hi, by rw [bottom, he, List.getD_eq_getElem _ _ hp]⟩
      have hlen : l.length = l'.length := by
        apply Nat.le_antisymm
        · refine (List.Nodup.subperm hn fun x hx => ?_).length_le
          obtain ⟨p, hp, rfl⟩ := List.getElem_of_mem hx
          obtain ⟨i, hi, he⟩ := hall l p hp
          rw [← he, h1 i (by rwa [← hk])]
          exact hmem l' l1' i
        · refine (List.Nodup.subperm hn' fun x hx => ?_).length_le
          obtain ⟨p, hp, rfl⟩ := List.getElem_of_mem hx
          obtain ⟨i, hi, he⟩ := hall l' p hp
          rw [← he, ← h1 i hi]
          exact hmem l l1 i
      refine List.ext_getElem hlen fun p hp hp' => ?_
      obtain ⟨i, hi, he⟩ := place_surj _ _ p (le_depth l.length) hp
      have := h1 i (by rwa [← hk])
      rw [bottom, bottom, ← hlen, he, List.getD_eq_getElem _ _ hp, List.getD_eq_getElem _ _ hp'] at this
      exact this
  rcases Nat.le_total (depth l'.length) (depth l.length) with hd | hd
  · exact wlog l l' hl hl' h32 h32' hn hn' hi h hd
  · rcases wlog l' l hl' hl h32' h32 hn' hn hi' h.symm hd with h1 | ⟨x, hx, y, hy, h1, h2⟩
    · exact .inl h1.symm
    · exact .inr ⟨y, hy, x, hx, h1.symm, h2.symm⟩

/-! ## Trees of the package -/

section Trees

variable {α : Type} (A : Hash.Algs) (hashOf : α → Res Bytes)

theorem hashes_ne {f : Nat} {pl : List α} {a a' : Arena α} {t : Tree} {hs : List Bytes} (hh : Hashes hashOf pl hs)
    (h : newTree A hashOf f pl a = some (.ok (t, a'))) : hs ≠ [] := by
  obtain ⟨hne, -⟩ := newTree_built A hashOf h
  rintro rfl
  exact hne (List.length_eq_zero_iff.1 hh.length_eq)

/-- C142: exactly when two trees of the package with 32-byte payload hashes have the same Merkle root, up to collisions. -/
theorem C142_tree (f f' : Nat) (pl pl' : List α) (a a1 a' a1' : Arena α) (t t' : Tree) (hs hs' : List Bytes) (hh : Hashes hashOf pl hs)
    (hh' : Hashes hashOf pl' hs') (h : newTree A hashOf f pl a = some (.ok (t, a1)))
    (h' : newTree A hashOf f' pl' a' = some (.ok (t', a1'))) (h32 : ∀ x ∈ hs, x.length = 32) (h32' : ∀ x ∈ hs', x.length = 32)
    (hd : depth hs'.length ≤ depth hs.length)
    (hc : ∀ x ∈ inputs A.sha3_256 hs, ∀ y ∈ inputs A.sha3_256 hs', A.sha3_256 x = A.sha3_256 y → x = y) :
    t.merkleRoot = t'.merkleRoot ↔
      ∀ i < 2 ^ depth hs'.length, above A.sha3_256 (depth hs.length - depth hs'.length) (bottom hs) i = bottom hs' i := by
  have n1 := hashes_ne A hashOf hh h
  have n2 := hashes_ne A hashOf hh' h'
  rw [C05_merkleRoot A hashOf f pl a a1 t hs hh h, C05_merkleRoot A hashOf f' pl' a' a1' t' hs' hh' h']
  refine ⟨fun e => ?_, C142_same_violated A.sha3_256 hs hs' n1 n2 hd⟩
  rcases C142_exact A hs hs' n1 n2 h32 h32' hd e with h1 | ⟨x, hx, y, hy, h1, h2⟩
  · exact h1
  · exact absurd (hc x hx y hy h2) h1

/-- C142: trees over pairwise different payload hashes, none of which is the hash of an inner node, have the same root only if they
have the same payload hashes, up to collisions. -/
theorem C142_tree_distinct (f f' : Nat) (pl pl' : List α) (a a1 a' a1' : Arena α) (t t' : Tree) (hs hs' : List Bytes)
    (hh : Hashes hashOf pl hs) (hh' : Hashes hashOf pl' hs') (h : newTree A hashOf f pl a = some (.ok (t, a1)))
    (h' : newTree A hashOf f' pl' a' = some (.ok (t', a1'))) (h32 : ∀ x ∈ hs, x.length = 32) (h32' : ∀ x ∈ hs', x.length = 32)
    (hn : hs.Nodup) (hn' : hs'.Nodup) (hi : ∀ x ∈ inputs A.sha3_256 hs, A.sha3_256 x ∉ hs')
    (hi' : ∀ x ∈ inputs A.sha3_256 hs', A.sha3_256 x ∉ hs) (e : t.merkleRoot = t'.merkleRoot) :
    hs = hs' ∨ ∃ x ∈ inputs A.sha3_256 hs, ∃ y ∈ inputs A.sha3_256 hs', x ≠ y ∧ A.sha3_256 x = A.sha3_256 y := by
  rw [C05_merkleRoot A hashOf f pl a a1 t hs hh h, C05_merkleRoot A hashOf f' pl' a' a1' t' hs' hh' h'] at e
  exact C142_distinct A hs hs' (hashes_ne A hashOf hh h) (hashes_ne A hashOf hh' h') h32 h32' hn hn' hi hi' e

end Trees

/-- C142, the case of six payloads: repeating the last two does not change the root. -/
example (H : Bytes → Bytes) (a b c d e f : Bytes) : root H [a, b, c, d, e, f] = root H [a, b, c, d, e, f, e, f] := by
  have d6 : depth 6 = 3 := by decide
  have d8 : depth 8 = 3 := by decide
  refine C142_same_violated H _ _ (by simp) (by simp) (by simp [d6, d8]) fun i hi => ?_
  simp only [List.length_cons, List.length_nil, Nat.zero_add, Nat.reduceAdd, d6, d8, Nat.sub_self, above_zero, bottom] at hi ⊢
  interval_cases i <;> simp [place]

/-- C142, four payloads and the list of the two hashes above them: the root is the same. -/
example (H : Bytes → Bytes) (a b c d : Bytes) : root H [a, b, c, d] = root H [H (a ++ b), H (c ++ d)] := by
  have d4 : depth 4 = 2 := by decide
  have d2 : depth 2 = 1 := by decide
  refine C142_same_violated H _ _ (by simp) (by simp) (by simp [d4, d2]) fun i hi => ?_
  simp only [List.length_cons, List.length_nil, Nat.zero_add, Nat.reduceAdd, d4, d2, Nat.reduceSub, above, top, bottom] at hi ⊢
  interval_cases i <;> simp [place]

/-- C142, a case in which different payloads have the same root: two different strings have the same digest. -/
example : ∃ x ∈ inputs zeroAlgs.sha3_256 [List.replicate 32 1, List.replicate 32 2],
    ∃ y ∈ inputs zeroAlgs.sha3_256 [List.replicate 32 1, List.replicate 32 3], x ≠ y ∧ zeroAlgs.sha3_256 x = zeroAlgs.sha3_256 y := by
  refine (C142_tree_distinct zeroAlgs demoHash 4 4 [List.replicate 32 1, List.replicate 32 2] [List.replicate 32 1, List.replicate 32 3] [] _ [] _ _ _
    [List.replicate 32 1, List.replicate 32 2] [List.replicate 32 1, List.replicate 32 3] ?_ ?_ rfl rfl ?_ ?_ ?_ ?_ ?_ ?_ rfl).resolve_left (by decide)
  · simp [Hashes, demoHash]
  · simp [Hashes, demoHash]
  · simp
  · simp
  · decide
  · decide
  · intro x _; simp only [zeroAlgs]; decide
  · intro x _; simp only [zeroAlgs]; decide

/-- C142: two trees with the same root and no collision, compared level by level. -/
example (A : Hash.Algs) (a b c d : Bytes) (ha : a.length = 32) (hb : b.length = 32) (hc : c.length = 32) (hd : d.length = 32)
    (h : root A.sha3_256 [a, b] = root A.sha3_256 [c, d]) :
    (a = c ∧ b = d) ∨ ∃ x ∈ inputs A.sha3_256 [a, b], ∃ y ∈ inputs A.sha3_256 [c, d], x ≠ y ∧ A.sha3_256 x = A.sha3_256 y := by
  have d2 : depth 2 = 1 := by decide
  refine (C142_exact A [a, b] [c, d] (by simp) (by simp) (by simp [ha, hb]) (by simp [hc, hd]) (by simp) h).imp_left fun h => ?_
  simp only [List.length_cons, List.length_nil, Nat.zero_add, Nat.reduceAdd, d2, Nat.sub_self, above_zero, bottom] at h
  exact ⟨by simpa [place] using h 0 (by norm_num), by simpa [place] using h 1 (by norm_num)⟩

/-- C142, trees of one payload and of the same payload twice, of one payload and of another one. -/
example : ∃ t t' t'' a a' a'', newTree Hash.toyAlgs demoHash 4 [List.replicate 32 1] [] = some (.ok (t, a)) ∧
    newTree Hash.toyAlgs demoHash 4 [List.replicate 32 1, List.replicate 32 1] [] = some (.ok (t', a')) ∧
    newTree Hash.toyAlgs demoHash 4 [List.replicate 32 2] [] = some (.ok (t'', a'')) ∧ t.merkleRoot = t'.merkleRoot ∧ t.merkleRoot ≠ t''.merkleRoot := by
  have d1 : depth 1 = 1 := by decide
  have d2 : depth 2 = 1 := by decide
  refine ⟨_, _, _, _, _, _, rfl, rfl, rfl, ?_, ?_⟩
  · refine (C142_tree Hash.toyAlgs demoHash 4 4 [List.replicate 32 1] [List.replicate 32 1, List.replicate 32 1] [] _ [] _ _ _ [List.replicate 32 1]
      [List.replicate 32 1, List.replicate 32 1] (by simp [Hashes, demoHash]) (by simp [Hashes, demoHash]) rfl rfl (by simp) (by simp) (by decide)
      (by rw [inputs, dif_pos (by decide), inputs, dif_pos (by decide)]; decide)).2 ?_
    intro i hi
    simp only [List.length_cons, List.length_nil, Nat.zero_add, Nat.reduceAdd, d1, d2, Nat.sub_self, above_zero, bottom] at hi ⊢
    interval_cases i <;> simp [place]
  · intro h
    have h := (C142_tree Hash.toyAlgs demoHash 4 4 [List.replicate 32 1] [List.replicate 32 2] [] _ [] _ _ _ [List.replicate 32 1]
      [List.replicate 32 2] (by simp [Hashes, demoHash]) (by simp [Hashes, demoHash]) rfl rfl (by simp) (by simp) (by decide)
      (by rw [inputs, dif_pos (by decide), inputs, dif_pos (by decide)]; decide)).1 h 0 (by decide)
    revert h
    decide

end Dusk.Merkle
