import Verif.Model.VecMem
import Verif.Lemmas.ListAlg
import Mathlib.Data.List.GetD
/-!
# C93: the functions of package vector in memory
-/

set_option linter.unusedSectionVars false

namespace Dusk.VecMem

open Go

variable {F : Type} [Field F] [DecidableEq F]

/-- Specification: the call has the outcome `r`; the result is a new array, all of it, and no other memory changes. -/
def Fresh (m : Mem F) (x : St (Mem F) Slice) (r : Res (List F)) : Prop :=
  x.run m = match r with
    | .ok l => (.ok ⟨m.length, 0, l.length, l.length⟩, m ++ [l])
    | .err e => (.err e, m)
    | .panic => (.panic, m)

theorem store_last (m : Mem F) (l : List F) (i : Nat) (x : F) : store (m ++ [l]) m.length i x = m ++ [l.set i x] := by
  unfold store
  apply List.ext_getElem?
  intro j
  rw [List.getElem?_modify, List.getElem?_append, List.getElem?_append]
  by_cases hj : j < m.length
  · have : m.length ≠ j := by omega
    simp [hj, this]
  · rw [if_neg hj, if_neg hj]
    by_cases hj' : m.length = j
    · subst hj'
      simp
    · rw [List.getElem?_eq_none (by simp; omega), List.getElem?_eq_none (by simp; omega)]
      rfl

theorem put_last (m : Mem F) (l : List F) {n i : Nat} (hi : i < n) (x : F) :
    (put ⟨m.length, 0, n, n⟩ i x).run (m ++ [l]) = (.ok (), m ++ [l.set i x]) := by
  rw [put_eq (by exact hi)]
  simp only [Nat.zero_add]
  rw [store_last]

theorem get_old {m : Mem F} {a : Slice} (ha : Valid m a) (l : List F) {i : Nat} (hi : i < (read m a).length) :
    (get a i).run (m ++ [l]) = (.ok (read m a)[i], m ++ [l]) := by
  unfold Go.get
  dsimp only
  rw [read_alloc ha, idx_of_lt hi]

/-- `res := make(...)`, a loop which sets all elements, `return res`. -/
theorem fill (m : Mem F) (n : Nat) (f : Nat → F) (body : Slice → Nat → St (Mem F) Unit)
    (h : ∀ i l, i < n → (body ⟨m.length, 0, n, n⟩ i).run (m ++ [l]) = (.ok (), m ++ [l.set i (f i)])) :
    Fresh m (do let res ← make 0 n; St.loop (body res) n 0; pure res) (.ok ((List.range n).map f)) := by
  unfold Fresh
  rw [St.bind_ok (x := make 0 n) (a := ⟨m.length, 0, n, n⟩) (s' := m ++ [List.replicate n 0]) rfl]
  obtain ⟨m', h1, h2⟩ := St.loop_ok (f := body ⟨m.length, 0, n, n⟩)
    (fun i m' => m' = m ++ [(List.range i).map f ++ List.replicate (n - i) 0]) n (by
      rintro i _ hi rfl
      refine ⟨_, h i _ hi, ?_⟩
      congr 2
      apply List.ext_getElem?
      intro j
      rw [List.getElem?_set, List.getElem?_append, List.getElem?_append]
      simp only [List.length_append, List.length_map, List.length_range, List.length_replicate]
      by_cases hj : i = j
      · subst hj
        rw [if_pos rfl, if_pos (by omega), if_pos (by omega)]
        simp
      · rw [if_neg hj]
        by_cases hj' : j < i
        · rw [if_pos hj', if_pos (by omega)]
          simp [hj', Nat.lt_succ_of_lt hj']
        · rw [if_neg hj', if_neg (by omega), List.getElem?_replicate, List.getElem?_replicate]
          congr 1
          apply propext
          omega) n 0 (m ++ [List.replicate n 0]) (by omega) (by simp)
  rw [St.bind_ok h1, St.run_pure, h2]
  simp

theorem fresh_congr {m : Mem F} {x : St (Mem F) Slice} {l l' : List F} (h : Fresh m x (.ok l)) (e : l = l') : Fresh m x (.ok l') :=
  e ▸ h

/-- C93: `Add`, `Sub`, `Hadamard`. -/
theorem C93_binary (m : Mem F) (a b : Slice) (ha : Valid m a) (hb : Valid m b) :
    Fresh m (add a b) (Vec.add (read m a) (read m b)) ∧ Fresh m (sub a b) (Vec.sub (read m a) (read m b)) ∧
    Fresh m (hadamard a b) (Vec.hadamard (read m a) (read m b)) := by
  have hla := ha.read_length
  have hlb := hb.read_length
  have key : ∀ (g : F → F → F), a.len = b.len →
      Fresh m (do
        let res ← make 0 a.len
        St.loop (fun i => do
          let x ← get a i
          let y ← get b i
          put res i (g x y)) a.len 0
        pure res) (.ok (List.zipWith g (read m a) (read m b))) := by
    intro g hab
    refine fresh_congr (fill m a.len (fun i => g ((read m a).getD i 0) ((read m b).getD i 0)) (fun res i => do
          let x ← get a i
          let y ← get b i
          put res i (g x y)) ?_) ?_
    · intro i l hi
      rw [St.bind_ok (get_old ha l (by omega)), St.bind_ok (get_old hb l (by omega)), put_last m l hi]
      simp [show i < (read m a).length by omega, show i < (read m b).length by omega]
    · apply List.ext_getElem?
      intro i
      by_cases hi : i < a.len
      · simp [hi, show i < (read m a).length by omega, show i < (read m b).length by omega]
      · rw [List.getElem?_eq_none (by simp; omega), List.getElem?_eq_none (by simp; omega)]
  unfold add sub hadamard Vec.add Vec.sub Vec.hadamard
  rw [hla, hlb]
  by_cases hab : a.len = b.len
  · simp only [hab, ne_eq, not_true_eq_false, if_false]
    rw [← hab]
    exact ⟨key _ hab, key _ hab, key _ hab⟩
  · simp only [ne_eq, hab, not_false_eq_true, if_true]
    exact ⟨rfl, rfl, rfl⟩

/-- C93: `AddScalar`, `MulScalar`, and `Neg` and `SubScalar` unless they return their argument. -/
theorem C93_unary (m : Mem F) (a : Slice) (ha : Valid m a) (b : F) :
    Fresh m (addScalar a b) (.ok (Vec.addScalar (read m a) b)) ∧ Fresh m (mulScalar a b) (.ok (Vec.mulScalar (read m a) b)) ∧
    (a.len ≠ 0 → Fresh m (neg a) (.ok (Vec.neg (read m a)))) ∧
    (b ≠ 0 → Fresh m (subScalar a b) (.ok (Vec.subScalar (read m a) b))) := by
  have hla := ha.read_length
  have key : ∀ (g : F → F), Fresh m (do
        let res ← make 0 a.len
        St.loop (fun i => do
          let x ← get a i
          put res i (g x)) a.len 0
        pure res) (.ok ((read m a).map g)) := by
    intro g
    refine fresh_congr (fill m a.len (fun i => g ((read m a).getD i 0)) (fun res i => do
          let x ← get a i
          put res i (g x)) ?_) ?_
    · intro i l hi
      rw [St.bind_ok (get_old ha l (by omega)), put_last m l hi]
      simp [show i < (read m a).length by omega]
    · apply List.ext_getElem?
      intro i
      by_cases hi : i < a.len
      · simp [hi, show i < (read m a).length by omega]
      · rw [List.getElem?_eq_none (by simp; omega), List.getElem?_eq_none (by simp; omega)]
  refine ⟨key _, key _, fun h => ?_, fun h => ?_⟩
  · unfold neg Vec.neg
    rw [hla, if_neg h, if_neg h]
    exact key _
  · unfold subScalar Vec.subScalar
    rw [if_neg h, if_neg h]
    exact key _

/-- C93: `FromScalar` and `ScalarPowers`. -/
theorem C93_new (m : Mem F) (a : F) (n : Nat) :
    Fresh m (fromScalar a n) (.ok (Vec.fromScalar a n)) ∧ Fresh m (scalarPowers a n) (.ok (Vec.scalarPowers a n)) := by
  constructor
  · refine fresh_congr (fill m n (fun _ => a) (fun res i => put res i a) fun i l hi => put_last m l hi a) ?_
    simp [Vec.fromScalar]
  · unfold Fresh scalarPowers
    rw [St.bind_ok (x := make 0 n) (a := ⟨m.length, 0, n, n⟩) (s' := m ++ [List.replicate n 0]) rfl]
    by_cases hn : n = 0
    · subst hn
      simp [Vec.scalarPowers, St.run_pure]
    · rw [if_neg hn]
      by_cases ha : a = 0
      · rw [if_pos ha, St.run_pure]
        simp [Vec.scalarPowers, hn, ha]
      · rw [if_neg ha, St.bind_ok (put_last m _ (by omega) 1)]
        by_cases hn1 : n = 1
        · rw [if_pos hn1]
          subst hn1
          simp [Vec.scalarPowers, ha, St.run_pure]
        · rw [if_neg hn1, St.bind_ok (put_last m _ (by omega) a), scalarPowers_eq ha]
          obtain ⟨m', h1, h2⟩ := St.loop_ok (f := fun i => do
              let x ← get ⟨m.length, 0, n, n⟩ (i - 1)
              put ⟨m.length, 0, n, n⟩ i (x * a))
            (fun i m' => 2 ≤ i ∧ m' = m ++ [(List.range i).map (fun j => a ^ j) ++ List.replicate (n - i) 0]) n (by
              rintro i _ hi ⟨h2, rfl⟩
              have hg : (get ⟨m.length, 0, n, n⟩ (i - 1)).run
                  (m ++ [(List.range i).map (fun j => a ^ j) ++ List.replicate (n - i) 0]) =
                  (.ok (a ^ (i - 1)), m ++ [(List.range i).map (fun j => a ^ j) ++ List.replicate (n - i) 0]) := by
                apply get_eq
                · dsimp only
                  omega
                · rw [cell_eq]
                  simp only [Nat.zero_add]
                  rw [List.getElem?_concat_length, Option.getD_some, List.getElem?_append_left (by simp; omega)]
                  simp [show i - 1 < i by omega]
              refine ⟨_, by rw [St.bind_ok hg, put_last m _ hi], by omega, ?_⟩
              congr 2
              apply List.ext_getElem?
              intro j
              rw [List.getElem?_set, List.getElem?_append, List.getElem?_append]
              simp only [List.length_append, List.length_map, List.length_range, List.length_replicate]
              by_cases hj : i = j
              · subst hj
                rw [if_pos rfl, if_pos (by omega), if_pos (by omega)]
                simp only [List.getElem?_map, List.getElem?_range (show i < i + 1 by omega), Option.map_some, Option.some.injEq]
                rw [← pow_succ, Nat.sub_add_cancel (by omega)]
              · rw [if_neg hj]
                by_cases hj' : j < i
                · rw [if_pos hj', if_pos (by omega)]
                  simp [hj', Nat.lt_succ_of_lt hj']
                · rw [if_neg hj', if_neg (by omega), List.getElem?_replicate, List.getElem?_replicate]
                  congr 1
                  apply propext
                  omega) (n - 2) 2 (m ++ [((List.replicate n 0).set 0 1).set 1 a]) (by omega) (by
              refine ⟨le_rfl, ?_⟩
              congr 2
              obtain ⟨k, rfl⟩ := Nat.exists_eq_add_of_le (show 2 ≤ n by omega)
              rw [show 2 + k - 2 = k by omega, show 2 + k = k + 1 + 1 by omega, List.replicate_succ, List.replicate_succ]
              simp [List.range_succ])
          rw [St.bind_ok h1, St.run_pure, h2.2]
          simp [powers]

/-- C93 (violated): `SubScalar` with the scalar zero, and `Neg` of an empty slice, return the slice they are given: what is stored
through the result of `SubScalar` changes the argument, and what is appended to either may. -/
theorem C93_alias_violated (m : Mem F) (a : Slice) (ha : Valid m a) :
    (subScalar a 0).run m = (.ok a, m) ∧ (a.len = 0 → (neg a).run m = (.ok a, m)) ∧
    ∀ i x, i < a.len → ∃ m', (do let r ← subScalar a (0 : F); put r i x).run m = (.ok (), m') ∧ read m' a = (read m a).set i x := by
  have h : (subScalar a (0 : F)).run m = (.ok a, m) := by
    unfold subScalar
    rw [if_pos rfl]
    rfl
  refine ⟨h, fun h0 => ?_, fun i x hi => ?_⟩
  · unfold neg
    rw [if_pos h0]
    rfl
  · exact ⟨_, by rw [St.bind_ok h, put_eq hi], read_store ha hi x⟩

/-- C93: the halves returned by `SplitScalars` and `SplitPoints` have the elements of the halves of the argument, for any memory. -/
theorem C93_split {α : Type} (m : Mem α) (x : Slice) (hx : Valid m x) (n : Nat) :
    ((split x n).bind fun p => .ok (read m p.1, read m p.2)) = Vec.split (read m x) n ∧
    ∀ p, split x n = .ok p → Valid m p.1 ∧ Valid m p.2 := by
  have hl := hx.read_length
  have h1 := hx.le
  have h2 := hx.fits
  unfold split Vec.split
  rw [hl]
  by_cases h0 : x.len = 0
  · simp [h0]
  · rw [if_neg h0, if_neg h0]
    by_cases hn : n ≥ x.len % 2 ^ 32
    · rw [if_pos hn, if_pos hn]
      simp
    · rw [if_neg hn, if_neg hn]
      have hlt : n < x.len := lt_of_lt_of_le (not_le.1 hn) (Nat.mod_le _ _)
      constructor
      · simp only [Res.bind_ok, Slice.front, Slice.back]
        congr 2
        · simp [Go.read, List.take_take, Nat.min_eq_left hlt.le]
        · simp [Go.read, List.drop_take, Nat.add_comm]
      · rintro _ ⟨⟩
        exact ⟨⟨by dsimp only [Slice.front]; omega, h2⟩, ⟨by dsimp only [Slice.back]; omega, by dsimp only [Slice.back]; omega⟩⟩

/-- C93 (violated): the halves are not separate. The capacity of the first reaches over the second, so that an element which is
appended to the first half replaces the first element of the second half, and of the argument's. -/
theorem C93_split_violated {α : Type} (z : α) (spare : Nat → Nat) (m : Mem α) (x : Slice) (hx : Valid m x) (n : Nat) (p : Slice × Slice)
    (hp : split x n = .ok p) (y : α) : read (append z spare m p.1 [y]).1 p.2 = (read m p.2).set 0 y ∧
    read (append z spare m p.1 [y]).1 x = (read m x).set n y := by
  have h1 := hx.le
  have h2 := hx.fits
  unfold split at hp
  split_ifs at hp with h0 hn
  have hlt : n < x.len := lt_of_lt_of_le (not_le.1 hn) (Nat.mod_le _ _)
  cases hp
  have harr : x.arr < m.length := by
    by_contra h
    have := (hx.len_eq_zero (not_lt.1 h)).2.1
    omega
  have hv : Valid m (x.front n) := ⟨by dsimp only [Slice.front]; omega, h2⟩
  have hcell : ∀ j, cell (append z spare m (x.front n) [y]).1 x.arr j = if j = x.off + n then some y else cell m x.arr j := by
    intro j
    rw [append_cell z spare hv [y] harr]
    simp only [Slice.front, List.length_cons, List.length_nil]
    by_cases hj : j = x.off + n
    · subst hj
      rw [if_pos (by simp; omega), if_pos rfl]
      simp
    · rw [if_neg (by omega), if_neg hj]
  constructor
  · change read (append z spare m (x.front n) [y]).1 (x.back n) = (read m (x.back n)).set 0 y
    apply List.ext_getElem?
    intro j
    have hb : Valid m (x.back n) := ⟨by dsimp only [Slice.back]; omega, by dsimp only [Slice.back]; omega⟩
    rw [read_getElem?, List.getElem?_set, read_getElem?, hb.read_length]
    have hc : cell (append z spare m (x.front n) [y]).1 (x.back n).arr ((x.back n).off + j) =
        if (x.back n).off + j = x.off + n then some y else cell m (x.back n).arr ((x.back n).off + j) := hcell _
    have hlen : (x.back n).len = x.len - n := rfl
    have hoff : (x.back n).off = x.off + n := rfl
    rw [hc]
    by_cases hj : 0 = j
    · subst hj
      rw [if_pos (by omega), if_pos (by omega), if_pos rfl, if_pos (by omega)]
    · rw [if_neg hj]
      congr 1
      rw [if_neg (by omega)]
  · apply List.ext_getElem?
    intro j
    rw [read_getElem?, List.getElem?_set, read_getElem?, hx.read_length, hcell]
    by_cases hj : n = j
    · subst hj
      rw [if_pos hlt, if_pos rfl, if_pos rfl, if_pos hlt]
    · rw [if_neg hj]
      congr 1
      rw [if_neg (by omega)]

/-! ### The hypotheses can be met -/

/-- Two overlapping slices of one array. -/
def exMem : Mem Toy.K := [[1, 2, 3, 4]]

example : Valid exMem ⟨0, 0, 3, 4⟩ ∧ Valid exMem ⟨0, 1, 3, 3⟩ := ⟨⟨by decide, by decide⟩, ⟨by decide, by decide⟩⟩

example : (add (F := Toy.K) ⟨0, 0, 3, 4⟩ ⟨0, 1, 3, 3⟩).run exMem = (.ok ⟨1, 0, 3, 3⟩, [[1, 2, 3, 4], [3, 5, 7]]) := by
  decide +kernel

example : split ⟨0, 0, 3, 4⟩ 1 = .ok (⟨0, 0, 1, 4⟩, ⟨0, 1, 2, 3⟩) := by decide

end Dusk.VecMem
