import Verif.Go.Core
import Mathlib.Tactic.Tauto
/-!
# Slices in memory

A slice refers to a part of an array. Two slices may refer to the same elements; `append` writes behind the elements of its
argument while there is capacity and copies into a new array otherwise. How much capacity a new array gets beyond what is
needed is up to the runtime (`spare`).
-/

namespace Dusk.Go

variable {α : Type}

/-- All arrays. -/
abbrev Mem (α : Type) := List (List α)

/-- A slice: `cap` elements of the array from `off` on, of which the first `len` are its elements. The nil slice has capacity
0. -/
structure Slice where
  arr : Nat
  off : Nat
  len : Nat
  cap : Nat
  deriving DecidableEq, Repr

/-- The elements of a slice. -/
def read (m : Mem α) (s : Slice) : List α := (((m[s.arr]?).getD []).drop s.off).take s.len

/-- An element of an array. -/
def cell (m : Mem α) (i j : Nat) : Option α := (m[i]?).bind fun a => a[j]?

/-- Assign to an element of an array. -/
def store (m : Mem α) (i j : Nat) (x : α) : Mem α := m.modify i fun a => a.set j x

/-- `copy` of the elements `xs` to the positions from `i` on. -/
def splice (i : Nat) (xs a : List α) : List α := a.take i ++ xs ++ a.drop (i + xs.length)

/-- `append(s, xs...)`; `z` is the zero value. -/
def append (z : α) (spare : Nat → Nat) (m : Mem α) (s : Slice) (xs : List α) : Mem α × Slice :=
  if s.len + xs.length ≤ s.cap then
    (m.modify s.arr (splice (s.off + s.len) xs), { s with len := s.len + xs.length })
  else
    (m ++ [read m s ++ xs ++ List.replicate (spare (s.len + xs.length)) z],
      ⟨m.length, 0, s.len + xs.length, s.len + xs.length + spare (s.len + xs.length)⟩)

/-- The number of elements of an array. -/
def size (m : Mem α) (i : Nat) : Nat := ((m[i]?).getD []).length

/-- The slice lies within its array. -/
structure Valid (m : Mem α) (s : Slice) : Prop where
  le : s.len ≤ s.cap
  fits : s.off + s.cap ≤ size m s.arr

theorem cell_eq (m : Mem α) (i j : Nat) : cell m i j = ((m[i]?).getD [])[j]? := by
  unfold cell
  cases m[i]? <;> simp

theorem read_getElem? (m : Mem α) (s : Slice) (j : Nat) :
    (read m s)[j]? = if j < s.len then cell m s.arr (s.off + j) else none := by
  rw [cell_eq]
  unfold read
  split
  · rename_i h
    rw [List.getElem?_take_of_lt h, List.getElem?_drop]
  · rename_i h
    rw [List.getElem?_eq_none_iff]
    simp
    omega

theorem read_congr {m m' : Mem α} {s : Slice} (h : ∀ j, j < s.len → cell m' s.arr (s.off + j) = cell m s.arr (s.off + j)) :
    read m' s = read m s := by
  apply List.ext_getElem?
  intro j
  rw [read_getElem?, read_getElem?]
  split
  · rename_i hj
    exact h j hj
  · rfl

theorem Valid.read_length {m : Mem α} {s : Slice} (h : Valid m s) : (read m s).length = s.len := by
  obtain ⟨h1, h2⟩ := h
  unfold size at h2
  unfold read
  simp
  omega

theorem splice_length (i : Nat) (xs a : List α) (h : i + xs.length ≤ a.length) : (splice i xs a).length = a.length := by
  simp [splice]
  omega

theorem splice_getElem? (i : Nat) (xs a : List α) (h : i + xs.length ≤ a.length) (j : Nat) :
    (splice i xs a)[j]? = if i ≤ j ∧ j < i + xs.length then xs[j - i]? else a[j]? := by
  unfold splice
  rw [List.append_assoc, List.getElem?_append]
  have h1 : (a.take i).length = i := by simp; omega
  rw [h1]
  by_cases h2 : j < i
  · rw [if_pos h2, if_neg (by omega), List.getElem?_take_of_lt h2]
  · rw [if_neg h2, List.getElem?_append]
    by_cases h3 : j < i + xs.length
    · rw [if_pos (by omega), if_pos ⟨by omega, h3⟩]
    · rw [if_neg (by omega), if_neg (by omega), List.getElem?_drop]
      congr 1
      omega

/-- The cells of existing arrays after `append`. -/
theorem append_cell (z : α) (spare : Nat → Nat) {m : Mem α} {s : Slice} (hv : Valid m s) (xs : List α) {i : Nat}
    (hi : i < m.length) (j : Nat) : cell (append z spare m s xs).1 i j =
      if i = s.arr ∧ s.len + xs.length ≤ s.cap ∧ s.off + s.len ≤ j ∧ j < s.off + s.len + xs.length then xs[j - (s.off + s.len)]?
      else cell m i j := by
  obtain ⟨h1, h2⟩ := hv
  unfold append
  by_cases h : s.len + xs.length ≤ s.cap
  · rw [if_pos h]
    unfold cell
    rw [List.getElem?_modify]
    by_cases hi' : i = s.arr
    · subst hi'
      have hg : m[s.arr]? = some (m[s.arr]'hi) := List.getElem?_eq_getElem hi
      unfold size at h2
      rw [hg] at h2 ⊢
      simp only [Option.getD_some] at h2
      simp only [if_true, Option.map_eq_map, Option.map_some, Option.bind_some, true_and]
      rw [splice_getElem? _ _ _ (by omega)]
      by_cases hj : s.off + s.len ≤ j ∧ j < s.off + s.len + xs.length
      · rw [if_pos hj, if_pos ⟨h, hj⟩]
      · rw [if_neg hj, if_neg (by tauto)]
    · rw [if_neg (by tauto)]
      simp [Ne.symm hi']
  · rw [if_neg h, if_neg (by tauto)]
    unfold cell
    dsimp only
    rw [List.getElem?_append_left hi]

theorem append_size (z : α) (spare : Nat → Nat) {m : Mem α} {s : Slice} (hv : Valid m s) (xs : List α) {i : Nat}
    (hi : i < m.length) : size (append z spare m s xs).1 i = size m i := by
  obtain ⟨h1, h2⟩ := hv
  unfold append size
  by_cases h : s.len + xs.length ≤ s.cap
  · rw [if_pos h]
    dsimp only
    rw [List.getElem?_modify]
    by_cases hi' : i = s.arr
    · subst hi'
      have hg : m[s.arr]? = some (m[s.arr]'hi) := List.getElem?_eq_getElem hi
      unfold size at h2
      rw [hg] at h2 ⊢
      simp only [Option.getD_some] at h2
      simp only [if_true, Option.map_eq_map, Option.map_some, Option.getD_some]
      rw [splice_length _ _ _ (by omega)]
    · simp [Ne.symm hi']
  · rw [if_neg h]
    dsimp only
    rw [List.getElem?_append_left hi]

theorem append_length_le (z : α) (spare : Nat → Nat) (m : Mem α) (s : Slice) (xs : List α) :
    m.length ≤ (append z spare m s xs).1.length := by
  unfold append
  split <;> simp

theorem size_of_ge {m : Mem α} {i : Nat} (h : m.length ≤ i) : size m i = 0 := by
  simp [size, h]

/-- A slice that lies within its array still does after `append` to another one. -/
theorem Valid.append (z : α) (spare : Nat → Nat) {m : Mem α} {s t : Slice} (hv : Valid m s) (ht : Valid m t) (xs : List α) :
    Valid (append z spare m s xs).1 t := by
  refine ⟨ht.le, ?_⟩
  by_cases hi : t.arr < m.length
  · rw [append_size z spare hv xs hi]
    exact ht.fits
  · have := ht.fits
    rw [size_of_ge (by omega)] at this
    omega

/-- What `append` returns has the elements of its argument followed by the new ones. -/
theorem append_read (z : α) (spare : Nat → Nat) {m : Mem α} {s : Slice} (hv : Valid m s) (xs : List α) :
    read (append z spare m s xs).1 (append z spare m s xs).2 = read m s ++ xs := by
  have hl := hv.read_length
  obtain ⟨h1, h2⟩ := id hv
  by_cases h : s.len + xs.length ≤ s.cap
  · have e : (append z spare m s xs).2 = { s with len := s.len + xs.length } := by
      unfold append
      rw [if_pos h]
    apply List.ext_getElem?
    intro j
    rw [e, read_getElem?]
    by_cases hi : s.arr < m.length
    · rw [append_cell z spare hv xs hi, List.getElem?_append, hl, read_getElem?]
      dsimp only
      by_cases hj : j < s.len
      · rw [if_pos (show j < s.len + xs.length by omega), if_neg (by omega), if_pos hj, if_pos hj]
      · rw [if_neg hj]
        by_cases hj' : j < s.len + xs.length
        · rw [if_pos hj', if_pos ⟨rfl, h, by omega, by omega⟩]
          congr 1
          omega
        · rw [if_neg hj', List.getElem?_eq_none_iff.2 (by omega)]
    · rw [size_of_ge (by omega)] at h2
      have hx : xs = [] := List.length_eq_zero_iff.1 (by omega)
      have hs : s.len = 0 := by omega
      have : read m s = [] := List.length_eq_zero_iff.1 (by omega)
      rw [this, hx]
      simp [hs]
  · unfold append
    rw [if_neg h]
    unfold read
    simp only [List.drop_zero, List.getElem?_append_right (Nat.le_refl m.length), Nat.sub_self, List.getElem?_cons_zero,
      Option.getD_some]
    have : (List.take s.len (List.drop s.off (m[s.arr]?.getD [])) ++ xs).length = s.len + xs.length := by
      unfold read at hl
      rw [List.length_append, hl]
    rw [List.take_append_of_le_length (by omega), List.take_of_length_le (by omega)]

theorem append_valid (z : α) (spare : Nat → Nat) {m : Mem α} {s : Slice} (hv : Valid m s) (xs : List α) :
    Valid (append z spare m s xs).1 (append z spare m s xs).2 := by
  by_cases h : s.len + xs.length ≤ s.cap
  · have e : (append z spare m s xs).2 = { s with len := s.len + xs.length } := by
      unfold append
      rw [if_pos h]
    rw [e]
    exact ⟨h, (Valid.append z spare hv hv xs).fits⟩
  · unfold append
    rw [if_neg h]
    refine ⟨Nat.le_add_right _ _, ?_⟩
    have hl := hv.read_length
    simp [size, hl]
    omega

theorem store_cell (m : Mem α) (i j : Nat) (x : α) (i' j' : Nat) :
    cell (store m i j x) i' j' = if i' = i ∧ j' = j ∧ j < size m i then some x else cell m i' j' := by
  unfold cell store size
  rw [List.getElem?_modify]
  by_cases hi : i' = i
  · subst hi
    cases hm : m[i']? with
    | none => simp
    | some a =>
      simp only [if_true, Option.map_eq_map, Option.map_some, Option.bind_some, Option.getD_some, true_and]
      rw [List.getElem?_set]
      by_cases hj : j' = j
      · subst hj
        by_cases hl : j' < a.length
        · simp [hl]
        · simp [hl]
      · rw [if_neg (by tauto), if_neg (by tauto)]
  · rw [if_neg (by tauto)]
    simp [Ne.symm hi]

theorem store_size (m : Mem α) (i j : Nat) (x : α) (i' : Nat) : size (store m i j x) i' = size m i' := by
  unfold size store
  rw [List.getElem?_modify]
  cases hm : m[i']? with
  | none => simp
  | some a =>
    by_cases hi : i = i'
    · simp [hi]
    · simp [hi]

theorem store_length (m : Mem α) (i j : Nat) (x : α) : (store m i j x).length = m.length := by simp [store]

theorem Valid.store {m : Mem α} {t : Slice} (ht : Valid m t) (i j : Nat) (x : α) : Valid (store m i j x) t :=
  ⟨ht.le, by rw [store_size]; exact ht.fits⟩

theorem Valid.len_eq_zero {m : Mem α} {s : Slice} (h : Valid m s) (ha : m.length ≤ s.arr) : s.off = 0 ∧ s.len = 0 ∧ s.cap = 0 := by
  have h1 := h.fits
  rw [size_of_ge ha] at h1
  have := h.le
  omega

/-- `append` to `s` does not write into `t`. -/
def Free (s t : Slice) : Prop :=
  t.arr = s.arr → s.len = s.cap ∨ t.len = 0 ∨ t.off + t.len ≤ s.off + s.len ∨ s.off + s.cap ≤ t.off

/-- A slice that `append` does not write into keeps its elements. -/
theorem append_read_free (z : α) (spare : Nat → Nat) {m : Mem α} {s t : Slice} (hv : Valid m s) (ht : Valid m t) (hf : Free s t)
    (xs : List α) : read (append z spare m s xs).1 t = read m t := by
  by_cases ha : t.arr < m.length
  · apply read_congr
    intro j hj
    rw [append_cell z spare hv xs ha, if_neg]
    rintro ⟨h1, h2, h3, h4⟩
    rcases hf h1 with h | h | h | h <;> omega
  · have h1 := ht.read_length
    have h2 := (Valid.append z spare hv ht xs).read_length
    have h3 := (ht.len_eq_zero (by omega)).2.1
    rw [List.length_eq_zero_iff.1 (h1.trans h3), List.length_eq_zero_iff.1 (h2.trans h3)]

theorem Valid.mono {m m' : Mem α} {s : Slice} (hs : Valid m s) (h : ∀ a, a < m.length → size m' a = size m a) : Valid m' s := by
  refine ⟨hs.le, ?_⟩
  by_cases ha : s.arr < m.length
  · rw [h _ ha]
    exact hs.fits
  · have := hs.fits
    rw [size_of_ge (by omega)] at this
    omega

theorem read_store {m : Mem α} {s : Slice} (hv : Valid m s) {j : Nat} (hj : j < s.len) (x : α) :
    read (store m s.arr (s.off + j) x) s = (read m s).set j x := by
  apply List.ext_getElem?
  intro i
  rw [read_getElem?, List.getElem?_set, read_getElem?, hv.read_length]
  by_cases hi : i < s.len
  · rw [if_pos hi, if_pos hi, store_cell]
    by_cases hij : j = i
    · subst hij
      have h1 := hv.fits
      have h2 := hv.le
      rw [if_pos ⟨rfl, rfl, by omega⟩]
      simp [hj]
    · rw [if_neg (by omega), if_neg hij]
  · rw [if_neg hi, if_neg hi, if_neg (by omega)]

theorem read_eq_of_getElem? {m m' : Mem α} {s : Slice} (h : m[s.arr]? = m'[s.arr]?) : read m s = read m' s := by
  unfold read
  rw [h]

end Dusk.Go
