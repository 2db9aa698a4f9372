import Verif.Model.RPMem
import Verif.Props.RangeProof
/-!
# C90: rangeproof.Prove and the memory of its caller
-/

set_option linter.unusedSectionVars false

namespace Dusk.RPMem

variable {F G : Type} [Field F] [AddCommGroup G] [Module F G]

/-- The slice lies within its array. -/
structure Valid (m : Mem F) (s : Slice) : Prop where
  le : s.len ≤ s.cap
  fits : ∃ a, m[s.arr]? = some a ∧ s.off + s.cap ≤ a.length

/-- `k` elements from position `i` on set to zero. -/
def zeroed (i k : Nat) (a : List F) : List F := a.take i ++ List.replicate k 0 ++ a.drop (i + k)

theorem zeroed_zero (i : Nat) (a : List F) : zeroed i 0 a = a := by simp [zeroed]

theorem zeroed_set (i k : Nat) (a : List F) (h : i < a.length) : zeroed (i + 1) k (a.set i 0) = zeroed i (k + 1) a := by
  unfold zeroed
  rw [List.take_set, List.drop_set]
  rw [if_pos (by omega), List.take_succ, List.replicate_succ, List.set_append]
  simp [h, Nat.min_eq_left h.le]
  congr 1
  omega

theorem pad_spec (spare : Nat → Nat) : ∀ (k : Nat) (m : Mem F) (s : Slice), Valid m s →
    read (pad spare k m s).1 (pad spare k m s).2 = read m s ++ List.replicate k 0 ∧
    ∀ i, i < m.length → (pad spare k m s).1[i]? =
      m[i]?.map fun a => if i = s.arr then zeroed (s.off + s.len) (min k (s.cap - s.len)) a else a
  | 0, m, s, hv => by
    refine ⟨by simp [pad], fun i hi => ?_⟩
    simp [pad, zeroed_zero]
  | k + 1, m, s, hv => by
    obtain ⟨hle, a, ha, hf⟩ := hv
    obtain ⟨halt, -⟩ := List.getElem?_eq_some_iff.1 ha
    unfold pad
    dsimp only
    by_cases h : s.len < s.cap
    · have e : append spare m s (0 : F) = (m.modify s.arr fun a => a.set (s.off + s.len) 0, { s with len := s.len + 1 }) := by
        unfold append
        rw [if_pos h]
      rw [e]
      have hmod : (m.modify s.arr fun a => a.set (s.off + s.len) (0 : F))[s.arr]? = some (a.set (s.off + s.len) 0) := by
        simp [List.getElem?_modify, ha]
      obtain ⟨h1, h2⟩ := pad_spec spare k (m.modify s.arr fun a => a.set (s.off + s.len) (0 : F)) { s with len := s.len + 1 }
        ⟨h, _, hmod, by simpa using hf⟩
      constructor
      · rw [h1]
        have : read (m.modify s.arr fun a => a.set (s.off + s.len) (0 : F)) { s with len := s.len + 1 } = read m s ++ [0] := by
          unfold read
          dsimp only
          rw [hmod, ha]
          simp only [Option.getD_some]
          rw [List.drop_set, if_neg (by omega), Nat.add_sub_cancel_left, List.take_set, List.take_succ, List.set_append]
          have hl : (a.drop s.off).length = a.length - s.off := List.length_drop
          have : ((a.drop s.off).take s.len).length = s.len := by simp; omega
          rw [this, if_neg (by omega), Nat.sub_self]
          have : (a.drop s.off)[s.len]? = some ((a.drop s.off)[s.len]'(by omega)) := List.getElem?_eq_getElem (by omega)
          rw [this]
          rfl
        rw [this]
        simp [List.replicate_succ]
      · intro i hi
        rw [h2 i (by simpa using hi)]
        simp only
        rw [List.getElem?_modify]
        by_cases hi' : i = s.arr
        · subst hi'
          simp only [if_true, ha, Option.map_some, Option.map_eq_map]
          rw [show s.off + (s.len + 1) = s.off + s.len + 1 by omega, zeroed_set _ _ _ (by omega)]
          congr 2
          omega
        · simp [hi', Ne.symm hi']
    · have e : append spare m s (0 : F) = (m ++ [read m s ++ [0] ++ List.replicate (spare s.len) 0],
          ⟨m.length, 0, s.len + 1, s.len + 1 + spare s.len⟩) := by
        unfold append
        rw [if_neg h]
      rw [e]
      have hlen : (read m s).length = s.len := by
        unfold read
        rw [ha]
        simp
        omega
      have hget : (m ++ [read m s ++ [0] ++ List.replicate (spare s.len) 0])[m.length]? =
          some (read m s ++ [0] ++ List.replicate (spare s.len) 0) := by simp
      obtain ⟨h1, h2⟩ := pad_spec spare k (m ++ [read m s ++ [0] ++ List.replicate (spare s.len) 0])
        ⟨m.length, 0, s.len + 1, s.len + 1 + spare s.len⟩ ⟨by simp, _, hget, by simp [hlen]; omega⟩
      constructor
      · rw [h1]
        have : read (m ++ [read m s ++ [0] ++ List.replicate (spare s.len) 0])
            ⟨m.length, 0, s.len + 1, s.len + 1 + spare s.len⟩ = read m s ++ [0] := by
          change List.take (s.len + 1) (List.drop 0
            ((m ++ [read m s ++ [0] ++ List.replicate (spare s.len) 0])[m.length]?.getD [])) = _
          rw [hget]
          simp only [Option.getD_some, List.drop_zero]
          rw [List.take_append_of_le_length (by simp [hlen]), List.take_of_length_le (by simp [hlen])]
        rw [this]
        simp [List.replicate_succ]
      · intro i hi
        rw [h2 i (by simp; omega), List.getElem?_append_left hi]
        have hne : i ≠ m.length := by omega
        have : s.cap - s.len = 0 := by omega
        simp [hne, this, zeroed_zero]

/-- C90: `Prove` of a slice returns what it returns for its elements and leaves `M` the same, whatever the memory and the growth
of slices. -/
theorem C90_refines [DecidableEq F] [DecidableEq G] (R : Ristretto F G) (spare : Nat → Nat) (m : Mem F) (M : Nat) (s : Slice) (hv : Valid m s)
    (debug : Bool) (coins : RP.Coins F) : (prove R spare m M s debug coins).2 = RP.prove R M (read m s) debug coins := by
  have hlen : (read m s).length = s.len := by
    obtain ⟨hle, a, ha, hf⟩ := hv
    unfold read
    rw [ha]
    simp
    omega
  unfold prove RP.prove RP.proveWith RP.nextM
  rw [hlen]
  by_cases h1 : s.len < 1
  · simp [h1]
  · by_cases h2 : s.len > RP.maxM
    · simp [h1, h2, RP.Reads.const]
    · simp only [if_neg h1, if_neg h2, (pad_spec spare _ m s hv).1]
      simp [RP.Reads.const, h2]

/-- The number of elements behind the slice that `Prove` overwrites. -/
def overwritten (s : Slice) : Nat :=
  if s.len < 1 ∨ s.len > RP.maxM then 0 else min (RP.padAmount s.len) (s.cap - s.len)

/-- C90: what `Prove` does to the memory of its caller: the elements of the array behind the slice, as far as capacity and
padding reach, become zero; nothing else changes. -/
theorem C90_memory [DecidableEq F] [DecidableEq G] (R : Ristretto F G) (spare : Nat → Nat) (m : Mem F) (M : Nat) (s : Slice) (hv : Valid m s)
    (debug : Bool) (coins : RP.Coins F) (i : Nat) (hi : i < m.length) : (prove R spare m M s debug coins).1[i]? =
      m[i]?.map fun a => if i = s.arr then zeroed (s.off + s.len) (overwritten s) a else a := by
  unfold prove overwritten
  by_cases h1 : s.len < 1
  · simp [h1, zeroed_zero]
  · by_cases h2 : s.len > RP.maxM
    · simp [h1, h2, zeroed_zero]
    · simp only [if_neg h1, if_neg h2, if_neg (show ¬ (s.len < 1 ∨ s.len > RP.maxM) by tauto)]
      exact (pad_spec spare _ m s hv).2 i hi

theorem zeroed_length (i k : Nat) (a : List F) (h : i + k ≤ a.length) : (zeroed i k a).length = a.length := by
  simp [zeroed]
  omega

theorem zeroed_getElem? (i k : Nat) (a : List F) (h : i + k ≤ a.length) (j : Nat) :
    (zeroed i k a)[j]? = if i ≤ j ∧ j < i + k then some 0 else a[j]? := by
  unfold zeroed
  rw [List.append_assoc, List.getElem?_append]
  have h1 : (a.take i).length = i := by simp; omega
  rw [h1]
  by_cases h2 : j < i
  · rw [if_pos h2, if_neg (by omega), List.getElem?_take_of_lt h2]
  · rw [if_neg h2, List.getElem?_append, List.length_replicate]
    by_cases h3 : j < i + k
    · rw [if_pos (by omega), if_pos ⟨by omega, h3⟩, List.getElem?_replicate_of_lt (by omega)]
    · rw [if_neg (by omega), if_neg (by omega), List.getElem?_drop]
      congr 1
      omega

theorem overwritten_le (s : Slice) : s.len + overwritten s ≤ s.cap ∨ overwritten s = 0 := by
  unfold overwritten
  split
  · exact .inr rfl
  · omega

/-- C90: the memory of the caller stays as it is exactly for slices without spare capacity, for numbers of values that need no
padding (a power of two, none, or too many), and where the elements behind the slice are zero already. -/
theorem C90_unchanged_iff [DecidableEq F] [DecidableEq G] (R : Ristretto F G) (spare : Nat → Nat) (m : Mem F) (M : Nat) (s : Slice)
    (hv : Valid m s) (debug : Bool) (coins : RP.Coins F) :
    (∀ i, i < m.length → (prove R spare m M s debug coins).1[i]? = m[i]?) ↔
      ∀ j, j < overwritten s → ((m[s.arr]?).getD [])[s.off + s.len + j]? = some 0 := by
  obtain ⟨hle, a, ha, hf⟩ := hv
  obtain ⟨halt, -⟩ := List.getElem?_eq_some_iff.1 ha
  have hb : s.off + s.len + overwritten s ≤ a.length := by
    rcases overwritten_le s with h | h <;> omega
  have key : (∀ i, i < m.length → (prove R spare m M s debug coins).1[i]? = m[i]?) ↔
      zeroed (s.off + s.len) (overwritten s) a = a := by
    constructor
    · intro h
      have h1 := h s.arr halt
      rw [C90_memory R spare m M s ⟨hle, a, ha, hf⟩ debug coins s.arr halt, ha] at h1
      simpa using h1
    · intro h i hi
      rw [C90_memory R spare m M s ⟨hle, a, ha, hf⟩ debug coins i hi]
      by_cases hi' : i = s.arr
      · subst hi'
        rw [ha]
        simp [h]
      · simp [hi']
  rw [key, ha, Option.getD_some]
  constructor
  · intro h j hj
    rw [← h, zeroed_getElem? _ _ _ hb, if_pos (by omega)]
  · intro h
    apply List.ext_getElem?
    intro j
    rw [zeroed_getElem? _ _ _ hb]
    split
    · rename_i hj
      have := h (j - (s.off + s.len)) (by omega)
      rw [← this]
      congr 1
      omega
    · rfl

/-- C90: between 1 and 16 values, padding is needed iff their number is no power of two. -/
theorem C90_overwritten_pos (s : Slice) : 0 < overwritten s ↔ 1 ≤ s.len ∧ s.len ≤ 16 ∧ (∀ k, s.len ≠ 2 ^ k) ∧ s.len < s.cap := by
  unfold overwritten
  have hm : RP.maxM = 16 := rfl
  by_cases h : s.len < 1 ∨ s.len > RP.maxM
  · rw [if_pos h]
    omega
  · rw [if_neg h]
    obtain ⟨k, h1, h2, h3⟩ := RP.padAmount_spec (n := s.len) (by omega) (by omega)
    have : 0 < RP.padAmount s.len ↔ ∀ k, s.len ≠ 2 ^ k := by
      constructor
      · intro hp j hj
        have := h3 j (by omega)
        have := Nat.pow_le_pow_right (show 0 < 2 by omega) this
        omega
      · intro hn
        have := hn k
        omega
    rw [lt_min_iff, this]
    exact ⟨fun ⟨h4, h5⟩ => ⟨by omega, by omega, h4, by omega⟩, fun ⟨_, _, h4, h5⟩ => ⟨h4, by omega⟩⟩

example : 0 < overwritten ⟨0, 0, 3, 4⟩ ∧ ¬ 0 < overwritten ⟨0, 0, 3, 3⟩ ∧ ¬ 0 < overwritten ⟨0, 0, 4, 8⟩ := by
  refine ⟨(C90_overwritten_pos _).2 ⟨by decide, by decide, fun k => ?_, by decide⟩, fun h => ?_, fun h => ?_⟩
  · rcases k with _ | _ | k
    · decide
    · decide
    · have : 1 ≤ 2 ^ k := Nat.one_le_two_pow
      simp only [pow_succ]; omega
  · exact absurd ((C90_overwritten_pos _).1 h).2.2.2 (by decide)
  · exact absurd rfl (((C90_overwritten_pos _).1 h).2.2.1 2)

/-- C90, violated expectation: proving one slice of an array changes what is proved for another one. After `Prove` of `s`, a
proof of any slice `t` of the same array commits to zero for every element of `t` behind `s` that the padding reached, whatever
the caller had stored there. -/
theorem C90_other_slice_violated [DecidableEq F] [DecidableEq G] (R : Ristretto F G) (spare : Nat → Nat) (m : Mem F) (M : Nat)
    (s t : Slice) (hs : Valid m s) (ht : Valid m t) (hst : t.arr = s.arr) (debug debug' : Bool) (coins coins' : RP.Coins F)
    (p : RP.Proof F G)
    (h : (prove R spare (prove R spare m M s debug coins).1 (prove R spare m M s debug coins).2.1 t debug' coins').2.2 = .ok p)
    (j : Nat) (hj : j < t.len) (h1 : s.off + s.len ≤ t.off + j) (h2 : t.off + j < s.off + s.len + overwritten s) :
    p.V[j]? = some ((Pedersen.new R RP.genData).commitToScalar 0 (coins'.vBlind j)) := by
  obtain ⟨hle, a, ha, hf⟩ := id hs
  obtain ⟨hle', a', ha', hf'⟩ := id ht
  rw [hst, ha] at ha'
  cases ha'
  obtain ⟨halt, -⟩ := List.getElem?_eq_some_iff.1 ha
  have hb : s.off + s.len + overwritten s ≤ a.length := by
    rcases overwritten_le s with h | h <;> omega
  have hm := C90_memory R spare m M s hs debug coins s.arr halt
  rw [ha] at hm
  simp only [if_true, Option.map_some] at hm
  generalize hm' : (prove R spare m M s debug coins).1 = m' at hm h
  have ht' : Valid m' t := ⟨hle', _, by rw [hst]; exact hm, by rw [zeroed_length _ _ _ hb]; exact hf'⟩
  have hr := C90_refines R spare m' (prove R spare m M s debug coins).2.1 t ht' debug' coins'
  rw [hr] at h
  obtain ⟨-, c2, c3⟩ := RP.C68_commitments R _ _ debug' coins' p h
  have hget : (read m' t)[j]? = some 0 := by
    unfold read
    rw [hst, hm, Option.getD_some, List.getElem?_take_of_lt hj, List.getElem?_drop, zeroed_getElem? _ _ _ hb,
      if_pos ⟨h1, h2⟩]
  have hlt : j < (read m' t).length := (List.getElem?_eq_some_iff.1 hget).1
  rw [List.getElem?_eq_getElem (by omega), c3 j (by omega), List.getD_eq_getElem?_getD, hget]
  rfl

/-- Four amounts, the first three proved first: the hypotheses can be met, and the fourth amount is overwritten. -/
example (a b c d : Toy.K) (spare : Nat → Nat) (debug : Bool) (coins : RP.Coins Toy.K) :
    (prove Toy.ris spare [[a, b, c, d]] 0 ⟨0, 0, 3, 4⟩ debug coins).1[0]? = some [a, b, c, 0] := by
  have hv : Valid [[a, b, c, d]] ⟨0, 0, 3, 4⟩ := ⟨by simp, _, rfl, by simp⟩
  rw [C90_memory Toy.ris spare _ 0 _ hv debug coins 0 (by simp)]
  have : overwritten ⟨0, 0, 3, 4⟩ = 1 := by decide +kernel
  simp [this, zeroed]

end Dusk.RPMem
