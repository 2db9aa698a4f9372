import Verif.Model.MerkleMem
import Verif.Lemmas.MerkleBuilt
/-!
# C13: writes of tree construction into memory of the payloads
-/

namespace Dusk.MerkleMem

set_option linter.unusedSectionVars false

variable (A : Hash.Algs)

/-- The slice lies inside its array. -/
def Slice.Ok (m : Mem) (s : Slice) : Prop := ∃ a, m[s.arr]? = some a ∧ s.off + s.cap ≤ a.length ∧ s.len ≤ s.cap

theorem read_prefix {m m' : Mem} (h : m <+: m') {s : Slice} (hs : s.Ok m) : read m' s = read m s ∧ s.Ok m' := by
  obtain ⟨a, h1, h2, h3⟩ := hs
  have e : m'[s.arr]? = some a := by
    obtain ⟨x, rfl⟩ := h
    rw [List.getElem?_append_left (List.getElem?_eq_some_iff.1 h1).1, h1]
  exact ⟨by rw [read, read, e, h1], a, e, h2, h3⟩

theorem read_length {m : Mem} {s : Slice} (hs : s.Ok m) : (read m s).length = s.len := by
  obtain ⟨a, h1, h2, h3⟩ := hs
  simp [read, h1]; omega

/-- Appending to a full slice never writes to existing memory. -/
theorem append_full {m : Mem} {s : Slice} {bs : Bytes} (hs : s.Ok m) (hfull : s.cap = s.len) :
    m <+: (append m s bs).1 ∧ read (append m s bs).1 (append m s bs).2 = read m s ++ bs := by
  unfold append
  split
  · rename_i h
    have hb : bs = [] := List.length_eq_zero_iff.1 (by omega)
    subst hb
    obtain ⟨a, h1, h2, h3⟩ := hs
    have : (m.modify s.arr fun a => a.take (s.off + s.len) ++ [] ++ a.drop (s.off + s.len + ([] : Bytes).length)) = m := by
      have : (fun a : Bytes => a.take (s.off + s.len) ++ [] ++ a.drop (s.off + s.len + ([] : Bytes).length)) = id := by
        funext a; simp
      rw [this, List.modify_id]
    rw [this]
    exact ⟨List.prefix_refl _, by simp [read]⟩
  · refine ⟨List.prefix_append _ _, ?_⟩
    have hl := read_length hs
    simp only [read, List.getElem?_append_right (le_refl _), Nat.sub_self, List.getElem?_cons_zero, Option.getD_some,
      List.drop_zero]
    apply List.take_of_length_le
    rw [List.length_append]
    unfold read at hl
    omega

theorem pairMem_full {m : Mem} {l r : Slice} (hl : l.Ok m) (hfull : l.cap = l.len) :
    m <+: (pairMem A m l r).1 ∧ read (pairMem A m l r).1 (pairMem A m l r).2 = A.sha3_256 (read m l ++ read m r) ∧
      (pairMem A m l r).2.Ok (pairMem A m l r).1 ∧ (pairMem A m l r).2.cap = (pairMem A m l r).2.len := by
  obtain ⟨h1, h2⟩ := append_full (bs := read m r) hl hfull
  have hd := A.sha3_256_length (read m l ++ read m r)
  have e : ((pairMem A m l r).1)[(pairMem A m l r).2.arr]? = some (A.sha3_256 (read m l ++ read m r)) := by
    simp only [pairMem, h2]
    rw [List.getElem?_append_right (le_refl _)]
    simp
  refine ⟨h1.trans (List.prefix_append _ _), ?_, ⟨_, e, ?_, ?_⟩, rfl⟩
  · rw [read, e]
    show ((A.sha3_256 (read m l ++ read m r)).drop 0).take 32 = _
    rw [List.drop_zero, List.take_of_length_le (by omega)]
  · show 0 + 32 ≤ _
    omega
  · exact le_refl 32

theorem levelMem_full : ∀ (ss : List Slice) (m : Mem), (∀ s ∈ ss, s.Ok m ∧ s.cap = s.len) →
    m <+: (levelMem A m ss).1 ∧
    (levelMem A m ss).2.map (read (levelMem A m ss).1) = Merkle.Spec.level A.sha3_256 (ss.map (read m)) ∧
    ∀ s ∈ (levelMem A m ss).2, s.Ok (levelMem A m ss).1 ∧ s.cap = s.len
  | [], m, _ => ⟨List.prefix_refl _, rfl, by simp [levelMem]⟩
  | [l], m, h => by
    obtain ⟨h1, h2, h3, h4⟩ := pairMem_full A (r := l) (h l (by simp)).1 (h l (by simp)).2
    refine ⟨h1, ?_, ?_⟩
    · simp only [levelMem, List.map_cons, List.map_nil, h2, Merkle.Spec.level]
    · intro s hs
      simp only [levelMem, List.mem_singleton] at hs
      subst hs
      exact ⟨h3, h4⟩
  | l :: r :: ss, m, h => by
    obtain ⟨h1, h2, h3, h4⟩ := pairMem_full A (r := r) (h l (by simp)).1 (h l (by simp)).2
    obtain ⟨k1, k2, k3⟩ := levelMem_full ss (pairMem A m l r).1
      (fun s hs => ⟨(read_prefix h1 (h s (by simp [hs])).1).2, (h s (by simp [hs])).2⟩)
    refine ⟨h1.trans k1, ?_, ?_⟩
    · simp only [levelMem, List.map_cons, Merkle.Spec.level, k2, (read_prefix k1 h3).1, h2]
      congr 2
      apply List.map_congr_left
      intro s hs
      exact (read_prefix h1 (h s (by simp [hs])).1).1
    · intro s hs
      simp only [levelMem, List.mem_cons] at hs
      rcases hs with rfl | hs
      · exact ⟨(read_prefix k1 h3).2, h4⟩
      · exact k3 s hs

theorem roundsMem_full (n : Nat) : ∀ (ss : List Slice) (m : Mem), ss.length = n → ss ≠ [] →
    (∀ s ∈ ss, s.Ok m ∧ s.cap = s.len) →
    m <+: (roundsMem A m ss).1 ∧ ∃ r, (roundsMem A m ss).2 = some r ∧
      read (roundsMem A m ss).1 r = Merkle.Spec.rounds A.sha3_256 (ss.map (read m)) := by
  induction n using Nat.strong_induction_on with
  | _ n ih =>
    intro ss m hl hne h
    have hpos := List.length_pos_iff.2 hne
    unfold roundsMem
    split
    · rename_i h1
      obtain ⟨s, rfl⟩ := List.length_eq_one_iff.1 (show ss.length = 1 by omega)
      exact ⟨List.prefix_refl _, s, rfl, by rw [List.map_cons, List.map_nil, Merkle.rounds_single]⟩
    · rename_i h1
      obtain ⟨k1, k2, k3⟩ := levelMem_full A ss m h
      have ll := levelMem_length A m ss
      obtain ⟨g1, r, g2, g3⟩ := ih ((ss.length + 1) / 2) (by omega) _ (levelMem A m ss).1 ll
        (by intro hc; rw [hc, List.length_nil] at ll; omega) k3
      exact ⟨k1.trans g1, r, g2, by rw [g3, k2, ← Merkle.rounds_of_level (by simp; omega)]⟩

/-- C13: if every slice returned by `CalculateHash` has no spare capacity, building the tree writes to no existing
array, however the slices overlap, and the root is the textbook root of the hashes. -/
theorem C13_no_write_full (m : Mem) (ss : List Slice) (hne : ss ≠ []) (h : ∀ s ∈ ss, s.Ok m ∧ s.cap = s.len) :
    m <+: (newTreeMem A m ss).1 ∧ ∃ r, (newTreeMem A m ss).2 = some r ∧
      read (newTreeMem A m ss).1 r = Merkle.Spec.root A.sha3_256 (ss.map (read m)) := by
  have hsub : ∀ s ∈ Merkle.Spec.pad ss, s ∈ ss := by
    intro s hs
    unfold Merkle.Spec.pad at hs
    split at hs
    · rcases List.mem_append.1 hs with hs | hs
      · exact hs
      · rw [Option.mem_toList] at hs
        exact List.mem_of_getLast? hs
    · exact hs
  obtain ⟨h1, r, h2, h3⟩ := roundsMem_full A _ (Merkle.Spec.pad ss) m rfl
    (by intro hc; have := (Merkle.pad_even ss hne).2; rw [hc] at this; simp at this) (fun s hs => h s (hsub s hs))
  refine ⟨h1, r, h2, ?_⟩
  have : (Merkle.Spec.pad ss).map (read m) = Merkle.Spec.pad (ss.map (read m)) := by
    unfold Merkle.Spec.pad
    rw [List.length_map]
    split
    · rw [List.map_append, List.getLast?_map]; cases ss.getLast? <;> rfl
    · rfl
  rw [this, Merkle.rounds_pad _ _ (by simpa using hne)] at h3
  exact h3

theorem append_spare {m : Mem} {s : Slice} {bs : Bytes} {a : Bytes} (ha : m[s.arr]? = some a) (hcap : s.off + s.cap ≤ a.length)
    (h : s.len + bs.length ≤ s.cap) :
    (append m s bs).1 = m.set s.arr (a.take (s.off + s.len) ++ bs ++ a.drop (s.off + s.len + bs.length)) ∧
      read (append m s bs).1 (append m s bs).2 = read m s ++ bs := by
  have hlt := (List.getElem?_eq_some_iff.1 ha).1
  have e : (append m s bs).1 = m.set s.arr (a.take (s.off + s.len) ++ bs ++ a.drop (s.off + s.len + bs.length)) := by
    rw [append, if_pos h]
    simp only
    rw [List.modify_eq_set_getElem?, ha]
    rfl
  refine ⟨e, ?_⟩
  rw [e]
  have e2 : (append m s bs).2 = { s with len := s.len + bs.length } := by rw [append, if_pos h]
  rw [e2, read]
  simp only
  rw [List.getElem?_set_self hlt, Option.getD_some, read, ha, Option.getD_some]
  rw [List.append_assoc, List.drop_append_of_le_length (by simp; omega)]
  rw [show (a.take (s.off + s.len)).drop s.off = (a.drop s.off).take s.len by rw [List.drop_take]; congr 1; omega]
  rw [← List.append_assoc, List.take_left' (by simp; omega)]

/-- C13, violated: with two payloads, if the first slice has spare capacity for the second hash, `NewTree` overwrites
the bytes behind the first hash in the payload's own array by the second hash. -/
theorem C13_overwrite_violated (m : Mem) (s0 s1 : Slice) (h0 : s0.Ok m) (h1 : s1.Ok m) (hsp : s0.len + s1.len ≤ s0.cap)
    (a : Bytes) (ha : m[s0.arr]? = some a) :
    (newTreeMem A m [s0, s1]).1[s0.arr]? =
      some (a.take (s0.off + s0.len) ++ read m s1 ++ a.drop (s0.off + s0.len + s1.len)) := by
  have hr1 := read_length h1
  obtain ⟨a', g1, g2, g3⟩ := h0
  rw [ha, Option.some.injEq] at g1
  subst g1
  obtain ⟨e1, -⟩ := append_spare (bs := read m s1) ha g2 (by omega)
  have hlt := (List.getElem?_eq_some_iff.1 ha).1
  have hmem : (newTreeMem A m [s0, s1]).1 = (append m s0 (read m s1)).1 ++ [A.sha3_256 (read (append m s0 (read m s1)).1 (append m s0 (read m s1)).2)] := by
    unfold newTreeMem
    rw [if_neg (by simp), roundsMem, dif_neg (by simp), roundsMem, dif_pos (by simp [levelMem])]
    rfl
  rw [hmem, e1, List.getElem?_append_left (by simpa using hlt), List.getElem?_set_self hlt, hr1]

/-- C13, violated: with a single payload whose slice has spare capacity, the hash is written a second time behind
itself. -/
theorem C13_single_overwrite_violated (m : Mem) (s : Slice) (h : s.Ok m) (hsp : s.len + s.len ≤ s.cap)
    (a : Bytes) (ha : m[s.arr]? = some a) :
    (newTreeMem A m [s]).1[s.arr]? = some (a.take (s.off + s.len) ++ read m s ++ a.drop (s.off + s.len + s.len)) := by
  have := C13_overwrite_violated A m s s h h hsp a ha
  have e : newTreeMem A m [s] = newTreeMem A m [s, s] := by
    unfold newTreeMem
    rw [if_pos (by simp), if_neg (by simp)]
    rfl
  rw [e]
  exact this

theorem read_set_ne {m : Mem} {k : Nat} {x : Bytes} {s : Slice} (h : s.arr ≠ k) : read (m.set k x) s = read m s := by
  rw [read, read, List.getElem?_set_ne (Ne.symm h)]

/-- C13, violated: the root itself can be wrong. Four payloads; the array of the first hash continues with the third
hash (`s2`), within the capacity of the first slice; the second and fourth hash are in other arrays. Then the third
payload's hash is replaced by the second one and the root is that of `h0, h1, h1, h3`. -/
theorem C13_wrong_root_violated (m : Mem) (s0 s1 s2 s3 : Slice) (h0 : s0.Ok m) (h1 : s1.Ok m) (h2 : s2.Ok m) (h3 : s3.Ok m)
    (hsp : s0.len + s1.len ≤ s0.cap) (hoff : s2.arr = s0.arr ∧ s2.off = s0.off + s0.len ∧ s2.len = s1.len)
    (hfull : s2.cap = s2.len) (hd1 : s1.arr ≠ s0.arr) (hd3 : s3.arr ≠ s0.arr) :
    read (newTreeMem A m [s0, s1, s2, s3]).1 s2 = read m s1 ∧
    ∃ r, (newTreeMem A m [s0, s1, s2, s3]).2 = some r ∧ read (newTreeMem A m [s0, s1, s2, s3]).1 r =
      Merkle.Spec.root A.sha3_256 [read m s0, read m s1, read m s1, read m s3] := by
  have hr1 := read_length h1
  obtain ⟨a, g1, g2, g3⟩ := h0
  have hlt := (List.getElem?_eq_some_iff.1 g1).1
  obtain ⟨e1, e2⟩ := append_spare (bs := read m s1) g1 g2 (by omega)
  -- memory after the first append
  obtain ⟨m1, hm1⟩ : ∃ x, x = (append m s0 (read m s1)).1 := ⟨_, rfl⟩
  have hq : (m.set s0.arr (a.take (s0.off + s0.len) ++ read m s1 ++ a.drop (s0.off + s0.len + (read m s1).length)))[s0.arr]? =
      some (a.take (s0.off + s0.len) ++ read m s1 ++ a.drop (s0.off + s0.len + (read m s1).length)) := List.getElem?_set_self hlt
  have hs2 : read m1 s2 = read m s1 ∧ s2.Ok m1 := by
    rw [hm1, e1]
    refine ⟨?_, _, by rw [hoff.1]; exact hq, ?_, by omega⟩
    · rw [read, hoff.1, hq, Option.getD_some, hoff.2.1, hoff.2.2, List.append_assoc,
        List.drop_left' (by simp; omega), List.take_left' hr1]
    · obtain ⟨a2, q1, q2, q3⟩ := h2
      rw [hoff.1, g1, Option.some.injEq] at q1
      subst q1
      simp
      omega
  have hs3 : read m1 s3 = read m s3 ∧ s3.Ok m1 := by
    rw [hm1, e1]
    refine ⟨read_set_ne hd3, ?_⟩
    obtain ⟨a3, q1, q2, q3⟩ := h3
    exact ⟨a3, by rw [List.getElem?_set_ne (Ne.symm hd3), q1], q2, q3⟩
  -- memory after the first digest
  obtain ⟨x, hx⟩ : ∃ x, x = pairMem A m s0 s1 := ⟨_, rfl⟩
  have hp : m1 <+: x.1 := by rw [hx, hm1, pairMem]; exact List.prefix_append _ _
  have hxd : read x.1 x.2 = A.sha3_256 (read m s0 ++ read m s1) ∧ x.2.Ok x.1 ∧ x.2.cap = x.2.len := by
    have hdl := A.sha3_256_length (read m s0 ++ read m s1)
    have e : (x.1)[x.2.arr]? = some (A.sha3_256 (read m s0 ++ read m s1)) := by
      rw [hx]
      simp only [pairMem, e2]
      rw [List.getElem?_append_right (le_refl _)]
      simp
    have er : x.2 = { arr := x.2.arr, off := 0, len := 32, cap := 32 } := by rw [hx]; rfl
    refine ⟨?_, ⟨_, e, by rw [er]; simp only; omega, by rw [er]⟩, by rw [er]⟩
    rw [read, e, er]
    simp only [Option.getD_some, List.drop_zero]
    exact List.take_of_length_le (by omega)
  have hy2 := read_prefix hp hs2.2
  have hy3 := read_prefix hp hs3.2
  obtain ⟨p1, p2, p3, p4⟩ := pairMem_full A (m := x.1) (r := s3) hy2.2 hfull
  obtain ⟨y, hy⟩ : ∃ y, y = pairMem A x.1 s2 s3 := ⟨_, rfl⟩
  rw [← hy] at p1 p2 p3 p4
  have hlev : levelMem A m [s0, s1, s2, s3] = (y.1, [x.2, y.2]) := by
    simp only [levelMem]
    rw [← hx, ← hy]
  have hall : ∀ s ∈ [x.2, y.2], s.Ok y.1 ∧ s.cap = s.len := by
    intro s hs
    simp only [List.mem_cons, List.not_mem_nil, or_false] at hs
    rcases hs with rfl | rfl
    · exact ⟨(read_prefix p1 hxd.2.1).2, hxd.2.2⟩
    · exact ⟨p3, p4⟩
  obtain ⟨f1, r, f2, f3⟩ := roundsMem_full A 2 [x.2, y.2] y.1 rfl (by simp) hall
  have hnt : newTreeMem A m [s0, s1, s2, s3] = roundsMem A y.1 [x.2, y.2] := by
    unfold newTreeMem
    rw [if_neg (by simp), roundsMem, dif_neg (by simp), hlev]
  rw [hnt]
  refine ⟨?_, r, f2, ?_⟩
  · have h2' := read_prefix (p1.trans f1) hy2.2
    rw [h2'.1, hy2.1, hs2.1]
  · rw [f3]
    simp only [List.map_cons, List.map_nil, (read_prefix p1 hxd.2.1).1, hxd.1, p2, hy2.1, hy3.1, hs2.1, hs3.1]
    rw [Merkle.Spec.root]
    rfl

/-- A layout with the violation: hash `1` at the start of an array with capacity for two bytes. -/
example : (newTreeMem A [[1, 7], [2]] [⟨0, 0, 1, 2⟩, ⟨1, 0, 1, 1⟩]).1[0]? = some [1, 2] := by
  rw [C13_overwrite_violated A [[1, 7], [2]] ⟨0, 0, 1, 2⟩ ⟨1, 0, 1, 1⟩ ⟨[1, 7], rfl, by simp, by simp⟩ ⟨[2], rfl, by simp, by simp⟩
    (by simp) [1, 7] rfl]
  rfl

/-- The same hashes without spare capacity, all cut from one shared array. -/
example : ∃ r, (newTreeMem A [[1, 2]] [⟨0, 0, 1, 1⟩, ⟨0, 1, 1, 1⟩]).2 = some r ∧
    read (newTreeMem A [[1, 2]] [⟨0, 0, 1, 1⟩, ⟨0, 1, 1, 1⟩]).1 r = Merkle.Spec.root A.sha3_256 [[1], [2]] :=
  (C13_no_write_full A [[1, 2]] [⟨0, 0, 1, 1⟩, ⟨0, 1, 1, 1⟩] (by simp) (by
    intro s hs
    simp only [List.mem_cons, List.not_mem_nil, or_false] at hs
    rcases hs with rfl | rfl
    · exact ⟨⟨[1, 2], rfl, by simp, by simp⟩, rfl⟩
    · exact ⟨⟨[1, 2], rfl, by simp, by simp⟩, rfl⟩)).2

/-- A layout with a wrong root. -/
example : ∃ r, (newTreeMem A [[1, 3], [2, 4]] [⟨0, 0, 1, 2⟩, ⟨1, 0, 1, 2⟩, ⟨0, 1, 1, 1⟩, ⟨1, 1, 1, 1⟩]).2 = some r ∧
    read (newTreeMem A [[1, 3], [2, 4]] [⟨0, 0, 1, 2⟩, ⟨1, 0, 1, 2⟩, ⟨0, 1, 1, 1⟩, ⟨1, 1, 1, 1⟩]).1 r =
      Merkle.Spec.root A.sha3_256 [[1], [2], [2], [4]] :=
  (C13_wrong_root_violated A [[1, 3], [2, 4]] ⟨0, 0, 1, 2⟩ ⟨1, 0, 1, 2⟩ ⟨0, 1, 1, 1⟩ ⟨1, 1, 1, 1⟩ ⟨_, rfl, by simp, by simp⟩
    ⟨_, rfl, by simp, by simp⟩ ⟨_, rfl, by simp, by simp⟩ ⟨_, rfl, by simp, by simp⟩ (by simp) (by simp) rfl (by simp) (by simp)).2

end Dusk.MerkleMem
