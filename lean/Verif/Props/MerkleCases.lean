import Verif.Props.MerkleTamper
import Verif.Props.MerkleErrors
import Verif.Props.MerkleMem
import Verif.Props.Hash
/-!
# Concrete cases for the theorems about hashes and Merkle trees

Every example applies a theorem of C01–C13 or C88 to concrete values, so that its hypotheses are seen to be satisfiable.
-/

namespace Dusk.Hash

/-- C01: a hash whose `Write` fails. -/
example : (performHash { alg := toyAlgs.sha3_256, absorbed := [1], broken := true } [2]).2.absorbed = [1] := by
  rw [(C01_perform_broken { alg := toyAlgs.sha3_256, absorbed := [1], broken := true } [2] rfl).2]

/-- C03: a full and a short read. -/
example : randEntropy (fun _ => ⟨[5, 6, 7], 3, none⟩) 3 = .ok [5, 6, 7] := by
  rcases C03_entropy (fun _ => ⟨[5, 6, 7], 3, none⟩) 3 (by decide) [5, 6, 7] ⟨by decide, rfl, rfl⟩ with h | h
  · exact h.1
  · exact absurd h.2 (by decide)

example : (randEntropy (fun _ => ⟨[5, 6, 0], 2, none⟩) 3).IsErr := by
  rcases C03_entropy (fun _ => ⟨[5, 6, 0], 2, none⟩) 3 (by decide) [5, 6] ⟨by decide, rfl, rfl⟩ with h | h
  · exact absurd h.2.1 (by decide)
  · exact h.1

example : ([5, 6, 7] : Bytes) = (⟨[5, 6, 7], 3, none⟩ : EntropyRead).buf :=
  (C03_success (fun _ => ⟨[5, 6, 7], 3, none⟩) 3 [5, 6, 7] rfl).1

end Dusk.Hash

namespace Dusk.Merkle

variable (A : Hash.Algs)

/-- The nodes of the tree for the payloads `1`, `2`, `3`. -/
def caseArena : Arena Bytes :=
  [{ parent := some 4, hash := [1], data := some [1], isLeaf := true },
   { parent := some 4, hash := [2], data := some [2], isLeaf := true },
   { parent := some 5, hash := [3], data := some [3], isLeaf := true },
   { parent := some 5, hash := [3], data := some [3], isLeaf := true, isDup := true },
   { parent := some 6, left := some 0, right := some 1, hash := A.sha3_256 [1, 2] },
   { parent := some 6, left := some 2, right := some 3, hash := A.sha3_256 [3, 3] },
   { left := some 4, right := some 5, hash := A.sha3_256 (A.sha3_256 [1, 2] ++ A.sha3_256 [3, 3]) }]

def caseTree : Tree := ⟨some 6, A.sha3_256 (A.sha3_256 [1, 2] ++ A.sha3_256 [3, 3]), [0, 1, 2, 3]⟩

def caseWorld : World Bytes := (caseArena A, [caseTree A])

theorem case_new : newTree A demoHash 4 [[1], [2], [3]] [] = some (.ok (caseTree A, caseArena A)) := rfl

theorem case_reachable : Reachable A demoHash (caseWorld A) := ⟨[.new [[1], [2], [3]]], .cons ⟨4, rfl⟩ (.nil _)⟩

theorem case_leafHash : ∀ i ∈ (caseTree A).leaves, LeafHash demoHash (caseWorld A).1 (storedHash (caseArena A)) i := by
  intro i hi
  simp only [caseTree, List.mem_cons, List.not_mem_nil, or_false] at hi
  rcases hi with rfl | rfl | rfl | rfl
  · exact ⟨_, _, rfl, rfl, rfl⟩
  · exact ⟨_, _, rfl, rfl, rfl⟩
  · exact ⟨_, _, rfl, rfl, rfl⟩
  · exact ⟨_, _, rfl, rfl, rfl⟩

/-- C04, C88: the second of three payloads has no hash. -/
example : newTree A demoHash 9 [[1], [], [3]] [] = some (.err "empty") :=
  C04_first_failure A demoHash [[1]] [[3]] [] "empty" (by simp [demoHash]) rfl 9 []

example : newTree A demoHash 9 [[1], [], [3]] [] = some (.err "empty") :=
  (C88_newTree A demoHash 9 [] [[1]] [[3]] [] (by simp [demoHash])).1 "empty" rfl

/-- C06: the tree verifies, also when another node was allocated. -/
example : verifyTree A demoHash 4 (caseTree A) (caseArena A ++ [{ hash := [9] }]) = some (.ok true) :=
  C06_newTree_verifies A demoHash 4 [[1], [2], [3]] [] (caseArena A) _ (caseTree A) (case_new A) (List.prefix_append _ _) 4 (by simp [caseTree])

/-- C09: rebuilding twice, and the copy of the last payload becoming an ordinary leaf. -/
example : ∃ t1 a1 t2 a2, rebuildTree A demoHash 5 (caseTree A) (caseArena A) = some (.ok (), t1, a1) ∧
    rebuildTree A demoHash 5 t1 a1 = some (.ok (), t2, a2) ∧ t2.merkleRoot = t1.merkleRoot ∧ t2.leaves.length = 4 ∧
    ∀ i ∈ t1.leaves, ∃ n, a1[i]? = some n ∧ n.isDup = false := by
  obtain ⟨t1, a1, t2, a2, h1, h2⟩ : ∃ t1 a1 t2 a2, rebuildTree A demoHash 5 (caseTree A) (caseArena A) = some (.ok (), t1, a1) ∧
      rebuildTree A demoHash 5 t1 a1 = some (.ok (), t2, a2) := by
    obtain ⟨t1, a1, h1, hr, hp, -⟩ := C09_rebuild A demoHash (caseWorld A) (case_reachable A) (caseTree A) (by simp [caseWorld])
    have hl : t1.leaves.length = 4 := by simpa [payloads, caseTree] using congrArg List.length hp
    have hs : Step A demoHash (caseWorld A) (.rebuild 0) (a1, [t1]) := ⟨5, caseTree A, _, t1, a1, rfl, h1 5 (by simp [caseTree]), rfl⟩
    have hw : Reachable A demoHash (a1, [t1]) := ⟨[.new [[1], [2], [3]], .rebuild 0], .cons ⟨4, rfl⟩ (.cons hs (.nil _))⟩
    obtain ⟨t2, a2, h2, -⟩ := C09_rebuild A demoHash _ hw t1 (by simp)
    exact ⟨t1, a1, t2, a2, h1 5 (by simp [caseTree]), h2 5 (by omega)⟩
  obtain ⟨e1, -, e3, e4⟩ := C09_rebuild_idempotent A demoHash (caseWorld A) (case_reachable A) 0 (caseTree A) t1 t2 a1 a2 5 5 rfl h1 h2
  exact ⟨t1, a1, t2, a2, h1, h2, e1, by rw [e4, e3]; rfl,
    C09_rebuild_drops_dup A demoHash (caseWorld A) (case_reachable A) (caseTree A) t1 (by simp [caseWorld]) a1 5 h1⟩

/-- C09: a rebuild with a payload without hash. -/
example : (rebuildTreeUsing A demoHash 5 (caseTree A) [[7], []] (caseArena A)) = some (.err "empty", caseTree A, caseArena A) := by
  obtain ⟨r, t', a', h⟩ : ∃ r t' a', rebuildTreeUsing A demoHash 5 (caseTree A) [[7], []] (caseArena A) = some (r, t', a') := ⟨_, _, _, rfl⟩
  have hr : r = .err "empty" := by
    have : rebuildTreeUsing A demoHash 5 (caseTree A) [[7], []] (caseArena A) = some (.err "empty", caseTree A, caseArena A) := rfl
    rw [this] at h
    simpa using (congrArg (Option.map Prod.fst) h).symm
  obtain ⟨e1, e2, -⟩ := C09_rebuildUsing_fail A demoHash 5 (caseTree A) t' [[7], []] (caseArena A) a' r h (by rw [hr]; simp)
  rw [h, hr, e1, e2]

/-- A hash function with collisions. -/
def zeroAlgs : Hash.Algs where
  sha3_256 _ := List.replicate 32 0
  sha3_512 _ := List.replicate 64 0
  blake2b_256 _ := List.replicate 32 0
  blake2b_512 _ := List.replicate 64 0
  xx64 _ := 0
  sha3_256_length _ := by simp
  sha3_512_length _ := by simp
  blake2b_256_length _ := by simp
  blake2b_512_length _ := by simp

/-- C08: two trees with equal roots and different payloads of 32 bytes: a collision is found. -/
example : ∃ x y, Spec.collision zeroAlgs.sha3_256 [List.replicate 32 1, List.replicate 32 2] [List.replicate 32 1, List.replicate 32 3] = some (x, y) ∧
    x ≠ y ∧ zeroAlgs.sha3_256 x = zeroAlgs.sha3_256 y := by
  refine (C08_tree_binding zeroAlgs demoHash 4 4 [List.replicate 32 1, List.replicate 32 2] [List.replicate 32 1, List.replicate 32 3] [] _ [] _ _ _
    [List.replicate 32 1, List.replicate 32 2] [List.replicate 32 1, List.replicate 32 3] rfl rfl ?_ ?_ rfl ?_ ?_ rfl).resolve_left (by decide)
  · simp [Hashes, demoHash]
  · simp [Hashes, demoHash]
  · simp
  · simp

/-- C10: three payloads, and the two interior hashes as payloads. -/
example : ∃ t a, newTree A demoHash 4 [A.sha3_256 [1, 2], A.sha3_256 [3, 3]] [] = some (.ok (t, a)) ∧ (caseTree A).merkleRoot = t.merkleRoot := by
  have hd : ∀ b, demoHash (A.sha3_256 b) = .ok (A.sha3_256 b) := by
    intro b
    have := A.sha3_256_length b
    unfold demoHash
    rw [if_neg]
    intro h
    rw [h] at this
    simp at this
  obtain ⟨t, a, h⟩ := newTree_ok A demoHash [A.sha3_256 [1, 2], A.sha3_256 [3, 3]] [A.sha3_256 [1, 2], A.sha3_256 [3, 3]] [] (by simp) (by simp [Hashes, hd])
  exact ⟨t, a, h 4 (by simp), (C10_interior_violated A demoHash 4 4 [[1], [2], [3]] [A.sha3_256 [1, 2], A.sha3_256 [3, 3]] [] (caseArena A) [] a
    (caseTree A) t [[1], [2], [3]] (by simp) (by simp [Hashes, demoHash]) (by simp [Hashes, hd, Spec.level]) (case_new A) (h 4 (by simp))).1⟩

/-- C11: leaves and depth of the tree. -/
example : ∃ i n, (caseTree A).leaves[3]? = some i ∧ (caseArena A)[i]? = some n ∧ n.isLeaf = true ∧ n.data = some [3] ∧ n.isDup = true :=
  (C11_leaves A demoHash 4 [[1], [2], [3]] [] (caseArena A) (caseTree A) (case_new A)).2.2.2.2 rfl

example : anc (caseArena A) 2 1 = some 6 ∧ anc (caseArena A) 3 1 = none := by
  obtain ⟨r, n, h1, -, -, h4, h5, -⟩ := C11_depth A demoHash 4 [[1], [2], [3]] [] (caseArena A) (caseTree A) (case_new A) 1 (by simp [caseTree])
  have e : max 1 (Nat.clog 2 [[(1 : UInt8)], [2], [3]].length) = 2 := by decide
  rw [e] at h4 h5
  cases Option.some.inj h1
  exact ⟨h4, h5 3 (by decide)⟩

/-- The memory of the tree with payload `2` replaced by `9` (stored hashes as before), and all stored hashes of interior nodes lost. -/
def caseTampered : Arena Bytes :=
  (((caseArena A).set 1 { parent := some 4, hash := [2], data := some [9], isLeaf := true }).set 4
    { parent := some 6, left := some 0, right := some 1, hash := [] })

def casePhi : Nat → Bytes := fun i => [[1], [9], [3], [3]].getD i []

theorem case_pointers : Pointers (caseWorld A).1 (caseTampered A) := by
  intro i n h
  match i with
  | 0 => exact ⟨_, rfl, by cases h; simp⟩
  | 1 => exact ⟨_, rfl, by cases h; simp⟩
  | 2 => exact ⟨_, rfl, by cases h; simp⟩
  | 3 => exact ⟨_, rfl, by cases h; simp⟩
  | 4 => exact ⟨_, rfl, by cases h; simp⟩
  | 5 => exact ⟨_, rfl, by cases h; simp⟩
  | 6 => exact ⟨_, rfl, by cases h; simp⟩
  | i + 7 => exact absurd h (by simp [caseWorld, caseArena])

theorem case_phi : ∀ i ∈ (caseTree A).leaves, LeafHash demoHash (caseTampered A) casePhi i := by
  intro i hi
  simp only [caseTree, List.mem_cons, List.not_mem_nil, or_false] at hi
  rcases hi with rfl | rfl | rfl | rfl
  · exact ⟨_, _, rfl, rfl, rfl⟩
  · exact ⟨_, _, rfl, rfl, rfl⟩
  · exact ⟨_, _, rfl, rfl, rfl⟩
  · exact ⟨_, _, rfl, rfl, rfl⟩

/-- C12, C88: what `VerifyTree` and `VerifyContent` find in the tampered tree. -/
example (mr : Bytes) : verifyTree A demoHash 4 { caseTree A with merkleRoot := mr } (caseTampered A) =
    some (.ok (decide (mr = Spec.root A.sha3_256 [[1], [9], [3], [3]]))) :=
  C12_verifyTree A demoHash (caseWorld A) (case_reachable A) (caseTree A) (by simp [caseWorld]) (caseTampered A) (case_pointers A) casePhi (case_phi A) mr 4
    (by simp [caseTree])

example (mr : Bytes) : ∃ x, verifyTree A demoHash 4 { caseTree A with merkleRoot := mr } (caseTampered A) = some (.ok x) :=
  C88_verifyTree_ok A demoHash (caseWorld A) (case_reachable A) (caseTree A) (by simp [caseWorld]) (caseTampered A) (case_pointers A) mr 4
    (by simp [caseTree]) (by
      intro j hj
      simp only [caseTree, List.mem_cons, List.not_mem_nil, or_false] at hj
      rcases hj with rfl | rfl | rfl | rfl
      · exact ⟨_, rfl⟩
      · exact ⟨_, rfl⟩
      · exact ⟨_, rfl⟩
      · exact ⟨_, rfl⟩)

example : verifyTree Hash.toyAlgs demoHash 4 (caseTree Hash.toyAlgs) (caseTampered Hash.toyAlgs) = some (.ok false) :=
  C12_payload_change_reported Hash.toyAlgs demoHash (caseWorld Hash.toyAlgs) (case_reachable _) (caseTree _) (by simp [caseWorld]) (caseTampered _)
    (case_pointers _) casePhi (case_phi _) (by decide +kernel) 4 (by simp [caseTree])

/-- `3` is on the path to node 5, which is intact, and node 6, whose child 4 lost its hash. -/
example : ∃ r, verifyContent Hash.toyAlgs demoHash 4 (caseTree Hash.toyAlgs) [3] (caseTampered Hash.toyAlgs) = some (.ok r) ∧
    (r = true ↔ ∀ m, 1 ≤ m → m ≤ Nat.clog 2 4 → ∃ j, anc (caseTampered Hash.toyAlgs) m 2 = some j ∧ NodeOk Hash.toyAlgs (caseTampered Hash.toyAlgs) casePhi j) :=
  C12_verifyContent Hash.toyAlgs demoHash (caseWorld Hash.toyAlgs) (case_reachable _) (caseTree _) (by simp [caseWorld]) (caseTampered _)
    (case_pointers _) casePhi (case_phi _) [3] [0, 1] [3] 2 rfl rfl (by decide) 4 (by simp [caseTree])

example : verifyContent A demoHash 4 (caseTree A) [2] (caseTampered A) = some (.ok false) :=
  C12_verifyContent_absent A demoHash (caseTree A) (caseTampered A) casePhi (case_phi A) [2] [2] rfl (by simp [caseTree, casePhi]) 4

example : verifyContent A demoHash 4 { caseTree A with merkleRoot := [] } [3] (caseTampered A) = verifyContent A demoHash 4 (caseTree A) [3] (caseTampered A) :=
  C12_merkleRoot_unread A demoHash (caseTree A) { caseTree A with merkleRoot := [] } rfl [3] (caseTampered A) 4

/-- C12: a changed payload next to the queried one, not noticed because the hash function has collisions: only the payload `2` was
replaced. -/
example : ([1] ++ [2] : Bytes) ≠ [1] ++ [9] ∧ zeroAlgs.sha3_256 ([1] ++ [2]) = zeroAlgs.sha3_256 ([1] ++ [9]) := by
  have hp : Pointers (caseWorld zeroAlgs).1 ((caseArena zeroAlgs).set 1 { parent := some 4, hash := [2], data := some [9], isLeaf := true }) := by
    intro i n h
    match i with
    | 0 => exact ⟨_, rfl, by cases h; simp⟩
    | 1 => exact ⟨_, rfl, by cases h; simp⟩
    | 2 => exact ⟨_, rfl, by cases h; simp⟩
    | 3 => exact ⟨_, rfl, by cases h; simp⟩
    | 4 => exact ⟨_, rfl, by cases h; simp⟩
    | 5 => exact ⟨_, rfl, by cases h; simp⟩
    | 6 => exact ⟨_, rfl, by cases h; simp⟩
    | i + 7 => exact absurd h (by simp [caseWorld, caseArena])
  refine C12_sibling_payload_reported zeroAlgs demoHash (caseWorld zeroAlgs) (case_reachable _) (caseTree zeroAlgs) (by simp [caseWorld]) _ hp casePhi ?_ [1] [] [1, 2, 3] 0 rfl rfl
    (by simp) 4 (by simp [caseTree]) 4 0 1 _ _ rfl rfl rfl rfl rfl rfl rfl (.inr (by decide)) (by decide +kernel)
  intro i hi
  simp only [caseTree, List.mem_cons, List.not_mem_nil, or_false] at hi
  rcases hi with rfl | rfl | rfl | rfl
  · exact ⟨_, _, rfl, rfl, rfl⟩
  · exact ⟨_, _, rfl, rfl, rfl⟩
  · exact ⟨_, _, rfl, rfl, rfl⟩
  · exact ⟨_, _, rfl, rfl, rfl⟩

end Dusk.Merkle

namespace Dusk.MerkleMem

/-- C13: a single payload with room for a copy behind it. -/
example (A : Hash.Algs) : (newTreeMem A [[1, 7, 8]] [⟨0, 0, 1, 2⟩]).1[0]? = some [1, 1, 8] := by
  rw [C13_single_overwrite_violated A [[1, 7, 8]] ⟨0, 0, 1, 2⟩ ⟨[1, 7, 8], rfl, by simp, by simp⟩ (by simp) [1, 7, 8] rfl]
  rfl

end Dusk.MerkleMem
