import Verif.Model.Hash
/-!
# The byte slices of merkletree/merkletree.go in memory

`Verif.Model.Merkle` treats hashes as values. Here the slices returned by `CalculateHash` are slices into backing
arrays, which may have spare capacity and may overlap, and `append` behaves as in Go. Only the hashes are kept:
the pointers of the nodes are in the other model.
-/

namespace Dusk.MerkleMem

/-- All backing arrays. -/
abbrev Mem := List Bytes

/-- A slice: backing array, offset, length, capacity. -/
structure Slice where
  arr : Nat
  off : Nat
  len : Nat
  cap : Nat

/-- The bytes of a slice. -/
def read (m : Mem) (s : Slice) : Bytes := (((m[s.arr]?).getD []).drop s.off).take s.len

/-- `append(s, bs...)`: in place when the capacity suffices, otherwise into a new array. (Go may give the new
array more capacity than needed; the package never appends to such a slice again.) -/
def append (m : Mem) (s : Slice) (bs : Bytes) : Mem × Slice :=
  if s.len + bs.length ≤ s.cap then
    (m.modify s.arr fun a => a.take (s.off + s.len) ++ bs ++ a.drop (s.off + s.len + bs.length),
      { s with len := s.len + bs.length })
  else (m ++ [read m s ++ bs], { arr := m.length, off := 0, len := s.len + bs.length, cap := s.len + bs.length })

variable (A : Hash.Algs)

/-- The hashing of one pair (merkletree/merkletree.go:127-132). The digest is a new array of 32 bytes with
capacity 32 (hash/hash.go:43-49: `Sum(nil)` appends 32 bytes to a nil slice). -/
def pairMem (m : Mem) (l r : Slice) : Mem × Slice :=
  let x := append m l (read m r)
  (x.1 ++ [A.sha3_256 (read x.1 x.2)], { arr := x.1.length, off := 0, len := 32, cap := 32 })

/-- One level (merkletree/merkletree.go:121-146). -/
def levelMem : Mem → List Slice → Mem × List Slice
  | m, [] => (m, [])
  | m, [l] => let x := pairMem A m l l; (x.1, [x.2])
  | m, l :: r :: ss => let x := pairMem A m l r; let y := levelMem x.1 ss; (y.1, x.2 :: y.2)

theorem levelMem_length : ∀ (m : Mem) (ss : List Slice), (levelMem A m ss).2.length = (ss.length + 1) / 2
  | m, [] => rfl
  | m, [l] => by simp [levelMem]
  | m, l :: r :: ss => by
    simp only [levelMem, List.length_cons, levelMem_length _ ss]; omega

/-- `createIntermediate` on at least two nodes (merkletree/merkletree.go:119-149): levels until one node is left;
on exactly two nodes one level is built. -/
def roundsMem (m : Mem) (ss : List Slice) : Mem × Option Slice :=
  if _h : ss.length ≤ 1 then (m, ss.head?) else roundsMem (levelMem A m ss).1 (levelMem A m ss).2
termination_by ss.length
decreasing_by rw [levelMem_length]; omega

/-- `NewTree` (merkletree/merkletree.go:66-116) on payloads whose `CalculateHash` returned the slices `ss`: memory and
the slice `MerkleRoot`. The duplicate leaf of an odd list shares the slice of the last leaf. -/
def newTreeMem (m : Mem) (ss : List Slice) : Mem × Option Slice :=
  roundsMem A m (if ss.length % 2 = 1 then ss ++ ss.getLast?.toList else ss)

end Dusk.MerkleMem
