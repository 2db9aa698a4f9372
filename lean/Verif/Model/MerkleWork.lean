import Verif.Model.Merkle
/-!
# What the functions of package merkletree compute

The functions of `Model/Merkle.lean` are written again with a count of
* the calls of `CalculateHash` of a payload,
* the calls of `hash.Sha3256`,

also of the ones that fail. `Props/MerkleWork.lean` shows that leaving the counts out gives back the functions of
`Model/Merkle.lean`.
-/

namespace Dusk.Merkle

/-- The outcome of a call with the numbers of calls of `CalculateHash` and `Sha3256` made until it returned. -/
structure Work (β : Type) where
  run : Run β
  payloads : Nat := 0
  shas : Nat := 0

namespace Work

/-- Nothing is hashed. -/
def lift {β : Type} (r : Res β) : Work β := ⟨some r, 0, 0⟩

/-- Sequencing: what was computed before an error or a panic stays counted. -/
def bind {β γ : Type} (m : Work β) (f : β → Work γ) : Work γ :=
  match m.run with
  | some (.ok b) => ⟨(f b).run, m.payloads + (f b).payloads, m.shas + (f b).shas⟩
  | some (.err e) => ⟨some (.err e), m.payloads, m.shas⟩
  | some .panic => ⟨some .panic, m.payloads, m.shas⟩
  | none => ⟨none, m.payloads, m.shas⟩

/-- `d.CalculateHash()`. -/
def payload {α : Type} (hashOf : α → Res Bytes) (d : α) : Work Bytes := ⟨some (hashOf d), 1, 0⟩

/-- `hash.Sha3256(b)`. -/
def sha (A : Hash.Algs) (b : Bytes) : Work Bytes := ⟨some (Hash.sha3256 A b), 0, 1⟩

end Work

open Work

variable {α : Type} (A : Hash.Algs) (hashOf : α → Res Bytes)

/-- `n.Data.CalculateHash()`; a nil interface panics before the call. -/
def calcDataW (d : Option α) : Work Bytes :=
  match d with
  | none => lift .panic
  | some d => payload hashOf d

/-- `VerifyNode` (merkletree/merkletree.go:38-54). -/
def verifyNodeW (a : Arena α) : Nat → Option Nat → Work Bytes
  | 0, _ => ⟨none, 0, 0⟩
  | f + 1, p =>
    (lift (get a p)).bind fun n =>
      if n.isLeaf then calcDataW hashOf n.data
      else
        (verifyNodeW a f n.right).bind fun rightBytes => (verifyNodeW a f n.left).bind fun leftBytes =>
          sha A (leftBytes ++ rightBytes)

/-- `CalculateNodeHash` (merkletree/merkletree.go:57-63). -/
def calculateNodeHashW (a : Arena α) (p : Option Nat) : Work Bytes :=
  (lift (get a p)).bind fun n =>
    if n.isLeaf then calcDataW hashOf n.data
    else (lift (get a n.left)).bind fun l => (lift (get a n.right)).bind fun r => sha A (l.hash ++ r.hash)

/-- One iteration of the loop of `createIntermediate` (merkletree/merkletree.go:126-141). -/
def pairNodeW (a : Arena α) (left right : Nat) : Work (Nat × Arena α) :=
  (lift (idx a left)).bind fun l => (lift (idx a right)).bind fun r =>
    (sha A (l.hash ++ r.hash)).bind fun h =>
      let j := a.length
      (lift (setParent (a ++ [{ left := some left, right := some right, hash := h }]) left j)).bind fun a1 =>
        (lift (setParent a1 right j)).bind fun a2 => lift (.ok (j, a2))

/-- The loop of `createIntermediate` (merkletree/merkletree.go:121-146). -/
def pairLoopW : Arena α → List Nat → Work (List Nat × Arena α)
  | a, [] => lift (.ok ([], a))
  | a, [l] => (pairNodeW A a l l).bind fun (j, a') => lift (.ok ([j], a'))
  | a, l :: r :: nl =>
    (pairNodeW A a l r).bind fun (j, a') => (pairLoopW a' nl).bind fun (js, a'') => lift (.ok (j :: js, a''))

/-- `createIntermediate` (merkletree/merkletree.go:119-149). -/
def createIntermediateW : Nat → List Nat → Arena α → Work (Nat × Arena α)
  | 0, _, _ => ⟨none, 0, 0⟩
  | f + 1, nl, a =>
    match nl with
    | [l, r] => pairNodeW A a l r
    | nl => (pairLoopW A a nl).bind fun (nodes, a') => createIntermediateW f nodes a'

/-- The first loop of `create` (merkletree/merkletree.go:87-98). -/
def leafLoopW : Arena α → List α → Work (List Nat × Arena α)
  | a, [] => lift (.ok ([], a))
  | a, d :: ds =>
    (payload hashOf d).bind fun h =>
      (leafLoopW (a ++ [{ data := some d, hash := h, isLeaf := true }]) ds).bind fun (is, a') =>
        lift (.ok (a.length :: is, a'))

/-- `create` (merkletree/merkletree.go:81-116); the hash of the duplicate of the last leaf is copied. -/
def createW (f : Nat) (pl : List α) (a : Arena α) : Work (Nat × List Nat × Arena α) :=
  if pl.length = 0 then lift (.err "cannot construct tree with no content")
  else
    (leafLoopW hashOf a pl).bind fun (leaves, a) =>
      (lift (dupLeaf leaves a)).bind fun (leaves, a) =>
        (createIntermediateW A f leaves a).bind fun (root, a) => lift (.ok (root, leaves, a))

/-- `NewTree` (merkletree/merkletree.go:66-77). -/
def newTreeW (f : Nat) (pl : List α) (a : Arena α) : Work (Tree × Arena α) :=
  (createW A hashOf f pl a).bind fun (root, leaves, a) =>
    (lift (idx a root)).bind fun n => lift (.ok ({ root := some root, merkleRoot := n.hash, leaves := leaves }, a))

/-- `VerifyTree` (merkletree/merkletree.go:177-188). -/
def verifyTreeW (f : Nat) (t : Tree) (a : Arena α) : Work Bool :=
  (verifyNodeW A hashOf a f t.root).bind fun calculatedRoot => lift (.ok (decide (t.merkleRoot = calculatedRoot)))

/-- `equals` (merkletree/merkletree.go:232-243). -/
def equalsW (x : Option α) (y : α) : Work Bool :=
  (calcDataW hashOf x).bind fun hashA => (payload hashOf y).bind fun hashB => lift (.ok (decide (hashA = hashB)))

/-- The walk of `VerifyContent` along the parents (merkletree/merkletree.go:199-224). -/
def walkW (a : Arena α) : Nat → Option Nat → Work Bool
  | _, none => lift (.ok true)
  | 0, some _ => ⟨none, 0, 0⟩
  | f + 1, some i =>
    (lift (idx a i)).bind fun n =>
      (calculateNodeHashW A hashOf a n.right).bind fun rightBytes =>
        (calculateNodeHashW A hashOf a n.left).bind fun leftBytes =>
          (sha A (leftBytes ++ rightBytes)).bind fun h =>
            if h ≠ n.hash then lift (.ok false) else walkW a f n.parent

/-- The loop of `VerifyContent` over the leaves (merkletree/merkletree.go:192-228). -/
def contentLoopW (f : Nat) (a : Arena α) (data : α) : List Nat → Work Bool
  | [] => lift (.ok false)
  | i :: is =>
    (lift (idx a i)).bind fun leaf =>
      (equalsW hashOf leaf.data data).bind fun ok =>
        if ok then walkW A hashOf a f leaf.parent else contentLoopW f a data is

/-- `Tree.VerifyContent` (merkletree/merkletree.go:191-229). -/
def verifyContentW (f : Nat) (t : Tree) (data : α) (a : Arena α) : Work Bool :=
  contentLoopW A hashOf f a data t.leaves

end Dusk.Merkle
