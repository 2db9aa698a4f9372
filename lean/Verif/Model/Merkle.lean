import Verif.Model.Hash
/-!
# Model of merkletree/merkletree.go

Nodes live in an arena (a list) and pointers are indices into it; `&Node{…}` appends to the arena and
assignments through pointers update an entry. The three loops of the package that need not end for every
pointer structure (`VerifyNode`, `createIntermediate`, the walk in `VerifyContent`) take a bound on the
number of recursive calls or iterations: the outcome `none` means that the bound was reached, so "the call
terminates" reads "from some bound on the outcome is `some`".

Simplification: the byte slices held in `Hash` are values here, so that `append(x.Hash, y.Hash...)` is
concatenation. `Verif.Model.MerkleMem` models the slices in memory.
-/

namespace Dusk.Merkle

/-- `Node` (merkletree/merkletree.go:26-34). `α` is the type of payloads; `data = none` is the nil interface. -/
structure Node (α : Type) where
  parent : Option Nat := none
  left : Option Nat := none
  right : Option Nat := none
  hash : Bytes := []
  data : Option α := none
  isLeaf : Bool := false
  isDup : Bool := false

/-- All nodes. -/
abbrev Arena (α : Type) := List (Node α)

/-- `Tree` (merkletree/merkletree.go:18-22). -/
structure Tree where
  root : Option Nat
  merkleRoot : Bytes
  leaves : List Nat

/-- Outcome of a call that may also run on: `none` when the bound on the number of rounds was reached. -/
abbrev Run (β : Type) := Option (Res β)

/-- Sequencing; errors and panics propagate. -/
def Run.bind {β γ : Type} (r : Run β) (f : β → Run γ) : Run γ :=
  match r with
  | none => none
  | some (.ok b) => f b
  | some (.err e) => some (.err e)
  | some .panic => some .panic

@[simp] theorem Run.bind_ok {β γ : Type} (b : β) (f : β → Run γ) : Run.bind (some (.ok b)) f = f b := rfl
@[simp] theorem Run.bind_err {β γ : Type} (e : String) (f : β → Run γ) :
    Run.bind (some (.err e)) f = some (.err e) := rfl
@[simp] theorem Run.bind_panic {β γ : Type} (f : β → Run γ) : Run.bind (some .panic) f = some .panic := rfl
@[simp] theorem Run.bind_none {β γ : Type} (f : β → Run γ) : Run.bind none f = none := rfl

variable {α : Type} (A : Hash.Algs) (hashOf : α → Res Bytes)

/-- Dereference a node pointer. -/
def get (a : Arena α) (p : Option Nat) : Res (Node α) :=
  match p with
  | none => .panic
  | some i => idx a i

/-- `n.Data.CalculateHash()`; a nil interface panics. `hashOf` is the payload's method
(merkletree/merkletree.go:12-14), any function of the payload that may fail. -/
def calcData (d : Option α) : Res Bytes :=
  match d with
  | none => .panic
  | some d => hashOf d

/-- `VerifyNode` (merkletree/merkletree.go:38-54): right child first. -/
def verifyNode (a : Arena α) : Nat → Option Nat → Run Bytes
  | 0, _ => none
  | f + 1, p =>
    Run.bind (some (get a p)) fun n =>
      if n.isLeaf then some (calcData hashOf n.data)
      else
        (verifyNode a f n.right).bind fun rightBytes => (verifyNode a f n.left).bind fun leftBytes =>
          some (Hash.sha3256 A (leftBytes ++ rightBytes))

/-- `CalculateNodeHash` (merkletree/merkletree.go:57-63). -/
def calculateNodeHash (a : Arena α) (p : Option Nat) : Res Bytes :=
  (get a p).bind fun n =>
    if n.isLeaf then calcData hashOf n.data
    else (get a n.left).bind fun l => (get a n.right).bind fun r => Hash.sha3256 A (l.hash ++ r.hash)

/-- `nl[i].Parent = node`. -/
def setParent (a : Arena α) (i j : Nat) : Res (Arena α) :=
  (idx a i).bind fun n => .ok (a.set i { n with parent := some j })

/-- One iteration of the loop of `createIntermediate` (merkletree/merkletree.go:126-141): the new node's index
and the arena. -/
def pairNode (a : Arena α) (left right : Nat) : Res (Nat × Arena α) :=
  (idx a left).bind fun l => (idx a right).bind fun r =>
    (Hash.sha3256 A (l.hash ++ r.hash)).bind fun h =>
      let j := a.length
      (setParent (a ++ [{ left := some left, right := some right, hash := h }]) left j).bind fun a1 =>
        (setParent a1 right j).bind fun a2 => .ok (j, a2)

/-- The loop of `createIntermediate` (merkletree/merkletree.go:121-146) over the nodes from position `i` on;
the last node of an odd list is paired with itself. -/
def pairLoop : Arena α → List Nat → Res (List Nat × Arena α)
  | a, [] => .ok ([], a)
  | a, [l] => (pairNode A a l l).bind fun (j, a') => .ok ([j], a')
  | a, l :: r :: nl =>
    (pairNode A a l r).bind fun (j, a') => (pairLoop a' nl).bind fun (js, a'') => .ok (j :: js, a'')

/-- `createIntermediate` (merkletree/merkletree.go:119-149). A list of exactly two nodes returns after its
only iteration; everything else recurses, also a list with fewer than two nodes. -/
def createIntermediate : Nat → List Nat → Arena α → Run (Nat × Arena α)
  | 0, _, _ => none
  | f + 1, nl, a =>
    match nl with
    | [l, r] => some (pairNode A a l r)
    | nl => Run.bind (some (pairLoop A a nl)) fun (nodes, a') => createIntermediate f nodes a'

/-- The first loop of `create` (merkletree/merkletree.go:87-98). -/
def leafLoop : Arena α → List α → Res (List Nat × Arena α)
  | a, [] => .ok ([], a)
  | a, d :: ds =>
    (hashOf d).bind fun h =>
      (leafLoop (a ++ [{ data := some d, hash := h, isLeaf := true }]) ds).bind fun (is, a') =>
        .ok (a.length :: is, a')

/-- The duplicate of the last leaf of an odd list (merkletree/merkletree.go:100-109). -/
def dupLeaf (leaves : List Nat) (a : Arena α) : Res (List Nat × Arena α) :=
  if leaves.length % 2 = 1 then
    (idx leaves (leaves.length - 1)).bind fun p => (idx a p).bind fun previous =>
      .ok (leaves ++ [a.length], a ++ [{ hash := previous.hash, data := previous.data, isLeaf := true, isDup := true }])
  else .ok (leaves, a)

/-- `create` (merkletree/merkletree.go:81-116). -/
def create (f : Nat) (pl : List α) (a : Arena α) : Run (Nat × List Nat × Arena α) :=
  if pl.length = 0 then some (.err "cannot construct tree with no content")
  else
    Run.bind (some (leafLoop hashOf a pl)) fun (leaves, a) =>
      Run.bind (some (dupLeaf leaves a)) fun (leaves, a) =>
        (createIntermediate A f leaves a).bind fun (root, a) => some (.ok (root, leaves, a))

/-- `NewTree` (merkletree/merkletree.go:66-77). -/
def newTree (f : Nat) (pl : List α) (a : Arena α) : Run (Tree × Arena α) :=
  (create A hashOf f pl a).bind fun (root, leaves, a) =>
    Run.bind (some (idx a root)) fun n => some (.ok ({ root := some root, merkleRoot := n.hash, leaves := leaves }, a))

/-- `Tree.RebuildTreeUsing` (merkletree/merkletree.go:164-174): outcome, new receiver, arena. After an error the
nodes allocated so far are garbage and dropped. -/
def rebuildTreeUsing (f : Nat) (t : Tree) (pl : List α) (a : Arena α) : Option (Res Unit × Tree × Arena α) :=
  match create A hashOf f pl a with
  | none => none
  | some (.err e) => some (.err e, t, a)
  | some .panic => some (.panic, t, a)
  | some (.ok (root, leaves, a')) =>
    match idx a' root with
    | .ok n => some (.ok (), { root := some root, merkleRoot := n.hash, leaves := leaves }, a')
    | _ => some (.panic, t, a)

/-- `Tree.RebuildTree` (merkletree/merkletree.go:152-159). With a nil interface in a leaf, `create` stops there with a panic, or earlier
at a payload whose hash fails. -/
def rebuildTree (f : Nat) (t : Tree) (a : Arena α) : Option (Res Unit × Tree × Arena α) :=
  match mapRes (fun i => (idx a i).bind fun n => .ok n.data) t.leaves with
  | .ok ds =>
    let pl := (ds.takeWhile Option.isSome).filterMap id
    if pl.length = ds.length then rebuildTreeUsing A hashOf f t pl a
    else
      match leafLoop hashOf a pl with
      | .err e => some (.err e, t, a)
      | _ => some (.panic, t, a)
  | .err e => some (.err e, t, a)
  | .panic => some (.panic, t, a)

/-- `VerifyTree` (merkletree/merkletree.go:177-188). -/
def verifyTree (f : Nat) (t : Tree) (a : Arena α) : Run Bool :=
  (verifyNode A hashOf a f t.root).bind fun calculatedRoot => some (.ok (decide (t.merkleRoot = calculatedRoot)))

/-- `equals` (merkletree/merkletree.go:232-243). -/
def equals (x : Option α) (y : α) : Res Bool :=
  (calcData hashOf x).bind fun hashA => (hashOf y).bind fun hashB => .ok (decide (hashA = hashB))

/-- The walk of `VerifyContent` along the parents (merkletree/merkletree.go:199-224). -/
def walk (a : Arena α) : Nat → Option Nat → Run Bool
  | _, none => some (.ok true)
  | 0, some _ => none
  | f + 1, some i =>
    Run.bind (some (idx a i)) fun n =>
      Run.bind (some (calculateNodeHash A hashOf a n.right)) fun rightBytes =>
        Run.bind (some (calculateNodeHash A hashOf a n.left)) fun leftBytes =>
          Run.bind (some (Hash.sha3256 A (leftBytes ++ rightBytes))) fun h =>
            if h ≠ n.hash then some (.ok false) else walk a f n.parent

/-- The loop of `VerifyContent` over the leaves (merkletree/merkletree.go:192-228). -/
def contentLoop (f : Nat) (a : Arena α) (data : α) : List Nat → Run Bool
  | [] => some (.ok false)
  | i :: is =>
    Run.bind (some (idx a i)) fun leaf =>
      Run.bind (some (equals hashOf leaf.data data)) fun ok =>
        if ok then walk A hashOf a f leaf.parent else contentLoop f a data is

/-- `Tree.VerifyContent` (merkletree/merkletree.go:191-229). -/
def verifyContent (f : Nat) (t : Tree) (data : α) (a : Arena α) : Run Bool := contentLoop A hashOf f a data t.leaves

end Dusk.Merkle
