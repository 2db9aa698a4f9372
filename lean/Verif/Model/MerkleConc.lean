import Verif.Model.MerkleMem
/-!
# Building and verifying Merkle trees by several goroutines on one memory

The functions of merkletree/merkletree.go as programs whose steps are the accesses to memory: an `append`, a
digest, a comparison of bytes. `CalculateHash` of a payload returns a slice the payload owns, the same one each
time. Several programs share a memory, and a schedule says whose step is next. The `append` and the digest are
single steps (simplification: in Go the copying of an `append` is not atomic either).
-/

namespace Dusk.MerkleMem

/-- A node (merkletree/merkletree.go:26-34): a leaf with the slice its payload returns and the same slice as its
`Hash`, or an inner node with its `Hash`. The parent pointers are in `T.leaves`. -/
inductive T where
  | leaf (s : Slice)
  | node (l r : T) (h : Slice)

/-- The field `Hash` of a node. -/
def T.hash : T → Slice
  | .leaf s => s
  | .node _ _ h => h

/-- The leaves from left to right (`Tree.Leaves`), each with its chain of parents, nearest first. A node which is
both children of its parent (the last one of an odd level, merkletree/merkletree.go:123-125) occurs twice here,
once in `Tree.Leaves`; the repetition comes later in the list, and `VerifyContent` stops at the first match. -/
def T.leaves : T → List (Slice × List T)
  | .leaf s => [(s, [])]
  | .node l r h => (l.leaves ++ r.leaves).map fun x => (x.1, x.2 ++ [.node l r h])

/-- A program: its result, or an access to memory and how to go on. -/
inductive Prog (α : Type) where
  | ret (a : α)
  /-- `append(l, r...)`. -/
  | app (l r : Slice) (k : Slice → Prog α)
  /-- `hash.Sha3256(s)` (hash/hash.go:38-49). -/
  | sum (s : Slice) (k : Slice → Prog α)
  /-- `bytes.Equal(a, b)`, `bytes.Compare(a, b) == 0`. -/
  | cmp (a b : Slice) (k : Bool → Prog α)

/-- One program after another. -/
def Prog.bind {α β : Type} : Prog α → (α → Prog β) → Prog β
  | .ret a, f => f a
  | .app l r k, f => .app l r fun s => (k s).bind f
  | .sum s k, f => .sum s fun d => (k d).bind f
  | .cmp a b k, f => .cmp a b fun c => (k c).bind f

variable (A : Hash.Algs)

/-- The next step of a program. -/
def step {α : Type} (m : Mem) : Prog α → Mem × Prog α
  | .ret a => (m, .ret a)
  | .app l r k => let x := append m l (read m r); (x.1, k x.2)
  | .sum s k => (m ++ [A.sha3_256 (read m s)], k { arr := m.length, off := 0, len := 32, cap := 32 })
  | .cmp a b k => (m, k (read m a == read m b))

/-- A program alone, to its end. -/
def run {α : Type} : Mem → Prog α → Mem × α
  | m, .ret a => (m, a)
  | m, .app l r k => let x := append m l (read m r); run x.1 (k x.2)
  | m, .sum s k => run (m ++ [A.sha3_256 (read m s)]) (k { arr := m.length, off := 0, len := 32, cap := 32 })
  | m, .cmp a b k => run m (k (read m a == read m b))

/-- Goroutines sharing a memory: the schedule names the one that takes the next step. -/
def sched {α : Type} : List Nat → Mem → List (Prog α) → Mem × List (Prog α)
  | [], m, ps => (m, ps)
  | i :: is, m, ps =>
    match ps[i]? with
    | none => sched is m ps
    | some p => let x := step A m p; sched is x.1 (ps.set i x.2)

/-- `hash.Sha3256(append(l, r...))` (merkletree/merkletree.go:53, 62, 126-128, 211). -/
def hashPair (l r : Slice) : Prog Slice := .app l r fun s => .sum s .ret

/-- One pass of the loop of `createIntermediate` (merkletree/merkletree.go:121-146). -/
def levelP : List T → Prog (List T)
  | [] => .ret []
  | [l] => (hashPair l.hash l.hash).bind fun h => .ret [.node l l h]
  | l :: r :: ts => (hashPair l.hash r.hash).bind fun h => (levelP ts).bind fun us => .ret (.node l r h :: us)

/-- `createIntermediate` (merkletree/merkletree.go:119-149), with at most `fuel` passes; `newTreeP` gives one for
every node. -/
def roundsP : Nat → List T → Prog (Option T)
  | 0, ts => .ret ts.head?
  | fuel + 1, ts => if ts.length ≤ 1 then .ret ts.head? else (levelP ts).bind (roundsP fuel)

/-- `NewTree` (merkletree/merkletree.go:66-116) on payloads returning the slices `ss`: the node `Root`, whose `Hash`
is `MerkleRoot`. -/
def newTreeP (ss : List Slice) : Prog (Option T) :=
  let leaves := if ss.length % 2 = 1 then ss ++ ss.getLast?.toList else ss
  roundsP leaves.length (leaves.map .leaf)

/-- `VerifyNode` (merkletree/merkletree.go:38-54): the right child comes first. -/
def verifyNodeP : T → Prog Slice
  | .leaf s => .ret s
  | .node l r _ => (verifyNodeP r).bind fun b => (verifyNodeP l).bind fun a => hashPair a b

/-- `VerifyTree` (merkletree/merkletree.go:177-188) of a tree with the given `Root` and `MerkleRoot`. -/
def verifyTreeP (t : T) (root : Slice) : Prog Bool := (verifyNodeP t).bind fun h => .cmp root h .ret

/-- `CalculateNodeHash` (merkletree/merkletree.go:57-63). -/
def calcP : T → Prog Slice
  | .leaf s => .ret s
  | .node l r _ => hashPair l.hash r.hash

/-- The loop over the parents in `VerifyContent` (merkletree/merkletree.go:199-224). -/
def climbP : List T → Prog Bool
  | [] => .ret true
  | .leaf _ :: ts => climbP ts
  | .node l r h :: ts =>
    (calcP r).bind fun b => (calcP l).bind fun a => (hashPair a b).bind fun d =>
      .cmp d h fun c => if c then climbP ts else .ret false

/-- The loop over the leaves in `VerifyContent` (merkletree/merkletree.go:192-228). -/
def contentP (d : Slice) : List (Slice × List T) → Prog Bool
  | [] => .ret false
  | x :: xs => .cmp x.1 d fun c => if c then climbP x.2 else contentP d xs

/-- `VerifyContent` (merkletree/merkletree.go:191-229) for a payload returning the slice `d`. -/
def verifyContentP (t : T) (d : Slice) : Prog Bool := contentP d t.leaves

/-- What one goroutine does. -/
inductive Call where
  | newTree (ss : List Slice)
  | verifyTree (t : T) (root : Slice)
  | verifyContent (t : T) (d : Slice)

/-- What it returns. -/
inductive Answer where
  | tree (t : Option T)
  | bool (b : Bool)

/-- The program of a goroutine. -/
def Call.prog : Call → Prog Answer
  | .newTree ss => (newTreeP ss).bind fun t => .ret (.tree t)
  | .verifyTree t root => (verifyTreeP t root).bind fun b => .ret (.bool b)
  | .verifyContent t d => (verifyContentP t d).bind fun b => .ret (.bool b)

end Dusk.MerkleMem
