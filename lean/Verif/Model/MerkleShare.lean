import Verif.Model.Merkle
import Mathlib.Logic.Function.Basic
/-!
# One Merkle tree used by several goroutines

The methods of a `Tree` read and write its fields `Root`, `Leaves` and `MerkleRoot` without synchronisation. Here they are programs
whose steps are these reads and writes, in the order of the source. The nodes of a tree are allocated by the call that builds it and not
written any more once a field of the `Tree` points to them, so building the nodes (`create`), and walking over them, is no interaction:
it belongs to the step before. Payloads return the same hash each time. (`Model/MerkleConc` is about the memory of the hashes.)
-/

namespace Dusk.MerkleShare

open Merkle

/-- A `Tree`, and all nodes. -/
structure Mem (α : Type) where
  tree : Tree
  arena : Arena α

/-- A program: its result, or a step that writes (`f`) and reads (`k`, from the memory before the write) and how to go on. -/
inductive Prog (S β : Type) where
  | ret (r : Res β)
  | step (f : S → S) (k : S → Prog S β)

variable {α S β ι : Type}

/-- A program alone, to its end. -/
def run : S → Prog S β → S × Res β
  | s, .ret r => (s, r)
  | s, .step f k => run (f s) (k s)

/-- The next step of a program. -/
def next (s : S) : Prog S β → S × Prog S β
  | .ret r => (s, .ret r)
  | .step f k => (f s, k s)

/-- Goroutines and what they share. -/
structure Shared (S ι β : Type) where
  mem : S
  prog : ι → Prog S β

/-- One step of goroutine `i`. -/
def Shared.step [DecidableEq ι] (s : Shared S ι β) (i : ι) : Shared S ι β :=
  ⟨(next s.mem (s.prog i)).1, Function.update s.prog i (next s.mem (s.prog i)).2⟩

/-- An execution: the schedule names the goroutine that takes the next step. -/
def Shared.exec [DecidableEq ι] (s : Shared S ι β) (sched : List ι) : Shared S ι β := sched.foldl Shared.step s

variable (A : Hash.Algs) (hashOf : α → Res Bytes)

/-- `t.MerkleRoot = root.Hash` (line 172 of `RebuildTreeUsing` (merkletree/merkletree.go:164-174)). -/
def writeHash (root : Nat) : Prog (Mem α) (Option Bool) :=
  .step
    (fun m => match idx m.arena root with
      | .ok n => { m with tree := { m.tree with merkleRoot := n.hash } }
      | _ => m)
    fun m => match idx m.arena root with
      | .ok _ => .ret (.ok none)
      | _ => .ret .panic

/-- `t.Leaves = leaves` (line 171 of `RebuildTreeUsing` (merkletree/merkletree.go:164-174)). -/
def writeLeaves (root : Nat) (leaves : List Nat) : Prog (Mem α) (Option Bool) :=
  .step (fun m => { m with tree := { m.tree with leaves := leaves } }) fun _ => writeHash root

/-- `t.Root = root` (line 170 of `RebuildTreeUsing` (merkletree/merkletree.go:164-174)). -/
def writeRoot (root : Nat) (leaves : List Nat) : Prog (Mem α) (Option Bool) :=
  .step (fun m => { m with tree := { m.tree with root := some root } }) fun _ => writeLeaves root leaves

/-- `Tree.RebuildTreeUsing` (merkletree/merkletree.go:164-174). The bound on the rounds of `create` is never reached (C04). -/
def rebuildUsingP (pl : List α) : Prog (Mem α) (Option Bool) :=
  .step
    (fun m => match create A hashOf (pl.length + 1) pl m.arena with
      | some (.ok (_, _, a)) => { m with arena := a }
      | _ => m)
    fun m => match create A hashOf (pl.length + 1) pl m.arena with
      | some (.ok (root, leaves, _)) => writeRoot root leaves
      | some (.err e) => .ret (.err e)
      | _ => .ret .panic

/-- The payloads read off the leaves (merkletree/merkletree.go:153-156). -/
def readLeaves (m : Mem α) : Res (List α) :=
  mapRes (fun i => (idx m.arena i).bind fun n => match n.data with | none => .panic | some d => .ok d) m.tree.leaves

/-- `Tree.RebuildTree` (merkletree/merkletree.go:152-159). -/
def rebuildP : Prog (Mem α) (Option Bool) :=
  .step id fun m =>
    match readLeaves m with
    | .ok pl => rebuildUsingP A hashOf pl
    | .err e => .ret (.err e)
    | .panic => .ret .panic

/-- The comparison at the end of `VerifyTree` (merkletree/merkletree.go:177-188) reads `t.MerkleRoot`. -/
def compareP (calculatedRoot : Bytes) : Prog (Mem α) (Option Bool) :=
  .step id fun m => .ret (.ok (some (decide (m.tree.merkleRoot = calculatedRoot))))

/-- `VerifyTree` (merkletree/merkletree.go:177-188), with at most `g` rounds. -/
def verifyTreeP (g : Nat) : Prog (Mem α) (Option Bool) :=
  .step id fun m =>
    match verifyNode A hashOf m.arena g m.tree.root with
    | some (.ok h) => compareP h
    | some (.err e) => .ret (.err e)
    | _ => .ret .panic

/-- `Tree.VerifyContent` (merkletree/merkletree.go:191-229), with at most `g` rounds: reads `t.Leaves` once. -/
def verifyContentP (g : Nat) (d : α) : Prog (Mem α) (Option Bool) :=
  .step id fun m =>
    match contentLoop A hashOf g m.arena d m.tree.leaves with
    | some (.ok b) => .ret (.ok (some b))
    | some (.err e) => .ret (.err e)
    | _ => .ret .panic

/-- What a goroutine calls. -/
inductive Call (α : Type) where
  | rebuildUsing (pl : List α)
  | rebuild
  | verifyTree
  | verifyContent (d : α)

/-- The program of a call; functions that verify answer `some`. -/
def Call.prog (g : Nat) : Call α → Prog (Mem α) (Option Bool)
  | .rebuildUsing pl => rebuildUsingP A hashOf pl
  | .rebuild => rebuildP A hashOf
  | .verifyTree => verifyTreeP A hashOf g
  | .verifyContent d => verifyContentP A hashOf g d

/-- The start: a tree and the calls. -/
def start (g : Nat) (m : Mem α) (calls : ι → Call α) : Shared (Mem α) ι (Option Bool) := ⟨m, fun i => (calls i).prog A hashOf g⟩

end Dusk.MerkleShare
