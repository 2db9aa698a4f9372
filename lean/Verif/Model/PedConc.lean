import Verif.Model.Pedersen
/-!
# One Pedersen value used by several goroutines

The bases of a `Pedersen` value are computed when they are needed, without synchronisation. The methods are programs
here whose steps are the reads and writes of the field `Bases` (the Go memory model allows more behaviours for racy
programs; a violation shown here is therefore possible in Go, and the positive results are about sequentially
consistent executions). The slice in the field is a value: the array behind it, which two racing appends may share, is
not modelled. Blinding factors are given.
-/

namespace Dusk.PedConc

variable {F G : Type} [Field F] [AddCommGroup G] [Module F G]

/-- A program: its result, or a read or write of `Bases` and how to go on. -/
inductive Prog (G α : Type) where
  | ret (a : α)
  | load (k : List G → Prog G α)
  | store (bs : List G) (k : Prog G α)

/-- One program after another. -/
def Prog.bind {α β : Type} : Prog G α → (α → Prog G β) → Prog G β
  | .ret a, f => f a
  | .load k, f => .load fun b => (k b).bind f
  | .store bs k, f => .store bs (k.bind f)

/-- The next step of a program. -/
def step {α : Type} (b : List G) : Prog G α → List G × Prog G α
  | .ret a => (b, .ret a)
  | .load k => (b, k b)
  | .store bs k => (bs, k)

/-- A program alone, to its end. -/
def run {α : Type} : List G → Prog G α → List G × α
  | b, .ret a => (b, a)
  | b, .load k => run b (k b)
  | _, .store bs k => run bs k

/-- Goroutines sharing the value: the schedule names the one that takes the next step. -/
def sched {α : Type} : List Nat → List G → List (Prog G α) → List G × List (Prog G α)
  | [], b, ps => (b, ps)
  | i :: is, b, ps =>
    match ps[i]? with
    | none => sched is b ps
    | some p => sched is (step b p).1 (ps.set i (step b p).2)

/-- `Generator.Compute` (rangeproof/generators/generator.go:51-57). In `g.Bases = append(g.Bases, g.Iterate())` the call of
`Iterate` reads the field (line 38 or 43), then it is read for the append, then written. -/
def computeP (R : Ristretto F G) (data : Bytes) : Nat → Prog G Unit
  | 0 => .ret ()
  | n + 1 => .load fun b => .load fun b' => .store (b' ++ [Gen.iterate R ⟨data, b⟩]) (computeP R data n)

/-- The loop of `commitToScalars` (rangeproof/pedersen/pedersen.go:136-149) from index `i` on: every round reads the field. -/
def loopP : List F → Nat → G → Prog G (Res G)
  | [], _, sum => .ret (.ok sum)
  | x :: xs, i, sum => .load fun b =>
    match b[i]? with
    | none => .ret .panic
    | some h => loopP xs (i + 1) (sum + x • h)

/-- `Pedersen.commitToScalars` (rangeproof/pedersen/pedersen.go:116-152). The number of bases is read for the comparison
(line 128) and again for `diff` (line 130), an `int` which is converted to `uint32`. -/
def commitP (R : Ristretto F G) (data : Bytes) (blindPoint : G) (blind : Option F) (xs : List F) : Prog G (Res G) :=
  let sum : G := match blind with
    | some r => 0 + r • blindPoint
    | none => 0
  .load fun b =>
    if b.length < xs.length then
      .load fun b' => (computeP R data (((xs.length : Int) - b'.length) % 2 ^ 32).toNat).bind fun _ => loopP xs 0 sum
    else loopP xs 0 sum

/-- `Pedersen.CommitToVectors` (rangeproof/pedersen/pedersen.go:181-212). Only the first vector uses the shared bases. -/
def commitVecP (R : Ristretto F G) (p : Pedersen G) (vectors : List (List F)) (blind : F) : Prog G (Res G) :=
  match vectors with
  | [] => .ret (.ok 0)
  | v :: vs => (commitP R p.genData p.blindPoint (some blind) v).bind fun c =>
      .ret (c.bind fun c => (Pedersen.commitVecLoop R blind 1 vs p (0 + c)).bind fun r => .ok r.1)

/-- What one goroutine calls on the shared value. -/
inductive Call (F : Type) where
  | compute (n : Nat)
  | commit (vectors : List (List F)) (blind : F)

/-- Its program; `Compute` returns nothing. -/
def Call.prog (R : Ristretto F G) (p : Pedersen G) : Call F → Prog G (Res G)
  | .compute n => (computeP R p.genData n).bind fun _ => .ret (.ok 0)
  | .commit vectors blind => commitVecP R p vectors blind

end Dusk.PedConc
