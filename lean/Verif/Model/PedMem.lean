import Verif.Model.Pedersen
import Verif.Go.Slice
/-!
# The seeds of packages pedersen and generators in memory

`Model/Pedersen` treats seeds as values. In Go, `New` keeps the slice it is given, in the `Pedersen` and in its generator;
the seed is read when the first base is derived; and `CommitToVectors` forms the seeds of its further vectors with
`append(p.GenData, uint8(i))`, which writes behind the seed while there is capacity.
The exported fields are not assigned by the caller here. The slice `Bases` is a value.
-/

namespace Dusk.PedMem

open Go

variable {F G : Type} [Field F] [AddCommGroup G] [Module F G]

/-- `Pedersen` (rangeproof/pedersen/pedersen.go:14-19) with its `Generator` (rangeproof/generators/generator.go:11-14): `GenData`
and `data` are the same slice. -/
structure Ped (G : Type) where
  seed : Slice
  bases : List G := []

/-- What the methods see. -/
def Ped.value (R : Ristretto F G) (m : Mem UInt8) (p : Ped G) : Pedersen G :=
  { Pedersen.new R (read m p.seed) with baseVector := ⟨read m p.seed, p.bases⟩ }

/-- The loop of `CommitToVectors` (rangeproof/pedersen/pedersen.go:181-212), from index `i` on. -/
def commitLoop (R : Ristretto F G) (spare : Nat → Nat) (blind : F) :
    Nat → List (List F) → Mem UInt8 → Ped G → G → Res (G × Ped G) × Mem UInt8
  | _, [], m, p, sum => (.ok (sum, p), m)
  | i, v :: vs, m, p, sum =>
    if i = 0 then
      match (p.value R m).commitToScalars R (some blind) v with
      | .ok c => commitLoop R spare blind (i + 1) vs m { p with bases := c.2.baseVector.bases } (sum + c.1)
      | .err e => (.err e, m)
      | .panic => (.panic, m)
    else
      let a := append 0 spare m p.seed [UInt8.ofNat i]
      let ped2 : Ped G := ⟨a.2, []⟩
      match (ped2.value R a.1).commitToScalars R none v with
      | .ok c => commitLoop R spare blind (i + 1) vs a.1 p (sum + c.1)
      | .err e => (.err e, a.1)
      | .panic => (.panic, a.1)

/-- `Pedersen.CommitToVectors` (rangeproof/pedersen/pedersen.go:181-212): result, receiver, memory. -/
def commitToVectors (R : Ristretto F G) (spare : Nat → Nat) (m : Mem UInt8) (p : Ped G) (vectors : List (List F)) (blind : F) :
    Res (Commitment F G × Ped G) × Mem UInt8 :=
  let r := commitLoop R spare blind 0 vectors m p 0
  (r.1.bind fun c => .ok (⟨c.1, blind⟩, c.2), r.2)

/-- The steps of a program: calls on the `Pedersen` values created so far (by number), and assignments of the caller to its own
memory. -/
inductive Op (F : Type) where
  | new (s : Slice)
  | store (i j : Nat) (x : UInt8)
  | compute (k n : Nat)
  | clear (k : Nat)
  | commit (k : Nat) (vectors : List (List F)) (blind : F)

/-- Memory and `Pedersen` values. -/
structure World (G : Type) where
  mem : Mem UInt8
  peds : List (Ped G) := []

/-- One step. After a panic of `CommitToVectors` the receiver is taken as it was. -/
def step (R : Ristretto F G) (spare : Nat → Nat) (w : World G) : Op F → World G
  | .new s => { w with peds := w.peds ++ [⟨s, []⟩] }
  | .store i j x => { w with mem := store w.mem i j x }
  | .compute k n => { w with peds := w.peds.modify k fun p => { p with bases := ((p.value R w.mem).baseVector.compute R n).bases } }
  | .clear k => { w with peds := w.peds.modify k fun p => { p with bases := [] } }
  | .commit k vs blind =>
    match w.peds[k]? with
    | none => w
    | some p =>
      let r := commitToVectors R spare w.mem p vs blind
      ⟨r.2, match r.1 with
        | .ok c => w.peds.set k c.2
        | _ => w.peds⟩

/-- A program. -/
def run (R : Ristretto F G) (spare : Nat → Nat) (w : World G) (ops : List (Op F)) : World G := ops.foldl (step R spare) w

end Dusk.PedMem
