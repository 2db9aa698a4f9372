import Verif.Model.Pedersen
import Verif.Go.Slice
/-!
# Package fiatshamir in memory

`Model/Pedersen` treats a `HashCacher` as a value. In Go it holds a slice, `Append` uses the built-in `append`, and `Result` returns
the slice itself. The caller may copy the struct, and may assign to all memory it has a slice of.
-/

namespace Dusk.HashMem

open Go

/-- The slice `[]byte{}`. -/
def empty : Slice := ⟨0, 0, 0, 0⟩

/-- `HashCacher.Append` (rangeproof/fiatshamir/fiatshamir.go:12-17): memory and cache. The values are read in turn. -/
def appendAll (spare : Nat → Nat) : Mem UInt8 → Slice → List Slice → Mem UInt8 × Slice
  | m, s, [] => (m, s)
  | m, s, x :: xs =>
    let a := append 0 spare m s (read m x)
    appendAll spare a.1 a.2 xs

/-- The steps of a program. -/
inductive Op where
  /-- `HashCacher{Cache: []byte{}}`, as at rangeproof/rangeproof.go:72. -/
  | new
  /-- Assignment of the struct, or passing it by value as at rangeproof/rangeproof.go:237. -/
  | copy (k : Nat)
  | append (k : Nat) (xs : List Slice)
  /-- `HashCacher.Clear` (rangeproof/fiatshamir/fiatshamir.go:26-28). -/
  | clear (k : Nat)
  /-- The caller assigns to a byte. -/
  | store (i j : Nat) (x : UInt8)

/-- Memory, and the field `Cache` of every `HashCacher`. -/
structure World where
  mem : Mem UInt8
  caches : List Slice := []

/-- One step. -/
def step (spare : Nat → Nat) (w : World) : Op → World
  | .new => { w with caches := w.caches ++ [empty] }
  | .copy k => { w with caches := w.caches ++ (w.caches[k]?).toList }
  | .append k xs =>
    match w.caches[k]? with
    | none => w
    | some s => ⟨(appendAll spare w.mem s xs).1, w.caches.set k (appendAll spare w.mem s xs).2⟩
  | .clear k => { w with caches := w.caches.modify k fun _ => empty }
  | .store i j x => { w with mem := store w.mem i j x }

/-- A program. -/
def run (spare : Nat → Nat) (w : World) (ops : List Op) : World := ops.foldl (step spare) w

/-- `HashCacher.Result` (rangeproof/fiatshamir/fiatshamir.go:21-23): the bytes of the slice which is returned. -/
def result (w : World) (k : Nat) : Option Bytes := (w.caches[k]?).map (read w.mem)

/-- `HashCacher.Derive` (rangeproof/fiatshamir/fiatshamir.go:32-36). -/
def derive {F G : Type} [Field F] [AddCommGroup G] [Module F G] (R : Ristretto F G) (w : World) (k : Nat) : Option F :=
  (w.caches[k]?).map fun s => R.sDerive (read w.mem s)

end Dusk.HashMem
