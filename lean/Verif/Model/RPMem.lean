import Verif.Model.RangeProof
/-!
# The slice of amounts of rangeproof.Prove in memory

`Prove` pads its argument with `append`. In `Model/RangeProof` the argument is a value; here it is a slice of an array that the
caller may use otherwise, and `append` writes in place while there is capacity.
-/

namespace Dusk.RPMem

variable {F G : Type} [Field F] [AddCommGroup G] [Module F G]

/-- Arrays of scalars. -/
abbrev Mem (F : Type) := List (List F)

/-- A slice: `cap` elements from `off` on belong to it, the first `len` are its elements. -/
structure Slice where
  arr : Nat
  off : Nat
  len : Nat
  cap : Nat
  deriving DecidableEq

/-- The elements of a slice. -/
def read (m : Mem F) (s : Slice) : List F := (((m[s.arr]?).getD []).drop s.off).take s.len

/-- `append(s, x)`: in place if the capacity allows, else into a new array, whose spare capacity is up to the runtime. -/
def append (spare : Nat → Nat) (m : Mem F) (s : Slice) (x : F) : Mem F × Slice :=
  if s.len < s.cap then (m.modify s.arr fun a => a.set (s.off + s.len) x, { s with len := s.len + 1 })
  else (m ++ [read m s ++ [x] ++ List.replicate (spare s.len) 0], ⟨m.length, 0, s.len + 1, s.len + 1 + spare s.len⟩)

/-- The padding loop of `Prove` (rangeproof/rangeproof.go:59-63), `k` iterations. -/
def pad (spare : Nat → Nat) : Nat → Mem F → Slice → Mem F × Slice
  | 0, m, s => (m, s)
  | k + 1, m, s => let p := append spare m s 0; pad spare k p.1 p.2

/-- `Prove` (rangeproof/rangeproof.go:45-208) of a slice, running alone: memory, new value of `M`, result. Nothing after the
padding writes to the slice. -/
def prove [DecidableEq F] [DecidableEq G] (R : Ristretto F G) (spare : Nat → Nat) (m : Mem F) (M : Nat) (s : Slice) (debug : Bool)
    (coins : RP.Coins F) : Mem F × Nat × Res (RP.Proof F G) :=
  if s.len < 1 then (m, M, .err "length of slice v is zero")
  else if s.len > RP.maxM then (m, s.len, .err "maximum amount of values must be less than 16")
  else
    let p := pad spare (RP.padAmount s.len) m s
    let M := s.len + RP.padAmount s.len
    let ped := RP.newPed R M
    let c := RP.proveCommit R ped (read p.1 p.2) coins
    (p.1, M, RP.proveTail R (RP.Reads.const s.len M) ped c.2 (read p.1 p.2) c.1 debug coins)

end Dusk.RPMem
