import Verif.Model.RangeProof
/-!
# Concurrent calls of rangeproof.Prove and rangeproof.Verify

`M` is an unsynchronised package variable. Goroutines calling `Prove` are modelled by an interleaving semantics of their
reads and writes of `M` (the Go memory model allows more behaviours for racy programs; a violation shown here is
therefore possible in Go, and the positive results are about sequentially consistent executions).

The accesses of one call, in program order: write `M = len(v)` (line 51), read (line 52), read (line 57), read and write
(line 58), then the reads collected in `Reads`. The reads made only in debug mode are performed in any case; without debug
their values are not used.
-/

namespace Dusk.RP

variable {F G : Type} [Field F] [AddCommGroup G] [Module F G] [DecidableEq F]

/-- A running call: number of values, program counter, values of `M` read so far. -/
structure Proc where
  n : Nat
  pc : Nat
  seen : List Nat
  deriving DecidableEq

/-- The program counter of a finished call. -/
abbrev Proc.end : Nat := 17

/-- A call about to start. -/
def Proc.start (n : Nat) : Proc := ⟨n, 0, []⟩

/-- One access of `M` (rangeproof/rangeproof.go:45-208): new value of `M`, new state of the call. -/
def Proc.step (M : Nat) (p : Proc) : Nat × Proc :=
  if p.pc = 0 then
    if p.n < 1 then (M, { p with pc := Proc.end }) else (p.n, { p with pc := 1 })
  else if p.pc = 1 then
    (M, { p with pc := if M > maxM then Proc.end else 2, seen := p.seen ++ [M] })
  else if p.pc = 4 then (p.seen.getD 2 0 + padAmount (p.seen.getD 1 0), { p with pc := 5 })
  else if p.pc < Proc.end then (M, { p with pc := p.pc + 1, seen := p.seen ++ [M] })
  else (M, p)

/-- The values read, by place. -/
def Reads.ofList (l : List Nat) : Reads :=
  ⟨l.getD 0 0, l.getD 1 0, l.getD 2 0, l.getD 3 0, l.getD 4 0, l.getD 5 0, l.getD 6 0, l.getD 7 0, l.getD 8 0,
    l.getD 9 0, l.getD 10 0, l.getD 11 0, l.getD 12 0, l.getD 13 0, l.getD 14 0⟩

/-- The result of a finished call. -/
def Proc.result [DecidableEq G] (R : Ristretto F G) (p : Proc) (v : List F) (debug : Bool) (coins : Coins F) :
    Res (Proof F G) :=
  proveWith R (Reads.ofList p.seen) v debug coins

/-- An execution: any number of calls, the schedule lists which call makes the next access. -/
def exec (M : Nat) (procs : Nat → Proc) : List Nat → Nat × (Nat → Proc)
  | [] => (M, procs)
  | i :: sched =>
    exec ((procs i).step M).1 (fun j => if j = i then ((procs i).step M).2 else procs j) sched

/-! ## With calls of Verify

A call of `Verify` only reads `M`: lines 327, 332, in `sumZMTwoN` (called in line 380; its several reads are taken to see one
value), lines 389, 404 and 452. -/

/-- The number of reads of one call of `Verify`. -/
abbrev VReads.count : Nat := 6

/-- The values read, by place. -/
def VReads.ofList (l : List Nat) : VReads :=
  ⟨l.getD 0 0, l.getD 1 0, l.getD 2 0, l.getD 3 0, l.getD 4 0, l.getD 5 0⟩

/-- Running calls of `Prove` and, for each running call of `Verify`, the values of `M` it has read so far. -/
structure Sys where
  M : Nat
  provers : Nat → Proc
  verifiers : Nat → List Nat

/-- One access of `M`, by a prover (`inl`) or by a verifier (`inr`) (rangeproof/rangeproof.go:45-208, 323-493). -/
def Sys.step (s : Sys) : Nat ⊕ Nat → Sys
  | .inl i => { s with
      M := ((s.provers i).step s.M).1
      provers := fun j => if j = i then ((s.provers i).step s.M).2 else s.provers j }
  | .inr i => { s with
      verifiers := fun j =>
        if j = i ∧ (s.verifiers i).length < VReads.count then s.verifiers i ++ [s.M] else s.verifiers j }

/-- An execution: the schedule lists which call makes the next access. -/
def Sys.exec (s : Sys) (sched : List (Nat ⊕ Nat)) : Sys := sched.foldl Sys.step s

/-- The result of call `i` of `Verify`, once it has finished. -/
def Sys.verdict [DecidableEq G] (R : Ristretto F G) (s : Sys) (i : Nat) (p : Proof F G) (c : F) : Res Bool :=
  verifyWith R (VReads.ofList (s.verifiers i)) p c

end Dusk.RP
