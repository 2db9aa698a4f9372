import Mathlib.Logic.Function.Basic
import Verif.Model.Hash
/-!
# Model of package hash: one handle used by several goroutines

Every goroutine makes one call `PerformHash(H, b)` with the same `H`. The call of `Write` and the call of `Sum` are one step each (in Go the
calls themselves can overlap, which adds further outcomes).
-/

namespace Dusk.Hash.Conc

/-- Where a goroutine is in `PerformHash` (hash/hash.go:43-49). -/
inductive Pc where
  | start (b : Bytes)
  | written
  | done (r : Res Bytes)
  deriving DecidableEq

/-- The handle and the goroutines. -/
structure State where
  handle : Hasher
  pc : Nat → Pc

/-- One step of goroutine `i` in `PerformHash` (hash/hash.go:43-49): `H.Write(bs)`, which may fail, then `H.Sum(nil)`. -/
def State.step (s : State) (i : Nat) : State :=
  match s.pc i with
  | .start b =>
    if s.handle.broken then { s with pc := Function.update s.pc i (.done (.err "write failed")) }
    else { handle := { s.handle with absorbed := s.handle.absorbed ++ b }, pc := Function.update s.pc i .written }
  | .written => { s with pc := Function.update s.pc i (.done (.ok (s.handle.alg s.handle.absorbed))) }
  | .done _ => s

/-- The steps of the goroutines in the order of a schedule. -/
def State.exec (s : State) (sched : List Nat) : State := sched.foldl State.step s

/-- The goroutines `0, …, n-1` before their calls with payloads `b`. -/
def State.init (h : Hasher) (b : Nat → Bytes) : State := ⟨h, fun i => .start (b i)⟩

end Dusk.Hash.Conc
