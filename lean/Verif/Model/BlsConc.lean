import Verif.Model.Bls
/-!
# An Apk or a Signature used by several goroutines

`Apk.Aggregate` and `Signature.Aggregate` read and write the point of the receiver in place, without synchronisation. The
methods are programs here whose steps are one read and one write of this point (`apk.gx`, `sigma.e`). Simplification: a point is
read and written in one step. The library does this coordinate by coordinate, and the Go memory model allows more behaviours for
racy programs, so a violation shown here is possible in Go.
-/

namespace Dusk.BlsConc

open Bls

/-- A program: its result, or a read or write of the shared object and how to go on. -/
inductive Prog (S α : Type) where
  | ret (a : α)
  | load (k : S → Prog S α)
  | store (s : S) (k : Prog S α)

variable {S α ι : Type}

/-- The next step of a program: the object afterwards, and the rest. -/
def step (s : S) : Prog S α → S × Prog S α
  | .ret a => (s, .ret a)
  | .load k => (s, k s)
  | .store s' k => (s', k)

/-- A program alone, to its end. -/
def run : S → Prog S α → S × α
  | s, .ret a => (s, a)
  | s, .load k => run s (k s)
  | _, .store s k => run s k

/-- Goroutines sharing an object: its value, and what is left of each goroutine. -/
structure Shared (S ι α : Type) where
  obj : S
  prog : ι → Prog S α

/-- One step of goroutine `i`. -/
def Shared.step [DecidableEq ι] (s : Shared S ι α) (i : ι) : Shared S ι α :=
  ⟨(BlsConc.step s.obj (s.prog i)).1, Function.update s.prog i (BlsConc.step s.obj (s.prog i)).2⟩

/-- An execution: the schedule names the goroutine that takes the next step. -/
def Shared.exec [DecidableEq ι] (s : Shared S ι α) (sched : List ι) : Shared S ι α := sched.foldl Shared.step s

variable {F G1 G2 GT : Type} [Field F] [AddCommGroup G1] [AddCommGroup G2] [AddCommGroup GT]
  [Module F G1] [Module F G2] [Module F GT]
variable (P : Bn256 F G1 G2 GT) (A : Hash.Algs)

/-- `p.Add(p, w)` on the shared point `p`, once the summand has been computed without access to it. -/
def addP {G : Type} [Add G] : Res G → Prog (Ptr G) (Res Unit)
  | .ok w => .load fun v =>
    match v.get with
    | .ok g => .store (.pt (g + w)) (.ret (.ok ()))
    | .err e => .ret (.err e)
    | .panic => .ret .panic
  | .err e => .ret (.err e)
  | .panic => .ret .panic

/-- `Apk.Aggregate` (bls/bls.go:232-240) on a shared `Apk`. -/
def apkAggregateP (pk : Option (PublicKey G2)) : Prog (Ptr G2) (Res Unit) := addP (pkt P A pk)

/-- `Apk.AggregateBytes` (bls/bls.go:243-249) on a shared `Apk`. -/
def apkAggregateBytesP (b : Bytes) : Prog (Ptr G2) (Res Unit) :=
  match PublicKey.unmarshal P ⟨.nil⟩ b with
  | (.ok _, pk) => apkAggregateP P A (some pk)
  | (.err e, _) => .ret (.err e)
  | (.panic, _) => .ret .panic

/-- `Signature.Aggregate` (bls/bls.go:303-306) on a shared `Signature`. -/
def sigAggregateP (other : Signature G1) : Prog (Ptr G1) (Res Unit) := addP other.e.get

/-- `Signature.Add` (bls/bls.go:282-290) on a shared `Signature`. -/
def sigAddP (pk : Option (PublicKey G2)) (sig : UnsafeSignature G1) : Prog (Ptr G1) (Res Unit) :=
  match apkSigWrap P A pk sig with
  | .ok other => sigAggregateP other
  | .err e => .ret (.err e)
  | .panic => .ret .panic

/-- `Signature.AggregateBytes` (bls/bls.go:293-300) on a shared `Signature`. -/
def sigAggregateBytesP (b : Bytes) : Prog (Ptr G1) (Res Unit) :=
  match Signature.unmarshal P ⟨.nil⟩ b with
  | (.ok _, sig) => sigAggregateP sig
  | (.err e, _) => .ret (.err e)
  | (.panic, _) => .ret .panic

end Dusk.BlsConc
