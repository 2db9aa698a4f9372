import Verif.Model.InnerProduct
import Verif.Model.VecMem
/-!
# `Generate` of package innerproduct in memory

`Model/InnerProduct` treats the vectors as values. In Go `Generate` copies its arguments, and then works on the copies in place:
the halves of a vector are slices of the vector itself, and each round stores the folded vector into its lower half.
Scalars and points have a memory each. `InnerProduct` and `Exp` only read and are used as in `Model/Vector`. The slices `Lj`, `Rj` and
the transcript, which are local and only appended to, are values.
-/

namespace Dusk.IPMem

open Go

variable {F G : Type} [Field F] [AddCommGroup G] [Module F G] [DecidableEq F]

/-- The memory of scalars and of points. -/
abbrev Heap (F G : Type) : Type := Mem F × Mem G

/-- A computation on scalars. -/
def onS {α : Type} (x : St (Mem F) α) : St (Heap F G) α := ⟨fun s => ((x.run s.1).1, ((x.run s.1).2, s.2))⟩

/-- A computation on points. -/
def onP {α : Type} (x : St (Mem G) α) : St (Heap F G) α := ⟨fun s => ((x.run s.2).1, (s.1, (x.run s.2).2))⟩

/-- `vector.SplitScalars`, `vector.SplitPoints` with the error ignored (innerproduct.go:53-56, 165-168). -/
def splitNil (x : Slice) (n : Nat) : Slice × Slice :=
  match VecMem.split x n with
  | .ok p => p
  | _ => (Slice.nil, Slice.nil)

/-- `vector.InnerProduct` (rangeproof/vector/vector.go:99-113). -/
def innerProduct (x y : Slice) : St (Heap F G) F := ⟨fun s => (Vec.innerProduct (read s.1 x) (read s.1 y), s)⟩

/-- `vector.InnerProduct` with the error ignored (innerproduct.go:58-61). -/
def innerProductOrZero (x y : Slice) : St (Heap F G) F := ⟨fun s => (.ok (match Vec.innerProduct (read s.1 x) (read s.1 y) with
  | .ok c => c
  | _ => 0), s)⟩

/-- `vector.Exp` (rangeproof/vector/vector.go:116-141). -/
def exp (x y : Slice) (n : Nat) : St (Heap F G) G := ⟨fun s => (Vec.exp (read s.1 x) (read s.2 y) n 1, s)⟩

/-- `x[i] = f(x[i], y[i])`. -/
def combine {α : Type} (f : α → α → α) (x y : Slice) (i : Nat) : St (Mem α) Unit := do
  let a ← get x i
  let b ← get y i
  put x i (f a b)

/-- The body of the folding loops (innerproduct.go:134-153, 232-249); `cL i` and `cR i` are the coefficients of `HL[i]` and
`HR[i]`. -/
def foldBody (u : F) (cL cR : Nat → St (Mem F) F) (a b Gs Hs : Slice × Slice) (i : Nat) : St (Heap F G) Unit := do
  onS (combine (fun x y => x * u + y * u⁻¹) a.1 a.2 i)
  onS (combine (fun x y => x * u⁻¹ + y * u) b.1 b.2 i)
  onP (combine (fun x y => u⁻¹ • x + u • y) Gs.1 Gs.2 i)
  let f ← onS (cL i)
  let g ← onS (cR i)
  onP (combine (fun x y => f • x + g • y) Hs.1 Hs.2 i)

/-- `for i := range v { v[i].Mul(&v[i], &f[i+off]) }` (innerproduct.go:78-80, 107-109). -/
def mulFactors (v f : Slice) (off : Nat) : St (Mem F) Unit :=
  St.loop (fun i => do
    let x ← get v i
    let y ← get f (i + off)
    put v i (x * y)) v.len 0

/-- `y := make(...); copy(y, v)` and the loop above (innerproduct.go:75-80, 104-109). -/
def timesFactors (v f : Slice) (off : Nat) : St (Mem F) Slice := do
  let y ← clone 0 v
  mulFactors y f off
  pure y

/-- Result of one folding round. -/
structure Round (G : Type) where
  L : G
  R : G
  a : Slice
  b : Slice
  Gs : Slice
  Hs : Slice
  hs : HashCacher

/-- The first round of `Generate` (rangeproof/innerproduct/innerproduct.go:25-263), with `n` already halved. -/
def firstRound (R : Ristretto F G) (n : Nat) (a b Gv Hv hpf : Slice) (Q : G) (hs : HashCacher) : St (Heap F G) (Round G) := do
  let aLR := splitNil a n
  let bLR := splitNil b n
  let GLR := splitNil Gv n
  let HLR := splitNil Hv n
  let cL ← innerProductOrZero aLR.1 bLR.2
  let cR ← innerProduct aLR.2 bLR.1
  let e1 ← exp aLR.1 GLR.2 n
  let bRYi ← onS (timesFactors bLR.2 hpf 0)
  let e2 ← exp bRYi HLR.1 n
  let e4 ← exp aLR.2 GLR.1 n
  let bLYi ← onS (timesFactors bLR.1 hpf n)
  let e5 ← exp bLYi HLR.2 n
  let L := e1 + e2 + cL • Q
  let Rp := e4 + e5 + cR • Q
  let hs := hs.append [R.pBytes L, R.pBytes Rp]
  let u := hs.derive R
  St.loop (foldBody u (fun i => do let f ← get hpf i; pure (f * u)) (fun i => do let f ← get hpf (i + n); pure (f * u⁻¹))
    aLR bLR GLR HLR) n 0
  pure ⟨L, Rp, aLR.1, bLR.1, GLR.1, HLR.1, hs⟩

/-- One round of the loop of `Generate` (rangeproof/innerproduct/innerproduct.go:25-263), with `n` already halved. -/
def nextRound (R : Ristretto F G) (n : Nat) (a b Gv Hv : Slice) (Q : G) (hs : HashCacher) : St (Heap F G) (Round G) := do
  let aLR := splitNil a n
  let bLR := splitNil b n
  let GLR := splitNil Gv n
  let HLR := splitNil Hv n
  let cL ← innerProduct aLR.1 bLR.2
  let cR ← innerProduct aLR.2 bLR.1
  let e1 ← exp aLR.1 GLR.2 n
  let e2 ← exp bLR.2 HLR.1 n
  let e4 ← exp aLR.2 GLR.1 n
  let e5 ← exp bLR.1 HLR.2 n
  let L := e1 + e2 + cL • Q
  let Rp := e4 + e5 + cR • Q
  let hs := hs.append [R.pBytes L, R.pBytes Rp]
  let u := hs.derive R
  St.loop (foldBody u (fun _ => pure u) (fun _ => pure u⁻¹) aLR bLR GLR HLR) n 0
  pure ⟨L, Rp, aLR.1, bLR.1, GLR.1, HLR.1, hs⟩

/-- `return &Proof{L: Lj, R: Rj, A: a[len(a)-1], B: b[len(b)-1]}` (innerproduct.go:257-262). -/
def finish (Lj Rj : List G) (a b : Slice) : St (Heap F G) (IP.Proof F G) := do
  let x ← onS (if a.len = 0 then St.lift .panic else get a (a.len - 1))
  let y ← onS (if b.len = 0 then St.lift .panic else get b (b.len - 1))
  pure ⟨Lj, Rj, x, y⟩

/-- The loop `for n > 1` of `Generate` (rangeproof/innerproduct/innerproduct.go:25-263) followed by the return statement. -/
def genLoop (R : Ristretto F G) (Q : G) (n : Nat) (a b Gv Hv : Slice) (hs : HashCacher) (Lj Rj : List G) :
    St (Heap F G) (IP.Proof F G) :=
  if _h : n > 1 then
    nextRound R (n / 2) a b Gv Hv Q hs >>= fun r =>
      genLoop R Q (n / 2) r.a r.b r.Gs r.Hs r.hs (Lj ++ [r.L]) (Rj ++ [r.R])
  else finish Lj Rj a b
termination_by n
decreasing_by omega

/-- `Generate` (rangeproof/innerproduct/innerproduct.go:25-263). -/
def generate (R : Ristretto F G) (GVec HVec aVec bVec hpf : Slice) (Q : G) : St (Heap F G) (IP.Proof F G) :=
  let n := GVec.len % 2 ^ 32
  if ¬ IP.isPower2 (UInt32.ofNat n) then St.lift (.err "[IPProof]: size of n (NM) is not a power of 2")
  else do
    let a ← onS (clone 0 aVec)
    let b ← onS (clone 0 bVec)
    let Gv ← onP (clone 0 GVec)
    let Hv ← onP (clone 0 HVec)
    if n ≠ 1 then
      firstRound R (n / 2) a b Gv Hv hpf Q {} >>= fun r =>
        genLoop R Q (n / 2) r.a r.b r.Gs r.Hs r.hs [r.L] [r.R]
    else finish [] [] a b

end Dusk.IPMem
