import Verif.Model.Vector
import Verif.Model.Pedersen
/-!
# Model of rangeproof/innerproduct/innerproduct.go
-/

namespace Dusk.IP

variable {F G : Type} [Field F] [AddCommGroup G] [Module F G] [DecidableEq F]

/-- `Proof` (rangeproof/innerproduct/innerproduct.go:18-21). -/
structure Proof (F G : Type) where
  L : List G
  R : List G
  A : F
  B : F
  deriving DecidableEq

/-! ## Powers of two -/

/-- `nextPow2` (rangeproof/innerproduct/innerproduct.go:491-499): `uint` is 64 bits wide; `n--` wraps at zero. -/
def nextPow2 (n : UInt64) : UInt64 :=
  let n := n - 1
  let n := n ||| (n >>> 1)
  let n := n ||| (n >>> 2)
  let n := n ||| (n >>> 4)
  let n := n ||| (n >>> 8)
  let n := n ||| (n >>> 16)
  n

/-- `isPower2` (rangeproof/innerproduct/innerproduct.go:501-503). -/
def isPower2 (n : UInt32) : Bool := (n &&& (n - 1)) == 0

/-- `DiffNextPow2` (rangeproof/innerproduct/innerproduct.go:507-511). -/
def diffNextPow2 (n : UInt32) : UInt32 := (nextPow2 n.toUInt64).toUInt32 - n + 1

/-! ## Generate -/

/-- `xL, xR, err := vector.SplitX(x, n)` with the error overwritten by the next statement: on failure both halves
are nil (innerproduct.go:53-56, 165-168). -/
def splitNil {α : Type} (x : List α) (n : Nat) : List α × List α :=
  match Vec.split x n with
  | .ok p => p
  | _ => ([], [])

/-- `for i := range v { v[i].Mul(&v[i], &f[off+i]) }` (innerproduct.go:78-80, 107-109): panics when `f` is too
short. -/
def mulFactors : List F → List F → Res (List F)
  | [], _ => .ok []
  | _ :: _, [] => .panic
  | x :: v, f :: fs => (mulFactors v fs).bind fun r => .ok (x * f :: r)

/-- Result of one folding round. -/
structure Round (F G : Type) where
  L : G
  R : G
  a : List F
  b : List F
  Gs : List G
  Hs : List G
  hs : HashCacher

/-- The first round of `Generate` (rangeproof/innerproduct/innerproduct.go:25-263), with `n` already halved. The error of the first
`InnerProduct` is ignored (its value is then the zero scalar). The fold loop runs over `i < n`; when it is reached all
halves have length `n` (guarded by the `Exp` calls) and the factors were already indexed, so the pointwise
combination of the halves is exact. -/
def firstRound (R : Ristretto F G) (n : Nat) (a b : List F) (Gv Hv : List G) (hpf : List F) (Q : G)
    (hs : HashCacher) : Res (Round F G) :=
  let aL := (splitNil a n).1; let aR := (splitNil a n).2
  let bL := (splitNil b n).1; let bR := (splitNil b n).2
  let GL := (splitNil Gv n).1; let GR := (splitNil Gv n).2
  let HL := (splitNil Hv n).1; let HR := (splitNil Hv n).2
  let cL : F := match Vec.innerProduct aL bR with
    | .ok c => c
    | _ => 0
  (Vec.innerProduct aR bL).bind fun cR =>
  (Vec.exp aL GR n 1).bind fun e1 =>
  (mulFactors bR hpf).bind fun bRYi =>
  (Vec.exp bRYi HL n 1).bind fun e2 =>
  (Vec.exp aR GL n 1).bind fun e4 =>
  (mulFactors bL (hpf.drop n)).bind fun bLYi =>
  (Vec.exp bLYi HR n 1).bind fun e5 =>
  let L := e1 + e2 + cL • Q
  let Rp := e4 + e5 + cR • Q
  let hs := hs.append [R.pBytes L, R.pBytes Rp]
  let u := hs.derive R
  .ok {
    L := L
    R := Rp
    a := List.zipWith (fun x y => x * u + y * u⁻¹) aL aR
    b := List.zipWith (fun x y => x * u⁻¹ + y * u) bL bR
    Gs := List.zipWith (fun x y => u⁻¹ • x + u • y) GL GR
    Hs := List.zipWith (fun x y => x + y)
      (List.zipWith (fun f x => (f * u) • x) hpf HL)
      (List.zipWith (fun f x => (f * u⁻¹) • x) (hpf.drop n) HR)
    hs := hs }

/-- One round of the loop of `Generate` (rangeproof/innerproduct/innerproduct.go:25-263), with `n` already halved. -/
def nextRound (R : Ristretto F G) (n : Nat) (a b : List F) (Gv Hv : List G) (Q : G)
    (hs : HashCacher) : Res (Round F G) :=
  let aL := (splitNil a n).1; let aR := (splitNil a n).2
  let bL := (splitNil b n).1; let bR := (splitNil b n).2
  let GL := (splitNil Gv n).1; let GR := (splitNil Gv n).2
  let HL := (splitNil Hv n).1; let HR := (splitNil Hv n).2
  (Vec.innerProduct aL bR).bind fun cL =>
  (Vec.innerProduct aR bL).bind fun cR =>
  (Vec.exp aL GR n 1).bind fun e1 =>
  (Vec.exp bR HL n 1).bind fun e2 =>
  (Vec.exp aR GL n 1).bind fun e4 =>
  (Vec.exp bL HR n 1).bind fun e5 =>
  let L := e1 + e2 + cL • Q
  let Rp := e4 + e5 + cR • Q
  let hs := hs.append [R.pBytes L, R.pBytes Rp]
  let u := hs.derive R
  .ok {
    L := L
    R := Rp
    a := List.zipWith (fun x y => x * u + y * u⁻¹) aL aR
    b := List.zipWith (fun x y => x * u⁻¹ + y * u) bL bR
    Gs := List.zipWith (fun x y => u⁻¹ • x + u • y) GL GR
    Hs := List.zipWith (fun x y => u • x + u⁻¹ • y) HL HR
    hs := hs }

/-- `return &Proof{L: Lj, R: Rj, A: a[len(a)-1], B: b[len(b)-1]}` (innerproduct.go:257-262): panics on empty
slices. -/
def finish (Lj Rj : List G) (a b : List F) : Res (Proof F G) :=
  match a.getLast?, b.getLast? with
  | some x, some y => .ok ⟨Lj, Rj, x, y⟩
  | _, _ => .panic

/-- The loop `for n > 1` of `Generate` (rangeproof/innerproduct/innerproduct.go:25-263) followed by the return statement. -/
def genLoop (R : Ristretto F G) (Q : G) (n : Nat) (a b : List F) (Gv Hv : List G) (hs : HashCacher)
    (Lj Rj : List G) : Res (Proof F G) :=
  if _h : n > 1 then
    (nextRound R (n / 2) a b Gv Hv Q hs).bind fun r =>
      genLoop R Q (n / 2) r.a r.b r.Gs r.Hs r.hs (Lj ++ [r.L]) (Rj ++ [r.R])
  else finish Lj Rj a b
termination_by n
decreasing_by omega

/-- `Generate` (rangeproof/innerproduct/innerproduct.go:25-263). `n := uint32(len(GVec))` truncates. The argument
slices are copied first, so the caller's slices are not modified. (`lgN` is only a capacity hint and is not
modelled.) -/
def generate (R : Ristretto F G) (Gv Hv : List G) (a b hpf : List F) (Q : G) : Res (Proof F G) :=
  let n := Gv.length % 2 ^ 32
  if ¬ isPower2 (UInt32.ofNat n) then .err "[IPProof]: size of n (NM) is not a power of 2"
  else if n ≠ 1 then
    (firstRound R (n / 2) a b Gv Hv hpf Q {}).bind fun r =>
      genLoop R Q (n / 2) r.a r.b r.Gs r.Hs r.hs [r.L] [r.R]
  else finish [] [] a b

/-! ## VerifScalars and Verify -/

/-- The loop computing the challenges (innerproduct.go:281-284). -/
def chalLoop (R : Ristretto F G) : HashCacher → List (G × G) → List F
  | _, [] => []
  | hs, (l, r) :: rest =>
    let hs := hs.append [R.pBytes l, R.pBytes r]
    hs.derive R :: chalLoop R hs rest

/-- The loop of step 4, computing the vector s (innerproduct.go:323-333): `rem` remaining iterations, loop variable `i`.
`bits.LeadingZeros32` gives the position of the top bit of `i`, `Nat.log2 i`. -/
def sLoop (chalSq : List F) (lgN : Nat) : Nat → Nat → List F → Res (List F)
  | 0, _, s => .ok s
  | rem + 1, i, s =>
    let lgI := Nat.log2 i
    if lgN < lgI + 1 then .panic
    else
      (idx chalSq (lgN - 1 - lgI)).bind fun u =>
      (idx s (i - 2 ^ lgI)).bind fun x =>
      sLoop chalSq lgN rem (i + 1) (s ++ [x * u])

/-- `Proof.VerifScalars` (rangeproof/innerproduct/innerproduct.go:267-336). `n := uint32(1 << lgN)` is zero for `lgN ≥ 32`. -/
def verifScalars (R : Ristretto F G) (p : Proof F G) : Res (List F × List F × List F) :=
  if p.L.length ≠ p.R.length then .ok ([], [], [])
  else
    let lgN := p.L.length
    let n := 2 ^ lgN % 2 ^ 32
    let xChals := chalLoop R {} (p.L.zip p.R)
    let invXChals := xChals.map fun x => x⁻¹
    let invProd := invXChals.foldl (fun acc x => acc * x) 1
    let chalSq := xChals.map fun x => x * x
    let invChalSq := invXChals.map fun x => x * x
    (sLoop chalSq lgN (n - 1) 1 [invProd]).bind fun s => .ok (chalSq, invChalSq, s)

/-- `Proof.Verify` (rangeproof/innerproduct/innerproduct.go:339-391). The parameters `L`, `R` of the Go function are never read and are left
out; `n` is a Go `int`. -/
def verify [DecidableEq G] (R : Ristretto F G) (p : Proof F G) (Gv Hv : List G) (hpf : List F) (Q P : G)
    (n : Int) : Res Bool :=
  (verifScalars R p).bind fun vs =>
  let uSq := vs.1; let uInvSq := vs.2.1; let s := vs.2.2
  let aTimesS := Vec.mulScalar s p.A
  (mulFactors (Vec.mulScalar s.reverse p.B) hpf).bind fun hTimesbDivS =>
  let negUSq := uSq.map fun x => -x
  let negUInvSq := uInvSq.map fun x => -x
  let scalars := [p.A * p.B] ++ aTimesS ++ hTimesbDivS ++ negUSq ++ negUInvSq
  let points := [Q] ++ Gv ++ Hv ++ p.L ++ p.R
  match Vec.exp scalars points n 1 with
  | .ok have_ => .ok (decide (have_ = P))
  | .err _ => .ok false
  | .panic => .panic

/-! ## Encoding -/

/-- The loop of `Encode`: `L[i]` then `R[i]`; indexing `R` past its end panics. -/
def encodeLoop (R : Ristretto F G) : List G → List G → Wr Unit
  | [], _ => Wr.pure ()
  | l :: ls, rs =>
    Wr.bind (writeB (R.pBytes l)) fun _ =>
      match rs with
      | [] => Wr.panic
      | r :: rs => Wr.bind (writeB (R.pBytes r)) fun _ => encodeLoop R ls rs

/-- `Proof.Encode` (rangeproof/innerproduct/innerproduct.go:394-417); `lenL := uint32(len(L))` truncates. -/
def Proof.encode (R : Ristretto F G) (p : Proof F G) : Wr Unit :=
  Wr.bind (writeB (R.sBytes p.A)) fun _ =>
  Wr.bind (writeB (R.sBytes p.B)) fun _ =>
  encodeLoop R (p.L.take (p.L.length % 2 ^ 32)) p.R

/-- The decoding loop over the buffered bytes: `n` pairs of 32-byte points; results of `SetBytes` are ignored. -/
def decodeLoop (R : Ristretto F G) : Nat → Bytes → Res (List G × List G)
  | 0, _ => .ok ([], [])
  | n + 1, buf =>
    if buf.length < 32 then .err "EOF"
    else if (buf.drop 32).length < 32 then .err "EOF"
    else (decodeLoop R n (buf.drop 64)).bind fun r =>
      .ok ((R.pOfBytes (buf.take 32)).1 :: r.1, (R.pOfBytes ((buf.drop 32).take 32)).1 :: r.2)

/-- `Proof.Decode` (rangeproof/innerproduct/innerproduct.go:420-466) into a fresh proof. -/
def Proof.decode (R : Ristretto F G) : Rd (Proof F G) :=
  Rd.bind (readN 32) fun aB =>
  Rd.bind (readN 32) fun bB =>
  Rd.bind readAll fun buf =>
    if buf.length % 32 ≠ 0 then Rd.fail "proof was not formatted correctly"
    else
      Rd.bind (Rd.lift (decodeLoop R (buf.length / 64 % 2 ^ 32) buf)) fun lr =>
        Rd.pure ⟨lr.1, lr.2, R.sOfBytes aB, R.sOfBytes bB⟩

/-- The loop of `Equals`: indexes the other proof, which panics if it is shorter. -/
def equalsLoop [DecidableEq G] : List G → List G → List G → List G → Res Bool
  | [], _, _, _ => .ok true
  | l :: ls, rs, ol, or_ =>
    match ol with
    | [] => .panic
    | o :: ol =>
      if l ≠ o then .ok false
      else
        match rs, or_ with
        | r :: rs, q :: or_ => if r ≠ q then .ok false else equalsLoop ls rs ol or_
        | _, _ => .panic

/-- `Proof.Equals` (rangeproof/innerproduct/innerproduct.go:469-489). -/
def Proof.equals [DecidableEq G] (p other : Proof F G) : Res Bool :=
  if p.A ≠ other.A then .ok false
  else if p.B ≠ other.B then .ok false
  else equalsLoop p.L p.R other.L other.R

end Dusk.IP
