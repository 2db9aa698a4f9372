import Verif.Model.Ristretto
/-!
# Model of rangeproof/bitCommitment.go
-/

namespace Dusk.RP

variable {F : Type} [Field F]

/-- The constant `N` (rangeproof/rangeproof.go:20). -/
abbrev nBits : Nat := 64

/-- `BitCommitment` (rangeproof/bitCommitment.go:11-13). -/
structure BitCommitment (F : Type) where
  AL : List F
  AR : List F
  deriving DecidableEq

/-- The loop of `BitCommit`: `k` remaining iterations on the running value `num`. -/
def bitLoop : Nat → UInt64 → BitCommitment F
  | 0, _ => ⟨[], []⟩
  | k + 1, num =>
    let r := bitLoop k (num >>> 1)
    if num % 2 = 0 then ⟨0 :: r.AL, -1 :: r.AR⟩ else ⟨1 :: r.AL, 0 :: r.AR⟩

/-- `BitCommit` (rangeproof/bitCommitment.go:17-51). `(*big.Int).Uint64` returns the low 64 bits of the absolute value. -/
def bitCommit (v : Int) : BitCommitment F := bitLoop nBits (UInt64.ofNat v.natAbs)

/-- The loop of `Debug` from index `i` on, `k` iterations left; indexing past the slices panics. Returns the two
accumulated integers. -/
def debugLoop [DecidableEq F] (b : BitCommitment F) : Nat → Nat → Int → Int → Res (Int × Int)
  | 0, _, l, r => .ok (l, r)
  | k + 1, i, l, r =>
    (idx b.AL i).bind fun al =>
    (idx b.AR i).bind fun ar =>
      debugLoop b k (i + 1) (if al = 1 then l + 2 ^ i else l) (if ar = 0 then r + 2 ^ i else r)

/-- `BitCommitment.Debug` (rangeproof/bitCommitment.go:55-87). -/
def BitCommitment.debug [DecidableEq F] (b : BitCommitment F) (v : Int) : Res Unit :=
  (debugLoop b nBits 0 0 0).bind fun s =>
    if s.1 ≠ v then .err "[BitCommit(Debug)]: Wrong Value for AL"
    else if s.2 ≠ v then .err "[BitCommit(Debug)]: Wrong Value for AL"
    else .ok ()

end Dusk.RP
