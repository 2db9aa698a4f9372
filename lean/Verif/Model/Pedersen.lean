import Verif.Model.Ristretto
import Verif.Go.IO
/-!
# Model of rangeproof/generators/generator.go, rangeproof/pedersen/pedersen.go and
rangeproof/fiatshamir/fiatshamir.go
-/

namespace Dusk

/-- UTF-8 bytes of a string literal. -/
def strBytes (s : String) : Bytes := s.toUTF8.data.toList

/-! ## generators -/

/-- `Generator` (rangeproof/generators/generator.go:11-14). -/
structure Gen (G : Type) where
  data : Bytes
  bases : List G

variable {F G : Type} [Field F] [AddCommGroup G] [Module F G]

namespace Gen

/-- `New` (rangeproof/generators/generator.go:18-23). -/
def new (data : Bytes) : Gen G := ⟨data, []⟩

/-- `Generator.Clear` (rangeproof/generators/generator.go:27-29). -/
def clear (g : Gen G) : Gen G := { g with bases := [] }

/-- `Generator.Iterate` (rangeproof/generators/generator.go:34-47). -/
def iterate (R : Ristretto F G) (g : Gen G) : G :=
  match g.bases.getLast? with
  | none => R.pDerive g.data
  | some prev => R.pDerive (R.pBytes prev)

/-- `Generator.Compute` (rangeproof/generators/generator.go:51-57): `num` rounds of
`g.Bases = append(g.Bases, g.Iterate())`. -/
def compute (R : Ristretto F G) (g : Gen G) : Nat → Gen G
  | 0 => g
  | n + 1 => compute R { g with bases := g.bases ++ [g.iterate R] } n

end Gen

/-! ## pedersen -/

/-- `Pedersen` (rangeproof/pedersen/pedersen.go:14-19). -/
structure Pedersen (G : Type) where
  baseVector : Gen G
  genData : Bytes
  blindPoint : G
  basePoint : G

/-- `Commitment` (rangeproof/pedersen/pedersen.go:44-50). -/
structure Commitment (F G : Type) where
  value : G
  blindingFactor : F
  deriving DecidableEq

namespace Pedersen

/-- `New` (rangeproof/pedersen/pedersen.go:25-40). -/
def new (R : Ristretto F G) (genData : Bytes) : Pedersen G where
  baseVector := Gen.new genData
  genData := genData
  blindPoint := R.base
  basePoint := R.pDerive (strBytes "blindPoint")

/-- The loop of `commitToScalars`: `sum += scalars[i] * Bases[i]` for `i < n`; indexing past the bases panics. -/
def commitLoop : List F → List G → G → Res G
  | [], _, sum => .ok sum
  | b :: bs, h :: hs, sum => commitLoop bs hs (sum + b • h)
  | _ :: _, [], _ => .panic

/-- `Pedersen.commitToScalars` (rangeproof/pedersen/pedersen.go:116-152). `blind = none` is the nil pointer.
`Compute(uint32(diff))` truncates. Returns the point and the (extended) receiver. -/
def commitToScalars (R : Ristretto F G) (p : Pedersen G) (blind : Option F) (scalars : List F) :
    Res (G × Pedersen G) :=
  let sum : G := match blind with
    | some b => 0 + b • p.blindPoint
    | none => 0
  let gen := if p.baseVector.bases.length < scalars.length then
      p.baseVector.compute R ((scalars.length - p.baseVector.bases.length) % 2 ^ 32)
    else p.baseVector
  (commitLoop scalars gen.bases sum).bind fun s => .ok (s, { p with baseVector := gen })

/-- `Pedersen.CommitToScalar` (rangeproof/pedersen/pedersen.go:155-176); `blind` is the random scalar drawn. -/
def commitToScalar (p : Pedersen G) (v blind : F) : Commitment F G :=
  ⟨v • p.basePoint + blind • p.blindPoint, blind⟩

/-- The loop of `CommitToVectors`, from index `i` on. -/
def commitVecLoop (R : Ristretto F G) (blind : F) :
    Nat → List (List F) → Pedersen G → G → Res (G × Pedersen G)
  | _, [], p, sum => .ok (sum, p)
  | i, v :: vs, p, sum =>
    if i = 0 then
      (commitToScalars R p (some blind) v).bind fun c =>
        commitVecLoop R blind (i + 1) vs c.2 (sum + c.1)
    else
      (commitToScalars R (new R (p.genData ++ [UInt8.ofNat i])) none v).bind fun c =>
        commitVecLoop R blind (i + 1) vs p (sum + c.1)

/-- `Pedersen.CommitToVectors` (rangeproof/pedersen/pedersen.go:181-212); `blind` is the random scalar drawn. Also
returns the receiver, whose base vector may have been extended. -/
def commitToVectors (R : Ristretto F G) (p : Pedersen G) (vectors : List (List F)) (blind : F) :
    Res (Commitment F G × Pedersen G) :=
  (commitVecLoop R blind 0 vectors p 0).bind fun r => .ok (⟨r.1, blind⟩, r.2)

end Pedersen

namespace Commitment

/-- `Commitment.Encode` (rangeproof/pedersen/pedersen.go:52-54). -/
def encode (R : Ristretto F G) (c : Commitment F G) : Wr Unit := writeB (R.pBytes c.value)

/-- `EncodeCommitments` (rangeproof/pedersen/pedersen.go:56-69). -/
def encodeAll (R : Ristretto F G) (cs : List (Commitment F G)) : Wr Unit :=
  Wr.bind (writeB (be32 cs.length)) fun _ => writeEach (encode R) cs

/-- `Commitment.Decode` (rangeproof/pedersen/pedersen.go:71-86) into a fresh commitment. -/
def decode (R : Ristretto F G) : Rd (Commitment F G) :=
  Rd.bind (readN 32) fun b =>
    if (R.pOfBytes b).2 then Rd.pure ⟨(R.pOfBytes b).1, 0⟩
    else Rd.fail "could not set bytes for commitment, not an encodable point"

/-- `DecodeCommitments` (rangeproof/pedersen/pedersen.go:88-106). -/
def decodeAll (R : Ristretto F G) : Rd (List (Commitment F G)) :=
  Rd.bind readU32 fun n => readTimes (decode R) n

/-- `Commitment.EqualValue` (rangeproof/pedersen/pedersen.go:108-110). -/
def equalValue [DecidableEq G] (c d : Commitment F G) : Bool := decide (c.value = d.value)

/-- `Commitment.Equals` (rangeproof/pedersen/pedersen.go:112-114). -/
def equals [DecidableEq F] [DecidableEq G] (c d : Commitment F G) : Bool :=
  equalValue c d && decide (c.blindingFactor = d.blindingFactor)

end Commitment

/-! ## fiatshamir -/

/-- `HashCacher` (rangeproof/fiatshamir/fiatshamir.go:7-9). -/
structure HashCacher where
  cache : Bytes := []

namespace HashCacher

/-- `HashCacher.Append` (rangeproof/fiatshamir/fiatshamir.go:12-17). -/
def append (h : HashCacher) (vals : List Bytes) : HashCacher :=
  vals.foldl (fun h x => ⟨h.cache ++ x⟩) h

/-- `HashCacher.Result` (rangeproof/fiatshamir/fiatshamir.go:21-23). -/
def result (h : HashCacher) : Bytes := h.cache

/-- `HashCacher.Clear` (rangeproof/fiatshamir/fiatshamir.go:26-28). -/
def clear (_ : HashCacher) : HashCacher := ⟨[]⟩

/-- `HashCacher.Derive` (rangeproof/fiatshamir/fiatshamir.go:32-36). -/
def derive (R : Ristretto F G) (h : HashCacher) : F := R.sDerive h.cache

end HashCacher

end Dusk
