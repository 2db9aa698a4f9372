import Verif.Model.DecodeState
/-!
# Decode through a pointer that may be nil

Six `Decode` methods begin with `if p == nil { return errors.New("struct is nil") }`. A pointer is `none` when it is nil, otherwise
`some` of what it points to.
-/

namespace Dusk

/-- `if p == nil { return errors.New("struct is nil") }`, then the rest of the method on what `p` points to. -/
def Dec.nilChecked {σ α : Type} (m : Dec σ α) : Dec (Option σ) α := fun p r =>
  match p with
  | none => ⟨.err "struct is nil", none, 0⟩
  | some s => let o := m s r; ⟨o.res, some o.recv, o.made⟩

variable {F G : Type} [Field F] [AddCommGroup G] [Module F G]

/-- `PubKeys.Decode` (mlsag/pubkeys.go:44-64). -/
def Mlsag.PubKeys.decodePtr (R : Ristretto F G) (n : Nat) : Dec (Option (PubKeys G)) Unit := Dec.nilChecked (PubKeys.dec R n)

/-- `Responses.Decode` (mlsag/responses.go:46-62). -/
def Mlsag.responsesDecodePtr (R : Ristretto F G) (n : Nat) : Dec (Option (List F)) Unit := Dec.nilChecked (responsesDec R n)

/-- `Signature.Decode` (mlsag/mlsag.go:67-110). -/
def Mlsag.Signature.decodePtr (R : Ristretto F G) (decodeKeys : Bool) : Dec (Option (Signature F G)) Unit :=
  Dec.nilChecked (Signature.dec R decodeKeys)

/-- `Commitment.Decode` (rangeproof/pedersen/pedersen.go:71-86) on a commitment: only its value is assigned. -/
def RP.commitmentDec (R : Ristretto F G) (bad : G → Bytes → G) : Dec (Commitment F G) Unit :=
  Dec.bind (Dec.read (readN 32)) fun b =>
    if (R.pOfBytes b).2 then Dec.set fun c => { c with value := (R.pOfBytes b).1 }
    else Dec.bind (Dec.set fun c => { c with value := bad c.value b }) fun _ =>
      Dec.fail "could not set bytes for commitment, not an encodable point"

/-- `Commitment.Decode` (rangeproof/pedersen/pedersen.go:71-86). -/
def RP.commitmentDecodePtr (R : Ristretto F G) (bad : G → Bytes → G) : Dec (Option (Commitment F G)) Unit :=
  Dec.nilChecked (commitmentDec R bad)

/-- `Proof.Decode` of the inner product proof (rangeproof/innerproduct/innerproduct.go:420-466). -/
def RP.ipDecodePtr (R : Ristretto F G) : Dec (Option (IP.Proof F G)) Unit := Dec.nilChecked (ipDec R)

/-- `Proof.Decode` (rangeproof/rangeproof.go:537-581). -/
def RP.Proof.decodePtr (R : Ristretto F G) (bad : G → Bytes → G) (includeCommits : Bool) : Dec (Option (Proof F G)) Unit :=
  Dec.nilChecked (Proof.dec R bad includeCommits)

end Dusk
