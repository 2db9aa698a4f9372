import Verif.Model.Mlsag
/-!
# The remaining methods of package mlsag

Accessors, and two functions that nothing in the package calls.
-/

namespace Dusk.Mlsag

variable {F G : Type} [Field F] [AddCommGroup G] [Module F G]

/-- `PubKeys.Len` (mlsag/pubkeys.go:69-71). -/
def PubKeys.len (p : PubKeys G) : Nat := p.keys.length

/-- `PubKeys.OutputKey` (mlsag/pubkeys.go:73-75): panics if there are no keys. -/
def PubKeys.outputKey (p : PubKeys G) : Res G := idx p.keys 0

/-- `PrivKeys.AddPrivateKey` (mlsag/privatekeys.go:7-9). -/
def addPrivateKey (p : List F) (x : F) : List F := p ++ [x]

/-- `PrivKeys.Len` (mlsag/privatekeys.go:11-13). -/
def privKeysLen (p : List F) : Nat := p.length

/-- `Responses.AddResponse` (mlsag/responses.go:27-29). -/
def addResponse (res : List F) (x : F) : List F := res ++ [x]

/-- `Responses.Len` (mlsag/responses.go:31-33). -/
def responsesLen (res : List F) : Nat := res.length

/-- `Proof.LenMembers` (mlsag/proof.go:93-95). -/
def Proof.lenMembers (p : Proof F G) : Nat := p.matrix.length

/-- `isNumInList` (mlsag/mlsag.go:421-428). -/
def isNumInList (x : Int) : List Int → Bool
  | [] => false
  | b :: l => if b = x then true else isNumInList x l

/-- `readerToPoint` (mlsag/mlsag.go:430-441): the value of the point when no error is returned. -/
def readerToPoint (R : Ristretto F G) : Rd G := readPoint R

end Dusk.Mlsag
