import Verif.Model.Ristretto
import Verif.Go.IO
/-!
# Model of package mlsag

Methods with a pointer receiver return the new receiver. Random scalars (nonces, decoy responses) and the choices of the
shuffle are explicit (`Coins`). Slices are values here; sharing of key slices between rings is modelled separately.
-/

namespace Dusk.Mlsag

variable {F G : Type} [Field F] [AddCommGroup G] [Module F G]

/-- `PubKeys` (mlsag/pubkeys.go:11-16). -/
structure PubKeys (G : Type) where
  decoy : Bool := false
  keys : List G := []
  deriving DecidableEq

/-- `Signature` (mlsag/mlsag.go:13-18); `Responses` (mlsag/responses.go:11) is a list of scalars. -/
structure Signature (F G : Type) where
  c : F
  r : List (List F)
  pubKeys : List (PubKeys G)
  msg : Bytes
  deriving DecidableEq

/-- `Proof` (mlsag/proof.go:11-29); `PrivKeys` (mlsag/privatekeys.go:5) is a list of scalars. -/
structure Proof (F G : Type) where
  index : Nat := 0
  privKeys : List F := []
  signer : PubKeys G := {}
  matrix : List (PubKeys G) := []
  msg : Bytes := []

/-- Random choices of one `prove`: nonces, responses of the decoys (member, key), shuffle (`Intn(i+1)` is
`shuffle i % (i+1)`). -/
structure Coins (F : Type) where
  nonce : Nat → F
  resp : Nat → Nat → F
  shuffle : Nat → Nat

/-! ## Building a proof (mlsag/proof.go) -/

/-- `Proof.addPubKeys` (mlsag/proof.go:31-34). -/
def Proof.addPubKeys (p : Proof F G) (keys : PubKeys G) : Proof F G := { p with matrix := p.matrix ++ [keys] }

/-- `Proof.AddDecoy` (mlsag/proof.go:36-39). -/
def Proof.addDecoy (p : Proof F G) (keys : PubKeys G) : Proof F G := p.addPubKeys { keys with decoy := true }

/-- `Proof.AddDecoys` (mlsag/proof.go:41-45). -/
def Proof.addDecoys (p : Proof F G) (keys : List (PubKeys G)) : Proof F G := keys.foldl Proof.addDecoy p

/-- `Proof.addSignerPubKey` (mlsag/proof.go:47-51). -/
def Proof.addSignerPubKey (p : Proof F G) : Proof F G :=
  let p := { p with signer := { p.signer with decoy := false } }
  p.addPubKeys p.signer

/-- `privKeyToPubKey` (mlsag/proof.go:64-68). -/
def privKeyToPubKey (R : Ristretto F G) (x : F) : G := x • R.base

/-- `PubKeys.AddPubKey` (mlsag/pubkeys.go:65-67). -/
def PubKeys.addPubKey (p : PubKeys G) (k : G) : PubKeys G := { p with keys := p.keys ++ [k] }

/-- `Proof.AddSecret` (mlsag/proof.go:53-62) with `PrivKeys.AddPrivateKey` (mlsag/privatekeys.go:7-9). -/
def Proof.addSecret (R : Ristretto F G) (p : Proof F G) (x : F) : Proof F G :=
  { p with signer := p.signer.addPubKey (privKeyToPubKey R x), privKeys := p.privKeys ++ [x] }

/-- `l[i], l[j] = l[j], l[i]`; both indices are in range where it is used. -/
def swap {α : Type} (l : List α) (i j : Nat) : List α :=
  match l[i]?, l[j]? with
  | some a, some b => (l.set i b).set j a
  | _, _ => l

/-- The first loop of `shuffleSet` (mlsag/proof.go:71-91), from `i` down to 1. -/
def shuffleLoop {α : Type} (shuffle : Nat → Nat) : Nat → List α → List α
  | 0, l => l
  | i + 1, l => shuffleLoop shuffle i (swap l (i + 1) (shuffle (i + 1) % (i + 2)))

/-- `Proof.shuffleSet` (mlsag/proof.go:71-91). -/
def Proof.shuffleSet (p : Proof F G) (shuffle : Nat → Nat) : Proof F G × Res Unit :=
  let m := shuffleLoop shuffle (p.matrix.length - 1) p.matrix
  match m.findIdx? fun k => !k.decoy with
  | some i => ({ p with matrix := m, index := i }, .ok ())
  | none => ({ p with matrix := m }, .err "could not find the index of the non-decoy vector of pubkeys")

/-! ## Signing -/

/-- `CalculateKeyImage` (mlsag/mlsag.go:411-419). -/
def calculateKeyImage (R : Ristretto F G) (x : F) (pub : G) : G := x • R.pDerive (R.pBytes pub)

/-- `Proof.calculateKeyImages` (mlsag/mlsag.go:391-409): indexing the signer's keys, and slicing off the last image, may
panic. -/
def Proof.calculateKeyImages (R : Ristretto F G) (p : Proof F G) (skipLast : Bool) : Res (List G) :=
  (mapRes (fun i => (idx p.privKeys i).bind fun x => (idx p.signer.keys i).bind fun k => .ok (calculateKeyImage R x k))
    (List.range p.privKeys.length)).bind fun images =>
  if !skipLast then .ok images
  else if images.length = 0 then .panic
  else .ok (images.take (images.length - 1))

/-- `generateNonces` (mlsag/mlsag.go:308-316). -/
def generateNonces (nonce : Nat → F) (n : Nat) : List F := (List.range n).map nonce

/-- `generateResponses` (mlsag/mlsag.go:322-338). -/
def generateResponses (resp : Nat → Nat → F) (m n skip : Nat) : List (List F) :=
  (List.range m).map fun i => if i = skip then [] else (List.range n).map (resp i)

/-- `generateChallenge` (mlsag/mlsag.go:340-389). Writing to a buffer does not fail. -/
def generateChallenge (R : Ristretto F G) (msg : Bytes) (responses : List F) (keyImages : List G) (pubKeys : PubKeys G)
    (prev : F) : Res F :=
  (mapRes (fun i => (idx responses i).bind fun r => (idx pubKeys.keys i).bind fun k =>
    .ok (R.pBytes (r • R.base + prev • k))) (List.range pubKeys.keys.length)).bind fun b1 =>
  (mapRes (fun i => (idx responses i).bind fun r => (idx pubKeys.keys i).bind fun k => (idx keyImages i).bind fun im =>
    .ok (R.pBytes (r • R.pDerive (R.pBytes k) + prev • im))) (List.range keyImages.length)).bind fun b2 =>
  .ok (R.sDerive (msg ++ b1.flatten ++ b2.flatten))

/-- `for k := start; k != stop; k = (k + 1) % n { i := k % n; body }`. The first argument bounds the number of iterations;
`ringLoop_inv` shows that it is never reached in the two loops below. -/
def ringLoop {σ : Type} (body : Nat → σ → Res σ) (n stop : Nat) : Nat → Nat → σ → Res σ
  | 0, _, _ => .panic
  | fuel + 1, k, s => if k = stop then .ok s else (body (k % n) s).bind (ringLoop body n stop fuel ((k + 1) % n))

/-- `prevIndex := (i - 1) % n; if prevIndex < 0 { prevIndex = prevIndex + n }` (Go's remainder has the sign of the
dividend). -/
def prevIndex (n i : Nat) : Nat :=
  let p := ((i : Int) - 1).tmod n
  (if p < 0 then p + n else p).toNat

/-- The first hash of the signer (lines 172-205 of `prove` (mlsag/mlsag.go:142-259)). -/
def firstChallenge (R : Ristretto F G) (msg : Bytes) (nonces : List F) (keyImages : List G) (keys : List G) : Res F :=
  (mapRes (fun i => (idx nonces i).bind fun a => .ok (R.pBytes (a • R.base))) (List.range nonces.length)).bind fun b1 =>
  (mapRes (fun i => (idx nonces i).bind fun a => (idx keys i).bind fun k =>
    .ok (R.pBytes (a • R.pDerive (R.pBytes k)))) (List.range keyImages.length)).bind fun b2 =>
  .ok (R.sDerive (msg ++ b1.flatten ++ b2.flatten))

/-- The body of the loop over the decoys (lines 214-231 of `prove` (mlsag/mlsag.go:142-259)): state is the list of challenges and the previous one. -/
def proveBody (R : Ristretto F G) (msg : Bytes) (responses : List (List F)) (keyImages : List G) (matrix : List (PubKeys G))
    (n i : Nat) (s : List F × F) : Res (List F × F) :=
  let prev := prevIndex n i
  (idx responses prev).bind fun resp =>
  (idx matrix prev).bind fun keys =>
  (generateChallenge R msg resp keyImages keys s.2).bind fun c =>
  .ok (s.1.set i c, c)

/-- `Proof.prove` (mlsag/mlsag.go:142-259), after shuffling and the check of the dimensions. -/
def Proof.sign (R : Ristretto F G) (p : Proof F G) (skipLast : Bool) (coins : Coins F) : Res (Signature F G × List G) :=
  (p.calculateKeyImages R skipLast).bind fun keyImages =>
  let nonces := generateNonces coins.nonce p.privKeys.length
  let n := p.matrix.length
  let responses := generateResponses coins.resp n p.privKeys.length p.index
  (idx p.matrix p.index).bind fun signersPubKeys =>
  (firstChallenge R p.msg nonces keyImages signersPubKeys.keys).bind fun c1 =>
  let challenges := (List.replicate n (0 : F)).set ((p.index + 1) % n) c1
  (ringLoop (proveBody R p.msg responses keyImages p.matrix n) n ((p.index + 1) % n) (n + 1) (p.index + 2)
    (challenges, c1)).bind fun s =>
  (idx s.1 p.index).bind fun challenge =>
  (mapRes (fun i => (idx p.privKeys i).bind fun x => (idx nonces i).bind fun a => .ok (-(challenge * x) + a))
    (List.range p.privKeys.length)).bind fun real =>
  (idx s.1 0).bind fun c0 =>
  .ok (⟨c0, responses.set p.index real, p.matrix, p.msg⟩, keyImages)

/-- `Proof.prove` (mlsag/mlsag.go:142-259): the new proof, and the signature with the key images. -/
def Proof.prove (R : Ristretto F G) (p : Proof F G) (skipLast : Bool) (coins : Coins F) :
    Proof F G × Res (Signature F G × List G) :=
  let s := p.addSignerPubKey.shuffleSet coins.shuffle
  match s.2 with
  | .ok _ =>
    if s.1.matrix.any fun k => k.keys.length ≠ s.1.privKeys.length then
      (s.1, .err "all vectors in the pubkey matrix must be the same size")
    else (s.1, s.1.sign R skipLast coins)
  | .err e => (s.1, .err e)
  | .panic => (s.1, .panic)

/-! ## Verifying -/

/-- The body of the loop of `Verify`. -/
def Signature.verifyBody (R : Ristretto F G) (sig : Signature F G) (keyImages : List G) (i : Nat) (prevChallenge : F) :
    Res F :=
  let prev := prevIndex sig.r.length i
  (idx sig.r prev).bind fun resp =>
  (idx sig.pubKeys prev).bind fun keys =>
  generateChallenge R sig.msg resp keyImages keys prevChallenge

/-- `Signature.Verify` (mlsag/mlsag.go:261-306). -/
def Signature.verify [DecidableEq F] (R : Ristretto F G) (sig : Signature F G) (keyImages : List G) : Res Bool :=
  if sig.pubKeys.length = 0 ∨ sig.r.length = 0 ∨ keyImages.length = 0 then
    .err "cannot have zero length for responses, pubkeys or key images"
  else
    let n := sig.r.length
    (ringLoop (sig.verifyBody R keyImages) n (0 % n) (n + 1) 1 sig.c).bind fun c =>
    (sig.verifyBody R keyImages 0 c).bind fun c =>
    if c ≠ sig.c then .err "c'0 does not equal c0" else .ok true

/-! ## Encoding -/

/-- `Responses.Encode` (mlsag/responses.go:35-44). -/
def encodeResponses (R : Ristretto F G) (r : List F) : Wr Unit := writeEach (fun x => writeB (R.sBytes x)) r

/-- `PubKeys.Encode` (mlsag/pubkeys.go:34-42). -/
def PubKeys.encode (R : Ristretto F G) (p : PubKeys G) : Wr Unit := writeEach (fun k => writeB (R.pBytes k)) p.keys

/-- `Signature.Encode` (mlsag/mlsag.go:20-65); `lenR` and `numResponses` are truncated to 32 bits. -/
def Signature.encode (R : Ristretto F G) (s : Signature F G) (encodeKeys : Bool) : Wr Unit :=
  Wr.bind (writeB (R.sBytes s.c)) fun _ =>
  Wr.bind (writeB (be32 s.r.length)) fun _ =>
  if s.r.length % 2 ^ 32 = 0 then Wr.pure ()
  else
    match s.r with
    | [] => Wr.panic
    | r0 :: _ =>
      Wr.bind (writeB (be32 r0.length)) fun _ =>
      Wr.bind (writeEach (encodeResponses R) s.r) fun _ =>
      if !encodeKeys then Wr.pure () else writeEach (PubKeys.encode R) s.pubKeys

/-- `readerToScalar` (mlsag/mlsag.go:442-450), also the loop body of `Responses.Decode` (mlsag/responses.go:46-62). -/
def readScalar (R : Ristretto F G) : Rd F := Rd.bind (readN 32) fun b => Rd.pure (R.sOfBytes b)

/-- The loop body of `PubKeys.Decode` (mlsag/pubkeys.go:44-64). -/
def readPoint (R : Ristretto F G) : Rd G :=
  Rd.bind (readN 32) fun b => if (R.pOfBytes b).2 then Rd.pure (R.pOfBytes b).1 else Rd.fail "point not encodable"

/-- `Responses.Decode` (mlsag/responses.go:46-62) into `res`, to which the responses are appended. -/
def decodeResponses (R : Ristretto F G) (res : List F) (n : Nat) : Rd (List F) :=
  Rd.bind (readTimes (readScalar R) n) fun xs => Rd.pure (res ++ xs)

/-- `PubKeys.Decode` (mlsag/pubkeys.go:44-64) into `p`, to which the keys are appended. -/
def PubKeys.decode (R : Ristretto F G) (p : PubKeys G) (n : Nat) : Rd (PubKeys G) :=
  Rd.bind (readTimes (readPoint R) n) fun xs => Rd.pure { p with keys := p.keys ++ xs }

/-- `Signature.Decode` (mlsag/mlsag.go:67-110) into `s` (non-nil): the new value of `s` when no error is returned. -/
def Signature.decode (R : Ristretto F G) (s : Signature F G) (decodeKeys : Bool) : Rd (Signature F G) :=
  Rd.bind (readScalar R) fun c =>
  Rd.bind readU32 fun lenR =>
  Rd.bind readU32 fun numResponses =>
  Rd.bind (readTimes (decodeResponses R [] numResponses) lenR) fun r =>
  if !decodeKeys then Rd.pure { s with c := c, r := r }
  else
    Rd.bind (readTimes (PubKeys.decode R {} numResponses) lenR) fun pk =>
    Rd.pure { s with c := c, r := r, pubKeys := pk }

/-! ## Equality -/

/-- `Responses.Equals` (mlsag/responses.go:13-26) and `PubKeys.Equals` (mlsag/pubkeys.go:18-32): lengths, then components. -/
def listEquals {α : Type} [DecidableEq α] (a b : List α) : Bool :=
  if a.length ≠ b.length then false else (a.zip b).all fun p => decide (p.1 = p.2)

/-- The loop over the responses in `Signature.Equals`: indexing the other list past its end panics. -/
def equalsLoop [DecidableEq F] : List (List F) → List (List F) → Res Bool
  | [], _ => .ok true
  | _ :: _, [] => .panic
  | a :: as, b :: bs => if listEquals a b then equalsLoop as bs else .ok false

/-- `Signature.Equals` (mlsag/mlsag.go:112-140). -/
def Signature.equals [DecidableEq F] [DecidableEq G] (s other : Signature F G) (includeKeys : Bool) : Res Bool :=
  if s.c ≠ other.c then .ok false
  else
    (equalsLoop s.r other.r).bind fun ok =>
    if !ok then .ok false
    else if !includeKeys then .ok true
    else if s.pubKeys.length ≠ other.pubKeys.length then .ok false
    else .ok ((s.pubKeys.zip other.pubKeys).all fun p => listEquals p.1.keys p.2.keys)

/-! ## DualKey (mlsag/dualkey.go) -/

/-- `DualKey` (mlsag/dualkey.go:11-14). -/
structure DualKey (F G : Type) where
  proof : Proof F G
  key0 : F
  key1 : F

/-- `NewDualKey` (mlsag/dualkey.go:16-21). -/
def DualKey.new : DualKey F G := ⟨{}, 0, 0⟩

/-- `DualKey.SetPrimaryKey` (mlsag/dualkey.go:23-26). -/
def DualKey.setPrimaryKey (R : Ristretto F G) (d : DualKey F G) (x : F) : DualKey F G × G :=
  ({ d with key0 := x }, privKeyToPubKey R x)

/-- `DualKey.SetCommToZero` (mlsag/dualkey.go:28-31). -/
def DualKey.setCommToZero (R : Ristretto F G) (d : DualKey F G) (x : F) : DualKey F G × G :=
  ({ d with key1 := x }, privKeyToPubKey R x)

/-- `DualKey.SetMsg` (mlsag/dualkey.go:33-35). -/
def DualKey.setMsg (d : DualKey F G) (msg : Bytes) : DualKey F G := { d with proof := { d.proof with msg := msg } }

/-- The body of `SubCommToZero`: `keys[1]` panics if there are fewer than two keys. -/
def PubKeys.subSecond (P : G) (k : PubKeys G) : Res (PubKeys G) :=
  (idx k.keys 1).bind fun K => .ok { k with keys := k.keys.set 1 (K - P) }

/-- `DualKey.SubCommToZero` (mlsag/dualkey.go:39-44). -/
def DualKey.subCommToZero (d : DualKey F G) (P : G) : Res (DualKey F G) :=
  (mapRes (PubKeys.subSecond P) d.proof.matrix).bind fun m => .ok { d with proof := { d.proof with matrix := m } }

/-- `DualKey.Prove` (mlsag/dualkey.go:46-63). -/
def DualKey.prove [DecidableEq F] (R : Ristretto F G) (d : DualKey F G) (coins : Coins F) :
    DualKey F G × Res (Signature F G × G) :=
  if d.key0 = 0 ∨ d.key1 = 0 then (d, .err "primary key or commitment to zero cannot be zero")
  else
    let q := ((d.proof.addSecret R d.key0).addSecret R d.key1).prove R true coins
    ({ d with proof := q.1 },
      q.2.bind fun s =>
        match s.2 with
        | [im] => .ok (s.1, im)
        | _ => .err "dual key mlsag must only contain one key image")

end Dusk.Mlsag
