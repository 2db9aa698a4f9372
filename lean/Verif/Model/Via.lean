import Verif.Model.Bls
import Verif.Model.Merkle
import Verif.Model.MlsagSmall
import Verif.Model.RangeProof
/-!
# Methods called on pointers that may be nil, and on zero values

In the other models the receiver of a method is a value. Here it is a pointer: `none` when it is nil, otherwise `some` of what it
points to. Following a nil pointer (`deref`) panics; the definitions below follow the pointer where the code first reads, writes or
takes the address of a field, or copies the receiver for a method with a value receiver. A method that changes its receiver returns
its outcome and the new contents. The `Decode` methods test for nil and are in `Verif.Model.Pointers`.
-/

namespace Dusk.Via

open Dusk.Bls (deref)

/-- A method that only reads its receiver, starting with a field. -/
def reading {σ β : Type} (m : σ → Res β) (p : Option σ) : Res β := (deref p).bind m

/-- A method that starts with a field of its receiver and changes it. -/
def changing {σ β : Type} (m : σ → Res β × σ) : Option σ → Res β × Option σ
  | none => (.panic, none)
  | some s => ((m s).1, some (m s).2)

/-- A method that changes its receiver and cannot fail. -/
def updating {σ : Type} (m : σ → σ) : Option σ → Res Unit × Option σ := changing fun s => (.ok (), m s)

/-- A method that writes what it finds through its receiver. -/
def writing {σ : Type} (m : σ → Wr Unit) : Option σ → Wr Unit
  | none => Wr.panic
  | some s => m s

/-! ## mlsag -/

section Mlsag

open Dusk.Mlsag

variable {F G : Type} [Field F] [AddCommGroup G] [Module F G]

/-- `Proof.AddDecoy` (mlsag/proof.go:36-39) with `Proof.addPubKeys` (mlsag/proof.go:31-34). -/
def addDecoy (p : Option (Proof F G)) (k : PubKeys G) : Res Unit × Option (Proof F G) :=
  updating (fun p => p.addDecoy k) p

/-- `Proof.AddDecoys` (mlsag/proof.go:41-45): the pointer is followed only inside the loop. -/
def addDecoys (p : Option (Proof F G)) : List (PubKeys G) → Res Unit × Option (Proof F G)
  | [] => (.ok (), p)
  | k :: ks =>
    match addDecoy p k with
    | (.ok _, p') => addDecoys p' ks
    | r => r

/-- `Proof.AddSecret` (mlsag/proof.go:53-62): the public key is computed first, which cannot fail. -/
def addSecret (R : Ristretto F G) (p : Option (Proof F G)) (x : F) : Res Unit × Option (Proof F G) :=
  updating (fun p => p.addSecret R x) p

/-- `Proof.LenMembers` (mlsag/proof.go:93-95). -/
def lenMembers (p : Option (Proof F G)) : Res Nat := reading (fun p => .ok p.lenMembers) p

/-- `PubKeys.Equals` (mlsag/pubkeys.go:18-32). -/
def pubKeysEquals [DecidableEq G] (p : Option (PubKeys G)) (other : PubKeys G) : Res Bool :=
  reading (fun p => .ok (listEquals p.keys other.keys)) p

/-- `PubKeys.Encode` (mlsag/pubkeys.go:34-42): a value receiver. -/
def pubKeysEncode (R : Ristretto F G) (p : Option (PubKeys G)) : Wr Unit := writing (PubKeys.encode R) p

/-- `PubKeys.AddPubKey` (mlsag/pubkeys.go:65-67). -/
def addPubKey (p : Option (PubKeys G)) (k : G) : Res Unit × Option (PubKeys G) := updating (fun p => p.addPubKey k) p

/-- `PubKeys.Len` (mlsag/pubkeys.go:69-71). -/
def pubKeysLen (p : Option (PubKeys G)) : Res Nat := reading (fun p => .ok p.len) p

/-- `PubKeys.OutputKey` (mlsag/pubkeys.go:73-75). -/
def outputKey (p : Option (PubKeys G)) : Res G := reading PubKeys.outputKey p

/-- `Responses.AddResponse` (mlsag/responses.go:27-29). -/
def addResponse (p : Option (List F)) (x : F) : Res Unit × Option (List F) := updating (fun r => Mlsag.addResponse r x) p

/-- `PrivKeys.AddPrivateKey` (mlsag/privatekeys.go:7-9). -/
def addPrivateKey (p : Option (List F)) (x : F) : Res Unit × Option (List F) := updating (fun r => Mlsag.addPrivateKey r x) p

/-- `Signature.Encode` (mlsag/mlsag.go:20-65). -/
def sigEncode (R : Ristretto F G) (encodeKeys : Bool) (p : Option (Signature F G)) : Wr Unit :=
  writing (fun s => s.encode R encodeKeys) p

/-- `Signature.Equals` (mlsag/mlsag.go:112-140): a value receiver. -/
def sigEquals [DecidableEq F] [DecidableEq G] (p : Option (Signature F G)) (other : Signature F G) (includeKeys : Bool) : Res Bool :=
  reading (fun s => s.equals other includeKeys) p

/-- `Signature.Verify` (mlsag/mlsag.go:261-306). -/
def sigVerify [DecidableEq F] (R : Ristretto F G) (p : Option (Signature F G)) (keyImages : List G) : Res Bool :=
  reading (fun s => s.verify R keyImages) p

/-- `DualKey` (mlsag/dualkey.go:11-14) with its slice `dualkeys`, which is nil in the zero value and has two elements after
`NewDualKey` (mlsag/dualkey.go:16-21). -/
structure Dual (F G : Type) where
  proof : Proof F G := {}
  dualkeys : List F := []

/-- `NewDualKey` (mlsag/dualkey.go:16-21). -/
def Dual.new : Dual F G := ⟨{}, List.replicate 2 0⟩

/-- `d.dualkeys[i] = key`: assigning past the end panics. -/
def Dual.setKey (i : Nat) (x : F) (d : Dual F G) : Res Unit × Dual F G :=
  if i < d.dualkeys.length then (.ok (), { d with dualkeys := d.dualkeys.set i x }) else (.panic, d)

/-- `DualKey.SetPrimaryKey` (mlsag/dualkey.go:23-26). -/
def setPrimaryKey (R : Ristretto F G) (p : Option (Dual F G)) (x : F) : Res G × Option (Dual F G) :=
  let r := changing (Dual.setKey 0 x) p
  (r.1.bind fun _ => .ok (privKeyToPubKey R x), r.2)

/-- `DualKey.SetCommToZero` (mlsag/dualkey.go:28-31). -/
def setCommToZero (R : Ristretto F G) (p : Option (Dual F G)) (x : F) : Res G × Option (Dual F G) :=
  let r := changing (Dual.setKey 1 x) p
  (r.1.bind fun _ => .ok (privKeyToPubKey R x), r.2)

/-- `DualKey.SetMsg` (mlsag/dualkey.go:33-35). -/
def setMsg (p : Option (Dual F G)) (msg : Bytes) : Res Unit × Option (Dual F G) :=
  updating (fun d => { d with proof := { d.proof with msg := msg } }) p

/-- A method of `Proof` called on a `DualKey`: the address of the embedded field is taken first. -/
def promoted {β : Type} (m : Option (Proof F G) → Res β × Option (Proof F G)) : Option (Dual F G) → Res β × Option (Dual F G)
  | none => (.panic, none)
  | some d =>
    let r := m (some d.proof)
    (r.1, some { d with proof := r.2.getD d.proof })

/-- `DualKey.SubCommToZero` (mlsag/dualkey.go:39-44), when it does not panic halfway (then part of the vectors are changed,
see `Verif.Model.MlsagMem`). -/
def subCommToZero (p : Option (Dual F G)) (P : G) : Res (Dual F G) :=
  reading (fun d => (mapRes (PubKeys.subSecond P) d.proof.matrix).bind fun m =>
    .ok { d with proof := { d.proof with matrix := m } }) p

/-- `DualKey.Prove` (mlsag/dualkey.go:46-63): the second key is looked at only when the first is not zero. -/
def Dual.prove [DecidableEq F] (R : Ristretto F G) (coins : Coins F) (d : Dual F G) : Res (Signature F G × G) × Dual F G :=
  match idx d.dualkeys 0 with
  | .ok k0 =>
    if k0 = 0 then (.err "primary key or commitment to zero cannot be zero", d)
    else
      match idx d.dualkeys 1 with
      | .ok k1 =>
        if k1 = 0 then (.err "primary key or commitment to zero cannot be zero", d)
        else
          let q := ((d.proof.addSecret R k0).addSecret R k1).prove R true coins
          (q.2.bind fun s =>
            match s.2 with
            | [im] => .ok (s.1, im)
            | _ => .err "dual key mlsag must only contain one key image", { d with proof := q.1 })
      | _ => (.panic, d)
  | _ => (.panic, d)

/-- `DualKey.Prove` (mlsag/dualkey.go:46-63). -/
def dualProve [DecidableEq F] (R : Ristretto F G) (coins : Coins F) (p : Option (Dual F G)) :
    Res (Signature F G × G) × Option (Dual F G) := changing (Dual.prove R coins) p

/-- A `DualKey` of `Verif.Model.Mlsag`, with its two keys in a slice. -/
def Dual.of (d : DualKey F G) : Dual F G := ⟨d.proof, [d.key0, d.key1]⟩

end Mlsag

/-! ## rangeproof and its packages -/

section RangeProof

variable {F G : Type} [Field F] [AddCommGroup G] [Module F G]

/-- `Generator.Clear` (rangeproof/generators/generator.go:27-29). -/
def genClear (p : Option (Gen G)) : Res Unit × Option (Gen G) := updating Gen.clear p

/-- `Generator.Iterate` (rangeproof/generators/generator.go:34-47). -/
def genIterate (R : Ristretto F G) (p : Option (Gen G)) : Res G := reading (fun g => .ok (g.iterate R)) p

/-- `Generator.Compute` (rangeproof/generators/generator.go:51-57): the pointer is followed only inside the loop. -/
def genCompute (R : Ristretto F G) (p : Option (Gen G)) : Nat → Res Unit × Option (Gen G)
  | 0 => (.ok (), p)
  | n + 1 =>
    match updating (fun g => { g with bases := g.bases ++ [g.iterate R] }) p with
    | (.ok _, p') => genCompute R p' n
    | r => r

/-- The loop of `HashCacher.Append` (rangeproof/fiatshamir/fiatshamir.go:12-17): the pointer is followed only inside the loop. -/
def cacheAppend (p : Option HashCacher) : List Bytes → Res Unit × Option HashCacher
  | [] => (.ok (), p)
  | x :: xs =>
    match updating (fun h => (⟨h.cache ++ x⟩ : HashCacher)) p with
    | (.ok _, p') => cacheAppend p' xs
    | r => r

/-- `HashCacher.Result` (rangeproof/fiatshamir/fiatshamir.go:21-23). -/
def cacheResult (p : Option HashCacher) : Res Bytes := reading (fun h => .ok h.result) p

/-- `HashCacher.Clear` (rangeproof/fiatshamir/fiatshamir.go:26-28). -/
def cacheClear (p : Option HashCacher) : Res Unit × Option HashCacher := updating HashCacher.clear p

/-- `HashCacher.Derive` (rangeproof/fiatshamir/fiatshamir.go:32-36). -/
def cacheDerive (R : Ristretto F G) (p : Option HashCacher) : Res F := reading (fun h => .ok (h.derive R)) p

/-- `Pedersen.CommitToScalar` (rangeproof/pedersen/pedersen.go:155-176). -/
def commitToScalar (p : Option (Pedersen G)) (v blind : F) : Res (Commitment F G) :=
  reading (fun q => .ok (q.commitToScalar v blind)) p

/-- The loop of `Pedersen.CommitToVectors` from index `i` on: the pointer is followed only inside the loop. -/
def commitVecLoop (R : Ristretto F G) (blind : F) :
    Nat → List (List F) → Option (Pedersen G) → G → Res (G × Option (Pedersen G))
  | _, [], p, sum => .ok (sum, p)
  | i, v :: vs, p, sum =>
    if i = 0 then
      (deref p).bind fun q => (q.commitToScalars R (some blind) v).bind fun c => commitVecLoop R blind (i + 1) vs (some c.2) (sum + c.1)
    else
      (deref p).bind fun q => ((Pedersen.new R (q.genData ++ [UInt8.ofNat i])).commitToScalars R none v).bind fun c =>
        commitVecLoop R blind (i + 1) vs p (sum + c.1)

/-- `Pedersen.CommitToVectors` (rangeproof/pedersen/pedersen.go:181-212). -/
def commitToVectors (R : Ristretto F G) (p : Option (Pedersen G)) (vectors : List (List F)) (blind : F) :
    Res (Commitment F G × Option (Pedersen G)) :=
  (commitVecLoop R blind 0 vectors p 0).bind fun r => .ok (⟨r.1, blind⟩, r.2)

/-- `Commitment.Encode` (rangeproof/pedersen/pedersen.go:52-54). -/
def commEncode (R : Ristretto F G) (p : Option (Commitment F G)) : Wr Unit := writing (Commitment.encode R) p

/-- `Commitment.EqualValue` (rangeproof/pedersen/pedersen.go:108-110). -/
def commEqualValue [DecidableEq G] (p : Option (Commitment F G)) (other : Commitment F G) : Res Bool :=
  reading (fun c => .ok (c.equalValue other)) p

/-- `Commitment.Equals` (rangeproof/pedersen/pedersen.go:112-114). -/
def commEquals [DecidableEq F] [DecidableEq G] (p : Option (Commitment F G)) (other : Commitment F G) : Res Bool :=
  (commEqualValue p other).bind fun ok =>
    if ok then reading (fun c => .ok (decide (c.blindingFactor = other.blindingFactor))) p else .ok false

/-- `Proof.VerifScalars` (rangeproof/innerproduct/innerproduct.go:267-336). -/
def ipVerifScalars (R : Ristretto F G) (p : Option (IP.Proof F G)) : Res (List F × List F × List F) :=
  reading (IP.verifScalars R) p

/-- `Proof.Verify` (rangeproof/innerproduct/innerproduct.go:339-391). -/
def ipVerify [DecidableEq G] (R : Ristretto F G) (p : Option (IP.Proof F G)) (Gv Hv : List G) (hpf : List F) (Q Pt : G) (n : Int) :
    Res Bool := reading (fun q => IP.verify R q Gv Hv hpf Q Pt n) p

/-- `Proof.Encode` (rangeproof/innerproduct/innerproduct.go:394-417). -/
def ipEncode (R : Ristretto F G) (p : Option (IP.Proof F G)) : Wr Unit := writing (IP.Proof.encode R) p

/-- `Proof.Equals` (rangeproof/innerproduct/innerproduct.go:469-489). -/
def ipEquals [DecidableEq F] [DecidableEq G] (p : Option (IP.Proof F G)) (other : IP.Proof F G) : Res Bool :=
  reading (fun q => q.equals other) p

/-- `Proof.Encode` (rangeproof/rangeproof.go:496-534). -/
def rpEncode (R : Ristretto F G) (includeCommits : Bool) (p : Option (RP.Proof F G)) : Wr Unit :=
  writing (fun q => q.encode R includeCommits) p

/-- `Proof.Equals` (rangeproof/rangeproof.go:584-626). -/
def rpEquals [DecidableEq F] [DecidableEq G] (p : Option (RP.Proof F G)) (other : RP.Proof F G) (includeCommits : Bool) : Res Bool :=
  reading (fun q => q.equals other includeCommits) p

/-- `BitCommitment.Debug` (rangeproof/bitCommitment.go:55-87). -/
def bitDebug [DecidableEq F] (p : Option (RP.BitCommitment F)) (v : Int) : Res Unit := reading (fun b => b.debug v) p

end RangeProof

/-! ## merkletree -/

section Merkle

open Dusk.Merkle

variable {α : Type} (A : Hash.Algs) (hashOf : α → Res Bytes)

/-- `Tree.RebuildTreeUsing` (merkletree/merkletree.go:164-174): the new tree is built before the pointer is followed. -/
def rebuildTreeUsing (f : Nat) (p : Option Tree) (pl : List α) (a : Arena α) : Option (Res Unit × Option Tree × Arena α) :=
  match create A hashOf f pl a with
  | none => none
  | some (.err e) => some (.err e, p, a)
  | some .panic => some (.panic, p, a)
  | some (.ok (root, leaves, a')) =>
    match p with
    | none => some (.panic, none, a)
    | some t =>
      match idx a' root with
      | .ok n => some (.ok (), some { root := some root, merkleRoot := n.hash, leaves := leaves }, a')
      | _ => some (.panic, some t, a)

/-- `Tree.RebuildTree` (merkletree/merkletree.go:152-159): reads the leaves first. -/
def rebuildTree (f : Nat) (p : Option Tree) (a : Arena α) : Option (Res Unit × Option Tree × Arena α) :=
  match p with
  | none => some (.panic, none, a)
  | some t => (Merkle.rebuildTree A hashOf f t a).map fun r => (r.1, some r.2.1, r.2.2)

/-- `VerifyTree` (merkletree/merkletree.go:177-188). -/
def verifyTree (f : Nat) (p : Option Tree) (a : Arena α) : Run Bool :=
  Run.bind (some (deref p)) fun t => Merkle.verifyTree A hashOf f t a

/-- `Tree.VerifyContent` (merkletree/merkletree.go:191-229). -/
def verifyContent (f : Nat) (p : Option Tree) (data : α) (a : Arena α) : Run Bool :=
  Run.bind (some (deref p)) fun t => Merkle.verifyContent A hashOf f t data a

end Merkle

/-! ## bls -/

section Bls

open Dusk.Bls

variable {F G1 G2 GT : Type} [Field F] [AddCommGroup G1] [AddCommGroup G2] [AddCommGroup GT]
  [Module F G1] [Module F G2] [Module F GT]
variable (P : Bn256 F G1 G2 GT) (A : Hash.Algs)

/-- `SecretKey` (bls/bls.go:88-90) with its pointer to a `big.Int`, which is nil in the zero value. -/
structure SecKey where
  x : Option Nat

/-- `UnsafeSign` (bls/bls.go:389-397): the message is hashed first; `ScalarMult` reads its scalar. -/
def unsafeSign (key : Option SecKey) (msg : Bytes) : Res (UnsafeSignature G1) :=
  (h0 P A msg).bind fun hash => (deref key).bind fun k => (deref k.x).bind fun x => .ok ⟨.pt ((x : F) • hash)⟩

/-- `apkSigWrap` (bls/bls.go:350-362): the key is hashed before the signature is looked at. -/
def apkSigWrap (pk : Option (PublicKey G2)) (s : Option (UnsafeSignature G1)) : Res (Signature G1) :=
  (h1 P A pk).bind fun t => (deref s).bind fun s => s.e.get.bind fun e => .ok ⟨.pt ((t : F) • e)⟩

/-- `Sign` (bls/bls.go:252-259). -/
def sign (sk : Option SecKey) (pk : Option (PublicKey G2)) (msg : Bytes) : Res (Signature G1) :=
  (unsafeSign P A sk msg).bind fun sig => apkSigWrap P A pk (some sig)

/-- `PublicKey.Unmarshal` (bls/bls.go:573-580): assigns before parsing. -/
def pkUnmarshal (p : Option (PublicKey G2)) (data : Bytes) : Res Unit × Option (PublicKey G2) :=
  changing (fun pk => pk.unmarshal P data) p

/-- `PublicKey.UnmarshalText` (bls/bls.go:554-565): the text is decoded before the assignment. -/
def pkUnmarshalText (p : Option (PublicKey G2)) (data : Bytes) : Res Unit × Option (PublicKey G2) :=
  match decodeText data with
  | .err e => (.err e, p)
  | .panic => (.panic, p)
  | .ok bs => pkUnmarshal P p bs

/-- `PublicKey.Marshal` (bls/bls.go:568-570). -/
def pkMarshal (p : Option (PublicKey G2)) : Res Bytes := reading (fun pk => pk.marshal P) p

/-- `PublicKey.MarshalText` (bls/bls.go:549-551). -/
def pkMarshalText (p : Option (PublicKey G2)) : Res Bytes := reading (fun pk => pk.marshalText P) p

/-- `PublicKey.Aggregate` (bls/bls.go:542-546). -/
def pkAggregate (p q : Option (PublicKey G2)) : Res (PublicKey G2) := reading (fun a => reading (fun b => a.aggregate b) q) p

/-- `Apk.Copy` (bls/bls.go:188-198). -/
def apkCopy (p : Option (Apk G2)) : Res (Apk G2) := reading (fun a => a.copy P) p

/-- `Apk.Marshal`, promoted (bls/bls.go:98-100, 568-570). -/
def apkMarshal (p : Option (Apk G2)) : Res Bytes := reading (fun a => a.marshal P) p

/-- `Apk.Unmarshal`, promoted (bls/bls.go:98-100, 573-580). -/
def apkUnmarshal (p : Option (Apk G2)) (b : Bytes) : Res Unit × Option (Apk G2) := changing (fun a => a.unmarshal P b) p

/-- `sigma.e = e`. -/
def sigAssign (p : Option (Signature G1)) (e : G1) : Res Unit × Option (Signature G1) := updating (fun _ => ⟨.pt e⟩) p

/-- `Signature.Decompress` (bls/bls.go:314-321): assigns after parsing. -/
def sigDecompress (p : Option (Signature G1)) (x : Bytes) : Res Unit × Option (Signature G1) :=
  match P.decompress x with
  | none => (.err "decompress", p)
  | some e => sigAssign p e

/-- `Signature.Unmarshal` (bls/bls.go:329-347): assigns after parsing. -/
def sigUnmarshal (p : Option (Signature G1)) (msg : Bytes) : Res Unit × Option (Signature G1) :=
  if msg.length = 33 then sigDecompress P p msg
  else
    match P.g1OfBytes msg with
    | none => (.err "bn256: malformed point", p)
    | some (e, _) => sigAssign p e

/-- `Signature.Aggregate` (bls/bls.go:303-306). -/
def sigAggregate (p other : Option (Signature G1)) : Res (Signature G1) := reading (fun a => reading (fun b => a.aggregate b) other) p

/-- `sigma.Aggregate(other)` as a statement. -/
def sigAggregated (p : Option (Signature G1)) (other : Signature G1) : Res Unit × Option (Signature G1) :=
  match sigAggregate p (some other) with
  | .ok s => (.ok (), some s)
  | .err e => (.err e, p)
  | .panic => (.panic, p)

/-- `Signature.Add` (bls/bls.go:282-290): the other signature is prepared first. -/
def sigAdd (p : Option (Signature G1)) (pk : Option (PublicKey G2)) (sig : Option (UnsafeSignature G1)) :
    Res Unit × Option (Signature G1) :=
  match apkSigWrap P A pk sig with
  | .err e => (.err e, p)
  | .panic => (.panic, p)
  | .ok other => sigAggregated p other

/-- `Signature.AggregateBytes` (bls/bls.go:293-300): the bytes are parsed first. -/
def sigAggregateBytes (p : Option (Signature G1)) (other : Bytes) : Res Unit × Option (Signature G1) :=
  match Signature.unmarshal P ⟨.nil⟩ other with
  | (.err e, _) => (.err e, p)
  | (.panic, _) => (.panic, p)
  | (.ok _, sig) => sigAggregated p sig

/-- `Signature.Compress` (bls/bls.go:309-311). -/
def sigCompress (p : Option (Signature G1)) : Res Bytes := reading (fun s => s.compress P) p

/-- `Signature.Marshal` (bls/bls.go:324-326). -/
def sigMarshal (p : Option (Signature G1)) : Res Bytes := reading (fun s => s.marshal P) p

/-- `Signature.Copy` (bls/bls.go:272-279). -/
def sigCopy (p : Option (Signature G1)) : Res (Signature G1) := reading (fun s => s.copy P) p

/-- `UnsafeSignature.Decompress` (bls/bls.go:405-412): assigns after parsing. -/
def usigDecompress (p : Option (UnsafeSignature G1)) (x : Bytes) : Res Unit × Option (UnsafeSignature G1) :=
  match P.decompress x with
  | none => (.err "decompress", p)
  | some e => updating (fun _ => ⟨.pt e⟩) p

/-- `UnsafeSignature.Unmarshal` (bls/bls.go:420-427): assigns after parsing. -/
def usigUnmarshal (p : Option (UnsafeSignature G1)) (msg : Bytes) : Res Unit × Option (UnsafeSignature G1) :=
  match P.g1OfBytes msg with
  | none => (.err "bn256: malformed point", p)
  | some (e, _) => updating (fun _ => ⟨.pt e⟩) p

/-- `UnsafeSignature.Compress` (bls/bls.go:400-402). -/
def usigCompress (p : Option (UnsafeSignature G1)) : Res Bytes := reading (fun s => s.compress P) p

/-- `UnsafeSignature.Marshal` (bls/bls.go:415-417). -/
def usigMarshal (p : Option (UnsafeSignature G1)) : Res Bytes := reading (fun s => s.marshal P) p

end Bls

end Dusk.Via
