import Mathlib.Algebra.Module.Basic
import Mathlib.Algebra.Field.Basic
import Mathlib.Algebra.Field.ZMod
import Mathlib.Algebra.Module.LinearMap.Defs
import Verif.Lemmas.PrimeEll
import Verif.Go.Base64
import Verif.Model.Hash
/-!
# Model of bls/bls.go

`bn256.G1`, `bn256.G2`, `bn256.GT` are modules over the field `F` of integers modulo the (prime) group
order (`GT` is written additively: `GT.Add` multiplies in the field extension). A `big.Int` `k` acts by its
residue. The pairing is bilinear and `Pair(·, g₂)` is injective. These are the facts about the external
library dusk-network/bn256 that are assumed; they are collected in the structure `Bn256`, which is a
parameter of everything below and has a concrete instance (`Verif.Props.Bls`, `Toy.bn`).
-/

namespace Dusk.Bls

/-- `g1Str` (bls/bls.go:25). -/
@[irreducible] def g1Str : String :=
  "00000000000000000000000000000000000000000000000000000000000000018fb501e34aa387f9aa6fecb86184dc21ee5b88d120b5b59e185cac6c5e089665"

/-- `g2Str` (bls/bls.go:32). -/
@[irreducible] def g2Str : String :=
  "012ecca446ff6f3d4d03c76e9b5c752f28bc37b364cb05ac4a37eb32e1c32459708f25386f72c9462b81597d65ae2092c4b97792155dcdaad32b8a6dd41792534c2db10ef5233b0fe3962b9ee6a4bbc2b5bde01a54f3513d42df972e128f31bf12274e5747e8cafacc3716cc8699db79b22f0e4ff3c23e898f694420a3be3087a5"

/-- What dusk-crypto uses of github.com/dusk-network/bn256. -/
structure Bn256 (F G1 G2 GT : Type) [Field F] [AddCommGroup G1] [AddCommGroup G2] [AddCommGroup GT]
    [Module F G1] [Module F G2] [Module F GT] where
  /-- `bn256.Order` -/
  order : Nat
  order_prime : order.Prime
  cast_eq_zero : ∀ n : Nat, (n : F) = 0 ↔ order ∣ n
  /-- the points behind `ScalarBaseMult` -/
  g1 : G1
  g2 : G2
  /-- `bn256.Pair` -/
  pair : G1 →ₗ[F] G2 →ₗ[F] GT
  pair_g2_inj : ∀ a, pair a g2 = 0 → a = 0
  /-- `GT.Marshal` -/
  gtBytes : GT → Bytes
  gtBytes_inj : ∀ a b, gtBytes a = gtBytes b → a = b
  gtBytes_length : ∀ a, (gtBytes a).length = 384
  /-- `G1.Marshal`; `G1.Unmarshal` returns the point and the unread bytes -/
  g1Bytes : G1 → Bytes
  g1OfBytes : Bytes → Option (G1 × Bytes)
  g1OfBytes_g1Bytes : ∀ p rest, g1OfBytes (g1Bytes p ++ rest) = some (p, rest)
  g1Bytes_length : ∀ p, (g1Bytes p).length = 64
  g1OfBytes_short : ∀ b, b.length < 64 → g1OfBytes b = none
  /-- `G2.Marshal`, `G2.Unmarshal` -/
  g2Bytes : G2 → Bytes
  g2OfBytes : Bytes → Option (G2 × Bytes)
  g2OfBytes_g2Bytes : ∀ p rest, g2OfBytes (g2Bytes p ++ rest) = some (p, rest)
  /-- `G1.Compress`, `bn256.Decompress`; nothing is assumed about the compressed form of the point at infinity, whose
  coordinates do not satisfy the equation of the curve -/
  compress : G1 → Bytes
  decompress : Bytes → Option G1
  decompress_compress : ∀ p, p ≠ 0 → decompress (compress p) = some p
  compress_length : ∀ p, p ≠ 0 → (compress p).length = 33
  /-- the two hexadecimal constants encode the generators of the library -/
  g1Str_decodes : ∀ b, Hex.decode g1Str.toList = some b → g1OfBytes b = some (g1, [])
  g2Str_decodes : ∀ b, Hex.decode g2Str.toList = some b → g2OfBytes b = some (g2, [])

/-- A field of type `*bn256.G1` or `*bn256.G2`: nil, the object left behind by a failed `Unmarshal` (the
library has overwritten some coordinates; what happens when it is used is not modelled, see `Ptr.get`), or
a point. The fresh objects of `newG1` and `newG2` (bls/bls.go:46-53) have no constructor of their own: every call of the
package passes them at once to a method of the library that writes a point into them. -/
inductive Ptr (P : Type) where
  | nil
  | junk
  | pt (p : P)
  deriving DecidableEq

/-- Using a point. Using a nil pointer panics. Using the remains of a failed `Unmarshal` is reported as a
panic as well; the library's behaviour on it is not modelled. -/
def Ptr.get {P : Type} : Ptr P → Res P
  | .nil => .panic
  | .junk => .panic
  | .pt p => .ok p

@[simp] theorem Ptr.get_pt {P : Type} (p : P) : (Ptr.pt p).get = .ok p := rfl
@[simp] theorem Ptr.get_nil {P : Type} : (Ptr.nil : Ptr P).get = .panic := rfl

/-- Dereferencing a possibly nil pointer. -/
def deref {α : Type} : Option α → Res α
  | none => .panic
  | some a => .ok a

@[simp] theorem deref_some {α : Type} (a : α) : deref (some a) = .ok a := rfl
@[simp] theorem deref_none {α : Type} : deref (none : Option α) = .panic := rfl

/-- `SecretKey` (bls/bls.go:88-90); `big.Int` values are non-negative here. -/
structure SecretKey where
  x : Nat

/-- `PublicKey` (bls/bls.go:93-95). -/
structure PublicKey (G2 : Type) where
  gx : Ptr G2
  deriving DecidableEq

/-- `Apk` (bls/bls.go:98-100): an embedded pointer to a `PublicKey`. -/
structure Apk (G2 : Type) where
  pk : Option (PublicKey G2)
  deriving DecidableEq

/-- `Signature` (bls/bls.go:103-105). -/
structure Signature (G1 : Type) where
  e : Ptr G1
  deriving DecidableEq

/-- `UnsafeSignature` (bls/bls.go:108-110). -/
structure UnsafeSignature (G1 : Type) where
  e : Ptr G1
  deriving DecidableEq

variable {F G1 G2 GT : Type} [Field F] [AddCommGroup G1] [AddCommGroup G2] [AddCommGroup GT]
  [Module F G1] [Module F G2] [Module F GT]
variable (P : Bn256 F G1 G2 GT) (A : Hash.Algs)

/-- `apk.gx`: goes through the embedded pointer. -/
def Apk.gx {G2 : Type} (apk : Apk G2) : Res (Ptr G2) := (deref apk.pk).bind fun pk => .ok pk.gx

/-! ## Package initialisation -/

/-- `newG1Base` (bls/bls.go:56-69). -/
def newG1Base (s : String) : Res G1 :=
  match Hex.decode s.toList with
  | none => .panic
  | some b =>
    match P.g1OfBytes b with
    | none => .panic
    | some (g, _) => .ok g

/-- `newG2Base` (bls/bls.go:72-85). -/
def newG2Base (s : String) : Res G2 :=
  match Hex.decode s.toList with
  | none => .panic
  | some b =>
    match P.g2OfBytes b with
    | none => .panic
    | some (g, _) => .ok g

/-- `init` (bls/bls.go:40-43). -/
def init : Res (G1 × G2) :=
  (newG1Base P g1Str).bind fun a => (newG2Base P g2Str).bind fun b => .ok (a, b)

/-- The package variable `g2Base` after `init` (bls/bls.go:36). -/
def g2Base : Ptr G2 :=
  match init P with
  | .ok (_, b) => .pt b
  | _ => .nil

/-! ## Keys and hashing -/

/-- `GenKeyPair` (bls/bls.go:113-124): `bn256.RandomG2` returns a scalar and its multiple of the generator,
or the error of the reader. -/
def genKeyPair (coin : Res Nat) : Res (PublicKey G2 × SecretKey) :=
  coin.bind fun x => .ok (⟨.pt ((x : F) • P.g2)⟩, ⟨x⟩)

/-- `h0` (bls/bls.go:141-148): SHA3-256 of the message times the generator of `G1`. -/
def h0 (msg : Bytes) : Res G1 :=
  (Hash.performHash { alg := A.sha3_256 } msg).1.bind fun hashed => .ok ((beNat hashed : F) • P.g1)

/-- `PublicKey.Marshal` (bls/bls.go:568-570). -/
def PublicKey.marshal (pk : PublicKey G2) : Res Bytes := pk.gx.get.bind fun g => .ok (P.g2Bytes g)

/-- `h1` (bls/bls.go:152-162). -/
def h1 (pk : Option (PublicKey G2)) : Res Nat :=
  (deref pk).bind fun pk => (pk.marshal P).bind fun pkb =>
    (Hash.performHash { alg := A.sha3_256 } pkb).1.bind fun h => .ok (beNat h)

/-- `pkt` (bls/bls.go:164-172). -/
def pkt (pk : Option (PublicKey G2)) : Res G2 :=
  (h1 P A pk).bind fun t => (deref pk).bind fun pk => pk.gx.get.bind fun g => .ok ((t : F) • g)

/-- `NewApk` (bls/bls.go:175-184): the error of `pkt` is dropped. -/
def newApk (pk : Option (PublicKey G2)) : Res (Option (Apk G2)) :=
  match pk with
  | none => .ok none
  | some _ =>
    match pkt P A pk with
    | .panic => .panic
    | .err _ => .ok (some ⟨some ⟨.nil⟩⟩)
    | .ok g => .ok (some ⟨some ⟨.pt g⟩⟩)

/-- `PublicKey.Unmarshal` (bls/bls.go:573-580): the receiver's point is replaced by a fresh object before
parsing. Result and new receiver. -/
def PublicKey.unmarshal (_pk : PublicKey G2) (data : Bytes) : Res Unit × PublicKey G2 :=
  match P.g2OfBytes data with
  | none => (.err "bn256: malformed point", ⟨.junk⟩)
  | some (g, _) => (.ok (), ⟨.pt g⟩)

/-- `UnmarshalPk` (bls/bls.go:127-133). -/
def unmarshalPk (b : Bytes) : Res (PublicKey G2) :=
  let r := PublicKey.unmarshal P ⟨.nil⟩ b
  r.1.bind fun _ => .ok r.2

/-- `Apk.Unmarshal`, promoted from the embedded `PublicKey` (bls/bls.go:98-100, 573-580). -/
def Apk.unmarshal (apk : Apk G2) (b : Bytes) : Res Unit × Apk G2 :=
  match apk.pk with
  | none => (.panic, apk)
  | some pk => ((pk.unmarshal P b).1, ⟨some (pk.unmarshal P b).2⟩)

/-- `Apk.Marshal`, promoted from the embedded `PublicKey` (bls/bls.go:98-100, 568-570). -/
def Apk.marshal (apk : Apk G2) : Res Bytes := (deref apk.pk).bind fun pk => pk.marshal P

/-- `UnmarshalApk` (bls/bls.go:201-210). -/
def unmarshalApk (b : Bytes) : Res (Apk G2) :=
  let r := Apk.unmarshal P ⟨some ⟨.nil⟩⟩ b
  r.1.bind fun _ => .ok r.2

/-- `Apk.Copy` (bls/bls.go:188-198): the error of `Unmarshal` is dropped. -/
def Apk.copy (apk : Apk G2) : Res (Apk G2) :=
  apk.gx.bind fun gx => gx.get.bind fun g =>
    match P.g2OfBytes (P.g2Bytes g) with
    | none => .ok ⟨some ⟨.junk⟩⟩
    | some (g', _) => .ok ⟨some ⟨.pt g'⟩⟩

/-- `Apk.Aggregate` (bls/bls.go:232-240) on a possibly nil receiver: result and new receiver. -/
def Apk.aggregate (apk : Option (Apk G2)) (pk : Option (PublicKey G2)) : Res Unit × Option (Apk G2) :=
  match pkt P A pk with
  | .panic => (.panic, apk)
  | .err e => (.err e, apk)
  | .ok gxt =>
    match (deref apk).bind fun a => a.gx.bind fun p => p.get with
    | .panic => (.panic, apk)
    | .err e => (.err e, apk)
    | .ok g => (.ok (), some ⟨some ⟨.pt (g + gxt)⟩⟩)

/-- The loop of `AggregateApk` after the first key (bls/bls.go:222-224). -/
def aggregateLoop : Option (Apk G2) → List (Option (PublicKey G2)) → Res (Option (Apk G2))
  | apk, [] => .ok apk
  | apk, pk :: pks =>
    match Apk.aggregate P A apk pk with
    | (.ok _, apk') => aggregateLoop apk' pks
    | (.err e, _) => .err e
    | (.panic, _) => .panic

/-- `AggregateApk` (bls/bls.go:214-228). -/
def aggregateApk (pks : List (Option (PublicKey G2))) : Res (Option (Apk G2)) :=
  match pks with
  | [] => .ok none
  | pk :: pks => (newApk P A pk).bind fun apk => aggregateLoop P A apk pks

/-- `Apk.AggregateBytes` (bls/bls.go:243-249). -/
def Apk.aggregateBytes (apk : Option (Apk G2)) (b : Bytes) : Res Unit × Option (Apk G2) :=
  match PublicKey.unmarshal P ⟨.nil⟩ b with
  | (.ok _, pk) => Apk.aggregate P A apk (some pk)
  | (.err e, _) => (.err e, apk)
  | (.panic, _) => (.panic, apk)

/-! ## Signing and signatures -/

/-- `UnsafeSign` (bls/bls.go:389-397). -/
def unsafeSign (key : SecretKey) (msg : Bytes) : Res (UnsafeSignature G1) :=
  (h0 P A msg).bind fun hash => .ok ⟨.pt ((key.x : F) • hash)⟩

/-- `apkSigWrap` (bls/bls.go:350-362). -/
def apkSigWrap (pk : Option (PublicKey G2)) (s : UnsafeSignature G1) : Res (Signature G1) :=
  (h1 P A pk).bind fun t => s.e.get.bind fun e => .ok ⟨.pt ((t : F) • e)⟩

/-- `Sign` (bls/bls.go:252-259). -/
def sign (sk : SecretKey) (pk : Option (PublicKey G2)) (msg : Bytes) : Res (Signature G1) :=
  (unsafeSign P A sk msg).bind fun sig => apkSigWrap P A pk sig

/-- `Signature.Aggregate` (bls/bls.go:303-306): the new receiver (also the returned pointer). -/
def Signature.aggregate (sigma other : Signature G1) : Res (Signature G1) :=
  sigma.e.get.bind fun a => other.e.get.bind fun b => .ok ⟨.pt (a + b)⟩

/-- `Signature.Add` (bls/bls.go:282-290). -/
def Signature.add (sigma : Signature G1) (pk : Option (PublicKey G2)) (sig : UnsafeSignature G1) :
    Res Unit × Signature G1 :=
  match apkSigWrap P A pk sig with
  | .err e => (.err e, sigma)
  | .panic => (.panic, sigma)
  | .ok other =>
    match sigma.aggregate other with
    | .ok s => (.ok (), s)
    | .err e => (.err e, sigma)
    | .panic => (.panic, sigma)

/-- `Signature.Compress` (bls/bls.go:309-311). -/
def Signature.compress (sigma : Signature G1) : Res Bytes := sigma.e.get.bind fun g => .ok (P.compress g)

/-- `Signature.Decompress` (bls/bls.go:314-321). -/
def Signature.decompress (sigma : Signature G1) (x : Bytes) : Res Unit × Signature G1 :=
  match P.decompress x with
  | none => (.err "decompress", sigma)
  | some e => (.ok (), ⟨.pt e⟩)

/-- `Signature.Marshal` (bls/bls.go:324-326). -/
def Signature.marshal (sigma : Signature G1) : Res Bytes := sigma.e.get.bind fun g => .ok (P.g1Bytes g)

/-- `Signature.Unmarshal` (bls/bls.go:329-347). -/
def Signature.unmarshal (sigma : Signature G1) (msg : Bytes) : Res Unit × Signature G1 :=
  if msg.length = 33 then
    match P.decompress msg with
    | none => (.err "decompress", sigma)
    | some e => (.ok (), ⟨.pt e⟩)
  else
    match P.g1OfBytes msg with
    | none => (.err "bn256: malformed point", sigma)
    | some (e, _) => (.ok (), ⟨.pt e⟩)

/-- `UnmarshalSignature` (bls/bls.go:262-268). -/
def unmarshalSignature (b : Bytes) : Res (Signature G1) :=
  let r := Signature.unmarshal P ⟨.nil⟩ b
  r.1.bind fun _ => .ok r.2

/-- `Signature.Copy` (bls/bls.go:272-279): the error of `Unmarshal` is dropped. -/
def Signature.copy (sigma : Signature G1) : Res (Signature G1) :=
  sigma.e.get.bind fun g =>
    match P.g1OfBytes (P.g1Bytes g) with
    | none => .ok ⟨.junk⟩
    | some (g', _) => .ok ⟨.pt g'⟩

/-- `Signature.AggregateBytes` (bls/bls.go:293-300). -/
def Signature.aggregateBytes (sigma : Signature G1) (other : Bytes) : Res Unit × Signature G1 :=
  match Signature.unmarshal P ⟨.nil⟩ other with
  | (.err e, _) => (.err e, sigma)
  | (.panic, _) => (.panic, sigma)
  | (.ok _, sig) =>
    match sigma.aggregate sig with
    | .ok s => (.ok (), s)
    | .err e => (.err e, sigma)
    | .panic => (.panic, sigma)

/-- `UnsafeSignature.Compress` (bls/bls.go:400-402). -/
def UnsafeSignature.compress (s : UnsafeSignature G1) : Res Bytes := s.e.get.bind fun g => .ok (P.compress g)

/-- `UnsafeSignature.Decompress` (bls/bls.go:405-412). -/
def UnsafeSignature.decompress (s : UnsafeSignature G1) (x : Bytes) : Res Unit × UnsafeSignature G1 :=
  match P.decompress x with
  | none => (.err "decompress", s)
  | some e => (.ok (), ⟨.pt e⟩)

/-- `UnsafeSignature.Marshal` (bls/bls.go:415-417). -/
def UnsafeSignature.marshal (s : UnsafeSignature G1) : Res Bytes := s.e.get.bind fun g => .ok (P.g1Bytes g)

/-- `UnsafeSignature.Unmarshal` (bls/bls.go:420-427): no compressed form. -/
def UnsafeSignature.unmarshal (s : UnsafeSignature G1) (msg : Bytes) : Res Unit × UnsafeSignature G1 :=
  match P.g1OfBytes msg with
  | none => (.err "bn256: malformed point", s)
  | some (e, _) => (.ok (), ⟨.pt e⟩)

/-- `UnsafeAggregate` (bls/bls.go:430-434). -/
def unsafeAggregate (one other : Option (UnsafeSignature G1)) : Res (UnsafeSignature G1) :=
  (deref one).bind fun a => a.e.get.bind fun a =>
    (deref other).bind fun b => b.e.get.bind fun b => .ok ⟨.pt (a + b)⟩

/-- The loop of `UnsafeBatch` after the first signature (bls/bls.go:443-445). -/
def unsafeBatchLoop : Option (UnsafeSignature G1) → List (Option (UnsafeSignature G1)) →
    Res (Option (UnsafeSignature G1))
  | sum, [] => .ok sum
  | sum, sig :: sigs => (unsafeAggregate sum sig).bind fun s => unsafeBatchLoop (some s) sigs

/-- `UnsafeBatch` (bls/bls.go:438-449). -/
def unsafeBatch (sigs : List (Option (UnsafeSignature G1))) : Res (Option (UnsafeSignature G1)) :=
  match sigs with
  | [] => .ok none
  | sig :: sigs => unsafeBatchLoop sig sigs

/-! ## Verification -/

/-- `distinct` (bls/bls.go:529-539): `seen` is the set of digests already met. -/
def distinctLoop (seen : List Bytes) : List Bytes → Bool
  | [] => true
  | msg :: msgs =>
    let h := A.sha3_256 msg
    if h ∈ seen then false else distinctLoop (h :: seen) msgs

/-- `distinct` (bls/bls.go:529-539). -/
def distinct (msgs : List Bytes) : Bool := distinctLoop A [] msgs

/-- `verify` (bls/bls.go:468-488). The error text shows the first ten bytes of both pairings. -/
def verify (pk : Ptr G2) (msg : Bytes) (sigma : Ptr G1) : Res Unit :=
  (h0 P A msg).bind fun h0m => pk.get.bind fun pk => sigma.get.bind fun sigma => (g2Base P).get.bind fun b =>
    let pairH0mPK := P.gtBytes (P.pair h0m pk)
    let pairSigG2 := P.gtBytes (P.pair sigma b)
    if pairH0mPK ≠ pairSigG2 then
      if pairSigG2.length < 10 ∨ pairH0mPK.length < 10 then .panic else .err "bls apk: Invalid Signature."
    else .ok ()

/-- `Verify` (bls/bls.go:365-367). -/
def Verify (apk : Option (Apk G2)) (msg : Bytes) (sigma : Option (Signature G1)) : Res Unit :=
  (deref apk).bind fun apk => apk.gx.bind fun gx => (deref sigma).bind fun s => verify P A gx msg s.e

/-- `VerifyUnsafe` (bls/bls.go:464-466). -/
def VerifyUnsafe (pk : Option (PublicKey G2)) (msg : Bytes) (s : Option (UnsafeSignature G1)) : Res Unit :=
  (deref pk).bind fun pk => (deref s).bind fun s => verify P A pk.gx msg s.e

/-- The loop of `verifyBatch` (bls/bls.go:497-508): message `i` is paired with key `i`. `acc` is nil before
the first message. -/
def batchLoop (pkeys : List (Ptr G2)) : Nat → Option GT → List Bytes → Res (Option GT)
  | _, acc, [] => .ok acc
  | i, acc, msg :: msgs =>
    (h0 P A msg).bind fun h0m => (idx pkeys i).bind fun pk => pk.get.bind fun pk =>
      if i = 0 then batchLoop pkeys (i + 1) (some (P.pair h0m pk)) msgs
      else (deref acc).bind fun a => batchLoop pkeys (i + 1) (some (a + P.pair h0m pk)) msgs

/-- `verifyBatch` (bls/bls.go:490-517). -/
def verifyBatch (pkeys : List (Ptr G2)) (msgs : List Bytes) (sig : Ptr G1) (allowDistinct : Bool) : Res Unit :=
  if !allowDistinct && !distinct A msgs then .err "bls: Messages are not distinct"
  else
    (batchLoop P A pkeys 0 none msgs).bind fun acc =>
      sig.get.bind fun sig => (g2Base P).get.bind fun b =>
        (deref acc).bind fun acc =>
          if P.gtBytes (P.pair sig b) ≠ P.gtBytes acc then .err "bls: Invalid Signature" else .ok ()

/-- `VerifyBatch` (bls/bls.go:371-386). -/
def VerifyBatch (apks : List (Option (Apk G2))) (msgs : List Bytes) (sigma : Option (Signature G1)) :
    Res Unit :=
  if msgs.length ≠ apks.length then .err "BLS Verify APK Batch"
  else
    (mapRes (fun a : Option (Apk G2) => (deref a).bind Apk.gx) apks).bind fun pks =>
      (deref sigma).bind fun s => verifyBatch P A pks msgs s.e false

/-- `VerifyUnsafeBatch` (bls/bls.go:453-459). -/
def VerifyUnsafeBatch (pkeys : List (Option (PublicKey G2))) (msgs : List Bytes)
    (s : Option (UnsafeSignature G1)) : Res Unit :=
  (mapRes (fun a : Option (PublicKey G2) => (deref a).bind fun a => .ok a.gx) pkeys).bind fun g2s =>
    (deref s).bind fun s => verifyBatch P A g2s msgs s.e false

/-- `VerifyCompressed` (bls/bls.go:520-526). -/
def VerifyCompressed (pks : List (Ptr G2)) (msgs : List Bytes) (compressedSig : Bytes) (allowDistinct : Bool) :
    Res Unit :=
  match P.decompress compressedSig with
  | none => .err "decompress"
  | some sig => verifyBatch P A pks msgs (.pt sig) allowDistinct

/-! ## Public keys -/

/-- `PublicKey.Aggregate` (bls/bls.go:542-546). -/
def PublicKey.aggregate (pk pp : PublicKey G2) : Res (PublicKey G2) :=
  pk.gx.get.bind fun a => pp.gx.get.bind fun b => .ok ⟨.pt (a + b)⟩

/-- `encodeToText` (bls/bls.go:582-586). -/
def encodeToText (data : Bytes) : Bytes := Base64.encode data

/-- `decodeText` (bls/bls.go:588-592). -/
def decodeText (data : Bytes) : Res Bytes := Base64.decode data

/-- `PublicKey.MarshalText` (bls/bls.go:549-551). -/
def PublicKey.marshalText (pk : PublicKey G2) : Res Bytes :=
  pk.gx.get.bind fun g => .ok (encodeToText (P.g2Bytes g))

/-- `PublicKey.UnmarshalText` (bls/bls.go:554-565). -/
def PublicKey.unmarshalText (pk : PublicKey G2) (data : Bytes) : Res Unit × PublicKey G2 :=
  match decodeText data with
  | .err e => (.err e, pk)
  | .panic => (.panic, pk)
  | .ok bs =>
    match P.g2OfBytes bs with
    | none => (.err "bn256: malformed point", ⟨.junk⟩)
    | some (g, _) => (.ok (), ⟨.pt g⟩)

end Dusk.Bls
