import Verif.Model.Bls
/-!
# The calls made by the functions of package bls

The functions for signing, aggregating and verifying are written again such that they also return the sequence of the calls made to
the libraries, without the values of their arguments except for the lengths of what is hashed. A call that panics because of a nil
argument is not in the sequence. `Props/TraceBls.lean` shows that leaving the calls out gives back the functions of `Model/Bls.lean`.
-/

namespace Dusk.Bls

/-- A call to a library. -/
inductive Call where
  /-- SHA3-256 of so many bytes -/
  | sha (n : Nat)
  /-- `G1.ScalarBaseMult` -/
  | g1Base
  /-- `G1.ScalarMult` -/
  | g1Mult
  /-- `G2.ScalarMult` -/
  | g2Mult
  /-- `G1.Add` -/
  | g1Add
  /-- `G2.Add` -/
  | g2Add
  /-- `GT.Add` -/
  | gtAdd
  /-- `bn256.Pair` -/
  | pair
  /-- `G2.Marshal` -/
  | g2Bytes
  /-- `GT.Marshal` -/
  | gtBytes
  /-- `subtle.ConstantTimeCompare` -/
  | compare
  deriving DecidableEq

/-- The outcome of a function and the calls made until it returned. -/
structure Tr (α : Type) where
  res : Res α
  calls : List Call

namespace Tr

/-- No calls. -/
def lift {α : Type} (r : Res α) : Tr α := ⟨r, []⟩

/-- One call. -/
def call {α : Type} (c : Call) (a : α) : Tr α := ⟨.ok a, [c]⟩

/-- Sequencing: an error or a panic ends the sequence. -/
def bind {α β : Type} (m : Tr α) (f : α → Tr β) : Tr β :=
  match m.res with
  | .ok a => ⟨(f a).res, m.calls ++ (f a).calls⟩
  | .err e => ⟨.err e, m.calls⟩
  | .panic => ⟨.panic, m.calls⟩

end Tr

open Tr

variable {F G1 G2 GT : Type} [Field F] [AddCommGroup G1] [AddCommGroup G2] [AddCommGroup GT]
  [Module F G1] [Module F G2] [Module F GT]
variable (P : Bn256 F G1 G2 GT) (A : Hash.Algs)

/-- `PerformHash(hashFn(), b)` (hash/hash.go:43-49, bls/bls.go:136). -/
def shaT (b : Bytes) : Tr Bytes := ⟨(Hash.performHash { alg := A.sha3_256 } b).1, [.sha b.length]⟩

/-- `h0` (bls/bls.go:141-148). -/
def h0T (msg : Bytes) : Tr G1 := (shaT A msg).bind fun hashed => call .g1Base ((beNat hashed : F) • P.g1)

/-- `PublicKey.Marshal` (bls/bls.go:568-570). -/
def PublicKey.marshalT (pk : PublicKey G2) : Tr Bytes := (lift pk.gx.get).bind fun g => call .g2Bytes (P.g2Bytes g)

/-- `h1` (bls/bls.go:152-162). -/
def h1T (pk : Option (PublicKey G2)) : Tr Nat :=
  (lift (deref pk)).bind fun pk => (pk.marshalT P).bind fun pkb => (shaT A pkb).bind fun h => lift (.ok (beNat h))

/-- `pkt` (bls/bls.go:164-172). -/
def pktT (pk : Option (PublicKey G2)) : Tr G2 :=
  (h1T P A pk).bind fun t => (lift (deref pk)).bind fun pk => (lift pk.gx.get).bind fun g => call .g2Mult ((t : F) • g)

/-- `NewApk` (bls/bls.go:175-184). -/
def newApkT (pk : Option (PublicKey G2)) : Tr (Option (Apk G2)) :=
  match pk with
  | none => lift (.ok none)
  | some _ =>
    let t := pktT P A pk
    match t.res with
    | .panic => ⟨.panic, t.calls⟩
    | .err _ => ⟨.ok (some ⟨some ⟨.nil⟩⟩), t.calls⟩
    | .ok g => ⟨.ok (some ⟨some ⟨.pt g⟩⟩), t.calls⟩

/-- `Apk.Aggregate` (bls/bls.go:232-240): the new receiver if it succeeds. -/
def Apk.aggregateT (apk : Option (Apk G2)) (pk : Option (PublicKey G2)) : Tr (Option (Apk G2)) :=
  (pktT P A pk).bind fun gxt => (lift ((deref apk).bind fun a => a.gx.bind fun p => p.get)).bind fun g =>
    call .g2Add (some ⟨some ⟨.pt (g + gxt)⟩⟩)

/-- The loop of `AggregateApk` after the first key (bls/bls.go:222-224). -/
def aggregateLoopT : Option (Apk G2) → List (Option (PublicKey G2)) → Tr (Option (Apk G2))
  | apk, [] => lift (.ok apk)
  | apk, pk :: pks => (Apk.aggregateT P A apk pk).bind fun apk' => aggregateLoopT apk' pks

/-- `AggregateApk` (bls/bls.go:214-228). -/
def aggregateApkT (pks : List (Option (PublicKey G2))) : Tr (Option (Apk G2)) :=
  match pks with
  | [] => lift (.ok none)
  | pk :: pks => (newApkT P A pk).bind fun apk => aggregateLoopT P A apk pks

/-- `UnsafeSign` (bls/bls.go:389-397). -/
def unsafeSignT (key : SecretKey) (msg : Bytes) : Tr (UnsafeSignature G1) :=
  (h0T P A msg).bind fun hash => call .g1Mult ⟨.pt ((key.x : F) • hash)⟩

/-- `apkSigWrap` (bls/bls.go:350-362). -/
def apkSigWrapT (pk : Option (PublicKey G2)) (s : UnsafeSignature G1) : Tr (Signature G1) :=
  (h1T P A pk).bind fun t => (lift s.e.get).bind fun e => call .g1Mult ⟨.pt ((t : F) • e)⟩

/-- `Sign` (bls/bls.go:252-259). -/
def signT (sk : SecretKey) (pk : Option (PublicKey G2)) (msg : Bytes) : Tr (Signature G1) :=
  (unsafeSignT P A sk msg).bind fun sig => apkSigWrapT P A pk sig

/-- `UnsafeAggregate` (bls/bls.go:430-434). -/
def unsafeAggregateT (one other : Option (UnsafeSignature G1)) : Tr (UnsafeSignature G1) :=
  (lift (deref one)).bind fun a => (lift a.e.get).bind fun a =>
    (lift (deref other)).bind fun b => (lift b.e.get).bind fun b => call .g1Add ⟨.pt (a + b)⟩

/-- The loop of `UnsafeBatch` after the first signature (bls/bls.go:443-445). -/
def unsafeBatchLoopT : Option (UnsafeSignature G1) → List (Option (UnsafeSignature G1)) → Tr (Option (UnsafeSignature G1))
  | sum, [] => lift (.ok sum)
  | sum, sig :: sigs => (unsafeAggregateT sum sig).bind fun s => unsafeBatchLoopT (some s) sigs

/-- `UnsafeBatch` (bls/bls.go:438-449). -/
def unsafeBatchT (sigs : List (Option (UnsafeSignature G1))) : Tr (Option (UnsafeSignature G1)) :=
  match sigs with
  | [] => lift (.ok none)
  | sig :: sigs => unsafeBatchLoopT sig sigs

/-- `distinct` (bls/bls.go:529-539): `seen` is the set of digests already met. -/
def distinctLoopT (seen : List Bytes) : List Bytes → Tr Bool
  | [] => lift (.ok true)
  | msg :: msgs => (call (.sha msg.length) (A.sha3_256 msg)).bind fun h =>
    if h ∈ seen then lift (.ok false) else distinctLoopT (h :: seen) msgs

/-- `verify` (bls/bls.go:468-488). -/
def verifyT (pk : Ptr G2) (msg : Bytes) (sigma : Ptr G1) : Tr Unit :=
  (h0T P A msg).bind fun h0m => (lift pk.get).bind fun pk =>
  (call .pair (P.pair h0m pk)).bind fun g => (call .gtBytes (P.gtBytes g)).bind fun pairH0mPK =>
  (lift sigma.get).bind fun sigma => (lift (g2Base P).get).bind fun b =>
  (call .pair (P.pair sigma b)).bind fun g => (call .gtBytes (P.gtBytes g)).bind fun pairSigG2 =>
  (call .compare (decide (pairH0mPK = pairSigG2))).bind fun same => lift
    (if same = false then
      if pairSigG2.length < 10 ∨ pairH0mPK.length < 10 then .panic else .err "bls apk: Invalid Signature."
    else .ok ())

/-- `Verify` (bls/bls.go:365-367). -/
def VerifyT (apk : Option (Apk G2)) (msg : Bytes) (sigma : Option (Signature G1)) : Tr Unit :=
  (lift (deref apk)).bind fun apk => (lift apk.gx).bind fun gx => (lift (deref sigma)).bind fun s => verifyT P A gx msg s.e

/-- The loop of `verifyBatch` (bls/bls.go:497-508). -/
def batchLoopT (pkeys : List (Ptr G2)) : Nat → Option GT → List Bytes → Tr (Option GT)
  | _, acc, [] => lift (.ok acc)
  | i, acc, msg :: msgs =>
    (h0T P A msg).bind fun h0m => (lift (idx pkeys i)).bind fun pk => (lift pk.get).bind fun pk =>
    (call .pair (P.pair h0m pk)).bind fun g =>
      if i = 0 then batchLoopT pkeys (i + 1) (some g) msgs
      else (lift (deref acc)).bind fun a => (call .gtAdd (a + g)).bind fun s => batchLoopT pkeys (i + 1) (some s) msgs

/-- `verifyBatch` (bls/bls.go:490-517). -/
def verifyBatchT (pkeys : List (Ptr G2)) (msgs : List Bytes) (sig : Ptr G1) (allowDistinct : Bool) : Tr Unit :=
  (if allowDistinct then lift (.ok true) else distinctLoopT A [] msgs).bind fun d =>
  if d = false then lift (.err "bls: Messages are not distinct")
  else
    (batchLoopT P A pkeys 0 none msgs).bind fun acc =>
    (lift sig.get).bind fun sig => (lift (g2Base P).get).bind fun b => (call .pair (P.pair sig b)).bind fun g =>
    (call .gtBytes (P.gtBytes g)).bind fun g => (lift (deref acc)).bind fun acc =>
    (call .gtBytes (P.gtBytes acc)).bind fun acc => (call .compare (decide (g = acc))).bind fun same =>
    lift (if same = false then .err "bls: Invalid Signature" else .ok ())

/-- `VerifyBatch` (bls/bls.go:371-386). -/
def VerifyBatchT (apks : List (Option (Apk G2))) (msgs : List Bytes) (sigma : Option (Signature G1)) : Tr Unit :=
  if msgs.length ≠ apks.length then lift (.err "BLS Verify APK Batch")
  else
    (lift (mapRes (fun a : Option (Apk G2) => (deref a).bind Apk.gx) apks)).bind fun pks =>
      (lift (deref sigma)).bind fun s => verifyBatchT P A pks msgs s.e false

/-- `VerifyUnsafeBatch` (bls/bls.go:453-459). -/
def VerifyUnsafeBatchT (pkeys : List (Option (PublicKey G2))) (msgs : List Bytes) (s : Option (UnsafeSignature G1)) : Tr Unit :=
  (lift (mapRes (fun a : Option (PublicKey G2) => (deref a).bind fun a => .ok a.gx) pkeys)).bind fun g2s =>
    (lift (deref s)).bind fun s => verifyBatchT P A g2s msgs s.e false

end Dusk.Bls
