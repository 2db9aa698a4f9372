import Verif.Model.Mlsag
import Verif.Model.Blsag
/-!
# The steps computed by the functions of packages mlsag and blsag

The functions for signing and verifying are written again such that they also return the sequence of the calls made to the library
(without the values of their arguments, except for lengths), of the random choices, and of the tests in loops. This is what somebody may
observe who measures time. `Props/Trace.lean` shows that leaving the steps out gives back the functions of `Model/Mlsag.lean` and
`Model/Blsag.lean`. Copies of scalars and points, and comparisons of loop counters, are no steps.
-/

namespace Dusk

/-- A step. -/
inductive Step where
  /-- `Scalar.Rand` -/
  | rand
  /-- `Intn` -/
  | intn (n : Nat)
  /-- the test of the flag of a key vector -/
  | look
  /-- the test of the length of a key vector -/
  | len
  /-- `Point.ScalarMultBase` -/
  | base
  /-- `Point.ScalarMult` -/
  | mult
  /-- `Point.Add` -/
  | add
  /-- `Point.Bytes` -/
  | bytes
  /-- `Point.Derive` -/
  | derive
  /-- `Scalar.Derive` of a buffer of this length -/
  | hash (n : Nat)
  /-- `Scalar.Mul` -/
  | sMul
  /-- `Scalar.Neg` -/
  | sNeg
  /-- `Scalar.Add` -/
  | sAdd
  /-- `Scalar.Sub` -/
  | sSub
  /-- `Scalar.MulAdd` -/
  | sMulAdd
  /-- `Scalar.Square` -/
  | sSquare
  /-- `Scalar.Inverse` -/
  | sInv
  /-- `Scalar.Bytes` -/
  | sBytes
  /-- `Scalar.BigInt` -/
  | bigInt
  /-- `Scalar.SetBigInt` -/
  | setBigInt
  /-- a branch that depends on a bit -/
  | branch (b : Bool)
  /-- `Scalar.IsNonZeroI` -/
  | isNonZero
  /-- `Scalar.Equals`, or `!=` between scalars -/
  | equals
  deriving DecidableEq

/-- The outcome of a call and the steps made until it returned. -/
structure Traced (α : Type) where
  res : Res α
  steps : List Step

namespace Traced

/-- No steps. -/
def lift {α : Type} (r : Res α) : Traced α := ⟨r, []⟩

/-- Some steps, with a result. -/
def did {α : Type} (l : List Step) (a : α) : Traced α := ⟨.ok a, l⟩

/-- Sequencing: an error or a panic ends the sequence. -/
def bind {α β : Type} (m : Traced α) (f : α → Traced β) : Traced β :=
  match m.res with
  | .ok a => ⟨(f a).res, m.steps ++ (f a).steps⟩
  | .err e => ⟨.err e, m.steps⟩
  | .panic => ⟨.panic, m.steps⟩

/-- A loop over a list, collecting results. -/
def map {α β : Type} (f : α → Traced β) : List α → Traced (List β)
  | [] => lift (.ok [])
  | a :: as => (f a).bind fun b => (map f as).bind fun bs => lift (.ok (b :: bs))

end Traced

open Traced

namespace Mlsag

variable {F G : Type} [Field F] [AddCommGroup G] [Module F G]

/-- `privKeyToPubKey` (mlsag/proof.go:64-68). -/
def privKeyToPubKeyT (R : Ristretto F G) (x : F) : Traced G := did [.base] (x • R.base)

/-- `Proof.AddSecret` (mlsag/proof.go:53-62). -/
def Proof.addSecretT (R : Ristretto F G) (p : Proof F G) (x : F) : Traced (Proof F G) :=
  (privKeyToPubKeyT R x).bind fun k => lift (.ok { p with signer := p.signer.addPubKey k, privKeys := p.privKeys ++ [x] })

/-- The first loop of `shuffleSet` (mlsag/proof.go:71-77), from `i` down to 1. -/
def shuffleLoopT {α : Type} (shuffle : Nat → Nat) : Nat → List α → Traced (List α)
  | 0, l => lift (.ok l)
  | i + 1, l => (did [.intn (i + 2)] (shuffle (i + 1) % (i + 2))).bind fun j => shuffleLoopT shuffle i (swap l (i + 1) j)

/-- The second loop of `shuffleSet` (mlsag/proof.go:81-87), at index `i`: the first member that is not a decoy. -/
def findT : Nat → List (PubKeys G) → Traced Nat
  | _, [] => lift (.err "could not find the index of the non-decoy vector of pubkeys")
  | i, k :: ks => (did [.look] ()).bind fun _ => if !k.decoy then lift (.ok i) else findT (i + 1) ks

/-- `CalculateKeyImage` (mlsag/mlsag.go:411-419). -/
def calculateKeyImageT (R : Ristretto F G) (x : F) (pub : G) : Traced G :=
  (did [.bytes] (R.pBytes pub)).bind fun b => (did [.derive] (R.pDerive b)).bind fun h => did [.mult] (x • h)

/-- `Proof.calculateKeyImages` (mlsag/mlsag.go:391-409). -/
def Proof.calculateKeyImagesT (R : Ristretto F G) (p : Proof F G) (skipLast : Bool) : Traced (List G) :=
  (map (fun i => (lift (idx p.privKeys i)).bind fun x => (lift (idx p.signer.keys i)).bind fun k => calculateKeyImageT R x k)
    (List.range p.privKeys.length)).bind fun images =>
  if !skipLast then lift (.ok images)
  else if images.length = 0 then lift .panic
  else lift (.ok (images.take (images.length - 1)))

/-- `generateNonces` (mlsag/mlsag.go:308-316). -/
def generateNoncesT (nonce : Nat → F) (n : Nat) : Traced (List F) := map (fun i => did [.rand] (nonce i)) (List.range n)

/-- `generateResponses` (mlsag/mlsag.go:322-338). -/
def generateResponsesT (resp : Nat → Nat → F) (m n skip : Nat) : Traced (List (List F)) :=
  map (fun i => if i = skip then lift (.ok []) else map (fun j => did [.rand] (resp i j)) (List.range n)) (List.range m)

/-- `generateChallenge` (mlsag/mlsag.go:340-389). -/
def generateChallengeT (R : Ristretto F G) (msg : Bytes) (responses : List F) (keyImages : List G) (pubKeys : PubKeys G)
    (prev : F) : Traced F :=
  (map (fun i => (lift (idx responses i)).bind fun r =>
    (did [.base] (r • R.base)).bind fun P =>
    (lift (idx pubKeys.keys i)).bind fun k =>
    (did [.mult] (prev • k)).bind fun cK =>
    (did [.add] (P + cK)).bind fun P =>
    did [.bytes] (R.pBytes P)) (List.range pubKeys.keys.length)).bind fun b1 =>
  (map (fun i => (lift (idx responses i)).bind fun r =>
    (lift (idx pubKeys.keys i)).bind fun k =>
    (did [.bytes] (R.pBytes k)).bind fun b =>
    (did [.derive] (R.pDerive b)).bind fun hK =>
    (did [.mult] (r • hK)).bind fun P =>
    (lift (idx keyImages i)).bind fun im =>
    (did [.mult] (prev • im)).bind fun cK =>
    (did [.add] (P + cK)).bind fun P =>
    did [.bytes] (R.pBytes P)) (List.range keyImages.length)).bind fun b2 =>
  let buf := msg ++ b1.flatten ++ b2.flatten
  did [.hash buf.length] (R.sDerive buf)

/-- The loops around the ring. -/
def ringLoopT {σ : Type} (body : Nat → σ → Traced σ) (n stop : Nat) : Nat → Nat → σ → Traced σ
  | 0, _, _ => lift .panic
  | fuel + 1, k, s => if k = stop then lift (.ok s) else (body (k % n) s).bind (ringLoopT body n stop fuel ((k + 1) % n))

/-- The first hash of the signer (lines 172-205 of `prove` (mlsag/mlsag.go:142-259)). -/
def firstChallengeT (R : Ristretto F G) (msg : Bytes) (nonces : List F) (keyImages : List G) (keys : List G) : Traced F :=
  (map (fun i => (lift (idx nonces i)).bind fun a =>
    (did [.base] (a • R.base)).bind fun P => did [.bytes] (R.pBytes P)) (List.range nonces.length)).bind fun b1 =>
  (map (fun i => (lift (idx nonces i)).bind fun a =>
    (lift (idx keys i)).bind fun k =>
    (did [.bytes] (R.pBytes k)).bind fun b =>
    (did [.derive] (R.pDerive b)).bind fun hK =>
    (did [.mult] (a • hK)).bind fun P => did [.bytes] (R.pBytes P)) (List.range keyImages.length)).bind fun b2 =>
  let buf := msg ++ b1.flatten ++ b2.flatten
  did [.hash buf.length] (R.sDerive buf)

/-- The body of the loop over the decoys (lines 214-231 of `prove` (mlsag/mlsag.go:142-259)). -/
def proveBodyT (R : Ristretto F G) (msg : Bytes) (responses : List (List F)) (keyImages : List G) (matrix : List (PubKeys G))
    (n i : Nat) (s : List F × F) : Traced (List F × F) :=
  let prev := prevIndex n i
  (lift (idx responses prev)).bind fun resp =>
  (lift (idx matrix prev)).bind fun keys =>
  (generateChallengeT R msg resp keyImages keys s.2).bind fun c =>
  lift (.ok (s.1.set i c, c))

/-- `Proof.prove` (mlsag/mlsag.go:142-259), after shuffling and the check of the dimensions. -/
def Proof.signT (R : Ristretto F G) (p : Proof F G) (skipLast : Bool) (coins : Coins F) : Traced (Signature F G × List G) :=
  (p.calculateKeyImagesT R skipLast).bind fun keyImages =>
  (generateNoncesT coins.nonce p.privKeys.length).bind fun nonces =>
  let n := p.matrix.length
  (generateResponsesT coins.resp n p.privKeys.length p.index).bind fun responses =>
  (lift (idx p.matrix p.index)).bind fun signersPubKeys =>
  (firstChallengeT R p.msg nonces keyImages signersPubKeys.keys).bind fun c1 =>
  let challenges := (List.replicate n (0 : F)).set ((p.index + 1) % n) c1
  (ringLoopT (proveBodyT R p.msg responses keyImages p.matrix n) n ((p.index + 1) % n) (n + 1) (p.index + 2)
    (challenges, c1)).bind fun s =>
  (lift (idx s.1 p.index)).bind fun challenge =>
  (map (fun i => (lift (idx p.privKeys i)).bind fun x => (lift (idx nonces i)).bind fun a =>
    (did [.sMul] (challenge * x)).bind fun r => (did [.sNeg] (-r)).bind fun r => did [.sAdd] (r + a))
    (List.range p.privKeys.length)).bind fun real =>
  (lift (idx s.1 0)).bind fun c0 =>
  lift (.ok (⟨c0, responses.set p.index real, p.matrix, p.msg⟩, keyImages))

/-- The check of the dimensions (mlsag/mlsag.go:153-158). -/
def dimsT (d : Nat) : List (PubKeys G) → Traced Unit
  | [] => lift (.ok ())
  | k :: ks => (did [.len] ()).bind fun _ =>
    if k.keys.length ≠ d then lift (.err "all vectors in the pubkey matrix must be the same size") else dimsT d ks

/-- `Proof.prove` (mlsag/mlsag.go:142-259): what it returns, the new state of the proof left out. -/
def Proof.proveT (R : Ristretto F G) (p : Proof F G) (skipLast : Bool) (coins : Coins F) : Traced (Signature F G × List G) :=
  let p := p.addSignerPubKey
  (shuffleLoopT coins.shuffle (p.matrix.length - 1) p.matrix).bind fun m =>
  (findT 0 m).bind fun i =>
  (dimsT p.privKeys.length m).bind fun _ =>
  Proof.signT R { p with matrix := m, index := i } skipLast coins

/-- The body of the loop of `Verify`. -/
def Signature.verifyBodyT (R : Ristretto F G) (sig : Signature F G) (keyImages : List G) (i : Nat) (prevChallenge : F) :
    Traced F :=
  let prev := prevIndex sig.r.length i
  (lift (idx sig.r prev)).bind fun resp =>
  (lift (idx sig.pubKeys prev)).bind fun keys =>
  generateChallengeT R sig.msg resp keyImages keys prevChallenge

/-- `Signature.Verify` (mlsag/mlsag.go:261-306). -/
def Signature.verifyT [DecidableEq F] (R : Ristretto F G) (sig : Signature F G) (keyImages : List G) : Traced Bool :=
  if sig.pubKeys.length = 0 ∨ sig.r.length = 0 ∨ keyImages.length = 0 then
    lift (.err "cannot have zero length for responses, pubkeys or key images")
  else
    let n := sig.r.length
    (ringLoopT (sig.verifyBodyT R keyImages) n (0 % n) (n + 1) 1 sig.c).bind fun c =>
    (sig.verifyBodyT R keyImages 0 c).bind fun c =>
    (did [.equals] (c = sig.c : Bool)).bind fun ok =>
    if !ok then lift (.err "c'0 does not equal c0") else lift (.ok true)

/-- `DualKey.Prove` (mlsag/dualkey.go:46-63): `||` tests the second key only if the first one is not zero. -/
def DualKey.proveT [DecidableEq F] (R : Ristretto F G) (d : DualKey F G) (coins : Coins F) : Traced (Signature F G × G) :=
  (did [.isNonZero] (d.key0 = 0 : Bool)).bind fun z0 =>
  (if z0 then lift (.ok true) else did [.isNonZero] (d.key1 = 0 : Bool)).bind fun z =>
  if z then lift (.err "primary key or commitment to zero cannot be zero")
  else
    (d.proof.addSecretT R d.key0).bind fun p =>
    (p.addSecretT R d.key1).bind fun p =>
    (p.proveT R true coins).bind fun s =>
    match s.2 with
    | [im] => lift (.ok (s.1, im))
    | _ => lift (.err "dual key mlsag must only contain one key image")

end Mlsag

namespace Blsag

variable {F G P : Type} [Field F] [AddCommGroup G] [Module F G]

/-- `computeCLR` (ringsig/blsag/blsag.go:165-189). -/
def computeCLRT (R : Ristretto F G) (V : Raw F G P) (m : Bytes) (I pubKey : P) (s c : F) : Traced (F × P × P) :=
  (did [.bytes] (V.bytes pubKey)).bind fun b =>
  (did [.derive] (V.derive b)).bind fun h =>
  (did [.base] (V.smulBase s)).bind fun L1 =>
  (did [.mult] (V.smul pubKey c)).bind fun L2 =>
  (did [.add] (V.add L1 L2)).bind fun L =>
  (did [.mult] (V.smul h s)).bind fun R1 =>
  (did [.mult] (V.smul I c)).bind fun R2 =>
  (did [.add] (V.add R1 R2)).bind fun Rp =>
  (did [.bytes] (V.bytes L)).bind fun bL =>
  (did [.bytes] (V.bytes Rp)).bind fun bR =>
  let buf := m ++ bL ++ bR
  did [.hash buf.length] (R.sDerive buf, L, Rp)

/-- The loop of `Sign` (ringsig/blsag/blsag.go:73-86). -/
def signLoopT (R : Ristretto F G) (V : Raw F G P) (m : Bytes) (I : P) (pubKeys : List P) (sVals : List F) (j : Nat) :
    Nat → Nat → List F × F → Traced (List F × F)
  | 0, _, _ => lift .panic
  | fuel + 1, i, st =>
    let l := i % pubKeys.length
    if l = j then lift (.ok st)
    else
      let k := (i + 1) % pubKeys.length
      (lift (idx pubKeys l)).bind fun pk =>
      (lift (idx sVals l)).bind fun s =>
      (computeCLRT R V m I pk s st.2).bind fun r =>
      signLoopT R V m I pubKeys sVals j fuel (i + 1) (st.1.set k r.1, r.1)

/-- `Sign` (ringsig/blsag/blsag.go:21-100). -/
def signT (R : Ristretto F G) (V : Raw F G P) (m : Bytes) (mixin : List P) (sK : F) (coins : Coins F) :
    Traced (RingSignature F P) :=
  (did [.base] (V.smulBase sK)).bind fun pK =>
  let n := mixin.length + 1
  (did [.intn n] (coins.position % n)).bind fun j =>
  (did [.bytes] (V.bytes pK)).bind fun b =>
  (did [.derive] (V.derive b)).bind fun hPK =>
  (did [.mult] (V.smul hPK sK)).bind fun I =>
  (did [.rand] coins.alpha).bind fun alpha =>
  (map (fun i => if i = 0 then lift (.ok (0 : F)) else did [.rand] (coins.s i)) (List.range n)).bind fun sVals =>
  (did [.base] (V.smulBase alpha)).bind fun Lj =>
  (did [.mult] (V.smul hPK alpha)).bind fun Rj =>
  (did [.bytes] (V.bytes Lj)).bind fun bL =>
  (did [.bytes] (V.bytes Rj)).bind fun bR =>
  let buf := m ++ bL ++ bR
  (did [.hash buf.length] (R.sDerive buf)).bind fun cPlus1 =>
  let cVals := (List.replicate n (0 : F)).set ((j + 1) % n) cPlus1
  let pubKeys := (List.replicate n V.zero).set j pK
  (signLoopT R V m I pubKeys sVals j n (j + 1) (cVals, cPlus1)).bind fun st =>
  (did [.sMul] (st.2 * sK)).bind fun x => (did [.sNeg] (-x)).bind fun x => (did [.sAdd] (x + alpha)).bind fun sj =>
  (lift (idx st.1 0)).bind fun c0 =>
  lift (.ok ⟨I, c0, sVals.set j sj, pubKeys⟩)

/-- The first loop of `Verify` (ringsig/blsag/blsag.go:118-133). -/
def verifyLoopT (R : Ristretto F G) (V : Raw F G P) (m : Bytes) (I : P) (S : List F) (n : Nat) :
    Nat → List P → List F × List P × List P × F → Traced (List F × List P × List P × F)
  | _, [], st => lift (.ok st)
  | i, pk :: pks, (Cs, Ls, Rs, currC) =>
    (lift (idx S i)).bind fun s =>
    (computeCLRT R V m I pk s currC).bind fun r =>
    verifyLoopT R V m I S n (i + 1) pks (Cs.set ((i + 1) % n) r.1, Ls.set i r.2.1, Rs.set i r.2.2, r.1)

/-- The second loop of `Verify` (ringsig/blsag/blsag.go:140-154). -/
def checkLoopT [DecidableEq F] (R : Ristretto F G) (V : Raw F G P) (m : Bytes) (Cs : List F) (Ls Rs : List P) :
    List Nat → Traced Bool
  | [] => lift (.ok true)
  | i :: is =>
    (lift (idx Ls i)).bind fun L =>
    (did [.bytes] (V.bytes L)).bind fun bL =>
    (lift (idx Rs i)).bind fun Rp =>
    (did [.bytes] (V.bytes Rp)).bind fun bR =>
    let buf := m ++ bL ++ bR
    (did [.hash buf.length] (R.sDerive buf)).bind fun cPlus1 =>
    (lift (idx Cs ((i + 1) % Cs.length))).bind fun c =>
    (did [.equals] (c = cPlus1 : Bool)).bind fun ok =>
    if !ok then lift (.ok false) else checkLoopT R V m Cs Ls Rs is

/-- `Verify` (ringsig/blsag/blsag.go:104-162). -/
def verifyT [DecidableEq F] (R : Ristretto F G) (V : Raw F G P) (m : Bytes) (sig : RingSignature F P) : Traced Bool :=
  let n := sig.pubKeys.length
  (verifyLoopT R V m sig.I sig.S n 0 sig.pubKeys
    (List.replicate n (0 : F), List.replicate n V.zero, List.replicate n V.zero, sig.C)).bind fun st =>
  let Cs := st.1
  let Ls := st.2.1
  let Rs := st.2.2.1
  if Ls.length ≠ Rs.length ∧ Rs.length ≠ Cs.length then lift (.ok false)
  else
    (checkLoopT R V m Cs Ls Rs (List.range Cs.length)).bind fun ok =>
    if !ok then lift (.ok false)
    else (lift (idx Cs 0)).bind fun c0 => (did [.equals] (c0 = sig.C : Bool)).bind fun ok => if !ok then lift (.ok false) else lift (.ok true)

end Blsag

end Dusk
