import Verif.Model.Mlsag
/-!
# One DualKey used by several goroutines

The methods of `DualKey` and `Proof` read and write the fields of their receiver without synchronisation. They are programs here
whose steps are the single reads and writes of these fields, in the order of the source. What a call computes from its arguments and
from what it has read is no step. Simplifications: a field, and an element of the matrix, is read or written in one step; `append`
copies its slice, so that the array behind the matrix is never shared by two slices; the keys of a vector of keys are read with the
vector. The Go memory model allows more behaviours for racy programs, so a violation shown here is possible in Go.
-/

namespace Dusk.MlsagConc

open Mlsag

/-- A program: its result, or a read or write of the shared object and how to go on. -/
inductive Prog (S α : Type) where
  | ret (a : Res α)
  | load (k : S → Prog S α)
  | store (f : S → S) (k : Prog S α)

variable {S α β ι : Type}

/-- One program after another; the second does not start if the first returns an error or panics. -/
def Prog.bind : Prog S α → (α → Prog S β) → Prog S β
  | .ret (.ok a), f => f a
  | .ret (.err e), _ => .ret (.err e)
  | .ret .panic, _ => .ret .panic
  | .load k, f => .load fun s => (k s).bind f
  | .store g k, f => .store g (k.bind f)

/-- The next step of a program: the object afterwards, and the rest. -/
def step (s : S) : Prog S α → S × Prog S α
  | .ret a => (s, .ret a)
  | .load k => (s, k s)
  | .store f k => (f s, k)

/-- A program alone, to its end. -/
def run : S → Prog S α → S × Res α
  | s, .ret a => (s, a)
  | s, .load k => run s (k s)
  | s, .store f k => run (f s) k

/-- Goroutines sharing an object: its value, and what is left of each goroutine. -/
structure Shared (S ι α : Type) where
  obj : S
  prog : ι → Prog S α

/-- One step of goroutine `i`. -/
def Shared.step [DecidableEq ι] (s : Shared S ι α) (i : ι) : Shared S ι α :=
  ⟨(MlsagConc.step s.obj (s.prog i)).1, Function.update s.prog i (MlsagConc.step s.obj (s.prog i)).2⟩

/-- An execution: the schedule names the goroutine that takes the next step. -/
def Shared.exec [DecidableEq ι] (s : Shared S ι α) (sched : List ι) : Shared S ι α := sched.foldl Shared.step s

/-- Nothing is read or written. -/
def done (a : α) : Prog S α := .ret (.ok a)

/-- A read, which may be out of range. -/
def readR (f : S → Res α) : Prog S α := .load fun s => .ret (f s)

/-- A read. -/
def read (f : S → α) : Prog S α := .load fun s => .ret (.ok (f s))

/-- A write. -/
def write (f : S → S) : Prog S Unit := .store f (Prog.ret (.ok ()))

variable {F G : Type} [Field F] [AddCommGroup G] [Module F G]

/-- A write to a field of the embedded `Proof`. -/
def writeP (f : Proof F G → Proof F G) : Prog (DualKey F G) Unit := write fun d => { d with proof := f d.proof }

/-- A read of a field of the embedded `Proof`. -/
def readP (f : Proof F G → α) : Prog (DualKey F G) α := read fun d => f d.proof

/-- A read of `pubKeysMatrix[i]`. -/
def member (i : Nat) : Prog (DualKey F G) (PubKeys G) := readR fun d => idx d.proof.matrix i

/-- `Proof.addPubKeys` (mlsag/proof.go:31-34). -/
def addPubKeysP (keys : PubKeys G) : Prog (DualKey F G) Unit :=
  (readP Proof.matrix).bind fun m => writeP fun p => { p with matrix := m ++ [keys] }

/-- `Proof.AddDecoy` (mlsag/proof.go:36-39). -/
def addDecoyP (keys : PubKeys G) : Prog (DualKey F G) Unit := addPubKeysP { keys with decoy := true }

/-- `Proof.AddDecoys` (mlsag/proof.go:41-45). -/
def addDecoysP : List (PubKeys G) → Prog (DualKey F G) Unit
  | [] => done ()
  | k :: ks => (addDecoyP k).bind fun _ => addDecoysP ks

/-- `Proof.addSignerPubKey` (mlsag/proof.go:47-51). -/
def addSignerP : Prog (DualKey F G) Unit :=
  (writeP fun p => { p with signer := { p.signer with decoy := false } }).bind fun _ =>
  (readP Proof.signer).bind fun s => addPubKeysP s

/-- `Proof.AddSecret` (mlsag/proof.go:53-62) with `AddPubKey` (mlsag/pubkeys.go:65-67) and `AddPrivateKey`
(mlsag/privatekeys.go:7-9). -/
def addSecretP (R : Ristretto F G) (x : F) : Prog (DualKey F G) Unit :=
  (readP fun p => p.signer.keys).bind fun ks =>
  (writeP fun p => { p with signer := { p.signer with keys := ks ++ [privKeyToPubKey R x] } }).bind fun _ =>
  (readP Proof.privKeys).bind fun xs =>
  writeP fun p => { p with privKeys := xs ++ [x] }

/-- The first loop of `shuffleSet` (mlsag/proof.go:71-91), from `i` down to 1. -/
def shuffleLoopP (shuffle : Nat → Nat) : Nat → Prog (DualKey F G) Unit
  | 0 => done ()
  | i + 1 =>
    let j := shuffle (i + 1) % (i + 2)
    (member j).bind fun a =>
    (member (i + 1)).bind fun b =>
    (writeP fun p => { p with matrix := p.matrix.set (i + 1) a }).bind fun _ =>
    (writeP fun p => { p with matrix := p.matrix.set j b }).bind fun _ => shuffleLoopP shuffle i

/-- The second loop of `shuffleSet` (mlsag/proof.go:71-91): `k` members from index `i` on. -/
def findP : Nat → Nat → Prog (DualKey F G) Unit
  | 0, _ => .ret (.err "could not find the index of the non-decoy vector of pubkeys")
  | k + 1, i => (member i).bind fun m => if !m.decoy then writeP fun p => { p with index := i } else findP k (i + 1)

/-- `Proof.shuffleSet` (mlsag/proof.go:71-91). -/
def shuffleSetP (shuffle : Nat → Nat) : Prog (DualKey F G) Unit :=
  (readP fun p => p.matrix.length).bind fun n =>
  (shuffleLoopP shuffle (n - 1)).bind fun _ =>
  (readP fun p => p.matrix.length).bind fun n => findP n 0

/-- The check of the dimensions (lines 152-158 of `prove` (mlsag/mlsag.go:142-259)): `k` members from index `i` on. -/
def dimsP (len : Nat) : Nat → Nat → Prog (DualKey F G) Unit
  | 0, _ => done ()
  | k + 1, i => (member i).bind fun m =>
    if m.keys.length ≠ len then .ret (.err "all vectors in the pubkey matrix must be the same size") else dimsP len k (i + 1)

/-- `Proof.calculateKeyImages` (mlsag/mlsag.go:391-409) reads two fields. -/
def imagesP (R : Ristretto F G) (skipLast : Bool) : Prog (DualKey F G) (List G) :=
  (readP Proof.privKeys).bind fun xs => (readP Proof.signer).bind fun s =>
  .ret (({ privKeys := xs, signer := s } : Proof F G).calculateKeyImages R skipLast)

/-- The loop over the decoys (lines 214-231 of `prove` (mlsag/mlsag.go:142-259)); the first argument bounds the iterations. -/
def ringP (R : Ristretto F G) (responses : List (List F)) (images : List G) (n stop : Nat) :
    Nat → Nat → List F × F → Prog (DualKey F G) (List F × F)
  | 0, _, _ => .ret .panic
  | fuel + 1, k, s =>
    if k = stop then done s
    else
      (Prog.ret (idx responses (prevIndex n (k % n)))).bind fun resp =>
      (member (prevIndex n (k % n))).bind fun keys =>
      (readP Proof.msg).bind fun msg =>
      (Prog.ret (generateChallenge R msg resp images keys s.2)).bind fun c =>
      ringP R responses images n stop fuel ((k + 1) % n) (s.1.set (k % n) c, c)

/-- The real responses (lines 233-246 of `prove` (mlsag/mlsag.go:142-259)): `k` of them from index `i` on. -/
def realP (challenges nonces : List F) : Nat → Nat → Prog (DualKey F G) (List F)
  | 0, _ => done []
  | k + 1, i =>
    (readR fun d => idx challenges d.proof.index).bind fun challenge =>
    (readR fun d => idx d.proof.privKeys i).bind fun x =>
    (Prog.ret (idx nonces i)).bind fun a =>
    (realP challenges nonces k (i + 1)).bind fun r => done ((-(challenge * x) + a) :: r)

/-- `prove` (mlsag/mlsag.go:142-259) from line 169 on, up to the end of the loop over the decoys: challenges and responses. -/
def chainP (R : Ristretto F G) (coins : Coins F) (images : List G) (nonces : List F) (n k : Nat) :
    Prog (DualKey F G) (List F × List (List F)) :=
  (readP Proof.index).bind fun skip =>
  let responses := generateResponses coins.resp n k skip
  (readP Proof.index).bind fun secret =>
  (readP Proof.msg).bind fun msg =>
  (member secret).bind fun keys =>
  (Prog.ret (firstChallenge R msg nonces images keys.keys)).bind fun c1 =>
  (ringP R responses images n ((secret + 1) % n) (n + 1) (secret + 2) ((List.replicate n (0 : F)).set ((secret + 1) % n) c1, c1)).bind
    fun s => done (s.1, responses)

/-- `prove` (mlsag/mlsag.go:142-259) up to line 249: challenge and responses. -/
def responsesP (R : Ristretto F G) (coins : Coins F) (images : List G) (nonces : List F) (n k : Nat) :
    Prog (DualKey F G) (F × List (List F)) :=
  (chainP R coins images nonces n k).bind fun s =>
  (realP s.1 nonces k 0).bind fun real =>
  (readP Proof.index).bind fun i =>
  (Prog.ret (if i < s.2.length then .ok (s.2.set i real) else .panic)).bind fun r =>
  (Prog.ret (idx s.1 0)).bind fun c => done (c, r)

/-- `prove` (mlsag/mlsag.go:142-259) from line 160 up to line 249: challenge, responses and key images. -/
def signP (R : Ristretto F G) (skipLast : Bool) (coins : Coins F) : Prog (DualKey F G) ((F × List (List F)) × List G) :=
  (imagesP R skipLast).bind fun images =>
  (readP fun p => p.privKeys.length).bind fun l =>
  (readP fun p => p.matrix.length).bind fun n =>
  (readP fun p => p.privKeys.length).bind fun k =>
  (responsesP R coins images (generateNonces coins.nonce l) n k).bind fun r => done (r, images)

/-- `prove` (mlsag/mlsag.go:142-259) up to line 158. -/
def prepareP (shuffle : Nat → Nat) : Prog (DualKey F G) Unit :=
  addSignerP.bind fun _ =>
  (shuffleSetP shuffle).bind fun _ =>
  (readP fun p => p.privKeys.length).bind fun len =>
  (readP fun p => p.matrix.length).bind fun n => dimsP len n 0

/-- `prove` (mlsag/mlsag.go:142-259), lines 251-258. -/
def packP (r : (F × List (List F)) × List G) : Prog (DualKey F G) (Signature F G × List G) :=
  (readP Proof.matrix).bind fun m => (readP Proof.msg).bind fun msg => done (⟨r.1.1, r.1.2, m, msg⟩, r.2)

/-- `Proof.prove` (mlsag/mlsag.go:142-259). -/
def proveP (R : Ristretto F G) (skipLast : Bool) (coins : Coins F) : Prog (DualKey F G) (Signature F G × List G) :=
  (prepareP coins.shuffle).bind fun _ => (signP R skipLast coins).bind packP

/-- The check of the keys in `DualKey.Prove` (mlsag/dualkey.go:46-63); the second key is read only if the first is not zero. -/
def keysP [DecidableEq F] : Prog (DualKey F G) Unit :=
  (read DualKey.key0).bind fun x =>
  if x = 0 then .ret (.err "primary key or commitment to zero cannot be zero")
  else (read DualKey.key1).bind fun y =>
    if y = 0 then .ret (.err "primary key or commitment to zero cannot be zero") else done ()

/-- The two calls of `AddSecret` in `DualKey.Prove` (mlsag/dualkey.go:46-63). -/
def secretsP (R : Ristretto F G) : Prog (DualKey F G) Unit :=
  (read DualKey.key0).bind fun x => (addSecretP R x).bind fun _ =>
  (read DualKey.key1).bind fun y => addSecretP R y

/-- `DualKey.Prove` (mlsag/dualkey.go:46-63). -/
def dualProveP [DecidableEq F] (R : Ristretto F G) (coins : Coins F) : Prog (DualKey F G) (Signature F G × G) :=
  keysP.bind fun _ => (secretsP R).bind fun _ => (proveP R true coins).bind fun s =>
    match s.2 with
    | [im] => done (s.1, im)
    | _ => .ret (.err "dual key mlsag must only contain one key image")

/-- The loop of `DualKey.SubCommToZero` (mlsag/dualkey.go:39-44): `k` members from index `i` on. -/
def subLoopP (P : G) : Nat → Nat → Prog (DualKey F G) Unit
  | 0, _ => done ()
  | k + 1, i =>
    (readR fun d => (idx d.proof.matrix i).bind fun m => idx m.keys 1).bind fun K =>
    (writeP fun p => { p with matrix := p.matrix.modify i fun m => { m with keys := m.keys.set 1 (K - P) } }).bind fun _ =>
    subLoopP P k (i + 1)

/-- `DualKey.SubCommToZero` (mlsag/dualkey.go:39-44). -/
def subCommP (P : G) : Prog (DualKey F G) Unit := (readP fun p => p.matrix.length).bind fun n => subLoopP P n 0

/-- What a goroutine calls on the shared `DualKey`. -/
inductive Call (F G : Type) where
  | addDecoy (keys : PubKeys G)
  | addDecoys (keys : List (PubKeys G))
  | addSecret (x : F)
  | setMsg (msg : Bytes)
  | setPrimaryKey (x : F)
  | setCommToZero (x : F)
  | subCommToZero (P : G)
  | lenMembers
  | prove (coins : Coins F)

/-- What a call returns besides errors. -/
inductive Reply (F G : Type) where
  | nothing
  | key (K : G)
  | number (n : Nat)
  | signature (sig : Signature F G) (image : G)

/-- The program of a call: `SetPrimaryKey`, `SetCommToZero`, `SetMsg` (mlsag/dualkey.go:23-35), `LenMembers` (mlsag/proof.go:93-95), and
those above. -/
def Call.prog [DecidableEq F] (R : Ristretto F G) : Call F G → Prog (DualKey F G) (Reply F G)
  | addDecoy keys => (addDecoyP keys).bind fun _ => done .nothing
  | addDecoys keys => (addDecoysP keys).bind fun _ => done .nothing
  | addSecret x => (addSecretP R x).bind fun _ => done .nothing
  | setMsg msg => (writeP fun p => { p with msg := msg }).bind fun _ => done .nothing
  | setPrimaryKey x => (write fun d => { d with key0 := x }).bind fun _ => done (.key (privKeyToPubKey R x))
  | setCommToZero x => (write fun d => { d with key1 := x }).bind fun _ => done (.key (privKeyToPubKey R x))
  | subCommToZero P => (subCommP P).bind fun _ => done .nothing
  | lenMembers => (readP fun p => p.matrix.length).bind fun n => done (.number n)
  | prove coins => (dualProveP R coins).bind fun s => done (.signature s.1 s.2)

/-- Goroutines that call methods of one `DualKey`. -/
def calling [DecidableEq F] (R : Ristretto F G) (d : DualKey F G) (calls : ι → Call F G) : Shared (DualKey F G) ι (Reply F G) :=
  ⟨d, fun i => (calls i).prog R⟩

end Dusk.MlsagConc
