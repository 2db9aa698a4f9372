import Verif.Props.MlsagChosen
/-!
# Who signed?

An observer asks for hashes, and asks pseudonyms for signatures of messages for rings of its choice; in the end it says yes or no. Which user
is behind a pseudonym, and how that user arranges its decoys to get the ring, is hidden in a world. Two games are defined. In the
real one, the users sign with `Prove`. In the other one there are no users and no secrets: a signature consists of random
numbers, made from the ring and from the images of the pseudonym only.
-/

namespace Dusk.Mlsag

variable {F G : Type} [Field F] [AddCommGroup G] [Module F G] [DecidableEq F]

/-- An observer. It gets the answers of the hash function to its own questions, and signatures with their images. -/
inductive Observer (F G : Type)
  | done (guess : Bool)
  | hash (q : Bytes) (next : F → Observer F G)
  | sign (who : Nat) (msg : Bytes) (ring : List (List G)) (next : Signature F G → List G → Observer F G)

/-- What others see of a signature: all but the private field that marks decoys (mlsag/pubkeys.go:11-16). -/
def Signature.seen (s : Signature F G) : Signature F G := { s with pubKeys := s.pubKeys.map fun k => ⟨false, k.keys⟩ }

/-- How the request of a signature is carried out in a world. -/
abbrev Hidden (G : Type) := Nat → Bytes → List (List G) → Request G

section

variable (R : Ristretto F G) (skip : Bool)

/-- The real game: the user with the secret keys `xs u` signs, asking the same hash function as the observer. The observer says no if
it runs out of coins. -/
def Observer.real (W : Hidden G) (xs : Nat → List F) {d w : Nat} : Observer F G → Oracle.Log F → List (StepCoins d w F) → Bool
  | .done b, _, _ => b
  | _, _, [] => false
  | .hash q next, log, c :: cs => (next ((log.ask q (ext c.2.2 0)).hash q)).real W xs (log.ask q (ext c.2.2 0)) cs
  | .sign who msg ring next, log, c :: cs =>
    let r := W who msg ring
    let keys := (xs r.user).map (· • R.base)
    let I := imagesOf R skip (xs r.user)
    let p := (⟨log, query R r.msg I keys (List.ofFn c.1) 0,
      laterQueries R r.msg I (r.ring keys) (r.position keys) (row c.2.1)⟩ : Pending F).run (List.ofFn c.2.2)
    let log' := p.log.ask p.q (ext c.2.2 r.decoys.length)
    match ((build R r.msg (r.ops (xs r.user))).prove (withHash R log'.hash) skip ⟨ext c.1, fun j => ext (ext c.2.1 j), r.shuffle⟩).2 with
    | .ok (sig, I) => (next sig.seen I).real W xs log' cs
    | _ => false

/-- The questions and answers that a signature made of random numbers fixes: member `j` has the responses `row resp j` and the challenge
`ext ch j`, and the answer to its question is the challenge of the next member. -/
def inventedLog (msg : Bytes) (I : List G) (ring : List (List G)) {d w : Nat} (resp : Fin w → Fin d → F) (ch : Fin w → F) : Oracle.Log F :=
  (List.range ring.length).map fun j => (query R msg I (ring.getD j []) (row resp j) (ext ch j), ext ch ((j + 1) % ring.length))

/-- A signature made of random numbers. -/
def inventedSig (msg : Bytes) (ring : List (List G)) {d w : Nat} (resp : Fin w → Fin d → F) (ch : Fin w → F) : Signature F G :=
  ⟨ext ch 0, (List.range ring.length).map (row resp), ring.map fun k => ⟨false, k⟩, msg⟩

/-- The game without users: `im a` are the images of the pseudonym `a`. -/
def Observer.invented (im : Nat → List G) {d w : Nat} : Observer F G → Oracle.Log F → List (StepCoins d w F) → Bool
  | .done b, _, _ => b
  | _, _, [] => false
  | .hash q next, log, c :: cs => (next ((log.ask q (ext c.2.2 0)).hash q)).invented im (log.ask q (ext c.2.2 0)) cs
  | .sign who msg ring next, log, c :: cs =>
    (next (inventedSig msg ring c.2.1 c.2.2) (im who)).invented im (log ++ inventedLog R msg (im who) ring c.2.1 c.2.2) cs

end

/-- The request makes user `u` sign the message for the ring: the signer has keys `keys u`, there are decoys, fewer than `w`, each with `d`
keys, and the shuffle brings decoys and signer in the order of the ring. -/
structure Request.Makes (r : Request G) (keys : Nat → List G) (u : Nat) (msg : Bytes) (ring : List (List G)) (d w : Nat) : Prop where
  user : r.user = u
  msg : r.msg = msg
  ring : (r.ring (keys u)).map (·.keys) = ring
  some_decoy : r.decoys ≠ []
  few : r.decoys.length < w
  dim : ∀ k ∈ r.decoys, k.length = d

/-- The world can serve all requests that the observer may make; `user a` is behind the pseudonym `a`. -/
def Observer.Served (W : Hidden G) (keys : Nat → List G) (user : Nat → Nat) (d w : Nat) : Observer F G → Prop
  | .done _ => True
  | .hash _ next => ∀ a, (next a).Served W keys user d w
  | .sign who msg ring next => (W who msg ring).Makes keys (user who) msg ring d w ∧ ∀ s I, (next s I).Served W keys user d w

/-- The secrets of `m` users. -/
def users {m d : Nat} (x : Fin m → Fin d → F) (u : Nat) : List F := if h : u < m then List.ofFn (x ⟨u, h⟩) else List.replicate d 0

/-- Points for pseudonyms, given by their discrete logarithms. -/
def points (R : Ristretto F G) {k v : Nat} (z : Fin k → Fin v → F) (a : Nat) : List G :=
  if h : a < k then List.ofFn fun j => z ⟨a, h⟩ j • R.base else List.replicate v 0

/-- The probability that coins have a property. -/
noncomputable def chance {α : Type} (P : α → Prop) : ℚ := Nat.card {a // P a} / Nat.card α

/-- How well the observer, in the game with invented signatures, tells the images of the users behind the pseudonyms (`m` users with
random secrets, `d` each) from `v` random points for each of the first `k` pseudonyms. It gets the public keys. -/
noncomputable def Observer.advantage (R : Ristretto F G) (skip : Bool) (m d w k v T : Nat) (user : Nat → Nat)
    (O : (Nat → List G) → Observer F G) : ℚ :=
  |(chance fun p : (Fin m → Fin d → F) × (Fin T → StepCoins d w F) =>
      (O fun u => (users p.1 u).map (· • R.base)).invented R (fun a => imagesOf R skip (users p.1 (user a))) [] (List.ofFn p.2) = true) -
    chance fun p : ((Fin m → Fin d → F) × (Fin k → Fin v → F)) × (Fin T → StepCoins d w F) =>
      (O fun u => (users p.1.1 u).map (· • R.base)).invented R (points R p.1.2) [] (List.ofFn p.2) = true|

end Dusk.Mlsag
