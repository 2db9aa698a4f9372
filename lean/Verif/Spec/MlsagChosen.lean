import Verif.Props.MlsagForking
import Verif.Props.MlsagAnon
/-!
# Attackers that choose messages and see signatures

An attacker on MLSAG may, besides asking for hashes, ask holders of secret keys for signatures of messages and rings of its choice.
Two games are defined. In the real one, signatures are made by `Prove` with the secret keys. In the other one, they are made by a
simulator from the public keys and key images only; a simulator with given coins is an attacker that sees no signatures (`Linker`).
-/

namespace Dusk.Mlsag

variable {F G : Type} [Field F] [AddCommGroup G] [Module F G] [DecidableEq F]

/-- A request for a signature: user `user` is to sign `msg` among `decoys`, with the choices `shuffle` in the shuffle. -/
structure Request (G : Type) where
  user : Nat
  msg : Bytes
  decoys : List (List G)
  shuffle : Nat → Nat

/-- What the attacker does next. -/
inductive Action (G : Type)
  | hash (q : Bytes)
  | sign (r : Request G)

/-- An attacker: it chooses its next action from all questions and answers of the hash function so far, those of the signers included,
and from the signatures that it got; in the end it outputs a signature and images. -/
structure Chooser (F G : Type) where
  act : Oracle.Log F → List (Signature F G) → Action G
  out : Oracle.Log F → List (Signature F G) → Signature F G × List G

/-- All questions and answers so far, and the signatures given to the attacker. -/
structure Situation (F G : Type) where
  log : Oracle.Log F := []
  sigs : List (Signature F G) := []

/-! ## Rings -/

/-- The ring of a request, shuffled (`shuffleSet`). -/
def Request.ring (r : Request G) (keys : List G) : List (PubKeys G) :=
  shuffleLoop r.shuffle r.decoys.length (r.decoys.map (fun k => ⟨true, k⟩) ++ [⟨false, keys⟩])

/-- The position of the signer. -/
def Request.position (r : Request G) (keys : List G) : Nat := ((r.ring keys).findIdx? fun k => !k.decoy).getD 0

/-- The calls that prepare the proof: the decoys and the secrets are added. -/
def Request.ops (r : Request G) (xs : List F) : List (Op F G) := r.decoys.map (fun k => .decoy ⟨true, k⟩) ++ xs.map .secret

/-! ## Chains of questions -/

/-- A question about to be asked, and how the following ones depend on the answers. -/
structure Pending (F : Type) where
  log : Oracle.Log F
  q : Bytes
  later : List (F → Bytes)

/-- Ask the question, unless it is the last one. -/
def Pending.step (p : Pending F) (a : F) : Pending F :=
  match p.later with
  | [] => p
  | f :: k => ⟨p.log.ask p.q a, f ((p.log.lookup p.q).getD a), k⟩

/-- Ask all questions but the last one. -/
def Pending.run (p : Pending F) (coins : List F) : Pending F := coins.foldl Pending.step p

/-- The question after all others, given a hash function. -/
def follow (h : Bytes → F) : Bytes → List (F → Bytes) → Bytes
  | q, [] => q
  | q, f :: k => follow h (f (h q)) k

/-- The questions for the members after position `i`, in the order of the ring. -/
def laterQueries (R : Ristretto F G) (msg : Bytes) (I : List G) (ring : List (PubKeys G)) (i : Nat) (resp : Nat → List F) : List (F → Bytes) :=
  (List.range (ring.length - 1)).map fun s => query R msg I (ring.getD ((i + 1 + s) % ring.length) {}).keys (resp ((i + 1 + s) % ring.length))

/-! ## Coins -/

/-- The coins of one step of the game: the nonces of a signer, the responses of the other members, and answers of the hash function. -/
abbrev StepCoins (d w : Nat) (F : Type) := (Fin d → F) × (Fin w → Fin d → F) × (Fin w → F)

/-- The coins of a simulator in one step: responses of the signer and of the other members, and a challenge. -/
abbrev SimCoins (d w : Nat) (F : Type) := (Fin d → F) × (Fin w → Fin d → F) × F

/-- A finite sequence as a function. -/
def ext {α : Type} [Zero α] {n : Nat} (f : Fin n → α) (i : Nat) : α := if h : i < n then f ⟨i, h⟩ else 0

/-- Row `j` of the responses. -/
def row {d w : Nat} (f : Fin w → Fin d → F) (j : Nat) : List F := (List.range d).map (ext (ext f j))

/-! ## The game -/

section

variable (A : Chooser F G) (R : Ristretto F G) (skip : Bool)

/-- One step with signatures made by `Prove`. The user `u` has the secret keys `xs u`. The questions that the signer asks are
entered in the log; then `Prove` is run with the hash function given by the log. -/
def Chooser.step (xs : Nat → List F) {d w : Nat} (s : Situation F G) (c : StepCoins d w F) : Situation F G :=
  match A.act s.log s.sigs with
  | .hash q => { s with log := s.log.ask q (ext c.2.2 0) }
  | .sign r =>
    let keys := (xs r.user).map (· • R.base)
    let I := imagesOf R skip (xs r.user)
    let p := (⟨s.log, query R r.msg I keys (List.ofFn c.1) 0,
      laterQueries R r.msg I (r.ring keys) (r.position keys) (row c.2.1)⟩ : Pending F).run (List.ofFn c.2.2)
    let log := p.log.ask p.q (ext c.2.2 r.decoys.length)
    match ((build R r.msg (r.ops (xs r.user))).prove (withHash R log.hash) skip ⟨ext c.1, fun j => ext (ext c.2.1 j), r.shuffle⟩).2 with
    | .ok (sig, _) => ⟨log, s.sigs ++ [sig]⟩
    | _ => ⟨log, s.sigs⟩

/-- The verifier asks; `i` questions were asked before. -/
def verifying (sig : Signature F G) (I : List G) : Oracle.Log F → Nat → List F → Oracle.Log F
  | log, _, [] => log
  | log, i, a :: l => verifying sig I (log.ask (verifierQuery R sig I log i) a) (i + 1) l

/-- The attacker forges: `Verify`, with the hash function that the game has fixed, accepts its `v` images for a ring of at most `n`
published key vectors and for a message of which no signature was requested. -/
structure Chooser.Forges (xs : Nat → List F) {d w : Nat} (pub : Finset (List G)) (v n : Nat) (coins : List (StepCoins d w F))
    (ver : List F) (sig : Signature F G) (I : List G) : Prop where
  output : A.out (coins.foldl (A.step R skip xs) {}).log (coins.foldl (A.step R skip xs) {}).sigs = (sig, I)
  accepted : sig.verify (withHash R (verifying R sig I (coins.foldl (A.step R skip xs) {}).log 0 ver).hash) I = .ok true
  size : sig.r.length ≤ n
  published : ∀ k ∈ sig.pubKeys, k.keys ∈ pub
  images : I.length = v
  fresh : ∀ s ∈ (coins.foldl (A.step R skip xs) {}).sigs, s.msg ≠ sig.msg

/-- The requests can be satisfied: there are decoys, fewer than `w`, and each has `d` keys. -/
def Chooser.Valid (d w : Nat) : Prop :=
  ∀ log sigs r, A.act log sigs = .sign r → r.decoys ≠ [] ∧ r.decoys.length < w ∧ ∀ k ∈ r.decoys, k.length = d

/-! ## The simulator -/

/-- The first question of a step. `keys u` and `im u` are the public keys and the images of the user `u`. -/
def Chooser.simStart (keys im : Nat → List G) {d w : Nat} (s : Situation F G) (ρ : SimCoins d w F) : Pending F :=
  match A.act s.log s.sigs with
  | .hash q => ⟨s.log, q, [fun _ => q]⟩
  | .sign r => ⟨s.log, query R r.msg (im r.user) (keys r.user) (List.ofFn ρ.1) ρ.2.2,
      laterQueries R r.msg (im r.user) (r.ring (keys r.user)) (r.position (keys r.user)) (row ρ.2.1)⟩

/-- The signature made by the simulator, for the hash function `h`. -/
def simSig (keys im : Nat → List G) {d w : Nat} (r : Request G) (ρ : SimCoins d w F) (h : Bytes → F) : Signature F G :=
  let ring := r.ring (keys r.user)
  let i := r.position (keys r.user)
  ⟨h (follow h (query R r.msg (im r.user) (keys r.user) (List.ofFn ρ.1) ρ.2.2)
      ((laterQueries R r.msg (im r.user) ring i (row ρ.2.1)).take (ring.length - 1 - i))),
    (List.range ring.length).map (fun j => if j = i then List.ofFn ρ.1 else row ρ.2.1 j), ring, r.msg⟩

/-- One step with simulated signatures: the answer to the last question of a signer is a challenge that was chosen before. -/
def Chooser.simStep (keys im : Nat → List G) {d w : Nat} (s : Situation F G) (ρ : SimCoins d w F) (answers : List F) : Situation F G :=
  let p := (A.simStart R keys im s ρ).run answers
  match A.act s.log s.sigs with
  | .hash _ => { s with log := p.log }
  | .sign r =>
    let log := p.log ++ [(p.q, ρ.2.2)]
    ⟨log, s.sigs ++ [simSig R keys im r ρ (Oracle.Log.hash log)]⟩

/-- The situation after `t` steps, each with `w` answers. -/
def Chooser.simRun (keys im : Nat → List G) {d w : Nat} (ρ : Nat → SimCoins d w F) : Nat → List F → Situation F G
  | 0, _ => {}
  | t + 1, answers => A.simStep R keys im (Chooser.simRun keys im ρ t answers) (ρ t) ((answers.drop (t * w)).take w)

/-- The simulator, run with the coins `ρ`, as an attacker that gets no signatures. It asks `w` questions for each action of the
attacker (if it needs fewer, it repeats its last one). -/
def Chooser.simulator (keys im : Nat → List G) {d w : Nat} (T : Nat) (ρ : Nat → SimCoins d w F) : Linker F G where
  next log :=
    let answers := log.map (·.2)
    let t := log.length / w
    let p := (A.simStart R keys im (A.simRun R keys im ρ t answers) (ρ t)).run (answers.drop (t * w))
    match p.later with
    | [] => ((p.log.getLast?).map (·.1)).getD []
    | _ :: _ => p.q
  out log :=
    let s := A.simRun R keys im ρ T (log.map (·.2))
    A.out s.log s.sigs

end

end Dusk.Mlsag
