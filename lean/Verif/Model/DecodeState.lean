import Verif.Model.Mlsag
import Verif.Model.RangeProof
/-!
# Decoders with their receiver

The decoders of `Model/Mlsag`, `Model/Pedersen`, `Model/InnerProduct` and `Model/RangeProof` give the result of a successful
`Decode`. Here `Decode` is modelled as a method that changes its receiver step by step, so that the receiver after a failed
call is described too, as are the elements allocated by `make`, which happens before the elements are read.

When `Point.SetBytes` returns false, what it leaves in the point depends on the bytes and may depend on what was there before:
`bad old bytes`, an arbitrary function.
-/

namespace Dusk

/-- What a call of a decoder leaves: result and remaining stream, receiver, number of elements allocated by `make`. -/
structure Outcome (σ α : Type) where
  res : Res (α × Reader)
  recv : σ
  made : Nat

/-- A decoder with receiver in `σ`. -/
abbrev Dec (σ α : Type) := σ → Reader → Outcome σ α

namespace Dec

variable {σ τ α β : Type}

/-- Nothing to do. -/
def pure (a : α) : Dec σ α := fun s r => ⟨.ok (a, r), s, 0⟩

/-- Return an error. -/
def fail (e : String) : Dec σ α := fun s _ => ⟨.err e, s, 0⟩

/-- One step after the other; an error ends the call, the receiver stays as it is then. -/
def bind (m : Dec σ α) (f : α → Dec σ β) : Dec σ β := fun s r =>
  match (m s r).res with
  | .ok (a, r') => let o := f a (m s r).recv r'; ⟨o.res, o.recv, (m s r).made + o.made⟩
  | .err e => ⟨.err e, (m s r).recv, (m s r).made⟩
  | .panic => ⟨.panic, (m s r).recv, (m s r).made⟩

/-- Read without touching the receiver. -/
def read (m : Rd α) : Dec σ α := fun s r => ⟨m r, s, 0⟩

/-- Assign to the receiver. -/
def set (f : σ → σ) : Dec σ Unit := fun s r => ⟨.ok ((), r), f s, 0⟩

/-- Assign a slice of `n` new elements to the receiver. -/
def make (n : Nat) (f : σ → σ) : Dec σ Unit := fun s r => ⟨.ok ((), r), f s, n⟩

/-- Call a method of a part of the receiver. -/
def on (get : σ → τ) (put : τ → σ → σ) (m : Dec τ α) : Dec σ α := fun s r =>
  let o := m (get s) r; ⟨o.res, put o.recv s, o.made⟩

/-- `for ; i < i + k; i++ { body }`, leaving at the first error. -/
def loop (body : Nat → Dec σ Unit) : Nat → Nat → Dec σ Unit
  | _, 0 => pure ()
  | i, k + 1 => bind (body i) fun _ => loop body (i + 1) k

end Dec

namespace Mlsag

variable {F G : Type} [Field F] [AddCommGroup G] [Module F G]

/-- `Responses.Decode` (mlsag/responses.go:46-62) into the receiver. -/
def responsesDec (R : Ristretto F G) (n : Nat) : Dec (List F) Unit :=
  Dec.loop (fun _ => Dec.bind (Dec.read (readScalar R)) fun x => Dec.set fun res => res ++ [x]) 0 n

/-- `PubKeys.Decode` (mlsag/pubkeys.go:44-64) into the receiver; the point is read into a local variable. -/
def PubKeys.dec (R : Ristretto F G) (n : Nat) : Dec (PubKeys G) Unit :=
  Dec.loop (fun _ => Dec.bind (Dec.read (readPoint R)) fun x => Dec.set fun p => p.addPubKey x) 0 n

/-- `Signature.Decode` (mlsag/mlsag.go:67-110) into the receiver. -/
def Signature.dec (R : Ristretto F G) (decodeKeys : Bool) : Dec (Signature F G) Unit :=
  Dec.bind (Dec.read (readScalar R)) fun c =>
  Dec.bind (Dec.set fun s => { s with c := c }) fun _ =>
  Dec.bind (Dec.read readU32) fun lenR =>
  Dec.bind (Dec.read readU32) fun numResponses =>
  Dec.bind (Dec.make lenR fun s => { s with r := List.replicate lenR [] }) fun _ =>
  Dec.bind (Dec.loop (fun i => Dec.on (fun s : Signature F G => s.r.getD i []) (fun x s => { s with r := s.r.set i x })
    (responsesDec R numResponses)) 0 lenR) fun _ =>
  if !decodeKeys then Dec.pure ()
  else
    Dec.bind (Dec.make lenR fun s => { s with pubKeys := List.replicate lenR {} }) fun _ =>
    Dec.loop (fun i => Dec.on (fun s : Signature F G => s.pubKeys.getD i {}) (fun x s => { s with pubKeys := s.pubKeys.set i x })
      (PubKeys.dec R numResponses)) 0 lenR

end Mlsag

namespace RP

variable {F G : Type} [Field F] [AddCommGroup G] [Module F G]

/-- `readerToPoint` (rangeproof/rangeproof.go:628-639) into a field of the receiver. -/
def pointDec (R : Ristretto F G) (bad : G → Bytes → G) : Dec G Unit :=
  Dec.bind (Dec.read (readN 32)) fun b =>
    if (R.pOfBytes b).2 then Dec.set fun _ => (R.pOfBytes b).1
    else Dec.bind (Dec.set fun old => bad old b) fun _ => Dec.fail "point not encodable"

/-- `readerToScalar` (rangeproof/rangeproof.go:640-648) into a field of the receiver. -/
def scalarDec (R : Ristretto F G) : Dec F Unit :=
  Dec.bind (Dec.read (readerToScalar R)) fun x => Dec.set fun _ => x

/-- `DecodeCommitments` (rangeproof/pedersen/pedersen.go:88-106): the slice is returned only on success, but allocated before
the commitments are read. -/
def commitmentsDec {σ : Type} (R : Ristretto F G) : Dec σ (List (Commitment F G)) :=
  Dec.bind (Dec.read readU32) fun lenV =>
  Dec.bind (Dec.make lenV id) fun _ => Dec.read (readTimes (Commitment.decode R) lenV)

/-- `Proof.Decode` of the inner product proof (rangeproof/innerproduct/innerproduct.go:420-466) into the receiver. The loop over
the buffered bytes cannot fail (the length was checked). -/
def ipDec (R : Ristretto F G) : Dec (IP.Proof F G) Unit :=
  Dec.bind (Dec.read (readN 32)) fun a =>
  Dec.bind (Dec.read (readN 32)) fun b =>
  Dec.bind (Dec.set fun p => { p with A := R.sOfBytes a, B := R.sOfBytes b }) fun _ =>
  Dec.bind (Dec.read readAll) fun buf =>
  if buf.length % 32 ≠ 0 then Dec.fail "proof was not formatted correctly"
  else
    let lenL := buf.length / 64 % 2 ^ 32
    Dec.bind (Dec.make (2 * lenL) id) fun _ =>
    Dec.bind (Dec.read (Rd.lift (IP.decodeLoop R lenL buf))) fun lr =>
    Dec.set fun p => { p with L := lr.1, R := lr.2 }

/-- `Proof.Decode` (rangeproof/rangeproof.go:537-581) into the receiver. -/
def Proof.dec (R : Ristretto F G) (bad : G → Bytes → G) (includeCommits : Bool) : Dec (Proof F G) Unit :=
  Dec.bind (if includeCommits then Dec.bind (commitmentsDec R) fun V => Dec.set fun p => { p with V := V } else Dec.pure ()) fun _ =>
  Dec.bind (Dec.on Proof.A (fun x p => { p with A := x }) (pointDec R bad)) fun _ =>
  Dec.bind (Dec.on Proof.S (fun x p => { p with S := x }) (pointDec R bad)) fun _ =>
  Dec.bind (Dec.on Proof.T1 (fun x p => { p with T1 := x }) (pointDec R bad)) fun _ =>
  Dec.bind (Dec.on Proof.T2 (fun x p => { p with T2 := x }) (pointDec R bad)) fun _ =>
  Dec.bind (Dec.on Proof.taux (fun x p => { p with taux := x }) (scalarDec R)) fun _ =>
  Dec.bind (Dec.on Proof.mu (fun x p => { p with mu := x }) (scalarDec R)) fun _ =>
  Dec.bind (Dec.on Proof.t (fun x p => { p with t := x }) (scalarDec R)) fun _ =>
  Dec.on (fun _ => (⟨[], [], 0, 0⟩ : IP.Proof F G)) (fun x p => { p with ip := some x }) (ipDec R)

end RP

end Dusk
