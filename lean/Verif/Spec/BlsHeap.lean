import Verif.Model.BlsHeap
/-!
# Histories over plain values

The reading of a history that a client has in mind: every handle simply *has* a value, a call computes with
values, and an in-place method assigns to its receiver only. There are no pointers to points here; the only
indirection left is that an `Apk` names the `PublicKey` it embeds. `Verif.Props.BlsHeap` shows that the heap
behaves like this.
-/

namespace Dusk.Bls

/-- The value of every handle. -/
structure Store (G1 G2 : Type) where
  pk : List (PublicKey G2) := []
  apk : List Nat := []
  sig : List (Signature G1) := []
  usig : List (UnsafeSignature G1) := []

namespace Store

variable {F G1 G2 GT : Type} [Field F] [AddCommGroup G1] [AddCommGroup G2] [AddCommGroup GT]
  [Module F G1] [Module F G2] [Module F GT]
variable (P : Bn256 F G1 G2 GT) (A : Hash.Algs)

def addPk (s : Store G1 G2) (v : PublicKey G2) : Store G1 G2 := { s with pk := s.pk ++ [v] }
def addApk (s : Store G1 G2) (a : Apk G2) : Res (Store G1 G2) :=
  (deref a.pk).bind fun v => .ok { s with pk := s.pk ++ [v], apk := s.apk ++ [s.pk.length] }
def addSig (s : Store G1 G2) (v : Signature G1) : Store G1 G2 := { s with sig := s.sig ++ [v] }
def addUsig (s : Store G1 G2) (v : UnsafeSignature G1) : Store G1 G2 := { s with usig := s.usig ++ [v] }

/-- The value of an `Apk` handle. -/
def rdApk (s : Store G1 G2) (a : Nat) : Res (Apk G2) :=
  (idx s.apk a).bind fun p => (idx s.pk p).bind fun v => .ok ⟨some v⟩

/-- Assign the outcome of a method to its `Apk` receiver. -/
def setApk (s : Store G1 G2) (a : Nat) (v : Option (Apk G2)) : Res (Store G1 G2) :=
  (idx s.apk a).bind fun p => (deref v).bind fun v => (deref v.pk).bind fun v => .ok { s with pk := s.pk.set p v }

/-- What remains of a call that reports an error: the receiver as the call left it. -/
def settle {α β : Type} (r : Res α) (k : Res β) : Res β :=
  match r with
  | .panic => .panic
  | _ => k

/-- One call. -/
def step (s : Store G1 G2) : HOp → Res (Store G1 G2)
  | .genKeyPair x => (Bls.genKeyPair P (.ok x)).bind fun r => .ok (s.addPk r.1)
  | .unmarshalPk b =>
      match Bls.unmarshalPk P b with
      | .ok v => .ok (s.addPk v)
      | .err _ => .ok s
      | .panic => .panic
  | .unmarshalApk b =>
      match Bls.unmarshalApk P b with
      | .ok v => s.addApk v
      | .err _ => .ok s
      | .panic => .panic
  | .unmarshalSignature b =>
      match Bls.unmarshalSignature P b with
      | .ok v => .ok (s.addSig v)
      | .err _ => .ok s
      | .panic => .panic
  | .newApk i => (idx s.pk i).bind fun v => (Bls.newApk P A (some v)).bind fun r => (deref r).bind s.addApk
  | .apkLiteral i => (idx s.pk i).bind fun _ => .ok { s with apk := s.apk ++ [i] }
  | .apkCopy a => (s.rdApk a).bind fun v => (v.copy P).bind s.addApk
  | .apkAggregate a i => (idx s.pk i).bind fun v => (s.rdApk a).bind fun r =>
      settle (Apk.aggregate P A (some r) (some v)).1 (s.setApk a (Apk.aggregate P A (some r) (some v)).2)
  | .apkAggregateBytes a b => (s.rdApk a).bind fun r =>
      settle (Apk.aggregateBytes P A (some r) b).1 (s.setApk a (Apk.aggregateBytes P A (some r) b).2)
  | .aggregateApk i is => (mapRes (idx s.pk) (i :: is)).bind fun vs =>
      (Bls.aggregateApk P A (vs.map some)).bind fun r => (deref r).bind s.addApk
  | .pkAggregate i j => (idx s.pk i).bind fun a => (idx s.pk j).bind fun b => (a.aggregate b).bind fun c =>
      .ok (s.addPk c)
  | .pkUnmarshal i b => (idx s.pk i).bind fun v => .ok { s with pk := s.pk.set i (v.unmarshal P b).2 }
  | .apkUnmarshal a b => (s.rdApk a).bind fun r => s.setApk a (some (r.unmarshal P b).2)
  | .sign x i m => (idx s.pk i).bind fun pk => (Bls.sign P A ⟨x⟩ (some pk) m).bind fun v => .ok (s.addSig v)
  | .sigCopy i => (idx s.sig i).bind fun v => (v.copy P).bind fun c => .ok (s.addSig c)
  | .sigAggregate i j => (idx s.sig i).bind fun a => (idx s.sig j).bind fun b => (a.aggregate b).bind fun c =>
      .ok { s with sig := s.sig.set i c }
  | .sigAdd i p u => (idx s.pk p).bind fun pk => (idx s.usig u).bind fun v => (idx s.sig i).bind fun a =>
      settle (a.add P A (some pk) v).1 (.ok { s with sig := s.sig.set i (a.add P A (some pk) v).2 })
  | .sigAggregateBytes i b => (idx s.sig i).bind fun a =>
      settle (a.aggregateBytes P b).1 (.ok { s with sig := s.sig.set i (a.aggregateBytes P b).2 })
  | .sigUnmarshal i b => (idx s.sig i).bind fun a => .ok { s with sig := s.sig.set i (a.unmarshal P b).2 }
  | .unsafeSign x m => (Bls.unsafeSign P A ⟨x⟩ m).bind fun v => .ok (s.addUsig v)
  | .unsafeAggregate i j => (idx s.usig i).bind fun a => (idx s.usig j).bind fun b =>
      (Bls.unsafeAggregate (some a) (some b)).bind fun c => .ok (s.addUsig c)
  | .unsafeBatch is => (mapRes (idx s.usig) is).bind fun vs => (Bls.unsafeBatch (vs.map some)).bind fun r =>
      -- nil and the pointer of a singleton batch are no new objects
      match is, r with
      | [], _ => .ok s
      | [_], _ => .ok s
      | _, none => .panic
      | _, some v => .ok (s.addUsig v)
  | .usigUnmarshal i b => (idx s.usig i).bind fun a => .ok { s with usig := s.usig.set i (a.unmarshal P b).2 }

/-- A history. -/
def run : Store G1 G2 → List HOp → Res (Store G1 G2)
  | s, [] => .ok s
  | s, o :: os => (step P A s o).bind fun s' => run s' os

end Store

/-- The value of every handle, read off the heap. -/
def Heap.view {G1 G2 : Type} (h : Heap G1 G2) : Store G1 G2 where
  pk := h.pk.map fun c => ⟨h.g2.getD c .nil⟩
  apk := h.apk
  sig := h.sig.map fun c => ⟨h.g1.getD c .nil⟩
  usig := h.usig.map fun c => ⟨h.g1.getD c .nil⟩

end Dusk.Bls
