import Verif.Model.Bls
/-!
# BLS objects in memory

The pointer structure behind the values of `Verif.Model.Bls`: `PublicKey`, `Apk`, `Signature` and
`UnsafeSignature` are objects holding a pointer (`gx`, `e`) to a `bn256.G2` or `bn256.G1` object, and an `Apk`
holds a pointer to a `PublicKey` (bls/bls.go:88-110). In-place methods write through these pointers, so whether
two handles influence each other depends on which objects each function allocates and which it shares. A handle
is the index of an object in the corresponding list. Temporary objects that no handle can reach afterwards
(the wrapped signature inside `Add`, partial sums inside `UnsafeBatch`) are not kept.
-/

namespace Dusk.Bls

/-- The heap. `pk[i]` is the index of the `G2` object that `PublicKey` object `i` points to; `apk[a]` is the
index of the `PublicKey` object embedded in `Apk` object `a`; `sig`, `usig` index into the `G1` objects. -/
structure Heap (G1 G2 : Type) where
  g2 : List (Ptr G2) := []
  pk : List Nat := []
  apk : List Nat := []
  g1 : List (Ptr G1) := []
  sig : List Nat := []
  usig : List Nat := []

/-- The calls of a history. `apkLiteral i` is the client expression `&bls.Apk{PublicKey: pk}` (the field is
exported); everything else is a function or method of the package. -/
inductive HOp where
  | genKeyPair (x : Nat)
  | unmarshalPk (b : Bytes)
  | unmarshalApk (b : Bytes)
  | unmarshalSignature (b : Bytes)
  | newApk (i : Nat)
  | apkLiteral (i : Nat)
  | apkCopy (a : Nat)
  | apkAggregate (a i : Nat)
  | apkAggregateBytes (a : Nat) (b : Bytes)
  | aggregateApk (i : Nat) (is : List Nat)
  | pkAggregate (i j : Nat)
  | pkUnmarshal (i : Nat) (b : Bytes)
  | apkUnmarshal (a : Nat) (b : Bytes)
  | sign (x i : Nat) (m : Bytes)
  | sigCopy (s : Nat)
  | sigAggregate (s t : Nat)
  | sigAdd (s i u : Nat)
  | sigAggregateBytes (s : Nat) (b : Bytes)
  | sigUnmarshal (s : Nat) (b : Bytes)
  | unsafeSign (x : Nat) (m : Bytes)
  | unsafeAggregate (u v : Nat)
  | unsafeBatch (us : List Nat)
  | usigUnmarshal (u : Nat) (b : Bytes)

variable {F G1 G2 GT : Type} [Field F] [AddCommGroup G1] [AddCommGroup G2] [AddCommGroup GT]
  [Module F G1] [Module F G2] [Module F GT]
variable (P : Bn256 F G1 G2 GT) (A : Hash.Algs)

namespace Heap

/-- The value seen through `PublicKey` object `i`. -/
def rdPk (h : Heap G1 G2) (i : Nat) : Res (PublicKey G2) :=
  (idx h.pk i).bind fun c => (idx h.g2 c).bind fun v => .ok ⟨v⟩

/-- The value seen through `Signature` object `s`. -/
def rdSig (h : Heap G1 G2) (s : Nat) : Res (Signature G1) :=
  (idx h.sig s).bind fun c => (idx h.g1 c).bind fun v => .ok ⟨v⟩

/-- The value seen through `UnsafeSignature` object `u`. -/
def rdUsig (h : Heap G1 G2) (u : Nat) : Res (UnsafeSignature G1) :=
  (idx h.usig u).bind fun c => (idx h.g1 c).bind fun v => .ok ⟨v⟩

/-- `&PublicKey{gx}` with a fresh `G2`. -/
def allocPk (h : Heap G1 G2) (v : Ptr G2) : Heap G1 G2 :=
  { h with g2 := h.g2 ++ [v], pk := h.pk ++ [h.g2.length] }

/-- `&Apk{PublicKey: &PublicKey{gx}}` with fresh objects. -/
def allocApk (h : Heap G1 G2) (v : Ptr G2) : Heap G1 G2 :=
  { h.allocPk v with apk := h.apk ++ [h.pk.length] }

/-- `&Signature{e}` with a fresh `G1`. -/
def allocSig (h : Heap G1 G2) (v : Ptr G1) : Heap G1 G2 :=
  { h with g1 := h.g1 ++ [v], sig := h.sig ++ [h.g1.length] }

/-- `&UnsafeSignature{e}` with a fresh `G1`. -/
def allocUsig (h : Heap G1 G2) (v : Ptr G1) : Heap G1 G2 :=
  { h with g1 := h.g1 ++ [v], usig := h.usig ++ [h.g1.length] }

/-- Write into the `G2` object of `PublicKey` object `i` (`apk.gx.Add(apk.gx, …)`). -/
def writePk (h : Heap G1 G2) (i : Nat) (v : Ptr G2) : Res (Heap G1 G2) :=
  (idx h.pk i).bind fun c => .ok { h with g2 := h.g2.set c v }

/-- Write into the `G1` object of `Signature` object `s` (`sigma.e.Add(sigma.e, …)`). -/
def writeSig (h : Heap G1 G2) (s : Nat) (v : Ptr G1) : Res (Heap G1 G2) :=
  (idx h.sig s).bind fun c => .ok { h with g1 := h.g1.set c v }

/-- Let `PublicKey` object `i` point to a fresh `G2` (`pk.gx = newG2()`). -/
def repointPk (h : Heap G1 G2) (i : Nat) (v : Ptr G2) : Heap G1 G2 :=
  { h with g2 := h.g2 ++ [v], pk := h.pk.set i h.g2.length }

/-- Let `Signature` object `s` point to a fresh `G1` (`sigma.e = e`). -/
def repointSig (h : Heap G1 G2) (s : Nat) (v : Ptr G1) : Heap G1 G2 :=
  { h with g1 := h.g1 ++ [v], sig := h.sig.set s h.g1.length }

/-- Let `UnsafeSignature` object `u` point to a fresh `G1`. -/
def repointUsig (h : Heap G1 G2) (u : Nat) (v : Ptr G1) : Heap G1 G2 :=
  { h with g1 := h.g1 ++ [v], usig := h.usig.set u h.g1.length }

/-- `NewApk(pk)` (bls/bls.go:175-184): the product is a fresh `G2`. -/
def newApk (h : Heap G1 G2) (i : Nat) : Res (Heap G1 G2) :=
  (h.rdPk i).bind fun pk => (pkt P A (some pk)).bind fun g => .ok (h.allocApk (.pt g))

/-- `apk.Aggregate(pk)` (bls/bls.go:232-240): adds in place. -/
def apkAggregate (h : Heap G1 G2) (a : Nat) (pk : PublicKey G2) : Res (Heap G1 G2) :=
  (pkt P A (some pk)).bind fun gxt => (idx h.apk a).bind fun p => (h.rdPk p).bind fun r => r.gx.get.bind fun g =>
    h.writePk p (.pt (g + gxt))

/-- The loop of `AggregateApk` on the handle created for the first key (bls/bls.go:216-225). -/
def aggregateAll (a : Nat) : Heap G1 G2 → List Nat → Res (Heap G1 G2)
  | h, [] => .ok h
  | h, i :: is => (h.rdPk i).bind fun pk => (apkAggregate P A h a pk).bind fun h' => aggregateAll a h' is

/-- `sigma.Aggregate(other)` (bls/bls.go:303-306): adds in place. -/
def sigAggregate (h : Heap G1 G2) (s : Nat) (other : Signature G1) : Res (Heap G1 G2) :=
  (h.rdSig s).bind fun r => (r.aggregate other).bind fun v => h.writeSig s v.e

/-- One call. An error result leaves the heap as the call left it; a panic ends the history. -/
def step (h : Heap G1 G2) : HOp → Res (Heap G1 G2)
  | .genKeyPair x => .ok (h.allocPk (.pt ((x : F) • P.g2)))
  | .unmarshalPk b =>
      match unmarshalPk P b with
      | .ok pk => .ok (h.allocPk pk.gx)
      | .err _ => .ok h
      | .panic => .panic
  | .unmarshalApk b =>
      match unmarshalApk P b with
      | .ok a => a.gx.bind fun v => .ok (h.allocApk v)
      | .err _ => .ok h
      | .panic => .panic
  | .unmarshalSignature b =>
      match unmarshalSignature P b with
      | .ok v => .ok (h.allocSig v.e)
      | .err _ => .ok h
      | .panic => .panic
  | .newApk i => h.newApk P A i
  | .apkLiteral i => (h.rdPk i).bind fun _ => .ok { h with apk := h.apk ++ [i] }
  | .apkCopy a => (idx h.apk a).bind fun p => (h.rdPk p).bind fun pk =>
      (Apk.copy P ⟨some pk⟩).bind fun c => c.gx.bind fun v => .ok (h.allocApk v)
  | .apkAggregate a i => (h.rdPk i).bind fun pk => h.apkAggregate P A a pk
  | .apkAggregateBytes a b =>
      match PublicKey.unmarshal P ⟨.nil⟩ b with
      | (.ok _, pk) => h.apkAggregate P A a pk
      | (.err _, _) => (idx h.apk a).bind fun p => (h.rdPk p).bind fun _ => .ok h
      | (.panic, _) => .panic
  | .aggregateApk i is =>
      -- the handles exist before the call
      (mapRes h.rdPk (i :: is)).bind fun _ => (h.newApk P A i).bind fun h' => aggregateAll P A h.apk.length h' is
  | .pkAggregate i j => (h.rdPk i).bind fun a => (h.rdPk j).bind fun b => (a.aggregate b).bind fun c =>
      .ok (h.allocPk c.gx)
  | .pkUnmarshal i b => (h.rdPk i).bind fun pk => .ok (h.repointPk i (pk.unmarshal P b).2.gx)
  | .apkUnmarshal a b => (idx h.apk a).bind fun p => (h.rdPk p).bind fun pk =>
      .ok (h.repointPk p (pk.unmarshal P b).2.gx)
  | .sign x i m => (h.rdPk i).bind fun pk => (sign P A ⟨x⟩ (some pk) m).bind fun s => .ok (h.allocSig s.e)
  | .sigCopy s => (h.rdSig s).bind fun v => (v.copy P).bind fun c => .ok (h.allocSig c.e)
  | .sigAggregate s t => (h.rdSig t).bind fun o => h.sigAggregate s o
  | .sigAdd s i u => (h.rdPk i).bind fun pk => (h.rdUsig u).bind fun v =>
      (apkSigWrap P A (some pk) v).bind fun o => h.sigAggregate s o
  | .sigAggregateBytes s b =>
      match Signature.unmarshal P ⟨.nil⟩ b with
      | (.ok _, o) => h.sigAggregate s o
      | (.err _, _) => (h.rdSig s).bind fun _ => .ok h
      | (.panic, _) => .panic
  | .sigUnmarshal s b => (h.rdSig s).bind fun v =>
      match v.unmarshal P b with
      | (.ok _, w) => .ok (h.repointSig s w.e)
      | (.err _, _) => .ok h
      | (.panic, _) => .panic
  | .unsafeSign x m => (unsafeSign P A ⟨x⟩ m).bind fun s => .ok (h.allocUsig s.e)
  | .unsafeAggregate u v => (h.rdUsig u).bind fun a => (h.rdUsig v).bind fun b =>
      (unsafeAggregate (some a) (some b)).bind fun c => .ok (h.allocUsig c.e)
  | .unsafeBatch us => (mapRes h.rdUsig us).bind fun vs =>
      -- the empty batch returns nil, a batch of one returns the pointer it was given
      if us.length < 2 then .ok h
      else (unsafeBatch (vs.map some)).bind fun r => (deref r).bind fun c => .ok (h.allocUsig c.e)
  | .usigUnmarshal u b => (h.rdUsig u).bind fun v =>
      match v.unmarshal P b with
      | (.ok _, w) => .ok (h.repointUsig u w.e)
      | (.err _, _) => .ok h
      | (.panic, _) => .panic

/-- A history of calls. -/
def run : Heap G1 G2 → List HOp → Res (Heap G1 G2)
  | h, [] => .ok h
  | h, o :: os => (step P A h o).bind fun h' => run h' os

end Heap

end Dusk.Bls
