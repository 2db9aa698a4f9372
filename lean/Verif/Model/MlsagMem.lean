import Verif.Model.Mlsag
/-!
# The slices of package mlsag in memory

`Verif.Model.Mlsag` treats key vectors and rings as values. In Go they are slices: `PubKeys` is passed by value but shares
its array of points with the caller, and `Signature.PubKeys` is the ring slice of the proof. Here both kinds of arrays are
kept in a store, `append` writes in place when there is spare capacity, and swapping and `SubCommToZero` write in place.
Every slice of the package starts at the beginning of its array.
-/

namespace Dusk.MlsagMem

open Dusk.Mlsag

/-- A slice: its backing array (none for nil) and its length. -/
structure Slice where
  arr : Option Nat := none
  len : Nat := 0
  deriving DecidableEq

/-- Backing arrays; the length of an array is the capacity of its slices. -/
abbrev Store (α : Type) := List (List α)

/-- The backing array of a slice. -/
def arrOf {α : Type} (m : Store α) (s : Slice) : List α := ((s.arr.bind fun i => m[i]?)).getD []

/-- The elements of a slice. -/
def read {α : Type} (m : Store α) (s : Slice) : List α := (arrOf m s).take s.len

/-- Overwrite a backing array. -/
def write {α : Type} (m : Store α) (s : Slice) (f : List α → List α) : Store α :=
  match s.arr with
  | none => m
  | some i => m.modify i f

/-- `append(s, x)`: in place if the capacity allows, else into a new array, whose spare capacity `spare` (filled with zero
values `z`) is up to the runtime. -/
def append {α : Type} (z : α) (spare : Nat → Nat) (m : Store α) (s : Slice) (x : α) : Store α × Slice :=
  if s.len < (arrOf m s).length then (write m s fun a => a.set s.len x, { s with len := s.len + 1 })
  else (m ++ [read m s ++ [x] ++ List.replicate (spare s.len) z], ⟨some m.length, s.len + 1⟩)

/-- `PubKeys` (mlsag/pubkeys.go:11-16). -/
structure Keys where
  decoy : Bool := false
  keys : Slice := {}
  deriving DecidableEq

/-- The memory. -/
structure World (G : Type) where
  pts : Store G
  rings : Store Keys

/-- The growth of arrays of points and of rings. -/
structure Growth where
  pts : Nat → Nat
  rings : Nat → Nat

variable {F G : Type} [Field F] [AddCommGroup G] [Module F G]

/-- The value of a key vector. -/
def view (w : World G) (k : Keys) : PubKeys G := ⟨k.decoy, read w.pts k.keys⟩

/-- The value of a ring. -/
def ring (w : World G) (s : Slice) : List (PubKeys G) := (read w.rings s).map (view w)

/-- `Proof` (mlsag/proof.go:11-29). -/
structure MProof (F : Type) where
  index : Nat := 0
  privKeys : List F := []
  signer : Keys := {}
  matrix : Slice := {}
  msg : Bytes := []

/-- The value of a proof. -/
def MProof.value (w : World G) (p : MProof F) : Proof F G := ⟨p.index, p.privKeys, view w p.signer, ring w p.matrix, p.msg⟩

/-- `PubKeys.AddPubKey` (mlsag/pubkeys.go:65-67). -/
def Keys.addPubKey (g : Growth) (w : World G) (k : Keys) (P : G) : World G × Keys :=
  let a := append 0 g.pts w.pts k.keys P
  ({ w with pts := a.1 }, { k with keys := a.2 })

/-- `Proof.addPubKeys` (mlsag/proof.go:31-34). -/
def MProof.addPubKeys (g : Growth) (w : World G) (p : MProof F) (k : Keys) : World G × MProof F :=
  let a := append {} g.rings w.rings p.matrix k
  ({ w with rings := a.1 }, { p with matrix := a.2 })

/-- `Proof.AddDecoy` (mlsag/proof.go:36-39). -/
def MProof.addDecoy (g : Growth) (w : World G) (p : MProof F) (k : Keys) : World G × MProof F :=
  p.addPubKeys g w { k with decoy := true }

/-- `Proof.AddDecoys` (mlsag/proof.go:41-45). -/
def MProof.addDecoys (g : Growth) : World G → MProof F → List Keys → World G × MProof F
  | w, p, [] => (w, p)
  | w, p, k :: ks => let a := p.addDecoy g w k; MProof.addDecoys g a.1 a.2 ks

/-- `Proof.addSignerPubKey` (mlsag/proof.go:47-51). -/
def MProof.addSignerPubKey (g : Growth) (w : World G) (p : MProof F) : World G × MProof F :=
  let p := { p with signer := { p.signer with decoy := false } }
  p.addPubKeys g w p.signer

/-- `Proof.AddSecret` (mlsag/proof.go:53-62). -/
def MProof.addSecret (R : Ristretto F G) (g : Growth) (w : World G) (p : MProof F) (x : F) : World G × MProof F :=
  let a := p.signer.addPubKey g w (privKeyToPubKey R x)
  (a.1, { p with signer := a.2, privKeys := p.privKeys ++ [x] })

/-- `Proof.shuffleSet` (mlsag/proof.go:71-91): the elements are swapped in the backing array. -/
def MProof.shuffleSet (w : World G) (p : MProof F) (shuffle : Nat → Nat) : World G × MProof F × Res Unit :=
  let n := p.matrix.len
  let rings := write w.rings p.matrix (fun a => shuffleLoop shuffle (n - 1) (a.take n) ++ a.drop n)
  let w' : World G := ⟨w.pts, rings⟩
  match (read rings p.matrix).findIdx? (fun k => !k.decoy) with
  | some i => (w', { p with index := i }, .ok ())
  | none => (w', p, .err "could not find the index of the non-decoy vector of pubkeys")

/-- `Signature` (mlsag/mlsag.go:13-18). -/
structure MSig (F : Type) where
  c : F
  r : List (List F)
  pubKeys : Slice
  msg : Bytes

/-- The value of a signature: what `Verify` sees. -/
def MSig.value (w : World G) (s : MSig F) : Signature F G := ⟨s.c, s.r, ring w s.pubKeys, s.msg⟩

/-- `Proof.prove` (mlsag/mlsag.go:142-259): the ring of the signature is the slice of the proof. The computation of
challenges and responses only reads the memory. -/
def MProof.prove (R : Ristretto F G) (g : Growth) (w : World G) (p : MProof F) (skipLast : Bool) (coins : Coins F) :
    World G × MProof F × Res (MSig F × List G) :=
  let a := p.addSignerPubKey g w
  let s := a.2.shuffleSet a.1 coins.shuffle
  match s.2.2 with
  | .ok _ =>
    if (read s.1.rings s.2.1.matrix).any fun k => k.keys.len ≠ s.2.1.privKeys.length then
      (s.1, s.2.1, .err "all vectors in the pubkey matrix must be the same size")
    else
      (s.1, s.2.1, ((s.2.1.value s.1).sign R skipLast coins).bind fun x => .ok (⟨x.1.c, x.1.r, s.2.1.matrix, x.1.msg⟩, x.2))
  | .err e => (s.1, s.2.1, .err e)
  | .panic => (s.1, s.2.1, .panic)

/-- `DualKey` (mlsag/dualkey.go:11-14). -/
structure MDual (F : Type) where
  proof : MProof F
  key0 : F
  key1 : F

/-- The value of a `DualKey`. -/
def MDual.value (w : World G) (d : MDual F) : DualKey F G := ⟨d.proof.value w, d.key0, d.key1⟩

/-- The body of the loop of `SubCommToZero`: `keys[1]` is changed in the backing array. -/
def subKeys (P : G) (pts : Store G) (k : Keys) : Res (Store G) :=
  if k.keys.len < 2 then .panic else .ok (write pts k.keys fun a => a.modify 1 fun K => K - P)

/-- `DualKey.SubCommToZero` (mlsag/dualkey.go:39-44). -/
def MDual.subCommToZero (w : World G) (d : MDual F) (P : G) : Res (World G) :=
  ((read w.rings d.proof.matrix).foldl (fun (r : Res (Store G)) k => r.bind fun pts => subKeys P pts k) (.ok w.pts)).bind
    fun pts => .ok { w with pts := pts }

/-- `DualKey.Prove` (mlsag/dualkey.go:46-63). -/
def MDual.prove [DecidableEq F] (R : Ristretto F G) (g : Growth) (w : World G) (d : MDual F) (coins : Coins F) :
    World G × MDual F × Res (MSig F × G) :=
  if d.key0 = 0 ∨ d.key1 = 0 then (w, d, .err "primary key or commitment to zero cannot be zero")
  else
    let a := d.proof.addSecret R g w d.key0
    let b := a.2.addSecret R g a.1 d.key1
    let q := b.2.prove R g b.1 true coins
    (q.1, { d with proof := q.2.1 },
      q.2.2.bind fun s =>
        match s.2 with
        | [im] => .ok (s.1, im)
        | _ => .err "dual key mlsag must only contain one key image")

end Dusk.MlsagMem
