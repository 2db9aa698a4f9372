import Verif.Model.Ristretto
/-!
# Specification of MLSAG ring signatures

A ring member is a pair of a key vector and a response vector. Verification chains a hash around the ring.
-/

namespace Dusk.Mlsag

variable {F G : Type} [Field F] [AddCommGroup G] [Module F G]

/-- What is hashed for a ring member with key vector `K`, response vector `r` and challenge `c`, given the message and the
key images `I`: the points `r_i G + c K_i` for all keys, then `r_i Hp(K_i) + c I_i` for all images. -/
def query (R : Ristretto F G) (msg : Bytes) (I K : List G) (r : List F) (c : F) : Bytes :=
  msg ++ (List.zipWith (fun k x => R.pBytes (x • R.base + c • k)) K r).flatten ++
    (List.zipWith (fun (kx : G × F) im => R.pBytes (kx.2 • R.pDerive (R.pBytes kx.1) + c • im)) (K.zip r) I).flatten

/-- The next challenge. -/
def link (R : Ristretto F G) (msg : Bytes) (I K : List G) (r : List F) (c : F) : F := R.sDerive (query R msg I K r c)

/-- The challenge after going once around the ring. -/
def around (R : Ristretto F G) (msg : Bytes) (I : List G) (ring : List (List G × List F)) (c : F) : F :=
  ring.foldl (fun c m => link R msg I m.1 m.2 c) c

/-- The dimensions fit: every member has a response for every key and every image, and a key for every image. -/
def Fits (I : List G) (ring : List (List G × List F)) : Prop :=
  ∀ m ∈ ring, m.1.length ≤ m.2.length ∧ I.length ≤ m.1.length

/-- The key image of a secret key. -/
def image (R : Ristretto F G) (x : F) : G := x • R.pDerive (R.pBytes (x • R.base))

end Dusk.Mlsag
