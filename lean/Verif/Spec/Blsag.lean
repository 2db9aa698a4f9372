import Verif.Model.Blsag
/-!
# Specification of bLSAG ring signatures
-/

namespace Dusk.Blsag

variable {F G P : Type} [Field F] [AddCommGroup G] [Module F G]

/-- The next challenge: `Hs(m, s G + c K, s Hp(K) + c I)`. -/
def link (R : Ristretto F G) (V : Raw F G P) (m : Bytes) (I K : P) (s c : F) : F :=
  R.sDerive (m ++ V.bytes (V.add (V.smulBase s) (V.smul K c)) ++
    V.bytes (V.add (V.smul (V.derive (V.bytes K)) s) (V.smul I c)))

/-- The challenge after going once around the ring of keys and responses. -/
def around (R : Ristretto F G) (V : Raw F G P) (m : Bytes) (I : P) (ring : List (P × F)) (c : F) : F :=
  ring.foldl (fun c x => link R V m I x.1 x.2 c) c

/-- The same over group elements. -/
def glink (R : Ristretto F G) (m : Bytes) (I K : G) (s c : F) : F :=
  R.sDerive (m ++ R.pBytes (s • R.base + c • K) ++ R.pBytes (s • R.pDerive (R.pBytes K) + c • I))

end Dusk.Blsag
