import Verif.Model.Trace
/-!
# The steps of signing and verifying, by the sizes of the arguments
-/

namespace Dusk

open Step

/-- The members of a ring of `n` visited by `Verify` of package mlsag: each of them once, a single member twice. -/
def Mlsag.visited (n : Nat) : List Nat := if n = 1 then [0, 0] else List.range n

/-- A challenge, for a member with `d` keys, `v` images and a message of `L` bytes. -/
def Mlsag.challengeSteps (d v L : Nat) : List Step :=
  (List.replicate d [base, mult, add, bytes]).flatten ++ (List.replicate v [bytes, derive, mult, mult, add, bytes]).flatten ++
    [.hash (L + 32 * (d + v))]

/-- The steps of `Prove` of package mlsag after finding the signer, for a ring of `n` members with `d` keys each, of which `v` have
images, and a message of `L` bytes. -/
def Mlsag.signSteps (n d v L : Nat) : List Step :=
  List.replicate n len ++ (List.replicate d [bytes, derive, mult]).flatten ++ List.replicate d rand ++ List.replicate ((n - 1) * d) rand ++
    (List.replicate d [base, bytes]).flatten ++ (List.replicate v [bytes, derive, mult, bytes]).flatten ++ [.hash (L + 32 * (d + v))] ++
    (List.replicate (n - 1) (Mlsag.challengeSteps d v L)).flatten ++ (List.replicate d [sMul, sNeg, sAdd]).flatten

/-- The calls of `Intn` for shuffling `n` members. -/
def Mlsag.shuffleSteps : Nat → List Step
  | 0 => []
  | 1 => []
  | n + 2 => intn (n + 2) :: Mlsag.shuffleSteps (n + 1)

/-- The steps of `Prove` of package mlsag, for a signer at position `pos`. -/
def Mlsag.proveSteps (n d v L pos : Nat) : List Step :=
  Mlsag.shuffleSteps n ++ List.replicate (pos + 1) look ++ Mlsag.signSteps n d v L

/-- The hash of one member in package blsag, for a message of `L` bytes. -/
def Blsag.memberSteps (L : Nat) : List Step :=
  [bytes, derive, base, mult, add, mult, mult, add, bytes, bytes, .hash (L + 64)]

/-- The steps of `Sign` of package blsag, for a ring of `n` members. -/
def Blsag.signSteps (n L : Nat) : List Step :=
  [base, intn n, bytes, derive, mult, rand] ++ List.replicate (n - 1) rand ++ [base, mult, bytes, bytes, .hash (L + 64)] ++
    (List.replicate (n - 1) (Blsag.memberSteps L)).flatten ++ [sMul, sNeg, sAdd]

/-- The steps of `Verify` of package blsag. -/
def Blsag.verifySteps (n L : Nat) : List Step :=
  (List.replicate n (Blsag.memberSteps L)).flatten ++ (List.replicate n [bytes, bytes, .hash (L + 64), equals]).flatten ++ [equals]

end Dusk
