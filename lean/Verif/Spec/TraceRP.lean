import Verif.Model.Trace
/-!
# The steps of proving a range, by the number of values and their bits
-/

namespace Dusk.RP

open Step

/-- The same steps `n` times. -/
def rep (n : Nat) (S : List Step) : List Step := (List.replicate n S).flatten

/-- Deriving `n` base points, each of them from the one before. -/
def basesSteps (n : Nat) : List Step := derive :: rep (n - 1) [bytes, derive]

/-- A commitment to two vectors of length `n`, where the base points for the first are known. -/
def vectorsSteps (n : Nat) : List Step :=
  [rand, mult, add] ++ rep n [mult, add] ++ [add, derive] ++ basesSteps n ++ rep n [mult, add] ++ [add]

/-- The first `n` powers of a scalar. -/
def powersSteps (n : Nat) : List Step := isNonZero :: rep (n - 2) [sMul]

/-- The polynomials, for `m` values. -/
def polySteps (m : Nat) : List Step :=
  isNonZero :: rep (64 * m) [sSub] ++ powersSteps (64 * m) ++ powersSteps (m + 3) ++ setBigInt :: powersSteps 64 ++
    rep (64 * m) [sMulAdd] ++ rep (64 * m) [sAdd] ++ rep (64 * m) [sMul] ++ rep (64 * m) [sAdd] ++ rep (64 * m) [sMul] ++
    rep (64 * m) [sMulAdd] ++ rep (64 * m) [sMulAdd] ++ rep (64 * m) [sMulAdd] ++ sAdd :: rep (64 * m) [sMulAdd]

/-- The first round of the inner product proof, for halves of length `n`. -/
def firstSteps (n : Nat) : List Step :=
  rep n [sMulAdd] ++ rep n [sMulAdd] ++
    rep n [mult, add] ++ rep n [sMul] ++ rep n [mult, add] ++ [mult, add, add] ++
    rep n [mult, add] ++ rep n [sMul] ++ rep n [mult, add] ++ [mult, add, add] ++
    [bytes, bytes, .hash 64, sInv] ++
    rep n [sMul, sMul, sAdd, sMul, sMul, sAdd, mult, mult, add, sMul, mult, sMul, mult, add]

/-- Another round, for halves of length `n`, hashing `h` bytes. -/
def nextSteps (n h : Nat) : List Step :=
  rep n [sMulAdd] ++ rep n [sMulAdd] ++
    rep n [mult, add] ++ rep n [mult, add] ++ [mult, add, add] ++
    rep n [mult, add] ++ rep n [mult, add] ++ [mult, add, add] ++
    [bytes, bytes, .hash h, sInv] ++
    rep n [sMul, sMul, sAdd, sMul, sMul, sAdd, mult, mult, add, mult, mult, add]

/-- The other rounds for vectors of length `2 ^ j`, after hashing `h` bytes. -/
def roundsSteps : Nat → Nat → List Step
  | 0, _ => []
  | j + 1, h => nextSteps (2 ^ j) (h + 64) ++ roundsSteps j (h + 64)

/-- Taking values apart: the one thing which depends on the values is which of two branches is taken for each of their 64 low bits. -/
def bitsSteps (vals : List Nat) : List Step :=
  vals.flatMap fun x => [bigInt, sNeg] ++ (List.range 64).map fun i => branch (x.testBit i)

/-- A commitment to two vectors of `n` random scalars. -/
def masksSteps (n : Nat) : List Step := rep n [rand, rand] ++ vectorsSteps n

/-- The blinding factor `taux`, for `m` values. -/
def tauxSteps (m : Nat) : List Step := [sMul, sSquare, sMul, sSquare] ++ rep m [sMulAdd, sMul] ++ [sAdd, sAdd]

/-- A polynomial with two coefficients, which are vectors of length `n`, at a point. -/
def evalSteps (n : Nat) : List Step := rep n [sMul] ++ rep n [sAdd]

/-- The steps of `Prove` of package rangeproof before taking values apart, for `m` values. -/
def beforeSteps (m : Nat) : List Step :=
  derive :: basesSteps (64 * m) ++ rep m [rand, mult, mult, add, bytes]

/-- The steps of `Prove` of package rangeproof after taking `2 ^ k` values apart. -/
def afterSteps (k : Nat) : List Step :=
  vectorsSteps (64 * 2 ^ k) ++ masksSteps (64 * 2 ^ k) ++
    [bytes, bytes] ++ [Step.hash (32 * 2 ^ k + 64), sBytes, .hash 32] ++
    polySteps (2 ^ k) ++
    [rand, mult, mult, add] ++ [rand, mult, mult, add] ++
    [sBytes, bytes, bytes] ++ [Step.hash (32 * 2 ^ k + 160)] ++
    tauxSteps (2 ^ k) ++ [sMulAdd] ++ evalSteps (64 * 2 ^ k) ++ evalSteps (64 * 2 ^ k) ++ rep (64 * 2 ^ k) [sMulAdd] ++
    [isNonZero, isNonZero, isNonZero] ++
    [sBytes, sBytes, sBytes, sBytes] ++ [Step.hash (32 * 2 ^ k + 288)] ++ [mult, sInv] ++
    powersSteps (64 * 2 ^ k) ++ [derive] ++ basesSteps (64 * 2 ^ k) ++
    firstSteps (32 * 2 ^ k) ++ roundsSteps (k + 5) 64

/-- The steps of `Prove` of package rangeproof for values which are padded with zeros to `2 ^ k` of them. -/
def proveSteps (k : Nat) (vals : List Nat) : List Step :=
  beforeSteps (2 ^ k) ++ bitsSteps (vals ++ List.replicate (2 ^ k - vals.length) 0) ++ afterSteps k

/-- The branch taken, if the step is one. -/
def branchOf : Step → Option Bool
  | .branch b => some b
  | _ => none

end Dusk.RP
