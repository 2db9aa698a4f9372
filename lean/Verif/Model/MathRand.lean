import Verif.Model.Mlsag
import Verif.Model.Blsag
/-!
# The generator of math/rand behind the ring signatures

Package mlsag shuffles its ring with `rand.New(rand.NewSource(time.Now().Unix()))` (mlsag/proof.go:72), package blsag draws the
position of the signer after `rand.Seed(time.Now().UnixNano())` (ringsig/blsag/blsag.go:28-29), which sets the generator that the
whole program shares. The generator itself is not modelled: it is any type of states with a function that makes a state from a
seed and a function that draws. `Documented` states what the documentation of math/rand says about them.
-/

namespace Dusk

/-- `rand.NewSource(seed)`, or `rand.Seed(seed)` for the shared generator, and `Intn(n)`: the number and the next state. -/
structure MathRand (S : Type) where
  seed : Int → S
  intn : S → Nat → Nat × S

/-- The documentation of math/rand: seeds with the same remainder modulo `2^31 - 1` generate the same sequence; `Intn(n)` is
in `[0, n)`. -/
structure MathRand.Documented {S : Type} (g : MathRand S) : Prop where
  seed_mod : ∀ a b : Int, a % (2 ^ 31 - 1) = b % (2 ^ 31 - 1) → g.seed a = g.seed b
  intn_lt : ∀ s n, 0 < n → (g.intn s n).1 < n

variable {F G : Type} [Field F] [AddCommGroup G] [Module F G]

/-- The draws `r.Intn(i + 1)` of the loop from `i = top` down to 1 (mlsag/proof.go:73-76), by index. -/
def MathRand.draws {S : Type} (g : MathRand S) : S → Nat → Nat → Nat
  | _, 0 => fun _ => 0
  | s, i + 1 => fun k => if k = i + 1 then (g.intn s (i + 2)).1 else g.draws (g.intn s (i + 2)).2 i k

/-- `Proof.prove` (mlsag/mlsag.go:142-259) in the second `seconds`, with the generator of `shuffleSet` (mlsag/proof.go:71-92). The
ring has one member more than the matrix: the signer. -/
def Mlsag.Proof.proveAt {S : Type} [DecidableEq F] (g : MathRand S) (seconds : Int) (R : Ristretto F G) (skip : Bool)
    (nonce : Nat → F) (resp : Nat → Nat → F) (p : Mlsag.Proof F G) : Mlsag.Proof F G × Res (Mlsag.Signature F G × List G) :=
  p.prove R skip ⟨nonce, resp, g.draws (g.seed seconds) p.matrix.length⟩

/-- `Sign` (ringsig/blsag/blsag.go:21-100) at the nanosecond `nanos`, with the state of the generator shared by the program before
and after it. -/
def Blsag.signAt {S P : Type} (g : MathRand S) (nanos : Int) (R : Ristretto F G) (V : Blsag.Raw F G P) (m : Bytes) (mixin : List P)
    (sK alpha : F) (s : Nat → F) (_before : S) : Res (Blsag.RingSignature F P) × S :=
  let d := g.intn (g.seed nanos) (mixin.length + 1)
  (Blsag.sign R V m mixin sK ⟨d.1, alpha, s⟩, d.2)

/-! ## Several goroutines -/

/-- The next steps of `Sign` in a goroutine: `rand.Seed` (line 28), `rand.Intn` (line 29), or the rest. Each of the two calls holds
the lock of the shared generator; there is no lock around both. -/
inductive SignStep
  | seed
  | draw
  | rest
deriving DecidableEq

/-- The shared generator, and for every call of `Sign` where it is and the position it drew. -/
structure Signers (S ι : Type) where
  gen : S
  next : ι → SignStep
  position : ι → Option Nat

/-- One step of the call `i`, which reads the time `nanos i` and has a ring of `size i` members (ringsig/blsag/blsag.go:27-29). -/
def Signers.step {S ι : Type} [DecidableEq ι] (g : MathRand S) (nanos : ι → Int) (size : ι → Nat) (c : Signers S ι) (i : ι) : Signers S ι :=
  match c.next i with
  | .seed => { c with gen := g.seed (nanos i), next := Function.update c.next i .draw }
  | .draw => ⟨(g.intn c.gen (size i)).2, Function.update c.next i .rest, Function.update c.position i (some (g.intn c.gen (size i)).1)⟩
  | .rest => c

/-- Calls that have not begun, on a generator in any state. -/
def Signers.start {S ι : Type} (s : S) : Signers S ι := ⟨s, fun _ => .seed, fun _ => none⟩

/-- The steps in the order of the list. -/
def Signers.exec {S ι : Type} [DecidableEq ι] (g : MathRand S) (nanos : ι → Int) (size : ι → Nat) (c : Signers S ι) (sched : List ι) : Signers S ι :=
  sched.foldl (Signers.step g nanos size) c

end Dusk
