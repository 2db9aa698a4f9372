import Verif.Spec.Bls
import Verif.Spec.Oracle
import Verif.Model.Bls
import Verif.Model.Ristretto
/-!
# Attackers with keys of their own against aggregated BLS keys

The attacker gets the public key `X = x g₂` of an honest user, but no signature. It makes keys `a X + b g₂` of its own and says, when it
first hashes a key, how the key is made. SHA3-256 is a random oracle with values in the integers below 2^256, asked for keys and for
messages alike. At the end the attacker names keys among those asked (the first one is the key of the honest user), a message and a
signature `c g₁`.
-/

namespace Dusk.Bls

open Oracle

/-- The values of SHA3-256. -/
abbrev Word := Fin (2 ^ 256)

/-- SHA3-256 replaced by a function with values in the words. -/
def withSha (A : Hash.Algs) (f : Bytes → Word) : Hash.Algs :=
  { A with sha3_256 := fun b => (leBytes 32 (f b).val).reverse, sha3_256_length := fun b => by simp [leBytes_length] }

/-- A question: the key `a X + b g₂`, or any string. -/
inductive Ask (F : Type) where
  | key (a b : F)
  | text (m : Bytes)

/-- The multiple of `X` in a question. -/
def Ask.a {F : Type} [Zero F] : Ask F → F
  | .key a _ => a
  | .text _ => 0

/-- The multiple of `g₂` in a question. -/
def Ask.b {F : Type} [Zero F] : Ask F → F
  | .key _ b => b
  | .text _ => 0

/-- An attacker: the next question from the log, and from the log at the end the numbers of the questions for the keys to be aggregated,
the message, and the signature as a multiple of `g₁`. -/
structure Rogue (F : Type) where
  next : Log Word → Ask F
  keys : Log Word → List Nat
  msg : Log Word → Bytes
  c : Log Word → F

variable {F G1 G2 GT : Type} [Field F] [AddCommGroup G1] [AddCommGroup G2] [AddCommGroup GT]
  [Module F G1] [Module F G2] [Module F GT]
variable (P : Bn256 F G1 G2 GT) (X : G2)

/-- The point `a X + b g₂`. -/
def Ask.point (q : Ask F) : G2 := q.a • X + q.b • P.g2

/-- The string asked. -/
def Ask.bytes : Ask F → Bytes
  | .key a b => P.g2Bytes ((Ask.key a b).point P X)
  | .text m => m

namespace Rogue

variable (R : Rogue F)

/-- The log for given coins. -/
def log (coins : List Word) : Log Word := play (fun l => (R.next l).bytes P X) coins

/-- Question number `k`. -/
def asked (coins : List Word) (k : Nat) : Ask F := R.next (R.log P X (coins.take k))

/-- The rules: the first question is the key of the honest user; this key is among those named; each key named was composed by the attacker
when it was first hashed; the message was hashed. -/
structure Proper (coins : List Word) : Prop where
  first : R.asked P X coins 0 = .key 1 0
  honest : 0 ∈ R.keys (R.log P X coins)
  keys : ∀ k ∈ R.keys (R.log P X coins), k < coins.length ∧ (∃ a b, R.asked P X coins k = .key a b) ∧
    (R.log P X (coins.take k)).lookup ((R.asked P X coins k).bytes P X) = none
  msg : ∃ w, (R.log P X coins).lookup (R.msg (R.log P X coins)) = some w

/-- The keys named. -/
def points (coins : List Word) : List G2 := (R.keys (R.log P X coins)).map fun k => (R.asked P X coins k).point P X

/-- The signature is accepted for the aggregate of the keys named. -/
def Wins (A : Hash.Algs) (coins : List Word) : Prop :=
  ∃ apk, aggregateApk P (withSha A (R.log P X coins).hash) ((R.points P X coins).map fun g => some ⟨.pt g⟩) = .ok (some apk) ∧
    Verify P (withSha A (R.log P X coins).hash) (some apk) (R.msg (R.log P X coins)) (some ⟨.pt (R.c (R.log P X coins) • P.g1)⟩) = .ok ()

/-- The secret of the honest user, computed from the answers and from what the attacker has said:
`x = (c / d - Σ tᵢ bᵢ) / Σ tᵢ aᵢ` with the digest `d` of the message and the answers `tᵢ`. -/
def secret (coins : List Word) : F :=
  (R.c (R.log P X coins) / ((R.log P X coins).hash (R.msg (R.log P X coins))).val -
      ((R.keys (R.log P X coins)).map fun k => ((coins.getD k 0).val : F) * (R.asked P X coins k).b).sum) /
    ((R.keys (R.log P X coins)).map fun k => ((coins.getD k 0).val : F) * (R.asked P X coins k).a).sum

end Rogue

end Dusk.Bls
