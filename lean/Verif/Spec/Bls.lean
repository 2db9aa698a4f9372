import Mathlib.Algebra.Group.Defs
import Verif.Model.Hash
/-!
# Specification vocabulary for BLS
-/

namespace Dusk.Bls

/-- The SHA3-256 digest of a byte string read as a big-endian integer. -/
def digest (A : Hash.Algs) (m : Bytes) : Nat := beNat (A.sha3_256 m)

/-- `b / a` modulo a prime `r`, computed from public integers. -/
def quot (r a b : Nat) : Nat := b * a ^ (r - 2) % r

/-- Textbook batch equation: `Σ e(H(mᵢ)·g₁, pkᵢ)` over the messages and the keys at the same positions. -/
def batchSum {G1 G2 GT : Type} [AddCommMonoid GT] (e : G1 → G2 → GT) (hash : Bytes → G1) :
    List (Bytes × G2) → GT
  | [] => 0
  | (m, pk) :: rest => e (hash m) pk + batchSum e hash rest

end Dusk.Bls
