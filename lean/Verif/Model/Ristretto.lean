import Mathlib.Algebra.Module.Basic
import Mathlib.Algebra.Field.Basic
import Mathlib.Algebra.Field.ZMod
import Verif.Lemmas.PrimeEll
import Verif.Go.Core
/-!
# The go-ristretto library as seen by dusk-crypto

`ristretto.Scalar` is an element of a field `F`, `ristretto.Point` an element of an `F`-module `G`.
Arithmetic methods are the operations of the field and the module:

* `s.Add/Sub/Mul/Square/Neg/SetZero/SetOne/Equals`, `s.MulAdd(a,b,c) = a*b+c`, `s.Inverse` (`0⁻¹ = 0`, as
  in the library, which computes `x^(ℓ-2)`), `s.IsNonZeroI()`, `s.SetBigInt(n)` is the cast `(n : F)`;
* `p.Add/Sub/SetZero/Equals`, `p.ScalarMult(q, s) = s • q`, `p.ScalarMultBase(s) = s • base`.

Everything else the code uses from the library is a field of the structure below. It is a *parameter* of
the model: no property of the hash functions is assumed. The laws about byte encodings are kept apart
(`Ristretto.Encodings`), since soundness statements are made over modules with many independent points,
which do not fit into 32 bytes.
-/

namespace Dusk

/-- What dusk-crypto uses of github.com/bwesterb/go-ristretto. -/
structure Ristretto (F G : Type) [Field F] [AddCommGroup G] [Module F G] where
  /-- the group order `ℓ` -/
  order : Nat
  /-- bit lengths: 64-bit values embed into the scalars -/
  two64_lt : 2 ^ 64 < order
  cast_eq_zero : ∀ n : Nat, (n : F) = 0 ↔ order ∣ n
  /-- `Scalar.BigInt`: canonical representative -/
  sNat : F → Nat
  sNat_lt : ∀ x, sNat x < order
  cast_sNat : ∀ x, (sNat x : F) = x
  /-- `Scalar.Bytes` -/
  sBytes : F → Bytes
  /-- `Scalar.SetBytes` -/
  sOfBytes : Bytes → F
  /-- `Scalar.Derive`: hash to a scalar -/
  sDerive : Bytes → F
  /-- `Point.Bytes` -/
  pBytes : G → Bytes
  /-- `Point.SetBytes`: the resulting point and whether the encoding was valid -/
  pOfBytes : Bytes → G × Bool
  /-- `Point.Derive`: hash to a point -/
  pDerive : Bytes → G
  /-- `Point.SetBase` -/
  base : G

/-- Scalars and points have 32-byte encodings that decode to the same value. -/
structure Ristretto.Encodings {F G : Type} [Field F] [AddCommGroup G] [Module F G]
    (R : Ristretto F G) : Prop where
  sBytes_length : ∀ x, (R.sBytes x).length = 32
  sOfBytes_sBytes : ∀ x, R.sOfBytes (R.sBytes x) = x
  pBytes_length : ∀ p, (R.pBytes p).length = 32
  pOfBytes_pBytes : ∀ p, R.pOfBytes (R.pBytes p) = (p, true)

namespace Ristretto

variable {F G : Type} [Field F] [AddCommGroup G] [Module F G] (R : Ristretto F G)

theorem Encodings.sBytes_inj {R : Ristretto F G} (E : R.Encodings) {x y : F}
    (h : R.sBytes x = R.sBytes y) : x = y := by
  rw [← E.sOfBytes_sBytes x, h, E.sOfBytes_sBytes]

theorem Encodings.pBytes_inj {R : Ristretto F G} (E : R.Encodings) {p q : G}
    (h : R.pBytes p = R.pBytes q) : p = q := by
  have := E.pOfBytes_pBytes p
  rw [h, E.pOfBytes_pBytes] at this
  exact (congrArg Prod.fst this).symm

theorem cast_inj {m n : Nat} (hm : m < R.order) (hn : n < R.order) (h : (m : F) = n) : m = n := by
  rcases Nat.le_total m n with hle | hle
  · have : ((n - m : Nat) : F) = 0 := by rw [Nat.cast_sub hle, h, sub_self]
    have := Nat.eq_zero_of_dvd_of_lt ((R.cast_eq_zero _).1 this) (by omega)
    omega
  · have : ((m - n : Nat) : F) = 0 := by rw [Nat.cast_sub hle, h, sub_self]
    have := Nat.eq_zero_of_dvd_of_lt ((R.cast_eq_zero _).1 this) (by omega)
    omega

theorem sNat_cast {n : Nat} (hn : n < R.order) : R.sNat (n : F) = n :=
  R.cast_inj (R.sNat_lt _) hn (R.cast_sNat _)

include R in
theorem two_ne_zero : (2 : F) ≠ 0 := by
  intro h
  have h2 : ((2 : Nat) : F) = 0 := by exact_mod_cast h
  have := Nat.le_of_dvd (by norm_num) ((R.cast_eq_zero 2).1 h2)
  have := R.two64_lt
  omega

end Ristretto

/-! ## A concrete instance

`ℤ/ℓ` as a module over itself, little-endian encodings, and two "hash" functions that never return zero.
(Discrete logarithms are trivial here: the instance shows that the assumptions are consistent, it is not
the Ristretto group.) -/

/-- `k` little-endian bytes of `n`. -/
def leBytes : Nat → Nat → Bytes
  | 0, _ => []
  | k + 1, n => UInt8.ofNat n :: leBytes k (n / 256)

/-- Little-endian value of a byte string. -/
def leNat : Bytes → Nat
  | [] => 0
  | b :: bs => b.toNat + 256 * leNat bs

theorem leBytes_length : ∀ k n, (leBytes k n).length = k
  | 0, _ => rfl
  | k + 1, n => by simp [leBytes, leBytes_length k]

theorem leNat_leBytes : ∀ k n, leNat (leBytes k n) = n % 256 ^ k
  | 0, n => by simp [leBytes, leNat, Nat.mod_one]
  | k + 1, n => by
    simp only [leBytes, leNat, UInt8.toNat_ofNat', leNat_leBytes k]
    rw [show (256 : Nat) ^ (k + 1) = 256 * 256 ^ k from pow_succ' _ _, show (2 : Nat) ^ 8 = 256 by norm_num, Nat.mod_mul]

namespace Toy

open Dusk.PrimeEll

/-- Scalars (and points) of the concrete instance. -/
abbrev K := ZMod ell

/-- A non-constant, never vanishing "hash". -/
def dv (b : Bytes) : K := ((leNat b % (ell - 1) + 1 : Nat) : K)

theorem dv_ne_zero (b : Bytes) : dv b ≠ 0 := by
  unfold dv
  rw [Ne, ZMod.natCast_eq_zero_iff]
  have h1 : 1 < ell := ell_prime.one_lt
  have h2 : leNat b % (ell - 1) < ell - 1 := Nat.mod_lt _ (by omega)
  exact Nat.not_dvd_of_pos_of_lt (by omega) (by omega)

/-- The concrete instance. -/
def ris : Ristretto K K where
  order := ell
  two64_lt := two64_lt_ell
  cast_eq_zero n := ZMod.natCast_eq_zero_iff n ell
  sNat x := x.val
  sNat_lt x := ZMod.val_lt x
  cast_sNat x := ZMod.natCast_zmod_val x
  sBytes x := leBytes 32 x.val
  sOfBytes b := (leNat b : K)
  sDerive := dv
  pBytes x := leBytes 32 x.val
  pOfBytes b := ((leNat b : K), decide (b.length = 32 ∧ leNat b < ell))
  pDerive := dv
  base := 1

theorem leNat_val (x : K) : leNat (leBytes 32 x.val) = x.val := by
  rw [leNat_leBytes]
  exact Nat.mod_eq_of_lt ((ZMod.val_lt x).trans ell_lt)

theorem ris_sBytes (x : K) : ris.sBytes x = leBytes 32 x.val := rfl
theorem ris_pBytes (x : K) : ris.pBytes x = leBytes 32 x.val := rfl
theorem ris_sOfBytes (b : Bytes) : ris.sOfBytes b = (leNat b : K) := rfl
theorem ris_pOfBytes (b : Bytes) :
    ris.pOfBytes b = ((leNat b : K), decide (b.length = 32 ∧ leNat b < ell)) := rfl

theorem ris_encodings : ris.Encodings := by
  have h3 : ∀ x : K, ((x.val : Nat) : K) = x := fun x => ZMod.natCast_zmod_val x
  refine ⟨fun x => ?_, fun x => ?_, fun x => ?_, fun x => ?_⟩
  · rw [ris_sBytes, leBytes_length]
  · rw [ris_sBytes, ris_sOfBytes, leNat_val, h3]
  · rw [ris_pBytes, leBytes_length]
  · have h2 : x.val < ell := ZMod.val_lt x
    rw [ris_pBytes, ris_pOfBytes, leNat_val, h3, leBytes_length, decide_eq_true ⟨rfl, h2⟩]

end Toy

end Dusk
