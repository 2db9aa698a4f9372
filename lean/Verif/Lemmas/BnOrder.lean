import Verif.Lemmas.CurveChain
import Verif.Spec.BnCurve
/-!
# The orders of the base points of bn256

Evaluated in the kernel by double and add (`Lemmas/CurveChain`).
-/

namespace Dusk.BnCurve

open Curve WeierstrassCurve.Affine

/-- `k n`, evaluating `n` first. -/
def forceN {β : Type} (n : Nat) (k : Nat → β) : β := Nat.rec (k 0) (fun m _ => k (m + 1)) n

theorem forceN_eq {β : Type} (n : Nat) (k : Nat → β) : forceN n k = k n := by cases n <;> rfl

/-- The extended Euclidean algorithm modulo `p`. -/
def egcd : Nat → Nat → Nat → Nat → Nat → Nat
  | 0, _, _, t, _ => t
  | f + 1, a, b, t, s =>
    if b = 0 then t
    else forceN (a % b) fun c => forceN ((t + (p - a / b * s % p)) % p) fun w => egcd f b c s w

def addM (a b : Nat) : Nat := (a + b) % p
def subM (a b : Nat) : Nat := (a + (p - b % p)) % p
def mulM (a b : Nat) : Nat := a * b % p

theorem cast_mod (n : Nat) : ((n % p : Nat) : Fp) = n := ZMod.natCast_mod n p

theorem cast_addM (a b : Nat) : ((addM a b : Nat) : Fp) = a + b := by rw [addM, cast_mod, Nat.cast_add]
theorem cast_mulM (a b : Nat) : ((mulM a b : Nat) : Fp) = a * b := by rw [mulM, cast_mod, Nat.cast_mul]
theorem cast_subM (a b : Nat) : ((subM a b : Nat) : Fp) = a - b := by
  rw [subM, cast_mod, Nat.cast_add, Nat.cast_sub (Nat.mod_lt _ fact_p.1.pos).le, cast_mod, ZMod.natCast_self]
  ring

/-- Residues. -/
def A1 : Arith Fp where
  C := Nat
  val n := n
  one := 1
  zero := 0
  add := addM
  sub := subM
  mul := mulM
  inv a := egcd 600 p a 0 1
  eqb a b := a == b
  force := forceN
  val_one := Nat.cast_one
  val_zero := Nat.cast_zero
  val_add := cast_addM
  val_sub := cast_subM
  val_mul := cast_mulM
  eqb_sound a b h := by rw [eq_of_beq h]
  force_eq := forceN_eq

/-- The bits of a number, the highest first, without the highest. -/
def bitsOf : Nat → Nat → List Bool → List Bool
  | 0, _, l => l
  | f + 1, n, l => if n < 2 then l else bitsOf f (n / 2) ((n % 2 == 1) :: l)

/-- The point of the constant `g1Str`. -/
def g1x : Nat := 1
def g1y : Nat := p - 2

def check (F : Type) [Field F] (A : Arith F) (x y : A.C) : Bool :=
  match A.run x y (bitsOf 300 (r - 1) []) x y with
  | none => false
  | some s => A.eqb s.1 x && A.eqb (A.add s.2 y) A.zero

theorem bits_r : bitsVal (bitsOf 300 (r - 1) []) 1 + 1 = r := by decide +kernel

theorem check1 : check Fp A1 g1x g1y = true := by decide +kernel

/-- Pairs of residues. -/
def A2 : Arith Fp2 where
  C := Nat × Nat
  val n := ⟨n.1, n.2⟩
  one := (1, 0)
  zero := (0, 0)
  add a b := (addM a.1 b.1, addM a.2 b.2)
  sub a b := (subM a.1 b.1, subM a.2 b.2)
  mul a b := (subM (mulM a.1 b.1) (mulM a.2 b.2), addM (mulM a.1 b.2) (mulM a.2 b.1))
  inv a := forceN (egcd 600 p (addM (mulM a.1 a.1) (mulM a.2 a.2)) 0 1) fun n => (mulM a.1 n, mulM (subM 0 a.2) n)
  eqb a b := a.1 == b.1 && a.2 == b.2
  force a k := forceN a.1 fun x => forceN a.2 fun y => k (x, y)
  val_one := by
    refine QuadraticAlgebra.ext ?_ ?_
    · exact Nat.cast_one
    · exact Nat.cast_zero
  val_zero := by ext <;> simp
  val_add a b := by ext <;> simp [cast_addM]
  val_sub a b := by ext <;> simp [cast_subM]
  val_mul a b := by ext <;> simp [cast_subM, cast_mulM, cast_addM] <;> ring
  eqb_sound a b h := by
    rw [Bool.and_eq_true] at h
    rw [eq_of_beq h.1, eq_of_beq h.2]
  force_eq a k := by rw [forceN_eq, forceN_eq]

/-- The point of the constant `g2Str`. -/
def g2x : Nat × Nat := (64746500191241794695844075326670126197795977525365406531717464316923369116492, 21167961636542580255011770066570541300993051739349375019639421053990175267184)
def g2y : Nat × Nat := (17778617556404439934652658462602675281523610326338642107814333856843981424549, 20666913350058776956210519119118544732556678129809273996262322366050359951122)

theorem check2 : check Fp2 A2 g2x g2y = true := by decide +kernel

theorem nonsingular_of {F : Type} [Field F] {W : WeierstrassCurve.Affine F} (h1 : W.a₁ = 0) (h2 : W.a₂ = 0) (h3 : W.a₃ = 0)
    (h4 : W.a₄ = 0) {x y : F} (hy : y + y ≠ 0) (h : y ^ 2 = x ^ 3 + W.a₆) : W.Nonsingular x y := by
  rw [nonsingular_iff, equation_iff, h1, h2, h3, h4]
  refine ⟨by linear_combination h, Or.inr ?_⟩
  intro e
  exact hy (by linear_combination e)

theorem annihilates {F : Type} [Field F] [DecidableEq F] (A : Arith F) {W : WeierstrassCurve.Affine F} (h1 : W.a₁ = 0)
    (h2 : W.a₂ = 0) (h3 : W.a₃ = 0) (h4 : W.a₄ = 0) {x y : A.C} (h : W.Nonsingular (A.val x) (A.val y))
    (hc : check F A x y = true) : r • (Point.some _ _ h : W.Point) = 0 := by
  unfold check at hc
  split at hc
  · cases hc
  · rename_i s hs
    rw [Bool.and_eq_true] at hc
    have := annihilated A h1 h2 h3 h4 h _ s hs hc.1 hc.2
    rwa [bits_r] at this

theorem order_eq {G : Type} [AddGroup G] {P : G} (h : r • P = 0) (h0 : P ≠ 0) : addOrderOf P = r :=
  addOrderOf_eq_prime h h0

end Dusk.BnCurve
