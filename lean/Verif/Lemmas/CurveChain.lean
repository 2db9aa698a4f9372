import Mathlib.AlgebraicGeometry.EllipticCurve.Affine.Point
import Mathlib.Tactic.LinearCombination
/-!
# Multiples of a point of a curve `y² = x³ + b`, by double and add

`Arith` is a representation of field elements on which the kernel can calculate. `run` computes a multiple of a point in affine
coordinates; every inverse it uses is checked by a multiplication, so nothing is assumed of `inv`.
-/

namespace Dusk.Curve

open WeierstrassCurve.Affine

/-- Computable representatives of field elements. -/
structure Arith (F : Type) [Field F] where
  C : Type
  val : C → F
  one : C
  zero : C
  add : C → C → C
  sub : C → C → C
  mul : C → C → C
  inv : C → C
  eqb : C → C → Bool
  /-- evaluates its first argument -/
  force : C → (C → Option (C × C)) → Option (C × C)
  val_one : val one = 1
  val_zero : val zero = 0
  val_add : ∀ a b, val (add a b) = val a + val b
  val_sub : ∀ a b, val (sub a b) = val a - val b
  val_mul : ∀ a b, val (mul a b) = val a * val b
  eqb_sound : ∀ a b, eqb a b = true → val a = val b
  force_eq : ∀ a k, force a k = k a

variable {F : Type} [Field F] (A : Arith F)

/-- The third point of the line of slope `l` through two points, reflected. -/
def Arith.finish (l : A.C) (x y x' : A.C) : Option (A.C × A.C) :=
  A.force l fun l => A.force (A.sub (A.sub (A.mul l l) x) x') fun x3 =>
    A.force (A.sub (A.mul l (A.sub x x3)) y) fun y3 => some (x3, y3)

/-- Twice a point. -/
def Arith.dbl (x y : A.C) : Option (A.C × A.C) :=
  A.force (A.add y y) fun d => A.force (A.inv d) fun i =>
    if A.eqb (A.mul d i) A.one then
      A.force (A.mul x x) fun q => A.finish (A.mul (A.add q (A.add q q)) i) x y x
    else none

/-- The sum of two points with different first coordinates. -/
def Arith.plus (x y x' y' : A.C) : Option (A.C × A.C) :=
  A.force (A.sub x x') fun d => A.force (A.inv d) fun i =>
    if A.eqb (A.mul d i) A.one then A.finish (A.mul (A.sub y y') i) x y x'
    else none

/-- Double and add, the highest bit first. -/
def Arith.run (x0 y0 : A.C) : List Bool → A.C → A.C → Option (A.C × A.C)
  | [], x, y => some (x, y)
  | b :: l, x, y =>
    match A.dbl x y with
    | none => none
    | some (x, y) =>
      if b then
        match A.plus x y x0 y0 with
        | none => none
        | some (x, y) => Arith.run x0 y0 l x y
      else Arith.run x0 y0 l x y

/-- The number with the given bits after `n`. -/
def bitsVal : List Bool → Nat → Nat
  | [], n => n
  | b :: l, n => bitsVal l (2 * n + if b then 1 else 0)

theorem finish_eq {l x y x' : A.C} {s : A.C × A.C} (h : A.finish l x y x' = some s) :
    A.val s.1 = A.val l ^ 2 - A.val x - A.val x' ∧ A.val s.2 = A.val l * (A.val x - A.val s.1) - A.val y := by
  simp only [Arith.finish, A.force_eq, Option.some.injEq] at h
  subst h
  simp only [A.val_sub, A.val_mul]
  exact ⟨by ring, trivial⟩

variable [DecidableEq F] {W : WeierstrassCurve.Affine F} (h1 : W.a₁ = 0) (h2 : W.a₂ = 0) (h3 : W.a₃ = 0) (h4 : W.a₄ = 0)

/-- `n` times the point `P` has the coordinates `(x, y)`. -/
def IsMul (W : WeierstrassCurve.Affine F) (P : W.Point) (n : Nat) (x y : F) : Prop :=
  ∃ h : W.Nonsingular x y, n • P = Point.some x y h

include h1 h2 h3 h4

theorem double_some {x y : F} (h : W.Nonsingular x y) {i : F} (hi : (y + y) * i = 1) {l x3 y3 : F} (hl : l = 3 * x ^ 2 * i)
    (hx : x3 = l ^ 2 - x - x) (hy : y3 = l * (x - x3) - y) :
    ∃ h' : W.Nonsingular x3 y3, (Point.some x y h + Point.some x y h : W.Point) = Point.some x3 y3 h' := by
  have hne : y + y ≠ 0 := fun e => by rw [e, zero_mul] at hi; exact zero_ne_one hi
  have hn : W.negY x y = -y := by simp [negY, h1, h3]
  have hy' : y ≠ W.negY x y := by
    rw [hn]; intro e; exact hne (by linear_combination e)
  have hsl : W.slope x x y y = l := by
    rw [slope_of_Y_ne rfl hy', hn, h1, h2, h4, hl, div_eq_iff (by rw [sub_neg_eq_add]; exact hne)]
    linear_combination -(3 * x ^ 2) * hi
  have ex : W.addX x x (W.slope x x y y) = x3 := by simp only [addX, hsl, h1, h2, hx]; ring
  have ey : W.addY x x y (W.slope x x y y) = y3 := by
    rw [addY, negAddY, ex, hsl]
    simp only [negY, h1, h3, hy]
    ring
  refine ⟨by rw [← ex, ← ey]; exact nonsingular_add h h fun hxy => hy' hxy.2, ?_⟩
  rw [Point.add_self_of_Y_ne hy']
  simp only [Point.some.injEq]
  exact ⟨ex, ey⟩

omit h4 in
theorem plus_some {x y x' y' : F} (h : W.Nonsingular x y) (h' : W.Nonsingular x' y') {i : F} (hi : (x - x') * i = 1) {l x3 y3 : F}
    (hl : l = (y - y') * i) (hx : x3 = l ^ 2 - x - x') (hy : y3 = l * (x - x3) - y) :
    ∃ h'' : W.Nonsingular x3 y3, (Point.some x y h + Point.some x' y' h' : W.Point) = Point.some x3 y3 h'' := by
  have hne : x - x' ≠ 0 := fun e => by rw [e, zero_mul] at hi; exact zero_ne_one hi
  have hx' : x ≠ x' := fun e => hne (by rw [e, sub_self])
  have hsl : W.slope x x' y y' = l := by
    rw [slope_of_X_ne hx', hl, div_eq_iff hne]
    linear_combination -(y - y') * hi
  have ex : W.addX x x' (W.slope x x' y y') = x3 := by simp only [addX, hsl, h1, h2, hx]; ring
  have ey : W.addY x x' y (W.slope x x' y y') = y3 := by
    rw [addY, negAddY, ex, hsl]
    simp only [negY, h1, h3, hy]
    ring
  refine ⟨by rw [← ex, ← ey]; exact nonsingular_add h h' fun hxy => hx' hxy.1, ?_⟩
  rw [Point.add_of_X_ne hx']
  simp only [Point.some.injEq]
  exact ⟨ex, ey⟩

theorem dbl_sound {P : W.Point} {n : Nat} {x y : A.C} {s : A.C × A.C} (hP : IsMul W P n (A.val x) (A.val y))
    (h : A.dbl x y = some s) : IsMul W P (2 * n) (A.val s.1) (A.val s.2) := by
  simp only [Arith.dbl, A.force_eq] at h
  split at h
  · rename_i he
    have he := A.eqb_sound _ _ he
    rw [A.val_mul, A.val_add, A.val_one] at he
    obtain ⟨e1, e2⟩ := finish_eq A h
    obtain ⟨hn, e⟩ := hP
    obtain ⟨h', e'⟩ := double_some h1 h2 h3 h4 hn he (l := A.val (A.mul (A.add (A.mul x x) (A.add (A.mul x x) (A.mul x x))) (A.inv (A.add y y))))
      (by simp only [A.val_mul, A.val_add]; ring) e1 e2
    exact ⟨h', by rw [two_mul, add_smul, e, e']⟩
  · cases h

omit h4 in
theorem plus_sound {P : W.Point} {n m : Nat} {x y x' y' : A.C} {s : A.C × A.C} (hP : IsMul W P n (A.val x) (A.val y))
    (hQ : IsMul W P m (A.val x') (A.val y')) (h : A.plus x y x' y' = some s) : IsMul W P (n + m) (A.val s.1) (A.val s.2) := by
  simp only [Arith.plus, A.force_eq] at h
  split at h
  · rename_i he
    have he := A.eqb_sound _ _ he
    rw [A.val_mul, A.val_sub, A.val_one] at he
    obtain ⟨e1, e2⟩ := finish_eq A h
    obtain ⟨hn, e⟩ := hP
    obtain ⟨hm, e'⟩ := hQ
    obtain ⟨h', e''⟩ := plus_some h1 h2 h3 hn hm he (l := A.val (A.mul (A.sub y y') (A.inv (A.sub x x'))))
      (by simp only [A.val_mul, A.val_sub]) e1 e2
    exact ⟨h', by rw [add_smul, e, e', e'']⟩
  · cases h

theorem run_sound {P : W.Point} {x0 y0 : A.C} (h0 : IsMul W P 1 (A.val x0) (A.val y0)) : ∀ (l : List Bool) (n : Nat) (x y : A.C)
    (s : A.C × A.C), IsMul W P n (A.val x) (A.val y) → A.run x0 y0 l x y = some s →
    IsMul W P (bitsVal l n) (A.val s.1) (A.val s.2)
  | [], n, x, y, s, hP, h => by
    cases h; exact hP
  | b :: l, n, x, y, s, hP, h => by
    rw [Arith.run] at h
    cases hd : A.dbl x y with
    | none => rw [hd] at h; cases h
    | some t =>
      rw [hd] at h
      have := dbl_sound A h1 h2 h3 h4 hP hd
      cases b with
      | false => exact run_sound h0 l _ _ _ s this h
      | true =>
        simp only [if_true] at h
        cases hp : A.plus t.1 t.2 x0 y0 with
        | none => rw [hp] at h; cases h
        | some t' =>
          rw [hp] at h
          exact run_sound h0 l _ _ _ s (plus_sound A h1 h2 h3 this h0 hp) h

/-- If double and add ends in the negative of the point, the point is annihilated by the next number. -/
theorem annihilated {x0 y0 : A.C} (h0 : W.Nonsingular (A.val x0) (A.val y0)) (l : List Bool) (s : A.C × A.C)
    (h : A.run x0 y0 l x0 y0 = some s) (hx : A.eqb s.1 x0 = true) (hy : A.eqb (A.add s.2 y0) A.zero = true) :
    (bitsVal l 1 + 1) • (Point.some _ _ h0 : W.Point) = 0 := by
  have hone : IsMul W (Point.some _ _ h0) 1 (A.val x0) (A.val y0) := ⟨h0, one_smul _ _⟩
  obtain ⟨h', e⟩ := run_sound A h1 h2 h3 h4 hone l 1 x0 y0 s hone h
  have hx := A.eqb_sound _ _ hx
  have hy := A.eqb_sound _ _ hy
  rw [A.val_add, A.val_zero] at hy
  rw [add_smul, one_smul, e]
  refine Point.add_of_Y_eq hx ?_
  simp only [negY, h1, h3]
  linear_combination hy

end Dusk.Curve
