import Verif.Spec.MlsagHiding
import Verif.Spec.PointOracle
import Mathlib.Logic.Equiv.Basic
/-!
# Decisional Diffie-Hellman, and an observer of MLSAG signatures that plays it

The hash to points is a table of random points here, and the observer may look at all of it.
-/

namespace Dusk.Mlsag

variable {F G : Type} [Field F] [AddCommGroup G] [Module F G] [DecidableEq F]

/-- How well a player, with coins of type `γ`, tells `x B, y B, x y B` from `x B, y B, z B`. -/
noncomputable def ddhAdvantage (R : Ristretto F G) {γ : Type} (D : G → G → G → γ → Bool) : ℚ :=
  |(chance fun p : (F × F) × γ => D (p.1.1 • R.base) (p.1.2 • R.base) ((p.1.1 * p.1.2) • R.base) p.2 = true) -
    chance fun p : (F × F × F) × γ => D (p.1.1 • R.base) (p.1.2.1 • R.base) (p.1.2.2 • R.base) p.2 = true|

/-- The points of a table of logarithms. -/
def tableHash (R : Ristretto F G) {S : Finset Bytes} (t : S → F) (s : Bytes) : G := PointOracle.val t s • R.base

/-- User `σ a` of `m` users has the pseudonym `a`. -/
def behind {m : Nat} (σ : Equiv.Perm (Fin m)) (a : Nat) : Nat := if h : a < m then σ ⟨a, h⟩ else a

/-- The coins of a player: `d` secrets for each of `m` users, the table of the hash to points, `v` random images for each user, and the
coins for the steps of the observer. -/
abbrev PlayerCoins (m d v w T : Nat) (S : Finset Bytes) (F : Type) :=
  (Fin m → Fin d → F) × (S → F) × (Fin m → Fin v → F) × (Fin T → StepCoins d w F)

/-- An observer used as a player. Position `n` of the images, counted user by user, is that of the given points: the user's key is `X`,
its hash is `Y`, the image is `Z`. The images before it are computed from secrets, the later ones are random. All signatures are made of
random numbers. -/
def Observer.player (R : Ristretto F G) (O : (Bytes → G) → (Nat → List G) → Observer F G) {m d v w T : Nat} {S : Finset Bytes}
    (σ : Equiv.Perm (Fin m)) (n : Nat) (X Y Z : G) (c : PlayerCoins m d v w T S F) : Bool :=
  let secret : Nat → Nat → F := fun u j => ext (ext c.1 u) j
  let key : Nat → Nat → G := fun u j => if u = n / v ∧ j = n % v then X else secret u j • R.base
  let H : Bytes → G := fun s => if s = R.pBytes X then Y else tableHash R c.2.1 s
  let img : Nat → Nat → G := fun u j =>
    if u * v + j < n then secret u j • H (R.pBytes (secret u j • R.base))
    else if u * v + j = n then Z else ext (ext c.2.2.1 u) j • R.base
  (O H fun u => (List.range d).map (key u)).invented (R.withPoints H) (fun a => (List.range v).map (img (behind σ a))) []
    (List.ofFn c.2.2.2)

end Dusk.Mlsag
