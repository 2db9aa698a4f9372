import Verif.Spec.RangeProof
import Verif.Lemmas.IPSound
import Mathlib.LinearAlgebra.Lagrange
/-!
# Rewinding a range proof prover

The interactive form of the protocol: the prover sends `V`, `A`, `S`; gets `y`, `z`; sends `T1`, `T2`; gets `x`; sends
`taux`, `mu`, `t`; gets `w`; and runs the inner product argument, in which every round sends `L`, `R` and gets `u`. A prover
that is asked again from an earlier point answers the earlier messages in the same way, so its answers are functions of the
challenges seen so far (`Strategy`). The extractor below is an explicit function of the answers. It is not given the
generators.
-/

namespace Dusk.RP

variable {F G : Type} [Field F] [AddCommGroup G] [Module F G] [DecidableEq F]

/-- The answers of a prover; `ip` is the tree of answers in the inner product argument with `k` rounds. -/
structure Strategy (F G : Type) (k : Nat) where
  V : List (Commitment F G)
  A : G
  S : G
  T1 : F → F → G
  T2 : F → F → G
  taux : F → F → F → F
  mu : F → F → F → F
  t : F → F → F → F
  ip : F → F → F → F → IP.Tree F G k

/-- The challenges asked: values `y`; for each of them values `z`; three `x` for each of these; two `w`. -/
structure Queries (F : Type) where
  ys : Finset F
  zs : F → Finset F
  xs : F → F → Fin 3 → F
  ws : F → F → F → Fin 2 → F

/-- The proof sent under given challenges. -/
def Strategy.proof {k : Nat} (s : Strategy F G k) (y z x : F) (ip : IP.Proof F G) : Proof F G :=
  ⟨s.V, s.A, s.S, s.T1 y z, s.T2 y z, s.taux y z x, s.mu y z x, s.t y z x, some ip⟩

/-- Enough different challenges for `m` values: `64 m` different nonzero `y`, `m + 2` different `z`, … -/
structure Queries.Good {k : Nat} (q : Queries F) (s : Strategy F G k) (m : Nat) : Prop where
  y_card : 64 * m ≤ q.ys.card
  y_ne : ∀ y ∈ q.ys, y ≠ 0
  z_card : ∀ y ∈ q.ys, m + 2 ≤ (q.zs y).card
  x_inj : ∀ y z, Function.Injective (q.xs y z)
  w_inj : ∀ y z x, Function.Injective (q.ws y z x)
  ip : ∀ y ∈ q.ys, ∀ z ∈ q.zs y, ∀ i l, (s.ip y z (q.xs y z i) (q.ws y z (q.xs y z i) l)).Good

/-! ## Acceptance -/

/-- The verifier's check `megacheckWithC` accepts with two different coins, under a hash function giving the folding
challenges `us`. (`C63_coin`: if the check is not satisfied by every coin, at most one coin accepts.) -/
def AcceptedAt [DecidableEq G] (P : Pub G) (m : Nat) (ch : Chal F) (us : List F) (p : Proof F G) (ip : IP.Proof F G) :
    Prop :=
  ∃ (R : Ristretto F G) (c c' : F), c ≠ c' ∧ IP.challenges R ip.L ip.R = us ∧
    ∀ d, d = c ∨ d = c' →
      megacheckWithC R (VReads.const m) d (some ip) p.mu ch.x ch.y ch.z p.t p.taux ch.w p.A P.B P.Bl p.S p.T1 p.T2
        P.Gv P.Hv p.V = .ok true

/-- All transcripts of the tree are accepted. -/
def Strategy.Accepting [DecidableEq G] {k : Nat} (s : Strategy F G k) (q : Queries F) (P : Pub G) (m : Nat) : Prop :=
  ∀ y ∈ q.ys, ∀ z ∈ q.zs y, ∀ i l σ,
    let x := q.xs y z i
    let w := q.ws y z x l
    let b := (s.ip y z x w).branch σ
    AcceptedAt P m ⟨y, z, x, w⟩ b.1 (s.proof y z x b.2) b.2

/-! ## Coefficients over the generators -/

/-- Coefficients: on `G`, on `H`, on the value base, on the blinding base. -/
abbrev Coef (F : Type) : Type := (Nat → F) × (Nat → F) × F × F

/-- The point with the given coefficients, over `n` generators `G` and `H`. -/
def ev (P : Pub G) (n : Nat) (ρ : Coef F) : G :=
  ∑ i ∈ Finset.range n, ρ.1 i • P.Gv.getD i 0 + ∑ i ∈ Finset.range n, ρ.2.1 i • P.Hv.getD i 0 + ρ.2.2.1 • P.B
    + ρ.2.2.2 • P.Bl

/-- Some coefficient is not zero. -/
def Coef.Nonzero (n : Nat) (ρ : Coef F) : Prop :=
  (∃ i < n, ρ.1 i ≠ 0) ∨ (∃ i < n, ρ.2.1 i ≠ 0) ∨ ρ.2.2.1 ≠ 0 ∨ ρ.2.2.2 ≠ 0

/-- No non-trivial relation between the public points. -/
def Independent (F : Type) {G : Type} [Field F] [AddCommGroup G] [Module F G] (P : Pub G) (n : Nat) : Prop :=
  ∀ ρ : Coef F, ev P n ρ = 0 → ¬ ρ.Nonzero n

/-! ## The extractor -/

section
variable {k : Nat} (s : Strategy F G k) (q : Queries F) (n m : Nat)

/-- The vectors obtained from the inner product argument. -/
def extA (y z x w : F) (i : Nat) : F :=
  match (s.ip y z x w).extract with
  | .wit a _ => a.getD i 0
  | .rel _ _ _ => 0

def extB (y z x w : F) (i : Nat) : F :=
  match (s.ip y z x w).extract with
  | .wit _ b => b.getD i 0
  | .rel _ _ _ => 0

/-- The relation obtained from the inner product argument if it yields no vectors. -/
def relIP (y z x w : F) : Coef F :=
  match (s.ip y z x w).extract with
  | .wit _ _ => 0
  | .rel g h c => (fun i => g.getD i 0, fun i => h.getD i 0 * y⁻¹ ^ i, c * w, 0)

/-- Coefficients of `A + x S`. -/
def openAt (y z x w : F) : Coef F :=
  (fun i => extA s y z x w i + z,
   fun i => (extB s y z x w i - z ^ (i / 64 + 2) * 2 ^ (i % 64)) * y⁻¹ ^ i - z,
   w * (∑ i ∈ Finset.range n, extA s y z x w i * extB s y z x w i - s.t y z x),
   s.mu y z x)

/-- Coefficients of `S` and `A`, from two values of `x`. -/
def openS (y z : F) : Coef F :=
  let x := q.xs y z
  (x 0 - x 1)⁻¹ • (openAt s n y z (x 0) (q.ws y z (x 0) 0) - openAt s n y z (x 1) (q.ws y z (x 1) 0))

def openA (y z : F) : Coef F :=
  openAt s n y z (q.xs y z 0) (q.ws y z (q.xs y z 0) 0) - q.xs y z 0 • openS s q n y z

/-- Weights that give the value at zero of a quadratic polynomial from its values at three points. -/
def atZero (x : Fin 3 → F) (i : Fin 3) : F :=
  match i with
  | 0 => x 1 * x 2 / ((x 0 - x 1) * (x 0 - x 2))
  | 1 => x 0 * x 2 / ((x 1 - x 0) * (x 1 - x 2))
  | 2 => x 0 * x 1 / ((x 2 - x 0) * (x 2 - x 1))

/-- Opening (value, blinding factor) of `∑ z^(j+2) V_j`. -/
def openSum (y z : F) : F × F :=
  (∑ i, atZero (q.xs y z) i * s.t y z (q.xs y z i) - delta y z m, ∑ i, atZero (q.xs y z) i * s.taux y z (q.xs y z i))

/-- Opening (value, blinding factor) of `V_j`: interpolation over the values `z`. -/
noncomputable def openV (y : F) (j : Nat) : F × F :=
  ∑ z ∈ q.zs y, (Lagrange.basis (q.zs y) id z).coeff (j + 2) • openSum s q m y z

/-- The candidate relations. `y₀`, `z₀` are the challenges at which `A`, `S` and `V` are opened. -/
def relations (y₀ z₀ : F) : Set (Coef F) :=
  { ρ | ∃ y ∈ q.ys, ∃ z ∈ q.zs y, ∃ i l,
      let x := q.xs y z i
      let w := q.ws y z x l
      ρ = relIP s y z x w ∨ ρ = openAt s n y z x w - (openA s q n y₀ z₀ + x • openS s q n y₀ z₀) } ∪
  { ρ | ∃ y ∈ q.ys, ∃ z ∈ q.zs y, ρ = ((0 : Nat → F), (0 : Nat → F),
      openSum s q m y z - ∑ j ∈ Finset.range m, z ^ (j + 2) • openV s q m y₀ j) }

end

end Dusk.RP
