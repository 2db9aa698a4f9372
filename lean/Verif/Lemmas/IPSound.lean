import Verif.Lemmas.InnerProduct
import Mathlib.Tactic.FieldSimp
import Mathlib.Tactic.FinCases
/-!
# Extraction for the inner product argument
-/

set_option linter.unusedSectionVars false

namespace Dusk.IP

variable {F G : Type} [Field F] [AddCommGroup G] [Module F G] [DecidableEq F]

/-- A tree of transcripts with four challenges per round. -/
inductive Tree (F G : Type) : Nat → Type
  | leaf (A B : F) : Tree F G 0
  | node {k : Nat} (L R : G) (u : Fin 4 → F) (c : Fin 4 → Tree F G k) : Tree F G (k + 1)

/-- The transcript of a branch: its challenges and its proof. -/
def Tree.branch {k : Nat} : Tree F G k → (Nat → Fin 4) → List F × Proof F G
  | .leaf A B, _ => ([], ⟨[], [], A, B⟩)
  | .node L R u c, σ =>
    let b := (c (σ 0)).branch fun n => σ (n + 1)
    (u (σ 0) :: b.1, ⟨L :: b.2.L, R :: b.2.R, b.2.A, b.2.B⟩)

/-- In every node the challenges are nonzero and have pairwise distinct squares. -/
def Tree.Good {k : Nat} : Tree F G k → Prop
  | .leaf _ _ => True
  | .node _ _ u c => (∀ i, u i ≠ 0) ∧ (∀ i j, i ≠ j → u i * u i ≠ u j * u j) ∧ ∀ i, (c i).Good

/-- What extraction yields: the vectors, or coefficients of a relation between the generators. -/
inductive Ext (F : Type) where
  | wit (a b : List F)
  | rel (g h : List F) (q : F)

/-- Coefficients on `G` corresponding to coefficients on the folded `G`. -/
def unG (u : F) (c : List F) : List F := (c.map fun x => x * u⁻¹) ++ c.map fun x => x * u

/-- Coefficients on `H` corresponding to coefficients on the folded `H`. -/
def unH (u : F) (c : List F) : List F := (c.map fun x => x * u) ++ c.map fun x => x * u⁻¹

/-- `∏_{j ≠ i} (x_i - x_j)` for the squares `x` of the challenges. -/
def den (x : Fin 4 → F) (i : Fin 4) : F :=
  match i with
  | 0 => (x 0 - x 1) * (x 0 - x 2) * (x 0 - x 3)
  | 1 => (x 1 - x 0) * (x 1 - x 2) * (x 1 - x 3)
  | 2 => (x 2 - x 0) * (x 2 - x 1) * (x 2 - x 3)
  | 3 => (x 3 - x 0) * (x 3 - x 1) * (x 3 - x 2)

/-- The weights of the relation at a node. -/
def relW (u : Fin 4 → F) (i : Fin 4) : F := u i * u i / den (fun i => u i * u i) i

/-- `∑ w_i v_i` over four vectors. -/
def comb (w : Fin 4 → F) (v : Fin 4 → List F) : List F :=
  vadd (vadd ((v 0).map fun x => x * w 0) ((v 1).map fun x => x * w 1))
    (vadd ((v 2).map fun x => x * w 2) ((v 3).map fun x => x * w 3))

/-- Slope and intercept of the line through the first two points `(x_i, v_i u_i)`. -/
def slope (u : Fin 4 → F) (v : Fin 4 → List F) : List F :=
  vadd ((v 0).map fun y => y * (u 0 / (u 0 * u 0 - u 1 * u 1)))
    ((v 1).map fun y => y * -(u 1 / (u 0 * u 0 - u 1 * u 1)))

def icept (u : Fin 4 → F) (v : Fin 4 → List F) : List F :=
  vadd ((v 0).map fun y => y * (u 0 * -(u 1 * u 1) / (u 0 * u 0 - u 1 * u 1)))
    ((v 1).map fun y => y * (u 1 * (u 0 * u 0) / (u 0 * u 0 - u 1 * u 1)))

/-- Extraction at a node from the vectors extracted at its children. -/
def extractNode (u : Fin 4 → F) (a b : Fin 4 → List F) : Ext F :=
  let g := comb (relW u) fun i => unG (u i) (a i)
  let h := comb (relW u) fun i => unH (u i) (b i)
  if (∀ x ∈ g, x = 0) ∧ ∀ x ∈ h, x = 0 then .wit (slope u a ++ icept u a) (icept u b ++ slope u b)
  else .rel g h (relW u 0 * dot (a 0) (b 0) + relW u 1 * dot (a 1) (b 1) +
    (relW u 2 * dot (a 2) (b 2) + relW u 3 * dot (a 3) (b 3)))

/-- The extractor. -/
def Tree.extract {k : Nat} : Tree F G k → Ext F
  | .leaf A B => .wit [A] [B]
  | .node _ _ u c =>
    match (c 0).extract, (c 1).extract, (c 2).extract, (c 3).extract with
    | .rel g h q, _, _, _ => .rel (unG (u 0) g) (unH (u 0) h) q
    | _, .rel g h q, _, _ => .rel (unG (u 1) g) (unH (u 1) h) q
    | _, _, .rel g h q, _ => .rel (unG (u 2) g) (unH (u 2) h) q
    | _, _, _, .rel g h q => .rel (unG (u 3) g) (unH (u 3) h) q
    | .wit a₀ b₀, .wit a₁ b₁, .wit a₂ b₂, .wit a₃ b₃ =>
      extractNode u ![a₀, a₁, a₂, a₃] ![b₀, b₁, b₂, b₃]

/-- The extracted value is what it claims to be. -/
def Ext.Valid (Gv Hv : List G) (Q P : G) : Ext F → Prop
  | .wit a b => a.length = Gv.length ∧ b.length = Hv.length ∧ P = cur Q a b Gv Hv
  | .rel g h q => g.length = Gv.length ∧ h.length = Hv.length ∧
      msm g Gv + msm h Hv + q • Q = 0 ∧ ((∃ x ∈ g, x ≠ 0) ∨ (∃ x ∈ h, x ≠ 0))

/-! ## Scalar algebra -/

theorem den_ne_zero {x : Fin 4 → F} (h : ∀ i j, i ≠ j → x i ≠ x j) (i : Fin 4) : den x i ≠ 0 := by
  have s : ∀ i j, i ≠ j → x i - x j ≠ 0 := fun i j hij => sub_ne_zero.2 (h i j hij)
  fin_cases i
  · exact mul_ne_zero (mul_ne_zero (s 0 1 (by decide)) (s 0 2 (by decide))) (s 0 3 (by decide))
  · exact mul_ne_zero (mul_ne_zero (s 1 0 (by decide)) (s 1 2 (by decide))) (s 1 3 (by decide))
  · exact mul_ne_zero (mul_ne_zero (s 2 0 (by decide)) (s 2 1 (by decide))) (s 2 3 (by decide))
  · exact mul_ne_zero (mul_ne_zero (s 3 0 (by decide)) (s 3 1 (by decide))) (s 3 2 (by decide))

/-- Three values on which the second divided difference vanishes lie on a line. -/
theorem line_of_dd3 {x0 x1 x2 c0 c1 c2 : F} (h01 : x0 - x1 ≠ 0) (h02 : x0 - x2 ≠ 0) (h12 : x1 - x2 ≠ 0)
    (e : c0 / ((x0 - x1) * (x0 - x2)) + c1 / ((x1 - x0) * (x1 - x2)) + c2 / ((x2 - x0) * (x2 - x1)) = 0) :
    c2 * (x0 - x1) = (c0 - c1) * x2 + (c1 * x0 - c0 * x1) := by
  rw [show x1 - x0 = -(x0 - x1) by ring, show x2 - x0 = -(x0 - x2) by ring,
    show x2 - x1 = -(x1 - x2) by ring] at e
  field_simp at e
  linear_combination e

theorem cancel_dd {p q x y c : F} (h : x - y ≠ 0) :
    x * c / (p * q * (x - y)) - y * (c / (p * q * (x - y))) = c / (p * q) := by
  by_cases hp : p = 0
  · simp [hp]
  by_cases hq : q = 0
  · simp [hq]
  field_simp

/-- Four values on which two divided differences vanish lie on a line. -/
theorem line_of_dd {x0 x1 x2 x3 c0 c1 c2 c3 : F} (h01 : x0 - x1 ≠ 0) (h02 : x0 - x2 ≠ 0) (h03 : x0 - x3 ≠ 0)
    (h12 : x1 - x2 ≠ 0) (h13 : x1 - x3 ≠ 0) (h23 : x2 - x3 ≠ 0)
    (e1 : c0 / ((x0 - x1) * (x0 - x2) * (x0 - x3)) + c1 / ((x1 - x0) * (x1 - x2) * (x1 - x3)) +
      (c2 / ((x2 - x0) * (x2 - x1) * (x2 - x3)) + c3 / ((x3 - x0) * (x3 - x1) * (x3 - x2))) = 0)
    (e2 : x0 * c0 / ((x0 - x1) * (x0 - x2) * (x0 - x3)) + x1 * c1 / ((x1 - x0) * (x1 - x2) * (x1 - x3)) +
      (x2 * c2 / ((x2 - x0) * (x2 - x1) * (x2 - x3)) + x3 * c3 / ((x3 - x0) * (x3 - x1) * (x3 - x2))) = 0) :
    c2 * (x0 - x1) = (c0 - c1) * x2 + (c1 * x0 - c0 * x1) ∧
    c3 * (x0 - x1) = (c0 - c1) * x3 + (c1 * x0 - c0 * x1) := by
  constructor
  · apply line_of_dd3 h01 h02 h12
    have k0 := cancel_dd (p := x0 - x1) (q := x0 - x2) (x := x0) (y := x3) (c := c0) h03
    have k1 := cancel_dd (p := x1 - x0) (q := x1 - x2) (x := x1) (y := x3) (c := c1) h13
    have k2 := cancel_dd (p := x2 - x0) (q := x2 - x1) (x := x2) (y := x3) (c := c2) h23
    linear_combination e2 - x3 * e1 - k0 - k1 - k2
  · apply line_of_dd3 h01 h03 h13
    have h32 : x3 - x2 ≠ 0 := by intro h; exact h23 (by linear_combination -h)
    have k0 := cancel_dd (p := x0 - x1) (q := x0 - x3) (x := x0) (y := x2) (c := c0) h02
    have k1 := cancel_dd (p := x1 - x0) (q := x1 - x3) (x := x1) (y := x2) (c := c1) h12
    have k2 := cancel_dd (p := x3 - x0) (q := x3 - x1) (x := x3) (y := x2) (c := c3) h32
    linear_combination e2 - x2 * e1 - k0 - k1 - k2

theorem dd_zero {x0 x1 x2 x3 : F} (h01 : x0 - x1 ≠ 0) (h02 : x0 - x2 ≠ 0) (h03 : x0 - x3 ≠ 0)
    (h12 : x1 - x2 ≠ 0) (h13 : x1 - x3 ≠ 0) (h23 : x2 - x3 ≠ 0) (p q r : F) :
    (p + q * x0 + r * x0 ^ 2) / ((x0 - x1) * (x0 - x2) * (x0 - x3)) +
    (p + q * x1 + r * x1 ^ 2) / ((x1 - x0) * (x1 - x2) * (x1 - x3)) +
    ((p + q * x2 + r * x2 ^ 2) / ((x2 - x0) * (x2 - x1) * (x2 - x3)) +
     (p + q * x3 + r * x3 ^ 2) / ((x3 - x0) * (x3 - x1) * (x3 - x2))) = 0 := by
  rw [show x1 - x0 = -(x0 - x1) by ring, show x2 - x0 = -(x0 - x2) by ring, show x2 - x1 = -(x1 - x2) by ring,
    show x3 - x0 = -(x0 - x3) by ring, show x3 - x1 = -(x1 - x3) by ring, show x3 - x2 = -(x2 - x3) by ring]
  field_simp
  ring

/-! ## Lists -/

theorem comb_length {w : Fin 4 → F} {v : Fin 4 → List F} {m : Nat} (h : ∀ i, (v i).length = m) :
    (comb w v).length = m := by
  simp [comb, h]

theorem comb_append {w : Fin 4 → F} {v v' : Fin 4 → List F} {m : Nat} (h : ∀ i, (v i).length = m) :
    comb w (fun i => v i ++ v' i) = comb w v ++ comb w v' := by
  unfold comb vadd
  simp only [List.map_append]
  rw [List.zipWith_append (by simp [h]), List.zipWith_append (by simp [h]), List.zipWith_append (by simp [h])]

theorem comb_getElem {w : Fin 4 → F} {v : Fin 4 → List F} {m : Nat} (h : ∀ i, (v i).length = m) (j : Nat)
    (hj : j < m) : (comb w v)[j]'(by rw [comb_length h]; exact hj) =
      (v 0)[j]'(by rw [h]; exact hj) * w 0 + (v 1)[j]'(by rw [h]; exact hj) * w 1 +
      ((v 2)[j]'(by rw [h]; exact hj) * w 2 + (v 3)[j]'(by rw [h]; exact hj) * w 3) := by
  simp [comb, vadd]

theorem msm_comb {w : Fin 4 → F} {v : Fin 4 → List F} {m : Nat} (h : ∀ i, (v i).length = m) (g : List G) :
    msm (comb w v) g = w 0 • msm (v 0) g + w 1 • msm (v 1) g + (w 2 • msm (v 2) g + w 3 • msm (v 3) g) := by
  unfold comb
  rw [msm_vadd_left _ _ _ (by simp [h]), msm_vadd_left _ _ _ (by simp [h]), msm_vadd_left _ _ _ (by simp [h])]
  simp only [msm_smul_left]

theorem sub_sq_ne {u : Fin 4 → F} (hd : ∀ i j, i ≠ j → u i * u i ≠ u j * u j) (i j : Fin 4) (h : i ≠ j) :
    u i * u i - u j * u j ≠ 0 := sub_ne_zero.2 (hd i j h)

theorem line_scalar {u c : Fin 4 → F} (hu : ∀ i, u i ≠ 0) (hd : ∀ i j, i ≠ j → u i * u i ≠ u j * u j)
    (e1 : c 0 * (u 0)⁻¹ * relW u 0 + c 1 * (u 1)⁻¹ * relW u 1 + (c 2 * (u 2)⁻¹ * relW u 2 + c 3 * (u 3)⁻¹ * relW u 3) = 0)
    (e2 : c 0 * u 0 * relW u 0 + c 1 * u 1 * relW u 1 + (c 2 * u 2 * relW u 2 + c 3 * u 3 * relW u 3) = 0) (i : Fin 4) :
    c i = (c 0 * (u 0 / (u 0 * u 0 - u 1 * u 1)) + c 1 * -(u 1 / (u 0 * u 0 - u 1 * u 1))) * u i +
      (c 0 * (u 0 * -(u 1 * u 1) / (u 0 * u 0 - u 1 * u 1)) + c 1 * (u 1 * (u 0 * u 0) / (u 0 * u 0 - u 1 * u 1))) * (u i)⁻¹ := by
  have r1 : ∀ i, c i * (u i)⁻¹ * relW u i = c i * u i / den (fun i => u i * u i) i := by
    intro i
    have := hu i
    unfold relW
    rw [div_eq_mul_inv, div_eq_mul_inv]
    field_simp
  have r2 : ∀ i, c i * u i * relW u i = (u i * u i) * (c i * u i) / den (fun i => u i * u i) i := by
    intro i; unfold relW; rw [div_eq_mul_inv, div_eq_mul_inv]; ring
  simp only [r1] at e1
  simp only [r2] at e2
  have s := sub_sq_ne hd
  have h01 := s 0 1 (by decide)
  have key := line_of_dd h01 (s 0 2 (by decide)) (s 0 3 (by decide)) (s 1 2 (by decide)) (s 1 3 (by decide))
    (s 2 3 (by decide)) e1 e2
  have all : ∀ i, c i * u i * (u 0 * u 0 - u 1 * u 1) = (c 0 * u 0 - c 1 * u 1) * (u i * u i) +
      (c 1 * u 1 * (u 0 * u 0) - c 0 * u 0 * (u 1 * u 1)) := by
    intro i
    fin_cases i
    · change c 0 * u 0 * _ = _ * (u 0 * u 0) + _; ring
    · change c 1 * u 1 * _ = _ * (u 1 * u 1) + _; ring
    · exact key.1
    · exact key.2
  have hi := all i
  have hui := hu i
  generalize u 0 * u 0 - u 1 * u 1 = D at h01 hi ⊢
  field_simp
  linear_combination hi

theorem line_lists {u : Fin 4 → F} {a : Fin 4 → List F} {m : Nat} (ha : ∀ i, (a i).length = m)
    (hu : ∀ i, u i ≠ 0) (hd : ∀ i j, i ≠ j → u i * u i ≠ u j * u j)
    (h1 : ∀ x ∈ comb (relW u) (fun i => (a i).map fun x => x * (u i)⁻¹), x = 0)
    (h2 : ∀ x ∈ comb (relW u) (fun i => (a i).map fun x => x * u i), x = 0) (i : Fin 4) :
    a i = vadd ((slope u a).map fun x => x * u i) ((icept u a).map fun x => x * (u i)⁻¹) := by
  apply List.ext_getElem
  · simp [slope, icept, ha]
  · intro j hj hj'
    have hjm : j < m := by rw [ha] at hj; exact hj
    have l1 : ∀ i, ((fun i => (a i).map fun x => x * (u i)⁻¹) i).length = m := by simp [ha]
    have l2 : ∀ i, ((fun i => (a i).map fun x => x * u i) i).length = m := by simp [ha]
    have e1 := h1 _ (List.getElem_mem (show j < _ by rw [comb_length l1]; exact hjm))
    have e2 := h2 _ (List.getElem_mem (show j < _ by rw [comb_length l2]; exact hjm))
    rw [comb_getElem l1 j hjm] at e1
    rw [comb_getElem l2 j hjm] at e2
    simp only [List.getElem_map] at e1 e2
    have := line_scalar (c := fun i => (a i)[j]'(by rw [ha]; exact hjm)) hu hd e1 e2 i
    rw [this]
    simp [vadd, slope, icept]

theorem msm_unG (u : F) (c : List F) {GL GR : List G} (h : c.length = GL.length) (h' : GR.length = GL.length) :
    msm (unG u c) (GL ++ GR) = msm c (vadd (GL.map fun x => u⁻¹ • x) (GR.map fun x => u • x)) := by
  rw [unG, msm_append _ _ _ _ (by simp [h]), msm_smul_left, msm_smul_left,
    msm_vadd_right _ _ _ (by simp [h']), msm_smul_right, msm_smul_right]

theorem msm_unH (u : F) (c : List F) {GL GR : List G} (h : c.length = GL.length) (h' : GR.length = GL.length) :
    msm (unH u c) (GL ++ GR) = msm c (vadd (GL.map fun x => u • x) (GR.map fun x => u⁻¹ • x)) := by
  rw [unH, msm_append _ _ _ _ (by simp [h]), msm_smul_left, msm_smul_left,
    msm_vadd_right _ _ _ (by simp [h']), msm_smul_right, msm_smul_right]

/-- A combination `X + x Y + x⁻¹ Z` vanishing at three points has `X = 0`. -/
theorem const_zero {x : Fin 4 → F} (hx : ∀ i, x i ≠ 0) (hd : ∀ i j, i ≠ j → x i ≠ x j) {X Y Z : G}
    (h : ∀ i, X + x i • Y + (x i)⁻¹ • Z = 0) : X = 0 := by
  have hZ : ∀ i, x i • X + (x i * x i) • Y + Z = 0 := by
    intro i
    have := congrArg (fun t => x i • t) (h i)
    simp only [smul_add, smul_smul, smul_zero, mul_inv_cancel₀ (hx i), one_smul] at this
    exact this
  have step : ∀ i j, i ≠ j → X + (x i + x j) • Y = 0 := by
    intro i j hij
    have hs : x i - x j ≠ 0 := sub_ne_zero.2 (hd i j hij)
    have : (x i - x j) • (X + (x i + x j) • Y) = 0 := by
      have e : (x i - x j) • (X + (x i + x j) • Y) =
          (x i • X + (x i * x i) • Y + Z) - (x j • X + (x j * x j) • Y + Z) := by module
      rw [e, hZ, hZ, sub_zero]
    exact (smul_eq_zero.1 this).resolve_left hs
  have h1 := step 0 1 (by decide)
  have h2 := step 0 2 (by decide)
  have hY : (x 1 - x 2) • Y = 0 := by
    have e : (x 1 - x 2) • Y = (X + (x 0 + x 1) • Y) - (X + (x 0 + x 2) • Y) := by module
    rw [e, h1, h2, sub_zero]
  have hY0 : Y = 0 := (smul_eq_zero.1 hY).resolve_left (sub_ne_zero.2 (hd 1 2 (by decide)))
  rw [hY0, smul_zero, add_zero] at h1
  exact h1

theorem extractNode_valid {u : Fin 4 → F} {a b : Fin 4 → List F} {GL GR HL HR : List G} {m : Nat} (Q P L Rp : G)
    (hu : ∀ i, u i ≠ 0) (hd : ∀ i j, i ≠ j → u i * u i ≠ u j * u j)
    (hg1 : GL.length = m) (hg2 : GR.length = m) (hh1 : HL.length = m) (hh2 : HR.length = m)
    (ha : ∀ i, (a i).length = m) (hb : ∀ i, (b i).length = m)
    (heq : ∀ i, P + (u i * u i) • L + ((u i)⁻¹ * (u i)⁻¹) • Rp = cur Q (a i) (b i)
      (vadd (GL.map fun x => (u i)⁻¹ • x) (GR.map fun x => u i • x))
      (vadd (HL.map fun x => u i • x) (HR.map fun x => (u i)⁻¹ • x))) :
    (extractNode u a b).Valid (GL ++ GR) (HL ++ HR) Q P := by
  have la : ∀ i, ((fun i => unG (u i) (a i)) i).length = m + m := by simp [unG, ha]
  have lb : ∀ i, ((fun i => unH (u i) (b i)) i).length = m + m := by simp [unH, hb]
  unfold extractNode
  simp only
  split
  · rename_i hz
    have hga : comb (relW u) (fun i => unG (u i) (a i)) =
        comb (relW u) (fun i => (a i).map fun x => x * (u i)⁻¹) ++
        comb (relW u) (fun i => (a i).map fun x => x * u i) := comb_append (m := m) (by simp [ha])
    have hgb : comb (relW u) (fun i => unH (u i) (b i)) =
        comb (relW u) (fun i => (b i).map fun x => x * u i) ++
        comb (relW u) (fun i => (b i).map fun x => x * (u i)⁻¹) := comb_append (m := m) (by simp [hb])
    rw [hga, hgb] at hz
    simp only [List.mem_append] at hz
    have lina := line_lists ha hu hd (fun x hx => hz.1 x (Or.inl hx)) (fun x hx => hz.1 x (Or.inr hx))
    have linb := line_lists hb hu hd (fun x hx => hz.2 x (Or.inr hx)) (fun x hx => hz.2 x (Or.inl hx))
    have l1 : (slope u a).length = m := by simp [slope, ha]
    have l2 : (icept u a).length = m := by simp [icept, ha]
    have l3 : (slope u b).length = m := by simp [slope, hb]
    have l4 : (icept u b).length = m := by simp [icept, hb]
    refine ⟨by simp [l1, l2, hg1, hg2], by simp [l3, l4, hh1, hh2], ?_⟩
    have hx : ∀ i, (fun i => u i * u i) i ≠ 0 := fun i => mul_ne_zero (hu i) (hu i)
    have := const_zero (X := P - cur Q (slope u a ++ icept u a) (icept u b ++ slope u b) (GL ++ GR) (HL ++ HR))
      (Y := L - crossL Q (slope u a) (slope u b) GR HL) (Z := Rp - crossL Q (icept u a) (icept u b) GL HR)
      hx hd ?_
    · exact sub_eq_zero.1 this
    · intro i
      have h1 := heq i
      have hbc : vadd ((slope u b).map fun x => x * u i) ((icept u b).map fun x => x * (u i)⁻¹) =
          vadd ((icept u b).map fun x => x * (u i)⁻¹) ((slope u b).map fun x => x * u i) := by
        unfold vadd; exact List.zipWith_comm_of_comm add_comm
      rw [lina i, linb i, hbc, cur_fold Q l1 l2 l4 l3 hg1 hg2 hh1 hh2 (hu i)] at h1
      simp only [mul_inv]
      generalize cur Q (slope u a ++ icept u a) (icept u b ++ slope u b) (GL ++ GR) (HL ++ HR) = C at h1 ⊢
      have e : P - C + (u i * u i) • (L - crossL Q (slope u a) (slope u b) GR HL) +
          ((u i)⁻¹ * (u i)⁻¹) • (Rp - crossL Q (icept u a) (icept u b) GL HR) =
          (P + (u i * u i) • L + ((u i)⁻¹ * (u i)⁻¹) • Rp) -
          (C + (u i * u i) • crossL Q (slope u a) (slope u b) GR HL +
            ((u i)⁻¹ * (u i)⁻¹) • crossL Q (icept u a) (icept u b) GL HR) := by module
      rw [e, h1, sub_self]
  · rename_i hz
    refine ⟨by rw [comb_length la]; simp [hg1, hg2], by rw [comb_length lb]; simp [hh1, hh2], ?_, ?_⟩
    · rw [msm_comb la, msm_comb lb]
      have hT : ∀ i, msm (unG (u i) (a i)) (GL ++ GR) + msm (unH (u i) (b i)) (HL ++ HR) + dot (a i) (b i) • Q =
          P + (u i * u i) • L + ((u i)⁻¹ * (u i)⁻¹) • Rp := by
        intro i
        rw [heq i, msm_unG _ _ (by rw [ha, hg1]) (by rw [hg1, hg2]), msm_unH _ _ (by rw [hb, hh1]) (by rw [hh1, hh2])]
        rfl
      have s := sub_sq_ne hd
      have dd := dd_zero (s 0 1 (by decide)) (s 0 2 (by decide)) (s 0 3 (by decide)) (s 1 2 (by decide))
        (s 1 3 (by decide)) (s 2 3 (by decide))
      have z1 : relW u 0 + relW u 1 + (relW u 2 + relW u 3) = 0 := by
        have := dd 0 1 0
        simp only [zero_add, one_mul, zero_mul, add_zero] at this
        exact this
      have z2 : relW u 0 * (u 0 * u 0) + relW u 1 * (u 1 * u 1) + (relW u 2 * (u 2 * u 2) + relW u 3 * (u 3 * u 3)) = 0 := by
        have := dd 0 0 1
        simp only [zero_add, one_mul, zero_mul] at this
        rw [← this]
        simp only [relW, den, div_mul_eq_mul_div, pow_two]
      have z3 : relW u 0 * ((u 0)⁻¹ * (u 0)⁻¹) + relW u 1 * ((u 1)⁻¹ * (u 1)⁻¹) +
          (relW u 2 * ((u 2)⁻¹ * (u 2)⁻¹) + relW u 3 * ((u 3)⁻¹ * (u 3)⁻¹)) = 0 := by
        have := dd 1 0 0
        simp only [zero_mul, add_zero] at this
        rw [← this]
        have hc : ∀ i, relW u i * ((u i)⁻¹ * (u i)⁻¹) = 1 / den (fun i => u i * u i) i := by
          intro i
          have := hu i
          unfold relW
          rw [div_eq_mul_inv, div_eq_mul_inv]
          field_simp
        simp only [hc]
        rfl
      have e0 := hT 0
      have e1 := hT 1
      have e2 := hT 2
      have e3 := hT 3
      generalize msm (unG (u 0) (a 0)) (GL ++ GR) = A0 at *
      generalize msm (unG (u 1) (a 1)) (GL ++ GR) = A1 at *
      generalize msm (unG (u 2) (a 2)) (GL ++ GR) = A2 at *
      generalize msm (unG (u 3) (a 3)) (GL ++ GR) = A3 at *
      generalize msm (unH (u 0) (b 0)) (HL ++ HR) = B0 at *
      generalize msm (unH (u 1) (b 1)) (HL ++ HR) = B1 at *
      generalize msm (unH (u 2) (b 2)) (HL ++ HR) = B2 at *
      generalize msm (unH (u 3) (b 3)) (HL ++ HR) = B3 at *
      have e : relW u 0 • A0 + relW u 1 • A1 + (relW u 2 • A2 + relW u 3 • A3) +
          (relW u 0 • B0 + relW u 1 • B1 + (relW u 2 • B2 + relW u 3 • B3)) +
          (relW u 0 * dot (a 0) (b 0) + relW u 1 * dot (a 1) (b 1) +
            (relW u 2 * dot (a 2) (b 2) + relW u 3 * dot (a 3) (b 3))) • Q =
          relW u 0 • (A0 + B0 + dot (a 0) (b 0) • Q) + relW u 1 • (A1 + B1 + dot (a 1) (b 1) • Q) +
          (relW u 2 • (A2 + B2 + dot (a 2) (b 2) • Q) + relW u 3 • (A3 + B3 + dot (a 3) (b 3) • Q)) := by
        module
      rw [e, e0, e1, e2, e3]
      have e' : relW u 0 • (P + (u 0 * u 0) • L + ((u 0)⁻¹ * (u 0)⁻¹) • Rp) +
          relW u 1 • (P + (u 1 * u 1) • L + ((u 1)⁻¹ * (u 1)⁻¹) • Rp) +
          (relW u 2 • (P + (u 2 * u 2) • L + ((u 2)⁻¹ * (u 2)⁻¹) • Rp) +
          relW u 3 • (P + (u 3 * u 3) • L + ((u 3)⁻¹ * (u 3)⁻¹) • Rp)) =
          (relW u 0 + relW u 1 + (relW u 2 + relW u 3)) • P +
          (relW u 0 * (u 0 * u 0) + relW u 1 * (u 1 * u 1) + (relW u 2 * (u 2 * u 2) + relW u 3 * (u 3 * u 3))) • L +
          (relW u 0 * ((u 0)⁻¹ * (u 0)⁻¹) + relW u 1 * ((u 1)⁻¹ * (u 1)⁻¹) +
          (relW u 2 * ((u 2)⁻¹ * (u 2)⁻¹) + relW u 3 * ((u 3)⁻¹ * (u 3)⁻¹))) • Rp := by module
      rw [e', z1, z2, z3]
      simp
    · rw [not_and_or] at hz
      push Not at hz
      exact hz

theorem rel_un_valid {u : F} (hu : u ≠ 0) {g h : List F} {q : F} {GL GR HL HR : List G} {m : Nat} (Q P P' : G)
    (hg1 : GL.length = m) (hg2 : GR.length = m) (hh1 : HL.length = m) (hh2 : HR.length = m)
    (hv : (Ext.rel g h q).Valid (vadd (GL.map fun x => u⁻¹ • x) (GR.map fun x => u • x))
      (vadd (HL.map fun x => u • x) (HR.map fun x => u⁻¹ • x)) Q P') :
    (Ext.rel (unG u g) (unH u h) q).Valid (GL ++ GR) (HL ++ HR) Q P := by
  obtain ⟨v1, v2, v3, v4⟩ := hv
  simp only [vadd_length, List.length_map, hg1, hg2, hh1, hh2, Nat.min_self] at v1 v2
  refine ⟨by simp [unG, v1, hg1, hg2], by simp [unH, v2, hh1, hh2], ?_, ?_⟩
  · rw [msm_unG _ _ (by rw [v1, hg1]) (by rw [hg1, hg2]), msm_unH _ _ (by rw [v2, hh1]) (by rw [hh1, hh2])]
    exact v3
  · rcases v4 with ⟨x, hx, hn⟩ | ⟨x, hx, hn⟩
    · exact Or.inl ⟨x * u, by simp only [unG, List.mem_append, List.mem_map]; exact Or.inr ⟨x, hx, rfl⟩, mul_ne_zero hn hu⟩
    · exact Or.inr ⟨x * u, by simp only [unH, List.mem_append, List.mem_map]; exact Or.inl ⟨x, hx, rfl⟩, mul_ne_zero hn hu⟩

theorem Tree.branch_length {k : Nat} (T : Tree F G k) : ∀ σ, (T.branch σ).1.length = k ∧
    (T.branch σ).2.L.length = k ∧ (T.branch σ).2.R.length = k := by
  induction T with
  | leaf A B => intro σ; exact ⟨rfl, rfl, rfl⟩
  | node L R u c ih =>
    intro σ
    have := ih (σ 0) fun n => σ (n + 1)
    exact ⟨by simp [Tree.branch, this.1], by simp [Tree.branch, this.2.1], by simp [Tree.branch, this.2.2]⟩

theorem Tree.extract_valid {k : Nat} (T : Tree F G k) : ∀ (Gv Hv : List G) (Q P : G), T.Good →
    Gv.length = 2 ^ k → Hv.length = 2 ^ k →
    (∀ σ, VerEq Gv Hv Q P (T.branch σ).1 (T.branch σ).2.L (T.branch σ).2.R (T.branch σ).2.A (T.branch σ).2.B) →
    T.extract.Valid Gv Hv Q P := by
  induction T with
  | leaf A B =>
    intro Gv Hv Q P _ hg hh hv
    have := hv fun _ => 0
    simp only [Tree.branch, VerEq, sVec, List.map_nil, msm_nil_left, add_zero] at this
    obtain ⟨g, rfl⟩ := List.length_eq_one_iff.1 hg
    obtain ⟨h, rfl⟩ := List.length_eq_one_iff.1 hh
    refine ⟨rfl, rfl, ?_⟩
    rw [← this]
    simp [cur]
  | @node k L Rp u c ih =>
    intro Gv Hv Q P hgood hg hh hv
    obtain ⟨hu, hd, hc⟩ := hgood
    obtain ⟨GL, GR, rfl, hg1, hg2⟩ := split_half hg
    obtain ⟨HL, HR, rfl, hh1, hh2⟩ := split_half hh
    have child : ∀ i, (c i).extract.Valid
        (vadd (GL.map fun x => (u i)⁻¹ • x) (GR.map fun x => u i • x))
        (vadd (HL.map fun x => u i • x) (HR.map fun x => (u i)⁻¹ • x)) Q
        (P + (u i * u i) • L + ((u i)⁻¹ * (u i)⁻¹) • Rp) := by
      intro i
      apply ih i _ _ _ _ (hc i) (by simp [hg1, hg2]) (by simp [hh1, hh2])
      intro σ
      have h1 := hv fun n => match n with | 0 => i | n + 1 => σ n
      simp only [Tree.branch] at h1
      have hl := ((c i).branch_length σ).1
      rw [verEq_cons Q P (u i) _ L Rp _ _ _ _ (by rw [hl, hg1]) (by rw [hl, hg2]) (by rw [hl, hh1]) (by rw [hl, hh2])] at h1
      exact h1
    have c0 := child 0
    have c1 := child 1
    have c2 := child 2
    have c3 := child 3
    simp only [Tree.extract]
    cases h0 : (c 0).extract with
    | rel g h q =>
      rw [h0] at c0
      exact rel_un_valid (hu 0) Q P _ hg1 hg2 hh1 hh2 c0
    | wit a0 b0 =>
    cases h1 : (c 1).extract with
    | rel g h q =>
      rw [h1] at c1
      exact rel_un_valid (hu 1) Q P _ hg1 hg2 hh1 hh2 c1
    | wit a1 b1 =>
    cases h2 : (c 2).extract with
    | rel g h q =>
      rw [h2] at c2
      exact rel_un_valid (hu 2) Q P _ hg1 hg2 hh1 hh2 c2
    | wit a2 b2 =>
    cases h3 : (c 3).extract with
    | rel g h q =>
      rw [h3] at c3
      exact rel_un_valid (hu 3) Q P _ hg1 hg2 hh1 hh2 c3
    | wit a3 b3 =>
      rw [h0] at c0; rw [h1] at c1; rw [h2] at c2; rw [h3] at c3
      simp only [Ext.Valid, vadd_length, List.length_map, hg1, hg2, hh1, hh2, Nat.min_self] at c0 c1 c2 c3
      apply extractNode_valid Q P L Rp hu hd hg1 hg2 hh1 hh2
      · intro i; fin_cases i
        · exact c0.1
        · exact c1.1
        · exact c2.1
        · exact c3.1
      · intro i; fin_cases i
        · exact c0.2.1
        · exact c1.2.1
        · exact c2.2.1
        · exact c3.2.1
      · intro i; fin_cases i
        · exact c0.2.2
        · exact c1.2.2
        · exact c2.2.2
        · exact c3.2.2

end Dusk.IP
