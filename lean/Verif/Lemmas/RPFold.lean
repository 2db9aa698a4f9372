import Mathlib.Algebra.BigOperators.Ring.Finset
import Mathlib.Algebra.BigOperators.Group.Finset.Basic
import Mathlib.Data.Nat.Bitwise
import Mathlib.Tactic.LinearCombination
import Mathlib.Tactic.FieldSimp
import Mathlib.Tactic.Ring
import Verif.Lemmas.PolyRoots
/-!
# Unwinding the challenges of an accepted range proof

The equations satisfied by an accepted proof, in coordinates, while some of the challenges are not yet known. A challenge that is
taken back satisfies polynomial equations; unless it is one of the few roots, the coefficients vanish and the equations hold without
it.
-/

set_option linter.unusedSectionVars false

namespace Dusk.RPFold

variable {F : Type} [Field F]

/-! ## Few roots -/

open Classical in
/-- The zeros of `∑ c_e ξ^e` (`e < d`), if some coefficient is not zero. -/
noncomputable def roots [Fintype F] (d : Nat) (c : Nat → F) : Finset F :=
  if ∀ e < d, c e = 0 then ∅ else Finset.univ.filter fun ξ => ∑ e ∈ Finset.range d, c e * ξ ^ e = 0

theorem roots_card [Fintype F] (d : Nat) (c : Nat → F) : (roots d c).card ≤ d := by
  classical
  unfold roots
  split
  · simp
  · rename_i h
    by_contra hc
    exact h (coeffs_zero c _ (not_le.1 hc).le (fun z hz => (Finset.mem_filter.1 hz).2))

theorem roots_spec [Fintype F] {d : Nat} {c : Nat → F} {ξ : F} (h : ξ ∉ roots d c)
    (h0 : ∑ e ∈ Finset.range d, c e * ξ ^ e = 0) : ∀ e < d, c e = 0 := by
  classical
  by_contra hc
  unfold roots at h
  rw [if_neg hc, Finset.mem_filter] at h
  exact h ⟨Finset.mem_univ _, h0⟩

/-! ## The equations -/

/-- Coordinates: on `G` and (with a prime, scaled) on `H`, on the value base. `c` belongs to `A` and the public terms, `s` to `S`,
`l j` and `r j` to `L_j` and `R_j`; `v`, `p`, `q` to the sum of the commitments, `T1` and `T2`. -/
structure Lin (F : Type) where
  c : Nat → F
  c' : Nat → F
  s : Nat → F
  s' : Nat → F
  l : Nat → Nat → F
  l' : Nat → Nat → F
  r : Nat → Nat → F
  r' : Nat → Nat → F
  b : F
  sb : F
  lb : Nat → F
  rb : Nat → F
  th : F
  t1 : F
  t2 : F
  v : Nat → F
  v' : Nat → F
  p : Nat → F
  p' : Nat → F
  q : Nat → F
  q' : Nat → F

/-- The challenges known. -/
structure Stat (F : Type) where
  X : Option F
  W : Option F
  U : Nat → Option F

def sq : Option F → F
  | none => 0
  | some u => u ^ 2

def isq : Option F → F
  | none => 0
  | some u => u⁻¹ ^ 2

/-- `c + x s + ∑ (u_j² l_j + u_j⁻² r_j)`, without the terms whose challenge is not known. -/
def comb (st : Stat F) (k : Nat) (c s : F) (l r : Nat → F) : F :=
  c + st.X.getD 0 * s + ∑ j ∈ Finset.range k, (sq (st.U j) * l j + isq (st.U j) * r j)

variable (d : Lin F) (st : Stat F) (n k : Nat)

def cAt (i : Nat) : F := comb st k (d.c i) (d.s i) (fun j => d.l j i) (fun j => d.r j i)
def cAt' (i : Nat) : F := comb st k (d.c' i) (d.s' i) (fun j => d.l' j i) (fun j => d.r' j i)
def bAt : F := comb st k d.b d.sb d.lb d.rb
def thAt : F := d.th + st.X.getD 0 * d.t1 + st.X.getD 0 ^ 2 * d.t2
def num : F := ∏ j ∈ Finset.range k, if (st.U j).isSome then 2 else 1
def dotAt : F := ∑ i ∈ Finset.range n, cAt d st k i * cAt' d st k i

/-- The index that differs from `i` in the bit of round `j`. -/
def fl (k j i : Nat) : Nat := i ^^^ 2 ^ (k - 1 - j)

/-- The equations with the challenges known so far. -/
structure Inv : Prop where
  fold : ∀ j < k, ∀ u, st.U j = some u → ∀ i < n, i.testBit (k - 1 - j) = false →
    u ^ 2 * cAt d st k i = cAt d st k (fl k j i)
  fold' : ∀ j < k, ∀ u, st.U j = some u → ∀ i < n, i.testBit (k - 1 - j) = false →
    cAt' d st k i = u ^ 2 * cAt' d st k (fl k j i)
  scalar : match st.W with
    | none => num st k * thAt d st - dotAt d st n k = 0
    | some w => num st k * bAt d st k + w * (num st k * thAt d st - dotAt d st n k) = 0
  vecs : ∀ i < n, d.v i + st.X.getD 0 * d.p i + st.X.getD 0 ^ 2 * d.q i = 0
  vecs' : ∀ i < n, d.v' i + st.X.getD 0 * d.p' i + st.X.getD 0 ^ 2 * d.q' i = 0

/-! ## One more challenge -/

/-- What a fresh answer is used for. -/
structure Role where
  x : Bool
  w : Bool
  u : Option Nat

def Stat.put (ρ : Role) (ξ : F) : Stat F :=
  ⟨if ρ.x then some ξ else st.X, if ρ.w then some ξ else st.W, fun j => if ρ.u = some j then some ξ else st.U j⟩

def Role.s (ρ : Role) (s : F) : F := if ρ.x then s else 0

def Role.at (ρ : Role) (l : Nat → F) : F :=
  match ρ.u with
  | none => 0
  | some j => l j

/-- The role is fresh. -/
structure Role.Fresh (ρ : Role) : Prop where
  x : ρ.x = true → st.X = none
  w : ρ.w = true → st.W = none
  u : ∀ j, ρ.u = some j → j < k ∧ st.U j = none
  xw : ρ.x = true → ρ.w = false

variable {d st n k}

theorem comb_put {ρ : Role} (h : ρ.Fresh st k) (ξ c s : F) (l r : Nat → F) :
    comb (st.put ρ ξ) k c s l r = comb st k c s l r + ξ * ρ.s s + ξ ^ 2 * ρ.at l + ξ⁻¹ ^ 2 * ρ.at r := by
  have hx : (st.put ρ ξ).X.getD 0 * s = st.X.getD 0 * s + ξ * ρ.s s := by
    unfold Stat.put Role.s
    cases hρ : ρ.x
    · simp
    · simp [h.x hρ]
  have hu : ∑ j ∈ Finset.range k, (sq ((st.put ρ ξ).U j) * l j + isq ((st.put ρ ξ).U j) * r j) =
      ∑ j ∈ Finset.range k, (sq (st.U j) * l j + isq (st.U j) * r j) + (ξ ^ 2 * ρ.at l + ξ⁻¹ ^ 2 * ρ.at r) := by
    unfold Stat.put Role.at
    cases hρ : ρ.u with
    | none => simp
    | some j =>
      obtain ⟨hj, h0⟩ := h.u j hρ
      rw [← Finset.add_sum_erase _ _ (Finset.mem_range.2 hj), ← Finset.add_sum_erase _ _ (Finset.mem_range.2 hj)]
      have : ∀ i ∈ (Finset.range k).erase j, (sq (if some j = some i then some ξ else st.U i) * l i +
          isq (if some j = some i then some ξ else st.U i) * r i) = sq (st.U i) * l i + isq (st.U i) * r i := by
        intro i hi
        rw [if_neg (fun hc => Finset.ne_of_mem_erase hi (Option.some.inj hc).symm)]
      rw [Finset.sum_congr rfl this]
      simp only [if_true, h0, sq, isq]
      ring
  unfold comb
  rw [hx, hu]
  ring

theorem num_put {ρ : Role} (h : ρ.Fresh st k) (ξ : F) :
    num (st.put ρ ξ) k = num st k * if ρ.u.isSome then 2 else 1 := by
  unfold num Stat.put
  cases hρ : ρ.u with
  | none => simp
  | some j =>
    obtain ⟨hj, h0⟩ := h.u j hρ
    rw [← Finset.mul_prod_erase _ _ (Finset.mem_range.2 hj), ← Finset.mul_prod_erase _ _ (Finset.mem_range.2 hj)]
    have : ∀ i ∈ (Finset.range k).erase j, (if (if some j = some i then some ξ else st.U i).isSome then (2 : F) else 1) =
        if (st.U i).isSome then 2 else 1 := by
      intro i hi
      rw [if_neg (fun hc => Finset.ne_of_mem_erase hi (Option.some.inj hc).symm)]
    rw [Finset.prod_congr rfl this]
    simp [h0, mul_comm]

theorem num_ne_zero (h2 : (2 : F) ≠ 0) : num st k ≠ 0 := by
  unfold num
  refine Finset.prod_ne_zero_iff.2 fun j _ => ?_
  split
  · exact h2
  · exact one_ne_zero

theorem fl_lt {k j i : Nat} (hj : j < k) (hi : i < 2 ^ k) : fl k j i < 2 ^ k :=
  Nat.xor_lt_two_pow hi (Nat.pow_lt_pow_right (by norm_num) (by omega))

theorem fl_fl (k j i : Nat) : fl k j (fl k j i) = i := by
  unfold fl
  rw [Nat.xor_assoc, Nat.xor_self, Nat.xor_zero]

theorem fl_bit (k j i : Nat) : (fl k j i).testBit (k - 1 - j) = !i.testBit (k - 1 - j) := by
  unfold fl
  rw [Nat.testBit_xor, Nat.testBit_two_pow_self, Bool.xor_true]

theorem sum_fl {k j : Nat} (hj : j < k) (f : Nat → F) :
    ∑ i ∈ Finset.range (2 ^ k), f (fl k j i) = ∑ i ∈ Finset.range (2 ^ k), f i := by
  refine Finset.sum_nbij' (fl k j) (fl k j) ?_ ?_ ?_ ?_ ?_
  · intro i hi; exact Finset.mem_range.2 (fl_lt hj (Finset.mem_range.1 hi))
  · intro i hi; exact Finset.mem_range.2 (fl_lt hj (Finset.mem_range.1 hi))
  · intro i _; exact fl_fl k j i
  · intro i _; exact fl_fl k j i
  · intro i _; rfl

/-! ### The polynomials -/

section
variable (d st n k) (ρ : Role)

/-- Coefficients of `ξ² C`: on `ξ⁰`, `ξ²`, `ξ³`, `ξ⁴`. -/
def rr (i : Nat) : F := ρ.at fun j => d.r j i
def ss (i : Nat) : F := ρ.s (d.s i)
def ll (i : Nat) : F := ρ.at fun j => d.l j i
def rr' (i : Nat) : F := ρ.at fun j => d.r' j i
def ss' (i : Nat) : F := ρ.s (d.s' i)
def ll' (i : Nat) : F := ρ.at fun j => d.l' j i

/-- Coefficients for the folding equation of round `j` at index `i`, coordinates on `G`. -/
def pFold (j i : Nat) : Nat → F :=
  if ρ.u = some j then
    fun e => [-rr d ρ (fl k j i), 0, rr d ρ i - cAt d st k (fl k j i), -ss d ρ (fl k j i), cAt d st k i - ll d ρ (fl k j i),
      ss d ρ i, ll d ρ i].getD e 0
  else
    match st.U j with
    | none => 0
    | some u => fun e => [u ^ 2 * rr d ρ i - rr d ρ (fl k j i), 0, u ^ 2 * cAt d st k i - cAt d st k (fl k j i),
        u ^ 2 * ss d ρ i - ss d ρ (fl k j i), u ^ 2 * ll d ρ i - ll d ρ (fl k j i)].getD e 0

/-- The same for the coordinates on `H`. -/
def pFold' (j i : Nat) : Nat → F :=
  if ρ.u = some j then
    fun e => [-rr' d ρ i, 0, rr' d ρ (fl k j i) - cAt' d st k i, -ss' d ρ i, cAt' d st k (fl k j i) - ll' d ρ i,
      ss' d ρ (fl k j i), ll' d ρ (fl k j i)].getD e 0
  else
    match st.U j with
    | none => 0
    | some u => fun e => [rr' d ρ i - u ^ 2 * rr' d ρ (fl k j i), 0, cAt' d st k i - u ^ 2 * cAt' d st k (fl k j i),
        ss' d ρ i - u ^ 2 * ss' d ρ (fl k j i), ll' d ρ i - u ^ 2 * ll' d ρ (fl k j i)].getD e 0

def dotp (f g : Nat → F) : F := ∑ i ∈ Finset.range n, f i * g i

/-- Coefficients of `ξ⁴ (N θ - <C, C'>)`. -/
def pQ : List F :=
  let N := num st k * if ρ.u.isSome then 2 else 1
  let C := cAt d st k
  let C' := cAt' d st k
  [-dotp n (rr d ρ) (rr' d ρ), 0, -(dotp n (rr d ρ) C' + dotp n C (rr' d ρ)),
   -(dotp n (rr d ρ) (ss' d ρ) + dotp n (ss d ρ) (rr' d ρ)),
   N * thAt d st - (dotp n (rr d ρ) (ll' d ρ) + dotp n C C' + dotp n (ll d ρ) (rr' d ρ)),
   N * ρ.s d.t1 - (dotp n C (ss' d ρ) + dotp n (ss d ρ) C'),
   N * ρ.s d.t2 - (dotp n C (ll' d ρ) + dotp n (ss d ρ) (ss' d ρ) + dotp n (ll d ρ) C'),
   -(dotp n (ss d ρ) (ll' d ρ) + dotp n (ll d ρ) (ss' d ρ)), -dotp n (ll d ρ) (ll' d ρ)]

/-- Coefficients of `ξ⁴ N b`. -/
def pB : List F :=
  let N := num st k * if ρ.u.isSome then 2 else 1
  [0, 0, N * ρ.at d.rb, 0, N * bAt d st k, N * ρ.s d.sb, N * ρ.at d.lb]

/-- Coefficients for the scalar equation. -/
def pScalar : Nat → F :=
  if ρ.w then fun e => (pB d st k ρ).getD e 0 + (0 :: pQ d st n k ρ).getD e 0
  else
    match st.W with
    | none => fun e => (pQ d st n k ρ).getD e 0
    | some w => fun e => (pB d st k ρ).getD e 0 + w * (pQ d st n k ρ).getD e 0

def pVec (i : Nat) : Nat → F := if ρ.x then fun e => [d.v i, d.p i, d.q i].getD e 0 else 0
def pVec' (i : Nat) : Nat → F := if ρ.x then fun e => [d.v' i, d.p' i, d.q' i].getD e 0 else 0

end

theorem at_s {ρ : Role} (h : ρ.Fresh st k) (ξ a b : F) (c : F) :
    c + (st.put ρ ξ).X.getD 0 * a + (st.put ρ ξ).X.getD 0 ^ 2 * b =
      c + st.X.getD 0 * a + st.X.getD 0 ^ 2 * b + ξ * ρ.s a + ξ ^ 2 * ρ.s b := by
  unfold Stat.put Role.s
  cases hρ : ρ.x
  · simp
  · simp [h.x hρ]

theorem fold_back {ρ : Role} (h : ρ.Fresh st k) {ξ : F} (hξ : ξ ≠ 0) (hi : Inv d (st.put ρ ξ) n k) {j i : Nat} (hj : j < k)
    (hin : i < n) (hb : i.testBit (k - 1 - j) = false) : ∑ e ∈ Finset.range 10, pFold d st k ρ j i e * ξ ^ e = 0 := by
  have hc : ∀ i, cAt d (st.put ρ ξ) k i = cAt d st k i + ξ * ss d ρ i + ξ ^ 2 * ll d ρ i + ξ⁻¹ ^ 2 * rr d ρ i :=
    fun i => comb_put h ξ _ _ _ _
  unfold pFold
  split
  · rename_i hu
    have hU : (st.put ρ ξ).U j = some ξ := by simp [Stat.put, hu]
    have := hi.fold j hj ξ hU i hin hb
    rw [hc, hc] at this
    simp only [Finset.sum_range_succ, Finset.sum_range_zero, List.getD_cons_zero, List.getD_cons_succ, List.getD_nil]
    field_simp at this
    linear_combination this
  · rename_i hu
    have hU : (st.put ρ ξ).U j = st.U j := by simp [Stat.put, hu]
    cases hs : st.U j with
    | none => simp
    | some u =>
      have := hi.fold j hj u (by rw [hU, hs]) i hin hb
      rw [hc, hc] at this
      simp only [Finset.sum_range_succ, Finset.sum_range_zero, List.getD_cons_zero, List.getD_cons_succ, List.getD_nil]
      field_simp at this
      linear_combination this

theorem fold_back' {ρ : Role} (h : ρ.Fresh st k) {ξ : F} (hξ : ξ ≠ 0) (hi : Inv d (st.put ρ ξ) n k) {j i : Nat} (hj : j < k)
    (hin : i < n) (hb : i.testBit (k - 1 - j) = false) : ∑ e ∈ Finset.range 10, pFold' d st k ρ j i e * ξ ^ e = 0 := by
  have hc : ∀ i, cAt' d (st.put ρ ξ) k i = cAt' d st k i + ξ * ss' d ρ i + ξ ^ 2 * ll' d ρ i + ξ⁻¹ ^ 2 * rr' d ρ i :=
    fun i => comb_put h ξ _ _ _ _
  unfold pFold'
  split
  · rename_i hu
    have hU : (st.put ρ ξ).U j = some ξ := by simp [Stat.put, hu]
    have := hi.fold' j hj ξ hU i hin hb
    rw [hc, hc] at this
    simp only [Finset.sum_range_succ, Finset.sum_range_zero, List.getD_cons_zero, List.getD_cons_succ, List.getD_nil]
    field_simp at this
    linear_combination -this
  · rename_i hu
    have hU : (st.put ρ ξ).U j = st.U j := by simp [Stat.put, hu]
    cases hs : st.U j with
    | none => simp
    | some u =>
      have := hi.fold' j hj u (by rw [hU, hs]) i hin hb
      rw [hc, hc] at this
      simp only [Finset.sum_range_succ, Finset.sum_range_zero, List.getD_cons_zero, List.getD_cons_succ, List.getD_nil]
      field_simp at this
      linear_combination this

theorem dot_put {ρ : Role} (h : ρ.Fresh st k) {ξ : F} (hξ : ξ ≠ 0) :
    ξ ^ 4 * (num (st.put ρ ξ) k * thAt d (st.put ρ ξ) - dotAt d (st.put ρ ξ) n k) =
      ∑ e ∈ Finset.range 9, (pQ d st n k ρ).getD e 0 * ξ ^ e := by
  have hc : ∀ i, cAt d (st.put ρ ξ) k i = cAt d st k i + ξ * ss d ρ i + ξ ^ 2 * ll d ρ i + ξ⁻¹ ^ 2 * rr d ρ i :=
    fun i => comb_put h ξ _ _ _ _
  have hc' : ∀ i, cAt' d (st.put ρ ξ) k i = cAt' d st k i + ξ * ss' d ρ i + ξ ^ 2 * ll' d ρ i + ξ⁻¹ ^ 2 * rr' d ρ i :=
    fun i => comb_put h ξ _ _ _ _
  have ht : thAt d (st.put ρ ξ) = thAt d st + ξ * ρ.s d.t1 + ξ ^ 2 * ρ.s d.t2 := at_s h ξ _ _ _
  have hd : ξ ^ 4 * dotAt d (st.put ρ ξ) n k = ∑ i ∈ Finset.range n,
      (rr d ρ i * rr' d ρ i + (rr d ρ i * cAt' d st k i + cAt d st k i * rr' d ρ i) * ξ ^ 2
        + (rr d ρ i * ss' d ρ i + ss d ρ i * rr' d ρ i) * ξ ^ 3
        + (rr d ρ i * ll' d ρ i + cAt d st k i * cAt' d st k i + ll d ρ i * rr' d ρ i) * ξ ^ 4
        + (cAt d st k i * ss' d ρ i + ss d ρ i * cAt' d st k i) * ξ ^ 5
        + (cAt d st k i * ll' d ρ i + ss d ρ i * ss' d ρ i + ll d ρ i * cAt' d st k i) * ξ ^ 6
        + (ss d ρ i * ll' d ρ i + ll d ρ i * ss' d ρ i) * ξ ^ 7 + ll d ρ i * ll' d ρ i * ξ ^ 8) := by
    unfold dotAt
    rw [Finset.mul_sum]
    refine Finset.sum_congr rfl fun i _ => ?_
    rw [hc, hc']
    field_simp
    ring
  rw [mul_sub, hd, ht, num_put h]
  simp only [Finset.sum_add_distrib, ← Finset.sum_mul]
  simp only [pQ, dotp, Finset.sum_range_succ, Finset.sum_range_zero, List.getD_cons_zero, List.getD_cons_succ]
  ring

theorem b_put {ρ : Role} (h : ρ.Fresh st k) {ξ : F} (hξ : ξ ≠ 0) :
    ξ ^ 4 * (num (st.put ρ ξ) k * bAt d (st.put ρ ξ) k) = ∑ e ∈ Finset.range 10, (pB d st k ρ).getD e 0 * ξ ^ e := by
  have hc : bAt d (st.put ρ ξ) k = bAt d st k + ξ * ρ.s d.sb + ξ ^ 2 * ρ.at d.lb + ξ⁻¹ ^ 2 * ρ.at d.rb := comb_put h ξ _ _ _ _
  rw [hc, num_put h]
  simp only [pB, Finset.sum_range_succ, Finset.sum_range_zero, List.getD_cons_zero, List.getD_cons_succ, List.getD_nil]
  field_simp
  ring

theorem scalar_back {ρ : Role} (h : ρ.Fresh st k) {ξ : F} (hξ : ξ ≠ 0) (hi : Inv d (st.put ρ ξ) n k) :
    ∑ e ∈ Finset.range 10, pScalar d st n k ρ e * ξ ^ e = 0 := by
  have h1 := dot_put (d := d) (n := n) h hξ
  have h2 := b_put (d := d) h hξ
  have hs := hi.scalar
  have h9 : (pQ d st n k ρ).getD 9 0 = 0 := rfl
  unfold pScalar
  split
  · rename_i hw
    have hW : (st.put ρ ξ).W = some ξ := by simp [Stat.put, hw]
    rw [hW] at hs
    dsimp only at hs
    have h3 : ∑ e ∈ Finset.range 10, (0 :: pQ d st n k ρ).getD e 0 * ξ ^ e =
        ξ * ∑ e ∈ Finset.range 9, (pQ d st n k ρ).getD e 0 * ξ ^ e := by
      rw [Finset.sum_range_succ', Finset.mul_sum]
      simp only [List.getD_cons_zero, List.getD_cons_succ, zero_mul, add_zero]
      exact Finset.sum_congr rfl fun e _ => by ring
    simp only [add_mul, Finset.sum_add_distrib]
    rw [h3, ← h1, ← h2]
    linear_combination ξ ^ 4 * hs
  · rename_i hw
    have hW : (st.put ρ ξ).W = st.W := by simp [Stat.put, hw]
    rw [hW] at hs
    cases hsw : st.W with
    | none =>
      rw [hsw] at hs
      dsimp only at hs ⊢
      rw [Finset.sum_range_succ, h9, ← h1, hs]
      ring
    | some w =>
      rw [hsw] at hs
      dsimp only at hs ⊢
      simp only [add_mul, Finset.sum_add_distrib]
      rw [← h2]
      have : ∑ e ∈ Finset.range 10, w * (pQ d st n k ρ).getD e 0 * ξ ^ e =
          w * ∑ e ∈ Finset.range 9, (pQ d st n k ρ).getD e 0 * ξ ^ e := by
        rw [Finset.sum_range_succ, h9, Finset.mul_sum]
        simp only [mul_zero, zero_mul, add_zero, mul_assoc]
      rw [this, ← h1]
      linear_combination ξ ^ 4 * hs

/-- No bad root for the answer `ξ` in the role `ρ`. -/
structure Good [Fintype F] (d : Lin F) (st : Stat F) (n k : Nat) (ρ : Role) (ξ : F) : Prop where
  ne : ξ ≠ 0
  fold : ∀ j < k, ∀ i < n, ξ ∉ roots 10 (pFold d st k ρ j i)
  fold' : ∀ j < k, ∀ i < n, ξ ∉ roots 10 (pFold' d st k ρ j i)
  scalar : ξ ∉ roots 10 (pScalar d st n k ρ)
  vecs : ∀ i < n, ξ ∉ roots 10 (pVec d ρ i)
  vecs' : ∀ i < n, ξ ∉ roots 10 (pVec' d ρ i)

/-- The equations hold without the last answer. -/
theorem Inv.back [Fintype F] (h2 : (2 : F) ≠ 0) {ρ : Role} (h : ρ.Fresh st k) {ξ : F} (hg : Good d st n k ρ ξ) (hn : n = 2 ^ k)
    (hi : Inv d (st.put ρ ξ) n k) : Inv d st n k := by
  have hF : ∀ j < k, ∀ i < n, i.testBit (k - 1 - j) = false → ∀ e < 10, pFold d st k ρ j i e = 0 :=
    fun j hj i hin hb => roots_spec (hg.fold j hj i hin) (fold_back h hg.ne hi hj hin hb)
  have hF' : ∀ j < k, ∀ i < n, i.testBit (k - 1 - j) = false → ∀ e < 10, pFold' d st k ρ j i e = 0 :=
    fun j hj i hin hb => roots_spec (hg.fold' j hj i hin) (fold_back' h hg.ne hi hj hin hb)
  have hS := roots_spec hg.scalar (scalar_back h hg.ne hi)
  have hold : ∀ j u, st.U j = some u → ρ.u ≠ some j := by
    intro j u hu hc
    rw [(h.u j hc).2] at hu
    cases hu
  have hvec : ∀ (v p q : F), v + (st.put ρ ξ).X.getD 0 * p + (st.put ρ ξ).X.getD 0 ^ 2 * q = 0 →
      ξ ∉ roots 10 (if ρ.x then fun e => [v, p, q].getD e 0 else (0 : Nat → F)) →
      v + st.X.getD 0 * p + st.X.getD 0 ^ 2 * q = 0 := by
    intro v p q h0 hr
    rw [at_s h] at h0
    cases hx : ρ.x
    · simpa [Role.s, hx] using h0
    · rw [if_pos hx] at hr
      have hX := h.x hx
      simp only [Role.s, hx, hX, if_true, Option.getD_none, zero_mul, add_zero, ne_eq, OfNat.ofNat_ne_zero, not_false_eq_true,
        zero_pow] at h0 ⊢
      have := roots_spec hr (by
        simp only [Finset.sum_range_succ, Finset.sum_range_zero, List.getD_cons_zero, List.getD_cons_succ, List.getD_nil]
        linear_combination h0) 0 (by norm_num)
      simpa using this
  refine ⟨?_, ?_, ?_, fun i hin => hvec _ _ _ (hi.vecs i hin) (hg.vecs i hin), fun i hin => hvec _ _ _ (hi.vecs' i hin) (hg.vecs' i hin)⟩
  · intro j hj u hu i hin hb
    have := hF j hj i hin hb 2 (by norm_num)
    rw [pFold, if_neg (hold j u hu), hu] at this
    exact sub_eq_zero.1 this
  · intro j hj u hu i hin hb
    have := hF' j hj i hin hb 2 (by norm_num)
    rw [pFold', if_neg (hold j u hu), hu] at this
    exact sub_eq_zero.1 this
  · -- the middle coefficient
    have hm : (pQ d st n k ρ).getD 4 0 = (if ρ.u.isSome then 2 else 1) * (num st k * thAt d st - dotAt d st n k) := by
      have e0 : (pQ d st n k ρ).getD 4 0 = num st k * (if ρ.u.isSome then 2 else 1) * thAt d st -
          (dotp n (rr d ρ) (ll' d ρ) + dotp n (cAt d st k) (cAt' d st k) + dotp n (ll d ρ) (rr' d ρ)) := rfl
      rw [e0]
      have e1 : dotp n (cAt d st k) (cAt' d st k) = dotAt d st n k := rfl
      cases hρ : ρ.u with
      | none =>
        have hz : ∀ f : Nat → F, ρ.at f = 0 := fun f => by simp [Role.at, hρ]
        have e2 : dotp n (rr d ρ) (ll' d ρ) = 0 := by simp [dotp, rr, hz]
        have e3 : dotp n (ll d ρ) (rr' d ρ) = 0 := by simp [dotp, ll, hz]
        rw [e1, e2, e3]
        simp
      | some j =>
        have hj := (h.u j hρ).1
        have e2 : dotp n (rr d ρ) (ll' d ρ) + dotp n (ll d ρ) (rr' d ρ) = dotAt d st n k := by
          unfold dotp dotAt
          rw [← Finset.sum_add_distrib, hn, ← sum_fl hj (fun i => cAt d st k i * cAt' d st k i)]
          refine Finset.sum_congr rfl fun i hir => ?_
          have hin : i < n := hn ▸ Finset.mem_range.1 hir
          have key : ∀ i < n, i.testBit (k - 1 - j) = false →
              rr d ρ i = cAt d st k (fl k j i) ∧ ll d ρ i = 0 ∧ rr d ρ (fl k j i) = 0 ∧ ll d ρ (fl k j i) = cAt d st k i ∧
              ll' d ρ i = cAt' d st k (fl k j i) ∧ rr' d ρ i = 0 ∧ rr' d ρ (fl k j i) = cAt' d st k i := by
            intro i hin hb
            have hf := hF j hj i hin hb
            have hf' := hF' j hj i hin hb
            rw [pFold, if_pos hρ] at hf
            rw [pFold', if_pos hρ] at hf'
            refine ⟨sub_eq_zero.1 (hf 2 (by norm_num)), hf 6 (by norm_num), neg_eq_zero.1 (hf 0 (by norm_num)),
              (sub_eq_zero.1 (hf 4 (by norm_num))).symm, (sub_eq_zero.1 (hf' 4 (by norm_num))).symm,
              neg_eq_zero.1 (hf' 0 (by norm_num)), sub_eq_zero.1 (hf' 2 (by norm_num))⟩
          cases hb : i.testBit (k - 1 - j)
          · obtain ⟨k1, k2, k3, k4, k5, k6, k7⟩ := key i hin hb
            rw [k1, k5, k2]
            ring
          · have hin' : fl k j i < n := by rw [hn]; exact fl_lt hj (hn ▸ hin)
            obtain ⟨k1, k2, k3, k4, k5, k6, k7⟩ := key (fl k j i) hin' (by rw [fl_bit, hb]; rfl)
            rw [fl_fl] at k1 k3 k4 k5 k7
            rw [k3, k4, k7]
            ring
        have : dotp n (rr d ρ) (ll' d ρ) + dotp n (cAt d st k) (cAt' d st k) + dotp n (ll d ρ) (rr' d ρ) = 2 * dotAt d st n k := by
          rw [e1]
          linear_combination e2
        rw [this]
        simp only [Option.isSome_some, if_true]
        ring
    have hc : (if ρ.u.isSome then (2 : F) else 1) ≠ 0 := by
      split
      · exact h2
      · exact one_ne_zero
    cases hw : ρ.w
    · cases hsw : st.W with
      | none =>
        have := hS 4 (by norm_num)
        simp only [pScalar, hw, hsw] at this
        rw [if_neg (by decide), hm] at this
        exact (mul_eq_zero.1 this).resolve_left hc
      | some w =>
        have := hS 4 (by norm_num)
        simp only [pScalar, hw, hsw] at this
        rw [if_neg (by decide), hm] at this
        have e : (pB d st k ρ).getD 4 0 = num st k * (if ρ.u.isSome then 2 else 1) * bAt d st k := rfl
        rw [e] at this
        refine (mul_eq_zero.1 ?_).resolve_left hc
        linear_combination this
    · rw [h.w hw]
      have hx : ρ.x = false := by
        cases hx : ρ.x
        · rfl
        · have := h.xw hx
          rw [hw] at this
          cases this
      have := hS 5 (by norm_num)
      simp only [pScalar, hw] at this
      rw [if_pos trivial, List.getD_cons_succ, hm] at this
      have e : (pB d st k ρ).getD 5 0 = num st k * (if ρ.u.isSome then 2 else 1) * ρ.s d.sb := rfl
      rw [e, Role.s, hx] at this
      simp only [Bool.false_eq_true, if_false, mul_zero, zero_add] at this
      exact (mul_eq_zero.1 this).resolve_left hc

end Dusk.RPFold
