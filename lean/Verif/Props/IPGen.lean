import Verif.Props.InnerProduct
/-!
# The outcome of innerproduct.Generate for all lengths (C100)
-/

set_option linter.unusedSectionVars false

namespace Dusk.IP

variable {F G : Type} [Field F] [AddCommGroup G] [Module F G] [DecidableEq F]

/-- Lengths for which `Generate` indexes the factors out of range: `g` the number of points `G` (a power of two above one),
`a`, `b` the vectors, `h` the points `H`, `f` the factors. -/
def Overrun (g a b h f : Nat) : Prop :=
  a = g ∧ g / 2 < b ∧ (f < b - g / 2 ∨ (b = g ∧ g / 2 < h ∧ f < g))

theorem splitNil_of_le {α : Type} {x : List α} {n : Nat} (h : x.length ≤ n) (hx : x.length < 2 ^ 32) : splitNil x n = ([], []) := by
  unfold splitNil Vec.split
  by_cases h0 : x.length = 0
  · rw [if_pos h0]
  · rw [if_neg h0, if_pos (by rw [Nat.mod_eq_of_lt hx]; exact h)]

theorem splitNil_of_lt {α : Type} {x : List α} {n : Nat} (h : n < x.length) (hx : x.length < 2 ^ 32) :
    splitNil x n = (x.take n, x.drop n) := by
  unfold splitNil Vec.split
  rw [if_neg (by omega), if_neg (by rw [Nat.mod_eq_of_lt hx]; omega)]

theorem exp_err {a : List F} {g : List G} {N M : Int} (h : a.length ≠ g.length) : (Vec.exp a g N M).IsErr := by
  unfold Vec.exp
  rw [if_pos h]
  exact Res.isErr_err _

theorem innerProduct_err {a b : List F} (h : a.length ≠ b.length) : (Vec.innerProduct a b).IsErr := by
  unfold Vec.innerProduct
  rw [if_pos h]
  exact Res.isErr_err _

theorem bind_err {α β : Type} {a : Res α} (h : a.IsErr) (f : α → Res β) : (a.bind f).IsErr := by
  cases a with
  | ok x => simp [Res.IsErr] at h
  | err e => exact Res.isErr_err _
  | panic => simp [Res.IsErr] at h

/-- The outcome of the first round. -/
theorem firstRound_outcome (R : Ristretto F G) (n : Nat) (hn : 1 ≤ n) (a b : List F) (Gv Hv : List G) (hpf : List F) (Q : G)
    (hs : HashCacher) (hg : Gv.length = n + n) (hg' : Gv.length < 2 ^ 32) (ha : a.length < 2 ^ 32) (hb : b.length < 2 ^ 32)
    (hh : Hv.length < 2 ^ 32) :
    (Overrun (n + n) a.length b.length Hv.length hpf.length → firstRound R n a b Gv Hv hpf Q hs = .panic) ∧
    (¬ Overrun (n + n) a.length b.length Hv.length hpf.length →
      ¬ (a.length = n + n ∧ b.length = n + n ∧ Hv.length = n + n ∧ n + n ≤ hpf.length) →
      (firstRound R n a b Gv Hv hpf Q hs).IsErr) := by
  have hdiv : (n + n) / 2 = n := by omega
  unfold Overrun
  rw [hdiv]
  unfold firstRound
  rw [splitNil_of_lt (x := Gv) (by omega) hg']
  dsimp only
  by_cases h1 : a.length ≤ n
  · rw [splitNil_of_le h1 ha]
    dsimp only
    refine ⟨by omega, fun _ _ => ?_⟩
    cases hc : Vec.innerProduct ([] : List F) (splitNil b n).1 with
    | panic => exact absurd hc (by unfold Vec.innerProduct; split <;> simp)
    | err e => exact Res.isErr_err _
    | ok x =>
      rw [Res.bind_ok]
      exact bind_err (exp_err (by simp; omega)) _
  have h1 : n < a.length := by omega
  rw [splitNil_of_lt h1 ha]
  dsimp only
  by_cases h2 : b.length ≤ n
  · rw [splitNil_of_le h2 hb]
    refine ⟨by omega, fun _ _ => bind_err (innerProduct_err (by simp; omega)) _⟩
  have h2 : n < b.length := by omega
  rw [splitNil_of_lt h2 hb]
  dsimp only
  by_cases h3 : a.length = n + n
  swap
  · refine ⟨by omega, fun _ _ => bind_err (innerProduct_err (by simp; omega)) _⟩
  rw [innerProduct_eq (a := a.drop n) (b := b.take n) (by simp; omega), Res.bind_ok,
    exp_eq (by simp; omega) (by simp; omega), Res.bind_ok]
  by_cases h4 : hpf.length < b.length - n
  · rw [mulFactors_panic _ _ (by simpa using h4)]
    refine ⟨fun _ => rfl, fun h => ?_⟩
    exact absurd ⟨h3, h2, .inl h4⟩ h
  rw [mulFactors_eq _ _ (by simp; omega), Res.bind_ok]
  by_cases h5 : Hv.length ≤ n
  · rw [splitNil_of_le h5 hh]
    refine ⟨by omega, fun _ _ => bind_err (exp_err (by simp only [had_length, List.length_drop, List.length_nil]; omega)) _⟩
  have h5 : n < Hv.length := by omega
  rw [splitNil_of_lt h5 hh]
  dsimp only
  by_cases h6 : b.length = n + n
  swap
  · refine ⟨by omega, fun _ _ => bind_err (exp_err (by simp; omega)) _⟩
  rw [exp_eq (by simp; omega) (by simp; omega), Res.bind_ok, exp_eq (by simp; omega) (by simp; omega), Res.bind_ok]
  by_cases h7 : hpf.length < n + n
  · rw [mulFactors_panic _ _ (by simp; omega)]
    refine ⟨fun _ => rfl, fun h => ?_⟩
    exact absurd ⟨h3, h2, .inr ⟨h6, h5, h7⟩⟩ h
  rw [mulFactors_eq _ _ (by simp; omega), Res.bind_ok]
  refine ⟨by omega, fun _ h => bind_err (exp_err (by simp; omega)) _⟩

/-- C100: what `Generate` does for `g = 2^k ≥ 2` points `G` and all lengths of the other arguments: it panics exactly for the
lengths of `Overrun`; it succeeds exactly if all lengths are `g` and there are at least `g` factors; otherwise it returns an
error. -/
theorem C100_shapes (R : Ristretto F G) (Gv Hv : List G) (a b hpf : List F) (Q : G) (k : Nat) (hk : 1 ≤ k) (hk' : k < 32)
    (hg : Gv.length = 2 ^ k) (ha : a.length < 2 ^ 32) (hb : b.length < 2 ^ 32) (hh : Hv.length < 2 ^ 32) :
    (generate R Gv Hv a b hpf Q = .panic ↔ Overrun Gv.length a.length b.length Hv.length hpf.length) ∧
    ((∃ p, generate R Gv Hv a b hpf Q = .ok p) ↔
      a.length = Gv.length ∧ b.length = Gv.length ∧ Hv.length = Gv.length ∧ Gv.length ≤ hpf.length) ∧
    ((generate R Gv Hv a b hpf Q).IsErr ↔ ¬ Overrun Gv.length a.length b.length Hv.length hpf.length ∧
      ¬ (a.length = Gv.length ∧ b.length = Gv.length ∧ Hv.length = Gv.length ∧ Gv.length ≤ hpf.length)) := by
  have hok := C55_lengths R Gv Hv a b hpf Q k hk hk' hg
  have hlt : 2 ^ k < 2 ^ 32 := Nat.pow_lt_pow_right (by norm_num) hk'
  obtain ⟨j, rfl⟩ : ∃ j, k = j + 1 := ⟨k - 1, by omega⟩
  have h2 : 2 ^ (j + 1) / 2 = 2 ^ j := by rw [pow_succ]; omega
  have h3 : (2 : Nat) ^ (j + 1) = 2 ^ j + 2 ^ j := by rw [pow_succ]; omega
  have e : generate R Gv Hv a b hpf Q = (firstRound R (2 ^ j) a b Gv Hv hpf Q {}).bind fun r =>
      genLoop R Q (2 ^ j) r.a r.b r.Gs r.Hs r.hs [r.L] [r.R] := by
    unfold generate
    rw [hg, Nat.mod_eq_of_lt hlt]
    simp only [isPower2_two_pow hk', not_true_eq_false, if_false]
    rw [if_pos (by have := Nat.two_pow_pos j; omega), h2]
  obtain ⟨g1, g2⟩ := firstRound_outcome R (2 ^ j) Nat.one_le_two_pow a b Gv Hv hpf Q {} (by omega) (by omega) ha hb hh
  rw [← h3, ← hg] at g1 g2
  have p1 : Overrun Gv.length a.length b.length Hv.length hpf.length → generate R Gv Hv a b hpf Q = .panic := by
    intro h
    rw [e, g1 h]
    rfl
  have p2 : ¬ Overrun Gv.length a.length b.length Hv.length hpf.length →
      ¬ (a.length = Gv.length ∧ b.length = Gv.length ∧ Hv.length = Gv.length ∧ Gv.length ≤ hpf.length) →
      (generate R Gv Hv a b hpf Q).IsErr := by
    intro h h'
    rw [e]
    exact bind_err (g2 h h') _
  by_cases ho : Overrun Gv.length a.length b.length Hv.length hpf.length
  · refine ⟨⟨fun _ => ho, p1⟩, hok, ⟨fun h => ?_, fun h => absurd ho h.1⟩⟩
    rw [p1 ho] at h
    simp [Res.IsErr] at h
  · by_cases hl : a.length = Gv.length ∧ b.length = Gv.length ∧ Hv.length = Gv.length ∧ Gv.length ≤ hpf.length
    · obtain ⟨p, hp⟩ := hok.2 hl
      refine ⟨⟨fun h => ?_, fun h => absurd h ho⟩, hok, ⟨fun h => ?_, fun h => absurd hl h.2⟩⟩
      · rw [hp] at h; cases h
      · rw [hp] at h; simp [Res.IsErr] at h
    · have := p2 ho hl
      refine ⟨⟨fun h => ?_, fun h => absurd h ho⟩, hok, ⟨fun _ => ⟨ho, hl⟩, fun _ => this⟩⟩
      rw [h] at this
      simp [Res.IsErr] at this

/-- C100: one point `G`: the last elements of `a` and `b` are returned, whatever the other arguments; without elements there is
a panic. -/
theorem C100_single (R : Ristretto F G) (g : G) (Hv : List G) (a b hpf : List F) (Q : G) :
    (generate R [g] Hv a b hpf Q = .panic ↔ a = [] ∨ b = []) ∧
    ∀ (ha : a ≠ []) (hb : b ≠ []), generate R [g] Hv a b hpf Q = .ok ⟨[], [], a.getLast ha, b.getLast hb⟩ := by
  have e : generate R [g] Hv a b hpf Q = finish [] [] a b := by
    have h0 : isPower2 (UInt32.ofNat ([g].length % 2 ^ 32)) = true := by
      simp only [List.length_singleton]; decide
    unfold generate
    simp only [h0, not_true_eq_false, if_false]
    simp
  rw [e]
  unfold finish
  constructor
  · rcases List.eq_nil_or_concat a with rfl | ⟨a, x, rfl⟩
    · simp
    · rcases List.eq_nil_or_concat b with rfl | ⟨b, y, rfl⟩ <;> simp
  · intro ha hb
    rw [List.getLast?_eq_getLast_of_ne_nil ha, List.getLast?_eq_getLast_of_ne_nil hb]

/-- C100: no point `G`: never a proof, and a panic exactly in these cases. -/
theorem C100_empty (R : Ristretto F G) (Hv : List G) (a b hpf : List F) (Q : G) (ha : a.length < 2 ^ 32) (hb : b.length < 2 ^ 32)
    (hh : Hv.length < 2 ^ 32) :
    (generate R [] Hv a b hpf Q = .panic ↔ a = [] ∧ ((b = [] ∧ Hv = []) ∨ hpf.length < b.length)) ∧
    ∀ p, generate R [] Hv a b hpf Q ≠ .ok p := by
  refine ⟨?_, C55_empty_never R Hv a b hpf Q⟩
  have h0 : isPower2 (UInt32.ofNat (([] : List G).length % 2 ^ 32)) = true := by
    rw [List.length_nil]; decide
  have e : generate R [] Hv a b hpf Q = (firstRound R 0 a b [] Hv hpf Q {}).bind fun r =>
      genLoop R Q 0 r.a r.b r.Gs r.Hs r.hs [r.L] [r.R] := by
    unfold generate
    simp only [h0, not_true_eq_false, if_false]
    rw [if_pos (by simp), show ([] : List G).length % 2 ^ 32 / 2 = 0 by simp]
  rw [e]
  have hne : ∀ {α β : Type} {x : Res α} {f : α → Res β}, x.IsErr → ¬ x.bind f = .panic := by
    intro α β x f h
    cases x <;> simp [Res.IsErr] at h ⊢
  unfold firstRound
  rw [splitNil_of_le (x := ([] : List G)) (by simp) (by simp)]
  dsimp only
  cases a with
  | cons x a =>
    rw [splitNil_of_lt (x := x :: a) (by simp) ha]
    have : (splitNil b 0).1 = [] := by
      cases b with
      | nil => rw [splitNil_of_le (by simp) (by simp)]
      | cons y b => rw [splitNil_of_lt (by simp) hb]; rfl
    dsimp only
    rw [this]
    refine ⟨fun h => ?_, fun h => by simp at h⟩
    exact absurd h (hne (bind_err (innerProduct_err (by simp)) _))
  | nil =>
    rw [splitNil_of_le (x := ([] : List F)) (by simp) (by simp)]
    cases b with
    | nil =>
      rw [splitNil_of_le (x := ([] : List F)) (by simp) (by simp)]
      dsimp only
      cases Hv with
      | nil =>
        rw [splitNil_of_le (x := ([] : List G)) (by simp) (by simp)]
        simp [Vec.innerProduct, Vec.exp, mulFactors, genLoop, finish]
      | cons h Hv =>
        rw [splitNil_of_lt (x := h :: Hv) (by simp) hh]
        simp [Vec.innerProduct, Vec.exp, mulFactors]
    | cons y b =>
      rw [splitNil_of_lt (x := y :: b) (by simp) hb]
      dsimp only
      have : (splitNil Hv 0).1 = [] := by
        cases Hv with
        | nil => rw [splitNil_of_le (by simp) (by simp)]
        | cons y b => rw [splitNil_of_lt (by simp) hh]; rfl
      rw [this]
      by_cases hf : hpf.length < (y :: b).length
      · rw [mulFactors_panic _ _ (by simpa using hf)]
        simp only [hf, or_true, and_true, iff_true]
        simp [Vec.innerProduct, Vec.exp]
      · rw [mulFactors_eq _ _ (by simpa using hf)]
        simp only [hf, or_false]
        rw [innerProduct_eq (a := []) (b := List.take 0 (y :: b)) rfl, Res.bind_ok, exp_eq (a := ([] : List F)) (g := ([] : List G)) rfl (by simp),
          Res.bind_ok, Res.bind_ok]
        refine ⟨fun h => ?_, fun h => by simp at h⟩
        refine absurd h (hne (bind_err (exp_err ?_) _))
        simp only [had_length, List.length_drop, List.length_nil, List.length_cons] at hf ⊢
        omega

/-! ## Examples -/

/-- Two points and one factor: a crash. -/
example (g₁ g₂ h₁ h₂ Q a₁ a₂ b₁ b₂ f : Toy.K) : generate Toy.ris [g₁, g₂] [h₁, h₂] [a₁, a₂] [b₁, b₂] [f] Q = .panic :=
  (C100_shapes Toy.ris [g₁, g₂] [h₁, h₂] [a₁, a₂] [b₁, b₂] [f] Q 1 le_rfl (by norm_num) rfl (by simp) (by simp) (by simp)).1.2
    (by simp [Overrun])

/-- Two factors: a proof; three elements of `b`: an error. -/
example (g₁ g₂ h₁ h₂ Q a₁ a₂ b₁ b₂ b₃ f₁ f₂ : Toy.K) :
    (∃ p, generate Toy.ris [g₁, g₂] [h₁, h₂] [a₁, a₂] [b₁, b₂] [f₁, f₂] Q = .ok p) ∧
    (generate Toy.ris [g₁, g₂] [h₁, h₂] [a₁, a₂] [b₁, b₂, b₃] [f₁, f₂] Q).IsErr :=
  ⟨(C100_shapes Toy.ris [g₁, g₂] [h₁, h₂] [a₁, a₂] [b₁, b₂] [f₁, f₂] Q 1 le_rfl (by norm_num) rfl (by simp) (by simp)
    (by simp)).2.1.2 (by simp),
  (C100_shapes Toy.ris [g₁, g₂] [h₁, h₂] [a₁, a₂] [b₁, b₂, b₃] [f₁, f₂] Q 1 le_rfl (by norm_num) rfl (by simp) (by simp)
    (by simp)).2.2.2 (by simp [Overrun])⟩

example (Q b : Toy.K) : generate Toy.ris [] [] [] [b] [] Q = .panic :=
  (C100_empty Toy.ris [] [] [b] [] Q (by simp) (by simp) (by simp)).1.2 (by simp)

end Dusk.IP
