import Verif.Props.WeakFS

/-!
C74: what `Verify` of an inner product proof does on every shape of its arguments.
-/

set_option linter.unusedSectionVars false

namespace Dusk.IP

variable {F G : Type} [Field F] [DecidableEq F] [AddCommGroup G] [Module F G] [DecidableEq G]

/-- Number of weights for `k` rounds: the loop bound is a `uint32`. -/
def width (k : Nat) : Nat := if k < 32 then 2 ^ k else 1

theorem verifScalars_lengths (R : Ristretto F G) (p : Proof F G) (h : p.L.length = p.R.length) :
    ∃ uSq uInvSq s, verifScalars R p = .ok (uSq, uInvSq, s) ∧ uSq.length = p.L.length ∧ uInvSq.length = p.L.length ∧
      s.length = width p.L.length := by
  unfold width
  split
  · rename_i hk
    refine ⟨_, _, _, verifScalars_eq R p h hk, ?_, ?_, ?_⟩ <;> simp [chals, chalLoop_length, sVec_length, h]
  · rename_i hk
    refine ⟨_, _, _, verifScalars_overflow R p h (by omega), ?_, ?_, ?_⟩ <;> simp [chals, chalLoop_length, h]

/-- C74: the outcome of `Verify` for every shape of its arguments: `false` if `L` and `R` differ in length; a panic if there
are fewer factors than weights; `false` if the generators are not twice as many as the weights or `n` is larger than the
number of points; otherwise a verdict. -/
theorem C74_shapes (R : Ristretto F G) (p : Proof F G) (Gv Hv : List G) (hpf : List F) (Q P : G) (n : Int) :
    (p.L.length ≠ p.R.length → verify R p Gv Hv hpf Q P n = .ok false) ∧
    (p.L.length = p.R.length → hpf.length < width p.L.length → verify R p Gv Hv hpf Q P n = .panic) ∧
    (p.L.length = p.R.length → width p.L.length ≤ hpf.length → Gv.length + Hv.length ≠ 2 * width p.L.length →
      verify R p Gv Hv hpf Q P n = .ok false) ∧
    (p.L.length = p.R.length → width p.L.length ≤ hpf.length → 1 + Gv.length + Hv.length + 2 * p.L.length < n →
      verify R p Gv Hv hpf Q P n = .ok false) ∧
    (p.L.length = p.R.length → width p.L.length ≤ hpf.length → Gv.length + Hv.length = 2 * width p.L.length →
      n ≤ 1 + Gv.length + Hv.length + 2 * p.L.length → ∃! P : G, verify R p Gv Hv hpf Q P n = .ok true) := by
  refine ⟨fun h => ?_, ?_⟩
  · unfold verify
    rw [show verifScalars R p = .ok ([], [], []) by simp [verifScalars, h]]
    simp only [Res.bind_ok, Vec.mulScalar, List.map_nil, List.reverse_nil]
    rw [mulFactors_eq _ _ (by simp)]
    simp only [Res.bind_ok]
    unfold Vec.exp
    rw [if_pos]
    simp only [List.length_append, List.length_cons, List.length_nil, had_length, List.length_map]
    omega
  have key : p.L.length = p.R.length → width p.L.length ≤ hpf.length → ∃ sc : List F,
      sc.length = 1 + 2 * width p.L.length + 2 * p.L.length ∧ ∀ P, verify R p Gv Hv hpf Q P n =
        match Vec.exp sc ([Q] ++ Gv ++ Hv ++ p.L ++ p.R) n 1 with
        | .ok have_ => .ok (decide (have_ = P))
        | .err _ => .ok false
        | .panic => .panic := by
    intro h hf
    obtain ⟨x, y, s, h1, h2, h3, h4⟩ := verifScalars_lengths R p h
    unfold verify
    rw [h1]
    simp only [Res.bind_ok]
    rw [mulFactors_eq _ _ (by simp [Vec.mulScalar]; omega)]
    simp only [Res.bind_ok]
    refine ⟨_, ?_, fun P => rfl⟩
    simp [Vec.mulScalar]
    omega
  refine ⟨fun h hf => ?_, fun h hf hg => ?_, fun h hf hn => ?_, fun h hf hg hn => ?_⟩
  · obtain ⟨x, y, s, h1, h2, h3, h4⟩ := verifScalars_lengths R p h
    unfold verify
    rw [h1]
    simp only [Res.bind_ok]
    rw [mulFactors_panic _ _ (by simp [Vec.mulScalar]; omega)]
    rfl
  · obtain ⟨sc, hl, e⟩ := key h hf
    rw [e, Vec.exp, if_pos]
    simp only [List.length_append, List.length_cons, List.length_nil, hl]
    omega
  · obtain ⟨sc, hl, e⟩ := key h hf
    rw [e, Vec.exp]
    by_cases heq : sc.length = ([Q] ++ Gv ++ Hv ++ p.L ++ p.R).length
    swap
    · rw [if_pos heq]
    · rw [if_neg (by simpa using heq), if_pos]
      simp only [List.length_append, List.length_cons, List.length_nil] at heq
      rw [heq]
      push_cast
      omega
  · obtain ⟨sc, hl, e⟩ := key h hf
    have hx : ∃ x, Vec.exp sc ([Q] ++ Gv ++ Hv ++ p.L ++ p.R) n 1 = .ok x := by
      refine ⟨_, exp_eq ?_ ?_⟩
      · simp only [List.length_append, List.length_cons, List.length_nil, hl]
        omega
      · rw [hl]
        push_cast
        have : (Gv.length : Int) + Hv.length = 2 * width p.L.length := by exact_mod_cast hg
        omega
    obtain ⟨x, hx⟩ := hx
    refine ⟨x, ?_, fun y hy => ?_⟩
    · simp only [e, hx, decide_true]
    · simp only [e, hx, Res.ok.injEq, decide_eq_true_eq] at hy
      exact hy.symm

/-- C74 (violated): `Verify` does not know where `G` ends and `H` begins: moving the boundary between the two lists of
generators does not change the outcome. -/
theorem C74_boundary_violated (R : Ristretto F G) (p : Proof F G) (Gv Hv Gv' Hv' : List G) (hpf : List F) (Q P : G) (n : Int)
    (h : Gv ++ Hv = Gv' ++ Hv') : verify R p Gv Hv hpf Q P n = verify R p Gv' Hv' hpf Q P n := by
  unfold verify
  have : [Q] ++ Gv ++ Hv ++ p.L ++ p.R = [Q] ++ Gv' ++ Hv' ++ p.L ++ p.R := by
    rw [List.append_assoc [Q], h, ← List.append_assoc [Q]]
  simp only [this]

/-- A proof for two pairs of generators is accepted as well with one `G` and three `H`. -/
example : ∃ (p : Proof Toy.K Toy.K) (P : Toy.K), verify Toy.ris p [2, 3] [4, 5] [1, 1] 7 P 2 = .ok true ∧
    verify Toy.ris p [2] [3, 4, 5] [1, 1] 7 P 2 = .ok true := by
  obtain ⟨P, h, _⟩ := (C74_shapes Toy.ris ⟨[1], [2], 3, 4⟩ [2, 3] [4, 5] [1, 1] (7 : Toy.K) 0 2).2.2.2.2 rfl
    (by decide) (by decide) (by decide)
  exact ⟨_, P, h, (C74_boundary_violated Toy.ris _ [2, 3] [4, 5] [2] [3, 4, 5] [1, 1] 7 P 2 rfl) ▸ h⟩

/-! ## `Equals` of inner product proofs (C67) -/

theorem equalsLoop_true : ∀ (L Rs L' R' : List G), L.length = Rs.length →
    (equalsLoop L Rs L' R' = .ok true ↔ L <+: L' ∧ Rs <+: R')
  | [], [], L', R', _ => by simp [equalsLoop]
  | l :: L, r :: Rs, [], R', _ => by simp [equalsLoop]
  | l :: L, r :: Rs, o :: L', [], _ => by
    simp only [equalsLoop]
    split <;> simp
  | l :: L, r :: Rs, o :: L', q :: R', h => by
    have ih := equalsLoop_true L Rs L' R' (by simpa using h)
    simp only [equalsLoop, List.cons_prefix_cons]
    split
    · rename_i hl; simp [hl]
    · rename_i hl
      rw [not_not] at hl
      split
      · rename_i hr; simp [hr]
      · rename_i hr
        rw [not_not] at hr
        rw [ih]
        simp [hl, hr]

theorem equalsLoop_total : ∀ (L Rs L' R' : List G), L.length = Rs.length → L.length ≤ L'.length → L.length ≤ R'.length →
    ∃ b, equalsLoop L Rs L' R' = .ok b
  | [], [], L', R', _, _, _ => ⟨true, rfl⟩
  | l :: L, r :: Rs, [], R', _, h, _ => by simp at h
  | l :: L, r :: Rs, o :: L', [], _, _, h => by simp at h
  | l :: L, r :: Rs, o :: L', q :: R', h, h1, h2 => by
    simp only [equalsLoop]
    split
    · exact ⟨_, rfl⟩
    · split
      · exact ⟨_, rfl⟩
      · exact equalsLoop_total L Rs L' R' (by simpa using h) (by simpa using h1) (by simpa using h2)

/-- C67: on inner product proofs with equally long lists `Equals` decides equality. -/
theorem C67_innerproduct (p q : Proof F G) (h1 : p.L.length = p.R.length) (h2 : q.L.length = p.L.length)
    (h3 : q.R.length = p.L.length) : p.equals q = .ok (decide (p = q)) := by
  have ht := equalsLoop_true p.L p.R q.L q.R h1
  obtain ⟨b, hb⟩ := equalsLoop_total p.L p.R q.L q.R h1 (by omega) (by omega)
  unfold Proof.equals
  cases p with | mk L Rs A B =>
  cases q with | mk L' R' A' B' =>
  dsimp only at *
  split
  · rename_i hA; simp [hA]
  · rename_i hA
    rw [not_not] at hA
    split
    · rename_i hB; simp [hB]
    · rename_i hB
      rw [not_not] at hB
      rw [hb] at ht ⊢
      congr 1
      rw [eq_comm, Bool.eq_iff_iff, decide_eq_true_iff]
      constructor
      · rintro h; cases h; simpa using ht
      · rintro rfl
        obtain ⟨i1, i2⟩ := ht.1 rfl
        rw [i1.eq_of_length h2.symm, i2.eq_of_length (by omega), hA, hB]

/-- C67 (violated): `Equals` also holds if the other proof has further rounds. -/
theorem C67_innerproduct_violated (p q : Proof F G) (h : p.L.length = p.R.length) :
    p.equals q = .ok true ↔ p.A = q.A ∧ p.B = q.B ∧ p.L <+: q.L ∧ p.R <+: q.R := by
  unfold Proof.equals
  split
  · rename_i hA; simp [hA]
  · rename_i hA
    rw [not_not] at hA
    split
    · rename_i hB; simp [hB]
    · rename_i hB
      rw [not_not] at hB
      rw [equalsLoop_true _ _ _ _ h]
      simp [hA, hB]

/-- C67 (violated): `Equals` panics if all scalars and points of the other proof agree but it has fewer of them. -/
theorem C67_innerproduct_panics_violated (p q : Proof F G) (h : p.L.length = p.R.length) (hA : p.A = q.A) (hB : p.B = q.B)
    (hL : q.L <+: p.L) (hR : q.R <+: p.R) (hlt : q.L.length < p.L.length ∨ q.R.length < p.R.length) :
    p.equals q = .panic := by
  have key : ∀ (L Rs L' R' : List G), L.length = Rs.length → L' <+: L → R' <+: Rs →
      (L'.length < L.length ∨ R'.length < Rs.length) → equalsLoop L Rs L' R' = .panic := by
    intro L
    induction L with
    | nil => intro Rs L' R' h1 h2 h3 h4; simp at h4 h1; omega
    | cons l L ih =>
      intro Rs L' R' h1 h2 h3 h4
      cases Rs with
      | nil => simp at h1
      | cons r Rs =>
        cases L' with
        | nil => rfl
        | cons o L' =>
          rw [List.cons_prefix_cons] at h2
          cases R' with
          | nil => simp [equalsLoop, h2.1]
          | cons q R' =>
            rw [List.cons_prefix_cons] at h3
            simp only [equalsLoop, h2.1, h3.1, ne_eq, not_true_eq_false, if_false]
            exact ih Rs L' R' (by simpa using h1) h2.2 h3.2 (by simpa using h4)
  simp only [Proof.equals, hA, hB, ne_eq, not_true_eq_false, if_false]
  exact key _ _ _ _ h hL hR hlt

/-- C67: for proofs whose lists have the same length, `Equals` panics in no other case, and it never returns an error. -/
theorem C67_innerproduct_outcome (p q : Proof F G) (hp : p.L.length = p.R.length) (hq : q.L.length = q.R.length) :
    (p.equals q = .panic ↔ p.A = q.A ∧ p.B = q.B ∧ q.L.length < p.L.length ∧ q.L <+: p.L ∧ q.R <+: p.R) ∧ ¬ (p.equals q).IsErr := by
  have key : ∀ (L Rs L' R' : List G), L.length = Rs.length → L'.length = R'.length →
      (equalsLoop L Rs L' R' = .panic → L'.length < L.length ∧ L' <+: L ∧ R' <+: Rs) ∧ ¬ (equalsLoop L Rs L' R').IsErr := by
    intro L
    induction L with
    | nil => intro Rs L' R' h1 h2; simp [equalsLoop, Res.IsErr]
    | cons l L ih =>
      intro Rs L' R' h1 h2
      cases Rs with
      | nil => simp at h1
      | cons r Rs =>
        cases L' with
        | nil =>
          have : R' = [] := List.length_eq_zero_iff.1 (by simpa using h2.symm)
          subst this
          simp [equalsLoop, Res.IsErr]
        | cons o L' =>
          cases R' with
          | nil => simp at h2
          | cons q R' =>
            obtain ⟨i1, i2⟩ := ih Rs L' R' (by simpa using h1) (by simpa using h2)
            simp only [equalsLoop]
            split
            · simp [Res.IsErr]
            · rename_i e1
              split
              · simp [Res.IsErr]
              · rename_i e2
                rw [not_not] at e1 e2
                refine ⟨fun h => ?_, i2⟩
                obtain ⟨j1, j2, j3⟩ := i1 h
                rw [List.cons_prefix_cons, List.cons_prefix_cons]
                exact ⟨by simpa using j1, ⟨e1.symm, j2⟩, e2.symm, j3⟩
  refine ⟨⟨fun h => ?_, fun ⟨h1, h2, h3, h4, h5⟩ => C67_innerproduct_panics_violated p q hp h1 h2 h4 h5 (Or.inl h3)⟩, ?_⟩
  · unfold Proof.equals at h
    split at h
    · cases h
    · rename_i hA
      split at h
      · cases h
      · rename_i hB
        exact ⟨not_not.1 hA, not_not.1 hB, (key _ _ _ _ hp hq).1 h⟩
  · unfold Proof.equals
    split
    · simp [Res.IsErr]
    · split
      · simp [Res.IsErr]
      · exact (key _ _ _ _ hp hq).2

example : (⟨[1], [2], 3, 4⟩ : Proof Toy.K Toy.K).equals ⟨[1, 5], [2, 6], 3, 4⟩ = .ok true := by
  rw [C67_innerproduct_violated _ _ rfl]
  exact ⟨rfl, rfl, ⟨[5], rfl⟩, ⟨[6], rfl⟩⟩
example : (⟨[1, 5], [2, 6], 3, 4⟩ : Proof Toy.K Toy.K).equals ⟨[1], [2], 0, 1⟩ = .panic ↔ (3 : Toy.K) = 0 ∧ (4 : Toy.K) = 1 := by
  rw [(C67_innerproduct_outcome _ _ rfl rfl).1]
  simp
example : (⟨[1, 5], [2, 6], 3, 4⟩ : Proof Toy.K Toy.K).equals ⟨[1], [2], 3, 4⟩ = .panic :=
  C67_innerproduct_panics_violated _ _ rfl rfl rfl ⟨[5], rfl⟩ ⟨[6], rfl⟩ (Or.inl (by simp))

end Dusk.IP
