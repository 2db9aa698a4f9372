import Verif.Props.RPZk
import Verif.Props.RPCases
import Verif.Spec.MlsagHiding
import Mathlib.Logic.Equiv.Fintype
/-!
# Range proofs hide the values, with uniform coins and for values chosen adaptively (C75)

`Prove` draws finitely many scalars. Over a finite field of scalars these coins form a finite set, and "the same distribution" means
a bijection of this set under which the results agree.
-/

namespace Dusk.RP

variable {F G : Type} [Field F] [AddCommGroup G] [Module F G] [DecidableEq F]

/-- The scalars drawn by a call of `Prove` for at most `m` values. -/
structure Draw (m : Nat) (F : Type) where
  vBlind : Fin m → F
  aBlind : F
  sL : Fin (64 * m) → F
  sR : Fin (64 * m) → F
  sBlind : F
  t1Blind : F
  t2Blind : F

/-- They are what `Prove` reads of its coins. -/
def Draw.coins {m : Nat} (d : Draw m F) : Coins F :=
  { vBlind := fun j => if h : j < m then d.vBlind ⟨j, h⟩ else 0
    aBlind := d.aBlind
    sL := fun i => if h : i < 64 * m then d.sL ⟨i, h⟩ else 0
    sR := fun i => if h : i < 64 * m then d.sR ⟨i, h⟩ else 0
    sBlind := d.sBlind
    t1Blind := d.t1Blind
    t2Blind := d.t2Blind }

/-- The coins with indices for `m` values. -/
def restrict (m : Nat) (c : Coins F) : Draw m F :=
  ⟨fun j => c.vBlind j, c.aBlind, fun i => c.sL i, fun i => c.sR i, c.sBlind, c.t1Blind, c.t2Blind⟩

/-- What a call of `Prove` publishes: what `Encode` transmits of the proof, or that there was an error. -/
def outcome [DecidableEq G] (R : Ristretto F G) (M : Nat) (v : List F) (c : Coins F) : Option (Proof F G) :=
  match (prove R M v false c).2 with
  | .ok q => some (published q)
  | _ => none

/-- Equal coins for the first `m` values. -/
structure Alike (m : Nat) (c c' : Coins F) : Prop where
  vBlind : ∀ j < m, c.vBlind j = c'.vBlind j
  aBlind : c.aBlind = c'.aBlind
  sL : ∀ i < 64 * m, c.sL i = c'.sL i
  sR : ∀ i < 64 * m, c.sR i = c'.sR i
  sBlind : c.sBlind = c'.sBlind
  t1Blind : c.t1Blind = c'.t1Blind
  t2Blind : c.t2Blind = c'.t2Blind

omit [Field F] [DecidableEq F] in
theorem Alike.symm {m : Nat} {c c' : Coins F} (h : Alike m c c') : Alike m c' c :=
  ⟨fun j hj => (h.vBlind j hj).symm, h.aBlind.symm, fun i hi => (h.sL i hi).symm, fun i hi => (h.sR i hi).symm, h.sBlind.symm,
    h.t1Blind.symm, h.t2Blind.symm⟩

omit [Field F] [DecidableEq F] in
theorem Alike.mono {m n : Nat} {c c' : Coins F} (h : Alike n c c') (hm : m ≤ n) : Alike m c c' :=
  ⟨fun j hj => h.vBlind j (by omega), h.aBlind, fun i hi => h.sL i (by omega), fun i hi => h.sR i (by omega), h.sBlind,
    h.t1Blind, h.t2Blind⟩

omit [DecidableEq F] in
theorem restrict_alike (m : Nat) (c : Coins F) : Alike m (restrict m c).coins c :=
  ⟨fun j hj => by simp [Draw.coins, restrict, hj], rfl, fun i hi => by simp [Draw.coins, restrict, hi], fun i hi => by simp [Draw.coins, restrict, hi],
    rfl, rfl, rfl⟩

omit [DecidableEq F] in
theorem coins_of_alike {m : Nat} {c : Coins F} {d : Draw m F} (h : Alike m c d.coins) : restrict m c = d := by
  obtain ⟨v, a, l, r, s, t1, t2⟩ := d
  have e1 := h.aBlind
  have e2 := h.sBlind
  have e3 := h.t1Blind
  have e4 := h.t2Blind
  simp only [Draw.coins] at e1 e2 e3 e4
  simp only [restrict, Draw.mk.injEq]
  refine ⟨funext fun j => ?_, e1, funext fun i => ?_, funext fun i => ?_, e2, e3, e4⟩
  · simpa [Draw.coins] using h.vBlind j j.2
  · simpa [Draw.coins] using h.sL i i.2
  · simpa [Draw.coins] using h.sR i i.2

theorem honest_alike {R : Ristretto F G} {m : Nat} {v : List F} {c c' : Coins F} (ha : Alike m c c') {p : Proof F G}
    {ip : IP.Proof F G} (h : Honest R m v c p ip) : Honest R m v c' p ip := by
  have hr : ∀ y : F, ∀ i < 64 * m, r1At y c.sR i = r1At y c'.sR i := fun y i hi => by rw [r1At, r1At, ha.sR i hi]
  constructor
  · rw [h.V]
    refine List.map_congr_left fun j hj => ?_
    rw [ha.vBlind j (List.mem_range.1 hj)]
  · rw [h.A, ha.aBlind]
  · rw [h.S, ha.sBlind]
    congr 1
    refine Finset.sum_congr rfl fun i hi => ?_
    rw [ha.sL i (Finset.mem_range.1 hi), ha.sR i (Finset.mem_range.1 hi)]
  · rw [h.T1, ha.t1Blind]
    congr 2
    refine Finset.sum_congr rfl fun i hi => ?_
    rw [ha.sL i (Finset.mem_range.1 hi), hr _ i (Finset.mem_range.1 hi)]
  · rw [h.T2, ha.t2Blind]
    congr 2
    refine Finset.sum_congr rfl fun i hi => ?_
    rw [ha.sL i (Finset.mem_range.1 hi), hr _ i (Finset.mem_range.1 hi)]
  · rw [h.taux, ha.t1Blind, ha.t2Blind]
    congr 1
    refine Finset.sum_congr rfl fun j hj => ?_
    rw [ha.vBlind j (Finset.mem_range.1 hj)]
  · rw [h.mu, ha.aBlind, ha.sBlind]
  · rw [h.t]
    refine Finset.sum_congr rfl fun i hi => ?_
    rw [ha.sL i (Finset.mem_range.1 hi), hr _ i (Finset.mem_range.1 hi)]
  · exact h.hasIp
  · rw [← h.gen]
    congr 1
    · refine List.map_congr_left fun i hi => ?_
      rw [ha.sL i (List.mem_range.1 hi)]
    · refine List.map_congr_left fun i hi => ?_
      rw [hr _ i (List.mem_range.1 hi)]

theorem outcome_some [DecidableEq G] (R : Ristretto F G) (M : Nat) (v : List F) (c : Coins F) (p : Proof F G) :
    outcome R M v c = some p ↔ ∃ q, (prove R M v false c).2 = .ok q ∧ published q = p := by
  unfold outcome
  split
  · rename_i q h
    rw [h]
    simp
  · rename_i h
    constructor
    · intro e; cases e
    · rintro ⟨q, e, -⟩
      exact (h q e).elim

/-- The next power of two. -/
theorem exists_pow (n : Nat) (h2 : n ≤ 16) : ∃ k, n ≤ 2 ^ k ∧ (∀ j, n ≤ 2 ^ j → k ≤ j) ∧ 2 ^ k ≤ 16 := by
  have hex : ∃ k, n ≤ 2 ^ k := ⟨4, h2⟩
  classical
  refine ⟨Nat.find hex, Nat.find_spec hex, fun j hj => Nat.find_le hj, ?_⟩
  exact (Nat.pow_le_pow_right (n := 2) (by decide) (Nat.find_le (h := hex) (n := 4) h2)).trans (by decide)

/-- C75: of its coins `Prove` reads those for 16 values at most. -/
theorem C75_coins [DecidableEq G] (R : Ristretto F G) (M : Nat) (v : List F) (c : Coins F) :
    outcome R M v (restrict 16 c).coins = outcome R M v c := by
  rcases Nat.lt_or_ge v.length 1 with h | h1
  · obtain rfl : v = [] := List.length_eq_zero_iff.1 (by omega)
    rfl
  rcases Nat.lt_or_ge 16 v.length with h | h2
  · obtain ⟨e, he⟩ := (C68_many R M v false c h).2
    obtain ⟨e', he'⟩ := (C68_many R M v false (restrict 16 c).coins h).2
    rw [outcome, outcome, he, he']
  obtain ⟨k, hk, hmin, h16⟩ := exists_pow v.length h2
  have key : ∀ {c c' : Coins F}, Alike 16 c c' → ∀ p, outcome R M v c = some p → outcome R M v c' = some p := by
    intro c c' ha p
    rw [outcome_some, outcome_some]
    rintro ⟨q, e, rfl⟩
    obtain ⟨⟨ip, h⟩, n⟩ := (prove_iff R M v h1 h2 k hk hmin c q).1 e
    exact ⟨q, (prove_iff R M v h1 h2 k hk hmin c' q).2 ⟨⟨ip, honest_alike (ha.mono h16) h⟩, n⟩, rfl⟩
  exact Option.ext fun p => ⟨key (restrict_alike 16 c) p, key (restrict_alike 16 c).symm p⟩

example (M : Nat) (c : Coins Toy.K) : outcome Toy.ris M [1, 2] (restrict 16 c).coins = outcome Toy.ris M [1, 2] c := C75_coins Toy.ris M [1, 2] c

omit [DecidableEq F] in
theorem shift_alike (R : Ristretto F G) (m n : Nat) (hm : m ≤ n) {P : Pub G} (l : Logs P F) (y z x : F) (v v' : List F)
    {c c' : Coins F} (h : Alike n c c') : Alike n (shift R m l y z x v v' c) (shift R m l y z x v v' c') := by
  have hL : ∀ i < 64 * m, c.sL i = c'.sL i := (h.mono hm).sL
  have hR : ∀ i < 64 * m, c.sR i = c'.sR i := (h.mono hm).sR
  have e1 : coeff1 R m v y z c.sL c.sR = coeff1 R m v y z c'.sL c'.sR := by
    refine Finset.sum_congr rfl fun i hi => ?_
    rw [r1At, r1At, hL i (Finset.mem_range.1 hi), hR i (Finset.mem_range.1 hi)]
  have e2 : coeff2 m y c.sL c.sR = coeff2 m y c'.sL c'.sR := by
    refine Finset.sum_congr rfl fun i hi => ?_
    rw [r1At, r1At, hL i (Finset.mem_range.1 hi), hR i (Finset.mem_range.1 hi)]
  have e3 : coeff1 R m v' y z (fun i => c.sL i + (bit R v i - bit R v' i) * x⁻¹) (fun i => c.sR i + (bit R v i - bit R v' i) * x⁻¹) =
      coeff1 R m v' y z (fun i => c'.sL i + (bit R v i - bit R v' i) * x⁻¹) (fun i => c'.sR i + (bit R v i - bit R v' i) * x⁻¹) := by
    refine Finset.sum_congr rfl fun i hi => ?_
    simp only [r1At, hL i (Finset.mem_range.1 hi), hR i (Finset.mem_range.1 hi)]
  have e4 : coeff2 m y (fun i => c.sL i + (bit R v i - bit R v' i) * x⁻¹) (fun i => c.sR i + (bit R v i - bit R v' i) * x⁻¹) =
      coeff2 m y (fun i => c'.sL i + (bit R v i - bit R v' i) * x⁻¹) (fun i => c'.sR i + (bit R v i - bit R v' i) * x⁻¹) := by
    refine Finset.sum_congr rfl fun i hi => ?_
    simp only [r1At, hL i (Finset.mem_range.1 hi), hR i (Finset.mem_range.1 hi)]
  constructor
  · intro j hj; simp only [shift, h.vBlind j hj]
  · simp only [shift, h.aBlind]
  · intro i hi; simp only [shift, h.sL i hi]
  · intro i hi; simp only [shift, h.sR i hi]
  · simp only [shift, h.sBlind]
  · simp only [shift, h.t1Blind, e1, e3]
  · simp only [shift, h.t2Blind, e2, e4]

/-- For every published proof a bijection of the drawn scalars. -/
theorem draw_bijection [DecidableEq G] (R : Ristretto F G) (hgen : ∀ P : G, ∃ c : F, P = c • R.base) (M : Nat)
    (v v' : List F) (hlen : v.length = v'.length) (hv : ∀ a ∈ v, R.sNat a < 2 ^ 64) (hv' : ∀ a ∈ v', R.sNat a < 2 ^ 64)
    (p : Proof F G) :
    ∃ Φ : Draw 16 F ≃ Draw 16 F, ∀ d, outcome R M v d.coins = some p ↔ outcome R M v' (Φ d).coins = some p := by
  rcases Nat.lt_or_ge v.length 1 with h | h1
  · have e1 : v = [] := List.length_eq_zero_iff.1 (by omega)
    have e2 : v' = [] := List.length_eq_zero_iff.1 (by omega)
    subst e1 e2
    exact ⟨Equiv.refl _, fun c => Iff.rfl⟩
  rcases Nat.lt_or_ge 16 v.length with h | h2
  · refine ⟨Equiv.refl _, fun c => ?_⟩
    obtain ⟨e, he⟩ := (C68_many R M v false c.coins h).2
    obtain ⟨e', he'⟩ := (C68_many R M v' false c.coins (by omega)).2
    rw [Equiv.refl_apply, outcome, outcome, he, he']
  obtain ⟨k, hk, hmin, h16⟩ := exists_pow v.length h2
  have i1 := prove_iff R M v h1 h2 k hk hmin
  have i2 := prove_iff R M v' (by omega) (by omega) k (by omega) (by rw [← hlen]; exact hmin)
  let l : Logs (pub R (64 * 2 ^ k)) F :=
    { b := (hgen (pub R (64 * 2 ^ k)).B).choose
      g := fun i => (hgen ((pub R (64 * 2 ^ k)).Gv.getD i 0)).choose
      h := fun i => (hgen ((pub R (64 * 2 ^ k)).Hv.getD i 0)).choose
      hb := (hgen (pub R (64 * 2 ^ k)).B).choose_spec
      hg := fun i => (hgen ((pub R (64 * 2 ^ k)).Gv.getD i 0)).choose_spec
      hh := fun i => (hgen ((pub R (64 * 2 ^ k)).Hv.getD i 0)).choose_spec }
  let S : List F → List F → Draw 16 F → Draw 16 F := fun w w' d =>
    restrict 16 (shift R (2 ^ k) l (chalOf R p).y (chalOf R p).z (chalOf R p).x w w' d.coins)
  have hS : ∀ w w' d, S w' w (S w w' d) = d := by
    intro w w' d
    refine coins_of_alike ?_
    have := shift_alike R (2 ^ k) 16 h16 l (chalOf R p).y (chalOf R p).z (chalOf R p).x w' w
      (restrict_alike 16 (shift R (2 ^ k) l (chalOf R p).y (chalOf R p).z (chalOf R p).x w w' d.coins))
    rwa [shift_shift] at this
  have key : ∀ (w w' : List F), (∀ a ∈ w, R.sNat a < 2 ^ 64) → (∀ a ∈ w', R.sNat a < 2 ^ 64) → ∀ (d : Draw 16 F) q,
      ((∃ ip, Honest R (2 ^ k) w d.coins q ip) ∧ (chalOf R q).x ≠ 0 ∧ (chalOf R q).y ≠ 0 ∧ (chalOf R q).z ≠ 0) → published q = p →
      ∃ q', ((∃ ip, Honest R (2 ^ k) w' (S w w' d).coins q' ip) ∧ (chalOf R q').x ≠ 0 ∧ (chalOf R q').y ≠ 0 ∧ (chalOf R q').z ≠ 0) ∧
        published q' = p := by
    rintro w w' hw hw' d q ⟨⟨ip, hq⟩, n1, n2, n3⟩ rfl
    obtain ⟨q', e, h'⟩ := honest_shift R (2 ^ k) l w w' hw hw' d.coins q ip n1 hq
    refine ⟨q', ⟨⟨ip, ?_⟩, ?_⟩, e⟩
    · simp only [S, chalOf_published]
      exact honest_alike ((restrict_alike 16 _).mono h16).symm h'
    · rw [chalOf_congr R e]; exact ⟨n1, n2, n3⟩
  refine ⟨⟨S v v', S v' v, hS v v', hS v' v⟩, fun d => ?_⟩
  simp only [outcome_some, i1, i2, Equiv.coe_fn_mk]
  constructor
  · rintro ⟨q, hq, e⟩
    exact key v v' hv hv' d q hq e
  · rintro ⟨q, hq, e⟩
    have := key v' v hv' hv _ q hq e
    rwa [hS v v' d] at this

/-- The drawn scalars as a tuple. -/
def Draw.tuple (m : Nat) (F : Type) :
    Draw m F ≃ (Fin m → F) × F × (Fin (64 * m) → F) × (Fin (64 * m) → F) × F × F × F where
  toFun d := (d.vBlind, d.aBlind, d.sL, d.sR, d.sBlind, d.t1Blind, d.t2Blind)
  invFun t := ⟨t.1, t.2.1, t.2.2.1, t.2.2.2.1, t.2.2.2.2.1, t.2.2.2.2.2.1, t.2.2.2.2.2.2⟩
  left_inv _ := rfl
  right_inv _ := rfl

instance [Finite F] (m : Nat) : Finite (Draw m F) := Finite.of_equiv _ (Draw.tuple m F).symm

/-- If for every value there is a bijection between the arguments with this value, there is one for all values, and for `none`. -/
theorem glue {α β : Type} [Finite α] (f g : α → Option β) (h : ∀ b, ∃ Φ : α ≃ α, ∀ a, f a = some b ↔ g (Φ a) = some b) :
    ∃ Φ : α ≃ α, ∀ a, f a = g (Φ a) := by
  classical
  choose Φ hΦ using h
  let e : {a // f a ≠ none} ≃ {a // g a ≠ none} :=
    { toFun := fun a => ⟨Φ ((f a).get (Option.isSome_iff_ne_none.2 a.2)) a, by
        rw [(hΦ _ _).1 (Option.some_get _).symm]; exact Option.some_ne_none _⟩
      invFun := fun a => ⟨(Φ ((g a).get (Option.isSome_iff_ne_none.2 a.2))).symm a, by
        rw [(hΦ ((g a).get (Option.isSome_iff_ne_none.2 a.2)) _).2 (by rw [Equiv.apply_symm_apply, Option.some_get])]; exact Option.some_ne_none _⟩
      left_inv := fun a => by
        apply Subtype.ext
        have : g (Φ ((f a).get (Option.isSome_iff_ne_none.2 a.2)) a) = some ((f a).get (Option.isSome_iff_ne_none.2 a.2)) :=
          (hΦ _ _).1 (Option.some_get _).symm
        simp only [this, Option.get_some, Equiv.symm_apply_apply]
      right_inv := fun a => by
        apply Subtype.ext
        have : f ((Φ ((g a).get (Option.isSome_iff_ne_none.2 a.2))).symm a) = some ((g a).get (Option.isSome_iff_ne_none.2 a.2)) :=
          (hΦ _ _).2 (by rw [Equiv.apply_symm_apply, Option.some_get])
        simp only [this, Option.get_some, Equiv.apply_symm_apply] }
  refine ⟨e.extendSubtype, fun a => ?_⟩
  by_cases ha : f a = none
  · have := e.extendSubtype_not_mem a (by simpa using ha)
    rw [ha]
    exact (not_not.1 this).symm
  · rw [e.extendSubtype_apply_of_mem a ha]
    have : g (Φ ((f a).get (Option.isSome_iff_ne_none.2 ha)) a) = some ((f a).get (Option.isSome_iff_ne_none.2 ha)) :=
      (hΦ _ _).1 (Option.some_get _).symm
    change f a = g (Φ ((f a).get (Option.isSome_iff_ne_none.2 ha)) a)
    rw [this, Option.some_get]

/-- C75: with uniform coins what `Prove` publishes has the same distribution for all lists of in-range values of the same length:
there is a bijection of the finitely many coins under which the results, errors included, are equal. -/
theorem C75_uniform [DecidableEq G] [Finite F] (R : Ristretto F G) (hgen : ∀ P : G, ∃ c : F, P = c • R.base) (M : Nat)
    (v v' : List F) (hlen : v.length = v'.length) (hv : ∀ a ∈ v, R.sNat a < 2 ^ 64) (hv' : ∀ a ∈ v', R.sNat a < 2 ^ 64) :
    ∃ Φ : Draw 16 F ≃ Draw 16 F, ∀ d, outcome R M v d.coins = outcome R M v' (Φ d).coins :=
  glue (fun d : Draw 16 F => outcome R M v d.coins) (fun d : Draw 16 F => outcome R M v' d.coins)
    fun p => draw_bijection R hgen M v v' hlen hv hv' p

/-- Somebody who chooses the next two lists of values by what was published so far. -/
abbrev Chooser (F G : Type) : Type := List (Option (Proof F G)) → List F × List F

/-- The results of `T` calls of `Prove` on the lists taken by `side`. The package variable `M` goes from call to call. -/
def transcript [DecidableEq G] (R : Ristretto F G) (side : List F × List F → List F) (A : Chooser F G) :
    (T : Nat) → Nat → List (Option (Proof F G)) → (Fin T → Draw 16 F) → List (Option (Proof F G))
  | 0, _, seen, _ => seen
  | T + 1, M, seen, d =>
    transcript R side A T (prove R M (side (A seen)) false (d 0).coins).1 (seen ++ [outcome R M (side (A seen)) (d 0).coins]) (Fin.tail d)

theorem next_M [DecidableEq G] (R : Ristretto F G) (M : Nat) (v v' : List F) (hlen : v.length = v'.length) (c c' : Coins F) :
    (prove R M v false c).1 = (prove R M v' false c').1 := by
  rcases Nat.lt_or_ge v.length 1 with h | h1
  · have e1 : v = [] := List.length_eq_zero_iff.1 (by omega)
    have e2 : v' = [] := List.length_eq_zero_iff.1 (by omega)
    subst e1 e2
    rfl
  rcases Nat.lt_or_ge 16 v.length with h | h2
  · rw [(C68_many R M v false c h).1, (C68_many R M v' false c' (by omega)).1, hlen]
  · obtain ⟨k, -, -, a1, a2, a3, -⟩ := C68_prove R M v false c h1 h2
    obtain ⟨k', -, -, b1, b2, b3, -⟩ := C68_prove R M v' false c' (by omega) (by omega)
    rw [a3, b3, Nat.le_antisymm (a2 k' (by omega)) (b2 k (by omega))]

/-- C75: this also holds for any number of proofs, for values chosen by an observer that sees all earlier results: what it sees has the same
distribution whether the first or the second of its lists are proved. -/
theorem C75_adaptive [DecidableEq G] [Finite F] (R : Ristretto F G) (hgen : ∀ P : G, ∃ c : F, P = c • R.base) (A : Chooser F G)
    (hlen : ∀ s, (A s).1.length = (A s).2.length) (h1 : ∀ s, ∀ a ∈ (A s).1, R.sNat a < 2 ^ 64) (h2 : ∀ s, ∀ a ∈ (A s).2, R.sNat a < 2 ^ 64)
    (T M : Nat) :
    (∃ Φ : (Fin T → Draw 16 F) ≃ (Fin T → Draw 16 F), ∀ d,
      transcript R Prod.fst A T M [] d = transcript R Prod.snd A T M [] (Φ d)) ∧
    ∀ guess : List (Option (Proof F G)) → Prop,
      Mlsag.chance (fun d : Fin T → Draw 16 F => guess (transcript R Prod.fst A T M [] d)) =
      Mlsag.chance (fun d : Fin T → Draw 16 F => guess (transcript R Prod.snd A T M [] d)) := by
  have main : ∀ (T M : Nat) (seen : List (Option (Proof F G))), ∃ Φ : (Fin T → Draw 16 F) ≃ (Fin T → Draw 16 F), ∀ d,
      transcript R Prod.fst A T M seen d = transcript R Prod.snd A T M seen (Φ d) := by
    intro T
    induction T with
    | zero => exact fun M seen => ⟨Equiv.refl _, fun d => rfl⟩
    | succ T ih =>
      intro M seen
      obtain ⟨Φ, hΦ⟩ := C75_uniform R hgen M (A seen).1 (A seen).2 (hlen seen) (h1 seen) (h2 seen)
      choose Ψ hΨ using fun o : Option (Proof F G) => ih (prove R M (A seen).1 false ⟨0, 0, 0, 0, 0, 0, 0⟩).1 (seen ++ [o])
      let E : (Fin (T + 1) → Draw 16 F) ≃ Draw 16 F × (Fin T → Draw 16 F) := Fin.consEquiv (fun _ => Draw 16 F) |>.symm
      let e : Draw 16 F × (Fin T → Draw 16 F) ≃ Draw 16 F × (Fin T → Draw 16 F) :=
        { toFun := fun p => (Φ p.1, Ψ (outcome R M (A seen).1 p.1.coins) p.2)
          invFun := fun p => (Φ.symm p.1, (Ψ (outcome R M (A seen).2 p.1.coins)).symm p.2)
          left_inv := fun p => by
            dsimp only
            rw [← hΦ p.1]; simp
          right_inv := fun p => by
            dsimp only
            rw [hΦ (Φ.symm p.1)]; simp }
      refine ⟨(E.trans e).trans E.symm, fun d => ?_⟩
      have hd : ((E.trans e).trans E.symm) d = Fin.cons (Φ (d 0)) (Ψ (outcome R M (A seen).1 (d 0).coins) (Fin.tail d)) := rfl
      rw [hd, transcript, transcript, Fin.cons_zero, Fin.tail_cons, ← hΦ (d 0), next_M R M (A seen).1 (A seen).1 rfl _ ⟨0, 0, 0, 0, 0, 0, 0⟩,
        next_M R M (A seen).2 (A seen).1 (hlen seen).symm _ ⟨0, 0, 0, 0, 0, 0, 0⟩]
      exact hΨ _ _
  obtain ⟨Φ, hΦ⟩ := main T M []
  refine ⟨⟨Φ, hΦ⟩, fun guess => ?_⟩
  unfold Mlsag.chance
  congr 2
  exact Nat.card_congr (Φ.subtypeEquiv fun d => by rw [hΦ d])

/-- C75: so range proofs can be simulated by somebody who learns the numbers of values only, by proving zeros: what an observer who
chooses the values sees cannot be told apart from this. -/
theorem C75_simulated [DecidableEq G] [Finite F] (R : Ristretto F G) (hgen : ∀ P : G, ∃ c : F, P = c • R.base)
    (choose : List (Option (Proof F G)) → List F) (hv : ∀ s, ∀ a ∈ choose s, R.sNat a < 2 ^ 64) (T M : Nat)
    (guess : List (Option (Proof F G)) → Prop) :
    Mlsag.chance (fun d : Fin T → Draw 16 F => guess (transcript R Prod.fst (fun s => (choose s, [])) T M [] d)) =
    Mlsag.chance (fun d : Fin T → Draw 16 F =>
      guess (transcript R Prod.fst (fun s => (List.replicate (choose s).length 0, [])) T M [] d)) := by
  have e : ∀ (side : List F × List F → List F) (A B : Chooser F G), (∀ s, side (A s) = (B s).1) → ∀ (T M : Nat) (seen) (d : Fin T → Draw 16 F),
      transcript R side A T M seen d = transcript R Prod.fst B T M seen d := by
    intro side A B h T
    induction T with
    | zero => exact fun M seen d => rfl
    | succ T ih => intro M seen d; rw [transcript, transcript, ih, h]
  have h0 : R.sNat (0 : F) = 0 := by
    have := R.sNat_cast (n := 0) (Nat.lt_of_le_of_lt (Nat.zero_le _) (R.sNat_lt 0))
    rwa [Nat.cast_zero] at this
  let A : Chooser F G := fun s => (choose s, List.replicate (choose s).length 0)
  have h := (C75_adaptive R hgen A (fun s => by simp [A]) hv
    (fun s a ha => by rw [List.eq_of_mem_replicate ha, h0]; norm_num) T M).2 guess
  simp only [e Prod.fst A (fun s => (choose s, [])) (fun _ => rfl),
    e Prod.snd A (fun s => (List.replicate (choose s).length 0, [])) (fun _ => rfl)] at h
  exact h

/-- Two values, each proved in place of the other, in an order that depends on whether the proofs before failed. -/
def swapper : Chooser Toy.K Toy.K := fun seen => if seen.contains none then ([5], [7]) else ([7], [5])

example : (∀ P : Toy.K, ∃ c : Toy.K, P = c • Toy.ris.base) ∧ (∀ s, (swapper s).1.length = (swapper s).2.length) ∧
    (∀ s, ∀ a ∈ (swapper s).1, Toy.ris.sNat a < 2 ^ 64) ∧ ∀ s, ∀ a ∈ (swapper s).2, Toy.ris.sNat a < 2 ^ 64 := by
  have h5 : Toy.ris.sNat (5 : Toy.K) < 2 ^ 64 := by
    rw [show (5 : Toy.K) = ((5 : Nat) : Toy.K) by norm_num, toy_sNat 5 (by norm_num)]; norm_num
  have h7 : Toy.ris.sNat (7 : Toy.K) < 2 ^ 64 := by
    rw [show (7 : Toy.K) = ((7 : Nat) : Toy.K) by norm_num, toy_sNat 7 (by norm_num)]; norm_num
  refine ⟨fun P => ⟨P, by simp [Toy.ris]⟩, fun s => ?_, fun s => ?_, fun s => ?_⟩ <;> unfold swapper <;> split <;>
    first | rfl | (simp only [List.mem_singleton, forall_eq]; assumption)

/-- With the toy group all coins give a proof of `[1, 2]`, so that the published results are not only errors. -/
example (M : Nat) (d : Draw 16 Toy.K) : outcome Toy.ris M [1, 2] d.coins ≠ none := by
  obtain ⟨p, ip, h, -⟩ := case_two M d.coins
  rw [outcome, h]
  exact Option.some_ne_none _

/-- A chooser whose values depend on the proofs it has seen; its view is that of the proofs of zeros. -/
example (T M : Nat) (guess : List (Option (Proof Toy.K Toy.K)) → Prop) :
    Mlsag.chance (fun d : Fin T → Draw 16 Toy.K => guess (transcript Toy.ris Prod.fst (fun s => ((swapper s).1, [])) T M [] d)) =
    Mlsag.chance (fun d : Fin T → Draw 16 Toy.K =>
      guess (transcript Toy.ris Prod.fst (fun s => (List.replicate (swapper s).1.length 0, [])) T M [] d)) :=
  C75_simulated Toy.ris (fun P => ⟨P, by simp [Toy.ris]⟩) (fun s => (swapper s).1) (fun s => by
    have h5 : Toy.ris.sNat (5 : Toy.K) < 2 ^ 64 := by
      rw [show (5 : Toy.K) = ((5 : Nat) : Toy.K) by norm_num, toy_sNat 5 (by norm_num)]; norm_num
    have h7 : Toy.ris.sNat (7 : Toy.K) < 2 ^ 64 := by
      rw [show (7 : Toy.K) = ((7 : Nat) : Toy.K) by norm_num, toy_sNat 7 (by norm_num)]; norm_num
    unfold swapper; split <;> (simp only [List.mem_singleton, forall_eq]; assumption)) T M guess

end Dusk.RP
