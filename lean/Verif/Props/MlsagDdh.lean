import Verif.Spec.MlsagDdh
import Verif.Props.MlsagHiding
/-!
# Signers are hidden if the decisional Diffie-Hellman problem is hard (C129)
-/

set_option linter.unusedSectionVars false

namespace Dusk.Mlsag

variable {F G : Type} [Field F] [AddCommGroup G] [Module F G] [DecidableEq F]

/-! ## Chances -/

theorem chance_congr {α β : Type} (e : α ≃ β) (P : β → Prop) : chance (fun a => P (e a)) = chance P := by
  unfold chance
  rw [Nat.card_congr e, Nat.card_congr (e.subtypeEquiv (p := fun a => P (e a)) (q := P) fun _ => Iff.rfl)]

/-- Coins that are not used. -/
theorem chance_unused {α β : Type} [Finite α] [Nonempty α] (P : β → Prop) : chance (fun p : α × β => P p.2) = chance P := by
  have e : {p : α × β // P p.2} ≃ α × {b // P b} :=
    ⟨fun p => (p.1.1, ⟨p.1.2, p.2⟩), fun p => ⟨(p.1, p.2.1), p.2.2⟩, fun _ => rfl, fun _ => rfl⟩
  unfold chance
  rw [Nat.card_congr e, Nat.card_prod, Nat.card_prod]
  have : (Nat.card α : ℚ) ≠ 0 := by exact_mod_cast Nat.card_pos.ne'
  push_cast
  rw [mul_div_mul_left _ _ this]

/-- A part of the coins may be drawn again. -/
theorem chance_again {α δ γ : Type} [Finite α] [Nonempty α] (get : γ → α) (set : γ → α → γ) (h1 : ∀ c a, get (set c a) = a)
    (h2 : ∀ c, set c (get c) = c) (h3 : ∀ c a b, set (set c a) b = set c b) (P : δ → γ → Prop) :
    chance (fun p : (α × δ) × γ => P p.1.2 (set p.2 p.1.1)) = chance fun p : δ × γ => P p.1 p.2 := by
  let e : (α × δ) × γ ≃ α × (δ × γ) :=
    { toFun := fun p => (get p.2, (p.1.2, set p.2 p.1.1))
      invFun := fun q => ((get q.2.2, q.2.1), set q.2.2 q.1)
      left_inv := fun p => by simp [h1, h2, h3]
      right_inv := fun q => by simp [h1, h2, h3] }
  exact (chance_congr e fun q => P q.2.1 q.2.2).trans (chance_unused fun q : δ × γ => P q.1 q.2)

theorem chance_again' {α γ : Type} [Finite α] [Nonempty α] (get : γ → α) (set : γ → α → γ) (h1 : ∀ c a, get (set c a) = a)
    (h2 : ∀ c, set c (get c) = c) (h3 : ∀ c a b, set (set c a) b = set c b) (P : γ → Prop) :
    chance (fun p : α × γ => P (set p.2 p.1)) = chance P := by
  let e : α × γ ≃ α × γ :=
    { toFun := fun p => (get p.2, set p.2 p.1)
      invFun := fun q => (get q.2, set q.2 q.1)
      left_inv := fun p => by simp [h1, h2, h3]
      right_inv := fun q => by simp [h1, h2, h3] }
  exact (chance_congr e fun q => P q.2).trans (chance_unused P)

/-! ## Replacing one entry -/

/-- The matrix with another entry. -/
def put {m d : Nat} (x : Fin m → Fin d → F) (u : Fin m) (j : Fin d) (a : F) : Fin m → Fin d → F :=
  Function.update x u (Function.update (x u) j a)

theorem put_get {m d : Nat} (x : Fin m → Fin d → F) (u : Fin m) (j : Fin d) (a : F) : put x u j a u j = a := by simp [put]

theorem put_same {m d : Nat} (x : Fin m → Fin d → F) (u : Fin m) (j : Fin d) : put x u j (x u j) = x := by simp [put]

theorem put_put {m d : Nat} (x : Fin m → Fin d → F) (u : Fin m) (j : Fin d) (a b : F) : put (put x u j a) u j b = put x u j b := by
  simp [put]

theorem ext_put {m d : Nat} (x : Fin m → Fin d → F) (u : Fin m) (j : Fin d) (a : F) (u' j' : Nat) :
    ext (ext (put x u j a) u') j' = if u' = u ∧ j' = j then a else ext (ext x u') j' := by
  unfold ext
  by_cases hu : u' < m
  · rw [dif_pos hu, dif_pos hu]
    by_cases hj : j' < d
    · rw [dif_pos hj, dif_pos hj]
      unfold put
      by_cases h1 : u' = u
      · obtain rfl : (⟨u', hu⟩ : Fin m) = u := Fin.ext h1
        rw [Function.update_self]
        by_cases h2 : j' = j
        · obtain rfl : (⟨j', hj⟩ : Fin d) = j := Fin.ext h2
          rw [Function.update_self, if_pos ⟨rfl, rfl⟩]
        · rw [Function.update_of_ne (fun h => h2 (congrArg Fin.val h)), if_neg (fun h => h2 h.2)]
      · rw [Function.update_of_ne (fun h => h1 (congrArg Fin.val h)), if_neg (fun h => h1 h.1)]
    · rw [dif_neg hj, dif_neg hj, if_neg]
      rintro ⟨-, rfl⟩
      exact hj j.2
  · rw [dif_neg hu, dif_neg hu, if_neg]
    rintro ⟨rfl, -⟩
    exact hu u.2

theorem tableHash_update (R : Ristretto F G) {S : Finset Bytes} (t : S → F) (s : Bytes) (hs : s ∈ S) (b : F) (r : Bytes) :
    tableHash R (Function.update t ⟨s, hs⟩ b) r = if r = s then b • R.base else tableHash R t r := by
  unfold tableHash PointOracle.val
  by_cases h : r = s
  · subst h
    rw [dif_pos hs, Function.update_self, if_pos rfl]
  · rw [if_neg h]
    split
    · rw [Function.update_of_ne (fun e => h (congrArg Subtype.val e))]
    · rfl

/-! ## From random images to computed ones, one by one -/

section

variable (R : Ristretto F G) (O : (Bytes → G) → (Nat → List G) → Observer F G) {m d v w T : Nat} {S : Finset Bytes}

/-- The game in which the first `n` images are computed and the others are random. -/
def stage (σ : Equiv.Perm (Fin m)) (n : Nat) (c : PlayerCoins m d v w T S F) : Bool :=
  (O (tableHash R c.2.1) fun u => (List.range d).map fun j => ext (ext c.1 u) j • R.base).invented (R.withPoints (tableHash R c.2.1))
    (fun a => (List.range v).map fun j => if behind σ a * v + j < n then
        ext (ext c.1 (behind σ a)) j • tableHash R c.2.1 (R.pBytes (ext (ext c.1 (behind σ a)) j • R.base))
      else ext (ext c.2.2.1 (behind σ a)) j • R.base) [] (List.ofFn c.2.2.2)

theorem index_iff {n u j : Nat} (hj : j < v) : u * v + j = n ↔ u = n / v ∧ j = n % v := by
  constructor
  · rintro rfl
    rw [Nat.mul_comm, Nat.mul_add_div (by omega), Nat.mul_add_mod, Nat.div_eq_of_lt hj, Nat.mod_eq_of_lt hj]
    exact ⟨rfl, rfl⟩
  · rintro ⟨rfl, rfl⟩
    rw [Nat.mul_comm]
    exact Nat.div_add_mod n v

variable (hS : ∀ P : G, R.pBytes P ∈ S)

theorem player_real (σ : Equiv.Perm (Fin m)) (n : Nat) (u : Fin m) (j : Fin d) (hu : (u : Nat) = n / v) (hj : (j : Nat) = n % v)
    (x y : F) (c : PlayerCoins m d v w T S F) :
    Observer.player R O σ n (x • R.base) (y • R.base) ((x * y) • R.base) c =
      stage R O σ (n + 1) (put c.1 u j x, Function.update c.2.1 ⟨R.pBytes (x • R.base), hS _⟩ y, c.2.2) := by
  unfold Observer.player stage
  dsimp only
  have hH : tableHash R (Function.update c.2.1 ⟨R.pBytes (x • R.base), hS _⟩ y) =
      fun s => if s = R.pBytes (x • R.base) then y • R.base else tableHash R c.2.1 s := funext fun s => tableHash_update R _ _ _ _ _
  rw [hH]
  congr 1
  · funext a
    refine List.map_congr_left fun j' hj' => ?_
    have hj' := List.mem_range.1 hj'
    rw [ext_put, hu, hj]
    generalize behind σ a = b
    by_cases h : b * v + j' = n
    · have h2 := (index_iff hj').1 h
      rw [if_neg (show ¬ b * v + j' < n by omega), if_pos h, if_pos (show b * v + j' < n + 1 by omega), if_pos h2, mul_smul]
      exact congrArg _ (if_pos rfl).symm
    · have h2 : ¬ (b = n / v ∧ j' = n % v) := mt (index_iff hj').2 h
      by_cases h3 : b * v + j' < n
      · rw [if_pos h3, if_pos (show b * v + j' < n + 1 by omega), if_neg h2]
      · rw [if_neg h3, if_neg h, if_neg (show ¬ b * v + j' < n + 1 by omega)]
  · congr 1
    funext u'
    refine List.map_congr_left fun j' _ => ?_
    rw [ext_put, hu, hj]
    split <;> rfl

theorem player_random (σ : Equiv.Perm (Fin m)) (n : Nat) (u : Fin m) (j : Fin d) (k : Fin v) (hu : (u : Nat) = n / v) (hj : (j : Nat) = n % v)
    (hk : (k : Nat) = n % v) (x y z : F) (c : PlayerCoins m d v w T S F) :
    Observer.player R O σ n (x • R.base) (y • R.base) (z • R.base) c =
      stage R O σ n (put c.1 u j x, Function.update c.2.1 ⟨R.pBytes (x • R.base), hS _⟩ y, put c.2.2.1 u k z, c.2.2.2) := by
  unfold Observer.player stage
  dsimp only
  have hH : tableHash R (Function.update c.2.1 ⟨R.pBytes (x • R.base), hS _⟩ y) =
      fun s => if s = R.pBytes (x • R.base) then y • R.base else tableHash R c.2.1 s := funext fun s => tableHash_update R _ _ _ _ _
  rw [hH]
  congr 1
  · funext a
    refine List.map_congr_left fun j' hj' => ?_
    have hj' := List.mem_range.1 hj'
    rw [ext_put, ext_put, hu, hj, hk]
    generalize behind σ a = b
    by_cases h : b * v + j' = n
    · have h2 := (index_iff hj').1 h
      rw [if_neg (show ¬ b * v + j' < n by omega), if_pos h, if_neg (show ¬ b * v + j' < n by omega), if_pos h2]
    · have h2 : ¬ (b = n / v ∧ j' = n % v) := mt (index_iff hj').2 h
      by_cases h3 : b * v + j' < n
      · rw [if_pos h3, if_pos h3, if_neg h2]
      · rw [if_neg h3, if_neg h, if_neg h3, if_neg h2]
  · congr 1
    funext u'
    refine List.map_congr_left fun j' _ => ?_
    rw [ext_put, hu, hj]
    split <;> rfl

include hS in
/-- Two consecutive games differ by what the player achieves. -/
theorem stage_step [Fintype F] (σ : Equiv.Perm (Fin m)) (n : Nat) (hn : n < m * v) (hv : v ≤ d) :
    |(chance fun c : PlayerCoins m d v w T S F => stage R O σ (n + 1) c = true) -
      chance fun c : PlayerCoins m d v w T S F => stage R O σ n c = true| =
    ddhAdvantage R (Observer.player R O (m := m) (d := d) (v := v) (w := w) (T := T) (S := S) σ n) := by
  have hv0 : 0 < v := Nat.pos_of_ne_zero (by rintro rfl; simp at hn)
  have hmod : n % v < v := Nat.mod_lt _ hv0
  let u : Fin m := ⟨n / v, Nat.div_lt_of_lt_mul (by rwa [Nat.mul_comm])⟩
  let j : Fin d := ⟨n % v, by omega⟩
  let k : Fin v := ⟨n % v, hmod⟩
  have e1 := chance_again (α := F) (δ := F) (γ := PlayerCoins m d v w T S F) (fun c => c.1 u j) (fun c a => (put c.1 u j a, c.2))
    (fun c a => put_get _ _ _ _) (fun c => by rw [put_same]) (fun c a b => by rw [put_put])
    (fun b c => stage R O σ (n + 1) (c.1, Function.update c.2.1 ⟨R.pBytes (c.1 u j • R.base), hS _⟩ b, c.2.2) = true)
  have e2 := chance_again' (α := F) (γ := PlayerCoins m d v w T S F) (fun c => c.2.1 ⟨R.pBytes (c.1 u j • R.base), hS _⟩)
    (fun c b => (c.1, Function.update c.2.1 ⟨R.pBytes (c.1 u j • R.base), hS _⟩ b, c.2.2))
    (fun c a => by simp) (fun c => by simp) (fun c a b => by simp) (fun c => stage R O σ (n + 1) c = true)
  have f1 := chance_again (α := F) (δ := F × F) (γ := PlayerCoins m d v w T S F) (fun c => c.1 u j) (fun c a => (put c.1 u j a, c.2))
    (fun c a => put_get _ _ _ _) (fun c => by rw [put_same]) (fun c a b => by rw [put_put])
    (fun b c => stage R O σ n (c.1, Function.update c.2.1 ⟨R.pBytes (c.1 u j • R.base), hS _⟩ b.1, put c.2.2.1 u k b.2, c.2.2.2) = true)
  have f2 := chance_again (α := F) (δ := F) (γ := PlayerCoins m d v w T S F) (fun c => c.2.1 ⟨R.pBytes (c.1 u j • R.base), hS _⟩)
    (fun c b => (c.1, Function.update c.2.1 ⟨R.pBytes (c.1 u j • R.base), hS _⟩ b, c.2.2))
    (fun c a => by simp) (fun c => by simp) (fun c a b => by simp)
    (fun z c => stage R O σ n (c.1, c.2.1, put c.2.2.1 u k z, c.2.2.2) = true)
  have f3 := chance_again' (α := F) (γ := PlayerCoins m d v w T S F) (fun c => c.2.2.1 u k)
    (fun c z => (c.1, c.2.1, put c.2.2.1 u k z, c.2.2.2))
    (fun c a => put_get _ _ _ _) (fun c => by rw [put_same]) (fun c a b => by rw [put_put]) (fun c => stage R O σ n c = true)
  unfold ddhAdvantage
  simp only [player_real R O hS σ n u j rfl rfl, player_random R O hS σ n u j k rfl rfl rfl]
  simp only [put_get] at e1 f1
  rw [← e2, ← e1, ← f3, ← f2, ← f1]

/-- All images random: it does not matter who is behind a pseudonym. -/
theorem stage_zero (σ : Equiv.Perm (Fin m)) :
    (chance fun c : PlayerCoins m d v w T S F => stage R O σ 0 c = true) =
      chance fun c : PlayerCoins m d v w T S F => stage R O 1 0 c = true := by
  let e : PlayerCoins m d v w T S F ≃ PlayerCoins m d v w T S F :=
    { toFun := fun c => (c.1, c.2.1, fun u => c.2.2.1 (σ u), c.2.2.2)
      invFun := fun c => (c.1, c.2.1, fun u => c.2.2.1 (σ.symm u), c.2.2.2)
      left_inv := fun c => by simp
      right_inv := fun c => by simp }
  refine Eq.trans ?_ (chance_congr e fun c => stage R O 1 0 c = true)
  congr 1
  funext c
  have : stage R O σ 0 c = stage R O 1 0 (e c) := by
    unfold stage
    congr 1
    funext a
    refine List.map_congr_left fun j _ => ?_
    rw [if_neg (Nat.not_lt_zero _), if_neg (Nat.not_lt_zero _)]
    congr 2
    show ext c.2.2.1 (behind σ a) = ext (fun u => c.2.2.1 (σ u)) (behind 1 a)
    unfold behind
    by_cases h : a < m
    · rw [dif_pos h, dif_pos h, ext_lt _ _ (Fin.is_lt _), Equiv.Perm.one_apply, ext_lt _ _ h]
    · rw [dif_neg h, dif_neg h]
      unfold ext
      rw [dif_neg h, dif_neg h]
  rw [this]

include hS in
/-- From all random to all computed. -/
theorem stage_all [Fintype F] (σ : Equiv.Perm (Fin m)) (hv : v ≤ d) (n : Nat) (hn : n ≤ m * v) :
    |(chance fun c : PlayerCoins m d v w T S F => stage R O σ n c = true) -
      chance fun c : PlayerCoins m d v w T S F => stage R O σ 0 c = true| ≤
    ∑ i ∈ Finset.range n, ddhAdvantage R (Observer.player R O (m := m) (d := d) (v := v) (w := w) (T := T) (S := S) σ i) := by
  induction n with
  | zero => simp
  | succ n ih =>
    have h1 := ih (by omega)
    rw [Finset.sum_range_succ, ← stage_step R O (w := w) (T := T) hS σ n (by omega) hv]
    have h2 := abs_sub_le (chance fun c : PlayerCoins m d v w T S F => stage R O σ (n + 1) c = true)
      (chance fun c : PlayerCoins m d v w T S F => stage R O σ n c = true) (chance fun c : PlayerCoins m d v w T S F => stage R O σ 0 c = true)
    linarith

theorem users_eq (x : Fin m → Fin d → F) (u : Nat) : users x u = (List.range d).map (ext (ext x u)) := by
  unfold users
  split
  · rename_i h
    rw [ext_lt _ _ h, range_ext]
  · rename_i h
    apply List.ext_getElem
    · simp
    · intro i h1 h2
      simp [ext, h]

/-- The number of images of a signature. -/
def imageCount (skip : Bool) (d : Nat) : Nat := if skip then d - 1 else d

theorem imagesOf_users (skip : Bool) (x : Fin m → Fin d → F) (u : Nat) :
    imagesOf R skip (users x u) = (List.range (imageCount skip d)).map fun j => image R (ext (ext x u) j) := by
  unfold imagesOf
  rw [users_eq, List.map_map]
  unfold imageCount
  cases skip with
  | false => rfl
  | true =>
    simp only [if_true]
    rw [List.dropLast_eq_take, List.length_map, List.length_range, ← List.map_take, List.take_range, Nat.min_eq_left (by omega)]
    rfl

theorem stage_end (skip : Bool) (σ : Equiv.Perm (Fin m)) (hv : v = imageCount skip d) (c : PlayerCoins m d v w T S F) :
    stage R O σ (m * v) c = (O (tableHash R c.2.1) (keysOf R (users c.1))).invented (R.withPoints (tableHash R c.2.1))
      (fun a => imsOf (R.withPoints (tableHash R c.2.1)) skip (users c.1) (behind σ a)) [] (List.ofFn c.2.2.2) := by
  subst hv
  unfold stage
  congr 1
  · funext a
    generalize behind σ a = u
    unfold imsOf
    rw [imagesOf_users]
    refine List.map_congr_left fun j hj => ?_
    have hj := List.mem_range.1 hj
    by_cases hu : u < m
    · rw [if_pos]
      · rfl
      · calc u * imageCount skip d + j < u * imageCount skip d + imageCount skip d := by omega
          _ = (u + 1) * imageCount skip d := by ring
          _ ≤ m * imageCount skip d := Nat.mul_le_mul_right _ hu
    · have h0 : ∀ {n : Nat} (f : Fin m → Fin n → F), ext (ext f u) j = 0 := by
        intro n f
        unfold ext
        rw [dif_neg hu]
        split <;> rfl
      rw [h0, h0, if_neg]
      · unfold image
        rw [zero_smul, zero_smul]
      · have := Nat.mul_le_mul_right (imageCount skip d) (Nat.le_of_not_lt hu)
        omega
  · congr 1
    funext u
    unfold keysOf
    rw [users_eq, List.map_map]
    rfl

end

theorem withPoints_encodings {R : Ristretto F G} (E : R.Encodings) (H : Bytes → G) : (R.withPoints H).Encodings :=
  ⟨E.sBytes_length, E.sOfBytes_sBytes, E.pBytes_length, E.pOfBytes_pBytes⟩

/-- One world, against random images. -/
theorem one_world [Fintype F] {R : Ristretto F G} (E : R.Encodings) (hB : R.base ≠ 0) (skip : Bool) {m d w : Nat} (hd : 1 ≤ d) (hw : 1 ≤ w)
    {S : Finset Bytes} (hS : ∀ P : G, R.pBytes P ∈ S) (O : (Bytes → G) → (Nat → List G) → Observer F G)
    (W : (Bytes → G) → (Nat → List G) → Hidden G) (σ : Equiv.Perm (Fin m))
    (hO : ∀ (x : Fin m → Fin d → F) (t : S → F), (O (tableHash R t) (keysOf R (users x))).Served
      (W (tableHash R t) (keysOf R (users x))) (keysOf R (users x)) (behind σ) d w) (T : Nat) :
    |(chance fun p : ((Fin m → Fin d → F) × (S → F)) × (Fin T → StepCoins d w F) =>
        (O (tableHash R p.1.2) (keysOf R (users p.1.1))).real (R.withPoints (tableHash R p.1.2)) skip
          (W (tableHash R p.1.2) (keysOf R (users p.1.1))) (users p.1.1) [] (List.ofFn p.2) = true) -
      chance fun c : PlayerCoins m d (imageCount skip d) w T S F => stage R O 1 0 c = true| ≤
      ((T * w) ^ 2 : ℕ) / Fintype.card F +
        ∑ n ∈ Finset.range (m * imageCount skip d),
          ddhAdvantage R (Observer.player R O (m := m) (d := d) (v := imageCount skip d) (w := w) (T := T) (S := S) σ n) := by
  have h1 := chance_close (fun p : ((Fin m → Fin d → F) × (S → F)) × (Fin T → StepCoins d w F) =>
      (O (tableHash R p.1.2) (keysOf R (users p.1.1))).real (R.withPoints (tableHash R p.1.2)) skip
        (W (tableHash R p.1.2) (keysOf R (users p.1.1))) (users p.1.1) [] (List.ofFn p.2))
    (fun p => (O (tableHash R p.1.2) (keysOf R (users p.1.1))).invented (R.withPoints (tableHash R p.1.2))
      (fun a => imsOf (R.withPoints (tableHash R p.1.2)) skip (users p.1.1) (behind σ a)) [] (List.ofFn p.2))
    (fun q => C127_invented (R := R.withPoints (tableHash R q.2)) (skip := skip) (withPoints_encodings E _) hB (users_length q.1) hd hw _
      (behind σ) _ (hO q.1 q.2) T)
  have hv : imageCount skip d ≤ d := by unfold imageCount; split <;> omega
  have h2 := stage_all R O (w := w) (T := T) hS σ hv _ le_rfl
  rw [stage_zero] at h2
  let e : PlayerCoins m d (imageCount skip d) w T S F ≃
      (Fin m → Fin (imageCount skip d) → F) × (((Fin m → Fin d → F) × (S → F)) × (Fin T → StepCoins d w F)) :=
    { toFun := fun c => (c.2.2.1, ((c.1, c.2.1), c.2.2.2))
      invFun := fun p => (p.2.1.1, p.2.1.2, p.1, p.2.2)
      left_inv := fun _ => rfl
      right_inv := fun _ => rfl }
  have h3 : (chance fun c : PlayerCoins m d (imageCount skip d) w T S F => stage R O σ (m * imageCount skip d) c = true) =
      chance fun p : ((Fin m → Fin d → F) × (S → F)) × (Fin T → StepCoins d w F) =>
        (O (tableHash R p.1.2) (keysOf R (users p.1.1))).invented (R.withPoints (tableHash R p.1.2))
          (fun a => imsOf (R.withPoints (tableHash R p.1.2)) skip (users p.1.1) (behind σ a)) [] (List.ofFn p.2) = true := by
    refine Eq.trans ?_ (chance_unused (α := Fin m → Fin (imageCount skip d) → F)
      (fun p : ((Fin m → Fin d → F) × (S → F)) × (Fin T → StepCoins d w F) =>
        (O (tableHash R p.1.2) (keysOf R (users p.1.1))).invented (R.withPoints (tableHash R p.1.2))
          (fun a => imsOf (R.withPoints (tableHash R p.1.2)) skip (users p.1.1) (behind σ a)) [] (List.ofFn p.2) = true))
    refine Eq.trans ?_ (chance_congr e _)
    congr 1
    funext c
    rw [stage_end R O skip σ rfl]
    rfl
  rw [h3] at h2
  exact le_trans (abs_sub_le _ _ _) (add_le_add h1 h2)

/-- C129: signers are hidden if the decisional Diffie-Hellman problem is hard. Both hash functions are random oracles: the one to scalars is
asked step by step, the one to points is a table that the observer knows. `m` users have `d` random secrets each; the observer knows the public
keys, asks pseudonyms for signatures of its choice, and learns the signatures and images. In two worlds the users are behind the pseudonyms
in two different orders. If the observer tells the worlds apart, then it gives, up to the small error of C127, players of the decisional
Diffie-Hellman game with together that advantage: two for every image. -/
theorem C129_ddh [Fintype F] {R : Ristretto F G} (E : R.Encodings) (hB : R.base ≠ 0) (skip : Bool) (m d w : Nat) (hd : 1 ≤ d) (hw : 1 ≤ w)
    (S : Finset Bytes) (hS : ∀ P : G, R.pBytes P ∈ S) (O : (Bytes → G) → (Nat → List G) → Observer F G)
    (W W' : (Bytes → G) → (Nat → List G) → Hidden G) (σ τ : Equiv.Perm (Fin m))
    (hO : ∀ (x : Fin m → Fin d → F) (t : S → F), (O (tableHash R t) (keysOf R (users x))).Served
      (W (tableHash R t) (keysOf R (users x))) (keysOf R (users x)) (behind σ) d w)
    (hO' : ∀ (x : Fin m → Fin d → F) (t : S → F), (O (tableHash R t) (keysOf R (users x))).Served
      (W' (tableHash R t) (keysOf R (users x))) (keysOf R (users x)) (behind τ) d w) (T : Nat) :
    |(chance fun p : ((Fin m → Fin d → F) × (S → F)) × (Fin T → StepCoins d w F) =>
        (O (tableHash R p.1.2) (keysOf R (users p.1.1))).real (R.withPoints (tableHash R p.1.2)) skip
          (W (tableHash R p.1.2) (keysOf R (users p.1.1))) (users p.1.1) [] (List.ofFn p.2) = true) -
      chance fun p : ((Fin m → Fin d → F) × (S → F)) × (Fin T → StepCoins d w F) =>
        (O (tableHash R p.1.2) (keysOf R (users p.1.1))).real (R.withPoints (tableHash R p.1.2)) skip
          (W' (tableHash R p.1.2) (keysOf R (users p.1.1))) (users p.1.1) [] (List.ofFn p.2) = true| ≤
      2 * (((T * w) ^ 2 : ℕ) / Fintype.card F) +
        ∑ n ∈ Finset.range (m * imageCount skip d),
          (ddhAdvantage R (Observer.player R O (m := m) (d := d) (v := imageCount skip d) (w := w) (T := T) (S := S) σ n) +
            ddhAdvantage R (Observer.player R O (m := m) (d := d) (v := imageCount skip d) (w := w) (T := T) (S := S) τ n)) := by
  have h1 := abs_le.1 (one_world E hB skip hd hw hS O W σ hO T)
  have h2 := abs_le.1 (one_world E hB skip hd hw hS O W' τ hO' T)
  rw [Finset.sum_add_distrib, abs_le]
  constructor <;> linarith [h1.1, h1.2, h2.1, h2.2]

/-- Two users in either order behind the pseudonyms 0 and 1, and the observer of C127. -/
example : ∃ S : Finset Bytes, (∀ P : Toy.K, Toy.ris.pBytes P ∈ S) ∧ ∀ (x : Fin 2 → Fin 1 → Toy.K) (_t : S → Toy.K),
    (curious (keysOf Toy.ris (users x))).Served (F := Toy.K) (pairWorld (keysOf Toy.ris (users x)) (behind (1 : Equiv.Perm (Fin 2)))) (keysOf Toy.ris (users x))
      (behind (1 : Equiv.Perm (Fin 2))) 1 2 ∧
    (curious (keysOf Toy.ris (users x))).Served (F := Toy.K) (pairWorld (keysOf Toy.ris (users x)) (behind (Equiv.swap (0 : Fin 2) 1)))
      (keysOf Toy.ris (users x)) (behind (Equiv.swap (0 : Fin 2) 1)) 1 2 := by
  refine ⟨Finset.univ.image Toy.ris.pBytes, fun P => Finset.mem_image_of_mem _ (Finset.mem_univ P), fun x _ => ?_⟩
  have hl : ∀ u, (keysOf Toy.ris (users x) u).length = 1 := fun u => by simp [keysOf, users_length]
  have b0 : behind (1 : Equiv.Perm (Fin 2)) 0 = 0 := by decide
  have b1 : behind (Equiv.swap (0 : Fin 2) 1) 0 = 1 := by decide
  refine ⟨⟨⟨rfl, rfl, ?_, ?_, ?_, ?_⟩, fun _ _ _ => trivial⟩, ⟨⟨rfl, rfl, ?_, ?_, ?_, ?_⟩, fun _ _ _ => trivial⟩⟩
  · rw [b0]; rfl
  · simp [pairWorld]
  · simp [pairWorld]
  · simp [pairWorld, hl]
  · rw [b1]; rfl
  · simp [pairWorld]
  · simp [pairWorld]
  · simp [pairWorld, hl]

end Dusk.Mlsag
