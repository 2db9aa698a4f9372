import Mathlib.Data.List.FinRange
import Mathlib.Tactic.Ring
import Mathlib.Tactic.Abel
import Mathlib.Tactic.LinearCombination
import Verif.Model.Mlsag
import Verif.Spec.Mlsag
import Verif.Lemmas.RPAlg
/-!
# Lemmas about the model of package mlsag
-/

set_option linter.unusedSectionVars false

namespace Dusk

theorem mapRes_panic {α β : Type} (f : α → Res β) : ∀ (l : List α), (∀ x ∈ l, (∃ b, f x = .ok b) ∨ f x = .panic) →
    (∃ x ∈ l, f x = .panic) → mapRes f l = .panic
  | [], _, h => by simp at h
  | a :: l, h, ⟨x, hx, he⟩ => by
    rcases h a (by simp) with ⟨b, hb⟩ | hb
    · rw [mapRes, hb, Res.bind_ok, mapRes_panic f l (fun y hy => h y (by simp [hy])), Res.bind_panic]
      rcases List.mem_cons.1 hx with rfl | hx
      · rw [hb] at he; cases he
      · exact ⟨x, hx, he⟩
    · rw [mapRes, hb, Res.bind_panic]

theorem idx_cases {α : Type} (l : List α) (i : Nat) : (∃ b, idx l i = .ok b) ∨ idx l i = .panic := by
  unfold idx; cases l[i]? <;> simp

/-- Two outcomes only. -/
def NoErr {α : Type} (r : Res α) : Prop := (∃ b, r = .ok b) ∨ r = .panic

theorem NoErr.ok {α : Type} (a : α) : NoErr (Res.ok a) := Or.inl ⟨a, rfl⟩

theorem NoErr.idx {α : Type} (l : List α) (i : Nat) : NoErr (idx l i) := idx_cases l i

theorem NoErr.bind {α β : Type} {r : Res α} {f : α → Res β} (h : NoErr r) (hf : ∀ a, r = .ok a → NoErr (f a)) :
    NoErr (r.bind f) := by
  rcases h with ⟨a, rfl⟩ | rfl
  · exact hf a rfl
  · exact Or.inr rfl

theorem NoErr.mapRes {α β : Type} (f : α → Res β) (hf : ∀ x, NoErr (f x)) : ∀ l, NoErr (Dusk.mapRes f l)
  | [] => .ok _
  | a :: l => (hf a).bind fun _ _ => (NoErr.mapRes f hf l).bind fun _ _ => .ok _

namespace Mlsag

variable {F G : Type} [Field F] [AddCommGroup G] [Module F G]

/-! ## generateChallenge -/

theorem map_range_zipWith {α β γ : Type} (f : α → β → γ) (a : List α) (b : List β) (h : a.length ≤ b.length)
    (g : Nat → γ) (hg : ∀ i (h1 : i < a.length) (h2 : i < b.length), g i = f a[i] b[i]) :
    (List.range a.length).map g = List.zipWith f a b := by
  apply List.ext_getElem
  · simp; omega
  · intro i h1 h2
    simp only [List.length_map, List.length_range] at h1
    simp [hg i h1 (by omega)]

theorem generateChallenge_eq (R : Ristretto F G) (msg : Bytes) (r : List F) (I : List G) (K : PubKeys G) (c : F)
    (h1 : K.keys.length ≤ r.length) (h2 : I.length ≤ K.keys.length) :
    generateChallenge R msg r I K c = .ok (link R msg I K.keys r c) := by
  unfold generateChallenge
  rw [mapRes_ok _ (fun i => R.pBytes ((r.getD i 0) • R.base + c • K.keys.getD i 0))]
  · rw [Res.bind_ok, mapRes_ok _ (fun i => R.pBytes ((r.getD i 0) • R.pDerive (R.pBytes (K.keys.getD i 0)) + c • I.getD i 0))]
    · rw [Res.bind_ok, map_range_zipWith (fun k x => R.pBytes (x • R.base + c • k)) K.keys r h1]
      · unfold link query
        congr 4
        apply List.ext_getElem
        · simp; omega
        · intro i g1 g2
          simp only [List.length_map, List.length_range] at g1
          simp [List.getD_eq_getElem?_getD, show i < K.keys.length by omega, show i < r.length by omega, g1]
      · intro i g1 g2
        simp [List.getD_eq_getElem?_getD, g1, g2]
    · intro i hi
      have hi := List.mem_range.1 hi
      rw [idx_of_lt (show i < r.length by omega), Res.bind_ok, idx_of_lt (show i < K.keys.length by omega), Res.bind_ok,
        idx_of_lt hi, Res.bind_ok]
      simp [List.getD_eq_getElem?_getD, show i < K.keys.length by omega, show i < r.length by omega, hi]
  · intro i hi
    have hi := List.mem_range.1 hi
    rw [idx_of_lt (show i < r.length by omega), Res.bind_ok, idx_of_lt hi, Res.bind_ok]
    simp [List.getD_eq_getElem?_getD, show i < r.length by omega, hi]

theorem generateChallenge_noErr (R : Ristretto F G) (msg : Bytes) (r : List F) (I : List G) (K : PubKeys G) (c : F) :
    NoErr (generateChallenge R msg r I K c) := by
  unfold generateChallenge
  refine NoErr.bind (NoErr.mapRes _ (fun i => ?_) _) fun _ _ => NoErr.bind (NoErr.mapRes _ (fun i => ?_) _) fun _ _ => .ok _
  · exact (NoErr.idx _ _).bind fun _ _ => (NoErr.idx _ _).bind fun _ _ => .ok _
  · exact (NoErr.idx _ _).bind fun _ _ => (NoErr.idx _ _).bind fun _ _ => (NoErr.idx _ _).bind fun _ _ => .ok _

theorem generateChallenge_panic (R : Ristretto F G) (msg : Bytes) (r : List F) (I : List G) (K : PubKeys G) (c : F)
    (h : ¬ (K.keys.length ≤ r.length ∧ I.length ≤ K.keys.length)) : generateChallenge R msg r I K c = .panic := by
  unfold generateChallenge
  by_cases h1 : K.keys.length ≤ r.length
  · have h2 : K.keys.length < I.length := by
      by_contra h'; exact h ⟨h1, by omega⟩
    rw [mapRes_ok _ (fun i => R.pBytes ((r.getD i 0) • R.base + c • K.keys.getD i 0))]
    · rw [Res.bind_ok, mapRes_panic, Res.bind_panic]
      · intro i _
        exact (NoErr.idx _ _).bind fun _ _ => (NoErr.idx _ _).bind fun _ _ => (NoErr.idx _ _).bind fun _ _ => .ok _
      · refine ⟨K.keys.length, by simpa using h2, ?_⟩
        rcases idx_cases r K.keys.length with ⟨b, hb⟩ | hb
        · rw [hb, Res.bind_ok, idx_of_ge le_rfl, Res.bind_panic]
        · rw [hb, Res.bind_panic]
    · intro i hi
      have hi := List.mem_range.1 hi
      rw [idx_of_lt (show i < r.length by omega), Res.bind_ok, idx_of_lt hi, Res.bind_ok]
      simp [List.getD_eq_getElem?_getD, show i < r.length by omega, hi]
  · rw [mapRes_panic, Res.bind_panic]
    · intro i _
      exact (NoErr.idx _ _).bind fun _ _ => (NoErr.idx _ _).bind fun _ _ => .ok _
    · refine ⟨r.length, by simp; omega, ?_⟩
      rw [idx_of_ge le_rfl, Res.bind_panic]

/-! ## The loop around the ring -/

theorem prevIndex_eq {n i : Nat} (hi : i < n) : prevIndex n i = (i + n - 1) % n := by
  unfold prevIndex
  rcases Nat.eq_zero_or_pos i with rfl | h
  · simp only [Nat.cast_zero, zero_sub]
    have hn : 0 < n := hi
    rcases Nat.lt_or_ge 1 n with h1 | h1
    · have : (-1 : Int).tmod n = -1 := by
        rw [Int.neg_tmod, Int.tmod_eq_of_lt (by norm_num) (by omega)]
      rw [this, if_pos (by norm_num), Nat.zero_add, Nat.mod_eq_of_lt (by omega)]
      omega
    · have : n = 1 := by omega
      subst this
      simp
  · rw [Int.tmod_eq_of_lt (by omega) (by omega)]
    dsimp only
    rw [if_neg (by omega)]
    rw [show i + n - 1 = (i - 1) + n by omega, Nat.add_mod_right, Nat.mod_eq_of_lt (by omega)]
    omega

theorem prevIndex_succ {n k : Nat} (hn : 0 < n) : prevIndex n ((k + 1) % n) = k % n := by
  rw [prevIndex_eq (Nat.mod_lt _ hn)]
  have h : (k + 1) % n + n - 1 = (k + 1) % n + (n - 1) := by omega
  rw [h, Nat.mod_add_mod, show k + 1 + (n - 1) = k + n by omega, Nat.add_mod_right]

/-- The loop makes exactly the expected number of iterations: `d` of them remain when `k = stop - d` (mod `n`). -/
theorem ringLoop_inv {σ : Type} (body : Nat → σ → Res σ) (n stop : Nat) (hstop : stop < n) (I : Nat → σ → Prop) :
    ∀ (d : Nat) (s : σ) (fuel : Nat), d < n → d < fuel →
      (∀ e < d, ∀ s, I (e + 1) s → ∃ s', body ((stop + n - (e + 1)) % n) s = .ok s' ∧ I e s') → I d s →
      ∃ s', ringLoop body n stop fuel ((stop + n - d) % n) s = .ok s' ∧ I 0 s'
  | d, s, 0, _, hf, _, _ => by omega
  | 0, s, fuel + 1, _, _, _, hI => by
    refine ⟨s, ?_, hI⟩
    unfold ringLoop
    rw [if_pos]
    rw [Nat.sub_zero, Nat.add_mod_right, Nat.mod_eq_of_lt hstop]
  | d + 1, s, fuel + 1, hd, hf, hb, hI => by
    obtain ⟨s1, h1, h2⟩ := hb d (by omega) s hI
    obtain ⟨s2, h3, h4⟩ := ringLoop_inv body n stop hstop I d s1 fuel (by omega) (by omega)
      (fun e he s hs => hb e (by omega) s hs) h2
    refine ⟨s2, ?_, h4⟩
    unfold ringLoop
    have hne : (stop + n - (d + 1)) % n ≠ stop := by
      rcases Nat.lt_or_ge stop (d + 1) with h | h
      · rw [Nat.mod_eq_of_lt (by omega)]; omega
      · rw [show stop + n - (d + 1) = stop - (d + 1) + n by omega, Nat.add_mod_right, Nat.mod_eq_of_lt (by omega)]
        omega
    rw [if_neg hne, Nat.mod_mod, h1, Res.bind_ok, Nat.mod_add_mod, show stop + n - (d + 1) + 1 = stop + n - d by omega]
    exact h3

/-- The same loop when the body may panic: it is a fold over the remaining positions. -/
theorem ringLoop_fold {σ : Type} (body : Nat → σ → Res σ) (n stop : Nat) (hstop : stop < n) :
    ∀ (d : Nat) (s : σ) (fuel : Nat), d < n → d < fuel →
      ringLoop body n stop fuel ((stop + n - d) % n) s =
        (List.range d).foldl (fun (r : Res σ) j => r.bind (body ((stop + n - d + j) % n))) (.ok s)
  | d, s, 0, _, hf => by omega
  | 0, s, fuel + 1, _, _ => by
    unfold ringLoop
    rw [if_pos]
    · rfl
    · rw [Nat.sub_zero, Nat.add_mod_right, Nat.mod_eq_of_lt hstop]
  | d + 1, s, fuel + 1, hd, hf => by
    unfold ringLoop
    have hne : (stop + n - (d + 1)) % n ≠ stop := by
      rcases Nat.lt_or_ge stop (d + 1) with h | h
      · rw [Nat.mod_eq_of_lt (by omega)]; omega
      · rw [show stop + n - (d + 1) = stop - (d + 1) + n by omega, Nat.add_mod_right, Nat.mod_eq_of_lt (by omega)]
        omega
    rw [if_neg hne, Nat.mod_mod, Nat.mod_add_mod, show stop + n - (d + 1) + 1 = stop + n - d by omega,
      List.range_succ_eq_map, List.foldl_cons, List.foldl_map, Res.bind_ok, Nat.add_zero]
    have hfix : ∀ (l : List Nat) (r : Res σ), (∀ s, r ≠ .ok s) →
        l.foldl (fun (r : Res σ) j => r.bind (body ((stop + n - (d + 1) + j.succ) % n))) r = r := by
      intro l
      induction l with
      | nil => intro r _; rfl
      | cons a l ih =>
        intro r hr
        cases r with
        | ok s => exact absurd rfl (hr s)
        | err e => exact ih _ (by simp)
        | panic => exact ih _ (by simp)
    cases hb : body ((stop + n - (d + 1)) % n) s with
    | ok s1 =>
      rw [Res.bind_ok, ringLoop_fold body n stop hstop d s1 fuel (by omega) (by omega)]
      congr 1
      funext r j
      rw [show stop + n - d + j = stop + n - (d + 1) + j.succ by omega]
    | err e => rw [hfix _ _ (by simp)]; rfl
    | panic => rw [hfix _ _ (by simp)]; rfl

/-! ## Shuffling -/

theorem swap_perm {α : Type} (l : List α) (i j : Nat) : (swap l i j).Perm l := by
  unfold swap
  split
  · rename_i a b ha hb
    obtain ⟨hi, rfl⟩ := List.getElem?_eq_some_iff.1 ha
    obtain ⟨hj, rfl⟩ := List.getElem?_eq_some_iff.1 hb
    have h1 : (l.set i l[j]).set j l[i] = List.ofFn (l.get ∘ Equiv.swap (⟨i, hi⟩ : Fin l.length) ⟨j, hj⟩) := by
      apply List.ext_getElem
      · simp
      · intro k g1 g2
        simp only [List.length_set] at g1
        simp only [List.getElem_ofFn, Function.comp_apply, List.get_eq_getElem]
        rw [List.getElem_set, List.getElem_set]
        by_cases hkj : j = k
        · subst hkj
          simp
        · rw [if_neg hkj]
          by_cases hki : i = k
          · subst hki
            simp
          · rw [if_neg hki, Equiv.swap_apply_of_ne_of_ne]
            · simpa [Fin.ext_iff] using Ne.symm hki
            · simpa [Fin.ext_iff] using Ne.symm hkj
    have h2 := Equiv.Perm.ofFn_comp_perm (Equiv.swap (⟨i, hi⟩ : Fin l.length) ⟨j, hj⟩) l.get
    rw [← h1] at h2
    rwa [List.ofFn_get] at h2
  · exact .refl _

theorem shuffleLoop_perm {α : Type} (shuffle : Nat → Nat) : ∀ (n : Nat) (l : List α), (shuffleLoop shuffle n l).Perm l
  | 0, _ => .refl _
  | n + 1, l => (shuffleLoop_perm shuffle n _).trans (swap_perm _ _ _)

/-! ## prove -/

/-- The decoys come first, the signer's vector is appended. -/
structure Ready (R : Ristretto F G) (p : Proof F G) : Prop where
  signer : p.signer.keys = p.privKeys.map fun x => x • R.base
  decoys : ∀ k ∈ p.matrix, k.decoy = true

theorem calculateKeyImages_eq (R : Ristretto F G) (p : Proof F G) (h : p.signer.keys = p.privKeys.map fun x => x • R.base)
    (skip : Bool) (hs : skip = true → p.privKeys ≠ []) :
    p.calculateKeyImages R skip = .ok (if skip then (p.privKeys.map (image R)).dropLast else p.privKeys.map (image R)) := by
  unfold Proof.calculateKeyImages
  rw [mapRes_ok _ (fun i => image R (p.privKeys.getD i 0))]
  · have : (List.range p.privKeys.length).map (fun i => image R (p.privKeys.getD i 0)) = p.privKeys.map (image R) := by
      apply List.ext_getElem
      · simp
      · intro i g1 g2
        simp only [List.length_map, List.length_range] at g1
        simp [List.getD_eq_getElem?_getD, g1]
    rw [this, Res.bind_ok]
    cases skip with
    | false => rfl
    | true =>
      have := hs rfl
      simp only [Bool.not_true, Bool.false_eq_true, if_false, List.length_map, if_true]
      rw [if_neg (by simpa using this), List.dropLast_eq_take, List.length_map]
  · intro i hi
    have hi := List.mem_range.1 hi
    rw [idx_of_lt hi, Res.bind_ok, h, idx_of_lt (by simpa using hi), Res.bind_ok]
    simp [List.getD_eq_getElem?_getD, hi, calculateKeyImage, image]

theorem calculateKeyImages_panic (R : Ristretto F G) (p : Proof F G)
    (h : p.privKeys = []) : p.calculateKeyImages R true = .panic := by
  unfold Proof.calculateKeyImages
  rw [h]
  rfl

/-- The first challenge is the link of the signer's slot, for every challenge `c` and the responses `a - c x`. -/
theorem firstChallenge_eq (R : Ristretto F G) (msg : Bytes) (xs : List F) (nonces : List F) (I : List G)
    (hn : nonces.length = xs.length) (hI : ∃ j ≤ xs.length, I = (xs.map (image R)).take j) (c : F) :
    firstChallenge R msg nonces I (xs.map fun x => x • R.base) =
      .ok (link R msg I (xs.map fun x => x • R.base) (List.zipWith (fun x a => -(c * x) + a) xs nonces) c) := by
  obtain ⟨j, hj, rfl⟩ := hI
  unfold firstChallenge
  rw [mapRes_ok _ (fun i => R.pBytes ((nonces.getD i 0) • R.base))]
  · rw [Res.bind_ok, mapRes_ok _ (fun i => R.pBytes ((nonces.getD i 0) • R.pDerive (R.pBytes ((xs.getD i 0) • R.base))))]
    · rw [Res.bind_ok]
      unfold link query
      congr 5
      · apply List.ext_getElem
        · simp; omega
        · intro i g1 g2
          simp only [List.length_map, List.length_range] at g1
          simp only [List.getElem_map, List.getElem_range, List.getElem_zipWith]
          rw [List.getD_eq_getElem?_getD, List.getElem?_eq_getElem g1, Option.getD_some]
          congr 1
          rw [add_smul, neg_smul, mul_smul]
          abel
      · apply List.ext_getElem
        · simp; omega
        · intro i g1 g2
          simp only [List.length_map, List.length_range, List.length_take] at g1
          simp only [List.getElem_map, List.getElem_range, List.getElem_zipWith, List.getElem_zip, List.getElem_take]
          rw [List.getD_eq_getElem?_getD, List.getElem?_eq_getElem (by omega), Option.getD_some,
            List.getD_eq_getElem?_getD, List.getElem?_eq_getElem (by omega), Option.getD_some]
          congr 1
          unfold image
          rw [add_smul, neg_smul, mul_smul]
          abel
    · intro i hi
      simp only [List.mem_range, List.length_take, List.length_map] at hi
      rw [idx_of_lt (show i < nonces.length by omega), Res.bind_ok, idx_of_lt (by simp; omega), Res.bind_ok]
      simp [List.getD_eq_getElem?_getD, show i < nonces.length by omega, show i < xs.length by omega]
  · intro i hi
    have hi := List.mem_range.1 hi
    rw [idx_of_lt hi, Res.bind_ok]
    simp [List.getD_eq_getElem?_getD, hi]

/-- The challenges after the signer's slot. -/
def chalSeq (step : Nat → F → F) (n s : Nat) (c1 : F) : Nat → F
  | 0 => c1
  | t + 1 => step ((s + (t + 1)) % n) (chalSeq step n s c1 t)

theorem add_mod_ne {n a u t : Nat} (h1 : u < t) (h2 : t < n) : (a + u) % n ≠ (a + t) % n := by
  intro h
  have h3 : (a + u) ≡ (a + t) [MOD n] := h
  have h4 : u ≡ t [MOD n] := Nat.ModEq.add_left_cancel' a h3
  have h5 : u % n = t % n := h4
  rw [Nat.mod_eq_of_lt (by omega), Nat.mod_eq_of_lt h2] at h5
  omega

/-- What `sign` computes: with `n ≥ 2` members of fitting dimensions, the challenges of all members form a cycle. -/
theorem sign_eq (R : Ristretto F G) (p : Proof F G) (skip : Bool) (coins : Coins F) (n : Nat) (hn' : p.matrix.length = n)
    (hn : 2 ≤ n)
    (hs : p.signer.keys = p.privKeys.map fun x => x • R.base)
    (hidx : ∃ k, p.matrix[p.index]? = some k ∧ k.keys = p.privKeys.map fun x => x • R.base)
    (hdim : ∀ k ∈ p.matrix, k.keys.length = p.privKeys.length) (hskip : skip = true → p.privKeys ≠ []) :
    ∃ (C : Nat → F) (r : List (List F)) (I : List G),
      I = (if skip then (p.privKeys.map (image R)).dropLast else p.privKeys.map (image R)) ∧
      r.length = n ∧
      (∀ i (h : i < r.length), r[i] = if i = p.index then
          List.zipWith (fun x a => -(C i * x) + a) p.privKeys (generateNonces coins.nonce p.privKeys.length)
        else (List.range p.privKeys.length).map (coins.resp i)) ∧
      (∀ i k x, p.matrix[i]? = some k → r[i]? = some x → C ((i + 1) % n) = link R p.msg I k.keys x (C i)) ∧
      p.sign R skip coins = .ok (⟨C 0, r, p.matrix, p.msg⟩, I) := by
  obtain ⟨sk, hsk, hskeys⟩ := hidx
  obtain ⟨hlt, hsk'⟩ := List.getElem?_eq_some_iff.1 hsk
  rw [hn'] at hlt
  generalize hI : (if skip then (p.privKeys.map (image R)).dropLast else p.privKeys.map (image R)) = I
  generalize hxs : p.privKeys = xs at *
  generalize hnon : generateNonces coins.nonce xs.length = nonces
  have hnl : nonces.length = xs.length := by rw [← hnon]; simp [generateNonces]
  have hIl : ∃ j ≤ xs.length, I = (xs.map (image R)).take j := by
    rw [← hI]
    cases skip with
    | false => exact ⟨xs.length, le_rfl, by simp⟩
    | true =>
      refine ⟨xs.length - 1, by omega, ?_⟩
      simp [List.dropLast_eq_take]
  have hIlen : I.length ≤ xs.length := by
    obtain ⟨j, hj, rfl⟩ := hIl
    simp
  set c1 : F := link R p.msg I (xs.map fun x => x • R.base) (List.zipWith (fun x a => -(0 * x) + a) xs nonces) 0 with hc1
  have hfc : ∀ c : F, c1 = link R p.msg I (xs.map fun x => x • R.base) (List.zipWith (fun x a => -(c * x) + a) xs nonces) c := by
    intro c
    have h1 := firstChallenge_eq R p.msg xs nonces I hnl hIl c
    rw [firstChallenge_eq R p.msg xs nonces I hnl hIl 0] at h1
    exact Res.ok.inj h1
  let step : Nat → F → F := fun i c => link R p.msg I ((p.matrix.getD i {}).keys) ((List.range xs.length).map (coins.resp i)) c
  let D := chalSeq step n p.index c1
  let C : Nat → F := fun i => D ((i + n - (p.index + 1) % n) % n)
  have hCpos : ∀ t < n, C ((p.index + 1 + t) % n) = D t := by
    intro t ht
    show D _ = D t
    congr 1
    have hpos : 0 < n := by omega
    have hm : (p.index + 1) % n < n := Nat.mod_lt _ hpos
    have h1 : ((p.index + 1 + t) % n + n - (p.index + 1) % n) % n = ((p.index + 1 + t) + (n - (p.index + 1) % n)) % n := by
      rw [show (p.index + 1 + t) % n + n - (p.index + 1) % n = (p.index + 1 + t) % n + (n - (p.index + 1) % n) by omega,
        Nat.mod_add_mod]
    rw [h1]
    have h2 : p.index + 1 + t + (n - (p.index + 1) % n) = t + n + n * ((p.index + 1) / n) := by
      have := Nat.div_add_mod (p.index + 1) n
      omega
    rw [h2, Nat.add_mul_mod_self_left, Nat.add_mod_right, Nat.mod_eq_of_lt ht]
  let r0 := generateResponses coins.resp n xs.length p.index
  have hr0 : ∀ i (h : i < n), r0[i]? = some (if i = p.index then [] else (List.range xs.length).map (coins.resp i)) := by
    intro i h
    simp [r0, generateResponses, h]
  -- the loop over the decoys
  have hbody : ∀ (t : Nat) (L : List F) (c : F), 1 ≤ t → t < n →
      proveBody R p.msg r0 I p.matrix n ((p.index + 1 + t) % n) (L, c) =
        .ok (L.set ((p.index + 1 + t) % n) (step ((p.index + t) % n) c), step ((p.index + t) % n) c) := by
    intro t L c ht1 ht2
    unfold proveBody
    rw [show p.index + 1 + t = p.index + t + 1 by omega, prevIndex_succ (by omega)]
    have hlt2 : (p.index + t) % n < n := Nat.mod_lt _ (by omega)
    have hne : (p.index + t) % n ≠ p.index := by
      have := add_mod_ne (n := n) (a := p.index) (u := 0) (t := t) (by omega) ht2
      rw [Nat.add_zero, Nat.mod_eq_of_lt hlt] at this
      exact Ne.symm this
    generalize (p.index + t) % n = j at *
    dsimp only
    rw [idx_eq_ok.2 (hr0 j hlt2), if_neg hne, Res.bind_ok, idx_of_lt (by omega), Res.bind_ok,
      generateChallenge_eq, Res.bind_ok]
    · show Res.ok (L.set _ (link R p.msg I _ _ c), link R p.msg I _ _ c) = _
      have : (p.matrix.getD j {}).keys = (p.matrix[j]'(by omega)).keys := by
        rw [List.getD_eq_getElem?_getD, List.getElem?_eq_getElem (by omega), Option.getD_some]
      simp only [step, this]
    · rw [hdim _ (List.getElem_mem _)]; simp
    · rw [hdim _ (List.getElem_mem _)]; exact hIlen
  have hloop : ∃ L : List F, ringLoop (proveBody R p.msg r0 I p.matrix n) n ((p.index + 1) % n) (n + 1) (p.index + 2)
      ((List.replicate n (0 : F)).set ((p.index + 1) % n) c1, c1) = .ok (L, D (n - 1)) ∧ L.length = n ∧
      ∀ u < n, L[(p.index + 1 + u) % n]? = some (D u) := by
    have hstop : (p.index + 1) % n < n := Nat.mod_lt _ (by omega)
    let Inv : Nat → List F × F → Prop := fun d s => s.1.length = n ∧ s.2 = D (n - 1 - d) ∧
      ∀ u < n - d, s.1[(p.index + 1 + u) % n]? = some (D u)
    have hpos : ∀ d < n, ((p.index + 1) % n + n - (d + 1)) % n = (p.index + 1 + (n - 1 - d)) % n := by
      intro d hd
      rw [show (p.index + 1) % n + n - (d + 1) = (p.index + 1) % n + (n - 1 - d) by omega, Nat.mod_add_mod]
    have hstep : ∀ e < n - 1, ∀ s, Inv (e + 1) s → ∃ s',
        proveBody R p.msg r0 I p.matrix n (((p.index + 1) % n + n - (e + 1)) % n) s = .ok s' ∧ Inv e s' := by
      rintro e he ⟨L, c⟩ ⟨i1, i2, i3⟩
      dsimp only at i1 i2 i3
      rw [hpos e (by omega), hbody _ _ _ (by omega) (by omega)]
      have hD : step ((p.index + (n - 1 - e)) % n) c = D (n - 1 - e) := by
        rw [i2, show n - 1 - e = (n - 1 - (e + 1)) + 1 by omega]
        rfl
      refine ⟨_, rfl, by simpa using i1, hD, fun u hu => ?_⟩
      dsimp only
      have hl : (p.index + 1 + (n - 1 - e)) % n < L.length := by rw [i1]; exact Nat.mod_lt _ (by omega)
      rcases Nat.lt_or_ge u (n - (e + 1)) with h | h
      · rw [List.getElem?_set_ne (add_mod_ne (by omega) (by omega)).symm]
        exact i3 u h
      · have : u = n - 1 - e := by omega
        subst this
        rw [List.getElem?_set_self hl, hD]
    have hinit : Inv (n - 1) ((List.replicate n (0 : F)).set ((p.index + 1) % n) c1, c1) := by
      refine ⟨by simp, ?_, fun u hu => ?_⟩
      · rw [show n - 1 - (n - 1) = 0 by omega]; rfl
      · have : u = 0 := by omega
        subst this
        dsimp only
        rw [Nat.add_zero, List.getElem?_set_self (by simpa using hstop)]
        rfl
    obtain ⟨s1, g1, g2⟩ := hstep (n - 2) (by omega) _ (by rw [show n - 2 + 1 = n - 1 by omega]; exact hinit)
    obtain ⟨s2, g3, g4, g5, g6⟩ := ringLoop_inv (proveBody R p.msg r0 I p.matrix n) n ((p.index + 1) % n) hstop Inv (n - 2) s1 n
      (by omega) (by omega) (fun e he s hs => hstep e (by omega) s hs) g2
    refine ⟨s2.1, ?_, g4, fun u hu => g6 u (by omega)⟩
    unfold ringLoop
    have hk : p.index + 2 ≠ (p.index + 1) % n := by
      have := Nat.mod_le (p.index + 1) n
      omega
    have e1 : ((p.index + 1) % n + n - (n - 2 + 1)) % n = (p.index + 2) % n := by
      rw [show (p.index + 1) % n + n - (n - 2 + 1) = (p.index + 1) % n + 1 by omega, Nat.mod_add_mod]
    have e2 : ((p.index + 1) % n + n - (n - 2)) % n = (p.index + 2 + 1) % n := by
      rw [show (p.index + 1) % n + n - (n - 2) = (p.index + 1) % n + 2 by omega, Nat.mod_add_mod]
    rw [e1] at g1
    rw [e2] at g3
    rw [if_neg hk, g1, Res.bind_ok, g3]
    have : s2 = (s2.1, D (n - 1)) := by
      rw [← show s2.2 = D (n - 1) from g5]
    rw [← this]
  obtain ⟨L, hL1, hL2, hL3⟩ := hloop
  have hLC : ∀ i < n, L[i]? = some (C i) := by
    intro i hi
    have hpos : 0 < n := by omega
    obtain ⟨t, ht, hti⟩ : ∃ t < n, (p.index + 1 + t) % n = i := by
      refine ⟨(i + n - (p.index + 1) % n) % n, Nat.mod_lt _ hpos, ?_⟩
      have hm : (p.index + 1) % n < n := Nat.mod_lt _ hpos
      rw [Nat.add_mod_mod]
      have := Nat.div_add_mod (p.index + 1) n
      rw [show p.index + 1 + (i + n - (p.index + 1) % n) = i + n + n * ((p.index + 1) / n) by omega,
        Nat.add_mul_mod_self_left, Nat.add_mod_right, Nat.mod_eq_of_lt hi]
    rw [← hti, hL3 t ht, hCpos t ht]
  refine ⟨C, r0.set p.index (List.zipWith (fun x a => -(C p.index * x) + a) xs nonces), I, rfl, ?_, ?_, ?_, ?_⟩
  · simp [r0, generateResponses]
  · intro i h
    rw [List.getElem_set]
    by_cases hi : p.index = i
    · subst hi; rw [if_pos rfl, if_pos rfl]
    · rw [if_neg hi, if_neg (Ne.symm hi)]
      simp [r0, generateResponses, Ne.symm hi]
  · intro i k x hki hxi
    obtain ⟨h, rfl⟩ := List.getElem?_eq_some_iff.1 hki
    obtain ⟨h', rfl⟩ := List.getElem?_eq_some_iff.1 hxi
    rw [hn'] at h
    by_cases hi : p.index = i
    · subst hi
      have h0 : C ((p.index + 1) % n) = c1 := hCpos 0 (by omega)
      rw [h0, hfc (C p.index)]
      have hk : (p.matrix[p.index]'(by omega)).keys = xs.map fun x => x • R.base := by rw [hsk', hskeys]
      rw [hk]
      congr 1
      simp
    · obtain ⟨t, ht0, ht, hti⟩ : ∃ t, 0 < t ∧ t < n ∧ (p.index + t) % n = i := by
        rcases Nat.lt_or_ge i p.index with h1 | h1
        · refine ⟨i + n - p.index, by omega, by omega, ?_⟩
          rw [show p.index + (i + n - p.index) = i + n by omega, Nat.add_mod_right, Nat.mod_eq_of_lt h]
        · refine ⟨i - p.index, by omega, by omega, ?_⟩
          rw [show p.index + (i - p.index) = i by omega, Nat.mod_eq_of_lt h]
      have h1 : C ((i + 1) % n) = D t := by
        rw [← hCpos t ht, ← hti, Nat.mod_add_mod, show p.index + t + 1 = p.index + 1 + t by omega]
      have h2 : C i = D (t - 1) := by
        rw [← hCpos (t - 1) (by omega), show p.index + 1 + (t - 1) = p.index + t by omega, hti]
      obtain ⟨t', rfl⟩ : ∃ t', t = t' + 1 := ⟨t - 1, by omega⟩
      rw [h1, h2]
      show step ((p.index + (t' + 1)) % n) (D t') = link R p.msg I _ _ (D (t' + 1 - 1))
      rw [hti, Nat.add_sub_cancel]
      show link R p.msg I (p.matrix.getD i {}).keys _ _ = _
      congr 1
      · rw [List.getD_eq_getElem?_getD, List.getElem?_eq_getElem (by omega), Option.getD_some]
      · rw [List.getElem_set_ne hi]
        simp [r0, generateResponses, Ne.symm hi]
  · unfold Proof.sign
    rw [calculateKeyImages_eq R p (by rw [hxs]; exact hs) skip (by rw [hxs]; exact hskip), Res.bind_ok]
    dsimp only
    rw [hxs, hI, hn', hnon, idx_eq_ok.2 hsk, Res.bind_ok, hskeys, firstChallenge_eq R p.msg xs nonces I hnl hIl 0, Res.bind_ok]
    show (ringLoop (proveBody R p.msg r0 I p.matrix n) n ((p.index + 1) % n) (n + 1) (p.index + 2)
      ((List.replicate n (0 : F)).set ((p.index + 1) % n) c1, c1)).bind _ = _
    rw [hL1, Res.bind_ok]
    dsimp only
    rw [idx_eq_ok.2 (hLC p.index hlt), Res.bind_ok, mapRes_ok _ (fun i => -(C p.index * xs.getD i 0) + nonces.getD i 0),
      Res.bind_ok, idx_eq_ok.2 (hLC 0 (by omega)), Res.bind_ok]
    · congr 4
      exact map_range_zipWith _ _ _ (by omega) _ fun i g1 g2 => by simp [List.getD_eq_getElem?_getD, g1, g2]
    · intro i hi
      have hi := List.mem_range.1 hi
      rw [idx_of_lt hi, Res.bind_ok, idx_of_lt (by omega), Res.bind_ok]
      simp [List.getD_eq_getElem?_getD, hi, show i < nonces.length by omega]

end Mlsag

end Dusk
