import Verif.Props.Mlsag
/-!
# The shuffle of the ring (C79, C80)
-/

set_option linter.unusedSectionVars false

namespace Dusk.Mlsag

variable {F G : Type} [Field F] [AddCommGroup G] [Module F G]

/-! ## C79: every permutation arises from exactly one sequence of random choices -/

theorem swap_getElem? {α : Type} (l : List α) {i j : Nat} (hi : i < l.length) (hj : j < l.length) (k : Nat) :
    (swap l i j)[k]? = if k = j then l[i]? else if k = i then l[j]? else l[k]? := by
  unfold swap
  rw [List.getElem?_eq_getElem hi, List.getElem?_eq_getElem hj]
  simp only [List.getElem?_set, List.length_set]
  split
  · rename_i h
    rw [if_pos h.symm]
  · rename_i h
    rw [if_neg (Ne.symm h)]
    split
    · rename_i h2
      rw [if_pos h2.symm]
    · rename_i h2
      rw [if_neg (Ne.symm h2)]

theorem swap_length {α : Type} (l : List α) (i j : Nat) : (swap l i j).length = l.length := (swap_perm l i j).length_eq

theorem shuffleLoop_length {α : Type} (s : Nat → Nat) (n : Nat) (l : List α) : (shuffleLoop s n l).length = l.length :=
  (shuffleLoop_perm s n l).length_eq

/-- Positions after `n` are not touched. -/
theorem shuffleLoop_high {α : Type} (s : Nat → Nat) : ∀ (n : Nat) (l : List α), n < l.length → ∀ k, n < k →
    (shuffleLoop s n l)[k]? = l[k]?
  | 0, _, _, _, _ => rfl
  | n + 1, l, hl, k, hk => by
    unfold shuffleLoop
    have hj : s (n + 1) % (n + 2) < n + 2 := Nat.mod_lt _ (by omega)
    rw [shuffleLoop_high s n _ (by rw [swap_length]; omega) k (by omega), swap_getElem? l hl (by omega), if_neg (by omega), if_neg (by omega)]

/-- The choices matter only at the positions from 1 to `n`, and only modulo the number of candidates. -/
theorem shuffleLoop_congr {α : Type} {s s' : Nat → Nat} : ∀ (n : Nat) (l : List α),
    (∀ i, 1 ≤ i → i ≤ n → s i % (i + 1) = s' i % (i + 1)) → shuffleLoop s n l = shuffleLoop s' n l
  | 0, _, _ => rfl
  | n + 1, l, h => by
    unfold shuffleLoop
    rw [h (n + 1) (by omega) le_rfl, shuffleLoop_congr n _ fun i h1 h2 => h i h1 (by omega)]

theorem shuffle_unique {α : Type} (s s' : Nat → Nat) : ∀ (n : Nat) (l : List α), l.Nodup → n < l.length →
    shuffleLoop s n l = shuffleLoop s' n l → ∀ i, 1 ≤ i → i ≤ n → s i % (i + 1) = s' i % (i + 1)
  | 0, _, _, _, _, i, h1, h2 => by omega
  | n + 1, l, hnd, hl, h, i, h1, h2 => by
    unfold shuffleLoop at h
    have hj : s (n + 1) % (n + 2) < n + 2 := Nat.mod_lt _ (by omega)
    have hj' : s' (n + 1) % (n + 2) < n + 2 := Nat.mod_lt _ (by omega)
    have e : s (n + 1) % (n + 2) = s' (n + 1) % (n + 2) := by
      have h3 := congrArg (fun m => m[n + 1]?) h
      rw [shuffleLoop_high s n _ (by rw [swap_length]; omega) _ (by omega),
        shuffleLoop_high s' n _ (by rw [swap_length]; omega) _ (by omega),
        swap_getElem? l hl (by omega), swap_getElem? l hl (by omega)] at h3
      have hs : ∀ j, j < n + 2 → (if n + 1 = j then l[n + 1]? else if n + 1 = n + 1 then l[j]? else l[n + 1]?) = l[j]? := by
        intro j _
        split
        · rename_i h; rw [h]
        · simp
      rw [hs _ hj, hs _ hj', List.getElem?_eq_getElem (by omega), List.getElem?_eq_getElem (by omega), Option.some.injEq] at h3
      exact (hnd.getElem_inj_iff).1 h3
    rw [← e] at h
    rcases Nat.lt_or_ge i (n + 1) with hi | hi
    · exact shuffle_unique s s' n _ ((swap_perm l _ _).nodup_iff.2 hnd) (by rw [swap_length]; omega) h i h1 (by omega)
    · have : i = n + 1 := by omega
      subst this
      exact e

theorem shuffle_exists {α : Type} : ∀ (n : Nat) (l l' : List α), n < l.length → l'.Perm l → (∀ k, n < k → l'[k]? = l[k]?) →
    ∃ s : Nat → Nat, (∀ i, s i ≤ i) ∧ shuffleLoop s n l = l'
  | 0, l, l', hl, hp, hk => by
    refine ⟨fun _ => 0, by simp, ?_⟩
    cases l with
    | nil => simp at hl
    | cons a l =>
      cases l' with
      | nil => have := hp.length_eq; simp at this
      | cons b l' =>
        have : l' = l := by
          apply List.ext_getElem?
          intro k
          have := hk (k + 1) (by omega)
          simpa using this
        subst this
        have h := hp.mem_iff (a := b)
        have hab : b = a := by
          have := (List.perm_append_right_iff (l₁ := [b]) (l₂ := [a]) l').1 hp
          simpa using this
        rw [hab]
        rfl
  | n + 1, l, l', hl, hp, hk => by
    have hl' : l'.length = l.length := hp.length_eq
    -- the element that goes to position `n + 1` comes from a position up to `n + 1`
    obtain ⟨j, hj, hjl⟩ : ∃ j, j < n + 2 ∧ l[j]? = l'[n + 1]? := by
      have hdrop : l'.drop (n + 2) = l.drop (n + 2) := by
        apply List.ext_getElem?
        intro k
        rw [List.getElem?_drop, List.getElem?_drop]
        exact hk _ (by omega)
      have htake : (l'.take (n + 2)).Perm (l.take (n + 2)) := by
        have h : (l'.take (n + 2) ++ l'.drop (n + 2)).Perm (l.take (n + 2) ++ l.drop (n + 2)) := by
          rwa [List.take_append_drop, List.take_append_drop]
        rw [hdrop] at h
        exact (List.perm_append_right_iff _).1 h
      have hm : l'[n + 1]'(by omega) ∈ l'.take (n + 2) := by
        rw [List.mem_take_iff_getElem]
        exact ⟨n + 1, by omega, rfl⟩
      rw [htake.mem_iff, List.mem_take_iff_getElem] at hm
      obtain ⟨j, hj, e⟩ := hm
      refine ⟨j, by omega, ?_⟩
      rw [List.getElem?_eq_getElem (by omega), List.getElem?_eq_getElem (by omega), e]
    obtain ⟨s, hs, he⟩ := shuffle_exists n (swap l (n + 1) j) l' (by rw [swap_length]; omega)
      (hp.trans (swap_perm _ _ _).symm) (by
        intro k hk2
        rw [swap_getElem? l hl (by omega)]
        rcases Nat.lt_or_ge (n + 1) k with h | h
        · rw [if_neg (by omega), if_neg (by omega)]
          exact hk k h
        · have : k = n + 1 := by omega
          subst this
          split
          · rename_i h3; rw [← hjl, h3]
          · rw [if_pos rfl, hjl])
    refine ⟨fun i => if i = n + 1 then j else s i, ?_, ?_⟩
    · intro i
      dsimp only
      split
      · omega
      · exact hs i
    · unfold shuffleLoop
      rw [if_pos rfl, Nat.mod_eq_of_lt hj, ← he]
      apply shuffleLoop_congr
      intro i _ h2
      rw [if_neg (by omega)]

/-- C79: for a ring of distinct vectors (any number of them), every ordering is the result of the shuffle for exactly one
sequence of choices `Intn(i + 1)`. Hence with uniform independent choices all orderings are equally likely. -/
theorem C79_bijective {α : Type} (l l' : List α) (hnd : l.Nodup) (hp : l'.Perm l) :
    ∃ s : Nat → Nat, (∀ i, s i ≤ i) ∧ shuffleLoop s (l.length - 1) l = l' ∧
      ∀ s' : Nat → Nat, (∀ i, s' i ≤ i) → shuffleLoop s' (l.length - 1) l = l' → ∀ i, i < l.length → s' i = s i := by
  cases l with
  | nil =>
    refine ⟨fun _ => 0, by simp, ?_, by simp⟩
    rw [List.perm_nil.1 hp]
    rfl
  | cons a l =>
    obtain ⟨s, h1, h2⟩ := shuffle_exists l.length (a :: l) l' (by simp) hp (by
      intro k hk
      rw [List.getElem?_eq_none (by rw [hp.length_eq]; simp; omega), List.getElem?_eq_none (by simp; omega)])
    refine ⟨s, h1, h2, ?_⟩
    intro s' h1' h2' i hi
    rcases Nat.eq_zero_or_pos i with h0 | h0
    · subst h0
      have := h1 0
      have := h1' 0
      omega
    · have := shuffle_unique s' s l.length (a :: l) hnd (by simp) (h2'.trans h2.symm) i h0 (by simp at hi; omega)
      have e1 := h1 i
      have e2 := h1' i
      rwa [Nat.mod_eq_of_lt (by omega), Nat.mod_eq_of_lt (by omega)] at this

/-- A rotation of three vectors is reached. -/
example : ∃ s : Nat → Nat, (∀ i, s i ≤ i) ∧ shuffleLoop s 2 [10, 20, 30] = [20, 30, 10] := by
  obtain ⟨s, h1, h2, -⟩ := C79_bijective [10, 20, 30] [20, 30, 10] (by decide) (by decide)
  exact ⟨s, h1, h2⟩

/-! ## C80: the position of the signer is a function of the seed -/

theorem swap_map {α β : Type} (f : α → β) (l : List α) (i j : Nat) : swap (l.map f) i j = (swap l i j).map f := by
  unfold swap
  rw [List.getElem?_map, List.getElem?_map]
  cases l[i]? <;> cases l[j]? <;> simp [List.map_set]

theorem shuffleLoop_map {α β : Type} (f : α → β) (s : Nat → Nat) : ∀ (n : Nat) (l : List α),
    shuffleLoop s n (l.map f) = (shuffleLoop s n l).map f
  | 0, _ => rfl
  | n + 1, l => by
    unfold shuffleLoop
    rw [swap_map, shuffleLoop_map f s n]

/-- Where the last of `k + 1` elements goes for the given choices. -/
def signerPosition (s : Nat → Nat) (k : Nat) : Nat := (shuffleLoop s k (List.range (k + 1))).findIdx (· == k)

/-- C80 (violated expectation: the position of the signer in the ring is unpredictable): it depends only on the number of
decoys and on the choices of the generator, which is seeded with the time in seconds: anyone who knows the second in which a
signature was made computes which member of the published ring is the signer. -/
theorem C80_position_violated [DecidableEq F] (R : Ristretto F G) (msg : Bytes) (ops : List (Op F G)) (skip : Bool) (coins : Coins F)
    (hd : decoys ops ≠ []) (hx : secrets ops ≠ []) (hskip : skip = true → 2 ≤ (secrets ops).length)
    (hdim : ∀ k ∈ decoys ops, k.length = (secrets ops).length) :
    ∃ sig I, ((build R msg ops).prove R skip coins).2 = .ok (sig, I) ∧
      (sig.pubKeys[signerPosition coins.shuffle (decoys ops).length]?).map (·.keys) = some ((secrets ops).map (· • R.base)) := by
  obtain ⟨sig, I, h, hp⟩ := C14_prove R msg ops skip coins hd hx hskip hdim
  obtain ⟨b1, b2, b3, b4⟩ := build_eq R msg ops
  refine ⟨sig, I, h, ?_⟩
  set S : PubKeys G := ⟨false, (secrets ops).map (· • R.base)⟩ with hS
  set D : List (PubKeys G) := (decoys ops).map (fun k => ⟨true, k⟩) with hD
  have hDl : D.length = (decoys ops).length := by simp [hD]
  -- the published ring
  have hm : sig.pubKeys = shuffleLoop coins.shuffle D.length (D ++ [S]) := by
    have h1 : ((build R msg ops).prove R skip coins).1 = ((build R msg ops).addSignerPubKey.shuffleSet coins.shuffle).1 := by
      unfold Proof.prove
      dsimp only
      split
      · split <;> rfl
      · rfl
      · rfl
    have h2 : (build R msg ops).addSignerPubKey.matrix = D ++ [S] := by
      show (build R msg ops).matrix ++ [(⟨false, (build R msg ops).signer.keys⟩ : PubKeys G)] = _
      rw [b3, b2]
    rw [hp.ring, h1]
    unfold Proof.shuffleSet
    dsimp only
    rw [h2]
    split <;> simp
  have hrange : D ++ [S] = (List.range (D.length + 1)).map fun i => (D ++ [S]).getD i S := by
    apply List.ext_getElem
    · simp
    · intro i g1 g2
      simp only [List.getElem_map, List.getElem_range]
      rw [List.getD_eq_getElem?_getD, List.getElem?_eq_getElem g1, Option.getD_some]
  rw [hm, hrange, shuffleLoop_map, List.getElem?_map, ← hDl]
  unfold signerPosition
  have hmem : D.length ∈ shuffleLoop coins.shuffle D.length (List.range (D.length + 1)) :=
    (shuffleLoop_perm _ _ _).mem_iff.2 (by simp)
  have hlt : (shuffleLoop coins.shuffle D.length (List.range (D.length + 1))).findIdx (· == D.length) <
      (shuffleLoop coins.shuffle D.length (List.range (D.length + 1))).length :=
    List.findIdx_lt_length_of_exists ⟨_, hmem, by simp⟩
  have hval := List.findIdx_getElem (w := hlt)
  rw [List.getElem?_eq_getElem hlt, beq_iff_eq.1 hval]
  simp [List.getD_eq_getElem?_getD, hS]

/-- C80: two signatures made in the same second with equally many decoys have their signers at the same position. -/
theorem C80_same_second_violated [DecidableEq F] (R : Ristretto F G) (rng : Int → Nat → Nat) (seconds : Int)
    (msg msg' : Bytes) (ops ops' : List (Op F G)) (skip skip' : Bool) (coins coins' : Coins F)
    (hs : coins.shuffle = rng seconds) (hs' : coins'.shuffle = rng seconds)
    (hd : decoys ops ≠ []) (hx : secrets ops ≠ []) (hskip : skip = true → 2 ≤ (secrets ops).length)
    (hdim : ∀ k ∈ decoys ops, k.length = (secrets ops).length)
    (hx' : secrets ops' ≠ []) (hskip' : skip' = true → 2 ≤ (secrets ops').length)
    (hdim' : ∀ k ∈ decoys ops', k.length = (secrets ops').length) (hlen : (decoys ops').length = (decoys ops).length) :
    ∃ (sig : Signature F G) (I : List G) (sig' : Signature F G) (I' : List G) (pos : Nat), ((build R msg ops).prove R skip coins).2 = .ok (sig, I) ∧
      ((build R msg' ops').prove R skip' coins').2 = .ok (sig', I') ∧
      (sig.pubKeys[pos]?).map (·.keys) = some ((secrets ops).map (· • R.base)) ∧
      (sig'.pubKeys[pos]?).map (·.keys) = some ((secrets ops').map (· • R.base)) := by
  obtain ⟨sig, I, h1, h2⟩ := C80_position_violated R msg ops skip coins hd hx hskip hdim
  obtain ⟨sig', I', h1', h2'⟩ := C80_position_violated R msg' ops' skip' coins'
    (by intro h; rw [h] at hlen; exact hd (List.length_eq_zero_iff.1 hlen.symm)) hx' hskip' hdim'
  rw [hs] at h2
  rw [hs', hlen] at h2'
  exact ⟨sig, I, sig', I', _, h1, h1', h2, h2'⟩

/-- Two decoys; with the choices `Intn(3) = 0`, `Intn(2) = 1` the signer is first. -/
example : signerPosition (fun i => if i = 2 then 0 else 1) 2 = 0 := by decide

example (nonce : Nat → Toy.K) (resp : Nat → Nat → Toy.K) : ∃ sig I, ((build Toy.ris [1, 2, 3] [.decoy ⟨false, [10]⟩, .secret 5, .decoy ⟨true, [12]⟩]).prove
    Toy.ris false ⟨nonce, resp, fun i => if i = 2 then 0 else 1⟩).2 = .ok (sig, I) ∧
    (sig.pubKeys[0]?).map (·.keys) = some [(5 : Toy.K) • Toy.ris.base] :=
  C80_position_violated Toy.ris _ _ false _ (by simp [decoys]) (by simp [secrets]) (by simp) (by simp [decoys, secrets])

end Dusk.Mlsag
