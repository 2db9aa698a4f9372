import Verif.Props.MerkleSame
import Verif.Spec.BlsRogue
/-!
# C143: Merkle trees over payloads hashed with SHA3-256
-/

namespace Dusk.Merkle

open Spec Oracle Bls

/-! ## Specification -/

/-- Payloads that are byte strings hashed with SHA3-256. -/
def shaOf (A : Hash.Algs) (p : Bytes) : Res Bytes := .ok (A.sha3_256 p)

/-- The strings hashed to build the tree of a list of payloads. -/
def treeInputs (H : Bytes → Bytes) (pl : List Bytes) : List Bytes := pl ++ inputs H (pl.map H)

/-- Payload lists without repetition and without payloads of 64 bytes. -/
def Plain (pl : List Bytes) : Prop := pl ≠ [] ∧ pl.Nodup ∧ ∀ p ∈ pl, p.length ≠ 64

/-- An attacker: the next question from the log, and from the log at the end two lists of payloads. -/
structure Twins where
  next : Log Word → Bytes
  one : Log Word → List Bytes
  two : Log Word → List Bytes

/-- With the hash function given by the log, the two lists are different, plain, all strings hashed for their trees have been asked, and
the trees have the same Merkle root. -/
def Twins.Wins (T : Twins) (A : Hash.Algs) (log : Log Word) : Prop :=
  T.one log ≠ T.two log ∧ Plain (T.one log) ∧ Plain (T.two log) ∧
  (∀ x ∈ treeInputs (withSha A log.hash).sha3_256 (T.one log) ++ treeInputs (withSha A log.hash).sha3_256 (T.two log),
    ∃ a, (x, a) ∈ log) ∧
  ∃ f f' a a' t t' a1 a1', newTree (withSha A log.hash) (shaOf (withSha A log.hash)) f (T.one log) a = some (.ok (t, a1)) ∧
    newTree (withSha A log.hash) (shaOf (withSha A log.hash)) f' (T.two log) a' = some (.ok (t', a1')) ∧ t.merkleRoot = t'.merkleRoot

/-! ## Binding -/

theorem shaOf_hashes (A : Hash.Algs) (pl : List Bytes) : Hashes (shaOf A) pl (pl.map A.sha3_256) := by
  unfold Hashes
  induction pl with
  | nil => exact .nil
  | cons x pl ih => exact .cons rfl ih

theorem pairs_length : ∀ l : List Bytes, (∀ x ∈ l, x.length = 32) → ∀ y ∈ pairs l, y.length = 64
  | [], _, y, hy => by simp [pairs] at hy
  | [x], h, y, hy => by
    simp only [pairs, List.mem_singleton] at hy
    simp [hy, h x]
  | x :: z :: l, h, y, hy => by
    simp only [pairs, List.mem_cons] at hy
    rcases hy with rfl | hy
    · simp [h x, h z]
    · exact pairs_length l (fun w hw => h w (by simp [hw])) y hy

theorem level_lengths {H : Bytes → Bytes} (hH : ∀ x, (H x).length = 32) : ∀ l : List Bytes, ∀ x ∈ level H l, x.length = 32
  | [], x, hx => by simp [level] at hx
  | [y], x, hx => by
    simp only [level, List.mem_singleton] at hx
    rw [hx, hH]
  | y :: z :: l, x, hx => by
    simp only [level, List.mem_cons] at hx
    rcases hx with rfl | hx
    · exact hH _
    · exact level_lengths hH l x hx

theorem inputs_length {H : Bytes → Bytes} (hH : ∀ x, (H x).length = 32) (n : Nat) : ∀ l : List Bytes, l.length = n → (∀ x ∈ l, x.length = 32) →
    ∀ y ∈ inputs H l, y.length = 64 := by
  induction n using Nat.strong_induction_on with
  | _ n ih =>
    intro l hn h y hy
    rw [inputs, List.mem_append] at hy
    rcases hy with hy | hy
    · exact pairs_length l h y hy
    · split at hy
      · simp at hy
      · exact ih (level H l).length (by rw [level_length]; omega) _ rfl (level_lengths hH l) y hy

/-- C143: two trees over plain lists of payloads hashed with SHA3-256 with the same Merkle root have the same payloads, or two different
strings hashed to build them have the same digest. -/
theorem C143_binding (A : Hash.Algs) (f f' : Nat) (pl pl' : List Bytes) (a a1 a' a1' : Arena Bytes) (t t' : Tree) (hp : Plain pl) (hp' : Plain pl')
    (h : newTree A (shaOf A) f pl a = some (.ok (t, a1))) (h' : newTree A (shaOf A) f' pl' a' = some (.ok (t', a1')))
    (e : t.merkleRoot = t'.merkleRoot) :
    pl = pl' ∨ ∃ x ∈ treeInputs A.sha3_256 pl ++ treeInputs A.sha3_256 pl', ∃ y ∈ treeInputs A.sha3_256 pl ++ treeInputs A.sha3_256 pl',
      x ≠ y ∧ A.sha3_256 x = A.sha3_256 y := by
  by_contra hc
  push Not at hc
  obtain ⟨hne, hc⟩ := hc
  have inj : ∀ x ∈ treeInputs A.sha3_256 pl ++ treeInputs A.sha3_256 pl', ∀ y ∈ treeInputs A.sha3_256 pl ++ treeInputs A.sha3_256 pl',
      A.sha3_256 x = A.sha3_256 y → x = y := fun x hx y hy e => by
    by_contra hn
    exact hc x hx y hy hn e
  have m1 : ∀ {x}, x ∈ pl → x ∈ treeInputs A.sha3_256 pl ++ treeInputs A.sha3_256 pl' := fun hx => by simp [treeInputs, hx]
  have m2 : ∀ {x}, x ∈ pl' → x ∈ treeInputs A.sha3_256 pl ++ treeInputs A.sha3_256 pl' := fun hx => by simp [treeInputs, hx]
  have m3 : ∀ {x}, x ∈ inputs A.sha3_256 (pl.map A.sha3_256) → x ∈ treeInputs A.sha3_256 pl ++ treeInputs A.sha3_256 pl' :=
    fun hx => by simp only [treeInputs, List.mem_append]; simp [hx]
  have m4 : ∀ {x}, x ∈ inputs A.sha3_256 (pl'.map A.sha3_256) → x ∈ treeInputs A.sha3_256 pl ++ treeInputs A.sha3_256 pl' :=
    fun hx => by simp only [treeInputs, List.mem_append]; simp [hx]
  have l32 : ∀ q : List Bytes, ∀ x ∈ q.map A.sha3_256, x.length = 32 := fun q x hx => by
    obtain ⟨y, -, rfl⟩ := List.mem_map.1 hx
    exact A.sha3_256_length y
  have l64 : ∀ q : List Bytes, ∀ x ∈ inputs A.sha3_256 (q.map A.sha3_256), x.length = 64 := fun q =>
    inputs_length A.sha3_256_length _ _ rfl (l32 q)
  have key := C142_tree_distinct A (shaOf A) f f' pl pl' a a1 a' a1' t t' _ _ (shaOf_hashes A pl) (shaOf_hashes A pl') h h' (l32 pl) (l32 pl')
    ((List.nodup_map_iff_inj_on hp.2.1).2 fun x hx y hy => inj x (m1 hx) y (m1 hy))
    ((List.nodup_map_iff_inj_on hp'.2.1).2 fun x hx y hy => inj x (m2 hx) y (m2 hy)) ?_ ?_ e
  · rcases key with key | ⟨x, hx, y, hy, h1, h2⟩
    · refine hne ?_
      have hl : pl.length = pl'.length := by simpa using congrArg List.length key
      refine List.ext_getElem hl fun i hi hi' => ?_
      have := congrArg (fun l : List Bytes => l[i]?) key
      simp only [List.getElem?_map, List.getElem?_eq_getElem hi, List.getElem?_eq_getElem hi', Option.map_some, Option.some.injEq] at this
      exact inj _ (m1 (List.getElem_mem hi)) _ (m2 (List.getElem_mem hi')) this
    · exact hc x (m3 hx) y (m4 hy) h1 h2
  · intro x hx hm
    obtain ⟨p, hpm, he⟩ := List.mem_map.1 hm
    have := inj p (m2 hpm) x (m3 hx) he
    exact hp'.2.2 p hpm (this ▸ l64 pl x hx)
  · intro x hx hm
    obtain ⟨p, hpm, he⟩ := List.mem_map.1 hm
    have := inj p (m1 hpm) x (m4 hx) he
    exact hp.2.2 p hpm (this ▸ l64 pl' x hx)

/-- C143 (violated with payloads of 64 bytes): the tree of four payloads and the tree of two payloads made from their hashes have the
same Merkle root, whatever the hash function is. -/
theorem C143_length_violated (A : Hash.Algs) (p q r s : Bytes) (f f' : Nat) (a a1 a' a1' : Arena Bytes) (t t' : Tree)
    (h : newTree A (shaOf A) f [p, q, r, s] a = some (.ok (t, a1)))
    (h' : newTree A (shaOf A) f' [A.sha3_256 p ++ A.sha3_256 q, A.sha3_256 r ++ A.sha3_256 s] a' = some (.ok (t', a1'))) :
    t.merkleRoot = t'.merkleRoot := by
  rw [C05_merkleRoot A (shaOf A) f _ a a1 t _ (shaOf_hashes A _) h, C05_merkleRoot A (shaOf A) f' _ a' a1' t' _ (shaOf_hashes A _) h']
  have d4 : depth 4 = 2 := by decide
  have d2 : depth 2 = 1 := by decide
  refine C142_same_violated A.sha3_256 _ _ (by simp) (by simp) (by simp [d4, d2]) fun i hi => ?_
  simp only [List.map_cons, List.map_nil, List.length_cons, List.length_nil, Nat.zero_add, Nat.reduceAdd, d4, d2, Nat.reduceSub, above, top,
    bottom] at hi ⊢
  interval_cases i <;> simp [place]

/-- C143 (violated with repeated payloads): a list of odd length and the list with its last payload once more have the same root. -/
theorem C143_repeat_violated (A : Hash.Algs) (pl : List Bytes) (x : Bytes) (hl : pl.length % 2 = 0) (f f' : Nat) (a a1 a' a1' : Arena Bytes)
    (t t' : Tree) (h : newTree A (shaOf A) f (pl ++ [x]) a = some (.ok (t, a1)))
    (h' : newTree A (shaOf A) f' (pl ++ [x, x]) a' = some (.ok (t', a1'))) : t.merkleRoot = t'.merkleRoot := by
  rw [C05_merkleRoot A (shaOf A) f _ a a1 t _ (shaOf_hashes A _) h, C05_merkleRoot A (shaOf A) f' _ a' a1' t' _ (shaOf_hashes A _) h']
  have e : ∀ l : List Bytes, l.length % 2 = 0 → ∀ z, level A.sha3_256 (l ++ [z]) = level A.sha3_256 (l ++ [z, z]) := by
    intro l
    induction l using level.induct with
    | case1 => intro _ z; rfl
    | case2 y => intro h; simp at h
    | case3 y y' l ih =>
      intro h z
      simp only [List.cons_append, level]
      rw [ih (by simp at h; omega) z]
  simp only [List.map_append, List.map_cons, List.map_nil, Spec.root]
  rw [e _ (by simpa using hl)]

/-! ## Attackers -/

theorem word_inj {f : Bytes → Word} {A : Hash.Algs} {x y : Bytes} (h : (withSha A f).sha3_256 x = (withSha A f).sha3_256 y) : f x = f y := by
  simp only [withSha] at h
  have := congrArg leNat (List.reverse_injective h)
  rw [leNat_leBytes, leNat_leBytes, Nat.mod_eq_of_lt, Nat.mod_eq_of_lt] at this
  · exact Fin.ext this
  · exact (f y).isLt.trans_eq (by norm_num)
  · exact (f x).isLt.trans_eq (by norm_num)

/-- A collision between strings that have been asked shows in the coins. -/
theorem collision_coins (next : Log Word → Bytes) (l : List Word) (x y : Bytes) (hx : ∃ a, (x, a) ∈ play next l) (hy : ∃ a, (y, a) ∈ play next l)
    (hne : x ≠ y) (h : (play next l).hash x = (play next l).hash y) : ∃ t, ∃ ht : t < l.length, l[t] ∈ l.take t := by
  obtain ⟨_, hx⟩ := hx
  obtain ⟨_, hy⟩ := hy
  obtain ⟨a, ha⟩ := lookup_of_mem hx
  obtain ⟨b, hb⟩ := lookup_of_mem hy
  simp only [Log.hash, ha, hb, Option.getD_some] at h
  subst h
  obtain ⟨t, ht, -, h2, h3, -⟩ := play_first next l x a ha
  obtain ⟨u, hu, -, g2, g3, -⟩ := play_first next l y a hb
  have hmem : ∀ i j (hi : i < l.length) (hj : j < l.length), i < j → l[i] = l[j] → l[j] ∈ l.take j := by
    intro i j hi hj hij e
    rw [← e]
    exact List.mem_iff_getElem.2 ⟨i, by simp; omega, by simp⟩
  rcases Nat.lt_trichotomy t u with hc | hc | hc
  · exact ⟨u, hu, hmem t u ht hu hc (by rw [← h3, ← g3])⟩
  · subst hc
    exact absurd (h2.trans g2.symm) hne
  · exact ⟨t, ht, hmem u t hu ht hc (by rw [← h3, ← g3])⟩

/-- C143: an attacker that asks SHA3-256, a random oracle, `m` times finds two different plain lists of payloads with the same Merkle
root with probability at most `m (m - 1) / 2^256`. -/
theorem C143_attackers (T : Twins) (A : Hash.Algs) (m : Nat) :
    2 ^ 256 * Nat.card {coins : Fin m → Word // T.Wins A (play T.next (List.ofFn coins))} ≤ m * (m - 1) * (2 ^ 256) ^ m := by
  have hcard : Fintype.card Word = 2 ^ 256 := Fintype.card_fin _
  have h := card_guess (F := Word) (m - 1) m (fun l => l.toFinset) fun l hl => (List.toFinset_card_le l).trans (by omega)
  rw [hcard] at h
  refine le_trans (Nat.mul_le_mul_left _ ?_) h
  refine Nat.card_le_card_of_injective
    (fun c : {coins : Fin m → Word // T.Wins A (play T.next (List.ofFn coins))} =>
      (⟨c.1, ?_⟩ : {coins : Fin m → Word // ∃ t : Fin m, coins t ∈ ((List.ofFn coins).take t).toFinset})) ?_
  · obtain ⟨coins, hne, hp, hp', hask, f, f', a, a', t, t', a1, a1', h1, h2, he⟩ := c
    rcases C143_binding _ f f' _ _ a a1 a' a1' t t' hp hp' h1 h2 he with hc | ⟨x, hx, y, hy, hxy, hd⟩
    · exact absurd hc hne
    · obtain ⟨u, hu, hm⟩ := collision_coins T.next (List.ofFn coins) x y (hask x hx) (hask y hy) hxy (word_inj hd)
      refine ⟨⟨u, by simpa using hu⟩, ?_⟩
      rw [List.mem_toFinset]
      simpa using hm
  · intro c c' e
    have := congrArg Subtype.val e
    exact Subtype.ext this

/-! ## Cases -/

/-- An attacker that asks for what the trees of the payloads `1` and `2` hash if all answers are zero. -/
def hopeful : Twins where
  next log := if log.length = 0 then [1] else if log.length = 1 then [2] else List.replicate 64 0
  one _ := [[1]]
  two _ := [[2]]

/-- C143: the attacker can be lucky. -/
example (A : Hash.Algs) : hopeful.Wins A (play hopeful.next (List.ofFn fun _ : Fin 3 => (0 : Word))) := by
  have hlog : play hopeful.next (List.ofFn fun _ : Fin 3 => (0 : Word)) = [([1], 0), ([2], 0), (List.replicate 64 0, 0)] := by
    simp [play, Log.ask, hopeful, List.lookup]
  rw [hlog]
  unfold Twins.Wins
  generalize hA : withSha A (Log.hash [([1], 0), ([2], 0), (List.replicate 64 0, 0)]) = A'
  have hz : ∀ x, Log.hash ([([1], 0), ([2], 0), (List.replicate 64 0, 0)] : Log Word) x = 0 := by
    intro x
    simp only [Log.hash, List.lookup]
    split
    · rfl
    · split
      · rfl
      · split <;> rfl
  have hc : ∀ x, A'.sha3_256 x = List.replicate 32 0 := by
    intro x
    rw [← hA]
    simp only [withSha, hz]
    decide
  obtain ⟨t, a1, h⟩ := newTree_ok A' (shaOf A') [[1]] _ [] (by simp) (shaOf_hashes A' _)
  obtain ⟨t', a1', h'⟩ := newTree_ok A' (shaOf A') [[2]] _ [] (by simp) (shaOf_hashes A' _)
  have h := h _ le_rfl
  have h' := h' _ le_rfl
  refine ⟨by simp [hopeful], ⟨by simp [hopeful], by simp [hopeful], by simp [hopeful]⟩, ⟨by simp [hopeful], by simp [hopeful], by simp [hopeful]⟩,
    ?_, _, _, [], [], t, t', a1, a1', h, h', ?_⟩
  · intro x hx
    have hr : List.replicate 32 (0 : UInt8) ++ List.replicate 32 0 = List.replicate 64 0 := by rw [List.replicate_append_replicate]
    have he : ∀ p : Bytes, treeInputs A'.sha3_256 [p] = [p, List.replicate 64 0] := by
      intro p
      simp only [treeInputs, List.map_cons, List.map_nil, hc]
      rw [inputs, dif_pos (by simp), pairs, hr]
      simp
    rw [hopeful, he, he] at hx
    simp only [List.cons_append, List.nil_append, List.mem_cons, List.not_mem_nil, or_false] at hx
    rcases hx with rfl | rfl | rfl | rfl <;> exact ⟨0, by simp⟩
  · rw [C05_merkleRoot A' (shaOf A') _ _ [] a1 t _ (shaOf_hashes A' _) h, C05_merkleRoot A' (shaOf A') _ _ [] a1' t' _ (shaOf_hashes A' _) h']
    simp only [List.map_cons, List.map_nil, hc]

/-- C143: with three questions the attacker is lucky with probability at most `6 / 2^256`. -/
example (A : Hash.Algs) : 2 ^ 256 * Nat.card {coins : Fin 3 → Word // hopeful.Wins A (play hopeful.next (List.ofFn coins))} ≤ 6 * (2 ^ 256) ^ 3 :=
  C143_attackers hopeful A 3

/-- C143: different payloads with one root and the collision. -/
example : ∃ x ∈ treeInputs zeroAlgs.sha3_256 [[1], [2]] ++ treeInputs zeroAlgs.sha3_256 [[3]],
    ∃ y ∈ treeInputs zeroAlgs.sha3_256 [[1], [2]] ++ treeInputs zeroAlgs.sha3_256 [[3]], x ≠ y ∧ zeroAlgs.sha3_256 x = zeroAlgs.sha3_256 y :=
  (C143_binding zeroAlgs 4 4 [[1], [2]] [[3]] [] _ [] _ _ _ ⟨by simp, by simp, by simp⟩ ⟨by simp, by simp, by simp⟩ rfl rfl rfl).resolve_left
    (by simp)

/-- C143: three payloads, and the last one twice. -/
example (A : Hash.Algs) : ∃ t t' a1 a1', newTree A (shaOf A) 5 [[1], [2], [3]] [] = some (.ok (t, a1)) ∧
    newTree A (shaOf A) 5 [[1], [2], [3], [3]] [] = some (.ok (t', a1')) ∧ t.merkleRoot = t'.merkleRoot := by
  obtain ⟨t, a1, h⟩ := newTree_ok A (shaOf A) [[1], [2], [3]] _ [] (by simp) (shaOf_hashes A _)
  obtain ⟨t', a1', h'⟩ := newTree_ok A (shaOf A) [[1], [2], [3], [3]] _ [] (by simp) (shaOf_hashes A _)
  exact ⟨t, t', a1, a1', h 5 (by simp), h' 5 (by simp), C143_repeat_violated A [[1], [2]] [3] (by simp) 5 5 [] a1 [] a1' t t'
    (h 5 (by simp)) (h' 5 (by simp))⟩

/-- C143: four payloads, and two payloads of 64 bytes. -/
example (A : Hash.Algs) : ∃ t t' a1 a1', newTree A (shaOf A) 5 [[1], [2], [3], [4]] [] = some (.ok (t, a1)) ∧
    newTree A (shaOf A) 5 [A.sha3_256 [1] ++ A.sha3_256 [2], A.sha3_256 [3] ++ A.sha3_256 [4]] [] = some (.ok (t', a1')) ∧
    t.merkleRoot = t'.merkleRoot := by
  obtain ⟨t, a1, h⟩ := newTree_ok A (shaOf A) [[1], [2], [3], [4]] _ [] (by simp) (shaOf_hashes A _)
  obtain ⟨t', a1', h'⟩ := newTree_ok A (shaOf A) [A.sha3_256 [1] ++ A.sha3_256 [2], A.sha3_256 [3] ++ A.sha3_256 [4]] _ [] (by simp)
    (shaOf_hashes A _)
  exact ⟨t, t', a1, a1', h 5 (by simp), h' 5 (by simp), C143_length_violated A [1] [2] [3] [4] 5 5 [] a1 [] a1' t t' (h 5 (by simp))
    (h' 5 (by simp))⟩

end Dusk.Merkle
