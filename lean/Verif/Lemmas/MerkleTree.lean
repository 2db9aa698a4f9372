import Mathlib.Data.List.Forall2
import Verif.Lemmas.Merkle
/-!
# What NewTree builds
-/

namespace Dusk.Merkle

open ITree

variable {α : Type} (A : Hash.Algs) (hashOf : α → Res Bytes)

/-- The payloads `pl` hash to `hs`. -/
def Hashes (pl : List α) (hs : List Bytes) : Prop := List.Forall₂ (fun d h => hashOf d = .ok h) pl hs

theorem pad_length {β : Type} (l : List β) (h : l ≠ []) : (Spec.pad l).length = l.length + l.length % 2 := by
  unfold Spec.pad
  split
  · rename_i ho
    rw [List.length_append, List.getLast?_eq_some_getLast h]; simp [ho]
  · omega

theorem pad_even {β : Type} (l : List β) (h : l ≠ []) : (Spec.pad l).length % 2 = 0 ∧ 2 ≤ (Spec.pad l).length := by
  have h0 : 0 < l.length := List.length_pos_iff.2 h
  rw [pad_length l h]; omega

theorem pad_of_even {β : Type} (l : List β) (h : l.length % 2 = 0) : Spec.pad l = l := by
  unfold Spec.pad; rw [if_neg (by omega)]

theorem pad_getElem? {β : Type} (l : List β) {k : Nat} (h : k < l.length) : (Spec.pad l)[k]? = l[k]? := by
  unfold Spec.pad
  split
  · rw [List.getElem?_append_left h]
  · rfl

theorem hashes_pad {pl : List α} {hs : List Bytes} (h : Hashes hashOf pl hs) :
    Hashes hashOf (Spec.pad pl) (Spec.pad hs) := by
  have hl := h.length_eq
  unfold Spec.pad
  rw [hl]
  split
  · rename_i ho
    have hn : hs ≠ [] := by rintro rfl; simp at ho
    have hp : pl ≠ [] := by rintro rfl; simp at hl; exact hn (List.length_eq_zero_iff.1 hl.symm)
    rw [List.getLast?_eq_some_getLast hn, List.getLast?_eq_some_getLast hp]
    refine List.rel_append h (.cons ?_ .nil)
    have := List.forall₂_iff_get.1 h
    rw [List.getLast_eq_getElem, List.getLast_eq_getElem]
    have h2 := this.2 (pl.length - 1) (by have := List.length_pos_iff.2 hp; omega) (by have := List.length_pos_iff.2 hn; omega)
    simp only [List.get_eq_getElem] at h2
    rw [h2]
    congr 2
    omega
  · exact h

def leafNode (d : α) (h : Bytes) : Node α := { data := some d, hash := h, isLeaf := true }

theorem leafLoop_ok : ∀ (pl : List α) (hs : List Bytes) (a : Arena α), Hashes hashOf pl hs →
    leafLoop hashOf a pl = .ok (List.range' a.length pl.length, a ++ List.zipWith leafNode pl hs)
  | [], _, a, h => by cases h; simp [leafLoop]
  | d :: pl, _, a, h => by
    cases h with
    | cons h1 h2 =>
      rename_i h hs
      simp only [leafLoop, h1, Res.bind_ok]
      have := leafLoop_ok pl hs (a ++ [leafNode d h]) h2
      rw [leafNode] at this
      rw [this]
      simp [List.range'_succ, leafNode]

/-- When some payload cannot be hashed the loop stops with what the first such payload reported. -/
theorem leafLoop_fail : ∀ (pl : List α) (a : Arena α), (¬ ∃ hs, Hashes hashOf pl hs) →
    ∃ d ∈ pl, (∃ e, hashOf d = .err e ∧ leafLoop hashOf a pl = .err e) ∨
      (hashOf d = .panic ∧ leafLoop hashOf a pl = .panic)
  | [], a, h => absurd ⟨[], .nil⟩ h
  | d :: pl, a, h => by
    cases e : hashOf d with
    | err m => exact ⟨d, by simp, .inl ⟨m, e, by simp [leafLoop, e]⟩⟩
    | panic => exact ⟨d, by simp, .inr ⟨e, by simp [leafLoop, e]⟩⟩
    | ok x =>
      have h' : ¬ ∃ hs, Hashes hashOf pl hs := by
        rintro ⟨hs, hh⟩
        exact h ⟨x :: hs, .cons e hh⟩
      obtain ⟨d', hd, hc⟩ := leafLoop_fail pl (a ++ [{ data := some d, hash := x, isLeaf := true }]) h'
      refine ⟨d', by simp [hd], ?_⟩
      rcases hc with ⟨m, e1, e2⟩ | ⟨e1, e2⟩
      · exact .inl ⟨m, e1, by simp [leafLoop, e, e2]⟩
      · exact .inr ⟨e1, by simp [leafLoop, e, e2]⟩

/-- The leaves and their nodes after the first half of `create`. -/
theorem leaves_ok (pl : List α) (hs : List Bytes) (a : Arena α) (hne : pl ≠ []) (h : Hashes hashOf pl hs) :
    ∃ ns : List (Node α), ((leafLoop hashOf a pl).bind fun (leaves, a) => dupLeaf leaves a) =
        .ok (List.range' a.length (Spec.pad pl).length, a ++ ns) ∧
      ns.length = (Spec.pad pl).length ∧
      ∀ k, k < (Spec.pad pl).length → ∃ n, ns[k]? = some n ∧ n.isLeaf = true ∧ n.parent = none ∧
        n.data = (Spec.pad pl)[k]? ∧ some n.hash = (Spec.pad hs)[k]? ∧ n.isDup = decide (pl.length ≤ k) := by
  have hl := h.length_eq
  have hpos : 0 < pl.length := List.length_pos_iff.2 hne
  rw [leafLoop_ok hashOf pl hs a h, Res.bind_ok]
  simp only [dupLeaf, List.length_range']
  by_cases ho : pl.length % 2 = 1
  · rw [if_pos ho]
    have e1 : idx (List.range' a.length pl.length) (pl.length - 1) = .ok (a.length + (pl.length - 1)) := by
      rw [idx_of_lt (by simp; omega)]; simp
    have e2 : idx (a ++ List.zipWith leafNode pl hs) (a.length + (pl.length - 1)) =
        .ok (leafNode pl[pl.length - 1] (hs[pl.length - 1]'(by omega))) := by
      rw [idx_of_lt (by simp; omega)]
      rw [List.getElem_append_right (by omega)]
      simp
    rw [e1, Res.bind_ok, e2, Res.bind_ok]
    refine ⟨List.zipWith leafNode pl hs ++ [{ hash := hs[pl.length - 1]'(by omega), data := some pl[pl.length - 1], isLeaf := true, isDup := true }], ?_, ?_, ?_⟩
    · rw [pad_length pl hne, ho, List.range'_concat]
      simp [leafNode, hl]
    · rw [pad_length pl hne, ho]; simp [hl]
    · intro k hk
      rw [pad_length pl hne, ho] at hk
      by_cases hk' : k < pl.length
      · refine ⟨leafNode pl[k] (hs[k]'(by omega)), ?_, rfl, rfl, ?_, ?_, ?_⟩
        · rw [List.getElem?_append_left (by simp; omega)]
          rw [List.getElem?_eq_getElem (by simp; omega)]
          simp
        · rw [pad_getElem? _ hk', List.getElem?_eq_getElem hk']; rfl
        · rw [pad_getElem? _ (by omega), List.getElem?_eq_getElem (by omega)]; rfl
        · simp [leafNode, hk']
      · have hke : k = pl.length := by omega
        subst hke
        refine ⟨{ hash := hs[pl.length - 1]'(by omega), data := some pl[pl.length - 1], isLeaf := true, isDup := true }, ?_, rfl, rfl, ?_, ?_, ?_⟩
        · rw [List.getElem?_append_right (by simp; omega)]
          simp [hl]
        · rw [Spec.pad, if_pos ho, List.getElem?_append_right (le_refl _), List.getLast?_eq_some_getLast hne,
            List.getLast_eq_getElem]
          simp
        · have hsn : hs ≠ [] := by rintro rfl; rw [List.length_nil] at hl; omega
          rw [Spec.pad, if_pos (by omega), List.getElem?_append_right (by omega), List.getLast?_eq_some_getLast hsn,
            List.getLast_eq_getElem]
          simp [hl]
        · simp
  · rw [if_neg ho]
    have he : pl.length % 2 = 0 := by omega
    rw [pad_of_even pl he, pad_of_even hs (by omega)]
    refine ⟨List.zipWith leafNode pl hs, rfl, by simp [hl], fun k hk => ?_⟩
    refine ⟨leafNode pl[k] (hs[k]'(by omega)), ?_, rfl, rfl, ?_, ?_, ?_⟩
    · rw [List.getElem?_eq_getElem (by simp; omega)]
      simp
    · rw [List.getElem?_eq_getElem hk]; rfl
    · rw [List.getElem?_eq_getElem (by omega)]; rfl
    · simp [leafNode, hk]

/-- Stored hash of a node. -/
def storedHash (a : Arena α) (i : Nat) : Bytes := (a[i]?.map Node.hash).getD []

/-- `t` is a tree in the arena `a` whose leaves carry the payloads `ds` with hashes `hs`, of which the first
`n0` were given by the caller; `T` describes its pointers. -/
structure Built (a : Arena α) (t : Tree) (n0 : Nat) (ds : List α) (hs : List Bytes) (T : ITree) : Prop where
  root : t.root = some T.root
  two : 2 ≤ ds.length
  even : ds.length % 2 = 0
  leaves_length : t.leaves.length = ds.length
  nodup : t.leaves.Nodup
  leaf : ∀ k i, t.leaves[k]? = some i → ∃ n, a[i]? = some n ∧ n.isLeaf = true ∧ n.data = ds[k]? ∧
    some n.hash = hs[k]? ∧ n.isDup = decide (n0 ≤ k)
  hashes : Hashes hashOf ds hs
  shape : Shape a none T
  hashed : Hashed A.sha3_256 a (storedHash a) T
  perfect : T.Perfect (Spec.height ds.length)
  eval : ∀ ψ, T.eval A.sha3_256 ψ = Spec.rounds A.sha3_256 (t.leaves.map ψ)
  mem : ∀ i, i ∈ T.leaves ↔ i ∈ t.leaves
  order : ∀ P, T.leaves.reverse.find? P = t.leaves.reverse.find? P
  merkleRoot : t.merkleRoot = Spec.rounds A.sha3_256 hs

/-- `a'` extends `a`. -/
theorem prefix_of_getElem? {a a' : Arena α} (h : ∀ i, i < a.length → a'[i]? = a[i]?) : a <+: a' := by
  rw [List.prefix_iff_eq_take]
  apply List.ext_getElem?
  intro i
  by_cases hi : i < a.length
  · rw [List.getElem?_take_of_lt hi, h i hi]
  · rw [List.getElem?_eq_none (by omega), List.getElem?_eq_none]
    simp; omega

theorem hashed_congr_phi {H : Bytes → Bytes} {a : Arena α} {φ φ' : Nat → Bytes} : ∀ {t : ITree},
    (∀ i ∈ t.leaves, φ i = φ' i) → Hashed H a φ t → Hashed H a φ' t ∧ t.eval H φ = t.eval H φ'
  | .leaf i, he, ⟨n, h1, h2⟩ => by
    have := he i (by simp [leaves])
    exact ⟨⟨n, h1, by rw [h2, this]⟩, this⟩
  | .node i l r, he, ⟨⟨n, h1, h2⟩, hl, hr⟩ => by
    obtain ⟨l1, l2⟩ := hashed_congr_phi (fun k hk => he k (by simp [leaves, hk])) hl
    obtain ⟨r1, r2⟩ := hashed_congr_phi (fun k hk => he k (by simp [leaves, hk])) hr
    exact ⟨⟨⟨n, h1, by rw [h2, l2, r2]⟩, l1, r1⟩, by rw [ITree.eval, ITree.eval, l2, r2]⟩

/-- `create` on hashable payloads. -/
theorem create_ok (pl : List α) (hs : List Bytes) (a : Arena α) (hne : pl ≠ []) (h : Hashes hashOf pl hs) :
    ∃ (r : Nat) (lv : List Nat) (a' : Arena α) (T : ITree) (n : Node α),
      (∀ f, pl.length + 1 ≤ f → create A hashOf f pl a = some (.ok (r, lv, a'))) ∧
      a <+: a' ∧ idx a' r = .ok n ∧ lv = List.range' a.length (Spec.pad pl).length ∧
      Built A hashOf a' { root := some r, merkleRoot := n.hash, leaves := lv } pl.length (Spec.pad pl) (Spec.pad hs) T := by
  obtain ⟨ns, e1, hnl, hns⟩ := leaves_ok hashOf pl hs a hne h
  have hlv : ∀ k, k < (Spec.pad pl).length → (List.range' a.length (Spec.pad pl).length)[k]? = some (a.length + k) := by
    intro k hk; rw [List.getElem?_range' hk]; simp
  have hpe := pad_even pl hne
  have hhp := hashes_pad hashOf h
  have hnode : ∀ i ∈ List.range' a.length (Spec.pad pl).length, ∃ n, (a ++ ns)[i]? = some n ∧ n.isLeaf = true ∧
      n.parent = none := by
    intro i hi
    rw [List.mem_range'_1] at hi
    obtain ⟨n, g1, g2, g3, -⟩ := hns (i - a.length) (by omega)
    exact ⟨n, by rw [List.getElem?_append_right (by omega), g1], g2, g3⟩
  have hf : Forest A.sha3_256 (a ++ ns) (storedHash (a ++ ns)) 0
      ((List.range' a.length (Spec.pad pl).length).map ITree.leaf) := by
    refine ⟨?_, ?_, ?_, ?_⟩
    · intro t ht
      obtain ⟨i, hi, rfl⟩ := List.mem_map.1 ht
      obtain ⟨n, g1, g2, g3⟩ := hnode i hi
      exact ⟨n, g1, g2, g3⟩
    · intro t ht
      obtain ⟨i, hi, rfl⟩ := List.mem_map.1 ht
      obtain ⟨n, g1, g2, g3⟩ := hnode i hi
      exact ⟨n, g1, by simp [storedHash, g1]⟩
    · intro t ht
      obtain ⟨i, hi, rfl⟩ := List.mem_map.1 ht
      trivial
    · rw [List.pairwise_map]
      refine (List.nodup_range' (step := 1)).imp ?_
      intro i j hij k hk hk'
      simp only [ids, List.mem_singleton] at hk hk'
      exact hij (hk.symm.trans hk')
  have hid : ((List.range' a.length (Spec.pad pl).length).map ITree.leaf).map ITree.root =
      List.range' a.length (Spec.pad pl).length := by
    rw [List.map_map]; exact List.map_id' _
  obtain ⟨T, a', hc, hs', hh, hp, hk, hun, hev, hlvs, hord⟩ :=
    createIntermediate_spec A _ _ 0 _ rfl (by simpa using hpe.2) hf
  rw [hid] at hc
  obtain ⟨n, hn, hnh⟩ := hashed_root hh
  have hpre : a <+: a' := by
    refine prefix_of_getElem? fun i hi => ?_
    rw [hun i (by simp; omega), List.getElem?_append_left hi]
    intro t ht hit
    obtain ⟨j, hj, rfl⟩ := List.mem_map.1 ht
    simp only [ids, List.mem_singleton] at hit
    rw [List.mem_range'_1] at hj
    omega
  have hmem : ∀ i, i ∈ T.leaves ↔ i ∈ List.range' a.length (Spec.pad pl).length := by
    intro i
    rw [hlvs]
    simp [leaves]
  have hst : ∀ i ∈ T.leaves, storedHash (a ++ ns) i = storedHash a' i := by
    intro i hi
    obtain ⟨m, g1, -⟩ := hnode i ((hmem i).1 hi)
    obtain ⟨m', g2, g3⟩ := hk i m g1
    simp [storedHash, g1, g2, g3.fields.2.2.1]
  obtain ⟨hh', hev'⟩ := hashed_congr_phi hst hh
  have hmap : ∀ ψ : Nat → Bytes, ((List.range' a.length (Spec.pad pl).length).map ITree.leaf).map (ITree.eval A.sha3_256 ψ) =
      (List.range' a.length (Spec.pad pl).length).map ψ := by
    intro ψ; rw [List.map_map]; rfl
  have hleaf : ∀ k i, (List.range' a.length (Spec.pad pl).length)[k]? = some i → ∃ n, a'[i]? = some n ∧
      n.isLeaf = true ∧ n.data = (Spec.pad pl)[k]? ∧ some n.hash = (Spec.pad hs)[k]? ∧
      n.isDup = decide (pl.length ≤ k) := by
    intro k i hki
    have hkl := (List.getElem?_eq_some_iff.1 hki).1
    rw [List.length_range'] at hkl
    rw [hlv k hkl, Option.some.injEq] at hki
    subst hki
    obtain ⟨m, g1, g2, g3, g4, g5, g6⟩ := hns k hkl
    obtain ⟨m', q1, q2⟩ := hk (a.length + k) m (by rw [List.getElem?_append_right (by omega)]; simpa using g1)
    obtain ⟨-, -, f3, f4, f5, f6⟩ := q2.fields
    exact ⟨m', q1, by rw [← f5, g2], by rw [← f4, g4], by rw [← f3, g5], by rw [← f6, g6]⟩
  have hsl : (Spec.pad hs).length = (Spec.pad pl).length := hhp.length_eq.symm
  refine ⟨T.root, List.range' a.length (Spec.pad pl).length, a', T, n, ?_, hpre, idx_eq_ok.2 hn, rfl, ?_⟩
  · intro f hfl
    rw [Res.bind_eq_ok] at e1
    obtain ⟨⟨lv, a0⟩, e1, e2⟩ := e1
    have h0 : ¬ pl.length = 0 := fun h' => hne (List.length_eq_zero_iff.1 h')
    have hcf := hc f (by
      simp only [List.length_map, List.length_range']
      rw [pad_length pl hne]; omega)
    simp only [create, if_neg h0, e1, e2, Run.bind_ok, hcf]
  · refine ⟨rfl, hpe.2, hpe.1, by simp, List.nodup_range', hleaf, hhp, hs', hh', ?_, ?_, hmem, ?_, ?_⟩
    · simpa using hp
    · intro ψ; rw [hev, hmap]
    · intro P
      rw [hord, List.flatMap_map]
      simp [leaves]
    · show n.hash = _
      rw [hnh, hev, hmap]
      congr 1
      apply List.ext_getElem?
      intro k
      by_cases hkl : k < (Spec.pad pl).length
      · rw [List.getElem?_map, hlv k hkl, Option.map_some]
        obtain ⟨m, g1, -, -, -, g5, -⟩ := hns k hkl
        rw [← g5, Option.some.injEq, storedHash, List.getElem?_append_right (by omega)]
        simp [g1]
      · rw [List.getElem?_eq_none (by simp; omega), List.getElem?_eq_none (by omega)]

theorem Built.mono {a a' : Arena α} {t : Tree} {n0 : Nat} {ds : List α} {hs : List Bytes} {T : ITree}
    (h : Built A hashOf a t n0 ds hs T) (hp : a <+: a') : Built A hashOf a' t n0 ds hs T := by
  have hget : ∀ (i : Nat) n, a[i]? = some n → a'[i]? = some n := by
    intro i n hn
    obtain ⟨b, rfl⟩ := hp
    rw [List.getElem?_append_left (List.getElem?_eq_some_iff.1 hn).1, hn]
  have hids : ∀ k ∈ T.ids, a'[k]? = a[k]? := by
    intro k hk
    have := shape_ids_lt h.shape k hk
    rw [List.getElem?_eq_getElem this]
    exact hget k _ (List.getElem?_eq_getElem this)
  have hk : Keeps a a' := fun i n hn => ⟨n, hget i n hn, rfl⟩
  refine { h with leaf := ?_, shape := shape_congr hids h.shape, hashed := ?_ }
  · intro k i hki
    obtain ⟨n, g, g'⟩ := h.leaf k i hki
    exact ⟨n, hget i n g, g'⟩
  · refine (hashed_congr_phi (fun i hi => ?_) (hashed_keeps hk h.hashed)).1
    rw [storedHash, storedHash, hids i (leaves_sub_ids T i hi)]

end Dusk.Merkle
