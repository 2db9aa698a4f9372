import Mathlib.Tactic.SplitIfs
import Verif.Lemmas.MerkleVerify
/-!
# Consequences for the exported functions
-/

namespace Dusk.Merkle

open ITree

set_option linter.unusedSectionVars false

variable {α : Type} (A : Hash.Algs) (hashOf : α → Res Bytes)

/-! ## Rounds, levels, heights -/

theorem pad_cons_cons {β : Type} (x y : β) (l : List β) (h : l ≠ []) : Spec.pad (x :: y :: l) = x :: y :: Spec.pad l := by
  unfold Spec.pad
  have e : (x :: y :: l).length % 2 = l.length % 2 := by simp only [List.length_cons]; omega
  rw [e, List.getLast?_cons_cons]
  obtain ⟨z, l', rfl⟩ := List.exists_cons_of_ne_nil h
  rw [List.getLast?_cons_cons]
  split <;> rfl

theorem level_pad (H : Bytes → Bytes) : ∀ l : List Bytes, Spec.level H (Spec.pad l) = Spec.level H l
  | [] => rfl
  | [x] => rfl
  | [x, y] => by rw [pad_of_even _ (by simp)]
  | x :: y :: z :: l => by
    rw [pad_cons_cons x y (z :: l) (by simp), Spec.level, Spec.level, level_pad H (z :: l)]

theorem rounds_pad (H : Bytes → Bytes) (l : List Bytes) (h : l ≠ []) :
    Spec.rounds H (Spec.pad l) = Spec.root H l := by
  rw [rounds_of_level (pad_even l h).2, level_pad, Spec.root]

theorem rounds_eq_root (H : Bytes → Bytes) (l : List Bytes) (h : 2 ≤ l.length) : Spec.rounds H l = Spec.root H l := by
  rw [rounds_of_level h, Spec.root]

theorem height_le (n : Nat) : Spec.height n ≤ n - 1 := by
  induction n using Nat.strong_induction_on with
  | _ n ih =>
    unfold Spec.height
    split_ifs with h
    · omega
    · have := ih ((n + 1) / 2) (by omega)
      omega

theorem height_clog (n : Nat) : Spec.height n = Nat.clog 2 n := by
  induction n using Nat.strong_induction_on with
  | _ n ih =>
    unfold Spec.height
    split_ifs with h
    · rw [Nat.clog_of_right_le_one h]
    · rw [ih ((n + 1) / 2) (by omega), Nat.clog_of_two_le (n := n) (by omega) (by omega)]
      rfl

theorem height_pad {β : Type} (l : List β) (h : l ≠ []) :
    Spec.height (Spec.pad l).length = max 1 (Nat.clog 2 l.length) := by
  have h0 : 0 < l.length := List.length_pos_iff.2 h
  rw [height_clog, pad_length l h]
  by_cases h1 : l.length = 1
  · rw [h1]
    rw [Nat.clog_of_two_le (by omega) (by omega)]
    simp
  · rw [Nat.clog_of_two_le (by omega) (by omega), Nat.clog_of_two_le (n := l.length) (by omega) (by omega)]
    have : (l.length + l.length % 2 + 2 - 1) / 2 = (l.length + 2 - 1) / 2 := by omega
    rw [this]
    omega

/-! ## Independence of the bound -/

theorem createIntermediate_mono : ∀ (f : Nat) (nl : List Nat) (a : Arena α) (r), createIntermediate A f nl a = some r →
    ∀ g, f ≤ g → createIntermediate A g nl a = some r
  | 0, nl, a, r, h, _, _ => by simp [createIntermediate] at h
  | f + 1, nl, a, r, h, g, hg => by
    obtain ⟨g, rfl⟩ : ∃ k, g = k + 1 := ⟨g - 1, by omega⟩
    have ih := createIntermediate_mono f
    unfold createIntermediate at h ⊢
    split at h
    · exact h
    · rename_i nl' hne
      cases e : pairLoop A a nl with
      | ok x =>
        rw [e, Run.bind_ok] at h
        rw [Run.bind_ok]
        exact ih _ _ _ h _ (by omega)
      | err m => rw [e] at h; exact h
      | panic => rw [e] at h; exact h

theorem create_mono {f g : Nat} (hg : f ≤ g) {pl : List α} {a : Arena α} {r} (h : create A hashOf f pl a = some r) :
    create A hashOf g pl a = some r := by
  unfold create at h ⊢
  split_ifs at h ⊢
  · exact h
  · cases e : leafLoop hashOf a pl with
    | err m => rw [e] at h; exact h
    | panic => rw [e] at h; exact h
    | ok x =>
      rw [e, Run.bind_ok] at h
      rw [Run.bind_ok]
      change Run.bind (some (dupLeaf x.1 x.2)) _ = _ at h
      change Run.bind (some (dupLeaf x.1 x.2)) _ = _
      cases e2 : dupLeaf x.1 x.2 with
      | err m => rw [e2] at h; exact h
      | panic => rw [e2] at h; exact h
      | ok y =>
        rw [e2, Run.bind_ok] at h
        rw [Run.bind_ok]
        change Run.bind (createIntermediate A f y.1 y.2) _ = _ at h
        change Run.bind (createIntermediate A g y.1 y.2) _ = _
        cases e3 : createIntermediate A f y.1 y.2 with
        | none => rw [e3] at h; simp at h
        | some z => rw [createIntermediate_mono A f _ _ _ e3 g hg]; rw [e3] at h; exact h

/-! ## Success and failure of `create` -/

theorem hashes_iff (pl : List α) : (∃ hs, Hashes hashOf pl hs) ↔ ∀ d ∈ pl, ∃ h, hashOf d = .ok h := by
  induction pl with
  | nil => exact ⟨fun _ d hd => by simp at hd, fun _ => ⟨[], .nil⟩⟩
  | cons d pl ih =>
    constructor
    · rintro ⟨_, hh⟩
      cases hh with
      | cons h1 h2 =>
        intro x hx
        rcases List.mem_cons.1 hx with rfl | hx
        · exact ⟨_, h1⟩
        · exact ih.1 ⟨_, h2⟩ x hx
    · intro h
      obtain ⟨x, hx⟩ := h d (by simp)
      obtain ⟨xs, hxs⟩ := ih.2 fun y hy => h y (by simp [hy])
      exact ⟨x :: xs, .cons hx hxs⟩

theorem create_fail {pl : List α} (h : ¬ ∃ hs, Hashes hashOf pl hs) : ∃ d ∈ pl,
    (∃ e, hashOf d = .err e ∧ ∀ f a, create A hashOf f pl a = some (.err e)) ∨
    (hashOf d = .panic ∧ ∀ f a, create A hashOf f pl a = some .panic) := by
  have key : ∀ (pl : List α), (¬ ∃ hs, Hashes hashOf pl hs) → ∃ d ∈ pl,
      (∃ e, hashOf d = .err e ∧ ∀ a, leafLoop hashOf a pl = .err e) ∨
      (hashOf d = .panic ∧ ∀ a, leafLoop hashOf a pl = .panic) := by
    intro pl
    induction pl with
    | nil => intro h; exact absurd ⟨[], .nil⟩ h
    | cons d pl ih =>
      intro h
      cases e : hashOf d with
      | err m => exact ⟨d, by simp, .inl ⟨m, e, fun a => by simp [leafLoop, e]⟩⟩
      | panic => exact ⟨d, by simp, .inr ⟨e, fun a => by simp [leafLoop, e]⟩⟩
      | ok x =>
        have h' : ¬ ∃ hs, Hashes hashOf pl hs := by
          rintro ⟨hs, hh⟩
          exact h ⟨x :: hs, .cons e hh⟩
        obtain ⟨d', hd, hc⟩ := ih h'
        refine ⟨d', by simp [hd], ?_⟩
        rcases hc with ⟨m, e1, e2⟩ | ⟨e1, e2⟩
        · exact .inl ⟨m, e1, fun a => by simp [leafLoop, e, e2]⟩
        · exact .inr ⟨e1, fun a => by simp [leafLoop, e, e2]⟩
  have hne : ¬ pl.length = 0 := by
    intro h0
    rw [List.length_eq_zero_iff] at h0
    subst h0
    exact h ⟨[], .nil⟩
  obtain ⟨d, hd, hc⟩ := key pl h
  refine ⟨d, hd, ?_⟩
  rcases hc with ⟨m, e1, e2⟩ | ⟨e1, e2⟩
  · exact .inl ⟨m, e1, fun f a => by simp [create, hne, e2]⟩
  · exact .inr ⟨e1, fun f a => by simp [create, hne, e2]⟩

/-- Everything about a `create` that returned. -/
theorem create_built {f : Nat} {pl : List α} {a a' : Arena α} {r : Nat} {lv : List Nat}
    (h : create A hashOf f pl a = some (.ok (r, lv, a'))) :
    pl ≠ [] ∧ ∃ (hs : List Bytes) (T : ITree) (n : Node α), Hashes hashOf pl hs ∧ a <+: a' ∧ idx a' r = .ok n ∧
      lv = List.range' a.length (Spec.pad pl).length ∧
      (∀ g, pl.length + 1 ≤ g → create A hashOf g pl a = some (.ok (r, lv, a'))) ∧
      Built A hashOf a' { root := some r, merkleRoot := n.hash, leaves := lv } pl.length (Spec.pad pl) (Spec.pad hs) T := by
  have hne : pl ≠ [] := by
    rintro rfl
    simp [create] at h
  refine ⟨hne, ?_⟩
  by_cases hh : ∃ hs, Hashes hashOf pl hs
  · obtain ⟨hs, hh⟩ := hh
    obtain ⟨r', lv', a'', T, n, h1, h2, h3, h4, h5⟩ := create_ok A hashOf pl hs a hne hh
    have e := create_mono A hashOf (g := f + (pl.length + 1)) (by omega) h
    rw [h1 _ (by omega)] at e
    simp only [Option.some.injEq, Res.ok.injEq, Prod.mk.injEq] at e
    obtain ⟨rfl, rfl, rfl⟩ := e
    exact ⟨hs, T, n, hh, h2, h3, h4, h1, h5⟩
  · obtain ⟨d, -, hc⟩ := create_fail A hashOf hh
    rcases hc with ⟨e, -, he⟩ | ⟨-, he⟩ <;> rw [he] at h <;> simp at h

theorem newTree_built {f : Nat} {pl : List α} {a a' : Arena α} {t : Tree}
    (h : newTree A hashOf f pl a = some (.ok (t, a'))) :
    pl ≠ [] ∧ ∃ (hs : List Bytes) (T : ITree), Hashes hashOf pl hs ∧ a <+: a' ∧
      t.leaves = List.range' a.length (Spec.pad pl).length ∧
      (∀ g, pl.length + 1 ≤ g → newTree A hashOf g pl a = some (.ok (t, a'))) ∧
      Built A hashOf a' t pl.length (Spec.pad pl) (Spec.pad hs) T := by
  unfold newTree at h
  cases e : create A hashOf f pl a with
  | none => rw [e] at h; simp at h
  | some x =>
    cases x with
    | err m => rw [e] at h; simp at h
    | panic => rw [e] at h; simp at h
    | ok x =>
      obtain ⟨r, lv, b⟩ := x
      obtain ⟨hne, hs, T, n, h1, h2, h3, h4, h5, h6⟩ := create_built A hashOf e
      rw [e, Run.bind_ok] at h
      simp only [h3, Run.bind_ok, Option.some.injEq, Res.ok.injEq, Prod.mk.injEq] at h
      obtain ⟨rfl, rfl⟩ := h
      refine ⟨hne, hs, T, h1, h2, h4, fun g hg => ?_, h6⟩
      simp only [newTree, h5 g hg, Run.bind_ok, h3]

theorem newTree_ok (pl : List α) (hs : List Bytes) (a : Arena α) (hne : pl ≠ []) (h : Hashes hashOf pl hs) :
    ∃ t a', ∀ f, pl.length + 1 ≤ f → newTree A hashOf f pl a = some (.ok (t, a')) := by
  obtain ⟨r, lv, a', T, n, h1, h2, h3, h4, h5⟩ := create_ok A hashOf pl hs a hne h
  exact ⟨_, a', fun f hf => by simp only [newTree, h1 f hf, Run.bind_ok, h3]; rfl⟩

theorem rebuildTreeUsing_eq {f : Nat} {t : Tree} {pl : List α} {a : Arena α} :
    rebuildTreeUsing A hashOf f t pl a =
      match newTree A hashOf f pl a with
      | none => none
      | some (.ok (t', a')) => some (.ok (), t', a')
      | some (.err e) => some (.err e, t, a)
      | some .panic => some (.panic, t, a) := by
  unfold rebuildTreeUsing newTree
  cases e : create A hashOf f pl a with
  | none => rfl
  | some x =>
    cases x with
    | err m => rfl
    | panic => rfl
    | ok x =>
      obtain ⟨r, lv, b⟩ := x
      obtain ⟨hne, hs, T, n, h1, h2, h3, h4, h5, h6⟩ := create_built A hashOf e
      simp only [h3, Run.bind_ok]

/-! ## Built trees -/

/-- The tree was built by the package from some payloads. -/
def Healthy (a : Arena α) (t : Tree) : Prop := ∃ n0 ds hs T, Built A hashOf a t n0 ds hs T

theorem Built.leafHash {a : Arena α} {t : Tree} {n0 : Nat} {ds : List α} {hs : List Bytes} {T : ITree}
    (h : Built A hashOf a t n0 ds hs T) : ∀ i ∈ T.leaves, LeafHash hashOf a (storedHash a) i := by
  intro i hi
  rw [h.mem] at hi
  obtain ⟨k, hk, rfl⟩ := List.mem_iff_getElem.1 hi
  obtain ⟨n, h1, -, h2, h3, -⟩ := h.leaf k _ (List.getElem?_eq_getElem hk)
  have hkd : k < ds.length := by rw [← h.leaves_length]; exact hk
  have hkh : k < hs.length := by rw [← h.hashes.length_eq]; exact hkd
  refine ⟨n, ds[k], h1, by rw [h2, List.getElem?_eq_getElem hkd], ?_⟩
  have := (List.forall₂_iff_get.1 h.hashes).2 k hkd hkh
  simp only [List.get_eq_getElem] at this
  rw [this]
  rw [List.getElem?_eq_getElem hkh, Option.some.injEq] at h3
  simp [storedHash, h1, h3]

theorem Built.map_hash {a : Arena α} {t : Tree} {n0 : Nat} {ds : List α} {hs : List Bytes} {T : ITree}
    (h : Built A hashOf a t n0 ds hs T) : t.leaves.map (storedHash a) = hs := by
  apply List.ext_getElem?
  intro k
  rw [List.getElem?_map]
  by_cases hk : k < t.leaves.length
  · obtain ⟨n, h1, -, h2, h3, -⟩ := h.leaf k _ (List.getElem?_eq_getElem hk)
    rw [List.getElem?_eq_getElem hk, Option.map_some, ← h3]
    simp [storedHash, h1]
  · rw [List.getElem?_eq_none (by omega), List.getElem?_eq_none]
    · rfl
    · rw [← h.hashes.length_eq, ← h.leaves_length]; omega

/-- The payloads of the leaves of a tree. -/
def payloads (a : Arena α) (t : Tree) : List (Option α) := t.leaves.map fun i => a[i]?.bind Node.data

theorem Built.payloads {a : Arena α} {t : Tree} {n0 : Nat} {ds : List α} {hs : List Bytes} {T : ITree}
    (h : Built A hashOf a t n0 ds hs T) : payloads a t = ds.map some := by
  apply List.ext_getElem?
  intro k
  rw [Merkle.payloads, List.getElem?_map, List.getElem?_map]
  by_cases hk : k < t.leaves.length
  · obtain ⟨n, h1, -, h2, h3, -⟩ := h.leaf k _ (List.getElem?_eq_getElem hk)
    have hkd : k < ds.length := by rw [← h.leaves_length]; exact hk
    rw [List.getElem?_eq_getElem hk, Option.map_some, h1, Option.bind_some, h2, List.getElem?_eq_getElem hkd]
    rfl
  · rw [List.getElem?_eq_none (by omega), List.getElem?_eq_none (by rw [← h.leaves_length]; omega)]
    rfl

theorem mapRes_ok {β γ : Type} (f : β → Res γ) : ∀ (l : List β) (l' : List γ),
    List.Forall₂ (fun x y => f x = .ok y) l l' → mapRes f l = .ok l'
  | [], _, h => by cases h; rfl
  | x :: l, _, h => by
    cases h with
    | cons h1 h2 => simp only [mapRes, h1, mapRes_ok f l _ h2, Res.bind_ok]

theorem takeWhile_map_some : ∀ ds : List α, ((ds.map some).takeWhile Option.isSome).filterMap id = ds
  | [] => rfl
  | d :: ds => by simpa using takeWhile_map_some ds

theorem Built.rebuild_eq {a : Arena α} {t : Tree} {n0 : Nat} {ds : List α} {hs : List Bytes} {T : ITree}
    (h : Built A hashOf a t n0 ds hs T) (f : Nat) :
    rebuildTree A hashOf f t a = rebuildTreeUsing A hashOf f t ds a := by
  unfold rebuildTree
  rw [mapRes_ok _ t.leaves (ds.map some)]
  · have e : ((ds.map some).takeWhile Option.isSome).filterMap id = ds := takeWhile_map_some ds
    simp only [e, List.length_map, if_true]
  rw [List.forall₂_iff_get]
  refine ⟨by rw [h.leaves_length, List.length_map], fun k hk hk' => ?_⟩
  obtain ⟨n, h1, -, h2, -⟩ := h.leaf k _ (List.getElem?_eq_getElem hk)
  rw [List.length_map] at hk'
  simp only [List.get_eq_getElem, idx_eq_ok.2 h1, Res.bind_ok, h2, List.getElem?_eq_getElem hk', List.getElem_map]

end Dusk.Merkle
