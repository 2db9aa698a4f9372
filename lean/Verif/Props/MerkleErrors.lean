import Verif.Props.MerkleTamper
/-!
# C88: which failure `VerifyTree` and `NewTree` report
-/

namespace Dusk.Merkle

open ITree

set_option linter.unusedSectionVars false

variable {α : Type} (A : Hash.Algs) (hashOf : α → Res Bytes)

/-- What hashing the payload stored at node `i` gives: an error, a panic (also for a nil payload), or a hash. -/
def leafOutcome (b : Arena α) (i : Nat) : Res Bytes :=
  match (b[i]?).bind Node.data with
  | some d => hashOf d
  | none => .panic

/-- Hashing the payload fails. -/
def fails (b : Arena α) (i : Nat) : Bool :=
  match leafOutcome hashOf b i with
  | .ok _ => false
  | _ => true

theorem fails_false {b : Arena α} {i : Nat} (h : fails hashOf b i = false) : ∃ x, leafOutcome hashOf b i = .ok x := by
  unfold fails at h
  split at h
  · rename_i x hx
    exact ⟨x, hx⟩
  · cases h

theorem bind_of_fails {b : Arena α} {i : Nat} (h : fails hashOf b i = true) (k : Bytes → Run Bytes) :
    Run.bind (some (leafOutcome hashOf b i)) k = some (leafOutcome hashOf b i) := by
  unfold fails at h
  cases hl : leafOutcome hashOf b i with
  | ok x => rw [hl] at h; cases h
  | err e => rfl
  | panic => rfl

theorem verifyNode_outcome {b : Arena α} : ∀ {t : ITree} {p : Option Nat} {d : Nat} (f : Nat), Shape b p t → t.Perfect d → d + 1 ≤ f →
    (∀ i, t.leaves.reverse.find? (fails hashOf b) = some i → verifyNode A hashOf b f (some t.root) = some (leafOutcome hashOf b i)) ∧
    (t.leaves.reverse.find? (fails hashOf b) = none → ∃ h, verifyNode A hashOf b f (some t.root) = some (.ok h))
  | .leaf i, p, 0, f, hs, _, hf => by
    obtain ⟨g, rfl⟩ : ∃ g, f = g + 1 := ⟨f - 1, by omega⟩
    obtain ⟨n, h1, h2, -⟩ := hs
    have hg : get b (some (ITree.leaf i).root) = .ok n := idx_eq_ok.2 h1
    have hv : verifyNode A hashOf b (g + 1) (some (ITree.leaf i).root) = some (leafOutcome hashOf b i) := by
      simp only [verifyNode, hg, Run.bind_ok, h2, if_true, leafOutcome, h1, Option.bind_some]
      cases n.data <;> rfl
    rw [hv]
    simp only [leaves, List.reverse_singleton, List.find?_singleton]
    constructor
    · intro j hj
      split at hj
      · cases hj
        rfl
      · cases hj
    · intro hj
      split at hj
      · cases hj
      · rename_i hfl
        obtain ⟨x, hx⟩ := fails_false hashOf (by simpa using hfl)
        exact ⟨x, by rw [hx]⟩
  | .leaf i, p, d + 1, f, hs, hp, hf => by cases hp
  | .node i l r, p, 0, f, hs, hp, hf => by cases hp
  | .node i l r, p, d + 1, f, hs, hp, hf => by
    obtain ⟨g, rfl⟩ : ∃ g, f = g + 1 := ⟨f - 1, by omega⟩
    obtain ⟨⟨n, h1, h2, -, h3, h4⟩, -, sl, sr⟩ := hs
    obtain ⟨l1, l2⟩ := verifyNode_outcome g sl hp.1 (by omega)
    obtain ⟨r1, r2⟩ := verifyNode_outcome g sr hp.2 (by omega)
    have hg : get b (some (ITree.node i l r).root) = .ok n := idx_eq_ok.2 h1
    have hv : verifyNode A hashOf b (g + 1) (some (ITree.node i l r).root) =
        (verifyNode A hashOf b g (some r.root)).bind fun x => (verifyNode A hashOf b g (some l.root)).bind fun y =>
          some (Hash.sha3256 A (y ++ x)) := by
      simp only [verifyNode, hg, Run.bind_ok, h2, h3, h4]
      rfl
    rw [hv]
    simp only [leaves, List.reverse_append, List.find?_append]
    cases hr : r.leaves.reverse.find? (fails hashOf b) with
    | some j =>
      have hj := List.find?_some hr
      rw [r1 j hr, bind_of_fails hashOf hj]
      exact ⟨fun k hk => by simp only [Option.some_or, Option.some.injEq] at hk; rw [hk], fun hk => by simp at hk⟩
    | none =>
      obtain ⟨x, hx⟩ := r2 hr
      rw [hx, Run.bind_ok]
      simp only [Option.none_or]
      cases hl : l.leaves.reverse.find? (fails hashOf b) with
      | some j =>
        have hj := List.find?_some hl
        rw [l1 j hl, bind_of_fails hashOf hj]
        exact ⟨fun k hk => by simp only [Option.some.injEq] at hk; rw [hk], fun hk => by simp at hk⟩
      | none =>
        obtain ⟨y, hy⟩ := l2 hl
        rw [hy, Run.bind_ok]
        exact ⟨fun k hk => by simp at hk, fun _ => ⟨_, by rw [sha_eq]⟩⟩

theorem find_last {β : Type} {P : β → Bool} {l1 l2 : List β} {i : β} (hi : P i = true) (h2 : ∀ j ∈ l2, P j = false) :
    (l1 ++ i :: l2).reverse.find? P = some i := by
  rw [List.reverse_append, List.reverse_cons, List.append_assoc, List.find?_append]
  have : l2.reverse.find? P = none := by
    rw [List.find?_eq_none]
    intro j hj
    rw [h2 j (List.mem_reverse.1 hj)]
    simp
  rw [this, Option.none_or]
  simp [hi]

/-- C88: if hashing some payloads fails, `VerifyTree` reports the failure of the last of them, whatever the stored hashes. -/
theorem C88_verifyTree (w : World α) (hw : Reachable A hashOf w) (t : Tree) (ht : t ∈ w.2) (b : Arena α) (hp : Pointers w.1 b)
    (mr : Bytes) (g : Nat) (hg : t.leaves.length ≤ g) (l1 l2 : List Nat) (i : Nat) (hl : t.leaves = l1 ++ i :: l2)
    (h2 : ∀ j ∈ l2, ∃ h, leafOutcome hashOf b j = .ok h) :
    (∀ e, leafOutcome hashOf b i = .err e → verifyTree A hashOf g { t with merkleRoot := mr } b = some (.err e)) ∧
    (leafOutcome hashOf b i = .panic → verifyTree A hashOf g { t with merkleRoot := mr } b = some .panic) := by
  obtain ⟨n0, ds, hs, T, hb⟩ := reachable_healthy A hashOf hw t ht
  have := height_le ds.length
  have h2' := hb.two
  have hll := hb.leaves_length
  obtain ⟨e, -⟩ := verifyNode_outcome A hashOf g (shape_pointers hp hb.shape) hb.perfect (by omega)
  rw [hb.order, hl] at e
  have h2'' : ∀ j ∈ l2, fails hashOf b j = false := by
    intro j hj
    obtain ⟨h, hh⟩ := h2 j hj
    simp [fails, hh]
  constructor
  · intro m hm
    have := e i (find_last (by simp [fails, hm]) h2'')
    simp only [verifyTree, hb.root, this, hm, Run.bind_err]
  · intro hm
    have := e i (find_last (by simp [fails, hm]) h2'')
    simp only [verifyTree, hb.root, this, hm, Run.bind_panic]

/-- C88: if all payloads can be hashed, `VerifyTree` does not fail, whatever the stored hashes. -/
theorem C88_verifyTree_ok (w : World α) (hw : Reachable A hashOf w) (t : Tree) (ht : t ∈ w.2) (b : Arena α) (hp : Pointers w.1 b)
    (mr : Bytes) (g : Nat) (hg : t.leaves.length ≤ g) (h : ∀ j ∈ t.leaves, ∃ h, leafOutcome hashOf b j = .ok h) :
    ∃ x, verifyTree A hashOf g { t with merkleRoot := mr } b = some (.ok x) := by
  obtain ⟨n0, ds, hs, T, hb⟩ := reachable_healthy A hashOf hw t ht
  have := height_le ds.length
  have h2' := hb.two
  have hll := hb.leaves_length
  obtain ⟨-, e⟩ := verifyNode_outcome A hashOf g (shape_pointers hp hb.shape) hb.perfect (by omega)
  rw [hb.order, List.find?_eq_none] at e
  obtain ⟨y, hy⟩ := e (fun j hj => by
    obtain ⟨x, hx⟩ := h j (List.mem_reverse.1 hj)
    simp [fails, hx])
  simp only [verifyTree, hb.root, hy, Run.bind_ok]
  exact ⟨_, rfl⟩

theorem leafLoop_fails (d : α) (l2 : List α) : ∀ (l1 : List α), (∀ x ∈ l1, ∃ h, hashOf x = .ok h) → ∀ a : Arena α,
    (∀ e, hashOf d = .err e → leafLoop hashOf a (l1 ++ d :: l2) = .err e) ∧
    (hashOf d = .panic → leafLoop hashOf a (l1 ++ d :: l2) = .panic)
  | [], _, a => ⟨fun e he => by simp [leafLoop, he], fun he => by simp [leafLoop, he]⟩
  | x :: l1, h, a => by
    obtain ⟨y, hy⟩ := h x (by simp)
    obtain ⟨i1, i2⟩ := leafLoop_fails d l2 l1 (fun z hz => h z (by simp [hz])) (a ++ [{ data := some x, hash := y, isLeaf := true }])
    exact ⟨fun e he => by simp [leafLoop, hy, i1 e he], fun he => by simp [leafLoop, hy, i2 he]⟩

/-- C88: `NewTree` reports the failure of the first payload that cannot be hashed. -/
theorem C88_newTree (f : Nat) (a : Arena α) (l1 l2 : List α) (d : α) (h1 : ∀ x ∈ l1, ∃ h, hashOf x = .ok h) :
    (∀ e, hashOf d = .err e → newTree A hashOf f (l1 ++ d :: l2) a = some (.err e)) ∧
    (hashOf d = .panic → newTree A hashOf f (l1 ++ d :: l2) a = some .panic) := by
  obtain ⟨k1, k2⟩ := leafLoop_fails hashOf d l2 l1 h1 a
  exact ⟨fun e he => by simp [newTree, create, k1 e he], fun he => by simp [newTree, create, k2 he]⟩

theorem leafLoop_hashable : ∀ (l : List α), (∀ x ∈ l, ∃ h, hashOf x = .ok h) → ∀ a : Arena α, ∃ r, leafLoop hashOf a l = .ok r
  | [], _, _ => ⟨_, rfl⟩
  | x :: l, h, a => by
    obtain ⟨y, hy⟩ := h x (by simp)
    obtain ⟨r, hr⟩ := leafLoop_hashable l (fun z hz => h z (by simp [hz])) (a ++ [{ data := some x, hash := y, isLeaf := true }])
    exact ⟨_, by simp [leafLoop, hy, hr]; rfl⟩

/-- C88: `RebuildTree` reports the failure of the first leaf whose payload cannot be hashed (a missing payload panics), and leaves the tree as
it was. This holds for any tree and any content of its leaves. -/
theorem C88_rebuild (f : Nat) (t : Tree) (a : Arena α) (l1 l2 : List Nat) (i : Nat) (hl : t.leaves = l1 ++ i :: l2)
    (ha : ∀ j ∈ t.leaves, j < a.length) (h1 : ∀ j ∈ l1, ∃ h, leafOutcome hashOf a j = .ok h) :
    (∀ e, leafOutcome hashOf a i = .err e → rebuildTree A hashOf f t a = some (.err e, t, a)) ∧
    (leafOutcome hashOf a i = .panic → rebuildTree A hashOf f t a = some (.panic, t, a)) := by
  have hm : mapRes (fun j => (idx a j).bind fun n => .ok n.data) t.leaves = .ok (t.leaves.map fun j => (a[j]?).bind Node.data) := by
    refine mapRes_ok _ _ _ ?_
    rw [List.forall₂_map_right_iff, List.forall₂_same]
    intro j hj
    have := ha j hj
    rw [idx_of_lt this, Res.bind_ok, List.getElem?_eq_getElem this, Option.bind_some]
  -- the payloads before
  obtain ⟨p1, e1, g1⟩ : ∃ p1 : List α, (l1.map fun j => (a[j]?).bind Node.data) = p1.map some ∧ ∀ x ∈ p1, ∃ h, hashOf x = .ok h := by
    clear hm hl
    induction l1 with
    | nil => exact ⟨[], rfl, by simp⟩
    | cons j l1 ih =>
      obtain ⟨p1, e1, g1⟩ := ih fun k hk => h1 k (by simp [hk])
      obtain ⟨h, hh⟩ := h1 j (by simp)
      unfold leafOutcome at hh
      cases hd : (a[j]?).bind Node.data with
      | none => rw [hd] at hh; cases hh
      | some d =>
        rw [hd] at hh
        refine ⟨d :: p1, by rw [List.map_cons, hd, e1]; rfl, ?_⟩
        intro x hx
        rcases List.mem_cons.1 hx with rfl | hx
        · exact ⟨h, hh⟩
        · exact g1 x hx
  have hds : t.leaves.map (fun j => (a[j]?).bind Node.data) =
      p1.map some ++ (a[i]?).bind Node.data :: l2.map fun j => (a[j]?).bind Node.data := by
    rw [hl, List.map_append, List.map_cons, e1]
  have htw : ∀ D : List (Option α), ((p1.map some ++ D).takeWhile Option.isSome).filterMap id =
      p1 ++ (D.takeWhile Option.isSome).filterMap id := by
    intro D
    clear hds e1 g1
    induction p1 with
    | nil => rfl
    | cons x p1 ih => simp
  unfold rebuildTree
  rw [hm, hds]
  simp only [htw]
  unfold leafOutcome
  cases hd : (a[i]?).bind Node.data with
  | none =>
    refine ⟨fun e h => absurd h (by simp), fun _ => ?_⟩
    obtain ⟨r, hr⟩ := leafLoop_hashable hashOf p1 g1 a
    simp [List.takeWhile_cons, hr]
  | some d =>
    rw [show ∀ D : List (Option α), ((some d :: D).takeWhile Option.isSome).filterMap id =
      d :: (D.takeWhile Option.isSome).filterMap id from fun _ => rfl]
    generalize ((l2.map fun j => (a[j]?).bind Node.data).takeWhile Option.isSome).filterMap id = rest
    obtain ⟨k1, k2⟩ := leafLoop_fails hashOf d rest p1 g1 a
    constructor
    · intro e he
      split_ifs
      · simp [rebuildTreeUsing, create, k1 e he]
      · simp [k1 e he]
    · intro he
      split_ifs
      · simp [rebuildTreeUsing, create, k2 he]
      · simp [k2 he]

/-- Three leaves: the first can be hashed, the second not, and the third has no payload; the error of the second is reported. -/
example : rebuildTree A (fun b : Bool => if b then .ok [1] else .err "no") 5 ⟨none, [], [0, 1, 2]⟩
    [{ data := some true, isLeaf := true }, { data := some false, isLeaf := true }, { isLeaf := true }] =
    some (.err "no", ⟨none, [], [0, 1, 2]⟩,
      [{ data := some true, isLeaf := true }, { data := some false, isLeaf := true }, { isLeaf := true }]) :=
  (C88_rebuild A (fun b : Bool => if b then .ok [1] else .err "no") 5 ⟨none, [], [0, 1, 2]⟩ _ [0] [2] 1 rfl (by simp)
    (by simp [leafOutcome])).1 "no" (by simp [leafOutcome])

/-- The hypotheses of `C88_verifyTree` can be met: a tree of four leaves whose last payload was set to nil. -/
example : ∃ (w : World Bytes) (t : Tree) (b : Arena Bytes), Reachable A demoHash w ∧ t ∈ w.2 ∧ t.leaves.length = 4 ∧
    verifyTree A demoHash 4 t w.1 = some (.ok true) ∧ verifyTree A demoHash 4 t b = some .panic := by
  obtain ⟨w, hw, -, t, ht, hl⟩ := demo_world A
  obtain ⟨n0, ds, hs, T, hb⟩ := reachable_healthy A demoHash hw t ht
  have hne : t.leaves ≠ [] := by intro h; rw [h] at hl; simp at hl
  have hi : t.leaves.getLast hne ∈ t.leaves := List.getLast_mem hne
  obtain ⟨n, d, h1, h2, h3⟩ := hb.leafHash A demoHash _ ((hb.mem _).2 hi)
  have hlt := (List.getElem?_eq_some_iff.1 h1).1
  refine ⟨w, t, w.1.set (t.leaves.getLast hne) { n with data := none }, hw, ht, hl, C06_history_verifies A demoHash w hw t ht 4 (by omega), ?_⟩
  refine (C88_verifyTree A demoHash w hw t ht _ ?_ t.merkleRoot 4 (by omega) t.leaves.dropLast [] _
    (List.dropLast_append_getLast hne).symm (by simp)).2 ?_
  · intro k nk hk
    rw [List.getElem?_set]
    split_ifs with h h'
    · subst h; rw [h1, Option.some.injEq] at hk; subst hk; exact ⟨_, rfl, rfl, rfl, rfl, rfl⟩
    · exact ⟨nk, hk, rfl, rfl, rfl, rfl⟩
  · simp [leafOutcome, List.getElem?_set, hlt]

end Dusk.Merkle
