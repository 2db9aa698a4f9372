import Verif.Lemmas.MerkleTree
/-!
# Verification on an arbitrary arena with the pointers of a built tree
-/

namespace Dusk.Merkle

open ITree

variable {α : Type} (A : Hash.Algs) (hashOf : α → Res Bytes)

/-- The payload of node `i` hashes to `φ i`. -/
def LeafHash (b : Arena α) (φ : Nat → Bytes) (i : Nat) : Prop :=
  ∃ n d, b[i]? = some n ∧ n.data = some d ∧ hashOf d = .ok (φ i)

/-- The ancestor of node `i` reached by `k` steps along `Parent`. -/
def anc (b : Arena α) : Nat → Nat → Option Nat
  | 0, i => some i
  | k + 1, i => (anc b k i).bind fun j => b[j]?.bind Node.parent

/-- The hash of node `i` recomputed one level deep: from the payload (whose hash is `φ i`) for a leaf, from the
stored hashes of the children otherwise. -/
def shallow (b : Arena α) (φ : Nat → Bytes) (i : Nat) : Bytes :=
  match b[i]? with
  | none => []
  | some n =>
    if n.isLeaf then φ i
    else A.sha3_256 (((n.left.map (storedHash b)).getD []) ++ ((n.right.map (storedHash b)).getD []))

/-- The stored hash of the interior node `j` is the hash of its children's recomputed hashes. -/
def NodeOk (b : Arena α) (φ : Nat → Bytes) (j : Nat) : Prop :=
  ∃ n l r, b[j]? = some n ∧ n.left = some l ∧ n.right = some r ∧
    A.sha3_256 (shallow A b φ l ++ shallow A b φ r) = n.hash

theorem verifyNode_ok {b : Arena α} {φ : Nat → Bytes} : ∀ {t : ITree} {p : Option Nat} {d : Nat} (f : Nat), Shape b p t →
    t.Perfect d → (∀ i ∈ t.leaves, LeafHash hashOf b φ i) → d + 1 ≤ f →
    verifyNode A hashOf b f (some t.root) = some (.ok (t.eval A.sha3_256 φ))
  | .leaf i, p, 0, f, hs, _, hl, hf => by
    obtain ⟨g, rfl⟩ : ∃ g, f = g + 1 := ⟨f - 1, by omega⟩
    obtain ⟨n, h1, h2, -⟩ := hs
    obtain ⟨n', d, g1, g2, g3⟩ := hl i (by simp [leaves])
    rw [h1, Option.some.injEq] at g1
    subst g1
    have : get b (some (ITree.leaf i).root) = .ok n := idx_eq_ok.2 h1
    simp only [verifyNode, this, Run.bind_ok, h2, if_true, g2, calcData, g3, eval]
  | .leaf i, p, d + 1, f, hs, hp, hl, hf => by cases hp
  | .node i l r, p, 0, f, hs, hp, hl, hf => by cases hp
  | .node i l r, p, d + 1, f, hs, hp, hl, hf => by
    obtain ⟨g, rfl⟩ : ∃ g, f = g + 1 := ⟨f - 1, by omega⟩
    obtain ⟨⟨n, h1, h2, -, h3, h4⟩, -, sl, sr⟩ := hs
    have e1 := verifyNode_ok g sl hp.1 (fun i hi => hl i (by simp [leaves, hi])) (by omega)
    have e2 := verifyNode_ok g sr hp.2 (fun i hi => hl i (by simp [leaves, hi])) (by omega)
    have : get b (some (ITree.node i l r).root) = .ok n := idx_eq_ok.2 h1
    simp only [verifyNode, this, Run.bind_ok, h2, h3, h4, e1, e2, sha_eq, eval]
    rfl

theorem shape_root {b : Arena α} {t : ITree} {p : Option Nat} (h : Shape b p t) :
    ∃ n, b[t.root]? = some n ∧ n.parent = p := by
  cases t with
  | leaf i => obtain ⟨n, h1, -, h2⟩ := h; exact ⟨n, h1, h2⟩
  | node i l r => obtain ⟨⟨n, h1, -, h2, -⟩, -⟩ := h; exact ⟨n, h1, h2⟩

theorem calculateNodeHash_ok {b : Arena α} {φ : Nat → Bytes} {t : ITree} {p : Option Nat} (hs : Shape b p t)
    (hl : ∀ i ∈ t.leaves, LeafHash hashOf b φ i) :
    calculateNodeHash A hashOf b (some t.root) = .ok (shallow A b φ t.root) := by
  cases t with
  | leaf i =>
    obtain ⟨n, h1, h2, -⟩ := hs
    obtain ⟨n', d, g1, g2, g3⟩ := hl i (by simp [leaves])
    rw [h1, Option.some.injEq] at g1
    subst g1
    have : get b (some (ITree.leaf i).root) = .ok n := idx_eq_ok.2 h1
    simp only [calculateNodeHash, this, Res.bind_ok, h2, if_true, g2, calcData, g3, shallow, show b[(ITree.leaf i).root]? = some n from h1]
    rfl
  | node i l r =>
    obtain ⟨⟨n, h1, h2, -, h3, h4⟩, -, sl, sr⟩ := hs
    have : get b (some (ITree.node i l r).root) = .ok n := idx_eq_ok.2 h1
    obtain ⟨nl, el, -⟩ := shape_root sl
    obtain ⟨nr, er, -⟩ := shape_root sr
    have el' : get b (some l.root) = .ok nl := idx_eq_ok.2 el
    have er' : get b (some r.root) = .ok nr := idx_eq_ok.2 er
    simp only [calculateNodeHash, this, Res.bind_ok, h2, h3, h4, el', er', sha_eq, shallow,
      show b[(ITree.node i l r).root]? = some n from h1,
      storedHash, el, er, Option.map_some, Option.getD_some]
    rfl

theorem shape_leaf_parent {b : Arena α} : ∀ {t : ITree} {p : Option Nat}, Shape b p t → ∀ i ∈ t.leaves, ∃ n, b[i]? = some n
  | .leaf i, p, hs, k, hk => by
    simp only [leaves, List.mem_singleton] at hk
    subst hk
    obtain ⟨n, h, -⟩ := hs
    exact ⟨n, h⟩
  | .node i l r, p, hs, k, hk => by
    simp only [leaves, List.mem_append] at hk
    rcases hk with hk | hk
    · exact shape_leaf_parent hs.2.2.1 k hk
    · exact shape_leaf_parent hs.2.2.2 k hk

open Classical in
/-- Walking up from a leaf of `t` checks every ancestor inside `t` and then goes on at the parent of `t`. -/
theorem walk_ok {b : Arena α} {φ : Nat → Bytes} : ∀ {t : ITree} {p : Option Nat} {d : Nat}, Shape b p t →
    t.Perfect d → (∀ i ∈ t.leaves, LeafHash hashOf b φ i) → ∀ i ∈ t.leaves,
    anc b d i = some t.root ∧ ∃ n, b[i]? = some n ∧ ∀ f, walk A hashOf b (d + f) n.parent =
      if (∀ k, k < d → ∃ j, anc b (k + 1) i = some j ∧ NodeOk A b φ j) then walk A hashOf b f p else some (.ok false)
  | .leaf i, p, 0, hs, _, hl, k, hk => by
    simp only [leaves, List.mem_singleton] at hk
    subst hk
    obtain ⟨n, h, -, hp⟩ := hs
    refine ⟨rfl, n, h, fun f => ?_⟩
    rw [if_pos (by intro k hk; omega), Nat.zero_add, hp]
  | .leaf i, p, d + 1, hs, hp, _, _, _ => by cases hp
  | .node i l r, p, 0, hs, hp, _, _, _ => by cases hp
  | .node j l r, p, d + 1, hs, hp, hl, i, hi => by
    obtain ⟨⟨n, h1, h2, h0, h3, h4⟩, -, sl, sr⟩ := hs
    have hll : ∀ i ∈ l.leaves, LeafHash hashOf b φ i := fun i hi => hl i (by simp [leaves, hi])
    have hlr : ∀ i ∈ r.leaves, LeafHash hashOf b φ i := fun i hi => hl i (by simp [leaves, hi])
    have key : ∃ c : ITree, Shape b (some j) c ∧ anc b d i = some c.root ∧ ∃ n, b[i]? = some n ∧
        ∀ f, walk A hashOf b (d + f) n.parent =
          if (∀ k, k < d → ∃ j, anc b (k + 1) i = some j ∧ NodeOk A b φ j) then walk A hashOf b f (some j)
          else some (.ok false) := by
      simp only [leaves, List.mem_append] at hi
      rcases hi with hi | hi
      · exact ⟨l, sl, walk_ok sl hp.1 hll i hi⟩
      · exact ⟨r, sr, walk_ok sr hp.2 hlr i hi⟩
    obtain ⟨c, hc, hanc, m, hm, hw⟩ := key
    obtain ⟨nc, ec, epc⟩ := shape_root hc
    have hanc' : anc b (d + 1) i = some j := by
      simp only [anc, hanc, Option.bind_some, ec, epc]
    refine ⟨hanc', m, hm, fun f => ?_⟩
    have e1 := calculateNodeHash_ok A hashOf sl hll
    have e2 := calculateNodeHash_ok A hashOf sr hlr
    have hstep : walk A hashOf b (f + 1) (some j) =
        if A.sha3_256 (shallow A b φ l.root ++ shallow A b φ r.root) ≠ n.hash then some (.ok false)
        else walk A hashOf b f p := by
      simp only [walk, idx_eq_ok.2 h1, Run.bind_ok, h3, h4, e1, e2, sha_eq, h0]
    have hok : NodeOk A b φ j ↔ A.sha3_256 (shallow A b φ l.root ++ shallow A b φ r.root) = n.hash := by
      constructor
      · rintro ⟨n', l', r', g1, g2, g3, g4⟩
        rw [h1, Option.some.injEq] at g1
        subst g1
        rw [h3, Option.some.injEq] at g2
        rw [h4, Option.some.injEq] at g3
        rw [g2, g3]
        exact g4
      · intro g
        exact ⟨n, l.root, r.root, h1, h3, h4, g⟩
    rw [show d + 1 + f = d + (f + 1) by omega, hw (f + 1), hstep]
    by_cases hall : ∀ k, k < d → ∃ j, anc b (k + 1) i = some j ∧ NodeOk A b φ j
    · rw [if_pos hall]
      by_cases hj : A.sha3_256 (shallow A b φ l.root ++ shallow A b φ r.root) = n.hash
      · rw [if_neg (not_not_intro hj), if_pos]
        intro k hk
        by_cases hkd : k < d
        · exact hall k hkd
        · have : k = d := by omega
          subst this
          exact ⟨j, hanc', hok.2 hj⟩
      · rw [if_pos hj, if_neg]
        intro hc
        obtain ⟨j', g1, g2⟩ := hc d (by omega)
        rw [hanc', Option.some.injEq] at g1
        subst g1
        exact hj (hok.1 g2)
    · rw [if_neg hall, if_neg]
      intro hc
      exact hall fun k hk => hc k (by omega)

/-- In a tree with correct hashes, recomputing one level deep gives the stored value. -/
theorem shallow_of_hashed {b : Arena α} {φ : Nat → Bytes} {t : ITree} {p : Option Nat} (hs : Shape b p t)
    (hh : Hashed A.sha3_256 b φ t) : shallow A b φ t.root = t.eval A.sha3_256 φ := by
  cases t with
  | leaf i =>
    obtain ⟨n, h1, h2, -⟩ := hs
    simp only [shallow, show b[(ITree.leaf i).root]? = some n from h1, h2, if_true, eval]
    rfl
  | node i l r =>
    obtain ⟨⟨n, h1, h2, -, h3, h4⟩, -, sl, sr⟩ := hs
    obtain ⟨nl, el, gl⟩ := hashed_root hh.2.1
    obtain ⟨nr, er, gr⟩ := hashed_root hh.2.2
    simp only [shallow, show b[(ITree.node i l r).root]? = some n from h1, h2, h3, h4, storedHash, Option.map_some, Option.getD_some, el, er, gl, gr, eval]
    rfl

/-- All ancestors inside a tree with correct hashes pass their check. -/
theorem nodeOk_of_hashed {b : Arena α} {φ : Nat → Bytes} : ∀ {t : ITree} {p : Option Nat} {d : Nat}, Shape b p t →
    t.Perfect d → Hashed A.sha3_256 b φ t → ∀ i ∈ t.leaves, anc b d i = some t.root ∧
      ∀ k, k < d → ∃ j, anc b (k + 1) i = some j ∧ NodeOk A b φ j
  | .leaf i, p, 0, hs, _, _, k, hk => by
    simp only [leaves, List.mem_singleton] at hk
    subst hk
    exact ⟨rfl, fun k hk => by omega⟩
  | .leaf i, p, d + 1, hs, hp, _, _, _ => by cases hp
  | .node i l r, p, 0, hs, hp, _, _, _ => by cases hp
  | .node j l r, p, d + 1, hs, hp, hh, i, hi => by
    obtain ⟨⟨n, h1, h2, h0, h3, h4⟩, -, sl, sr⟩ := hs
    obtain ⟨⟨n', g1, g2⟩, hl, hr⟩ := hh
    rw [h1, Option.some.injEq] at g1
    subst g1
    have hok : NodeOk A b φ j :=
      ⟨n, l.root, r.root, h1, h3, h4, by rw [shallow_of_hashed A sl hl, shallow_of_hashed A sr hr, g2]⟩
    have key : ∃ c : ITree, Shape b (some j) c ∧ anc b d i = some c.root ∧
        ∀ k, k < d → ∃ j, anc b (k + 1) i = some j ∧ NodeOk A b φ j := by
      simp only [leaves, List.mem_append] at hi
      rcases hi with hi | hi
      · exact ⟨l, sl, nodeOk_of_hashed sl hp.1 hl i hi⟩
      · exact ⟨r, sr, nodeOk_of_hashed sr hp.2 hr i hi⟩
    obtain ⟨c, hc, hanc, hk⟩ := key
    obtain ⟨nc, ec, epc⟩ := shape_root hc
    have hanc' : anc b (d + 1) i = some j := by
      simp only [anc, hanc, Option.bind_some, ec, epc]
    refine ⟨hanc', fun k hkd => ?_⟩
    by_cases hkd' : k < d
    · exact hk k hkd'
    · have : k = d := by omega
      subst this
      exact ⟨j, hanc', hok⟩

/-! ## The loop of `VerifyContent` -/

theorem contentLoop_skip {b : Arena α} {φ : Nat → Bytes} {d : α} {h : Bytes} (hd : hashOf d = .ok h) (f : Nat) :
    ∀ is : List Nat, (∀ i ∈ is, LeafHash hashOf b φ i ∧ φ i ≠ h) → ∀ is',
    contentLoop A hashOf f b d (is ++ is') = contentLoop A hashOf f b d is'
  | [], _, is' => rfl
  | i :: is, hi, is' => by
    obtain ⟨⟨n, x, h1, h2, h3⟩, hne⟩ := hi i (by simp)
    simp only [List.cons_append, contentLoop, idx_eq_ok.2 h1, Run.bind_ok, equals, h2, calcData, h3, Res.bind_ok, hd,
      decide_eq_true_eq, if_neg hne]
    exact contentLoop_skip hd f is (fun i hi' => hi i (by simp [hi'])) is'

theorem contentLoop_hit {b : Arena α} {φ : Nat → Bytes} {d : α} {h : Bytes} (hd : hashOf d = .ok h) (f : Nat)
    {i : Nat} (hi : LeafHash hashOf b φ i) (he : φ i = h) {n : Node α} (hn : b[i]? = some n) (is : List Nat) :
    contentLoop A hashOf f b d (i :: is) = walk A hashOf b f n.parent := by
  obtain ⟨n', x, h1, h2, h3⟩ := hi
  rw [hn, Option.some.injEq] at h1
  subst h1
  simp only [contentLoop, idx_eq_ok.2 hn, Run.bind_ok, equals, h2, calcData, h3, Res.bind_ok, hd, he,
    decide_true, if_true]

end Dusk.Merkle
