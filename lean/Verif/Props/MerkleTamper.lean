import Verif.Props.Merkle
/-!
# Merkle trees: membership, binding, shape, tampering (C07, C08, C10, C11, C12)
-/

namespace Dusk.Merkle

open ITree

set_option linter.unusedSectionVars false

variable {α : Type} (A : Hash.Algs) (hashOf : α → Res Bytes)

/-! ## Subtrees along a path -/

theorem anc_subtree {b : Arena α} : ∀ {t : ITree} {p : Option Nat} {d : Nat}, Shape b p t → t.Perfect d →
    ∀ i ∈ t.leaves, ∀ k, k ≤ d → ∃ c q, anc b k i = some c.root ∧ Shape b q c ∧ c.Perfect k ∧ i ∈ c.leaves ∧
      (∀ x ∈ c.leaves, x ∈ t.leaves) ∧ ∀ φ, Hashed A.sha3_256 b φ t → Hashed A.sha3_256 b φ c
  | .leaf i, p, 0, hs, hp, x, hx, k, hk => by
    obtain rfl : k = 0 := by omega
    simp only [leaves, List.mem_singleton] at hx
    subst hx
    exact ⟨.leaf x, p, rfl, hs, hp, by simp [leaves], fun _ h => h, fun _ h => h⟩
  | .leaf i, p, d + 1, hs, hp, _, _, _, _ => by cases hp
  | .node i l r, p, 0, hs, hp, _, _, _, _ => by cases hp
  | .node j l r, p, d + 1, hs, hp, i, hi, k, hk => by
    have hs' := hs
    obtain ⟨⟨n, h1, h2, h0, h3, h4⟩, -, sl, sr⟩ := hs'
    have key : ∃ u : ITree, Shape b (some j) u ∧ u.Perfect d ∧ i ∈ u.leaves ∧ (∀ x ∈ u.leaves, x ∈ (node j l r).leaves) ∧
        (∀ φ, Hashed A.sha3_256 b φ (node j l r) → Hashed A.sha3_256 b φ u) ∧
        ∀ k, k ≤ d → ∃ c q, anc b k i = some c.root ∧ Shape b q c ∧ c.Perfect k ∧ i ∈ c.leaves ∧
      (∀ x ∈ c.leaves, x ∈ u.leaves) ∧ ∀ φ, Hashed A.sha3_256 b φ u → Hashed A.sha3_256 b φ c := by
      have hi' := hi
      simp only [leaves, List.mem_append] at hi'
      rcases hi' with hi' | hi'
      · exact ⟨l, sl, hp.1, hi', fun x hx => by simp [leaves, hx], fun φ h => h.2.1,
          fun k hk => anc_subtree sl hp.1 i hi' k hk⟩
      · exact ⟨r, sr, hp.2, hi', fun x hx => by simp [leaves, hx], fun φ h => h.2.2,
          fun k hk => anc_subtree sr hp.2 i hi' k hk⟩
    obtain ⟨u, su, pu, iu, subu, hu, ih⟩ := key
    by_cases hkd : k ≤ d
    · obtain ⟨c, q, g1, g2, g3, g4, g5, g6⟩ := ih k hkd
      exact ⟨c, q, g1, g2, g3, g4, fun x hx => subu x (g5 x hx), fun φ h => g6 φ (hu φ h)⟩
    · obtain rfl : k = d + 1 := by omega
      refine ⟨node j l r, p, ?_, hs, hp, hi, fun _ h => h, fun _ h => h⟩
      obtain ⟨c, q, g1, g2, g3, g4, g5, g6⟩ := ih d (le_refl _)
      have : anc b d i = some u.root := by
        obtain ⟨h, -⟩ := walk_anc su pu i iu
        exact h
      obtain ⟨nu, eu, pu'⟩ := shape_root su
      simp only [anc, this, Option.bind_some, eu, pu']
      rfl
where
  walk_anc {b : Arena α} : ∀ {t : ITree} {p : Option Nat} {d : Nat}, Shape b p t → t.Perfect d →
      ∀ i ∈ t.leaves, anc b d i = some t.root ∧ True
    | .leaf i, p, 0, hs, hp, x, hx => by
      simp only [leaves, List.mem_singleton] at hx
      subst hx
      exact ⟨rfl, trivial⟩
    | .leaf i, p, d + 1, hs, hp, _, _ => by cases hp
    | .node i l r, p, 0, hs, hp, _, _ => by cases hp
    | .node j l r, p, d + 1, hs, hp, i, hi => by
      obtain ⟨-, -, sl, sr⟩ := hs
      have key : ∃ u : ITree, Shape b (some j) u ∧ anc b d i = some u.root := by
        simp only [leaves, List.mem_append] at hi
        rcases hi with hi | hi
        · exact ⟨l, sl, (walk_anc sl hp.1 i hi).1⟩
        · exact ⟨r, sr, (walk_anc sr hp.2 i hi).1⟩
      obtain ⟨u, su, h⟩ := key
      obtain ⟨nu, eu, pu'⟩ := shape_root su
      refine ⟨?_, trivial⟩
      simp only [anc, h, Option.bind_some, eu, pu']
      rfl

/-- The pointers of `a` are also in `b`; payloads, stored hashes and duplicate marks may differ. -/
def Pointers (a b : Arena α) : Prop :=
  ∀ (i : Nat) (n : Node α), a[i]? = some n → ∃ n', b[i]? = some n' ∧ n'.parent = n.parent ∧ n'.left = n.left ∧
    n'.right = n.right ∧ n'.isLeaf = n.isLeaf

theorem shape_pointers {a b : Arena α} (h : Pointers a b) : ∀ {t : ITree} {p : Option Nat}, Shape a p t → Shape b p t
  | .leaf i, p, ⟨n, h1, h2, h3⟩ => by
    obtain ⟨n', g1, g2, g3, g4, g5⟩ := h i n h1
    exact ⟨n', g1, by rw [g5, h2], by rw [g2, h3]⟩
  | .node i l r, p, ⟨⟨n, h1, h2, h3, h4, h5⟩, ho, hl, hr⟩ => by
    obtain ⟨n', g1, g2, g3, g4, g5⟩ := h i n h1
    exact ⟨⟨n', g1, by rw [g5, h2], by rw [g2, h3], by rw [g3, h4], by rw [g4, h5]⟩, ho, shape_pointers h hl,
      shape_pointers h hr⟩

theorem anc_pointers {a b : Arena α} (h : Pointers a b) : ∀ (k i j : Nat), anc a k i = some j → anc b k i = some j
  | 0, i, j, e => e
  | k + 1, i, j, e => by
    simp only [anc] at e ⊢
    cases e1 : anc a k i with
    | none => rw [e1] at e; simp at e
    | some x =>
      rw [anc_pointers h k i x e1]
      rw [e1, Option.bind_some] at e
      rw [Option.bind_some]
      cases e2 : a[x]? with
      | none => rw [e2] at e; simp at e
      | some n =>
        obtain ⟨n', g1, g2, -⟩ := h x n e2
        rw [e2, Option.bind_some] at e
        rw [g1, Option.bind_some, g2, e]

/-! ## C12 -/

/-- C12: on memory with the pointers of a tree built by the package, but with arbitrary stored hashes, arbitrary
payloads (whose hashes are `φ`) and an arbitrary `MerkleRoot`, `VerifyTree` returns true exactly when `MerkleRoot` is
the textbook root of the current payload hashes. Stored hashes are irrelevant. -/
theorem C12_verifyTree (w : World α) (hw : Reachable A hashOf w) (t : Tree) (ht : t ∈ w.2) (b : Arena α)
    (hp : Pointers w.1 b) (φ : Nat → Bytes) (hφ : ∀ i ∈ t.leaves, LeafHash hashOf b φ i) (mr : Bytes) (g : Nat)
    (hg : t.leaves.length ≤ g) :
    verifyTree A hashOf g { t with merkleRoot := mr } b =
      some (.ok (decide (mr = Spec.root A.sha3_256 (t.leaves.map φ)))) := by
  obtain ⟨n0, ds, hs, T, hb⟩ := reachable_healthy A hashOf hw t ht
  have := height_le ds.length
  have h2 := hb.two
  have hl := hb.leaves_length
  have e := verifyNode_ok A hashOf g (shape_pointers hp hb.shape) hb.perfect (fun i hi => hφ i ((hb.mem i).1 hi)) (by omega)
  simp only [verifyTree, hb.root, e, Run.bind_ok, hb.eval]
  rw [rounds_eq_root _ _ (by simp; omega)]

/-- C12: hence a change of the payloads that alters the recomputed root is reported, for any stored hashes. -/
theorem C12_payload_change_reported (w : World α) (hw : Reachable A hashOf w) (t : Tree) (ht : t ∈ w.2) (b : Arena α)
    (hp : Pointers w.1 b) (φ : Nat → Bytes) (hφ : ∀ i ∈ t.leaves, LeafHash hashOf b φ i)
    (hne : Spec.root A.sha3_256 (t.leaves.map φ) ≠ t.merkleRoot) (g : Nat) (hg : t.leaves.length ≤ g) :
    verifyTree A hashOf g t b = some (.ok false) := by
  have := C12_verifyTree A hashOf w hw t ht b hp φ hφ t.merkleRoot g hg
  rw [decide_eq_false (fun h => hne h.symm)] at this
  exact this

/-- C12: a change of stored hashes alone is never reported by `VerifyTree`. -/
theorem C12_stored_hashes_unread (w : World α) (hw : Reachable A hashOf w) (t : Tree) (ht : t ∈ w.2) (b : Arena α)
    (hp : Pointers w.1 b) (hd : ∀ i ∈ t.leaves, (b[i]?).bind Node.data = (w.1[i]?).bind Node.data) (g : Nat)
    (hg : t.leaves.length ≤ g) :
    verifyTree A hashOf g t b = some (.ok true) := by
  obtain ⟨n0, ds, hs, T, hb⟩ := reachable_healthy A hashOf hw t ht
  have hφ : ∀ i ∈ t.leaves, LeafHash hashOf b (storedHash w.1) i := by
    intro i hi
    obtain ⟨n, d, h1, h2, h3⟩ := hb.leafHash A hashOf i ((hb.mem i).2 hi)
    obtain ⟨n', g1, -⟩ := hp i n h1
    have := hd i hi
    rw [h1, g1, Option.bind_some, Option.bind_some, h2] at this
    exact ⟨n', d, g1, this, h3⟩
  have h2 := hb.two
  have := C12_verifyTree A hashOf w hw t ht b hp _ hφ t.merkleRoot g hg
  rw [hb.map_hash, decide_eq_true (by rw [hb.merkleRoot, rounds_eq_root _ _ (by have := hb.hashes.length_eq; omega)])] at this
  exact this

/-- C12: the answer of `VerifyContent` on such memory. It looks at the first leaf `i` whose payload hashes like the
queried one and returns true exactly when every proper ancestor `j` of `i` stores the hash of its children's
hashes, each recomputed one level deep. -/
theorem C12_verifyContent (w : World α) (hw : Reachable A hashOf w) (t : Tree) (ht : t ∈ w.2) (b : Arena α)
    (hp : Pointers w.1 b) (φ : Nat → Bytes) (hφ : ∀ i ∈ t.leaves, LeafHash hashOf b φ i) (d : α)
    (pre post : List Nat) (i : Nat) (hi : t.leaves = pre ++ i :: post) (hd : hashOf d = .ok (φ i))
    (hfirst : ∀ j ∈ pre, φ j ≠ φ i) (g : Nat) (hg : t.leaves.length ≤ g) :
    ∃ r, verifyContent A hashOf g t d b = some (.ok r) ∧
      (r = true ↔ ∀ m, 1 ≤ m → m ≤ Nat.clog 2 t.leaves.length → ∃ j, anc b m i = some j ∧ NodeOk A b φ j) := by
  classical
  obtain ⟨n0, ds, hs, T, hb⟩ := reachable_healthy A hashOf hw t ht
  have hle := height_le ds.length
  have h2 := hb.two
  have hl := hb.leaves_length
  have hmem : i ∈ t.leaves := by rw [hi]; simp
  obtain ⟨-, n, hn, hwalk⟩ := walk_ok A hashOf (shape_pointers hp hb.shape) hb.perfect
    (fun i hi => hφ i ((hb.mem i).1 hi)) i ((hb.mem i).2 hmem)
  have e := hwalk (g - Spec.height ds.length)
  rw [show Spec.height ds.length + (g - Spec.height ds.length) = g by omega] at e
  rw [verifyContent, hi, contentLoop_skip A hashOf hd g pre (fun j hj => ⟨hφ j (by rw [hi]; simp [hj]), hfirst j hj⟩),
    contentLoop_hit A hashOf hd g (hφ i hmem) rfl hn, e]
  have hc : (∀ k, k < Spec.height ds.length → ∃ j, anc b (k + 1) i = some j ∧ NodeOk A b φ j) ↔
      ∀ m, 1 ≤ m → m ≤ Nat.clog 2 t.leaves.length → ∃ j, anc b m i = some j ∧ NodeOk A b φ j := by
    rw [hl, ← height_clog]
    constructor
    · intro h m hm hm'
      obtain ⟨m, rfl⟩ : ∃ k, m = k + 1 := ⟨m - 1, by omega⟩
      exact h m (by omega)
    · intro h k hk
      exact h (k + 1) (by omega) (by omega)
  rw [← hi, ← hc]
  by_cases hall : ∀ k, k < Spec.height ds.length → ∃ j, anc b (k + 1) i = some j ∧ NodeOk A b φ j
  · rw [if_pos hall]
    exact ⟨true, by simp [walk], by simpa using hall⟩
  · rw [if_neg hall]
    exact ⟨false, rfl, by simpa using hall⟩

/-- C12: without such a leaf the answer is false. -/
theorem C12_verifyContent_absent (t : Tree) (b : Arena α) (φ : Nat → Bytes) (hφ : ∀ i ∈ t.leaves, LeafHash hashOf b φ i)
    (d : α) (h : Bytes) (hd : hashOf d = .ok h) (hab : ∀ i ∈ t.leaves, φ i ≠ h) (g : Nat) :
    verifyContent A hashOf g t d b = some (.ok false) := by
  have := contentLoop_skip A hashOf hd g t.leaves (fun i hi => ⟨hφ i hi, hab i hi⟩) []
  rw [List.append_nil] at this
  exact this

/-- C12: `VerifyContent` never reads `MerkleRoot` (nor `Root`): whatever they are, the answer is the same. -/
theorem C12_merkleRoot_unread (t t' : Tree) (hl : t'.leaves = t.leaves) (d : α) (b : Arena α) (g : Nat) :
    verifyContent A hashOf g t' d b = verifyContent A hashOf g t d b := by
  rw [verifyContent, verifyContent, hl]

theorem shallow_congr {a b : Arena α} (φ : Nat → Bytes) {c : ITree} {q : Option Nat} (hs : Shape a q c)
    (h : ∀ k ∈ c.ids, b[k]? = a[k]?) : shallow A b φ c.root = shallow A a φ c.root := by
  cases c with
  | leaf i =>
    simp only [shallow, h _ (root_mem_ids _)]
    obtain ⟨n, h1, h2, -⟩ := hs
    simp [ITree.root, h1, h2]
  | node i l r =>
    obtain ⟨⟨n, h1, h2, -, h3, h4⟩, -, -, -⟩ := hs
    have el : storedHash b l.root = storedHash a l.root := by
      rw [storedHash, storedHash, h _ (by simp [ids, root_mem_ids])]
    have er : storedHash b r.root = storedHash a r.root := by
      rw [storedHash, storedHash, h _ (by simp [ids, root_mem_ids])]
    have e1 : a[(node i l r).root]? = some n := h1
    simp only [shallow, h _ (root_mem_ids _), e1, h2, h3, h4, Option.map_some, Option.getD_some, el, er]

/-- C12: a changed stored hash on the path of the queried payload is reported: if the `m`-th ancestor of the leaf
gets any other hash, `VerifyContent` returns false. -/
theorem C12_path_hash_reported (w : World α) (hw : Reachable A hashOf w) (t : Tree) (ht : t ∈ w.2) (d : α)
    (pre post : List Nat) (i : Nat) (hi : t.leaves = pre ++ i :: post) (hd : hashOf d = .ok (storedHash w.1 i))
    (hfirst : ∀ j ∈ pre, storedHash w.1 j ≠ storedHash w.1 i) (m j : Nat) (hm : 1 ≤ m)
    (hm' : m ≤ Nat.clog 2 t.leaves.length) (hj : anc w.1 m i = some j) (n : Node α) (hn : w.1[j]? = some n)
    (x : Bytes) (hx : x ≠ n.hash) (g : Nat) (hg : t.leaves.length ≤ g) :
    verifyContent A hashOf g t d (w.1.set j { n with hash := x }) = some (.ok false) := by
  obtain ⟨n0, ds, hs, T, hb⟩ := reachable_healthy A hashOf hw t ht
  have hjl := (List.getElem?_eq_some_iff.1 hn).1
  have hget : ∀ k, (w.1.set j { n with hash := x })[k]? = if j = k then some { n with hash := x } else w.1[k]? := by
    intro k
    rw [List.getElem?_set]
    split_ifs with h
    · rfl
    · rfl
  generalize hbb : w.1.set j { n with hash := x } = b at hget
  have hp : Pointers w.1 b := by
    intro k nk hk
    rw [hget]
    split_ifs with h
    · subst h
      rw [hn, Option.some.injEq] at hk
      subst hk
      exact ⟨_, rfl, rfl, rfl, rfl, rfl⟩
    · exact ⟨nk, hk, rfl, rfl, rfl, rfl⟩
  have hφ : ∀ i ∈ t.leaves, LeafHash hashOf b (storedHash w.1) i := by
    intro k hk
    obtain ⟨nk, dk, h1, h2, h3⟩ := hb.leafHash A hashOf k ((hb.mem k).2 hk)
    by_cases h : j = k
    · subst h
      rw [hn, Option.some.injEq] at h1
      subst h1
      exact ⟨{ n with hash := x }, dk, by rw [hget, if_pos rfl], h2, h3⟩
    · exact ⟨nk, dk, by rw [hget, if_neg h, h1], h2, h3⟩
  obtain ⟨r, e, hr⟩ := C12_verifyContent A hashOf w hw t ht b hp _ hφ d pre post i hi hd hfirst g hg
  rw [e]
  cases r with
  | false => rfl
  | true =>
    exfalso
    obtain ⟨j', hj', n', l, rr, p1, p2, p3, p4⟩ := hr.1 rfl m hm hm'
    rw [anc_pointers hp m i j hj, Option.some.injEq] at hj'
    subst hj'
    have hmem : i ∈ T.leaves := (hb.mem i).2 (by rw [hi]; simp)
    have hmd : m ≤ Spec.height ds.length := by rw [height_clog, ← hb.leaves_length]; exact hm'
    obtain ⟨c, q, c1, c2, c3, -, -, c4⟩ := anc_subtree A hb.shape hb.perfect i hmem m hmd
    rw [hj, Option.some.injEq] at c1
    have hc := c4 _ hb.hashed
    cases c with
    | leaf k =>
      obtain ⟨m, rfl⟩ : ∃ k, m = k + 1 := ⟨m - 1, by omega⟩
      cases c3
    | node k cl cr =>
      obtain rfl : j = k := c1
      obtain ⟨⟨n1, q1, -, -, q2, q3⟩, ho, sl, sr⟩ := c2
      obtain ⟨⟨n2, q4, q5⟩, hl, hr'⟩ := hc
      rw [hn, Option.some.injEq] at q1 q4
      subst q1
      subst q4
      rw [hget, if_pos rfl, Option.some.injEq] at p1
      subst p1
      simp only at p2 p3 p4
      rw [q2, Option.some.injEq] at p2
      rw [q3, Option.some.injEq] at p3
      subst p2
      subst p3
      rw [shallow_congr A _ sl (fun k hk => by rw [hget, if_neg]; have := ho k (by simp [hk]); omega),
        shallow_congr A _ sr (fun k hk => by rw [hget, if_neg]; have := ho k (by simp [hk]); omega),
        shallow_of_hashed A sl hl, shallow_of_hashed A sr hr'] at p4
      exact hx (by rw [← p4, q5])

theorem parent_of_leaf {a : Arena α} {t : Tree} {n0 : Nat} {ds : List α} {hs : List Bytes} {T : ITree}
    (hb : Built A hashOf a t n0 ds hs T) {i : Nat} (hi : i ∈ t.leaves) :
    ∃ j n l r, anc a 1 i = some j ∧ a[j]? = some n ∧ n.left = some l ∧ n.right = some r ∧ (i = l ∨ i = r) ∧
      l ∈ t.leaves ∧ r ∈ t.leaves ∧ n.hash = A.sha3_256 (storedHash a l ++ storedHash a r) ∧
      (∃ nl, a[l]? = some nl ∧ nl.isLeaf = true) ∧ (∃ nr, a[r]? = some nr ∧ nr.isLeaf = true) := by
  have h1 : 1 ≤ Spec.height ds.length := by
    have h2 := hb.two
    rw [height_clog]
    exact Nat.clog_pos (by omega) h2
  obtain ⟨c, q, c1, c2, c3, c5, c6, c4⟩ := anc_subtree A hb.shape hb.perfect i ((hb.mem i).2 hi) 1 h1
  have hc := c4 _ hb.hashed
  cases c with
  | leaf k => cases c3
  | node k cl cr =>
    obtain ⟨p1, p2⟩ := c3
    cases cl with
    | node _ _ _ => cases p1
    | leaf l =>
      cases cr with
      | node _ _ _ => cases p2
      | leaf r =>
        obtain ⟨⟨n1, q1, -, -, q2, q3⟩, ho, ⟨nl, l1, l2, -⟩, ⟨nr, r1, r2, -⟩⟩ := c2
        obtain ⟨⟨n2, q4, q5⟩, hl, hr'⟩ := hc
        rw [q1, Option.some.injEq] at q4
        subst q4
        refine ⟨k, n1, l, r, c1, q1, q2, q3, by simpa [leaves] using c5, (hb.mem l).1 (c6 l (by simp [leaves])),
          (hb.mem r).1 (c6 r (by simp [leaves])), q5, ⟨nl, l1, l2⟩, ⟨nr, r1, r2⟩⟩

/-- C12: a changed payload next to the queried leaf (below the same parent `j`) is reported, unless the two
concatenations hashed for that parent collide. -/
theorem C12_sibling_payload_reported (w : World α) (hw : Reachable A hashOf w) (t : Tree) (ht : t ∈ w.2) (b : Arena α)
    (hp : Pointers w.1 b) (φ : Nat → Bytes) (hφ : ∀ i ∈ t.leaves, LeafHash hashOf b φ i) (d : α)
    (pre post : List Nat) (i : Nat) (hi : t.leaves = pre ++ i :: post) (hd : hashOf d = .ok (φ i))
    (hfirst : ∀ j ∈ pre, φ j ≠ φ i) (g : Nat) (hg : t.leaves.length ≤ g)
    (j l r : Nat) (n n' : Node α) (hj : anc w.1 1 i = some j) (hn : w.1[j]? = some n) (hn' : b[j]? = some n')
    (hl : n.left = some l) (hr : n.right = some r) (hkeep : n'.hash = n.hash) (hsame : φ i = storedHash w.1 i)
    (hchg : φ l ≠ storedHash w.1 l ∨ φ r ≠ storedHash w.1 r)
    (hv : verifyContent A hashOf g t d b = some (.ok true)) :
    storedHash w.1 l ++ storedHash w.1 r ≠ φ l ++ φ r ∧
      A.sha3_256 (storedHash w.1 l ++ storedHash w.1 r) = A.sha3_256 (φ l ++ φ r) := by
  obtain ⟨n0, ds, hs, T, hb⟩ := reachable_healthy A hashOf hw t ht
  obtain ⟨r0, e, hr0⟩ := C12_verifyContent A hashOf w hw t ht b hp φ hφ d pre post i hi hd hfirst g hg
  rw [hv] at e
  simp only [Option.some.injEq, Res.ok.injEq] at e
  subst e
  have hmem : i ∈ t.leaves := by rw [hi]; simp
  obtain ⟨j0, m0, l0, r0, a1, a2, a3, a4, a5, a6, a7, a8, ⟨nl, l1, l2⟩, ⟨nr, r1, r2⟩⟩ := parent_of_leaf A hashOf hb hmem
  rw [hj, Option.some.injEq] at a1
  subst a1
  rw [hn, Option.some.injEq] at a2
  subst a2
  rw [hl, Option.some.injEq] at a3
  subst a3
  rw [hr, Option.some.injEq] at a4
  subst a4
  have h1 : 1 ≤ Nat.clog 2 t.leaves.length := Nat.clog_pos (by omega) (by have := hb.two; have := hb.leaves_length; omega)
  obtain ⟨j', hj', n1, l', r', p1, p2, p3, p4⟩ := hr0.1 rfl 1 (le_refl _) h1
  rw [anc_pointers hp 1 i j hj, Option.some.injEq] at hj'
  subst hj'
  rw [hn', Option.some.injEq] at p1
  subst p1
  obtain ⟨n2, s1, -, s2, s3, -⟩ := hp j n hn
  rw [hn', Option.some.injEq] at s1
  subst s1
  rw [s2, hl, Option.some.injEq] at p2
  rw [s3, hr, Option.some.injEq] at p3
  subst p2
  subst p3
  obtain ⟨nl', x1, -, -, -, x2⟩ := hp l nl l1
  obtain ⟨nr', y1, -, -, -, y2⟩ := hp r nr r1
  have el : shallow A b φ l = φ l := by simp [shallow, x1, x2, l2]
  have er : shallow A b φ r = φ r := by simp [shallow, y1, y2, r2]
  rw [el, er, hkeep, a8] at p4
  refine ⟨fun hc => ?_, p4.symm⟩
  rcases a5 with rfl | rfl
  · rw [hsame] at hc
    rw [List.append_cancel_left_eq] at hc
    rcases hchg with h | h
    · exact h hsame
    · exact h hc.symm
  · rw [hsame] at hc
    rw [List.append_cancel_right_eq] at hc
    rcases hchg with h | h
    · exact h hc.symm
    · exact h hsame

/-- C12: a changed payload elsewhere is not reported by `VerifyContent`: if stored hashes are intact and the two
leaves below the parent of the queried leaf are intact, the answer is true although `VerifyTree` may fail. -/
theorem C12_other_payload_unread (w : World α) (hw : Reachable A hashOf w) (t : Tree) (ht : t ∈ w.2) (b : Arena α)
    (hp : Pointers w.1 b) (hkeep : ∀ k, storedHash b k = storedHash w.1 k)
    (φ : Nat → Bytes) (hφ : ∀ i ∈ t.leaves, LeafHash hashOf b φ i) (d : α)
    (pre post : List Nat) (i : Nat) (hi : t.leaves = pre ++ i :: post) (hd : hashOf d = .ok (φ i))
    (hfirst : ∀ j ∈ pre, φ j ≠ φ i) (g : Nat) (hg : t.leaves.length ≤ g)
    (hsib : ∀ j n, anc w.1 1 i = some j → w.1[j]? = some n → ∀ k, n.left = some k ∨ n.right = some k →
      φ k = storedHash w.1 k) :
    verifyContent A hashOf g t d b = some (.ok true) := by
  obtain ⟨n0, ds, hs, T, hb⟩ := reachable_healthy A hashOf hw t ht
  obtain ⟨r0, e, hr0⟩ := C12_verifyContent A hashOf w hw t ht b hp φ hφ d pre post i hi hd hfirst g hg
  rw [e, hr0.2]
  intro m hm hm'
  have hmem : i ∈ t.leaves := by rw [hi]; simp
  have hmd : m ≤ Spec.height ds.length := by rw [height_clog, ← hb.leaves_length]; exact hm'
  obtain ⟨c, q, c1, c2, c3, -, -, c4⟩ := anc_subtree A hb.shape hb.perfect i ((hb.mem i).2 hmem) m hmd
  have hc := c4 _ hb.hashed
  refine ⟨c.root, anc_pointers hp _ _ _ c1, ?_⟩
  cases c with
  | leaf k =>
    obtain ⟨m, rfl⟩ : ∃ k, m = k + 1 := ⟨m - 1, by omega⟩
    cases c3
  | node k cl cr =>
    obtain ⟨⟨n1, q1, -, -, q2, q3⟩, ho, sl, sr⟩ := c2
    obtain ⟨⟨n2, q4, q5⟩, hl, hr'⟩ := hc
    rw [q1, Option.some.injEq] at q4
    subst q4
    obtain ⟨n', g1, -, g2, g3, -⟩ := hp k n1 q1
    have hh : n'.hash = n1.hash := by
      have := hkeep k
      simpa [storedHash, g1, q1] using this
    have sh : ∀ c : ITree, (n1.left = some c.root ∨ n1.right = some c.root) → Shape w.1 (some k) c →
        Hashed A.sha3_256 w.1 (storedHash w.1) c → c.Perfect (m - 1) → shallow A b φ c.root = c.eval A.sha3_256 (storedHash w.1) := by
      intro c hchild sc hcc pc
      rw [← shallow_of_hashed A sc hcc]
      cases c with
      | leaf x =>
        have : m - 1 = 0 := by
          by_contra hne
          obtain ⟨y, hy⟩ : ∃ y, m - 1 = y + 1 := ⟨m - 2, by omega⟩
          rw [hy] at pc
          cases pc
        obtain rfl : m = 1 := by omega
        obtain ⟨nx, x1, x2, -⟩ := sc
        obtain ⟨nx', y1, -, -, -, y2⟩ := hp x nx x1
        have := hsib k n1 c1 q1 x hchild
        simp [shallow, ITree.root, x1, y1, x2, y2, this]
      | node x xl xr =>
        obtain ⟨⟨nx, x1, x2, -, x3, x4⟩, -⟩ := sc
        obtain ⟨nx', y1, -, y2, y3, y4⟩ := hp x nx x1
        have z1 : w.1[(node x xl xr).root]? = some nx := x1
        have z2 : b[(node x xl xr).root]? = some nx' := y1
        simp only [shallow, z1, z2, y2, y3, y4, x2, x3, x4, Option.map_some, Option.getD_some, hkeep]
        rfl
    obtain ⟨m, rfl⟩ : ∃ k, m = k + 1 := ⟨m - 1, by omega⟩
    refine ⟨n', cl.root, cr.root, g1, by rw [g2, q2], by rw [g3, q3], ?_⟩
    rw [sh cl (.inl q2) sl hl c3.1, sh cr (.inr q3) sr hr' c3.2, hh, q5]

/-- A tree with four leaves whose root node got another hash: `VerifyContent` reports it for the first payload,
`VerifyTree` does not. -/
example : ∃ (w : World Bytes) (t : Tree) (b : Arena Bytes) (d : Bytes), Reachable A demoHash w ∧ t ∈ w.2 ∧ t.leaves.length = 4 ∧
    verifyContent A demoHash 4 t d w.1 = some (.ok true) ∧ verifyContent A demoHash 4 t d b = some (.ok false) ∧
    verifyTree A demoHash 4 t b = some (.ok true) := by
  obtain ⟨w, hw, -, t, ht, hl⟩ := demo_world A
  obtain ⟨n0, ds, hs, T, hb⟩ := reachable_healthy A demoHash hw t ht
  cases hlv : t.leaves with
  | nil => rw [hlv] at hl; simp at hl
  | cons i post =>
    have hi : i ∈ t.leaves := by rw [hlv]; simp
    obtain ⟨n, d, h1, h2, h3⟩ := hb.leafHash A demoHash i ((hb.mem i).2 hi)
    obtain ⟨j, nj, l, r, p1, p2, -⟩ := parent_of_leaf A demoHash hb hi
    have hx : (0 :: nj.hash) ≠ nj.hash := fun h => by simpa using congrArg List.length h
    have hclog : Nat.clog 2 t.leaves.length = 2 := by rw [hl]; decide
    refine ⟨w, t, w.1.set j { nj with hash := 0 :: nj.hash }, d, hw, ht, hl, ?_,
      C12_path_hash_reported A demoHash w hw t ht d [] post i hlv h3 (by simp) 1 j (le_refl _) (by omega) p1 nj p2 _ hx 4 (by omega),
      ?_⟩
    · refine C12_other_payload_unread A demoHash w hw t ht w.1 (fun i n h => ⟨n, h, rfl, rfl, rfl, rfl⟩) (fun _ => rfl)
        (storedHash w.1) (fun i hi => hb.leafHash A demoHash i ((hb.mem i).2 hi)) d [] post i hlv h3 (by simp) 4 (by omega) ?_
      intros; rfl
    · refine C12_stored_hashes_unread A demoHash w hw t ht _ ?_ ?_ 4 (by omega)
      · intro k nk hk
        rw [List.getElem?_set]
        split_ifs with h h'
        · subst h; rw [p2, Option.some.injEq] at hk; subst hk; exact ⟨_, rfl, rfl, rfl, rfl, rfl⟩
        · subst h; exact absurd (List.getElem?_eq_some_iff.1 hk).1 h'
        · exact ⟨nk, hk, rfl, rfl, rfl, rfl⟩
      · intro k hk
        rw [List.getElem?_set]
        split_ifs with h h'
        · subst h; rw [p2]; rfl
        · subst h; rw [List.getElem?_eq_none (by omega)]
        · rfl

/-! ## C07 -/

/-- C07: on a tree built from `pl` (also after later allocations), `VerifyContent d` ends and returns true exactly when
some payload in `pl` has the hash of `d`. -/
theorem C07_membership (f : Nat) (pl : List α) (a a' a'' : Arena α) (t : Tree)
    (h : newTree A hashOf f pl a = some (.ok (t, a'))) (hp : a' <+: a'') (d : α) (x : Bytes) (hd : hashOf d = .ok x)
    (g : Nat) (hg : pl.length + 1 ≤ g) :
    ∃ r, verifyContent A hashOf g t d a'' = some (.ok r) ∧ (r = true ↔ ∃ p ∈ pl, hashOf p = .ok x) := by
  classical
  obtain ⟨hne, hs, T, h1, -, -, -, hb⟩ := newTree_built A hashOf h
  replace hb := hb.mono A hashOf hp
  have hleaf := hb.leafHash A hashOf
  have hle := height_le (Spec.pad pl).length
  have hpl := pad_length pl hne
  have hl := hb.leaves_length
  have hin : (∃ p ∈ pl, hashOf p = .ok x) ↔ ∃ i ∈ t.leaves, storedHash a'' i = x := by
    have e1 : (∃ i ∈ t.leaves, storedHash a'' i = x) ↔ x ∈ Spec.pad hs := by rw [← hb.map_hash]; simp
    have e2 : x ∈ Spec.pad hs ↔ x ∈ hs := by
      unfold Spec.pad
      split
      · rw [List.mem_append]
        refine ⟨fun hx => hx.elim id fun hx => ?_, .inl⟩
        rw [Option.mem_toList] at hx
        exact List.mem_of_getLast? hx
      · rfl
    rw [e1, e2]
    clear e1 e2 hb hleaf hle hpl hl h hg hne
    induction h1 with
    | nil => simp
    | cons p1 p2 ih =>
      simp only [List.mem_cons, exists_eq_or_imp, p1, Res.ok.injEq, ih]
      simp only [eq_comm]
  rw [hin]
  by_cases hex : ∃ i ∈ t.leaves, storedHash a'' i = x
  · -- the first matching leaf
    obtain ⟨pre, i, post, e1, e2, e3⟩ : ∃ pre i post, t.leaves = pre ++ i :: post ∧ storedHash a'' i = x ∧
        ∀ j ∈ pre, storedHash a'' j ≠ x := by
      have : ∀ l : List Nat, (∃ i ∈ l, storedHash a'' i = x) → ∃ pre i post, l = pre ++ i :: post ∧ storedHash a'' i = x ∧
          ∀ j ∈ pre, storedHash a'' j ≠ x := by
        intro l
        induction l with
        | nil => rintro ⟨i, hi, -⟩; simp at hi
        | cons y l ih =>
          intro hx
          by_cases hy : storedHash a'' y = x
          · exact ⟨[], y, l, rfl, hy, by simp⟩
          · obtain ⟨i, hi, hix⟩ := hx
            rcases List.mem_cons.1 hi with rfl | hi
            · exact absurd hix hy
            · obtain ⟨pre, k, post, q1, q2, q3⟩ := ih ⟨i, hi, hix⟩
              refine ⟨y :: pre, k, post, by rw [q1]; rfl, q2, fun j hj => ?_⟩
              rcases List.mem_cons.1 hj with rfl | hj
              · exact hy
              · exact q3 j hj
      exact this _ hex
    have hmem : i ∈ T.leaves := (hb.mem i).2 (by rw [e1]; simp)
    obtain ⟨-, n, hn, hwalk⟩ := walk_ok A hashOf hb.shape hb.perfect hleaf i hmem
    have hok := (nodeOk_of_hashed A hb.shape hb.perfect hb.hashed i hmem).2
    have hw := hwalk (g - Spec.height (Spec.pad pl).length)
    rw [if_pos hok, show Spec.height (Spec.pad pl).length + (g - Spec.height (Spec.pad pl).length) = g by omega] at hw
    refine ⟨true, ?_, by simpa using hex⟩
    rw [verifyContent, e1, contentLoop_skip A hashOf hd g pre
      (fun j hj => ⟨hleaf j ((hb.mem j).2 (by rw [e1]; simp [hj])), e3 j hj⟩),
      contentLoop_hit A hashOf hd g (hleaf i hmem) e2 hn, hw]
    simp [walk]
  · refine ⟨false, ?_, by simpa using hex⟩
    refine C12_verifyContent_absent A hashOf t a'' _ (fun i hi => hleaf i ((hb.mem i).2 hi)) d x hd ?_ g
    intro i hi hc
    exact hex ⟨i, hi, hc⟩

/-- C07: if the queried payload cannot be hashed, its error is returned. -/
theorem C07_unhashable (f : Nat) (pl : List α) (a a' : Arena α) (t : Tree)
    (h : newTree A hashOf f pl a = some (.ok (t, a'))) (d : α) (e : String) (hd : hashOf d = .err e) (g : Nat) :
    verifyContent A hashOf g t d a' = some (.err e) := by
  obtain ⟨hne, hs, T, h1, -, -, -, hb⟩ := newTree_built A hashOf h
  have hl := hb.leaves_length
  have h2 := hb.two
  rw [verifyContent]
  cases hlv : t.leaves with
  | nil => rw [hlv, List.length_nil] at hl; omega
  | cons i is =>
    obtain ⟨n, y, p1, p2, p3⟩ := hb.leafHash A hashOf i ((hb.mem i).2 (by rw [hlv]; simp))
    simp only [contentLoop, idx_eq_ok.2 p1, Run.bind_ok, equals, p2, calcData, p3, Res.bind_ok, hd, Res.bind_err, Run.bind_err]

example : ∃ t a', newTree A demoHash 4 [[1], [2], [3]] [] = some (.ok (t, a')) ∧
    verifyContent A demoHash 4 t [3] a' = some (.ok true) ∧ verifyContent A demoHash 4 t [9] a' = some (.ok false) ∧
    verifyContent A demoHash 4 t [] a' = some (.err "empty") := by
  obtain ⟨t, a', h⟩ := (C04_newTree_ok_iff A demoHash [[1], [2], [3]] []).2 ⟨by simp, by simp [demoHash]⟩
  refine ⟨t, a', h, ?_, ?_, ?_⟩
  · obtain ⟨r, h1, h2⟩ := C07_membership A demoHash _ _ _ _ a' t h (List.prefix_refl _) [3] [3] rfl 4 (by simp)
    rw [h1, h2.2 ⟨[3], by simp, rfl⟩]
  · obtain ⟨r, h1, h2⟩ := C07_membership A demoHash _ _ _ _ a' t h (List.prefix_refl _) [9] [9] rfl 4 (by simp)
    rw [h1]
    cases r with
    | false => rfl
    | true => exact absurd (h2.1 rfl) (by simp [demoHash])
  · exact C07_unhashable A demoHash _ _ _ _ t h [] "empty" rfl 4

/-! ## C11 -/

/-- C11: the leaves of a new tree: the given payloads in order, then at most one marked copy of the last one. -/
theorem C11_leaves (f : Nat) (pl : List α) (a a' : Arena α) (t : Tree) (h : newTree A hashOf f pl a = some (.ok (t, a'))) :
    t.leaves.length = pl.length + pl.length % 2 ∧ t.leaves.Nodup ∧ (∀ i ∈ t.leaves, a.length ≤ i) ∧
    (∀ k (hk : k < pl.length), ∃ i n, t.leaves[k]? = some i ∧ a'[i]? = some n ∧ n.isLeaf = true ∧ n.data = some pl[k] ∧
      n.isDup = false) ∧
    (pl.length % 2 = 1 → ∃ i n, t.leaves[pl.length]? = some i ∧ a'[i]? = some n ∧ n.isLeaf = true ∧
      n.data = pl.getLast? ∧ n.isDup = true) := by
  obtain ⟨hne, hs, T, h1, -, hr, -, hb⟩ := newTree_built A hashOf h
  have hl := hb.leaves_length
  have hpl := pad_length pl hne
  refine ⟨by rw [hl, hpl], hb.nodup, ?_, ?_, ?_⟩
  · intro i hi
    rw [hr, List.mem_range'_1] at hi
    exact hi.1
  · intro k hk
    have hk' : k < t.leaves.length := by omega
    obtain ⟨n, p1, p2, p3, -, p4⟩ := hb.leaf k _ (List.getElem?_eq_getElem hk')
    refine ⟨_, n, List.getElem?_eq_getElem hk', p1, p2, ?_, ?_⟩
    · rw [p3, pad_getElem? pl hk, List.getElem?_eq_getElem hk]
    · rw [p4, decide_eq_false_iff_not]; omega
  · intro ho
    have hk' : pl.length < t.leaves.length := by omega
    obtain ⟨n, p1, p2, p3, -, p4⟩ := hb.leaf pl.length _ (List.getElem?_eq_getElem hk')
    refine ⟨_, n, List.getElem?_eq_getElem hk', p1, p2, ?_, ?_⟩
    · rw [p3, Spec.pad, if_pos ho, List.getElem?_append_right (le_refl _)]
      rw [List.getLast?_eq_some_getLast hne]
      simp
    · rw [p4]; simp

/-- C11: from every leaf, following `Parent` reaches `Root` after exactly `max(1, ⌈log₂ len(pl)⌉)` steps, where the
parents end. -/
theorem C11_depth (f : Nat) (pl : List α) (a a' : Arena α) (t : Tree) (h : newTree A hashOf f pl a = some (.ok (t, a')))
    (i : Nat) (hi : i ∈ t.leaves) :
    ∃ r n, t.root = some r ∧ a'[r]? = some n ∧ n.parent = none ∧
      anc a' (max 1 (Nat.clog 2 pl.length)) i = some r ∧
      (∀ k, max 1 (Nat.clog 2 pl.length) < k → anc a' k i = none) ∧
      (∀ k, k < max 1 (Nat.clog 2 pl.length) → ∃ j, anc a' k i = some j ∧ j ≠ r) := by
  obtain ⟨hne, hs, T, h1, -, -, -, hb⟩ := newTree_built A hashOf h
  rw [← height_pad pl hne]
  obtain ⟨n, hn, hpn⟩ := shape_root hb.shape
  have hmem := (hb.mem i).2 hi
  have hD : anc a' (Spec.height (Spec.pad pl).length) i = some T.root := (anc_subtree.walk_anc hb.shape hb.perfect i hmem).1
  have hnone : ∀ k, anc a' (Spec.height (Spec.pad pl).length + 1 + k) i = none := by
    intro k
    induction k with
    | zero => simp only [Nat.add_zero, anc, hD, Option.bind_some, hn, hpn]
    | succ k ih =>
      rw [show Spec.height (Spec.pad pl).length + 1 + (k + 1) = Spec.height (Spec.pad pl).length + 1 + k + 1 by omega]
      simp only [anc, ih, Option.bind_none]
  refine ⟨T.root, n, hb.root, hn, hpn, hD, fun k hk => ?_, fun k hk => ?_⟩
  · have := hnone (k - (Spec.height (Spec.pad pl).length + 1))
    rwa [show Spec.height (Spec.pad pl).length + 1 + (k - (Spec.height (Spec.pad pl).length + 1)) = k by omega] at this
  · obtain ⟨c, q, c1, -⟩ := anc_subtree A hb.shape hb.perfect i hmem k (by omega)
    refine ⟨c.root, c1, fun hc => ?_⟩
    rw [hc] at c1
    -- then the path would end after `k` steps
    have hk1 : anc a' (k + 1) i = none := by simp only [anc, c1, Option.bind_some, hn, hpn]
    have hk2 : ∀ m, anc a' (k + 1 + m) i = none := by
      intro m
      induction m with
      | zero => exact hk1
      | succ m ih =>
        rw [show k + 1 + (m + 1) = k + 1 + m + 1 by omega]
        simp only [anc, ih, Option.bind_none]
    have := hk2 (Spec.height (Spec.pad pl).length - (k + 1))
    rw [show k + 1 + (Spec.height (Spec.pad pl).length - (k + 1)) = Spec.height (Spec.pad pl).length by omega, hD] at this
    simp at this

example : max 1 (Nat.clog 2 1) = 1 ∧ max 1 (Nat.clog 2 5) = 3 := by decide

/-! ## C08 -/

theorem level_digest (l : List Bytes) : ∀ x ∈ Spec.level A.sha3_256 l, x.length = 32 := by
  match l with
  | [] => simp [Spec.level]
  | [x] => intro y hy; simp only [Spec.level, List.mem_singleton] at hy; rw [hy]; exact A.sha3_256_length _
  | x :: y :: l =>
    intro z hz
    simp only [Spec.level, List.mem_cons] at hz
    rcases hz with rfl | hz
    · exact A.sha3_256_length _
    · exact level_digest l z hz

theorem append_inj {x y x' y' : Bytes} (h1 : x.length = 32) (h2 : x'.length = 32) (h : x ++ y = x' ++ y') : x = x' ∧ y = y' :=
  List.append_inj h (by omega)

theorem pairDiff_spec (H : Bytes → Bytes) : ∀ l l' : List Bytes, l.length = l'.length → (∀ x ∈ l, x.length = 32) →
    (∀ x ∈ l', x.length = 32) → Spec.level H l = Spec.level H l' →
    l = l' ∨ ∃ x y, Spec.pairDiff l l' = some (x, y) ∧ x ≠ y ∧ H x = H y
  | [], [], _, _, _, _ => .inl rfl
  | [x], [x'], _, h1, h2, he => by
    simp only [Spec.level, List.cons.injEq, and_true] at he
    by_cases hx : x ++ x = x' ++ x'
    · obtain ⟨rfl, -⟩ := append_inj (h1 x (by simp)) (h2 x' (by simp)) hx
      exact .inl rfl
    · exact .inr ⟨x ++ x, x' ++ x', by simp only [Spec.pairDiff, if_neg hx], hx, he⟩
  | x :: y :: l, x' :: y' :: l', hl, h1, h2, he => by
    simp only [Spec.level, List.cons.injEq] at he
    by_cases hx : x ++ y = x' ++ y'
    · obtain ⟨rfl, rfl⟩ := append_inj (h1 x (by simp)) (h2 x' (by simp)) hx
      rcases pairDiff_spec H l l' (by simpa using hl) (fun z hz => h1 z (by simp [hz])) (fun z hz => h2 z (by simp [hz])) he.2 with
        rfl | ⟨u, v, e1, e2, e3⟩
      · exact .inl rfl
      · exact .inr ⟨u, v, by simp only [Spec.pairDiff, if_true]; exact e1, e2, e3⟩
    · exact .inr ⟨x ++ y, x' ++ y', by simp only [Spec.pairDiff, if_neg hx], hx, he.1⟩
  | [], x :: l, hl, _, _, _ => by simp at hl
  | x :: l, [], hl, _, _, _ => by simp at hl
  | [x], y :: z :: l, hl, _, _, _ => by simp at hl
  | y :: z :: l, [x], hl, _, _, _ => by simp at hl

/-- C08: two lists of payload hashes of equal length and digest size with the same Merkle root are equal, or the
level-by-level search `Spec.collision` (a function of the two lists) returns two different inputs with the same
SHA3-256 digest. -/
theorem C08_root_binding (n : Nat) : ∀ hs hs' : List Bytes, hs.length = n → hs'.length = n → (∀ x ∈ hs, x.length = 32) →
    (∀ x ∈ hs', x.length = 32) → Spec.root A.sha3_256 hs = Spec.root A.sha3_256 hs' →
    hs = hs' ∨ ∃ x y, Spec.collision A.sha3_256 hs hs' = some (x, y) ∧ x ≠ y ∧ A.sha3_256 x = A.sha3_256 y := by
  induction n using Nat.strong_induction_on with
  | _ n ih =>
    intro hs hs' hl hl' h1 h2 he
    by_cases hlev : Spec.level A.sha3_256 hs = Spec.level A.sha3_256 hs'
    · rcases pairDiff_spec A.sha3_256 hs hs' (by omega) h1 h2 hlev with h | ⟨x, y, e1, e2, e3⟩
      · exact .inl h
      · exact .inr ⟨x, y, by rw [Spec.collision, if_pos hlev, e1], e2, e3⟩
    · have l1 := Spec.level_length A.sha3_256 hs
      have l2 := Spec.level_length A.sha3_256 hs'
      by_cases hsmall : hs.length ≤ 2
      · -- a single value on the next level
        exfalso
        apply hlev
        rw [Spec.root, Spec.root] at he
        rcases Nat.eq_zero_or_pos n with h0 | h0
        · rw [List.length_eq_zero_iff.1 (hl.trans h0), List.length_eq_zero_iff.1 (hl'.trans h0)]
        · obtain ⟨u, hu⟩ := List.length_eq_one_iff.1 (show (Spec.level A.sha3_256 hs).length = 1 by omega)
          obtain ⟨v, hv⟩ := List.length_eq_one_iff.1 (show (Spec.level A.sha3_256 hs').length = 1 by omega)
          rw [hu, hv] at he ⊢
          rw [rounds_single, rounds_single] at he
          rw [he]
      · rw [Spec.root, Spec.root, rounds_eq_root _ _ (by omega), rounds_eq_root _ _ (by omega)] at he
        rcases ih ((n + 1) / 2) (by omega) _ _ (by omega) (by omega) (level_digest A hs) (level_digest A hs') he with
          h | ⟨x, y, e1, e2, e3⟩
        · exact absurd h hlev
        · exact .inr ⟨x, y, by rw [Spec.collision, if_neg hlev, dif_neg hsmall, e1], e2, e3⟩

/-- C08: for trees. -/
theorem C08_tree_binding (f g : Nat) (pl pl' : List α) (a a' b b' : Arena α) (t t' : Tree) (hs hs' : List Bytes)
    (h : newTree A hashOf f pl a = some (.ok (t, a'))) (h' : newTree A hashOf g pl' b = some (.ok (t', b')))
    (hh : Hashes hashOf pl hs) (hh' : Hashes hashOf pl' hs') (hl : pl.length = pl'.length) (h1 : ∀ x ∈ hs, x.length = 32)
    (h2 : ∀ x ∈ hs', x.length = 32) (he : t.merkleRoot = t'.merkleRoot) :
    hs = hs' ∨ ∃ x y, Spec.collision A.sha3_256 hs hs' = some (x, y) ∧ x ≠ y ∧ A.sha3_256 x = A.sha3_256 y := by
  rw [C05_merkleRoot A hashOf f pl a a' t hs hh h, C05_merkleRoot A hashOf g pl' b b' t' hs' hh' h'] at he
  exact C08_root_binding A pl.length hs hs' hh.length_eq.symm (by rw [← hh'.length_eq, hl]) h1 h2 he

/-- C08: the digest length is needed: hashes of other lengths can be cut differently without any collision. -/
theorem C08_digest_length_needed (x y z : Bytes) : Spec.root A.sha3_256 [x ++ y, z] = Spec.root A.sha3_256 [x, y ++ z] := by
  simp [Spec.root, Spec.level]

example (A : Hash.Algs) : Spec.root A.sha3_256 [[1, 2], [3]] = Spec.root A.sha3_256 [[1], [2, 3]] := C08_digest_length_needed A [1] [2] [3]

example (x y u v : Bytes) (h : ∀ z ∈ [x, y, u, v], z.length = 32) (hc : ∀ p q, A.sha3_256 p = A.sha3_256 q → p = q)
    (he : Spec.root A.sha3_256 [x, y] = Spec.root A.sha3_256 [u, v]) : x = u := by
  rcases C08_root_binding A 2 [x, y] [u, v] rfl rfl (fun z hz => h z (by simp at hz ⊢; tauto))
    (fun z hz => h z (by simp at hz ⊢; tauto)) he with h | ⟨p, q, -, h1, h2⟩
  · simp at h; exact h.1
  · exact absurd (hc p q h2) h1

/-! ## C10 -/

/-- C10, violated: the list with its last payload repeated has the same root. -/
theorem C10_odd_repeat_violated (f g : Nat) (pl : List α) (d : α) (a a' b b' : Arena α) (t t' : Tree)
    (ho : (pl ++ [d]).length % 2 = 1) (h : newTree A hashOf f (pl ++ [d]) a = some (.ok (t, a')))
    (h' : newTree A hashOf g (pl ++ [d, d]) b = some (.ok (t', b'))) :
    t.merkleRoot = t'.merkleRoot ∧ (pl ++ [d]) ≠ (pl ++ [d, d]) := by
  obtain ⟨hne, hs, T, h1, -, -, -, hb⟩ := newTree_built A hashOf h
  refine ⟨?_, by simp⟩
  have hh : Hashes hashOf (pl ++ [d, d]) (Spec.pad hs) := by
    have := hashes_pad hashOf h1
    rwa [show Spec.pad (pl ++ [d]) = pl ++ [d, d] by simp only [Spec.pad, if_pos ho]; simp] at this
  rw [C05_merkleRoot A hashOf f _ a a' t hs h1 h, C05_merkleRoot A hashOf g _ b b' t' _ hh h', Spec.root, Spec.root, level_pad]

/-- C10, violated: any list of at least three payloads has the same root as a shorter list of payloads whose hashes
are the interior hashes of the next level. -/
theorem C10_interior_violated (f g : Nat) (pl pl' : List α) (a a' b b' : Arena α) (t t' : Tree) (hs : List Bytes)
    (hl : 3 ≤ pl.length) (hh : Hashes hashOf pl hs) (hh' : Hashes hashOf pl' (Spec.level A.sha3_256 hs))
    (h : newTree A hashOf f pl a = some (.ok (t, a'))) (h' : newTree A hashOf g pl' b = some (.ok (t', b'))) :
    t.merkleRoot = t'.merkleRoot ∧ pl'.length < pl.length := by
  have e1 := hh.length_eq
  have e2 := hh'.length_eq
  have e3 := Spec.level_length A.sha3_256 hs
  refine ⟨?_, by omega⟩
  rw [C05_merkleRoot A hashOf f _ a a' t hs hh h, C05_merkleRoot A hashOf g _ b b' t' _ hh' h', Spec.root,
    rounds_eq_root _ _ (by omega)]

/-- C10: the case of the statement: four payloads against two. -/
theorem C10_four_two_violated (w x y z u v : α) (hw hx hy hz : Bytes) (f g : Nat) (a a' b b' : Arena α) (t t' : Tree)
    (e1 : hashOf w = .ok hw) (e2 : hashOf x = .ok hx) (e3 : hashOf y = .ok hy) (e4 : hashOf z = .ok hz)
    (e5 : hashOf u = .ok (A.sha3_256 (hw ++ hx))) (e6 : hashOf v = .ok (A.sha3_256 (hy ++ hz)))
    (h : newTree A hashOf f [w, x, y, z] a = some (.ok (t, a'))) (h' : newTree A hashOf g [u, v] b = some (.ok (t', b'))) :
    t.merkleRoot = t'.merkleRoot :=
  (C10_interior_violated A hashOf f g _ _ a a' b b' t t' [hw, hx, hy, hz] (by simp) (by simp [Hashes, e1, e2, e3, e4])
    (by simp [Hashes, Spec.level, e5, e6]) h h').1

/-- Both violations occur with real trees. -/
example : ∃ t a' t' b', newTree A demoHash 6 [[1], [2], [3]] [] = some (.ok (t, a')) ∧
    newTree A demoHash 6 [[1], [2], [3], [3]] [] = some (.ok (t', b')) ∧ t.merkleRoot = t'.merkleRoot := by
  obtain ⟨t, a', h⟩ := newTree_ok A demoHash [[1], [2], [3]] [[1], [2], [3]] [] (by simp) (by simp [Hashes, demoHash])
  obtain ⟨t', b', h'⟩ := newTree_ok A demoHash [[1], [2], [3], [3]] [[1], [2], [3], [3]] [] (by simp) (by simp [Hashes, demoHash])
  exact ⟨t, a', t', b', h 6 (by simp), h' 6 (by simp),
    (C10_odd_repeat_violated A demoHash 6 6 [[1], [2]] [3] [] a' [] b' t t' (by simp) (h 6 (by simp)) (h' 6 (by simp))).1⟩

example : ∃ t a' t' b', newTree A demoHash 6 [[1], [2], [3], [4]] [] = some (.ok (t, a')) ∧
    newTree A demoHash 6 [A.sha3_256 [1, 2], A.sha3_256 [3, 4]] [] = some (.ok (t', b')) ∧ t.merkleRoot = t'.merkleRoot := by
  have hd : ∀ b, demoHash (A.sha3_256 b) = .ok (A.sha3_256 b) := by
    intro b
    have := A.sha3_256_length b
    unfold demoHash
    rw [if_neg]
    intro h
    rw [h] at this
    simp at this
  obtain ⟨t, a', h⟩ := newTree_ok A demoHash [[1], [2], [3], [4]] [[1], [2], [3], [4]] [] (by simp) (by simp [Hashes, demoHash])
  obtain ⟨t', b', h'⟩ := newTree_ok A demoHash [A.sha3_256 [1, 2], A.sha3_256 [3, 4]] [A.sha3_256 [1, 2], A.sha3_256 [3, 4]] []
    (by simp) (by simp [Hashes, hd])
  exact ⟨t, a', t', b', h 6 (by simp), h' 6 (by simp),
    C10_four_two_violated A demoHash [1] [2] [3] [4] _ _ [1] [2] [3] [4] 6 6 [] a' [] b' t t' rfl rfl rfl rfl (hd _) (hd _)
      (h 6 (by simp)) (h' 6 (by simp))⟩

end Dusk.Merkle
