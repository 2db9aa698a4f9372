import Verif.Lemmas.MerkleBuilt
/-!
# Merkle trees: construction, root, membership, rebuilding (C04-C11)

`α` is any type of payloads and `hashOf` any `CalculateHash` method on it. The arena `a` holds the nodes that
exist before the call. `f` bounds the number of recursive calls, see `Verif.Model.Merkle`.
-/

namespace Dusk.Merkle

set_option linter.unusedSectionVars false

variable {α : Type} (A : Hash.Algs) (hashOf : α → Res Bytes)

/-- Payloads for the examples: byte strings that are their own hash, the empty string cannot be hashed. -/
def demoHash (b : Bytes) : Res Bytes := if b = [] then .err "empty" else .ok b

/-! ## C04 -/

/-- C04: `NewTree` ends, after at most `len(pl) + 1` nested calls, for every payload list and every
`CalculateHash`. -/
theorem C04_newTree_terminates (pl : List α) (a : Arena α) :
    ∃ r, ∀ f, pl.length + 1 ≤ f → newTree A hashOf f pl a = some r := by
  by_cases hne : pl = []
  · subst hne
    exact ⟨_, fun f _ => rfl⟩
  · by_cases hh : ∃ hs, Hashes hashOf pl hs
    · obtain ⟨hs, hh⟩ := hh
      obtain ⟨t, a', h⟩ := newTree_ok A hashOf pl hs a hne hh
      exact ⟨_, h⟩
    · obtain ⟨d, -, hc⟩ := create_fail A hashOf hh
      rcases hc with ⟨e, -, he⟩ | ⟨-, he⟩
      · exact ⟨.err e, fun f _ => by rw [newTree, he]; rfl⟩
      · exact ⟨.panic, fun f _ => by rw [newTree, he]; rfl⟩

example (A : Hash.Algs) : ∃ r, ∀ f, 3 ≤ f → newTree A demoHash f [[1], []] [] = some r := C04_newTree_terminates A demoHash [[1], []] []

/-- C04: it returns a tree exactly when the list is not empty and every payload can be hashed. -/
theorem C04_newTree_ok_iff (pl : List α) (a : Arena α) :
    (∃ t a', newTree A hashOf (pl.length + 1) pl a = some (.ok (t, a'))) ↔
      pl ≠ [] ∧ ∀ d ∈ pl, ∃ h, hashOf d = .ok h := by
  constructor
  · rintro ⟨t, a', h⟩
    obtain ⟨hne, hs, -, hh, -⟩ := newTree_built A hashOf h
    exact ⟨hne, (hashes_iff hashOf pl).1 ⟨hs, hh⟩⟩
  · rintro ⟨hne, hh⟩
    obtain ⟨hs, hh⟩ := (hashes_iff hashOf pl).2 hh
    obtain ⟨t, a', h⟩ := newTree_ok A hashOf pl hs a hne hh
    exact ⟨t, a', h _ (le_refl _)⟩

/-- C04: otherwise, if `CalculateHash` does not panic, it returns an error: the one of the first payload that
cannot be hashed, or the one for an empty list. -/
theorem C04_newTree_err (pl : List α) (hp : ∀ d ∈ pl, hashOf d ≠ .panic)
    (h : ¬ (pl ≠ [] ∧ ∀ d ∈ pl, ∃ h, hashOf d = .ok h)) :
    ∃ e, (∀ f a, newTree A hashOf f pl a = some (.err e)) ∧ (pl = [] ∨ ∃ d ∈ pl, hashOf d = .err e) := by
  by_cases hne : pl = []
  · subst hne
    exact ⟨_, fun f a => rfl, .inl rfl⟩
  · have hh : ¬ ∃ hs, Hashes hashOf pl hs := fun hc => h ⟨hne, (hashes_iff hashOf pl).1 hc⟩
    obtain ⟨d, hd, hc⟩ := create_fail A hashOf hh
    rcases hc with ⟨e, h1, he⟩ | ⟨h1, -⟩
    · exact ⟨e, fun f a => by rw [newTree, he]; rfl, .inr ⟨d, hd, h1⟩⟩
    · exact absurd h1 (hp d hd)

/-- C04: the first failing payload decides: everything after it is irrelevant. -/
theorem C04_first_failure (pl pl' : List α) (d : α) (e : String) (h : ∀ x ∈ pl, ∃ h, hashOf x = .ok h)
    (hd : hashOf d = .err e) (f : Nat) (a : Arena α) :
    newTree A hashOf f (pl ++ d :: pl') a = some (.err e) := by
  have key : ∀ (pl : List α) (a : Arena α), (∀ x ∈ pl, ∃ h, hashOf x = .ok h) →
      leafLoop hashOf a (pl ++ d :: pl') = .err e := by
    intro pl
    induction pl with
    | nil => intro a _; simp [leafLoop, hd]
    | cons x pl ih =>
      intro a hx
      obtain ⟨y, hy⟩ := hx x (by simp)
      simp only [List.cons_append, leafLoop, hy, Res.bind_ok]
      rw [ih _ (fun z hz => hx z (by simp [hz]))]
      rfl
  simp [newTree, create, key pl a h]

/-- C04: the helper that builds the interior levels never returns on a single node, so the guard against odd
numbers of leaves in the code before it is needed. -/
theorem C04_single_node_diverges (f : Nat) : ∀ (a : Arena α) (i : Nat), i < a.length →
    createIntermediate A f [i] a = none := by
  induction f with
  | zero => intro a i _; rfl
  | succ f ih =>
    intro a i hi
    have h1 : ∃ b : Arena α, pairNode A a i i = .ok (a.length, b) ∧ b.length = a.length + 1 := by
      rw [pairNode, idx_of_lt hi]
      simp only [Res.bind_ok, sha_eq, setParent]
      rw [idx_of_lt (by simp; omega), List.getElem_append_left hi]
      simp only [Res.bind_ok]
      rw [idx_of_lt (by simp; omega)]
      exact ⟨_, rfl, by simp⟩
    obtain ⟨b, h1, h2⟩ := h1
    simp only [createIntermediate, pairLoop, h1, Res.bind_ok, Run.bind_ok]
    exact ih _ _ (by omega)

/-- A level of one node is never reduced: the loop does not end, whatever the number of rounds. -/
example (A : Hash.Algs) (n : Node Bytes) (f : Nat) : createIntermediate A f [0] [n] = none := C04_single_node_diverges A f [n] 0 (by simp)

example : ∃ t a', newTree A demoHash 4 [[1], [2], [3]] [] = some (.ok (t, a')) :=
  (C04_newTree_ok_iff A demoHash [[1], [2], [3]] []).2 ⟨by simp, by simp [demoHash]⟩

example : ∃ e, ∀ f a, newTree A demoHash f [[1], [], [3]] a = some (.err e) := by
  obtain ⟨e, h, -⟩ := C04_newTree_err A demoHash [[1], [], [3]] (by intro d _; unfold demoHash; split <;> simp)
    (by simp [demoHash])
  exact ⟨e, h⟩

/-! ## C05 -/

/-- C05: the reported root is the textbook Merkle root of the payload hashes. -/
theorem C05_merkleRoot (f : Nat) (pl : List α) (a a' : Arena α) (t : Tree) (hs : List Bytes)
    (hh : Hashes hashOf pl hs) (h : newTree A hashOf f pl a = some (.ok (t, a'))) :
    t.merkleRoot = Spec.root A.sha3_256 hs := by
  obtain ⟨hne, hs', T, hh', -, -, -, hb⟩ := newTree_built A hashOf h
  have : hs' = hs := by
    have : ∀ (pl : List α) (hs hs' : List Bytes), Hashes hashOf pl hs → Hashes hashOf pl hs' → hs' = hs := by
      intro pl
      induction pl with
      | nil => intro hs hs' h1 h2; cases h1; cases h2; rfl
      | cons x pl ih =>
        intro hs hs' h1 h2
        cases h1 with
        | cons p1 p2 =>
          cases h2 with
          | cons q1 q2 =>
            rw [p1, Res.ok.injEq] at q1
            rw [ih _ _ p2 q2, q1]
    exact this pl hs hs' hh hh'
  subst this
  have hsn : hs' ≠ [] := by
    rintro rfl
    exact hne (List.length_eq_zero_iff.1 hh.length_eq)
  rw [hb.merkleRoot, rounds_pad _ _ hsn]

example (f : Nat) (a a' : Arena Bytes) (t : Tree) (h : newTree A demoHash f [[1], [2], [3]] a = some (.ok (t, a'))) :
    t.merkleRoot = A.sha3_256 (A.sha3_256 ([1] ++ [2]) ++ A.sha3_256 ([3] ++ [3])) := by
  rw [C05_merkleRoot A demoHash f _ a a' t [[1], [2], [3]] (by simp [Hashes, demoHash]) h]
  rw [Spec.root, Spec.level, Spec.level, rounds_of_level (by simp)]
  simp [Spec.level, rounds_single]

/-! ## C06 -/

/-- A call on the trees held by a program. -/
inductive Op (α : Type) where
  | new (pl : List α)
  | rebuild (k : Nat)
  | rebuildUsing (k : Nat) (pl : List α)

/-- The nodes in memory and the trees of the program. -/
abbrev World (α : Type) := Arena α × List Tree

/-- The effect of a call that ends (whether it succeeds, fails or panics). -/
def Step (w : World α) (o : Op α) (w' : World α) : Prop :=
  ∃ f : Nat, match o with
  | .new pl =>
    match newTree A hashOf f pl w.1 with
    | none => False
    | some (.ok (t, a)) => w' = (a, w.2 ++ [t])
    | some _ => w' = w
  | .rebuild k => ∃ t r t' a', w.2[k]? = some t ∧ rebuildTree A hashOf f t w.1 = some (r, t', a') ∧ w' = (a', w.2.set k t')
  | .rebuildUsing k pl => ∃ t r t' a', w.2[k]? = some t ∧ rebuildTreeUsing A hashOf f t pl w.1 = some (r, t', a') ∧
      w' = (a', w.2.set k t')

/-- A sequence of calls. -/
inductive Steps : World α → List (Op α) → World α → Prop
  | nil (w) : Steps w [] w
  | cons {w o w' os w''} : Step A hashOf w o w' → Steps w' os w'' → Steps w (o :: os) w''

/-- `w` was reached by calls of the package only. -/
def Reachable (w : World α) : Prop := ∃ os, Steps A hashOf ([], []) os w

theorem healthy_using {f : Nat} {t : Tree} {pl : List α} {a : Arena α} {r t' a'}
    (h : rebuildTreeUsing A hashOf f t pl a = some (r, t', a')) :
    a <+: a' ∧ ((∃ n0 ds hs T, r = .ok () ∧ Built A hashOf a' t' n0 ds hs T) ∨ (t' = t ∧ a' = a ∧ r ≠ .ok ())) := by
  rw [rebuildTreeUsing_eq] at h
  cases e : newTree A hashOf f pl a with
  | none => rw [e] at h; simp at h
  | some x =>
    rw [e] at h
    cases x with
    | ok x =>
      obtain ⟨t1, a1⟩ := x
      obtain ⟨hne, hs, T, h1, h2, -, -, h3⟩ := newTree_built A hashOf e
      simp only [Option.some.injEq, Prod.mk.injEq] at h
      obtain ⟨rfl, rfl, rfl⟩ := h
      exact ⟨h2, .inl ⟨_, _, _, T, rfl, h3⟩⟩
    | err m =>
      simp only [Option.some.injEq, Prod.mk.injEq] at h
      obtain ⟨rfl, rfl, rfl⟩ := h
      exact ⟨List.prefix_refl _, .inr ⟨rfl, rfl, by simp⟩⟩
    | panic =>
      simp only [Option.some.injEq, Prod.mk.injEq] at h
      obtain ⟨rfl, rfl, rfl⟩ := h
      exact ⟨List.prefix_refl _, .inr ⟨rfl, rfl, by simp⟩⟩

theorem Healthy.mono {a a' : Arena α} {t : Tree} (h : Healthy A hashOf a t) (hp : a <+: a') : Healthy A hashOf a' t := by
  obtain ⟨n0, ds, hs, T, h⟩ := h
  exact ⟨n0, ds, hs, T, h.mono A hashOf hp⟩

theorem step_healthy {w w' : World α} {o : Op α} (hw : ∀ t ∈ w.2, Healthy A hashOf w.1 t) (h : Step A hashOf w o w') :
    w.1 <+: w'.1 ∧ ∀ t ∈ w'.2, Healthy A hashOf w'.1 t := by
  have using_case : ∀ {k t r t' a'} {f : Nat} {pl : List α}, w.2[k]? = some t →
      rebuildTreeUsing A hashOf f t pl w.1 = some (r, t', a') →
      w.1 <+: a' ∧ ∀ u ∈ w.2.set k t', Healthy A hashOf a' u := by
    intro k t r t' a' f pl hk hr
    obtain ⟨hp, hc⟩ := healthy_using A hashOf hr
    refine ⟨hp, fun u hu => ?_⟩
    rcases List.mem_or_eq_of_mem_set hu with hu | rfl
    · exact (hw u hu).mono A hashOf hp
    · rcases hc with ⟨n0, ds, hs, T, -, hb⟩ | ⟨rfl, rfl, -⟩
      · exact ⟨n0, ds, hs, T, hb⟩
      · exact hw u (List.mem_of_getElem? hk)
  obtain ⟨f, h⟩ := h
  cases o with
  | new pl =>
    simp only at h
    cases e : newTree A hashOf f pl w.1 with
    | none => rw [e] at h; exact h.elim
    | some x =>
      rw [e] at h
      cases x with
      | ok x =>
        obtain ⟨t, a⟩ := x
        simp only at h
        subst h
        obtain ⟨hne, hs, T, h1, h2, -, -, h3⟩ := newTree_built A hashOf e
        refine ⟨h2, fun u hu => ?_⟩
        rcases List.mem_append.1 hu with hu | hu
        · exact (hw u hu).mono A hashOf h2
        · rw [List.mem_singleton.1 hu]
          exact ⟨_, _, _, T, h3⟩
      | err m => simp only at h; subst h; exact ⟨List.prefix_refl _, hw⟩
      | panic => simp only at h; subst h; exact ⟨List.prefix_refl _, hw⟩
  | rebuildUsing k pl =>
    obtain ⟨t, r, t', a', hk, hr, rfl⟩ := h
    exact using_case hk hr
  | rebuild k =>
    obtain ⟨t, r, t', a', hk, hr, rfl⟩ := h
    obtain ⟨n0, ds, hs, T, hb⟩ := hw t (List.mem_of_getElem? hk)
    rw [hb.rebuild_eq] at hr
    exact using_case hk hr

theorem reachable_healthy {w : World α} (h : Reachable A hashOf w) : ∀ t ∈ w.2, Healthy A hashOf w.1 t := by
  obtain ⟨os, h⟩ := h
  have : ∀ {w os w'}, Steps A hashOf w os w' → (∀ t ∈ w.2, Healthy A hashOf w.1 t) → ∀ t ∈ w'.2, Healthy A hashOf w'.1 t := by
    intro w os w' h
    induction h with
    | nil => exact id
    | cons h1 _ ih => exact fun hw => ih (step_healthy A hashOf hw h1).2
  exact this h (by simp)

theorem healthy_verifies {a : Arena α} {t : Tree} (h : Healthy A hashOf a t) (f : Nat) (hf : t.leaves.length ≤ f) :
    verifyTree A hashOf f t a = some (.ok true) := by
  obtain ⟨n0, ds, hs, T, hb⟩ := h
  have := height_le ds.length
  have h2 := hb.two
  have hl := hb.leaves_length
  have e := verifyNode_ok A hashOf f hb.shape hb.perfect (hb.leafHash A hashOf) (by omega)
  rw [verifyTree, hb.root, e, Run.bind_ok, hb.eval, hb.map_hash, hb.merkleRoot]
  simp

/-- C06: a tree returned by `NewTree` verifies, also after any later calls that allocate nodes. -/
theorem C06_newTree_verifies (f : Nat) (pl : List α) (a a' a'' : Arena α) (t : Tree)
    (h : newTree A hashOf f pl a = some (.ok (t, a'))) (hp : a' <+: a'') (g : Nat) (hg : t.leaves.length ≤ g) :
    verifyTree A hashOf g t a'' = some (.ok true) := by
  obtain ⟨hne, hs, T, h1, h2, -, -, h3⟩ := newTree_built A hashOf h
  exact healthy_verifies A hashOf ⟨_, _, _, T, h3.mono A hashOf hp⟩ g hg

/-- C06: after any sequence of `NewTree`, `RebuildTree` and `RebuildTreeUsing` calls, successful or not, on
any number of trees, every tree verifies. -/
theorem C06_history_verifies (w : World α) (h : Reachable A hashOf w) (t : Tree) (ht : t ∈ w.2) (g : Nat)
    (hg : t.leaves.length ≤ g) : verifyTree A hashOf g t w.1 = some (.ok true) :=
  healthy_verifies A hashOf (reachable_healthy A hashOf h t ht) g hg

/-! ## C09 -/

/-- C09: `RebuildTree` on any tree of a reachable world succeeds, keeps the Merkle root and the sequence of leaf
payloads (including the copy of the last one), and leaves all existing nodes as they are. -/
theorem C09_rebuild (w : World α) (h : Reachable A hashOf w) (t : Tree) (ht : t ∈ w.2) :
    ∃ t' a', (∀ f, t.leaves.length + 1 ≤ f → rebuildTree A hashOf f t w.1 = some (.ok (), t', a')) ∧
      t'.merkleRoot = t.merkleRoot ∧ payloads a' t' = payloads w.1 t ∧ w.1 <+: a' := by
  obtain ⟨n0, ds, hs, T, hb⟩ := reachable_healthy A hashOf h t ht
  have hne : ds ≠ [] := by
    rintro rfl
    exact absurd hb.two (by simp)
  obtain ⟨t', a', hn⟩ := newTree_ok A hashOf ds hs w.1 hne hb.hashes
  obtain ⟨-, hs', T', h1, h2, -, -, h3⟩ := newTree_built A hashOf (hn _ (le_refl _))
  have hm := C05_merkleRoot A hashOf _ ds w.1 a' t' hs hb.hashes (hn _ (le_refl _))
  refine ⟨t', a', fun f hf => ?_, ?_, ?_, h2⟩
  · rw [hb.rebuild_eq, rebuildTreeUsing_eq, hn f (by have := hb.leaves_length; omega)]
  · have hl := hb.hashes.length_eq
    have h2 := hb.two
    rw [hm, hb.merkleRoot, rounds_eq_root _ _ (by omega)]
  · rw [h3.payloads, hb.payloads, pad_of_even ds hb.even]

/-- C09: rebuilding twice gives the root and payloads of rebuilding once. -/
theorem C09_rebuild_idempotent (w : World α) (h : Reachable A hashOf w) (k : Nat) (t t1 t2 : Tree) (a1 a2 : Arena α)
    (f g : Nat) (hk : w.2[k]? = some t) (h1 : rebuildTree A hashOf f t w.1 = some (.ok (), t1, a1))
    (h2 : rebuildTree A hashOf g t1 a1 = some (.ok (), t2, a2)) :
    t2.merkleRoot = t1.merkleRoot ∧ payloads a2 t2 = payloads a1 t1 ∧ t1.leaves.length = t.leaves.length ∧
      t2.leaves.length = t1.leaves.length := by
  have lt : ∀ (a : Arena α) (u : Tree), (payloads a u).length = u.leaves.length := fun a u => by simp [payloads]
  have mono : ∀ {f : Nat} {u : Tree} {a : Arena α} {r x b}, rebuildTree A hashOf f u a = some (r, x, b) → Healthy A hashOf a u →
      ∀ u' b', (∀ g, u.leaves.length + 1 ≤ g → rebuildTree A hashOf g u a = some (.ok (), u', b')) → x = u' ∧ b = b' := by
    intro f u a r x b h1 hu u' b' h2
    obtain ⟨n0, ds, hs, T, hb⟩ := hu
    have e1 : rebuildTree A hashOf (f + (u.leaves.length + 1)) u a = some (r, x, b) := by
      rw [hb.rebuild_eq] at h1 ⊢
      unfold rebuildTreeUsing at h1 ⊢
      cases e : create A hashOf f ds a with
      | none => rw [e] at h1; simp at h1
      | some z =>
        rw [create_mono A hashOf (Nat.le_add_right _ _) e]
        rw [e] at h1
        exact h1
    rw [h2 _ (by omega)] at e1
    simp only [Option.some.injEq, Prod.mk.injEq] at e1
    exact ⟨e1.2.1.symm, e1.2.2.symm⟩
  have ht := List.mem_of_getElem? hk
  obtain ⟨u, b, p1, p2, p3, -⟩ := C09_rebuild A hashOf w h t ht
  obtain ⟨rfl, rfl⟩ := mono h1 (reachable_healthy A hashOf h t ht) _ _ p1
  have hw1 : Reachable A hashOf (a1, w.2.set k t1) := by
    obtain ⟨os, hos⟩ := h
    refine ⟨os ++ [.rebuild k], ?_⟩
    have : ∀ {w os w' o w''}, Steps A hashOf w os w' → Step A hashOf w' o w'' → Steps A hashOf w (os ++ [o]) w'' := by
      intro w os w' o w'' hs hstep
      induction hs with
      | nil => exact .cons hstep (.nil _)
      | cons q1 _ ih => exact .cons q1 (ih hstep)
    exact this hos ⟨f, t, _, t1, a1, hk, h1, rfl⟩
  have ht1 : t1 ∈ w.2.set k t1 := by
    rw [List.mem_iff_getElem]
    exact ⟨k, by simpa using (List.getElem?_eq_some_iff.1 hk).1, by simp⟩
  obtain ⟨u, b, q1, q2, q3, -⟩ := C09_rebuild A hashOf _ hw1 t1 ht1
  obtain ⟨rfl, rfl⟩ := mono h2 (reachable_healthy A hashOf hw1 t1 ht1) _ _ q1
  refine ⟨q2, q3, ?_, ?_⟩
  · rw [← lt, ← lt w.1 t, p3]
  · rw [← lt, ← lt a1 t1, q3]

/-- C09: `RebuildTreeUsing(pl)` makes the receiver the tree `NewTree(pl)` returns. -/
theorem C09_rebuildUsing_ok (f : Nat) (t t' : Tree) (pl : List α) (a a' : Arena α) :
    rebuildTreeUsing A hashOf f t pl a = some (.ok (), t', a') ↔ newTree A hashOf f pl a = some (.ok (t', a')) := by
  rw [rebuildTreeUsing_eq]
  cases newTree A hashOf f pl a with
  | none => simp
  | some x => cases x <;> simp [Prod.ext_iff]

/-- C09: a `RebuildTreeUsing` that does not succeed leaves the receiver and all nodes unchanged, and it fails
exactly when `NewTree` fails. -/
theorem C09_rebuildUsing_fail (f : Nat) (t t' : Tree) (pl : List α) (a a' : Arena α) (r : Res Unit)
    (h : rebuildTreeUsing A hashOf f t pl a = some (r, t', a')) (hr : r ≠ .ok ()) :
    t' = t ∧ a' = a ∧ ∃ r', newTree A hashOf f pl a = some r' ∧ ∀ x, r' ≠ .ok x := by
  rw [rebuildTreeUsing_eq] at h
  cases e : newTree A hashOf f pl a with
  | none => rw [e] at h; simp at h
  | some x =>
    rw [e] at h
    cases x with
    | ok x => simp only [Option.some.injEq, Prod.mk.injEq] at h; exact absurd h.1.symm hr
    | err m =>
      simp only [Option.some.injEq, Prod.mk.injEq] at h
      exact ⟨h.2.1.symm, h.2.2.symm, _, rfl, by simp⟩
    | panic =>
      simp only [Option.some.injEq, Prod.mk.injEq] at h
      exact ⟨h.2.1.symm, h.2.2.symm, _, rfl, by simp⟩

/-- C09: on a reachable tree built from an odd list the rebuild counts the copy of the last payload as an
ordinary leaf: no leaf is marked as duplicate any more. -/
theorem C09_rebuild_drops_dup (w : World α) (h : Reachable A hashOf w) (t t' : Tree) (ht : t ∈ w.2) (a' : Arena α) (f : Nat)
    (hr : rebuildTree A hashOf f t w.1 = some (.ok (), t', a')) :
    ∀ i ∈ t'.leaves, ∃ n, a'[i]? = some n ∧ n.isDup = false := by
  obtain ⟨n0, ds, hs, T, hb⟩ := reachable_healthy A hashOf h t ht
  rw [hb.rebuild_eq, C09_rebuildUsing_ok] at hr
  obtain ⟨-, hs', T', h1, h2, -, -, h3⟩ := newTree_built A hashOf hr
  intro i hi
  obtain ⟨k, hk, rfl⟩ := List.mem_iff_getElem.1 hi
  obtain ⟨n, q1, -, -, -, q2⟩ := h3.leaf k _ (List.getElem?_eq_getElem hk)
  refine ⟨n, q1, ?_⟩
  have hl := h3.leaves_length
  rw [pad_of_even ds hb.even] at hl
  rw [q2, decide_eq_false_iff_not]
  omega

theorem demo_world : ∃ w : World Bytes, Reachable A demoHash w ∧ w.2.length = 2 ∧
    ∃ t ∈ w.2, t.leaves.length = 4 := by
  obtain ⟨t, a, h⟩ := newTree_ok A demoHash [[1], [2], [3]] [[1], [2], [3]] [] (by simp) (by simp [Hashes, demoHash])
  obtain ⟨u, b, g⟩ := newTree_ok A demoHash [[5]] [[5]] a (by simp) (by simp [Hashes, demoHash])
  refine ⟨(b, [t, u]), ⟨[.new [[1], [2], [3]], .new [[5]]], .cons (w' := (a, [t])) ⟨4, ?_⟩ (.cons ⟨2, ?_⟩ (.nil _))⟩, rfl,
    t, by simp, ?_⟩
  · simp only [h 4 (by simp)]; rfl
  · simp only [g 2 (by simp)]; rfl
  · obtain ⟨-, -, -, -, -, h3, -⟩ := newTree_built A demoHash (h 4 (by simp))
    rw [h3]; simp [Spec.pad]

example : ∃ (w : World Bytes) (t : Tree), Reachable A demoHash w ∧ t ∈ w.2 ∧ t.leaves.length = 4 ∧
    verifyTree A demoHash 4 t w.1 = some (.ok true) ∧
    ∃ t' a', rebuildTree A demoHash 5 t w.1 = some (.ok (), t', a') ∧ t'.merkleRoot = t.merkleRoot := by
  obtain ⟨w, hw, -, t, ht, hl⟩ := demo_world A
  obtain ⟨t', a', h1, h2, -⟩ := C09_rebuild A demoHash w hw t ht
  exact ⟨w, t, hw, ht, hl, C06_history_verifies A demoHash w hw t ht 4 (by omega), t', a', h1 5 (by omega), h2⟩

end Dusk.Merkle
