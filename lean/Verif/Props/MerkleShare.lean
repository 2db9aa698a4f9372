import Verif.Model.MerkleShare
import Verif.Props.MerkleTamper
import Verif.Props.Hash
import Mathlib.Data.Fintype.Basic
import Mathlib.Data.Finset.Sort
import Mathlib.Tactic.FinCases
/-!
# C138: one tree rebuilt and verified by several goroutines
-/

namespace Dusk.MerkleShare

open Merkle

variable {α S β ι : Type} (A : Hash.Algs) (hashOf : α → Res Bytes)

/-! ## What a list of payloads stands for -/

/-- Payloads a tree can be built from: at least one, each of which can be hashed. -/
def Good (pl : List α) : Prop := pl ≠ [] ∧ ∀ d ∈ pl, ∃ h, hashOf d = .ok h

/-- The hashes of the payloads. -/
def hashList (pl : List α) : List Bytes := pl.map fun d => match hashOf d with | .ok h => h | _ => []

/-- The textbook Merkle root of the payloads. -/
def rootOf (pl : List α) : Bytes := Spec.root A.sha3_256 (hashList hashOf pl)

/-- Some payload has this hash. -/
def Has (pl : List α) (x : Bytes) : Prop := ∃ p ∈ pl, hashOf p = .ok x

/-- The payloads that the tree was built from, or that some goroutine builds from. -/
def Ver (pl0 : List α) (calls : ι → Call α) (pl : List α) : Prop := pl = pl0 ∨ ∃ i, calls i = .rebuildUsing pl

theorem hashList_hashes {pl : List α} (h : Good hashOf pl) : Hashes hashOf pl (hashList hashOf pl) := by
  obtain ⟨-, h⟩ := h
  induction pl with
  | nil => exact List.Forall₂.nil
  | cons d pl ih =>
    refine List.Forall₂.cons ?_ (ih fun x hx => h x (List.mem_cons_of_mem _ hx))
    obtain ⟨x, hx⟩ := h d List.mem_cons_self
    simp only [hx]

theorem good_pad {pl : List α} (h : Good hashOf pl) : Good hashOf (Spec.pad pl) := by
  refine ⟨fun e => ?_, fun d hd => h.2 d ?_⟩
  · have := (pad_even pl h.1).2
    rw [e] at this
    simp at this
  · unfold Spec.pad at hd
    split at hd
    · rcases List.mem_append.1 hd with hd | hd
      · exact hd
      · rw [Option.mem_toList] at hd
        exact List.mem_of_getLast? hd
    · exact hd

theorem has_pad (pl : List α) (x : Bytes) : Has hashOf (Spec.pad pl) x ↔ Has hashOf pl x := by
  have : ∀ d, d ∈ Spec.pad pl ↔ d ∈ pl := by
    intro d
    unfold Spec.pad
    split
    · rw [List.mem_append, Option.mem_toList]
      exact ⟨fun h => h.elim id List.mem_of_getLast?, .inl⟩
    · rfl
  simp only [Has, this]

theorem rootOf_pad (pl : List α) : rootOf A hashOf (Spec.pad pl) = rootOf A hashOf pl := by
  have : hashList hashOf (Spec.pad pl) = Spec.pad (hashList hashOf pl) := by
    unfold Spec.pad hashList
    rw [List.length_map]
    split
    · rw [List.map_append, List.getLast?_map]
      cases pl.getLast? <;> rfl
    · rfl
  rw [rootOf, this, Spec.root, level_pad, rootOf, Spec.root]

theorem pad_pad {pl : List α} (h : pl ≠ []) : Spec.pad (Spec.pad pl) = Spec.pad pl := pad_of_even _ (pad_even pl h).1

/-- A tree of the payloads, built somewhere in the arena. -/
def TreeOf (a : Arena α) (pl : List α) (t : Tree) : Prop :=
  ∃ f b b', newTree A hashOf f pl b = some (.ok (t, b')) ∧ b' <+: a

theorem TreeOf.mono {a a' : Arena α} {pl : List α} {t : Tree} (h : TreeOf A hashOf a pl t) (hp : a <+: a') :
    TreeOf A hashOf a' pl t := by
  obtain ⟨f, b, b', h, h'⟩ := h
  exact ⟨f, b, b', h, h'.trans hp⟩

theorem TreeOf.good {a : Arena α} {pl : List α} {t : Tree} (h : TreeOf A hashOf a pl t) : Good hashOf pl := by
  obtain ⟨f, b, b', h, -⟩ := h
  obtain ⟨hne, hs, T, h1, -⟩ := newTree_built A hashOf h
  exact ⟨hne, (hashes_iff hashOf pl).1 ⟨hs, h1⟩⟩

theorem TreeOf.merkleRoot {a : Arena α} {pl : List α} {t : Tree} (h : TreeOf A hashOf a pl t) :
    t.merkleRoot = rootOf A hashOf pl := by
  have hg := h.good
  obtain ⟨f, b, b', h, -⟩ := h
  exact C05_merkleRoot A hashOf f pl b b' t _ (hashList_hashes hashOf hg) h

theorem TreeOf.verifyNode {a : Arena α} {pl : List α} {t : Tree} (h : TreeOf A hashOf a pl t) {g : Nat} (hg : pl.length + 1 ≤ g) :
    verifyNode A hashOf a g t.root = some (.ok (rootOf A hashOf pl)) := by
  have hm := h.merkleRoot
  obtain ⟨f, b, b', h, hp⟩ := h
  obtain ⟨hne, hs, T, -, -, -, -, hb⟩ := newTree_built A hashOf h
  have hl := hb.leaves_length
  have := pad_length pl hne
  have hv := C06_newTree_verifies A hashOf f pl b b' a t h hp g (by omega)
  rw [verifyTree] at hv
  cases e : Merkle.verifyNode A hashOf a g t.root with
  | none => rw [e] at hv; simp at hv
  | some r =>
    rw [e] at hv
    cases r with
    | err m => simp at hv
    | panic => simp at hv
    | ok x =>
      simp only [Run.bind_ok, Option.some.injEq, Res.ok.injEq, decide_eq_true_eq] at hv
      rw [← hm, hv]

theorem TreeOf.content {a : Arena α} {pl : List α} {t : Tree} (h : TreeOf A hashOf a pl t) {g : Nat} (hg : pl.length + 1 ≤ g)
    {d : α} {x : Bytes} (hd : hashOf d = .ok x) :
    ∃ r, contentLoop A hashOf g a d t.leaves = some (.ok r) ∧ (r = true ↔ Has hashOf pl x) := by
  obtain ⟨f, b, b', h, hp⟩ := h
  exact C07_membership A hashOf f pl b b' a t h hp d x hd g hg

/-- Reading the payloads off the leaves. -/
theorem TreeOf.read {m : Mem α} {pl : List α} {t : Tree} (h : TreeOf A hashOf m.arena pl t) (hl : m.tree.leaves = t.leaves) :
    readLeaves m = .ok (Spec.pad pl) := by
  obtain ⟨f, b, b', h, hp⟩ := h
  obtain ⟨hne, hs, T, -, -, -, -, hb⟩ := newTree_built A hashOf h
  replace hb := Built.mono A hashOf hb hp
  rw [readLeaves, hl]
  refine mapRes_ok _ t.leaves _ (List.forall₂_iff_get.2 ⟨hb.leaves_length, fun k hk hk' => ?_⟩)
  obtain ⟨n, h1, -, h2, -⟩ := hb.leaf k _ (List.getElem?_eq_getElem hk)
  simp only [List.get_eq_getElem, idx_eq_ok.2 h1, Res.bind_ok, h2, List.getElem?_eq_getElem hk']

/-- Building succeeds, and gives a tree of the payloads. -/
theorem create_treeOf {pl : List α} (h : Good hashOf pl) (a : Arena α) :
    ∃ r lv a' n, create A hashOf (pl.length + 1) pl a = some (.ok (r, lv, a')) ∧ a <+: a' ∧ idx a' r = .ok n ∧
      n.hash = rootOf A hashOf pl ∧ TreeOf A hashOf a' pl ⟨some r, n.hash, lv⟩ := by
  obtain ⟨r, lv, a', T, n, h1, h2, h3, -, -⟩ := create_ok A hashOf pl _ a h.1 (hashList_hashes hashOf h)
  have ht : TreeOf A hashOf a' pl ⟨some r, n.hash, lv⟩ :=
    ⟨pl.length + 1, a, a', by simp only [newTree, h1 _ (le_refl _), Run.bind_ok, h3], List.prefix_refl _⟩
  exact ⟨r, lv, a', n, h1 _ (le_refl _), h2, h3, ht.merkleRoot, ht⟩

theorem idx_prefix {a a' : List β} (h : a <+: a') {i : Nat} {n : β} (e : idx a i = .ok n) : idx a' i = .ok n := by
  obtain ⟨b, rfl⟩ := h
  rw [idx_eq_ok] at e ⊢
  rw [List.getElem?_append_left (List.getElem?_eq_some_iff.1 e).1, e]

/-! ## Alone -/

/-- C138: without other goroutines `RebuildTreeUsing` is the function of C06. -/
theorem C138_alone_using (t : Tree) (a : Arena α) (pl : List α) (r : Res Unit) (t' : Tree) (a' : Arena α)
    (h : rebuildTreeUsing A hashOf (pl.length + 1) t pl a = some (r, t', a')) :
    run ⟨t, a⟩ (rebuildUsingP A hashOf pl) = (⟨t', a'⟩, r.map fun _ => none) := by
  unfold rebuildTreeUsing at h
  cases e : create A hashOf (pl.length + 1) pl a with
  | none => rw [e] at h; simp at h
  | some x =>
    rw [e] at h
    cases x with
    | err m =>
      simp only [Option.some.injEq, Prod.mk.injEq] at h
      obtain ⟨rfl, rfl, rfl⟩ := h
      simp [run, rebuildUsingP, e]
    | panic =>
      simp only [Option.some.injEq, Prod.mk.injEq] at h
      obtain ⟨rfl, rfl, rfl⟩ := h
      simp [run, rebuildUsingP, e]
    | ok x =>
      obtain ⟨q, lv, b⟩ := x
      obtain ⟨-, -, -, n, -, -, hn, -⟩ := create_built A hashOf e
      simp only [hn, Option.some.injEq, Prod.mk.injEq] at h
      obtain ⟨rfl, rfl, rfl⟩ := h
      simp [run, rebuildUsingP, writeRoot, writeLeaves, writeHash, e, hn]

/-- C138: without other goroutines `VerifyTree` is the function of C06. -/
theorem C138_alone_verify (t : Tree) (a : Arena α) (g : Nat) (r : Res Bool) (h : verifyTree A hashOf g t a = some r) :
    run ⟨t, a⟩ (verifyTreeP A hashOf g) = (⟨t, a⟩, r.map some) := by
  unfold verifyTree at h
  cases e : verifyNode A hashOf a g t.root with
  | none => rw [e] at h; simp at h
  | some x =>
    rw [e] at h
    cases x with
    | err m =>
      simp only [Run.bind_err, Option.some.injEq] at h
      subst h
      simp [run, verifyTreeP, e]
    | panic =>
      simp only [Run.bind_panic, Option.some.injEq] at h
      subst h
      simp [run, verifyTreeP, e]
    | ok x =>
      simp only [Run.bind_ok, Option.some.injEq] at h
      subst h
      simp [run, verifyTreeP, compareP, e]

/-- C138: without other goroutines `VerifyContent` is the function of C07. -/
theorem C138_alone_content (t : Tree) (a : Arena α) (g : Nat) (d : α) (r : Res Bool) (h : verifyContent A hashOf g t d a = some r) :
    run ⟨t, a⟩ (verifyContentP A hashOf g d) = (⟨t, a⟩, r.map some) := by
  unfold verifyContent at h
  cases r <;> simp [run, verifyContentP, h]

/-- C138: without other goroutines `RebuildTree` on a tree of the package is the function of C09. -/
theorem C138_alone_rebuild (t : Tree) (a : Arena α) (pl : List α) (ht : TreeOf A hashOf a pl t) (f : Nat) (hf : pl.length + 2 ≤ f)
    (r : Res Unit) (t' : Tree) (a' : Arena α) (h : rebuildTree A hashOf f t a = some (r, t', a')) :
    run ⟨t, a⟩ (rebuildP A hashOf) = (⟨t', a'⟩, r.map fun _ => none) := by
  have hg := good_pad hashOf ht.good
  have hl := pad_length pl ht.good.1
  have he : rebuildTree A hashOf f t a = rebuildTreeUsing A hashOf f t (Spec.pad pl) a := by
    obtain ⟨_, b, b', hn, hp⟩ := ht
    obtain ⟨-, hs, T, -, -, -, -, hb⟩ := newTree_built A hashOf hn
    exact (hb.mono A hashOf hp).rebuild_eq A hashOf f
  rw [he] at h
  have h2 : rebuildTreeUsing A hashOf ((Spec.pad pl).length + 1) t (Spec.pad pl) a = some (r, t', a') := by
    obtain ⟨q, lv, b, n, h1, -, h3, -⟩ := create_treeOf A hashOf hg a
    unfold rebuildTreeUsing at h ⊢
    rw [create_mono A hashOf (by omega) h1] at h
    rw [h1]
    exact h
  simp only [run, rebuildP, TreeOf.read A hashOf (m := ⟨t, a⟩) ht rfl, id]
  exact C138_alone_using A hashOf t a _ r t' a' h2

/-! ## Every schedule -/

/-- Payloads of a version, perhaps after `RebuildTree`, which counts a copy of the last payload as a payload. -/
def Play (V : List α → Prop) (pl : List α) : Prop := ∃ v, V v ∧ (pl = v ∨ pl = Spec.pad v)

/-- How far a call may be, and what it holds. -/
inductive Stage (V : List α → Prop) (g : Nat) (a : Arena α) : Call α → Prog (Mem α) (Option Bool) → Prop
  | using0 (pl) : Play V pl → Stage V g a (.rebuildUsing pl) (rebuildUsingP A hashOf pl)
  | again0 : Stage V g a .rebuild (rebuildP A hashOf)
  | again1 (pl) : Play V pl → Stage V g a .rebuild (rebuildUsingP A hashOf pl)
  | w1 (c pl t r) : (c = .rebuild ∨ ∃ p, c = .rebuildUsing p) → Play V pl → TreeOf A hashOf a pl t → t.root = some r →
      idx a r = .ok n → n.hash = rootOf A hashOf pl → Stage V g a c (writeRoot r t.leaves)
  | w2 (c pl t r) : (c = .rebuild ∨ ∃ p, c = .rebuildUsing p) → Play V pl → TreeOf A hashOf a pl t →
      idx a r = .ok n → n.hash = rootOf A hashOf pl → Stage V g a c (writeLeaves r t.leaves)
  | w3 (c pl r) : (c = .rebuild ∨ ∃ p, c = .rebuildUsing p) → Play V pl →
      idx a r = .ok n → n.hash = rootOf A hashOf pl → Stage V g a c (writeHash r)
  | w4 (c) : (c = .rebuild ∨ ∃ p, c = .rebuildUsing p) → Stage V g a c (.ret (.ok none))
  | v0 : Stage V g a .verifyTree (verifyTreeP A hashOf g)
  | v1 (pl) : Play V pl → Stage V g a .verifyTree (compareP (rootOf A hashOf pl))
  | v2 (pl pl') : Play V pl → Play V pl' →
      Stage V g a .verifyTree (.ret (.ok (some (decide (rootOf A hashOf pl' = rootOf A hashOf pl)))))
  | c0 (d) : Stage V g a (.verifyContent d) (verifyContentP A hashOf g d)
  | c1 (d x pl b) : hashOf d = .ok x → Play V pl → (b = true ↔ Has hashOf pl x) →
      Stage V g a (.verifyContent d) (.ret (.ok (some b)))

theorem Stage.mono {V : List α → Prop} {g : Nat} {a a' : Arena α} {c : Call α} {p : Prog (Mem α) (Option Bool)}
    (h : Stage A hashOf V g a c p) (hp : a <+: a') : Stage A hashOf V g a' c p := by
  cases h with
  | using0 pl h => exact .using0 pl h
  | again0 => exact .again0
  | again1 pl h => exact .again1 pl h
  | w1 _ pl t r h1 h2 h3 h4 h5 h6 => exact .w1 _ pl t r h1 h2 (h3.mono A hashOf hp) h4 (idx_prefix hp h5) h6
  | w2 _ pl t r h1 h2 h3 h5 h6 => exact .w2 _ pl t r h1 h2 (h3.mono A hashOf hp) (idx_prefix hp h5) h6
  | w3 _ pl r h1 h2 h5 h6 => exact .w3 _ pl r h1 h2 (idx_prefix hp h5) h6
  | w4 _ h => exact .w4 _ h
  | v0 => exact .v0
  | v1 pl h => exact .v1 pl h
  | v2 pl pl' h h' => exact .v2 pl pl' h h'
  | c0 d => exact .c0 d
  | c1 d x pl b h1 h2 h3 => exact .c1 d x pl b h1 h2 h3

/-- The three fields of the tree each belong to some version. -/
def MemOk (V : List α → Prop) (m : Mem α) : Prop :=
  (∃ u t, Play V u ∧ TreeOf A hashOf m.arena u t ∧ m.tree.root = t.root) ∧
  (∃ v t, Play V v ∧ TreeOf A hashOf m.arena v t ∧ m.tree.leaves = t.leaves) ∧
  ∃ w, Play V w ∧ m.tree.merkleRoot = rootOf A hashOf w

theorem MemOk.arena {V : List α → Prop} {m : Mem α} (h : MemOk A hashOf V m) {a : Arena α} (hp : m.arena <+: a) :
    MemOk A hashOf V { m with arena := a } := by
  obtain ⟨⟨u, t, h1, h2, h3⟩, ⟨v, t', h4, h5, h6⟩, w, h7, h8⟩ := h
  exact ⟨⟨u, t, h1, h2.mono A hashOf hp, h3⟩, ⟨v, t', h4, h5.mono A hashOf hp, h6⟩, w, h7, h8⟩

/-- One step of one goroutine. -/
theorem next_ok {V : List α → Prop} (hV : ∀ v, V v → Good hashOf v) {g : Nat} (hg : ∀ v, V v → v.length + 2 ≤ g)
    {m : Mem α} (hm : MemOk A hashOf V m) {c : Call α} (hc : ∀ d, c = .verifyContent d → ∃ x, hashOf d = .ok x)
    {p : Prog (Mem α) (Option Bool)} (h : Stage A hashOf V g m.arena c p) :
    m.arena <+: (next m p).1.arena ∧ MemOk A hashOf V (next m p).1 ∧ Stage A hashOf V g (next m p).1.arena c (next m p).2 := by
  have good : ∀ {pl}, Play V pl → Good hashOf pl := by
    rintro pl ⟨v, hv, rfl | rfl⟩
    · exact hV _ hv
    · exact good_pad hashOf (hV _ hv)
  have len : ∀ {pl}, Play V pl → pl.length + 1 ≤ g := by
    rintro pl ⟨v, hv, rfl | rfl⟩
    · have := hg _ hv; omega
    · have := hg _ hv
      have := pad_length v (hV _ hv).1
      omega
  have build : ∀ {pl}, Play V pl → (c = .rebuild ∨ ∃ p, c = .rebuildUsing p) →
      m.arena <+: (next m (rebuildUsingP A hashOf pl)).1.arena ∧ MemOk A hashOf V (next m (rebuildUsingP A hashOf pl)).1 ∧
        Stage A hashOf V g (next m (rebuildUsingP A hashOf pl)).1.arena c (next m (rebuildUsingP A hashOf pl)).2 := by
    intro pl hpl hc
    obtain ⟨r, lv, a', n, h1, h2, h3, h4, h5⟩ := create_treeOf A hashOf (good hpl) m.arena
    simp only [next, rebuildUsingP, h1]
    exact ⟨h2, hm.arena A hashOf h2, .w1 c pl _ r hc hpl h5 rfl h3 h4⟩
  cases h with
  | using0 pl h => exact build h (.inr ⟨pl, rfl⟩)
  | again0 =>
    obtain ⟨v, t, ⟨w, hw, hvw⟩, h5, h6⟩ := hm.2.1
    simp only [next, rebuildP, id, h5.read A hashOf h6]
    refine ⟨List.prefix_refl _, hm, .again1 _ ⟨w, hw, .inr ?_⟩⟩
    rcases hvw with rfl | rfl
    · rfl
    · exact pad_pad (hV _ hw).1
  | again1 pl h => exact build h (.inl rfl)
  | w1 _ pl t r h1 h2 h3 h4 h5 h6 =>
    exact ⟨List.prefix_refl _, ⟨⟨pl, t, h2, h3, h4.symm⟩, hm.2⟩, .w2 _ pl t r h1 h2 h3 h5 h6⟩
  | w2 _ pl t r h1 h2 h3 h5 h6 =>
    exact ⟨List.prefix_refl _, ⟨hm.1, ⟨pl, t, h2, h3, rfl⟩, hm.2.2⟩, .w3 _ pl r h1 h2 h5 h6⟩
  | w3 _ pl r h1 h2 h5 h6 =>
    simp only [next, writeHash, h5]
    exact ⟨List.prefix_refl _, ⟨hm.1, hm.2.1, pl, h2, h6⟩, .w4 _ h1⟩
  | w4 _ h => exact ⟨List.prefix_refl _, hm, .w4 _ h⟩
  | v0 =>
    obtain ⟨u, t, h1, h2, h3⟩ := hm.1
    simp only [next, verifyTreeP, id, h3, h2.verifyNode A hashOf (len h1)]
    exact ⟨List.prefix_refl _, hm, .v1 u h1⟩
  | v1 pl h =>
    obtain ⟨w, h1, h2⟩ := hm.2.2
    simp only [next, compareP, id, h2]
    exact ⟨List.prefix_refl _, hm, .v2 pl w h h1⟩
  | v2 pl pl' h h' => exact ⟨List.prefix_refl _, hm, .v2 pl pl' h h'⟩
  | c0 d =>
    obtain ⟨x, hx⟩ := hc d rfl
    obtain ⟨v, t, h1, h2, h3⟩ := hm.2.1
    obtain ⟨b, h4, h5⟩ := h2.content A hashOf (len h1) hx
    simp only [next, verifyContentP, id, h3, h4]
    exact ⟨List.prefix_refl _, hm, .c1 d x v b hx h1 h5⟩
  | c1 d x pl b h1 h2 h3 => exact ⟨List.prefix_refl _, hm, .c1 d x pl b h1 h2 h3⟩

theorem exec_append [DecidableEq ι] (s : Shared S ι β) (l l' : List ι) : s.exec (l ++ l') = (s.exec l).exec l' := by
  simp [Shared.exec, List.foldl_append]

theorem exec_ok [DecidableEq ι] {V : List α → Prop} (hV : ∀ v, V v → Good hashOf v) {g : Nat} (hg : ∀ v, V v → v.length + 2 ≤ g)
    {calls : ι → Call α} (hc : ∀ i d, calls i = .verifyContent d → ∃ x, hashOf d = .ok x) (sched : List ι) :
    ∀ (s : Shared (Mem α) ι (Option Bool)), MemOk A hashOf V s.mem → (∀ i, Stage A hashOf V g s.mem.arena (calls i) (s.prog i)) →
      MemOk A hashOf V (s.exec sched).mem ∧
        ∀ i, Stage A hashOf V g (s.exec sched).mem.arena (calls i) ((s.exec sched).prog i) := by
  induction sched with
  | nil => exact fun s h h' => ⟨h, h'⟩
  | cons i l ih =>
    intro s h h'
    obtain ⟨p1, p2, p3⟩ := next_ok A hashOf hV hg h (hc i) (h' i)
    refine ih (s.step i) p2 fun j => ?_
    by_cases hj : j = i
    · subst hj
      simpa [Shared.step] using p3
    · simpa [Shared.step, hj] using (h' j).mono A hashOf p1

theorem start_ok {pl0 : List α} {calls : ι → Call α} {g : Nat} {f : Nat} {b a0 : Arena α} {t0 : Tree}
    (h0 : newTree A hashOf f pl0 b = some (.ok (t0, a0))) :
    MemOk A hashOf (Ver pl0 calls) ⟨t0, a0⟩ ∧ ∀ i, Stage A hashOf (Ver pl0 calls) g a0 (calls i) ((calls i).prog A hashOf g) := by
  have ht : TreeOf A hashOf a0 pl0 t0 := ⟨f, b, a0, h0, List.prefix_refl _⟩
  have hp : Play (Ver pl0 calls) pl0 := ⟨pl0, .inl rfl, .inl rfl⟩
  refine ⟨⟨⟨pl0, t0, hp, ht, rfl⟩, ⟨pl0, t0, hp, ht, rfl⟩, pl0, hp, ht.merkleRoot⟩, fun i => ?_⟩
  cases e : calls i with
  | rebuildUsing pl => exact .using0 pl ⟨pl, .inr ⟨i, e⟩, .inl rfl⟩
  | rebuild => exact .again0
  | verifyTree => exact .v0
  | verifyContent d => exact .c0 d

theorem Play.root {V : List α → Prop} {pl : List α} (h : Play V pl) : ∃ v, V v ∧ rootOf A hashOf pl = rootOf A hashOf v := by
  obtain ⟨v, hv, rfl | rfl⟩ := h
  · exact ⟨_, hv, rfl⟩
  · exact ⟨_, hv, rootOf_pad A hashOf _⟩

theorem Play.has {V : List α → Prop} {pl : List α} (h : Play V pl) : ∃ v, V v ∧ ∀ x, Has hashOf pl x ↔ Has hashOf v x := by
  obtain ⟨v, hv, rfl | rfl⟩ := h
  · exact ⟨_, hv, fun _ => Iff.rfl⟩
  · exact ⟨_, hv, has_pad hashOf _⟩

/-- What a call may return when the versions of the tree are those of `V`: rebuilding succeeds; `VerifyTree` compares the Merkle root of
one version with that of perhaps another; `VerifyContent` says whether one version has a payload of this hash. -/
def Answer (V : List α → Prop) (r : Res (Option Bool)) : Call α → Prop
  | .rebuildUsing _ => r = .ok none
  | .rebuild => r = .ok none
  | .verifyTree => ∃ u w, V u ∧ V w ∧ r = .ok (some (decide (rootOf A hashOf w = rootOf A hashOf u)))
  | .verifyContent d => ∃ v x b, V v ∧ hashOf d = .ok x ∧ r = .ok (some b) ∧ (b = true ↔ Has hashOf v x)

/-- C138: for every schedule of any number of calls on one tree, with payloads that can be hashed: no call panics or fails, and each
returns what one or two of the versions give. -/
theorem C138_answers [DecidableEq ι] (pl0 : List α) (calls : ι → Call α) (hV : ∀ v, Ver pl0 calls v → Good hashOf v) (g : Nat)
    (hg : ∀ v, Ver pl0 calls v → v.length + 2 ≤ g) (hc : ∀ i d, calls i = .verifyContent d → ∃ x, hashOf d = .ok x) (f : Nat)
    (b a0 : Arena α) (t0 : Tree) (h0 : newTree A hashOf f pl0 b = some (.ok (t0, a0))) (sched : List ι) (i : ι) (r : Res (Option Bool))
    (h : ((start A hashOf g ⟨t0, a0⟩ calls).exec sched).prog i = .ret r) : Answer A hashOf (Ver pl0 calls) r (calls i) := by
  obtain ⟨p1, p2⟩ := start_ok A hashOf (g := g) (calls := calls) h0
  have q := (exec_ok A hashOf hV hg hc sched (start A hashOf g ⟨t0, a0⟩ calls) p1 p2).2 i
  rw [h] at q
  generalize hci : calls i = c at q ⊢
  cases q with
  | w4 _ hc => rcases hc with rfl | ⟨p, rfl⟩ <;> rfl
  | v2 pl pl' h1 h2 =>
    obtain ⟨u, hu, e⟩ := h1.root A hashOf
    obtain ⟨w, hw, e'⟩ := h2.root A hashOf
    exact ⟨u, w, hu, hw, by rw [e, e']⟩
  | c1 d x pl b h1 h2 h3 =>
    obtain ⟨v, hv, e⟩ := h2.has hashOf
    exact ⟨v, x, b, hv, h1, rfl, h3.trans (e x)⟩

/-- C138: at any moment of any schedule the tree has the Merkle root of one version, nodes of another and leaves of a third. -/
theorem C138_fields [DecidableEq ι] (pl0 : List α) (calls : ι → Call α) (hV : ∀ v, Ver pl0 calls v → Good hashOf v) (g : Nat)
    (hg : ∀ v, Ver pl0 calls v → v.length + 2 ≤ g) (hc : ∀ i d, calls i = .verifyContent d → ∃ x, hashOf d = .ok x) (f : Nat)
    (b a0 : Arena α) (t0 : Tree) (h0 : newTree A hashOf f pl0 b = some (.ok (t0, a0))) (sched : List ι) (m : Mem α)
    (hm : m = ((start A hashOf g ⟨t0, a0⟩ calls).exec sched).mem) :
    ∃ u v w, Ver pl0 calls u ∧ Ver pl0 calls v ∧ Ver pl0 calls w ∧ m.tree.merkleRoot = rootOf A hashOf w ∧
      verifyTree A hashOf g m.tree m.arena = some (.ok (decide (rootOf A hashOf w = rootOf A hashOf u))) ∧
      ∀ d x, hashOf d = .ok x →
        ∃ r, verifyContent A hashOf g m.tree d m.arena = some (.ok r) ∧ (r = true ↔ Has hashOf v x) := by
  obtain ⟨p1, p2⟩ := start_ok A hashOf (g := g) (calls := calls) h0
  obtain ⟨⟨u, t, h1, h2, h3⟩, ⟨v, t', h4, h5, h6⟩, w, h7, h8⟩ :=
    (exec_ok A hashOf hV hg hc sched (start A hashOf g ⟨t0, a0⟩ calls) p1 p2).1
  rw [← hm] at h2 h3 h5 h6 h8
  have len : ∀ {pl}, Play (Ver pl0 calls) pl → pl.length + 1 ≤ g := by
    rintro pl ⟨v, hv, rfl | rfl⟩
    · have := hg _ hv; omega
    · have := hg _ hv
      have := pad_length v (hV _ hv).1
      omega
  obtain ⟨u', hu, eu⟩ := h1.root A hashOf
  obtain ⟨w', hw, ew⟩ := h7.root A hashOf
  obtain ⟨v', hv, ev⟩ := h4.has hashOf
  refine ⟨u', v', w', hu, hv, hw, by rw [h8, ew], ?_, fun d x hd => ?_⟩
  · rw [verifyTree, h3, h2.verifyNode A hashOf (len h1), Run.bind_ok, h8, ew, eu]
  · obtain ⟨r, e1, e2⟩ := h5.content A hashOf (len h4) hd
    exact ⟨r, by rw [verifyContent, h6, e1], e2.trans (ev x)⟩

/-! ## Schedules that go wrong -/

/-- All steps of `RebuildTreeUsing`, while nobody else runs. -/
theorem exec_using [DecidableEq ι] (s : Shared (Mem α) ι (Option Bool)) (j : ι) (pl : List α) (hpl : Good hashOf pl)
    (h : s.prog j = rebuildUsingP A hashOf pl) :
    ∃ t a, TreeOf A hashOf a pl t ∧ s.mem.arena <+: a ∧
      s.exec [j, j, j, j] = ⟨⟨t, a⟩, Function.update s.prog j (.ret (.ok none))⟩ := by
  obtain ⟨r, lv, a', n, h1, h2, h3, h4, h5⟩ := create_treeOf A hashOf hpl s.mem.arena
  refine ⟨_, a', h5, h2, ?_⟩
  simp [Shared.exec, Shared.step, h, next, rebuildUsingP, h1, writeRoot, writeLeaves, writeHash, h3]

/-- C138 violated: while one goroutine runs `RebuildTreeUsing`, `VerifyTree` compares the old nodes with the new Merkle root: an honest
tree is reported as wrong, although both versions are honest. -/
theorem C138_verify_violated [DecidableEq ι] (pl0 pl : List α) (hpl : Good hashOf pl) (g : Nat) (hg : pl0.length + 1 ≤ g) (f : Nat)
    (b a0 : Arena α) (t0 : Tree) (h0 : newTree A hashOf f pl0 b = some (.ok (t0, a0))) (calls : ι → Call α) (i j : ι) (hij : i ≠ j)
    (hi : calls i = .verifyTree) (hj : calls j = .rebuildUsing pl) (hne : rootOf A hashOf pl ≠ rootOf A hashOf pl0) :
    ∃ sched, ((start A hashOf g ⟨t0, a0⟩ calls).exec sched).prog i = .ret (.ok (some false)) ∧
      ((start A hashOf g ⟨t0, a0⟩ calls).exec sched).prog j = .ret (.ok none) := by
  have ht : TreeOf A hashOf a0 pl0 t0 := ⟨f, b, a0, h0, List.prefix_refl _⟩
  have e1 : (start A hashOf g ⟨t0, a0⟩ calls).exec [i]
      = ⟨⟨t0, a0⟩, Function.update (start A hashOf g ⟨t0, a0⟩ calls).prog i (compareP (rootOf A hashOf pl0))⟩ := by
    simp [Shared.exec, Shared.step, start, hi, Call.prog, next, verifyTreeP, ht.verifyNode A hashOf hg]
  obtain ⟨t, a, h1, h2, h3⟩ := exec_using A hashOf ((start A hashOf g ⟨t0, a0⟩ calls).exec [i]) j pl hpl
    (by rw [e1]; simp [Ne.symm hij, start, hj, Call.prog])
  refine ⟨[i] ++ [j, j, j, j] ++ [i], ?_⟩
  rw [exec_append, exec_append, h3, e1]
  simp [Shared.exec, Shared.step, hij, Ne.symm hij, next, compareP, h1.merkleRoot, hne]

/-- C138 violated: `RebuildTree` that has read the leaves before `RebuildTreeUsing` replaces them, and goes on after it, puts the old
tree back; both return nil. -/
theorem C138_undone_violated [DecidableEq ι] (pl0 pl : List α) (hpl : Good hashOf pl) (g : Nat) (f : Nat)
    (b a0 : Arena α) (t0 : Tree) (h0 : newTree A hashOf f pl0 b = some (.ok (t0, a0))) (calls : ι → Call α) (i j : ι) (hij : i ≠ j)
    (hi : calls i = .rebuild) (hj : calls j = .rebuildUsing pl) :
    ∃ s1 s2 s, s1 = (start A hashOf g ⟨t0, a0⟩ calls).exec ([i] ++ [j, j, j, j]) ∧ s = s1.exec s2 ∧
      s1.prog j = .ret (.ok none) ∧ s1.mem.tree.merkleRoot = rootOf A hashOf pl ∧
      s.prog i = .ret (.ok none) ∧ s.mem.tree.merkleRoot = rootOf A hashOf pl0 ∧
      ∀ d x, hashOf d = .ok x → ∃ r, verifyContent A hashOf (pl0.length + 2) s.mem.tree d s.mem.arena = some (.ok r) ∧
        (r = true ↔ Has hashOf pl0 x) := by
  have ht : TreeOf A hashOf a0 pl0 t0 := ⟨f, b, a0, h0, List.prefix_refl _⟩
  have e1 : (start A hashOf g ⟨t0, a0⟩ calls).exec [i]
      = ⟨⟨t0, a0⟩, Function.update (start A hashOf g ⟨t0, a0⟩ calls).prog i (rebuildUsingP A hashOf (Spec.pad pl0))⟩ := by
    simp [Shared.exec, Shared.step, start, hi, Call.prog, next, rebuildP, TreeOf.read A hashOf (m := ⟨t0, a0⟩) ht rfl]
  obtain ⟨t, a, h1, h2, h3⟩ := exec_using A hashOf ((start A hashOf g ⟨t0, a0⟩ calls).exec [i]) j pl hpl
    (by rw [e1]; simp [Ne.symm hij, start, hj, Call.prog])
  obtain ⟨t', a', h1', h2', h3'⟩ := exec_using A hashOf
    ((start A hashOf g ⟨t0, a0⟩ calls).exec ([i] ++ [j, j, j, j])) i (Spec.pad pl0) (good_pad hashOf ht.good)
    (by rw [exec_append, h3, e1]; simp [hij])
  refine ⟨_, [i, i, i, i], _, rfl, rfl, ?_, ?_, ?_, ?_, fun d x hd => ?_⟩
  · rw [exec_append, h3]; simp
  · rw [exec_append, h3]; exact h1.merkleRoot
  · rw [h3']; simp
  · rw [h3']; exact h1'.merkleRoot.trans (rootOf_pad A hashOf pl0)
  · rw [h3']
    obtain ⟨r, q1, q2⟩ := h1'.content A hashOf (g := pl0.length + 2) (by have := pad_length pl0 ht.good.1; omega) hd
    exact ⟨r, q1, q2.trans (has_pad hashOf pl0 x)⟩

/-- One step of each goroutine of a list; what the steps establish (`R`) is kept by those of the others. -/
theorem exec_phase [DecidableEq ι] (P : ι → Prog S β) (R : S → ι → Prog S β → Prop)
    (h : ∀ m i, R (next m (P i)).1 i (next m (P i)).2) (keep : ∀ m i j q, R m j q → R (next m (P i)).1 j q) (l : List ι) (hl : l.Nodup) :
    ∀ s : Shared S ι β, (∀ i ∈ l, s.prog i = P i) → (∀ i ∉ l, R s.mem i (s.prog i)) →
      ∀ i, R (s.exec l).mem i ((s.exec l).prog i) := by
  induction l with
  | nil => exact fun s _ h' i => h' i (by simp)
  | cons k l ih =>
    intro s hs hs'
    rw [List.nodup_cons] at hl
    refine ih hl.2 (s.step k) (fun i hi => ?_) fun i hi => ?_
    · have : i ≠ k := fun e => hl.1 (e ▸ hi)
      simpa [Shared.step, this] using hs i (List.mem_cons_of_mem _ hi)
    · by_cases hik : i = k
      · subst hik
        simpa [Shared.step, hs i List.mem_cons_self] using h s.mem i
      · have hk := hs k List.mem_cons_self
        simpa [Shared.step, hik, hk] using keep s.mem k i _ (hs' i (by simp [hik, hi]))

/-- One step of each goroutine of a list that does not depend on the memory: the memory sees the writes in this order. -/
theorem exec_writes [DecidableEq ι] (I : S → Prop) (w : ι → S → S) (Q : ι → Prog S β) (l : List ι) (hl : l.Nodup) :
    ∀ s : Shared S ι β, I s.mem → (∀ i ∈ l, ∀ m, I m → next m (s.prog i) = (w i m, Q i) ∧ I (w i m)) →
      I (s.exec l).mem ∧ (s.exec l).mem = l.foldl (fun m i => w i m) s.mem ∧
      ∀ i, (s.exec l).prog i = if i ∈ l then Q i else s.prog i := by
  induction l with
  | nil => exact fun s h _ => ⟨h, rfl, fun i => by simp [Shared.exec]⟩
  | cons k l ih =>
    intro s h0 h
    rw [List.nodup_cons] at hl
    obtain ⟨h1, h2⟩ := h k List.mem_cons_self s.mem h0
    have e : s.step k = ⟨w k s.mem, Function.update s.prog k (Q k)⟩ := by simp [Shared.step, h1]
    have hpk : ∀ i ∈ l, i ≠ k := fun i hi e => hl.1 (e ▸ hi)
    obtain ⟨p1, p2, p3⟩ := ih hl.2 (s.step k) (by rw [e]; exact h2) fun i hi m hm => by
      have := h i (List.mem_cons_of_mem _ hi) m hm
      simpa [e, hpk i hi] using this
    refine ⟨p1, p2.trans (by rw [e]; rfl), fun i => (p3 i).trans ?_⟩
    by_cases hi : i ∈ l
    · simp [hi]
    · by_cases hik : i = k
      · subst hik; simp [hi, e]
      · simp [hi, hik, e]

/-- All goroutines, `u` last. -/
theorem exists_order [Fintype ι] [DecidableEq ι] (u : ι) : ∃ l : List ι, (l ++ [u]).Nodup ∧ ∀ i, i ∈ l ++ [u] := by
  refine ⟨(Finset.univ.erase u).toList, ?_, fun i => ?_⟩
  · rw [List.nodup_append]
    refine ⟨Finset.nodup_toList _, by simp, ?_⟩
    intro x hx y hy
    simp only [List.mem_singleton] at hy
    subst hy
    intro e
    simp [e] at hx
  · by_cases h : i = u <;> simp [h]

/-- C138 violated: of several goroutines that each call `RebuildTreeUsing`, all return nil, and any three of them leave the tree with the
nodes of the first, the leaves of the second and the Merkle root of the third. -/
theorem C138_mixed_violated [Fintype ι] [DecidableEq ι] (pl : ι → List α) (hpl : ∀ i, Good hashOf (pl i)) (g : Nat)
    (hg : ∀ i, (pl i).length + 1 ≤ g) (m0 : Mem α) (u v w : ι) :
    ∃ sched m, m = ((start A hashOf g m0 fun i => .rebuildUsing (pl i)).exec sched).mem ∧
      (∀ i, ((start A hashOf g m0 fun i => .rebuildUsing (pl i)).exec sched).prog i = .ret (.ok none)) ∧
      m.tree.merkleRoot = rootOf A hashOf (pl w) ∧
      verifyTree A hashOf g m.tree m.arena = some (.ok (decide (rootOf A hashOf (pl w) = rootOf A hashOf (pl u)))) ∧
      ∀ d x, hashOf d = .ok x →
        ∃ r, verifyContent A hashOf g m.tree d m.arena = some (.ok r) ∧ (r = true ↔ Has hashOf (pl v) x) := by
  obtain ⟨lu, hu1, hu2⟩ := exists_order u
  obtain ⟨lv, hv1, hv2⟩ := exists_order v
  obtain ⟨lw, hw1, hw2⟩ := exists_order w
  set s0 := start A hashOf g m0 fun i => .rebuildUsing (pl i) with hs0
  -- all have built their nodes
  have ph := exec_phase (S := Mem α) (β := Option Bool) (fun i => rebuildUsingP A hashOf (pl i))
    (fun m i p => ∃ r t n, t.root = some r ∧ TreeOf A hashOf m.arena (pl i) t ∧ idx m.arena r = .ok n ∧
      n.hash = rootOf A hashOf (pl i) ∧ p = writeRoot r t.leaves)
    (fun m i => by
      obtain ⟨r, lv, a', n, h1, h2, h3, h4, h5⟩ := create_treeOf A hashOf (hpl i) m.arena
      exact ⟨r, _, n, rfl, by simpa only [next, rebuildUsingP, h1] using h5, by simpa only [next, rebuildUsingP, h1] using h3, h4,
        by simp only [next, rebuildUsingP, h1]⟩)
    (fun m i j q => by
      obtain ⟨r, lv, a', n, h1, h2, -⟩ := create_treeOf A hashOf (hpl i) m.arena
      have e : (next m (rebuildUsingP A hashOf (pl i))).1.arena = a' := by simp only [next, rebuildUsingP, h1]
      rintro ⟨r, t, n, h3, h4, h5, h6⟩
      exact ⟨r, t, n, h3, by rw [e]; exact h4.mono A hashOf h2, by rw [e]; exact idx_prefix h2 h5, h6⟩)
    (lu ++ [u]) hu1 s0 (fun i _ => rfl) (fun i hi => absurd (hu2 i) hi)
  generalize hs1 : s0.exec (lu ++ [u]) = s1 at ph
  choose r t n h1 h2 h3 h4 h5 using ph
  -- they write the root
  obtain ⟨a2, m2, p2⟩ := exec_writes (fun m : Mem α => m.arena = s1.mem.arena)
    (fun i m => { m with tree := { m.tree with root := some (r i) } })
    (fun i => writeLeaves (r i) (t i).leaves) (lu ++ [u]) hu1 s1 rfl (fun i _ m hm => ⟨by rw [h5 i]; rfl, hm⟩)
  generalize hs2 : s1.exec (lu ++ [u]) = s2 at a2 m2 p2
  rw [List.foldl_append] at m2
  have r2 : s2.mem.tree.root = some (r u) := by rw [m2]; rfl
  -- then the leaves
  obtain ⟨⟨a3, r3⟩, m3, p3⟩ := exec_writes (fun m : Mem α => m.arena = s1.mem.arena ∧ m.tree.root = some (r u))
    (fun i m => { m with tree := { m.tree with leaves := (t i).leaves } })
    (fun i => writeHash (r i)) (lv ++ [v]) hv1 s2 ⟨a2, r2⟩ (fun i _ m hm => ⟨by rw [p2 i, if_pos (hu2 i)]; rfl, hm⟩)
  generalize hs3 : s2.exec (lv ++ [v]) = s3 at a3 r3 m3 p3
  rw [List.foldl_append] at m3
  have l3 : s3.mem.tree.leaves = (t v).leaves := by rw [m3]; rfl
  -- then the Merkle root
  obtain ⟨i4, m4, p4⟩ := exec_writes (fun m : Mem α => m.arena = s1.mem.arena ∧ m.tree.root = some (r u) ∧ m.tree.leaves = (t v).leaves)
    (fun i m => { m with tree := { m.tree with merkleRoot := (n i).hash } })
    (fun i => .ret (.ok none)) (lw ++ [w]) hw1 s3 ⟨a3, r3, l3⟩ (fun i _ m hm => ⟨by
      rw [p3 i, if_pos (hv2 i)]
      simp only [next, writeHash, hm.1, h3 i], hm⟩)
  refine ⟨(lu ++ [u]) ++ (lu ++ [u]) ++ (lv ++ [v]) ++ (lw ++ [w]), _, rfl, ?_⟩
  rw [exec_append s0 _ (lw ++ [w]), exec_append s0 _ (lv ++ [v]), exec_append s0 (lu ++ [u]) (lu ++ [u]), hs1, hs2, hs3]
  generalize s3.exec (lw ++ [w]) = s4 at i4 m4 p4
  rw [List.foldl_append] at m4
  have k4 : s4.mem.tree.merkleRoot = rootOf A hashOf (pl w) := by rw [m4]; exact h4 w
  refine ⟨fun i => by rw [p4 i, if_pos (hw2 i)], k4, ?_, fun d x hd => ?_⟩
  · rw [verifyTree, i4.2.1, ← h1 u, i4.1, (h2 u).verifyNode A hashOf (hg u), Run.bind_ok, k4]
  · rw [verifyContent, i4.2.2, i4.1]
    exact (h2 v).content A hashOf (hg v) hd

/-! ## A concrete case -/

theorem demo_good {pl : List Bytes} (h : pl ≠ []) (h' : [] ∉ pl) : Good demoHash pl :=
  ⟨h, fun d hd => ⟨d, by unfold demoHash; rw [if_neg]; rintro rfl; exact h' hd⟩⟩

theorem demo_one (x : UInt8) : rootOf Hash.toyAlgs demoHash [[x]] = ([x, x] ++ List.replicate 32 0).take 32 := by
  simp [rootOf, hashList, demoHash, Spec.root, Spec.level, rounds_single, Hash.toyAlgs]

theorem demo_two (x y : UInt8) : rootOf Hash.toyAlgs demoHash [[x], [y]] = ([x, y] ++ List.replicate 32 0).take 32 := by
  simp [rootOf, hashList, demoHash, Spec.root, Spec.level, rounds_single, Hash.toyAlgs]

/-- Calls for the examples. -/
def demoCalls : Fin 4 → Call Bytes
  | 0 => .verifyTree
  | 1 => .rebuildUsing [[3]]
  | 2 => .rebuild
  | 3 => .verifyContent [3]

theorem demo_ver (v : List Bytes) (h : Ver [[1], [2]] demoCalls v) : v = [[1], [2]] ∨ v = [[3]] := by
  rcases h with h | ⟨i, h⟩
  · exact .inl h
  · right
    fin_cases i <;> simp [demoCalls] at h
    exact h.symm

/-- A tree of the payloads 1 and 2, verified while it is rebuilt from the payload 3: `VerifyTree` answers false under some schedule, and
`VerifyContent`, under every schedule, whether 3 is among 1, 2 or among 3. -/
example : ∃ (t0 : Tree) (a0 : Arena Bytes),
    newTree Hash.toyAlgs demoHash 3 [[1], [2]] [] = some (.ok (t0, a0)) ∧
    (∃ sched, ((start Hash.toyAlgs demoHash 9 ⟨t0, a0⟩ demoCalls).exec sched).prog 0 = .ret (.ok (some false))) ∧
    (∃ s1 s2, ((start Hash.toyAlgs demoHash 9 ⟨t0, a0⟩ demoCalls).exec s1).prog 1 = .ret (.ok none) ∧
      ((start Hash.toyAlgs demoHash 9 ⟨t0, a0⟩ demoCalls).exec (s1 ++ s2)).mem.tree.merkleRoot = rootOf Hash.toyAlgs demoHash [[1], [2]]) ∧
    ∀ sched r, ((start Hash.toyAlgs demoHash 9 ⟨t0, a0⟩ demoCalls).exec sched).prog 3 = .ret r →
      r = .ok (some true) ∨ r = .ok (some false) := by
  obtain ⟨t0, a0, h⟩ := newTree_ok Hash.toyAlgs demoHash [[1], [2]] [[1], [2]] [] (by simp) (by simp [Hashes, demoHash])
  have h0 := h 3 (by simp)
  refine ⟨t0, a0, h0, ?_, ?_, fun sched r hr => ?_⟩
  · obtain ⟨sched, hs, -⟩ := C138_verify_violated Hash.toyAlgs demoHash [[1], [2]] [[3]] (demo_good (by simp) (by simp)) 9 (by simp) 3 _ _ _
      h0 demoCalls 0 1 (by simp) rfl rfl (by rw [demo_one, demo_two]; decide)
    exact ⟨sched, hs⟩
  · obtain ⟨s1, s2, s, e1, e2, h1, -, -, h2, -⟩ := C138_undone_violated Hash.toyAlgs demoHash [[1], [2]] [[3]]
      (demo_good (by simp) (by simp)) 9 3 _ _ _ h0 demoCalls 2 1 (by simp) rfl rfl
    refine ⟨[2] ++ [1, 1, 1, 1], s2, by rw [← e1]; exact h1, ?_⟩
    rw [exec_append, ← e1, ← e2]
    exact h2
  · have := C138_answers Hash.toyAlgs demoHash [[1], [2]] demoCalls
      (fun v hv => by rcases demo_ver v hv with rfl | rfl <;> exact demo_good (by simp) (by simp)) 9
      (fun v hv => by rcases demo_ver v hv with rfl | rfl <;> simp)
      (fun i d hd => by fin_cases i <;> simp [demoCalls] at hd; subst hd; exact ⟨[3], by simp [demoHash]⟩) 3 _ _ _ h0 sched 3 r hr
    obtain ⟨v, x, b, -, -, rfl, -⟩ := this
    cases b <;> simp

/-- At any moment of any schedule of these calls, the Merkle root is that of 1, 2 or that of 3. -/
example : ∃ (t0 : Tree) (a0 : Arena Bytes), newTree Hash.toyAlgs demoHash 3 [[1], [2]] [] = some (.ok (t0, a0)) ∧
    ∀ sched, ∃ w, (w = [[1], [2]] ∨ w = [[3]]) ∧
      ((start Hash.toyAlgs demoHash 9 ⟨t0, a0⟩ demoCalls).exec sched).mem.tree.merkleRoot = rootOf Hash.toyAlgs demoHash w := by
  obtain ⟨t0, a0, h⟩ := newTree_ok Hash.toyAlgs demoHash [[1], [2]] [[1], [2]] [] (by simp) (by simp [Hashes, demoHash])
  have h0 := h 3 (by simp)
  refine ⟨t0, a0, h0, fun sched => ?_⟩
  obtain ⟨u, v, w, -, -, hw, e, -⟩ := C138_fields Hash.toyAlgs demoHash [[1], [2]] demoCalls
    (fun v hv => by rcases demo_ver v hv with rfl | rfl <;> exact demo_good (by simp) (by simp)) 9
    (fun v hv => by rcases demo_ver v hv with rfl | rfl <;> simp)
    (fun i d hd => by fin_cases i <;> simp [demoCalls] at hd; subst hd; exact ⟨[3], by simp [demoHash]⟩) 3 _ _ _ h0 sched _ rfl
  exact ⟨w, demo_ver w hw, e⟩

/-- Two goroutines that rebuild the tree from 3 and from 4, 5: both succeed and the tree does not verify. -/
example (m0 : Mem Bytes) : ∃ (sched : List Bool) (m : Mem Bytes),
    m = ((start Hash.toyAlgs demoHash 9 m0 fun b => .rebuildUsing (if b then [[3]] else [[4], [5]])).exec sched).mem ∧
    verifyTree Hash.toyAlgs demoHash 9 m.tree m.arena = some (.ok false) := by
  obtain ⟨sched, m, h1, -, -, h2, -⟩ := C138_mixed_violated Hash.toyAlgs demoHash (fun b : Bool => if b then [[3]] else [[4], [5]])
    (fun b => by cases b <;> exact demo_good (by simp) (by simp)) 9 (fun b => by cases b <;> simp) m0 true true false
  refine ⟨sched, m, h1, h2.trans ?_⟩
  simp only [if_true, Bool.false_eq_true, if_false, demo_one, demo_two]
  decide

/-- One goroutine alone: the functions of C06 and C09 on a tree of two payloads. -/
example : ∃ (t0 : Tree) (a0 : Arena Bytes), newTree Hash.toyAlgs demoHash 3 [[1], [2]] [] = some (.ok (t0, a0)) ∧
    (run ⟨t0, a0⟩ (verifyTreeP Hash.toyAlgs demoHash 9)).2 = .ok (some true) ∧
    (run ⟨t0, a0⟩ (verifyContentP Hash.toyAlgs demoHash 9 [2])).2 = .ok (some true) ∧
    (run ⟨t0, a0⟩ (verifyContentP Hash.toyAlgs demoHash 9 [3])).2 = .ok (some false) ∧
    (run ⟨t0, a0⟩ (rebuildP Hash.toyAlgs demoHash)).2 = .ok none := by
  refine ⟨_, _, rfl, ?_, ?_, ?_, ?_⟩
  · rw [C138_alone_verify Hash.toyAlgs demoHash _ _ 9 (.ok true) (by decide +kernel)]; rfl
  · rw [C138_alone_content Hash.toyAlgs demoHash _ _ 9 [2] (.ok true) (by decide +kernel)]; rfl
  · rw [C138_alone_content Hash.toyAlgs demoHash _ _ 9 [3] (.ok false) (by decide +kernel)]; rfl
  · rw [C138_alone_rebuild Hash.toyAlgs demoHash _ _ [[1], [2]] ⟨3, [], _, rfl, List.prefix_refl _⟩ 4 (by simp) (.ok ()) _ _ rfl]; rfl

end Dusk.MerkleShare
