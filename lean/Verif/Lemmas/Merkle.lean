import Mathlib.Data.Nat.Log
import Mathlib.Data.List.Basic
import Verif.Model.Merkle
import Verif.Spec.Merkle
/-!
# The pointer structure built by the Merkle code is a tree

`ITree` describes the tree below a node by the indices of its nodes. A node of an odd level that is paired
with itself occurs twice below its parent, so the description is a tree although the pointers form a
directed acyclic graph.
-/

namespace Dusk.Merkle

variable {α : Type} (A : Hash.Algs) (hashOf : α → Res Bytes)

inductive ITree where
  | leaf (i : Nat)
  | node (i : Nat) (l r : ITree)

namespace ITree

def root : ITree → Nat
  | leaf i => i
  | node i _ _ => i

def ids : ITree → List Nat
  | leaf i => [i]
  | node i l r => i :: (l.ids ++ r.ids)

def leaves : ITree → List Nat
  | leaf i => [i]
  | node _ l r => l.leaves ++ r.leaves

def Perfect : Nat → ITree → Prop
  | 0, leaf _ => True
  | d + 1, node _ l r => Perfect d l ∧ Perfect d r
  | _, _ => False

def eval (H : Bytes → Bytes) (φ : Nat → Bytes) : ITree → Bytes
  | leaf i => φ i
  | node _ l r => H (l.eval H φ ++ r.eval H φ)

theorem root_mem_ids : ∀ t : ITree, t.root ∈ t.ids
  | leaf _ => by simp [root, ids]
  | node _ _ _ => by simp [root, ids]

theorem leaves_sub_ids : ∀ (t : ITree) (i : Nat), i ∈ t.leaves → i ∈ t.ids
  | leaf _, i, h => h
  | node _ l r, i, h => by
    simp only [leaves, List.mem_append] at h
    simp only [ids, List.mem_cons, List.mem_append]
    rcases h with h | h
    · exact .inr (.inl (leaves_sub_ids l i h))
    · exact .inr (.inr (leaves_sub_ids r i h))

end ITree

open ITree

/-- The nodes of `t` are in the arena with the pointers of `t`; the root's parent is `p`. -/
def Shape (a : Arena α) : Option Nat → ITree → Prop
  | p, leaf i => ∃ n, a[i]? = some n ∧ n.isLeaf = true ∧ n.parent = p
  | p, node i l r =>
    (∃ n, a[i]? = some n ∧ n.isLeaf = false ∧ n.parent = p ∧ n.left = some l.root ∧ n.right = some r.root) ∧
    (∀ k ∈ l.ids ++ r.ids, k < i) ∧ Shape a (some i) l ∧ Shape a (some i) r

/-- The stored hashes of `t` are the ones computed from the leaf hashes `φ`. -/
def Hashed (H : Bytes → Bytes) (a : Arena α) (φ : Nat → Bytes) : ITree → Prop
  | leaf i => ∃ n, a[i]? = some n ∧ n.hash = φ i
  | node i l r =>
    (∃ n, a[i]? = some n ∧ n.hash = H (l.eval H φ ++ r.eval H φ)) ∧ Hashed H a φ l ∧ Hashed H a φ r

/-- Equal up to the parent pointer. -/
def Same (n n' : Node α) : Prop := { n with parent := none } = { n' with parent := none }

theorem Same.refl (n : Node α) : Same n n := rfl
theorem Same.trans {n n' n'' : Node α} (h : Same n n') (h' : Same n' n'') : Same n n'' := Eq.trans h h'

theorem Same.fields {n n' : Node α} (h : Same n n') :
    n.left = n'.left ∧ n.right = n'.right ∧ n.hash = n'.hash ∧ n.data = n'.data ∧ n.isLeaf = n'.isLeaf ∧
      n.isDup = n'.isDup := by
  simp only [Same, Node.mk.injEq, true_and] at h
  exact h

/-- Every old node survives, up to its parent pointer. -/
def Keeps (a a' : Arena α) : Prop := ∀ (i : Nat) n, a[i]? = some n → ∃ n', a'[i]? = some n' ∧ Same n n'

theorem Keeps.refl (a : Arena α) : Keeps a a := fun _ n h => ⟨n, h, rfl⟩
theorem Keeps.trans {a b c : Arena α} (h : Keeps a b) (h' : Keeps b c) : Keeps a c := by
  intro i n hn
  obtain ⟨n', h1, h2⟩ := h i n hn
  obtain ⟨n'', h3, h4⟩ := h' i n' h1
  exact ⟨n'', h3, h2.trans h4⟩

theorem Keeps.length {a b : Arena α} (h : Keeps a b) : a.length ≤ b.length := by
  by_contra hc
  obtain ⟨n', h1, -⟩ := h b.length a[b.length] (List.getElem?_eq_getElem (by omega))
  simp at h1

theorem shape_ids_lt {a : Arena α} : ∀ {t : ITree} {p}, Shape a p t → ∀ k ∈ t.ids, k < a.length
  | leaf i, p, ⟨n, h, _⟩, k, hk => by
    simp only [ids, List.mem_singleton] at hk
    subst hk
    exact (List.getElem?_eq_some_iff.1 h).1
  | node i l r, p, ⟨⟨n, h, _⟩, _, hl, hr⟩, k, hk => by
    simp only [ids, List.mem_cons, List.mem_append] at hk
    rcases hk with rfl | hk | hk
    · exact (List.getElem?_eq_some_iff.1 h).1
    · exact shape_ids_lt hl k hk
    · exact shape_ids_lt hr k hk

theorem shape_congr {a a' : Arena α} : ∀ {t : ITree} {p}, (∀ k ∈ t.ids, a'[k]? = a[k]?) → Shape a p t → Shape a' p t
  | leaf i, p, he, ⟨n, h, h'⟩ => ⟨n, by rw [he i (by simp [ids]), h], h'⟩
  | node i l r, p, he, ⟨⟨n, h, h'⟩, ho, hl, hr⟩ =>
    ⟨⟨n, by rw [he i (by simp [ids]), h], h'⟩, ho, shape_congr (fun k hk => he k (by simp [ids, hk])) hl,
      shape_congr (fun k hk => he k (by simp [ids, hk])) hr⟩

theorem shape_reparent {a a' : Arena α} {t : ITree} {p q : Option Nat} (h : Shape a p t)
    (hroot : a'[t.root]? = a[t.root]?.map fun n => { n with parent := q })
    (hrest : ∀ k ∈ t.ids, k ≠ t.root → a'[k]? = a[k]?) : Shape a' q t := by
  cases t with
  | leaf i =>
    obtain ⟨n, h1, h2, -⟩ := h
    simp only [ITree.root] at hroot
    exact ⟨{ n with parent := q }, by rw [hroot, h1]; rfl, h2, rfl⟩
  | node i l r =>
    obtain ⟨⟨n, h1, h2, -, h3, h4⟩, ho, hl, hr⟩ := h
    simp only [ITree.root] at hroot hrest
    refine ⟨⟨{ n with parent := q }, by rw [hroot, h1]; rfl, h2, rfl, h3, h4⟩, ho, ?_, ?_⟩
    · refine shape_congr (fun k hk => hrest k (by simp [ids, hk]) ?_) hl
      have := ho k (by simp [hk]); omega
    · refine shape_congr (fun k hk => hrest k (by simp [ids, hk]) ?_) hr
      have := ho k (by simp [hk]); omega

theorem hashed_keeps {H : Bytes → Bytes} {φ : Nat → Bytes} {a a' : Arena α} (hk : Keeps a a') :
    ∀ {t : ITree}, Hashed H a φ t → Hashed H a' φ t
  | leaf i, ⟨n, h, h'⟩ => by
    obtain ⟨n', h1, h2⟩ := hk i n h
    exact ⟨n', h1, by rw [← h2.fields.2.2.1]; exact h'⟩
  | node i l r, ⟨⟨n, h, h'⟩, hl, hr⟩ => by
    obtain ⟨n', h1, h2⟩ := hk i n h
    exact ⟨⟨n', h1, by rw [← h2.fields.2.2.1]; exact h'⟩, hashed_keeps hk hl, hashed_keeps hk hr⟩

theorem hashed_root {H : Bytes → Bytes} {φ : Nat → Bytes} {a : Arena α} {t : ITree} (h : Hashed H a φ t) :
    ∃ n, a[t.root]? = some n ∧ n.hash = t.eval H φ := by
  cases t with
  | leaf i => exact h
  | node i l r => exact h.1

theorem setParent_eq {a : Arena α} {i : Nat} (hi : i < a.length) (j : Nat) :
    ∃ a', setParent a i j = .ok a' ∧ a'.length = a.length ∧
      ∀ k, a'[k]? = a[k]?.map fun n => if k = i then { n with parent := some j } else n := by
  refine ⟨a.set i { a[i] with parent := some j }, by rw [setParent, idx_of_lt hi]; rfl, by simp, fun k => ?_⟩
  rw [List.getElem?_set]
  by_cases h : i = k
  · subst h
    simp [hi]
  · have h' : ¬ k = i := fun e => h e.symm
    simp [h, h']

theorem sha_eq (b : Bytes) : Hash.sha3256 A b = .ok (A.sha3_256 b) := by
  simp [Hash.sha3256, Hash.performHash]

theorem pairNode_spec {a : Arena α} {φ : Nat → Bytes} {t u : ITree}
    (ht : Shape a none t) (hu : Shape a none u) (gt : Hashed A.sha3_256 a φ t) (gu : Hashed A.sha3_256 a φ u)
    (hd : t = u ∨ ∀ k ∈ t.ids, k ∉ u.ids) :
    ∃ a', pairNode A a t.root u.root = .ok (a.length, a') ∧ a'.length = a.length + 1 ∧
      Shape a' none (node a.length t u) ∧ Hashed A.sha3_256 a' φ (node a.length t u) ∧
      (∀ i, i < a.length → i ≠ t.root → i ≠ u.root → a'[i]? = a[i]?) ∧ Keeps a a' := by
  have lt := shape_ids_lt ht _ t.root_mem_ids
  have lu := shape_ids_lt hu _ u.root_mem_ids
  obtain ⟨nt, et, ett⟩ := hashed_root gt
  obtain ⟨nu, eu, euu⟩ := hashed_root gu
  let new : Node α := { left := some t.root, right := some u.root, hash := A.sha3_256 (t.eval A.sha3_256 φ ++ u.eval A.sha3_256 φ) }
  obtain ⟨a1, e1, l1, g1⟩ := setParent_eq (a := a ++ [new]) (i := t.root) (by simp; omega) a.length
  obtain ⟨a2, e2, l2, g2⟩ := setParent_eq (a := a1) (i := u.root) (by rw [l1]; simp; omega) a.length
  have hget : ∀ k, k < a.length → a2[k]? =
      a[k]?.map fun n => if k = t.root ∨ k = u.root then { n with parent := some a.length } else n := by
    intro k hk
    rw [g2, g1, List.getElem?_append_left hk, List.getElem?_eq_getElem hk]
    simp only [Option.map_some]
    by_cases h1 : k = t.root <;> by_cases h2 : k = u.root <;> simp only [h1, h2, if_true, if_false, true_or, or_true, or_self, ite_self] <;> split_ifs <;> rfl
  have hnew : a2[a.length]? = some new := by
    rw [g2, g1]
    have h1 : ¬ a.length = t.root := by omega
    have h2 : ¬ a.length = u.root := by omega
    simp [h1, h2]
  have hkeep : Keeps a a2 := by
    intro i n hn
    have hi := (List.getElem?_eq_some_iff.1 hn).1
    rw [hget i hi, hn]
    refine ⟨_, rfl, ?_⟩
    split
    · rfl
    · rfl
  have hun : ∀ i, i < a.length → i ≠ t.root → i ≠ u.root → a2[i]? = a[i]? := by
    intro i hi h1 h2
    rw [hget i hi]
    simp [h1, h2]
  have key : ∀ v : ITree, v = t ∨ v = u → Shape a none v → Shape a2 (some a.length) v := by
    intro v hv hs
    have lv := shape_ids_lt hs
    refine shape_reparent hs ?_ ?_
    · rw [hget _ (lv _ v.root_mem_ids)]
      have : v.root = t.root ∨ v.root = u.root := by rcases hv with rfl | rfl <;> simp
      simp [this]
    · intro k hk hne
      refine hun k (lv k hk) ?_ ?_
      · rintro rfl
        rcases hv with rfl | rfl
        · exact hne rfl
        · rcases hd with rfl | hd
          · exact hne rfl
          · exact hd _ t.root_mem_ids hk
      · rintro rfl
        rcases hv with rfl | rfl
        · rcases hd with rfl | hd
          · exact hne rfl
          · exact hd _ hk u.root_mem_ids
        · exact hne rfl
  refine ⟨a2, ?_, by rw [l2, l1]; simp, ?_, ?_, hun, hkeep⟩
  · simp only [pairNode, idx_eq_ok.2 et, idx_eq_ok.2 eu, Res.bind_ok, sha_eq, ett, euu]
    rw [e1, Res.bind_ok, e2]; rfl
  · refine ⟨⟨new, hnew, rfl, rfl, rfl, rfl⟩, ?_, key t (.inl rfl) ht, key u (.inr rfl) hu⟩
    intro k hk
    rcases List.mem_append.1 hk with hk | hk
    · exact shape_ids_lt ht k hk
    · exact shape_ids_lt hu k hk
  · exact ⟨⟨new, hnew, rfl⟩, hashed_keeps hkeep gt, hashed_keeps hkeep gu⟩

/-- A level under construction: trees of equal depth on disjoint nodes, not yet attached. -/
structure Forest (H : Bytes → Bytes) (a : Arena α) (φ : Nat → Bytes) (d : Nat) (ts : List ITree) : Prop where
  shape : ∀ t ∈ ts, Shape a none t
  hashed : ∀ t ∈ ts, Hashed H a φ t
  perfect : ∀ t ∈ ts, t.Perfect d
  disj : ts.Pairwise fun t u => ∀ k ∈ t.ids, k ∉ u.ids

theorem Forest.congr {H : Bytes → Bytes} {a a' : Arena α} {φ : Nat → Bytes} {d : Nat} {ts : List ITree}
    (h : Forest H a φ d ts) (hk : Keeps a a') (he : ∀ t ∈ ts, ∀ k ∈ t.ids, a'[k]? = a[k]?) : Forest H a' φ d ts where
  shape t ht := shape_congr (he t ht) (h.shape t ht)
  hashed t ht := hashed_keeps hk (h.hashed t ht)
  perfect := h.perfect
  disj := h.disj

theorem pairLoop_spec {φ : Nat → Bytes} {d : Nat} : ∀ (ts : List ITree) (a : Arena α),
    Forest A.sha3_256 a φ d ts →
    ∃ us a', pairLoop A a (ts.map root) = .ok (us.map root, a') ∧ Forest A.sha3_256 a' φ (d + 1) us ∧
      us.length = (ts.length + 1) / 2 ∧ Keeps a a' ∧
      (∀ u ∈ us, ∀ k ∈ u.ids, (∃ t ∈ ts, k ∈ t.ids) ∨ a.length ≤ k) ∧
      (∀ i, i < a.length → i ∉ ts.map root → a'[i]? = a[i]?) ∧
      (∀ ψ, us.map (eval A.sha3_256 ψ) = Spec.level A.sha3_256 (ts.map (eval A.sha3_256 ψ))) ∧
      (∀ i, (∃ u ∈ us, i ∈ u.leaves) ↔ ∃ t ∈ ts, i ∈ t.leaves) ∧
      (∀ P, (us.flatMap leaves).reverse.find? P = (ts.flatMap leaves).reverse.find? P)
  | [], a, hf => ⟨[], a, rfl, ⟨by simp, by simp, by simp, by simp⟩, rfl, Keeps.refl a, by simp, fun _ _ _ => rfl,
      fun _ => rfl, by simp, fun _ => rfl⟩
  | [t], a, hf => by
    obtain ⟨a', e, hl, hs, hh, hun, hk⟩ := pairNode_spec A (hf.shape t (by simp)) (hf.shape t (by simp))
      (hf.hashed t (by simp)) (hf.hashed t (by simp)) (.inl rfl)
    refine ⟨[node a.length t t], a', by simp only [List.map_cons, List.map_nil, pairLoop, e, Res.bind_ok]; rfl, ?_, by simp,
      hk, ?_, ?_, fun ψ => rfl, ?_, ?_⟩
    · have hp := hf.perfect t (by simp)
      exact ⟨by simpa using hs, by simpa using hh, by simpa [Perfect] using hp, by simp⟩
    · intro u hu k hk
      simp only [List.mem_singleton] at hu
      subst hu
      simp only [ids, List.mem_cons, List.mem_append, or_self] at hk
      rcases hk with rfl | hk
      · right; exact le_refl _
      · left; exact ⟨t, by simp, hk⟩
    · intro i hi hn
      simp only [List.map_cons, List.map_nil, List.mem_singleton] at hn
      exact hun i hi hn hn
    · intro i; simp [leaves]
    · intro P; simp [leaves, List.find?_append]
  | t :: u :: ts, a, hf => by
    have hdisj := hf.disj
    rw [List.pairwise_cons, List.pairwise_cons] at hdisj
    obtain ⟨d1, d2, d3⟩ := hdisj
    obtain ⟨a1, e, hl, hs, hh, hun, hk⟩ := pairNode_spec A (hf.shape t (by simp)) (hf.shape u (by simp))
      (hf.hashed t (by simp)) (hf.hashed u (by simp)) (.inr (d1 u (by simp)))
    have hf1 : Forest A.sha3_256 a1 φ d ts := by
      refine Forest.congr (a := a) ⟨fun v hv => hf.shape v (by simp [hv]), fun v hv => hf.hashed v (by simp [hv]),
        fun v hv => hf.perfect v (by simp [hv]), d3⟩ hk ?_
      intro v hv k hkv
      refine hun k (shape_ids_lt (hf.shape v (by simp [hv])) k hkv) ?_ ?_
      · rintro rfl; exact d1 v (by simp [hv]) _ t.root_mem_ids hkv
      · rintro rfl; exact d2 v hv _ u.root_mem_ids hkv
    obtain ⟨us, a2, e2, hf2, hlen, hk2, hids, hun2, hev, hlv, hord⟩ := pairLoop_spec ts a1 hf1
    have hroots : ∀ i ∈ ts.map root, ∃ v ∈ ts, i ∈ v.ids := by
      intro i hi
      obtain ⟨v, hv, rfl⟩ := List.mem_map.1 hi
      exact ⟨v, hv, v.root_mem_ids⟩
    have hnode : ∀ k ∈ (node a.length t u).ids, k < a1.length ∧ k ∉ ts.map root ∧
        (∀ v ∈ ts, k ∉ v.ids) := by
      intro k hkm
      simp only [ids, List.mem_cons, List.mem_append] at hkm
      have hno : ∀ v ∈ ts, k ∉ v.ids := by
        intro v hv hkv
        rcases hkm with rfl | hkm | hkm
        · exact absurd (shape_ids_lt (hf.shape v (by simp [hv])) _ hkv) (Nat.lt_irrefl _)
        · exact d1 v (by simp [hv]) k hkm hkv
        · exact d2 v hv k hkm hkv
      refine ⟨?_, ?_, hno⟩
      · rw [hl]
        rcases hkm with rfl | hkm | hkm
        · omega
        · have := shape_ids_lt (hf.shape t (by simp)) k hkm; omega
        · have := shape_ids_lt (hf.shape u (by simp)) k hkm; omega
      · intro hr
        obtain ⟨v, hv, hkv⟩ := hroots k hr
        exact hno v hv hkv
    refine ⟨node a.length t u :: us, a2, ?_, ?_, ?_, hk.trans hk2, ?_, ?_, ?_, ?_⟩
    · simp only [List.map_cons, pairLoop, e, Res.bind_ok, e2]; rfl
    · refine ⟨?_, ?_, ?_, ?_⟩
      · intro v hv
        rcases List.mem_cons.1 hv with rfl | hv
        · exact shape_congr (fun k hkm => hun2 k (hnode k hkm).1 (hnode k hkm).2.1) hs
        · exact hf2.shape v hv
      · intro v hv
        rcases List.mem_cons.1 hv with rfl | hv
        · exact hashed_keeps hk2 hh
        · exact hf2.hashed v hv
      · intro v hv
        rcases List.mem_cons.1 hv with rfl | hv
        · exact ⟨hf.perfect t (by simp), hf.perfect u (by simp)⟩
        · exact hf2.perfect v hv
      · rw [List.pairwise_cons]
        refine ⟨fun v hv k hkm hkv => ?_, hf2.disj⟩
        rcases hids v hv k hkv with ⟨w, hw, hkw⟩ | hge
        · exact (hnode k hkm).2.2 w hw hkw
        · have := (hnode k hkm).1; omega
    · simp only [List.length_cons, hlen]; omega
    · intro v hv k hkv
      rcases List.mem_cons.1 hv with rfl | hv
      · simp only [ids, List.mem_cons, List.mem_append] at hkv
        rcases hkv with rfl | hkv | hkv
        · right; exact le_refl _
        · left; exact ⟨t, by simp, hkv⟩
        · left; exact ⟨u, by simp, hkv⟩
      · rcases hids v hv k hkv with ⟨w, hw, hkw⟩ | hge
        · left; exact ⟨w, by simp [hw], hkw⟩
        · right; omega
    · intro i hi hn
      simp only [List.map_cons, List.mem_cons, not_or] at hn
      rw [hun2 i (by omega) hn.2.2, hun i hi hn.1 hn.2.1]
    · intro ψ
      simp only [List.map_cons, Spec.level, hev ψ, eval]
    · refine ⟨fun i => ?_, fun P => ?_⟩
      · simp only [List.mem_cons, exists_eq_or_imp, hlv i, leaves, List.mem_append, or_assoc]
      · simp only [List.flatMap_cons, List.reverse_append, List.find?_append, hord P, leaves, Option.or_assoc]

theorem rounds_of_level {H : Bytes → Bytes} {l : List Bytes} (h : 2 ≤ l.length) :
    Spec.rounds H l = Spec.rounds H (Spec.level H l) := by
  rw [Spec.rounds]
  rw [dif_neg (by omega)]

theorem rounds_single {H : Bytes → Bytes} (x : Bytes) : Spec.rounds H [x] = x := by
  rw [Spec.rounds]; simp

theorem height_step {n : Nat} (h : 2 ≤ n) : Spec.height n = Spec.height ((n + 1) / 2) + 1 := by
  rw [Spec.height, if_neg (by omega)]

theorem height_one : Spec.height 1 = 0 := by rw [Spec.height]; simp

theorem createIntermediate_spec {φ : Nat → Bytes} : ∀ (m : Nat) (ts : List ITree) (d : Nat) (a : Arena α), ts.length = m →
    2 ≤ ts.length → Forest A.sha3_256 a φ d ts →
    ∃ T a', (∀ f, m ≤ f → createIntermediate A f (ts.map root) a = some (.ok (T.root, a'))) ∧
      Shape a' none T ∧ Hashed A.sha3_256 a' φ T ∧ T.Perfect (d + Spec.height m) ∧ Keeps a a' ∧
      (∀ i, i < a.length → (∀ t ∈ ts, i ∉ t.ids) → a'[i]? = a[i]?) ∧
      (∀ ψ, T.eval A.sha3_256 ψ = Spec.rounds A.sha3_256 (ts.map (eval A.sha3_256 ψ))) ∧
      (∀ i, i ∈ T.leaves ↔ ∃ t ∈ ts, i ∈ t.leaves) ∧
      (∀ P, T.leaves.reverse.find? P = (ts.flatMap leaves).reverse.find? P) := by
  intro m
  induction m using Nat.strongRecOn with
  | ind m ih =>
    intro ts d a hm h2 hf
    by_cases hts : ts.length = 2
    · match ts, hts with
      | [t, u], _ =>
        have hdisj := hf.disj
        rw [List.pairwise_cons] at hdisj
        obtain ⟨a', e, hl, hs, hh, hun, hk⟩ := pairNode_spec A (hf.shape t (by simp)) (hf.shape u (by simp))
          (hf.hashed t (by simp)) (hf.hashed u (by simp)) (.inr (hdisj.1 u (by simp)))
        simp only [List.length_cons, List.length_nil, Nat.zero_add] at hm
        subst hm
        refine ⟨node a.length t u, a', ?_, hs, hh, ?_, hk, ?_, ?_, ?_, ?_⟩
        · intro f hfm
          obtain ⟨g, rfl⟩ : ∃ g, f = g + 1 := ⟨f - 1, by omega⟩
          simp only [List.map_cons, List.map_nil, createIntermediate, e]
          rfl
        · rw [height_step (by omega), show (1 + 1 + 1) / 2 = 1 from rfl, height_one]
          exact ⟨hf.perfect t (by simp), hf.perfect u (by simp)⟩
        · intro i hi hn
          exact hun i hi (fun h => hn t (by simp) (h ▸ t.root_mem_ids)) (fun h => hn u (by simp) (h ▸ u.root_mem_ids))
        · intro ψ
          rw [rounds_of_level (by simp)]
          simp only [List.map_cons, List.map_nil, Spec.level, rounds_single, eval]
        · intro i; simp [leaves]
        · intro P; simp [leaves]
    · obtain ⟨us, a1, e, hf1, hlen, hk, hids, hun, hev, hlv, hord⟩ := pairLoop_spec A ts a hf
      obtain ⟨T, a', hc, hs, hh, hp, hk2, hun2, hev2, hlv2, hord2⟩ :=
        ih ((ts.length + 1) / 2) (by omega) us (d + 1) a1 hlen (by omega) hf1
      refine ⟨T, a', ?_, hs, hh, ?_, hk.trans hk2, ?_, ?_, ?_, ?_⟩
      · intro f hfm
        obtain ⟨g, rfl⟩ : ∃ g, f = g + 1 := ⟨f - 1, by omega⟩
        have hstep : createIntermediate A (g + 1) (ts.map root) a =
            Run.bind (some (pairLoop A a (ts.map root))) fun (nodes, a') => createIntermediate A g nodes a' := by
          have hl2 : (ts.map root).length ≠ 2 := by simpa using hts
          generalize ts.map root = nl at hl2
          match nl, hl2 with
          | [], _ => rfl
          | [_], _ => rfl
          | [_, _], h => exact absurd rfl h
          | _ :: _ :: _ :: _, _ => rfl
        rw [hstep, e]
        exact hc g (by omega)
      · rw [← hm, height_step h2, show d + (Spec.height ((ts.length + 1) / 2) + 1) =
          d + 1 + Spec.height ((ts.length + 1) / 2) by omega]
        exact hp
      · intro i hi hn
        have hkl := hk.length
        rw [hun2 i (by omega), hun i hi]
        · intro hm
          obtain ⟨v, hv, rfl⟩ := List.mem_map.1 hm
          exact hn v hv v.root_mem_ids
        · intro u hu hiu
          rcases hids u hu i hiu with ⟨t, ht, hit⟩ | hge
          · exact hn t ht hit
          · omega
      · intro ψ
        rw [hev2, hev, ← rounds_of_level (by simpa using h2)]
      · intro i; rw [hlv2, hlv]
      · intro P; rw [hord2, hord]

end Dusk.Merkle
