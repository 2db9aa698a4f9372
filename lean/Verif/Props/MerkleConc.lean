import Verif.Model.MerkleConc
import Verif.Props.MerkleMem
/-!
# C124: building and verifying trees on shared memory
-/

namespace Dusk.MerkleMem

variable (A : Hash.Algs)

/-! ## What the calls should return, from the bytes at the start -/

/-- The digest of a subtree, computed from the bytes of its leaves. -/
def T.val (m : Mem) : T → Bytes
  | .leaf s => read m s
  | .node l r _ => A.sha3_256 (l.val m ++ r.val m)

/-- The digest of a node, computed from the digests stored in its children. -/
def T.calc (m : Mem) : T → Bytes
  | .leaf s => read m s
  | .node l r _ => A.sha3_256 (read m l.hash ++ read m r.hash)

/-- The stored digest of a node is the one its children give. -/
def T.okAt (m : Mem) : T → Bool
  | .leaf _ => true
  | .node l r h => A.sha3_256 (l.calc A m ++ r.calc A m) == read m h

/-- Is the first leaf with the bytes of `d` below consistent nodes only? -/
def T.content (m : Mem) (t : T) (d : Slice) : Bool :=
  match t.leaves.find? fun x => read m x.1 == read m d with
  | none => false
  | some x => x.2.all (T.okAt A m)

/-- A slice inside its array and without spare capacity. -/
def Slice.Full (m : Mem) (s : Slice) : Prop := s.Ok m ∧ s.cap = s.len

/-- All slices of the tree are inside their arrays and without spare capacity. -/
def T.Full (m : Mem) : T → Prop
  | .leaf s => s.Full m
  | .node l r h => l.Full m ∧ r.Full m ∧ h.Full m

/-- Every stored digest is that of the digests of the children. -/
def T.Good (m : Mem) : T → Prop
  | .leaf _ => True
  | .node l r h => l.Good m ∧ r.Good m ∧ read m h = A.sha3_256 (read m l.hash ++ read m r.hash)

/-- The slices a call is given have no spare capacity. -/
def Call.Ready (m : Mem) : Call → Prop
  | .newTree ss => ∀ s ∈ ss, s.Full m
  | .verifyTree t root => t.Full m ∧ root.Ok m
  | .verifyContent t d => t.Full m ∧ d.Ok m

/-- The right answer of a call, from the memory `m0` before it and the memory `m` after it. -/
def Call.Right (m0 m : Mem) : Call → Answer → Prop
  | .newTree ss, .tree o => if ss = [] then o = none else ∃ t, o = some t ∧ t.Full m ∧ t.Good A m ∧
      read m t.hash = Merkle.Spec.root A.sha3_256 (ss.map (read m0)) ∧
      ∀ b, b ∈ (t.leaves.map fun x => read m x.1) ↔ b ∈ ss.map (read m0)
  | .verifyTree t root, .bool b => b = decide (t.val A m0 = read m0 root)
  | .verifyContent t d, .bool b => b = t.content A m0 d
  | _, _ => False

/-! ## Programs that only extend memory -/

/-- Whatever is added to memory between its steps, the program appends only to slices without spare capacity, and
its result satisfies `Q`. -/
def Safe {α : Type} (m : Mem) (Q : Mem → α → Prop) : Prog α → Prop
  | .ret a => ∀ m', m <+: m' → Q m' a
  | .app l r k => ∀ m', m <+: m' → l.Full m' ∧ Safe (append m' l (read m' r)).1 Q (k (append m' l (read m' r)).2)
  | .sum s k => ∀ m', m <+: m' →
      Safe (m' ++ [A.sha3_256 (read m' s)]) Q (k { arr := m'.length, off := 0, len := 32, cap := 32 })
  | .cmp a b k => ∀ m', m <+: m' → Safe m' Q (k (read m' a == read m' b))

theorem Safe.mono {α : Type} {m m' : Mem} (h : m <+: m') {Q : Mem → α → Prop} {p : Prog α} (hp : Safe A m Q p) :
    Safe A m' Q p := by
  cases p with
  | ret a => exact fun m'' h' => hp m'' (h.trans h')
  | app l r k => exact fun m'' h' => hp m'' (h.trans h')
  | sum s k => exact fun m'' h' => hp m'' (h.trans h')
  | cmp a b k => exact fun m'' h' => hp m'' (h.trans h')

theorem Safe.step {α : Type} {m : Mem} {Q : Mem → α → Prop} {p : Prog α} (hp : Safe A m Q p) :
    m <+: (step A m p).1 ∧ Safe A (step A m p).1 Q (step A m p).2 := by
  cases p with
  | ret a => exact ⟨List.prefix_refl _, hp⟩
  | app l r k =>
    obtain ⟨h1, h2⟩ := hp m (List.prefix_refl _)
    exact ⟨(append_full h1.1 h1.2).1, h2⟩
  | sum s k => exact ⟨List.prefix_append _ _, hp m (List.prefix_refl _)⟩
  | cmp a b k => exact ⟨List.prefix_refl _, hp m (List.prefix_refl _)⟩

theorem Safe.bind {α β : Type} {Q : Mem → α → Prop} {Q' : Mem → β → Prop} {f : α → Prog β} :
    ∀ {p : Prog α} {m : Mem}, Safe A m Q p → (∀ m' a, m <+: m' → Q m' a → Safe A m' Q' (f a)) → Safe A m Q' (p.bind f)
  | .ret a, m, hp, hf => hf m a (List.prefix_refl _) (hp m (List.prefix_refl _))
  | .app l r k, m, hp, hf => fun m' h' => by
    obtain ⟨h1, h2⟩ := hp m' h'
    refine ⟨h1, Safe.bind h2 fun m'' a h'' q => hf m'' a ?_ q⟩
    exact (h'.trans (append_full h1.1 h1.2).1).trans h''
  | .sum s k, m, hp, hf => fun m' h' =>
    Safe.bind (hp m' h') fun m'' a h'' q => hf m'' a ((h'.trans (List.prefix_append _ _)).trans h'') q
  | .cmp a b k, m, hp, hf => fun m' h' =>
    Safe.bind (hp m' h') fun m'' a h'' q => hf m'' a (h'.trans h'') q

theorem sched_length {α : Type} : ∀ (is : List Nat) (m : Mem) (ps : List (Prog α)), (sched A is m ps).2.length = ps.length
  | [], m, ps => rfl
  | i :: is, m, ps => by
    unfold sched
    split
    · exact sched_length is m ps
    · rw [sched_length is, List.length_set]

/-- Safe programs, under any schedule, only extend memory, and stay safe. -/
theorem sched_safe {α : Type} (Q : Nat → Mem → α → Prop) : ∀ (is : List Nat) (m : Mem) (ps : List (Prog α)),
    (∀ i p, ps[i]? = some p → Safe A m (Q i) p) →
    m <+: (sched A is m ps).1 ∧ ∀ i p, (sched A is m ps).2[i]? = some p → Safe A (sched A is m ps).1 (Q i) p
  | [], m, ps, h => ⟨List.prefix_refl _, h⟩
  | j :: is, m, ps, h => by
    unfold sched
    split
    · exact sched_safe Q is m ps h
    · rename_i p hp
      obtain ⟨h1, h2⟩ := Safe.step A (h j p hp)
      obtain ⟨k1, k2⟩ := sched_safe Q is (step A m p).1 (ps.set j (step A m p).2) (by
        intro i q hq
        by_cases hij : j = i
        · subst hij
          rw [List.getElem?_set_self (List.getElem?_eq_some_iff.1 hp).1, Option.some.injEq] at hq
          subst hq
          exact h2
        · rw [List.getElem?_set_ne hij] at hq
          exact Safe.mono A h1 (h i q hq))
      exact ⟨h1.trans k1, k2⟩

/-! ## The package's programs -/

theorem Slice.Full.mono {m m' : Mem} (h : m <+: m') {s : Slice} (hs : s.Full m) : s.Full m' :=
  ⟨(read_prefix h hs.1).2, hs.2⟩

theorem T.Full.hash {m : Mem} {t : T} (h : t.Full m) : t.hash.Full m := by
  cases t with
  | leaf s => exact h
  | node l r d => exact h.2.2

theorem T.Full.mono {m m' : Mem} (h : m <+: m') : ∀ {t : T}, t.Full m → t.Full m'
  | .leaf _, ht => Slice.Full.mono h ht
  | .node _ _ _, ht => ⟨T.Full.mono h ht.1, T.Full.mono h ht.2.1, Slice.Full.mono h ht.2.2⟩

theorem T.Good.mono {m m' : Mem} (h : m <+: m') : ∀ {t : T}, t.Full m → t.Good A m → t.Good A m'
  | .leaf _, _, _ => trivial
  | .node l r d, hf, hg => ⟨T.Good.mono h hf.1 hg.1, T.Good.mono h hf.2.1 hg.2.1, by
      rw [(read_prefix h hf.2.2.1).1, (read_prefix h hf.1.hash.1).1, (read_prefix h hf.2.1.hash.1).1]
      exact hg.2.2⟩

theorem T.val_mono {m m' : Mem} (h : m <+: m') : ∀ {t : T}, t.Full m → t.val A m' = t.val A m
  | .leaf _, ht => (read_prefix h ht.1).1
  | .node _ _ _, ht => by rw [T.val, T.val, T.val_mono h ht.1, T.val_mono h ht.2.1]

theorem T.calc_mono {m m' : Mem} (h : m <+: m') {t : T} (ht : t.Full m) : t.calc A m' = t.calc A m := by
  cases t with
  | leaf s => exact (read_prefix h ht.1).1
  | node l r d => rw [T.calc, T.calc, (read_prefix h ht.1.hash.1).1, (read_prefix h ht.2.1.hash.1).1]

theorem T.Good.val {m : Mem} : ∀ {t : T}, t.Good A m → t.val A m = read m t.hash
  | .leaf _, _ => rfl
  | .node l r d, h => by
    rw [T.val, T.Good.val h.1, T.Good.val h.2.1]; exact h.2.2.symm

theorem T.Good.calc {m : Mem} {t : T} (h : t.Good A m) : t.calc A m = read m t.hash := by
  cases t with
  | leaf s => rfl
  | node l r d => exact h.2.2.symm

theorem append_ok {m : Mem} {l : Slice} {bs : Bytes} (hl : l.Full m) : (append m l bs).2.Ok (append m l bs).1 := by
  unfold append
  split
  · rename_i h
    have hb : bs = [] := List.length_eq_zero_iff.1 (by have := hl.2; omega)
    subst hb
    obtain ⟨a, h1, h2, h3⟩ := hl.1
    have : (fun a : Bytes => a.take (l.off + l.len) ++ [] ++ a.drop (l.off + l.len + ([] : Bytes).length)) = id := by
      funext a; simp
    rw [this, List.modify_id]
    exact ⟨a, h1, h2, by simpa using h3⟩
  · refine ⟨read m l ++ bs, by simp, ?_, le_refl _⟩
    have := read_length hl.1
    simp only [List.length_append]
    omega

theorem sum_full {m : Mem} {x : Bytes} (hx : x.length = 32) :
    ({ arr := m.length, off := 0, len := 32, cap := 32 } : Slice).Full (m ++ [x]) ∧
      read (m ++ [x]) { arr := m.length, off := 0, len := 32, cap := 32 } = x :=
  ⟨⟨⟨x, by simp, by simp [hx], le_refl _⟩, rfl⟩, by simp [read, List.take_of_length_le (le_of_eq hx)]⟩

/-- Hashing two slices, the first one without spare capacity. -/
theorem hashPair_safe {m : Mem} {l r : Slice} (hl : l.Full m) (hr : r.Ok m) :
    Safe A m (fun m' h => h.Full m' ∧ read m' h = A.sha3_256 (read m l ++ read m r)) (hashPair l r) := by
  intro m1 h1
  have hl1 := hl.mono h1
  refine ⟨hl1, ?_⟩
  intro m2 h2 m3 h3
  have e1 := (append_full (bs := read m1 r) hl1.1 hl1.2).2
  have e2 := (read_prefix h2 (append_ok (bs := read m1 r) hl1)).1
  rw [e1, (read_prefix h1 hl.1).1] at e2
  obtain ⟨k1, k2⟩ := sum_full (m := m2) (A.sha3_256_length (read m2 (append m1 l (read m1 r)).2))
  exact ⟨k1.mono h3, by rw [(read_prefix h3 k1.1).1, k2, e2, (read_prefix h1 hr).1]⟩

theorem verifyNodeP_safe : ∀ {t : T} {m : Mem}, t.Full m →
    Safe A m (fun m' h => h.Full m' ∧ read m' h = t.val A m) (verifyNodeP t)
  | .leaf s, m, ht => fun m' h => ⟨ht.mono h, (read_prefix h ht.1).1⟩
  | .node l r d, m, ht => by
    refine Safe.bind A (verifyNodeP_safe ht.2.1) fun m1 b h1 hb => ?_
    refine Safe.bind A (verifyNodeP_safe (ht.1.mono h1)) fun m2 a h2 ha => ?_
    have hs := hashPair_safe A ha.1 (hb.1.mono h2).1
    rw [ha.2, (read_prefix h2 hb.1.1).1, hb.2, T.val_mono A h1 ht.1] at hs
    exact hs

theorem verifyTreeP_safe {t : T} {root : Slice} {m : Mem} (ht : t.Full m) (hr : root.Ok m) :
    Safe A m (fun _ b => b = decide (t.val A m = read m root)) (verifyTreeP t root) := by
  refine Safe.bind A (verifyNodeP_safe A ht) fun m1 h h1 hh => ?_
  intro m2 h2 m3 h3
  rw [(read_prefix h2 hh.1.1).1, hh.2, (read_prefix (h1.trans h2) hr).1]
  by_cases hc : t.val A m = read m root
  · simp [hc]
  · simp [hc, Ne.symm hc]

theorem calcP_safe {t : T} {m : Mem} (ht : t.Full m) :
    Safe A m (fun m' h => h.Full m' ∧ read m' h = t.calc A m) (calcP t) := by
  cases t with
  | leaf s => exact fun m' h => ⟨Slice.Full.mono h ht, (read_prefix h ht.1).1⟩
  | node l r d => exact hashPair_safe A ht.1.hash ht.2.1.hash.1

theorem T.okAt_mono {m m' : Mem} (h : m <+: m') {t : T} (ht : t.Full m) : t.okAt A m' = t.okAt A m := by
  cases t with
  | leaf s => rfl
  | node l r d => rw [T.okAt, T.okAt, T.calc_mono A h ht.1, T.calc_mono A h ht.2.1, (read_prefix h ht.2.2.1).1]

theorem climbP_safe : ∀ {ts : List T} {m : Mem}, (∀ t ∈ ts, t.Full m) →
    Safe A m (fun _ b => b = ts.all (T.okAt A m)) (climbP ts)
  | [], m, _ => fun _ _ => rfl
  | .leaf _ :: ts, m, h => by
    have := climbP_safe (ts := ts) (m := m) fun t ht => h t (by simp [ht])
    simpa [climbP, T.okAt] using this
  | .node l r d :: ts, m, h => by
    have hn : (T.node l r d).Full m := h _ (by simp)
    refine Safe.bind A (calcP_safe A hn.2.1) fun m1 b h1 hb => ?_
    refine Safe.bind A (calcP_safe A (hn.1.mono h1)) fun m2 a h2 ha => ?_
    refine Safe.bind A (hashPair_safe A ha.1 (hb.1.mono h2).1) fun m3 x h3 hx => ?_
    intro m4 h4
    have e : (read m4 x == read m4 d) = (T.node l r d).okAt A m := by
      have hm : m <+: m4 := ((h1.trans h2).trans h3).trans h4
      rw [T.okAt, (read_prefix h4 hx.1.1).1, hx.2, ha.2, (read_prefix h2 hb.1.1).1, hb.2, T.calc_mono A h1 hn.1,
        (read_prefix hm hn.2.2.1).1]
    rw [e]
    beta_reduce
    have hm : m <+: m4 := ((h1.trans h2).trans h3).trans h4
    by_cases hc : (T.node l r d).okAt A m = true
    · rw [if_pos hc]
      have hts := climbP_safe (ts := ts) (m := m4) fun t ht => (h t (by simp [ht])).mono hm
      have e2 : ts.all (T.okAt A m4) = (T.node l r d :: ts).all (T.okAt A m) := by
        rw [List.all_cons, hc, Bool.true_and, Bool.eq_iff_iff, List.all_eq_true, List.all_eq_true]
        exact forall₂_congr fun t ht => by rw [T.okAt_mono A hm (h t (by simp [ht]))]
      rw [e2] at hts
      exact hts
    · rw [if_neg hc]
      intro m5 h5
      rw [List.all_cons, Bool.eq_false_iff.2 hc, Bool.false_and]

theorem contentP_safe {d : Slice} : ∀ {xs : List (Slice × List T)} {m : Mem}, d.Ok m →
    (∀ x ∈ xs, x.1.Full m ∧ ∀ t ∈ x.2, t.Full m) →
    Safe A m (fun _ b => b = match xs.find? fun x => read m x.1 == read m d with
      | none => false
      | some x => x.2.all (T.okAt A m)) (contentP d xs)
  | [], m, _, _ => fun _ _ => rfl
  | x :: xs, m, hd, h => by
    intro m1 h1
    obtain ⟨hx1, hx2⟩ := h x (by simp)
    rw [(read_prefix h1 hx1.1).1, (read_prefix h1 hd).1, List.find?_cons]
    beta_reduce
    by_cases hc : (read m x.1 == read m d) = true
    · rw [if_pos hc, hc]
      exact Safe.mono A h1 (climbP_safe A hx2)
    · rw [if_neg hc, Bool.eq_false_iff.2 hc]
      exact Safe.mono A h1 (contentP_safe (xs := xs) hd fun y hy => h y (by simp [hy]))

theorem T.Full.leaves {m : Mem} : ∀ {t : T}, t.Full m → ∀ x ∈ t.leaves, x.1.Full m ∧ ∀ u ∈ x.2, u.Full m
  | .leaf s, ht, x, hx => by
    simp only [T.leaves, List.mem_singleton] at hx
    subst hx
    exact ⟨ht, by simp⟩
  | .node l r d, ht, x, hx => by
    simp only [T.leaves, List.mem_map, List.mem_append] at hx
    obtain ⟨y, hy, rfl⟩ := hx
    have hy' : y.1.Full m ∧ ∀ u ∈ y.2, u.Full m := by
      rcases hy with hy | hy
      · exact T.Full.leaves ht.1 y hy
      · exact T.Full.leaves ht.2.1 y hy
    refine ⟨hy'.1, fun u hu => ?_⟩
    simp only [List.mem_append, List.mem_singleton] at hu
    rcases hu with hu | rfl
    · exact hy'.2 u hu
    · exact ht

theorem verifyContentP_safe {t : T} {d : Slice} {m : Mem} (ht : t.Full m) (hd : d.Ok m) :
    Safe A m (fun _ b => b = t.content A m d) (verifyContentP t d) :=
  contentP_safe A hd ht.leaves

/-- A list of nodes that are full and good. -/
def AllGood (m : Mem) (ts : List T) : Prop := ∀ t ∈ ts, t.Full m ∧ t.Good A m

theorem AllGood.mono {m m' : Mem} (h : m <+: m') {ts : List T} (ht : AllGood A m ts) : AllGood A m' ts :=
  fun t hts => ⟨(ht t hts).1.mono h, T.Good.mono A h (ht t hts).1 (ht t hts).2⟩

theorem AllGood.reads {m m' : Mem} (h : m <+: m') {ts : List T} (ht : AllGood A m ts) :
    ts.map (fun t => read m' t.hash) = ts.map fun t => read m t.hash :=
  List.map_congr_left fun t hts => (read_prefix h (ht t hts).1.hash.1).1

/-- The slices of the leaves below a list of nodes. -/
def leafSlices (ts : List T) : List Slice := ts.flatMap fun t => t.leaves.map Prod.fst

theorem leaves_node (l r : T) (h : Slice) :
    (T.node l r h).leaves.map Prod.fst = l.leaves.map Prod.fst ++ r.leaves.map Prod.fst := by
  simp [T.leaves, Function.comp_def]

theorem levelP_safe : ∀ {ts : List T} {m : Mem}, AllGood A m ts →
    Safe A m (fun m' us => AllGood A m' us ∧
      us.map (fun t => read m' t.hash) = Merkle.Spec.level A.sha3_256 (ts.map fun t => read m t.hash) ∧
      us.length = (ts.length + 1) / 2 ∧ ∀ s, s ∈ leafSlices us ↔ s ∈ leafSlices ts) (levelP ts)
  | [], m, _ => fun m' _ => ⟨by simp [AllGood], rfl, rfl, fun _ => Iff.rfl⟩
  | [l], m, h => by
    have hl := h l (by simp)
    refine Safe.bind A (hashPair_safe A hl.1.hash hl.1.hash.1) fun m1 d h1 hd => ?_
    intro m2 h2
    have hg := AllGood.mono A (h1.trans h2) h l (by simp)
    refine ⟨?_, ?_, by simp, ?_⟩
    · intro t ht
      rw [List.mem_singleton] at ht
      subst ht
      refine ⟨⟨hg.1, hg.1, hd.1.mono h2⟩, hg.2, hg.2, ?_⟩
      rw [(read_prefix h2 hd.1.1).1, hd.2, (read_prefix (h1.trans h2) hl.1.hash.1).1]
    · simp only [List.map_cons, List.map_nil, Merkle.Spec.level]
      rw [show (T.node l l d).hash = d from rfl, (read_prefix h2 hd.1.1).1, hd.2]
    · intro s
      simp [leafSlices, leaves_node]
  | l :: r :: ts, m, h => by
    have hl := h l (by simp)
    have hr := h r (by simp)
    have hts : AllGood A m ts := fun t ht => h t (by simp [ht])
    refine Safe.bind A (hashPair_safe A hl.1.hash hr.1.hash.1) fun m1 d h1 hd => ?_
    refine Safe.bind A (levelP_safe (AllGood.mono A h1 hts)) fun m2 us h2 hus => ?_
    intro m3 h3
    have hgl := AllGood.mono A ((h1.trans h2).trans h3) h l (by simp)
    have hgr := AllGood.mono A ((h1.trans h2).trans h3) h r (by simp)
    have hm : m <+: m3 := (h1.trans h2).trans h3
    refine ⟨?_, ?_, ?_, ?_⟩
    · intro t ht
      rw [List.mem_cons] at ht
      rcases ht with rfl | ht
      · refine ⟨⟨hgl.1, hgr.1, hd.1.mono (h2.trans h3)⟩, hgl.2, hgr.2, ?_⟩
        rw [(read_prefix (h2.trans h3) hd.1.1).1, hd.2, (read_prefix hm hl.1.hash.1).1,
          (read_prefix hm hr.1.hash.1).1]
      · exact AllGood.mono A h3 hus.1 t ht
    · simp only [List.map_cons, Merkle.Spec.level]
      rw [show (T.node l r d).hash = d from rfl, (read_prefix (h2.trans h3) hd.1.1).1, hd.2, AllGood.reads A h3 hus.1, hus.2.1, AllGood.reads A h1 hts]
    · have := hus.2.2.1
      simp only [List.length_cons, this]
      omega
    · intro s
      have := hus.2.2.2 s
      simp only [leafSlices, List.flatMap_cons, List.mem_append, leaves_node] at this ⊢
      rw [this, or_assoc]

theorem roundsP_safe : ∀ {fuel : Nat} {ts : List T} {m : Mem}, AllGood A m ts → ts ≠ [] → ts.length ≤ fuel →
    Safe A m (fun m' o => ∃ t, o = some t ∧ t.Full m' ∧ t.Good A m' ∧
      read m' t.hash = Merkle.Spec.rounds A.sha3_256 (ts.map fun t => read m t.hash) ∧
      ∀ s, s ∈ t.leaves.map Prod.fst ↔ s ∈ leafSlices ts) (roundsP fuel ts)
  | 0, ts, m, _, hne, hf => absurd (List.length_eq_zero_iff.1 (Nat.le_zero.1 hf)) hne
  | fuel + 1, ts, m, h, hne, hf => by
    have hpos := List.length_pos_iff.2 hne
    rw [roundsP]
    split
    · obtain ⟨t, rfl⟩ := List.length_eq_one_iff.1 (show ts.length = 1 by omega)
      intro m' h'
      have hg := AllGood.mono A h' h t (by simp)
      refine ⟨t, rfl, hg.1, hg.2, ?_, ?_⟩
      · rw [List.map_cons, List.map_nil, Merkle.rounds_single]
        exact (read_prefix h' (h t (by simp)).1.hash.1).1
      · intro s; simp [leafSlices]
    · rename_i h1
      refine Safe.bind A (levelP_safe A h) fun m1 us h1' hus => ?_
      have hul := hus.2.2.1
      have hs := roundsP_safe (fuel := fuel) hus.1 (by intro hc; rw [hc, List.length_nil] at hul; omega) (by omega)
      rw [hus.2.1, ← Merkle.rounds_of_level (by simp; omega)] at hs
      have e : (fun (m' : Mem) (o : Option T) => ∃ t, o = some t ∧ t.Full m' ∧ t.Good A m' ∧
          read m' t.hash = Merkle.Spec.rounds A.sha3_256 (ts.map fun t => read m t.hash) ∧
          ∀ s, s ∈ t.leaves.map Prod.fst ↔ s ∈ leafSlices us) =
          (fun (m' : Mem) (o : Option T) => ∃ t, o = some t ∧ t.Full m' ∧ t.Good A m' ∧
          read m' t.hash = Merkle.Spec.rounds A.sha3_256 (ts.map fun t => read m t.hash) ∧
          ∀ s, s ∈ t.leaves.map Prod.fst ↔ s ∈ leafSlices ts) := by
        funext m' o
        simp only [hus.2.2.2]
      rw [e] at hs
      exact hs

theorem newTreeP_safe {ss : List Slice} {m : Mem} (h : ∀ s ∈ ss, s.Full m) (hne : ss ≠ []) :
    Safe A m (fun m' o => ∃ t, o = some t ∧ t.Full m' ∧ t.Good A m' ∧
      read m' t.hash = Merkle.Spec.root A.sha3_256 (ss.map (read m)) ∧
      ∀ s, s ∈ t.leaves.map Prod.fst ↔ s ∈ ss) (newTreeP ss) := by
  have hsub : ∀ s, s ∈ Merkle.Spec.pad ss ↔ s ∈ ss := by
    intro s
    unfold Merkle.Spec.pad
    split
    · rw [List.mem_append, Option.mem_toList]
      exact ⟨fun hs => hs.elim id List.mem_of_getLast?, Or.inl⟩
    · exact Iff.rfl
  have hp : (Merkle.Spec.pad ss) ≠ [] := by
    intro hc; have := (Merkle.pad_even ss hne).2; rw [hc] at this; simp at this
  have hs := roundsP_safe A (fuel := (Merkle.Spec.pad ss).length) (ts := (Merkle.Spec.pad ss).map T.leaf) (m := m)
    (by
      intro t ht
      obtain ⟨s, hs, rfl⟩ := List.mem_map.1 ht
      exact ⟨h s ((hsub s).1 hs), trivial⟩) (by simpa using hp) (by simp)
  have e1 : ((Merkle.Spec.pad ss).map T.leaf).map (fun t => read m t.hash) = Merkle.Spec.pad (ss.map (read m)) := by
    rw [List.map_map]
    show (Merkle.Spec.pad ss).map (read m) = _
    unfold Merkle.Spec.pad
    rw [List.length_map]
    split
    · rw [List.map_append, List.getLast?_map]; cases ss.getLast? <;> rfl
    · rfl
  have e2 : ∀ s, s ∈ leafSlices ((Merkle.Spec.pad ss).map T.leaf) ↔ s ∈ ss := by
    intro s
    rw [← hsub s]
    simp [leafSlices, T.leaves]
  rw [e1, Merkle.rounds_pad _ _ (by simpa using hne)] at hs
  simp only [e2] at hs
  exact hs

theorem Call.safe {c : Call} {m : Mem} (h : c.Ready m) : Safe A m (fun m' a => c.Right A m m' a) c.prog := by
  cases c with
  | newTree ss =>
    by_cases hne : ss = []
    · subst hne
      intro m' _
      simp [Call.Right]
    · refine Safe.bind A (newTreeP_safe A h hne) fun m1 o h1 ⟨t, ht, hf, hg, hr, hl⟩ => ?_
      intro m2 h2
      rw [Call.Right, if_neg hne]
      refine ⟨t, ht, hf.mono h2, T.Good.mono A h2 hf hg, ?_, ?_⟩
      · rw [(read_prefix h2 hf.hash.1).1, hr]
      · intro b
        rw [List.mem_map, List.mem_map]
        constructor
        · rintro ⟨x, hx, rfl⟩
          have hxs := (hl x.1).1 (List.mem_map.2 ⟨x, hx, rfl⟩)
          exact ⟨x.1, hxs, ((read_prefix (h1.trans h2) (h _ hxs).1).1).symm⟩
        · rintro ⟨s, hs, rfl⟩
          obtain ⟨x, hx, rfl⟩ := List.mem_map.1 ((hl s).2 hs)
          exact ⟨x, hx, (read_prefix (h1.trans h2) (h _ hs).1).1⟩
  | verifyTree t root => exact Safe.bind A (verifyTreeP_safe A h.1 h.2) fun m1 b _ hb m2 _ => hb
  | verifyContent t d => exact Safe.bind A (verifyContentP_safe A h.1 h.2) fun m1 b _ hb m2 _ => hb

/-- C124: any number of goroutines build and verify trees at the same time, on slices without spare capacity which
may overlap and belong to several trees and calls. Under any schedule nothing is written to existing arrays, and
every call that has returned has returned the right answer. -/
theorem C124_concurrent (m : Mem) (cs : List Call) (h : ∀ c ∈ cs, c.Ready m) (is : List Nat) :
    m <+: (sched A is m (cs.map Call.prog)).1 ∧
    ∀ (i : Nat) (c : Call) (a : Answer), cs[i]? = some c →
      (sched A is m (cs.map Call.prog)).2[i]? = some (.ret a) → c.Right A m (sched A is m (cs.map Call.prog)).1 a := by
  obtain ⟨h1, h2⟩ := sched_safe A (fun i m' a => ∀ c, cs[i]? = some c → c.Right A m m' a) is m (cs.map Call.prog) (by
    intro i p hp
    rw [List.getElem?_map, Option.map_eq_some_iff] at hp
    obtain ⟨c, hc, rfl⟩ := hp
    have := Call.safe A (h c (List.mem_of_getElem? hc))
    simpa only [hc, Option.some.injEq, forall_eq'] using this)
  exact ⟨h1, fun i c a hc ha => h2 i _ ha _ (List.prefix_refl _) c hc⟩

/-! ## One goroutine -/

theorem run_bind {α β : Type} (f : α → Prog β) : ∀ (p : Prog α) (m : Mem),
    run A m (p.bind f) = run A (run A m p).1 (f (run A m p).2)
  | .ret _, _ => rfl
  | .app _ _ k, _ => run_bind f (k _) _
  | .sum _ k, _ => run_bind f (k _) _
  | .cmp _ _ k, _ => run_bind f (k _) _

theorem run_hashPair (m : Mem) (l r : Slice) : run A m (hashPair l r) = pairMem A m l r := rfl

theorem run_step {α : Type} (m : Mem) (p : Prog α) : run A m p = run A (step A m p).1 (step A m p).2 := by
  cases p <;> rfl

theorem run_safe {α : Type} {Q : Mem → α → Prop} (p : Prog α) : ∀ {m : Mem}, Safe A m Q p →
    m <+: (run A m p).1 ∧ Q (run A m p).1 (run A m p).2 := by
  induction p with
  | ret a => exact fun {m} h => ⟨List.prefix_refl _, h m (List.prefix_refl _)⟩
  | app l r k ih | sum s k ih | cmp a b k ih =>
    intro m h
    obtain ⟨h1, h2⟩ := Safe.step A h
    obtain ⟨k1, k2⟩ := ih _ h2
    exact ⟨h1.trans k1, k2⟩

/-- C124: a call alone, on slices without spare capacity, writes to no existing array and returns the right
answer. -/
theorem C124_alone (m : Mem) (c : Call) (h : c.Ready m) :
    m <+: (run A m c.prog).1 ∧ c.Right A m (run A m c.prog).1 (run A m c.prog).2 :=
  run_safe A _ (Call.safe A h)

/-- C124: from any state a goroutine that is given enough steps in a row returns, with the result of the call
alone. -/
theorem C124_finish {α : Type} (i : Nat) : ∀ (p : Prog α) (m : Mem) (ps : List (Prog α)), ps[i]? = some p →
    ∃ n, sched A (List.replicate n i) m ps = ((run A m p).1, ps.set i (.ret (run A m p).2))
  | .ret a, m, ps, h => ⟨0, by
      simp only [List.replicate_zero, sched, run]
      congr 1
      apply List.ext_getElem?
      intro j
      by_cases hj : i = j
      · subst hj
        rw [List.getElem?_set_self (List.getElem?_eq_some_iff.1 h).1, h]
      · rw [List.getElem?_set_ne hj]⟩
  | .app l r k, m, ps, h => by
    obtain ⟨n, hn⟩ := C124_finish i (k (append m l (read m r)).2) (append m l (read m r)).1
      (ps.set i (k (append m l (read m r)).2)) (List.getElem?_set_self (List.getElem?_eq_some_iff.1 h).1)
    refine ⟨n + 1, ?_⟩
    rw [List.replicate_succ, sched, h]
    simp only [step, run]
    rw [hn, List.set_set]
  | .sum s k, m, ps, h => by
    obtain ⟨n, hn⟩ := C124_finish i (k ⟨m.length, 0, 32, 32⟩) (m ++ [A.sha3_256 (read m s)])
      (ps.set i (k ⟨m.length, 0, 32, 32⟩)) (List.getElem?_set_self (List.getElem?_eq_some_iff.1 h).1)
    refine ⟨n + 1, ?_⟩
    rw [List.replicate_succ, sched, h]
    simp only [step, run]
    rw [hn, List.set_set]
  | .cmp a b k, m, ps, h => by
    obtain ⟨n, hn⟩ := C124_finish i (k (read m a == read m b)) m
      (ps.set i (k (read m a == read m b))) (List.getElem?_set_self (List.getElem?_eq_some_iff.1 h).1)
    refine ⟨n + 1, ?_⟩
    rw [List.replicate_succ, sched, h]
    simp only [step, run]
    rw [hn, List.set_set]

/-! ## The sequential model of C13 is the one-goroutine case -/

theorem run_levelP : ∀ (ts : List T) (m : Mem), (run A m (levelP ts)).1 = (levelMem A m (ts.map T.hash)).1 ∧
    (run A m (levelP ts)).2.map T.hash = (levelMem A m (ts.map T.hash)).2
  | [], m => ⟨rfl, rfl⟩
  | [l], m => ⟨rfl, rfl⟩
  | l :: r :: ts, m => by
    obtain ⟨h1, h2⟩ := run_levelP ts (pairMem A m l.hash r.hash).1
    have e : run A m (levelP (l :: r :: ts)) = ((run A (pairMem A m l.hash r.hash).1 (levelP ts)).1,
        .node l r (pairMem A m l.hash r.hash).2 :: (run A (pairMem A m l.hash r.hash).1 (levelP ts)).2) := by
      rw [levelP, run_bind, run_hashPair, run_bind]
      rfl
    rw [e]
    simp only [List.map_cons, levelMem]
    exact ⟨h1, by rw [h2, show (T.node l r (pairMem A m l.hash r.hash).2).hash = (pairMem A m l.hash r.hash).2 from rfl]⟩

theorem run_roundsP : ∀ (fuel : Nat) (ts : List T) (m : Mem), ts.length ≤ fuel →
    (run A m (roundsP fuel ts)).1 = (roundsMem A m (ts.map T.hash)).1 ∧
    (run A m (roundsP fuel ts)).2.map T.hash = (roundsMem A m (ts.map T.hash)).2
  | 0, ts, m, hf => by
    rw [List.length_eq_zero_iff.1 (Nat.le_zero.1 hf), List.map_nil, roundsMem, dif_pos (by simp)]
    exact ⟨rfl, rfl⟩
  | fuel + 1, ts, m, hf => by
    rw [roundsP, roundsMem]
    by_cases h : ts.length ≤ 1
    · rw [if_pos h, dif_pos (by simpa using h)]
      exact ⟨rfl, by simp [run]⟩
    · rw [if_neg h, dif_neg (by simpa using h), run_bind]
      obtain ⟨h1, h2⟩ := run_levelP A ts m
      have hl := levelMem_length A m (ts.map T.hash)
      rw [← h2, List.length_map, List.length_map] at hl
      rw [← h1, ← h2]
      exact run_roundsP fuel _ _ (by omega)

/-- C124: `NewTree` as a program of one goroutine does to memory what the model of C13 says, and has its root. -/
theorem C124_same (m : Mem) (ss : List Slice) :
    (run A m (newTreeP ss)).1 = (newTreeMem A m ss).1 ∧ (run A m (newTreeP ss)).2.map T.hash = (newTreeMem A m ss).2 := by
  have h := run_roundsP A (Merkle.Spec.pad ss).length ((Merkle.Spec.pad ss).map T.leaf) m (by simp)
  rw [List.map_map, show T.hash ∘ T.leaf = id from rfl, List.map_id] at h
  exact h

/-! ## Trees as `NewTree` leaves them -/

theorem T.Good.paths {m : Mem} : ∀ {t : T}, t.Good A m → ∀ x ∈ t.leaves, x.2.all (T.okAt A m) = true
  | .leaf s, _, x, hx => by
    simp only [T.leaves, List.mem_singleton] at hx
    subst hx; rfl
  | .node l r d, h, x, hx => by
    simp only [T.leaves, List.mem_map, List.mem_append] at hx
    obtain ⟨y, hy, rfl⟩ := hx
    rw [List.all_append, Bool.and_eq_true]
    refine ⟨hy.elim (T.Good.paths h.1 y) (T.Good.paths h.2.1 y), ?_⟩
    simp only [List.all_cons, List.all_nil, Bool.and_true, T.okAt, T.Good.calc A h.1, T.Good.calc A h.2.1, h.2.2,
      beq_self_eq_true]

/-- C124: for a tree as `NewTree` returns it (whose stored digests agree), the right answer of `VerifyTree` is true,
and that of `VerifyContent` is whether a leaf has the bytes of the payload. -/
theorem C124_good_tree (m : Mem) (t : T) (h : t.Good A m) : t.val A m = read m t.hash ∧
    ∀ d : Slice, t.content A m d = true ↔ read m d ∈ t.leaves.map fun x => read m x.1 := by
  refine ⟨T.Good.val A h, fun d => ?_⟩
  unfold T.content
  rw [List.mem_map]
  cases hf : t.leaves.find? fun x => read m x.1 == read m d with
  | none =>
    simp only [Bool.false_eq_true, false_iff]
    rintro ⟨x, hx, he⟩
    have := List.find?_eq_none.1 hf x hx
    simp [he] at this
  | some x =>
    have h1 := List.find?_some hf
    simp only [beq_iff_eq] at h1
    simp only [T.Good.paths A h x (List.mem_of_find?_eq_some hf), true_iff]
    exact ⟨x, List.mem_of_find?_eq_some hf, h1⟩

/-! ## Slices with spare capacity -/

/-- Appending to a slice with enough room: the bytes behind it are replaced, the rest of memory is as before. -/
theorem append_effect {m : Mem} {l : Slice} {bs : Bytes} (hl : l.Ok m) (hsp : l.len + bs.length ≤ l.cap) :
    (append m l bs).2 = { l with len := l.len + bs.length } ∧
    read (append m l bs).1 (append m l bs).2 = read m l ++ bs ∧
    (∀ s : Slice, s.Ok m → s.Ok (append m l bs).1) ∧
    (∀ s : Slice, s.arr ≠ l.arr ∨ s.off + s.len ≤ l.off + l.len → read (append m l bs).1 s = read m s) ∧
    (∀ s : Slice, s.arr = l.arr → s.off = l.off + l.len → s.len = bs.length → read (append m l bs).1 s = bs) := by
  obtain ⟨a, g1, g2, g3⟩ := id hl
  have hlt := (List.getElem?_eq_some_iff.1 g1).1
  obtain ⟨e1, e2⟩ := append_spare (bs := bs) g1 g2 hsp
  obtain ⟨a', ha'⟩ : ∃ a', a' = a.take (l.off + l.len) ++ bs ++ a.drop (l.off + l.len + bs.length) := ⟨_, rfl⟩
  rw [← ha'] at e1
  have hlen : a'.length = a.length := by rw [ha']; simp; omega
  have hget : (m.set l.arr a')[l.arr]? = some a' := List.getElem?_set_self hlt
  refine ⟨by rw [append, if_pos hsp], e2, ?_, ?_, ?_⟩ <;> rw [e1]
  · rintro s ⟨b, q1, q2, q3⟩
    by_cases hs : s.arr = l.arr
    · rw [hs, g1, Option.some.injEq] at q1
      subst q1
      exact ⟨a', by rw [hs]; exact hget, by omega, q3⟩
    · exact ⟨b, by rw [List.getElem?_set_ne (Ne.symm hs)]; exact q1, q2, q3⟩
  · intro s hc
    by_cases hsa : s.arr = l.arr
    · have hle := hc.resolve_left (not_not.2 hsa)
      rw [read, read, hsa, hget, g1, Option.getD_some, Option.getD_some, ha', List.append_assoc]
      by_cases hso : s.off ≤ l.off + l.len
      · rw [List.drop_append_of_le_length (by simp; omega), List.take_append_of_le_length (by simp; omega),
          List.drop_take, List.take_take, Nat.min_eq_left (by omega)]
      · omega
    · exact read_set_ne hsa
  · intro s h1 h2 h3
    rw [read, h1, hget, Option.getD_some, ha', h2, h3, List.append_assoc, List.drop_left' (by simp; omega),
      List.take_left' rfl]

/-- Hashing two slices when the first has room for the second. -/
theorem pairMem_spare {m : Mem} {l r : Slice} (hl : l.Ok m) (hr : r.Ok m) (hsp : l.len + r.len ≤ l.cap) :
    read (pairMem A m l r).1 (pairMem A m l r).2 = A.sha3_256 (read m l ++ read m r) ∧
    (pairMem A m l r).2.Full (pairMem A m l r).1 ∧
    (∀ s : Slice, s.Ok m → s.Ok (pairMem A m l r).1) ∧
    (∀ s : Slice, s.Ok m → s.arr ≠ l.arr ∨ s.off + s.len ≤ l.off + l.len → read (pairMem A m l r).1 s = read m s) ∧
    (∀ s : Slice, s.Ok m → s.arr = l.arr → s.off = l.off + l.len → s.len = r.len →
      read (pairMem A m l r).1 s = read m r) := by
  have hrl := read_length hr
  obtain ⟨e0, e2, e3, e4, e5⟩ := append_effect (bs := read m r) hl (by omega)
  have hp : (append m l (read m r)).1 <+: (pairMem A m l r).1 := List.prefix_append _ _
  have hd := sum_full (m := (append m l (read m r)).1) (A.sha3_256_length (read m l ++ read m r))
  have hpe : pairMem A m l r = ((append m l (read m r)).1 ++ [A.sha3_256 (read m l ++ read m r)],
      { arr := (append m l (read m r)).1.length, off := 0, len := 32, cap := 32 }) := by
    rw [pairMem]; simp only [e2]
  refine ⟨by rw [hpe]; exact hd.2, by rw [hpe]; exact hd.1, fun s hs => (read_prefix hp (e3 s hs)).2, ?_, ?_⟩
  · intro s hs hc
    rw [(read_prefix hp (e3 s hs)).1, e4 s hc]
  · intro s hs h1 h2 h3
    rw [(read_prefix hp (e3 s hs)).1, e5 s h1 h2 (by omega)]

theorem newTreeP_two (s0 s1 : Slice) :
    newTreeP [s0, s1] = .app s0 s1 fun s => .sum s fun h => .ret (some (.node (.leaf s0) (.leaf s1) h)) := by
  simp [newTreeP, roundsP, levelP, hashPair, Prog.bind, T.hash]

theorem newTreeP_four (s0 s1 s2 s3 : Slice) : newTreeP [s0, s1, s2, s3] =
    (hashPair s0 s1).bind fun h => (hashPair s2 s3).bind fun h' => (hashPair h h').bind fun d =>
      .ret (some (.node (.node (.leaf s0) (.leaf s1) h) (.node (.leaf s2) (.leaf s3) h') d)) := by
  simp [newTreeP, roundsP, levelP, hashPair, Prog.bind, T.hash]

/-- C124, violated: `VerifyTree` of a tree of two payloads, the first of which returns a slice with room for the
hash of the second, overwrites the bytes behind the first hash in that payload's own array. -/
theorem C124_verify_writes_violated (m : Mem) (s0 s1 h root : Slice) (h0 : s0.Ok m) (h1 : s1.Ok m)
    (hsp : s0.len + s1.len ≤ s0.cap) :
    read (run A m (verifyTreeP (.node (.leaf s0) (.leaf s1) h) root)).1
      { arr := s0.arr, off := s0.off + s0.len, len := s1.len, cap := s1.len } = read m s1 := by
  have e : (run A m (verifyTreeP (.node (.leaf s0) (.leaf s1) h) root)).1 = (pairMem A m s0 s1).1 := rfl
  rw [e]
  refine (pairMem_spare A h0 h1 hsp).2.2.2.2 _ ?_ rfl rfl rfl
  obtain ⟨a, g1, g2, g3⟩ := h0
  exact ⟨a, g1, by simp only; omega, le_refl _⟩

/-- C124, violated: so does `VerifyContent` of the first payload. -/
theorem C124_content_writes_violated (m : Mem) (s0 s1 h : Slice) (h0 : s0.Ok m) (h1 : s1.Ok m)
    (hsp : s0.len + s1.len ≤ s0.cap) :
    read (run A m (verifyContentP (.node (.leaf s0) (.leaf s1) h) s0)).1
      { arr := s0.arr, off := s0.off + s0.len, len := s1.len, cap := s1.len } = read m s1 := by
  have e : (run A m (verifyContentP (.node (.leaf s0) (.leaf s1) h) s0)).1 = (pairMem A m s0 s1).1 := by
    have e1 : verifyContentP (.node (.leaf s0) (.leaf s1) h) s0 = .cmp s0 s0 fun c =>
      if c then climbP [.node (.leaf s0) (.leaf s1) h] else contentP s0 [(s1, [.node (.leaf s0) (.leaf s1) h])] := rfl
    rw [e1, run, beq_self_eq_true, if_pos rfl]
    have e2 : climbP [.node (.leaf s0) (.leaf s1) h] = (hashPair s0 s1).bind fun d => .cmp d h fun c => if c then .ret true else .ret false := rfl
    rw [e2, run_bind, run_hashPair, run]
    split <;> rfl
  rw [e]
  refine (pairMem_spare A h0 h1 hsp).2.2.2.2 _ ?_ rfl rfl rfl
  obtain ⟨a, g1, g2, g3⟩ := h0
  exact ⟨a, g1, by simp only; omega, le_refl _⟩

/-- C124, violated: a tree just built with the right root is rejected. Four payloads; the array of the third hash
continues with the first hash, within the capacity of the third slice. `NewTree` returns the root of the four hashes,
and leaves the fourth hash in place of the first; then `VerifyTree` compares that root with the one of `h3, h1, h2,
h3`. -/
theorem C124_fresh_rejected_violated (m : Mem) (s0 s1 s2 s3 : Slice) (h0 : s0.Full m) (h1 : s1.Ok m) (h2 : s2.Ok m)
    (h3 : s3.Ok m) (hsp : s2.len + s3.len ≤ s2.cap)
    (hoff : s0.arr = s2.arr ∧ s0.off = s2.off + s2.len ∧ s0.len = s3.len) (hd1 : s1.arr ≠ s2.arr) (hd3 : s3.arr ≠ s2.arr) :
    ∃ m' t, run A m (newTreeP [s0, s1, s2, s3]) = (m', some t) ∧
      read m' t.hash = Merkle.Spec.root A.sha3_256 [read m s0, read m s1, read m s2, read m s3] ∧
      (run A m' (verifyTreeP t t.hash)).2 =
        decide (Merkle.Spec.root A.sha3_256 [read m s0, read m s1, read m s2, read m s3] =
          Merkle.Spec.root A.sha3_256 [read m s3, read m s1, read m s2, read m s3]) := by
  -- building
  obtain ⟨x, hx⟩ : ∃ x, x = pairMem A m s0 s1 := ⟨_, rfl⟩
  obtain ⟨p1, p2, p3, p4⟩ := pairMem_full A (r := s1) h0.1 h0.2
  rw [← hx] at p1 p2 p3 p4
  have x0 := read_prefix p1 h0.1
  have x1 := read_prefix p1 h1
  have x2 := read_prefix p1 h2
  have x3 := read_prefix p1 h3
  have hxa : x.2.arr ≠ s2.arr := by
    obtain ⟨a, g, _⟩ := h2
    have hlt := (List.getElem?_eq_some_iff.1 g).1
    have : m.length ≤ x.2.arr := by
      rw [hx]
      exact (append_full (bs := read m s1) h0.1 h0.2).1.length_le
    omega
  obtain ⟨y, hy⟩ : ∃ y, y = pairMem A x.1 s2 s3 := ⟨_, rfl⟩
  obtain ⟨q1, q2, q3, q4, q5⟩ := pairMem_spare A x2.2 x3.2 hsp
  rw [← hy] at q1 q2 q3 q4 q5
  have y0 : read y.1 s0 = read m s3 := by rw [q5 s0 x0.2 hoff.1 hoff.2.1 hoff.2.2, x3.1]
  have y1 : read y.1 s1 = read m s1 := by rw [q4 s1 x1.2 (Or.inl hd1), x1.1]
  have y2 : read y.1 s2 = read m s2 := by rw [q4 s2 x2.2 (Or.inr (le_refl _)), x2.1]
  have y3 : read y.1 s3 = read m s3 := by rw [q4 s3 x3.2 (Or.inl hd3), x3.1]
  have yx : read y.1 x.2 = A.sha3_256 (read m s0 ++ read m s1) := by rw [q4 x.2 p3 (Or.inl hxa), p2]
  obtain ⟨z, hz⟩ : ∃ z, z = pairMem A y.1 x.2 y.2 := ⟨_, rfl⟩
  obtain ⟨r1, r2, r3, r4⟩ := pairMem_full A (r := y.2) (q3 x.2 p3) p4
  rw [← hz] at r1 r2 r3 r4
  rw [q1, yx, x2.1, x3.1] at r2
  have z0 := read_prefix r1 (q3 s0 x0.2)
  have z1 := read_prefix r1 (q3 s1 x1.2)
  have z2 := read_prefix r1 (q3 s2 x2.2)
  have z3 := read_prefix r1 (q3 s3 x3.2)
  have hrun : run A m (newTreeP [s0, s1, s2, s3]) =
      (z.1, some (.node (.node (.leaf s0) (.leaf s1) x.2) (.node (.leaf s2) (.leaf s3) y.2) z.2)) := by
    rw [hz, hy, hx, newTreeP_four]; rfl
  have hroot : ∀ a b c d, Merkle.Spec.root A.sha3_256 [a, b, c, d] =
      A.sha3_256 (A.sha3_256 (a ++ b) ++ A.sha3_256 (c ++ d)) := by
    intro a b c d
    rw [Merkle.Spec.root, Merkle.Spec.rounds, dif_neg (by simp [Merkle.Spec.level]), Merkle.Spec.rounds,
      dif_pos (by simp [Merkle.Spec.level])]
    rfl
  refine ⟨_, _, hrun, by rw [hroot]; exact r2, ?_⟩
  -- verifying
  obtain ⟨u, hu⟩ : ∃ u, u = pairMem A z.1 s2 s3 := ⟨_, rfl⟩
  obtain ⟨u1, u2, u3, u4, u5⟩ := pairMem_spare A z2.2 z3.2 hsp
  rw [← hu] at u1 u2 u3 u4 u5
  have u0' : read u.1 s0 = read m s3 := by rw [u5 s0 z0.2 hoff.1 hoff.2.1 hoff.2.2, z3.1, y3]
  have u1' : read u.1 s1 = read m s1 := by rw [u4 s1 z1.2 (Or.inl hd1), z1.1, y1]
  rw [z2.1, y2, z3.1, y3] at u1
  have hza : z.2.arr ≠ s2.arr := by
    obtain ⟨a, g, _⟩ := q3 s2 x2.2
    have hlt := (List.getElem?_eq_some_iff.1 g).1
    have : y.1.length ≤ z.2.arr := by
      rw [hz]
      exact (append_full (bs := read y.1 y.2) (q3 x.2 p3) p4).1.length_le
    omega
  have uz : read u.1 z.2 = read z.1 z.2 := u4 z.2 r3 (Or.inl hza)
  obtain ⟨v, hv⟩ : ∃ v, v = pairMem A u.1 s0 s1 := ⟨_, rfl⟩
  obtain ⟨v1, v2, v3, v4⟩ := pairMem_full A (m := u.1) (r := s1) (u3 s0 z0.2) h0.2
  rw [← hv] at v1 v2 v3 v4
  rw [u0', u1'] at v2
  obtain ⟨w, hw⟩ : ∃ w, w = pairMem A v.1 v.2 u.2 := ⟨_, rfl⟩
  obtain ⟨w1, w2, w3, w4⟩ := pairMem_full A (r := u.2) v3 v4
  rw [← hw] at w1 w2 w3 w4
  rw [(read_prefix v1 u2.1).1, u1, v2] at w2
  have hver : (run A z.1 (verifyTreeP (.node (.node (.leaf s0) (.leaf s1) x.2) (.node (.leaf s2) (.leaf s3) y.2) z.2) z.2)).2 =
      (read w.1 z.2 == read w.1 w.2) := by
    rw [hw, hv, hu]; rfl
  show (run A z.1 (verifyTreeP (.node (.node (.leaf s0) (.leaf s1) x.2) (.node (.leaf s2) (.leaf s3) y.2) z.2) z.2)).2 = _
  rw [hver, w2, (read_prefix (v1.trans w1) (u3 z.2 r3)).1, uz, r2, hroot, hroot]
  exact beq_eq_decide _ _

/-- C124, violated: in that layout, if the first and fourth hash differ, verifying the fresh tree returns false, or two
different inputs of SHA3-256 with the same digest have been found. -/
theorem C124_fresh_false_violated (m : Mem) (s0 s1 s2 s3 : Slice) (h0 : s0.Full m) (h1 : s1.Ok m) (h2 : s2.Ok m)
    (h3 : s3.Ok m) (hsp : s2.len + s3.len ≤ s2.cap)
    (hoff : s0.arr = s2.arr ∧ s0.off = s2.off + s2.len ∧ s0.len = s3.len) (hd1 : s1.arr ≠ s2.arr) (hd3 : s3.arr ≠ s2.arr)
    (hne : read m s0 ≠ read m s3) :
    ∃ m' t, run A m (newTreeP [s0, s1, s2, s3]) = (m', some t) ∧
      ((run A m' (verifyTreeP t t.hash)).2 = false ∨ ∃ x y, x ≠ y ∧ A.sha3_256 x = A.sha3_256 y) := by
  obtain ⟨m', t, e1, -, e3⟩ := C124_fresh_rejected_violated A m s0 s1 s2 s3 h0 h1 h2 h3 hsp hoff hd1 hd3
  refine ⟨m', t, e1, ?_⟩
  rw [e3]
  by_cases hc : Merkle.Spec.root A.sha3_256 [read m s0, read m s1, read m s2, read m s3] =
      Merkle.Spec.root A.sha3_256 [read m s3, read m s1, read m s2, read m s3]
  · right
    have hroot : ∀ a b c d, Merkle.Spec.root A.sha3_256 [a, b, c, d] =
        A.sha3_256 (A.sha3_256 (a ++ b) ++ A.sha3_256 (c ++ d)) := by
      intro a b c d
      rw [Merkle.Spec.root, Merkle.Spec.rounds, dif_neg (by simp [Merkle.Spec.level]), Merkle.Spec.rounds,
        dif_pos (by simp [Merkle.Spec.level])]
      rfl
    rw [hroot, hroot] at hc
    by_cases hi : A.sha3_256 (read m s0 ++ read m s1) = A.sha3_256 (read m s3 ++ read m s1)
    · exact ⟨_, _, fun h => hne (List.append_cancel_right h), hi⟩
    · exact ⟨_, _, fun h => hi (List.append_cancel_right h), hc⟩
  · exact Or.inl (decide_eq_false hc)

/-- The step both races have in common: two appends to the same slice before the first result is read. -/
theorem append_twice {m : Mem} {s0 s1 s1' : Slice} (h0 : s0.Ok m) (h1 : s1.Ok m) (h1' : s1'.Ok m)
    (hsp : s0.len + s1.len ≤ s0.cap) (hl : s1'.len = s1.len) (hd : s1'.arr ≠ s0.arr) {m1 : Mem}
    (hm1 : m1 = (append m s0 (read m s1)).1) :
    read (append m1 s0 (read m1 s1')).1 (append m s0 (read m s1)).2 = read m s0 ++ read m s1' ∧
    (append m1 s0 (read m1 s1')).2 = (append m s0 (read m s1)).2 ∧
    ∀ s : Slice, s.Ok m → s.arr ≠ s0.arr → read (append m1 s0 (read m1 s1')).1 s = read m s ∧
      s.Ok (append m1 s0 (read m1 s1')).1 := by
  have l1 := read_length h1
  have l1' := read_length h1'
  obtain ⟨a1, a2, a3, a4, a5⟩ := append_effect (bs := read m s1) h0 (by omega)
  rw [← hm1] at a2 a3 a4 a5
  have r1' : read m1 s1' = read m s1' := a4 s1' (Or.inl hd)
  have r0 : read m1 s0 = read m s0 := a4 s0 (Or.inr (le_refl _))
  obtain ⟨b1, b2, b3, b4, b5⟩ := append_effect (m := m1) (bs := read m s1') (a3 s0 h0) (by omega)
  have e : (append m1 s0 (read m s1')).2 = (append m s0 (read m s1)).2 := by rw [a1, b1, l1, l1', hl]
  rw [r1']
  refine ⟨by rw [← e, b2, r0], e, fun s hs hne => ⟨?_, b3 s (a3 s hs)⟩⟩
  rw [b4 s (Or.inl hne), a4 s (Or.inl hne)]

/-- C124, violated: two calls of `NewTree` at the same time, on two payloads each, with the first payload in common
and room behind its hash. The first call alone returns the root of its own payloads; there is a schedule under which
it returns the root of the payloads of the second. -/
theorem C124_race_violated (m : Mem) (s0 s1 s1' : Slice) (h0 : s0.Ok m) (h1 : s1.Ok m) (h1' : s1'.Ok m)
    (hsp : s0.len + s1.len ≤ s0.cap) (hl : s1'.len = s1.len) (hd : s1'.arr ≠ s0.arr) :
    (∃ m' t, run A m (newTreeP [s0, s1]) = (m', some t) ∧
      read m' t.hash = Merkle.Spec.root A.sha3_256 [read m s0, read m s1]) ∧
    ∃ is m' t t', sched A is m [newTreeP [s0, s1], newTreeP [s0, s1']] = (m', [.ret (some t), .ret (some t')]) ∧
      read m' t.hash = Merkle.Spec.root A.sha3_256 [read m s0, read m s1'] := by
  have hroot : ∀ a b, Merkle.Spec.root A.sha3_256 [a, b] = A.sha3_256 (a ++ b) := by
    intro a b
    rw [Merkle.Spec.root, Merkle.Spec.rounds, dif_pos (by simp [Merkle.Spec.level])]
    rfl
  simp only [hroot, newTreeP_two]
  refine ⟨⟨_, _, rfl, (pairMem_spare A h0 h1 hsp).1⟩, ?_⟩
  obtain ⟨m1, hm1⟩ : ∃ x, x = (append m s0 (read m s1)).1 := ⟨_, rfl⟩
  obtain ⟨e1, -, -⟩ := append_twice h0 h1 h1' hsp hl hd hm1
  refine ⟨[0, 1, 0, 1], _, _, _, rfl, ?_⟩
  show read (_ ++ [_]) _ = _
  have hk := sum_full (m := (append m1 s0 (read m1 s1')).1)
    (A.sha3_256_length (read (append m1 s0 (read m1 s1')).1 (append m s0 (read m s1)).2))
  rw [hm1] at hk e1
  rw [← e1]
  exact (read_prefix (List.prefix_append _ _) hk.1.1).1.trans hk.2

/-- C124, violated: two calls of `VerifyTree` at the same time, on two correct trees which have the first payload in
common, with room behind its hash. The first call alone returns true; there is a schedule under which it compares
with the root of the other tree. -/
theorem C124_verify_race_violated (m : Mem) (s0 s1 s1' h h' root root' : Slice) (h0 : s0.Ok m) (h1 : s1.Ok m)
    (h1' : s1'.Ok m) (hr : root.Ok m) (hsp : s0.len + s1.len ≤ s0.cap) (hl : s1'.len = s1.len)
    (hd : s1'.arr ≠ s0.arr) (hdr : root.arr ≠ s0.arr)
    (hroot : read m root = A.sha3_256 (read m s0 ++ read m s1)) :
    (run A m (verifyTreeP (.node (.leaf s0) (.leaf s1) h) root)).2 = true ∧
    ∃ is m' p', sched A is m [verifyTreeP (.node (.leaf s0) (.leaf s1) h) root,
        verifyTreeP (.node (.leaf s0) (.leaf s1') h') root'] =
      (m', [.ret (decide (A.sha3_256 (read m s0 ++ read m s1) = A.sha3_256 (read m s0 ++ read m s1'))), p']) := by
  constructor
  · obtain ⟨e1, e2, e3, e4, e5⟩ := pairMem_spare A h0 h1 hsp
    have : (run A m (verifyTreeP (.node (.leaf s0) (.leaf s1) h) root)).2 =
      (read (pairMem A m s0 s1).1 root == read (pairMem A m s0 s1).1 (pairMem A m s0 s1).2) := rfl
    rw [this, e1, e4 root hr (Or.inl hdr), hroot, beq_self_eq_true]
  · obtain ⟨m1, hm1⟩ : ∃ x, x = (append m s0 (read m s1)).1 := ⟨_, rfl⟩
    obtain ⟨e1, -, e3⟩ := append_twice h0 h1 h1' hsp hl hd hm1
    obtain ⟨f1, f2⟩ := e3 root hr hdr
    have hk := sum_full (m := (append m1 s0 (read m1 s1')).1)
      (A.sha3_256_length (read (append m1 s0 (read m1 s1')).1 (append m s0 (read m s1)).2))
    have e : decide (A.sha3_256 (read m s0 ++ read m s1) = A.sha3_256 (read m s0 ++ read m s1')) =
        (read ((append m1 s0 (read m1 s1')).1 ++ [A.sha3_256 (read (append m1 s0 (read m1 s1')).1 (append m s0 (read m s1)).2)]) root ==
          read ((append m1 s0 (read m1 s1')).1 ++ [A.sha3_256 (read (append m1 s0 (read m1 s1')).1 (append m s0 (read m s1)).2)])
            { arr := (append m1 s0 (read m1 s1')).1.length, off := 0, len := 32, cap := 32 }) := by
      rw [hk.2, (read_prefix (List.prefix_append _ _) f2).1, f1, hroot, e1, beq_eq_decide]
    rw [e, hm1]
    exact ⟨[0, 1, 0, 0], _, _, rfl⟩

/-! ## Cases -/

/-- Two slices of one array, one of them in two trees; all without spare capacity. Two calls of `NewTree` and a
`VerifyContent` on a third tree meet the hypotheses of `C124_concurrent`. -/
example (is : List Nat) (t : Option T) : let m : Mem := [[1, 2, 3]]
    let cs := [Call.newTree [⟨0, 0, 1, 1⟩, ⟨0, 1, 1, 1⟩], Call.newTree [⟨0, 1, 1, 1⟩, ⟨0, 2, 1, 1⟩],
      Call.verifyContent (.node (.leaf ⟨0, 0, 1, 1⟩) (.leaf ⟨0, 1, 2, 2⟩) ⟨0, 0, 3, 3⟩) ⟨0, 2, 1, 1⟩]
    (sched A is m (cs.map Call.prog)).2[0]? = some (.ret (.tree t)) →
      ∃ u, t = some u ∧ read (sched A is m (cs.map Call.prog)).1 u.hash = Merkle.Spec.root A.sha3_256 [[1], [2]] := by
  intro m cs ht
  have full : ∀ o l, o + l ≤ 3 → (⟨0, o, l, l⟩ : Slice).Full m := fun o l h => ⟨⟨[1, 2, 3], rfl, h, le_refl _⟩, rfl⟩
  have hr : ∀ c ∈ cs, c.Ready m := by
    intro c hc
    simp only [cs, List.mem_cons, List.not_mem_nil, or_false] at hc
    rcases hc with rfl | rfl | rfl
    · intro s hs
      simp only [List.mem_cons, List.not_mem_nil, or_false] at hs
      rcases hs with rfl | rfl <;> exact full _ _ (by omega)
    · intro s hs
      simp only [List.mem_cons, List.not_mem_nil, or_false] at hs
      rcases hs with rfl | rfl <;> exact full _ _ (by omega)
    · exact ⟨⟨full 0 1 (by omega), full 1 2 (by omega), full 0 3 (by omega)⟩, (full 2 1 (by omega)).1⟩
  have := (C124_concurrent A m cs hr is).2 0 _ _ rfl ht
  rw [Call.Right, if_neg (by simp)] at this
  obtain ⟨u, h1, -, -, h4, -⟩ := this
  exact ⟨u, h1, h4⟩

/-- A layout of four one-byte hashes with a fresh tree whose verification compares two different roots. -/
example : ∃ m' t, run A [[3, 1], [2], [4]] (newTreeP [⟨0, 1, 1, 1⟩, ⟨1, 0, 1, 1⟩, ⟨0, 0, 1, 2⟩, ⟨2, 0, 1, 1⟩]) = (m', some t) ∧
      read m' t.hash = Merkle.Spec.root A.sha3_256 [[1], [2], [3], [4]] ∧
      (run A m' (verifyTreeP t t.hash)).2 = decide (Merkle.Spec.root A.sha3_256 [[1], [2], [3], [4]] =
        Merkle.Spec.root A.sha3_256 [[4], [2], [3], [4]]) :=
  C124_fresh_rejected_violated A [[3, 1], [2], [4]] ⟨0, 1, 1, 1⟩ ⟨1, 0, 1, 1⟩ ⟨0, 0, 1, 2⟩ ⟨2, 0, 1, 1⟩
    ⟨⟨_, rfl, by simp, by simp⟩, rfl⟩ ⟨_, rfl, by simp, by simp⟩ ⟨_, rfl, by simp, by simp⟩ ⟨_, rfl, by simp, by simp⟩
    (by simp) (by simp) (by simp) (by simp)

/-- Two trees sharing the payload with hash `1`, whose array has one more byte. -/
example : ∃ is m' t t', sched A is [[1, 0], [2], [3]] [newTreeP [⟨0, 0, 1, 2⟩, ⟨1, 0, 1, 1⟩], newTreeP [⟨0, 0, 1, 2⟩, ⟨2, 0, 1, 1⟩]] =
      (m', [.ret (some t), .ret (some t')]) ∧ read m' t.hash = Merkle.Spec.root A.sha3_256 [[1], [3]] :=
  (C124_race_violated A [[1, 0], [2], [3]] ⟨0, 0, 1, 2⟩ ⟨1, 0, 1, 1⟩ ⟨2, 0, 1, 1⟩ ⟨_, rfl, by simp, by simp⟩
    ⟨_, rfl, by simp, by simp⟩ ⟨_, rfl, by simp, by simp⟩ (by simp) rfl (by simp)).2

/-- A correct tree on `1, 2` verified together with one on `1, 3`. -/
example : ∃ is m' p', sched A is [[1, 0], [2], [3], A.sha3_256 [1, 2]]
      [verifyTreeP (.node (.leaf ⟨0, 0, 1, 2⟩) (.leaf ⟨1, 0, 1, 1⟩) ⟨3, 0, 32, 32⟩) ⟨3, 0, 32, 32⟩,
        verifyTreeP (.node (.leaf ⟨0, 0, 1, 2⟩) (.leaf ⟨2, 0, 1, 1⟩) ⟨3, 0, 32, 32⟩) ⟨3, 0, 32, 32⟩] =
      (m', [.ret (decide (A.sha3_256 [1, 2] = A.sha3_256 [1, 3])), p']) :=
  (C124_verify_race_violated A [[1, 0], [2], [3], A.sha3_256 [1, 2]] ⟨0, 0, 1, 2⟩ ⟨1, 0, 1, 1⟩ ⟨2, 0, 1, 1⟩
    ⟨3, 0, 32, 32⟩ ⟨3, 0, 32, 32⟩ ⟨3, 0, 32, 32⟩ ⟨3, 0, 32, 32⟩ ⟨_, rfl, by simp, by simp⟩
    ⟨_, rfl, by simp, by simp⟩ ⟨_, rfl, by simp, by simp⟩ ⟨_, rfl, by simp [A.sha3_256_length], by simp⟩
    (by simp) rfl (by simp) (by simp) (by simp [read, List.take_of_length_le (le_of_eq (A.sha3_256_length _))])).2

/-- The memory behind the hash is lost to a verification. -/
example (root : Slice) : read (run A [[1, 9], [2]] (verifyTreeP (.node (.leaf ⟨0, 0, 1, 2⟩) (.leaf ⟨1, 0, 1, 1⟩) root) root)).1
    ⟨0, 1, 1, 1⟩ = [2] :=
  C124_verify_writes_violated A [[1, 9], [2]] ⟨0, 0, 1, 2⟩ ⟨1, 0, 1, 1⟩ root root ⟨_, rfl, by simp, by simp⟩
    ⟨_, rfl, by simp, by simp⟩ (by simp)

/-- Verifying the content of the first payload loses the byte behind its hash. -/
example (root : Slice) : read (run A [[1, 9], [2]] (verifyContentP (.node (.leaf ⟨0, 0, 1, 2⟩) (.leaf ⟨1, 0, 1, 1⟩) root) ⟨0, 0, 1, 2⟩)).1
    ⟨0, 1, 1, 1⟩ = [2] :=
  C124_content_writes_violated A [[1, 9], [2]] ⟨0, 0, 1, 2⟩ ⟨1, 0, 1, 1⟩ root ⟨_, rfl, by simp, by simp⟩ ⟨_, rfl, by simp, by simp⟩ (by simp)

/-- The layout of four hashes again: the fresh tree is rejected, or SHA3-256 has a collision. -/
example : ∃ m' t, run A [[3, 1], [2], [4]] (newTreeP [⟨0, 1, 1, 1⟩, ⟨1, 0, 1, 1⟩, ⟨0, 0, 1, 2⟩, ⟨2, 0, 1, 1⟩]) = (m', some t) ∧
      ((run A m' (verifyTreeP t t.hash)).2 = false ∨ ∃ x y, x ≠ y ∧ A.sha3_256 x = A.sha3_256 y) :=
  C124_fresh_false_violated A [[3, 1], [2], [4]] ⟨0, 1, 1, 1⟩ ⟨1, 0, 1, 1⟩ ⟨0, 0, 1, 2⟩ ⟨2, 0, 1, 1⟩
    ⟨⟨_, rfl, by simp, by simp⟩, rfl⟩ ⟨_, rfl, by simp, by simp⟩ ⟨_, rfl, by simp, by simp⟩ ⟨_, rfl, by simp, by simp⟩
    (by simp) (by simp) (by simp) (by simp) (by decide)

/-- A call of `NewTree` alone, on two hashes without spare capacity: the memory only grows. -/
example : [[1], [2]] <+: (run A [[1], [2]] (Call.newTree [⟨0, 0, 1, 1⟩, ⟨1, 0, 1, 1⟩]).prog).1 :=
  (C124_alone A [[1], [2]] (.newTree [⟨0, 0, 1, 1⟩, ⟨1, 0, 1, 1⟩]) (by
    intro s hs
    simp only [List.mem_cons, List.not_mem_nil, or_false] at hs
    rcases hs with rfl | rfl <;> exact ⟨⟨_, rfl, by simp, by simp⟩, rfl⟩)).1

example (m : Mem) (s s' : Slice) : (run A m (newTreeP [s, s'])).1 = (newTreeMem A m [s, s']).1 := (C124_same A m [s, s']).1

/-- A good tree of two hashes: the right answers. -/
example : T.content A [[1], [2], A.sha3_256 [1, 2]] (.node (.leaf ⟨0, 0, 1, 1⟩) (.leaf ⟨1, 0, 1, 1⟩) ⟨2, 0, 32, 32⟩) ⟨1, 0, 1, 1⟩ = true := by
  refine ((C124_good_tree A [[1], [2], A.sha3_256 [1, 2]] (.node (.leaf ⟨0, 0, 1, 1⟩) (.leaf ⟨1, 0, 1, 1⟩) ⟨2, 0, 32, 32⟩)
    ⟨trivial, trivial, ?_⟩).2 _).2 (by simp [T.leaves, read])
  simp [T.hash, read, List.take_of_length_le (le_of_eq (A.sha3_256_length _))]

end Dusk.MerkleMem
