import Verif.Model.MerkleWork
import Verif.Props.Merkle
/-!
# C130: what the functions of package merkletree hash
-/

namespace Dusk.Merkle

open ITree

variable {α : Type} (A : Hash.Algs) (hashOf : α → Res Bytes)

/-! ## Leaving out the counts -/

theorem Work.run_bind {β γ : Type} (m : Work β) (f : β → Work γ) :
    (m.bind f).run = Run.bind m.run fun b => (f b).run := by
  unfold Work.bind
  split <;> simp_all

theorem Work.bind_ok {β γ : Type} {m : Work β} {b : β} (h : m.run = some (.ok b)) (f : β → Work γ) :
    m.bind f = ⟨(f b).run, m.payloads + (f b).payloads, m.shas + (f b).shas⟩ := by
  unfold Work.bind; rw [h]

theorem calcDataW_run (d : Option α) : (calcDataW hashOf d).run = some (calcData hashOf d) := by
  cases d <;> rfl

theorem verifyNodeW_run (a : Arena α) : ∀ f p, (verifyNodeW A hashOf a f p).run = verifyNode A hashOf a f p
  | 0, _ => rfl
  | f + 1, p => by
    rw [verifyNodeW, verifyNode, Work.run_bind]
    congr 1
    funext n
    split
    · exact calcDataW_run hashOf _
    · rw [Work.run_bind, verifyNodeW_run a f]
      congr 1
      funext r
      rw [Work.run_bind, verifyNodeW_run a f]
      rfl

theorem calculateNodeHashW_run (a : Arena α) (p : Option Nat) :
    (calculateNodeHashW A hashOf a p).run = some (calculateNodeHash A hashOf a p) := by
  rw [calculateNodeHashW, calculateNodeHash, Work.run_bind]
  cases get a p with
  | err e => rfl
  | panic => rfl
  | ok n =>
    simp only [Work.lift, Run.bind_ok, Res.bind_ok]
    split
    · exact calcDataW_run hashOf _
    · rw [Work.run_bind]
      cases get a n.left with
      | err e => rfl
      | panic => rfl
      | ok l =>
        simp only [Run.bind_ok, Res.bind_ok]
        rw [Work.run_bind]
        cases get a n.right with
        | err e => rfl
        | panic => rfl
        | ok r => rfl

theorem pairNodeW_run (a : Arena α) (l r : Nat) : (pairNodeW A a l r).run = some (pairNode A a l r) := by
  rw [pairNodeW, pairNode, Work.run_bind]
  cases idx a l with
  | err e => rfl
  | panic => rfl
  | ok x =>
    simp only [Work.lift, Run.bind_ok, Res.bind_ok]
    rw [Work.run_bind]
    cases idx a r with
    | err e => rfl
    | panic => rfl
    | ok y =>
      simp only [Run.bind_ok, Res.bind_ok]
      rw [Work.run_bind]
      simp only [Work.sha, sha_eq, Run.bind_ok, Res.bind_ok]
      rw [Work.run_bind]
      cases setParent (a ++ [{ left := some l, right := some r, hash := A.sha3_256 (x.hash ++ y.hash) }]) l a.length with
      | err e => rfl
      | panic => rfl
      | ok a1 =>
        simp only [Run.bind_ok, Res.bind_ok]
        rw [Work.run_bind]
        cases setParent a1 r a.length with
        | err e => rfl
        | panic => rfl
        | ok a2 => rfl

theorem pairLoopW_run : ∀ (nl : List Nat) (a : Arena α), (pairLoopW A a nl).run = some (pairLoop A a nl)
  | [], a => rfl
  | [l], a => by
    rw [pairLoopW, pairLoop, Work.run_bind, pairNodeW_run]
    cases pairNode A a l l <;> rfl
  | l :: r :: nl, a => by
    rw [pairLoopW, pairLoop, Work.run_bind, pairNodeW_run]
    cases pairNode A a l r with
    | err e => rfl
    | panic => rfl
    | ok x =>
      simp only [Run.bind_ok, Res.bind_ok]
      rw [Work.run_bind, pairLoopW_run nl]
      cases pairLoop A x.2 nl <;> rfl

theorem createIntermediateW_run : ∀ (f : Nat) (nl : List Nat) (a : Arena α),
    (createIntermediateW A f nl a).run = createIntermediate A f nl a
  | 0, _, _ => rfl
  | f + 1, nl, a => by
    have ih := createIntermediateW_run f
    by_cases hl : nl.length = 2
    · match nl, hl with
      | [x, y], _ => exact pairNodeW_run A _ _ _
    · have h1 : createIntermediateW A (f + 1) nl a =
          (pairLoopW A a nl).bind fun x => createIntermediateW A f x.1 x.2 := by
        match nl, hl with
        | [], _ => rfl
        | [_], _ => rfl
        | [_, _], h => exact absurd rfl h
        | _ :: _ :: _ :: _, _ => rfl
      have h2 : createIntermediate A (f + 1) nl a =
          Run.bind (some (pairLoop A a nl)) fun x => createIntermediate A f x.1 x.2 := by
        match nl, hl with
        | [], _ => rfl
        | [_], _ => rfl
        | [_, _], h => exact absurd rfl h
        | _ :: _ :: _ :: _, _ => rfl
      rw [h1, h2, Work.run_bind, pairLoopW_run]
      congr 1
      funext x
      exact ih _ _

theorem leafLoopW_run : ∀ (pl : List α) (a : Arena α), (leafLoopW hashOf a pl).run = some (leafLoop hashOf a pl)
  | [], a => rfl
  | d :: pl, a => by
    rw [leafLoopW, leafLoop, Work.run_bind]
    simp only [Work.payload]
    cases hashOf d with
    | err e => rfl
    | panic => rfl
    | ok h =>
      simp only [Run.bind_ok, Res.bind_ok]
      rw [Work.run_bind, leafLoopW_run pl]
      cases leafLoop hashOf (a ++ [{ data := some d, hash := h, isLeaf := true }]) pl <;> rfl

theorem createW_run (f : Nat) (pl : List α) (a : Arena α) : (createW A hashOf f pl a).run = create A hashOf f pl a := by
  unfold createW create
  split
  · rfl
  · rw [Work.run_bind, leafLoopW_run]
    congr 1
    funext x
    rw [Work.run_bind]
    congr 1
    funext y
    rw [Work.run_bind, createIntermediateW_run]
    rfl

theorem walkW_run (a : Arena α) : ∀ f p, (walkW A hashOf a f p).run = walk A hashOf a f p
  | 0, none => rfl
  | _ + 1, none => rfl
  | 0, some _ => rfl
  | f + 1, some i => by
    rw [walkW, walk, Work.run_bind]
    congr 1
    funext n
    rw [Work.run_bind, calculateNodeHashW_run]
    congr 1
    funext r
    rw [Work.run_bind, calculateNodeHashW_run]
    congr 1
    funext l
    rw [Work.run_bind]
    congr 1
    funext h
    split
    · rfl
    · exact walkW_run a f _

theorem equalsW_run (x : Option α) (y : α) : (equalsW hashOf x y).run = some (equals hashOf x y) := by
  rw [equalsW, equals, Work.run_bind, calcDataW_run]
  cases calcData hashOf x with
  | err e => rfl
  | panic => rfl
  | ok hx =>
    simp only [Run.bind_ok, Res.bind_ok]
    rw [Work.run_bind]
    simp only [Work.payload]
    cases hashOf y <;> rfl

theorem contentLoopW_run (f : Nat) (a : Arena α) (d : α) : ∀ is,
    (contentLoopW A hashOf f a d is).run = contentLoop A hashOf f a d is
  | [] => rfl
  | i :: is => by
    rw [contentLoopW, contentLoop, Work.run_bind]
    congr 1
    funext n
    rw [Work.run_bind, equalsW_run]
    congr 1
    funext ok
    split
    · exact walkW_run A hashOf a f _
    · exact contentLoopW_run f a d is

/-- C130: the counted functions are the functions of the package. -/
theorem C130_counted (f : Nat) (pl : List α) (a : Arena α) (t : Tree) (d : α) :
    (newTreeW A hashOf f pl a).run = newTree A hashOf f pl a ∧
      (verifyTreeW A hashOf f t a).run = verifyTree A hashOf f t a ∧
      (verifyContentW A hashOf f t d a).run = verifyContent A hashOf f t d a := by
  refine ⟨?_, ?_, contentLoopW_run A hashOf f a d t.leaves⟩
  · rw [newTreeW, newTree, Work.run_bind, createW_run]
    congr 1
    funext x
    rw [Work.run_bind]
    rfl
  · rw [verifyTreeW, verifyTree, Work.run_bind, verifyNodeW_run]
    rfl

/-! ## NewTree -/

theorem setParent_length {a a' : Arena α} {i j : Nat} (h : setParent a i j = .ok a') : a'.length = a.length := by
  unfold setParent at h
  rw [Res.bind_eq_ok] at h
  obtain ⟨n, -, h⟩ := h
  cases h
  simp

theorem pairNodeW_count {a a' : Arena α} {l r j : Nat} (h : (pairNodeW A a l r).run = some (.ok (j, a'))) :
    (pairNodeW A a l r).payloads = 0 ∧ (pairNodeW A a l r).shas = 1 ∧ a'.length = a.length + 1 := by
  have h' := h
  rw [pairNodeW_run, Option.some.injEq, pairNode] at h'
  simp only [Res.bind_eq_ok] at h'
  obtain ⟨x, ex, y, ey, hh, hs, a1, e1, a2, e2, e3⟩ := h'
  cases e3
  have l1 := setParent_length e1
  have l2 := setParent_length e2
  have c : pairNodeW A a l r = ⟨some (.ok (a.length, a')), 0, 1⟩ := by
    rw [pairNodeW, Work.bind_ok (b := x) (by rw [ex]; rfl), Work.bind_ok (b := y) (by rw [ey]; rfl),
      Work.bind_ok (b := hh) (by rw [Work.sha, hs]), Work.bind_ok (b := a1) (by rw [e1]; rfl),
      Work.bind_ok (b := a') (by rw [e2]; rfl)]
    rfl
  rw [c]
  refine ⟨rfl, rfl, ?_⟩
  rw [l2, l1]
  simp

theorem pairLoopW_count : ∀ (nl : List Nat) (a a' : Arena α) (js : List Nat),
    (pairLoopW A a nl).run = some (.ok (js, a')) →
    (pairLoopW A a nl).payloads = 0 ∧ (pairLoopW A a nl).shas = (nl.length + 1) / 2 ∧
      js.length = (nl.length + 1) / 2 ∧ a'.length = a.length + (nl.length + 1) / 2
  | [], a, a', js, h => by
    cases h
    exact ⟨rfl, rfl, rfl, rfl⟩
  | [l], a, a', js, h => by
    rw [pairLoopW, Work.run_bind] at h
    cases e : (pairNodeW A a l l).run with
    | none => rw [e] at h; cases h
    | some x =>
      cases x with
      | err m => rw [e] at h; cases h
      | panic => rw [e] at h; cases h
      | ok x =>
        rw [e] at h
        cases h
        obtain ⟨c1, c2, c3⟩ := pairNodeW_count A e
        rw [pairLoopW, Work.bind_ok e]
        refine ⟨by simp [c1, Work.lift], by simp [c2, Work.lift], by simp, by simp [c3]⟩
  | l :: r :: nl, a, a', js, h => by
    rw [pairLoopW, Work.run_bind] at h
    cases e : (pairNodeW A a l r).run with
    | none => rw [e] at h; cases h
    | some x =>
      cases x with
      | err m => rw [e] at h; cases h
      | panic => rw [e] at h; cases h
      | ok x =>
        rw [e, Run.bind_ok, Work.run_bind] at h
        cases e2 : (pairLoopW A x.2 nl).run with
        | none => rw [e2] at h; cases h
        | some y =>
          cases y with
          | err m => rw [e2] at h; cases h
          | panic => rw [e2] at h; cases h
          | ok y =>
            rw [e2] at h
            cases h
            obtain ⟨c1, c2, c3⟩ := pairNodeW_count A e
            obtain ⟨d1, d2, d3, d4⟩ := pairLoopW_count nl x.2 y.2 y.1 e2
            rw [pairLoopW, Work.bind_ok e]
            dsimp only
            rw [Work.bind_ok e2]
            simp only [c1, c2, d1, d2, Work.lift, List.length_cons]
            have d4' : y.2.length = x.2.length + (nl.length + 1) / 2 := d4
            have c3' : x.2.length = a.length + 1 := c3
            refine ⟨trivial, by omega, by omega, ?_⟩
            rw [d4', c3']
            omega

theorem createIntermediateW_count : ∀ (f : Nat) (nl : List Nat) (a a' : Arena α) (r : Nat),
    2 ≤ nl.length → (createIntermediateW A f nl a).run = some (.ok (r, a')) →
    (createIntermediateW A f nl a).payloads = 0 ∧ (createIntermediateW A f nl a).shas = Spec.inner nl.length ∧
      a'.length = a.length + Spec.inner nl.length
  | 0, _, _, _, _, _, h => by cases h
  | f + 1, nl, a, a', r, h2, h => by
    have ih := createIntermediateW_count f
    by_cases hl : nl.length = 2
    · match nl, hl with
      | [x, y], _ =>
        have hi : Spec.inner [x, y].length = 1 := by
          rw [Spec.inner]; simp; rw [Spec.inner]; simp
        rw [hi]
        exact pairNodeW_count A (show (pairNodeW A a x y).run = some (.ok (r, a')) from h)
    · have hstep : createIntermediateW A (f + 1) nl a =
          (pairLoopW A a nl).bind fun x => createIntermediateW A f x.1 x.2 := by
        match nl, hl with
        | [], _ => rfl
        | [_], _ => rfl
        | [_, _], h => exact absurd rfl h
        | _ :: _ :: _ :: _, _ => rfl
      rw [hstep, Work.run_bind] at h
      cases e : (pairLoopW A a nl).run with
      | none => rw [e] at h; cases h
      | some x =>
        cases x with
        | err m => rw [e] at h; cases h
        | panic => rw [e] at h; cases h
        | ok x =>
          rw [e, Run.bind_ok] at h
          obtain ⟨c1, c2, c3, c4⟩ := pairLoopW_count A nl a x.2 x.1 e
          obtain ⟨d1, d2, d3⟩ := ih x.1 x.2 a' r (by rw [c3]; omega) h
          have hi : Spec.inner nl.length = (nl.length + 1) / 2 + Spec.inner ((nl.length + 1) / 2) := by
            rw [Spec.inner, if_neg (by omega)]
          rw [hstep, Work.bind_ok e]
          rw [c3] at d2 d3
          simp only [c1, c2, d1, d2, hi]
          refine ⟨trivial, trivial, ?_⟩
          rw [d3, c4]
          omega

theorem leafLoopW_count : ∀ (pl : List α) (a : Arena α) (hs : List Bytes), Hashes hashOf pl hs →
    (leafLoopW hashOf a pl).payloads = pl.length ∧ (leafLoopW hashOf a pl).shas = 0
  | [], a, _, _ => ⟨rfl, rfl⟩
  | d :: pl, a, _, h => by
    cases h with
    | cons h1 h2 =>
      rename_i h hs
      obtain ⟨c1, c2⟩ := leafLoopW_count pl (a ++ [{ data := some d, hash := h, isLeaf := true }]) hs h2
      have e : (leafLoopW hashOf (a ++ [{ data := some d, hash := h, isLeaf := true }]) pl).run =
          some (.ok (List.range' (a ++ [leafNode d h]).length pl.length, a ++ [leafNode d h] ++ List.zipWith leafNode pl hs)) := by
        rw [leafLoopW_run]
        exact congrArg some (leafLoop_ok hashOf pl hs (a ++ [leafNode d h]) h2)
      rw [leafLoopW, Work.bind_ok (b := h) (by rw [Work.payload, h1]), Work.bind_ok e]
      simp only [c1, c2, Work.payload, Work.lift, List.length_cons]
      exact ⟨by omega, trivial⟩

theorem inner_le (n : Nat) : n - 1 ≤ Spec.inner n ∧ Spec.inner n ≤ n - 1 + Nat.clog 2 n := by
  rw [← height_clog]
  induction n using Nat.strong_induction_on with
  | _ n ih =>
    unfold Spec.inner Spec.height
    split_ifs with h
    · omega
    · have := ih ((n + 1) / 2) (by omega)
      omega

theorem newTreeW_count {f : Nat} {pl : List α} {a a' : Arena α} {t : Tree}
    (h : (newTreeW A hashOf f pl a).run = some (.ok (t, a'))) :
    (newTreeW A hashOf f pl a).payloads = pl.length ∧
      (newTreeW A hashOf f pl a).shas = Spec.inner t.leaves.length ∧
      a'.length = a.length + t.leaves.length + Spec.inner t.leaves.length := by
  have h' := h
  rw [(C130_counted A hashOf f pl a t (Classical.choice (by
    by_contra hc
    rw [not_nonempty_iff] at hc
    cases pl with
    | nil => cases h
    | cons d _ => exact hc.false d))).1] at h'
  obtain ⟨hne, hs, T, hh, hpre, hlv, -, hb⟩ := newTree_built A hashOf h'
  have h0 : ¬ pl.length = 0 := fun h' => hne (List.length_eq_zero_iff.1 h')
  obtain ⟨ns, e1, hnl, -⟩ := leaves_ok hashOf pl hs a hne hh
  rw [Res.bind_eq_ok] at e1
  obtain ⟨⟨lv, a0⟩, e1, e2⟩ := e1
  have el : (leafLoopW hashOf a pl).run = some (.ok (lv, a0)) := by rw [leafLoopW_run, e1]
  obtain ⟨c1, c2⟩ := leafLoopW_count hashOf pl a hs hh
  have hc : createW A hashOf f pl a = (leafLoopW hashOf a pl).bind fun x =>
      (Work.lift (dupLeaf x.1 x.2)).bind fun y =>
        (createIntermediateW A f y.1 y.2).bind fun z => Work.lift (.ok (z.1, y.1, z.2)) := by
    rw [createW, if_neg h0]
  have hn : newTreeW A hashOf f pl a = (createW A hashOf f pl a).bind fun x =>
      (Work.lift (idx x.2.2 x.1)).bind fun n =>
        Work.lift (.ok ({ root := some x.1, merkleRoot := n.hash, leaves := x.2.1 }, x.2.2)) := rfl
  have ed : (Work.lift (dupLeaf lv a0)).run = some (.ok (List.range' a.length (Spec.pad pl).length, a ++ ns)) := by
    rw [Work.lift]; exact congrArg some e2
  rw [hc, Work.bind_ok el, Work.bind_ok ed] at hn
  cases e3 : (createIntermediateW A f (List.range' a.length (Spec.pad pl).length) (a ++ ns)).run with
  | none =>
    rw [hn, Work.run_bind] at h
    simp only [Work.run_bind, e3] at h
    cases h
  | some x =>
    cases x with
    | err m =>
      rw [hn, Work.run_bind] at h
      simp only [Work.run_bind, e3] at h
      cases h
    | panic =>
      rw [hn, Work.run_bind] at h
      simp only [Work.run_bind, e3] at h
      cases h
    | ok x =>
      obtain ⟨d1, d2, d3⟩ := createIntermediateW_count A f _ _ x.2 x.1
        (by rw [List.length_range']; exact (pad_even pl hne).2) e3
      rw [Work.bind_ok e3, Work.bind_ok rfl] at hn
      cases e4 : idx x.2 x.1 with
      | err m =>
        rw [hn, Work.run_bind] at h
        simp only [Work.lift, e4] at h
        cases h
      | panic =>
        rw [hn, Work.run_bind] at h
        simp only [Work.lift, e4] at h
        cases h
      | ok n =>
        have e5 : (Work.lift (idx x.2 x.1)).run = some (.ok n) := by rw [Work.lift, e4]
        rw [Work.bind_ok e5] at hn
        have hr := h
        rw [hn] at hr
        simp only [Work.lift, Option.some.injEq, Res.ok.injEq, Prod.mk.injEq] at hr
        have ha : x.2 = a' := hr.2
        rw [hn]
        rw [List.length_range'] at d2 d3
        rw [List.length_append, hnl] at d3
        rw [hlv, List.length_range', ← ha]
        simp only [c1, c2, d1, d2, Work.lift]
        refine ⟨by omega, by omega, ?_⟩
        rw [d3]

/-- C130: a successful `NewTree` asks every payload for its hash exactly once and computes one SHA3 per inner node it
allocates: at least one less than the number of leaves, and at most that plus the height. -/
theorem C130_newTree (f : Nat) (pl : List α) (a a' : Arena α) (t : Tree)
    (h : (newTreeW A hashOf f pl a).run = some (.ok (t, a'))) :
    (newTreeW A hashOf f pl a).payloads = pl.length ∧
      (newTreeW A hashOf f pl a).shas = Spec.inner t.leaves.length ∧
      a'.length = a.length + t.leaves.length + (newTreeW A hashOf f pl a).shas ∧
      t.leaves.length ≤ (newTreeW A hashOf f pl a).shas + 1 ∧
      (newTreeW A hashOf f pl a).shas + 1 ≤ pl.length + 1 + max 1 (Nat.clog 2 pl.length) := by
  obtain ⟨c1, c2, c3⟩ := newTreeW_count A hashOf h
  have h' := h
  rw [(C130_counted A hashOf f pl a t (Classical.choice (by
    by_contra hc
    rw [not_nonempty_iff] at hc
    cases pl with
    | nil => cases h
    | cons d _ => exact hc.false d))).1] at h'
  obtain ⟨hne, hs, T, hh, hpre, hlv, -, hb⟩ := newTree_built A hashOf h'
  have hlen : t.leaves.length = (Spec.pad pl).length := by rw [hlv, List.length_range']
  have hi := inner_le t.leaves.length
  have hp := height_pad pl hne
  rw [height_clog, ← hlen] at hp
  have h2 := hb.two
  have hl := hb.leaves_length
  have hpl := pad_length pl hne
  refine ⟨c1, c2, by rw [c3, c2], by rw [c2]; omega, ?_⟩
  rw [c2, ← hp]
  omega

/-- C130: if the payload at position `k` is the first that cannot be hashed, `NewTree` has asked `k + 1` payloads and
computed nothing else. -/
theorem C130_newTree_fail (f : Nat) (pl pl' : List α) (d : α) (e : String) (a : Arena α)
    (h : ∀ x ∈ pl, ∃ h, hashOf x = .ok h) (hd : hashOf d = .err e) :
    newTreeW A hashOf f (pl ++ d :: pl') a = ⟨some (.err e), pl.length + 1, 0⟩ := by
  have key : ∀ (pl : List α) (a : Arena α), (∀ x ∈ pl, ∃ h, hashOf x = .ok h) →
      leafLoopW hashOf a (pl ++ d :: pl') = ⟨some (.err e), pl.length + 1, 0⟩ := by
    intro pl
    induction pl with
    | nil =>
      intro a _
      simp only [List.nil_append, leafLoopW, Work.bind, Work.payload, hd, List.length_nil]
    | cons x pl ih =>
      intro a hx
      obtain ⟨hxx, ex⟩ := hx x (by simp)
      have i := ih (a ++ [{ data := some x, hash := hxx, isLeaf := true }]) fun y hy => hx y (by simp [hy])
      rw [List.cons_append, leafLoopW, Work.bind_ok (b := hxx) (by rw [Work.payload, ex]), i]
      simp only [Work.bind, Work.payload, List.length_cons]
      congr 1
      omega
  rw [newTreeW, createW, if_neg (by simp), key pl a h]
  rfl

/-! ## VerifyTree -/

theorem verifyNodeW_count {b : Arena α} {φ : Nat → Bytes} : ∀ {t : ITree} {p : Option Nat} {d : Nat} (f : Nat),
    Shape b p t → t.Perfect d → (∀ i ∈ t.leaves, LeafHash hashOf b φ i) → d + 1 ≤ f →
    verifyNodeW A hashOf b f (some t.root) = ⟨some (.ok (t.eval A.sha3_256 φ)), 2 ^ d, 2 ^ d - 1⟩
  | .leaf i, p, 0, f, hs, _, hl, hf => by
    obtain ⟨g, rfl⟩ : ∃ g, f = g + 1 := ⟨f - 1, by omega⟩
    obtain ⟨n, h1, h2, -⟩ := hs
    obtain ⟨n', d, g1, g2, g3⟩ := hl i (by simp [leaves])
    rw [h1, Option.some.injEq] at g1
    subst g1
    have : get b (some (ITree.leaf i).root) = .ok n := idx_eq_ok.2 h1
    rw [verifyNodeW, Work.bind_ok (b := n) (by rw [Work.lift, this])]
    simp only [h2, if_true, g2, calcDataW, Work.payload, Work.lift, g3, eval]
  | .leaf i, p, d + 1, f, hs, hp, hl, hf => by cases hp
  | .node i l r, p, 0, f, hs, hp, hl, hf => by cases hp
  | .node i l r, p, d + 1, f, hs, hp, hl, hf => by
    obtain ⟨g, rfl⟩ : ∃ g, f = g + 1 := ⟨f - 1, by omega⟩
    obtain ⟨⟨n, h1, h2, -, h3, h4⟩, -, sl, sr⟩ := hs
    have e1 := verifyNodeW_count g sl hp.1 (fun i hi => hl i (by simp [leaves, hi])) (by omega)
    have e2 := verifyNodeW_count g sr hp.2 (fun i hi => hl i (by simp [leaves, hi])) (by omega)
    have : get b (some (ITree.node i l r).root) = .ok n := idx_eq_ok.2 h1
    rw [verifyNodeW, Work.bind_ok (b := n) (by rw [Work.lift, this])]
    have hb : (if n.isLeaf then calcDataW hashOf n.data else
        (verifyNodeW A hashOf b g n.right).bind fun rightBytes => (verifyNodeW A hashOf b g n.left).bind fun leftBytes =>
          Work.sha A (leftBytes ++ rightBytes)) =
        ⟨some (.ok ((ITree.node i l r).eval A.sha3_256 φ)), 2 ^ d + 2 ^ d, (2 ^ d - 1) + (2 ^ d - 1) + 1⟩ := by
      rw [h2, h3, h4, e1, e2]
      simp only [Work.bind, Work.sha, sha_eq, eval, Bool.false_eq_true, if_false]
      congr 1
    rw [hb]
    have hpos : 0 < 2 ^ d := by exact Nat.two_pow_pos d
    simp only [Work.lift]
    congr 1
    · rw [Nat.pow_succ]; omega
    · rw [Nat.pow_succ]; omega

/-- C130: in a program that only calls the functions of the package, `VerifyTree` of a tree with `n` leaves (counting
the copy) asks payloads `2 ^ ⌈log₂ n⌉` times for their hash and computes one SHA3 less; that is less than `2 n`. -/
theorem C130_verifyTree (w : World α) (h : Reachable A hashOf w) (t : Tree) (ht : t ∈ w.2) (g : Nat)
    (hg : t.leaves.length ≤ g) :
    verifyTreeW A hashOf g t w.1 =
        ⟨some (.ok true), 2 ^ Nat.clog 2 t.leaves.length, 2 ^ Nat.clog 2 t.leaves.length - 1⟩ ∧
      2 ^ Nat.clog 2 t.leaves.length < 2 * t.leaves.length := by
  have hok := C06_history_verifies A hashOf w h t ht g hg
  obtain ⟨n0, ds, hs, T, hb⟩ := reachable_healthy A hashOf h t ht
  have h1 := height_le ds.length
  have h2 := hb.two
  have hl := hb.leaves_length
  have e := verifyNodeW_count A hashOf g hb.shape hb.perfect (hb.leafHash A hashOf) (by omega)
  rw [verifyTree, hb.root, verifyNode_ok A hashOf g hb.shape hb.perfect (hb.leafHash A hashOf) (by omega),
    Run.bind_ok] at hok
  rw [height_clog, ← hl] at e
  refine ⟨?_, ?_⟩
  · rw [verifyTreeW, hb.root, Work.bind_ok (b := T.eval A.sha3_256 (storedHash w.1)) (by rw [e]), e]
    simp only [Work.lift]
    rw [hok]
    rfl
  · have h3 : 2 ^ (Nat.clog 2 t.leaves.length - 1) < t.leaves.length :=
      Nat.pow_pred_clog_lt_self (by omega) (by omega)
    have h4 : 1 ≤ Nat.clog 2 t.leaves.length := Nat.clog_pos (by omega) (by omega)
    calc 2 ^ Nat.clog 2 t.leaves.length = 2 * 2 ^ (Nat.clog 2 t.leaves.length - 1) := by
          rw [← Nat.pow_succ']; congr 1; omega
      _ < 2 * t.leaves.length := by omega


/-- C130 (violated): `VerifyTree` does not look at every payload once. Of `2 ^ k + 1` payloads (`k ≥ 1`) it hashes
`2 ^ (k + 1)`: the levels of odd length pair their last node with itself, and everything below it is computed again. -/
theorem C130_verifyTree_violated (k : Nat) (hk : 1 ≤ k) (f : Nat) (pl : List α) (a a' a'' : Arena α) (t : Tree)
    (hl : pl.length = 2 ^ k + 1) (h : newTree A hashOf f pl a = some (.ok (t, a'))) (hp : a' <+: a'') (g : Nat)
    (hg : t.leaves.length ≤ g) :
    verifyTreeW A hashOf g t a'' = ⟨some (.ok true), 2 ^ (k + 1), 2 ^ (k + 1) - 1⟩ ∧
      2 ^ (k + 1) = 2 * pl.length - 2 := by
  have hok := C06_newTree_verifies A hashOf f pl a a' a'' t h hp g hg
  obtain ⟨hne, hs, T, -, -, -, -, hb⟩ := newTree_built A hashOf h
  replace hb := hb.mono A hashOf hp
  have h1 := height_le (Spec.pad pl).length
  have h2 := hb.two
  have hll := hb.leaves_length
  have e := verifyNodeW_count A hashOf g hb.shape hb.perfect (hb.leafHash A hashOf) (by omega)
  rw [verifyTree, hb.root, verifyNode_ok A hashOf g hb.shape hb.perfect (hb.leafHash A hashOf) (by omega),
    Run.bind_ok] at hok
  have hpos := Nat.two_pow_pos k
  have hc : Nat.clog 2 pl.length = k + 1 := by
    apply le_antisymm
    · rw [Nat.clog_le_iff_le_pow (by omega), hl, Nat.pow_succ]
      have : 2 ^ 1 ≤ 2 ^ k := Nat.pow_le_pow_right (by omega) hk
      omega
    · by_contra hlt
      have : Nat.clog 2 pl.length ≤ k := by omega
      rw [Nat.clog_le_iff_le_pow (by omega), hl] at this
      omega
  rw [height_pad pl hne, hc, show max 1 (k + 1) = k + 1 by omega] at e
  refine ⟨?_, by rw [hl, Nat.pow_succ]; omega⟩
  rw [verifyTreeW, hb.root, Work.bind_ok (b := T.eval A.sha3_256 (storedHash a'')) (by rw [e]), e]
  simp only [Work.lift]
  rw [hok]
  rfl

/-- A chain of `k` inner nodes above one leaf; both children of a node are the node below. -/
def ladder (d : α) : Nat → Arena α
  | 0 => [{ data := some d, isLeaf := true }]
  | k + 1 => ladder d k ++ [{ left := some k, right := some k }]

theorem ladder_length (d : α) : ∀ k, (ladder d k).length = k + 1
  | 0 => rfl
  | k + 1 => by simp [ladder, ladder_length d k]

/-- C130 (violated): the exported `VerifyNode` follows the pointers of any nodes it is given. On `k + 1` nodes it asks
the one payload `2 ^ k` times. -/
theorem C130_verifyNode_violated (d : α) (x : Bytes) (hd : hashOf d = .ok x) (k : Nat) (rest : Arena α) :
    ∃ y, verifyNodeW A hashOf (ladder d k ++ rest) (k + 1) (some k) = ⟨some (.ok y), 2 ^ k, 2 ^ k - 1⟩ := by
  suffices H : ∀ k, ∀ rest : Arena α, ∃ y,
      verifyNodeW A hashOf (ladder d k ++ rest) (k + 1) (some k) = ⟨some (.ok y), 2 ^ k, 2 ^ k - 1⟩ from H k rest
  intro k
  induction k with
  | zero =>
    intro rest
    refine ⟨x, ?_⟩
    rw [verifyNodeW, Work.bind_ok (b := ({ data := some d, isLeaf := true } : Node α)) rfl]
    simp only [if_true, calcDataW, Work.payload, hd, Work.lift]
  | succ k ih =>
    intro rest
    obtain ⟨y, hy⟩ := ih ([{ left := some k, right := some k }] ++ rest)
    have hg : get (ladder d (k + 1) ++ rest) (some (k + 1)) = .ok { left := some k, right := some k } := by
      refine idx_eq_ok.2 ?_
      rw [List.getElem?_append_left (by rw [ladder_length]; omega), ladder,
        List.getElem?_append_right (by rw [ladder_length])]
      simp [ladder_length]
    rw [← List.append_assoc] at hy
    refine ⟨A.sha3_256 (y ++ y), ?_⟩
    rw [verifyNodeW, Work.bind_ok (b := ({ left := some k, right := some k } : Node α)) (by rw [Work.lift, hg])]
    have hb : verifyNodeW A hashOf (ladder d (k + 1) ++ rest) (k + 1) (some k) = ⟨some (.ok y), 2 ^ k, 2 ^ k - 1⟩ := hy
    have hpos := Nat.two_pow_pos k
    simp only [Bool.false_eq_true, if_false, hb]
    simp only [Work.bind, Work.sha, sha_eq, Work.lift]
    congr 1
    · rw [Nat.pow_succ]; omega
    · rw [Nat.pow_succ]; omega

/-! ## VerifyContent -/

theorem calculateNodeHashW_count {b : Arena α} {φ : Nat → Bytes} {t : ITree} {p : Option Nat} {d : Nat}
    (hs : Shape b p t) (hp : t.Perfect d) (hl : ∀ i ∈ t.leaves, LeafHash hashOf b φ i) :
    calculateNodeHashW A hashOf b (some t.root) =
      ⟨some (.ok (shallow A b φ t.root)), if d = 0 then 1 else 0, if d = 0 then 0 else 1⟩ := by
  have hr := calculateNodeHashW_run A hashOf b (some t.root)
  rw [calculateNodeHash_ok A hashOf hs hl] at hr
  suffices H : (calculateNodeHashW A hashOf b (some t.root)).payloads = (if d = 0 then 1 else 0) ∧
      (calculateNodeHashW A hashOf b (some t.root)).shas = (if d = 0 then 0 else 1) by
    rw [← hr, ← H.1, ← H.2]
  cases t with
  | leaf i =>
    cases d with
    | succ d => cases hp
    | zero =>
      obtain ⟨n, h1, h2, -⟩ := hs
      obtain ⟨n', x, g1, g2, g3⟩ := hl i (by simp [leaves])
      rw [h1, Option.some.injEq] at g1
      subst g1
      have : get b (some (ITree.leaf i).root) = .ok n := idx_eq_ok.2 h1
      rw [calculateNodeHashW, Work.bind_ok (b := n) (by rw [Work.lift, this])]
      simp [h2, g2, calcDataW, Work.payload, Work.lift]
  | node i l r =>
    cases d with
    | zero => cases hp
    | succ d =>
      obtain ⟨⟨n, h1, h2, -, h3, h4⟩, -, sl, sr⟩ := hs
      have : get b (some (ITree.node i l r).root) = .ok n := idx_eq_ok.2 h1
      obtain ⟨nl, el, -⟩ := shape_root sl
      obtain ⟨nr, er, -⟩ := shape_root sr
      have el' : get b (some l.root) = .ok nl := idx_eq_ok.2 el
      have er' : get b (some r.root) = .ok nr := idx_eq_ok.2 er
      rw [calculateNodeHashW, Work.bind_ok (b := n) (by rw [Work.lift, this])]
      simp only [h2, Bool.false_eq_true, if_false, h3, h4, el', er']
      rw [Work.bind_ok (b := nl) rfl, Work.bind_ok (b := nr) rfl]
      simp [Work.sha, Work.lift]

theorem walkW_count {b : Arena α} {φ : Nat → Bytes} : ∀ {t : ITree} {p : Option Nat} {d : Nat}, Shape b p t →
    t.Perfect d → (∀ i ∈ t.leaves, LeafHash hashOf b φ i) → Hashed A.sha3_256 b φ t → ∀ i ∈ t.leaves,
    ∃ n, b[i]? = some n ∧ ∀ f, walkW A hashOf b (d + f) n.parent =
      ⟨(walkW A hashOf b f p).run, (if d = 0 then 0 else 2) + (walkW A hashOf b f p).payloads,
        (3 * d - 2) + (walkW A hashOf b f p).shas⟩
  | .leaf i, p, 0, hs, _, hl, hh, k, hk => by
    simp only [leaves, List.mem_singleton] at hk
    subst hk
    obtain ⟨n, h, -, hp⟩ := hs
    refine ⟨n, h, fun f => ?_⟩
    rw [Nat.zero_add, hp]
    simp
  | .leaf i, p, d + 1, hs, hp, _, _, _, _ => by cases hp
  | .node i l r, p, 0, hs, hp, _, _, _, _ => by cases hp
  | .node j l r, p, d + 1, hs, hp, hl, hh, i, hi => by
    obtain ⟨⟨n, h1, h2, h0, h3, h4⟩, -, sl, sr⟩ := hs
    obtain ⟨⟨n', g1, g2⟩, hhl, hhr⟩ := hh
    rw [h1, Option.some.injEq] at g1
    subst g1
    have hll : ∀ i ∈ l.leaves, LeafHash hashOf b φ i := fun i hi => hl i (by simp [leaves, hi])
    have hlr : ∀ i ∈ r.leaves, LeafHash hashOf b φ i := fun i hi => hl i (by simp [leaves, hi])
    have key : ∃ n, b[i]? = some n ∧ ∀ f, walkW A hashOf b (d + f) n.parent =
        ⟨(walkW A hashOf b f (some j)).run, (if d = 0 then 0 else 2) + (walkW A hashOf b f (some j)).payloads,
          (3 * d - 2) + (walkW A hashOf b f (some j)).shas⟩ := by
      simp only [leaves, List.mem_append] at hi
      rcases hi with hi | hi
      · exact walkW_count sl hp.1 hll hhl i hi
      · exact walkW_count sr hp.2 hlr hhr i hi
    obtain ⟨m, hm, hw⟩ := key
    refine ⟨m, hm, fun f => ?_⟩
    have e1 := calculateNodeHashW_count A hashOf sl hp.1 hll
    have e2 := calculateNodeHashW_count A hashOf sr hp.2 hlr
    have hstep : walkW A hashOf b (f + 1) (some j) =
        ⟨(walkW A hashOf b f p).run, (if d = 0 then 2 else 0) + (walkW A hashOf b f p).payloads,
          (if d = 0 then 1 else 3) + (walkW A hashOf b f p).shas⟩ := by
      rw [walkW, Work.bind_ok (b := n) (by rw [Work.lift, idx_eq_ok.2 h1]), h3, h4, e1, e2]
      simp only [Work.bind, Work.sha, sha_eq, Work.lift, h0, shallow_of_hashed A sl hhl, shallow_of_hashed A sr hhr, g2,
        ne_eq, not_true_eq_false, if_false]
      by_cases hd : d = 0 <;> simp only [hd, if_true, if_false] <;> congr 1 <;> omega
    rw [show d + 1 + f = d + (f + 1) by omega, hw (f + 1), hstep]
    simp only
    congr 1
    · by_cases hd : d = 0
      · simp [hd]
      · simp [hd]
    · by_cases hd : d = 0
      · simp [hd]
      · simp only [hd, if_false]; omega

theorem contentLoopW_skip {b : Arena α} {φ : Nat → Bytes} {d : α} {h : Bytes} (hd : hashOf d = .ok h) (f : Nat) :
    ∀ is : List Nat, (∀ i ∈ is, LeafHash hashOf b φ i ∧ φ i ≠ h) → ∀ is',
    contentLoopW A hashOf f b d (is ++ is') =
      ⟨(contentLoopW A hashOf f b d is').run, 2 * is.length + (contentLoopW A hashOf f b d is').payloads,
        (contentLoopW A hashOf f b d is').shas⟩
  | [], _, is' => by simp
  | i :: is, hi, is' => by
    obtain ⟨⟨n, x, h1, h2, h3⟩, hne⟩ := hi i (by simp)
    have ih := contentLoopW_skip hd f is (fun i hi' => hi i (by simp [hi'])) is'
    rw [List.cons_append, contentLoopW, Work.bind_ok (b := n) (by rw [Work.lift, idx_eq_ok.2 h1]), ih]
    simp only [equalsW, calcDataW, h2, Work.bind, Work.payload, h3, hd, Work.lift, hne, decide_false,
      Bool.false_eq_true, if_false, List.length_cons]
    congr 1 <;> omega

theorem contentLoopW_hit {b : Arena α} {φ : Nat → Bytes} {d : α} {h : Bytes} (hd : hashOf d = .ok h) (f : Nat)
    {i : Nat} (hi : LeafHash hashOf b φ i) (he : φ i = h) {n : Node α} (hn : b[i]? = some n) (is : List Nat) :
    contentLoopW A hashOf f b d (i :: is) =
      ⟨(walkW A hashOf b f n.parent).run, 2 + (walkW A hashOf b f n.parent).payloads,
        (walkW A hashOf b f n.parent).shas⟩ := by
  obtain ⟨n', x, h1, h2, h3⟩ := hi
  rw [hn, Option.some.injEq] at h1
  subst h1
  rw [contentLoopW, Work.bind_ok (b := n) (by rw [Work.lift, idx_eq_ok.2 hn])]
  simp only [equalsW, calcDataW, h2, Work.bind, Work.payload, h3, hd, Work.lift, he, decide_true, if_true]
  congr 1 <;> omega

theorem stored_of_built {b : Arena α} {t : Tree} {pl : List α} {hs : List Bytes} {T : ITree}
    (hh : Hashes hashOf pl hs) (hb : Built A hashOf b t pl.length (Spec.pad pl) (Spec.pad hs) T) (k : Nat)
    (hk : k < t.leaves.length) :
    ∃ p ∈ pl, hashOf p = .ok (storedHash b t.leaves[k]) ∧ ∀ h : k < pl.length, p = pl[k] := by
  have hm := hb.map_hash
  have h1 : (t.leaves.map (storedHash b))[k]? = some (storedHash b t.leaves[k]) := by
    rw [List.getElem?_map, List.getElem?_eq_getElem hk]; rfl
  rw [hm] at h1
  have hhp := List.forall₂_iff_get.1 (hashes_pad hashOf hh)
  have hkd : k < (Spec.pad pl).length := by rw [← hb.leaves_length]; exact hk
  obtain ⟨hk2, h2⟩ := List.getElem?_eq_some_iff.1 h1
  have h3 := hhp.2 k hkd hk2
  simp only [List.get_eq_getElem] at h3
  refine ⟨(Spec.pad pl)[k], ?_, by rw [h3, h2], fun h => ?_⟩
  · have hmem := List.getElem_mem hkd
    revert hmem
    generalize (Spec.pad pl)[k] = y
    unfold Spec.pad
    split
    · rw [List.mem_append]
      rintro (h | h)
      · exact h
      · rw [Option.mem_toList] at h
        exact List.mem_of_getLast? h
    · exact id
  · have := pad_getElem? pl h
    rw [List.getElem?_eq_getElem hkd, List.getElem?_eq_getElem h, Option.some.injEq] at this
    exact this

/-- C130: `VerifyContent` on a tree built from `pl`, for data with the hash of the payload at position `k` and of none
before it: `2 (k + 1)` calls of `CalculateHash` to find it (the data is hashed again for every leaf), two more for the
node above it, and `3 h - 2` SHA3 computations for the `h` levels. -/
theorem C130_verifyContent_found (f : Nat) (pl pl' : List α) (p : α) (a a' a'' : Arena α) (t : Tree)
    (h : newTree A hashOf f (pl ++ p :: pl') a = some (.ok (t, a'))) (hp : a' <+: a'') (d : α) (x : Bytes)
    (hd : hashOf d = .ok x) (hpx : hashOf p = .ok x) (hne : ∀ q ∈ pl, hashOf q ≠ .ok x) (g : Nat)
    (hg : t.leaves.length ≤ g) :
    verifyContentW A hashOf g t d a'' = ⟨some (.ok true), 2 * (pl.length + 1) + 2,
      3 * max 1 (Nat.clog 2 (pl ++ p :: pl').length) - 2⟩ := by
  obtain ⟨hnil, hs, T, hh, -, -, -, hb⟩ := newTree_built A hashOf h
  replace hb := hb.mono A hashOf hp
  have hleaf := hb.leafHash A hashOf
  have hl := hb.leaves_length
  have hpl := pad_length (pl ++ p :: pl') hnil
  have hk : pl.length < t.leaves.length := by
    rw [hl, hpl]; simp; omega
  have hsplit : t.leaves = t.leaves.take pl.length ++ t.leaves[pl.length] :: t.leaves.drop (pl.length + 1) := by
    rw [← List.drop_eq_getElem_cons hk, List.take_append_drop]
  have hskip : ∀ i ∈ t.leaves.take pl.length, LeafHash hashOf a'' (storedHash a'') i ∧ storedHash a'' i ≠ x := by
    intro i hi
    obtain ⟨j, hj, rfl⟩ := List.mem_iff_getElem.1 hi
    rw [List.length_take] at hj
    rw [List.getElem_take]
    refine ⟨hleaf _ ((hb.mem _).2 (List.getElem_mem _)), fun hc => ?_⟩
    obtain ⟨q, -, hq, hqe⟩ := stored_of_built A hashOf hh hb j (by omega)
    have hq' := hqe (by rw [List.length_append]; omega)
    rw [List.getElem_append_left (by omega)] at hq'
    refine hne q (by rw [hq']; exact List.getElem_mem _) ?_
    rw [hq, hc]
  obtain ⟨q, -, hq, hqe⟩ := stored_of_built A hashOf hh hb pl.length hk
  have hqp : q = p := by
    rw [hqe (by simp)]
    simp
  subst hqp
  have hx : storedHash a'' t.leaves[pl.length] = x := by
    rw [hpx] at hq
    exact (Res.ok.inj hq).symm
  have hmem : t.leaves[pl.length] ∈ T.leaves := (hb.mem _).2 (List.getElem_mem _)
  obtain ⟨n, hn, hw⟩ := walkW_count A hashOf hb.shape hb.perfect hleaf hb.hashed _ hmem
  have h1 := height_le (Spec.pad (pl ++ q :: pl')).length
  have h2 := hb.two
  have hw' := hw (g - Spec.height (Spec.pad (pl ++ q :: pl')).length)
  rw [show Spec.height (Spec.pad (pl ++ q :: pl')).length + (g - Spec.height (Spec.pad (pl ++ q :: pl')).length) = g by
    omega] at hw'
  have hnone : ∀ m, walkW A hashOf a'' m none = ⟨some (.ok true), 0, 0⟩ := by
    intro m; cases m <;> rfl
  rw [hnone, height_pad _ hnil] at hw'
  rw [verifyContentW, hsplit, contentLoopW_skip A hashOf hd g _ hskip,
    contentLoopW_hit A hashOf hd g (hleaf _ hmem) hx hn, hw', List.length_take, if_neg (by omega)]
  simp only
  congr 1
  omega

/-- C130 (violated): `VerifyContent` is not logarithmic. For data that is not in the tree it hashes every payload
(and the copy) and, once for every leaf, the data. -/
theorem C130_verifyContent_violated (f : Nat) (pl : List α) (a a' a'' : Arena α) (t : Tree)
    (h : newTree A hashOf f pl a = some (.ok (t, a'))) (hp : a' <+: a'') (d : α) (x : Bytes)
    (hd : hashOf d = .ok x) (hne : ∀ q ∈ pl, hashOf q ≠ .ok x) (g : Nat) :
    verifyContentW A hashOf g t d a'' = ⟨some (.ok false), 2 * t.leaves.length, 0⟩ := by
  obtain ⟨hnil, hs, T, hh, -, -, -, hb⟩ := newTree_built A hashOf h
  replace hb := hb.mono A hashOf hp
  have hleaf := hb.leafHash A hashOf
  have hskip : ∀ i ∈ t.leaves, LeafHash hashOf a'' (storedHash a'') i ∧ storedHash a'' i ≠ x := by
    intro i hi
    obtain ⟨j, hj, rfl⟩ := List.mem_iff_getElem.1 hi
    refine ⟨hleaf _ ((hb.mem _).2 hi), fun hc => ?_⟩
    obtain ⟨q, hqm, hq, -⟩ := stored_of_built A hashOf hh hb j hj
    refine hne q hqm ?_
    rw [hq, hc]
  have := contentLoopW_skip A hashOf hd g t.leaves hskip []
  rw [List.append_nil] at this
  rw [verifyContentW, this]
  rfl

/-! ## Five payloads -/

example : ∃ t a', newTree A demoHash 6 [[1], [2], [3], [4], [5]] [] = some (.ok (t, a')) ∧
    (newTreeW A demoHash 6 [[1], [2], [3], [4], [5]] []).payloads = 5 ∧
    (newTreeW A demoHash 6 [[1], [2], [3], [4], [5]] []).shas = 6 ∧
    verifyTreeW A demoHash 6 t a' = ⟨some (.ok true), 8, 7⟩ ∧
    verifyContentW A demoHash 6 t [2] a' = ⟨some (.ok true), 6, 7⟩ ∧
    verifyContentW A demoHash 6 t [7] a' = ⟨some (.ok false), 12, 0⟩ := by
  obtain ⟨t, a', h⟩ := (C04_newTree_ok_iff A demoHash [[1], [2], [3], [4], [5]] []).2 ⟨by simp, by simp [demoHash]⟩
  obtain ⟨hne, hs, T, -, -, hlv, -, hb⟩ := newTree_built A demoHash h
  have hlen : t.leaves.length = 6 := by rw [hlv, List.length_range']; rfl
  have hrun : (newTreeW A demoHash 6 [[1], [2], [3], [4], [5]] []).run = some (.ok (t, a')) := by
    rw [(C130_counted A demoHash 6 [[1], [2], [3], [4], [5]] [] t [1]).1]; exact h
  obtain ⟨c1, c2, -⟩ := C130_newTree A demoHash 6 _ [] a' t hrun
  refine ⟨t, a', h, c1, ?_, ?_, ?_, ?_⟩
  · rw [c2, hlen]
    simp [Spec.inner]
  · exact (C130_verifyTree_violated A demoHash 2 (by omega) _ _ _ a' a' t (by simp) h (List.prefix_refl _) 6
      (by omega)).1
  · have := C130_verifyContent_found A demoHash _ [[1]] [[3], [4], [5]] [2] [] a' a' t h (List.prefix_refl _) [2] [2]
      rfl rfl (by simp [demoHash]) 6 (by omega)
    rw [this]
    have : Nat.clog 2 ([[1]] ++ [2] :: [[3], [4], [5]] : List Bytes).length = 3 := by
      show Nat.clog 2 5 = 3
      decide +kernel
    rw [this]
    rfl
  · have := C130_verifyContent_violated A demoHash _ _ [] a' a' t h (List.prefix_refl _) [7] [7] rfl
      (by simp [demoHash]) 6
    rw [this, hlen]

/-- The tree of a program whose only call is `NewTree`. -/
example : ∃ w t, Reachable A demoHash w ∧ t ∈ w.2 ∧ t.leaves.length = 6 ∧
    verifyTreeW A demoHash 6 t w.1 = ⟨some (.ok true), 8, 7⟩ := by
  obtain ⟨t, a', h⟩ := (C04_newTree_ok_iff A demoHash [[1], [2], [3], [4], [5]] []).2 ⟨by simp, by simp [demoHash]⟩
  obtain ⟨hne, hs, T, -, -, hlv, -, hb⟩ := newTree_built A demoHash h
  have hlen : t.leaves.length = 6 := by rw [hlv, List.length_range']; rfl
  have hr : Reachable A demoHash (a', [t]) :=
    ⟨[.new [[1], [2], [3], [4], [5]]], .cons ⟨6, by
      have h' : newTree A demoHash 6 [[1], [2], [3], [4], [5]] [] = some (.ok (t, a')) := h
      simp only [h', List.nil_append]⟩ (.nil _)⟩
  refine ⟨(a', [t]), t, hr, by simp, hlen, ?_⟩
  have := (C130_verifyTree A demoHash (a', [t]) hr t (by simp) 6 (by omega)).1
  rw [this, hlen]
  have : Nat.clog 2 6 = 3 := by decide +kernel
  rw [this]

example : newTreeW A demoHash 6 [[1], [2], [], [4]] [] = ⟨some (.err "empty"), 3, 0⟩ :=
  C130_newTree_fail A demoHash 6 [[1], [2]] [[4]] [] "empty" [] (by simp [demoHash]) rfl

example : ∃ y, verifyNodeW A demoHash (ladder [1] 40) 41 (some 40) = ⟨some (.ok y), 2 ^ 40, 2 ^ 40 - 1⟩ := by
  have := C130_verifyNode_violated A demoHash [1] [1] rfl 40 []
  rwa [List.append_nil] at this

theorem Work.bind_stop {β γ : Type} {m : Work β} (h : ∀ b, m.run ≠ some (.ok b)) (f : β → Work γ) :
    (m.bind f).payloads = m.payloads ∧ (m.bind f).shas = m.shas ∧ ∀ c, (m.bind f).run ≠ some (.ok c) := by
  unfold Work.bind
  split
  · exact absurd ‹_› (h _)
  all_goals exact ⟨rfl, rfl, by simp⟩

/-- C130: `VerifyNode` on any nodes, linked in any way by the caller, and whatever the payloads do: when it returns a hash it has computed one
SHA3-256 less than it asked payloads, and when it fails or panics, or as long as it runs, it has computed none or fewer than that. -/
theorem C130_verifyNode_any (a : Arena α) : ∀ (f : Nat) (p : Option Nat),
    (∀ b, (verifyNodeW A hashOf a f p).run = some (.ok b) → (verifyNodeW A hashOf a f p).payloads = (verifyNodeW A hashOf a f p).shas + 1) ∧
    ((verifyNodeW A hashOf a f p).shas = 0 ∨ (verifyNodeW A hashOf a f p).shas < (verifyNodeW A hashOf a f p).payloads)
  | 0, _ => ⟨fun b h => (by cases h), .inl rfl⟩
  | f + 1, p => by
    rw [verifyNodeW]
    cases hn : get a p with
    | err e => exact ⟨fun b h => (by cases h), .inl rfl⟩
    | panic => exact ⟨fun b h => (by cases h), .inl rfl⟩
    | ok n =>
      rw [Work.bind_ok (b := n) rfl]
      simp only [Work.lift, Nat.zero_add]
      by_cases hl : n.isLeaf
      · rw [if_pos hl]
        cases n.data with
        | none => exact ⟨fun b h => (by cases h), .inl rfl⟩
        | some d => exact ⟨fun b h => rfl, .inl rfl⟩
      · rw [if_neg hl]
        obtain ⟨r1, r2⟩ := C130_verifyNode_any a f n.right
        obtain ⟨l1, l2⟩ := C130_verifyNode_any a f n.left
        by_cases hr : ∃ b, (verifyNodeW A hashOf a f n.right).run = some (.ok b)
        · obtain ⟨b, hb⟩ := hr
          have := r1 b hb
          rw [Work.bind_ok hb]
          by_cases hl : ∃ b, (verifyNodeW A hashOf a f n.left).run = some (.ok b)
          · obtain ⟨c, hc⟩ := hl
            have := l1 c hc
            rw [Work.bind_ok hc]
            simp only [Work.sha]
            exact ⟨fun _ _ => by omega, by omega⟩
          · obtain ⟨s1, s2, s3⟩ := Work.bind_stop (fun c hc => hl ⟨c, hc⟩) fun leftBytes => Work.sha A (leftBytes ++ b)
            simp only [s1, s2]
            exact ⟨fun c hc => absurd hc (s3 c), by omega⟩
        · obtain ⟨s1, s2, s3⟩ := Work.bind_stop (fun c hc => hr ⟨c, hc⟩) fun rightBytes =>
            (verifyNodeW A hashOf a f n.left).bind fun leftBytes => Work.sha A (leftBytes ++ rightBytes)
          simp only [s1, s2]
          exact ⟨fun c hc => absurd hc (s3 c), r2⟩

/-- A node above a good leaf and a leaf whose payload panics: both payloads were asked, nothing was computed; with good leaves on both sides one
SHA3-256 was. -/
example (A : Hash.Algs) : verifyNodeW A (fun b : Bool => if b then .ok [1] else .panic)
      [{ data := some false, isLeaf := true }, { data := some true, isLeaf := true }, { left := some 0, right := some 1 }] 2 (some 2) =
        ⟨some .panic, 2, 0⟩ ∧
    verifyNodeW A (fun b : Bool => if b then .ok [1] else .panic)
      [{ data := some true, isLeaf := true }, { data := some true, isLeaf := true }, { left := some 0, right := some 1 }] 2 (some 2) =
        ⟨some (Hash.sha3256 A [1, 1]), 2, 1⟩ := ⟨rfl, rfl⟩
end Dusk.Merkle
