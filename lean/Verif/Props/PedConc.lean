import Verif.Model.PedConc
import Verif.Props.Pedersen
/-!
# C125: one Pedersen value used by several goroutines
-/

namespace Dusk.PedConc

variable {F G : Type} [Field F] [AddCommGroup G] [Module F G]

/-! ## Running alone -/

omit [AddCommGroup G] in
theorem run_bind {α β : Type} (f : α → Prog G β) : ∀ (p : Prog G α) (b : List G),
    run b (p.bind f) = run (run b p).1 (f (run b p).2)
  | .ret _, _ => rfl
  | .load k, b => run_bind f (k b) b
  | .store bs k, _ => run_bind f k bs

theorem run_computeP (R : Ristretto F G) (data : Bytes) : ∀ (n : Nat) (b : List G),
    (run b (computeP R data n)).1 = (Gen.compute R ⟨data, b⟩ n).bases
  | 0, _ => rfl
  | n + 1, _ => run_computeP R data n _

theorem compute_data (R : Ristretto F G) : ∀ (n : Nat) (g : Gen G), (Gen.compute R g n).data = g.data
  | 0, _ => rfl
  | n + 1, _ => compute_data R n _

theorem compute_length' (R : Ristretto F G) : ∀ (n : Nat) (g : Gen G), (Gen.compute R g n).bases.length = g.bases.length + n
  | 0, _ => rfl
  | n + 1, g => by
    rw [Gen.compute, compute_length' R n, List.length_append, List.length_singleton]
    omega

theorem run_loopP : ∀ (xs : List F) (b : List G) (i : Nat) (sum : G),
    run b (loopP xs i sum) = (b, Pedersen.commitLoop xs (b.drop i) sum)
  | [], _, _, _ => rfl
  | x :: xs, b, i, sum => by
    rw [loopP, run]
    cases h : b[i]? with
    | none =>
      rw [List.drop_eq_nil_of_le (List.getElem?_eq_none_iff.1 h)]
      rfl
    | some y =>
      have hlt := (List.getElem?_eq_some_iff.1 h).1
      rw [List.drop_eq_getElem_cons hlt, (List.getElem?_eq_some_iff.1 h).2]
      exact run_loopP xs b (i + 1) _

/-- Alone, `commitToScalars` is the function of the sequential model. -/
theorem run_commitP (R : Ristretto F G) (p : Pedersen G) (hp : p.baseVector.data = p.genData) (blind : Option F) (xs : List F) :
    (Pedersen.commitToScalars R p blind xs).bind (fun r => .ok r.1) =
      (run p.baseVector.bases (commitP R p.genData p.blindPoint blind xs)).2 ∧
    ∀ r, Pedersen.commitToScalars R p blind xs = .ok r →
      r.2.baseVector.bases = (run p.baseVector.bases (commitP R p.genData p.blindPoint blind xs)).1 := by
  have hg : (⟨p.genData, p.baseVector.bases⟩ : Gen G) = p.baseVector := by rw [← hp]
  unfold Pedersen.commitToScalars commitP
  simp only [run]
  by_cases h : p.baseVector.bases.length < xs.length
  · rw [if_pos h, if_pos h, run, run_bind, run_computeP, hg, run_loopP, List.drop_zero]
    have e : (((xs.length : Int) - p.baseVector.bases.length) % 2 ^ 32).toNat =
        (xs.length - p.baseVector.bases.length) % 2 ^ 32 := by omega
    rw [e]
    simp only
    cases Pedersen.commitLoop xs (Gen.compute R p.baseVector ((xs.length - p.baseVector.bases.length) % 2 ^ 32)).bases
      (match blind with
      | some b => 0 + b • p.blindPoint
      | none => 0) with
    | ok s => exact ⟨rfl, fun r hr => by cases hr; rfl⟩
    | err e => exact ⟨rfl, fun r hr => by cases hr⟩
    | panic => exact ⟨rfl, fun r hr => by cases hr⟩
  · rw [if_neg h, if_neg h, run_loopP, List.drop_zero]
    cases Pedersen.commitLoop xs p.baseVector.bases
      (match blind with
      | some b => 0 + b • p.blindPoint
      | none => 0) with
    | ok s => exact ⟨rfl, fun r hr => by cases hr; rfl⟩
    | err e => exact ⟨rfl, fun r hr => by cases hr⟩
    | panic => exact ⟨rfl, fun r hr => by cases hr⟩

/-- C125: a call alone returns what the sequential model returns. -/
theorem C125_alone (R : Ristretto F G) (p : Pedersen G) (hp : p.baseVector.data = p.genData) (vectors : List (List F)) (blind : F) :
    (run p.baseVector.bases (commitVecP R p vectors blind)).2 =
      (p.commitToVectors R vectors blind).bind fun r => .ok r.1.value := by
  unfold Pedersen.commitToVectors commitVecP
  cases vectors with
  | nil => rfl
  | cons v vs =>
    simp only
    rw [run_bind, Pedersen.commitVecLoop, if_pos rfl]
    obtain ⟨h1, h2⟩ := run_commitP R p hp (some blind) v
    simp only [run, ← h1]
    cases hc : Pedersen.commitToScalars R p (some blind) v with
    | ok r =>
      show (Pedersen.commitVecLoop R blind 1 vs p (0 + r.1)).bind (fun r => Res.ok r.1) =
        ((Pedersen.commitVecLoop R blind (0 + 1) vs r.2 (0 + r.1)).bind fun r =>
          Res.ok (({ value := r.1, blindingFactor := blind } : Commitment F G), r.2)).bind fun r => Res.ok r.1.value
      have hpp : r.2.genData = p.genData := by
        unfold Pedersen.commitToScalars at hc
        simp only at hc
        split at hc <;>
        · obtain ⟨s, -, hs⟩ := Res.bind_eq_ok.1 hc
          cases hs
          rfl
      have key : ∀ (vs : List (List F)) (i : Nat) (q q' : Pedersen G) (sum : G), q.genData = q'.genData →
          (Pedersen.commitVecLoop R blind (i + 1) vs q sum).bind (fun r => Res.ok r.1) =
          (Pedersen.commitVecLoop R blind (i + 1) vs q' sum).bind (fun r => Res.ok r.1) := by
        intro vs
        induction vs with
        | nil => intro i q q' sum _; rfl
        | cons v vs ih =>
          intro i q q' sum hq
          rw [Pedersen.commitVecLoop, Pedersen.commitVecLoop, if_neg (by omega), if_neg (by omega), hq]
          cases Pedersen.commitToScalars R (Pedersen.new R (q'.genData ++ [UInt8.ofNat (i + 1)])) none v with
          | ok c => exact ih (i + 1) q q' _ hq
          | err e => rfl
          | panic => rfl
      have := key vs 0 p r.2 (0 + r.1) hpp.symm
      simp only [Nat.zero_add] at this ⊢
      rw [this]
      cases Pedersen.commitVecLoop R blind 1 vs r.2 (0 + r.1) <;> rfl
    | err e => rfl
    | panic => rfl

/-! ## Sharing -/

/-- While every value of the field that others leave satisfies `I`, the program leaves only such values, and its result
satisfies `Q`. -/
def Safe {α : Type} (I : List G → Prop) (Q : α → Prop) : Prog G α → Prop
  | .ret a => Q a
  | .load k => ∀ b, I b → Safe I Q (k b)
  | .store bs k => I bs ∧ Safe I Q k

omit [AddCommGroup G] in
theorem Safe.bind {α β : Type} {I : List G → Prop} {Q : α → Prop} {Q' : β → Prop} {f : α → Prog G β} :
    ∀ {p : Prog G α}, Safe I Q p → (∀ a, Q a → Safe I Q' (f a)) → Safe I Q' (p.bind f)
  | .ret a, hp, hf => hf a hp
  | .load _, hp, hf => fun b hb => Safe.bind (hp b hb) hf
  | .store _ _, hp, hf => ⟨hp.1, Safe.bind hp.2 hf⟩

omit [AddCommGroup G] in
theorem Safe.imp {α : Type} {I : List G → Prop} {Q Q' : α → Prop} (h : ∀ a, Q a → Q' a) : ∀ {p : Prog G α}, Safe I Q p → Safe I Q' p
  | .ret a, hp => h a hp
  | .load _, hp => fun b hb => Safe.imp h (hp b hb)
  | .store _ _, hp => ⟨hp.1, Safe.imp h hp.2⟩

omit [AddCommGroup G] in
theorem sched_safe {α : Type} {I : List G → Prop} (Q : Nat → α → Prop) : ∀ (is : List Nat) (b : List G) (ps : List (Prog G α)),
    I b → (∀ i p, ps[i]? = some p → Safe I (Q i) p) →
    I (sched is b ps).1 ∧ ∀ i p, (sched is b ps).2[i]? = some p → Safe I (Q i) p
  | [], _, _, hb, h => ⟨hb, h⟩
  | j :: is, b, ps, hb, h => by
    unfold sched
    split
    · exact sched_safe Q is b ps hb h
    · rename_i p hp
      have hs : I (step b p).1 ∧ Safe I (Q j) (step b p).2 := by
        have := h j p hp
        cases p with
        | ret a => exact ⟨hb, this⟩
        | load k => exact ⟨hb, this b hb⟩
        | store bs k => exact this
      refine sched_safe Q is _ _ hs.1 ?_
      intro i q hq
      by_cases hij : j = i
      · subst hij
        rw [List.getElem?_set_self (List.getElem?_eq_some_iff.1 hp).1, Option.some.injEq] at hq
        subst hq
        exact hs.2
      · rw [List.getElem?_set_ne hij] at hq
        exact h i q hq

theorem computeP_safe (R : Ristretto F G) (data : Bytes) (b0 : List G) : ∀ n : Nat,
    Safe (fun b => b0 <+: b) (fun _ => True) (computeP R data n)
  | 0 => trivial
  | n + 1 => fun _ _ _ hb' => ⟨hb'.trans (List.prefix_append _ _), computeP_safe R data b0 n⟩

theorem loopP_safe (b0 : List G) {I : List G → Prop} (hI : ∀ b, I b → b0 <+: b) : ∀ (xs : List F) (i : Nat) (sum : G),
    i + xs.length ≤ b0.length → Safe I (fun r => r = Pedersen.commitLoop xs (b0.drop i) sum) (loopP xs i sum)
  | [], _, _, _ => rfl
  | x :: xs, i, sum, h => by
    rw [List.length_cons] at h
    intro b hb
    have hlt : i < b0.length := by omega
    have e : b[i]? = some b0[i] := by
      obtain ⟨c, rfl⟩ := hI b hb
      rw [List.getElem?_append_left hlt, List.getElem?_eq_getElem hlt]
    beta_reduce
    rw [e, List.drop_eq_getElem_cons hlt]
    exact loopP_safe b0 hI xs (i + 1) _ (by omega)

theorem loopP_any (b0 : List G) : ∀ (xs : List F) (i : Nat) (sum : G),
    Safe (fun b => b0 <+: b) (fun _ => True) (loopP xs i sum)
  | [], _, _ => trivial
  | x :: xs, i, sum => by
    intro b _
    beta_reduce
    cases b[i]? with
    | none => trivial
    | some y => exact loopP_any b0 xs (i + 1) _

/-- The bases the value has at the start are enough for the call. -/
def Call.Short (b0 : List G) : Call F → Prop
  | .compute _ => False
  | .commit vectors _ => ∀ v ∈ vectors.head?, v.length ≤ b0.length

theorem commitVecP_safe (R : Ristretto F G) (p : Pedersen G) (hp : p.baseVector.data = p.genData) {I : List G → Prop}
    (hI : ∀ b, I b → p.baseVector.bases <+: b) {vectors : List (List F)} {blind : F}
    (h : (Call.commit vectors blind).Short p.baseVector.bases) :
    Safe I (fun r => r = (p.commitToVectors R vectors blind).bind fun r => .ok r.1.value) (commitVecP R p vectors blind) := by
  rw [← C125_alone R p hp]
  cases vectors with
  | nil => exact rfl
  | cons v vs =>
    have hv : v.length ≤ p.baseVector.bases.length := h v rfl
    unfold commitVecP
    simp only
    rw [run_bind]
    refine Safe.bind (Q := fun r => r = (run p.baseVector.bases (commitP R p.genData p.blindPoint (some blind) v)).2) ?_ ?_
    · intro b hb
      rw [commitP, run, if_neg (by omega)]
      beta_reduce
      rw [if_neg (by have := (hI b hb).length_le; omega), run_loopP]
      exact loopP_safe _ hI v 0 _ (by omega)
    · rintro a rfl
      rfl

theorem Call.any_safe (R : Ristretto F G) (p : Pedersen G) (b0 : List G) (c : Call F) :
    Safe (fun b => b0 <+: b) (fun _ => True) (c.prog R p) := by
  cases c with
  | compute n => exact Safe.bind (computeP_safe R _ b0 n) fun _ _ => trivial
  | commit vectors blind =>
    cases vectors with
    | nil => trivial
    | cons v vs =>
      refine Safe.bind (Q := fun _ => True) ?_ fun _ _ => trivial
      intro b _
      beta_reduce
      split
      · exact fun b' _ => Safe.bind (computeP_safe R _ b0 _) fun _ _ => loopP_any b0 v 0 _
      · exact loopP_any b0 v 0 _

/-- C125: any number of goroutines compute bases of one value and commit with it at the same time. Under any schedule the
bases it had at the start stay, and every commitment that needs no more than these is the one of the sequential
model. -/
theorem C125_shared (R : Ristretto F G) (p : Pedersen G) (hp : p.baseVector.data = p.genData) (cs : List (Call F)) (is : List Nat) :
    p.baseVector.bases <+: (sched is p.baseVector.bases (cs.map (Call.prog R p))).1 ∧
    ∀ (i : Nat) (vectors : List (List F)) (blind : F) (r : Res G), cs[i]? = some (.commit vectors blind) →
      (Call.commit vectors blind).Short p.baseVector.bases →
      (sched is p.baseVector.bases (cs.map (Call.prog R p))).2[i]? = some (.ret r) →
      r = (p.commitToVectors R vectors blind).bind fun r => .ok r.1.value := by
  obtain ⟨h1, h2⟩ := sched_safe (I := fun b => p.baseVector.bases <+: b) (fun i r => ∀ vectors blind,
    cs[i]? = some (.commit vectors blind) → (Call.commit vectors blind).Short p.baseVector.bases →
      r = (p.commitToVectors R vectors blind).bind fun r => .ok r.1.value) is p.baseVector.bases (cs.map (Call.prog R p))
    (List.prefix_refl _) (by
      intro i q hq
      rw [List.getElem?_map, Option.map_eq_some_iff] at hq
      obtain ⟨c, hc, rfl⟩ := hq
      by_cases hs : ∃ vectors blind, c = .commit vectors blind ∧ (Call.commit vectors blind : Call F).Short p.baseVector.bases
      · obtain ⟨vectors, blind, rfl, hs⟩ := hs
        have := commitVecP_safe R p hp (I := fun b => p.baseVector.bases <+: b) (fun _ h => h) hs
        refine Safe.imp (fun r hr vectors' blind' he _ => ?_) this
        rw [hc, Option.some.injEq] at he
        cases he
        exact hr
      · refine Safe.imp (fun r _ vectors' blind' he hs' => ?_) (Call.any_safe R p p.baseVector.bases c)
        rw [hc, Option.some.injEq] at he
        exact absurd ⟨vectors', blind', he, hs'⟩ hs)
  exact ⟨h1, fun i vectors blind r hc hs hr => h2 i _ hr vectors blind hc hs⟩

/-- C125: if the bases are computed beforehand for all calls, nothing is written. -/
theorem C125_precomputed (R : Ristretto F G) (p : Pedersen G) (hp : p.baseVector.data = p.genData) (cs : List (Call F))
    (h : ∀ c ∈ cs, c.Short p.baseVector.bases) (is : List Nat) :
    (sched is p.baseVector.bases (cs.map (Call.prog R p))).1 = p.baseVector.bases := by
  refine (sched_safe (I := fun b => b = p.baseVector.bases) (fun _ _ => True) is p.baseVector.bases (cs.map (Call.prog R p)) rfl ?_).1
  intro i q hq
  rw [List.getElem?_map, Option.map_eq_some_iff] at hq
  obtain ⟨c, hc, rfl⟩ := hq
  have hs := h c (List.mem_of_getElem? hc)
  cases c with
  | compute n => exact hs.elim
  | commit vectors blind =>
    exact Safe.imp (fun _ _ => trivial)
      (commitVecP_safe R p hp (I := fun b => b = p.baseVector.bases) (fun b h => h ▸ List.prefix_refl _) hs)

/-! ## Computing bases at the same time -/

/-- C125, violated: two goroutines that call `Compute(1)` at the same time can leave the same point twice, in any
state of the value. -/
theorem C125_repeated_violated (R : Ristretto F G) (p : Pedersen G) :
    ∃ is, sched is p.baseVector.bases [(Call.compute 1).prog R p, (Call.compute 1).prog R p] =
      (p.baseVector.bases ++ [Gen.iterate R ⟨p.genData, p.baseVector.bases⟩, Gen.iterate R ⟨p.genData, p.baseVector.bases⟩],
        [.ret (.ok (0 : G)), .ret (.ok 0)]) := by
  refine ⟨[0, 1, 0, 0, 1, 1], ?_⟩
  rw [show [Gen.iterate R ⟨p.genData, p.baseVector.bases⟩, Gen.iterate R ⟨p.genData, p.baseVector.bases⟩] =
    [Gen.iterate R ⟨p.genData, p.baseVector.bases⟩] ++ [Gen.iterate R ⟨p.genData, p.baseVector.bases⟩] from rfl, ← List.append_assoc]
  rfl

/-- C125, violated: from then on commitments with this value do not bind: any amount can be moved between the two
entries. -/
theorem C125_not_binding_violated (R : Ristretto F G) (p : Pedersen G) (bs bs' : List G) (q : G)
    (hb : p.baseVector.bases = bs ++ q :: q :: bs') (xs ys : List F) (a b d blind : F) (hx : xs.length = bs.length)
    (hy : ys.length ≤ bs'.length) (vs : List (List F)) :
    p.commitToVectors R ((xs ++ (a + d) :: (b - d) :: ys) :: vs) blind = p.commitToVectors R ((xs ++ a :: b :: ys) :: vs) blind := by
  have hlen : ∀ u v : F, ¬ (p.baseVector.bases.length < (xs ++ u :: v :: ys).length) := by
    intro u v
    rw [hb]
    simp only [List.length_append, List.length_cons]
    omega
  have key : ∀ (xs : List F) (bs : List G) (sum : G), xs.length = bs.length →
      Pedersen.commitLoop (xs ++ (a + d) :: (b - d) :: ys) (bs ++ q :: q :: bs') sum =
      Pedersen.commitLoop (xs ++ a :: b :: ys) (bs ++ q :: q :: bs') sum := by
    intro xs
    induction xs with
    | nil =>
      intro bs sum h
      rw [List.length_eq_zero_iff.1 h.symm]
      simp only [List.nil_append, Pedersen.commitLoop]
      congr 1
      rw [add_smul, sub_smul]
      abel
    | cons x xs ih =>
      intro bs sum h
      cases bs with
      | nil => simp at h
      | cons y bs => exact ih bs _ (by simpa using h)
  have e : Pedersen.commitToScalars R p (some blind) (xs ++ (a + d) :: (b - d) :: ys) =
      Pedersen.commitToScalars R p (some blind) (xs ++ a :: b :: ys) := by
    unfold Pedersen.commitToScalars
    simp only [if_neg (hlen _ _)]
    rw [hb, key xs bs _ hx]
  unfold Pedersen.commitToVectors
  rw [Pedersen.commitVecLoop, Pedersen.commitVecLoop, if_pos rfl, if_pos rfl, e]

/-- C125, violated: a commitment to two scalars with a fresh value, made while another goroutine computes a base, can use
one base for both. -/
theorem C125_commit_race_violated (R : Ristretto F G) (data : Bytes) (a b blind : F) :
    ∃ is, sched is [] [(Call.commit [[a, b]] blind).prog R (Pedersen.new R data), (Call.compute 1).prog R (Pedersen.new R data)] =
      ([R.pDerive data, R.pDerive data, R.pDerive (R.pBytes (R.pDerive data))],
        [.ret (.ok (blind • R.base + (a + b) • R.pDerive data)), .ret (.ok 0)]) := by
  refine ⟨[1, 0, 0, 0, 0, 0, 1, 1, 0, 0, 0, 0, 0], ?_⟩
  rw [show blind • R.base + (a + b) • R.pDerive data =
    0 + (0 + blind • R.base + a • R.pDerive data + b • R.pDerive data) by rw [add_smul]; abel]
  rfl

omit [AddCommGroup G] in
theorem sched_append {α : Type} : ∀ (is js : List Nat) (b : List G) (ps : List (Prog G α)),
    sched (is ++ js) b ps = sched js (sched is b ps).1 (sched is b ps).2
  | [], _, _, _ => rfl
  | i :: is, js, b, ps => by
    rw [List.cons_append, sched, sched]
    split
    · exact sched_append is js b ps
    · exact sched_append is js _ _

omit [AddCommGroup G] in
/-- A goroutine that is given enough steps in a row returns, with the result of the call alone. -/
theorem sched_finish {α : Type} (i : Nat) : ∀ (p : Prog G α) (b : List G) (ps : List (Prog G α)), ps[i]? = some p →
    ∃ n, sched (List.replicate n i) b ps = ((run b p).1, ps.set i (.ret (run b p).2))
  | .ret a, b, ps, h => ⟨0, by
      simp only [List.replicate_zero, sched, run]
      congr 1
      apply List.ext_getElem?
      intro j
      by_cases hj : i = j
      · subst hj
        rw [List.getElem?_set_self (List.getElem?_eq_some_iff.1 h).1, h]
      · rw [List.getElem?_set_ne hj]⟩
  | .load k, b, ps, h => by
    obtain ⟨n, hn⟩ := sched_finish i (k b) b (ps.set i (k b)) (List.getElem?_set_self (List.getElem?_eq_some_iff.1 h).1)
    refine ⟨n + 1, ?_⟩
    rw [List.replicate_succ, sched, h]
    simp only [step, run]
    rw [hn, List.set_set]
  | .store bs k, b, ps, h => by
    obtain ⟨n, hn⟩ := sched_finish i k bs (ps.set i k) (List.getElem?_set_self (List.getElem?_eq_some_iff.1 h).1)
    refine ⟨n + 1, ?_⟩
    rw [List.replicate_succ, sched, h]
    simp only [step, run]
    rw [hn, List.set_set]

/-- C125, violated: the number of bases is read twice. If another goroutine adds more than are missing in between, the
difference is negative, and as a `uint32` it asks for more than four thousand million bases: the call ends with `n + 2^32`
of them. -/
theorem C125_huge_violated (R : Ristretto F G) (p : Pedersen G) (xs : List F) (blind : F) (k : Nat)
    (h1 : p.baseVector.bases.length < xs.length) (h2 : xs.length < p.baseVector.bases.length + k)
    (h3 : p.baseVector.bases.length + k < 2 ^ 32) :
    ∃ is bases q, sched is p.baseVector.bases [(Call.commit [xs] blind).prog R p, (Call.compute k).prog R p] =
        (bases, [q, .ret (.ok 0)]) ∧ (run bases q).1.length = xs.length + 2 ^ 32 := by
  obtain ⟨b0, hb0⟩ : ∃ b, b = p.baseVector.bases := ⟨_, rfl⟩
  rw [← hb0] at h1 h2 h3 ⊢
  -- the commitment has compared the lengths
  obtain ⟨rest, hrest⟩ : ∃ rest : List G → Prog G (Res G), rest = fun b' =>
    ((computeP R p.genData (((xs.length : Int) - b'.length) % 2 ^ 32).toNat).bind fun _ =>
      loopP xs 0 (0 + blind • p.blindPoint)).bind fun c =>
        .ret (c.bind fun c => (Pedersen.commitVecLoop R blind 1 [] p (0 + c)).bind fun r => .ok r.1) := ⟨_, rfl⟩
  have e1 : sched [0] b0 [(Call.commit [xs] blind).prog R p, (Call.compute k).prog R p] =
      (b0, [.load rest, (Call.compute k).prog R p]) := by
    simp only [Call.prog, commitVecP, commitP, Prog.bind, sched, List.getElem?_cons_zero, step, List.set_cons_zero, if_pos h1]
    rw [hrest]
  -- the other goroutine computes
  obtain ⟨n, hn⟩ := sched_finish 1 ((Call.compute k).prog R p) b0 [.load rest, (Call.compute k).prog R p] rfl
  have e2 : run b0 ((Call.compute k : Call F).prog R p) = ((Gen.compute R ⟨p.genData, b0⟩ k).bases, .ok (0 : G)) := by
    rw [Call.prog, run_bind, run_computeP]
    rfl
  rw [e2] at hn
  obtain ⟨b1, hb1⟩ : ∃ b, b = (Gen.compute R ⟨p.genData, b0⟩ k).bases := ⟨_, rfl⟩
  have l1 : b1.length = b0.length + k := by rw [hb1, compute_length']
  rw [← hb1] at hn
  refine ⟨[0] ++ List.replicate n 1, b1, .load rest, ?_, ?_⟩
  · rw [sched_append, e1, hn]
    rfl
  · rw [run, hrest]
    beta_reduce
    rw [run_bind, run_bind, run_computeP, run_loopP]
    simp only [run]
    rw [compute_length']
    simp only [l1]
    omega

/-! ## Cases -/

/-- Two commitments with a value that has two bases, and one computation of further bases, in the toy group. -/
example (is : List Nat) (r : Res Toy.K) : let p : Pedersen Toy.K := { Pedersen.new Toy.ris [7] with baseVector := ⟨[7], [3, 5]⟩ }
    (sched is [3, 5] ([Call.commit [[1, 2]] 4, Call.compute 3, Call.commit [[6]] 1].map (Call.prog Toy.ris p))).2[0]? = some (.ret r) →
      r = (p.commitToVectors Toy.ris [[1, 2]] 4).bind fun r => .ok r.1.value :=
  fun h => (C125_shared Toy.ris _ rfl [Call.commit [[1, 2]] 4, Call.compute 3, Call.commit [[6]] 1] is).2 0 [[1, 2]] 4 r rfl
    (by simp [Call.Short]) h

/-- The overflow needs two missing bases computed by the other goroutine while one was missing. -/
example : ∃ is bases q, sched is [] [(Call.commit [[1]] 2).prog Toy.ris (Pedersen.new Toy.ris [7]),
      (Call.compute 2).prog Toy.ris (Pedersen.new Toy.ris [7])] = (bases, [q, .ret (.ok 0)]) ∧ (run bases q).1.length = 1 + 2 ^ 32 :=
  C125_huge_violated Toy.ris (Pedersen.new Toy.ris [7]) [1] 2 2 (by simp [Pedersen.new, Gen.new]) (by simp [Pedersen.new, Gen.new])
    (by simp [Pedersen.new, Gen.new])

/-- `1 + 2` and `3 + 0` are the same with a repeated base. -/
example : ({ Pedersen.new Toy.ris [7] with baseVector := ⟨[7], [3, 3]⟩ } : Pedersen Toy.K).commitToVectors Toy.ris [[1 + 2, 2 - 2]] 4 =
    ({ Pedersen.new Toy.ris [7] with baseVector := ⟨[7], [3, 3]⟩ } : Pedersen Toy.K).commitToVectors Toy.ris [[1, 2]] 4 :=
  C125_not_binding_violated Toy.ris _ [] [] 3 rfl [] [] 1 2 2 4 rfl (le_refl _) []

example (is : List Nat) : let p : Pedersen Toy.K := { Pedersen.new Toy.ris [7] with baseVector := ⟨[7], [3, 5]⟩ }
    (sched is [3, 5] ([Call.commit [[1, 2]] 4, Call.commit [[6]] 1].map (Call.prog Toy.ris p))).1 = [3, 5] :=
  C125_precomputed Toy.ris { Pedersen.new Toy.ris [7] with baseVector := ⟨[7], [3, 5]⟩ } rfl [Call.commit [[1, 2]] 4, Call.commit [[6]] 1]
    (by simp [Call.Short]) is

example : ∃ is, (sched is [] [(Call.compute 1).prog Toy.ris (Pedersen.new Toy.ris [7]), (Call.compute (F := Toy.K) 1).prog Toy.ris (Pedersen.new Toy.ris [7])]).1 =
    [Toy.ris.pDerive [7], Toy.ris.pDerive [7]] := by
  obtain ⟨is, h⟩ := C125_repeated_violated (F := Toy.K) Toy.ris (Pedersen.new Toy.ris [7])
  exact ⟨is, congrArg Prod.fst h⟩

/-- The commitments to `[1, 2]` and to `[3, 0]` may come out as the same. -/
example : ∃ is is', (sched is [] [(Call.commit [[1, 2]] 4).prog Toy.ris (Pedersen.new Toy.ris [7]), (Call.compute 1).prog Toy.ris (Pedersen.new Toy.ris [7])]).2 =
    (sched is' [] [(Call.commit [[3, (0 : Toy.K)]] 4).prog Toy.ris (Pedersen.new Toy.ris [7]), (Call.compute 1).prog Toy.ris (Pedersen.new Toy.ris [7])]).2 := by
  obtain ⟨is, h⟩ := C125_commit_race_violated Toy.ris [7] (1 : Toy.K) 2 4
  obtain ⟨is', h'⟩ := C125_commit_race_violated Toy.ris [7] (3 : Toy.K) 0 4
  refine ⟨is, is', ?_⟩
  rw [h, h']
  norm_num

end Dusk.PedConc
