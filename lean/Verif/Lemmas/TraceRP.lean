import Verif.Model.TraceRP
import Verif.Spec.TraceRP
import Verif.Lemmas.Trace
import Verif.Lemmas.RPTop
import Verif.Props.PedConc
/-!
# Lemmas about the steps of proving a range
-/

set_option linter.unusedSectionVars false

namespace Dusk

namespace Traced

variable {α β : Type}

/-- If the call returns a result then it made these steps, and the result has this property. -/
def Does (m : Traced α) (S : List Step) (P : α → Prop) : Prop := ∀ a, m.res = .ok a → m.steps = S ∧ P a

/-- The call returns no result. -/
def Fails (m : Traced α) : Prop := ∀ a, m.res ≠ .ok a

theorem Does.did {l S : List Step} {a : α} {P : α → Prop} (e : l = S) (h : P a) : Does (did l a) S P := by
  intro b hb; cases hb; exact ⟨e, h⟩

theorem Does.lift {r : Res α} {P : α → Prop} (h : ∀ a, r = .ok a → P a) : Does (lift r) [] P := fun a ha => ⟨rfl, h a ha⟩

theorem Does.ok {a : α} {P : α → Prop} (h : P a) : Does (Traced.lift (.ok a)) [] P := by
  intro b hb; cases hb; exact ⟨rfl, h⟩

theorem Does.bind {m : Traced α} {f : α → Traced β} {S T : List Step} {P : α → Prop} {Q : β → Prop} (h : Does m S P)
    (hf : ∀ a, P a → Does (f a) T Q) : Does (m.bind f) (S ++ T) Q := by
  intro b hb
  rw [res_bind] at hb
  obtain ⟨a, e, hb⟩ := Res.bind_eq_ok.1 hb
  obtain ⟨h1, h2⟩ := h a e
  obtain ⟨h3, h4⟩ := hf a h2 b hb
  exact ⟨by rw [steps_bind e, h1, h3], h4⟩

theorem Does.did_bind {l S T : List Step} {a : α} {f : α → Traced β} {Q : β → Prop} (e : l = S) (h : Does (f a) T Q) :
    Does ((Traced.did l a).bind f) (S ++ T) Q :=
  Does.bind (P := fun b => b = a) (Does.did e rfl) (by rintro _ rfl; exact h)

theorem Does.cons {s s' : Step} {L T : List Step} {a : α} {f : α → Traced β} {Q : β → Prop} (e : s = s') (h : Does (f a) (L ++ T) Q) :
    Does ((Traced.did [s] a).bind f) ((s' :: L) ++ T) Q := e ▸ Does.did_bind (S := [s]) rfl h

theorem Does.last {s s' : Step} {T : List Step} {a : α} {f : α → Traced β} {Q : β → Prop} (e : s = s') (h : Does (f a) T Q) :
    Does ((Traced.did [s] a).bind f) ([s'] ++ T) Q := e ▸ Does.did_bind (S := [s]) rfl h

theorem Does.mono {m : Traced α} {S T : List Step} {P Q : α → Prop} (h : Does m S P) (e : S = T) (hP : ∀ a, P a → Q a) : Does m T Q :=
  fun a ha => ⟨e ▸ (h a ha).1, hP a (h a ha).2⟩

theorem Does.fails {m : Traced α} {S : List Step} {P : α → Prop} (h : Fails m) : Does m S P := fun a ha => (h a ha).elim

theorem Fails.bind {m : Traced α} {f : α → Traced β} (h : ∀ a, Fails (f a)) : Fails (m.bind f) := by
  intro b hb
  rw [res_bind] at hb
  obtain ⟨a, -, hb⟩ := Res.bind_eq_ok.1 hb
  exact h a b hb

theorem Fails.err (e : String) : Fails (Traced.lift (.err e) : Traced α) := fun _ h => by cases h

theorem Does.map {f : α → Traced β} {S : List Step} {P : β → Prop} :
    ∀ {l : List α}, (∀ a ∈ l, Does (f a) S P) → Does (map f l) (times l.length S) fun bs => bs.length = l.length ∧ ∀ b ∈ bs, P b
  | [], _ => Does.ok (by simp)
  | a :: l, h => by
    rw [Traced.map]
    refine (Does.bind (h a (by simp)) fun b hb => Does.bind (T := []) (Does.map (l := l) fun x hx => h x (by simp [hx])) fun bs hbs =>
      Does.ok ?_).mono (by simp [times, List.replicate_succ]) fun _ h => h
    exact ⟨by simp [hbs.1], by simpa [hb] using hbs.2⟩

end Traced

open Traced

@[simp] theorem times_zero (S : List Step) : times 0 S = [] := rfl

theorem times_eq_rep (n : Nat) (S : List Step) : times n S = RP.rep n S := rfl

theorem times_succ (n : Nat) (S : List Step) : times (n + 1) S = S ++ times n S := by simp [times, List.replicate_succ]

variable {F G : Type} [Field F] [AddCommGroup G] [Module F G]

theorem append_cache_length (h : HashCacher) : ∀ l : List Bytes, (h.append l).cache.length = h.cache.length + (l.map List.length).sum := by
  intro l
  induction l generalizing h with
  | nil => simp [HashCacher.append]
  | cons x l ih =>
    have := ih ⟨h.cache ++ x⟩
    simp only [HashCacher.append] at this ⊢
    rw [List.foldl_cons, this]
    simp [Nat.add_assoc]

/-! ## Vectors -/

namespace Vec

variable [DecidableEq F]

theorem addT_does {a b : List F} {n : Nat} (ha : a.length = n) (hb : b.length = n) :
    Does (addT a b) (times n [.sAdd]) fun r => r.length = n := by
  intro r h
  simp only [addT, add, ha, hb, ne_eq, not_true_eq_false, if_false] at h ⊢
  cases h
  simp [ha, hb]

theorem hadamardT_does {a b : List F} {n : Nat} (ha : a.length = n) (hb : b.length = n) :
    Does (hadamardT a b) (times n [.sMul]) fun r => r.length = n := by
  intro r h
  simp only [hadamardT, hadamard, ha, hb, ne_eq, not_true_eq_false, if_false] at h ⊢
  cases h
  simp [ha, hb]

theorem innerProductT_does {a b : List F} {n : Nat} (ha : a.length = n) (hb : b.length = n) :
    Does (innerProductT a b) (times n [.sMulAdd]) fun _ => True := by
  intro r _
  simp [innerProductT, ha, hb]

theorem expT_does {a : List F} {b : List G} {n : Nat} (ha : a.length = n) (hb : b.length = n) :
    Does (expT a b n 1) (times n [.mult, .add]) fun _ => True := by
  intro r _
  simp [expT, ha, hb]

theorem mulScalarT_does {a : List F} {n : Nat} (ha : a.length = n) (b : F) :
    Does (mulScalarT a b) (times n [.sMul]) fun r => r.length = n :=
  Does.did (by rw [ha]) (by simp [mulScalar, ha])

theorem addScalarT_does {a : List F} {n : Nat} (ha : a.length = n) (b : F) :
    Does (addScalarT a b) (times n [.sAdd]) fun r => r.length = n :=
  Does.did (by rw [ha]) (by simp [addScalar, ha])

theorem subScalarT_does {a : List F} {n : Nat} (ha : a.length = n) {b : F} (hb : b ≠ 0) :
    Does (subScalarT a b) (.isNonZero :: times n [.sSub]) fun r => r.length = n :=
  Does.did (by rw [ha, if_neg hb]) (by simp [subScalar, ha, hb])

theorem scalarPowersT_does {a : F} (ha : a ≠ 0) {n n' : Nat} (hn : n' = n) (h1 : 1 ≤ n) :
    Does (scalarPowersT a n') (RP.powersSteps n) fun r => r.length = n := by
  subst hn
  refine Does.did ?_ (RP.scalarPowers_length a n')
  rw [if_neg (by omega), if_neg ha]
  rfl

end Vec

/-! ## Generators and commitments -/

namespace Gen

theorem iterateT_res (R : Ristretto F G) (g : Gen G) : (iterateT R g).res = .ok (iterate R g) := by
  unfold iterateT iterate
  cases g.bases.getLast? <;> simp

theorem computeT_res (R : Ristretto F G) : ∀ (n : Nat) (g : Gen G), (computeT R g n).res = .ok (compute R g n)
  | 0, _ => rfl
  | n + 1, g => by rw [computeT, res_bind, iterateT_res, Res.bind_ok, computeT_res R n, compute]

theorem computeT_steps (R : Ristretto F G) : ∀ (n : Nat) (g : Gen G), g.bases ≠ [] →
    (computeT R g n).steps = times n [.bytes, .derive]
  | 0, _, _ => rfl
  | n + 1, g, h => by
    have e : (iterateT R g).steps = [.bytes, .derive] := by
      unfold iterateT
      cases h' : g.bases.getLast? with
      | none => exact (h (List.getLast?_eq_none_iff.1 h')).elim
      | some p => rw [steps_bind (res_did _ _)]; rfl
    rw [computeT, steps_bind (iterateT_res R g), e, computeT_steps R n _ (by simp), times_succ]

theorem computeT_does (R : Ristretto F G) {g : Gen G} (hg : g.bases = []) {n n' : Nat} (hn : n' = n) (h1 : 1 ≤ n) :
    Does (computeT R g n') (RP.basesSteps n) fun g' => g'.bases.length = n := by
  subst hn
  intro g' h
  rw [computeT_res] at h
  cases h
  refine ⟨?_, by show (compute R g n').bases.length = n'; rw [PedConc.compute_length', hg]; simp⟩
  obtain ⟨n, rfl⟩ : ∃ n, n' = n + 1 := ⟨n' - 1, by omega⟩
  have e : (iterateT R g).steps = [.derive] := by
    unfold iterateT
    rw [hg]; rfl
  rw [computeT, steps_bind (iterateT_res R g), e, computeT_steps R n _ (by simp)]
  rfl

end Gen

namespace Pedersen

theorem commitToScalarT_res (p : Pedersen G) (v b : F) : (commitToScalarT p v b).res = .ok (commitToScalar p v b) := by
  simp [commitToScalarT, commitToScalar]

theorem commitToScalarsT_res (R : Ristretto F G) (p : Pedersen G) (blind : Option F) (s : List F) :
    (commitToScalarsT R p blind s).res = commitToScalars R p blind s := by
  unfold commitToScalarsT commitToScalars
  cases blind <;> by_cases h : p.baseVector.bases.length < s.length <;> simp [Gen.computeT_res, h]

theorem commitVecLoopT_res (R : Ristretto F G) (blind : F) : ∀ (vs : List (List F)) (i : Nat) (p : Pedersen G) (sum : G),
    (commitVecLoopT R blind i vs p sum).res = commitVecLoop R blind i vs p sum
  | [], _, _, _ => rfl
  | v :: vs, i, p, sum => by
    unfold commitVecLoopT commitVecLoop newT
    split <;> simp [commitToScalarsT_res, commitVecLoopT_res R blind vs]

theorem commitToVectorsT_res (R : Ristretto F G) (p : Pedersen G) (vs : List (List F)) (blind : F) :
    (commitToVectorsT R p vs blind).res = commitToVectors R p vs blind := by
  simp [commitToVectorsT, commitToVectors, commitVecLoopT_res]

theorem commitToScalarsT_some (R : Ristretto F G) {p : Pedersen G} {n : Nat} (hp : p.baseVector.bases.length = n) (b : F) {s : List F}
    (hs : s.length = n) : Does (commitToScalarsT R p (some b) s) ([.mult, .add] ++ times n [.mult, .add]) fun c =>
      c.2.baseVector.bases.length = n := by
  unfold commitToScalarsT
  rw [if_neg (by omega)]
  refine (Does.bind (P := fun _ => True) (S := [.mult, .add]) (Does.did_bind rfl (Does.did rfl trivial)) fun sum _ =>
    Does.bind (S := []) (P := fun g => g = p.baseVector) (Does.ok rfl) fun g hg => Does.bind (T := []) (P := fun _ => True)
    (S := times n [.mult, .add]) ?_ fun _ _ => Does.ok ?_).mono (by simp) fun _ h => h
  · intro _ _; exact ⟨by rw [hs], trivial⟩
  · rw [hg]; exact hp

theorem commitToScalarsT_none (R : Ristretto F G) {p : Pedersen G} {n : Nat} (hp : p.baseVector.bases = []) {s : List F}
    (hs : s.length = n) (h1 : 1 ≤ n) (hlt : n < 2 ^ 32) :
    Does (commitToScalarsT R p none s) (RP.basesSteps n ++ times n [.mult, .add]) fun _ => True := by
  unfold commitToScalarsT
  have h0 : p.baseVector.bases.length = 0 := by rw [hp]; rfl
  rw [if_pos (by omega)]
  refine (Does.bind (P := fun _ => True) (S := []) (Does.ok trivial) fun sum _ =>
    Does.bind (Gen.computeT_does R hp (n := n) (by rw [h0, hs, Nat.sub_zero, Nat.mod_eq_of_lt hlt]) h1) fun g hg =>
    Does.bind (T := []) (P := fun _ => True)
    (S := times n [.mult, .add]) ?_ fun _ _ => Does.ok trivial).mono (by simp) fun _ h => h
  intro _ _; exact ⟨by rw [hs], trivial⟩

theorem commitToVectorsT_does (R : Ristretto F G) {p : Pedersen G} {n : Nat} (hp : p.baseVector.bases.length = n) (b : F) {s t : List F}
    (hs : s.length = n) (ht : t.length = n) (h1 : 1 ≤ n) (hlt : n < 2 ^ 32) :
    Does (commitToVectorsT R p [s, t] b) (RP.vectorsSteps n) fun c => c.2.baseVector.bases.length = n := by
  simp only [commitToVectorsT, commitVecLoopT, if_true, Nat.zero_add, one_ne_zero, if_false]
  refine (Does.did_bind rfl <| Does.bind (T := []) (P := fun r => r.2.baseVector.bases.length = n)
    (Does.bind (commitToScalarsT_some R hp b hs) fun c hc => Does.did_bind rfl <| Does.did_bind rfl <|
      Does.bind (commitToScalarsT_none R (p := Pedersen.new R _) rfl ht h1 hlt) fun d _ => Does.did_bind rfl <| Does.ok hc)
    fun r hr => Does.ok hr).mono ?_ fun _ h => h
  simp only [RP.vectorsSteps, times_eq_rep, List.append_assoc, List.cons_append, List.nil_append, List.append_nil]

theorem commitToScalarT_does (p : Pedersen G) (v b : F) : Does (commitToScalarT p v b) [.rand, .mult, .mult, .add] fun _ => True :=
  fun c h => ⟨by simp [commitToScalarT, Traced.bind, Traced.did], trivial⟩

end Pedersen

/-! ## The inner product proof -/

namespace IP

variable [DecidableEq F]

theorem mulFactorsT_res : ∀ (v f : List F), (mulFactorsT v f).res = mulFactors v f
  | [], _ => rfl
  | _ :: _, [] => rfl
  | x :: v, f :: fs => by simp [mulFactorsT, mulFactors, mulFactorsT_res v fs]

theorem mulFactorsT_does : ∀ {v f : List F} {n : Nat}, v.length = n → Does (mulFactorsT v f) (times n [.sMul]) fun r => r.length = n
  | [], _, n, h => by
    have h : n = 0 := h.symm
    subst h
    exact Does.ok rfl
  | _ :: _, [], _, _ => by intro a h; cases h
  | x :: v, f :: fs, n, h => by
    obtain ⟨n, rfl⟩ : ∃ k, n = k + 1 := ⟨n - 1, by simp at h; omega⟩
    rw [mulFactorsT, times_succ]
    refine Does.did_bind rfl ((Does.bind (T := []) (mulFactorsT_does (v := v) (f := fs) (n := n) (by simpa using h)) fun r hr =>
      Does.ok ?_).mono (by simp) fun _ h => h)
    simpa using hr

theorem splitNil_length {α : Type} {l : List α} {n : Nat} (h1 : 1 ≤ n) (hl : l.length = 2 * n) (hb : 2 * n < 2 ^ 32) :
    (splitNil l n).1.length = n ∧ (splitNil l n).2.length = n := by
  have := splitNil_append (l := l.take n) (r := l.drop n) (n := n) (by simp; omega) (by simp; omega) h1 (by omega)
  rw [List.take_append_drop] at this
  rw [this]
  constructor <;> simp <;> omega

theorem firstRoundT_res (R : Ristretto F G) (n : Nat) (a b : List F) (Gv Hv : List G) (hpf : List F) (Q : G) (hs : HashCacher) :
    (firstRoundT R n a b Gv Hv hpf Q hs).res = firstRound R n a b Gv Hv hpf Q hs := by
  simp only [firstRoundT, firstRound, res_bind, res_did, Res.bind_ok, Vec.innerProductT, Vec.expT, mulFactorsT_res]
  rfl

theorem nextRoundT_res (R : Ristretto F G) (n : Nat) (a b : List F) (Gv Hv : List G) (Q : G) (hs : HashCacher) :
    (nextRoundT R n a b Gv Hv Q hs).res = nextRound R n a b Gv Hv Q hs := by
  simp only [nextRoundT, nextRound, res_bind, res_did, Res.bind_ok, Vec.innerProductT, Vec.expT]

theorem genLoopT_res (R : Ristretto F G) (Q : G) (n : Nat) (a b : List F) (Gv Hv : List G) (hs : HashCacher) (Lj Rj : List G) :
    (genLoopT R Q n a b Gv Hv hs Lj Rj).res = genLoop R Q n a b Gv Hv hs Lj Rj := by
  fun_induction genLoop with
  | case1 n a b Gv Hv hs Lj Rj h ih =>
    rw [genLoopT, dif_pos h, res_bind, nextRoundT_res]
    congr 1
    funext r
    exact ih r
  | case2 n a b Gv Hv hs Lj Rj h => rw [genLoopT, dif_neg h, res_lift]

theorem generateT_res (R : Ristretto F G) (Gv Hv : List G) (a b hpf : List F) (Q : G) :
    (generateT R Gv Hv a b hpf Q).res = generate R Gv Hv a b hpf Q := by
  unfold generateT generate
  dsimp only
  split
  · rfl
  · split
    · simp [firstRoundT_res, genLoopT_res]
    · rfl

/-- The lengths after a round. -/
def Round.Sizes (r : Round F G) (n h : Nat) : Prop :=
  r.a.length = n ∧ r.b.length = n ∧ r.Gs.length = n ∧ r.Hs.length = n ∧ r.hs.cache.length = h

theorem firstRoundT_does {R : Ristretto F G} (E : R.Encodings) {n : Nat} (h1 : 1 ≤ n) (hlt : 2 * n < 2 ^ 32) {a b hpf : List F}
    {Gv Hv : List G} (ha : a.length = 2 * n) (hb : b.length = 2 * n) (hG : Gv.length = 2 * n) (hH : Hv.length = 2 * n)
    (hf : hpf.length = 2 * n) (Q : G) :
    Does (firstRoundT R n a b Gv Hv hpf Q {}) (RP.firstSteps n) fun r => r.Sizes n 64 := by
  obtain ⟨a1, a2⟩ := splitNil_length h1 ha hlt
  obtain ⟨b1, b2⟩ := splitNil_length h1 hb hlt
  obtain ⟨g1, g2⟩ := splitNil_length h1 hG hlt
  obtain ⟨k1, k2⟩ := splitNil_length h1 hH hlt
  unfold firstRoundT
  dsimp only
  refine (Does.bind (P := fun _ => True) (S := times n [.sMulAdd]) ?_ fun cL _ => Does.bind (Vec.innerProductT_does a2 b1) fun cR _ =>
    Does.bind (Vec.expT_does a1 g2) fun e1 _ => Does.bind (mulFactorsT_does b2) fun bR hbR => Does.bind (Vec.expT_does hbR k1) fun e2 _ =>
    Does.did_bind rfl <| Does.did_bind rfl <| Does.did_bind rfl <|
    Does.bind (Vec.expT_does a2 g1) fun e4 _ => Does.bind (mulFactorsT_does b1) fun bL hbL => Does.bind (Vec.expT_does hbL k2) fun e5 _ =>
    Does.did_bind rfl <| Does.did_bind rfl <| Does.did_bind rfl <| Does.did_bind rfl <| Does.did_bind rfl <|
    Does.did_bind (S := [.hash 64]) ?_ <| Does.did_bind rfl <| Does.did rfl ?_).mono ?_ fun _ h => h
  · intro c _
    exact ⟨by simp [Vec.innerProductT, a1, b2], trivial⟩
  · rw [append_cache_length]; simp [E.pBytes_length]
  · refine ⟨by simp [a1, a2], by simp [b1, b2], by simp [g1, g2], ?_, ?_⟩
    · simp [k1, k2, hf]; omega
    · rw [append_cache_length]; simp [E.pBytes_length]
  · simp only [RP.firstSteps, foldFirst, times_eq_rep, List.append_assoc, List.cons_append, List.nil_append]

theorem nextRoundT_does {R : Ristretto F G} (E : R.Encodings) {n : Nat} (h1 : 1 ≤ n) (hlt : 2 * n < 2 ^ 32) {a b : List F}
    {Gv Hv : List G} (ha : a.length = 2 * n) (hb : b.length = 2 * n) (hG : Gv.length = 2 * n) (hH : Hv.length = 2 * n)
    (Q : G) {hs : HashCacher} {h : Nat} (hh : hs.cache.length = h) :
    Does (nextRoundT R n a b Gv Hv Q hs) (RP.nextSteps n (h + 64)) fun r => r.Sizes n (h + 64) := by
  obtain ⟨a1, a2⟩ := splitNil_length h1 ha hlt
  obtain ⟨b1, b2⟩ := splitNil_length h1 hb hlt
  obtain ⟨g1, g2⟩ := splitNil_length h1 hG hlt
  obtain ⟨k1, k2⟩ := splitNil_length h1 hH hlt
  unfold nextRoundT
  dsimp only
  refine (Does.bind (Vec.innerProductT_does a1 b2) fun cL _ => Does.bind (Vec.innerProductT_does a2 b1) fun cR _ =>
    Does.bind (Vec.expT_does a1 g2) fun e1 _ => Does.bind (Vec.expT_does b2 k1) fun e2 _ =>
    Does.did_bind rfl <| Does.did_bind rfl <| Does.did_bind rfl <|
    Does.bind (Vec.expT_does a2 g1) fun e4 _ => Does.bind (Vec.expT_does b1 k2) fun e5 _ =>
    Does.did_bind rfl <| Does.did_bind rfl <| Does.did_bind rfl <| Does.did_bind rfl <| Does.did_bind rfl <|
    Does.did_bind (S := [.hash (h + 64)]) ?_ <| Does.did_bind rfl <| Does.did rfl ?_).mono ?_ fun _ h => h
  · rw [append_cache_length]; simp [E.pBytes_length, hh]
  · refine ⟨by simp [a1, a2], by simp [b1, b2], by simp [g1, g2], by simp [k1, k2], ?_⟩
    rw [append_cache_length]; simp [E.pBytes_length, hh]
  · simp only [RP.nextSteps, foldNext, times_eq_rep, List.append_assoc, List.cons_append, List.nil_append]

theorem genLoopT_does {R : Ristretto F G} (E : R.Encodings) (Q : G) : ∀ (j : Nat), 2 ^ j < 2 ^ 32 → ∀ {h : Nat} (r : Round F G) (Lj Rj : List G),
    r.Sizes (2 ^ j) h → Does (genLoopT R Q (2 ^ j) r.a r.b r.Gs r.Hs r.hs Lj Rj) (RP.roundsSteps j h) fun _ => True
  | 0, _, h, r, Lj, Rj, hr => by
    rw [genLoopT, dif_neg (by norm_num)]
    exact Does.lift fun _ _ => trivial
  | j + 1, hj, h, r, Lj, Rj, ⟨s1, s2, s3, s4, s5⟩ => by
    have e : 2 ^ (j + 1) = 2 * 2 ^ j := by ring
    have h1 : 1 ≤ 2 ^ j := Nat.one_le_two_pow
    rw [genLoopT, dif_pos (by omega), e, Nat.mul_div_cancel_left _ (by norm_num), RP.roundsSteps]
    rw [e] at s1 s2 s3 s4 hj
    exact Does.bind (nextRoundT_does E h1 hj s1 s2 s3 s4 Q s5) fun r hr => genLoopT_does E Q j (by omega) r _ _ hr

theorem generateT_does {R : Ristretto F G} (E : R.Encodings) {j : Nat} (hj : j + 1 < 32) {a b hpf : List F}
    {Gv Hv : List G} (ha : a.length = 2 ^ (j + 1)) (hb : b.length = 2 ^ (j + 1)) (hG : Gv.length = 2 ^ (j + 1))
    (hH : Hv.length = 2 ^ (j + 1)) (hf : hpf.length = 2 ^ (j + 1)) (Q : G) :
    Does (generateT R Gv Hv a b hpf Q) (RP.firstSteps (2 ^ j) ++ RP.roundsSteps j 64) fun _ => True := by
  have e : 2 ^ (j + 1) = 2 * 2 ^ j := by ring
  have h1 : 1 ≤ 2 ^ j := Nat.one_le_two_pow
  have hlt : 2 ^ (j + 1) < 2 ^ 32 := Nat.pow_lt_pow_right (by norm_num) hj
  unfold generateT
  dsimp only
  rw [hG, Nat.mod_eq_of_lt hlt, isPower2_two_pow hj, if_neg (by simp), if_pos (by omega), e, Nat.mul_div_cancel_left _ (by norm_num)]
  rw [e] at ha hb hG hH hf hlt
  exact Does.bind (firstRoundT_does E h1 hlt ha hb hG hH hf Q) fun r hr => genLoopT_does E Q j (by omega) r _ _ hr

end IP

/-! ## Prove -/

namespace RP

variable [DecidableEq F]

theorem bitLoopT_res : ∀ (k : Nat) (num : UInt64), (bitLoopT (F := F) k num).res = .ok (bitLoop k num)
  | 0, _ => rfl
  | k + 1, num => by
    unfold bitLoopT bitLoop
    split <;> simp [bitLoopT_res k]

theorem bitLoopT_steps : ∀ (k : Nat) (num : UInt64), (bitLoopT (F := F) k num).steps =
    (List.range k).map fun i => .branch (num.toNat.testBit i)
  | 0, _ => rfl
  | k + 1, num => by
    have hs : (num >>> 1).toNat = num.toNat / 2 := by
      rw [UInt64.toNat_shiftRight]
      simp [Nat.shiftRight_eq_div_pow]
    have hz : num % 2 = 0 ↔ num.toNat.testBit 0 = false := by
      rw [← UInt64.toNat_inj, UInt64.toNat_mod, Nat.testBit_zero]
      simp
    rw [List.range_succ_eq_map, List.map_cons, List.map_map]
    have ht : ((fun i => Step.branch (num.toNat.testBit i)) ∘ Nat.succ) = fun i => .branch ((num >>> 1).toNat.testBit i) := by
      funext i
      rw [hs, Function.comp_apply, Nat.testBit_succ]
    rw [ht, ← bitLoopT_steps k, bitLoopT]
    split
    · next h =>
      rw [steps_bind (res_did _ _), steps_bind (bitLoopT_res k _), hz.1 h]
      simp
    · next h =>
      have h : num.toNat.testBit 0 = true := by
        rw [hz] at h; simpa using h
      rw [steps_bind (res_did _ _), steps_bind (bitLoopT_res k _), h]
      simp

theorem bitCommitT_res (v : Int) : (bitCommitT (F := F) v).res = .ok (bitCommit v) := by
  simp [bitCommitT, bitCommit, bitLoopT_res]

theorem bitCommitT_steps (v : Nat) : (bitCommitT (F := F) (v : Int)).steps = .sNeg :: (List.range 64).map fun i => .branch (v.testBit i) := by
  rw [bitCommitT, steps_bind (res_did _ _), bitLoopT_steps]
  simp only [steps_did, List.singleton_append, List.cons.injEq, true_and, nBits]
  refine List.map_congr_left fun i hi => ?_
  rw [UInt64.toNat_ofNat', Int.natAbs_natCast, Nat.testBit_mod_two_pow]
  simp [List.mem_range.1 hi]

theorem bitsT_res (R : Ristretto F G) : ∀ v : List F, (bitsT R v).res =
    .ok (v.flatMap fun vi => (bitCommit (F := F) (R.sNat vi)).AL, v.flatMap fun vi => (bitCommit (F := F) (R.sNat vi)).AR)
  | [] => rfl
  | x :: v => by simp [bitsT, bitCommitT_res, bitsT_res R v]

theorem bitsT_steps (R : Ristretto F G) : ∀ v : List F, (bitsT R v).steps = bitsSteps (v.map R.sNat)
  | [] => rfl
  | x :: v => by
    rw [bitsT, steps_bind (res_did _ _), steps_bind (bitCommitT_res _), steps_bind (bitsT_res R v), bitCommitT_steps, bitsT_steps R v]
    simp [bitsSteps]

theorem bitsT_does (R : Ristretto F G) {v : List F} {m : Nat} (hv : v.length = m) : Does (bitsT R v) (bitsSteps (v.map R.sNat)) fun r =>
    r.1.length = 64 * m ∧ r.2.length = 64 * m := by
  intro r h
  rw [bitsT_res] at h
  cases h
  refine ⟨bitsT_steps R v, ?_, ?_⟩
  · have hl : ∀ x : F, (bitCommit (F := F) (R.sNat x)).AL.length = 64 := fun x => (bitLoop_spec _ _).1
    simp [List.length_flatMap, hl, hv, Nat.mul_comm]
  · have hl : ∀ x : F, (bitCommit (F := F) (R.sNat x)).AR.length = 64 := fun x => by
      unfold bitCommit
      rw [(bitLoop_spec _ _).2.1, List.length_map, (bitLoop_spec _ _).1]
    simp [List.length_flatMap, hl, hv, Nat.mul_comm]

theorem sumInnerT_res (zM twoN : List F) (i : Nat) : ∀ k j acc, (sumInnerT zM twoN i k j acc).res = sumInner zM twoN i k j acc
  | 0, _, _ => rfl
  | k + 1, j, acc => by
    unfold sumInnerT sumInner
    split <;> simp [sumInnerT_res zM twoN i k]

theorem sumZMTwoNT_res (z : F) (m : Nat) : (sumZMTwoNT z m).res = sumZMTwoN z m := by
  simp [sumZMTwoNT, sumZMTwoN, Vec.scalarPowersT, sumInnerT_res]

theorem sumInnerT_does (zM twoN : List F) (i : Nat) : ∀ k j acc, 1 ≤ j → Does (sumInnerT zM twoN i k j acc)
    (if (j - 1) * 64 ≤ i ∧ i < (j - 1 + k) * 64 then [.sMulAdd] else []) fun _ => True
  | 0, j, acc, hj => by
    rw [if_neg (by omega)]
    exact Does.ok trivial
  | k + 1, j, acc, hj => by
    unfold sumInnerT
    have ih := fun acc => sumInnerT_does zM twoN i k (j + 1) acc (by omega)
    split
    · next h =>
      simp only [nBits] at h
      rw [if_pos (by omega)]
      refine (Does.bind (P := fun _ => True) (Does.lift fun _ _ => trivial) fun a _ => Does.bind (P := fun _ => True) (Does.lift fun _ _ => trivial)
        fun b _ => Does.did_bind rfl (ih _)).mono ?_ fun _ h => h
      rw [if_neg (by omega)]
      rfl
    · next h =>
      simp only [nBits] at h
      refine (ih acc).mono ?_ fun _ h => h
      refine if_congr ?_ rfl rfl
      omega

theorem two_ne_zero' (R : Ristretto F G) : (2 : F) ≠ 0 := by
  intro h
  have h := (R.cast_eq_zero 2).1 (by exact_mod_cast h)
  have := Nat.le_of_dvd (by norm_num) h
  have := R.two64_lt
  omega

theorem sumZMTwoNT_does (R : Ristretto F G) {z : F} (hz : z ≠ 0) {m : Nat} (hm : m + 3 < 2 ^ 32) : Does (sumZMTwoNT z m)
    (powersSteps (m + 3) ++ .setBigInt :: powersSteps 64 ++ times (64 * m) [.sMulAdd]) fun r => r.length = 64 * m := by
  unfold sumZMTwoNT
  refine (Does.bind (Vec.scalarPowersT_does hz (Nat.mod_eq_of_lt hm) (by omega)) fun zM _ => Does.did_bind rfl <|
    Does.bind (Vec.scalarPowersT_does (two_ne_zero' R) (n := 64) rfl (by norm_num)) fun twoN _ => Does.map (S := [.sMulAdd])
      (P := fun _ => True) fun i hi => ?_).mono ?_ ?_
  · refine (sumInnerT_does zM twoN i m 1 0 le_rfl).mono (if_pos ?_) fun _ h => h
    have := List.mem_range.1 hi
    simp only [nBits] at this
    omega
  · simp [Nat.mul_comm]
  · rintro r ⟨h, -⟩
    rw [h]
    simp [Nat.mul_comm]

theorem computePolyT_res (m m' : Nat) (aL aR sL sR : List F) (y z : F) :
    (computePolyT m m' aL aR sL sR y z).res = computePoly m m' aL aR sL sR y z := by
  simp [computePolyT, computePoly, Vec.subScalarT, Vec.scalarPowersT, Vec.addScalarT, Vec.hadamardT, Vec.addT, Vec.innerProductT,
    sumZMTwoNT_res]

theorem computePolyT_does (R : Ristretto F G) {m : Nat} (h1 : 1 ≤ m) (hm : 64 * m < 2 ^ 32) {aL aR sL sR : List F}
    (ha : aL.length = 64 * m) (hb : aR.length = 64 * m) (hs : sL.length = 64 * m) (ht : sR.length = 64 * m) {y z : F} (hy : y ≠ 0)
    (hz : z ≠ 0) : Does (computePolyT m m aL aR sL sR y z) (polySteps m) fun p => p.l0.length = 64 * m ∧ p.l1.length = 64 * m ∧
      p.r0.length = 64 * m ∧ p.r1.length = 64 * m := by
  unfold computePolyT
  refine (Does.bind (Vec.subScalarT_does ha hz) fun l0 hl0 => Does.bind (Vec.scalarPowersT_does hy (Nat.mod_eq_of_lt hm) (by omega))
    fun yNM hyN => Does.bind (sumZMTwoNT_does R hz (by omega)) fun zs hzs => Does.bind (Vec.addScalarT_does hb z) fun r0 hr0 =>
    Does.bind (Vec.hadamardT_does hr0 hyN) fun r0 hr0 => Does.bind (Vec.addT_does hr0 hzs) fun r0 hr0 =>
    Does.bind (Vec.hadamardT_does hyN ht) fun r1 hr1 => Does.bind (Vec.innerProductT_does hl0 hr0) fun t0 _ =>
    Does.bind (Vec.innerProductT_does hs hr0) fun _ _ => Does.bind (Vec.innerProductT_does hl0 hr1) fun _ _ => Does.did_bind rfl <|
    Does.bind (Vec.innerProductT_does hs hr1) fun t2 _ => Does.ok ⟨hl0, hs, hr0, hr1⟩).mono ?_ fun _ h => h
  simp only [polySteps, times_eq_rep, List.append_assoc, List.cons_append, List.nil_append, List.append_nil]

theorem commitAllT_res (R : Ristretto F G) (ped : Pedersen G) (coins : Coins F) : ∀ (v : List F) (i : Nat) (hs : HashCacher),
    (commitAllT R ped coins i v hs).res =
      let Vs := (v.zipIdx i).map fun p => ped.commitToScalar p.1 (coins.vBlind p.2)
      .ok (Vs, Vs.foldl (fun (hs : HashCacher) V => hs.append [R.pBytes V.value]) hs)
  | [], _, _ => rfl
  | x :: v, i, hs => by
    simp [commitAllT, Pedersen.commitToScalarT_res, commitAllT_res R ped coins v]

theorem commitAllT_does {R : Ristretto F G} (E : R.Encodings) (ped : Pedersen G) (coins : Coins F) : ∀ {v : List F} (i : Nat) {hs : HashCacher}
    {h m : Nat}, hs.cache.length = h → v.length = m →
    Does (commitAllT R ped coins i v hs) (times m [.rand, .mult, .mult, .add, .bytes]) fun r =>
      r.1.length = m ∧ r.2.cache.length = h + 32 * m
  | [], _, hs, h, m, hh, hm => by
    have hm : m = 0 := hm.symm
    subst hm
    exact Does.ok ⟨rfl, hh⟩
  | x :: v, i, hs, h, m, hh, hm => by
    obtain ⟨m, rfl⟩ : ∃ k, m = k + 1 := ⟨m - 1, by simp at hm; omega⟩
    unfold commitAllT
    refine (Does.bind (Pedersen.commitToScalarT_does ped x _) fun V _ => Does.did_bind rfl <|
      Does.bind (commitAllT_does E ped coins (v := v) (i + 1) (h := h + 32) (m := m) ?_ (by simpa using hm)) fun r hr => Does.ok ?_).mono ?_ fun _ h => h
    · rw [append_cache_length]; simp [E.pBytes_length, hh]
    · exact ⟨by simp [hr.1], by simp only [hr.2]; omega⟩
    · rw [times_succ]; simp

end RP

end Dusk
