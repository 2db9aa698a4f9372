import Verif.Lemmas.RPProg
import Verif.Spec.RPProg
import Verif.Props.RPProveConc
/-!
# Calls with every access of `M` (C102), and their outcomes for all reads (C103)
-/

set_option linter.unusedSectionVars false

namespace Dusk.RP

open Prog

variable {F G : Type} [Field F] [AddCommGroup G] [Module F G] [DecidableEq F] [DecidableEq G]

/-! ## C102: calls running alone, and calls that leave `M` as it is -/

/-- C102: a call of `Verify` running alone. -/
theorem C102_verify_alone (R : Ristretto F G) (M : Nat) (p : Proof F G) (c : F) :
    (verifyP R p c).run M = (M, verify R M p c) := by
  rw [keeps_run ((verifyP_quiet R p c).keeps M), verifyP_eval]

example (M : Nat) (p : Proof Toy.K Toy.K) (c : Toy.K) : ((verifyP Toy.ris p c).run M).1 = M := by rw [C102_verify_alone]

/-- C102: a call of `Prove` running alone. -/
theorem C102_prove_alone (R : Ristretto F G) (M : Nat) (v : List F) (debug : Bool) (coins : Coins F) :
    (proveP R v debug coins).run M = prove R M v debug coins := by
  unfold proveP prove proveWith nextM
  dsimp only
  by_cases h1 : v.length < 1
  · rw [if_pos h1, if_pos h1, if_pos h1]
    rfl
  · rw [if_neg h1, if_neg h1, if_neg h1]
    show Prog.run v.length (if v.length > maxM then _ else _) = _
    by_cases h2 : v.length > maxM
    · rw [if_pos h2, if_pos h2, if_pos (show (Reads.const v.length v.length).check > maxM from h2)]
      rfl
    · rw [if_neg h2, if_neg h2, if_neg (show ¬ (Reads.const v.length (v.length + padAmount v.length)).check > maxM from h2)]
      show Prog.run (v.length + padAmount v.length) (proveTailP R (newPed R (v.length + padAmount v.length)) _ _ _ debug coins) = _
      rw [keeps_run ((proveTailP_quiet _ _ _ _ _ _ _).keeps _), proveTailP_eval R v.length]
      rfl

theorem proveP_keeps (R : Ristretto F G) {k : Nat} (hk : k ≤ 4) (v : List F) (hv : v.length = 2 ^ k) (debug : Bool) (coins : Coins F) :
    Keeps (2 ^ k) (proveP R v debug coins) := by
  have hpos := Nat.two_pow_pos k
  have h16 : 2 ^ k ≤ 2 ^ 4 := Nat.pow_le_pow_right (by norm_num) hk
  unfold proveP
  rw [if_neg (by omega)]
  refine ⟨hv, ?_⟩
  show Keeps (2 ^ k) (if 2 ^ k > maxM then _ else _)
  rw [if_neg (by unfold maxM; omega)]
  have hp : padAmount (2 ^ k) = 0 := by
    interval_cases k <;> decide
  refine ⟨?_, ?_⟩
  · rw [hp]; rfl
  · exact (proveTailP_quiet _ _ _ _ _ _ _).keeps _

/-- The calls of an execution: calls of `Prove` and calls of `Verify`. -/
def mixed (R : Ristretto F G) {ι κ : Type} (v : ι → List F) (debug : ι → Bool) (coins : ι → Coins F) (p : κ → Proof F G) (c : κ → F) :
    ∀ i : ι ⊕ κ, Prog (Sum.elim (fun _ => Proof F G) (fun _ => Bool) i)
  | .inl i => proveP R (v i) (debug i) (coins i)
  | .inr j => verifyP R (p j) (c j)

/-- C102: any number of calls of `Prove`, all on the same power-of-two number of values that is also the current `M`, and calls
of `Verify` do not disturb each other: whatever the interleaving, `M` stays as it is, and a call that has ended has the
result it has when it runs alone. -/
theorem C102_concurrent (R : Ristretto F G) {ι κ : Type} [DecidableEq ι] [DecidableEq κ] {k : Nat} (hk : k ≤ 4) (v : ι → List F)
    (debug : ι → Bool) (coins : ι → Coins F) (p : κ → Proof F G) (c : κ → F) (hv : ∀ i, (v i).length = 2 ^ k)
    (sched : List (ι ⊕ κ)) :
    let e := (Calls.mk (2 ^ k) (mixed R v debug coins p c)).exec sched
    e.M = 2 ^ k ∧
    (∀ i r, (e.prog (.inl i)).result = some r → prove R (2 ^ k) (v i) (debug i) (coins i) = (2 ^ k, r)) ∧
    (∀ j r, (e.prog (.inr j)).result = some r → verify R (2 ^ k) (p j) (c j) = r) := by
  have hkeep : ∀ i, Keeps (2 ^ k) (mixed R v debug coins p c i) := by
    rintro (i | j)
    · exact proveP_keeps R hk (v i) (hv i) _ _
    · exact (verifyP_quiet R _ _).keeps _
  obtain ⟨h1, h2⟩ := Calls.exec_keeps (2 ^ k) sched ⟨2 ^ k, mixed R v debug coins p c⟩ rfl hkeep
  have hres : ∀ {α : Type} {q : Prog α} {r}, q.result = some r → eval (2 ^ k) q = r := by
    intro α q r h
    cases q with
    | done r' => exact Option.some.inj h
    | read _ => cases h
    | write _ _ => cases h
  refine ⟨h1, fun i r hr => ?_, fun j r hr => ?_⟩
  · have := (h2 (.inl i)).2
    rw [hres hr] at this
    rw [this, ← C102_prove_alone]
    exact keeps_run (hkeep (.inl i))
  · have := (h2 (.inr j)).2
    rw [hres hr] at this
    rw [this]
    exact (verifyP_eval R (p j) (c j) (2 ^ k)).symm

/-! ## C103: the outcomes for all reads -/

namespace Prog

variable {α β : Type} {D : Nat → Prop}

theorem out_bind {p : Prog α} {f : α → Prog β} {r : Res β} : Out D (p.bind f) r ↔
    (∃ a, Out D p (.ok a) ∧ Out D (f a) r) ∨ (∃ e, Out D p (.err e) ∧ r = .err e) ∨ (Out D p .panic ∧ r = .panic) := by
  induction p with
  | done s =>
    cases s with
    | ok a => simp [Prog.bind, Out]
    | err e => simp [Prog.bind, Out]
    | panic => simp [Prog.bind, Out]
  | read k ih =>
    simp only [Prog.bind, Out, ih]
    constructor
    · rintro ⟨m, hm, ⟨a, h1, h2⟩ | ⟨e, h1, h2⟩ | ⟨h1, h2⟩⟩
      · exact .inl ⟨a, ⟨m, hm, h1⟩, h2⟩
      · exact .inr (.inl ⟨e, ⟨m, hm, h1⟩, h2⟩)
      · exact .inr (.inr ⟨⟨m, hm, h1⟩, h2⟩)
    · rintro (⟨a, ⟨m, hm, h1⟩, h2⟩ | ⟨e, ⟨m, hm, h1⟩, h2⟩ | ⟨⟨m, hm, h1⟩, h2⟩)
      · exact ⟨m, hm, .inl ⟨a, h1, h2⟩⟩
      · exact ⟨m, hm, .inr (.inl ⟨e, h1, h2⟩)⟩
      · exact ⟨m, hm, .inr (.inr ⟨h1, h2⟩)⟩
  | write m p ih => exact ih

theorem out_bind_ok {p : Prog α} {f : α → Prog β} {b : β} : Out D (p.bind f) (.ok b) ↔ ∃ a, Out D p (.ok a) ∧ Out D (f a) (.ok b) := by
  rw [out_bind]
  simp

theorem out_lift {r s : Res α} : Out D (lift r) s ↔ s = r := Iff.rfl

theorem out_get_bind {f : Nat → Prog β} {r : Res β} : Out D (get.bind f) r ↔ ∃ m, D m ∧ Out D (f m) r := Iff.rfl

theorem out_set_bind {m : Nat} {f : Unit → Prog β} {r : Res β} : Out D ((set m).bind f) r ↔ Out D (f ()) r := Iff.rfl

theorem out_step {M : Nat} (hM : D M) {p : Prog α} {r : Res α} (h : Out D (step M p).2 r) : Out D p r := by
  cases p with
  | done s => exact h
  | read k => exact ⟨M, hM, h⟩
  | write m p => exact h

end Prog

/-- A result reached in an execution in which `M` has values in `D` only is a result for reads in `D`. -/
theorem Calls.exec_out {ι : Type} [DecidableEq ι] {τ : ι → Type} {D : Nat → Prop} (i : ι) (r : Res (τ i)) (sched : List ι) :
    ∀ s : Calls ι τ, (∀ pre, pre <+: sched → D (s.exec pre).M) → ((s.exec sched).prog i).result = some r → Out D (s.prog i) r := by
  induction sched with
  | nil =>
    intro s _ h
    change (s.prog i).result = some r at h
    cases hp : s.prog i with
    | done r' => rw [hp] at h; exact (Option.some.inj h).symm
    | read _ => rw [hp] at h; cases h
    | write _ _ => rw [hp] at h; cases h
  | cons j sched ih =>
    intro s hD h
    have h0 : D s.M := hD [] (List.nil_prefix)
    have := ih (s.step j) (fun pre hpre => hD (j :: pre) (List.cons_prefix_cons.2 ⟨rfl, hpre⟩)) h
    by_cases hi : i = j
    · subst hi
      rw [Calls.step_self] at this
      exact out_step h0 this
    · rw [Calls.step_other _ hi] at this
      exact this

/-- The results of a call and of calls of `Prove`. -/
abbrev withTypes (F G α : Type) : Option Nat → Type
  | none => α
  | some _ => Proof F G

/-- A call together with calls of `Prove`. -/
def withProves (R : Ristretto F G) {α : Type} (p : Prog α) (v : Nat → List F) (coins : Coins F) :
    ∀ i : Option Nat, Prog (withTypes F G α i)
  | none => p
  | some j => proveP R (v j) false coins

theorem exec_reach (R : Ristretto F G) {α : Type} {D : Nat → Prop} (hD : ∀ m, D m → 1 ≤ m) (coins : Coins F) (r : Res α) :
    ∀ p : Prog α, Out D p r → ∃ ms : List Nat, (∀ m ∈ ms, D m) ∧ ∀ k, ∃ sched : List (Option Nat),
      ∀ s : Calls (Option Nat) (withTypes F G α), s.prog none = p →
        (∀ j (h : j < ms.length), s.prog (some (k + j)) = proveP R (List.replicate ms[j] 0) false coins) →
        ((s.exec sched).prog none).result = some r := by
  intro p
  induction p with
  | done r' =>
    intro h
    refine ⟨[], by simp, fun k => ⟨[], fun s hs _ => ?_⟩⟩
    show (s.prog none).result = _
    rw [hs, show r = r' from h]
    rfl
  | read f ih =>
    rintro ⟨m, hm, h⟩
    obtain ⟨ms, h1, h2⟩ := ih m h
    refine ⟨m :: ms, by simpa [hm] using h1, fun k => ?_⟩
    obtain ⟨sched, hs⟩ := h2 (k + 1)
    refine ⟨some k :: none :: sched, fun s hp hj => ?_⟩
    have hk : s.prog (some k) = proveP R (List.replicate m 0) false coins := hj 0 (by simp)
    have hm1 : ¬ (List.replicate m (0 : F)).length < 1 := by simp; have := hD m hm; omega
    have e1 : (s.step (some k)).M = m := by
      unfold Calls.step
      dsimp only
      rw [hk]
      unfold proveP
      rw [if_neg hm1]
      show (List.replicate m (0 : F)).length = m
      simp
    have e2 : (s.step (some k)).prog none = read f := by
      rw [Calls.step_other _ (by simp)]
      exact hp
    apply hs ((s.step (some k)).step none)
    · rw [Calls.step_self, e1, e2]
      rfl
    · intro j hjl
      rw [Calls.step_other _ (by simp), Calls.step_other _ (by simp; omega)]
      have := hj (j + 1) (by simp; omega)
      rw [show k + 1 + j = k + (j + 1) by omega]
      exact this
  | write m p ih =>
    intro h
    obtain ⟨ms, h1, h2⟩ := ih h
    refine ⟨ms, h1, fun k => ?_⟩
    obtain ⟨sched, hs⟩ := h2 k
    refine ⟨none :: sched, fun s hp hj => ?_⟩
    apply hs (s.step none)
    · rw [Calls.step_self, hp]
      rfl
    · intro j hjl
      rw [Calls.step_other _ (by simp)]
      exact hj j hjl

/-- C103: every value a call may read, and hence every outcome for positive reads, is brought about by calls of `Prove` on other
numbers of values starting at the right moments. -/
theorem C103_reachable (R : Ristretto F G) {α : Type} {D : Nat → Prop} (hD : ∀ m, D m → 1 ≤ m) (h1 : D 1) (coins : Coins F) (p : Prog α) (r : Res α)
    (M0 : Nat) (h : Out D p r) : ∃ (v : Nat → List F) (sched : List (Option Nat)), (∀ j, D (v j).length) ∧
      (((Calls.mk M0 (withProves R p v coins)).exec sched).prog none).result = some r := by
  obtain ⟨ms, h1', h2⟩ := exec_reach R hD coins r p h
  obtain ⟨sched, hs⟩ := h2 0
  refine ⟨fun j => List.replicate (ms.getD j 1) 0, sched, fun j => ?_, hs _ rfl fun j hj => ?_⟩
  · rw [List.length_replicate, List.getD_eq_getElem?_getD]
    cases he : ms[j]? with
    | none => exact h1
    | some m => exact h1' m (List.mem_of_getElem? he)
  · show proveP R _ false coins = _
    rw [Nat.zero_add]
    simp [List.getD_eq_getElem?_getD, hj]

/-- A concrete case: two calls of `Prove` on two values each and one of `Verify`, in any interleaving. -/
example (coins : Bool → Coins Toy.K) (p : Proof Toy.K Toy.K) (c : Toy.K) (sched : List (Bool ⊕ Unit)) :
    ((Calls.mk 2 (mixed Toy.ris (fun b => if b then [1, 2] else [3, 4]) (fun _ => false) coins (fun _ => p) (fun _ => c))).exec sched).M = 2 :=
  (C102_concurrent Toy.ris (k := 1) (by norm_num) (fun b : Bool => if b then [1, 2] else [3, 4]) (fun _ => false) coins (fun _ : Unit => p)
    (fun _ => c) (fun b => by cases b <;> rfl) sched).1

/-- A concrete case: `Prove` on one value cannot be kept from reading any number of values. -/
example (coins : Coins Toy.K) : ∃ (v : Nat → List Toy.K) (sched : List (Option Nat)), (∀ j, 1 ≤ (v j).length) ∧
    (((Calls.mk 1 (withProves Toy.ris (proveP Toy.ris [1] false coins) v coins)).exec sched).prog none).result =
      some (.err "maximum amount of values must be less than 16") := by
  refine C103_reachable Toy.ris (D := fun m => 1 ≤ m) (fun _ h => h) le_rfl coins _ _ 1 ?_
  unfold proveP
  rw [if_neg (by simp), out_set_bind]
  refine out_get_bind.2 ⟨17, by norm_num, ?_⟩
  rw [if_pos (by decide)]
  rfl

end Dusk.RP
