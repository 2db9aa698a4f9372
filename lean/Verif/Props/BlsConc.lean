import Mathlib.Algebra.BigOperators.Group.Finset.Basic
import Mathlib.Algebra.BigOperators.Ring.Finset
import Mathlib.Algebra.Module.BigOperators
import Mathlib.Data.Fintype.Basic
import Verif.Model.BlsConc
import Verif.Props.Bls
/-!
# C132: aggregating into one Apk or Signature from several goroutines
-/

namespace Dusk.BlsConc

open Bls

section sums

variable {G ι : Type} [AddCommGroup G] [DecidableEq ι]

/-- The calls: goroutine `i` adds `w i` to the shared point `v`. -/
def adding (v : G) (w : ι → G) : Shared (Ptr G) ι (Res Unit) := ⟨.pt v, fun i => addP (.ok (w i))⟩

/-- All calls have returned nil. -/
def Finished (s : Shared (Ptr G) ι (Res Unit)) : Prop := ∀ i, s.prog i = .ret (.ok ())

/-- A goroutine that has read `u`. -/
def loaded (u w : G) : Prog (Ptr G) (Res Unit) := .store (.pt (u + w)) (.ret (.ok ()))

/-- What holds during every execution: `D` are the goroutines that have written. -/
def During (v : G) (w : ι → G) (s : Shared (Ptr G) ι (Res Unit)) (D : Finset ι) : Prop :=
  (∃ S ⊆ D, s.obj = .pt (v + ∑ i ∈ S, w i) ∧ (D.Nonempty → S.Nonempty)) ∧
    (∀ i ∈ D, s.prog i = .ret (.ok ())) ∧
    ∀ i ∉ D, s.prog i = addP (.ok (w i)) ∨ ∃ T ⊆ D, s.prog i = loaded (v + ∑ j ∈ T, w j) (w i)

theorem during_step {v : G} {w : ι → G} {s : Shared (Ptr G) ι (Res Unit)} {D : Finset ι} (h : During v w s D) (i : ι) :
    ∃ D', During v w (s.step i) D' := by
  obtain ⟨⟨S, hS, hobj, hne⟩, hd, hn⟩ := h
  by_cases hi : i ∈ D
  · refine ⟨D, ⟨S, hS, ?_, hne⟩, fun j hj => ?_, fun j hj => ?_⟩
    · simp only [Shared.step, hd i hi, step, hobj]
    · by_cases hji : j = i
      · subst hji; simp only [Shared.step, hd j hj, step, Function.update_self]
      · simp only [Shared.step, Function.update_of_ne hji, hd j hj]
    · have hji : j ≠ i := fun e => hj (e ▸ hi)
      simp only [Shared.step, Function.update_of_ne hji]
      exact hn j hj
  · rcases hn i hi with h | ⟨T, hT, h⟩
    · refine ⟨D, ⟨S, hS, ?_, hne⟩, fun j hj => ?_, fun j hj => ?_⟩
      · simp only [Shared.step, h, addP, step, hobj]
      · have hji : j ≠ i := fun e => hi (e ▸ hj)
        simp only [Shared.step, Function.update_of_ne hji, hd j hj]
      · by_cases hji : j = i
        · subst hji
          refine .inr ⟨S, hS, ?_⟩
          simp only [Shared.step, h, addP, step, Function.update_self, hobj, Ptr.get_pt, loaded]
        · simp only [Shared.step, Function.update_of_ne hji]
          exact hn j hj
    · have hiT : i ∉ T := fun e => hi (hT e)
      refine ⟨insert i D, ⟨insert i T, Finset.insert_subset_insert _ hT, ?_, fun _ => Finset.insert_nonempty _ _⟩, fun j hj => ?_,
        fun j hj => ?_⟩
      · simp only [Shared.step, h, loaded, step]
        rw [Finset.sum_insert hiT, add_comm (w i), add_assoc]
      · by_cases hji : j = i
        · subst hji; simp only [Shared.step, h, loaded, step, Function.update_self]
        · simp only [Shared.step, Function.update_of_ne hji]
          exact hd j ((Finset.mem_insert.1 hj).resolve_left hji)
      · obtain ⟨hji, hjD⟩ := not_or.1 (fun e => hj (Finset.mem_insert.2 e))
        simp only [Shared.step, Function.update_of_ne hji]
        rcases hn j hjD with h' | ⟨T', hT', h'⟩
        · exact .inl h'
        · exact .inr ⟨T', hT'.trans (Finset.subset_insert _ _), h'⟩

theorem during_exec {v : G} {w : ι → G} (sched : List ι) : ∀ {s : Shared (Ptr G) ι (Res Unit)} {D : Finset ι}, During v w s D →
    ∃ D', During v w (s.exec sched) D' := by
  induction sched with
  | nil => exact fun h => ⟨_, h⟩
  | cons i sched ih =>
    intro s D h
    obtain ⟨D', h'⟩ := during_step h i
    exact ih h'

omit [DecidableEq ι] in
theorem during_start (v : G) (w : ι → G) : During v w (adding v w) ∅ :=
  ⟨⟨∅, subset_rfl, by simp [adding], fun h => absurd h Finset.not_nonempty_empty⟩, by simp, fun _ _ => .inl rfl⟩

/-- C132: at any time the point is what it was at the start plus the summands of some of the calls. -/
theorem C132_anytime (v : G) (w : ι → G) (sched : List ι) : ∃ S : Finset ι, ((adding v w).exec sched).obj = .pt (v + ∑ i ∈ S, w i) := by
  obtain ⟨D, ⟨S, -, h, -⟩, -⟩ := during_exec sched (during_start v w)
  exact ⟨S, h⟩

example (v : ℚ) (sched : List (Fin 2)) : ∃ S : Finset (Fin 2), ((adding v ![3, 5]).exec sched).obj = .pt (v + ∑ i ∈ S, ![3, 5] i) :=
  C132_anytime v ![3, 5] sched

/-- Two steps of a goroutine that has not started. -/
theorem exec_call {s : Shared (Ptr G) ι (Res Unit)} {v w : G} {i : ι} (hs : s.obj = .pt v) (hi : s.prog i = addP (.ok w)) :
    s.exec [i, i] = ⟨.pt (v + w), Function.update s.prog i (.ret (.ok ()))⟩ := by
  simp only [Shared.exec, List.foldl_cons, List.foldl_nil, Shared.step, hi, hs, addP, step, Ptr.get_pt, Function.update_self,
    Function.update_idem]

omit [AddCommGroup G] in
theorem exec_append (s : Shared (Ptr G) ι (Res Unit)) (a b : List ι) : s.exec (a ++ b) = (s.exec a).exec b := List.foldl_append

/-- Goroutines one after another. -/
theorem exec_calls (w : ι → G) (l : List ι) : ∀ {s : Shared (Ptr G) ι (Res Unit)} {v : G}, l.Nodup → s.obj = .pt v →
    (∀ i ∈ l, s.prog i = addP (.ok (w i))) →
    (s.exec (l.flatMap fun i => [i, i])).obj = .pt (v + (l.map w).sum) ∧
      ∀ i, (s.exec (l.flatMap fun i => [i, i])).prog i = if i ∈ l then .ret (.ok ()) else s.prog i := by
  induction l with
  | nil => intro s v _ hs _; simpa [Shared.exec] using hs
  | cons i l ih =>
    intro s v hnd hs hp
    obtain ⟨hil, hnd⟩ := List.nodup_cons.1 hnd
    rw [List.flatMap_cons, exec_append, exec_call hs (hp i List.mem_cons_self)]
    obtain ⟨h1, h2⟩ := ih (s := ⟨.pt (v + w i), Function.update s.prog i (.ret (.ok ()))⟩) hnd rfl fun j hj => by
      have hji : j ≠ i := fun e => hil (e ▸ hj)
      simp only [Function.update_of_ne hji]
      exact hp j (List.mem_cons_of_mem _ hj)
    refine ⟨by rw [h1, List.map_cons, List.sum_cons, add_assoc], fun j => ?_⟩
    rw [h2]
    by_cases hji : j = i
    · subst hji; simp
    · simp [hji]

/-- C132: calls that exclude each other (for instance by a mutex of the caller) add all summands, in every order. -/
theorem C132_locked [Fintype ι] (v : G) (w : ι → G) (order : List ι) (hnd : order.Nodup) (hall : ∀ i, i ∈ order) :
    ((adding v w).exec (order.flatMap fun i => [i, i])).obj = .pt (v + ∑ i, w i) ∧
      Finished ((adding v w).exec (order.flatMap fun i => [i, i])) := by
  obtain ⟨h1, h2⟩ := exec_calls w order (s := adding v w) (v := v) hnd rfl fun _ _ => rfl
  refine ⟨?_, fun i => by rw [h2, if_pos (hall i)]⟩
  rw [h1]
  congr 2
  rw [← List.sum_toFinset _ hnd]
  congr 1
  ext i
  simp [hall]

/-- C132: what the point can be when all calls have returned nil: what it was plus the summands of any non-empty set of calls.
All other summands are lost. -/
theorem C132_exact [Fintype ι] [Nonempty ι] (v : G) (w : ι → G) (x : Ptr G) :
    (∃ sched, Finished ((adding v w).exec sched) ∧ ((adding v w).exec sched).obj = x) ↔
      ∃ S : Finset ι, S.Nonempty ∧ x = .pt (v + ∑ i ∈ S, w i) := by
  constructor
  · rintro ⟨sched, hf, rfl⟩
    obtain ⟨D, ⟨S, -, h, hne⟩, -, hn⟩ := during_exec sched (during_start v w)
    refine ⟨S, hne ?_, h⟩
    obtain ⟨i⟩ := ‹Nonempty ι›
    refine ⟨i, by_contra fun hi => ?_⟩
    have := hf i
    rcases hn i hi with h' | ⟨T, -, h'⟩
    · rw [h', addP] at this; cases this
    · rw [h', loaded] at this; cases this
  · rintro ⟨S, hne, rfl⟩
    obtain ⟨a, ha⟩ := hne
    let out : List ι := (Finset.univ \ S).toList
    let rest : List ι := (S.erase a).toList
    let sched := [a] ++ (out.flatMap fun i => [i, i]) ++ [a] ++ rest.flatMap fun i => [i, i]
    -- `a` reads
    have e1 : (adding v w).exec [a] = ⟨.pt v, Function.update (adding v w).prog a (loaded v (w a))⟩ := by
      simp only [Shared.exec, List.foldl_cons, List.foldl_nil, Shared.step, adding, addP, step, Ptr.get_pt, loaded]
    have haout : a ∉ out := by simp [out, ha]
    -- the others write
    obtain ⟨h1, h2⟩ := exec_calls w out (s := (adding v w).exec [a]) (v := v) (Finset.nodup_toList _) (by rw [e1]) fun i hi => by
      have hia : i ≠ a := fun e => haout (e ▸ hi)
      rw [e1]
      simp only [Function.update_of_ne hia, adding]
    have hpa : (((adding v w).exec [a]).exec (out.flatMap fun i => [i, i])).prog a = loaded v (w a) := by
      rw [h2, if_neg haout, e1]
      exact Function.update_self _ _ _
    -- `a` writes
    set s2 := ((adding v w).exec [a]).exec (out.flatMap fun i => [i, i]) with hs2
    have e3 : s2.exec [a] = ⟨.pt (v + w a), Function.update s2.prog a (.ret (.ok ()))⟩ := by
      simp only [Shared.exec, List.foldl_cons, List.foldl_nil, Shared.step, hpa, loaded, step]
    -- the rest of the set
    have hrest : ∀ i ∈ rest, i ≠ a ∧ i ∉ out := fun i hi => by
      simp only [rest, Finset.mem_toList, Finset.mem_erase] at hi
      simp [out, hi.1, hi.2]
    obtain ⟨h3, h4⟩ := exec_calls w rest (s := s2.exec [a]) (v := v + w a) (Finset.nodup_toList _) (by rw [e3]) fun i hi => by
      obtain ⟨hia, hio⟩ := hrest i hi
      rw [e3]
      simp only [Function.update_of_ne hia]
      rw [h2, if_neg hio, e1]
      simp only [Function.update_of_ne hia, adding]
    have hex : (adding v w).exec sched = (s2.exec [a]).exec (rest.flatMap fun i => [i, i]) := by
      simp only [sched, exec_append, hs2]
    refine ⟨sched, fun i => ?_, ?_⟩
    · rw [hex, h4]
      by_cases hir : i ∈ rest
      · rw [if_pos hir]
      · rw [if_neg hir, e3]
        by_cases hia : i = a
        · subst hia; exact Function.update_self _ _ _
        · simp only [Function.update_of_ne hia]
          rw [h2, if_pos]
          simp only [rest, Finset.mem_toList, Finset.mem_erase, not_and] at hir
          simp [out, hir hia]
    · rw [hex, h3]
      congr 1
      rw [add_assoc]
      congr 1
      rw [Finset.sum_map_toList, Finset.add_sum_erase _ _ ha]

end sums

section bls

set_option linter.unusedSectionVars false

variable {F G1 G2 GT : Type} [Field F] [AddCommGroup G1] [AddCommGroup G2] [AddCommGroup GT]
  [Module F G1] [Module F G2] [Module F GT]
variable (P : Bn256 F G1 G2 GT) (A : Hash.Algs)

/-- C132: a call that runs alone does what the method does (`Model/Bls`). -/
theorem C132_alone (v : Ptr G2) (u : Ptr G1) (pk : Option (PublicKey G2)) (other : Signature G1) (sig : UnsafeSignature G1) (b : Bytes) :
    (((run v (apkAggregateP P A pk)).2, some ⟨some ⟨(run v (apkAggregateP P A pk)).1⟩⟩) = Apk.aggregate P A (some ⟨some ⟨v⟩⟩) pk) ∧
    (((run v (apkAggregateBytesP P A b)).2, some ⟨some ⟨(run v (apkAggregateBytesP P A b)).1⟩⟩) =
      Apk.aggregateBytes P A (some ⟨some ⟨v⟩⟩) b) ∧
    ((run u (sigAggregateP other)).2.bind fun _ => .ok ⟨(run u (sigAggregateP other)).1⟩) = Signature.aggregate ⟨u⟩ other ∧
    (((run u (sigAddP P A pk sig)).2, ⟨(run u (sigAddP P A pk sig)).1⟩) = Signature.add P A ⟨u⟩ pk sig) ∧
    (((run u (sigAggregateBytesP P b)).2, ⟨(run u (sigAggregateBytesP P b)).1⟩) = Signature.aggregateBytes P ⟨u⟩ b) := by
  have hapk : ∀ pk, (((run v (apkAggregateP P A pk)).2, some ⟨some ⟨(run v (apkAggregateP P A pk)).1⟩⟩) =
      Apk.aggregate P A (some ⟨some ⟨v⟩⟩) pk) := by
    intro pk
    unfold apkAggregateP Apk.aggregate
    rcases pkt P A pk with g | e | _
    · cases v <;> rfl
    · rfl
    · rfl
  have hsig : ∀ other : Signature G1, ((run u (sigAggregateP other)).2, (⟨(run u (sigAggregateP other)).1⟩ : Signature G1)) =
      (match Signature.aggregate ⟨u⟩ other with
        | .ok s => (.ok (), s)
        | .err e => (.err e, ⟨u⟩)
        | .panic => (.panic, ⟨u⟩)) := by
    rintro ⟨e⟩
    cases u <;> cases e <;> rfl
  refine ⟨hapk pk, ?_, ?_, ?_, ?_⟩
  · unfold apkAggregateBytesP Apk.aggregateBytes
    split <;> rename_i h <;> rw [h]
    · exact hapk _
    · rfl
    · rfl
  · cases u <;> obtain ⟨e⟩ := other <;> cases e <;> rfl
  · unfold sigAddP Signature.add
    rcases apkSigWrap P A pk sig with s | e | _
    · exact hsig s
    · rfl
    · rfl
  · unfold sigAggregateBytesP Signature.aggregateBytes
    split <;> rename_i h <;> rw [h]
    · exact hsig _
    · rfl
    · rfl

/-- C132 (violated): the keys of the signers `i` are aggregated into the Apk of `x₀` by one goroutine each, and their signatures into
the signature of `x₀`. All calls return nil, but any non-empty set `S` of keys and any non-empty set `T` of signatures may be
all that has an effect; `Verify` then accepts only if the lost parts cancel. -/
theorem C132_violated {ι : Type} [DecidableEq ι] [Fintype ι] (m : Bytes) (x₀ : Nat) (x : ι → Nat) (S T : Finset ι) (hS : S.Nonempty)
    (hT : T.Nonempty) :
    ∃ (a₀ : Ptr G2) (s₀ : Ptr G1) (us : ι → UnsafeSignature G1), newApk P A (some ⟨.pt ((x₀ : F) • P.g2)⟩) = .ok (some ⟨some ⟨a₀⟩⟩) ∧
      sign P A ⟨x₀⟩ (some ⟨.pt ((x₀ : F) • P.g2)⟩) m = .ok ⟨s₀⟩ ∧ (∀ i, unsafeSign P A ⟨x i⟩ m = .ok (us i)) ∧
    ∃ sched sched',
      let r : Shared (Ptr G2) ι (Res Unit) := Shared.exec ⟨a₀, fun i => apkAggregateP P A (some ⟨.pt ((x i : F) • P.g2)⟩)⟩ sched
      let r' : Shared (Ptr G1) ι (Res Unit) := Shared.exec ⟨s₀, fun i => sigAddP P A (some ⟨.pt ((x i : F) • P.g2)⟩) (us i)⟩ sched'
      Finished r ∧ Finished r' ∧
        (Verify P A (some ⟨some ⟨r.obj⟩⟩) m (some ⟨r'.obj⟩) = .ok () ↔
          ((digest A m : F) * (∑ i ∈ S, (digest A (P.g2Bytes ((x i : F) • P.g2)) : F) * (x i : F) -
            ∑ i ∈ T, (digest A (P.g2Bytes ((x i : F) • P.g2)) : F) * (x i : F))) • P.g1 = 0) := by
  have : Nonempty ι := ⟨hS.choose⟩
  refine ⟨_, _, fun i => _, newApk_eq P A _, sign_eq P A _ _ m, fun i => unsafeSign_eq P A _ m, ?_⟩
  have e1 : (fun i => apkAggregateP P A (some ⟨.pt ((x i : F) • P.g2)⟩)) = fun i => addP (.ok (keyPart P A (x i))) := by
    funext i
    rw [apkAggregateP, pkt_eq]; rfl
  have e2 : (fun i => sigAddP P A (some ⟨.pt ((x i : F) • P.g2)⟩) ⟨.pt ((x i : F) • (digest A m : F) • P.g1)⟩) =
      fun i => addP (.ok (sigPart P A m (x i))) := by
    funext i
    rw [sigAddP, apkSigWrap_eq]; rfl
  obtain ⟨sched, f1, o1⟩ := (C132_exact (keyPart P A x₀) (fun i => keyPart P A (x i)) _).2 ⟨S, hS, rfl⟩
  obtain ⟨sched', f2, o2⟩ := (C132_exact (sigPart P A m x₀) (fun i => sigPart P A m (x i)) _).2 ⟨T, hT, rfl⟩
  refine ⟨sched, sched', ?_⟩
  dsimp only
  rw [e1, e2]
  refine ⟨f1, f2, ?_⟩
  change Verify P A (some ⟨some ⟨((adding (keyPart P A x₀) fun i => keyPart P A (x i)).exec sched).obj⟩⟩) m
    (some ⟨((adding (sigPart P A m x₀) fun i => sigPart P A m (x i)).exec sched').obj⟩) = _ ↔ _
  rw [o1, o2]
  simp only [Verify, deref_some, Res.bind_ok, Apk.gx]
  rw [verify_iff]
  have hk : ∀ y : Nat, P.pair ((digest A m : F) • P.g1) (keyPart P A y) =
      P.pair (((digest A m : F) * ((digest A (P.g2Bytes ((y : F) • P.g2)) : F) * (y : F))) • P.g1) P.g2 := by
    intro y
    simp only [keyPart, map_smul, LinearMap.smul_apply, smul_smul]
    congr 1
    ring
  have hs : ∀ y : Nat, sigPart P A m y =
      ((digest A m : F) * ((digest A (P.g2Bytes ((y : F) • P.g2)) : F) * (y : F))) • P.g1 := by
    intro y
    simp only [sigPart, smul_smul]
    congr 1
    ring
  simp only [map_add, map_sum, hk, hs]
  have hsum : ∀ U : Finset ι, ∑ i ∈ U, P.pair (((digest A m : F) * ((digest A (P.g2Bytes ((x i : F) • P.g2)) : F) * (x i : F))) • P.g1) P.g2 =
      P.pair (((digest A m : F) * ∑ i ∈ U, (digest A (P.g2Bytes ((x i : F) • P.g2)) : F) * (x i : F)) • P.g1) P.g2 := by
    intro U
    rw [Finset.mul_sum, Finset.sum_smul, map_sum, LinearMap.sum_apply]
  rw [LinearMap.add_apply, LinearMap.sum_apply, hsum, hsum, add_right_inj]
  constructor
  · intro h
    have := pair_inj P h
    rw [mul_sub, sub_smul, this, sub_self]
  · intro h
    rw [mul_sub, sub_smul, sub_eq_zero] at h
    rw [h]

example (m : Bytes) := C132_violated Toy.bn Hash.toyAlgs m 4 ![3, 5] {0} {1} (by simp) (by simp)

/-- Three signers; the keys of two of them are added by one goroutine each, and the second key is lost. Both calls return nil, and
`Verify` rejects the signature of all three (for every hash function such that no digest involved is divisible by the order). -/
example (A : Hash.Algs) (m : Bytes) (hm : ¬ PrimeEll.ell ∣ digest A m) (h5 : ¬ PrimeEll.ell ∣ digest A (Toy.bn.g2Bytes ((5 : Nat) : Toy.K))) :
    ∃ (a₀ : Ptr Toy.K) (sched : List (Fin 2)),
      let x : Fin 2 → Nat := ![3, 5]
      let r : Shared (Ptr Toy.K) (Fin 2) (Res Unit) :=
        Shared.exec ⟨a₀, fun i => apkAggregateP Toy.bn A (some ⟨.pt ((x i : Toy.K) • Toy.bn.g2)⟩)⟩ sched
      newApk Toy.bn A (some ⟨.pt ((2 : Nat) : Toy.K)⟩) = .ok (some ⟨some ⟨a₀⟩⟩) ∧ Finished r ∧
        ∃ s, Verify Toy.bn A (some ⟨some ⟨r.obj⟩⟩) m (some s) ≠ .ok () ∧
          s = ⟨.pt (sigPart Toy.bn A m 2 + (sigPart Toy.bn A m 3 + sigPart Toy.bn A m 5))⟩ := by
  have hx : ((5 : Nat) : Toy.K) ≠ 0 := fun h => by
    have := Nat.le_of_dvd (by norm_num) ((Toy.bn.cast_eq_zero 5).1 h)
    have h2 : 5 < Toy.bn.order := by decide +kernel
    omega
  obtain ⟨sched, f1, o1⟩ := (C132_exact (keyPart Toy.bn A 2) (fun i : Fin 2 => keyPart Toy.bn A (![3, 5] i)) _).2
    ⟨{0}, Finset.singleton_nonempty _, rfl⟩
  refine ⟨.pt (keyPart Toy.bn A 2), sched, ?_⟩
  have e1 : (fun i : Fin 2 => apkAggregateP Toy.bn A (some ⟨.pt (((![3, 5] i : Nat) : Toy.K) • Toy.bn.g2)⟩)) =
      fun i => addP (.ok (keyPart Toy.bn A (![3, 5] i))) := by
    funext i
    rw [apkAggregateP, pkt_eq]; rfl
  dsimp only
  rw [e1]
  refine ⟨?_, f1, _, ?_, rfl⟩
  · have := newApk_eq Toy.bn A ((2 : Nat) : Toy.K)
    rw [this]
    simp only [keyPart, Toy.bn_g2, smul_eq_mul, mul_one]
  · change Verify Toy.bn A (some ⟨some ⟨((adding (keyPart Toy.bn A 2) fun i : Fin 2 => keyPart Toy.bn A (![3, 5] i)).exec sched).obj⟩⟩) m _ ≠ _
    rw [o1]
    simp only [Verify, deref_some, Res.bind_ok, Apk.gx, Finset.sum_singleton]
    rw [Ne, verify_iff, Toy.bn_pair, Toy.bn_pair, Toy.bn_g1, Toy.bn_g2]
    simp only [keyPart, sigPart, Toy.bn_g1, Toy.bn_g2, smul_eq_mul, mul_one, Matrix.cons_val_zero]
    intro h
    have h0 : (digest A m : Toy.K) * ((digest A (Toy.bn.g2Bytes ((5 : Nat) : Toy.K)) : Toy.K) * ((5 : Nat) : Toy.K)) = 0 := by
      linear_combination -h
    exact mul_ne_zero (toy_digest_ne A m hm) (mul_ne_zero (fun e => h5 ((Toy.bn.cast_eq_zero _).1 e)) hx) h0

/-- The methods of one goroutine after another. -/
example (v : Toy.K) : ((adding v (![3, 5, 3] : Fin 3 → Toy.K)).exec [1, 1, 0, 0, 2, 2]).obj = .pt (v + 11) := by
  have := (C132_locked v (![3, 5, 3] : Fin 3 → Toy.K) [1, 0, 2] (by decide) (by decide)).1
  simp only [List.flatMap_cons, List.flatMap_nil, List.cons_append, List.nil_append] at this
  rw [this]
  congr 2
  simp [Fin.sum_univ_three]
  norm_num

end bls

end Dusk.BlsConc
