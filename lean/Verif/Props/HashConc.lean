import Mathlib.Logic.Function.Basic
import Mathlib.Data.List.Nodup
import Mathlib.Data.List.Induction
import Mathlib.Data.List.Perm.Lattice
import Verif.Model.HashConc
import Verif.Props.Hash
/-!
# C144: one hash handle used by several goroutines
-/

namespace Dusk.Hash.Conc

/-- The payloads of some goroutines, one after another. -/
def payloads (b : Nat → Bytes) (l : List Nat) : Bytes := l.flatMap b

/-- The results that `n` goroutines can have together: there is an order of the writes, and each result is the digest of what the
handle held before and of all payloads up to some place of this order, not before the place of its own. -/
def Possible (h : Hasher) (b : Nat → Bytes) (n : Nat) (r : Nat → Res Bytes) : Prop :=
  ∃ order : List Nat, order.Perm (List.range n) ∧
    ∀ i < n, ∃ k, i ∈ order.take k ∧ r i = .ok (h.alg (h.absorbed ++ payloads b (order.take k)))

theorem exec_append (s : State) (l l' : List Nat) : s.exec (l ++ l') = (s.exec l).exec l' := by simp [State.exec]

theorem exec_cons (s : State) (i : Nat) (l : List Nat) : s.exec (i :: l) = (s.step i).exec l := rfl

/-- What is true at any time, with `w` the goroutines that have written, in their order. -/
structure Inv (h : Hasher) (b : Nat → Bytes) (w : List Nat) (s : State) : Prop where
  handle : s.handle = { h with absorbed := h.absorbed ++ payloads b w }
  nodup : w.Nodup
  start : ∀ i c, s.pc i = .start c → i ∉ w ∧ c = b i
  written : ∀ i, s.pc i = .written → i ∈ w
  done : ∀ i r, s.pc i = .done r → ∃ k, i ∈ w.take k ∧ r = .ok (h.alg (h.absorbed ++ payloads b (w.take k)))

theorem Inv.step {h : Hasher} (hb : h.broken = false) {b : Nat → Bytes} {w : List Nat} {s : State} (H : Inv h b w s) (i : Nat) :
    ∃ w', Inv h b w' (s.step i) ∧ ∀ j, j ∈ w' → j ∈ w ∨ j = i := by
  unfold State.step
  have hbr : s.handle.broken = false := by rw [H.handle, ← hb]
  cases hp : s.pc i with
  | start c =>
    obtain ⟨hi, rfl⟩ := H.start i c hp
    simp only [hbr, Bool.false_eq_true, if_false]
    refine ⟨w ++ [i], ⟨?_, ?_, fun j c hj => ?_, fun j hj => ?_, fun j r hj => ?_⟩, by simp⟩
    · rw [H.handle]; simp [payloads, hb]
    · exact List.Nodup.append H.nodup (by simp) (by simpa using hi)
    · by_cases hji : j = i
      · subst hji; simp at hj
      · simp only [Function.update_of_ne hji] at hj
        have := H.start j c hj
        exact ⟨by simp [this.1, hji], this.2⟩
    · by_cases hji : j = i
      · subst hji; simp
      · simp only [Function.update_of_ne hji] at hj
        simp [H.written j hj]
    · by_cases hji : j = i
      · subst hji; simp at hj
      · simp only [Function.update_of_ne hji] at hj
        obtain ⟨k, h1, h2⟩ := H.done j r hj
        refine ⟨min k w.length, ?_, ?_⟩
        · rw [List.take_append_of_le_length (by omega)]
          rcases Nat.le_total k w.length with hk | hk
          · rwa [Nat.min_eq_left hk]
          · rw [Nat.min_eq_right hk]; rw [List.take_of_length_le hk] at h1; simpa using h1
        · rw [List.take_append_of_le_length (by omega), h2]
          rcases Nat.le_total k w.length with hk | hk
          · rw [Nat.min_eq_left hk]
          · rw [Nat.min_eq_right hk, List.take_of_length_le hk]; simp
  | written =>
    refine ⟨w, ⟨H.handle, H.nodup, fun j c hj => ?_, fun j hj => ?_, fun j r hj => ?_⟩, fun j hj => .inl hj⟩
    · by_cases hji : j = i
      · subst hji; simp at hj
      · simp only [Function.update_of_ne hji] at hj
        exact H.start j c hj
    · by_cases hji : j = i
      · subst hji; simp at hj
      · simp only [Function.update_of_ne hji] at hj
        exact H.written j hj
    · by_cases hji : j = i
      · subst hji
        simp only [Function.update_self, Pc.done.injEq] at hj
        refine ⟨w.length, by simpa using H.written j hp, ?_⟩
        rw [← hj, H.handle]
        simp
      · simp only [Function.update_of_ne hji] at hj
        exact H.done j r hj
  | done r => exact ⟨w, H, fun j hj => .inl hj⟩

theorem Inv.exec {h : Hasher} (hb : h.broken = false) {b : Nat → Bytes} : ∀ (sched : List Nat) {w : List Nat} {s : State}, Inv h b w s →
    ∃ w', Inv h b w' (s.exec sched) ∧ ∀ j, j ∈ w' → j ∈ w ∨ j ∈ sched
  | [], w, s, H => ⟨w, H, fun _ h => .inl h⟩
  | i :: l, w, s, H => by
    obtain ⟨w1, H1, h1⟩ := H.step hb i
    obtain ⟨w2, H2, h2⟩ := Inv.exec hb l H1
    refine ⟨w2, H2, fun j hj => ?_⟩
    rcases h2 j hj with h | h
    · rcases h1 j h with h | h
      · exact .inl h
      · exact .inr (by simp [h])
    · exact .inr (by simp [h])

theorem Inv.init (h : Hasher) (b : Nat → Bytes) : Inv h b [] (State.init h b) := by
  refine ⟨by simp [State.init, payloads], .nil, fun i c hi => ?_, fun i hi => ?_, fun i r hi => ?_⟩
  · simp only [State.init, Pc.start.injEq] at hi; exact ⟨by simp, hi.symm⟩
  · simp [State.init] at hi
  · simp [State.init] at hi

/-! ## All of them can happen -/

/-- The schedule: the writes in their order, and after the `k`-th one the sums of the goroutines with number `k`. -/
def schedule (n : Nat) (order : List Nat) (place : Nat → Nat) : Nat → List Nat
  | 0 => []
  | k + 1 => schedule n order place k ++ (order[k]?.toList ++ (List.range n).filter fun i => place i = k + 1)

/-- The goroutines after `k` writes. -/
def pcAt (h : Hasher) (b : Nat → Bytes) (n : Nat) (order : List Nat) (place : Nat → Nat) (k i : Nat) : Pc :=
  if i < n ∧ i ∈ order.take k then
    if place i ≤ k then .done (.ok (h.alg (h.absorbed ++ payloads b (order.take (place i))))) else .written
  else .start (b i)

theorem exec_sums (s : State) : ∀ l : List Nat, l.Nodup → (∀ i ∈ l, s.pc i = .written) →
    s.exec l = { s with pc := fun i => if i ∈ l then .done (.ok (s.handle.alg s.handle.absorbed)) else s.pc i }
  | [], _, _ => by simp [State.exec]
  | i :: l, hn, h => by
    rw [exec_cons]
    have hi := h i (by simp)
    have hs : s.step i = { s with pc := Function.update s.pc i (.done (.ok (s.handle.alg s.handle.absorbed))) } := by
      simp only [State.step, hi]
    have hil : i ∉ l := (List.nodup_cons.1 hn).1
    rw [hs, exec_sums _ l (List.nodup_cons.1 hn).2 fun j hj => by
      simp only
      rw [Function.update_of_ne (by rintro rfl; exact hil hj)]
      exact h j (by simp [hj])]
    simp only [State.mk.injEq, true_and]
    funext j
    by_cases hj : j = i
    · subst hj; simp [hil]
    · simp [hj]

theorem exec_schedule {h : Hasher} (hb : h.broken = false) (b : Nat → Bytes) (n : Nat) (order : List Nat) (place : Nat → Nat)
    (ho : order.Perm (List.range n)) (hp : ∀ i < n, i ∈ order.take (place i)) : ∀ k, k ≤ n →
    (State.init h b).exec (schedule n order place k) =
      ⟨{ h with absorbed := h.absorbed ++ payloads b (order.take k) }, pcAt h b n order place k⟩
  | 0, _ => by
    simp only [schedule, State.exec, List.foldl_nil, State.init, List.take_zero, payloads, List.flatMap_nil, List.append_nil, State.mk.injEq,
      true_and]
    funext i
    simp [pcAt]
  | k + 1, hk => by
    have hl : order.length = n := by simpa using ho.length_eq
    have hnd : order.Nodup := ho.nodup_iff.2 List.nodup_range
    have hko : k < order.length := by omega
    have hlt : order[k] < n := by
      have := (ho.mem_iff (a := order[k])).1 (List.getElem_mem _)
      simpa using this
    have htk : order.take (k + 1) = order.take k ++ [order[k]] := List.take_succ_eq_append_getElem hko
    have hnot : order[k] ∉ order.take k := by
      intro hm
      have := hnd
      rw [← List.take_append_drop k order, List.drop_eq_getElem_cons hko, List.nodup_append] at this
      exact this.2.2 _ hm _ List.mem_cons_self rfl
    rw [schedule, exec_append, exec_schedule hb b n order place ho hp k (by omega), exec_append, List.getElem?_eq_getElem hko]
    have h1 : (⟨{ h with absorbed := h.absorbed ++ payloads b (order.take k) }, pcAt h b n order place k⟩ : State).exec [order[k]] =
        ⟨{ h with absorbed := h.absorbed ++ payloads b (order.take (k + 1)) },
          Function.update (pcAt h b n order place k) order[k] .written⟩ := by
      have : pcAt h b n order place k order[k] = .start (b order[k]) := by simp [pcAt, hnot]
      simp only [State.exec, List.foldl_cons, List.foldl_nil, State.step, this, hb, Bool.false_eq_true, if_false, htk, payloads,
        List.flatMap_append, List.flatMap_cons, List.flatMap_nil, List.append_nil, List.append_assoc]
    simp only [Option.toList_some]
    rw [h1]
    have hw : ∀ i ∈ (List.range n).filter fun i => place i = k + 1,
        Function.update (pcAt h b n order place k) order[k] .written i = .written := by
      intro i hi
      simp only [List.mem_filter, List.mem_range, decide_eq_true_eq] at hi
      by_cases he : i = order[k]
      · rw [he, Function.update_self]
      · rw [Function.update_of_ne he]
        have := hp i hi.1
        rw [hi.2, htk] at this
        simp only [List.mem_append, List.mem_singleton, he, or_false] at this
        simp [pcAt, hi.1, this, hi.2]
    rw [exec_sums _ _ (List.nodup_range.filter _) hw]
    simp only [State.mk.injEq, true_and]
    funext i
    by_cases hin : i < n
    · by_cases hpl : place i = k + 1
      · have := hp i hin
        rw [hpl] at this
        simp [hin, hpl, pcAt, this]
      · simp only [List.mem_filter, List.mem_range, hin, hpl, decide_false, Bool.false_eq_true, and_false, if_false]
        by_cases he : i = order[k]
        · subst he
          have hm := hp _ hin
          have : ¬ place order[k] ≤ k := fun hle => hnot (List.take_subset_take_left order hle hm)
          rw [Function.update_self, pcAt, if_pos ⟨hin, htk ▸ List.mem_append_right _ (List.mem_singleton.2 rfl)⟩, if_neg (by omega)]
        · rw [Function.update_of_ne he, pcAt, pcAt, htk]
          simp only [List.mem_append, List.mem_singleton, he, or_false]
          have : place i ≤ k ↔ place i ≤ k + 1 := by omega
          rw [if_congr Iff.rfl (if_congr this rfl rfl) rfl]
    · have he : i ≠ order[k] := by omega
      simp [pcAt, hin, Function.update_of_ne he]

/-- C144 (violated): exactly which results `n` goroutines can have that call `PerformHash` with one handle. Expected: the results of the
calls one after another. -/
theorem C144_exact_violated (h : Hasher) (hb : h.broken = false) (b : Nat → Bytes) (n : Nat) (r : Nat → Res Bytes) :
    (∃ sched, (∀ i ∈ sched, i < n) ∧ ∀ i < n, ((State.init h b).exec sched).pc i = .done (r i)) ↔ Possible h b n r := by
  constructor
  · rintro ⟨sched, hs, hd⟩
    obtain ⟨w, H, hw⟩ := Inv.exec hb sched (Inv.init h b)
    refine ⟨w, ?_, fun i hi => ?_⟩
    · refine (List.perm_ext_iff_of_nodup H.nodup List.nodup_range).2 fun i => ⟨fun hi => ?_, fun hi => ?_⟩
      · rw [List.mem_range]
        rcases hw i hi with h | h
        · simp at h
        · exact hs i h
      · obtain ⟨k, h1, -⟩ := H.done i _ (hd i (List.mem_range.1 hi))
        exact List.mem_of_mem_take h1
    · obtain ⟨k, h1, h2⟩ := H.done i _ (hd i hi)
      exact ⟨k, h1, h2⟩
  · rintro ⟨order, ho, hr⟩
    have hl : order.length = n := by simpa using ho.length_eq
    choose! place0 h1 h2 using hr
    have h1' : ∀ i < n, i ∈ order.take (min (place0 i) n) := by
      intro i hi
      rcases Nat.le_total (place0 i) n with hc | hc
      · rw [Nat.min_eq_left hc]; exact h1 i hi
      · have := h1 i hi
        rw [Nat.min_eq_right hc, ← hl, List.take_length]
        exact List.mem_of_mem_take this
    have h2' : ∀ i, order.take (min (place0 i) n) = order.take (place0 i) := by
      intro i
      rw [← hl, List.take_eq_take_iff]
      omega
    refine ⟨schedule n order (fun i => min (place0 i) n) n, ?_, fun i hi => ?_⟩
    · have : ∀ k, ∀ i ∈ schedule n order (fun i => min (place0 i) n) k, i < n := by
        intro k
        induction k with
        | zero => simp [schedule]
        | succ k ih =>
          intro i hi
          simp only [schedule, List.mem_append, List.mem_filter, List.mem_range, Option.mem_toList] at hi
          rcases hi with hi | hi | hi
          · exact ih i hi
          · have := List.mem_of_getElem? hi
            simpa using (ho.mem_iff).1 this
          · exact hi.1
      exact this n
    · rw [exec_schedule hb b n order _ ho h1' n (Nat.le_refl n)]
      simp only
      rw [pcAt, if_pos ⟨hi, List.mem_of_mem_take (h1' i hi) |> fun h => by rw [← hl, List.take_length]; exact h⟩, if_pos (by omega), h2', h2 i hi]

/-- C144: if the writes of the handle fail, all calls fail, whatever the schedule. -/
theorem C144_broken (h : Hasher) (hb : h.broken = true) (b : Nat → Bytes) (sched : List Nat) (i : Nat) :
    ((State.init h b).exec sched).pc i = if i ∈ sched then .done (.err "write failed") else .start (b i) := by
  have key : ∀ sched : List Nat, (State.init h b).exec sched =
      ⟨h, fun i => if i ∈ sched then .done (.err "write failed") else .start (b i)⟩ := by
    intro sched
    induction sched using List.reverseRecOn with
    | nil => simp [State.exec, State.init]
    | append_singleton l j ih =>
      rw [exec_append, ih]
      simp only [State.exec, List.foldl_cons, List.foldl_nil, State.step]
      by_cases hj : j ∈ l
      · simp only [hj, if_true, State.mk.injEq, true_and]
        funext i
        by_cases hi : i = j
        · subst hi; simp [hj]
        · simp [hi]
      · simp only [hj, if_false, hb, if_true, State.mk.injEq, true_and]
        funext i
        by_cases hi : i = j
        · subst hi; simp
        · simp [hi]
  rw [key]

/-- C144: the results of the calls one after another, in some order. -/
def OneByOne (h : Hasher) (b : Nat → Bytes) (n : Nat) (r : Nat → Res Bytes) : Prop :=
  ∃ order : List Nat, order.Perm (List.range n) ∧ ∀ k (hk : k < order.length),
    r order[k] = (performHash { h with absorbed := h.absorbed ++ payloads b (order.take k) } (b order[k])).1

/-- C144 (violated): two goroutines can both get the digest of both payloads; if the digests of what was written differ, no order of the
two calls gives these results. -/
theorem C144_both_violated (h : Hasher) (hb : h.broken = false) (b : Nat → Bytes)
    (h0 : h.alg (h.absorbed ++ b 0) ≠ h.alg (h.absorbed ++ b 0 ++ b 1)) (h1 : h.alg (h.absorbed ++ b 1) ≠ h.alg (h.absorbed ++ b 0 ++ b 1)) :
    ∃ r, (∃ sched, (∀ i ∈ sched, i < 2) ∧ ∀ i < 2, ((State.init h b).exec sched).pc i = .done (r i)) ∧ ¬ OneByOne h b 2 r := by
  refine ⟨fun _ => .ok (h.alg (h.absorbed ++ b 0 ++ b 1)), (C144_exact_violated h hb b 2 _).2 ⟨[0, 1], by decide, fun i hi => ⟨2, ?_, ?_⟩⟩, ?_⟩
  · simp; omega
  · simp [payloads]
  · rintro ⟨order, ho, hr⟩
    have hl : order.length = 2 := by simpa using ho.length_eq
    have e := hr 0 (by omega)
    simp only [performHash, hb, Bool.false_eq_true, if_false, List.take_zero, payloads, List.flatMap_nil, List.append_nil, Res.ok.injEq] at e
    have hm : order[0] < 2 := by simpa using (ho.mem_iff (a := order[0])).1 (List.getElem_mem _)
    rcases (show order[0] = 0 ∨ order[0] = 1 by omega) with hc | hc <;> rw [hc] at e
    · exact h0 e.symm
    · exact h1 e.symm

/-- C144: two goroutines hashing `1` and `2`. -/
example : ∃ sched, (∀ i ∈ sched, i < 2) ∧ ∀ i < 2, ((State.init { alg := toyAlgs.sha3_256 } fun i => [UInt8.ofNat (i + 1)]).exec sched).pc i =
    .done (.ok (toyAlgs.sha3_256 [1, 2])) :=
  (C144_exact_violated { alg := toyAlgs.sha3_256 } rfl (fun i => [UInt8.ofNat (i + 1)]) 2 fun _ => .ok (toyAlgs.sha3_256 [1, 2])).2
    ⟨[0, 1], by decide, fun i hi => ⟨2, by simp; omega, by simp [payloads]⟩⟩

example : ∃ r, (∃ sched, (∀ i ∈ sched, i < 2) ∧ ∀ i < 2,
    ((State.init { alg := toyAlgs.sha3_256 } fun i => [UInt8.ofNat (i + 1)]).exec sched).pc i = .done (r i)) ∧
    ¬ OneByOne { alg := toyAlgs.sha3_256 } (fun i => [UInt8.ofNat (i + 1)]) 2 r :=
  C144_both_violated { alg := toyAlgs.sha3_256 } rfl _ (by decide) (by decide)

example : ((State.init { alg := toyAlgs.sha3_256, broken := true } fun _ => [1]).exec [0, 1, 1]).pc 1 = .done (.err "write failed") := by
  rw [C144_broken _ rfl]; simp

end Dusk.Hash.Conc
