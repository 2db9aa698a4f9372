import Mathlib.Data.Fintype.BigOperators
import Mathlib.Data.Fintype.Pi
import Mathlib.Tactic.Ring
import Mathlib.SetTheory.Cardinal.Finite
import Mathlib.Algebra.BigOperators.Ring.Finset
import Mathlib.Algebra.Order.BigOperators.Group.Finset
import Verif.Go.Core
/-!
# Random oracles, by counting

A hash function answering fresh inputs with fresh coins. An attacker is a function choosing the next input from the log of inputs
and answers; nothing bounds its computations. The number of coin sequences with which it reaches its goal, divided by the number of
all coin sequences, is its probability of success.
-/

namespace Dusk.Oracle

variable {F : Type}

/-- The inputs asked so far, with the answers. -/
abbrev Log (F : Type) := List (Bytes × F)

/-- Ask for `q`: an input asked before has the answer given before, a fresh one is answered by the coin. -/
def Log.ask (log : Log F) (q : Bytes) (coin : F) : Log F := log ++ [(q, (log.lookup q).getD coin)]

/-- As many questions as there are coins. -/
def play (next : Log F → Bytes) (coins : List F) : Log F := coins.foldl (fun log a => log.ask (next log) a) []

/-- The hash function given by a log. Inputs never asked are mapped to 0. -/
def Log.hash [Zero F] (log : Log F) (q : Bytes) : F := (log.lookup q).getD 0

theorem play_nil (next : Log F → Bytes) : play next [] = [] := rfl

theorem play_snoc (next : Log F → Bytes) (l : List F) (a : F) :
    play next (l ++ [a]) = (play next l).ask (next (play next l)) a := by
  simp [play]

theorem play_length (next : Log F → Bytes) (l : List F) : (play next l).length = l.length := by
  induction l using List.reverseRecOn with
  | nil => rfl
  | append_singleton l a ih => rw [play_snoc]; simp [Log.ask, ih]

/-- The log after the first `t` questions is the beginning of the log. -/
theorem play_take (next : Log F → Bytes) (l : List F) (t : Nat) : play next (l.take t) = (play next l).take t := by
  induction l using List.reverseRecOn with
  | nil => simp [play_nil]
  | append_singleton l a ih =>
    rcases Nat.lt_or_ge l.length t with h | h
    · rw [List.take_of_length_le (by simp; omega), List.take_of_length_le (by rw [play_length]; simp; omega)]
    · rw [List.take_append_of_le_length h, ih, play_snoc, Log.ask, List.take_append_of_le_length (by rw [play_length]; exact h)]

/-- Answers do not change. -/
theorem lookup_take {log : Log F} {t : Nat} {q : Bytes} {a : F} (h : (log.take t).lookup q = some a) : log.lookup q = some a := by
  rw [← List.take_append_drop t log, List.lookup_append, h]
  rfl

theorem play_lookup_take (next : Log F → Bytes) {l : List F} {t : Nat} {q : Bytes} {a : F}
    (h : (play next (l.take t)).lookup q = some a) : (play next l).lookup q = some a := by
  rw [play_take] at h
  exact lookup_take h

/-- Every input has been asked a first time, and then the answer was a coin. -/
theorem play_first (next : Log F → Bytes) (l : List F) (q : Bytes) (a : F) (h : (play next l).lookup q = some a) :
    ∃ t, ∃ ht : t < l.length, (play next (l.take t)).lookup q = none ∧ q = next (play next (l.take t)) ∧ a = l[t] ∧
      ∀ t', t < t' → (play next (l.take t')).lookup q = some a := by
  induction l using List.reverseRecOn with
  | nil => simp [play_nil] at h
  | append_singleton l b ih =>
    cases hl : (play next l).lookup q with
    | some a' =>
      have e : a' = a := by
        have := play_lookup_take next (l := l ++ [b]) (t := l.length) (q := q) (a := a') (by simpa using hl)
        rw [h] at this
        exact (Option.some.inj this).symm
      subst e
      obtain ⟨t, ht, h1, h2, h3, h4⟩ := ih hl
      refine ⟨t, by simp; omega, ?_, ?_, ?_, fun t' htt' => ?_⟩
      · rw [List.take_append_of_le_length ht.le]; exact h1
      · rw [List.take_append_of_le_length ht.le]; exact h2
      · rw [List.getElem_append_left ht]; exact h3
      · rcases Nat.lt_or_ge l.length t' with hc | hc
        · rw [List.take_of_length_le (by simp; omega)]; exact h
        · rw [List.take_append_of_le_length hc]; exact h4 t' htt'
    | none =>
      have hq : q = next (play next l) := by
        by_contra hne
        rw [play_snoc, Log.ask, List.lookup_append, hl] at h
        simp [List.lookup, beq_false_of_ne hne] at h
      refine ⟨l.length, by simp, by simpa using hl, by simpa using hq, ?_, fun t' htt' => ?_⟩
      · rw [play_snoc, Log.ask, List.lookup_append, hl, ← hq] at h
        simpa [hl] using h.symm
      · rw [List.take_of_length_le (by simp; omega)]; exact h

theorem mem_of_lookup {log : Log F} {q : Bytes} {a : F} (h : log.lookup q = some a) : (q, a) ∈ log := by
  induction log with
  | nil => simp at h
  | cons e l ih =>
    obtain ⟨k, b⟩ := e
    rw [List.lookup_cons] at h
    split at h
    · rename_i hk
      rw [eq_of_beq hk]
      simp only [Option.some.injEq] at h
      simp [h]
    · exact List.mem_cons_of_mem _ (ih h)

/-- Whatever was asked has an answer. -/
theorem lookup_of_mem {log : Log F} {q : Bytes} {b : F} (h : (q, b) ∈ log) : ∃ a, log.lookup q = some a := by
  induction log with
  | nil => simp at h
  | cons e l ih =>
    obtain ⟨k, b'⟩ := e
    rw [List.lookup_cons]
    split
    · exact ⟨_, rfl⟩
    · rename_i hk
      rcases List.mem_cons.1 h with h | h
      · simp only [Prod.mk.injEq] at h
        rw [h.1, beq_self_eq_true] at hk
        cases hk
      · exact ih h

/-- Each entry of the log is the question asked then, with the value of the hash function. -/
theorem play_entry [Zero F] (next : Log F → Bytes) (l : List F) (t : Nat) (ht : t < l.length) :
    (play next l)[t]? = some (next (play next (l.take t)), (play next l).hash (next (play next (l.take t)))) := by
  generalize hq : next (play next (l.take t)) = q
  have e : play next (l.take (t + 1)) = (play next (l.take t)).ask q l[t] := by
    rw [List.take_succ_eq_append_getElem ht, play_snoc, hq]
  have hl : (play next (l.take t)).length = t := by rw [play_length]; simp; omega
  have h1 : (play next (l.take (t + 1)))[t]? = some (q, ((play next (l.take t)).lookup q).getD l[t]) := by
    rw [e, Log.ask, List.getElem?_append_right (by omega), hl]
    simp
  have h2 : (play next (l.take (t + 1))).lookup q = some (((play next (l.take t)).lookup q).getD l[t]) := by
    rw [e, Log.ask, List.lookup_append]
    cases (play next (l.take t)).lookup q <;> simp
  rw [Log.hash, play_lookup_take next h2, Option.getD_some, ← h1, play_take, List.getElem?_take_of_lt (by omega)]

/-- If in every step at most `b` answers, depending on the earlier coins only, are bad, then at most `m b |F|^(m-1)` of the
sequences of `m` coins have a bad answer. -/
theorem card_guess [Fintype F] [DecidableEq F] (b : Nat) : ∀ (m : Nat) (S : List F → Finset F), (∀ l, l.length < m → (S l).card ≤ b) →
    Fintype.card F * Nat.card {coins : Fin m → F // ∃ t : Fin m, coins t ∈ S ((List.ofFn coins).take t)} ≤
      m * b * Fintype.card F ^ m
  | 0, S, _ => by
    have : IsEmpty {coins : Fin 0 → F // ∃ t : Fin 0, coins t ∈ S ((List.ofFn coins).take t)} := ⟨fun x => x.2.choose.elim0⟩
    simp
  | m + 1, S, h => by
    classical
    -- split off the first coin
    have ih := fun a => card_guess b m (fun l => S (a :: l)) (fun l hl => h (a :: l) (by simp; omega))
    have e : Nat.card {coins : Fin (m + 1) → F // ∃ t : Fin (m + 1), coins t ∈ S ((List.ofFn coins).take t)} ≤
        Fintype.card F ^ m * b +
          ∑ a : F, Nat.card {coins : Fin m → F // ∃ t : Fin m, coins t ∈ S (a :: (List.ofFn coins).take t)} := by
      rw [Nat.card_eq_fintype_card]
      have hsub : (Finset.univ.filter fun coins : Fin (m + 1) → F => ∃ t : Fin (m + 1), coins t ∈ S ((List.ofFn coins).take t)) ⊆
          ((S []) ×ˢ (Finset.univ : Finset (Fin m → F))).image (fun p => (Fin.cons p.1 p.2 : Fin (m + 1) → F)) ∪
          (Finset.univ : Finset F).biUnion fun a =>
            (Finset.univ.filter fun coins : Fin m → F => ∃ t : Fin m, coins t ∈ S (a :: (List.ofFn coins).take t)).image
              (fun c => (Fin.cons a c : Fin (m + 1) → F)) := by
        intro coins hc
        obtain ⟨t, ht⟩ := (Finset.mem_filter.1 hc).2
        rw [Finset.mem_union]
        cases t using Fin.cases with
        | zero =>
          left
          refine Finset.mem_image.2 ⟨(coins 0, Fin.tail coins), ?_, Fin.cons_self_tail coins⟩
          simpa using ht
        | succ t =>
          right
          refine Finset.mem_biUnion.2 ⟨coins 0, Finset.mem_univ _, Finset.mem_image.2 ⟨Fin.tail coins, ?_, Fin.cons_self_tail coins⟩⟩
          refine Finset.mem_filter.2 ⟨Finset.mem_univ _, t, ?_⟩
          rw [List.ofFn_succ] at ht
          exact ht
      rw [Fintype.card_subtype]
      refine (Finset.card_le_card hsub).trans ((Finset.card_union_le _ _).trans (Nat.add_le_add ?_ ?_))
      · refine Finset.card_image_le.trans ?_
        rw [Finset.card_product, Finset.card_univ, Fintype.card_fun, Fintype.card_fin, mul_comm]
        exact Nat.mul_le_mul_left _ (h [] (by simp))
      · refine Finset.card_biUnion_le.trans (Finset.sum_le_sum fun a _ => ?_)
        rw [Nat.card_eq_fintype_card, Fintype.card_subtype]
        exact Finset.card_image_le
    calc Fintype.card F * Nat.card {coins : Fin (m + 1) → F // ∃ t : Fin (m + 1), coins t ∈ S ((List.ofFn coins).take t)}
        ≤ Fintype.card F * (Fintype.card F ^ m * b +
          ∑ a : F, Nat.card {coins : Fin m → F // ∃ t : Fin m, coins t ∈ S (a :: (List.ofFn coins).take t)}) :=
          Nat.mul_le_mul_left _ e
      _ = b * Fintype.card F ^ (m + 1) + ∑ a : F, Fintype.card F *
          Nat.card {coins : Fin m → F // ∃ t : Fin m, coins t ∈ S (a :: (List.ofFn coins).take t)} := by
          rw [mul_add, Finset.mul_sum]; ring
      _ ≤ b * Fintype.card F ^ (m + 1) + ∑ _a : F, m * b * Fintype.card F ^ m :=
          Nat.add_le_add_left (Finset.sum_le_sum fun a _ => ih a) _
      _ = (m + 1) * b * Fintype.card F ^ (m + 1) := by
          rw [Finset.sum_const_nat (fun _ _ => rfl), Finset.card_univ]; ring

end Dusk.Oracle
