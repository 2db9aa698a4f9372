import Verif.Lemmas.RPLucky
/-!
# An accepted proof after unlucky answers only
-/

set_option linter.unusedSectionVars false

namespace Dusk.RP

open RPFold

variable {F G : Type} [Field F] [AddCommGroup G] [Module F G] [DecidableEq F] [Fintype F]

theorem exists_last (P : Nat → Prop) : ∀ k : Nat, ∃ J ≤ k, (∀ j < k, P j → j < J) ∧ (J = 0 ∨ P (J - 1))
  | 0 => ⟨0, le_rfl, fun j hj => absurd hj (by omega), .inl rfl⟩
  | k + 1 => by
    by_cases h : P k
    · exact ⟨k + 1, le_rfl, fun j hj _ => hj, .inr h⟩
    · obtain ⟨J, hJ, h1, h2⟩ := exists_last P k
      refine ⟨J, by omega, fun j hj hp => ?_, h2⟩
      rcases Nat.lt_or_ge j k with hc | hc
      · exact h1 j hc hp
      · exact absurd (show P k by rwa [show k = j by omega]) h

theorem blocks_of_flat {bs : List Bytes} (h : Len32 bs) : blocks bs.flatten = bs := by
  unfold blocks
  rw [flat_length h, Nat.mul_div_cancel_left _ (by norm_num)]
  refine List.ext_getElem (by simp) fun i h1 h2 => ?_
  rw [List.getElem_map, List.getElem_range, blk_flat h h2]

theorem len32_take {bs : List Bytes} (h : Len32 bs) (r : Nat) : Len32 (bs.take r) := fun b hb => h b (List.mem_of_mem_take hb)

theorem blk_flat_take {bs : List Bytes} (h : Len32 bs) {r i : Nat} (hi : i < r) (hi' : i < bs.length) :
    blk (bs.take r).flatten i = blk bs.flatten i := by
  rw [blk_flat (len32_take h r) (by simp; omega), blk_flat h hi', List.getElem_take]

/-- The equations of the proof when the coefficients are those given in the game. -/
def finalPts (A : AlgProver F G) (R : Ristretto F G) (log : Oracle.Log F) (p : Proof F G) : Pts F :=
  ptsOf (A.coef log) (strW R log.hash p) 9 (blocksU R (p.inner.L.zip p.inner.R)).flatten

def statAt (R : Ristretto F G) (h : Bytes → F) (p : Proof F G) (k : Nat) (log : Oracle.Log F) : Stat F where
  X := log.lookup (strX R h p)
  W := log.lookup (strW R h p)
  U j := if j < k then log.lookup (strU R p.inner j) else none

section unwind

variable {A : AlgProver F G} {R : Ristretto F G} {next : Oracle.Log F → Bytes} {l : List F} {p : Proof F G} {m k : Nat}

/-- All strings of the transcript have been asked for, and no answer was lucky. -/
structure Played (A : AlgProver F G) (R : Ristretto F G) (next : Oracle.Log F → Bytes) (l : List F) (p : Proof F G) (m k : Nat) : Prop where
  y : ∃ a, (Oracle.play next l).lookup (strY R p) = some a
  z : ∃ a, (Oracle.play next l).lookup (R.sBytes ((Oracle.play next l).hash (strY R p))) = some a
  x : ∃ a, (Oracle.play next l).lookup (strX R (Oracle.play next l).hash p) = some a
  w : ∃ a, (Oracle.play next l).lookup (strW R (Oracle.play next l).hash p) = some a
  u : ∀ j < k, ∃ a, (Oracle.play next l).lookup (strU R p.inner j) = some a
  len : m ≤ p.V.length
  rounds : (p.inner.L.zip p.inner.R).length = k
  unlucky : ∀ t < l.length, l.getD t 0 ∉ lucky A R m k (Oracle.play next (l.take t)) (next (Oracle.play next (l.take t)))

theorem not_guess {t : Nat} (hp : Played A R next l p m k) (ht : t < l.length) {s : Bytes} {c : Nat}
    (hs : s ∈ askedIn (Oracle.play next (l.take t)) (next (Oracle.play next (l.take t)))) (hc : c ∈ ({1, 3, 4} : Finset Nat)) :
    R.sBytes (l.getD t 0) ≠ blk s (s.length / 32 - c) := by
  intro h
  refine hp.unlucky t ht ?_
  unfold lucky
  refine Finset.mem_union_right _ (Finset.mem_union_left _ ?_)
  exact Finset.mem_biUnion.2 ⟨s, List.mem_toFinset.2 hs, Finset.mem_biUnion.2 ⟨c, hc, Finset.mem_filter.2 ⟨Finset.mem_univ _, h⟩⟩⟩

theorem not_special {t : Nat} (hp : Played A R next l p m k) (ht : t < l.length) : l.getD t 0 ≠ 0 ∧ l.getD t 0 ^ 2 ≠ 1 := by
  have h := hp.unlucky t ht
  unfold lucky at h
  have h : l.getD t 0 ∉ ({0, 1, -1} : Finset F) := fun hc => h (Finset.mem_union_left _ hc)
  simp only [Finset.mem_insert, Finset.mem_singleton, not_or] at h
  refine ⟨h.1, fun hc => ?_⟩
  have h' : (l.getD t 0 - 1) * (l.getD t 0 + 1) = 0 := by linear_combination hc
  rcases mul_eq_zero.1 h' with h' | h'
  · exact h.2.1 (sub_eq_zero.1 h')
  · exact h.2.2 (eq_neg_of_add_eq_zero_left h')

theorem unlucky_cand {t : Nat} (hp : Played A R next l p m k) (ht : t < l.length) {s s' : Bytes} {kd : Nat}
    (hs : s ∈ askedIn (Oracle.play next (l.take t)) (next (Oracle.play next (l.take t)))) (hkd : kd ∈ ({2, 5, 9} : Finset Nat))
    (hs' : s' = [] ∨ s' ∈ askedIn (Oracle.play next (l.take t)) (next (Oracle.play next (l.take t)))) {y z : F}
    (hy : (Oracle.play next (l.take t)).hash (pre s kd 2) = y) (hz : (Oracle.play next (l.take t)).hash (R.sBytes y) = z) :
    let log := Oracle.play next (l.take t)
    let P := ptsOf (A.coefAt log (next log)) s kd s'
    let st := statOf log s kd s'
    Good (lin m P y z) st (64 * m) k (roleOf (next log) s kd s') (l.getD t 0) ∧ GoodZ P st m k y (l.getD t 0) ∧ GoodY P m (l.getD t 0) := by
  intro log P st
  have h := hp.unlucky t ht
  unfold lucky at h
  have hc : (s, kd, s') ∈ cands log (next log) := by
    unfold cands
    refine Finset.mem_product.2 ⟨List.mem_toFinset.2 hs, Finset.mem_product.2 ⟨hkd, List.mem_toFinset.2 ?_⟩⟩
    exact List.mem_cons.2 hs'
  have h : l.getD t 0 ∉ stepBad (lin m P y z) st (64 * m) k (roleOf (next log) s kd s') ∪ (zBad P st m k y ∪ yBad P m) := by
    intro hc'
    refine h (Finset.mem_union_right _ (Finset.mem_union_right _ (Finset.mem_biUnion.2 ⟨_, hc, ?_⟩)))
    dsimp only
    rw [hy, hz]
    exact hc'
  rw [Finset.mem_union, Finset.mem_union, not_or, not_or] at h
  exact ⟨good_of_stepBad (not_special hp ht).1 h.1, goodZ_of_zBad h.2.1, goodY_of_yBad h.2.2⟩

theorem FirstAt.hash_at {s : Bytes} {t τ : Nat} (h : FirstAt next l s t) (hτ : t < τ) :
    (Oracle.play next (l.take τ)).hash s = (Oracle.play next l).hash s := by
  have := h.lookup τ
  rw [if_pos hτ] at this
  rw [Oracle.Log.hash, this]
  rfl

/-- The question at `τ` is asked for the first time. -/
theorem FirstAt.fresh {s : Bytes} {t τ : Nat} (h : FirstAt next l s t) (hτ : τ < l.length)
    (hf : (Oracle.play next (l.take τ)).lookup (next (Oracle.play next (l.take τ))) = none)
    (hs : next (Oracle.play next (l.take τ)) = s) : t = τ := by
  rw [hs] at hf
  have h1 := h.lookup τ
  rw [hf] at h1
  have h2 := h.lookup (τ + 1)
  rw [List.take_succ_eq_append_getElem hτ, Oracle.play_snoc, Oracle.Log.ask, hs, hf, List.lookup_append, hf] at h2
  simp only [Option.none_or, List.lookup_cons, beq_self_eq_true, Option.getD_none] at h2
  split at h1
  · cases h1
  · split at h2
    · omega
    · cases h2

theorem FirstAt.ne_of_old {s : Bytes} {t τ : Nat} (h : FirstAt next l s t) {a : F}
    (hf : (Oracle.play next (l.take τ)).lookup (next (Oracle.play next (l.take τ))) = some a) : t ≠ τ := by
  rintro rfl
  have := h.lookup t
  rw [if_neg (lt_irrefl _), h.asked, hf] at this
  cases this

theorem FirstAt.lookup_same {s : Bytes} {t τ : Nat} (h : FirstAt next l s t) (hne : t ≠ τ) :
    (Oracle.play next (l.take (τ + 1))).lookup s = (Oracle.play next (l.take τ)).lookup s := by
  rw [h.lookup, h.lookup]
  by_cases hc : t < τ
  · rw [if_pos hc, if_pos (by omega)]
  · rw [if_neg hc, if_neg (by omega)]

theorem FirstAt.lookup_new {s : Bytes} {t : Nat} (h : FirstAt next l s t) :
    (Oracle.play next (l.take (t + 1))).lookup s = some (l.getD t 0) := by
  rw [h.lookup, if_pos (by omega), h.answer]

theorem blocksW_take (R : Ristretto F G) (h : Bytes → F) (p : Proof F G) :
    ((blocksW R h p).take (p.V.length + 9)).flatten = strW R h p ∧ ((blocksW R h p).take (p.V.length + 5)).flatten = strX R h p ∧
    ((blocksW R h p).take (p.V.length + 2)).flatten = strY R p := by
  refine ⟨?_, ?_, ?_⟩
  · rw [List.take_of_length_le (by rw [blocksW_length]), strW_eq]
  · rw [blocksW, List.take_append_of_le_length (by rw [blocksX_length]), List.take_of_length_le (by rw [blocksX_length]), strX_eq]
  · rw [blocksW, blocksX, List.append_assoc, List.take_append_of_le_length (by rw [blocksY_length]),
      List.take_of_length_le (by rw [blocksY_length]), strY_eq]

/-- The times of the first questions, in order. -/
structure Times (R : Ristretto F G) (next : Oracle.Log F → Bytes) (l : List F) (p : Proof F G) (k : Nat) (ty tz tx tw : Nat)
    (tu : Nat → Nat) : Prop where
  y : FirstAt next l (strY R p) ty
  z : FirstAt next l (R.sBytes ((Oracle.play next l).hash (strY R p))) tz
  x : FirstAt next l (strX R (Oracle.play next l).hash p) tx
  w : FirstAt next l (strW R (Oracle.play next l).hash p) tw
  u : ∀ j < k, FirstAt next l (strU R p.inner j) (tu j)
  yz : ty < tz
  zx : tz < tx
  xw : tx < tw

theorem Played.times (E : R.Encodings) (hp : Played A R next l p m k) : ∃ ty tz tx tw tu, Times R next l p k ty tz tx tw tu := by
  obtain ⟨ty, hy⟩ := firstAt next l _ _ hp.y.choose_spec
  obtain ⟨tz, hz⟩ := firstAt next l _ _ hp.z.choose_spec
  obtain ⟨tx, hx⟩ := firstAt next l _ _ hp.x.choose_spec
  obtain ⟨tw, hw⟩ := firstAt next l _ _ hp.w.choose_spec
  have hu : ∀ j, ∃ t, j < k → FirstAt next l (strU R p.inner j) t := by
    intro j
    by_cases hj : j < k
    · obtain ⟨t, ht⟩ := firstAt next l _ _ (hp.u j hj).choose_spec
      exact ⟨t, fun _ => ht⟩
    · exact ⟨0, fun h => absurd h hj⟩
  choose tu hu using hu
  set H := (Oracle.play next l).hash with hH
  have hXl := flat_length (len32X E H p)
  have hWl := flat_length (len32W E H p)
  rw [← strX_eq, blocksX_length] at hXl
  rw [← strW_eq, blocksW_length] at hWl
  refine ⟨ty, tz, tx, tw, tu, hy, hz, hx, hw, hu, ?_, ?_, ?_⟩
  · by_contra hc
    refine not_guess hp hy.lt (hz.mem (not_lt.1 hc)) (c := 1) (by decide) ?_
    rw [E.sBytes_length, ← hy.answer, ← hH]
    simp [blk, E.sBytes_length]
  · by_contra hc
    refine not_guess hp hz.lt (hx.mem (not_lt.1 hc)) (c := 3) (by decide) ?_
    rw [hXl, ← hz.answer, ← hH, strX_eq, show 32 * (p.V.length + 5) / 32 - 3 = p.V.length + 2 by omega,
      blk_flat (len32X E H p) (by rw [blocksX_length]; omega)]
    unfold blocksX
    rw [List.getElem_append_right (by rw [blocksY_length])]
    simp [blocksY_length]
  · by_contra hc
    refine not_guess hp hx.lt (hw.mem (not_lt.1 hc)) (c := 4) (by decide) ?_
    rw [hWl, ← hx.answer, ← hH, strW_eq, show 32 * (p.V.length + 9) / 32 - 4 = p.V.length + 5 by omega,
      blk_flat (len32W E H p) (by rw [blocksW_length]; omega)]
    unfold blocksW
    rw [List.getElem_append_right (by rw [blocksX_length])]
    simp [blocksX_length]

/-- What two readings of the questions have in common. -/
structure Agree (P P' : Pts F) (m k : Nat) (st : Stat F) : Prop where
  V : ∀ j < m, P.V j = P'.V j
  A : P.A = P'.A
  S : P.S = P'.S
  T : st.X ≠ none → P.T1 = P'.T1 ∧ P.T2 = P'.T2
  U : ∀ j < k, st.U j ≠ none → P.L j = P'.L j ∧ P.R j = P'.R j

theorem Agree.inv {P P' : Pts F} {st : Stat F} {n : Nat} {y z : F} (h : Agree P P' m k st) (hi : Inv (lin m P y z) st n k) :
    Inv (lin m P' y z) st n k := by
  refine hi.congr ?_ ?_ ?_ ?_ ?_ ?_ ?_ ?_ ?_ ?_ ?_
  · simp only [lin, h.A]
  · simp only [lin, h.A]
  · simp only [lin, h.S]
  · simp only [lin, h.S]
  · intro j hj hU
    obtain ⟨h1, h2⟩ := h.U j hj hU
    simp only [lin, h1, h2, and_self]
  · simp only [lin, h.A]
  · simp only [lin, h.S]
  · simp only [lin]
    congr 1
    exact Finset.sum_congr rfl fun j hj => by rw [h.V j (Finset.mem_range.1 hj)]
  · simp only [lin]
    exact funext fun i => Finset.sum_congr rfl fun j hj => by rw [h.V j (Finset.mem_range.1 hj)]
  · simp only [lin]
    exact funext fun i => Finset.sum_congr rfl fun j hj => by rw [h.V j (Finset.mem_range.1 hj)]
  · intro hX
    obtain ⟨h1, h2⟩ := h.T hX
    simp only [lin, h1, h2, and_self]

theorem Agree.symm {P P' : Pts F} {st : Stat F} (h : Agree P P' m k st) : Agree P' P m k st :=
  ⟨fun j hj => (h.V j hj).symm, h.A.symm, h.S.symm, fun hX => ⟨(h.T hX).1.symm, (h.T hX).2.symm⟩,
    fun j hj hU => ⟨(h.U j hj hU).1.symm, (h.U j hj hU).2.symm⟩⟩

/-- The questions up to `τ` determine the equations for the challenges asked for up to `τ`. -/
structure Reading (A : AlgProver F G) (R : Ristretto F G) (next : Oracle.Log F → Bytes) (l : List F) (p : Proof F G) (m k τ : Nat)
    (s : Bytes) (kd : Nat) (s' : Bytes) : Prop where
  mem : s ∈ askedIn (Oracle.play next (l.take τ)) (next (Oracle.play next (l.take τ)))
  kind : kd ∈ ({2, 5, 9} : Finset Nat)
  mem' : s' = [] ∨ s' ∈ askedIn (Oracle.play next (l.take τ)) (next (Oracle.play next (l.take τ)))
  strY : pre s kd 2 = strY R p
  stat : statOf (Oracle.play next (l.take τ)) s kd s' = statAt R (Oracle.play next l).hash p k (Oracle.play next (l.take τ))
  put : (Oracle.play next (l.take τ)).lookup (next (Oracle.play next (l.take τ))) = none →
    (statAt R (Oracle.play next l).hash p k (Oracle.play next (l.take τ))).put (roleOf (next (Oracle.play next (l.take τ))) s kd s')
      (l.getD τ 0) = statAt R (Oracle.play next l).hash p k (Oracle.play next (l.take (τ + 1))) ∧
    (roleOf (next (Oracle.play next (l.take τ))) s kd s').Fresh
      (statAt R (Oracle.play next l).hash p k (Oracle.play next (l.take τ))) k
  agree : Agree (finalPts A R (Oracle.play next l) p)
    (ptsOf (A.coefAt (Oracle.play next (l.take τ)) (next (Oracle.play next (l.take τ)))) s kd s') m k
    (statAt R (Oracle.play next l).hash p k (Oracle.play next (l.take (τ + 1))))

theorem exists_reading (E : R.Encodings) (hp : Played A R next l p m k) {ty tz tx tw : Nat} {tu : Nat → Nat}
    (ht : Times R next l p k ty tz tx tw tu) {τ : Nat} (hτ : ty ≤ τ) (hl : τ < l.length) :
    ∃ s kd s', Reading A R next l p m k τ s kd s' := by
  set H := (Oracle.play next l).hash with hH
  obtain ⟨hW9, hW5, hW2⟩ := blocksW_take R H p
  have hWL := len32W E H p
  have hWlen := blocksW_length R H p
  -- how much of the transcript is known
  obtain ⟨kd, hkd, hmem, hkx, hkw⟩ : ∃ kd, kd ∈ ({2, 5, 9} : Finset Nat) ∧
      ((blocksW R H p).take (p.V.length + kd)).flatten ∈ askedIn (Oracle.play next (l.take τ)) (next (Oracle.play next (l.take τ))) ∧
      (5 ≤ kd ↔ tx ≤ τ) ∧ (9 ≤ kd ↔ tw ≤ τ) := by
    by_cases hw : tw ≤ τ
    · exact ⟨9, by decide, by rw [hW9]; exact ht.w.mem hw, by have := ht.xw; simp; omega, by simp [hw]⟩
    · by_cases hx : tx ≤ τ
      · exact ⟨5, by decide, by rw [hW5]; exact ht.x.mem hx, by simp [hx], by simp [hw]⟩
      · exact ⟨2, by decide, by rw [hW2]; exact ht.y.mem hτ, by simp [hx], by simp [hw]⟩
  have hkd29 : 2 ≤ kd ∧ kd ≤ 9 := by
    simp only [Finset.mem_insert, Finset.mem_singleton] at hkd
    omega
  obtain ⟨J, hJk, hJ1, hJ2⟩ := exists_last (fun j => j < k ∧ tu j ≤ τ) k
  set BU := blocksU R (p.inner.L.zip p.inner.R) with hBU
  have hUL : Len32 BU := len32U E _
  have hUlen : BU.length = 2 * k := by rw [hBU, blocksU_length, hp.rounds]
  set s := ((blocksW R H p).take (p.V.length + kd)).flatten with hs
  set s' := (BU.take (2 * J)).flatten with hs'
  have hsl : s.length = 32 * (p.V.length + kd) := by
    rw [hs, flat_length (len32_take hWL _), List.length_take, hWlen, Nat.min_eq_left (by omega)]
  have hsl' : s'.length = 32 * (2 * J) := by
    rw [hs', flat_length (len32_take hUL _), List.length_take, hUlen, Nat.min_eq_left (by omega)]
  have hnV : nV s kd = p.V.length := by
    unfold nV
    rw [hsl]
    omega
  have hpre : ∀ r ≤ kd, pre s kd r = ((blocksW R H p).take (p.V.length + r)).flatten := by
    intro r hr
    unfold pre
    rw [hnV, hs, flat_take (len32_take hWL _), List.take_take, Nat.min_eq_left (by omega)]
  have hupre : ∀ j < J, upre s' j = strU R p.inner j := by
    intro j hj
    unfold upre
    rw [hs', flat_take (len32_take hUL _), List.take_take, Nat.min_eq_left (by omega), strU_eq]
  have hstrU : ∀ j < k, (strU R p.inner j).length = 64 * (j + 1) := by
    intro j hj
    rw [strU_eq, flat_length (len32_take hUL _), List.length_take, hUlen, Nat.min_eq_left (by omega)]
    ring
  have hmem' : s' = [] ∨ s' ∈ askedIn (Oracle.play next (l.take τ)) (next (Oracle.play next (l.take τ))) := by
    rcases hJ2 with h0 | ⟨h1, h2⟩
    · left; rw [hs', h0]; simp
    · rcases Nat.eq_zero_or_pos J with h0 | h0
      · left; rw [hs', h0]; simp
      · right
        have : s' = strU R p.inner (J - 1) := by rw [strU_eq, hs', show J - 1 + 1 = J by omega]
        rw [this]
        exact (ht.u _ h1).mem h2
  have hJu : ∀ j < k, tu j ≤ τ → j < J := fun j hj h => hJ1 j hj ⟨hj, h⟩
  refine ⟨s, kd, s', hmem, hkd, hmem', by rw [hpre 2 hkd29.1, hW2], ?_, ?_, ?_⟩
  · -- the challenges known
    unfold statOf statAt
    have e1 : (if 5 ≤ kd then (Oracle.play next (l.take τ)).lookup (pre s kd 5) else none) =
        (Oracle.play next (l.take τ)).lookup (strX R H p) := by
      split
      · rename_i h; rw [hpre 5 h, hW5]
      · rename_i h
        rw [hkx] at h
        rw [ht.x.lookup, if_neg (by omega)]
    have e2 : (if 9 ≤ kd then (Oracle.play next (l.take τ)).lookup (pre s kd 9) else none) =
        (Oracle.play next (l.take τ)).lookup (strW R H p) := by
      split
      · rename_i h; rw [hpre 9 h, hW9]
      · rename_i h
        rw [hkw] at h
        rw [ht.w.lookup, if_neg (by omega)]
    rw [e1, e2]
    congr 1
    funext j
    rw [hsl']
    by_cases hj : j < J
    · rw [if_pos (by omega), if_pos (by omega), hupre j hj]
    · rw [if_neg (by omega)]
      split
      · rename_i hjk
        have : ¬ tu j < τ := fun h => hj (hJu j hjk h.le)
        rw [(ht.u j hjk).lookup, if_neg this]
      · rfl
  · -- the new answer
    intro hf
    set q := next (Oracle.play next (l.take τ)) with hq
    have hX : (roleOf q s kd s').x = true ↔ tx = τ := by
      simp only [roleOf, decide_eq_true_eq]
      constructor
      · rintro ⟨h1, h2⟩
        rw [hpre 5 h1, hW5] at h2
        exact ht.x.fresh hl hf h2
      · rintro rfl
        have h5 := hkx.2 le_rfl
        exact ⟨h5, by rw [hpre 5 h5, hW5]; exact ht.x.asked.symm⟩
    have hWr : (roleOf q s kd s').w = true ↔ tw = τ := by
      simp only [roleOf, decide_eq_true_eq]
      constructor
      · rintro ⟨h1, h2⟩
        rw [hpre 9 h1, hW9] at h2
        exact ht.w.fresh hl hf h2
      · rintro rfl
        have h9 := hkw.2 le_rfl
        exact ⟨h9, by rw [hpre 9 h9, hW9]; exact ht.w.asked.symm⟩
    have hUr : ∀ j, (roleOf q s kd s').u = some j ↔ j < k ∧ tu j = τ := by
      intro j
      simp only [roleOf]
      constructor
      · intro h
        split at h
        · rename_i hc
          obtain ⟨h1, h2, h3⟩ := hc
          have hj : q.length / 64 - 1 = j := Option.some.inj h
          rw [hj] at h2 h3
          have hjJ : j < J := by rw [hsl'] at h2; omega
          rw [hupre j hjJ] at h3
          exact ⟨by omega, (ht.u j (by omega)).fresh hl hf h3⟩
        · cases h
      · rintro ⟨hj, hjt⟩
        have hjJ := hJu j hj hjt.le
        have hqj : q = strU R p.inner j := by
          have := (ht.u j hj).asked
          rw [hjt] at this
          exact this.symm
        have hql : q.length / 64 - 1 = j := by rw [hqj, hstrU j hj]; omega
        rw [if_pos, hql]
        rw [hql]
        refine ⟨by rw [hqj, hstrU j hj]; omega, by rw [hsl']; omega, ?_⟩
        rw [hupre j hjJ, hqj]
    constructor
    · unfold Stat.put statAt
      have e1 : (if (roleOf q s kd s').x = true then some (l.getD τ 0) else (Oracle.play next (l.take τ)).lookup (strX R H p)) =
          (Oracle.play next (l.take (τ + 1))).lookup (strX R H p) := by
        by_cases h : tx = τ
        · rw [if_pos (hX.2 h), ← h]; exact ht.x.lookup_new.symm
        · rw [if_neg (fun hc => h (hX.1 hc))]; exact (ht.x.lookup_same h).symm
      have e2 : (if (roleOf q s kd s').w = true then some (l.getD τ 0) else (Oracle.play next (l.take τ)).lookup (strW R H p)) =
          (Oracle.play next (l.take (τ + 1))).lookup (strW R H p) := by
        by_cases h : tw = τ
        · rw [if_pos (hWr.2 h), ← h]; exact ht.w.lookup_new.symm
        · rw [if_neg (fun hc => h (hWr.1 hc))]; exact (ht.w.lookup_same h).symm
      rw [e1, e2]
      congr 1
      funext j
      dsimp only
      by_cases hj : j < k
      · rw [if_pos hj, if_pos hj]
        by_cases h : tu j = τ
        · rw [if_pos ((hUr j).2 ⟨hj, h⟩), ← h]; exact (ht.u j hj).lookup_new.symm
        · rw [if_neg (fun hc => h ((hUr j).1 hc).2)]; exact ((ht.u j hj).lookup_same h).symm
      · rw [if_neg hj, if_neg hj, if_neg (fun hc => hj ((hUr j).1 hc).1)]
    · refine ⟨fun h => ?_, fun h => ?_, fun j h => ?_, fun h => ?_⟩
      · have h := hX.1 h
        show (Oracle.play next (l.take τ)).lookup (strX R H p) = none
        rw [ht.x.lookup, if_neg (by omega)]
      · have h := hWr.1 h
        show (Oracle.play next (l.take τ)).lookup (strW R H p) = none
        rw [ht.w.lookup, if_neg (by omega)]
      · obtain ⟨hj, hjt⟩ := (hUr j).1 h
        refine ⟨hj, ?_⟩
        show (if j < k then (Oracle.play next (l.take τ)).lookup (strU R p.inner j) else none) = none
        rw [if_pos hj, (ht.u j hj).lookup, if_neg (by omega)]
      · have h := hX.1 h
        cases hc : (roleOf q s kd s').w with
        | false => rfl
        | true =>
          have := hWr.1 hc
          have := ht.xw
          omega
  · -- the coefficients
    have hcoef : ∀ b ∈ blocks s, A.coef (Oracle.play next l) b =
        A.coefAt (Oracle.play next (l.take τ)) (next (Oracle.play next (l.take τ))) b := fun b hb => coef_stable A next l hl hmem hb
    have hcoef' : ∀ b ∈ blocks s', A.coef (Oracle.play next l) b =
        A.coefAt (Oracle.play next (l.take τ)) (next (Oracle.play next (l.take τ))) b := by
      intro b hb
      rcases hmem' with h0 | hm
      · rw [h0] at hb; simp [blocks] at hb
      · exact coef_stable A next l hl hm hb
    have hW9' : strW R H p = (blocksW R H p).flatten := strW_eq R H p
    have hnW : nV (strW R H p) 9 = p.V.length := by
      unfold nV
      rw [hW9', flat_length hWL, hWlen]
      omega
    have key : ∀ i < p.V.length + kd, A.coef (Oracle.play next l) (blk (strW R H p) i) =
        A.coefAt (Oracle.play next (l.take τ)) (next (Oracle.play next (l.take τ))) (blk s i) := by
      intro i hi
      have hb : blk s i = blk (strW R H p) i := by
        rw [hs, hW9']
        exact blk_flat_take hWL hi (by omega)
      rw [← hb]
      refine hcoef _ ?_
      unfold blocks
      exact List.mem_map.2 ⟨i, List.mem_range.2 (by rw [hsl]; omega), rfl⟩
    have key' : ∀ i < 2 * J, A.coef (Oracle.play next l) (blk BU.flatten i) =
        A.coefAt (Oracle.play next (l.take τ)) (next (Oracle.play next (l.take τ))) (blk s' i) := by
      intro i hi
      have hb : blk s' i = blk BU.flatten i := by
        rw [hs']
        exact blk_flat_take hUL hi (by omega)
      rw [← hb]
      refine hcoef' _ ?_
      unfold blocks
      exact List.mem_map.2 ⟨i, List.mem_range.2 (by rw [hsl']; omega), rfl⟩
    have hlen := hp.len
    refine ⟨fun j hj => key j (by omega), ?_, ?_, fun hX => ?_, fun j hj hU => ?_⟩
    · show A.coef _ (blk (strW R H p) (nV (strW R H p) 9)) = A.coefAt _ _ (blk s (nV s kd))
      rw [hnW, hnV]
      exact key _ (by omega)
    · show A.coef _ (blk (strW R H p) (nV (strW R H p) 9 + 1)) = A.coefAt _ _ (blk s (nV s kd + 1))
      rw [hnW, hnV]
      exact key _ (by omega)
    · have hx : tx ≤ τ := by
        by_contra hc
        apply hX
        show (Oracle.play next (l.take (τ + 1))).lookup (strX R H p) = none
        rw [ht.x.lookup, if_neg (by omega)]
      have h5 := hkx.2 hx
      constructor
      · show A.coef _ (blk (strW R H p) (nV (strW R H p) 9 + 3)) = A.coefAt _ _ (blk s (nV s kd + 3))
        rw [hnW, hnV]
        exact key _ (by omega)
      · show A.coef _ (blk (strW R H p) (nV (strW R H p) 9 + 4)) = A.coefAt _ _ (blk s (nV s kd + 4))
        rw [hnW, hnV]
        exact key _ (by omega)
    · have hx : tu j ≤ τ := by
        by_contra hc
        apply hU
        show (if j < k then (Oracle.play next (l.take (τ + 1))).lookup (strU R p.inner j) else none) = none
        rw [if_pos hj, (ht.u j hj).lookup, if_neg (by omega)]
      have hjJ := hJu j hj hx
      exact ⟨key' _ (by omega), key' _ (by omega)⟩

theorem unwind_step (h2 : (2 : F) ≠ 0) (E : R.Encodings) (hp : Played A R next l p m k) {ty tz tx tw : Nat} {tu : Nat → Nat}
    (ht : Times R next l p k ty tz tx tw tu) (hn : 64 * m = 2 ^ k) {τ : Nat} (hτ : tz < τ) (hl : τ < l.length) :
    let H := (Oracle.play next l).hash
    let d := lin m (finalPts A R (Oracle.play next l) p) (H (strY R p)) (H (R.sBytes (H (strY R p))))
    Inv d (statAt R H p k (Oracle.play next (l.take (τ + 1)))) (64 * m) k →
      Inv d (statAt R H p k (Oracle.play next (l.take τ))) (64 * m) k := by
  intro H d hi
  cases hf : (Oracle.play next (l.take τ)).lookup (next (Oracle.play next (l.take τ))) with
  | some a =>
    have : statAt R H p k (Oracle.play next (l.take τ)) = statAt R H p k (Oracle.play next (l.take (τ + 1))) := by
      unfold statAt
      rw [ht.x.lookup_same (ht.x.ne_of_old hf), ht.w.lookup_same (ht.w.ne_of_old hf)]
      congr 1
      funext j
      split
      · rename_i hj
        rw [(ht.u j hj).lookup_same ((ht.u j hj).ne_of_old hf)]
      · rfl
    rw [this]
    exact hi
  | none =>
    have hyz := ht.yz
    obtain ⟨s, kd, s', hr⟩ := exists_reading E hp ht (hyz.le.trans hτ.le) hl
    obtain ⟨hput, hfresh⟩ := hr.put hf
    have hy : (Oracle.play next (l.take τ)).hash (pre s kd 2) = H (strY R p) := by
      rw [hr.strY]
      exact ht.y.hash_at (by omega)
    have hz : (Oracle.play next (l.take τ)).hash (R.sBytes (H (strY R p))) = H (R.sBytes (H (strY R p))) := ht.z.hash_at hτ
    obtain ⟨hg, -, -⟩ := unlucky_cand hp hl hr.mem hr.kind hr.mem' hy hz
    rw [hr.stat] at hg
    have hi' := hr.agree.inv hi
    rw [← hput] at hi'
    have hi'' := Inv.back h2 hfresh hg hn hi'
    refine Agree.inv (Agree.symm ?_) hi''
    -- the answers known before are known after
    have ha := hr.agree
    refine ⟨ha.V, ha.A, ha.S, fun hX => ha.T ?_, fun j hj hU => ha.U j hj ?_⟩
    · intro hc
      apply hX
      change (Oracle.play next (l.take (τ + 1))).lookup (strX R H p) = none at hc
      change (Oracle.play next (l.take τ)).lookup (strX R H p) = none
      rw [ht.x.lookup] at hc ⊢
      split at hc
      · cases hc
      · rw [if_neg (by omega)]
    · intro hc
      apply hU
      change (if j < k then (Oracle.play next (l.take (τ + 1))).lookup (strU R p.inner j) else none) = none at hc
      change (if j < k then (Oracle.play next (l.take τ)).lookup (strU R p.inner j) else none) = none
      rw [if_pos hj, (ht.u j hj).lookup] at hc
      rw [if_pos hj, (ht.u j hj).lookup]
      split at hc
      · cases hc
      · rw [if_neg (by omega)]

/-- If the equations hold with all challenges and no answer was lucky, the coefficients of the commitments are openings. -/
theorem Played.opened (h2 : (2 : F) ≠ 0) (E : R.Encodings) (hp : Played A R next l p m k) (hn : 64 * m = 2 ^ k)
    (hi : let H := (Oracle.play next l).hash
      Inv (lin m (finalPts A R (Oracle.play next l) p) (H (strY R p)) (H (R.sBytes (H (strY R p)))))
        (statAt R H p k (Oracle.play next l)) (64 * m) k) :
    Opened (finalPts A R (Oracle.play next l) p) m := by
  obtain ⟨ty, tz, tx, tw, tu, ht⟩ := hp.times E
  set H := (Oracle.play next l).hash with hH
  set d := lin m (finalPts A R (Oracle.play next l) p) (H (strY R p)) (H (R.sBytes (H (strY R p)))) with hd
  have hyz := ht.yz
  have hzx := ht.zx
  have hxw := ht.xw
  have key : ∀ i, i + (tz + 1) ≤ l.length → Inv d (statAt R H p k (Oracle.play next (l.take (l.length - i)))) (64 * m) k := by
    intro i
    induction i with
    | zero =>
      intro _
      rw [Nat.sub_zero, List.take_length]
      exact hi
    | succ i ih =>
      intro h
      have h1 := ih (by omega)
      have := unwind_step h2 E hp ht hn (τ := l.length - (i + 1)) (by omega) (by omega)
      rw [show l.length - (i + 1) + 1 = l.length - i by omega] at this
      exact this h1
  have hzl := ht.z.lt
  have hiz := key (l.length - (tz + 1)) (by omega)
  rw [show l.length - (l.length - (tz + 1)) = tz + 1 by omega] at hiz
  obtain ⟨s, kd, s', hr⟩ := exists_reading E hp ht hyz.le hzl
  have hy : (Oracle.play next (l.take tz)).hash (pre s kd 2) = H (strY R p) := by
    rw [hr.strY]
    exact ht.y.hash_at hyz
  obtain ⟨-, hg, -⟩ := unlucky_cand hp hzl hr.mem hr.kind hr.mem' hy rfl
  have hu : ∀ j < k, tu j ≠ tz := by
    intro j hj hc
    have h1 := (ht.u j hj).asked
    rw [hc, ← ht.z.asked] at h1
    have h2 := congrArg List.length h1
    rw [E.sBytes_length, strU_eq, flat_length (len32_take (len32U E _) _), List.length_take, blocksU_length] at h2
    have := hp.rounds
    omega
  have hsame : statAt R H p k (Oracle.play next (l.take (tz + 1))) = statAt R H p k (Oracle.play next (l.take tz)) := by
    unfold statAt
    rw [ht.x.lookup_same (by omega), ht.w.lookup_same (by omega)]
    congr 1
    funext j
    split
    · rename_i hj
      rw [(ht.u j hj).lookup_same (hu j hj)]
    · rfl
  have hz : l.getD tz 0 = H (R.sBytes (H (strY R p))) := ht.z.answer.symm
  rw [hr.stat, hz] at hg
  have hiz' := hr.agree.inv hiz
  rw [hsame] at hiz'
  have haz := hiz'.afterZ hn ?_ ?_ ?_ hg
  rotate_left
  · show (Oracle.play next (l.take tz)).lookup (strX R H p) = none
    rw [ht.x.lookup, if_neg (by omega)]
  · show (Oracle.play next (l.take tz)).lookup (strW R H p) = none
    rw [ht.w.lookup, if_neg (by omega)]
  · intro j hj u hju
    change (if j < k then (Oracle.play next (l.take tz)).lookup (strU R p.inner j) else none) = some u at hju
    rw [if_pos hj, (ht.u j hj).lookup] at hju
    split at hju
    · rw [← Option.some.inj hju, (ht.u j hj).answer]
      exact (not_special hp (ht.u j hj).lt).2
    · cases hju
  have ha := hr.agree
  have haz : AfterZ (finalPts A R (Oracle.play next l) p) m (H (strY R p)) := by
    refine ⟨?_, ?_, ?_, ?_, ?_⟩
    · rw [ha.A]; exact haz.prod
    · rw [ha.A]; exact haz.diff
    · intro j hj; rw [ha.A, ha.V j hj]; exact haz.value j hj
    · intro j hj; rw [ha.V j hj]; exact haz.vecs j hj
    · intro j hj; rw [ha.V j hj]; exact haz.vecs' j hj
  refine haz.opened ?_
  obtain ⟨s, kd, s', hr⟩ := exists_reading E hp ht le_rfl ht.y.lt
  obtain ⟨-, -, hg⟩ := unlucky_cand hp ht.y.lt hr.mem hr.kind hr.mem' rfl rfl
  have hy : l.getD ty 0 = H (strY R p) := ht.y.answer.symm
  rw [hy] at hg
  refine ⟨?_, ?_⟩
  · rw [hr.agree.A]; exact hg.prod
  · rw [hr.agree.A]; exact hg.diff

end unwind

end Dusk.RP
