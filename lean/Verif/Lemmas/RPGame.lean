import Verif.Spec.RPAlgebraic
import Verif.Lemmas.RPFoldEnds
import Mathlib.Data.Finset.Card
/-!
# The game against an algebraic prover: strings, first questions, coefficients
-/

set_option linter.unusedSectionVars false

namespace Dusk.RP

variable {F G : Type} [Field F] [AddCommGroup G] [Module F G] [DecidableEq F]

/-! ## Strings of blocks -/

/-- All blocks have 32 bytes. -/
def Len32 (bs : List Bytes) : Prop := ∀ b ∈ bs, b.length = 32

theorem flat_length {bs : List Bytes} (h : Len32 bs) : bs.flatten.length = 32 * bs.length := by
  induction bs with
  | nil => rfl
  | cons b bs ih =>
    rw [List.flatten_cons, List.length_append, h b (by simp), ih (fun x hx => h x (by simp [hx])), List.length_cons]
    ring

theorem flat_take {bs : List Bytes} (h : Len32 bs) (r : Nat) : bs.flatten.take (32 * r) = (bs.take r).flatten := by
  induction bs generalizing r with
  | nil => simp
  | cons b bs ih =>
    cases r with
    | zero => simp
    | succ r =>
      have hb := h b (by simp)
      rw [List.flatten_cons, List.take_succ_cons, List.flatten_cons, List.take_append, hb,
        List.take_of_length_le (by rw [hb]; omega), show 32 * (r + 1) - 32 = 32 * r by omega, ih (fun x hx => h x (by simp [hx]))]

theorem flat_drop {bs : List Bytes} (h : Len32 bs) (r : Nat) : bs.flatten.drop (32 * r) = (bs.drop r).flatten := by
  induction bs generalizing r with
  | nil => simp
  | cons b bs ih =>
    cases r with
    | zero => simp
    | succ r =>
      have hb := h b (by simp)
      rw [List.flatten_cons, List.drop_succ_cons, List.drop_append, hb,
        List.drop_of_length_le (by rw [hb]; omega), show 32 * (r + 1) - 32 = 32 * r by omega, ih (fun x hx => h x (by simp [hx])),
        List.nil_append]

theorem blk_flat {bs : List Bytes} (h : Len32 bs) {i : Nat} (hi : i < bs.length) : blk bs.flatten i = bs[i] := by
  unfold blk
  rw [flat_drop h, List.drop_eq_getElem_cons hi, List.flatten_cons, List.take_append, h _ (List.getElem_mem hi),
    List.take_of_length_le (by rw [h _ (List.getElem_mem hi)])]
  simp

theorem mem_blocks {bs : List Bytes} (h : Len32 bs) {b : Bytes} (hb : b ∈ bs) : b ∈ blocks bs.flatten := by
  obtain ⟨i, hi, rfl⟩ := List.mem_iff_getElem.1 hb
  unfold blocks
  refine List.mem_map.2 ⟨i, List.mem_range.2 ?_, blk_flat h hi⟩
  rw [flat_length h]
  omega

def blocksY (R : Ristretto F G) (p : Proof F G) : List Bytes := p.V.map (fun V => R.pBytes V.value) ++ [R.pBytes p.A, R.pBytes p.S]

def blocksX (R : Ristretto F G) (h : Bytes → F) (p : Proof F G) : List Bytes :=
  blocksY R p ++ [R.sBytes (h (R.sBytes (h (strY R p)))), R.pBytes p.T1, R.pBytes p.T2]

def blocksW (R : Ristretto F G) (h : Bytes → F) (p : Proof F G) : List Bytes :=
  blocksX R h p ++ [R.sBytes (h (strX R h p)), R.sBytes p.taux, R.sBytes p.mu, R.sBytes p.t]

def blocksU (R : Ristretto F G) (l : List (G × G)) : List Bytes := l.flatMap fun q => [R.pBytes q.1, R.pBytes q.2]

theorem flatMap_flatten {α : Type} (f : α → Bytes) (l : List α) : l.flatMap f = (l.map f).flatten := rfl

section strings
variable {R : Ristretto F G} (E : R.Encodings) (h : Bytes → F) (p : Proof F G)

theorem strY_eq (R : Ristretto F G) (p : Proof F G) : strY R p = (blocksY R p).flatten := by
  simp [strY, blocksY, flatMap_flatten]

theorem strX_eq (R : Ristretto F G) (h : Bytes → F) (p : Proof F G) : strX R h p = (blocksX R h p).flatten := by
  simp [strX, blocksX, strY_eq]

theorem strW_eq (R : Ristretto F G) (h : Bytes → F) (p : Proof F G) : strW R h p = (blocksW R h p).flatten := by
  simp only [strW, blocksW, List.flatten_append, ← strX_eq]
  simp

theorem blocksU_flat (R : Ristretto F G) (l : List (G × G)) : (l.flatMap fun q => R.pBytes q.1 ++ R.pBytes q.2) = (blocksU R l).flatten := by
  induction l with
  | nil => rfl
  | cons a l ih => simp only [List.flatMap_cons, ih, blocksU]; simp

theorem blocksU_length (R : Ristretto F G) (l : List (G × G)) : (blocksU R l).length = 2 * l.length := by
  induction l with
  | nil => rfl
  | cons a l ih =>
    have : blocksU R (a :: l) = [R.pBytes a.1, R.pBytes a.2] ++ blocksU R l := by simp [blocksU]
    rw [this, List.length_append, ih]
    simp
    ring

theorem blocksU_take (R : Ristretto F G) (l : List (G × G)) (j : Nat) : blocksU R (l.take j) = (blocksU R l).take (2 * j) := by
  induction l generalizing j with
  | nil => simp [blocksU]
  | cons a l ih =>
    cases j with
    | zero => simp [blocksU]
    | succ j =>
      have e : ∀ l : List (G × G), blocksU R (a :: l) = R.pBytes a.1 :: R.pBytes a.2 :: blocksU R l := by intro l; simp [blocksU]
      rw [List.take_succ_cons, e, e, ih, show 2 * (j + 1) = 2 * j + 1 + 1 by ring, List.take_succ_cons, List.take_succ_cons]

theorem blocksU_get (R : Ristretto F G) (l : List (G × G)) (j : Nat) (hj : j < l.length) :
    (blocksU R l)[2 * j]? = some (R.pBytes l[j].1) ∧ (blocksU R l)[2 * j + 1]? = some (R.pBytes l[j].2) := by
  induction l generalizing j with
  | nil => simp at hj
  | cons a l ih =>
    have e : blocksU R (a :: l) = R.pBytes a.1 :: R.pBytes a.2 :: blocksU R l := by simp [blocksU]
    rw [e]
    cases j with
    | zero => simp
    | succ j =>
      rw [show 2 * (j + 1) = 2 * j + 1 + 1 by ring, List.getElem?_cons_succ, List.getElem?_cons_succ,
        List.getElem?_cons_succ, List.getElem?_cons_succ, List.getElem_cons_succ]
      exact ih j (by simpa using hj)

include E in
theorem len32U (l : List (G × G)) : Len32 (blocksU R l) := by
  intro b hb
  obtain ⟨q, -, hq⟩ := List.mem_flatMap.1 hb
  simp only [List.mem_cons, List.not_mem_nil, or_false] at hq
  rcases hq with rfl | rfl <;> exact E.pBytes_length _

include E in
theorem len32Y : Len32 (blocksY R p) := by
  intro b hb
  simp only [blocksY, List.mem_append, List.mem_map, List.mem_cons, List.not_mem_nil, or_false] at hb
  rcases hb with ⟨V, -, rfl⟩ | rfl | rfl <;> exact E.pBytes_length _

include E in
theorem len32X : Len32 (blocksX R h p) := by
  intro b hb
  simp only [blocksX, List.mem_append, List.mem_cons, List.not_mem_nil, or_false] at hb
  rcases hb with hb | rfl | rfl | rfl
  · exact len32Y E p b hb
  · exact E.sBytes_length _
  · exact E.pBytes_length _
  · exact E.pBytes_length _

include E in
theorem len32W : Len32 (blocksW R h p) := by
  intro b hb
  simp only [blocksW, List.mem_append, List.mem_cons, List.not_mem_nil, or_false] at hb
  rcases hb with hb | rfl | rfl | rfl | rfl
  · exact len32X E h p b hb
  all_goals exact E.sBytes_length _

theorem blocksY_length (R : Ristretto F G) (p : Proof F G) : (blocksY R p).length = p.V.length + 2 := by simp [blocksY]
theorem blocksX_length (R : Ristretto F G) (h : Bytes → F) (p : Proof F G) : (blocksX R h p).length = p.V.length + 5 := by
  simp [blocksX, blocksY_length]
theorem blocksW_length (R : Ristretto F G) (h : Bytes → F) (p : Proof F G) : (blocksW R h p).length = p.V.length + 9 := by
  simp [blocksW, blocksX_length]

theorem strU_eq (R : Ristretto F G) (ip : IP.Proof F G) (j : Nat) :
    strU R ip j = ((blocksU R (ip.L.zip ip.R)).take (2 * (j + 1))).flatten := by
  unfold strU
  rw [blocksU_flat, blocksU_take]

end strings

/-! ## First questions -/

/-- `s` is asked for the first time at `t`. -/
structure FirstAt (next : Oracle.Log F → Bytes) (l : List F) (s : Bytes) (t : Nat) : Prop where
  lt : t < l.length
  asked : s = next (Oracle.play next (l.take t))
  answer : (Oracle.play next l).hash s = l.getD t 0
  lookup : ∀ τ, (Oracle.play next (l.take τ)).lookup s = if t < τ then some ((Oracle.play next l).hash s) else none

theorem firstAt (next : Oracle.Log F → Bytes) (l : List F) (s : Bytes) (a : F) (h : (Oracle.play next l).lookup s = some a) :
    ∃ t, FirstAt next l s t := by
  obtain ⟨t, ht, h1, h2, h3, h4⟩ := Oracle.play_first next l s a h
  have hh : (Oracle.play next l).hash s = a := by rw [Oracle.Log.hash, h]; rfl
  refine ⟨t, ht, h2, ?_, fun τ => ?_⟩
  · rw [hh, h3, List.getD_eq_getElem _ _ ht]
  · split
    · rename_i hlt
      rw [h4 τ hlt, hh]
    · rename_i hlt
      cases hl : (Oracle.play next (l.take τ)).lookup s with
      | none => rfl
      | some b =>
        have : (Oracle.play next ((l.take t).take τ)).lookup s = some b := by
          rw [List.take_take, Nat.min_eq_left (by omega)]; exact hl
        rw [Oracle.play_lookup_take next this] at h1
        cases h1

/-- `s` is among the questions asked up to now. -/
def askedIn (log : Oracle.Log F) (q : Bytes) : List Bytes := log.map (·.1) ++ [q]

theorem FirstAt.mem {next : Oracle.Log F → Bytes} {l : List F} {s : Bytes} {t τ : Nat} (h : FirstAt next l s t) (hτ : t ≤ τ) :
    s ∈ askedIn (Oracle.play next (l.take τ)) (next (Oracle.play next (l.take τ))) := by
  unfold askedIn
  rcases Nat.eq_or_lt_of_le hτ with rfl | hlt
  · rw [List.mem_append]
    right
    rw [List.mem_singleton]
    exact h.asked
  · have := h.lookup τ
    rw [if_pos hlt] at this
    have := Oracle.mem_of_lookup this
    rw [List.mem_append]
    left
    exact List.mem_map.2 ⟨_, this, rfl⟩

theorem FirstAt.eq {next : Oracle.Log F → Bytes} {l : List F} {s s' : Bytes} {t : Nat} (h : FirstAt next l s t)
    (h' : FirstAt next l s' t) : s = s' := h.asked.trans h'.asked.symm

theorem FirstAt.unique {next : Oracle.Log F → Bytes} {l : List F} {s : Bytes} {t t' : Nat} (h : FirstAt next l s t)
    (h' : FirstAt next l s t') : t = t' := by
  have h1 := h.lookup t'
  have h2 := h'.lookup t'
  have h3 := h.lookup t
  have h4 := h'.lookup t
  rw [if_neg (lt_irrefl _)] at h2 h3
  rw [h2] at h1
  rw [h3] at h4
  split at h1
  · cases h1
  · split at h4
    · cases h4
    · omega

/-! ## Coefficients do not change -/

theorem repFrom_append (rep : Oracle.Log F → Bytes → Coef F) (b : Bytes) : ∀ (log past more : Oracle.Log F),
    (∃ e ∈ log, b ∈ blocks e.1) → repFrom rep past (log ++ more) b = repFrom rep past log b
  | [], _, _, h => by obtain ⟨e, he, -⟩ := h; cases he
  | e :: log, past, more, h => by
    rw [List.cons_append, repFrom, repFrom]
    split
    · rfl
    · rename_i hn
      refine repFrom_append rep b log _ more ?_
      obtain ⟨e', he', hb⟩ := h
      rcases List.mem_cons.1 he' with rfl | he'
      · exact absurd hb hn
      · exact ⟨e', he', hb⟩

theorem repFrom_last (rep : Oracle.Log F → Bytes → Coef F) (b q : Bytes) (a a' : F) : ∀ (log past : Oracle.Log F),
    repFrom rep past (log ++ [(q, a)]) b = repFrom rep past (log ++ [(q, a')]) b
  | [], past => by simp only [List.nil_append, repFrom]
  | e :: log, past => by
    rw [List.cons_append, List.cons_append, repFrom, repFrom, repFrom_last rep b q a a' log]

/-- The coefficients known when `q` is about to be answered. -/
def AlgProver.coefAt (A : AlgProver F G) (log : Oracle.Log F) (q : Bytes) : Bytes → Coef F := A.coef (log ++ [(q, 0)])

theorem coef_stable (A : AlgProver F G) (next : Oracle.Log F → Bytes) (l : List F) {τ : Nat} (hτ : τ < l.length) {s b : Bytes}
    (hs : s ∈ askedIn (Oracle.play next (l.take τ)) (next (Oracle.play next (l.take τ)))) (hb : b ∈ blocks s) :
    A.coef (Oracle.play next l) b = A.coefAt (Oracle.play next (l.take τ)) (next (Oracle.play next (l.take τ))) b := by
  have e : Oracle.play next (l.take (τ + 1)) = Oracle.play next (l.take τ) ++ [(next (Oracle.play next (l.take τ)),
      ((Oracle.play next (l.take τ)).lookup (next (Oracle.play next (l.take τ)))).getD l[τ])] := by
    rw [List.take_succ_eq_append_getElem hτ, Oracle.play_snoc]
    rfl
  have h1 : A.coef (Oracle.play next l) b = A.coef (Oracle.play next (l.take (τ + 1))) b := by
    unfold AlgProver.coef
    rw [Oracle.play_take]
    conv_lhs => rw [← List.take_append_drop (τ + 1) (Oracle.play next l)]
    refine repFrom_append _ _ _ _ _ ?_
    rw [← Oracle.play_take, e]
    rcases List.mem_append.1 hs with hs | hs
    · obtain ⟨e', he', rfl⟩ := List.mem_map.1 hs
      exact ⟨e', List.mem_append_left _ he', hb⟩
    · rw [List.mem_singleton] at hs
      exact ⟨_, List.mem_append_right _ (List.mem_singleton.2 rfl), by rw [← hs]; exact hb⟩
  rw [h1, e]
  exact repFrom_last _ _ _ _ _ _ _

end Dusk.RP
