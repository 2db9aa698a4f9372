import Mathlib.Tactic.FieldSimp
import Mathlib.Tactic.LinearCombination
import Mathlib.Data.Fintype.Pi
import Mathlib.Data.Fintype.BigOperators
import Mathlib.Data.ZMod.Basic
import Verif.Lemmas.SecondMoment
import Verif.Spec.BlsRogue
import Verif.Props.Binding
/-!
# C137: keys of the attacker in an aggregated BLS key
-/

namespace Dusk.Bls

open Oracle

variable {F G1 G2 GT : Type} [Field F] [AddCommGroup G1] [AddCommGroup G2] [AddCommGroup GT]
  [Module F G1] [Module F G2] [Module F GT]
variable (P : Bn256 F G1 G2 GT) (A : Hash.Algs)

/-! ## What is accepted -/

/-- The coefficient of the key `a X + b g₂` in an aggregated key. -/
def weight (X : G2) (ab : F × F) : F := digest A (P.g2Bytes (ab.1 • X + ab.2 • P.g2))

theorem sum_weights (x : F) (qs : List (F × F)) :
    ((qs.map fun ab => ab.1 • (x • P.g2) + ab.2 • P.g2).map fun g => (digest A (P.g2Bytes g) : F) • g).sum =
      ((qs.map fun ab => weight P A (x • P.g2) ab * ab.1).sum * x + (qs.map fun ab => weight P A (x • P.g2) ab * ab.2).sum) • P.g2 := by
  induction qs with
  | nil => simp
  | cons ab qs ih =>
    simp only [List.map_cons, List.sum_cons]
    rw [ih]
    simp only [weight, smul_smul, ← add_smul]
    congr 1
    ring

/-- C137: exactly when a signature `c g₁` is accepted for the aggregate of keys `aᵢ X + bᵢ g₂` with `X = x g₂`: if
`c = d (x Σ tᵢ aᵢ + Σ tᵢ bᵢ)`, with the digest `d` of the message and the digests `tᵢ` of the keys. -/
theorem C137_exact (h1 : P.g1 ≠ 0) (x : F) (qs : List (F × F)) (hq : qs ≠ []) (m : Bytes) (c : F) :
    ∃ apk, aggregateApk P A (qs.map fun ab => some ⟨.pt (ab.1 • (x • P.g2) + ab.2 • P.g2)⟩) = .ok (some apk) ∧
      (Verify P A (some apk) m (some ⟨.pt (c • P.g1)⟩) = .ok () ↔
        c = digest A m * ((qs.map fun ab => weight P A (x • P.g2) ab * ab.1).sum * x +
          (qs.map fun ab => weight P A (x • P.g2) ab * ab.2).sum)) := by
  have h := C46_aggregateApk P A ((qs.map fun ab => ab.1 • (x • P.g2) + ab.2 • P.g2).map some)
  rcases h with ⟨h | h, -⟩ | ⟨-, h, -⟩ | ⟨-, -, l, hl, h⟩
  · simp at h; exact absurd h hq
  · rcases qs with _ | ⟨q, qs⟩ <;> simp at h
  · simp at h
  · have hl : (qs.map fun ab => ab.1 • (x • P.g2) + ab.2 • P.g2) = l := List.map_injective_iff.2 (Option.some_injective _) hl
    rw [← hl, sum_weights] at h
    refine ⟨_, by rw [← h, List.map_map, List.map_map]; rfl, ?_⟩
    simp only [Verify, deref_some, Res.bind_ok, Apk.gx, verify_iff]
    have h2 : P.pair P.g1 P.g2 ≠ 0 := fun h0 => h1 (P.pair_g2_inj _ h0)
    simp only [map_smul, LinearMap.smul_apply, smul_smul]
    constructor
    · intro e
      rw [← smul_left_injective F h2 e]
      ring
    · intro e
      rw [e]
      congr 1
      ring

/-- C137: if the weighted multiples of the honest key cancel, every message has an accepted signature that is computed without the secret. -/
theorem C137_sum_violated (h1 : P.g1 ≠ 0) (x : F) (qs : List (F × F)) (hq : qs ≠ [])
    (h0 : (qs.map fun ab => weight P A (x • P.g2) ab * ab.1).sum = 0) (m : Bytes) :
    ∃ apk, aggregateApk P A (qs.map fun ab => some ⟨.pt (ab.1 • (x • P.g2) + ab.2 • P.g2)⟩) = .ok (some apk) ∧
      Verify P A (some apk) m (some ⟨.pt ((digest A m * (qs.map fun ab => weight P A (x • P.g2) ab * ab.2).sum : F) • P.g1)⟩) = .ok () := by
  obtain ⟨apk, e1, e2⟩ := C137_exact P A h1 x qs hq m (digest A m * (qs.map fun ab => weight P A (x • P.g2) ab * ab.2).sum)
  exact ⟨apk, e1, e2.2 (by rw [h0]; ring)⟩

/-- C137: otherwise an accepted signature, of which the attacker knows how it is made, gives the secret of the honest user. -/
theorem C137_secret (h1 : P.g1 ≠ 0) (x : F) (qs : List (F × F)) (h0 : (qs.map fun ab => weight P A (x • P.g2) ab * ab.1).sum ≠ 0)
    (m : Bytes) (hm : ¬ P.order ∣ digest A m) (c : F) (apk : Apk G2)
    (ha : aggregateApk P A (qs.map fun ab => some ⟨.pt (ab.1 • (x • P.g2) + ab.2 • P.g2)⟩) = .ok (some apk))
    (hv : Verify P A (some apk) m (some ⟨.pt (c • P.g1)⟩) = .ok ()) :
    x = (c / digest A m - (qs.map fun ab => weight P A (x • P.g2) ab * ab.2).sum) /
      (qs.map fun ab => weight P A (x • P.g2) ab * ab.1).sum := by
  have hq : qs ≠ [] := by rintro rfl; exact h0 rfl
  obtain ⟨apk', e1, e2⟩ := C137_exact P A h1 x qs hq m c
  rw [ha] at e1
  cases e1
  have hd : (digest A m : F) ≠ 0 := fun h => hm ((P.cast_eq_zero _).1 h)
  have hc := e2.1 hv
  rw [eq_div_iff h0, hc]
  field_simp
  ring

/-! ## Words -/

theorem beNat_rev : ∀ l : Bytes, beNat l.reverse = leNat l
  | [] => rfl
  | b :: l => by
    have := beNat_rev l
    rw [beNat] at this
    rw [beNat, List.reverse_cons, List.foldl_append, this, leNat]
    simp only [List.foldl_cons, List.foldl_nil]
    omega

theorem digest_withSha (f : Bytes → Word) (m : Bytes) : digest (withSha A f) m = (f m).val := by
  rw [digest, withSha]
  dsimp only
  rw [beNat_rev, leNat_leBytes, Nat.mod_eq_of_lt]
  exact (f m).isLt.trans_eq (by norm_num)

/-- At most so many words are equal to a given scalar. -/
theorem card_words [DecidableEq F] (z : F) : (Finset.univ.filter fun w : Word => (w.val : F) = z).card ≤ 2 ^ 256 / P.order + 1 := by
  rw [← Finset.card_range (2 ^ 256 / P.order + 1)]
  refine Finset.card_le_card_of_injOn (fun w => w.val / P.order) (fun w _ => ?_) fun a ha b hb h => ?_
  · simp only [Finset.coe_range, Set.mem_Iio]
    exact Nat.lt_succ_of_le (Nat.div_le_div_right w.isLt.le)
  · simp only [Finset.coe_filter, Finset.mem_univ, true_and, Set.mem_ofPred_eq] at ha hb
    have hm := cast_modEq P (ha.trans hb.symm)
    have h : a.val / P.order = b.val / P.order := h
    refine Fin.ext ?_
    rw [← Nat.div_add_mod a.val P.order, ← Nat.div_add_mod b.val P.order, h, hm]

/-! ## The bound -/

/-- The factor of the answer to question number `t` in the weighted sum for the keys numbered `ks`. -/
def headC (a : Nat → F) (t : Nat) (ks : List Nat) : F := (ks.map fun k => if k = t then a t else 0).sum

/-- The part of the weighted sum known before question number `t` is answered. -/
def tailC (a c : Nat → F) (t : Nat) (ks : List Nat) : F := (ks.map fun k => if k < t then c k * a k else 0).sum

theorem sum_split (a c : Nat → F) (t : Nat) (ks : List Nat) (h : ∀ k ∈ ks, t < k → a k = 0) :
    (ks.map fun k => c k * a k).sum = headC a t ks * c t + tailC a c t ks := by
  induction ks with
  | nil => simp [headC, tailC]
  | cons k ks ih =>
    have ih := ih fun k hk => h k (List.mem_cons_of_mem _ hk)
    rw [headC, tailC] at *
    simp only [List.map_cons, List.sum_cons]
    rw [ih]
    rcases Nat.lt_trichotomy k t with h1 | h1 | h1
    · rw [if_neg h1.ne, if_pos h1]; ring
    · subst h1; rw [if_pos rfl, if_neg (lt_irrefl _)]; ring
    · rw [if_neg h1.ne', if_neg h1.le.not_gt, h k (by simp) h1]; ring

theorem headC_eq (a : Nat → F) (t : Nat) (ks : List Nat) : headC a t ks = (ks.count t : F) * a t := by
  induction ks with
  | nil => simp [headC]
  | cons k ks ih =>
    rw [headC] at *
    simp only [List.map_cons, List.sum_cons]
    rw [ih, List.count_cons]
    by_cases h : k = t
    · simp [h]; ring
    · simp [h]

/-- The number of ways to name `n` keys, number `t` among them. -/
theorem card_named (n T t : Nat) :
    (Finset.univ.filter fun f : Fin n → Fin (T + 1) => ∃ p, (f p).val = t).card ≤ n * (T + 1) ^ (n - 1) := by
  classical
  have hsub : (Finset.univ.filter fun f : Fin n → Fin (T + 1) => ∃ p, (f p).val = t) ⊆
      Finset.univ.biUnion fun p : Fin n => Fintype.piFinset fun i => if i = p then Finset.univ.filter fun k : Fin (T + 1) => k.val = t else Finset.univ := by
    intro f hf
    obtain ⟨p, hp⟩ := (Finset.mem_filter.1 hf).2
    refine Finset.mem_biUnion.2 ⟨p, Finset.mem_univ _, Fintype.mem_piFinset.2 fun i => ?_⟩
    split
    · rename_i h
      rw [h]
      simpa using hp
    · simp
  refine (Finset.card_le_card hsub).trans (Finset.card_biUnion_le.trans ?_)
  have : ∀ p ∈ (Finset.univ : Finset (Fin n)), (Fintype.piFinset fun i => if i = p then Finset.univ.filter fun k : Fin (T + 1) => k.val = t
      else Finset.univ).card ≤ (T + 1) ^ (n - 1) := by
    intro p _
    rw [Fintype.card_piFinset, ← Finset.mul_prod_erase _ _ (Finset.mem_univ p), if_pos rfl]
    have h1 : (Finset.univ.filter fun k : Fin (T + 1) => k.val = t).card ≤ 1 := by
      refine Finset.card_le_one.2 fun a ha b hb => Fin.ext ?_
      rw [(Finset.mem_filter.1 ha).2, (Finset.mem_filter.1 hb).2]
    have h2 : ∏ i ∈ Finset.univ.erase p, (if i = p then Finset.univ.filter fun k : Fin (T + 1) => k.val = t else Finset.univ).card =
        (T + 1) ^ (n - 1) := by
      rw [Finset.prod_congr rfl (g := fun _ => T + 1)]
      · rw [Finset.prod_const, Finset.card_erase_of_mem (Finset.mem_univ _), Finset.card_univ, Fintype.card_fin]
      · intro i hi
        rw [if_neg (Finset.ne_of_mem_erase hi), Finset.card_univ, Fintype.card_fin]
    rw [h2]
    exact (Nat.mul_le_mul_right _ h1).trans_eq (one_mul _)
  refine (Finset.sum_le_card_nsmul _ _ _ this).trans_eq ?_
  rw [Finset.card_univ, Fintype.card_fin, smul_eq_mul]

section Bound

variable (X : G2) (R : Rogue F)

/-- The multiple of `X` in question number `k`. -/
def aAt (L : List Word) (k : Nat) : F := (R.asked P X L k).a

/-- The answer to question number `k`, when it is fresh. -/
def cAt (L : List Word) (k : Nat) : F := ((L.getD k 0).val : F)

/-- The bad answers to the next question: a multiple of the order of the groups, or an answer with which the weighted sum of `n + 1` keys
becomes zero. -/
noncomputable def badWords [DecidableEq F] (n T : Nat) (L : List Word) : Finset Word :=
  (Finset.univ.filter fun w : Word => (w.val : F) = 0) ∪
    (Finset.univ.filter fun f : Fin n → Fin (T + 1) => ∃ p, (f p).val = L.length).biUnion fun f =>
      if headC (aAt P X R L) L.length (0 :: List.ofFn fun p => (f p).val) = 0 then ∅ else
        Finset.univ.filter fun w : Word => (w.val : F) =
          -tailC (aAt P X R L) (cAt L) L.length (0 :: List.ofFn fun p => (f p).val) /
            headC (aAt P X R L) L.length (0 :: List.ofFn fun p => (f p).val)

theorem card_badWords [DecidableEq F] (n T : Nat) (L : List Word) :
    (badWords P X R n T L).card ≤ (2 ^ 256 / P.order + 1) * (n * (T + 1) ^ (n - 1) + 1) := by
  rw [badWords]
  refine (Finset.card_union_le _ _).trans ?_
  rw [mul_add, mul_one, add_comm]
  refine Nat.add_le_add ?_ (card_words P 0)
  refine Finset.card_biUnion_le.trans ((Finset.sum_le_card_nsmul _ _ (2 ^ 256 / P.order + 1) fun f _ => ?_).trans ?_)
  · split
    · simp
    · exact card_words P _
  · rw [smul_eq_mul, mul_comm]
    exact Nat.mul_le_mul_left _ (card_named n T _)

/-- If the weighted sum of the keys vanishes, the last answer that matters was bad. -/
theorem sum_zero_bad [DecidableEq F] {n : Nat} (hn : n + 1 < P.order) (L : List Word) (ks : List Nat) (h0 : 0 ∈ ks) (hks : ks.length ≤ n + 1)
    (hlt : ∀ k ∈ ks, k < L.length) (ha : aAt P X R L 0 = 1) (hs : (ks.map fun k => cAt L k * aAt P X R L k).sum = (0 : F)) :
    ∃ t, ∃ h : t < L.length, L[t] ∈ badWords P X R n L.length (L.take t) := by
  -- the last key with a multiple of the honest key
  obtain ⟨t, htm, hta, hmax⟩ : ∃ t ∈ ks, aAt P X R L t ≠ 0 ∧ ∀ k ∈ ks, t < k → aAt P X R L k = 0 := by
    have hne : (ks.toFinset.filter fun k => aAt P X R L k ≠ 0).Nonempty := ⟨0, by simp [h0, ha]⟩
    refine ⟨Finset.max' _ hne, ?_, ?_, fun k hk hlt => ?_⟩
    · exact List.mem_toFinset.1 (Finset.mem_filter.1 (Finset.max'_mem _ hne)).1
    · exact (Finset.mem_filter.1 (Finset.max'_mem _ hne)).2
    · by_contra hc
      have := Finset.le_max' (ks.toFinset.filter fun k => aAt P X R L k ≠ 0) k (Finset.mem_filter.2 ⟨List.mem_toFinset.2 hk, hc⟩)
      omega
  have htl := hlt t htm
  refine ⟨t, htl, ?_⟩
  have hperm := List.perm_cons_erase h0
  set rest := ks.erase 0 with hrest
  have hrl : rest.length ≤ n := by rw [hrest, List.length_erase_of_mem h0]; omega
  -- before `t` nothing depends on the answers from `t` on
  have hA : ∀ k, k ≤ t → aAt P X R (L.take t) k = aAt P X R L k := by
    intro k hk
    rw [aAt, aAt, Rogue.asked, Rogue.asked, List.take_take, Nat.min_eq_left hk]
  have hC : ∀ k, k < t → (cAt (L.take t) k : F) = cAt L k := by
    intro k hk
    rw [cAt, cAt, List.getD_eq_getElem?_getD, List.getD_eq_getElem?_getD, List.getElem?_take_of_lt hk]
  have hLt : (L.take t).length = t := by simp; omega
  have hct : (cAt L t : F) = (L[t].val : F) := by
    rw [cAt, List.getD_eq_getElem?_getD, List.getElem?_eq_getElem htl, Option.getD_some]
  have hhead : ∀ l, headC (aAt P X R (L.take t)) t l = headC (aAt P X R L) t l := by
    intro l; rw [headC, headC, hA t le_rfl]
  have htail : ∀ l, tailC (aAt P X R (L.take t)) (cAt (L.take t)) t l = tailC (aAt P X R L) (cAt L) t l := by
    intro l
    rw [tailC, tailC]
    congr 1
    refine List.map_congr_left fun k _ => ?_
    split
    · rename_i h; rw [hA k h.le, hC k h]
    · rfl
  have hs' := sum_split (aAt P X R L) (cAt L) t ks hmax
  rw [hs] at hs'
  by_cases hr : t ∈ rest
  · refine Finset.mem_union_right _ (Finset.mem_biUnion.2 ?_)
    let f : Fin n → Fin (L.length + 1) := fun p => if h : p.val < rest.length then
      ⟨rest[p.val], Nat.lt_succ_of_lt (hlt _ (List.mem_of_mem_erase (List.getElem_mem h)))⟩ else Fin.last _
    have hf : (List.ofFn fun p => (f p).val) = rest ++ List.replicate (n - rest.length) L.length := by
      refine List.ext_getElem (by simp; omega) fun i h1 h2 => ?_
      rw [List.getElem_ofFn, List.getElem_append]
      simp only [f]
      split <;> simp
    have e1 : headC (aAt P X R L) t (0 :: List.ofFn fun p => (f p).val) = headC (aAt P X R L) t ks := by
      rw [headC_eq, headC_eq, hf, hperm.count_eq, ← List.cons_append, List.count_append, List.count_replicate]
      simp [htl.ne']
    have e2 : tailC (aAt P X R L) (cAt L) t (0 :: List.ofFn fun p => (f p).val) = tailC (aAt P X R L) (cAt L) t ks := by
      rw [tailC, tailC, hf, (hperm.map _).sum_eq, ← List.cons_append, List.map_append, List.sum_append, List.map_replicate,
        if_neg htl.le.not_gt]
      simp
    have e3 : headC (aAt P X R L) t ks ≠ 0 := by
      rw [headC_eq]
      refine mul_ne_zero (fun h => ?_) hta
      have hc1 : 0 < ks.count t := List.count_pos_iff.2 htm
      have hc2 : ks.count t ≤ ks.length := List.count_le_length
      have := Nat.le_of_dvd hc1 ((P.cast_eq_zero _).1 h)
      omega
    refine ⟨f, ?_, ?_⟩
    · obtain ⟨p, hp, e⟩ := List.getElem_of_mem hr
      refine Finset.mem_filter.2 ⟨Finset.mem_univ _, ⟨p, by omega⟩, ?_⟩
      simp only [f]
      rw [dif_pos hp, hLt]
      exact e
    · rw [hLt, hhead, htail, e1, e2, if_neg e3]
      refine Finset.mem_filter.2 ⟨Finset.mem_univ _, ?_⟩
      rw [eq_div_iff e3, ← hct]
      linear_combination -hs'
  · have ht0 : t = 0 := by
      rcases List.mem_cons.1 (hperm.subset htm) with h | h
      · exact h
      · exact absurd h hr
    subst ht0
    refine Finset.mem_union_left _ (Finset.mem_filter.2 ⟨Finset.mem_univ _, ?_⟩)
    have e1 : headC (aAt P X R L) 0 ks = 1 := by
      rw [headC_eq, hperm.count_eq, List.count_cons_self, List.count_eq_zero_of_not_mem hr, ha]
      simp
    have e2 : tailC (aAt P X R L) (cAt L) 0 ks = 0 := by
      rw [tailC]; simp
    rw [e1, e2, hct] at hs'
    linear_combination -hs'

/-- A fresh question is answered by its coin. -/
theorem hash_fresh (L : List Word) (k : Nat) (hk : k < L.length)
    (hf : (R.log P X (L.take k)).lookup ((R.asked P X L k).bytes P X) = none) :
    (R.log P X L).hash ((R.asked P X L k).bytes P X) = L.getD k 0 := by
  have e : R.log P X (L.take (k + 1)) = (R.log P X (L.take k)).ask ((R.asked P X L k).bytes P X) L[k] := by
    rw [Rogue.log, Rogue.log, List.take_succ_eq_append_getElem hk, play_snoc]
    rfl
  have h2 : (R.log P X (L.take (k + 1))).lookup ((R.asked P X L k).bytes P X) = some L[k] := by
    rw [e, Log.ask, List.lookup_append, hf]
    simp
  rw [Log.hash, Rogue.log, play_lookup_take _ h2, List.getD_eq_getElem?_getD, List.getElem?_eq_getElem hk]

end Bound

/-- What an attacker that wins without giving away the secret has met. -/
theorem wins_bad [DecidableEq F] (h1 : P.g1 ≠ 0) (x : F) (R : Rogue F) (n : Nat) (hn : n + 1 < P.order) (L : List Word)
    (hp : R.Proper P (x • P.g2) L) (hl : (R.keys (R.log P (x • P.g2) L)).length ≤ n + 1) (hw : R.Wins P (x • P.g2) A L)
    (hx : x ≠ R.secret P (x • P.g2) L) : ∃ t, ∃ h : t < L.length, L[t] ∈ badWords P (x • P.g2) R n L.length (L.take t) := by
  set X := x • P.g2 with hX
  set ks := R.keys (R.log P X L) with hks
  set H := (R.log P X L).hash with hH
  set qs := ks.map fun k => ((R.asked P X L k).a, (R.asked P X L k).b) with hqs
  have hwt : ∀ k ∈ ks, weight P (withSha A H) X ((R.asked P X L k).a, (R.asked P X L k).b) = cAt L k := by
    intro k hk
    obtain ⟨k1, ⟨a, b, e⟩, k3⟩ := hp.keys k hk
    have := hash_fresh P X R L k k1 k3
    rw [weight, digest_withSha, cAt, ← this, e]
    rfl
  have sa : (qs.map fun ab => weight P (withSha A H) X ab * ab.1).sum = (ks.map fun k => cAt L k * aAt P X R L k).sum := by
    rw [hqs, List.map_map]
    congr 1
    exact List.map_congr_left fun k hk => by rw [Function.comp, hwt k hk]; rfl
  have sb : (qs.map fun ab => weight P (withSha A H) X ab * ab.2).sum = (ks.map fun k => cAt L k * (R.asked P X L k).b).sum := by
    rw [hqs, List.map_map]
    congr 1
    exact List.map_congr_left fun k hk => by rw [Function.comp, hwt k hk]
  by_cases hs : (ks.map fun k => cAt L k * aAt P X R L k).sum = (0 : F)
  · refine sum_zero_bad P X R hn L ks hp.honest hl (fun k hk => (hp.keys k hk).1) ?_ hs
    rw [aAt, hp.first]; rfl
  · obtain ⟨w, hm⟩ := hp.msg
    by_cases hd : (w.val : F) = 0
    · obtain ⟨t, ht, -, -, e, -⟩ := play_first _ L _ _ hm
      refine ⟨t, ht, Finset.mem_union_left _ (Finset.mem_filter.2 ⟨Finset.mem_univ _, ?_⟩)⟩
      rw [← e]; exact hd
    · exfalso
      obtain ⟨apk, w1, w2⟩ := hw
      have hdm : digest (withSha A H) (R.msg (R.log P X L)) = w.val := by
        rw [digest_withSha, hH, Log.hash, hm]; rfl
      have e := C137_secret P (withSha A H) h1 x qs (by rw [← hX, sa]; exact hs) (R.msg (R.log P X L))
        (by rw [hdm, ← P.cast_eq_zero]; exact hd) (R.c (R.log P X L)) apk
        (by rw [← w1, Rogue.points, List.map_map, List.map_map]; rfl) w2
      rw [← hX, sa, sb, hdm] at e
      apply hx
      rw [Rogue.secret]
      refine e.trans ?_
      have : (R.log P X L).hash (R.msg (R.log P X L)) = w := by rw [Log.hash, hm]; rfl
      rw [this]
      rfl

/-- C137: however an attacker chooses its keys from the key of the honest user, if it names at most `n + 1` keys and asks `T` hashes, and if
it does not give away the secret of the honest user by `x = (c / d - Σ tᵢ bᵢ) / Σ tᵢ aᵢ`, then it wins with a fraction of at most
`T (n (T + 1)^(n-1) + 1) (2^256 / q + 1) / 2^256` of the coins. -/
theorem C137_bound (h1 : P.g1 ≠ 0) (x : F) (R : Rogue F) (n T : Nat) (hn : n + 1 < P.order) :
    2 ^ 256 * Nat.card {coins : Fin T → Word // R.Proper P (x • P.g2) (List.ofFn coins) ∧
        (R.keys (R.log P (x • P.g2) (List.ofFn coins))).length ≤ n + 1 ∧ R.Wins P (x • P.g2) A (List.ofFn coins) ∧
        x ≠ R.secret P (x • P.g2) (List.ofFn coins)} ≤
      T * ((2 ^ 256 / P.order + 1) * (n * (T + 1) ^ (n - 1) + 1)) * (2 ^ 256) ^ T := by
  classical
  have h := card_guess (F := Word) ((2 ^ 256 / P.order + 1) * (n * (T + 1) ^ (n - 1) + 1)) T (badWords P (x • P.g2) R n T)
    (fun l _ => card_badWords P (x • P.g2) R n T l)
  rw [Fintype.card_fin] at h
  refine le_trans (Nat.mul_le_mul_left _ ?_) h
  refine Nat.card_le_card_of_injective (fun c => ⟨c.1, ?_⟩) fun a b e => Subtype.ext (Subtype.mk.inj e)
  obtain ⟨c, p1, p2, p3, p4⟩ := c
  obtain ⟨t, ht, hm⟩ := wins_bad P A h1 x R n hn (List.ofFn c) p1 p2 p3 p4
  rw [List.length_ofFn] at ht
  refine ⟨⟨t, ht⟩, ?_⟩
  rw [List.length_ofFn, List.getElem_ofFn] at hm
  exact hm

/-! ## Forging keys exist -/

/-- The words below a multiple of `q` are uniform modulo `q`. -/
theorem card_residue (q r : Nat) [NeZero q] (h : ZMod q) : (Finset.univ.filter fun v : Fin (q * r) => ((v.val : Nat) : ZMod q) = h).card = r := by
  have hq : 0 < q := Nat.pos_of_ne_zero (NeZero.ne q)
  have hv : h.val < q := ZMod.val_lt h
  have hlt : ∀ k, k < r → h.val + q * k < q * r := by
    intro k hk
    calc h.val + q * k < q + q * k := by omega
      _ = q * (k + 1) := by ring
      _ ≤ q * r := Nat.mul_le_mul_left _ hk
  refine Eq.trans (Eq.symm ?_) (Finset.card_fin r)
  refine Finset.card_bij (fun k _ => ⟨h.val + q * k.val, hlt _ k.isLt⟩) (fun k _ => ?_) (fun a _ b _ e => ?_) fun v hv' => ?_
  · simp
  · have e := Fin.mk.inj e
    exact Fin.ext (Nat.eq_of_mul_eq_mul_left hq (by omega))
  · have e : v.val % q = h.val := by
      rw [← ZMod.val_natCast, (Finset.mem_filter.1 hv').2]
    refine ⟨⟨v.val / q, (Nat.div_lt_iff_lt_mul hq).2 (v.isLt.trans_eq (mul_comm _ _))⟩, Finset.mem_univ _, Fin.ext ?_⟩
    simp only
    rw [← e]
    exact Nat.mod_add_div _ _

/-- C137: a table of `n` columns with `w` keys `X + b g₂` each, and its digests below the largest multiple of the order `q` of the groups:
for all but a fraction of `q / w^n` of the digests, one key of each column can be chosen such that, together with the honest key, they have
a signature for every message that is computed without the secret. -/
theorem C137_exists_violated (h1 : P.g1 ≠ 0) (x : F) (hr : P.order ≤ 2 ^ 256) (n w : Nat) (hn : 0 < n) (b : Fin n × Fin w → F) (w0 : Word) :
    Nat.card {u : Fin n × Fin w → Fin (P.order * (2 ^ 256 / P.order)) // ¬ ∃ e : Fin n → Fin w, ∀ f : Bytes → Word,
        f (P.g2Bytes (x • P.g2)) = w0 → (∀ p, (f (P.g2Bytes (x • P.g2 + b p • P.g2))).val = (u p).val) → ∀ m, ∃ apk,
        aggregateApk P (withSha A f) (some ⟨.pt (x • P.g2)⟩ :: List.ofFn fun j => some ⟨.pt (x • P.g2 + b (j, e j) • P.g2)⟩) = .ok (some apk) ∧
        Verify P (withSha A f) (some apk) m (some ⟨.pt (((f m).val * ∑ j, (u (j, e j)).val * b (j, e j) : F) • P.g1)⟩) = .ok ()} * w ^ n ≤
      P.order * (P.order * (2 ^ 256 / P.order)) ^ (n * w) := by
  classical
  have : NeZero P.order := ⟨P.order_prime.ne_zero⟩
  have : Nonempty (Fin n) := ⟨⟨0, hn⟩⟩
  have hr0 : 0 < 2 ^ 256 / P.order := Nat.div_pos hr P.order_prime.pos
  have h := Moment.card_miss (J := Fin n) (W := Fin w) (fun v : Fin (P.order * (2 ^ 256 / P.order)) => ((v.val : Nat) : ZMod P.order))
    _ hr0 (card_residue P.order (2 ^ 256 / P.order)) ((w0.val : Nat) : ZMod P.order)
  rw [Fintype.card_fin, Fintype.card_fin, ZMod.card, Fintype.card_fun, Fintype.card_fin, Fintype.card_prod, Fintype.card_fin,
    Fintype.card_fin] at h
  refine le_trans (Nat.mul_le_mul_right _ ?_) h
  rw [← Fintype.card_subtype, ← Nat.card_eq_fintype_card]
  refine Nat.card_le_card_of_injective (fun c => ⟨c.1, ?_⟩) fun a b e => Subtype.ext (Subtype.mk.inj e)
  obtain ⟨u, hu⟩ := c
  intro e he
  refine hu ⟨e, fun f f0 fu m => ?_⟩
  -- the sum of the digests vanishes
  have hsum : ((w0.val : F) + ∑ j, ((u (j, e j)).val : F)) = 0 := by
    have : ((w0.val + ∑ j, (u (j, e j)).val : Nat) : ZMod P.order) = 0 := by
      rw [Nat.cast_add, Nat.cast_sum]; exact he
    have := (P.cast_eq_zero _).2 ((ZMod.natCast_eq_zero_iff _ _).1 this)
    rwa [Nat.cast_add, Nat.cast_sum] at this
  have hw0 : weight P (withSha A f) (x • P.g2) (1, 0) = (w0.val : F) := by
    rw [weight, digest_withSha]
    simp only [one_smul, zero_smul, add_zero]
    rw [f0]
  have hwj : ∀ p, weight P (withSha A f) (x • P.g2) (1, b p) = ((u p).val : F) := by
    intro p
    rw [weight, digest_withSha]
    simp only [one_smul]
    rw [fu p]
  obtain ⟨apk, e1, e2⟩ := C137_sum_violated P (withSha A f) h1 x ((1, 0) :: List.ofFn fun j => (1, b (j, e j))) (by simp)
    (by
      rw [List.map_cons, List.sum_cons, List.map_ofFn, List.sum_ofFn, hw0]
      simp only [Function.comp_def, hwj, mul_one]
      exact hsum) m
  refine ⟨apk, ?_, ?_⟩
  · rw [← e1, List.map_cons, List.map_ofFn]
    simp [Function.comp_def]
  · rw [List.map_cons, List.sum_cons, List.map_ofFn, List.sum_ofFn, hw0, mul_zero, zero_add, digest_withSha] at e2
    simp only [Function.comp_def, hwj] at e2
    exact e2

/-- C137: with different numbers `b`, none of them 0, all the digests of such a table are free. -/
theorem C137_table (h1 : P.g1 ≠ 0) (x : F) {n w : Nat} (b : Fin n × Fin w → F) (hb : Function.Injective b) (h0 : ∀ p, b p ≠ 0) (w0 : Word)
    (u : Fin n × Fin w → Word) :
    ∃ f : Bytes → Word, f (P.g2Bytes (x • P.g2)) = w0 ∧ ∀ p, f (P.g2Bytes (x • P.g2 + b p • P.g2)) = u p := by
  classical
  have hg : P.g2 ≠ 0 := by
    intro h
    have := P.pair_g2_inj P.g1 (by rw [h, map_zero])
    exact h1 this
  have hi : ∀ a c, P.g2Bytes a = P.g2Bytes c → a = c := by
    intro a c e
    have := P.g2OfBytes_g2Bytes a []
    rw [e, P.g2OfBytes_g2Bytes] at this
    exact (Prod.mk.inj (Option.some.inj this)).1.symm
  refine ⟨fun s => if h : ∃ p, s = P.g2Bytes (x • P.g2 + b p • P.g2) then u h.choose else w0, ?_, fun p => ?_⟩
  · refine dif_neg ?_
    rintro ⟨p, hp⟩
    have := hi _ _ hp
    rw [left_eq_add, smul_eq_zero] at this
    exact this.elim (h0 p) hg
  · have h : ∃ p', P.g2Bytes (x • P.g2 + b p • P.g2) = P.g2Bytes (x • P.g2 + b p' • P.g2) := ⟨p, rfl⟩
    dsimp only
    rw [dif_pos h]
    congr 1
    have := add_left_cancel (hi _ _ h.choose_spec)
    exact (hb (smul_left_injective F hg this)).symm

/-! ## Examples -/

section Examples

open Toy

/-- A hash function with which the key `7 g₂` and another key have opposite digests. -/
def oppHash (s : Bytes) : Word := if s = bn.g2Bytes 7 then 1 else ⟨PrimeEll.ell - 1, by decide +kernel⟩

/-- The attacker takes the key `X + 3 g₂`: the multiples of the honest key cancel. -/
theorem toy_cancel : ([(1, 0), (1, 3)].map fun ab : K × K => weight bn (withSha Hash.toyAlgs oppHash) ((7 : K) • bn.g2) ab * ab.1).sum = 0 := by
  have e1 : weight bn (withSha Hash.toyAlgs oppHash) ((7 : K) • bn.g2) (1, 0) = 1 := by
    rw [weight, digest_withSha, bn_g2]
    norm_num [oppHash]
  have e2 : weight bn (withSha Hash.toyAlgs oppHash) ((7 : K) • bn.g2) (1, 3) = -1 := by
    rw [weight, digest_withSha, bn_g2, oppHash, if_neg]
    · rw [eq_neg_iff_add_eq_zero]
      have : ((PrimeEll.ell - 1 + 1 : Nat) : K) = 0 := (ZMod.natCast_eq_zero_iff _ _).2 (by decide +kernel)
      simpa using this
    · intro h
      have := congrArg bn.g2OfBytes (congrArg (· ++ []) h)
      simp only [bn.g2OfBytes_g2Bytes] at this
      have := (Prod.mk.inj (Option.some.inj this)).1
      revert this
      decide +kernel
  simp only [List.map_cons, List.map_nil, List.sum_cons, List.sum_nil, e1, e2]
  ring

/-- So the signature `3 d t`, with the digest `t` of the other key, is accepted for every message. -/
example (m : Bytes) : ∃ apk, aggregateApk bn (withSha Hash.toyAlgs oppHash) [some ⟨.pt ((1 : K) • (7 : K) • bn.g2 + (0 : K) • bn.g2)⟩,
      some ⟨.pt ((1 : K) • (7 : K) • bn.g2 + (3 : K) • bn.g2)⟩] = .ok (some apk) ∧
    Verify bn (withSha Hash.toyAlgs oppHash) (some apk) m (some ⟨.pt ((digest (withSha Hash.toyAlgs oppHash) m *
      ([(1, 0), (1, 3)].map fun ab : K × K => weight bn (withSha Hash.toyAlgs oppHash) ((7 : K) • bn.g2) ab * ab.2).sum : K) • bn.g1)⟩) = .ok () :=
  C137_sum_violated bn (withSha Hash.toyAlgs oppHash) (by decide +kernel) 7 [(1, 0), (1, 3)] (by simp) toy_cancel m

/-- With other digests the sum is not 0, and the hypotheses of `C137_secret` hold. -/
example : ([(1, 0), (1, 3)].map fun ab : K × K => weight bn (withSha Hash.toyAlgs fun _ => 2) ((7 : K) • bn.g2) ab * ab.1).sum ≠ 0 ∧
    ¬ bn.order ∣ digest (withSha Hash.toyAlgs fun _ => 2) [1] := by
  refine ⟨?_, ?_⟩
  · have e : ∀ ab, weight bn (withSha Hash.toyAlgs fun _ => 2) ((7 : K) • bn.g2) ab = 2 := by
      intro ab; rw [weight, digest_withSha]; norm_num
    simp only [e, List.map_cons, List.map_nil]
    decide +kernel
  · rw [digest_withSha]
    decide +kernel

/-- An attacker that guesses the secret 7 of the honest user. It hashes the honest key and the message `[1]`. -/
def guesser : Rogue K where
  next l := if l = [] then .key 1 0 else .text [1]
  keys _ := [0]
  msg _ := [1]
  c l := (l.hash [1]).val * ((l.headD ([], 0)).2.val * 7)

theorem toy_len (k : K) : bn.g2Bytes k ≠ [1] := by
  intro h
  have := congrArg List.length h
  rw [show bn.g2Bytes k = g2Bytes k from rfl] at h this
  rw [g2Bytes] at h this
  split at h
  · simp at h
  · rename_i hk
    rw [if_neg hk, List.length_cons, leBytes_length] at this
    simp at this

/-- It follows the rules and wins with all coins `w, 5`; with `w = 0`, it does not give away the secret. -/
theorem toy_guesser (w : Word) : guesser.Proper bn ((7 : K) • bn.g2) [w, 5] ∧ guesser.Wins bn ((7 : K) • bn.g2) Hash.toyAlgs [w, 5] ∧
    (w = 0 → 7 ≠ guesser.secret bn ((7 : K) • bn.g2) [w, 5]) := by
  set X : K := (7 : K) • bn.g2 with hX
  have hX7 : bn.g2Bytes X ≠ [1] := toy_len X
  have b1 : (Ask.key (1 : K) 0).bytes bn X = bn.g2Bytes X := by
    simp only [Ask.bytes, Ask.point, Ask.a, Ask.b, one_smul, zero_smul, add_zero]
  have l1 : guesser.log bn X [w] = [(bn.g2Bytes X, w)] := by
    rw [← b1]; rfl
  have l2 : guesser.log bn X [w, 5] = [(bn.g2Bytes X, w), ([1], 5)] := by
    have h : guesser.log bn X ([w] ++ [5]) = (guesser.log bn X [w]).ask ((guesser.next (guesser.log bn X [w])).bytes bn X) 5 := play_snoc _ _ _
    rw [l1] at h
    refine h.trans ?_
    have hb : ([1] == bn.g2Bytes X) = false := beq_false_of_ne hX7.symm
    simp [guesser, Log.ask, Ask.bytes, List.lookup, hb]
  have a0 : guesser.asked bn X [w, 5] 0 = .key 1 0 := rfl
  have hm : (guesser.log bn X [w, 5]).lookup [1] = some 5 := by
    have hb : ([1] == bn.g2Bytes X) = false := beq_false_of_ne hX7.symm
    simp [l2, List.lookup, hb]
  have hh : (guesser.log bn X [w, 5]).hash (bn.g2Bytes X) = w := by
    simp [Log.hash, l2]
  have hc : guesser.c (guesser.log bn X [w, 5]) = 5 * (w.val * 7) := by
    change (((guesser.log bn X [w, 5]).hash [1]).val : K) * _ = _
    rw [Log.hash, hm, l2]
    rfl
  refine ⟨⟨a0, by simp [guesser], fun k hk => ?_, ⟨5, hm⟩⟩, ?_, fun h0 => ?_⟩
  · have hk : k = 0 := by simpa [guesser] using hk
    subst hk
    exact ⟨by simp, ⟨1, 0, a0⟩, rfl⟩
  · obtain ⟨apk, e1, e2⟩ := C137_exact bn (withSha Hash.toyAlgs (guesser.log bn X [w, 5]).hash) (by decide +kernel) 7 [(1, 0)] (by simp) [1]
      (5 * (w.val * 7))
    refine ⟨apk, e1, ?_⟩
    rw [hc]
    refine e2.2 ?_
    rw [digest_withSha, ← hX]
    have : weight bn (withSha Hash.toyAlgs (guesser.log bn X [w, 5]).hash) X (1, 0) = (w.val : K) := by
      rw [weight, digest_withSha]
      simp only [one_smul, zero_smul, add_zero]
      rw [hh]
    simp only [List.map_cons, List.map_nil, List.sum_cons, List.sum_nil, this]
    rw [Log.hash, hm, Option.getD_some, show ((5 : Word).val : K) = 5 from rfl]
    ring
  · have : guesser.secret bn X [w, 5] = 0 := by
      rw [Rogue.secret]
      have : (guesser.keys (guesser.log bn X [w, 5])) = [0] := rfl
      rw [this, h0]
      simp [Ask.a, Ask.b]
    rw [this]
    decide +kernel

/-- The set of coins in `C137_bound` is not empty, and neither is that of the coins with which the attacker wins and gives away the secret. -/
example : ([0, 5] : List Word) = List.ofFn ![0, 5] ∧ guesser.Proper bn ((7 : K) • bn.g2) [0, 5] ∧
    guesser.Wins bn ((7 : K) • bn.g2) Hash.toyAlgs [0, 5] ∧ 7 ≠ guesser.secret bn ((7 : K) • bn.g2) [0, 5] ∧ 0 + 1 < bn.order :=
  ⟨by simp, (toy_guesser 0).1, (toy_guesser 0).2.1, (toy_guesser 0).2.2 rfl, by decide +kernel⟩

/-- For eight columns of `2^33` keys, one in `2^11` tables of digests, at most, have no forging choice. -/
example (N M : Nat) (h : N * (2 ^ 33) ^ 8 ≤ bn.order * M) : N * 2 ^ 11 ≤ M := by
  have hq : bn.order ≤ 2 ^ 253 := by decide +kernel
  refine le_of_mul_le_mul_left ?_ (Nat.two_pow_pos 253)
  calc 2 ^ 253 * (N * 2 ^ 11) = N * (2 ^ 33) ^ 8 := by ring
    _ ≤ _ := h
    _ ≤ _ := Nat.mul_le_mul_right M hq

example (b : Fin 8 × Fin (2 ^ 33) → K) (w0 : Word) :=
  C137_exists_violated bn Hash.toyAlgs (by decide +kernel) 7 (by decide +kernel) 8 (2 ^ 33) (by decide) b w0

/-- Tables of keys as in `C137_table`. -/
example (w0 : Word) (u : Fin 1 × Fin 2 → Word) := C137_table bn (by decide +kernel) 7 (fun p : Fin 1 × Fin 2 => ((p.2.val + 1 : Nat) : K))
  (by decide +kernel) (by decide +kernel) w0 u

end Examples

end Dusk.Bls
