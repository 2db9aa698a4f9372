import Verif.Props.LedgerBurn
/-!
# C166: an input has the image of one of the coins in its ring

Otherwise a coin could be spent twice, with two images. As C117, for the game of C164, and with a bound that counts coins and not the rings that can be
made of them.
-/

set_option linter.unusedSectionVars false

namespace Dusk.Mlsag

variable {F G : Type} [Field F] [AddCommGroup G] [Module F G] [DecidableEq F]

section

variable (R : Ristretto F G) (dl : G → F)

open Classical in
/-- The excess of an input, for members with the first key `k`. -/
noncomputable def excess1 (k : G) (q : Bytes) : Fin 1 → G :=
  if h : ∃ d, ∃ K, Excess R dl 1 [k, K] q d then h.choose else 0

variable {R dl}

theorem excess1_eq (E : R.Encodings) (hB : R.base ≠ 0) (hdl : ∀ P, P = dl P • R.base) {k K : G} {q : Bytes} {d : Fin 1 → G}
    (h : Excess R dl 1 [k, K] q d) : excess1 R dl k q = d := by
  unfold excess1
  rw [dif_pos ⟨d, K, h⟩]
  obtain ⟨K', h'⟩ := Exists.choose_spec (⟨d, K, h⟩ : ∃ d, ∃ K, Excess R dl 1 [k, K] q d)
  exact excess_first E hB hdl h' h

variable (R dl) in
open Classical in
/-- The answers to the question `q` after which the attacker may win. -/
noncomputable def lucky1 [Fintype F] (keys : Finset G) (log : Oracle.Log F) (q : Bytes) : Finset F :=
  ((keys ×ˢ keys).biUnion fun K => Finset.univ.filter fun c =>
      im1 R dl K.1 ≠ im1 R dl K.2 ∧ excess1 R dl K.1 q - excess1 R dl K.2 q = c • (im1 R dl K.2 - im1 R dl K.1)) ∪
    ((keys ×ˢ keys).biUnion fun K => (log.toFinset ×ˢ insert q (log.map (·.1)).toFinset).biUnion fun e => Finset.univ.filter fun c =>
      excess1 R dl K.1 e.1.1 ≠ 0 ∧ c ≠ 0 ∧
        c⁻¹ • excess1 R dl K.1 e.1.1 = im1 R dl K.2 - im1 R dl K.1 + e.1.2⁻¹ • excess1 R dl K.2 e.2) ∪ {0}

theorem lucky1_card [Fintype F] (keys : Finset G) (log : Oracle.Log F) (q : Bytes) (m : Nat) (hm : log.length < m) :
    (lucky1 R dl keys log q).card ≤ keys.card ^ 2 * m ^ 2 + keys.card ^ 2 + 1 := by
  classical
  unfold lucky1
  refine (Finset.card_union_le _ _).trans (Nat.add_le_add ((Finset.card_union_le _ _).trans ?_) (by simp))
  rw [add_comm]
  refine Nat.add_le_add ?_ ?_
  · refine (Finset.card_biUnion_le_card_mul _ _ (m ^ 2) fun K _ => ?_).trans (by rw [Finset.card_product]; exact (by ring_nf; exact le_rfl))
    refine (Finset.card_biUnion_le_card_mul _ _ 1 fun e _ => ?_).trans ?_
    · rw [Finset.card_le_one]
      intro a ha b hb
      obtain ⟨h1, h2, h3⟩ := (Finset.mem_filter.1 ha).2
      obtain ⟨-, g2, g3⟩ := (Finset.mem_filter.1 hb).2
      have h4 := h3.trans g3.symm
      have : (a⁻¹ - b⁻¹) • excess1 R dl K.1 e.1.1 = 0 := by rw [sub_smul, h4, sub_self]
      rcases smul_eq_zero.1 this with h | h
      · exact inv_injective (sub_eq_zero.1 h)
      · exact absurd h h1
    · rw [mul_one, Finset.card_product, pow_two]
      have h1 : log.toFinset.card ≤ m := (List.toFinset_card_le _).trans hm.le
      have h2 : (insert q (log.map (·.1)).toFinset).card ≤ m :=
        (Finset.card_insert_le _ _).trans ((Nat.add_le_add_right (List.toFinset_card_le _) 1).trans (by simp; omega))
      exact Nat.mul_le_mul h1 h2
  · refine (Finset.card_biUnion_le_card_mul _ _ 1 fun K _ => ?_).trans (by rw [Finset.card_product, mul_one, pow_two])
    rw [Finset.card_le_one]
    intro a ha b hb
    obtain ⟨h1, h2⟩ := (Finset.mem_filter.1 ha).2
    obtain ⟨-, g2⟩ := (Finset.mem_filter.1 hb).2
    have : (a - b) • (im1 R dl K.2 - im1 R dl K.1) = 0 := by rw [sub_smul, ← h2, g2, sub_self]
    rcases smul_eq_zero.1 this with h | h
    · exact sub_eq_zero.1 h
    · exact absurd (sub_eq_zero.1 h).symm h1

/-- If the chain of challenges closes, all inputs of the hash have been asked, and the images are those of no member, then an answer was
lucky1. -/
theorem lucky1_of_chain [Fintype F] (E : R.Encodings) (hB : R.base ≠ 0) (hdl : ∀ P, P = dl P • R.base) (next : Oracle.Log F → Bytes)
    (l : List F) (keys : Finset G) (msg : Bytes) (I : List G) (ms : List (List G × List F)) (c : F) (hIv : I.length = 1)
    (hpub : ∀ m ∈ ms, m.1.getD 0 0 ∈ keys ∧ m.1.length = 2) (hfit : Fits I ms) (hforeign : ∀ m ∈ ms, vec 1 I ≠ im1 R dl (m.1.getD 0 0))
    (hdiff : ∃ m ∈ ms, ∃ m' ∈ ms, im1 R dl (m.1.getD 0 0) ≠ im1 R dl (m'.1.getD 0 0))
    (hclose : around (withHash R (Oracle.play next l).hash) msg I ms c = c)
    (hasked : ∀ i < ms.length, ∃ a, (Oracle.play next l).lookup
      (query R msg I (slot ms i).1 (slot ms i).2 (chalRound (withHash R (Oracle.play next l).hash) msg I ms c i)) = some a) :
    ∃ t, ∃ ht : t < l.length,
      l[t] ∈ lucky1 R dl keys (Oracle.play next (l.take t)) (next (Oracle.play next (l.take t))) := by
  classical
  by_contra hno
  push Not at hno
  have hms : ms ≠ [] := by
    rintro rfl
    simp at hdiff
  have hn : 0 < ms.length := List.length_pos_iff.2 hms
  generalize hC : chalRound (withHash R (Oracle.play next l).hash) msg I ms c = C at *
  have hper : ∀ i, C (i + ms.length) = C i := by
    rw [← hC]; exact chalRound_add _ msg I ms c hclose
  -- the inputs of the hash
  obtain ⟨q, hq⟩ : ∃ q : Nat → Bytes, q = fun i => query R msg I (slot ms i).1 (slot ms i).2 (C i) := ⟨_, rfl⟩
  have hqi : ∀ i, q i = query R msg I (slot ms i).1 (slot ms i).2 (C i) := fun i => by rw [hq]
  have hqper : ∀ i, q (i + ms.length) = q i := by
    intro i; rw [hqi, hqi, slot_add, hper]
  have hqper' : ∀ k i, q (i + k * ms.length) = q i := by
    intro k i
    induction k with
    | zero => simp
    | succ k ih => rw [Nat.succ_mul, ← Nat.add_assoc, hqper, ih]
  have hqmod : ∀ i, q i = q (i % ms.length) := by
    intro i
    conv_lhs => rw [← Nat.mod_add_div' i ms.length]
    exact hqper' _ _
  have hCs : ∀ i, C (i + 1) = (Oracle.play next l).hash (q i) := by
    intro i; rw [hqi, ← hC]; rfl
  -- when they were asked first
  have hfirst : ∀ i, ∃ t, ∃ ht : t < l.length, q i = next (Oracle.play next (l.take t)) ∧ C (i + 1) = l[t] ∧
      ∀ t', t < t' → (q i, C (i + 1)) ∈ Oracle.play next (l.take t') := by
    intro i
    obtain ⟨a, ha⟩ := hasked (i % ms.length) (Nat.mod_lt _ hn)
    rw [← hqi, ← hqmod] at ha
    obtain ⟨t, ht, -, h2, h3, h4⟩ := Oracle.play_first next l _ a ha
    have hCa : C (i + 1) = a := by rw [hCs, Oracle.Log.hash, ha]; rfl
    rw [hCa]
    exact ⟨t, ht, h2, h3, fun t' htt => Oracle.mem_of_lookup (h4 t' htt)⟩
  have hC0 : ∀ i, C (i + 1) ≠ 0 := by
    intro i h0
    obtain ⟨t, ht, -, h2, -⟩ := hfirst i
    refine hno t ht ?_
    rw [← h2, h0]
    simp [lucky1]
  have hC0' : ∀ i, C i ≠ 0 := by
    intro i
    rw [← hper i, show i + ms.length = (i + ms.length - 1) + 1 by omega]
    exact hC0 _
  have hexc : ∀ i, excess1 R dl ((slot ms i).1.getD 0 0) (q i) = C i • (vec 1 I - im1 R dl ((slot ms i).1.getD 0 0)) := by
    intro i
    have hm := hfit _ (slot_mem ms hms i)
    obtain ⟨k, K, hK⟩ := List.length_eq_two.1 (hpub _ (slot_mem ms hms i)).2
    rw [hK] at hm
    have he := hqi i
    rw [hK] at he ⊢
    refine excess1_eq E hB hdl (K := K) ⟨msg, I, _, C i, hIv, by simp, hm.1, he, ?_⟩
    rw [im1_eq]
  -- the input asked last
  choose T hTl hT1 hT2 hT3 using hfirst
  obtain ⟨i0, hi0, hmax⟩ := (Finset.range ms.length).exists_max_image T ⟨0, Finset.mem_range.2 hn⟩
  have hlast : ∀ i, q i = q i0 ∨ (q i, C (i + 1)) ∈ Oracle.play next (l.take (T i0)) := by
    intro i
    have hle := hmax (i % ms.length) (Finset.mem_range.2 (Nat.mod_lt _ hn))
    rcases Nat.lt_or_ge (T (i % ms.length)) (T i0) with h | h
    · right
      have := hT3 (i % ms.length) (T i0) h
      rw [hCs, ← hqmod] at this
      rw [hCs]
      exact this
    · left
      rw [hqmod i, hT1 (i % ms.length), hT1 i0, Nat.le_antisymm hle h]
  have hstar : ∀ i, q i = q i0 → C (i + 1) = l[T i0]'(hTl i0) := by
    intro i hi
    rw [hCs, hi, ← hCs, hT2]
  have hno := hno (T i0) (hTl i0)
  rw [← hT1] at hno
  refine hno ?_
  unfold lucky1
  by_cases hall : ∀ i, q i = q i0
  · -- all inputs are the same
    obtain ⟨m, hm, m', hm', hne⟩ := hdiff
    obtain ⟨a, ha, rfl⟩ := List.mem_iff_getElem.1 hm
    obtain ⟨b, hb, rfl⟩ := List.mem_iff_getElem.1 hm'
    have hCa : ∀ i, C i = l[T i0]'(hTl i0) := by
      intro i
      rw [← hper i, show i + ms.length = (i + ms.length - 1) + 1 by omega]
      exact hstar _ (hall _)
    refine Finset.mem_union_left _ (Finset.mem_union_left _ (Finset.mem_biUnion.2 ⟨(ms[a].1.getD 0 0, ms[b].1.getD 0 0),
      Finset.mem_product.2 ⟨(hpub _ hm).1, (hpub _ hm').1⟩, Finset.mem_filter.2 ⟨Finset.mem_univ _, hne, ?_⟩⟩))
    have e1 := hexc a
    have e2 := hexc b
    rw [slot_lt ms a ha, hall a, hCa] at e1
    rw [slot_lt ms b hb, hall b, hCa] at e2
    simp only
    rw [e1, e2, ← smul_sub]
    congr 1
    abel
  · -- the first slot after one with the last input
    have hex : ∃ i, q i = q i0 ∧ q (i + 1) ≠ q i0 := by
      by_contra hcon
      push Not at hcon hall
      obtain ⟨i1, hi1⟩ := hall
      have : ∀ s, q (i0 + s) = q i0 := by
        intro s
        induction s with
        | zero => rfl
        | succ s ih => exact hcon _ ih
      refine hi1 ?_
      rw [← hqper' i0 i1]
      have hge : i0 ≤ i1 + i0 * ms.length := by nlinarith
      rw [show i1 + i0 * ms.length = i0 + (i1 + i0 * ms.length - i0) by omega]
      exact this _
    obtain ⟨i, h1, h2⟩ := hex
    have hmem := (hlast (i + 1)).resolve_left h2
    have hk : q (i + 2) ∈ insert (q i0) ((Oracle.play next (l.take (T i0))).map (·.1)).toFinset := by
      rcases hlast (i + 2) with h | h
      · rw [h]; exact Finset.mem_insert_self _ _
      · exact Finset.mem_insert_of_mem (List.mem_toFinset.2 (List.mem_map.2 ⟨_, h, rfl⟩))
    refine Finset.mem_union_left _ (Finset.mem_union_right _ (Finset.mem_biUnion.2 ⟨((slot ms (i + 1)).1.getD 0 0, (slot ms (i + 2)).1.getD 0 0),
      Finset.mem_product.2 ⟨(hpub _ (slot_mem ms hms _)).1, (hpub _ (slot_mem ms hms _)).1⟩, Finset.mem_biUnion.2
      ⟨((q (i + 1), C (i + 2)), q (i + 2)), Finset.mem_product.2 ⟨List.mem_toFinset.2 hmem, hk⟩,
        Finset.mem_filter.2 ⟨Finset.mem_univ _, ?_, ?_, ?_⟩⟩⟩))
    · simp only
      rw [hexc]
      intro h0
      rcases smul_eq_zero.1 h0 with h0 | h0
      · exact hC0' _ h0
      · exact hforeign _ (slot_mem ms hms _) (sub_eq_zero.1 h0)
    · rw [← hT2]; exact hC0 _
    · simp only
      rw [hexc, hexc, inv_smul_smul₀ (hC0' _), hstar i h1, inv_smul_smul₀ (by rw [← hT2]; exact hC0 _)]
      abel

end

theorem im1_getD (R : Ristretto F G) (dl : G → F) (K : List G) : imv R dl 1 K = im1 R dl (K.getD 0 0) := by
  funext j
  obtain rfl : j = 0 := Subsingleton.elim _ _
  rfl

/-- C110 for members with one of the given first keys and any second key. -/
theorem linkable_coins [Fintype F] {R : Ristretto F G} (E : R.Encodings) (hB : R.base ≠ 0) (hgen : ∀ P, ∃ x : F, P = x • R.base)
    (A : Linker F G) (coins : Finset (G × G)) (Q n : Nat) :
    Fintype.card F * Nat.card {l : Fin (Q + n) → F // ∃ sig I, A.Wins R (vaultKeys R coins) 1 Q n (List.ofFn l) sig I} ≤
      (Q + n) * (coins.card ^ 2 * (Q + n) ^ 2 + coins.card ^ 2 + 1) * Fintype.card F ^ (Q + n) := by
  classical
  choose dl hdl using hgen
  have hcard : (coins.image Prod.fst).card ≤ coins.card := Finset.card_image_le
  refine le_trans (Nat.mul_le_mul_left _ ?_) (Oracle.card_guess (coins.card ^ 2 * (Q + n) ^ 2 + coins.card ^ 2 + 1) (Q + n)
    (fun l => lucky1 R dl (coins.image Prod.fst) (Oracle.play (A.question R Q) l) (A.question R Q (Oracle.play (A.question R Q) l)))
    fun l hl => (lucky1_card _ _ _ _ (by rw [Oracle.play_length]; exact hl)).trans
      (Nat.add_le_add_right (Nat.add_le_add (Nat.mul_le_mul_right _ (Nat.pow_le_pow_left hcard 2)) (Nat.pow_le_pow_left hcard 2)) 1))
  refine Nat.card_le_card_of_injective (fun x => ⟨x.1, ?_⟩) fun x y h => Subtype.ext (by simpa using h)
  obtain ⟨l, sig, I, h⟩ := x
  show ∃ t : Fin (Q + n), l t ∈ _
  have hxdl : ∀ x : F, ∀ P, P = x • R.base → x = dl P := by
    intro x P hP
    have h1 := hdl P
    have : (x - dl P) • R.base = 0 := by rw [sub_smul, ← hP, ← h1, sub_self]
    rcases smul_eq_zero.1 this with h | h
    · exact sub_eq_zero.1 h
    · exact absurd h hB
  have himage : ∀ (K : List G) (j : Nat) (hj : j < 1) (x : F), K[j]? = some (x • R.base) → imv R dl 1 K ⟨j, hj⟩ = image R x := by
    intro K j hj x hx
    unfold imv image
    rw [List.getD_eq_getElem?_getD, hx, Option.getD_some, ← hxdl x _ rfl]
  have hdiff : ∀ m m' : List G × List F, ImagesDiffer R 1 m.1 m'.1 → imv R dl 1 m.1 ≠ imv R dl 1 m'.1 := by
    rintro m m' ⟨j, hj, x, x', h1, h2, h3⟩ he
    have := congrFun he ⟨j, hj⟩
    rw [himage _ _ hj _ h1, himage _ _ hj _ h2] at this
    exact h3 this
  -- shapes
  obtain ⟨m, hm, m', hm', hd⟩ := h.differ
  have hd' := hdiff m m' hd
  have hv : I ≠ [] := by
    rintro rfl
    obtain ⟨j, hj, -⟩ := hd
    have := h.images
    simp only [List.length_nil] at this
    omega
  have hr : sig.r ≠ [] := by
    intro hr
    simp [ringOf, hr] at hm
  have hp : sig.pubKeys ≠ [] := by
    intro hp
    simp [ringOf, hp] at hm
  have hacc := h.accepted
  have hfits : sig.r.length ≤ sig.pubKeys.length ∧ Fits I (ringOf sig) := by
    by_contra hcon
    rw [(C26_panic_iff (withHash R (A.game R Q (List.ofFn l)).hash) sig I hp hr hv).2 hcon] at hacc
    cases hacc
  have hlen : (ringOf sig).length = sig.r.length := by simp [ringOf]; omega
  have h2 : 2 ≤ sig.r.length := by
    by_contra hcon
    have h1 : (ringOf sig).length = 1 := by
      have := List.length_pos_iff.2 hr
      omega
    obtain ⟨a, ha⟩ := List.length_eq_one_iff.1 h1
    rw [ha] at hm hm'
    rw [List.mem_singleton.1 hm, List.mem_singleton.1 hm'] at hd'
    exact hd' rfl
  have hclose := (C17_verify (withHash R (A.game R Q (List.ofFn l)).hash) sig I h2 hfits.1 hv hfits.2).1.1 hacc
  obtain ⟨t, ht, hmem⟩ := lucky1_of_chain E hB hdl (A.question R Q) (List.ofFn l) (coins.image Prod.fst) sig.msg I (ringOf sig) sig.c h.images
    (by
      intro m hm
      obtain ⟨k, hk, e⟩ := List.mem_map.1 (List.of_mem_zip hm).1
      rw [← e]
      obtain ⟨y, hy, z, hz⟩ := mem_vaultKeys (h.published k hk)
      rw [hz]
      exact ⟨Finset.mem_image_of_mem _ hy, rfl⟩)
    hfits.2
    (by
      intro m hm he
      refine h.foreign m hm fun j hj => ?_
      have hjv : j < 1 := by rw [← h.images]; exact hj
      have hjK : j < m.1.length := lt_of_lt_of_le hj (hfits.2 m hm).2
      refine ⟨dl m.1[j], by rw [← hdl, List.getElem?_eq_getElem hjK], ?_⟩
      rw [← im1_getD] at he
      have := congrFun he ⟨j, hjv⟩
      rw [himage m.1 j hjv (dl m.1[j]) (by rw [← hdl, List.getElem?_eq_getElem hjK])] at this
      rw [← this]
      simp [vec, List.getD_eq_getElem?_getD, hj])
    ⟨m, hm, m', hm', by rw [← im1_getD, ← im1_getD]; exact hd'⟩ hclose
    (by
      intro i hi
      have hi' : Q + i < (List.ofFn l).length := by
        have := h.size
        simp only [List.length_ofFn]
        omega
      have ht : tour sig = ringOf sig := if_neg (by omega)
      have := asked A R Q (List.ofFn l) sig I h.output i (by rw [ht]; exact hi) hi'
      rw [ht] at this
      have he := Oracle.play_entry (A.question R Q) (List.ofFn l) (Q + i) hi'
      exact Oracle.lookup_of_mem (List.mem_of_getElem? (by rw [he, this]; rfl)))
  simp only [List.length_ofFn] at ht
  exact ⟨⟨t, ht⟩, by simpa using hmem⟩


/-- The coins of the ring that `Verify` visits: there may be more keys than responses. -/
def visitedCoins (sig : Signature F G) (ring : List (G × G)) : List (G × G) := ring.take sig.r.length

theorem visited_members {sig : Signature F G} {ring : List (G × G)} {P : G} (h : sig.pubKeys.map (·.keys) = ring.map fun k => [k.1, k.2 - P]) :
    (∀ m ∈ ringOf sig, ∃ k ∈ visitedCoins sig ring, m.1 = [k.1, k.2 - P]) ∧
    ∀ k ∈ visitedCoins sig ring, ∃ m ∈ ringOf sig, m.1 = [k.1, k.2 - P] := by
  unfold ringOf visitedCoins
  rw [h]
  constructor
  · intro m hm
    obtain ⟨i, hi, rfl⟩ := List.mem_iff_getElem.1 hm
    simp only [List.length_zip, List.length_map, lt_min_iff] at hi
    refine ⟨ring[i], List.mem_take_iff_getElem.2 ⟨i, by omega, rfl⟩, ?_⟩
    simp
  · intro k hk
    obtain ⟨i, hi, rfl⟩ := List.mem_take_iff_getElem.1 hk
    have hi' : i < ((ring.map fun k => [k.1, k.2 - P]).zip sig.r).length := by
      simp only [List.length_zip, List.length_map]
      omega
    exact ⟨_, List.getElem_mem hi', by simp⟩

/-- C166: nobody can make an input whose image is not the image of a coin of the ring, if two coins of the ring have different images. The attacker computes without
bounds, and may know the keys of all coins. -/
theorem C166_image [Fintype F] {R : Ristretto F G} (E : R.Encodings) (hB : R.base ≠ 0) (hgen : ∀ P, ∃ x : F, P = x • R.base) (gen : Bytes)
    (A : Thief F G) (s : Nat → Wallet F) (h1 : ∀ u, (s u).key ≠ 0) (h2 : ∀ u, (s u).blind ≠ (s u).old.blind) (w T n m p : Nat) (hw : 1 ≤ w)
    (hA : A.Valid w) (coins : Finset (G × G)) (hm : m = T * w + n) (hp : p = coins.card) :
    (Nat.card {q : (Fin T → StepCoins 2 w F) × (Fin n → F) // ∃ ring P sig I,
        A.Steals R gen s coins n (List.ofFn q.1) (List.ofFn q.2) ring P sig I ∧
        (∃ k ∈ visitedCoins sig ring, ∃ k' ∈ visitedCoins sig ring, ∃ x x' : F, k.1 = x • R.base ∧ k'.1 = x' • R.base ∧ image R x ≠ image R x') ∧
        ∀ k ∈ visitedCoins sig ring, ∀ x : F, k.1 = x • R.base → I ≠ image R x} : ℚ) /
      Nat.card ((Fin T → StepCoins 2 w F) × (Fin n → F)) ≤ (T ^ 2 * w + m * (p ^ 2 * m ^ 2 + p ^ 2 + 1)) / Fintype.card F := by
  subst hm hp
  have hpub : ∀ K ∈ vaultKeys R coins, K.length = 2 := by
    intro K hK
    obtain ⟨k, -, y, rfl⟩ := mem_vaultKeys hK
    rfl
  have g1 := simulated_prob E hB (A.chooser fun u => (s u).point R gen) true (walletKeys s) 2 w T n (by omega) hw (fun _ => rfl)
    (A.chooser_valid hA _) (vaultKeys R coins) hpub 1 rfl fun sig I =>
      (∃ m ∈ ringOf sig, ∃ m' ∈ ringOf sig, ImagesDiffer R 1 m.1 m'.1) ∧ ∀ m ∈ ringOf sig, ¬ HasImages R m.1 I
  have g2 := family_prob (Fintype.card F) ((T * w + n) * (coins.card ^ 2 * (T * w + n) ^ 2 + coins.card ^ 2 + 1)) Fintype.card_pos Fintype.card_pos
    (fun p : (Fin T → SimCoins 2 w F) × (Fin (T * w + n) → F) => ∃ sig I,
      ((A.chooser fun u => (s u).point R gen).simulator R (keysOf R (walletKeys s)) (imsOf R true (walletKeys s)) T (ext p.1)).Forges R
        (vaultKeys R coins) 1 (T * w) n (List.ofFn p.2) sig I ∧
        (∃ m ∈ ringOf sig, ∃ m' ∈ ringOf sig, ImagesDiffer R 1 m.1 m'.1) ∧ ∀ m ∈ ringOf sig, ¬ HasImages R m.1 I) (by
      intro ρ
      rw [Fintype.card_fun, Fintype.card_fin]
      refine le_trans (Nat.mul_le_mul_left _ ?_) (linkable_coins E hB hgen
        ((A.chooser fun u => (s u).point R gen).simulator R (keysOf R (walletKeys s)) (imsOf R true (walletKeys s)) T (ext ρ)) coins (T * w) n)
      refine Nat.card_le_card_of_injective (fun x => ⟨x.1, ?_⟩) fun x y h => Subtype.ext (by simpa using h)
      obtain ⟨l, sig, I, h, hd, hf⟩ := x
      exact ⟨sig, I, h.output, h.accepted, h.size, h.published, h.images, hd, hf⟩)
  have g3 := g1.trans g2
  rw [sub_le_iff_le_add] at g3
  refine le_trans ?_ (g3.trans (le_of_eq ?_))
  · gcongr
    refine Nat.card_le_card_of_injective (Subtype.impEmbedding _ _ ?_) (Subtype.impEmbedding _ _ _).injective
    rintro q ⟨ring, P, sig, I, hs, ⟨k, hk, k', hk', x, x', e1, e2, hne⟩, hf⟩
    obtain ⟨v1, v2⟩ := visited_members hs.members
    refine ⟨sig, [I], hs.forges h1 h2 hgen hA, ?_, ?_⟩
    · obtain ⟨a, ha, ea⟩ := v2 k hk
      obtain ⟨b, hb, eb⟩ := v2 k' hk'
      exact ⟨a, ha, b, hb, 0, by omega, x, x', by rw [ea, ← e1]; rfl, by rw [eb, ← e2]; rfl, hne⟩
    · intro a ha hI
      obtain ⟨c, hc, ec⟩ := v1 a ha
      obtain ⟨x, y1, y2⟩ := hI 0 (by simp)
      rw [ec] at y1
      exact hf c hc x (by simpa using y1) (by simpa using y2)
  · push_cast
    ring

/-! ### A lucky attacker -/

/-- The coins of the lucky attacker of C110; its new commitment is zero. -/
def luckCoins : List (Toy.K × Toy.K) :=
  [(((1 : Nat) : Toy.K) • Toy.ris.base, ((5 : Nat) : Toy.K) • Toy.ris.base), (((2 : Nat) : Toy.K) • Toy.ris.base, ((6 : Nat) : Toy.K) • Toy.ris.base)]

/-- It asks one question. -/
def luckThief (c im : Toy.K) : Thief Toy.K Toy.K := ⟨fun _ _ => .hash [], fun _ _ => (0, luckSig c, im)⟩

theorem luck_steals (c im : Toy.K) (h1 : im ≠ image Toy.ris ((1 : Nat) : Toy.K)) (h2 : im ≠ image Toy.ris ((2 : Nat) : Toy.K))
    (gen : Bytes) (s : Nat → Wallet Toy.K) (t : StepCoins 2 1 Toy.K) (ht : ext t.2.2 0 = c) :
    (luckThief c im).Steals Toy.ris gen s luckCoins.toFinset 2 [t] [c, c] luckCoins 0 (luckSig c) im := by
  have h := luck_forges c im h1 h2 (fun _ => []) t ht
  refine ⟨rfl, h.accepted, h.size, ?_, fun k hk => List.mem_toFinset.2 hk, h.fresh⟩
  simp [luckSig, luckKeys, luckCoins]

/-- Its success is possible and rare, for wallets with the key 3 and a coin of value 5. -/
theorem luck_doubled (c im : Toy.K) (h1 : im ≠ image Toy.ris ((1 : Nat) : Toy.K)) (h2 : im ≠ image Toy.ris ((2 : Nat) : Toy.K))
    (s : Nat → Wallet Toy.K) (hs : s = fun _ => ⟨3, ⟨5, 7⟩, 8⟩) (q : ℚ)
    (hq : q = (Nat.card {q : (Fin 1 → StepCoins 2 1 Toy.K) × (Fin 2 → Toy.K) // ∃ ring P sig I,
        (luckThief c im).Steals Toy.ris [2] s luckCoins.toFinset 2 (List.ofFn q.1) (List.ofFn q.2) ring P sig I ∧
        (∃ k ∈ visitedCoins sig ring, ∃ k' ∈ visitedCoins sig ring, ∃ x x' : Toy.K, k.1 = x • Toy.ris.base ∧ k'.1 = x' • Toy.ris.base ∧
          image Toy.ris x ≠ image Toy.ris x') ∧
        ∀ k ∈ visitedCoins sig ring, ∀ x : Toy.K, k.1 = x • Toy.ris.base → I ≠ image Toy.ris x} : ℚ) /
      Nat.card ((Fin 1 → StepCoins 2 1 Toy.K) × (Fin 2 → Toy.K))) : 0 < q ∧ q ≤ 124 / Fintype.card Toy.K := by
  have g1 : ∀ u, (s u).key ≠ 0 := by
    rw [hs]
    intro _
    show (3 : Toy.K) ≠ 0
    decide +kernel
  have g2 : ∀ u, (s u).blind ≠ (s u).old.blind := by
    rw [hs]
    intro _
    show (8 : Toy.K) ≠ 7
    decide +kernel
  have hb : ∀ x : Toy.K, x • Toy.ris.base = x := fun x => mul_one x
  constructor
  · rw [hq]
    have : Nonempty {q : (Fin 1 → StepCoins 2 1 Toy.K) × (Fin 2 → Toy.K) // ∃ ring P sig I,
        (luckThief c im).Steals Toy.ris [2] s luckCoins.toFinset 2 (List.ofFn q.1) (List.ofFn q.2) ring P sig I ∧
        (∃ k ∈ visitedCoins sig ring, ∃ k' ∈ visitedCoins sig ring, ∃ x x' : Toy.K, k.1 = x • Toy.ris.base ∧ k'.1 = x' • Toy.ris.base ∧
          image Toy.ris x ≠ image Toy.ris x') ∧
        ∀ k ∈ visitedCoins sig ring, ∀ x : Toy.K, k.1 = x • Toy.ris.base → I ≠ image Toy.ris x} := by
      refine ⟨⟨(fun _ => (fun _ => c, fun _ _ => c, fun _ => c), fun _ => c), luckCoins, 0, luckSig c, im,
        luck_steals c im h1 h2 [2] s _ (by simp [ext]), ?_, ?_⟩⟩
      · refine ⟨luckCoins[0], by simp [visitedCoins, luckCoins, luckSig], luckCoins[1], by simp [visitedCoins, luckCoins, luckSig], _, _, rfl, rfl, ?_⟩
        rw [toy_image 1 (by norm_num), toy_image 2 (by norm_num)]
        exact toy_ne _ _ (by norm_num) (by norm_num) (by norm_num)
      · intro k hk x hx
        simp only [visitedCoins, luckCoins, luckSig, List.length_cons, List.length_nil, List.take_succ_cons, List.take_zero, List.mem_cons,
          List.not_mem_nil, or_false] at hk
        rcases hk with rfl | rfl
        · have hx : ((1 : Nat) : Toy.K) = x := by rw [← hb ((1 : Nat) : Toy.K), ← hb x]; exact hx
          rw [← hx]
          exact h1
        · have hx : ((2 : Nat) : Toy.K) = x := by rw [← hb ((2 : Nat) : Toy.K), ← hb x]; exact hx
          rw [← hx]
          exact h2
    have h0 := Nat.card_pos (α := {q : (Fin 1 → StepCoins 2 1 Toy.K) × (Fin 2 → Toy.K) // ∃ ring P sig I,
        (luckThief c im).Steals Toy.ris [2] s luckCoins.toFinset 2 (List.ofFn q.1) (List.ofFn q.2) ring P sig I ∧
        (∃ k ∈ visitedCoins sig ring, ∃ k' ∈ visitedCoins sig ring, ∃ x x' : Toy.K, k.1 = x • Toy.ris.base ∧ k'.1 = x' • Toy.ris.base ∧
          image Toy.ris x ≠ image Toy.ris x') ∧
        ∀ k ∈ visitedCoins sig ring, ∀ x : Toy.K, k.1 = x • Toy.ris.base → I ≠ image Toy.ris x})
    have h3 : 0 < Nat.card ((Fin 1 → StepCoins 2 1 Toy.K) × (Fin 2 → Toy.K)) := Nat.card_pos
    exact div_pos (by exact_mod_cast h0) (by exact_mod_cast h3)
  · have hcard : luckCoins.toFinset.card = 2 := by
      refine List.toFinset_card_of_nodup ?_
      simp only [luckCoins, List.nodup_cons, List.mem_singleton, List.not_mem_nil, not_false_eq_true, List.nodup_nil, and_true]
      intro h
      have h := congrArg Prod.fst h
      simp only at h
      rw [hb, hb] at h
      exact toy_ne 1 2 (by norm_num) (by norm_num) (by norm_num) h
    have h := C166_image Toy.ris_encodings (by simp [Toy.ris]) (fun P => ⟨P, (mul_one P).symm⟩) [2] (luckThief c im) s g1 g2 1 1 2 3 2 le_rfl
      (by intro _ _ _ _ _ _ h; cases h) luckCoins.toFinset (by norm_num) hcard.symm
    rw [← hq] at h
    norm_num at h ⊢
    exact h

end Dusk.Mlsag
