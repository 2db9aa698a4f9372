import Verif.Lemmas.RPAccept
import Verif.Props.RPShape
import Verif.Props.MlsagLink
import Verif.Props.RPCases
/-!
# C114: soundness of the range proof against provers that use the hash function
-/

set_option linter.unusedSectionVars false

namespace Dusk.RP

open RPFold

variable {F G : Type} [Field F] [AddCommGroup G] [Module F G] [DecidableEq F] [DecidableEq G]

/-- The shape of accepted proofs. -/
theorem accepted_shape {R : Ristretto F G} {m k : Nat} (hk : k < 32) (hn : 64 * m = 2 ^ k) {p : Proof F G} {c : F}
    (h : verify R m p c = .ok true) :
    p.ip = some p.inner ∧ p.inner.L.length = k ∧ p.inner.R.length = k ∧ m ≤ p.V.length := by
  have hlt : 64 * m < 2 ^ 32 := by rw [hn]; exact Nat.pow_lt_pow_right (by norm_num) hk
  have hm : 1 ≤ m := by
    have : 0 < 2 ^ k := by positivity
    omega
  obtain ⟨h1, h2, h3, -⟩ := C86_shapes R m hm hlt p c
  cases hip : p.ip with
  | none => rw [h1 hip] at h; cases h
  | some ip =>
    have hin : p.inner = ip := by simp [Proof.inner, hip]
    rw [hin]
    by_cases hf : Fits m ip
    · obtain ⟨hf1, hf2⟩ := hf
      have hL : ip.L.length = k := by
        rw [hn] at hf2
        exact Nat.pow_right_injective le_rfl hf2
      refine ⟨rfl, hL, by omega, ?_⟩
      by_contra hc
      rw [h3 ip hip ⟨hf1, hf2⟩ (by omega)] at h
      cases h
    · have := h2 ip hip hf
      rw [h] at this
      simp [Res.IsErr] at this

theorem pub_withHash (R : Ristretto F G) (h : Bytes → F) (n : Nat) : pub (Mlsag.withHash R h) n = pub R n := by
  have h1 : ∀ data i, chainAt (Mlsag.withHash R h) data i = chainAt R data i := by
    intro data i
    induction i with
    | zero => rfl
    | succ i ih => rw [chainAt, chainAt, ih]; rfl
  have h2 : ∀ data, chain (Mlsag.withHash R h) data n = chain R data n := fun data => List.map_congr_left fun i _ => h1 data i
  unfold pub
  rw [h2, h2]
  rfl

/-- C114: if a proof is accepted and coefficients of its points over the public points are known, these give a relation between the
public points. -/
theorem C114_relation (R : Ristretto F G) (h : Bytes → F) {m k : Nat} (hk : k < 32) (hn : 64 * m = 2 ^ k) (κ : Bytes → Coef F)
    (p : Proof F G) (he : Explains R (64 * m) κ p) (c : F) (ha : verify (Mlsag.withHash R h) m p c = .ok true) :
    ev (pub R (64 * m)) (64 * m) (relation R h κ m p c) = 0 := by
  obtain ⟨hip, hL, hR, hV⟩ := accepted_shape hk hn ha
  have hm : 2 ^ k = nBits * m := hn.symm
  rw [verify_eq (Mlsag.withHash R h) c p p.inner hip hk hm hL hR hV] at ha
  have hus : (IP.chals (Mlsag.withHash R h) p.inner) = foldAt R h p.inner := by
    rw [IP.chals_eq]
    rfl
  rw [relation_ev he h (hL.trans hR.symm) hV]
  split at ha
  · rename_i h0
    rw [hus, ← residue2_eq] at h0
    · rw [show pub (Mlsag.withHash R h) (nBits * m) = pub R (64 * m) from pub_withHash R h _] at h0
      exact h0
    · rw [← hm]
      simp [foldAt, hL, hR]
    · simp [pub]
    · simp [pub]
  · cases ha

/-- C114: coefficients that open the commitments to values below `2^64`. -/
theorem C114_opening (R : Ristretto F G) {m : Nat} (κ : Bytes → Coef F) (p : Proof F G) (hV : m ≤ p.V.length)
    (he : Explains R (64 * m) κ p) (hk : Knows R κ m p) :
    ∀ j < m, ∃ N < 2 ^ 64, (p.V.map fun V => V.value).getD j 0 = ((N : Nat) : F) • R.pDerive (strBytes "blindPoint")
      + (κ (R.pBytes ((p.V.map fun V => V.value).getD j 0))).2.2.2 • R.base := by
  intro j hj
  obtain ⟨h1, h2, N, hN, h3⟩ := hk j hj
  refine ⟨N, hN, ?_⟩
  have h := he ((p.V.map fun V => V.value).getD j 0) (by
    rw [List.getD_eq_getElem _ _ (by simp; omega)]
    simp only [Proof.points, List.mem_append]
    exact .inl (.inl (.inl (List.getElem_mem _))))
  conv_lhs => rw [← h]
  unfold ev
  rw [h3, Finset.sum_eq_zero, Finset.sum_eq_zero, zero_add, zero_add]
  · rfl
  · intro i hi
    rw [h2 i (Finset.mem_range.1 hi), zero_smul]
  · intro i hi
    rw [h1 i (Finset.mem_range.1 hi), zero_smul]

/-! ## The game -/

/-- In the end all questions of the verifier have been asked. -/
theorem game_asks (A : AlgProver F G) (R : Ristretto F G) (Q k : Nat) (l : List F) (hl : l.length = Q + k + 4) :
    let log := A.game R Q l
    ∀ i < k + 4, ∃ a, log.lookup (verifierAsks R log.hash (A.out (log.take Q)) i) = some a := by
  intro log
  set p := A.out (log.take Q) with hp
  have hlen : log.length = Q + k + 4 := (Oracle.play_length _ _).trans hl
  have entry : ∀ i < k + 4, ∃ a, log.lookup (verifierAsks R (Oracle.Log.hash (log.take (Q + i))) p i) = some a ∧
      (log.take (Q + i + 1)).lookup (verifierAsks R (Oracle.Log.hash (log.take (Q + i))) p i) = some a := by
    intro i hi
    have he := Oracle.play_entry (A.question R Q) l (Q + i) (by omega)
    simp only [Oracle.play_take] at he
    change log[Q + i]? = some (A.question R Q (log.take (Q + i)), log.hash (A.question R Q (log.take (Q + i)))) at he
    have hq : A.question R Q (log.take (Q + i)) = verifierAsks R (Oracle.Log.hash (log.take (Q + i))) p i := by
      unfold AlgProver.question
      rw [List.length_take, Nat.min_eq_left (by omega), if_neg (by omega), List.take_take, Nat.min_eq_left (by omega),
        Nat.add_sub_cancel_left]
    rw [hq] at he
    have hm : (verifierAsks R (Oracle.Log.hash (log.take (Q + i))) p i, log.hash (verifierAsks R (Oracle.Log.hash (log.take (Q + i))) p i)) ∈
        log.take (Q + i + 1) := by
      rw [List.mem_iff_getElem?]
      refine ⟨Q + i, ?_⟩
      rw [List.getElem?_take_of_lt (by omega), he]
    obtain ⟨a, ha⟩ := Oracle.lookup_of_mem hm
    exact ⟨a, Oracle.lookup_take ha, ha⟩
  have stable : ∀ {s : Bytes} {a : F} {t : Nat}, (log.take t).lookup s = some a → Oracle.Log.hash (log.take t) s = log.hash s := by
    intro s a t h
    rw [Oracle.Log.hash, Oracle.Log.hash, h, Oracle.lookup_take h]
  have mono : ∀ {s : Bytes} {a : F} {t t' : Nat}, t ≤ t' → (log.take t).lookup s = some a → (log.take t').lookup s = some a := by
    intro s a t t' htt h
    have : log.take t = (log.take t').take t := by rw [List.take_take, Nat.min_eq_left htt]
    rw [this] at h
    exact Oracle.lookup_take h
  obtain ⟨ay, hy, hy'⟩ := entry 0 (by omega)
  have sy : ∀ i, 1 ≤ i → (Oracle.Log.hash (log.take (Q + i))) (strY R p) = log.hash (strY R p) := fun i hi => stable (mono (by omega) hy')
  obtain ⟨az, hz, hz'⟩ := entry 1 (by omega)
  simp only [verifierAsks] at hz hz'
  rw [sy 1 le_rfl] at hz hz'
  have sz : ∀ i, 2 ≤ i → (Oracle.Log.hash (log.take (Q + i))) (R.sBytes (log.hash (strY R p))) = log.hash (R.sBytes (log.hash (strY R p))) :=
    fun i hi => stable (mono (by omega) hz')
  have ex : ∀ i, 2 ≤ i → strX R (Oracle.Log.hash (log.take (Q + i))) p = strX R log.hash p := by
    intro i hi
    unfold strX
    rw [sy i (by omega), sz i hi]
  obtain ⟨ax, hx, hx'⟩ := entry 2 (by omega)
  simp only [verifierAsks] at hx hx'
  rw [ex 2 le_rfl] at hx hx'
  have sx : ∀ i, 3 ≤ i → (Oracle.Log.hash (log.take (Q + i))) (strX R log.hash p) = log.hash (strX R log.hash p) :=
    fun i hi => stable (mono (by omega) hx')
  intro i hi
  match i, hi with
  | 0, _ => exact ⟨ay, hy⟩
  | 1, _ => exact ⟨az, hz⟩
  | 2, _ => exact ⟨ax, hx⟩
  | 3, _ =>
    obtain ⟨aw, hw, -⟩ := entry 3 (by omega)
    simp only [verifierAsks] at hw ⊢
    unfold strW at hw ⊢
    rw [ex 3 (by omega), sx 3 le_rfl] at hw
    exact ⟨aw, hw⟩
  | j + 4, hj =>
    obtain ⟨a, h, -⟩ := entry (j + 4) hj
    exact ⟨a, h⟩

theorem luckBound_le (k m T : Nat) : luckBound k m T ≤ luckyAnswers k m T := by
  unfold luckBound luckyAnswers rootBound
  apply le_of_eq
  ring

/-- The prover wins: the verifier accepts, the prover's coefficients are right, but they open no commitments to small values and give no
relation between the public points. -/
structure Wins (A : AlgProver F G) (R : Ristretto F G) (m k Q : Nat) (coins : Fin (Q + k + 5) → F) : Prop where
  accepted : let log := A.game R Q ((List.ofFn coins).take (Q + k + 4))
    verify (Mlsag.withHash R log.hash) m (A.out (log.take Q)) (coins (Fin.last _)) = .ok true
  explained : let log := A.game R Q ((List.ofFn coins).take (Q + k + 4))
    Explains R (64 * m) (A.coef log) (A.out (log.take Q))
  unknown : let log := A.game R Q ((List.ofFn coins).take (Q + k + 4))
    ¬ Knows R (A.coef log) m (A.out (log.take Q))
  norelation : let log := A.game R Q ((List.ofFn coins).take (Q + k + 4))
    ¬ (ev (pub R (64 * m)) (64 * m) (relation R log.hash (A.coef log) m (A.out (log.take Q)) (coins (Fin.last _))) = 0 ∧
      (relation R log.hash (A.coef log) m (A.out (log.take Q)) (coins (Fin.last _))).Nonzero (64 * m))

/-- C114: for every prover, nothing bounding its computations, that asks `Q` questions to the hash function: the fraction of the coins with
which it wins is at most `(Q + k + 5) luckyAnswers / |F|`. -/
theorem C114_soundness [Fintype F] (R : Ristretto F G) (E : R.Encodings) (A : AlgProver F G) (Q : Nat) {m k : Nat} (hk : k < 32)
    (hn : 64 * m = 2 ^ k) :
    Fintype.card F * Nat.card {coins : Fin (Q + k + 5) → F // Wins A R m k Q coins} ≤
      (Q + k + 5) * luckyAnswers k m (Q + k + 5) * Fintype.card F ^ (Q + k + 5) := by
  classical
  let S : List F → Finset F := fun l =>
    let log := A.game R Q l
    let p := A.out (log.take Q)
    if l.length < Q + k + 4 then lucky A R m k log (A.question R Q log) else
      cBad (rel1 R (A.coef log) m (chalAt R log.hash p) p)
        (rel2 R (A.coef log) (chalAt R log.hash p) (foldAt R log.hash p.inner) p p.inner) (64 * m)
  have hS : ∀ l, l.length < Q + k + 5 → (S l).card ≤ luckyAnswers k m (Q + k + 5) := by
    intro l hl
    refine le_trans ?_ (luckBound_le k m _)
    simp only [S]
    split
    · refine lucky_card E A m k _ _ _ ?_
      rw [show (A.game R Q l).length = l.length from Oracle.play_length _ _]
      exact hl
    · refine (cBad_card _ _ _).trans ?_
      unfold luckBound rootBound
      have hT : 1 ≤ (Q + k + 5) * (3 * (Q + k + 5 + 1)) := by nlinarith
      have h1 := Nat.mul_le_mul_right (k * (64 * m * 20) + (10 + 64 * m * 20) + (k * 2 + (m + 2 + 64 * m * (m + 2 + (m + 2))) + (64 * m + 64 * m))) hT
      omega
  refine (Nat.mul_le_mul_left _ ?_).trans (Oracle.card_guess (luckyAnswers k m (Q + k + 5)) (Q + k + 5) S hS)
  refine Nat.card_le_card_of_injective (fun x => ⟨x.1, ?_⟩) fun a b h => Subtype.ext (by simpa using congrArg (fun y => y.1) h)
  obtain ⟨coins, hw⟩ := x
  by_contra hno
  push Not at hno
  set l := (List.ofFn coins).take (Q + k + 4) with hldef
  have hll : l.length = Q + k + 4 := by simp [hldef]
  set log := A.game R Q l with hlog
  set p := A.out (log.take Q) with hp
  obtain ⟨hacc, hexp, hunk, hnor⟩ := hw
  have hlast := hno (Fin.last _)
  have hc : coins (Fin.last (Q + k + 4)) ∉ cBad (rel1 R (A.coef log) m (chalAt R log.hash p) p)
      (rel2 R (A.coef log) (chalAt R log.hash p) (foldAt R log.hash p.inner) p p.inner) (64 * m) := by
    have h := hlast
    simp only [S] at h
    rw [show ((Fin.last (Q + k + 4) : Fin (Q + k + 5)) : Nat) = Q + k + 4 from rfl, ← hldef, hll, if_neg (lt_irrefl _)] at h
    exact h
  obtain ⟨hip, hL, hR, hV⟩ := accepted_shape hk hn hacc
  have hasks := game_asks A R Q k l hll
  have hrel : ¬ (relation R log.hash (A.coef log) m p (coins (Fin.last _))).Nonzero (64 * m) := fun hnz =>
    hnor ⟨C114_relation R log.hash hk hn (A.coef log) p hexp _ hacc, hnz⟩
  have hplayed : Played A R (A.question R Q) l p m k := by
    refine ⟨hasks 0 (by omega), hasks 1 (by omega), hasks 2 (by omega), hasks 3 (by omega), fun j hj => hasks (j + 4) (by omega), hV, ?_, ?_⟩
    · rw [List.length_zip, hL, hR, Nat.min_self]
    · intro t ht
      have h := hno ⟨t, by omega⟩
      simp only [S] at h
      have htake : (List.ofFn coins).take t = l.take t := by rw [hldef, List.take_take, Nat.min_eq_left (by omega)]
      rw [htake, List.length_take, Nat.min_eq_left ht.le, if_pos (by omega)] at h
      have hget : l.getD t 0 = coins ⟨t, by omega⟩ := by
        rw [List.getD_eq_getElem _ _ ht]
        rw [show l[t] = (List.ofFn coins)[t]'(by simp; omega) from List.getElem_take, List.getElem_ofFn]
      rw [hget]
      exact h
  have hopen := hplayed.opened R.two_ne_zero E hn (relation_inv E hplayed hn hc hrel)
  apply hunk
  obtain ⟨eV, -⟩ := finalPts_eq E A log p
  intro j hj
  have := hopen j hj
  change let ρ := (finalPts A R log p).V j
    (∀ i < 64 * m, ρ.1 i = 0) ∧ (∀ i < 64 * m, ρ.2.1 i = 0) ∧ ∃ N < 2 ^ 64, ρ.2.2.1 = ((N : Nat) : F) at this
  rw [eV j (lt_of_lt_of_le hj hV)] at this
  exact this

/-! ## A concrete case -/

/-- Coins that are the values of a given function. -/
theorem exists_coins (next : Oracle.Log F → Bytes) (h : Bytes → F) : ∀ n, ∃ l : List F, l.length = n ∧ ∀ e ∈ Oracle.play next l, e.2 = h e.1
  | 0 => ⟨[], rfl, by simp [Oracle.play_nil]⟩
  | n + 1 => by
    obtain ⟨l, hl, he⟩ := exists_coins next h n
    refine ⟨l ++ [h (next (Oracle.play next l))], by simp [hl], fun e hm => ?_⟩
    rw [Oracle.play_snoc, Oracle.Log.ask, List.mem_append, List.mem_singleton] at hm
    rcases hm with hm | rfl
    · exact he e hm
    · cases hc : (Oracle.play next l).lookup (next (Oracle.play next l)) with
      | none => rfl
      | some a => exact he _ (Oracle.mem_of_lookup hc)

/-- The prover that asks nothing and sends a given proof, with given coefficients. -/
def sends (p : Proof F G) (κ : Bytes → Coef F) : AlgProver F G := ⟨fun _ => [], fun _ => p, fun _ => κ⟩

theorem repFrom_const (κ : Bytes → Coef F) (b : Bytes) : ∀ (log past : Oracle.Log F), (∃ e ∈ log, b ∈ blocks e.1) →
    repFrom (fun _ => κ) past log b = κ b
  | [], _, h => by obtain ⟨e, he, -⟩ := h; cases he
  | e :: log, past, h => by
    rw [repFrom]
    split
    · rfl
    · rename_i hn
      refine repFrom_const κ b log _ ?_
      obtain ⟨e', he', hb⟩ := h
      rcases List.mem_cons.1 he' with rfl | he'
      · exact absurd hb hn
      · exact ⟨e', he', hb⟩

/-- With the right coins the prover that sends a given accepted proof is accepted. -/
theorem sends_accepted (R : Ristretto F G) (E : R.Encodings) (h : Bytes → F) {m k : Nat} (hk : k < 32) (hn : 64 * m = 2 ^ k) (p : Proof F G)
    (c : F) (ha : verify (Mlsag.withHash R h) m p c = .ok true) (κ : Bytes → Coef F) : ∃ l : List F, l.length = 0 + k + 4 ∧
      let log := (sends p κ).game R 0 l
      verify (Mlsag.withHash R log.hash) m p c = .ok true ∧ ∀ P ∈ p.points, (sends p κ).coef log (R.pBytes P) = κ (R.pBytes P) := by
  obtain ⟨l, hl, he⟩ := exists_coins ((sends p κ).question R 0) h (0 + k + 4)
  refine ⟨l, hl, ?_⟩
  intro log
  obtain ⟨hip, hL, hR, hV⟩ := accepted_shape hk hn ha
  have asks := game_asks (sends p κ) R 0 k l hl
  have hk6 : 6 ≤ k := by
    by_contra hc
    have : 2 ^ k ≤ 2 ^ 5 := Nat.pow_le_pow_right (by norm_num) (by omega)
    have : 0 < 2 ^ k := by positivity
    omega
  have hash_eq : ∀ i < k + 4, log.hash (verifierAsks R log.hash p i) = h (verifierAsks R log.hash p i) := by
    intro i hi
    obtain ⟨a, h1⟩ := asks i hi
    change log.lookup (verifierAsks R log.hash p i) = some a at h1
    rw [Oracle.Log.hash, h1]
    exact he _ (Oracle.mem_of_lookup h1)
  have e0 : log.hash (strY R p) = h (strY R p) := hash_eq 0 (by omega)
  have e1 : log.hash (R.sBytes (h (strY R p))) = h (R.sBytes (h (strY R p))) := by
    have := hash_eq 1 (by omega)
    simp only [verifierAsks, e0] at this
    exact this
  have eX : strX R log.hash p = strX R h p := by unfold strX; rw [e0, e1]
  have e2 : log.hash (strX R h p) = h (strX R h p) := by
    have := hash_eq 2 (by omega)
    simp only [verifierAsks, eX] at this
    exact this
  have eW : strW R log.hash p = strW R h p := by unfold strW; rw [eX, e2]
  have e3 : log.hash (strW R h p) = h (strW R h p) := by
    have := hash_eq 3 (by omega)
    simp only [verifierAsks, eW] at this
    exact this
  have hch : chalAt R log.hash p = chalAt R h p := by unfold chalAt; rw [eX, eW, e0, e1, e2, e3]
  have hus : foldAt R log.hash p.inner = foldAt R h p.inner := by
    unfold foldAt
    refine List.map_congr_left fun j hj => ?_
    have hj : j < k := by simpa [hL, hR] using List.mem_range.1 hj
    exact hash_eq (j + 4) (by omega)
  constructor
  · rw [verify_eq (Mlsag.withHash R h) c p p.inner hip hk hn.symm hL hR hV] at ha
    rw [pub_withHash, show chalOf (Mlsag.withHash R h) p = chalAt R h p from rfl, IP.chals_eq,
      show IP.challenges (Mlsag.withHash R h) p.inner.L p.inner.R = foldAt R h p.inner from rfl] at ha
    rw [verify_eq (Mlsag.withHash R log.hash) c p p.inner hip hk hn.symm hL hR hV, pub_withHash,
      show chalOf (Mlsag.withHash R log.hash) p = chalAt R log.hash p from rfl, IP.chals_eq,
      show IP.challenges (Mlsag.withHash R log.hash) p.inner.L p.inner.R = foldAt R log.hash p.inner from rfl, hch, hus]
    exact ha
  · intro P hP
    refine repFrom_const κ _ _ _ ?_
    have inW : R.pBytes P ∈ blocksW R log.hash p → ∃ e ∈ log, R.pBytes P ∈ blocks e.1 := by
      intro hb
      obtain ⟨a, h1⟩ := asks 3 (by omega)
      refine ⟨_, Oracle.mem_of_lookup h1, ?_⟩
      show R.pBytes P ∈ blocks (strW R log.hash p)
      rw [strW_eq]
      exact mem_blocks (len32W E log.hash p) hb
    have inU : R.pBytes P ∈ blocksU R (p.inner.L.zip p.inner.R) → ∃ e ∈ log, R.pBytes P ∈ blocks e.1 := by
      intro hb
      obtain ⟨a, h1⟩ := asks (k - 1 + 4) (by omega)
      refine ⟨_, Oracle.mem_of_lookup h1, ?_⟩
      show R.pBytes P ∈ blocks (strU R p.inner (k - 1))
      rw [strU_eq, List.take_of_length_le (by rw [blocksU_length, List.length_zip, hL, hR]; omega)]
      exact mem_blocks (len32U E _) hb
    simp only [Proof.points, List.mem_append, List.mem_cons, List.not_mem_nil, or_false] at hP
    rcases hP with ((hP | hP) | hP) | hP
    · obtain ⟨V, hV, rfl⟩ := List.mem_map.1 hP
      refine inW ?_
      simp only [blocksW, blocksX, blocksY, List.mem_append]
      exact .inl (.inl (.inl (List.mem_map.2 ⟨V, hV, rfl⟩)))
    · rcases hP with rfl | rfl | rfl | rfl <;> exact inW (by simp [blocksW, blocksX, blocksY])
    · obtain ⟨j, hj, rfl⟩ := List.mem_iff_getElem.1 hP
      refine inU (List.mem_flatMap.2 ⟨(p.inner.L[j], p.inner.R[j]'(by omega)), ?_, by simp⟩)
      rw [← List.getElem_zip (h := by simp; omega)]
      exact List.getElem_mem _
    · obtain ⟨j, hj, rfl⟩ := List.mem_iff_getElem.1 hP
      refine inU (List.mem_flatMap.2 ⟨(p.inner.L[j]'(by omega), p.inner.R[j]), ?_, by simp⟩)
      rw [← List.getElem_zip (h := by simp; omega)]
      exact List.getElem_mem _

theorem ev_bases (P : Pub G) (n : Nat) (a b : F) : ev P n ((0 : Nat → F), (0 : Nat → F), a, b) = a • P.B + b • P.Bl := by simp [ev]

/-- A concrete case: a run of a prover without questions in which the proof is accepted, the coefficients are right and open the
commitments; so the hypotheses of the theorems above can be met. -/
theorem case_game (coins : Coins Toy.K) (c : Toy.K) : ∃ (A : AlgProver Toy.K Toy.K) (l : List Toy.K), l.length = 0 + 7 + 4 ∧
    let log := A.game Toy.ris 0 l
    let p := A.out (log.take 0)
    verify (Mlsag.withHash Toy.ris log.hash) 2 p c = .ok true ∧ Explains Toy.ris (64 * 2) (A.coef log) p ∧ Knows Toy.ris (A.coef log) 2 p := by
  classical
  obtain ⟨k, p, ip, h1, h2, h5, hon, h3, h4, hif⟩ := C68_prove Toy.ris 1 [(1 : Toy.K), 2] false coins (by simp) (by simp)
  have hk : k = 1 := by
    have := h2 1 (by simp)
    have hk0 : k ≠ 0 := by rintro rfl; simp at h1
    omega
  subst hk
  obtain ⟨n1, n2, n3⟩ := chalOf_ne Toy.ris Toy.dv_ne_zero p
  rw [if_neg (by simp [n1, n2, n3])] at hif
  obtain ⟨q, e, hq⟩ := C60_nonzero_hash Toy.ris Toy.dv_ne_zero 1 [(1 : Toy.K), 2] coins (by simp) (by simp) toy_two
  rw [hif] at e
  cases e
  rw [h5] at hq
  have hacc : verify (Mlsag.withHash Toy.ris Toy.dv) 2 p c = .ok true := hq c
  let vs : Nat → Toy.K := fun j => (p.V.map fun V => V.value).getD j 0
  have hvs : ∀ j < 2, vs j = ((j + 1 : Nat) : Toy.K) • (pub Toy.ris (64 * 2)).B + coins.vBlind j • (pub Toy.ris (64 * 2)).Bl := by
    intro j hj
    simp only [vs, hon.V]
    have : j = 0 ∨ j = 1 := by omega
    rcases this with rfl | rfl <;> simp [List.range_succ]
  let κ : Bytes → Coef Toy.K := fun b => if h : ∃ j < 2, b = Toy.ris.pBytes (vs j) then
    ((0 : Nat → Toy.K), (0 : Nat → Toy.K), ((h.choose + 1 : Nat) : Toy.K), coins.vBlind h.choose) else
    ((0 : Nat → Toy.K), (0 : Nat → Toy.K), 0, (Toy.ris.pOfBytes b).1)
  have hκ : ∀ P, ev (pub Toy.ris (64 * 2)) (64 * 2) (κ (Toy.ris.pBytes P)) = P := by
    intro P
    simp only [κ]
    split
    · rename_i h
      obtain ⟨h1, h2⟩ := h.choose_spec
      have h2 := Toy.ris_encodings.pBytes_inj h2
      rw [ev_bases]
      exact (hvs _ h1).symm.trans h2.symm
    · rw [ev_bases, zero_smul, zero_add, Toy.ris_encodings.pOfBytes_pBytes P]
      exact mul_one P
  obtain ⟨l, hl, h⟩ := sends_accepted Toy.ris Toy.ris_encodings Toy.dv (m := 2) (k := 7) (by norm_num) (by norm_num) p c hacc κ
  refine ⟨sends p κ, l, hl, ?_⟩
  intro log p'
  refine ⟨h.1, fun P hP => ?_, fun j hj => ?_⟩
  · rw [h.2 P hP]
    exact hκ P
  · have hmem : vs j ∈ p.points := by
      simp only [vs]
      rw [List.getD_eq_getElem _ _ (by rw [hon.V]; simpa using hj)]
      simp only [Proof.points, List.mem_append]
      exact .inl (.inl (.inl (List.getElem_mem _)))
    have e := h.2 _ hmem
    show let ρ := (sends p κ).coef log (Toy.ris.pBytes (vs j))
      (∀ i < 64 * 2, ρ.1 i = 0) ∧ (∀ i < 64 * 2, ρ.2.1 i = 0) ∧ ∃ N < 2 ^ 64, ρ.2.2.1 = ((N : Nat) : Toy.K)
    have hex : ∃ j' < 2, Toy.ris.pBytes (vs j) = Toy.ris.pBytes (vs j') := ⟨j, hj, rfl⟩
    rw [show (sends p κ).coef log (Toy.ris.pBytes (vs j)) = κ (Toy.ris.pBytes (vs j)) from e]
    simp only [κ]
    rw [dif_pos hex]
    exact ⟨fun _ _ => rfl, fun _ _ => rfl, hex.choose + 1, by have := hex.choose_spec.1; omega, rfl⟩

/-- In that run the theorems give the relation and the openings. -/
example (coins : Coins Toy.K) (c : Toy.K) : ∃ (A : AlgProver Toy.K Toy.K) (l : List Toy.K),
    let log := A.game Toy.ris 0 l
    let p := A.out (log.take 0)
    ev (pub Toy.ris (64 * 2)) (64 * 2) (relation Toy.ris log.hash (A.coef log) 2 p c) = 0 ∧
    ∃ N < 2 ^ 64, (p.V.map fun V => V.value).getD 0 0 = ((N : Nat) : Toy.K) • Toy.ris.pDerive (strBytes "blindPoint") +
      (A.coef log (Toy.ris.pBytes ((p.V.map fun V => V.value).getD 0 0))).2.2.2 • Toy.ris.base := by
  obtain ⟨A, l, hl, h1, h2, h3⟩ := case_game coins c
  exact ⟨A, l, C114_relation Toy.ris _ (k := 7) (by norm_num) (by norm_num) _ _ h2 c h1,
    C114_opening Toy.ris _ _ (accepted_shape (k := 7) (by norm_num) (by norm_num) h1).2.2.2 h2 h3 0 (by norm_num)⟩

/-- For two values and any prover with `2^40` questions. -/
example (A : AlgProver Toy.K Toy.K) := C114_soundness Toy.ris Toy.ris_encodings A (2 ^ 40) (m := 2) (k := 7) (by norm_num) (by norm_num)

end Dusk.RP
