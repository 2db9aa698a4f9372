import Verif.Spec.Forking
import Verif.Props.MlsagLink
/-!
# MLSAG signatures need the secret keys

Forging against published keys, without seeing signatures, is as hard as computing discrete logarithms: an attacker is run twice.
-/

set_option linter.unusedSectionVars false

namespace Dusk.Mlsag

variable {F G : Type} [Field F] [AddCommGroup G] [Module F G] [DecidableEq F]

/-- What `Verify` computes on its way around the ring: the members with their challenges. -/
def visits (R : Ristretto F G) (h : Bytes → F) (sig : Signature F G) (I : List G) : List ((List G × List F) × F) :=
  (List.range (tour sig).length).map fun i => (slot (tour sig) i, chalRound (withHash R h) sig.msg I (tour sig) sig.c i)

/-- The attacker forges: `Verify`, with the hash function that the game has fixed, accepts its `v` images for a ring of at most `n`
published key vectors. -/
structure Linker.Forges (A : Linker F G) (R : Ristretto F G) (pub : Finset (List G)) (v Q n : Nat) (coins : List F)
    (sig : Signature F G) (I : List G) : Prop where
  output : A.out ((A.game R Q coins).take Q) = (sig, I)
  accepted : sig.verify (withHash R (A.game R Q coins).hash) I = .ok true
  size : sig.r.length ≤ n
  published : ∀ k ∈ sig.pubKeys, k.keys ∈ pub
  images : I.length = v

/-- What the members visited in a run of the attacker are. -/
def Linker.visited (A : Linker F G) (R : Ristretto F G) (Q : Nat) (coins : List F) : List ((List G × List F) × F) :=
  visits R (A.game R Q coins).hash (A.out ((A.game R Q coins).take Q)).1 (A.out ((A.game R Q coins).take Q)).2

/-- The scalar computed from two visits for the key in column `j`; `a K j` is known about the key vector `K`. -/
def crack (a : List G → Nat → F) (x y : (List G × List F) × F) (j : Nat) : F :=
  (y.1.2.getD j 0 - x.1.2.getD j 0 + y.2 * a y.1.1 j - x.2 * a x.1.1 j) / (x.2 - y.2)

/-- An input of the hash determines the points computed with the keys. -/
theorem query_keys {R : Ristretto F G} (E : R.Encodings) {msg msg' : Bytes} {I I' K K' : List G} {r r' : List F} {c c' : F}
    (hI : I.length = I'.length) (hK : I.length ≤ K.length) (hKK : K.length = K'.length) (hr : K.length ≤ r.length)
    (hr' : K.length ≤ r'.length) (h : query R msg I K r c = query R msg' I' K' r' c') :
    ∀ j < K.length, r.getD j 0 • R.base + c • K.getD j 0 = r'.getD j 0 • R.base + c' • K'.getD j 0 := by
  have h32 : ∀ {α β : Type} (f : α → β → G) (a : List α) (b : List β), ∀ x ∈ List.zipWith (fun s t => R.pBytes (f s t)) a b, x.length = 32 := by
    intro α β f a b x hx
    obtain ⟨j, hj, rfl⟩ := List.mem_iff_getElem.1 hx
    simp [E.pBytes_length]
  unfold query at h
  obtain ⟨h1, h2⟩ := List.append_inj' h (by
    rw [flatten32_length _ (h32 _ _ _), flatten32_length _ (h32 _ _ _)]
    simp; omega)
  obtain ⟨-, h3⟩ := List.append_inj' h1 (by
    rw [flatten32_length _ (h32 _ _ _), flatten32_length _ (h32 _ _ _)]
    simp; omega)
  have e1 := flatten32_inj _ _ (by simp; omega) (h32 _ _ _) (h32 _ _ _) h3
  intro j hj
  have := congrArg (fun l => l[j]?) e1
  simp only [List.getElem?_zipWith, List.getElem?_eq_getElem hj, List.getElem?_eq_getElem (show j < r.length by omega),
    List.getElem?_eq_getElem (show j < r'.length by omega), List.getElem?_eq_getElem (show j < K'.length by omega),
    Option.some.injEq] at this
  simpa [List.getD_eq_getElem?_getD, hj, show j < r.length by omega, show j < r'.length by omega, show j < K'.length by omega]
    using E.pBytes_inj this

/-- In a closed chain of challenges some member is asked for no later than the question whose answer is its challenge. -/
theorem early_member (next : Oracle.Log F → Bytes) (l : List F) (R : Ristretto F G) (msg : Bytes) (I : List G)
    (ms : List (List G × List F)) (c : F) (hms : ms ≠ []) (hclose : around (withHash R (Oracle.play next l).hash) msg I ms c = c)
    (hasked : ∀ i < ms.length, ∃ a, (Oracle.play next l).lookup
      (query R msg I (slot ms i).1 (slot ms i).2 (chalRound (withHash R (Oracle.play next l).hash) msg I ms c i)) = some a) :
    ∃ k < ms.length, ∃ i j, ∃ hj : j < l.length, i ≤ j ∧
      chalRound (withHash R (Oracle.play next l).hash) msg I ms c k = l[j] ∧
      query R msg I (slot ms k).1 (slot ms k).2 (chalRound (withHash R (Oracle.play next l).hash) msg I ms c k) =
        next (Oracle.play next (l.take i)) := by
  have hn : 0 < ms.length := List.length_pos_iff.2 hms
  generalize hC : chalRound (withHash R (Oracle.play next l).hash) msg I ms c = C at *
  have hper : C ms.length = C 0 := by
    have := chalRound_add _ msg I ms c hclose 0
    rw [hC, Nat.zero_add] at this
    exact this
  have hfirst : ∀ i, ∃ t, i < ms.length → ∃ ht : t < l.length,
      query R msg I (slot ms i).1 (slot ms i).2 (C i) = next (Oracle.play next (l.take t)) ∧ C (i + 1) = l[t] := by
    intro i
    by_cases hi : i < ms.length
    · obtain ⟨a, ha⟩ := hasked i hi
      obtain ⟨t, ht, -, h2, h3, -⟩ := Oracle.play_first next l _ a ha
      refine ⟨t, fun _ => ⟨ht, h2, ?_⟩⟩
      rw [← h3, ← hC, chalRound]
      show (Oracle.play next l).hash _ = a
      rw [Oracle.Log.hash, hC]
      show ((Oracle.play next l).lookup (query R msg I (slot ms i).1 (slot ms i).2 (C i))).getD 0 = a
      rw [ha]
      rfl
    · exact ⟨0, fun h => absurd h hi⟩
  choose T hT using hfirst
  obtain ⟨k, hk, hmin⟩ := (Finset.range ms.length).exists_min_image T ⟨0, Finset.mem_range.2 hn⟩
  have hk := Finset.mem_range.1 hk
  obtain ⟨-, h2, -⟩ := hT k hk
  rcases Nat.eq_zero_or_pos k with h0 | h0
  · obtain ⟨ht', -, h3'⟩ := hT (ms.length - 1) (by omega)
    refine ⟨k, hk, T k, T (ms.length - 1), ht', hmin _ (Finset.mem_range.2 (by omega)), ?_, h2⟩
    rw [h0, ← hper, ← h3', Nat.sub_add_cancel hn]
  · obtain ⟨ht', -, h3'⟩ := hT (k - 1) (by omega)
    refine ⟨k, hk, T k, T (k - 1), ht', hmin _ (Finset.mem_range.2 (by omega)), ?_, h2⟩
    rw [← h3', Nat.sub_add_cancel h0]

/-- A run is ready to be rewound at `j`: a member was asked for at `i`, and its challenge is the coin `j`. -/
def Linker.Ready (A : Linker F G) (R : Ristretto F G) (pub : Finset (List G)) (v Q : Nat) (coins : List F) (i j : Nat) : Prop :=
  ∃ x ∈ A.visited R Q coins, ∃ msg I, x.1.1 ∈ pub ∧ I.length = v ∧ v ≤ x.1.1.length ∧ x.1.1.length ≤ x.1.2.length ∧ i ≤ j ∧
    coins[j]? = some x.2 ∧ query R msg I x.1.1 x.1.2 x.2 = A.question R Q (Oracle.play (A.question R Q) (coins.take i))

/-- In a successful run some member is asked for at `i`, and its challenge is the coin `j`, not before. -/
theorem Linker.Forges.early {A : Linker F G} {R : Ristretto F G} {pub : Finset (List G)} {v Q n : Nat} {coins : List F}
    {sig : Signature F G} {I : List G} (h : A.Forges R pub v Q n coins sig I) (hn : 2 ≤ n) (hcoins : coins.length = Q + n) :
    ∃ i j, j < Q + n ∧ ∃ x ∈ A.visited R Q coins, x.1 ∈ ringOf sig ∧ x.1.1 ∈ pub ∧ v ≤ x.1.1.length ∧ x.1.1.length ≤ x.1.2.length ∧ i ≤ j ∧
      coins[j]? = some x.2 ∧ query R sig.msg I x.1.1 x.1.2 x.2 = A.question R Q (Oracle.play (A.question R Q) (coins.take i)) := by
  have hacc := h.accepted
  have hne : ¬ (sig.pubKeys = [] ∨ sig.r = [] ∨ I = []) := by
    intro hc
    obtain ⟨e, he⟩ := C17_empty (withHash R (A.game R Q coins).hash) sig I hc
    rw [hacc] at he
    cases he
  push Not at hne
  obtain ⟨hp, hr, hI⟩ := hne
  have hfits : sig.r.length ≤ sig.pubKeys.length ∧ Fits I (ringOf sig) := by
    by_contra hcon
    rw [(C26_panic_iff (withHash R (A.game R Q coins).hash) sig I hp hr hI).2 hcon] at hacc
    cases hacc
  have hrpos := List.length_pos_iff.2 hr
  have hlen : (ringOf sig).length = sig.r.length := by simp [ringOf]; omega
  have hclose : around (withHash R (A.game R Q coins).hash) sig.msg I (tour sig) sig.c = sig.c := by
    unfold tour
    split
    · rename_i h1
      exact (C17_single _ sig I h1 hfits.1 hI hfits.2).1 hacc
    · exact (C17_verify _ sig I (by omega) hfits.1 hI hfits.2).1.1 hacc
  have htour : ∀ m ∈ tour sig, m ∈ ringOf sig := by
    intro m hm
    unfold tour at hm
    split at hm
    · exact (List.mem_append.1 hm).elim id id
    · exact hm
  have htl : (tour sig).length ≤ n ∧ 0 < (tour sig).length := by
    have := h.size
    unfold tour
    split
    · simp only [List.length_append]; omega
    · omega
  have hts : tour sig ≠ [] := List.length_pos_iff.1 htl.2
  obtain ⟨k, hk, i, j, hj, hij, h1, h2⟩ := early_member (A.question R Q) coins R sig.msg I (tour sig) sig.c hts hclose (by
    intro i hi
    have := asked A R Q coins sig I h.output i hi (by omega)
    have he := Oracle.play_entry (A.question R Q) coins (Q + i) (by omega)
    exact Oracle.lookup_of_mem (List.mem_of_getElem? (by rw [he, this]; rfl)))
  have hm := htour _ (slot_mem (tour sig) hts k)
  refine ⟨i, j, by omega, (slot (tour sig) k, chalRound (withHash R (A.game R Q coins).hash) sig.msg I (tour sig) sig.c k), ?_,
    hm, ?_, ?_, (hfits.2 _ hm).1, hij, ?_, h2⟩
  · unfold Linker.visited visits
    rw [h.output]
    exact List.mem_map.2 ⟨k, List.mem_range.2 hk, rfl⟩
  · obtain ⟨q, hq, e⟩ := List.mem_map.1 (List.of_mem_zip hm).1
    have e : q.keys = (slot (tour sig) k).1 := e
    show (slot (tour sig) k).1 ∈ pub
    rw [← e]
    exact h.published q hq
  · rw [← h.images]; exact (hfits.2 _ hm).2
  · rw [List.getElem?_eq_getElem hj, ← h1]; rfl

theorem Linker.Forges.ready {A : Linker F G} {R : Ristretto F G} {pub : Finset (List G)} {v Q n : Nat} {coins : List F}
    {sig : Signature F G} {I : List G} (h : A.Forges R pub v Q n coins sig I) (hn : 2 ≤ n) (hcoins : coins.length = Q + n) :
    ∃ i j, j < Q + n ∧ A.Ready R pub v Q coins i j := by
  obtain ⟨i, j, hj, x, h1, -, h2, h3⟩ := h.early hn hcoins
  exact ⟨i, j, hj, x, h1, sig.msg, I, h2, h.images, h3⟩

/-- Two runs that part at `j` give the discrete logarithms. -/
theorem Linker.Ready.crack {A : Linker F G} {R : Ristretto F G} (E : R.Encodings) {pub : Finset (List G)} {v Q d : Nat}
    {Y : Nat → G} {a : List G → Nat → F} (hpub : ∀ K ∈ pub, K.length = d ∧ ∀ j < d, K.getD j 0 = Y j + a K j • R.base)
    {l l' : List F} {i j : Nat} (h : A.Ready R pub v Q l i j) (h' : A.Ready R pub v Q l' i j) (htake : l'.take j = l.take j)
    (hne : l'[j]? ≠ l[j]?) :
    ∃ x ∈ A.visited R Q l, ∃ y ∈ A.visited R Q l', ∀ k < d, Mlsag.crack a x y k • R.base = Y k := by
  obtain ⟨x, hx, msg, I, h1, h2, h3, h4, h5, h6, h7⟩ := h
  obtain ⟨y, hy, msg', I', g1, g2, g3, g4, -, g6, g7⟩ := h'
  refine ⟨x, hx, y, hy, fun k hk => ?_⟩
  have hti : l'.take i = l.take i := by
    rw [← Nat.min_eq_left h5, ← List.take_take, htake, List.take_take]
  rw [hti, ← h7] at g7
  have hc : x.2 - y.2 ≠ 0 := by
    intro h0
    exact hne (by rw [h6, g6, sub_eq_zero.1 h0])
  obtain ⟨hl, hK⟩ := hpub _ h1
  obtain ⟨hl', hK'⟩ := hpub _ g1
  have := query_keys E (by omega) (by omega) (by omega) (by omega) (by omega) g7 k (by omega)
  rw [hK k hk, hK' k hk] at this
  have e : (x.2 - y.2) • Y k =
      (y.1.2.getD k 0 - x.1.2.getD k 0 + y.2 * a y.1.1 k - x.2 * a x.1.1 k) • R.base := by
    have e2 : x.1.2.getD k 0 • R.base + (x.2 • Y k + (x.2 * a x.1.1 k) • R.base) =
        y.1.2.getD k 0 • R.base + (y.2 • Y k + (y.2 * a y.1.1 k) • R.base) := by
      rw [mul_smul, mul_smul, ← smul_add, ← smul_add]
      exact this.symm
    rw [sub_smul, sub_smul, add_smul, sub_smul]
    rw [← sub_eq_zero] at e2 ⊢
    rw [← e2]
    abel
  unfold Mlsag.crack
  rw [div_eq_inv_mul, mul_smul, ← e, inv_smul_smul₀ hc]

/-- Rewinding runs that are ready to be rewound. -/
theorem ready_forking [Fintype F] {R : Ristretto F G} (E : R.Encodings) (A : Linker F G) (pub : Finset (List G)) (v d Q n : Nat)
    (Y : Nat → G) (a : List G → Nat → F) (hpub : ∀ K ∈ pub, K.length = d ∧ ∀ j < d, K.getD j 0 = Y j + a K j • R.base)
    (W : (Fin (Q + n) → F) → Prop) (hW : ∀ c, W c → ∃ i j, j < Q + n ∧ A.Ready R pub v Q (List.ofFn c) i j) :
    Fintype.card F * Nat.card {coins : Fin (Q + n) → F // W coins} ^ 2 ≤
      (Q + n) ^ 2 * (Fintype.card F * Nat.card {p : (Fin (Q + n) → F) × (Fin (Q + n) → F) // ∃ t : Fin (Q + n),
          ∃ x ∈ A.visited R Q (List.ofFn p.1), ∃ y ∈ A.visited R Q (List.ofFn (Oracle.rewind t p.1 p.2)),
            ∀ j < d, crack a x y j • R.base = Y j} +
        Nat.card {coins : Fin (Q + n) → F // W coins} * Fintype.card F ^ (Q + n)) := by
  classical
  have hready : ∀ c : Fin (Q + n) → F, W c →
      ∃ x : Fin (Q + n) × Fin (Q + n), A.Ready R pub v Q (List.ofFn c) x.1 x.2 := by
    intro c h
    obtain ⟨i, j, hj, hr⟩ := hW c h
    have hij : i ≤ j := by
      obtain ⟨x, -, msg, I, -, -, -, -, h, -⟩ := hr
      exact h
    exact ⟨(⟨i, by omega⟩, ⟨j, hj⟩), hr⟩
  let lab : (Fin (Q + n) → F) → Option (Fin (Q + n) × Fin (Q + n)) := fun c =>
    if h : W c then some (hready c h).choose else none
  have hlab : ∀ c x, lab c = some x → A.Ready R pub v Q (List.ofFn c) x.1 x.2 := by
    intro c x hx
    simp only [lab] at hx
    split at hx
    · rename_i h
      rw [← Option.some.inj hx]
      exact (hready c h).choose_spec
    · cases hx
  have hW : Nat.card {coins : Fin (Q + n) → F // W coins} =
      (Finset.univ.filter fun c => (lab c).isSome).card := by
    rw [Nat.card_eq_fintype_card, Fintype.card_subtype]
    congr 1
    ext c
    simp only [Finset.mem_filter, Finset.mem_univ, true_and, lab]
    split <;> simp_all
  have h := Oracle.forking lab fun x => x.2
  rw [← hW, Fintype.card_prod, Fintype.card_fin, ← pow_two] at h
  refine h.trans (Nat.mul_le_mul_left _ (Nat.add_le_add_right (Nat.mul_le_mul_left _ ?_) _))
  rw [Nat.card_eq_fintype_card, Fintype.card_subtype]
  refine Finset.card_le_card fun p hp => ?_
  obtain ⟨x, h1, h2, h3⟩ := (Finset.mem_filter.1 hp).2
  refine Finset.mem_filter.2 ⟨Finset.mem_univ _, x.2, ?_⟩
  refine (hlab _ _ h1).crack E hpub (hlab _ _ h2) (Oracle.rewind_take _ _ _ _ le_rfl) ?_
  simp only [List.getElem?_ofFn, x.2.2, dif_pos]
  intro he
  refine h3 ?_
  rw [← Oracle.rewind_self x.2 p.1 p.2]
  exact Option.some.inj he

/-- C112: MLSAG signatures cannot be forged against published keys unless discrete logarithms can be computed. The published key
vectors are `Y_j + a_j G` for points `Y_j` with unknown and offsets `a_j` with known discrete logarithms. The hash to scalars answers
with uniformly random scalars; the attacker asks `Q` questions, then chooses message, ring (among the published vectors, of at most `n`
members) and images. If it succeeds with probability `ε`, then rerunning it once with fresh coins from each point `t` on, and
applying `crack` to what `Verify` visits in the two runs, gives the discrete logarithms of all `Y_j` with probability at least
`ε² / (Q + n)² - ε / |F|`. -/
theorem C112_unforgeable [Fintype F] {R : Ristretto F G} (E : R.Encodings) (A : Linker F G) (pub : Finset (List G)) (v d Q n : Nat)
    (hn : 2 ≤ n) (Y : Nat → G) (a : List G → Nat → F)
    (hpub : ∀ K ∈ pub, K.length = d ∧ ∀ j < d, K.getD j 0 = Y j + a K j • R.base) :
    Fintype.card F * Nat.card {coins : Fin (Q + n) → F // ∃ sig I, A.Forges R pub v Q n (List.ofFn coins) sig I} ^ 2 ≤
      (Q + n) ^ 2 * (Fintype.card F * Nat.card {p : (Fin (Q + n) → F) × (Fin (Q + n) → F) // ∃ t : Fin (Q + n),
          ∃ x ∈ A.visited R Q (List.ofFn p.1), ∃ y ∈ A.visited R Q (List.ofFn (Oracle.rewind t p.1 p.2)),
            ∀ j < d, crack a x y j • R.base = Y j} +
        Nat.card {coins : Fin (Q + n) → F // ∃ sig I, A.Forges R pub v Q n (List.ofFn coins) sig I} * Fintype.card F ^ (Q + n)) :=
  ready_forking E A pub v d Q n Y a hpub _ fun c h => by
    obtain ⟨sig, I, h⟩ := h
    exact h.ready hn (by simp)

/-! ### A concrete attacker

The holder of a secret key always succeeds. Hence rerunning them gives their secret key. -/

/-- The question for the nonce `l`. -/
def ownQuery (R : Ristretto F G) (msg : Bytes) (x l : F) : Bytes :=
  msg ++ R.pBytes (l • R.base) ++ R.pBytes (l • R.pDerive (R.pBytes (x • R.base)))

theorem own_query (R : Ristretto F G) (msg : Bytes) (x l c : F) :
    query R msg [image R x] [x • R.base] [l - c * x] c = ownQuery R msg x l := by
  simp only [query, ownQuery, image, List.zipWith_cons_cons, List.zip_cons_cons, List.zip_nil_right, List.zipWith_nil_right,
    List.flatten_cons, List.flatten_nil, List.append_nil]
  rw [smul_smul, ← add_smul, smul_smul, ← add_smul, sub_add_cancel]

/-- Sign for the ring of the own key, visited twice. -/
def owner (R : Ristretto F G) (msg : Bytes) (x l : F) : Linker F G where
  next _ := ownQuery R msg x l
  out log := (⟨log.hash (ownQuery R msg x l), [[l - log.hash (ownQuery R msg x l) * x]], [⟨true, [x • R.base]⟩], msg⟩, [image R x])

theorem owner_forges (R : Ristretto F G) (msg : Bytes) (x l : F) (a : F) (coins : List F) :
    ∃ sig I, (owner R msg x l).Forges R {[x • R.base]} 1 1 2 (a :: coins) sig I := by
  obtain ⟨A, hA⟩ : ∃ A, A = owner R msg x l := ⟨_, rfl⟩
  have htake : (A.game R 1 (a :: coins)).take 1 = [(ownQuery R msg x l, a)] := by
    unfold Linker.game
    rw [← Oracle.play_take]
    simp [Oracle.play, Oracle.Log.ask, Linker.question, hA, owner]
  have hlook : (A.game R 1 (a :: coins)).lookup (ownQuery R msg x l) = some a := by
    refine Oracle.lookup_take (t := 1) ?_
    rw [htake]
    simp
  refine ⟨⟨a, [[l - a * x]], [⟨true, [x • R.base]⟩], msg⟩, [image R x], ?_⟩
  rw [← hA]
  refine ⟨?_, ?_, by simp, by simp, rfl⟩
  · rw [htake, hA]
    simp [owner, Oracle.Log.hash]
  · refine (C17_single _ _ _ rfl le_rfl (by simp) ?_).2 ?_
    · simp [Fits, ringOf]
    · have hl : link (withHash R (A.game R 1 (a :: coins)).hash) msg [image R x] [x • R.base] [l - a * x] a = a := by
        show (A.game R 1 (a :: coins)).hash (query R msg [image R x] [x • R.base] [l - a * x] a) = a
        rw [own_query, Oracle.Log.hash, hlook]
        rfl
      simp only [ringOf, List.map_cons, List.map_nil, List.zip_cons_cons, List.zip_nil_right, around, List.singleton_append,
        List.foldl_cons, List.foldl_nil]
      rw [hl, hl]

/-- Hence rerunning the holder of the key `x G` gives the key with probability at least `1/9 - 1/|F|`. -/
theorem owner_cracked [Fintype F] {R : Ristretto F G} (E : R.Encodings) (msg : Bytes) (x l : F) :
    Fintype.card F * (Fintype.card F ^ 3) ^ 2 ≤
      9 * (Fintype.card F * Nat.card {p : (Fin 3 → F) × (Fin 3 → F) // ∃ t : Fin 3,
          ∃ y ∈ (owner R msg x l).visited R 1 (List.ofFn p.1), ∃ z ∈ (owner R msg x l).visited R 1 (List.ofFn (Oracle.rewind t p.1 p.2)),
            ∀ j < 1, crack (fun _ _ => 0) y z j • R.base = x • R.base} + Fintype.card F ^ 3 * Fintype.card F ^ 3) := by
  classical
  have h := C112_unforgeable E (owner R msg x l) {[x • R.base]} 1 1 1 2 le_rfl (fun _ => x • R.base) (fun _ _ => 0) (by
    intro K hK
    rw [Finset.mem_singleton.1 hK]
    refine ⟨rfl, fun j hj => ?_⟩
    obtain rfl : j = 0 := by omega
    simp)
  have hW : Nat.card {coins : Fin (1 + 2) → F // ∃ sig I, (owner R msg x l).Forges R {[x • R.base]} 1 1 2 (List.ofFn coins) sig I} =
      Fintype.card F ^ 3 := by
    have : ∀ coins : Fin (1 + 2) → F, ∃ sig I, (owner R msg x l).Forges R {[x • R.base]} 1 1 2 (List.ofFn coins) sig I := by
      intro coins
      rw [List.ofFn_succ]
      exact owner_forges R msg x l _ _
    rw [Nat.card_congr (Equiv.subtypeUnivEquiv this), Nat.card_eq_fintype_card]
    simp
  rw [hW] at h
  exact h

/-- The rerun succeeds for some coins, for every key `x` and nonce `l`. -/
theorem owner_found (x l : Toy.K) : 0 < Nat.card {p : (Fin 3 → Toy.K) × (Fin 3 → Toy.K) // ∃ t : Fin 3,
    ∃ y ∈ (owner Toy.ris [1, 2] x l).visited Toy.ris 1 (List.ofFn p.1),
    ∃ z ∈ (owner Toy.ris [1, 2] x l).visited Toy.ris 1 (List.ofFn (Oracle.rewind t p.1 p.2)),
      ∀ j < 1, crack (fun _ _ => 0) y z j • Toy.ris.base = x • Toy.ris.base} := by
  have h := owner_cracked Toy.ris_encodings [1, 2] x l
  rw [Nat.pos_iff_ne_zero]
  intro h0
  rw [h0] at h
  have hc : Fintype.card Toy.K = PrimeEll.ell := ZMod.card _
  have hl : 2 ^ 64 < Fintype.card Toy.K := by rw [hc]; exact PrimeEll.two64_lt_ell
  have hpos : 0 < Fintype.card Toy.K ^ 3 := by positivity
  generalize Fintype.card Toy.K = q at *
  generalize q ^ 3 = N at *
  have : 2 ^ 64 * N ^ 2 ≤ q * N ^ 2 := Nat.mul_le_mul_right _ hl.le
  nlinarith

end Dusk.Mlsag
