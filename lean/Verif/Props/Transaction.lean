import Verif.Props.Balance
import Verif.Props.MlsagCalls
import Verif.Props.MlsagBalance
/-!
# C151: a payment made of dual-key signatures and commitments

The library gives the parts of a confidential payment: `DualKey` signs for a coin (a key and a commitment) hidden in a ring, against a new
commitment `C'` to the same value, and the commitments `C'` add up to those of the outputs and the fee. The theorems below put the parts
together.
-/

set_option linter.unusedSectionVars false

namespace Dusk.Mlsag

variable {F G : Type} [Field F] [AddCommGroup G] [Module F G]

/-- What is known of one input after rewinding its signer: the member of the ring where the two runs part, with a key `key` and a commitment
opened by `old`, the new commitment `pseudo`, the key image, and for each of the two challenges the responses of this member. -/
structure Spend (F G : Type) where
  msg : Bytes
  image : G
  key : G
  old : Opening F
  pseudo : G
  c : F
  r : List F
  c' : F
  r' : List F

/-- The two runs have the same hash input at this member and different challenges (the conclusion of forking, C28). -/
structure Spend.Forked (R : Ristretto F G) (gen : Bytes) (s : Spend F G) : Prop where
  range : s.old.value < 2 ^ 64
  ne : s.c ≠ s.c'
  len : s.r.length = 2
  len' : s.r'.length = 2
  same : query R s.msg [s.image] [s.key, s.old.point R gen - s.pseudo] s.r s.c =
    query R s.msg [s.image] [s.key, s.old.point R gen - s.pseudo] s.r' s.c'

/-- What the two runs give for key number `i` of the member. -/
def Spend.secret (s : Spend F G) (i : Nat) : F := (s.r'.getD i 0 - s.r.getD i 0) / (s.c - s.c')

theorem Spend.Forked.extract {R : Ristretto F G} (E : R.Encodings) {gen : Bytes} {s : Spend F G} (h : s.Forked R gen) :
    s.key = s.secret 0 • R.base ∧ s.old.point R gen - s.pseudo = s.secret 1 • R.base ∧
      s.image = s.secret 0 • R.pDerive (R.pBytes s.key) := by
  obtain ⟨h1, h2⟩ := C28_special_soundness E s.msg [s.image] [s.key, s.old.point R gen - s.pseudo] s.r s.r' s.c s.c' h.ne
    (by rw [h.len]; rfl) (by rw [h.len']; rfl) (by simp) h.same
  have g := h.len
  have g' := h.len'
  have e0 := h1 0 (by simp) (by omega) (by omega)
  have e1 := h1 1 (by simp) (by omega) (by omega)
  have e2 := h2 0 (by simp) (by simp) (by omega) (by omega)
  have d : ∀ i (hi : i < 2), s.secret i = (s.r'[i]'(by omega) - s.r[i]'(by omega)) / (s.c - s.c') := by
    intro i hi
    rw [Spend.secret, List.getD_eq_getElem _ _ (by omega), List.getD_eq_getElem _ _ (by omega)]
  rw [d 0 (by omega), d 1 (by omega)]
  have e0' : s.key = ((s.r'[0]'(by omega) - s.r[0]'(by omega)) / (s.c - s.c')) • R.base := e0
  refine ⟨e0, e1, ?_⟩
  rw [e0']
  exact e2

/-- C151: no value is made. Every input is signed by someone who can be rewound, the commitments in the rings and in the outputs open to values
below `2^64`, and the new commitments of the inputs add up to the outputs and the fee. Then the values of the coins spent add up to those of
the outputs and the fee, or the openings and the extracted secrets give the logarithm of the value base. -/
theorem C151_balance {R : Ristretto F G} (E : R.Encodings) (gen : Bytes) (ins : List (Spend F G)) (outs : List (Opening F)) (fee : Nat)
    (hi : ∀ s ∈ ins, s.Forked R gen) (ho : ∀ o ∈ outs, o.value < 2 ^ 64) (hni : ins.length * (2 ^ 64 - 1) < R.order)
    (hno : (outs.length + 1) * (2 ^ 64 - 1) + fee < R.order)
    (hsum : (ins.map Spend.pseudo).sum = (outs.map (Opening.point R gen)).sum + (fee : F) • (Pedersen.new R gen).basePoint) :
    (ins.map fun s => s.old.value).sum = (outs.map Opening.value).sum + fee ∨
    (Pedersen.new R gen).basePoint = (((outs.map Opening.blind).sum + (ins.map fun s => s.secret 1).sum - (ins.map fun s => s.old.blind).sum) /
      (((ins.map fun s => s.old.value).sum : Nat) - (((outs.map Opening.value).sum + fee : Nat) : F))) • R.base := by
  have hold : (ins.map fun s => s.old.point R gen).sum = (ins.map Spend.pseudo).sum + (ins.map fun s => s.secret 1).sum • R.base := by
    clear hni hsum
    induction ins with
    | nil => simp
    | cons s ins ih =>
      have h1 := (Spend.Forked.extract E (hi s (by simp))).2.1
      have h2 := ih fun s hs => hi s (by simp [hs])
      rw [List.map_cons, List.sum_cons, h2, List.map_cons, List.sum_cons, List.map_cons, List.sum_cons, add_smul, ← h1]
      abel
  have key := C149_totals R gen (ins.map fun s => (s.old.value, s.old.blind))
    (outs.map (fun o => (o.value, o.blind)) ++ [(0, (ins.map fun s => s.secret 1).sum)]) fee
    (by
      intro x hx
      obtain ⟨s, hs, rfl⟩ := List.mem_map.1 hx
      exact (hi s hs).range)
    (by
      intro x hx
      rcases List.mem_append.1 hx with hx | hx
      · obtain ⟨o, h, rfl⟩ := List.mem_map.1 hx
        exact ho o h
      · rw [List.mem_singleton] at hx
        rw [hx]
        norm_num)
    (by rw [List.length_map]; exact hni) (by rw [List.length_append, List.length_map]; exact hno)
  simp only [List.map_append, List.map_map, List.map_cons, List.map_nil, List.sum_append, List.sum_cons, List.sum_nil, add_zero,
    Function.comp_def] at key
  have bl : (Pedersen.new R gen).blindPoint = R.base := rfl
  have := key (by
    rw [show (List.map (fun s : Spend F G => ((Pedersen.new R gen).commitToScalar (s.old.value : F) s.old.blind).value) ins).sum =
      (ins.map fun s => s.old.point R gen).sum from rfl, hold, hsum]
    rw [show (List.map (fun o : Opening F => ((Pedersen.new R gen).commitToScalar (o.value : F) o.blind).value) outs).sum =
      (outs.map (Opening.point R gen)).sum from rfl]
    simp only [Pedersen.commitToScalar, Nat.cast_zero, zero_smul, zero_add, bl]
    abel)
  rw [bl] at this
  exact this

open RP in
/-- C151: the same with an aggregated range proof for the outputs in place of openings. The prover of the range proof can be rewound (as in C69),
and so can the signers of the inputs. Then the values extracted for the outputs are below `2^64`, and with the fee they add up to the values of
the coins spent; or one of the listed coefficient vectors is a relation between the generators, or the logarithm of the value base is found. -/
theorem C151_proofs [DecidableEq F] [DecidableEq G] {R : Ristretto F G} (E : R.Encodings) (gen : Bytes) {k m : Nat} (p : Strategy F G k) (q : Queries F)
    (hk : k < 32) (hm : 2 ^ k = 64 * m) (hV : m ≤ p.V.length)
    (hq : q.Good p m) (hacc : p.Accepting q (pub R (64 * m)) m) {y₀ z₀ : F} (hy₀ : y₀ ∈ q.ys) (hz₀ : z₀ ∈ q.zs y₀)
    (ins : List (Spend F G)) (fee : Nat) (hi : ∀ s ∈ ins, s.Forked R gen) (hni : ins.length * (2 ^ 64 - 1) < R.order)
    (hord : 2 ^ 91 + fee ≤ R.order)
    (hsum : (ins.map Spend.pseudo).sum =
      ∑ j ∈ Finset.range m, (p.V.map fun V => V.value).getD j 0 + (fee : F) • (Pedersen.new R gen).basePoint) :
    (∃ ρ ∈ relations p q (64 * m) m y₀ z₀, ev (pub R (64 * m)) (64 * m) ρ = 0 ∧ ρ.Nonzero (64 * m)) ∨
    ∃ n : Nat → Nat, (∀ j < m, n j < 2 ^ 64 ∧ (openV p q m y₀ j).1 = (n j : F)) ∧
      ((ins.map fun s => s.old.value).sum = ∑ j ∈ Finset.range m, n j + fee ∨
      (Pedersen.new R gen).basePoint = ((∑ j ∈ Finset.range m, (openV p q m y₀ j).2 + (ins.map fun s => s.secret 1).sum - (ins.map fun s => s.old.blind).sum) /
        (((ins.map fun s => s.old.value).sum : Nat) - ((∑ j ∈ Finset.range m, n j + fee : Nat) : F))) • R.base) := by
  rcases C69_extraction (pub R (64 * m)) p q hk hm (chain_length ..) (chain_length ..) hV hq hacc hy₀ hz₀ with h | h
  · exact Or.inl h
  right
  choose! n hn using fun j hj => (h j hj).2
  refine ⟨n, hn, ?_⟩
  have hm26 : m < 2 ^ 26 := by
    have : 2 ^ k < 2 ^ 32 := Nat.pow_lt_pow_right (by norm_num) hk
    omega
  let outs : List (Opening F) := (List.range m).map fun j => ⟨n j, (openV p q m y₀ j).2⟩
  have e1 : (outs.map Opening.value).sum = ∑ j ∈ Finset.range m, n j := by
    simp only [outs, List.map_map, Function.comp_def]
    rfl
  have e2 : (outs.map Opening.blind).sum = ∑ j ∈ Finset.range m, (openV p q m y₀ j).2 := by
    simp only [outs, List.map_map, Function.comp_def]
    rfl
  have e3 : (outs.map (Opening.point R gen)).sum = ∑ j ∈ Finset.range m, (p.V.map fun V => V.value).getD j 0 := by
    simp only [outs, List.map_map, Function.comp_def]
    have e : ∀ j ∈ List.range m, Opening.point R gen ⟨n j, (openV p q m y₀ j).2⟩ = (p.V.map fun V => V.value).getD j 0 := by
      intro j hj
      have hj := List.mem_range.1 hj
      rw [(h j hj).1, (hn j hj).2]
      rfl
    rw [List.map_congr_left e]
    rfl
  have b := C151_balance E gen ins outs fee hi
    (by
      intro o ho
      obtain ⟨j, hj, rfl⟩ := List.mem_map.1 ho
      exact (hn j (List.mem_range.1 hj)).1) hni
    (by
      have hl : outs.length = m := by simp [outs]
      have h2 : (m + 1) * (2 ^ 64 - 1) ≤ 2 ^ 26 * (2 ^ 64 - 1) := Nat.mul_le_mul_right _ (by omega)
      have h3 : (2 : Nat) ^ 26 * (2 ^ 64 - 1) < 2 ^ 91 := by norm_num
      rw [hl]
      exact lt_of_lt_of_le (Nat.add_lt_add_right (h2.trans_lt h3) fee) hord)
    (by rw [e3, hsum])
  rw [e1, e2] at b
  exact b

/-- C151: no coin is spent twice. Signers that can be rewound and give different key images sign for different keys. -/
theorem C151_double {R : Ristretto F G} (E : R.Encodings) (hB : R.base ≠ 0) (gen : Bytes) (ins : List (Spend F G))
    (hi : ∀ s ∈ ins, s.Forked R gen) (hn : (ins.map Spend.image).Nodup) : (ins.map Spend.key).Nodup := by
  refine List.Nodup.map_on ?_ (List.Nodup.of_map _ hn)
  intro s hs t ht e
  obtain ⟨a1, -, a3⟩ := (hi s hs).extract E
  obtain ⟨b1, -, b3⟩ := (hi t ht).extract E
  have hx : s.secret 0 = t.secret 0 := by
    have h : (s.secret 0 - t.secret 0) • R.base = 0 := by rw [sub_smul, ← a1, ← b1, e, sub_self]
    rcases smul_eq_zero.1 h with h | h
    · exact sub_eq_zero.1 h
    · exact absurd h hB
  refine List.inj_on_of_nodup_map hn hs ht ?_
  rw [a3, b3, hx, e]

/-- The calls with which a coin is spent: the other coins of the ring, the new commitment, the secret key, the difference of the blinding
factors, and the message. -/
def spendCalls (R : Ristretto F G) (gen : Bytes) (x : F) (old new : Opening F) (others : List (G × G)) (m : Bytes) : List (EOp F G) :=
  [.decoys (others.map fun k => ⟨false, [k.1, k.2]⟩), .op (.sub (new.point R gen)), .op (.primary x), .op (.comm (old.blind - new.blind)),
    .op (.msg m)]

/-- C151: an honest input is accepted. For a non-zero key, a new commitment to the same value with another blinding factor, and at least one
other coin, `Prove` returns a signature that verifies, whose ring has for each coin its key and its commitment less the new one. -/
theorem C151_honest [DecidableEq F] (R : Ristretto F G) (gen : Bytes) (x : F) (old new : Opening F) (others : List (G × G)) (m : Bytes)
    (coins : Coins F) (hx : x ≠ 0) (hv : old.value = new.value) (hb : old.blind ≠ new.blind) (ho : others ≠ []) :
    ∃ d sig I, EOp.run R DualKey.new (spendCalls R gen x old new others m) = .ok d ∧ (d.prove R coins).2 = .ok (sig, I) ∧
      I = x • R.pDerive (R.pBytes (x • R.base)) ∧ sig.verify R [I] = .ok true ∧ sig.msg = m ∧
      (sig.pubKeys.map PubKeys.keys).Perm ((others ++ [(x • R.base, old.point R gen)]).map fun k => [k.1, k.2 - new.point R gen]) := by
  obtain ⟨d, hd⟩ := (C84_panic R (spendCalls R gen x old new others m)).2.2 (by simp [spendCalls, Calls.bad, Calls.anySub])
  have hr : Calls.ring (spendCalls R gen x old new others m) = others.map fun k => [k.1, k.2 - new.point R gen] := by
    simp [spendCalls, Calls.ring, Calls.subs, Calls.shift, Function.comp_def]
  have p0 : Calls.primary 0 (spendCalls R gen x old new others m) = x := rfl
  have z0 : Calls.zeroing 0 (spendCalls R gen x old new others m) = old.blind - new.blind := rfl
  have h := ((C84_outcome R _ d hd coins).2 (by rw [p0]; exact hx) (by rw [z0]; exact sub_ne_zero.2 hb)).2.2
    (by rw [hr]; simpa using ho) rfl (by
      intro ks hks
      rw [hr] at hks
      obtain ⟨k, -, rfl⟩ := List.mem_map.1 hks
      rfl)
  rw [p0, z0, hr] at h
  obtain ⟨sig, I, h1, h2, h3, h4, h5⟩ := h
  refine ⟨d, sig, I, hd, h1, h2, h3, h4, ?_⟩
  have e : (old.blind - new.blind) • R.base = old.point R gen - new.point R gen := by
    rw [sub_smul]
    simp only [Opening.point, Pedersen.commitToScalar, hv]
    rw [show (Pedersen.new R gen).blindPoint = R.base from rfl]
    abel
  rw [e] at h5
  rw [List.map_append]
  exact h5

/-- C151: with the same blinding factor in the new commitment, an honest input is refused (the second key is zero). -/
theorem C151_same_blinding [DecidableEq F] (R : Ristretto F G) (gen : Bytes) (x : F) (old new : Opening F) (others : List (G × G)) (m : Bytes)
    (coins : Coins F) (hb : old.blind = new.blind) :
    ∃ d, EOp.run R DualKey.new (spendCalls R gen x old new others m) = .ok d ∧ (d.prove R coins).2.IsErr := by
  obtain ⟨d, hd⟩ := (C84_panic R (spendCalls R gen x old new others m)).2.2 (by simp [spendCalls, Calls.bad, Calls.anySub])
  refine ⟨d, hd, (C84_outcome R _ d hd coins).1 (Or.inr ?_)⟩
  exact sub_eq_zero.2 hb

/-- C151: with equal totals of values and of blinding factors, the commitments add up. -/
theorem C151_adds_up (R : Ristretto F G) (gen : Bytes) (news outs : List (Opening F)) (fee : Nat)
    (hv : (news.map Opening.value).sum = (outs.map Opening.value).sum + fee)
    (hb : (news.map Opening.blind).sum = (outs.map Opening.blind).sum) :
    (news.map (Opening.point R gen)).sum = (outs.map (Opening.point R gen)).sum + (fee : F) • (Pedersen.new R gen).basePoint := by
  have tot : ∀ l : List (Opening F), (l.map (Opening.point R gen)).sum =
      (((l.map Opening.value).sum : Nat) : F) • (Pedersen.new R gen).basePoint + (l.map Opening.blind).sum • R.base := by
    intro l
    induction l with
    | nil => simp
    | cons o l ih =>
      rw [List.map_cons, List.sum_cons, ih]
      simp only [List.map_cons, List.sum_cons, Nat.cast_add, add_smul, Opening.point, Pedersen.commitToScalar]
      rw [show (Pedersen.new R gen).blindPoint = R.base from rfl]
      abel
  rw [tot, tot, hv, hb, Nat.cast_add, add_smul]
  abel

/-! ### A payment -/

/-- The two runs of a signer who knows the secrets. -/
def Spend.run (R : Ristretto F G) (gen m : Bytes) (x : F) (old new : Opening F) (u w c c' : F) : Spend F G :=
  ⟨m, Mlsag.image R x, x • R.base, old, new.point R gen, c, [u - c * x, w - c * (old.blind - new.blind)], c',
    [u - c' * x, w - c' * (old.blind - new.blind)]⟩

/-- C151: a signer who knows the secrets and spends to the same value can be rewound, whatever the challenges. -/
theorem C151_forked (R : Ristretto F G) (gen m : Bytes) (x : F) (old new : Opening F) (u w c c' : F) (hr : old.value < 2 ^ 64)
    (hv : old.value = new.value) (hc : c ≠ c') : (Spend.run R gen m x old new u w c c').Forked R gen := by
  have e : old.point R gen - new.point R gen = (old.blind - new.blind) • R.base := by
    rw [sub_smul]
    simp only [Opening.point, Pedersen.commitToScalar, hv]
    rw [show (Pedersen.new R gen).blindPoint = R.base from rfl]
    abel
  refine ⟨hr, hc, rfl, rfl, ?_⟩
  have s : ∀ (v c y : F) (B : G), (v - c * y) • B + c • (y • B) = v • B := by
    intro v c y B
    rw [sub_smul, mul_smul, sub_add_cancel]
  simp only [Spend.run, e, query, List.zipWith_cons_cons, List.zipWith_nil_right, List.zip_cons_cons, Mlsag.image, s]

/-- Two coins of 7 and 5 are spent: 10 to the output, 2 as the fee. -/
example : ∃ ins : List (Spend Toy.K Toy.K), (∀ s ∈ ins, s.Forked Toy.ris [1]) ∧
    ins.map (fun s => s.old.value) = [7, 5] ∧
    (ins.map Spend.pseudo).sum = (([⟨10, 30⟩] : List (Opening Toy.K)).map (Opening.point Toy.ris [1])).sum +
      ((2 : Nat) : Toy.K) • (Pedersen.new Toy.ris [1]).basePoint := by
  refine ⟨[Spend.run Toy.ris [1] [9] 3 ⟨7, 100⟩ ⟨7, 10⟩ 40 50 0 1, Spend.run Toy.ris [1] [9] 4 ⟨5, 200⟩ ⟨5, 20⟩ 60 70 0 1], ?_, rfl, ?_⟩
  · intro s hs
    rcases List.mem_cons.1 hs with rfl | hs
    · exact C151_forked _ _ _ _ _ _ _ _ _ _ (by norm_num) rfl zero_ne_one
    · rw [List.mem_singleton] at hs
      rw [hs]
      exact C151_forked _ _ _ _ _ _ _ _ _ _ (by norm_num) rfl zero_ne_one
  · exact C151_adds_up Toy.ris [1] [⟨7, 10⟩, ⟨5, 20⟩] [⟨10, 30⟩] 2 rfl (by norm_num)

/-- The bounds of `C151_balance` for this payment. -/
example : 2 * (2 ^ 64 - 1) < Toy.ris.order ∧ (1 + 1) * (2 ^ 64 - 1) + 2 < Toy.ris.order := by decide +kernel

open RP in
/-- A coin of value 5 pays outputs of values 1 and 2 with an honest range proof, and a fee of 2. -/
example (coins : RP.Coins Toy.K) : ∃ (p : Strategy Toy.K Toy.K 7) (q : Queries Toy.K) (y : Toy.K) (ins : List (Spend Toy.K Toy.K)),
    y ∈ q.ys ∧ q.Good p 2 ∧ p.Accepting q (pub Toy.ris (64 * 2)) 2 ∧ (∀ s ∈ ins, s.Forked Toy.ris [1]) ∧
    ins.map (fun s => s.old.value) = [5] ∧ (ins.map Spend.pseudo).sum =
      ∑ j ∈ Finset.range 2, (p.V.map fun V => V.value).getD j 0 + ((2 : Nat) : Toy.K) • (Pedersen.new Toy.ris [1]).basePoint := by
  obtain ⟨q, q1, q2, q3, q4, q5⟩ := exists_queries 2 (by norm_num)
  obtain ⟨u, u1, u2⟩ := case_folds
  obtain ⟨g, a⟩ := C69_satisfiable Toy.ris (pub Toy.ris (64 * 2)) u u1 u2 7 (by norm_num) [1, 2] (by norm_num) (chain_length ..)
    (chain_length ..) toy_two coins q q1 q2 q3 q4 q5
  obtain ⟨y, hy⟩ : q.ys.Nonempty := Finset.card_pos.1 (by omega)
  refine ⟨_, q, y, [Spend.run Toy.ris [1] [9] 3 ⟨5, coins.vBlind 0 + coins.vBlind 1 + 1⟩ ⟨5, coins.vBlind 0 + coins.vBlind 1⟩ 40 50 0 1], hy, g, a,
    ?_, rfl, ?_⟩
  · intro s hs
    rw [List.mem_singleton] at hs
    rw [hs]
    exact C151_forked _ _ _ _ _ _ _ _ _ _ (by norm_num) rfl zero_ne_one
  · have e := C151_adds_up Toy.ris [1] [⟨5, coins.vBlind 0 + coins.vBlind 1⟩] [⟨1, coins.vBlind 0⟩, ⟨2, coins.vBlind 1⟩] 2 rfl (by simp)
    refine Eq.trans e ?_
    simp [honestStrategy, Finset.sum_range_succ, Opening.point, Pedersen.commitToScalar]
    rfl

/-- The two coins have different keys. -/
example : ([Spend.run Toy.ris [1] [9] 3 ⟨7, 100⟩ ⟨7, 10⟩ 40 50 0 1, Spend.run Toy.ris [1] [9] 4 ⟨5, 200⟩ ⟨5, 20⟩ 60 70 0 1].map
    Spend.image).Nodup := by decide +kernel

/-- The first of them, hidden among two others. -/
example (coins : Coins Toy.K) : ∃ d sig I, EOp.run Toy.ris DualKey.new (spendCalls Toy.ris [1] 3 ⟨7, 100⟩ ⟨7, 10⟩ [(11, 12), (13, 14)] [9]) = .ok d ∧
    (d.prove Toy.ris coins).2 = .ok (sig, I) ∧ sig.verify Toy.ris [I] = .ok true := by
  obtain ⟨d, sig, I, h1, h2, -, h3, -⟩ := C151_honest Toy.ris [1] 3 ⟨7, 100⟩ ⟨7, 10⟩ [(11, 12), (13, 14)] [9] coins
    (by decide +kernel) rfl (by decide +kernel) (by simp)
  exact ⟨d, sig, I, h1, h2, h3⟩

/-- The same coin with the blinding factor kept. -/
example (coins : Coins Toy.K) :
    ∃ d, EOp.run Toy.ris DualKey.new (spendCalls Toy.ris [1] 3 ⟨7, 100⟩ ⟨7, 100⟩ [(11, 12)] [9]) = .ok d ∧ (d.prove Toy.ris coins).2.IsErr :=
  C151_same_blinding Toy.ris [1] 3 ⟨7, 100⟩ ⟨7, 100⟩ [(11, 12)] [9] coins rfl

end Dusk.Mlsag
