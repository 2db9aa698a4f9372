import Mathlib.Data.List.Perm.Subperm
import Verif.Props.Transaction
/-!
# C156: histories of payments

A ledger keeps the coins that were made, each a key and a commitment, and the key images that were used. A payment is taken if its inputs are
signed for coins of the ledger with unused images, and its commitments add up. The payments are those of C151; here any number of them follow
one another.
-/

set_option linter.unusedSectionVars false

namespace Dusk.Mlsag

variable {F G : Type} [Field F] [AddCommGroup G] [Module F G]

/-- An entry of the ledger: a key, and the opening of the commitment beside it. -/
structure Coin (F G : Type) where
  key : G
  opening : Opening F

/-- A payment: the inputs (`Spend`, as in C151), the new coins, and the fee. -/
structure Payment (F G : Type) where
  ins : List (Spend F G)
  outs : List (Coin F G)
  fee : Nat

/-- The coin for which an input is signed. -/
def Spend.coin (s : Spend F G) : Coin F G := ⟨s.key, s.old⟩

/-- What is asked of a payment when the coins `made` exist and the images `used` have been seen. -/
structure Payment.Valid (R : Ristretto F G) (gen : Bytes) (made : List (Coin F G)) (used : List G) (p : Payment F G) : Prop where
  forked : ∀ s ∈ p.ins, s.Forked R gen
  known : ∀ s ∈ p.ins, s.coin ∈ made
  range : ∀ c ∈ p.outs, c.opening.value < 2 ^ 64
  fewIns : p.ins.length * (2 ^ 64 - 1) < R.order
  fewOuts : (p.outs.length + 1) * (2 ^ 64 - 1) + p.fee < R.order
  fresh : (p.ins.map Spend.image).Nodup ∧ ∀ s ∈ p.ins, s.image ∉ used
  sum : (p.ins.map Spend.pseudo).sum =
    ((p.outs.map Coin.opening).map (Opening.point R gen)).sum + (p.fee : F) • (Pedersen.new R gen).basePoint

/-- The coins made, spent, the images used, and the fees, by a list of payments. -/
def made (ps : List (Payment F G)) : List (Coin F G) := ps.flatMap Payment.outs
def spends (ps : List (Payment F G)) : List (Spend F G) := ps.flatMap Payment.ins
def used (ps : List (Payment F G)) : List G := (spends ps).map Spend.image
def fees (ps : List (Payment F G)) : Nat := (ps.map Payment.fee).sum

/-- The total value of coins. -/
def total (cs : List (Coin F G)) : Nat := (cs.map fun c => c.opening.value).sum

/-- Payments one after another, from the coins `start`: each is valid after those before it. -/
def History (R : Ristretto F G) (gen : Bytes) (start : List (Coin F G)) (ps : List (Payment F G)) : Prop :=
  ∀ pre p post, ps = pre ++ p :: post → p.Valid R gen (start ++ made pre) (used pre)

/-- What openings and secrets of a payment give for the logarithm of the value base, if the values do not add up. -/
def Payment.logarithm (p : Payment F G) : F :=
  ((p.outs.map fun c => c.opening.blind).sum + (p.ins.map fun s => s.secret 1).sum - (p.ins.map fun s => s.old.blind).sum) /
    (((p.ins.map fun s => s.old.value).sum : Nat) - ((total p.outs + p.fee : Nat) : F))

theorem History.prefix {R : Ristretto F G} {gen : Bytes} {start : List (Coin F G)} {ps : List (Payment F G)} {p : Payment F G}
    (h : History R gen start (ps ++ [p])) : History R gen start ps ∧ p.Valid R gen (start ++ made ps) (used ps) :=
  ⟨fun pre q post e => h pre q (post ++ [p]) (by rw [e]; simp), h ps p [] rfl⟩

theorem History.snoc {R : Ristretto F G} {gen : Bytes} {start : List (Coin F G)} {ps : List (Payment F G)} {p : Payment F G}
    (h : History R gen start ps) (hp : p.Valid R gen (start ++ made ps) (used ps)) : History R gen start (ps ++ [p]) := by
  intro pre q post e
  rcases List.eq_nil_or_concat post with rfl | ⟨post', r, rfl⟩
  · obtain ⟨rfl, e2⟩ := List.append_inj' e rfl
    cases e2
    exact hp
  · rw [List.concat_eq_append, ← List.cons_append, ← List.append_assoc] at e
    obtain ⟨rfl, -⟩ := List.append_inj' e rfl
    exact h pre q post' rfl

theorem History.spends {R : Ristretto F G} {gen : Bytes} {start : List (Coin F G)} {ps : List (Payment F G)} (h : History R gen start ps) :
    (∀ s ∈ Mlsag.spends ps, s.Forked R gen ∧ s.coin ∈ start ++ made ps) ∧ (used ps).Nodup := by
  induction ps using List.reverseRecOn with
  | nil => simp [Mlsag.spends, used]
  | append_singleton ps p ih =>
    obtain ⟨h1, h2⟩ := h.prefix
    obtain ⟨i1, i2⟩ := ih h1
    constructor
    · intro s hs
      simp only [Mlsag.spends, List.flatMap_append, List.flatMap_cons, List.flatMap_nil, List.append_nil, List.mem_append] at hs
      simp only [made, List.flatMap_append, ← List.append_assoc]
      rcases hs with hs | hs
      · exact ⟨(i1 s hs).1, List.mem_append_left _ (i1 s hs).2⟩
      · exact ⟨h2.forked s hs, List.mem_append_left _ (h2.known s hs)⟩
    · simp only [used, Mlsag.spends, List.flatMap_append, List.flatMap_cons, List.flatMap_nil, List.append_nil, List.map_append]
      rw [List.nodup_append]
      refine ⟨i2, h2.fresh.1, ?_⟩
      rintro a ha b hb rfl
      obtain ⟨s, hs, e⟩ := List.mem_map.1 hb
      exact h2.fresh.2 s hs (by rw [e]; exact ha)

/-- C156: no key is used twice, in all payments together. So of several coins with the same key at most one is ever spent. -/
theorem C156_keys {R : Ristretto F G} (E : R.Encodings) (hB : R.base ≠ 0) (gen : Bytes) (start : List (Coin F G)) (ps : List (Payment F G))
    (h : History R gen start ps) : ((spends ps).map Spend.key).Nodup :=
  C151_double E hB gen _ (fun s hs => (h.spends.1 s hs).1) h.spends.2

/-- C156: the supply stays the same over any number of payments. The coins made are those spent and others, and the value of the others and the
fees are the value of the coins at the start; or one of the payments gives the logarithm of the value base. -/
theorem C156_supply {R : Ristretto F G} (E : R.Encodings) (hB : R.base ≠ 0) (gen : Bytes) (start : List (Coin F G)) (ps : List (Payment F G))
    (h : History R gen start ps) :
    (∃ p ∈ ps, (Pedersen.new R gen).basePoint = p.logarithm • R.base) ∨
    ∃ unspent : List (Coin F G), (start ++ made ps).Perm ((spends ps).map Spend.coin ++ unspent) ∧ total unspent + fees ps = total start := by
  by_cases hlog : ∃ p ∈ ps, (Pedersen.new R gen).basePoint = p.logarithm • R.base
  · exact Or.inl hlog
  refine Or.inr ?_
  have bal : total ((spends ps).map Spend.coin) = total (made ps) + fees ps := by
    clear hB
    induction ps using List.reverseRecOn with
    | nil => rfl
    | append_singleton ps p ih =>
      obtain ⟨h1, h2⟩ := h.prefix
      have i := ih h1 fun ⟨q, hq, e⟩ => hlog ⟨q, by simp [hq], e⟩
      have b := C151_balance E gen p.ins (p.outs.map Coin.opening) p.fee h2.forked
        (by intro o ho; obtain ⟨c, hc, rfl⟩ := List.mem_map.1 ho; exact h2.range c hc) h2.fewIns (by rw [List.length_map]; exact h2.fewOuts) h2.sum
      rw [List.map_map, List.map_map] at b
      have b' : (p.ins.map fun s => s.old.value).sum = total p.outs + p.fee := by
        rcases b with b | b
        · exact b
        · exact absurd ⟨p, by simp, b⟩ hlog
      simp only [total, spends, made, fees, List.flatMap_append, List.flatMap_cons, List.flatMap_nil, List.append_nil, List.map_append,
        List.sum_append, List.map_map, List.map_cons, List.map_nil, List.sum_cons, List.sum_nil, Nat.add_zero, Function.comp_def, Spend.coin] at i b' ⊢
      omega
  have nd : ((spends ps).map Spend.coin).Nodup := by
    have := C156_keys E hB gen start ps h
    rw [show Spend.key = Coin.key ∘ (Spend.coin : Spend F G → Coin F G) from rfl, ← List.map_map] at this
    exact List.Nodup.of_map _ this
  have sub : (spends ps).map Spend.coin ⊆ start ++ made ps := by
    intro c hc
    obtain ⟨s, hs, rfl⟩ := List.mem_map.1 hc
    exact (h.spends.1 s hs).2
  obtain ⟨l, hl, hs⟩ := nd.subperm sub
  obtain ⟨rest, hr⟩ := hs.exists_perm_append
  have perm := hr.trans (hl.append_right rest)
  refine ⟨rest, perm, ?_⟩
  have tot : total (start ++ made ps) = total ((spends ps).map Spend.coin ++ rest) := (perm.map _).sum_eq
  simp only [total, List.map_append, List.sum_append] at tot bal ⊢
  omega

/-- C156: so the fees never exceed the supply. -/
theorem C156_fees {R : Ristretto F G} (E : R.Encodings) (hB : R.base ≠ 0) (gen : Bytes) (start : List (Coin F G)) (ps : List (Payment F G))
    (h : History R gen start ps) (hf : total start < fees ps) : ∃ p ∈ ps, (Pedersen.new R gen).basePoint = p.logarithm • R.base := by
  rcases C156_supply E hB gen start ps h with h | ⟨u, -, h⟩
  · exact h
  · omega

/-- C156: the holder of the secrets of a coin can spend it to any new coins that with the fee have its value, if the image was not used. -/
theorem C156_spendable {R : Ristretto F G} (gen : Bytes) (start : List (Coin F G)) (ps : List (Payment F G)) (h : History R gen start ps)
    (x : F) (old : Opening F) (hc : ⟨x • R.base, old⟩ ∈ start ++ made ps) (hv : old.value < 2 ^ 64) (hi : Mlsag.image R x ∉ used ps)
    (outs : List (Coin F G)) (fee : Nat) (ht : total outs + fee = old.value) (hord : (outs.length + 1) * (2 ^ 64 - 1) + fee < R.order) :
    ∃ p : Payment F G, p.outs = outs ∧ p.fee = fee ∧ p.ins.map Spend.coin = [⟨x • R.base, old⟩] ∧
      p.ins.map Spend.image = [Mlsag.image R x] ∧ History R gen start (ps ++ [p]) := by
  have hle : ∀ c ∈ outs, c.opening.value < 2 ^ 64 := by
    intro c hc
    have : c.opening.value ≤ total outs := List.single_le_sum (by simp) _ (List.mem_map_of_mem hc)
    omega
  refine ⟨⟨[Spend.run R gen [] x old ⟨old.value, (outs.map fun c => c.opening.blind).sum⟩ 0 0 0 1], outs, fee⟩, rfl, rfl, rfl, rfl,
    h.snoc ⟨?_, ?_, hle, ?_, hord, ?_, ?_⟩⟩
  · intro s hs
    rw [List.mem_singleton] at hs
    rw [hs]
    exact C151_forked _ _ _ _ _ _ _ _ _ _ hv rfl zero_ne_one
  · intro s hs
    rw [List.mem_singleton] at hs
    rw [hs]
    exact hc
  · have : 1 * (2 ^ 64 - 1) ≤ (outs.length + 1) * (2 ^ 64 - 1) := Nat.mul_le_mul_right _ (by omega)
    exact lt_of_le_of_lt (le_trans this (Nat.le_add_right _ _)) hord
  · refine ⟨by simp, ?_⟩
    intro s hs
    rw [List.mem_singleton] at hs
    rw [hs]
    exact hi
  · have := C151_adds_up R gen [⟨old.value, (outs.map fun c => c.opening.blind).sum⟩] (outs.map Coin.opening) fee
      (by simpa [total, Function.comp_def] using ht.symm) (by simp [Function.comp_def])
    simpa [Spend.run] using this

/-- C156: the logarithm is all there is to it. Whoever has it can spend a coin, whose secrets they know, to new coins of any values. -/
theorem C156_minted {R : Ristretto F G} (gen : Bytes) (start : List (Coin F G)) (ps : List (Payment F G)) (h : History R gen start ps)
    (β : F) (hβ : (Pedersen.new R gen).basePoint = β • R.base)
    (x : F) (old : Opening F) (hc : ⟨x • R.base, old⟩ ∈ start ++ made ps) (hv : old.value < 2 ^ 64) (hi : Mlsag.image R x ∉ used ps)
    (outs : List (Coin F G)) (fee : Nat) (ho : ∀ c ∈ outs, c.opening.value < 2 ^ 64) (hord : (outs.length + 1) * (2 ^ 64 - 1) + fee < R.order) :
    ∃ p : Payment F G, p.outs = outs ∧ p.fee = fee ∧ p.ins.map Spend.coin = [⟨x • R.base, old⟩] ∧ History R gen start (ps ++ [p]) := by
  have pt : ∀ o : Opening F, o.point R gen = ((o.value : F) * β + o.blind) • R.base := by
    intro o
    simp only [Opening.point, Pedersen.commitToScalar, hβ, add_smul, mul_smul]
    rfl
  obtain ⟨y, hy⟩ : ∃ y : F, ((outs.map Coin.opening).map (Opening.point R gen)).sum + (fee : F) • (Pedersen.new R gen).basePoint = y • R.base := by
    have : ∃ y : F, ((outs.map Coin.opening).map (Opening.point R gen)).sum = y • R.base := by
      clear hord ho
      induction outs with
      | nil => exact ⟨0, by simp⟩
      | cons c outs ih =>
        obtain ⟨y, hy⟩ := ih
        exact ⟨((c.opening.value : F) * β + c.opening.blind) + y, by simp only [List.map_cons, List.sum_cons, hy, pt, add_smul]⟩
    obtain ⟨y, hy⟩ := this
    exact ⟨y + fee * β, by rw [hy, hβ, add_smul, mul_smul]⟩
  refine ⟨⟨[⟨[], Mlsag.image R x, x • R.base, old, y • R.base, 0, [0, 0], 1, [-x, -(((old.value : F) * β + old.blind) - y)]⟩], outs, fee⟩, rfl, rfl, rfl,
    h.snoc ⟨?_, ?_, ho, ?_, hord, ?_, ?_⟩⟩
  · intro s hs
    rw [List.mem_singleton] at hs
    rw [hs]
    refine ⟨hv, zero_ne_one, rfl, rfl, ?_⟩
    simp only [pt, ← sub_smul, query, List.zipWith_cons_cons, List.zipWith_nil_right, List.zip_cons_cons, Mlsag.image, zero_smul, one_smul, neg_smul,
      add_zero, neg_add_cancel]
  · intro s hs
    rw [List.mem_singleton] at hs
    rw [hs]
    exact hc
  · have : 1 * (2 ^ 64 - 1) ≤ (outs.length + 1) * (2 ^ 64 - 1) := Nat.mul_le_mul_right _ (by omega)
    exact lt_of_le_of_lt (le_trans this (Nat.le_add_right _ _)) hord
  · refine ⟨by simp, ?_⟩
    intro s hs
    rw [List.mem_singleton] at hs
    rw [hs]
    exact hi
  · simpa using hy.symm

/-- C156 (violated): every coin can be spent by the holder of its secrets. After a coin was spent, no payment with another coin that has the same
key is valid, whatever the commitments are: what was sent twice to one key is lost but for one coin. -/
theorem C156_burnt_violated {R : Ristretto F G} (E : R.Encodings) (hB : R.base ≠ 0) (gen : Bytes) (start : List (Coin F G)) (ps : List (Payment F G))
    (h : History R gen start ps) (s : Spend F G) (hs : s ∈ spends ps) (p : Payment F G) (t : Spend F G) (ht : t ∈ p.ins) (hk : t.key = s.key) :
    ¬ p.Valid R gen (start ++ made ps) (used ps) := by
  intro hp
  have := C156_keys E hB gen start (ps ++ [p]) (h.snoc hp)
  simp only [spends, List.flatMap_append, List.flatMap_cons, List.flatMap_nil, List.append_nil, List.map_append] at this
  exact (List.nodup_append.1 this).2.2 _ (List.mem_map_of_mem hs) _ (List.mem_map_of_mem ht) hk.symm

/-! ### Two payments -/

/-- Coins of 7 and 5. -/
def firstCoins : List (Coin Toy.K Toy.K) := [⟨(3 : Toy.K) • Toy.ris.base, ⟨7, 100⟩⟩, ⟨(4 : Toy.K) • Toy.ris.base, ⟨5, 200⟩⟩]

/-- The first pays 4 and 2 to one key, with a fee of 1. -/
def firstOuts : List (Coin Toy.K Toy.K) := [⟨(8 : Toy.K) • Toy.ris.base, ⟨4, 11⟩⟩, ⟨(8 : Toy.K) • Toy.ris.base, ⟨2, 12⟩⟩]

/-- The new coin of 4 pays 3 to another, with a fee of 1. After that the coin of 2 cannot be spent any more. -/
example : ∃ ps : List (Payment Toy.K Toy.K), History Toy.ris [1] firstCoins ps ∧ ps.length = 2 ∧ fees ps = 2 ∧
    (spends ps).map Spend.coin = [⟨(3 : Toy.K) • Toy.ris.base, ⟨7, 100⟩⟩, ⟨(8 : Toy.K) • Toy.ris.base, ⟨4, 11⟩⟩] ∧
    ∀ (p : Payment Toy.K Toy.K) (t : Spend Toy.K Toy.K), t ∈ p.ins → t.coin = ⟨(8 : Toy.K) • Toy.ris.base, ⟨2, 12⟩⟩ →
      ¬ p.Valid Toy.ris [1] (firstCoins ++ made ps) (used ps) := by
  obtain ⟨p, p1, p2, p3, p4, p5⟩ := C156_spendable (R := Toy.ris) [1] firstCoins [] (by intro pre p post e; simp at e) 3 ⟨7, 100⟩ (.head _)
    (by norm_num) (by simp [used, spends]) firstOuts 1 rfl (by decide +kernel)
  obtain ⟨q, q1, q2, q3, q4, q5⟩ := C156_spendable (R := Toy.ris) [1] firstCoins ([] ++ [p]) p5 8 ⟨4, 11⟩
    (List.mem_append_right _ (by simp only [made, List.nil_append, List.flatMap_cons, p1]; exact .head _)) (by norm_num)
    (by simp only [used, spends, List.nil_append, List.flatMap_cons, List.flatMap_nil, List.append_nil, p4]; decide +kernel)
    [⟨(9 : Toy.K) • Toy.ris.base, ⟨3, 13⟩⟩] 1 rfl (by decide +kernel)
  have e : (spends ([] ++ [p] ++ [q])).map Spend.coin = [⟨(3 : Toy.K) • Toy.ris.base, ⟨7, 100⟩⟩, ⟨(8 : Toy.K) • Toy.ris.base, ⟨4, 11⟩⟩] := by
    simp only [spends, List.nil_append, List.cons_append, List.flatMap_cons, List.flatMap_nil, List.append_nil, List.map_append, p3, q3]
  refine ⟨_, q5, rfl, by simp [fees, p2, q2], e, fun r t ht hc => ?_⟩
  obtain ⟨s, hs, es⟩ := List.mem_map.1 (show (⟨(8 : Toy.K) • Toy.ris.base, ⟨4, 11⟩⟩ : Coin Toy.K Toy.K) ∈ (spends ([] ++ [p] ++ [q])).map Spend.coin by
    rw [e]; exact .tail _ (.head _))
  exact C156_burnt_violated Toy.ris_encodings (by decide +kernel) [1] firstCoins _ q5 s hs r t ht
    (by rw [show t.key = t.coin.key from rfl, hc, show s.key = s.coin.key from rfl, es])

/-- In the groups of the examples everyone has the logarithm: a coin of 7 pays a fee of 1000. -/
example : ∃ ps : List (Payment Toy.K Toy.K), History Toy.ris [1] firstCoins ps ∧ total firstCoins < fees ps ∧
    ∃ p ∈ ps, (Pedersen.new Toy.ris [1]).basePoint = p.logarithm • Toy.ris.base := by
  have hB : Toy.ris.base ≠ 0 := by decide +kernel
  obtain ⟨p, -, p2, -, p4⟩ := C156_minted (R := Toy.ris) [1] firstCoins [] (by intro pre p post e; simp at e)
    ((Pedersen.new Toy.ris [1]).basePoint / Toy.ris.base) (by rw [smul_eq_mul, div_mul_cancel₀ _ hB]) 3 ⟨7, 100⟩ (.head _)
    (by norm_num) (by simp [used, spends]) [] 1000 (by simp) (by decide +kernel)
  have hf : total firstCoins < fees ([] ++ [p]) := by
    simp only [fees, List.nil_append, List.map_cons, List.map_nil, List.sum_cons, List.sum_nil, p2]
    decide
  exact ⟨_, p4, hf, C156_fees Toy.ris_encodings hB [1] firstCoins _ p4 hf⟩

/-- The keys and the supply of two payments. -/
example (ps : List (Payment Toy.K Toy.K)) (h : History Toy.ris [1] firstCoins ps) : ((spends ps).map Spend.key).Nodup ∧
    ((∃ p ∈ ps, (Pedersen.new Toy.ris [1]).basePoint = p.logarithm • Toy.ris.base) ∨
    ∃ unspent, (firstCoins ++ made ps).Perm ((spends ps).map Spend.coin ++ unspent) ∧ total unspent + fees ps = 12) :=
  ⟨C156_keys Toy.ris_encodings (by decide +kernel) [1] firstCoins ps h, C156_supply Toy.ris_encodings (by decide +kernel) [1] firstCoins ps h⟩

end Dusk.Mlsag
