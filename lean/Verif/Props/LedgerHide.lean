import Verif.Props.Transaction
import Verif.Props.RPHide
import Mathlib.Logic.Equiv.Prod
/-!
# C157: payments hide the amounts

A wallet pays as in C151: the outputs are committed to and proved in range by `rangeproof.Prove`, every coin spent gets a new commitment to the
same value, the blinding factors of the new commitments are random but for the last, which makes the commitments add up, and a `DualKey` signs
for the difference. An observer chooses all payments, each with two lists of values for the outputs, and sees what is published. In one world
the first values are paid, in the other the second.
-/

set_option linter.unusedSectionVars false

namespace Dusk.Mlsag

open scoped BigOperators
open RP (Draw)

variable {F G : Type} [Field F] [AddCommGroup G] [Module F G] [DecidableEq F] [DecidableEq G]

/-- One coin to be spent, as chosen by the observer: its place in the book of coins, the secret key, the other coins of the ring, the message, which
may depend on all commitments and the range proof, and the random numbers of the signature. -/
structure Input (F G : Type) where
  coin : Nat
  x : F
  others : List (G × G)
  msg : RP.Proof F G → List G → Bytes
  coins : Coins F

/-- A payment chosen by the observer: for every output its values in the two worlds. -/
structure Order (F G : Type) where
  ins : List (Input F G)
  fee : Nat
  outs : List (Nat × Nat)

/-- A coin in the book of the wallet: the values in the two worlds, and the blinding factor in the world that is played. -/
abbrev Entry (F : Type) : Type := (Nat × Nat) × F

/-- How to open the commitment of a coin. -/
def Entry.opening (side : Nat × Nat → Nat) (e : Entry F) : Opening F := ⟨side e.1, e.2⟩

/-- What the observer sees of a payment: what `Encode` transmits of the range proof, which has the commitments of the outputs, the new
commitments of the inputs, what `Prove` of the `DualKey`s returns, signatures and images; and the openings of the outputs that have
the same value in both worlds, as a receiver learns them. -/
structure Slip (F G : Type) where
  proof : RP.Proof F G
  pseudos : List G
  sigs : List (Res (Signature F G × G))
  told : List (Nat × F)

/-- The blinding factor of new commitment number `i` of `k`. -/
def newBlind (b : Nat → F) (total : F) (k i : Nat) : F := if i + 1 = k then total - ∑ j ∈ Finset.range (k - 1), b j else b i

/-- The inputs with their coins and the blinding factors of their new commitments. -/
def lines (book : List (Entry F)) (ins : List (Input F G)) (b : Nat → F) (total : F) : List (Input F G × Entry F × F) :=
  ins.mapIdx fun i inp => (inp, book.getD inp.coin ((0, 0), 0), newBlind b total ins.length i)

/-- The new commitment of an input. -/
def lineNew (side : Nat × Nat → Nat) (l : Input F G × Entry F × F) : Opening F := ⟨side l.2.1.1, l.2.2⟩

/-- The calls of a `DualKey` for an input, up to `Prove`. -/
def signLine (R : Ristretto F G) (gen : Bytes) (side : Nat × Nat → Nat) (m : Bytes) (l : Input F G × Entry F × F) : Res (Signature F G × G) :=
  (EOp.run R DualKey.new (spendCalls R gen l.1.x (Entry.opening side l.2.1) (lineNew side l) l.1.others m)).bind fun d => (d.prove R l.1.coins).2

/-- The openings of the coins with the same value in both worlds. -/
def told (es : List (Entry F)) : List (Nat × F) := (es.filter fun e => e.1.1 = e.1.2).map fun e => (e.1.1, e.2)

/-- A payment in the world `side`: what is seen, and the book after it. `d` are the coins of `rangeproof.Prove`, `b` the blinding factors. -/
def pay (R : Ristretto F G) (gen : Bytes) (side : Nat × Nat → Nat) (M : Nat) (book : List (Entry F)) (o : Order F G) (d : RP.Coins F) (b : Nat → F) :
    Option (Slip F G) × List (Entry F) :=
  match (RP.prove R M (o.outs.map fun v => ((side v : Nat) : F)) false d).2 with
  | .ok q =>
    let blinds := (q.V.take o.outs.length).map Commitment.blindingFactor
    let ls := lines book o.ins b blinds.sum
    let points := ls.map fun l => (lineNew side l).point R gen
    (some ⟨RP.published q, points, ls.map fun l => signLine R gen side (l.1.msg (RP.published q) points) l, told (o.outs.zip blinds)⟩,
      book ++ o.outs.zip blinds)
  | _ => (none, book)

/-- The payments that the wallet makes: at most `n + 1` inputs, outputs below `2^64`, and equal totals, in both worlds. -/
structure Order.Admissible (n : Nat) (values : List (Nat × Nat)) (o : Order F G) : Prop where
  some : 1 ≤ o.ins.length
  few : o.ins.length ≤ n + 1
  range : ∀ v ∈ o.outs, v.1 < 2 ^ 64 ∧ v.2 < 2 ^ 64
  total₁ : ((o.ins.map fun i => values.getD i.coin (0, 0)).map Prod.fst).sum = (o.outs.map Prod.fst).sum + o.fee
  total₂ : ((o.ins.map fun i => values.getD i.coin (0, 0)).map Prod.snd).sum = (o.outs.map Prod.snd).sum + o.fee

/-- Finitely many random scalars, as a function on all numbers. -/
def extend {n : Nat} (b : Fin n → F) (j : Nat) : F := if h : j < n then b ⟨j, h⟩ else 0

open Classical in
/-- What the observer `A` sees of `T` payments in the world `side`, after it has seen `seen`. The package variable `M` goes from call to call. -/
noncomputable def payments (R : Ristretto F G) (gen : Bytes) (side : Nat × Nat → Nat) (n : Nat) (A : List (Option (Slip F G)) → Order F G) :
    (T : Nat) → Nat → List (Entry F) → List (Option (Slip F G)) → (Fin T → Draw 16 F × (Fin n → F)) → List (Option (Slip F G))
  | 0, _, _, seen, _ => seen
  | T + 1, M, book, seen, r =>
    if (A seen).Admissible n (book.map Prod.fst) then
      payments R gen side n A T (RP.prove R M ((A seen).outs.map fun v => ((side v : Nat) : F)) false (r 0).1.coins).1
        (pay R gen side M book (A seen) (r 0).1.coins (extend (r 0).2)).2
        (seen ++ [(pay R gen side M book (A seen) (r 0).1.coins (extend (r 0).2)).1]) (Fin.tail r)
    else payments R gen side n A T M book (seen ++ [none]) (Fin.tail r)

/-! ### From one world to the other -/

/-- The difference of the two values. -/
def diff (v : Nat × Nat) : F := (v.1 : F) - (v.2 : F)

/-- The same commitment in the other world, `β` the logarithm of the value base. -/
def move (β : F) (e : Entry F) : Entry F := (e.1, e.2 + diff e.1 * β)

theorem move_default (β : F) : move β ((0, 0), 0) = ((0, 0), 0) := by simp [move, diff]

theorem point_move {R : Ristretto F G} {gen : Bytes} {β : F} (hβ : (Pedersen.new R gen).basePoint = β • R.base) (v : Nat × Nat) (r : F) :
    Opening.point R gen ⟨v.2, r + diff v * β⟩ = Opening.point R gen ⟨v.1, r⟩ := by
  simp only [Opening.point, Pedersen.commitToScalar, hβ]
  rw [show (Pedersen.new R gen).blindPoint = R.base from rfl, ← mul_smul, ← mul_smul, ← add_smul, ← add_smul, diff]
  congr 1
  ring

theorem told_move (β : F) (es : List (Entry F)) : told (es.map (move β)) = told es := by
  induction es with
  | nil => rfl
  | cons e es ih =>
    unfold told at ih ⊢
    by_cases h : e.1.1 = e.1.2
    · simp only [List.map_cons, List.filter_cons, move, h, decide_true, if_true, diff, sub_self, zero_mul, add_zero]
      exact congrArg _ ih
    · simp only [List.map_cons, List.filter_cons, move, h, decide_false, Bool.false_eq_true, if_false]
      exact ih

/-- An input in the other world. -/
def moveLine (β : F) (l : Input F G × Entry F × F) : Input F G × Entry F × F := (l.1, move β l.2.1, l.2.2 + diff l.2.1.1 * β)

theorem lineNew_move {R : Ristretto F G} {gen : Bytes} {β : F} (hβ : (Pedersen.new R gen).basePoint = β • R.base) (l : Input F G × Entry F × F) :
    (lineNew Prod.snd (moveLine β l)).point R gen = (lineNew Prod.fst l).point R gen := point_move hβ _ _

theorem signLine_move {R : Ristretto F G} {gen : Bytes} {β : F} (hβ : (Pedersen.new R gen).basePoint = β • R.base) (m : Bytes)
    (l : Input F G × Entry F × F) : signLine R gen Prod.snd m (moveLine β l) = signLine R gen Prod.fst m l := by
  have e : (Entry.opening Prod.snd (moveLine β l).2.1).blind - (lineNew Prod.snd (moveLine β l)).blind =
      (Entry.opening Prod.fst l.2.1).blind - (lineNew Prod.fst l).blind := by
    simp only [Entry.opening, lineNew, moveLine, move]
    ring
  unfold signLine spendCalls
  rw [lineNew_move hβ, e]
  rfl

theorem sum_range_getD {α : Type} (f : α → F) (a : α) (L : List α) : ∑ j ∈ Finset.range L.length, f (L.getD j a) = (L.map f).sum := by
  induction L with
  | nil => simp
  | cons x L ih =>
    rw [List.length_cons, Finset.sum_range_succ', List.map_cons, List.sum_cons, ← ih, add_comm]
    simp

theorem sum_diff (L : List (Nat × Nat)) : (L.map (diff (F := F))).sum = (((L.map Prod.fst).sum : Nat) : F) - (((L.map Prod.snd).sum : Nat) : F) := by
  induction L with
  | nil => simp
  | cons v L ih => simp only [List.map_cons, List.sum_cons, ih, Nat.cast_add, diff]; ring

/-- The values of the coins spent. -/
def spent (values : List (Nat × Nat)) (o : Order F G) : List (Nat × Nat) := o.ins.map fun i => values.getD i.coin (0, 0)

theorem Order.Admissible.diffs {n : Nat} {values : List (Nat × Nat)} {o : Order F G} (h : o.Admissible n values) :
    ((spent values o).map (diff (F := F))).sum = (o.outs.map diff).sum := by
  rw [sum_diff, sum_diff]
  unfold spent
  rw [h.total₁, h.total₂]
  push_cast
  ring

/-- The random blinding factors in the other world. -/
def moveBlinds (β : F) {n : Nat} (vs : List (Nat × Nat)) : (Fin n → F) ≃ (Fin n → F) where
  toFun b j := b j + diff (vs.getD j (0, 0)) * β
  invFun b j := b j - diff (vs.getD j (0, 0)) * β
  left_inv b := by funext j; simp
  right_inv b := by funext j; simp

theorem newBlind_move {n : Nat} {values : List (Nat × Nat)} {o : Order F G} (h : o.Admissible n values) (β : F) (b : Fin n → F) (total : F)
    (i : Nat) (hi : i < o.ins.length) :
    newBlind (extend (moveBlinds β (spent values o) b)) (total + (o.outs.map diff).sum * β) o.ins.length i =
      newBlind (extend b) total o.ins.length i + diff ((spent values o).getD i (0, 0)) * β := by
  have hl : (spent values o).length = o.ins.length := by simp [spent]
  have hb : ∀ j < o.ins.length - 1, extend (moveBlinds β (spent values o) b) j = extend b j + diff ((spent values o).getD j (0, 0)) * β := by
    intro j hj
    have : j < n := by have := h.few; omega
    simp only [extend, dif_pos this, moveBlinds, Equiv.coe_fn_mk]
  unfold newBlind
  split
  · rw [Finset.sum_congr rfl fun j hj => hb j (Finset.mem_range.1 hj), Finset.sum_add_distrib, ← Finset.sum_mul]
    have e := h.diffs (F := F)
    rw [← sum_range_getD diff (0, 0), hl, ← ‹i + 1 = o.ins.length›, Finset.sum_range_succ] at e
    rw [← e, ← ‹i + 1 = o.ins.length›, Nat.add_sub_cancel]
    ring
  · exact hb i (by omega)

theorem lines_move {n : Nat} {book : List (Entry F)} {o : Order F G} (h : o.Admissible n (book.map Prod.fst)) (β : F) (b : Fin n → F) (total : F) :
    lines (book.map (move β)) o.ins (extend (moveBlinds β (spent (book.map Prod.fst) o) b)) (total + (o.outs.map diff).sum * β) =
      (lines book o.ins (extend b) total).map (moveLine β) := by
  refine List.ext_getElem (by simp [lines]) fun i h1 h2 => ?_
  have hi : i < o.ins.length := by simpa [lines] using h1
  have hd : ∀ j, (book.map (move β)).getD j ((0, 0), 0) = move β (book.getD j ((0, 0), 0)) := by
    intro j
    have := List.getD_map (l := book) (d := ((0, 0), (0 : F))) (n := j) (f := move β)
    rwa [move_default] at this
  have hs : (spent (book.map Prod.fst) o).getD i (0, 0) = (book.getD o.ins[i].coin ((0, 0), 0)).1 := by
    rw [spent, List.getD_eq_getElem _ _ (by simpa using hi), List.getElem_map]
    exact List.getD_map (l := book) (d := ((0, 0), (0 : F))) (n := o.ins[i].coin) (f := Prod.fst)
  simp only [lines, List.getElem_mapIdx, List.getElem_map, moveLine, hd, newBlind_move h β b total i hi, hs]

/-- The blinding factors of the outputs in the two worlds, if the published proofs are equal. -/
theorem prove_blinds {R : Ristretto F G} {gen : Bytes} (hB : R.base ≠ 0) {β : F} (hβ : (Pedersen.new R gen).basePoint = β • R.base) (M : Nat)
    (outs : List (Nat × Nat)) (c c' : RP.Coins F) (q q' : RP.Proof F G)
    (h : (RP.prove R M (outs.map fun v => ((v.1 : Nat) : F)) false c).2 = .ok q)
    (h' : (RP.prove R M (outs.map fun v => ((v.2 : Nat) : F)) false c').2 = .ok q') (he : RP.published q = RP.published q') :
    outs.zip ((q'.V.take outs.length).map Commitment.blindingFactor) =
      (outs.zip ((q.V.take outs.length).map Commitment.blindingFactor)).map (move β) ∧
    ((q'.V.take outs.length).map Commitment.blindingFactor).sum =
      ((q.V.take outs.length).map Commitment.blindingFactor).sum + (outs.map diff).sum * β := by
  have h1 : 1 ≤ outs.length := by
    rcases Nat.lt_or_ge outs.length 1 with g | g
    · obtain rfl : outs = [] := List.length_eq_zero_iff.1 (by omega)
      obtain ⟨e, he⟩ := (RP.C68_empty R M false c).2
      simp only [List.map_nil] at h
      rw [he] at h; cases h
    · exact g
  have h2 : outs.length ≤ 16 := by
    rcases Nat.lt_or_ge 16 outs.length with g | g
    · obtain ⟨e, he⟩ := (RP.C68_many R M (outs.map fun v : Nat × Nat => ((v.1 : Nat) : F)) false c (by simpa using g)).2
      rw [he] at h; cases h
    · exact g
  obtain ⟨k, hk, hmin, -⟩ := RP.exists_pow outs.length h2
  obtain ⟨⟨ip, a⟩, -⟩ := (RP.prove_iff R M _ (by simpa using h1) (by simpa using h2) k (by simpa using hk) (by simpa using hmin) c q).1 h
  obtain ⟨⟨ip', a'⟩, -⟩ := (RP.prove_iff R M _ (by simpa using h1) (by simpa using h2) k (by simpa using hk) (by simpa using hmin) c' q').1 h'
  have V := a.V
  have V' := a'.V
  have hV : q.V.map Commitment.value = q'.V.map Commitment.value := by
    have := congrArg (fun p : RP.Proof F G => p.V.map Commitment.value) he
    simpa [RP.published, Function.comp_def] using this
  have hb : ∀ j (hj : j < outs.length), c'.vBlind j = c.vBlind j + diff outs[j] * β := by
    intro j hj
    have hj2 : j < 2 ^ k := by omega
    have e : (q.V.map Commitment.value)[j]? = (q'.V.map Commitment.value)[j]? := by rw [hV]
    rw [V, V'] at e
    simp only [List.map_map, List.getElem?_map, List.getElem?_range hj2, Option.map_some, Function.comp, Option.some.injEq] at e
    rw [List.getD_eq_getElem _ _ (by simpa using hj), List.getD_eq_getElem _ _ (by simpa using hj), List.getElem_map, List.getElem_map,
      show (RP.pub R (64 * 2 ^ k)).B = β • R.base from hβ, show (RP.pub R (64 * 2 ^ k)).Bl = R.base from rfl, ← mul_smul, ← mul_smul, ← add_smul,
      ← add_smul] at e
    have := smul_left_injective F hB e
    rw [diff]
    linear_combination -this
  have t : (q.V.take outs.length).map Commitment.blindingFactor = (List.range outs.length).map c.vBlind := by
    rw [V, ← List.map_take, List.take_range, Nat.min_eq_left hk, List.map_map]; rfl
  have t' : (q'.V.take outs.length).map Commitment.blindingFactor = (List.range outs.length).map c'.vBlind := by
    rw [V', ← List.map_take, List.take_range, Nat.min_eq_left hk, List.map_map]; rfl
  rw [t, t']
  constructor
  · refine List.ext_getElem (by simp) fun j h1 h2 => ?_
    have hj : j < outs.length := by simpa using h1
    simp only [List.getElem_zip, List.getElem_map, List.getElem_range, move, hb j hj]
  · have e : (List.range outs.length).map c'.vBlind = (List.range outs.length).map fun j => c.vBlind j + diff (outs.getD j (0, 0)) * β := by
      refine List.map_congr_left fun j hj => ?_
      rw [hb j (List.mem_range.1 hj), List.getD_eq_getElem _ _ (List.mem_range.1 hj)]
    rw [e, List.sum_map_add, List.sum_map_mul_right, ← sum_range_getD diff (0, 0)]
    rfl

/-- One payment in the two worlds. -/
theorem pay_move {R : Ristretto F G} {gen : Bytes} (hB : R.base ≠ 0) {β : F} (hβ : (Pedersen.new R gen).basePoint = β • R.base) {n : Nat} (M : Nat)
    {book : List (Entry F)} {o : Order F G} (h : o.Admissible n (book.map Prod.fst)) (c c' : RP.Coins F) (b : Fin n → F)
    (hc : RP.outcome R M (o.outs.map fun v => ((v.1 : Nat) : F)) c = RP.outcome R M (o.outs.map fun v => ((v.2 : Nat) : F)) c') :
    (pay R gen Prod.snd M (book.map (move β)) o c' (extend (moveBlinds β (spent (book.map Prod.fst) o) b))).1 =
      (pay R gen Prod.fst M book o c (extend b)).1 ∧
    (pay R gen Prod.snd M (book.map (move β)) o c' (extend (moveBlinds β (spent (book.map Prod.fst) o) b))).2 =
      (pay R gen Prod.fst M book o c (extend b)).2.map (move β) := by
  unfold pay
  unfold RP.outcome at hc
  cases e : (RP.prove R M (o.outs.map fun v => ((v.1 : Nat) : F)) false c).2 with
  | ok q =>
    rw [e] at hc
    cases e' : (RP.prove R M (o.outs.map fun v => ((v.2 : Nat) : F)) false c').2 with
    | ok q' =>
      rw [e'] at hc
      simp only [Option.some.injEq] at hc
      obtain ⟨z, t⟩ := prove_blinds hB hβ M o.outs c c' q q' e e' hc
      simp only [t, lines_move h, z, told_move, List.map_map, List.map_append, ← hc, Function.comp_def, lineNew_move hβ, signLine_move hβ]
      exact ⟨rfl, trivial⟩
    | err _ => rw [e'] at hc; cases hc
    | panic => rw [e'] at hc; cases hc
  | err _ =>
    rw [e] at hc
    cases e' : (RP.prove R M (o.outs.map fun v => ((v.2 : Nat) : F)) false c').2 with
    | ok q' => rw [e'] at hc; cases hc
    | err _ => exact ⟨rfl, rfl⟩
    | panic => exact ⟨rfl, rfl⟩
  | panic =>
    rw [e] at hc
    cases e' : (RP.prove R M (o.outs.map fun v => ((v.2 : Nat) : F)) false c').2 with
    | ok q' => rw [e'] at hc; cases hc
    | err _ => exact ⟨rfl, rfl⟩
    | panic => exact ⟨rfl, rfl⟩

theorem sNat_cast_lt (R : Ristretto F G) {v : Nat} (h : v < 2 ^ 64) : R.sNat ((v : Nat) : F) < 2 ^ 64 := by
  rcases Nat.lt_or_ge v R.order with g | g
  · rwa [R.sNat_cast g]
  · exact (R.sNat_lt _).trans (by omega)

/-- Any number of payments in the two worlds. -/
theorem payments_move [Finite F] {R : Ristretto F G} {gen : Bytes} (hB : R.base ≠ 0) (hgen : ∀ P : G, ∃ c : F, P = c • R.base) {β : F}
    (hβ : (Pedersen.new R gen).basePoint = β • R.base) (n : Nat) (A : List (Option (Slip F G)) → Order F G) :
    ∀ (T M : Nat) (book : List (Entry F)) (seen : List (Option (Slip F G))),
    ∃ Φ : (Fin T → Draw 16 F × (Fin n → F)) ≃ (Fin T → Draw 16 F × (Fin n → F)), ∀ r,
      payments R gen Prod.fst n A T M book seen r = payments R gen Prod.snd n A T M (book.map (move β)) seen (Φ r) := by
  intro T
  induction T with
  | zero => exact fun M book seen => ⟨Equiv.refl _, fun r => rfl⟩
  | succ T ih =>
    intro M book seen
    have hm : (book.map (move β)).map Prod.fst = book.map Prod.fst := by rw [List.map_map]; rfl
    let E : (Fin (T + 1) → Draw 16 F × (Fin n → F)) ≃ (Draw 16 F × (Fin n → F)) × (Fin T → Draw 16 F × (Fin n → F)) :=
      Fin.consEquiv (fun _ => Draw 16 F × (Fin n → F)) |>.symm
    by_cases ha : (A seen).Admissible n (book.map Prod.fst)
    · obtain ⟨Φ, hΦ⟩ := RP.C75_uniform R hgen M ((A seen).outs.map fun v => ((v.1 : Nat) : F)) ((A seen).outs.map fun v => ((v.2 : Nat) : F))
        (by simp) (by
          intro a h
          obtain ⟨v, hv, rfl⟩ := List.mem_map.1 h
          exact sNat_cast_lt R (ha.range v hv).1) (by
          intro a h
          obtain ⟨v, hv, rfl⟩ := List.mem_map.1 h
          exact sNat_cast_lt R (ha.range v hv).2)
      let e₁ : Draw 16 F × (Fin n → F) ≃ Draw 16 F × (Fin n → F) := Φ.prodCongr (moveBlinds β (spent (book.map Prod.fst) (A seen)))
      choose Ψ hΨ using fun p : Draw 16 F × (Fin n → F) =>
        ih (RP.prove R M ((A seen).outs.map fun v => ((v.1 : Nat) : F)) false p.1.coins).1
          (pay R gen Prod.fst M book (A seen) p.1.coins (extend p.2)).2
          (seen ++ [(pay R gen Prod.fst M book (A seen) p.1.coins (extend p.2)).1])
      refine ⟨(E.trans (Equiv.prodShear e₁ Ψ)).trans E.symm, fun r => ?_⟩
      have hd : ((E.trans (Equiv.prodShear e₁ Ψ)).trans E.symm) r =
        Fin.cons (Φ (r 0).1, moveBlinds β (spent (book.map Prod.fst) (A seen)) (r 0).2) (Ψ (r 0) (Fin.tail r)) := rfl
      obtain ⟨p1, p2⟩ := pay_move hB hβ M ha (r 0).1.coins (Φ (r 0).1).coins (r 0).2 (hΦ _)
      rw [hd, payments, payments, hm, if_pos ha, if_pos ha, Fin.cons_zero, Fin.tail_cons, p1, p2,
        RP.next_M R M ((A seen).outs.map fun v => ((v.2 : Nat) : F)) ((A seen).outs.map fun v => ((v.1 : Nat) : F)) (by simp) _ (r 0).1.coins]
      exact hΨ (r 0) (Fin.tail r)
    · obtain ⟨Ψ, hΨ⟩ := ih M book (seen ++ [none])
      refine ⟨(E.trans (Equiv.prodCongr (Equiv.refl _) Ψ)).trans E.symm, fun r => ?_⟩
      have hd : ((E.trans (Equiv.prodCongr (Equiv.refl _) Ψ)).trans E.symm) r = Fin.cons (r 0) (Ψ (Fin.tail r)) := rfl
      rw [hd, payments, payments, hm, if_neg ha, if_neg ha, Fin.tail_cons]
      exact hΨ _

/-- The coins at the start, with random blinding factors. -/
def start (values : List (Nat × Nat)) (r : Fin values.length → F) : List (Entry F) := values.zip (List.ofFn r)

/-- What the observer sees in all: the commitments of the coins at the start, the openings of those with equal values, and `T` payments, which it
chooses by what it has seen before. -/
noncomputable def view (R : Ristretto F G) (gen : Bytes) (side : Nat × Nat → Nat) (n : Nat) (values : List (Nat × Nat))
    (A : List G → List (Nat × F) → List (Option (Slip F G)) → Order F G) (T M : Nat)
    (r : (Fin values.length → F) × (Fin T → Draw 16 F × (Fin n → F))) : List G × List (Nat × F) × List (Option (Slip F G)) :=
  let points := (start values r.1).map fun e => (Entry.opening side e).point R gen
  (points, told (start values r.1), payments R gen side n (A points (told (start values r.1))) T M (start values r.1) [] r.2)

theorem start_move (β : F) (values : List (Nat × Nat)) (r : Fin values.length → F) :
    start values (moveBlinds β values r) = (start values r).map (move β) := by
  refine List.ext_getElem (by simp [start]) fun i h1 h2 => ?_
  have hi : i < values.length := by simpa [start] using h1
  simp only [start, List.getElem_zip, List.getElem_ofFn, List.getElem_map, move, moveBlinds, Equiv.coe_fn_mk]
  rw [List.getD_eq_getElem _ _ hi]

/-- C157: the amounts are hidden. Whatever payments the observer chooses, with two values for every coin, in rings and with keys, messages and
random numbers of the signatures of its choice, what it sees is the same for the first and for the second values: there is a bijection of the random
choices under which everything seen is equal. So whatever it says at the end, it says with the same probability. -/
theorem C157_amounts [Finite F] (R : Ristretto F G) (gen : Bytes) (hB : R.base ≠ 0) (hgen : ∀ P : G, ∃ c : F, P = c • R.base) (n : Nat)
    (values : List (Nat × Nat)) (A : List G → List (Nat × F) → List (Option (Slip F G)) → Order F G) (T M : Nat) :
    (∃ Φ : ((Fin values.length → F) × (Fin T → Draw 16 F × (Fin n → F))) ≃ ((Fin values.length → F) × (Fin T → Draw 16 F × (Fin n → F))),
      ∀ r, view R gen Prod.fst n values A T M r = view R gen Prod.snd n values A T M (Φ r)) ∧
    ∀ guess : List G × List (Nat × F) × List (Option (Slip F G)) → Prop,
      chance (fun r => guess (view R gen Prod.fst n values A T M r)) = chance (fun r => guess (view R gen Prod.snd n values A T M r)) := by
  obtain ⟨β, hβ⟩ := hgen (Pedersen.new R gen).basePoint
  have main : ∃ Φ : ((Fin values.length → F) × (Fin T → Draw 16 F × (Fin n → F))) ≃ ((Fin values.length → F) × (Fin T → Draw 16 F × (Fin n → F))),
      ∀ r, view R gen Prod.fst n values A T M r = view R gen Prod.snd n values A T M (Φ r) := by
    choose Ψ hΨ using fun s : Fin values.length → F => payments_move (gen := gen) hB hgen hβ n
      (A ((start values s).map fun e => (Entry.opening Prod.fst e).point R gen) (told (start values s))) T M (start values s) []
    refine ⟨Equiv.prodShear (moveBlinds β values) Ψ, fun r => ?_⟩
    have hp : (start values (moveBlinds β values r.1)).map (fun e => (Entry.opening Prod.snd e).point R gen) =
        (start values r.1).map fun e => (Entry.opening Prod.fst e).point R gen := by
      rw [start_move, List.map_map]
      exact List.map_congr_left fun e _ => point_move hβ _ _
    have ht : told (start values (moveBlinds β values r.1)) = told (start values r.1) := by rw [start_move, told_move]
    simp only [view, Equiv.prodShear_apply, hp, ht]
    rw [start_move, ← hΨ r.1 r.2]
  obtain ⟨Φ, hΦ⟩ := main
  refine ⟨⟨Φ, hΦ⟩, fun guess => ?_⟩
  unfold chance
  congr 2
  exact Nat.card_congr (Φ.subtypeEquiv fun r => by rw [hΦ r])

/-! ### The payments of the wallet are accepted -/

theorem sum_newBlind (b : Nat → F) (total : F) {k : Nat} (hk : 1 ≤ k) : ∑ i ∈ Finset.range k, newBlind b total k i = total := by
  obtain ⟨k, rfl⟩ : ∃ j, k = j + 1 := ⟨k - 1, by omega⟩
  rw [Finset.sum_range_succ, Finset.sum_congr rfl (g := b) fun i hi => by
    rw [newBlind, if_neg (by have := Finset.mem_range.1 hi; omega)]]
  rw [newBlind, if_pos rfl, Nat.add_sub_cancel]
  ring

theorem sum_mapIdx {α : Type} (f : Nat → F) (L : List α) : (L.mapIdx fun i _ => f i).sum = ∑ i ∈ Finset.range L.length, f i := by
  induction L generalizing f with
  | nil => simp
  | cons a L ih =>
    rw [List.mapIdx_cons, List.sum_cons, List.length_cons, Finset.sum_range_succ', ih fun i => f (i + 1), add_comm]

/-- C157: the wallet pays. If the hash to scalars never answers with zero, every payment that it takes, for one to 16 outputs, has a range proof
that `Verify` accepts, its new commitments add up to the commitments of the outputs and the fee, and each of its signatures for a key that is not zero, in a
ring with another coin, is accepted with the image of the key, unless the new commitment is the commitment of the coin itself. -/
theorem C157_accepted (R : Ristretto F G) (gen : Bytes) (hR : ∀ b, R.sDerive b ≠ 0) {side : Nat × Nat → Nat} (hs : side = Prod.fst ∨ side = Prod.snd)
    {n : Nat} (M : Nat) (book : List (Entry F)) (o : Order F G) (h : o.Admissible n (book.map Prod.fst)) (h1 : 1 ≤ o.outs.length)
    (h2 : o.outs.length ≤ 16) (d : RP.Coins F) (b : Nat → F) :
    ∃ slip, (pay R gen side M book o d b).1 = some slip ∧
      (∀ c, RP.verify R (RP.prove R M (o.outs.map fun v => ((side v : Nat) : F)) false d).1 slip.proof c = .ok true) ∧
      slip.pseudos.sum = ((slip.proof.V.take o.outs.length).map Commitment.value).sum + (o.fee : F) • (Pedersen.new R gen).basePoint ∧
      (pay R gen side M book o d b).2.map (fun e => (Entry.opening side e).point R gen) =
        book.map (fun e => (Entry.opening side e).point R gen) ++ (slip.proof.V.take o.outs.length).map Commitment.value ∧
      ∀ i (hi : i < o.ins.length), o.ins[i].x ≠ 0 → o.ins[i].others ≠ [] →
        slip.pseudos[i]? ≠ some ((Entry.opening side (book.getD o.ins[i].coin ((0, 0), 0))).point R gen) →
        ∃ sig, slip.sigs[i]? = some (.ok (sig, Mlsag.image R o.ins[i].x)) ∧ sig.verify R [Mlsag.image R o.ins[i].x] = .ok true := by
  obtain ⟨q, hq, hver⟩ := RP.C60_nonzero_hash R hR M (o.outs.map fun v => ((side v : Nat) : F)) d (by simpa using h1) (by simpa using h2) (by
    intro a ha
    obtain ⟨v, hv, rfl⟩ := List.mem_map.1 ha
    rcases hs with rfl | rfl
    · exact sNat_cast_lt R (h.range v hv).1
    · exact sNat_cast_lt R (h.range v hv).2)
  obtain ⟨k, hk, hmin, -⟩ := RP.exists_pow o.outs.length h2
  obtain ⟨⟨ip, a⟩, -⟩ := (RP.prove_iff R M _ (by simpa using h1) (by simpa using h2) k (by simpa using hk) (by simpa using hmin) d q).1 hq
  have V := a.V
  have t : (q.V.take o.outs.length).map Commitment.blindingFactor = (List.range o.outs.length).map d.vBlind := by
    rw [V, ← List.map_take, List.take_range, Nat.min_eq_left hk, List.map_map]; rfl
  set blinds := (q.V.take o.outs.length).map Commitment.blindingFactor with hbl
  have hpts : (o.outs.zip blinds).map (fun e => (Entry.opening side e).point R gen) = (q.V.take o.outs.length).map Commitment.value := by
    rw [t, V, ← List.map_take, List.take_range, Nat.min_eq_left hk, List.map_map]
    refine List.ext_getElem (by simp) fun j h1 h2 => ?_
    have hj : j < o.outs.length := by simpa using h1
    simp only [List.getElem_map, List.getElem_zip, List.getElem_range, Function.comp]
    rw [List.getD_eq_getElem _ _ (by simpa using hj), List.getElem_map]
    rfl
  have hpub : (RP.published q).V.map Commitment.value = q.V.map Commitment.value := by simp [RP.published, Function.comp_def]
  have hpay : pay R gen side M book o d b = (some ⟨RP.published q, (lines book o.ins b blinds.sum).map fun l => (lineNew side l).point R gen,
      (lines book o.ins b blinds.sum).map fun l => signLine R gen side
        (l.1.msg (RP.published q) ((lines book o.ins b blinds.sum).map fun l => (lineNew side l).point R gen)) l, told (o.outs.zip blinds)⟩,
      book ++ o.outs.zip blinds) := by
    unfold pay
    rw [hq]
  refine ⟨_, by rw [hpay], ?_, ?_, ?_, ?_⟩
  · intro c
    rw [RP.C75_verify_published R _ (RP.published q) q (by simp [RP.published, Function.comp_def]) c]
    exact hver c
  · have hv : (((lines book o.ins b blinds.sum).map (lineNew side)).map Opening.value).sum =
        (((o.outs.zip blinds).map (Entry.opening side)).map Opening.value).sum + o.fee := by
      have e1 : ((lines book o.ins b blinds.sum).map (lineNew side)).map Opening.value =
          (o.ins.map fun i => (book.map Prod.fst).getD i.coin (0, 0)).map side := by
        refine List.ext_getElem (by simp [lines]) fun j h1 h2 => ?_
        simp only [lines, List.getElem_map, List.getElem_mapIdx, lineNew]
        exact congrArg side (List.getD_map (l := book) (d := ((0, 0), (0 : F))) (f := Prod.fst)).symm
      have e2 : ((o.outs.zip blinds).map (Entry.opening side)).map Opening.value = o.outs.map side := by
        refine List.ext_getElem (by simp [t]) fun j h1 h2 => ?_
        simp only [List.getElem_map, List.getElem_zip, Entry.opening]
      rw [e1, e2]
      rcases hs with rfl | rfl
      · exact h.total₁
      · exact h.total₂
    have hb : (((lines book o.ins b blinds.sum).map (lineNew side)).map Opening.blind).sum =
        (((o.outs.zip blinds).map (Entry.opening side)).map Opening.blind).sum := by
      have e1 : ((lines book o.ins b blinds.sum).map (lineNew side)).map Opening.blind =
          o.ins.mapIdx fun i _ => newBlind b blinds.sum o.ins.length i := by
        refine List.ext_getElem (by simp [lines]) fun j h1 h2 => ?_
        simp only [lines, List.getElem_map, List.getElem_mapIdx, lineNew]
      have e2 : ((o.outs.zip blinds).map (Entry.opening side)).map Opening.blind = blinds := by
        refine List.ext_getElem (by simp [t]) fun j h1 h2 => ?_
        simp only [List.getElem_map, List.getElem_zip, Entry.opening]
      rw [e1, e2, sum_mapIdx, sum_newBlind _ _ h.some]
    have := C151_adds_up R gen _ _ o.fee hv hb
    simp only [List.map_map, Function.comp_def] at this
    rw [hpts] at this
    rw [this, List.map_take, List.map_take, hpub]
  · rw [hpay]
    simp only [List.map_append, hpts]
    rw [List.map_take, List.map_take, hpub]
  · intro i hi hx ho hne
    have hl : (lines book o.ins b blinds.sum)[i]? =
        some (o.ins[i], book.getD o.ins[i].coin ((0, 0), 0), newBlind b blinds.sum o.ins.length i) := by
      simp [lines, List.getElem?_mapIdx, List.getElem?_eq_getElem hi]
    simp only [List.getElem?_map, hl, Option.map_some, ne_eq, Option.some.injEq] at hne ⊢
    have hb : (Entry.opening side (book.getD o.ins[i].coin ((0, 0), 0))).blind ≠ newBlind b blinds.sum o.ins.length i := by
      intro e
      apply hne
      rw [lineNew, ← e]
      rfl
    obtain ⟨D, sig, I, g1, g2, rfl, g3, -⟩ := C151_honest R gen o.ins[i].x (Entry.opening side (book.getD o.ins[i].coin ((0, 0), 0)))
      (lineNew side (o.ins[i], book.getD o.ins[i].coin ((0, 0), 0), newBlind b blinds.sum o.ins.length i)) o.ins[i].others
      (o.ins[i].msg (RP.published q) ((lines book o.ins b blinds.sum).map fun l => (lineNew side l).point R gen)) o.ins[i].coins hx rfl hb ho
    refine ⟨sig, ?_, g3⟩
    unfold signLine
    rw [g1]
    exact g2

/-- C157 (violated): the proof that `Prove` returns hides the amounts. It does as far as `Encode` transmits it (C75), but the value itself still carries
the blinding factors: equal commitment values in it mean equal amounts. -/
theorem C157_value_violated (R : Ristretto F G) (hB : R.pDerive (strBytes "blindPoint") ≠ 0) (M : Nat) (v v' : List F) (hl : v.length = v'.length)
    (c c' : RP.Coins F) (q q' : RP.Proof F G) (h : (RP.prove R M v false c).2 = .ok q) (h' : (RP.prove R M v' false c').2 = .ok q')
    (he : q.V = q'.V) : v = v' := by
  have h1 : 1 ≤ v.length := by
    rcases Nat.lt_or_ge v.length 1 with g | g
    · obtain rfl : v = [] := List.length_eq_zero_iff.1 (by omega)
      obtain ⟨e, he⟩ := (RP.C68_empty R M false c).2
      rw [he] at h; cases h
    · exact g
  have h2 : v.length ≤ 16 := by
    rcases Nat.lt_or_ge 16 v.length with g | g
    · obtain ⟨e, he⟩ := (RP.C68_many R M v false c g).2
      rw [he] at h; cases h
    · exact g
  obtain ⟨k, hk, hmin, -⟩ := RP.exists_pow v.length h2
  obtain ⟨⟨ip, a⟩, -⟩ := (RP.prove_iff R M v h1 h2 k hk hmin c q).1 h
  obtain ⟨⟨ip', a'⟩, -⟩ := (RP.prove_iff R M v' (by omega) (by omega) k (by omega) (by rw [← hl]; exact hmin) c' q').1 h'
  rw [a.V, a'.V] at he
  refine List.ext_getElem hl fun j g g' => ?_
  have hj : j < 2 ^ k := by omega
  have e := congrArg (fun L : List (Commitment F G) => L[j]?) he
  simp only [List.getElem?_map, List.getElem?_range hj, Option.map_some, Option.some.injEq, Commitment.mk.injEq] at e
  rw [e.2, List.getD_eq_getElem _ _ g, List.getD_eq_getElem _ _ g'] at e
  exact smul_left_injective F hB (add_right_cancel e.1)

/-- Two proof values for the same amount, made with the same blinding factor but otherwise different random choices. -/
example (c : RP.Coins Toy.K) (s : Nat → Toy.K) : ∃ q q', (RP.prove Toy.ris 1 [5] false c).2 = .ok q ∧
    (RP.prove Toy.ris 4 [5] false { c with sL := s }).2 = .ok q' ∧ q.V = q'.V := by
  obtain ⟨k, q, ip, k1, k2, -, hon, -, -, hq⟩ := RP.C68_prove Toy.ris 1 [5] false c (by simp) (by simp)
  obtain ⟨k', q', ip', k1', k2', -, hon', -, -, hq'⟩ := RP.C68_prove Toy.ris 4 [5] false { c with sL := s } (by simp) (by simp)
  obtain ⟨n1, n2, n3⟩ := RP.chalOf_ne Toy.ris Toy.dv_ne_zero q
  obtain ⟨n1', n2', n3'⟩ := RP.chalOf_ne Toy.ris Toy.dv_ne_zero q'
  rw [if_neg (by simp [n1, n2, n3])] at hq
  rw [if_neg (by simp [n1', n2', n3'])] at hq'
  have e : k = k' := le_antisymm (k2 _ k1') (k2' _ k1)
  subst e
  exact ⟨q, q', hq, hq', by rw [hon.V, hon'.V]⟩

/-! ### Payments of 3 and of 5 -/

/-- A coin with the key 3 and the value 3 in one world, 5 in the other. -/
def twoFaced : List (Nat × Nat) := [(3, 5), (7, 7)]

/-- An observer that has the first coin spent to 1 and 2, or to 2 and 3, and after that the two new coins to one of 2, or of 4, with a fee of
1; the decoy is a coin with an invented key and the commitment of the second coin, and the message has all commitments. -/
def nosy : List Toy.K → List (Nat × Toy.K) → List (Option (Slip Toy.K Toy.K)) → Order Toy.K Toy.K := fun points _ seen =>
  if seen.length = 0 then
    ⟨[⟨0, 3, [(17, points.getD 1 0)], fun p ps => (p.V.map Commitment.value ++ ps).flatMap Toy.ris.pBytes, ⟨fun _ => 1, fun _ _ => 2, fun _ => 0⟩⟩], 0,
      [(1, 2), (2, 3)]⟩
  else
    ⟨[⟨2, 4, [(17, points.getD 1 0)], fun _ _ => [1], ⟨fun _ => 1, fun _ _ => 2, fun _ => 0⟩⟩,
      ⟨3, 5, [(18, points.getD 1 0)], fun _ _ => [2], ⟨fun _ => 1, fun _ _ => 2, fun _ => 0⟩⟩], 1, [(2, 4)]⟩

example (T M : Nat) (guess : List Toy.K × List (Nat × Toy.K) × List (Option (Slip Toy.K Toy.K)) → Prop) :
    chance (fun r => guess (view Toy.ris [1] Prod.fst 3 twoFaced nosy T M r)) =
      chance (fun r => guess (view Toy.ris [1] Prod.snd 3 twoFaced nosy T M r)) :=
  (C157_amounts Toy.ris [1] (by decide +kernel) (fun P => ⟨P, by simp [Toy.ris]⟩) 3 twoFaced nosy T M).2 guess

/-- Its two payments are taken. -/
example (r : Fin twoFaced.length → Toy.K) (points : List Toy.K) (s : Option (Slip Toy.K Toy.K)) (r1 r2 : Toy.K) :
    (nosy points [] []).Admissible 3 ((start twoFaced r).map Prod.fst) ∧
    (nosy points [] [s]).Admissible 3 ((start twoFaced r ++ [((1, 2), r1), ((2, 3), r2)]).map Prod.fst) := by
  have e : (start twoFaced r).map Prod.fst = twoFaced := by
    rw [start, List.map_fst_zip (by simp)]
  constructor
  · rw [e]
    refine ⟨by simp [nosy], by simp [nosy], ?_, by simp [nosy, twoFaced], by simp [nosy, twoFaced]⟩
    simp [nosy]
  · rw [List.map_append, e]
    refine ⟨by simp [nosy], by simp [nosy], ?_, by simp [nosy, twoFaced], by simp [nosy, twoFaced]⟩
    simp [nosy]

/-- What is seen of the first is a payment, not an error. -/
example (M : Nat) (r : Fin twoFaced.length → Toy.K) (points : List Toy.K) (d : RP.Coins Toy.K) (b : Nat → Toy.K) :
    ∃ slip, (pay Toy.ris [1] Prod.fst M (start twoFaced r) (nosy points [] []) d b).1 = some slip := by
  have e : (start twoFaced r).map Prod.fst = twoFaced := by
    rw [start, List.map_fst_zip (by simp)]
  have ha : (nosy points [] []).Admissible 3 ((start twoFaced r).map Prod.fst) := by
    rw [e]
    refine ⟨by simp [nosy], by simp [nosy], ?_, by simp [nosy, twoFaced], by simp [nosy, twoFaced]⟩
    simp [nosy]
  obtain ⟨slip, h, -⟩ := C157_accepted Toy.ris [1] Toy.dv_ne_zero (.inl rfl) M (start twoFaced r) (nosy points [] []) ha (by simp [nosy])
    (by simp [nosy]) d b
  exact ⟨slip, h⟩

example : Toy.ris.pDerive (strBytes "blindPoint") ≠ 0 := Toy.dv_ne_zero _

end Dusk.Mlsag
