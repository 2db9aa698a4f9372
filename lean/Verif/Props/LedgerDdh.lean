import Verif.Props.LedgerAnon
/-!
# C163: who spends is hidden if the decisional Diffie-Hellman problem is hard

Wallets with one coin each, with openings that the observer knows, make new commitments of their coins under pseudonyms; an observer asks pseudonyms to
spend their coins, for messages and rings of its choice. Both hash functions are random oracles, as in C129.
-/

set_option linter.unusedSectionVars false

namespace Dusk.Mlsag

variable {F G : Type} [Field F] [AddCommGroup G] [Module F G] [DecidableEq F]

/-! ### The game -/

/-- An observer of payments. It asks for hashes, and asks pseudonyms to spend their coins in a ring of the given coins, in this order; it gets the signature
and the image. -/
inductive Watcher (F G : Type)
  | done (guess : Bool)
  | hash (q : Bytes) (next : F → Watcher F G)
  | spend (who : Nat) (msg : Bytes) (order : List (G × G)) (next : Signature F G → G → Watcher F G)

/-- A wallet: the secret key and the opening of its coin, and the blinding factor of its new commitment. -/
structure Wallet (F : Type) where
  key : F
  old : Opening F
  blind : F

/-- The new commitment. -/
def Wallet.point (R : Ristretto F G) (gen : Bytes) (s : Wallet F) : G := Opening.point R gen ⟨s.old.value, s.blind⟩

/-- The coin. -/
def Wallet.coin (R : Ristretto F G) (gen : Bytes) (s : Wallet F) : G × G := (s.key • R.base, s.old.point R gen)

/-- What a wallet does to get a ring in the wanted order: the other coins in the order in which it adds them, and the choices in the shuffle. -/
abbrev Arranged (G : Type) := Nat → Bytes → List (G × G) → List (G × G) × (Nat → Nat)

/-- The same as a request of C127. -/
def spendRequest (u : Nat) (P : G) (msg : Bytes) (o : List (G × G) × (Nat → Nat)) : Request G := ⟨u, msg, o.1.map fun k => [k.1, k.2 - P], o.2⟩

/-- The questions to the hash function, and the answers, after a signature for this request. -/
def spendLog (R : Ristretto F G) (r : Request G) (xs : List F) (log : Oracle.Log F) {w : Nat} (c : StepCoins 2 w F) : Oracle.Log F :=
  let keys := xs.map (· • R.base)
  let I := imagesOf R true xs
  let p := (⟨log, query R r.msg I keys (List.ofFn c.1) 0,
    laterQueries R r.msg I (r.ring keys) (r.position keys) (row c.2.1)⟩ : Pending F).run (List.ofFn c.2.2)
  p.log.ask p.q (ext c.2.2 r.decoys.length)

/-- The game: wallet `user a` is behind the pseudonym `a`, and spends its coin with the calls of C162. The observer says no if a call fails or if it
runs out of coins. -/
def Watcher.real (R : Ristretto F G) (gen : Bytes) (W : Arranged G) (user : Nat → Nat) (s : Nat → Wallet F) {w : Nat} :
    Watcher F G → Oracle.Log F → List (StepCoins 2 w F) → Bool
  | .done b, _, _ => b
  | _, _, [] => false
  | .hash q next, log, c :: cs => (next ((log.ask q (ext c.2.2 0)).hash q)).real R gen W user s (log.ask q (ext c.2.2 0)) cs
  | .spend who msg order next, log, c :: cs =>
    let y := s (user who)
    let o := W who msg order
    let log' := spendLog R (spendRequest (user who) (y.point R gen) msg o) [y.key, y.old.blind - y.blind] log c
    match spendInput (withHash R log'.hash) gen y.key y.old o.1 (fun _ => msg) y.blind ⟨ext c.1, fun j => ext (ext c.2.1 j), o.2⟩ with
    | .ok (sig, I) => (next sig.seen I).real R gen W user s log' cs
    | _ => false

/-- The wallets can serve all requests that the observer may make: it asks one of `m` pseudonyms, and there is another coin in the ring, at most `w` in all, and
the wallet's own coin is in it. -/
def Watcher.Served (W : Arranged G) (coin : Nat → G × G) (user : Nat → Nat) (m w : Nat) : Watcher F G → Prop
  | .done _ => True
  | .hash _ next => ∀ a, (next a).Served W coin user m w
  | .spend who msg order next => (who < m ∧ (W who msg order).1 ≠ [] ∧ (W who msg order).1.length < w ∧
      shuffleLoop (W who msg order).2 (W who msg order).1.length ((W who msg order).1 ++ [coin (user who)]) = order) ∧
    ∀ s I, (next s I).Served W coin user m w

/-- The wallets: the entries of `x` are their keys and new blinding factors. -/
def walletOf (old : Nat → Opening F) {m : Nat} (x : Fin m → Fin 2 → F) (u : Nat) : Wallet F := ⟨ext (ext x u) 0, old u, ext (ext x u) 1⟩

/-- The game with `m` wallets. The observer knows the table of the hash to points, the openings of the coins, the keys of the coins by wallet, and the new commitments by
pseudonym. -/
def payGame (R : Ristretto F G) (gen : Bytes) (old : Nat → Opening F) (O : (Bytes → G) → (Nat → G) → (Nat → G) → Watcher F G)
    (W : (Bytes → G) → (Nat → G) → Arranged G) {m w T : Nat} {S : Finset Bytes} (σ : Equiv.Perm (Fin m))
    (p : ((Fin m → Fin 2 → F) × (S → F)) × (Fin T → StepCoins 2 w F)) : Bool :=
  let H := tableHash R p.1.2
  let s := walletOf old p.1.1
  let K := fun u => (s u).key • R.base
  let P := fun a => if a < m then (s (behind σ a)).point (R.withPoints H) gen else 0
  (O H K P).real (R.withPoints H) gen (W H K) (behind σ) s [] (List.ofFn p.2)

/-! ### As a game of C127 -/

/-- The observer of C127 that does the same, with the new commitments `P`. -/
def Watcher.obs (P : Nat → G) : Watcher F G → Observer F G
  | .done b => .done b
  | .hash q next => .hash q fun a => (next a).obs P
  | .spend who msg order next => .sign who msg (order.map fun k => [k.1, k.2 - P who]) fun s I => (next s (I.headD 0)).obs P

/-- The world for it. -/
def arrangedHidden (W : Arranged G) (user : Nat → Nat) (P : Nat → G) : Hidden G := fun who msg ring =>
  spendRequest (user who) (P who) msg (W who msg (ring.map fun k => (k.getD 0 0, k.getD 1 0 + P who)))

theorem arrangedHidden_order (W : Arranged G) (user : Nat → Nat) (P : Nat → G) (who : Nat) (msg : Bytes) (order : List (G × G)) :
    arrangedHidden W user P who msg (order.map fun k => [k.1, k.2 - P who]) = spendRequest (user who) (P who) msg (W who msg order) := by
  unfold arrangedHidden
  rw [List.map_map]
  congr 2
  refine (List.map_congr_left fun k _ => ?_).trans (List.map_id order)
  simp

/-- The calls of C162 are the same as those of C127. -/
theorem watcher_real (R : Ristretto F G) (gen : Bytes) (W : Arranged G) (user : Nat → Nat) (s : Nat → Wallet F) (xs : Nat → List F) (P : Nat → G)
    (coin : Nat → G × G) {m w : Nat} (h1 : ∀ a < m, (s (user a)).key ≠ 0) (h2 : ∀ a < m, (s (user a)).blind ≠ (s (user a)).old.blind)
    (h3 : ∀ a < m, xs (user a) = [(s (user a)).key, (s (user a)).old.blind - (s (user a)).blind]) (h4 : ∀ a < m, P a = (s (user a)).point R gen) :
    ∀ (O : Watcher F G) (log : Oracle.Log F) (cs : List (StepCoins 2 w F)), O.Served W coin user m w →
      O.real R gen W user s log cs = (O.obs P).real R true (arrangedHidden W user P) xs log cs := by
  intro O
  induction O with
  | done b => intro log cs _; cases cs <;> rfl
  | hash q next ih =>
    intro log cs hO
    cases cs with
    | nil => rfl
    | cons c cs => exact ih _ _ _ (hO _)
  | spend who msg order next ih =>
    intro log cs hO
    cases cs with
    | nil => rfl
    | cons c cs =>
      obtain ⟨⟨hm, ho, -, -⟩, hn⟩ := hO
      have hreq := arrangedHidden_order W user P who msg order
      simp only [Watcher.obs, Watcher.real, Observer.real]
      rw [hreq]
      simp only [← h4 who hm]
      have hu : (spendRequest (user who) (P who) msg (W who msg order)).user = user who := rfl
      rw [hu, h3 who hm]
      generalize hl : spendLog R (spendRequest (user who) (P who) msg (W who msg order)) [(s (user who)).key, (s (user who)).old.blind - (s (user who)).blind] log c = log'
      have hl' := hl
      unfold spendLog at hl'
      simp only at hl'
      rw [hl']
      obtain ⟨sig, hs, -⟩ := C162_shown (withHash R log'.hash) gen (s (user who)).key (h1 who hm) (s (user who)).old (W who msg order).1 ho (fun _ => msg)
        (s (user who)).blind (h2 who hm) ⟨ext c.1, fun j => ext (ext c.2.1 j), (W who msg order).2⟩
      have he := spendInput_eq (withHash R log'.hash) gen (s (user who)).key (s (user who)).old (W who msg order).1 (fun _ => msg)
        (s (user who)).blind ⟨ext c.1, fun j => ext (ext c.2.1 j), (W who msg order).2⟩ (h1 who hm) (h2 who hm)
      have hops : (spendRequest (user who) (P who) msg (W who msg order)).ops [(s (user who)).key, (s (user who)).old.blind - (s (user who)).blind] =
          inputOps (s (user who)).key ((s (user who)).old.blind - (s (user who)).blind) (W who msg order).1 (P who) := by
        simp [spendRequest, Request.ops, inputOps, Function.comp_def]
      rw [hops, hs]
      rw [hs] at he
      have hP : Opening.point (withHash R log'.hash) gen ⟨(s (user who)).old.value, (s (user who)).blind⟩ = P who := (h4 who hm).symm
      rw [hP] at he
      change _ = Res.bind (Prod.snd ((build R msg (inputOps (s (user who)).key ((s (user who)).old.blind - (s (user who)).blind) (W who msg order).1 (P who))).prove
        (withHash R log'.hash) true ⟨ext c.1, fun j => ext (ext c.2.1 j), (W who msg order).2⟩)) _ at he
      change _ = match (Prod.snd ((build R msg (inputOps (s (user who)).key ((s (user who)).old.blind - (s (user who)).blind) (W who msg order).1 (P who))).prove
        (withHash R log'.hash) true ⟨ext c.1, fun j => ext (ext c.2.1 j), (W who msg order).2⟩)) with
        | .ok (sig, I) => _
        | _ => _
      generalize Prod.snd ((build R msg (inputOps (s (user who)).key ((s (user who)).old.blind - (s (user who)).blind) (W who msg order).1 (P who))).prove
        (withHash R log'.hash) true ⟨ext c.1, fun j => ext (ext c.2.1 j), (W who msg order).2⟩) = q at he ⊢
      match q, he with
      | .ok (sg, [im]), he =>
        simp only [Res.bind_ok, Res.ok.injEq, Prod.mk.injEq] at he
        obtain ⟨rfl, rfl⟩ := he
        exact ih _ _ _ _ (hn _ _)

theorem obs_served (W : Arranged G) (user : Nat → Nat) (P : Nat → G) (coin : Nat → G × G) (keys : Nat → List G) {m w : Nat}
    (hk : ∀ a < m, keys (user a) = [(coin (user a)).1, (coin (user a)).2 - P a]) :
    ∀ O : Watcher F G, O.Served W coin user m w → (O.obs P).Served (arrangedHidden W user P) keys user 2 w := by
  intro O
  induction O with
  | done b => intro _; trivial
  | hash q next ih => exact fun hO a => ih a (hO a)
  | spend who msg order next ih =>
    rintro ⟨⟨hm, ho, hw, hord⟩, hn⟩
    refine ⟨?_, fun s I => ih _ _ (hn _ _)⟩
    rw [arrangedHidden_order]
    refine ⟨rfl, rfl, ?_, by simpa [spendRequest] using ho, by simpa [spendRequest] using hw, ?_⟩
    swap
    · intro k hk
      obtain ⟨c, -, rfl⟩ := List.mem_map.1 hk
      rfl
    unfold Request.ring spendRequest
    simp only [List.length_map]
    rw [← shuffleLoop_map]
    conv_rhs => rw [← hord, ← shuffleLoop_map]
    rw [hk who hm]
    simp [Function.comp_def]

/-- The new commitments, from the keys of the users of C127. -/
def newPoints (R : Ristretto F G) (gen : Bytes) (old : Nat → Opening F) {m : Nat} (σ : Equiv.Perm (Fin m)) (H : Bytes → G) (keys : Nat → List G) (a : Nat) : G :=
  if a < m then (old (behind σ a)).point (R.withPoints H) gen - (keys (behind σ a)).getD 1 0 else 0

/-- The observer as one of C129. Its users have the keys of the coins, and the differences of old and new commitments. -/
def watching (R : Ristretto F G) (gen : Bytes) (old : Nat → Opening F) (O : (Bytes → G) → (Nat → G) → (Nat → G) → Watcher F G) {m : Nat}
    (σ : Equiv.Perm (Fin m)) (H : Bytes → G) (keys : Nat → List G) : Observer F G :=
  (O H (fun u => (keys u).getD 0 0) (newPoints R gen old σ H keys)).obs (newPoints R gen old σ H keys)

/-- New blinding factors and differences to the old ones. -/
def turn (old : Nat → Opening F) (m : Nat) : (Fin m → Fin 2 → F) ≃ (Fin m → Fin 2 → F) where
  toFun x u := ![x u 0, (old u).blind - x u 1]
  invFun x u := ![x u 0, (old u).blind - x u 1]
  left_inv x := by
    funext u j
    fin_cases j <;> simp
  right_inv x := by
    funext u j
    fin_cases j <;> simp

theorem ext_out {α : Type} [Zero α] {n : Nat} (f : Fin n → α) {i : Nat} (h : ¬ i < n) : ext f i = 0 := dif_neg h

theorem turn_key (old : Nat → Opening F) {m : Nat} (x : Fin m → Fin 2 → F) (u : Nat) : ext (ext (turn old m x) u) 0 = ext (ext x u) 0 := by
  by_cases hu : u < m
  · rw [ext_lt _ _ hu, ext_lt _ _ hu]
    rfl
  · rw [ext_out _ hu, ext_out _ hu]

theorem turn_diff (old : Nat → Opening F) {m : Nat} (x : Fin m → Fin 2 → F) (u : Nat) (hu : u < m) :
    ext (ext (turn old m x) u) 1 = (old u).blind - ext (ext x u) 1 := by
  rw [ext_lt _ _ hu, ext_lt _ _ hu]
  rfl

theorem behind_lt {m : Nat} (σ : Equiv.Perm (Fin m)) {a : Nat} (h : a < m) : behind σ a < m := by
  unfold behind
  rw [dif_pos h]
  exact (σ ⟨a, h⟩).2

theorem keysOf_two (R : Ristretto F G) {m : Nat} (x : Fin m → Fin 2 → F) (u : Nat) :
    keysOf R (users x) u = [ext (ext x u) 0 • R.base, ext (ext x u) 1 • R.base] := by
  unfold keysOf
  rw [users_eq]
  rfl

theorem newPoints_turn (R : Ristretto F G) (gen : Bytes) (old : Nat → Opening F) {m : Nat} (σ : Equiv.Perm (Fin m)) (H : Bytes → G)
    (x : Fin m → Fin 2 → F) : newPoints R gen old σ H (keysOf R (users (turn old m x))) =
      fun a => if a < m then (walletOf old x (behind σ a)).point (R.withPoints H) gen else 0 := by
  funext a
  unfold newPoints
  by_cases ha : a < m
  · rw [if_pos ha, if_pos ha, keysOf_two]
    have := point_sub (R.withPoints H) gen (old (behind σ a)).value (old (behind σ a)).blind (ext (ext x (behind σ a)) 1)
    rw [← turn_diff old x _ (behind_lt σ ha)] at this
    exact sub_eq_iff_eq_add.2 (sub_eq_iff_eq_add'.1 this)
  · rw [if_neg ha, if_neg ha]

/-- With no secret zero the game is one of C129. -/
theorem payGame_eq (R : Ristretto F G) (gen : Bytes) (old : Nat → Opening F) (O : (Bytes → G) → (Nat → G) → (Nat → G) → Watcher F G)
    (W : (Bytes → G) → (Nat → G) → Arranged G) {m w T : Nat} {S : Finset Bytes} (σ : Equiv.Perm (Fin m))
    (p : ((Fin m → Fin 2 → F) × (S → F)) × (Fin T → StepCoins 2 w F))
    (hO : ∀ P, (O (tableHash R p.1.2) (fun u => ext (ext p.1.1 u) 0 • R.base) P).Served (W (tableHash R p.1.2) fun u => ext (ext p.1.1 u) 0 • R.base)
      (fun u => (walletOf old p.1.1 u).coin (R.withPoints (tableHash R p.1.2)) gen) (behind σ) m w)
    (h1 : ∀ u, p.1.1 u 0 ≠ 0) (h2 : ∀ u : Fin m, p.1.1 u 1 ≠ (old u).blind) :
    payGame R gen old O W σ p =
      (watching R gen old O σ (tableHash R p.1.2) (keysOf R (users (turn old m p.1.1)))).real (R.withPoints (tableHash R p.1.2)) true
        (arrangedHidden (W (tableHash R p.1.2) fun u => ((keysOf R (users (turn old m p.1.1))) u).getD 0 0) (behind σ)
          (newPoints R gen old σ (tableHash R p.1.2) (keysOf R (users (turn old m p.1.1))))) (users (turn old m p.1.1)) [] (List.ofFn p.2) := by
  have hK : (fun u => ((keysOf R (users (turn old m p.1.1))) u).getD 0 0) = fun u => ext (ext p.1.1 u) 0 • R.base := by
    funext u
    rw [keysOf_two, turn_key]
    rfl
  unfold watching payGame
  rw [hK, newPoints_turn]
  refine watcher_real _ gen _ (behind σ) (walletOf old p.1.1) _ _ _ ?_ ?_ ?_ ?_ _ _ _ (hO _)
  · intro a ha
    have := h1 ⟨behind σ a, behind_lt σ ha⟩
    unfold walletOf
    rwa [ext_lt _ _ (behind_lt σ ha)]
  · intro a ha
    have := h2 ⟨behind σ a, behind_lt σ ha⟩
    unfold walletOf
    rwa [ext_lt _ _ (behind_lt σ ha)]
  · intro a ha
    rw [users_eq]
    show [_, _] = _
    rw [turn_key, turn_diff old _ _ (behind_lt σ ha)]
    rfl
  · intro a ha
    exact if_pos ha

/-! ### Chances -/

theorem chance_differ {α : Type} [Fintype α] (P Q : α → Bool) (B : α → Prop) (h : ∀ a, ¬ B a → P a = Q a) :
    |(chance fun a => P a = true) - chance fun a => Q a = true| ≤ chance B := by
  classical
  have key : ∀ P Q : α → Bool, (∀ a, ¬ B a → P a = Q a) → (chance fun a => P a = true) ≤ (chance fun a => Q a = true) + chance B := by
    intro P Q h
    unfold chance
    rw [← add_div]
    gcongr
    simp only [Nat.card_eq_fintype_card, Fintype.card_subtype]
    have : (Finset.univ.filter fun a => P a = true) ⊆ (Finset.univ.filter fun a => Q a = true) ∪ Finset.univ.filter B := by
      intro a ha
      by_cases hb : B a
      · simp [hb]
      · have := h a hb
        simp_all
    exact_mod_cast (Finset.card_le_card this).trans (Finset.card_union_le _ _)
  rw [abs_le]
  constructor
  · linarith [key Q P fun a ha => (h a ha).symm]
  · linarith [key P Q h]

theorem chance_any {α : Type} [Fintype α] {n : Nat} (B : Fin n → α → Prop) : (chance fun a => ∃ u, B u a) ≤ ∑ u, chance (B u) := by
  classical
  unfold chance
  simp only [div_eq_mul_inv]
  rw [← Finset.sum_mul]
  gcongr
  simp only [Nat.card_eq_fintype_card, Fintype.card_subtype]
  have : (Finset.univ.filter fun a => ∃ u, B u a) ⊆ Finset.univ.biUnion fun u => Finset.univ.filter (B u) := by
    intro a ha
    simpa using ha
  exact_mod_cast (Finset.card_le_card this).trans Finset.card_biUnion_le

theorem chance_or {α : Type} [Fintype α] (A B : α → Prop) : (chance fun a => A a ∨ B a) ≤ chance A + chance B := by
  classical
  unfold chance
  rw [← add_div]
  gcongr
  simp only [Nat.card_eq_fintype_card, Fintype.card_subtype]
  rw [Finset.filter_or]
  exact_mod_cast Finset.card_union_le _ _

/-- One secret has one value. -/
theorem chance_secret [Fintype F] {m : Nat} {α β : Type} (u : Fin m) (j : Fin 2) (v : F) :
    (chance fun p : ((Fin m → Fin 2 → F) × α) × β => p.1.1 u j = v) ≤ 1 / Fintype.card F := by
  have h := chance_again' (α := F) (γ := ((Fin m → Fin 2 → F) × α) × β) (fun c => c.1.1 u j) (fun c a => ((put c.1.1 u j a, c.1.2), c.2))
    (fun c a => put_get _ _ _ _) (fun c => by rw [put_same]) (fun c a b => by rw [put_put]) (fun c => c.1.1 u j = v)
  rw [← h]
  simp only [put_get]
  have e : {p : F × (((Fin m → Fin 2 → F) × α) × β) // p.1 = v} ≃ (((Fin m → Fin 2 → F) × α) × β) :=
    ⟨fun p => p.1.2, fun q => ⟨(v, q), rfl⟩, fun p => by obtain ⟨⟨a, q⟩, rfl⟩ := p; rfl, fun _ => rfl⟩
  unfold chance
  rw [Nat.card_congr e, Nat.card_prod F, Nat.card_eq_fintype_card (α := F), Nat.cast_mul]
  generalize (Nat.card (((Fin m → Fin 2 → F) × α) × β) : ℚ) = N
  have hF : (0 : ℚ) < Fintype.card F := by exact_mod_cast Fintype.card_pos
  by_cases hN : N = 0
  · rw [hN]; simp
  · rw [div_mul_cancel_right₀ hN, one_div]

/-! ### All images random -/

/-- It does not matter who is behind a pseudonym. -/
theorem watching_zero [Fintype F] (R : Ristretto F G) (hgen : ∀ P, ∃ y : F, P = y • R.base) (gen : Bytes) (old : Nat → Opening F)
    (O : (Bytes → G) → (Nat → G) → (Nat → G) → Watcher F G) {m w T : Nat} {S : Finset Bytes} (σ τ : Equiv.Perm (Fin m)) :
    (chance fun c : PlayerCoins m 2 1 w T S F => stage R (watching R gen old O σ) 1 0 c = true) =
      chance fun c : PlayerCoins m 2 1 w T S F => stage R (watching R gen old O τ) 1 0 c = true := by
  choose lg hlg using hgen
  have key : ∀ σ : Equiv.Perm (Fin m), (chance fun c : PlayerCoins m 2 1 w T S F => stage R (watching R gen old O σ) 1 0 c = true) =
      chance fun c : PlayerCoins m 2 1 w T S F =>
        ((O (tableHash R c.2.1) (fun u => ext (ext c.1 u) 0 • R.base) (fun a => ext (ext c.1 a) 1 • R.base)).obs
          (fun a => ext (ext c.1 a) 1 • R.base)).invented (R.withPoints (tableHash R c.2.1))
          (fun a => (List.range 1).map fun j => ext (ext c.2.2.1 (behind (1 : Equiv.Perm (Fin m)) a)) j • R.base) [] (List.ofFn c.2.2.2) = true := by
    intro σ
    let L : (S → F) → Fin m → F := fun t u => lg ((old u).point (R.withPoints (tableHash R t)) gen)
    let e : PlayerCoins m 2 1 w T S F ≃ PlayerCoins m 2 1 w T S F :=
      { toFun := fun c => (fun a => ![c.1 a 0, L c.2.1 (σ a) - c.1 (σ a) 1], c.2)
        invFun := fun c => (fun u => ![c.1 u 0, L c.2.1 u - c.1 (σ.symm u) 1], c.2)
        left_inv := fun c => by
          refine Prod.ext (funext fun u => funext fun j => ?_) rfl
          fin_cases j <;> simp
        right_inv := fun c => by
          refine Prod.ext (funext fun u => funext fun j => ?_) rfl
          fin_cases j <;> simp }
    refine Eq.trans ?_ (chance_congr e _)
    congr 1
    funext c
    have hK : ∀ u, ext (ext (e c).1 u) 0 = ext (ext c.1 u) 0 := by
      intro u
      by_cases hu : u < m
      · rw [ext_lt _ _ hu, ext_lt _ _ hu]; rfl
      · rw [ext_out _ hu, ext_out _ hu]
    have hP : newPoints R gen old σ (tableHash R c.2.1) (fun u => (List.range 2).map fun j => ext (ext c.1 u) j • R.base) =
        fun a => ext (ext (e c).1 a) 1 • R.base := by
      funext a
      unfold newPoints
      by_cases ha : a < m
      · rw [if_pos ha, ext_lt (e c).1 _ ha, hlg ((old (behind σ a)).point _ _)]
        show _ - ext (ext c.1 (behind σ a)) 1 • R.base = (L c.2.1 (σ ⟨a, ha⟩) - c.1 (σ ⟨a, ha⟩) 1) • R.base
        have hb : behind σ a = (σ ⟨a, ha⟩ : Nat) := dif_pos ha
        rw [hb, ext_lt _ _ (Fin.is_lt _), sub_smul]
        rfl
      · rw [if_neg ha, ext_out _ ha]
        exact (zero_smul F _).symm
    unfold stage watching
    simp only [hP, hK]
    simp only [Nat.not_lt_zero, if_false]
    rfl
  rw [key σ, key τ]

/-! ### C163 -/

/-- One world, against random images. -/
theorem one_payment_world [Fintype F] {R : Ristretto F G} (E : R.Encodings) (hB : R.base ≠ 0) (gen : Bytes) {m w : Nat} (hw : 1 ≤ w) {S : Finset Bytes}
    (hS : ∀ P : G, R.pBytes P ∈ S) (old : Nat → Opening F) (O : (Bytes → G) → (Nat → G) → (Nat → G) → Watcher F G)
    (W : (Bytes → G) → (Nat → G) → Arranged G) (σ : Equiv.Perm (Fin m))
    (hO : ∀ (x : Fin m → F) (t : S → F) (P : Nat → G), (O (tableHash R t) (fun u => ext x u • R.base) P).Served
      (W (tableHash R t) fun u => ext x u • R.base) (fun u => (ext x u • R.base, (old u).point (R.withPoints (tableHash R t)) gen)) (behind σ) m w)
    (T : Nat) :
    |(chance fun p : ((Fin m → Fin 2 → F) × (S → F)) × (Fin T → StepCoins 2 w F) => payGame R gen old O W σ p = true) -
      chance fun c : PlayerCoins m 2 1 w T S F => stage R (watching R gen old O σ) 1 0 c = true| ≤
      (((T * w) ^ 2 + 2 * m : ℕ) : ℚ) / Fintype.card F +
        ∑ n ∈ Finset.range m, ddhAdvantage R (Observer.player R (watching R gen old O σ) (m := m) (d := 2) (v := 1) (w := w) (T := T) (S := S) σ n) := by
  have hx : ∀ (x : Fin m → Fin 2 → F) u, ext (ext x u) 0 = ext (fun u => x u 0) u := by
    intro x u
    by_cases hu : u < m
    · rw [ext_lt _ _ hu, ext_lt _ _ hu]; rfl
    · rw [ext_out _ hu, ext_out _ hu]; rfl
  have hserved : ∀ (x : Fin m → Fin 2 → F) (t : S → F) (P : Nat → G), (O (tableHash R t) (fun u => ext (ext x u) 0 • R.base) P).Served
      (W (tableHash R t) fun u => ext (ext x u) 0 • R.base) (fun u => (ext (ext x u) 0 • R.base, (old u).point (R.withPoints (tableHash R t)) gen))
      (behind σ) m w := by
    intro x t P
    simp only [hx]
    exact hO _ t P
  let W' : (Bytes → G) → (Nat → List G) → Hidden G := fun H keys =>
    arrangedHidden (W H fun u => (keys u).getD 0 0) (behind σ) (newPoints R gen old σ H keys)
  have h1 := one_world E hB true (by norm_num : 1 ≤ 2) hw hS (watching R gen old O σ) W' σ (by
    intro x t
    have hK : (fun u => (keysOf R (users x) u).getD 0 0) = fun u => ext (ext x u) 0 • R.base := by
      funext u
      rw [keysOf_two]
      rfl
    unfold watching
    simp only [W']
    rw [hK]
    refine obs_served _ _ _ _ _ ?_ _ (hserved x t _)
    intro a ha
    unfold newPoints
    rw [if_pos ha, keysOf_two]
    show _ = [_, _ - (_ - ext (ext x (behind σ a)) 1 • R.base)]
    rw [sub_sub_cancel]) T
  let e : ((Fin m → Fin 2 → F) × (S → F)) × (Fin T → StepCoins 2 w F) ≃ ((Fin m → Fin 2 → F) × (S → F)) × (Fin T → StepCoins 2 w F) :=
    ((turn old m).prodCongr (Equiv.refl _)).prodCongr (Equiv.refl _)
  have h2 := chance_differ (fun p : ((Fin m → Fin 2 → F) × (S → F)) × (Fin T → StepCoins 2 w F) => payGame R gen old O W σ p)
    (fun p => (watching R gen old O σ (tableHash R (e p).1.2) (keysOf R (users (e p).1.1))).real (R.withPoints (tableHash R (e p).1.2)) true
      (W' (tableHash R (e p).1.2) (keysOf R (users (e p).1.1))) (users (e p).1.1) [] (List.ofFn (e p).2))
    (fun p => ∃ u : Fin m, p.1.1 u 0 = 0 ∨ p.1.1 u 1 = (old u).blind) (by
      intro p hp
      push Not at hp
      exact payGame_eq R gen old O W σ p (hserved p.1.1 p.1.2) (fun u => (hp u).1) fun u => (hp u).2)
  rw [chance_congr e fun p => (watching R gen old O σ (tableHash R p.1.2) (keysOf R (users p.1.1))).real (R.withPoints (tableHash R p.1.2)) true
      (W' (tableHash R p.1.2) (keysOf R (users p.1.1))) (users p.1.1) [] (List.ofFn p.2) = true] at h2
  have h3 : (chance fun p : ((Fin m → Fin 2 → F) × (S → F)) × (Fin T → StepCoins 2 w F) => ∃ u : Fin m, p.1.1 u 0 = 0 ∨ p.1.1 u 1 = (old u).blind) ≤
      (2 * m : ℕ) / Fintype.card F := by
    refine (chance_any _).trans ?_
    calc ∑ u : Fin m, _ ≤ ∑ _u : Fin m, ((2 : ℚ) / Fintype.card F) := Finset.sum_le_sum fun u _ => by
          refine (chance_or _ _).trans ?_
          have a1 := chance_secret (α := S → F) (β := Fin T → StepCoins 2 w F) u 0 (0 : F)
          have a2 := chance_secret (α := S → F) (β := Fin T → StepCoins 2 w F) u 1 (old u).blind
          rw [show (2 : ℚ) / Fintype.card F = 1 / Fintype.card F + 1 / Fintype.card F by ring]
          exact add_le_add a1 a2
      _ = _ := by
          rw [Finset.sum_const, Finset.card_univ, Fintype.card_fin, nsmul_eq_mul]
          push_cast
          ring
  have hi : imageCount true 2 = 1 := rfl
  simp only [hi, Nat.mul_one] at h1
  refine (abs_sub_le _ _ _).trans ((add_le_add (h2.trans h3) h1).trans (le_of_eq ?_))
  rw [Nat.cast_add, add_div, ← add_assoc, add_comm (((2 * m : ℕ) : ℚ) / _)]
  rfl

/-- C163: what the observer gets in this game. With no secret zero the calls succeed; the signature is for the coins in the order asked for, less the new
commitment, and `Verify` accepts it, with the image of the coin's key, under the hash function as it is then. -/
theorem C163_spends (R : Ristretto F G) (gen : Bytes) (W : Arranged G) (user : Nat → Nat) (s : Nat → Wallet F) {m w : Nat} (who : Nat) (msg : Bytes)
    (order : List (G × G)) (next : Signature F G → G → Watcher F G)
    (hO : (Watcher.spend who msg order next).Served W (fun u => (s u).coin R gen) user m w) (hk : (s (user who)).key ≠ 0)
    (hb : (s (user who)).blind ≠ (s (user who)).old.blind) (log : Oracle.Log F) (c : StepCoins 2 w F) (cs : List (StepCoins 2 w F)) :
    ∃ (log' : Oracle.Log F) (sig : Signature F G),
      (Watcher.spend who msg order next).real R gen W user s log (c :: cs) =
        (next sig ((s (user who)).key • R.pDerive (R.pBytes ((s (user who)).key • R.base)))).real R gen W user s log' cs ∧
      sig.msg = msg ∧ sig.pubKeys = order.map (fun k => ⟨false, [k.1, k.2 - (s (user who)).point R gen]⟩) ∧
      sig.verify (withHash R log'.hash) [(s (user who)).key • R.pDerive (R.pBytes ((s (user who)).key • R.base))] = .ok true := by
  obtain ⟨⟨-, ho, -, hord⟩, -⟩ := hO
  generalize hl : spendLog R (spendRequest (user who) ((s (user who)).point R gen) msg (W who msg order))
    [(s (user who)).key, (s (user who)).old.blind - (s (user who)).blind] log c = log'
  obtain ⟨h1, h2, h3, -⟩ := spendInput_exact (withHash R log'.hash) gen (s (user who)).key hk (s (user who)).old (W who msg order).1 ho (fun _ => msg)
    (W who msg order).2 (s (user who)).blind hb
  obtain ⟨sig, hs⟩ := h1 (ext c.1) fun j => ext (ext c.2.1 j)
  obtain ⟨-, e1, e2⟩ := h3 _ _ _ _ hs
  have hr : ringOrder (withHash R log'.hash) gen (s (user who)).key (s (user who)).old (W who msg order).1 (W who msg order).2 = order := hord
  obtain ⟨-, -, hv⟩ := (h2 sig.c sig.r).1 ⟨_, _, sig, hs, rfl, rfl⟩
  rw [hr] at hv e2
  have hseen : sig.seen = ⟨sig.c, sig.r, order.map fun k => ⟨false, [k.1, k.2 - (s (user who)).point R gen]⟩, msg⟩ := by
    unfold Signature.seen
    rw [e1]
    congr 1
    have := congrArg (List.map fun k => (⟨false, k⟩ : PubKeys G)) e2
    rw [List.map_map, List.map_map] at this
    exact this
  refine ⟨log', sig.seen, ?_, by rw [hseen], by rw [hseen], by rw [hseen]; exact hv⟩
  rw [Watcher.real]
  simp only [hl]
  rw [hs]
  rfl

/-- C163: who spends is hidden if the decisional Diffie-Hellman problem is hard. `m` wallets have a coin each, with an opening that the observer knows and a random
key, and draw the blinding factor of a new commitment at random. The observer knows which wallet has which coin, sees the new commitments under pseudonyms, and asks
pseudonyms to spend their coins, with messages and rings of its choice. In two worlds the wallets are behind the pseudonyms in two different orders. If the observer
tells the worlds apart, then it gives, up to a small error, players of the decisional Diffie-Hellman game with together that advantage: two for every wallet. -/
theorem C163_ddh [Fintype F] {R : Ristretto F G} (E : R.Encodings) (hB : R.base ≠ 0) (hgen : ∀ P, ∃ y : F, P = y • R.base) (gen : Bytes) (m w : Nat)
    (hw : 1 ≤ w) (S : Finset Bytes) (hS : ∀ P : G, R.pBytes P ∈ S) (old : Nat → Opening F)
    (O : (Bytes → G) → (Nat → G) → (Nat → G) → Watcher F G) (W W' : (Bytes → G) → (Nat → G) → Arranged G) (σ τ : Equiv.Perm (Fin m))
    (hO : ∀ (x : Fin m → F) (t : S → F) (P : Nat → G), (O (tableHash R t) (fun u => ext x u • R.base) P).Served
      (W (tableHash R t) fun u => ext x u • R.base) (fun u => (ext x u • R.base, (old u).point (R.withPoints (tableHash R t)) gen)) (behind σ) m w)
    (hO' : ∀ (x : Fin m → F) (t : S → F) (P : Nat → G), (O (tableHash R t) (fun u => ext x u • R.base) P).Served
      (W' (tableHash R t) fun u => ext x u • R.base) (fun u => (ext x u • R.base, (old u).point (R.withPoints (tableHash R t)) gen)) (behind τ) m w)
    (T : Nat) :
    |(chance fun p : ((Fin m → Fin 2 → F) × (S → F)) × (Fin T → StepCoins 2 w F) => payGame R gen old O W σ p = true) -
      chance fun p : ((Fin m → Fin 2 → F) × (S → F)) × (Fin T → StepCoins 2 w F) => payGame R gen old O W' τ p = true| ≤
      2 * ((((T * w) ^ 2 + 2 * m : ℕ) : ℚ) / Fintype.card F) +
        ∑ n ∈ Finset.range m,
          (ddhAdvantage R (Observer.player R (watching R gen old O σ) (m := m) (d := 2) (v := 1) (w := w) (T := T) (S := S) σ n) +
            ddhAdvantage R (Observer.player R (watching R gen old O τ) (m := m) (d := 2) (v := 1) (w := w) (T := T) (S := S) τ n)) := by
  have h1 := abs_le.1 (one_payment_world E hB gen hw hS old O W σ hO T)
  have h2 := abs_le.1 (one_payment_world E hB gen hw hS old O W' τ hO' T)
  rw [watching_zero R hgen gen old O τ σ] at h2
  rw [Finset.sum_add_distrib, abs_le]
  constructor <;> linarith [h1.1, h1.2, h2.1, h2.2]

/-! ### Examples -/

/-- It asks the pseudonym 0 to spend its coin in the ring of the coins of both wallets, and for a hash of the new commitment, and compares. -/
def bystander (R : Ristretto F G) (gen : Bytes) (old : Nat → Opening F) (H : Bytes → G) (K P : Nat → G) : Watcher F G :=
  .spend 0 [1, 2, 3] [(K 0, (old 0).point (R.withPoints H) gen), (K 1, (old 1).point (R.withPoints H) gen)] fun sig _ =>
    .hash (R.pBytes (P 0)) fun a => .done (decide (a = sig.c))

/-- Each wallet takes the coin of the other one. -/
def pairArranged (R : Ristretto F G) (gen : Bytes) (old : Nat → Opening F) (user : Nat → Nat) (H : Bytes → G) (K : Nat → G) : Arranged G := fun a _ _ =>
  ([(K (1 - user a), (old (1 - user a)).point (R.withPoints H) gen)], fun _ => user a)

theorem bystander_served (R : Ristretto F G) (gen : Bytes) (old : Nat → Opening F) (user : Nat → Nat) (hu : user 0 < 2) (H : Bytes → G) (K P : Nat → G) :
    (bystander R gen old H K P : Watcher F G).Served (pairArranged R gen old user H K) (fun u => (K u, (old u).point (R.withPoints H) gen)) user 2 2 := by
  refine ⟨⟨by norm_num, by simp [pairArranged], by simp [pairArranged], ?_⟩, fun _ _ _ => trivial⟩
  unfold pairArranged
  obtain h | h : user 0 = 0 ∨ user 0 = 1 := by omega
  · rw [h]; rfl
  · rw [h]; rfl

/-- Two wallets, with coins of the values 7 and 5, in either order behind the pseudonyms. -/
example (T : Nat) (S : Finset Bytes) (hS : ∀ P : Toy.K, Toy.ris.pBytes P ∈ S) (old : Nat → Opening Toy.K) (_ : old 0 = ⟨7, 100⟩) (_ : old 1 = ⟨5, 200⟩) :=
  C163_ddh (R := Toy.ris) Toy.ris_encodings one_ne_zero toy_generated [1] 2 2 (by norm_num) S hS old (bystander Toy.ris [1] old)
    (pairArranged Toy.ris [1] old (behind (1 : Equiv.Perm (Fin 2)))) (pairArranged Toy.ris [1] old (behind (Equiv.swap (0 : Fin 2) 1)))
    1 (Equiv.swap 0 1) (fun _ _ _ => bystander_served _ _ _ _ (by decide) _ _ _) (fun _ _ _ => bystander_served _ _ _ _ (by decide) _ _ _) T

/-- Two wallets with the keys 3 and 4. -/
def twoWallets : Nat → Wallet Toy.K := walletOf (fun u => if u = 0 then ⟨7, 100⟩ else ⟨5, 200⟩) ![![3, 10], ![4, 20]]

/-- The second wallet is behind the pseudonym 0 and spends its coin in a ring with the other one. An observer that says yes when it gets a signature says yes. -/
example (log : Oracle.Log Toy.K) (c : StepCoins 2 2 Toy.K) :
    (Watcher.spend 0 [1, 2, 3] [(twoWallets 0).coin Toy.ris [1], (twoWallets 1).coin Toy.ris [1]] fun _ _ => Watcher.done true).real Toy.ris [1]
      (fun _ _ _ => ([(twoWallets 0).coin Toy.ris [1]], fun _ => 1)) (behind (Equiv.swap (0 : Fin 2) 1)) twoWallets log [c] = true := by
  obtain ⟨log', sig, h, -⟩ := C163_spends Toy.ris [1] (fun _ _ _ => ([(twoWallets 0).coin Toy.ris [1]], fun _ => 1)) (behind (Equiv.swap (0 : Fin 2) 1))
    twoWallets (m := 2) (w := 2) 0 [1, 2, 3] [(twoWallets 0).coin Toy.ris [1], (twoWallets 1).coin Toy.ris [1]] (fun _ _ => Watcher.done true)
    ⟨⟨by norm_num, by simp, by simp, rfl⟩, fun _ _ => trivial⟩ (by decide +kernel) (by decide +kernel) log c []
  rw [h]
  rfl

example : ∃ S : Finset Bytes, ∀ P : Toy.K, Toy.ris.pBytes P ∈ S :=
  ⟨Finset.univ.image Toy.ris.pBytes, fun P => Finset.mem_image_of_mem _ (Finset.mem_univ P)⟩

end Dusk.Mlsag
