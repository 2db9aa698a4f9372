import Verif.Props.LedgerDdh
/-!
# C164: a coin cannot be spent without the key of its owner

A thief asks wallets to spend their coins, for messages and with rings of its choice, and then makes an input for a ring of coins of others, with
a commitment of its choice. The game is that of C115, with the calls of C162 in place of `Prove`; C115 itself does not apply to the second keys of the ring, since
these depend on the commitment that the thief makes in the end.
-/

set_option linter.unusedSectionVars false

namespace Dusk.Mlsag

variable {F G : Type} [Field F] [AddCommGroup G] [Module F G] [DecidableEq F]

/-! ### The game -/

/-- What a thief can do: ask for a hash, or ask the wallet `u` to spend its coin in a ring with other coins. -/
inductive Errand (G : Type)
  | hash (q : Bytes)
  | spend (u : Nat) (msg : Bytes) (others : List (G × G)) (shuffle : Nat → Nat)

/-- A thief: in the end it outputs a commitment, a signature and an image. -/
structure Thief (F G : Type) where
  act : Oracle.Log F → List (Signature F G) → Errand G
  out : Oracle.Log F → List (Signature F G) → G × Signature F G × G

/-- One step: the wallet `s u` spends its coin with the calls of C162, with the hash function given by the log. -/
def Thief.step (A : Thief F G) (R : Ristretto F G) (gen : Bytes) (s : Nat → Wallet F) {w : Nat} (t : Situation F G) (c : StepCoins 2 w F) : Situation F G :=
  match A.act t.log t.sigs with
  | .hash q => { t with log := t.log.ask q (ext c.2.2 0) }
  | .spend u msg others sh =>
    let log := spendLog R (spendRequest u ((s u).point R gen) msg (others, sh)) [(s u).key, (s u).old.blind - (s u).blind] t.log c
    match spendInput (withHash R log.hash) gen (s u).key (s u).old others (fun _ => msg) (s u).blind ⟨ext c.1, fun j => ext (ext c.2.1 j), sh⟩ with
    | .ok (sig, _) => ⟨log, t.sigs ++ [sig]⟩
    | _ => ⟨log, t.sigs⟩

/-- The requests can be satisfied: there are other coins, fewer than `w`. -/
def Thief.Valid (A : Thief F G) (w : Nat) : Prop :=
  ∀ log sigs u msg others sh, A.act log sigs = .spend u msg others sh → others ≠ [] ∧ others.length < w

/-- The thief steals: `Verify`, with the hash function that the game has fixed, accepts its image for a ring of at most `n` of the coins `vault`, each less
its commitment `P`, and for a message for which no wallet was asked to spend. -/
structure Thief.Steals (A : Thief F G) (R : Ristretto F G) (gen : Bytes) (s : Nat → Wallet F) {w : Nat} (vault : Finset (G × G)) (n : Nat)
    (coins : List (StepCoins 2 w F)) (ver : List F) (ring : List (G × G)) (P : G) (sig : Signature F G) (I : G) : Prop where
  output : A.out (coins.foldl (A.step R gen s) {}).log (coins.foldl (A.step R gen s) {}).sigs = (P, sig, I)
  accepted : sig.verify (withHash R (verifying R sig [I] (coins.foldl (A.step R gen s) {}).log 0 ver).hash) [I] = .ok true
  size : sig.r.length ≤ n
  members : sig.pubKeys.map (·.keys) = ring.map fun k => [k.1, k.2 - P]
  theirs : ∀ k ∈ ring, k ∈ vault
  fresh : ∀ x ∈ (coins.foldl (A.step R gen s) {}).sigs, x.msg ≠ sig.msg

/-! ### As a game of C115 -/

/-- The attacker of C115 that does the same, with the new commitments `P` of the wallets. -/
def Thief.chooser (A : Thief F G) (P : Nat → G) : Chooser F G where
  act log sigs := match A.act log sigs with
    | .hash q => .hash q
    | .spend u msg others sh => .sign (spendRequest u (P u) msg (others, sh))
  out log sigs := ((A.out log sigs).2.1, [(A.out log sigs).2.2])

/-- The secret keys of the wallets in it. -/
def walletKeys (s : Nat → Wallet F) (u : Nat) : List F := [(s u).key, (s u).old.blind - (s u).blind]

theorem Thief.chooser_valid {A : Thief F G} {w : Nat} (hA : A.Valid w) (P : Nat → G) : (A.chooser P).Valid 2 w := by
  intro log sigs r h
  simp only [Thief.chooser] at h
  split at h
  · cases h
  · rename_i u msg others sh e
    obtain rfl := Action.sign.inj h
    obtain ⟨h1, h2⟩ := hA _ _ _ _ _ _ e
    refine ⟨by simpa [spendRequest] using h1, by simpa [spendRequest] using h2, ?_⟩
    intro k hk
    obtain ⟨c, -, rfl⟩ := List.mem_map.1 hk
    rfl

/-- The calls of C162 are the same as those of C115. -/
theorem Thief.step_eq (A : Thief F G) (R : Ristretto F G) (gen : Bytes) (s : Nat → Wallet F) (h1 : ∀ u, (s u).key ≠ 0)
    (h2 : ∀ u, (s u).blind ≠ (s u).old.blind) {w : Nat} (hA : A.Valid w) (t : Situation F G) (c : StepCoins 2 w F) :
    A.step R gen s t c = (A.chooser fun u => (s u).point R gen).step R true (walletKeys s) t c := by
  unfold Thief.step Chooser.step
  cases hact : A.act t.log t.sigs with
  | hash q => simp [Thief.chooser, hact]
  | spend u msg others sh =>
    have ho := (hA _ _ _ _ _ _ hact).1
    have hc : (A.chooser fun u => (s u).point R gen).act t.log t.sigs = .sign (spendRequest u ((s u).point R gen) msg (others, sh)) := by
      simp [Thief.chooser, hact]
    rw [hc]
    dsimp only
    generalize hP : (s u).point R gen = P
    have hu : (spendRequest u P msg (others, sh)).user = u := rfl
    simp only [hu]
    generalize hl : spendLog R (spendRequest u P msg (others, sh)) [(s u).key, (s u).old.blind - (s u).blind] t.log c = log
    have hl' := hl
    unfold spendLog at hl'
    simp only at hl'
    unfold walletKeys
    rw [hl']
    obtain ⟨sig, hs, -⟩ := C162_shown (withHash R log.hash) gen (s u).key (h1 u) (s u).old others ho (fun _ => msg)
      (s u).blind (h2 u) ⟨ext c.1, fun j => ext (ext c.2.1 j), sh⟩
    have he := spendInput_eq (withHash R log.hash) gen (s u).key (s u).old others (fun _ => msg)
      (s u).blind ⟨ext c.1, fun j => ext (ext c.2.1 j), sh⟩ (h1 u) (h2 u)
    have hops : (spendRequest u P msg (others, sh)).ops [(s u).key, (s u).old.blind - (s u).blind] =
        inputOps (s u).key ((s u).old.blind - (s u).blind) others P := by
      simp [spendRequest, Request.ops, inputOps, Function.comp_def]
    rw [hops, hs]
    rw [hs] at he
    have hP' : Opening.point (withHash R log.hash) gen ⟨(s u).old.value, (s u).blind⟩ = P := hP
    rw [hP'] at he
    change _ = Res.bind (Prod.snd ((build R msg (inputOps (s u).key ((s u).old.blind - (s u).blind) others P)).prove
      (withHash R log.hash) true ⟨ext c.1, fun j => ext (ext c.2.1 j), sh⟩)) _ at he
    change _ = match (Prod.snd ((build R msg (inputOps (s u).key ((s u).old.blind - (s u).blind) others P)).prove
      (withHash R log.hash) true ⟨ext c.1, fun j => ext (ext c.2.1 j), sh⟩)) with
      | .ok (sig, I) => _
      | _ => _
    generalize Prod.snd ((build R msg (inputOps (s u).key ((s u).old.blind - (s u).blind) others P)).prove
      (withHash R log.hash) true ⟨ext c.1, fun j => ext (ext c.2.1 j), sh⟩) = q at he ⊢
    match q, he with
    | .ok (sg, [im]), he =>
      simp only [Res.bind_ok, Res.ok.injEq, Prod.mk.injEq] at he
      obtain ⟨rfl, rfl⟩ := he
      rfl

/-- All rings with the keys of these coins. -/
noncomputable def vaultKeys [Fintype F] (R : Ristretto F G) (vault : Finset (G × G)) : Finset (List G) :=
  open Classical in (vault ×ˢ (Finset.univ : Finset F)).image fun x => [x.1.1, x.2 • R.base]

/-- A theft is a forgery. -/
theorem Thief.Steals.forges [Fintype F] {A : Thief F G} {R : Ristretto F G} {gen : Bytes} {s : Nat → Wallet F} (h1 : ∀ u, (s u).key ≠ 0)
    (h2 : ∀ u, (s u).blind ≠ (s u).old.blind) (hgen : ∀ P, ∃ x : F, P = x • R.base) {w : Nat} (hA : A.Valid w) {vault : Finset (G × G)} {n : Nat}
    {coins : List (StepCoins 2 w F)} {ver : List F} {ring : List (G × G)} {P : G} {sig : Signature F G} {I : G}
    (h : A.Steals R gen s vault n coins ver ring P sig I) :
    (A.chooser fun u => (s u).point R gen).Forges R true (walletKeys s) (vaultKeys R vault) 1 n coins ver sig [I] := by
  have e : A.step R gen s = (A.chooser fun u => (s u).point R gen).step R true (walletKeys s) (w := w) := by
    funext t c
    exact A.step_eq R gen s h1 h2 hA t c
  obtain ⟨ho, ha, hs, hr, ht, hf⟩ := h
  rw [e] at ho ha hf
  refine ⟨?_, ha, hs, ?_, rfl, hf⟩
  · simp only [Thief.chooser] at ho ⊢
    rw [ho]
  · intro k hk
    have : k.keys ∈ ring.map fun k => [k.1, k.2 - P] := hr ▸ List.mem_map_of_mem hk
    obtain ⟨c, hc, e⟩ := List.mem_map.1 this
    obtain ⟨x, hx⟩ := hgen (c.2 - P)
    classical
    rw [← e, vaultKeys, Finset.mem_image]
    exact ⟨(c, x), Finset.mem_product.2 ⟨ht c hc, Finset.mem_univ _⟩, by rw [← hx]⟩

/-- The scalar computed from the first columns of two visits; `a K` is known about the key `K` of a coin. -/
def pickLock (a : G → F) (x y : (List G × List F) × F) : F :=
  (y.1.2.getD 0 0 - x.1.2.getD 0 0 + y.2 * a (y.1.1.getD 0 0) - x.2 * a (x.1.1.getD 0 0)) / (x.2 - y.2)

/-- C164: stealing is as hard as the discrete logarithm problem. The keys of the coins in the vault are `Y + a K G`. If the thief steals with probability `ε`, then
running the simulator, which has only the public keys and images of the wallets, twice gives the discrete logarithm of `Y`, hence all the keys. -/
theorem C164_theft [Fintype F] {R : Ristretto F G} (E : R.Encodings) (hB : R.base ≠ 0) (hgen : ∀ P, ∃ x : F, P = x • R.base) (gen : Bytes)
    (A : Thief F G) (s : Nat → Wallet F) (h1 : ∀ u, (s u).key ≠ 0) (h2 : ∀ u, (s u).blind ≠ (s u).old.blind) (w T n : Nat) (hw : 1 ≤ w) (hn : 2 ≤ n)
    (hA : A.Valid w) (vault : Finset (G × G)) (Y : G) (a : G → F) (hv : ∀ k ∈ vault, k.1 = Y + a k.1 • R.base) (ε δ σ : ℚ)
    (hε : ε = Nat.card {p : (Fin T → StepCoins 2 w F) × (Fin n → F) //
        ∃ ring P sig I, A.Steals R gen s vault n (List.ofFn p.1) (List.ofFn p.2) ring P sig I} / Nat.card ((Fin T → StepCoins 2 w F) × (Fin n → F)))
    (hδ : δ = T ^ 2 * w / Fintype.card F)
    (hσ : σ = Nat.card {p : (Fin T → SimCoins 2 w F) × (Fin (T * w + n) → F) × (Fin (T * w + n) → F) // ∃ t : Fin (T * w + n),
        ∃ x ∈ ((A.chooser fun u => (s u).point R gen).simulator R (keysOf R (walletKeys s)) (imsOf R true (walletKeys s)) T (ext p.1)).visited
          R (T * w) (List.ofFn p.2.1),
        ∃ y ∈ ((A.chooser fun u => (s u).point R gen).simulator R (keysOf R (walletKeys s)) (imsOf R true (walletKeys s)) T (ext p.1)).visited
          R (T * w) (List.ofFn (Oracle.rewind t p.2.1 p.2.2)),
          pickLock a x y • R.base = Y} /
      Nat.card ((Fin T → SimCoins 2 w F) × (Fin (T * w + n) → F) × (Fin (T * w + n) → F)))
    (hge : δ ≤ ε) : (ε - δ) ^ 2 / (T * w + n) ^ 2 - 1 / Fintype.card F ≤ σ := by
  classical
  choose dl hdl using hgen
  have h := C115_discrete_logarithms E hB (A.chooser fun u => (s u).point R gen) true (walletKeys s) 2 w T n (by omega) hw hn (fun _ => rfl)
    (A.chooser_valid hA _) (vaultKeys R vault) (fun j => if j = 0 then Y else 0) (fun K j => if j = 0 then a (K.getD 0 0) else dl (K.getD 1 0)) (by
      intro K hK
      rw [vaultKeys, Finset.mem_image] at hK
      obtain ⟨⟨k, q⟩, hk, rfl⟩ := hK
      refine ⟨rfl, fun j hj => ?_⟩
      have hk := hv k (Finset.mem_product.1 hk).1
      match j, hj with
      | 0, _ => simpa using hk
      | 1, _ => simpa using hdl (q • R.base)) 1 rfl _ δ _ rfl hδ rfl
  have hle : ε ≤ Nat.card {p : (Fin T → StepCoins 2 w F) × (Fin n → F) //
        ∃ sig I, (A.chooser fun u => (s u).point R gen).Forges R true (walletKeys s) (vaultKeys R vault) 1 n (List.ofFn p.1) (List.ofFn p.2) sig I} /
          Nat.card ((Fin T → StepCoins 2 w F) × (Fin n → F)) := by
    rw [hε]
    gcongr
    refine Nat.card_le_card_of_injective (Subtype.impEmbedding _ _ ?_) (Subtype.impEmbedding _ _ _).injective
    rintro p ⟨ring, P, sig, I, hs⟩
    exact ⟨sig, [I], hs.forges h1 h2 (fun P => ⟨dl P, hdl P⟩) hA⟩
  have h := h (hge.trans hle)
  refine le_trans ?_ (h.trans ?_)
  · have := pow_le_pow_left₀ (sub_nonneg.2 hge) (sub_le_sub_right hle δ) 2
    gcongr
  · rw [hσ]
    gcongr
    refine Nat.card_le_card_of_injective (Subtype.impEmbedding _ _ ?_) (Subtype.impEmbedding _ _ _).injective
    rintro p ⟨t, x, hx, y, hy, hc⟩
    exact ⟨t, x, hx, y, hy, by simpa [crack, pickLock] using hc 0 (by omega)⟩

/-! ### A thief that has the key

It gets an input of wallet `0` for the message `[9]`, in a ring with a coin whose key `x` it knows; then it spends this coin itself, for the message `[1, 2]`. -/

/-- The thief. -/
def burglar (R : Ristretto F G) (x : F) (C : G) (z l l' : F) : Thief F G where
  act _ sigs := match sigs with
    | [] => .spend 0 [9] [(x • R.base, C)] fun _ => 0
    | _ :: _ => .hash (ownQuery2 R [1, 2] x l l')
  out log _ := (C - z • R.base, ⟨log.hash (ownQuery2 R [1, 2] x l l'),
    [[l - log.hash (ownQuery2 R [1, 2] x l l') * x, l' - log.hash (ownQuery2 R [1, 2] x l l') * z]],
    [⟨true, [x • R.base, z • R.base]⟩], [1, 2]⟩, image R x)

theorem burglar_valid (R : Ristretto F G) (x : F) (C : G) (z l l' : F) : (burglar R x C z l l').Valid 2 := by
  intro log sigs u msg others sh h
  cases sigs with
  | nil =>
    injection h with _ _ h _
    subst h
    simp
  | cons _ _ => cases h

/-- It succeeds for all coins. -/
theorem burglar_steals (R : Ristretto F G) (gen : Bytes) (s : Nat → Wallet F) (h1 : ∀ u, (s u).key ≠ 0) (h2 : ∀ u, (s u).blind ≠ (s u).old.blind) (x : F)
    (C : G) (z l l' : F) (c c' : StepCoins 2 2 F) (ver : List F) :
    ∃ sig, (burglar R x C z l l').Steals R gen s {(x • R.base, C)} 2 [c, c'] ver [(x • R.base, C)] (C - z • R.base) sig (image R x) := by
  obtain ⟨log, sg, hs, hmsg⟩ : ∃ log sg, (burglar R x C z l l').step R gen s {} c = ⟨log, [sg]⟩ ∧ sg.msg = [9] := by
    have hact : (burglar R x C z l l').act ({} : Situation F G).log ({} : Situation F G).sigs = .spend 0 [9] [(x • R.base, C)] fun _ => 0 := rfl
    unfold Thief.step
    rw [hact]
    dsimp only
    generalize spendLog R _ _ _ c = log
    obtain ⟨sig, hs, hm, -⟩ := C162_shown (withHash R log.hash) gen (s 0).key (h1 0) (s 0).old [(x • R.base, C)] (by simp) (fun _ => [9])
      (s 0).blind (h2 0) ⟨ext c.1, fun j => ext (ext c.2.1 j), fun _ => 0⟩
    rw [hs]
    exact ⟨log, sig, rfl, hm⟩
  have h2 : [c, c'].foldl ((burglar R x C z l l').step R gen s) {} = ⟨log.ask (ownQuery2 R [1, 2] x l l') (ext c'.2.2 0), [sg]⟩ := by
    rw [List.foldl_cons, List.foldl_cons, List.foldl_nil, hs]
    rfl
  obtain ⟨a, ha⟩ : ∃ a, (log.ask (ownQuery2 R [1, 2] x l l') (ext c'.2.2 0)).lookup (ownQuery2 R [1, 2] x l l') = some a :=
    ⟨_, by rw [lookup_ask, if_pos rfl]⟩
  have hh : Oracle.Log.hash (log.ask (ownQuery2 R [1, 2] x l l') (ext c'.2.2 0)) (ownQuery2 R [1, 2] x l l') = a := by
    rw [Oracle.Log.hash, ha]
    rfl
  refine ⟨⟨a, [[l - a * x, l' - a * z]], [⟨true, [x • R.base, z • R.base]⟩], [1, 2]⟩, ?_, ?_, by simp, by simp, by simp, ?_⟩
  · rw [h2]
    simp only [burglar, hh]
  · rw [h2]
    generalize hL : verifying R _ _ _ _ _ = L
    have hlook : L.lookup (ownQuery2 R [1, 2] x l l') = some a := by rw [← hL]; exact verifying_lookup _ _ _ ha
    refine (C17_single _ _ _ rfl le_rfl (by simp) ?_).2 ?_
    · simp [Fits, ringOf]
    · have hl : link (withHash R L.hash) [1, 2] [image R x] [x • R.base, z • R.base] [l - a * x, l' - a * z] a = a := by
        have hq : query R [1, 2] [image R x] [x • R.base, z • R.base] [l - a * x, l' - a * z] a = ownQuery2 R [1, 2] x l l' := by
          have e1 : ∀ y m : F, (m - a * y) • R.base + a • y • R.base = m • R.base := fun y m => by module
          have e2 : (l - a * x) • R.pDerive (R.pBytes (x • R.base)) + a • image R x = l • R.pDerive (R.pBytes (x • R.base)) := by
            unfold image
            module
          unfold query ownQuery2
          simp only [List.zipWith_cons_cons, List.zip_cons_cons, List.zip_nil_right, List.zipWith_nil_right, List.flatten_cons, List.flatten_nil,
            List.append_nil]
          rw [e1, e2, e1]
        show L.hash (query R [1, 2] [image R x] [x • R.base, z • R.base] [l - a * x, l' - a * z] a) = a
        rw [hq, Oracle.Log.hash, hlook]
        rfl
      simp only [ringOf, List.map_cons, List.map_nil, List.zip_cons_cons, List.zip_nil_right, around, List.singleton_append,
        List.foldl_cons, List.foldl_nil]
      rw [hl, hl]
  · rw [h2]
    intro y hy
    rw [List.mem_singleton.1 hy, hmsg]
    simp

/-- Hence its key is found by rerunning the simulator, with probability at least `(1 - 8 / |F|)² / 36 - 1 / |F|`, for the toy group and a wallet with
the key 3 and a coin of value 5. -/
theorem burglar_caught (x C z l l' : Toy.K) (s : Nat → Wallet Toy.K) (hs : s = fun _ => ⟨3, ⟨5, 7⟩, 8⟩) (A : Thief Toy.K Toy.K)
    (hA : A = burglar Toy.ris x C z l l') :
    ((1 : ℚ) - 8 / Fintype.card Toy.K) ^ 2 / 36 - 1 / Fintype.card Toy.K ≤
      Nat.card {p : (Fin 2 → SimCoins 2 2 Toy.K) × (Fin (2 * 2 + 2) → Toy.K) × (Fin (2 * 2 + 2) → Toy.K) // ∃ t : Fin (2 * 2 + 2),
        ∃ u ∈ ((A.chooser fun u => (s u).point Toy.ris [2]).simulator Toy.ris (keysOf Toy.ris (walletKeys s)) (imsOf Toy.ris true (walletKeys s)) 2
          (ext p.1)).visited Toy.ris (2 * 2) (List.ofFn p.2.1),
        ∃ v ∈ ((A.chooser fun u => (s u).point Toy.ris [2]).simulator Toy.ris (keysOf Toy.ris (walletKeys s)) (imsOf Toy.ris true (walletKeys s)) 2
          (ext p.1)).visited Toy.ris (2 * 2) (List.ofFn (Oracle.rewind t p.2.1 p.2.2)),
          pickLock (fun _ => 0) u v • Toy.ris.base = x • Toy.ris.base} /
      Nat.card ((Fin 2 → SimCoins 2 2 Toy.K) × (Fin (2 * 2 + 2) → Toy.K) × (Fin (2 * 2 + 2) → Toy.K)) := by
  have h1 : ∀ u, (s u).key ≠ 0 := by
    rw [hs]
    intro _
    show (3 : Toy.K) ≠ 0
    decide +kernel
  have h2 : ∀ u, (s u).blind ≠ (s u).old.blind := by
    rw [hs]
    intro _
    show (8 : Toy.K) ≠ 7
    decide +kernel
  have hall : ∀ p : (Fin 2 → StepCoins 2 2 Toy.K) × (Fin 2 → Toy.K), ∃ ring P sig I,
      A.Steals Toy.ris [2] s {(x • Toy.ris.base, C)} 2 (List.ofFn p.1) (List.ofFn p.2) ring P sig I := by
    intro p
    obtain ⟨sig, h⟩ := burglar_steals Toy.ris [2] s h1 h2 x C z l l' (p.1 0) (p.1 1) (List.ofFn p.2)
    rw [hA]
    exact ⟨_, _, sig, _, h⟩
  have hε : (1 : ℚ) = Nat.card {p : (Fin 2 → StepCoins 2 2 Toy.K) × (Fin 2 → Toy.K) // ∃ ring P sig I,
      A.Steals Toy.ris [2] s {(x • Toy.ris.base, C)} 2 (List.ofFn p.1) (List.ofFn p.2) ring P sig I} /
        Nat.card ((Fin 2 → StepCoins 2 2 Toy.K) × (Fin 2 → Toy.K)) := by
    rw [Nat.card_congr (Equiv.subtypeUnivEquiv hall), div_self]
    exact_mod_cast Nat.card_pos.ne'
  have hc : Fintype.card Toy.K = PrimeEll.ell := ZMod.card _
  have hl : (8 : ℚ) ≤ Fintype.card Toy.K := by
    have : 2 ^ 64 < Fintype.card Toy.K := by rw [hc]; exact PrimeEll.two64_lt_ell
    exact_mod_cast (by omega : 8 ≤ Fintype.card Toy.K)
  have h := C164_theft Toy.ris_encodings (by simp [Toy.ris]) (fun P => ⟨P, (mul_one P).symm⟩) [2] A s h1 h2 2 2 2 (by omega) le_rfl
    (by rw [hA]; exact burglar_valid _ _ _ _ _ _) {(x • Toy.ris.base, C)} (x • Toy.ris.base) (fun _ => 0) (by
      intro k hk
      rw [Finset.mem_singleton.1 hk]
      simp) 1 (8 / Fintype.card Toy.K) _ hε (by norm_num) rfl (by
        rw [div_le_one (by linarith)]
        exact hl)
  norm_num at h ⊢
  exact h

end Dusk.Mlsag
