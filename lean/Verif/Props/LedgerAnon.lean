import Verif.Props.Transaction
import Verif.Props.MlsagAnon
import Verif.Props.MathRand
import Verif.Props.MlsagDdh
/-!
# C162: what one input of a payment shows about the coin that is spent

An input of C151: the secret key and the opening of a coin, other coins, a new blinding factor. The published part is the new commitment, the
challenge, the responses, the order of the coins in the ring and the key image. The message may depend on the new commitment.
-/

set_option linter.unusedSectionVars false

namespace Dusk.Mlsag

variable {F G : Type} [Field F] [AddCommGroup G] [Module F G] [DecidableEq F]

/-- The calls for one input: a new `DualKey`, the calls of C151 with the new blinding factor `b`, and `Prove`. -/
def spendInput (R : Ristretto F G) (gen : Bytes) (x : F) (old : Opening F) (others : List (G × G)) (msg : G → Bytes) (b : F) (coins : Coins F) :
    Res (Signature F G × G) :=
  (EOp.run R DualKey.new (spendCalls R gen x old ⟨old.value, b⟩ others (msg (Opening.point R gen ⟨old.value, b⟩)))).bind fun d => (d.prove R coins).2

/-- The coins of the ring in the order in which they are published. -/
def ringOrder (R : Ristretto F G) (gen : Bytes) (x : F) (old : Opening F) (others : List (G × G)) (sh : Nat → Nat) : List (G × G) :=
  shuffleLoop sh others.length (others ++ [(x • R.base, old.point R gen)])

/-- What an observer can check: `c` and `r` are a signature for the ring of these coins less `P`, with two responses for each member, that
`Verify` accepts with the image. -/
def InputChecks (R : Ristretto F G) (msg : G → Bytes) (order : List (G × G)) (I P : G) (c : F) (r : List (List F)) : Prop :=
  r.length = order.length ∧ (∀ y ∈ r, y.length = 2) ∧
    (⟨c, r, order.map fun k => ⟨false, [k.1, k.2 - P]⟩, msg P⟩ : Signature F G).verify R [I] = .ok true

/-! ### The calls -/

theorem addDecoys_value : ∀ (ks : List (PubKeys G)) (p : Proof F G),
    p.addDecoys ks = { p with matrix := p.matrix ++ ks.map fun k => { k with decoy := true } }
  | [], p => by simp [Proof.addDecoys]
  | k :: ks, q => by
    have := addDecoys_value ks (q.addDecoy k)
    unfold Proof.addDecoys at this ⊢
    rw [List.foldl_cons, this]
    simp [Proof.addDecoy, Proof.addPubKeys]

theorem subSecond_coins (P : G) : ∀ l : List (G × G), mapRes (PubKeys.subSecond P) (l.map fun k => (⟨true, [k.1, k.2]⟩ : PubKeys G)) =
    .ok (l.map fun k => ⟨true, [k.1, k.2 - P]⟩)
  | [] => rfl
  | k :: l => by
    rw [List.map_cons, mapRes, subSecond_coins P l]
    rfl

/-- The same proof with the calls of package mlsag: the ring members with the new commitment subtracted, and two secrets. -/
def inputOps (x z : F) (others : List (G × G)) (P : G) : List (Op F G) :=
  others.map (fun k => .decoy ⟨true, [k.1, k.2 - P]⟩) ++ [.secret x, .secret z]

theorem inputOps_secrets (x z : F) (P : G) : ∀ others : List (G × G), secrets (inputOps x z others P) = [x, z]
  | [] => rfl
  | _ :: l => inputOps_secrets x z P l

theorem inputOps_decoys (x z : F) (P : G) : ∀ others : List (G × G), decoys (inputOps x z others P) = others.map fun k => [k.1, k.2 - P]
  | [] => rfl
  | _ :: l => congrArg _ (inputOps_decoys x z P l)

theorem spendInput_eq (R : Ristretto F G) (gen : Bytes) (x : F) (old : Opening F) (others : List (G × G)) (msg : G → Bytes) (b : F) (coins : Coins F)
    (hx : x ≠ 0) (hb : b ≠ old.blind) :
    spendInput R gen x old others msg b coins =
      ((build R (msg (Opening.point R gen ⟨old.value, b⟩)) (inputOps x (old.blind - b) others (Opening.point R gen ⟨old.value, b⟩))).prove R true
        coins).2.bind fun s => match s.2 with
          | [im] => .ok (s.1, im)
          | _ => .err "dual key mlsag must only contain one key image" := by
  generalize hP : Opening.point R gen ⟨old.value, b⟩ = P
  have hrun : EOp.run R DualKey.new (spendCalls R gen x old ⟨old.value, b⟩ others (msg P)) = .ok
      (⟨{ matrix := others.map fun k => ⟨true, [k.1, k.2 - P]⟩, msg := msg P }, x, old.blind - b⟩ : DualKey F G) := by
    have h1 : (DualKey.new : DualKey F G).proof.addDecoys (others.map fun k => ⟨false, [k.1, k.2]⟩) =
        { matrix := others.map fun k => ⟨true, [k.1, k.2]⟩ } := by
      rw [addDecoys_value]
      simp [DualKey.new, Function.comp_def]
    simp only [spendCalls, EOp.run, EOp.apply, DOp.apply, Res.bind_ok, h1, DualKey.subCommToZero, hP, subSecond_coins]
    rfl
  have hbuild : (build R (msg P) (inputOps x (old.blind - b) others P) : Proof F G) =
      (Proof.addSecret R (Proof.addSecret R { matrix := others.map fun k => ⟨true, [k.1, k.2 - P]⟩, msg := msg P } x) (old.blind - b)) := by
    have h2 : others.map (fun k => (Op.decoy ⟨true, [k.1, k.2 - P]⟩ : Op F G)) = (others.map fun k => (⟨true, [k.1, k.2 - P]⟩ : PubKeys G)).map Op.decoy := by
      simp
    rw [build, inputOps, List.foldl_append, h2, ← addDecoys_eq, addDecoys_value]
    simp [Op.apply, Function.comp_def]
  unfold spendInput
  rw [hP, hrun, Res.bind_ok, DualKey.prove, if_neg (by simp [hx, sub_eq_zero, hb.symm]), hbuild]
  rfl

theorem spendInput_refused (R : Ristretto F G) (gen : Bytes) (x : F) (old : Opening F) (others : List (G × G)) (msg : G → Bytes) (coins : Coins F) :
    (spendInput R gen x old others msg old.blind coins).IsErr := by
  obtain ⟨d, h1, h2⟩ := C151_same_blinding R gen x old ⟨old.value, old.blind⟩ others (msg (Opening.point R gen ⟨old.value, old.blind⟩)) coins rfl
  unfold spendInput
  rw [h1]
  exact h2

theorem point_sub (R : Ristretto F G) (gen : Bytes) (v : Nat) (b b' : F) :
    Opening.point R gen ⟨v, b⟩ - Opening.point R gen ⟨v, b'⟩ = (b - b') • R.base := by
  simp only [Opening.point, Pedersen.commitToScalar]
  rw [show (Pedersen.new R gen).blindPoint = R.base from rfl, sub_smul]
  abel

theorem point_inj (R : Ristretto F G) (hB : R.base ≠ 0) (gen : Bytes) (v : Nat) {b b' : F}
    (h : Opening.point R gen ⟨v, b⟩ = Opening.point R gen ⟨v, b'⟩) : b = b' := by
  have e := point_sub R gen v b b'
  rw [h, sub_self] at e
  exact sub_eq_zero.1 ((smul_eq_zero.1 e.symm).resolve_right hB)

/-- For a fixed new blinding factor. -/
theorem spendInput_exact (R : Ristretto F G) (gen : Bytes) (x : F) (hx : x ≠ 0) (old : Opening F) (others : List (G × G)) (ho : others ≠ [])
    (msg : G → Bytes) (sh : Nat → Nat) (b : F) (hb : b ≠ old.blind) :
    (∀ nonce resp, ∃ sig, spendInput R gen x old others msg b ⟨nonce, resp, sh⟩ = .ok (sig, image R x)) ∧
    (∀ c r, (∃ nonce resp sig, spendInput R gen x old others msg b ⟨nonce, resp, sh⟩ = .ok (sig, image R x) ∧ sig.c = c ∧ sig.r = r) ↔
      InputChecks R msg (ringOrder R gen x old others sh) (image R x) (Opening.point R gen ⟨old.value, b⟩) c r) ∧
    (∀ nonce resp sig I, spendInput R gen x old others msg b ⟨nonce, resp, sh⟩ = .ok (sig, I) → I = image R x ∧
      sig.msg = msg (Opening.point R gen ⟨old.value, b⟩) ∧
      sig.pubKeys.map (·.keys) = (ringOrder R gen x old others sh).map fun k => [k.1, k.2 - Opening.point R gen ⟨old.value, b⟩]) ∧
    ∃ i, (ringOrder R gen x old others sh)[i]? = some (x • R.base, old.point R gen) ∧ ∀ nonce resp nonce' resp' sig sig',
      spendInput R gen x old others msg b ⟨nonce, resp, sh⟩ = .ok (sig, image R x) →
      spendInput R gen x old others msg b ⟨nonce', resp', sh⟩ = .ok (sig', image R x) →
      (sig.c = sig'.c ∧ sig.r = sig'.r ↔ (∀ a < 2, nonce a = nonce' a) ∧ ∀ j < others.length + 1, j ≠ i → ∀ a < 2, resp j a = resp' j a) := by
  set P := Opening.point R gen ⟨old.value, b⟩ with hP
  set ops := inputOps x (old.blind - b) others P with hops
  have es : secrets ops = [x, old.blind - b] := inputOps_secrets ..
  have ed : decoys ops = others.map fun k => [k.1, k.2 - P] := inputOps_decoys ..
  have hz : (old.blind - b) • R.base = old.point R gen - P := (point_sub R gen old.value old.blind b).symm
  have hd : decoys ops ≠ [] := by rw [ed]; simpa using ho
  have hs : secrets ops ≠ [] := by rw [es]; simp
  have hdim : ∀ k ∈ decoys ops, k.length = (secrets ops).length := by
    rw [ed, es]
    intro k hk
    obtain ⟨q, -, rfl⟩ := List.mem_map.1 hk
    rfl
  obtain ⟨ring, i, p1, p2, p3, p4, p5⟩ := C107_exact R (msg P) ops true sh hd hs (by rw [es]; simp) hdim
  have hI : imagesOf R true (secrets ops) = [image R x] := by rw [es]; rfl
  rw [hI] at p3 p4
  have hk2 : (secrets ops).length = 2 := by rw [es]; rfl
  rw [hk2] at p4 p5
  have hlen : ring.length = others.length + 1 := by rw [p1.length_eq, ed]; simp
  -- the keys of the ring
  have hkeys : ring.map (·.keys) = (ringOrder R gen x old others sh).map fun k => [k.1, k.2 - P] := by
    obtain ⟨sig, I, h1, h2⟩ := published_ring R (msg P) ops true ⟨fun _ => 0, fun _ _ => 0, sh⟩ hd hs (by rw [es]; simp) hdim
    obtain ⟨s, h3⟩ := p3 (fun _ => 0) (fun _ _ => 0)
    have e := Res.ok.inj (h1.symm.trans h3)
    cases e
    have h4 := ((p4 sig).1 ⟨_, _, h3⟩).2.1
    rw [← h4, h2, ed, es, ringOrder, ← shuffleLoop_map]
    simp [hz]
  -- the outcomes of the two programs
  have key : ∀ nonce resp sig I, spendInput R gen x old others msg b ⟨nonce, resp, sh⟩ = .ok (sig, I) ↔
      I = image R x ∧ ((build R (msg P) ops).prove R true ⟨nonce, resp, sh⟩).2 = .ok (sig, [image R x]) := by
    intro nonce resp sig I
    rw [spendInput_eq R gen x old others msg b _ hx hb]
    obtain ⟨s, h3⟩ := p3 nonce resp
    rw [← hP, ← hops, h3]
    simp only [Res.bind_ok, Res.ok.injEq, Prod.mk.injEq]
    constructor
    · rintro ⟨rfl, rfl⟩; exact ⟨rfl, rfl, trivial⟩
    · rintro ⟨rfl, rfl, -⟩; exact ⟨rfl, rfl⟩
  have flags : ∀ c r, Accepted R (msg P) ring 2 [image R x] ⟨c, r, ring, msg P⟩ ↔
      InputChecks R msg (ringOrder R gen x old others sh) (image R x) P c r := by
    intro c r
    have hl2 : ring.length = (ringOrder R gen x old others sh).length := by simpa using congrArg List.length hkeys
    have e2 : ring.map (·.keys) = ((ringOrder R gen x old others sh).map fun k => (⟨false, [k.1, k.2 - P]⟩ : PubKeys G)).map (·.keys) := by
      rw [hkeys]; simp [Function.comp_def]
    have hkk : ∀ m ∈ ring, m.keys.length = 2 := by
      intro m hm
      have : m.keys ∈ ring.map (·.keys) := List.mem_map_of_mem hm
      rw [hkeys] at this
      obtain ⟨q, -, e⟩ := List.mem_map.1 this
      rw [← e]
      rfl
    have ho1 : 1 ≤ others.length := List.length_pos_iff.2 ho
    constructor
    · rintro ⟨-, -, h1, h2, h3⟩
      exact ⟨h1.trans hl2, h2, (verify_flags R c r (msg P) ring _ [image R x] e2 2 (by simp only at h1; omega) h1 h2 hkk (by simp) (by simp)).1 h3⟩
    · rintro ⟨h1, h2, h3⟩
      exact ⟨rfl, rfl, h1.trans hl2.symm, h2,
        (verify_flags R c r (msg P) ring _ [image R x] e2 2 (by omega) (h1.trans hl2.symm) h2 hkk (by simp) (by simp)).2 h3⟩
  refine ⟨fun nonce resp => ?_, fun c r => ?_, fun nonce resp sig I h => ?_, i, ?_, fun nonce resp nonce' resp' sig sig' h h' => ?_⟩
  · obtain ⟨s, h3⟩ := p3 nonce resp
    exact ⟨s, (key ..).2 ⟨rfl, h3⟩⟩
  · rw [← flags, ← p4]
    constructor
    · rintro ⟨nonce, resp, sig, h, rfl, rfl⟩
      have h := ((key ..).1 h).2
      have a := (p4 sig).1 ⟨_, _, h⟩
      refine ⟨nonce, resp, ?_⟩
      rw [h, ← a.1, ← a.2.1]
    · rintro ⟨nonce, resp, h⟩
      exact ⟨nonce, resp, _, (key ..).2 ⟨rfl, h⟩, rfl, rfl⟩
  · obtain ⟨h1, h⟩ := (key ..).1 h
    have a := (p4 sig).1 ⟨_, _, h⟩
    exact ⟨h1, a.1, by rw [a.2.1, hkeys]⟩
  · have h := congrArg (fun o : Option (PubKeys G) => o.map (·.keys)) p2
    simp only [Option.map_some, es, List.map_cons, List.map_nil, hz] at h
    rw [← List.getElem?_map, hkeys, List.getElem?_map] at h
    cases hq : (ringOrder R gen x old others sh)[i]? with
    | none => rw [hq] at h; cases h
    | some q =>
      rw [hq] at h
      simp only [Option.map_some, Option.some.injEq, List.cons.injEq, and_true, sub_left_inj] at h
      rw [← h.1, ← h.2]
  · have g := ((key ..).1 h).2
    have g' := ((key ..).1 h').2
    have a := (p4 sig).1 ⟨_, _, g⟩
    have a' := (p4 sig').1 ⟨_, _, g'⟩
    rw [← hlen]
    refine Iff.trans ?_ (p5 nonce resp nonce' resp')
    rw [g, g']
    simp only [Res.ok.injEq, Prod.mk.injEq, and_true]
    constructor
    · rintro ⟨e1, e2⟩
      obtain ⟨c, r, k, m⟩ := sig
      obtain ⟨c', r', k', m'⟩ := sig'
      simp only at e1 e2
      have b1 : k = ring := a.2.1
      have b2 : k' = ring := a'.2.1
      have b3 : m = msg P := a.1
      have b4 : m' = msg P := a'.1
      rw [e1, e2, b1, b2, b3, b4]
    · rintro rfl
      exact ⟨rfl, rfl⟩

/-! ### Chances -/

/-- The choices of an input with `n` ring members: new blinding factor, two nonces, two responses for every member. -/
abbrev InputCoins (n : Nat) (F : Type) := F × ((Fin 2 → F) × (Fin n → Fin 2 → F))

/-- The choices as `Prove` reads them; what is not there is never read. -/
def inputCoins {n : Nat} (q : (Fin 2 → F) × (Fin n → Fin 2 → F)) (sh : Nat → Nat) : Coins F :=
  ⟨fun a => if h : a < 2 then q.1 ⟨a, h⟩ else 0, fun j a => if h : j < n ∧ a < 2 then q.2 ⟨j, h.1⟩ ⟨a, h.2⟩ else 0, sh⟩

/-- What is published besides the image and the order of the coins: the new commitment, the challenge and the responses, or nothing. -/
def inputSeen (R : Ristretto F G) (gen : Bytes) (x : F) (old : Opening F) (others : List (G × G)) (msg : G → Bytes) (sh : Nat → Nat) {n : Nat}
    (p : InputCoins n F) : Option (G × F × List (List F)) :=
  match spendInput R gen x old others msg p.1 (inputCoins p.2 sh) with
  | .ok (sig, _) => some (Opening.point R gen ⟨old.value, p.1⟩, sig.c, sig.r)
  | _ => none

theorem inputSeen_none (R : Ristretto F G) (gen : Bytes) (x : F) (old : Opening F) (others : List (G × G)) (msg : G → Bytes) (sh : Nat → Nat) {n : Nat}
    (q : (Fin 2 → F) × (Fin n → Fin 2 → F)) : inputSeen R gen x old others msg sh (old.blind, q) = none := by
  have := spendInput_refused R gen x old others msg (inputCoins q sh)
  unfold inputSeen
  cases h : spendInput R gen x old others msg old.blind (inputCoins q sh) with
  | ok s => rw [h] at this; simp at this
  | err e => rfl
  | panic => rfl

/-- For a fixed blinding factor, every triple that can be checked comes from equally many choices. -/
theorem inputSeen_card [Fintype F] (R : Ristretto F G) (gen : Bytes) (x : F) (hx : x ≠ 0) (old : Opening F) (others : List (G × G)) (ho : others ≠ [])
    (msg : G → Bytes) (sh : Nat → Nat) (b : F) (hb : b ≠ old.blind) (guess : Option (G × F × List (List F)) → Bool) :
    Nat.card {q : (Fin 2 → F) × (Fin (others.length + 1) → Fin 2 → F) // guess (inputSeen R gen x old others msg sh (b, q)) = true} =
      Nat.card {t : F × List (List F) // InputChecks R msg (ringOrder R gen x old others sh) (image R x) (Opening.point R gen ⟨old.value, b⟩) t.1 t.2 ∧
        guess (some (Opening.point R gen ⟨old.value, b⟩, t)) = true} * Nat.card (Fin 2 → F) := by
  obtain ⟨h1, h2, -, i, hi, h4⟩ := spendInput_exact R gen x hx old others ho msg sh b hb
  have hi : i < others.length + 1 := by
    have := (List.getElem?_eq_some_iff.1 hi).1
    simpa [ringOrder, shuffleLoop_length] using this
  choose out hout using fun q : (Fin 2 → F) × (Fin (others.length + 1) → Fin 2 → F) => h1 (inputCoins q sh).nonce (inputCoins q sh).resp
  have seen : ∀ q, inputSeen R gen x old others msg sh (b, q) = some (Opening.point R gen ⟨old.value, b⟩, (out q).c, (out q).r) := by
    intro q
    unfold inputSeen
    rw [show spendInput R gen x old others msg (b, q).1 (inputCoins (b, q).2 sh) = .ok (out q, image R x) from hout q]
  have e1 : ∀ (q : (Fin 2 → F) × (Fin (others.length + 1) → Fin 2 → F)) a (h : a < 2), (inputCoins q sh).nonce a = q.1 ⟨a, h⟩ := by
    exact fun q a h => dif_pos h
  have e2 : ∀ (q : (Fin 2 → F) × (Fin (others.length + 1) → Fin 2 → F)) j a (hj : j < others.length + 1) (h : a < 2),
      (inputCoins q sh).resp j a = q.2 ⟨j, hj⟩ ⟨a, h⟩ := by
    exact fun q j a hj h => dif_pos ⟨hj, h⟩
  rw [← Nat.card_prod]
  refine Nat.card_congr (Equiv.ofBijective (fun q => (⟨((out q.1).c, (out q.1).r), (h2 _ _).1 ⟨_, _, _, hout q.1, rfl, rfl⟩, ?_⟩, q.1.2 ⟨i, hi⟩)) ⟨?_, ?_⟩)
  · have := q.2
    rwa [seen] at this
  · rintro ⟨q, hq⟩ ⟨q', hq'⟩ h
    simp only [Prod.mk.injEq, Subtype.mk.injEq] at h
    obtain ⟨g1, g2⟩ := (h4 _ _ _ _ _ _ (hout q) (hout q')).1 h.1
    refine Subtype.ext (Prod.ext (funext fun a => ?_) (funext fun j => ?_))
    · have := g1 a.1 a.2
      rwa [e1 _ _ a.2, e1 _ _ a.2] at this
    · by_cases hj : j.1 = i
      · rw [show j = ⟨i, hi⟩ from Fin.ext hj]
        exact h.2
      · funext a
        have := g2 j.1 j.2 hj a.1 a.2
        rwa [e2 _ _ _ j.2 a.2, e2 _ _ _ j.2 a.2] at this
  · rintro ⟨⟨⟨c, r⟩, hc, hg⟩, row⟩
    obtain ⟨nonce, resp, sig, hs, rfl, rfl⟩ := (h2 c r).2 hc
    let q : (Fin 2 → F) × (Fin (others.length + 1) → Fin 2 → F) := (fun a => nonce a.1, fun j => if j.1 = i then row else fun a => resp j.1 a.1)
    have hq := (h4 _ _ _ _ _ _ (hout q) hs).2 ⟨fun a ha => by rw [e1 q a ha], fun j hj hne a ha => by rw [e2 q j a hj ha]; simp [q, hne]⟩
    refine ⟨⟨q, ?_⟩, ?_⟩
    · rw [seen, hq.1, hq.2]
      exact hg
    · refine Prod.ext (Subtype.ext (Prod.ext hq.1 hq.2)) ?_
      simp [q]

/-! ### C162 -/

/-- C162: what is published for one input. For given coin, other coins and order, the published triples of new commitment, challenge and responses are
exactly those that an observer can check with the image, with a new commitment other than the coin's. -/
theorem C162_exact (R : Ristretto F G) (hB : R.base ≠ 0) (hgen : ∀ P, ∃ y : F, P = y • R.base) (gen : Bytes) (x : F) (hx : x ≠ 0) (old : Opening F)
    (others : List (G × G)) (ho : others ≠ []) (msg : G → Bytes) (sh : Nat → Nat) (P : G) (c : F) (r : List (List F)) :
    (∃ b nonce resp sig I, P = Opening.point R gen ⟨old.value, b⟩ ∧ spendInput R gen x old others msg b ⟨nonce, resp, sh⟩ = .ok (sig, I) ∧
      sig.c = c ∧ sig.r = r) ↔
    P ≠ old.point R gen ∧ InputChecks R msg (ringOrder R gen x old others sh) (x • R.pDerive (R.pBytes (x • R.base))) P c r := by
  constructor
  · rintro ⟨b, nonce, resp, sig, I, rfl, h, e1, e2⟩
    have hb : b ≠ old.blind := by
      rintro rfl
      have := spendInput_refused R gen x old others msg ⟨nonce, resp, sh⟩
      rw [h] at this
      simp at this
    obtain ⟨-, h2, h3, -⟩ := spendInput_exact R gen x hx old others ho msg sh b hb
    obtain ⟨rfl, -⟩ := h3 _ _ _ _ h
    refine ⟨fun e => ?_, (h2 c r).1 ⟨nonce, resp, sig, h, e1, e2⟩⟩
    exact hb (point_inj R hB gen old.value e)
  · rintro ⟨hP, h⟩
    obtain ⟨y, hy⟩ := hgen (P - Opening.point R gen ⟨old.value, 0⟩)
    have e : P = Opening.point R gen ⟨old.value, y⟩ := by
      have := point_sub R gen old.value y 0
      rw [sub_zero, ← hy] at this
      exact (sub_left_inj.1 this).symm
    have hb : y ≠ old.blind := by rintro rfl; exact hP e
    obtain ⟨nonce, resp, sig, h1, h2⟩ := ((spendInput_exact R gen x hx old others ho msg sh y hb).2.1 c r).2 (e ▸ h)
    exact ⟨y, nonce, resp, sig, _, e, h1, h2⟩

/-- C162: every published triple comes from one new blinding factor and one choice of the nonces and of the responses of the other members, so with
uniform choices all of them are equally likely. -/
theorem C162_unique (R : Ristretto F G) (hB : R.base ≠ 0) (gen : Bytes) (x : F) (hx : x ≠ 0) (old : Opening F) (others : List (G × G))
    (ho : others ≠ []) (msg : G → Bytes) (sh : Nat → Nat) (b b' : F) (nonce nonce' : Nat → F) (resp resp' : Nat → Nat → F) (sig sig' : Signature F G)
    (I I' : G) (h : spendInput R gen x old others msg b ⟨nonce, resp, sh⟩ = .ok (sig, I))
    (h' : spendInput R gen x old others msg b' ⟨nonce', resp', sh⟩ = .ok (sig', I')) :
    I = I' ∧ ∃ i, (ringOrder R gen x old others sh)[i]? = some (x • R.base, old.point R gen) ∧
    (Opening.point R gen ⟨old.value, b⟩ = Opening.point R gen ⟨old.value, b'⟩ ∧ sig.c = sig'.c ∧ sig.r = sig'.r ↔
      b = b' ∧ (∀ a < 2, nonce a = nonce' a) ∧ ∀ j < others.length + 1, j ≠ i → ∀ a < 2, resp j a = resp' j a) := by
  have ne : ∀ {b : F} {nonce resp} {s : Signature F G × G}, spendInput R gen x old others msg b ⟨nonce, resp, sh⟩ = .ok s → b ≠ old.blind := by
    rintro b nonce resp s h rfl
    have := spendInput_refused R gen x old others msg ⟨nonce, resp, sh⟩
    rw [h] at this
    simp at this
  obtain ⟨-, -, h3, i, hi, h4⟩ := spendInput_exact R gen x hx old others ho msg sh b (ne h)
  obtain ⟨rfl, -⟩ := h3 _ _ _ _ h
  obtain ⟨rfl, -⟩ := (spendInput_exact R gen x hx old others ho msg sh b' (ne h')).2.2.1 _ _ _ _ h'
  refine ⟨rfl, i, hi, ?_⟩
  constructor
  · rintro ⟨e, e2⟩
    obtain rfl := point_inj R hB gen old.value e
    exact ⟨rfl, (h4 _ _ _ _ _ _ h h').1 e2⟩
  · rintro ⟨rfl, e⟩
    exact ⟨rfl, (h4 _ _ _ _ _ _ h h').2 e⟩

/-- C162: an input never fails if the blinding factor is another one, and what it shows besides: the image, and the ring in this order. -/
theorem C162_shown (R : Ristretto F G) (gen : Bytes) (x : F) (hx : x ≠ 0) (old : Opening F) (others : List (G × G)) (ho : others ≠ [])
    (msg : G → Bytes) (b : F) (hb : b ≠ old.blind) (coins : Coins F) :
    ∃ sig, spendInput R gen x old others msg b coins = .ok (sig, x • R.pDerive (R.pBytes (x • R.base))) ∧
      sig.msg = msg (Opening.point R gen ⟨old.value, b⟩) ∧
      sig.pubKeys.map (·.keys) = (ringOrder R gen x old others coins.shuffle).map fun k => [k.1, k.2 - Opening.point R gen ⟨old.value, b⟩] := by
  obtain ⟨h1, -, h3, -⟩ := spendInput_exact R gen x hx old others ho msg coins.shuffle b hb
  obtain ⟨sig, h⟩ := h1 coins.nonce coins.resp
  exact ⟨sig, h, (h3 _ _ _ _ h).2⟩

/-- C162: so which coin of the ring is spent, its value and its blinding factor do not matter. Two spenders of coins in the same ring, with the same order
and the same image, publish the same triples, up to those whose new commitment is one of the two coins' commitments. -/
theorem C162_same (R : Ristretto F G) (hB : R.base ≠ 0) (hgen : ∀ P, ∃ y : F, P = y • R.base) (gen : Bytes) (msg : G → Bytes) (x x' : F) (hx : x ≠ 0)
    (hx' : x' ≠ 0) (old old' : Opening F) (others others' : List (G × G)) (ho : others ≠ []) (ho' : others' ≠ []) (sh sh' : Nat → Nat)
    (hI : x • R.pDerive (R.pBytes (x • R.base)) = x' • R.pDerive (R.pBytes (x' • R.base)))
    (hr : ringOrder R gen x old others sh = ringOrder R gen x' old' others' sh') (P : G) (hP : P ≠ old.point R gen) (hP' : P ≠ old'.point R gen)
    (c : F) (r : List (List F)) :
    (∃ b nonce resp sig I, P = Opening.point R gen ⟨old.value, b⟩ ∧ spendInput R gen x old others msg b ⟨nonce, resp, sh⟩ = .ok (sig, I) ∧
      sig.c = c ∧ sig.r = r) ↔
    ∃ b nonce resp sig I, P = Opening.point R gen ⟨old'.value, b⟩ ∧ spendInput R gen x' old' others' msg b ⟨nonce, resp, sh'⟩ = .ok (sig, I) ∧
      sig.c = c ∧ sig.r = r := by
  rw [C162_exact R hB hgen gen x hx old others ho msg sh, C162_exact R hB hgen gen x' hx' old' others' ho' msg sh', hI, hr]
  simp [hP, hP']

/-- C162: an observer that sees the new commitment, the challenge and the responses, or that nothing is published, tells the two spenders apart with
probability at most `1 / |F|`. -/
theorem C162_chance [Fintype F] (R : Ristretto F G) (hgen : ∀ P, ∃ y : F, P = y • R.base) (gen : Bytes) (msg : G → Bytes) (x x' : F)
    (hx : x ≠ 0) (hx' : x' ≠ 0) (old old' : Opening F) (others others' : List (G × G)) (ho : others ≠ []) (sh sh' : Nat → Nat)
    (hI : x • R.pDerive (R.pBytes (x • R.base)) = x' • R.pDerive (R.pBytes (x' • R.base)))
    (hr : ringOrder R gen x old others sh = ringOrder R gen x' old' others' sh') (guess : Option (G × F × List (List F)) → Bool) :
    |(chance fun p : InputCoins (others.length + 1) F => guess (inputSeen R gen x old others msg sh p) = true) -
      chance fun p : InputCoins (others.length + 1) F => guess (inputSeen R gen x' old' others' msg sh' p) = true| ≤ 1 / Fintype.card F := by
  have hl : others.length = others'.length := by
    have := congrArg List.length hr
    simpa [ringOrder, shuffleLoop_length] using this
  have ho' : others' ≠ [] := by rintro rfl; exact ho (List.length_eq_zero_iff.1 hl)
  rw [hl]
  obtain ⟨t, ht⟩ := hgen (Opening.point R gen ⟨old.value, 0⟩ - Opening.point R gen ⟨old'.value, 0⟩)
  have hpt : ∀ b, Opening.point R gen ⟨old.value, b⟩ = Opening.point R gen ⟨old'.value, b + t⟩ := by
    intro b
    have a1 := point_sub R gen old.value b 0
    have a2 := point_sub R gen old'.value (b + t) 0
    rw [sub_zero, add_smul, ← ht] at a2
    rw [sub_zero] at a1
    rw [← a1] at a2
    have := sub_eq_iff_eq_add.1 a2
    rw [this]
    abel
  set A : F → ℚ := fun b => chance fun q : (Fin 2 → F) × (Fin (others'.length + 1) → Fin 2 → F) => guess (inputSeen R gen x old others msg sh (b, q)) = true
  set A' : F → ℚ := fun b => chance fun q : (Fin 2 → F) × (Fin (others'.length + 1) → Fin 2 → F) =>
    guess (inputSeen R gen x' old' others' msg sh' (b + t, q)) = true
  have hA : (chance fun p : InputCoins (others'.length + 1) F => guess (inputSeen R gen x old others msg sh p) = true) = (∑ b, A b) / Fintype.card F :=
    chance_prod fun p : InputCoins (others'.length + 1) F => guess (inputSeen R gen x old others msg sh p)
  have hA' : (chance fun p : InputCoins (others'.length + 1) F => guess (inputSeen R gen x' old' others' msg sh' p) = true) =
      (∑ b, A' b) / Fintype.card F := by
    rw [← chance_congr ((Equiv.addRight t).prodCongr (Equiv.refl ((Fin 2 → F) × (Fin (others'.length + 1) → Fin 2 → F))))]
    exact chance_prod fun p : InputCoins (others'.length + 1) F => guess (inputSeen R gen x' old' others' msg sh' (p.1 + t, p.2))
  have hpos : (0 : ℚ) < Fintype.card F := by exact_mod_cast Fintype.card_pos
  have bound : ∀ {α : Type} [Finite α] (P : α → Prop), 0 ≤ chance P ∧ chance P ≤ 1 := by
    intro α _ P
    refine ⟨by unfold chance; positivity, ?_⟩
    unfold chance
    exact div_le_one_of_le₀ (by exact_mod_cast Nat.card_le_card_of_injective _ Subtype.val_injective) (by positivity)
  -- equal where both publish
  have hsame : ∀ b, b ≠ old.blind → b + t ≠ old'.blind → A b = A' b := by
    intro b h1 h2
    have c1 := inputSeen_card R gen x hx old others ho msg sh b h1 guess
    have c2 := inputSeen_card R gen x' hx' old' others' ho' msg sh' (b + t) h2 guess
    rw [hl] at c1
    simp only [A, A', chance]
    rw [c1, c2, ← hpt b, hr]
    have : image R x = image R x' := hI
    rw [this]
  have hnone : A old.blind = chance fun _ : (Fin 2 → F) × (Fin (others'.length + 1) → Fin 2 → F) => guess none = true := by
    simp only [A, inputSeen_none]
  have hnone' : ∀ b, b + t = old'.blind → A' b = chance fun _ : (Fin 2 → F) × (Fin (others'.length + 1) → Fin 2 → F) => guess none = true := by
    intro b hb
    simp only [A', hb, inputSeen_none]
  have hsum : |∑ b, A b - ∑ b, A' b| ≤ 1 := by
    rw [← Finset.sum_sub_distrib]
    by_cases h : old.blind + t = old'.blind
    · rw [Finset.sum_eq_zero, abs_zero]
      · norm_num
      intro b _
      by_cases hb : b = old.blind
      · rw [hb, hnone, hnone' _ h, sub_self]
      · rw [hsame b hb (fun g => hb (add_right_cancel (g.trans h.symm))), sub_self]
    · have hne : old.blind ≠ old'.blind - t := fun g => h (by rw [g]; abel)
      rw [Fintype.sum_eq_add old.blind (old'.blind - t) hne, hnone, hnone' (old'.blind - t) (by abel)]
      · have b1 := bound fun q : (Fin 2 → F) × (Fin (others'.length + 1) → Fin 2 → F) => guess (inputSeen R gen x' old' others' msg sh' (old.blind + t, q)) = true
        have b2 := bound fun q : (Fin 2 → F) × (Fin (others'.length + 1) → Fin 2 → F) => guess (inputSeen R gen x old others msg sh (old'.blind - t, q)) = true
        rw [abs_le]
        constructor <;> simp only [A, A'] <;> linarith [b1.1, b1.2, b2.1, b2.2]
      · rintro b ⟨g1, g2⟩
        rw [hsame b g1 (fun g => g2 (by rw [← g]; abel)), sub_self]
  rw [hA, hA', ← sub_div, abs_div, abs_of_pos hpos]
  gcongr

/-- C162 (violated): Expected: the new commitment says nothing about the coin that is spent. But it is never the commitment of this coin, while it can be that of
any other coin of the ring, and then shows that this one is not spent. -/
theorem C162_commitment_violated (R : Ristretto F G) (hB : R.base ≠ 0) (hgen : ∀ P, ∃ y : F, P = y • R.base) (gen : Bytes) (x : F) (hx : x ≠ 0)
    (old : Opening F) (others : List (G × G)) (ho : others ≠ []) (msg : G → Bytes) (sh : Nat → Nat) :
    (∀ b coins sig I, spendInput R gen x old others msg b coins = .ok (sig, I) → Opening.point R gen ⟨old.value, b⟩ ≠ old.point R gen) ∧
    ∀ k ∈ others, k.2 ≠ old.point R gen → ∃ b nonce resp sig I, Opening.point R gen ⟨old.value, b⟩ = k.2 ∧
      spendInput R gen x old others msg b ⟨nonce, resp, sh⟩ = .ok (sig, I) ∧ sig.verify R [I] = .ok true ∧ ∃ m ∈ sig.pubKeys, m.keys = [k.1, 0] := by
  constructor
  · intro b coins sig I h
    exact ((C162_exact R hB hgen gen x hx old others ho msg coins.shuffle _ sig.c sig.r).1 ⟨b, coins.nonce, coins.resp, sig, I, rfl, h, rfl, rfl⟩).1
  · intro k hk hne
    obtain ⟨y, hy⟩ := hgen (k.2 - Opening.point R gen ⟨old.value, 0⟩)
    have e : Opening.point R gen ⟨old.value, y⟩ = k.2 := by
      have := point_sub R gen old.value y 0
      rw [sub_zero, ← hy] at this
      exact sub_left_inj.1 this
    have hb : y ≠ old.blind := by rintro rfl; exact hne e.symm
    obtain ⟨d, sig, I, h1, h2, -, h4, -, h5⟩ := C151_honest R gen x old ⟨old.value, y⟩ others (msg (Opening.point R gen ⟨old.value, y⟩))
      ⟨fun _ => 0, fun _ _ => 0, sh⟩ hx rfl hb.symm ho
    refine ⟨y, _, _, sig, I, e, by unfold spendInput; rw [h1]; exact h2, h4, ?_⟩
    have : [k.1, (0 : G)] ∈ sig.pubKeys.map PubKeys.keys := by
      rw [h5.mem_iff]
      exact List.mem_map.2 ⟨k, by simp [hk], by rw [e, sub_self]⟩
    obtain ⟨m, hm, e⟩ := List.mem_map.1 this
    exact ⟨m, hm, e⟩

/-! ### Examples -/

/-- Every element of the example group is a multiple of its base. -/
theorem toy_generated (P : Toy.K) : ∃ y : Toy.K, P = y • Toy.ris.base := ⟨P, by simp [Toy.ris]⟩

/-- Two coins with the same key, of the values 7 and 5, and a coin of somebody else. The holder spends the one or the other. -/
theorem toy_orders : ringOrder Toy.ris [1] 3 ⟨7, 100⟩ [(11, 12), ((3 : Toy.K) • Toy.ris.base, Opening.point Toy.ris [1] ⟨5, 200⟩)] (fun i => i) =
    ringOrder Toy.ris [1] 3 ⟨5, 200⟩ [(11, 12), ((3 : Toy.K) • Toy.ris.base, Opening.point Toy.ris [1] ⟨7, 100⟩)] (fun i => if i = 2 then 1 else i) := rfl

example (guess : Option (Toy.K × Toy.K × List (List Toy.K)) → Bool) (msg : Toy.K → Bytes) :
    |(chance fun p : InputCoins 3 Toy.K => guess (inputSeen Toy.ris [1] 3 ⟨7, 100⟩
        [(11, 12), ((3 : Toy.K) • Toy.ris.base, Opening.point Toy.ris [1] ⟨5, 200⟩)] msg (fun i => i) p) = true) -
      chance fun p : InputCoins 3 Toy.K => guess (inputSeen Toy.ris [1] 3 ⟨5, 200⟩
        [(11, 12), ((3 : Toy.K) • Toy.ris.base, Opening.point Toy.ris [1] ⟨7, 100⟩)] msg (fun i => if i = 2 then 1 else i) p) = true| ≤
      1 / Fintype.card Toy.K :=
  C162_chance Toy.ris toy_generated [1] msg 3 3 (by decide +kernel) (by decide +kernel) ⟨7, 100⟩ ⟨5, 200⟩ _ _ (by simp) _ _ rfl
    toy_orders guess

/-- The triples are the same for a new commitment that is none of the two. -/
example (msg : Toy.K → Bytes) (c : Toy.K) (r : List (List Toy.K)) :=
  C162_same Toy.ris (by decide +kernel) toy_generated [1] msg 3 3 (by decide +kernel) (by decide +kernel) ⟨7, 100⟩ ⟨5, 200⟩ _ _ (by simp) (by simp) _ _ rfl
    toy_orders (Opening.point Toy.ris [1] ⟨7, 10⟩) (by decide +kernel) (by decide +kernel) c r

example (msg : Toy.K → Bytes) (coins : Coins Toy.K) :
    ∃ sig, spendInput Toy.ris [1] 3 ⟨7, 100⟩ [(11, 12), (13, 14)] msg 10 coins = .ok (sig, (3 : Toy.K) • Toy.ris.pDerive (Toy.ris.pBytes ((3 : Toy.K) • Toy.ris.base))) ∧
      InputChecks Toy.ris msg (ringOrder Toy.ris [1] 3 ⟨7, 100⟩ [(11, 12), (13, 14)] coins.shuffle)
        ((3 : Toy.K) • Toy.ris.pDerive (Toy.ris.pBytes ((3 : Toy.K) • Toy.ris.base))) (Opening.point Toy.ris [1] ⟨7, 10⟩) sig.c sig.r := by
  obtain ⟨sig, h, -⟩ := C162_shown Toy.ris [1] 3 (by decide +kernel) ⟨7, 100⟩ [(11, 12), (13, 14)] (by simp) msg 10 (by decide +kernel) coins
  exact ⟨sig, h, ((C162_exact Toy.ris (by decide +kernel) toy_generated [1] 3 (by decide +kernel) ⟨7, 100⟩ [(11, 12), (13, 14)] (by simp) msg coins.shuffle
    _ sig.c sig.r).1 ⟨10, coins.nonce, coins.resp, sig, _, rfl, h, rfl, rfl⟩).2⟩

/-- Another nonce, another signature. -/
example (msg : Toy.K → Bytes) (resp : Nat → Nat → Toy.K) (sh : Nat → Nat) (sig sig' : Signature Toy.K Toy.K) (I I' : Toy.K)
    (h : spendInput Toy.ris [1] 3 ⟨7, 100⟩ [(11, 12)] msg 10 ⟨fun _ => 0, resp, sh⟩ = .ok (sig, I))
    (h' : spendInput Toy.ris [1] 3 ⟨7, 100⟩ [(11, 12)] msg 10 ⟨fun _ => 1, resp, sh⟩ = .ok (sig', I')) : ¬ (sig.c = sig'.c ∧ sig.r = sig'.r) := by
  obtain ⟨-, i, -, e⟩ := C162_unique Toy.ris (by decide +kernel) [1] 3 (by decide +kernel) ⟨7, 100⟩ [(11, 12)] (by simp) msg sh 10 10 _ _ _ _ sig sig' I I' h h'
  exact fun g => zero_ne_one ((e.1 ⟨rfl, g⟩).2.1 0 (by norm_num))

/-- A new commitment that is the one of the other coin. -/
example (msg : Toy.K → Bytes) (sh : Nat → Nat) : ∃ b nonce resp sig I, Opening.point Toy.ris [1] ⟨7, b⟩ = (12 : Toy.K) ∧
    spendInput Toy.ris [1] 3 ⟨7, 100⟩ [(11, 12)] msg b ⟨nonce, resp, sh⟩ = .ok (sig, I) ∧ sig.verify Toy.ris [I] = .ok true ∧
      ∃ m ∈ sig.pubKeys, m.keys = [11, 0] :=
  (C162_commitment_violated Toy.ris (by decide +kernel) toy_generated [1] 3 (by decide +kernel) ⟨7, 100⟩ [(11, 12)] (by simp) msg sh).2 (11, 12) (by simp)
    (by decide +kernel)

end Dusk.Mlsag
