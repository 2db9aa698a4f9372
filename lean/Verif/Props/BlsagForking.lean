import Verif.Props.BlsagLink
import Verif.Props.MlsagForking
/-!
# bLSAG signatures need a secret key, for rings of published keys
-/

set_option linter.unusedSectionVars false

namespace Dusk.Blsag

variable {F G P : Type} [Field F] [AddCommGroup G] [Module F G] [DecidableEq F]

/-- The attacker forges: `Verify`, with the hash function that the game has fixed, accepts its signature for a ring of at most `n`
published keys. -/
structure Linker.Forges (A : Linker F G) (R : Ristretto F G) (V : Raw F G P) (pub : Finset G) (Q n : Nat) (coins : List F)
    (m : Bytes) (I : G) (c : F) (ring : List (G × F)) : Prop where
  output : A.out ((A.game R Q coins).take Q) = (m, I, c, ring)
  accepted : verify (Mlsag.withHash R (A.game R Q coins).hash) V m ⟨V.inj I, c, ring.map (·.2), ring.map fun x => V.inj x.1⟩ = .ok true
  size : ring.length ≤ n
  published : ∀ k ∈ ring, k.1 ∈ pub

/-- The key, response and challenge of each step of `Verify`. -/
def Linker.visited (A : Linker F G) (R : Ristretto F G) (Q : Nat) (coins : List F) : List ((G × F) × F) :=
  (A.vec.visited R Q coins).map fun x => ((x.1.1.getD 0 0, x.1.2.getD 0 0), x.2)

/-- The scalar computed from two steps; `a K` is known about the key `K`. -/
def crack (a : G → F) (x y : (G × F) × F) : F := (y.1.2 - x.1.2 + y.2 * a y.1.1 - x.2 * a x.1.1) / (x.2 - y.2)

theorem ringOf_vec (m : Bytes) (c : F) (ring : List (G × F)) :
    Mlsag.ringOf (⟨c, ring.map fun x => [x.2], ring.map fun x => ⟨true, [x.1]⟩, m⟩ : Mlsag.Signature F G) = ringVec ring := by
  unfold Mlsag.ringOf ringVec
  rw [List.map_map, List.zip_map', List.map_congr_left]
  intros; rfl

/-- A forgery is one for the attacker against vectors of one key. -/
theorem Linker.Forges.vec {A : Linker F G} {R : Ristretto F G} {V : Raw F G P} (hV : V.Lawful R) {pub : Finset G} {Q n : Nat}
    {coins : List F} {m : Bytes} {I : G} {c : F} {ring : List (G × F)} [DecidableEq G] (hw : A.Forges R V pub Q n coins m I c ring) :
    A.vec.Forges R (pub.image fun k => [k]) 1 Q n coins
      ⟨c, ring.map fun x => [x.2], ring.map fun x => ⟨true, [x.1]⟩, m⟩ [I] := by
  have hout : A.out ((A.vec.game R Q coins).take Q) = (m, I, c, ring) := hw.output
  have hacc := hw.accepted
  have hne : ring ≠ [] := by
    rintro rfl
    simp [verify, verifyLoop, checkLoop, idx, Res.bind] at hacc
  have hring := ringOf_vec m c ring
  have hfits : Mlsag.Fits [I] (ringVec ring) := by
    intro k hk
    obtain ⟨a, -, rfl⟩ := List.mem_map.1 hk
    simp
  rw [verify_group (R := Mlsag.withHash R (A.game R Q coins).hash) ⟨hV.smulBase, hV.smul, hV.add, hV.bytes, hV.derive⟩ m I c
    ring hne] at hacc
  refine ⟨?_, ?_, by simpa using hw.size, ?_, rfl⟩
  · simp only [Linker.vec] at hout ⊢
    rw [hout]
  · by_cases h1 : ring.length = 1
    · refine (Mlsag.C17_single _ _ _ (by simpa using h1) (by simp) (by simp) (by rw [hring]; exact hfits)).2 ?_
      rw [hring]
      show Mlsag.around _ m _ _ c = c
      unfold Mlsag.around at hacc ⊢
      rw [List.foldl_append, show A.vec.game R Q coins = A.game R Q coins from rfl, hacc, hacc]
    · have := List.length_pos_iff.2 hne
      refine (Mlsag.C17_verify _ _ _ (by simp; omega) (by simp) (by simp) (by rw [hring]; exact hfits)).1.2 ?_
      rw [hring]
      exact hacc
  · intro k hk
    obtain ⟨a, ha, rfl⟩ := List.mem_map.1 hk
    exact Finset.mem_image.2 ⟨a.1, hw.published a ha, rfl⟩

/-- What holds for all successful runs holds for some of them. -/
theorem fewer {q W W' L S N : Nat} (hW : W' ≤ W) (h : q * W ^ 2 ≤ L * (q * S + W * N)) : q * W' ^ 2 ≤ L * (q * S + W' * N) := by
  rcases Nat.le_total (q * W') (L * N) with h1 | h1
  · have h2 : q * W' * W' ≤ L * N * W' := Nat.mul_le_mul_right _ h1
    have h3 : 0 ≤ L * (q * S) := Nat.zero_le _
    nlinarith
  · obtain ⟨k, rfl⟩ := Nat.exists_eq_add_of_le hW
    obtain ⟨d, hd⟩ := Nat.exists_eq_add_of_le h1
    -- `q W² - L W N` grows with `W`
    have h2 : q * (W' + k) ^ 2 = q * W' ^ 2 + (L * N + d) * k + q * W' * k + q * k ^ 2 := by rw [← hd]; ring
    have h3 : L * (q * S + (W' + k) * N) = L * (q * S + W' * N) + L * N * k := by ring
    rw [h2, h3] at h
    have h4 : (L * N + d) * k = L * N * k + d * k := by ring
    have : 0 ≤ d * k + q * W' * k + q * k ^ 2 := Nat.zero_le _
    omega

/-- C113: bLSAG signatures cannot be forged for rings of published keys unless discrete logarithms can be computed. The published keys are
`Y + a G` with known `a`. The hash to scalars answers with uniformly random scalars; the attacker asks `Q` questions, then chooses message, ring
(among the published keys, of at most `n` members) and image. If it succeeds with probability `ε`, then rerunning it once with fresh
coins from each point `t` on gives the discrete logarithm of `Y` with probability at least `ε² / (Q + n)² - ε / |F|`. -/
theorem C113_unforgeable [Fintype F] {R : Ristretto F G} {V : Raw F G P} (hV : V.Lawful R) (E : R.Encodings) (A : Linker F G)
    (pub : Finset G) (Q n : Nat) (hn : 2 ≤ n) (Y : G) (a : G → F) (hpub : ∀ K ∈ pub, K = Y + a K • R.base) :
    Fintype.card F * Nat.card {coins : Fin (Q + n) → F // ∃ m I c ring, A.Forges R V pub Q n (List.ofFn coins) m I c ring} ^ 2 ≤
      (Q + n) ^ 2 * (Fintype.card F * Nat.card {p : (Fin (Q + n) → F) × (Fin (Q + n) → F) // ∃ t : Fin (Q + n),
          ∃ x ∈ A.visited R Q (List.ofFn p.1), ∃ y ∈ A.visited R Q (List.ofFn (Oracle.rewind t p.1 p.2)),
            crack a x y • R.base = Y} +
        Nat.card {coins : Fin (Q + n) → F // ∃ m I c ring, A.Forges R V pub Q n (List.ofFn coins) m I c ring} *
          Fintype.card F ^ (Q + n)) := by
  classical
  have h := Mlsag.C112_unforgeable E A.vec (pub.image fun k => [k]) 1 1 Q n hn (fun _ => Y) (fun K _ => a (K.getD 0 0)) (by
    intro K hK
    obtain ⟨k, hk, rfl⟩ := Finset.mem_image.1 hK
    refine ⟨rfl, fun j hj => ?_⟩
    obtain rfl : j = 0 := by omega
    exact hpub k hk)
  have hS : Nat.card {p : (Fin (Q + n) → F) × (Fin (Q + n) → F) // ∃ t : Fin (Q + n),
          ∃ x ∈ A.vec.visited R Q (List.ofFn p.1), ∃ y ∈ A.vec.visited R Q (List.ofFn (Oracle.rewind t p.1 p.2)),
            ∀ j < 1, Mlsag.crack (fun K _ => a (K.getD 0 0)) x y j • R.base = Y} ≤
      Nat.card {p : (Fin (Q + n) → F) × (Fin (Q + n) → F) // ∃ t : Fin (Q + n),
          ∃ x ∈ A.visited R Q (List.ofFn p.1), ∃ y ∈ A.visited R Q (List.ofFn (Oracle.rewind t p.1 p.2)),
            crack a x y • R.base = Y} := by
    refine Nat.card_le_card_of_injective (fun p => ⟨p.1, ?_⟩) fun x y h => Subtype.ext (by simpa using h)
    obtain ⟨t, x, hx, y, hy, hc⟩ := p.2
    exact ⟨t, _, List.mem_map.2 ⟨x, hx, rfl⟩, _, List.mem_map.2 ⟨y, hy, rfl⟩, hc 0 Nat.one_pos⟩
  refine fewer ?_ (h.trans (Nat.mul_le_mul_left _ (Nat.add_le_add_right (Nat.mul_le_mul_left _ hS) _)))
  refine Nat.card_le_card_of_injective (fun x => ⟨x.1, ?_⟩) fun x y h => Subtype.ext (by simpa using h)
  obtain ⟨coins, m, I, c, ring, hw⟩ := x
  exact ⟨_, _, hw.vec hV⟩

/-! ### A concrete attacker: the holder of a key -/

/-- Sign for a ring of two copies of the own key. -/
def owner (R : Ristretto F G) (m : Bytes) (x l : F) : Linker F G where
  next _ := Mlsag.ownQuery R m x l
  out log := (m, keyImage R x, log.hash (Mlsag.ownQuery R m x l),
    List.replicate 2 (x • R.base, l - log.hash (Mlsag.ownQuery R m x l) * x))

theorem owner_forges {R : Ristretto F G} {V : Raw F G P} (hV : V.Lawful R) (msg : Bytes) (x l : F) (a : F) (coins : List F) :
    ∃ m I c ring, (owner R msg x l).Forges R V {x • R.base} 1 2 (a :: coins) m I c ring := by
  obtain ⟨A, hA⟩ : ∃ A, A = owner R msg x l := ⟨_, rfl⟩
  have htake : (A.game R 1 (a :: coins)).take 1 = [(Mlsag.ownQuery R msg x l, a)] := by
    unfold Linker.game Mlsag.Linker.game
    rw [← Oracle.play_take]
    simp [Oracle.play, Oracle.Log.ask, Mlsag.Linker.question, Linker.vec, hA, owner]
  have hlook : (A.game R 1 (a :: coins)).lookup (Mlsag.ownQuery R msg x l) = some a := by
    refine Oracle.lookup_take (t := 1) ?_
    rw [htake]
    simp
  refine ⟨msg, keyImage R x, a, List.replicate 2 (x • R.base, l - a * x), ?_⟩
  rw [← hA]
  refine ⟨?_, ?_, by simp, by simp⟩
  · rw [htake, hA]
    simp [owner, Oracle.Log.hash]
  · refine (verify_group (R := Mlsag.withHash R (A.game R 1 (a :: coins)).hash) ⟨hV.smulBase, hV.smul, hV.add, hV.bytes, hV.derive⟩ msg _ a
      (List.replicate 2 (x • R.base, l - a * x)) (by simp)).2 ?_
    have hl : Mlsag.link (Mlsag.withHash R (A.game R 1 (a :: coins)).hash) msg [keyImage R x] [x • R.base] [l - a * x] a = a := by
      show (A.game R 1 (a :: coins)).hash (Mlsag.query R msg [Mlsag.image R x] [x • R.base] [l - a * x] a) = a
      rw [Mlsag.own_query, Oracle.Log.hash, hlook]
      rfl
    simp only [ringVec, List.replicate_succ, List.replicate_zero, List.map_cons, List.map_nil, Mlsag.around, List.foldl_cons, List.foldl_nil]
    rw [hl, hl]

theorem owner_cracked [Fintype F] {R : Ristretto F G} {V : Raw F G P} (hV : V.Lawful R) (E : R.Encodings) (msg : Bytes) (x l : F) :
    Fintype.card F * (Fintype.card F ^ 3) ^ 2 ≤
      9 * (Fintype.card F * Nat.card {p : (Fin 3 → F) × (Fin 3 → F) // ∃ t : Fin 3,
          ∃ y ∈ (owner R msg x l).visited R 1 (List.ofFn p.1), ∃ z ∈ (owner R msg x l).visited R 1 (List.ofFn (Oracle.rewind t p.1 p.2)),
            crack (fun _ => 0) y z • R.base = x • R.base} + Fintype.card F ^ 3 * Fintype.card F ^ 3) := by
  classical
  have h := C113_unforgeable hV E (owner R msg x l) {x • R.base} 1 2 le_rfl (x • R.base) (fun _ => 0) (by
    intro K hK
    rw [Finset.mem_singleton.1 hK]
    simp)
  have hW : Nat.card {coins : Fin (1 + 2) → F // ∃ m I c ring, (owner R msg x l).Forges R V {x • R.base} 1 2 (List.ofFn coins) m I c ring} =
      Fintype.card F ^ 3 := by
    have : ∀ coins : Fin (1 + 2) → F, ∃ m I c ring, (owner R msg x l).Forges R V {x • R.base} 1 2 (List.ofFn coins) m I c ring := by
      intro coins
      rw [List.ofFn_succ]
      exact owner_forges hV msg x l _ _
    rw [Nat.card_congr (Equiv.subtypeUnivEquiv this), Nat.card_eq_fintype_card]
    simp
  rw [hW] at h
  exact h

/-- The rerun succeeds for some coins, for every key `x` and nonce `l`. -/
theorem owner_found (x l : Toy.K) : 0 < Nat.card {p : (Fin 3 → Toy.K) × (Fin 3 → Toy.K) // ∃ t : Fin 3,
    ∃ y ∈ (owner Toy.ris [1, 2] x l).visited Toy.ris 1 (List.ofFn p.1),
    ∃ z ∈ (owner Toy.ris [1, 2] x l).visited Toy.ris 1 (List.ofFn (Oracle.rewind t p.1 p.2)),
      crack (fun _ => 0) y z • Toy.ris.base = x • Toy.ris.base} := by
  have h := owner_cracked toyRaw_lawful Toy.ris_encodings [1, 2] x l
  rw [Nat.pos_iff_ne_zero]
  intro h0
  rw [h0] at h
  have hc : Fintype.card Toy.K = PrimeEll.ell := ZMod.card _
  have hl : 2 ^ 64 < Fintype.card Toy.K := by rw [hc]; exact PrimeEll.two64_lt_ell
  have hpos : 0 < Fintype.card Toy.K ^ 3 := by positivity
  generalize Fintype.card Toy.K = q at *
  generalize q ^ 3 = N at *
  have : 2 ^ 64 * N ^ 2 ≤ q * N ^ 2 := Nat.mul_le_mul_right _ hl.le
  nlinarith

end Dusk.Blsag
