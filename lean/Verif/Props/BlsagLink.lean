import Verif.Props.MlsagLink
import Verif.Props.BlsagForge
/-!
# Whose key image an accepted bLSAG signature carries (C111)
-/

set_option linter.unusedSectionVars false

namespace Dusk.Blsag

variable {F G P : Type} [Field F] [AddCommGroup G] [Module F G] [DecidableEq F]

/-- The key image of a secret key. -/
def keyImage (R : Ristretto F G) (x : F) : G := x • R.pDerive (R.pBytes (x • R.base))

/-- The ring as a ring of one-element vectors. -/
def ringVec (ring : List (G × F)) : List (List G × List F) := ring.map fun x => ([x.1], [x.2])

theorem glink_eq (R : Ristretto F G) (m : Bytes) (I K : G) (s c : F) : glink R m I K s c = Mlsag.link R m [I] [K] [s] c := by
  simp [glink, Mlsag.link, Mlsag.query]

theorem fold_eq (R : Ristretto F G) (m : Bytes) (I : G) (ring : List (G × F)) (c : F) :
    ring.foldl (fun c x => glink R m I x.1 x.2 c) c = Mlsag.around R m [I] (ringVec ring) c := by
  unfold Mlsag.around ringVec
  rw [List.foldl_map]
  congr 1
  funext c x
  exact glink_eq R m I x.1 x.2 c

/-- Verification of a ring of group elements. -/
theorem verify_group {R : Ristretto F G} {V : Raw F G P} (hV : V.Lawful R) (m : Bytes) (I : G) (c : F) (ring : List (G × F))
    (hn : ring ≠ []) :
    verify R V m ⟨V.inj I, c, ring.map (·.2), ring.map fun x => V.inj x.1⟩ = .ok true ↔ Mlsag.around R m [I] (ringVec ring) c = c := by
  rw [verify_eq R V m _ (by simpa using hn) (by simp)]
  dsimp only
  have e : ((ring.map fun x => V.inj x.1).zip (ring.map (·.2))) = ring.map fun x => (V.inj x.1, x.2) := by
    rw [List.zip_map', List.map_congr_left]
    intros; rfl
  rw [e, C32_group hV, fold_eq]
  simp

/-- C111 (violated): Expected: the key image of an accepted signature is the image of a member of its ring. The image is not an input of
the hash: with a nonce `l` and any point `d`, and the challenge `c = Hs(m, l G, l Hp(K) + d)`, the holder of `x` gets a signature that is
accepted with the image `x Hp(K) + d / c`, for the ring of any number of copies of `K = x G`. -/
theorem C111_image_violated {R : Ristretto F G} {V : Raw F G P} (hV : V.Lawful R) (m : Bytes) (x l : F) (d : G) (n : Nat) (hn : 1 ≤ n)
    (hc : R.sDerive (m ++ R.pBytes (l • R.base) ++ R.pBytes (l • R.pDerive (R.pBytes (x • R.base)) + d)) ≠ 0) :
    ∃ c : F, c ≠ 0 ∧
      verify R V m ⟨V.inj (keyImage R x + c⁻¹ • d), c, List.replicate n (l - c * x), List.replicate n (V.inj (x • R.base))⟩ = .ok true ∧
      (d ≠ 0 → keyImage R x + c⁻¹ • d ≠ keyImage R x) := by
  generalize hcd : R.sDerive (m ++ R.pBytes (l • R.base) ++ R.pBytes (l • R.pDerive (R.pBytes (x • R.base)) + d)) = c at hc
  refine ⟨c, hc, ?_, fun hd he => ?_⟩
  · have h := verify_group hV m (keyImage R x + c⁻¹ • d) c (List.replicate n (x • R.base, l - c * x)) (by
      simp; omega)
    simp only [List.map_replicate] at h
    rw [h]
    have hl : Mlsag.link R m [keyImage R x + c⁻¹ • d] [x • R.base] [l - c * x] c = c := by
      have := Mlsag.shifted_query R m [(x, l)] [d] c hc
      simp only [List.zipWith_cons_cons, List.zipWith_nil_left, List.map_cons, List.map_nil] at this
      unfold Mlsag.link
      rw [show keyImage R x = Mlsag.image R x from rfl, this, ← hcd]
      simp [Mlsag.shiftedQuery]
    have : ∀ k, Mlsag.around R m [keyImage R x + c⁻¹ • d] (ringVec (List.replicate k (x • R.base, l - c * x))) c = c := by
      intro k
      induction k with
      | zero => rfl
      | succ k ih =>
        rw [List.replicate_succ]
        show Mlsag.around R m _ _ (Mlsag.link R m _ _ _ c) = c
        rw [hl]
        exact ih
    exact this n
  · rw [add_eq_left, smul_eq_zero] at he
    rcases he with he | he
    · exact hc (inv_eq_zero.1 he)
    · exact hd he

theorem two_images (x l d : Toy.K) (hd : d ≠ 0) : ∃ c c' im : Toy.K, im ≠ keyImage Toy.ris x ∧
    verify Toy.ris toyRaw [1] ⟨some (keyImage Toy.ris x), c, List.replicate 2 (l - c * x), List.replicate 2 (some (x • Toy.ris.base))⟩ =
      .ok true ∧
    verify Toy.ris toyRaw [1] ⟨some im, c', List.replicate 2 (l - c' * x), List.replicate 2 (some (x • Toy.ris.base))⟩ = .ok true := by
  obtain ⟨c, -, h, -⟩ := C111_image_violated toyRaw_lawful [1] x l 0 2 (by norm_num) (Toy.dv_ne_zero _)
  obtain ⟨c', -, h', h0⟩ := C111_image_violated toyRaw_lawful [1] x l d 2 (by norm_num) (Toy.dv_ne_zero _)
  rw [smul_zero, add_zero] at h
  exact ⟨c, c', _, h0 hd, h, h'⟩

/-- Two accepted signatures of one message with the secret key 3 and a ring of two copies of its key, with different images. -/
example : ∃ c c' im : Toy.K, im ≠ keyImage Toy.ris 3 ∧
    verify Toy.ris toyRaw [1] ⟨some (keyImage Toy.ris 3), c, List.replicate 2 (5 - c * 3), List.replicate 2 (some ((3 : Toy.K) • Toy.ris.base))⟩ =
      .ok true ∧
    verify Toy.ris toyRaw [1] ⟨some im, c', List.replicate 2 (5 - c' * 3), List.replicate 2 (some ((3 : Toy.K) • Toy.ris.base))⟩ = .ok true :=
  two_images 3 5 1 one_ne_zero

/-- An attacker: chooses the inputs of the hash, then a message, an image, the first challenge, and keys with responses. -/
structure Linker (F G : Type) where
  next : Oracle.Log F → Bytes
  out : Oracle.Log F → Bytes × G × F × List (G × F)

/-- The same attacker against signatures with vectors of one key. -/
def Linker.vec (A : Linker F G) : Mlsag.Linker F G where
  next := A.next
  out log := (⟨(A.out log).2.2.1, (A.out log).2.2.2.map fun x => [x.2], (A.out log).2.2.2.map fun x => ⟨true, [x.1]⟩, (A.out log).1⟩,
    [(A.out log).2.1])

/-- All questions and answers: `Q` questions of the attacker, then those of the verifier, around the ring. -/
def Linker.game (A : Linker F G) (R : Ristretto F G) (Q : Nat) (coins : List F) : Oracle.Log F := A.vec.game R Q coins

/-- The attacker wins: `Verify`, with the hash function that the game has fixed, accepts an image for a ring of at most `n` published
keys, two of them with different images, but it is the image of no member of the ring. -/
structure Linker.Wins (A : Linker F G) (R : Ristretto F G) (V : Raw F G P) (pub : Finset G) (Q n : Nat) (coins : List F)
    (m : Bytes) (I : G) (c : F) (ring : List (G × F)) : Prop where
  output : A.out ((A.game R Q coins).take Q) = (m, I, c, ring)
  accepted : verify (Mlsag.withHash R (A.game R Q coins).hash) V m ⟨V.inj I, c, ring.map (·.2), ring.map fun x => V.inj x.1⟩ = .ok true
  size : ring.length ≤ n
  published : ∀ k ∈ ring, k.1 ∈ pub
  differ : ∃ x y : F, keyImage R x ≠ keyImage R y ∧ (∃ k ∈ ring, k.1 = x • R.base) ∧ ∃ k ∈ ring, k.1 = y • R.base
  foreign : ∀ x : F, (∃ k ∈ ring, k.1 = x • R.base) → I ≠ keyImage R x

/-- C111: for rings with at least two different images, key images link signatures: with a hash to scalars that answers with uniformly
random scalars, an attacker that asks `Q` questions and chooses message, ring (among `p` published keys) and image in the end gets an
image accepted that belongs to no member with probability at most `m (p² m² + p² + 1) / |F|`, where `m = Q + n`. -/
theorem C111_linkable [Fintype F] {R : Ristretto F G} {V : Raw F G P} (hV : V.Lawful R) (E : R.Encodings) (hB : R.base ≠ 0)
    (hgen : ∀ P, ∃ x : F, P = x • R.base) (A : Linker F G) (pub : Finset G) (Q n : Nat) :
    Fintype.card F * Nat.card {coins : Fin (Q + n) → F // ∃ m I c ring, A.Wins R V pub Q n (List.ofFn coins) m I c ring} ≤
      (Q + n) * (pub.card ^ 2 * (Q + n) ^ 2 + pub.card ^ 2 + 1) * Fintype.card F ^ (Q + n) := by
  classical
  have h := Mlsag.C110_linkable E hB hgen A.vec (pub.image fun k => [k]) 1 Q n
  rw [Finset.card_image_of_injective _ fun a b h => by simpa using h] at h
  refine le_trans (Nat.mul_le_mul_left _ ?_) h
  refine Nat.card_le_card_of_injective (fun x => ⟨x.1, ?_⟩) fun x y h => Subtype.ext (by simpa using h)
  obtain ⟨coins, m, I, c, ring, hw⟩ := x
  have hout : A.out ((A.vec.game R Q (List.ofFn coins)).take Q) = (m, I, c, ring) := hw.output
  obtain ⟨x, y, hxy, ⟨kx, hkx, ex⟩, ky, hky, ey⟩ := hw.differ
  have hne : ring ≠ [] := by rintro rfl; simp at hkx
  have h2 : 2 ≤ ring.length := by
    by_contra hcon
    obtain ⟨a, ha⟩ := List.length_eq_one_iff.1 (show ring.length = 1 by have := List.length_pos_iff.2 hne; omega)
    rw [ha] at hkx hky
    rw [List.mem_singleton.1 hkx] at ex
    rw [List.mem_singleton.1 hky] at ey
    exact hxy (by unfold keyImage; rw [← ex, ey]; have := smul_left_injective F hB (ex.symm.trans ey); rw [this])
  have hring : Mlsag.ringOf (⟨c, ring.map fun x => [x.2], ring.map fun x => ⟨true, [x.1]⟩, m⟩ : Mlsag.Signature F G) = ringVec ring := by
    unfold Mlsag.ringOf ringVec
    rw [List.map_map, List.zip_map', List.map_congr_left]
    intros; rfl
  refine ⟨⟨c, ring.map fun x => [x.2], ring.map fun x => ⟨true, [x.1]⟩, m⟩, [I], ?_, ?_, by simpa using hw.size, ?_, rfl, ?_, ?_⟩
  · simp only [Linker.vec] at hout ⊢
    rw [hout]
  · have hacc := hw.accepted
    rw [verify_group (R := Mlsag.withHash R (A.game R Q (List.ofFn coins)).hash) ⟨hV.smulBase, hV.smul, hV.add, hV.bytes, hV.derive⟩ m I c
      ring hne] at hacc
    refine (Mlsag.C17_verify _ _ _ (by simpa using h2) (by simp) (by simp) ?_).1.2 ?_
    · rw [hring]
      intro k hk
      obtain ⟨a, -, rfl⟩ := List.mem_map.1 hk
      simp
    · rw [hring]
      exact hacc
  · intro k hk
    obtain ⟨a, ha, rfl⟩ := List.mem_map.1 hk
    exact Finset.mem_image.2 ⟨a.1, hw.published a ha, rfl⟩
  · rw [hring]
    exact ⟨_, List.mem_map.2 ⟨kx, hkx, rfl⟩, _, List.mem_map.2 ⟨ky, hky, rfl⟩, 0, by norm_num, x, y, by simp [ex], by simp [ey], hxy⟩
  · rw [hring]
    intro k hk hI
    obtain ⟨a, ha, rfl⟩ := List.mem_map.1 hk
    obtain ⟨z, h1, h2⟩ := hI 0 (by simp)
    simp only [List.getElem?_cons_zero, Option.some.injEq] at h1 h2
    exact hw.foreign z ⟨a, ha, h1⟩ h2

/-! ### A concrete attacker

A signature with responses 0 and an image of no member, for two keys. It is accepted if all answers are its first challenge. -/

/-- Two keys, with responses 0. -/
def luckRing (a b : Toy.K) : List (Toy.K × Toy.K) := [(a • Toy.ris.base, 0), (b • Toy.ris.base, 0)]

/-- An attacker that always returns this ring. -/
def luckLinker (a b c im : Toy.K) : Linker Toy.K Toy.K := ⟨fun _ => [], fun _ => ([1], im, c, luckRing a b)⟩

theorem luck_accepted {R : Ristretto F G} {V : Raw F G P} (hV : V.Lawful R) (A : Linker F G) (m : Bytes) (im : G) (c : F)
    (ring : List (G × F)) (n : Nat) (hn : ring.length = n) (h0 : ring ≠ []) (h1 : n ≠ 1)
    (hout : ∀ log, A.out log = (m, im, c, ring)) :
    verify (Mlsag.withHash R (A.game R 0 (List.replicate n c)).hash) V m ⟨V.inj im, c, ring.map (·.2), ring.map fun x => V.inj x.1⟩ =
      .ok true := by
  have hV' : V.Lawful (Mlsag.withHash R (A.game R 0 (List.replicate n c)).hash) :=
    ⟨hV.smulBase, hV.smul, hV.add, hV.bytes, hV.derive⟩
  refine (verify_group hV' m im c ring h0).2 ?_
  have hring : Mlsag.ringOf (⟨c, ring.map fun x => [x.2], ring.map fun x => ⟨true, [x.1]⟩, m⟩ : Mlsag.Signature F G) = ringVec ring := by
    unfold Mlsag.ringOf ringVec
    rw [List.map_map, List.zip_map', List.map_congr_left]
    intros; rfl
  have := Mlsag.luck_chal A.vec R c ⟨c, ring.map fun x => [x.2], ring.map fun x => ⟨true, [x.1]⟩, m⟩ [im] 0 n
    (fun log => by simp [Linker.vec, hout]) rfl (by rw [hring]; simp [ringVec, hn]) (by simpa [hn] using h1)
  rw [hring, Nat.zero_add] at this
  exact this

theorem luck_wins (a b c im : Toy.K) (hab : keyImage Toy.ris a ≠ keyImage Toy.ris b) (ha : im ≠ keyImage Toy.ris a)
    (hb : im ≠ keyImage Toy.ris b) : (luckLinker a b c im).Wins Toy.ris toyRaw {a • Toy.ris.base, b • Toy.ris.base} 0 2
      (List.replicate 2 c) [1] im c (luckRing a b) := by
  have hbase : ∀ x y : Toy.K, x • Toy.ris.base = y • Toy.ris.base → x = y := by
    intro x y h
    have e : ∀ z : Toy.K, z • Toy.ris.base = z := fun z => mul_one z
    rwa [e, e] at h
  refine ⟨rfl, ?_, le_rfl, ?_, ?_, ?_⟩
  · exact luck_accepted toyRaw_lawful (luckLinker a b c im) [1] im c (luckRing a b) 2 rfl (by simp [luckRing]) (by norm_num) fun _ => rfl
  · intro k hk
    simp only [luckRing, List.mem_cons, List.not_mem_nil, or_false] at hk
    rcases hk with rfl | rfl <;> simp
  · exact ⟨a, b, hab, ⟨(a • Toy.ris.base, 0), by simp [luckRing], rfl⟩, (b • Toy.ris.base, 0), by simp [luckRing], rfl⟩
  · rintro x ⟨k, hk, e⟩
    simp only [luckRing, List.mem_cons, List.not_mem_nil, or_false] at hk
    rcases hk with rfl | rfl
    · rw [← hbase _ _ e]; exact ha
    · rw [← hbase _ _ e]; exact hb

theorem luck_count (a b c im : Toy.K) (hab : keyImage Toy.ris a ≠ keyImage Toy.ris b) (ha : im ≠ keyImage Toy.ris a)
    (hb : im ≠ keyImage Toy.ris b) :
    0 < Nat.card {coins : Fin (0 + 2) → Toy.K // ∃ m I c' ring, (luckLinker a b c im).Wins Toy.ris toyRaw
      {a • Toy.ris.base, b • Toy.ris.base} 0 2 (List.ofFn coins) m I c' ring} ∧
    Fintype.card Toy.K * Nat.card {coins : Fin (0 + 2) → Toy.K // ∃ m I c' ring, (luckLinker a b c im).Wins Toy.ris toyRaw
      {a • Toy.ris.base, b • Toy.ris.base} 0 2 (List.ofFn coins) m I c' ring} ≤
        2 * (2 ^ 2 * 2 ^ 2 + 2 ^ 2 + 1) * Fintype.card Toy.K ^ 2 := by
  constructor
  · have : Nonempty {coins : Fin (0 + 2) → Toy.K // ∃ m I c' ring, (luckLinker a b c im).Wins Toy.ris toyRaw
        {a • Toy.ris.base, b • Toy.ris.base} 0 2 (List.ofFn coins) m I c' ring} :=
      ⟨⟨fun _ => c, _, _, _, _, by
        have := luck_wins a b c im hab ha hb
        simpa using this⟩⟩
    exact Nat.card_pos
  · have h := C111_linkable toyRaw_lawful Toy.ris_encodings (by simp [Toy.ris]) (fun P => ⟨P, (mul_one P).symm⟩) (luckLinker a b c im)
      {a • Toy.ris.base, b • Toy.ris.base} 0 2
    rw [Nat.zero_add] at h
    refine h.trans (Nat.mul_le_mul_right _ (Nat.mul_le_mul_left _ ?_))
    have h2 : ({a • Toy.ris.base, b • Toy.ris.base} : Finset Toy.K).card ^ 2 ≤ 2 ^ 2 := Nat.pow_le_pow_left (Finset.card_le_two) 2
    omega

/-- The keys 1 and 2 with the images 2 and 6, the challenge 9 and the image 100. -/
example : 0 < Nat.card {coins : Fin (0 + 2) → Toy.K // ∃ m I c' ring, (luckLinker ((1 : Nat) : Toy.K) ((2 : Nat) : Toy.K) 9
    ((100 : Nat) : Toy.K)).Wins Toy.ris toyRaw {((1 : Nat) : Toy.K) • Toy.ris.base, ((2 : Nat) : Toy.K) • Toy.ris.base} 0 2
      (List.ofFn coins) m I c' ring} := by
  refine (luck_count _ _ 9 _ ?_ ?_ ?_).1
  · show Mlsag.image _ _ ≠ Mlsag.image _ _
    rw [Mlsag.toy_image 1 (by norm_num), Mlsag.toy_image 2 (by norm_num)]
    exact Mlsag.toy_ne _ _ (by norm_num) (by norm_num) (by norm_num)
  · show _ ≠ Mlsag.image _ _
    rw [Mlsag.toy_image 1 (by norm_num)]
    exact Mlsag.toy_ne _ _ (by norm_num) (by norm_num) (by norm_num)
  · show _ ≠ Mlsag.image _ _
    rw [Mlsag.toy_image 2 (by norm_num)]
    exact Mlsag.toy_ne _ _ (by norm_num) (by norm_num) (by norm_num)

end Dusk.Blsag
