import Verif.Props.MlsagMalleable
import Verif.Spec.Oracle
/-!
# Whose key image an accepted MLSAG signature carries (C109, C110)
-/

set_option linter.unusedSectionVars false

namespace Dusk.Mlsag

variable {F G : Type} [Field F] [AddCommGroup G] [Module F G] [DecidableEq F]

/-! ## C109: the image is not hashed -/

/-- The input of the hash for nonces `l`, where `D` is added to the points that belong to the images. -/
def shiftedQuery (R : Ristretto F G) (msg : Bytes) (xl : List (F × F)) (D : List G) : Bytes :=
  msg ++ (xl.map fun p => R.pBytes (p.2 • R.base)).flatten ++
    (List.zipWith (fun (p : F × F) d => R.pBytes (p.2 • R.pDerive (R.pBytes (p.1 • R.base)) + d)) xl D).flatten

theorem shifted_query (R : Ristretto F G) (msg : Bytes) (xl : List (F × F)) (D : List G) (c : F) (hc : c ≠ 0) :
    query R msg (List.zipWith (fun (p : F × F) d => image R p.1 + c⁻¹ • d) xl D) (xl.map fun p => p.1 • R.base)
      (xl.map fun p => p.2 - c * p.1) c = shiftedQuery R msg xl D := by
  unfold query shiftedQuery
  congr 2
  · congr 1
    rw [List.zipWith_map, List.zipWith_self]
    refine List.map_congr_left fun p _ => ?_
    rw [smul_smul, ← add_smul]
    congr 2
    ring
  · apply List.ext_getElem
    · simp
    · intro i h1 h2
      simp only [List.getElem_zipWith, List.getElem_zip, List.getElem_map]
      congr 1
      unfold image
      rw [smul_add, smul_inv_smul₀ hc, ← add_assoc, smul_smul, ← add_smul]
      congr 2
      ring

/-- C109 (violated): Expected: the key image of an accepted signature is the image of one of the members of its ring, so that the
signatures made with one secret key have one image. The image is not an input of the hash; hence the holder of the secret keys `x`
can choose nonces `l` and points `d` first, and the image after the challenge. The result is accepted with the image
`x Hp(x G) + d / c`, which is not the image of the key unless `d = 0`. The ring consists of any number of copies of the signer's
keys, followed by any members (they are ignored, as there are no responses for them). -/
theorem C109_image_violated (R : Ristretto F G) (msg : Bytes) (xl : List (F × F)) (D : List G) (hD : D ≠ [])
    (hlen : D.length ≤ xl.length) (hc : R.sDerive (shiftedQuery R msg xl D) ≠ 0) (n : Nat) (hn : 1 ≤ n) (rest : List (PubKeys G)) :
    ∃ (c : F) (I : List G), I = List.zipWith (fun (p : F × F) d => image R p.1 + c⁻¹ • d) xl D ∧
      (⟨c, List.replicate n (xl.map fun p => p.2 - c * p.1),
        List.replicate n ⟨true, xl.map fun p => p.1 • R.base⟩ ++ rest, msg⟩ : Signature F G).verify R I = .ok true ∧
      I.length = D.length ∧
      ∀ i (h1 : i < xl.length) (h2 : i < D.length) (h3 : i < I.length), D[i] ≠ 0 → I[i] ≠ image R xl[i].1 := by
  refine ⟨_, List.zipWith (fun (p : F × F) d => image R p.1 + (R.sDerive (shiftedQuery R msg xl D))⁻¹ • d) xl D, rfl, ?_, by simp; omega, ?_⟩
  · generalize hcd : R.sDerive (shiftedQuery R msg xl D) = c at hc
    generalize hI : List.zipWith (fun (p : F × F) d => image R p.1 + c⁻¹ • d) xl D = I
    have hIl : I.length = D.length := by rw [← hI]; simp; omega
    have hlink : link R msg I (xl.map fun p => p.1 • R.base) (xl.map fun p => p.2 - c * p.1) c = c := by
      unfold link
      rw [← hI, shifted_query R msg xl D c hc, hcd]
    have hring : ringOf (⟨c, List.replicate n (xl.map fun p => p.2 - c * p.1),
        List.replicate n ⟨true, xl.map fun p => p.1 • R.base⟩ ++ rest, msg⟩ : Signature F G) =
        List.replicate n (xl.map fun p => p.1 • R.base, xl.map fun p => p.2 - c * p.1) := by
      unfold ringOf
      simp only [List.map_append, List.map_replicate]
      rw [show List.replicate n (xl.map fun p => p.2 - c * p.1) = List.replicate n (xl.map fun p => p.2 - c * p.1) ++ [] by simp,
        List.zip_append (by simp)]
      simp
    have hfit : Fits I (ringOf (⟨c, List.replicate n (xl.map fun p => p.2 - c * p.1),
        List.replicate n ⟨true, xl.map fun p => p.1 • R.base⟩ ++ rest, msg⟩ : Signature F G)) := by
      rw [hring]
      intro m hm
      rw [List.eq_of_mem_replicate hm]
      simp only [List.length_map, le_refl, true_and]
      omega
    have hround : ∀ k, around R msg I (List.replicate k (xl.map fun p => p.1 • R.base, xl.map fun p => p.2 - c * p.1)) c = c := by
      intro k
      induction k with
      | zero => rfl
      | succ k ih =>
        rw [List.replicate_succ]
        show around R msg I _ (link R msg I _ _ c) = c
        rw [hlink]
        exact ih
    have hIne : I ≠ [] := by
      rintro rfl
      exact hD (List.length_eq_zero_iff.1 hIl.symm)
    by_cases h1 : n = 1
    · refine (C17_single R _ I (by simp [h1]) (by simp) hIne hfit).2 ?_
      rw [hring, List.replicate_append_replicate]
      exact hround _
    · refine (C17_verify R _ I (by simp; omega) (by simp) hIne hfit).1.2 ?_
      rw [hring]
      exact hround _
  · intro i h1 h2 h3 hd he
    simp only [List.getElem_zipWith] at he
    rw [add_eq_left, smul_eq_zero] at he
    rcases he with he | he
    · exact hc (inv_eq_zero.1 he)
    · exact hd he

/-- A ring of the signer's pair of keys and of another member: two accepted signatures made with the secret keys 3 and 4, one with the
image of the first key, the other with another image. -/
example : ∃ s s' : Signature Toy.K Toy.K, ∃ im im' : Toy.K, s.verify Toy.ris [im] = .ok true ∧ s'.verify Toy.ris [im'] = .ok true ∧
    s.pubKeys = s'.pubKeys ∧ s.msg = s'.msg ∧ s.pubKeys.length = 2 ∧ im = image Toy.ris 3 ∧ im' ≠ im := by
  have key : ∀ d : Toy.K, ∃ (s : Signature Toy.K Toy.K) (c : Toy.K), s.verify Toy.ris [image Toy.ris 3 + c⁻¹ • d] = .ok true ∧
      s.pubKeys = [⟨true, [(3 : Toy.K) • Toy.ris.base, (4 : Toy.K) • Toy.ris.base]⟩, ⟨true, [8, 9]⟩] ∧ s.msg = [7] ∧
      (d ≠ 0 → image Toy.ris 3 + c⁻¹ • d ≠ image Toy.ris 3) := by
    intro d
    obtain ⟨c, I, rfl, h1, h2, h3⟩ := C109_image_violated Toy.ris [7] [((3 : Toy.K), 5), (4, 6)] [d] (by simp) (by simp)
      (Toy.dv_ne_zero _) 1 le_rfl [⟨true, [8, 9]⟩]
    exact ⟨_, c, h1, rfl, rfl, fun hd => h3 0 (by simp) (by simp) (by simp) hd⟩
  obtain ⟨s, c, h1, h2, h3, -⟩ := key 0
  obtain ⟨s', c', g1, g2, g3, g4⟩ := key 1
  exact ⟨s, s', _, _, h1, g1, by rw [h2, g2], by rw [h3, g3], by rw [h2]; rfl, by simp, by simpa using g4 one_ne_zero⟩

/-! ## C110: rings of members with different images -/

/-- `R` with another hash to scalars. -/
def withHash (R : Ristretto F G) (h : Bytes → F) : Ristretto F G := { R with sDerive := h }

/-- The images belong to the first keys of a member. -/
def HasImages (R : Ristretto F G) (K I : List G) : Prop :=
  ∀ j, j < I.length → ∃ x, K[j]? = some (x • R.base) ∧ I[j]? = some (image R x)

/-- The first `v` keys of two members do not have the same images. -/
def ImagesDiffer (R : Ristretto F G) (v : Nat) (K K' : List G) : Prop :=
  ∃ j < v, ∃ x x', K[j]? = some (x • R.base) ∧ K'[j]? = some (x' • R.base) ∧ image R x ≠ image R x'

/-- An attacker: chooses the inputs of the hash, then a signature with key images. -/
structure Linker (F G : Type) where
  next : Oracle.Log F → Bytes
  out : Oracle.Log F → Signature F G × List G

/-- The members in the order in which `Verify` visits them: a single member is visited twice. -/
def tour (sig : Signature F G) : List (List G × List F) := if sig.r.length = 1 then ringOf sig ++ ringOf sig else ringOf sig

/-- The input of the hash for member `i` when the signature is verified; the challenge is the last answer. -/
def verifierQuery (R : Ristretto F G) (sig : Signature F G) (I : List G) (log : Oracle.Log F) (i : Nat) : Bytes :=
  match (tour sig)[i]? with
  | some m => query R sig.msg I m.1 m.2 (if i = 0 then sig.c else ((log.getLast?).map (·.2)).getD 0)
  | none => []

/-- The attacker asks `Q` questions, then the verifier asks. -/
def Linker.question (A : Linker F G) (R : Ristretto F G) (Q : Nat) (log : Oracle.Log F) : Bytes :=
  if log.length < Q then A.next log
  else verifierQuery R (A.out (log.take Q)).1 (A.out (log.take Q)).2 log (log.length - Q)

/-- All questions and answers: `Q` questions of the attacker, the other ones of the verifier. -/
def Linker.game (A : Linker F G) (R : Ristretto F G) (Q : Nat) (coins : List F) : Oracle.Log F :=
  Oracle.play (A.question R Q) coins

/-- The attacker wins: `Verify`, with the hash function that the game has fixed, accepts `v` images for a ring of at most `n` published
key vectors, two of them with different images, but the images do not belong to any member of the ring. -/
structure Linker.Wins (A : Linker F G) (R : Ristretto F G) (pub : Finset (List G)) (v Q n : Nat) (coins : List F)
    (sig : Signature F G) (I : List G) : Prop where
  output : A.out ((A.game R Q coins).take Q) = (sig, I)
  accepted : sig.verify (withHash R (A.game R Q coins).hash) I = .ok true
  size : sig.r.length ≤ n
  published : ∀ k ∈ sig.pubKeys, k.keys ∈ pub
  images : I.length = v
  differ : ∃ m ∈ ringOf sig, ∃ m' ∈ ringOf sig, ImagesDiffer R v m.1 m'.1
  foreign : ∀ m ∈ ringOf sig, ¬ HasImages R m.1 I

theorem flatten32_inj : ∀ (a b : List Bytes), a.length = b.length → (∀ x ∈ a, x.length = 32) → (∀ x ∈ b, x.length = 32) →
    a.flatten = b.flatten → a = b
  | [], b, hl, _, _, _ => (List.length_eq_zero_iff.1 (by simpa using hl.symm)).symm
  | _ :: _, [], hl, _, _, _ => by simp at hl
  | x :: a, y :: b, hl, ha, hb, h => by
    simp only [List.flatten_cons] at h
    have hxy := List.append_inj h (by rw [ha x (by simp), hb y (by simp)])
    rw [hxy.1, flatten32_inj a b (by simpa using hl) (fun z hz => ha z (by simp [hz])) (fun z hz => hb z (by simp [hz])) hxy.2]

theorem flatten32_length : ∀ (a : List Bytes), (∀ x ∈ a, x.length = 32) → a.flatten.length = 32 * a.length
  | [], _ => rfl
  | x :: a, ha => by
    rw [List.flatten_cons, List.length_append, ha x (by simp), flatten32_length a fun z hz => ha z (by simp [hz]), List.length_cons]
    ring

/-- An input of the hash determines its points. -/
theorem query_points {R : Ristretto F G} (E : R.Encodings) {msg msg' : Bytes} {I I' K : List G} {r r' : List F} {c c' : F}
    (hI : I.length = I'.length) (hK : I.length ≤ K.length) (hr : K.length ≤ r.length) (hr' : K.length ≤ r'.length)
    (h : query R msg I K r c = query R msg' I' K r' c') :
    (∀ j < K.length, r.getD j 0 • R.base + c • K.getD j 0 = r'.getD j 0 • R.base + c' • K.getD j 0) ∧
    ∀ j < I.length, r.getD j 0 • R.pDerive (R.pBytes (K.getD j 0)) + c • I.getD j 0 =
      r'.getD j 0 • R.pDerive (R.pBytes (K.getD j 0)) + c' • I'.getD j 0 := by
  have h32 : ∀ {α β : Type} (f : α → β → G) (a : List α) (b : List β), ∀ x ∈ List.zipWith (fun s t => R.pBytes (f s t)) a b, x.length = 32 := by
    intro α β f a b x hx
    obtain ⟨j, hj, rfl⟩ := List.mem_iff_getElem.1 hx
    simp [E.pBytes_length]
  unfold query at h
  obtain ⟨h1, h2⟩ := List.append_inj' h (by
    rw [flatten32_length _ (h32 _ _ _), flatten32_length _ (h32 _ _ _)]
    simp; omega)
  obtain ⟨-, h3⟩ := List.append_inj' h1 (by
    rw [flatten32_length _ (h32 _ _ _), flatten32_length _ (h32 _ _ _)]
    simp; omega)
  have e1 := flatten32_inj _ _ (by simp; omega) (h32 _ _ _) (h32 _ _ _) h3
  have e2 := flatten32_inj _ _ (by simp; omega) (h32 _ _ _) (h32 _ _ _) h2
  constructor
  · intro j hj
    have := congrArg (fun l => l[j]?) e1
    simp only [List.getElem?_zipWith, List.getElem?_eq_getElem hj, List.getElem?_eq_getElem (show j < r.length by omega),
      List.getElem?_eq_getElem (show j < r'.length by omega), Option.some.injEq] at this
    simpa [List.getD_eq_getElem?_getD, hj, show j < r.length by omega, show j < r'.length by omega] using E.pBytes_inj this
  · intro j hj
    have := congrArg (fun l => l[j]?) e2
    simp only [List.getElem?_zipWith, List.zip_eq_zipWith, List.getElem?_eq_getElem (show j < K.length by omega),
      List.getElem?_eq_getElem (show j < r.length by omega), List.getElem?_eq_getElem hj,
      List.getElem?_eq_getElem (show j < I'.length by omega),
      List.getElem?_eq_getElem (show j < r'.length by omega), Option.some.injEq] at this
    simpa [List.getD_eq_getElem?_getD, hj, show j < K.length by omega, show j < r.length by omega, show j < r'.length by omega,
      show j < I'.length by omega] using E.pBytes_inj this

section Linkable

variable (R : Ristretto F G) (dl : G → F) (v : Nat)

/-- The images of the first `v` keys. -/
def imv (K : List G) : Fin v → G := fun j => dl (K.getD j 0) • R.pDerive (R.pBytes (K.getD j 0))

/-- The vector of images. -/
def vec (I : List G) : Fin v → G := fun j => I.getD j 0

/-- `q` is an input of the hash for a member with keys `K`, and `d` is its challenge times the difference of the images to the correct ones. -/
def Excess (K : List G) (q : Bytes) (d : Fin v → G) : Prop :=
  ∃ (msg : Bytes) (I : List G) (r : List F) (c : F), I.length = v ∧ v ≤ K.length ∧ K.length ≤ r.length ∧
    q = query R msg I K r c ∧ d = c • (vec v I - imv R dl v K)

open Classical in
/-- The excess of an input. -/
noncomputable def excess (K : List G) (q : Bytes) : Fin v → G :=
  if h : ∃ d, Excess R dl v K q d then h.choose else 0

variable {R dl v}

theorem excess_unique (E : R.Encodings) (hB : R.base ≠ 0) (hdl : ∀ P, P = dl P • R.base) {K : List G} {q : Bytes} {d d' : Fin v → G}
    (h : Excess R dl v K q d) (h' : Excess R dl v K q d') : d = d' := by
  obtain ⟨msg, I, r, c, a1, a2, a3, a4, rfl⟩ := h
  obtain ⟨msg', I', r', c', b1, b2, b3, b4, rfl⟩ := h'
  obtain ⟨p1, p2⟩ := query_points E (by omega) (by omega) a3 b3 (a4.symm.trans b4)
  funext j
  have hj : (j : Nat) < v := j.2
  have q1 := p1 j (by omega)
  have q2 := p2 j (by omega)
  simp only [Pi.smul_apply, Pi.sub_apply, vec, imv]
  generalize I.getD j 0 = i at *
  generalize I'.getD j 0 = i' at *
  generalize r.getD j 0 = s at *
  generalize r'.getD j 0 = s' at *
  generalize K.getD j 0 = k at *
  generalize R.pDerive (R.pBytes k) = H at *
  have hk := hdl k
  have e : s + c * dl k = s' + c' * dl k := by
    have : (s + c * dl k - (s' + c' * dl k)) • R.base = 0 := by
      rw [hk, smul_smul, smul_smul, ← add_smul, ← add_smul] at q1
      rw [sub_smul, q1, sub_self]
    rcases smul_eq_zero.1 this with h | h
    · exact sub_eq_zero.1 h
    · exact absurd h hB
  have e2 : c • i - c' • i' = (s' - s) • H := by
    rw [sub_smul, sub_eq_sub_iff_add_eq_add, add_comm, q2, add_comm]
  have e3 : s' - s = c * dl k - c' * dl k := by linear_combination -e
  rw [smul_sub, smul_sub, sub_eq_sub_iff_sub_eq_sub, e2, e3, sub_smul, smul_smul, smul_smul]

theorem excess_eq (E : R.Encodings) (hB : R.base ≠ 0) (hdl : ∀ P, P = dl P • R.base) {K : List G} {q : Bytes} {d : Fin v → G}
    (h : Excess R dl v K q d) : excess R dl v K q = d := by
  unfold excess
  rw [dif_pos ⟨d, h⟩]
  exact excess_unique E hB hdl (Exists.choose_spec (⟨d, h⟩ : ∃ d, Excess R dl v K q d)) h

variable (R dl v) in
open Classical in
/-- The answers to the question `q` after which the attacker may win. -/
noncomputable def lucky [Fintype F] (pub : Finset (List G)) (log : Oracle.Log F) (q : Bytes) : Finset F :=
  ((pub ×ˢ pub).biUnion fun K => Finset.univ.filter fun c =>
      imv R dl v K.1 ≠ imv R dl v K.2 ∧ excess R dl v K.1 q - excess R dl v K.2 q = c • (imv R dl v K.2 - imv R dl v K.1)) ∪
    ((pub ×ˢ pub).biUnion fun K => (log.toFinset ×ˢ insert q (log.map (·.1)).toFinset).biUnion fun e => Finset.univ.filter fun c =>
      excess R dl v K.1 e.1.1 ≠ 0 ∧ c ≠ 0 ∧
        c⁻¹ • excess R dl v K.1 e.1.1 = imv R dl v K.2 - imv R dl v K.1 + e.1.2⁻¹ • excess R dl v K.2 e.2) ∪ {0}

theorem lucky_card [Fintype F] (pub : Finset (List G)) (log : Oracle.Log F) (q : Bytes) (m : Nat) (hm : log.length < m) :
    (lucky R dl v pub log q).card ≤ pub.card ^ 2 * m ^ 2 + pub.card ^ 2 + 1 := by
  classical
  unfold lucky
  refine (Finset.card_union_le _ _).trans (Nat.add_le_add ((Finset.card_union_le _ _).trans ?_) (by simp))
  rw [add_comm]
  refine Nat.add_le_add ?_ ?_
  · refine (Finset.card_biUnion_le_card_mul _ _ (m ^ 2) fun K _ => ?_).trans (by rw [Finset.card_product]; exact (by ring_nf; exact le_rfl))
    refine (Finset.card_biUnion_le_card_mul _ _ 1 fun e _ => ?_).trans ?_
    · rw [Finset.card_le_one]
      intro a ha b hb
      obtain ⟨h1, h2, h3⟩ := (Finset.mem_filter.1 ha).2
      obtain ⟨-, g2, g3⟩ := (Finset.mem_filter.1 hb).2
      have h4 := h3.trans g3.symm
      have : (a⁻¹ - b⁻¹) • excess R dl v K.1 e.1.1 = 0 := by rw [sub_smul, h4, sub_self]
      rcases smul_eq_zero.1 this with h | h
      · exact inv_injective (sub_eq_zero.1 h)
      · exact absurd h h1
    · rw [mul_one, Finset.card_product, pow_two]
      have h1 : log.toFinset.card ≤ m := (List.toFinset_card_le _).trans hm.le
      have h2 : (insert q (log.map (·.1)).toFinset).card ≤ m :=
        (Finset.card_insert_le _ _).trans ((Nat.add_le_add_right (List.toFinset_card_le _) 1).trans (by simp; omega))
      exact Nat.mul_le_mul h1 h2
  · refine (Finset.card_biUnion_le_card_mul _ _ 1 fun K _ => ?_).trans (by rw [Finset.card_product, mul_one, pow_two])
    rw [Finset.card_le_one]
    intro a ha b hb
    obtain ⟨h1, h2⟩ := (Finset.mem_filter.1 ha).2
    obtain ⟨-, g2⟩ := (Finset.mem_filter.1 hb).2
    have : (a - b) • (imv R dl v K.2 - imv R dl v K.1) = 0 := by rw [sub_smul, ← h2, g2, sub_self]
    rcases smul_eq_zero.1 this with h | h
    · exact sub_eq_zero.1 h
    · exact absurd (sub_eq_zero.1 h).symm h1

/-- The member in slot `i`, counted around the ring. -/
def slot (ms : List (List G × List F)) (i : Nat) : List G × List F := ms.getD (i % ms.length) ([], [])

/-- The challenges, counted around the ring. -/
def chalRound (R : Ristretto F G) (msg : Bytes) (I : List G) (ms : List (List G × List F)) (c : F) : Nat → F
  | 0 => c
  | i + 1 => link R msg I (slot ms i).1 (slot ms i).2 (chalRound R msg I ms c i)

theorem slot_add (ms : List (List G × List F)) (i : Nat) : slot ms (i + ms.length) = slot ms i := by simp [slot]

theorem slot_lt (ms : List (List G × List F)) (i : Nat) (h : i < ms.length) : slot ms i = ms[i] := by
  simp [slot, Nat.mod_eq_of_lt h, h]

theorem slot_mem (ms : List (List G × List F)) (hms : ms ≠ []) (i : Nat) : slot ms i ∈ ms := by
  have h : i % ms.length < ms.length := Nat.mod_lt _ (List.length_pos_iff.2 hms)
  unfold slot
  rw [List.getD_eq_getElem?_getD, List.getElem?_eq_getElem h]
  exact List.getElem_mem h

theorem chalRound_around (R : Ristretto F G) (msg : Bytes) (I : List G) (ms : List (List G × List F)) (c : F) (i : Nat) (hi : i ≤ ms.length) :
    chalRound R msg I ms c i = around R msg I (ms.take i) c := by
  induction i with
  | zero => simp [chalRound, around]
  | succ i ih =>
    rw [chalRound, ih (by omega), slot_lt ms i (by omega), List.take_succ_eq_append_getElem (by omega)]
    unfold around
    rw [List.foldl_append]
    rfl

theorem chalRound_add (R : Ristretto F G) (msg : Bytes) (I : List G) (ms : List (List G × List F)) (c : F)
    (h : around R msg I ms c = c) (i : Nat) : chalRound R msg I ms c (i + ms.length) = chalRound R msg I ms c i := by
  induction i with
  | zero => rw [Nat.zero_add, chalRound_around R msg I ms c _ le_rfl, List.take_length, h]; rfl
  | succ i ih =>
    rw [Nat.add_right_comm, chalRound, chalRound, ih, slot_add]

/-- If the chain of challenges closes, all inputs of the hash have been asked, and the images are those of no member, then an answer was
lucky. -/
theorem lucky_of_chain [Fintype F] (E : R.Encodings) (hB : R.base ≠ 0) (hdl : ∀ P, P = dl P • R.base) (next : Oracle.Log F → Bytes)
    (l : List F) (pub : Finset (List G)) (msg : Bytes) (I : List G) (ms : List (List G × List F)) (c : F) (hIv : I.length = v)
    (hpub : ∀ m ∈ ms, m.1 ∈ pub) (hfit : Fits I ms) (hforeign : ∀ m ∈ ms, vec v I ≠ imv R dl v m.1)
    (hdiff : ∃ m ∈ ms, ∃ m' ∈ ms, imv R dl v m.1 ≠ imv R dl v m'.1)
    (hclose : around (withHash R (Oracle.play next l).hash) msg I ms c = c)
    (hasked : ∀ i < ms.length, ∃ a, (Oracle.play next l).lookup
      (query R msg I (slot ms i).1 (slot ms i).2 (chalRound (withHash R (Oracle.play next l).hash) msg I ms c i)) = some a) :
    ∃ t, ∃ ht : t < l.length,
      l[t] ∈ lucky R dl v pub (Oracle.play next (l.take t)) (next (Oracle.play next (l.take t))) := by
  classical
  by_contra hno
  push Not at hno
  have hms : ms ≠ [] := by
    rintro rfl
    simp at hdiff
  have hn : 0 < ms.length := List.length_pos_iff.2 hms
  generalize hC : chalRound (withHash R (Oracle.play next l).hash) msg I ms c = C at *
  have hper : ∀ i, C (i + ms.length) = C i := by
    rw [← hC]; exact chalRound_add _ msg I ms c hclose
  -- the inputs of the hash
  obtain ⟨q, hq⟩ : ∃ q : Nat → Bytes, q = fun i => query R msg I (slot ms i).1 (slot ms i).2 (C i) := ⟨_, rfl⟩
  have hqi : ∀ i, q i = query R msg I (slot ms i).1 (slot ms i).2 (C i) := fun i => by rw [hq]
  have hqper : ∀ i, q (i + ms.length) = q i := by
    intro i; rw [hqi, hqi, slot_add, hper]
  have hqper' : ∀ k i, q (i + k * ms.length) = q i := by
    intro k i
    induction k with
    | zero => simp
    | succ k ih => rw [Nat.succ_mul, ← Nat.add_assoc, hqper, ih]
  have hqmod : ∀ i, q i = q (i % ms.length) := by
    intro i
    conv_lhs => rw [← Nat.mod_add_div' i ms.length]
    exact hqper' _ _
  have hCs : ∀ i, C (i + 1) = (Oracle.play next l).hash (q i) := by
    intro i; rw [hqi, ← hC]; rfl
  -- when they were asked first
  have hfirst : ∀ i, ∃ t, ∃ ht : t < l.length, q i = next (Oracle.play next (l.take t)) ∧ C (i + 1) = l[t] ∧
      ∀ t', t < t' → (q i, C (i + 1)) ∈ Oracle.play next (l.take t') := by
    intro i
    obtain ⟨a, ha⟩ := hasked (i % ms.length) (Nat.mod_lt _ hn)
    rw [← hqi, ← hqmod] at ha
    obtain ⟨t, ht, -, h2, h3, h4⟩ := Oracle.play_first next l _ a ha
    have hCa : C (i + 1) = a := by rw [hCs, Oracle.Log.hash, ha]; rfl
    rw [hCa]
    exact ⟨t, ht, h2, h3, fun t' htt => Oracle.mem_of_lookup (h4 t' htt)⟩
  have hC0 : ∀ i, C (i + 1) ≠ 0 := by
    intro i h0
    obtain ⟨t, ht, -, h2, -⟩ := hfirst i
    refine hno t ht ?_
    rw [← h2, h0]
    simp [lucky]
  have hC0' : ∀ i, C i ≠ 0 := by
    intro i
    rw [← hper i, show i + ms.length = (i + ms.length - 1) + 1 by omega]
    exact hC0 _
  have hexc : ∀ i, excess R dl v (slot ms i).1 (q i) = C i • (vec v I - imv R dl v (slot ms i).1) := by
    intro i
    have hm := hfit _ (slot_mem ms hms i)
    exact excess_eq E hB hdl ⟨msg, I, _, C i, hIv, by omega, hm.1, hqi i, rfl⟩
  -- the input asked last
  choose T hTl hT1 hT2 hT3 using hfirst
  obtain ⟨i0, hi0, hmax⟩ := (Finset.range ms.length).exists_max_image T ⟨0, Finset.mem_range.2 hn⟩
  have hlast : ∀ i, q i = q i0 ∨ (q i, C (i + 1)) ∈ Oracle.play next (l.take (T i0)) := by
    intro i
    have hle := hmax (i % ms.length) (Finset.mem_range.2 (Nat.mod_lt _ hn))
    rcases Nat.lt_or_ge (T (i % ms.length)) (T i0) with h | h
    · right
      have := hT3 (i % ms.length) (T i0) h
      rw [hCs, ← hqmod] at this
      rw [hCs]
      exact this
    · left
      rw [hqmod i, hT1 (i % ms.length), hT1 i0, Nat.le_antisymm hle h]
  have hstar : ∀ i, q i = q i0 → C (i + 1) = l[T i0]'(hTl i0) := by
    intro i hi
    rw [hCs, hi, ← hCs, hT2]
  have hno := hno (T i0) (hTl i0)
  rw [← hT1] at hno
  refine hno ?_
  unfold lucky
  by_cases hall : ∀ i, q i = q i0
  · -- all inputs are the same
    obtain ⟨m, hm, m', hm', hne⟩ := hdiff
    obtain ⟨a, ha, rfl⟩ := List.mem_iff_getElem.1 hm
    obtain ⟨b, hb, rfl⟩ := List.mem_iff_getElem.1 hm'
    have hCa : ∀ i, C i = l[T i0]'(hTl i0) := by
      intro i
      rw [← hper i, show i + ms.length = (i + ms.length - 1) + 1 by omega]
      exact hstar _ (hall _)
    refine Finset.mem_union_left _ (Finset.mem_union_left _ (Finset.mem_biUnion.2 ⟨(ms[a].1, ms[b].1),
      Finset.mem_product.2 ⟨hpub _ hm, hpub _ hm'⟩, Finset.mem_filter.2 ⟨Finset.mem_univ _, hne, ?_⟩⟩))
    have e1 := hexc a
    have e2 := hexc b
    rw [slot_lt ms a ha, hall a, hCa] at e1
    rw [slot_lt ms b hb, hall b, hCa] at e2
    simp only
    rw [e1, e2, ← smul_sub]
    congr 1
    abel
  · -- the first slot after one with the last input
    have hex : ∃ i, q i = q i0 ∧ q (i + 1) ≠ q i0 := by
      by_contra hcon
      push Not at hcon hall
      obtain ⟨i1, hi1⟩ := hall
      have : ∀ s, q (i0 + s) = q i0 := by
        intro s
        induction s with
        | zero => rfl
        | succ s ih => exact hcon _ ih
      refine hi1 ?_
      rw [← hqper' i0 i1]
      have hge : i0 ≤ i1 + i0 * ms.length := by nlinarith
      rw [show i1 + i0 * ms.length = i0 + (i1 + i0 * ms.length - i0) by omega]
      exact this _
    obtain ⟨i, h1, h2⟩ := hex
    have hmem := (hlast (i + 1)).resolve_left h2
    have hk : q (i + 2) ∈ insert (q i0) ((Oracle.play next (l.take (T i0))).map (·.1)).toFinset := by
      rcases hlast (i + 2) with h | h
      · rw [h]; exact Finset.mem_insert_self _ _
      · exact Finset.mem_insert_of_mem (List.mem_toFinset.2 (List.mem_map.2 ⟨_, h, rfl⟩))
    refine Finset.mem_union_left _ (Finset.mem_union_right _ (Finset.mem_biUnion.2 ⟨((slot ms (i + 1)).1, (slot ms (i + 2)).1),
      Finset.mem_product.2 ⟨hpub _ (slot_mem ms hms _), hpub _ (slot_mem ms hms _)⟩, Finset.mem_biUnion.2
      ⟨((q (i + 1), C (i + 2)), q (i + 2)), Finset.mem_product.2 ⟨List.mem_toFinset.2 hmem, hk⟩,
        Finset.mem_filter.2 ⟨Finset.mem_univ _, ?_, ?_, ?_⟩⟩⟩))
    · simp only
      rw [hexc]
      intro h0
      rcases smul_eq_zero.1 h0 with h0 | h0
      · exact hC0' _ h0
      · exact hforeign _ (slot_mem ms hms _) (sub_eq_zero.1 h0)
    · rw [← hT2]; exact hC0 _
    · simp only
      rw [hexc, hexc, inv_smul_smul₀ (hC0' _), hstar i h1, inv_smul_smul₀ (by rw [← hT2]; exact hC0 _)]
      abel

end Linkable

/-- What the verifier asks: the inputs around the ring. -/
theorem asked (A : Linker F G) (R : Ristretto F G) (Q : Nat) (l : List F) (sig : Signature F G) (I : List G)
    (hout : A.out ((A.game R Q l).take Q) = (sig, I)) : ∀ (i : Nat), i < (tour sig).length → Q + i < l.length →
    A.question R Q (Oracle.play (A.question R Q) (l.take (Q + i))) = query R sig.msg I (slot (tour sig) i).1 (slot (tour sig) i).2
      (chalRound (withHash R (A.game R Q l).hash) sig.msg I (tour sig) sig.c i) := by
  intro i
  induction i with
  | zero =>
    intro hi hl
    have hlen : (Oracle.play (A.question R Q) (l.take (Q + 0))).length = Q := by rw [Oracle.play_length]; simp; omega
    have htake : (Oracle.play (A.question R Q) (l.take (Q + 0))).take Q = (A.game R Q l).take Q := by
      rw [List.take_of_length_le (by omega), Oracle.play_take]; rfl
    rw [Linker.question, if_neg (by omega), htake, hout, hlen, verifierQuery, Nat.sub_self, List.getElem?_eq_getElem hi]
    simp only [if_true]
    rw [slot_lt _ _ hi]
    rfl
  | succ i ih =>
    intro hi hl
    have hlen : (Oracle.play (A.question R Q) (l.take (Q + (i + 1)))).length = Q + (i + 1) := by
      rw [Oracle.play_length]; simp; omega
    have htake : (Oracle.play (A.question R Q) (l.take (Q + (i + 1)))).take Q = (A.game R Q l).take Q := by
      rw [Oracle.play_take, List.take_take, Nat.min_eq_left (by omega)]; rfl
    have hlast : (Oracle.play (A.question R Q) (l.take (Q + (i + 1)))).getLast? =
        some (A.question R Q (Oracle.play (A.question R Q) (l.take (Q + i))),
          (A.game R Q l).hash (A.question R Q (Oracle.play (A.question R Q) (l.take (Q + i))))) := by
      rw [List.getLast?_eq_getElem?, hlen, Oracle.play_take, List.getElem?_take_of_lt (by omega),
        show Q + (i + 1) - 1 = Q + i by omega, Oracle.play_entry _ _ _ (by omega)]
      rfl
    rw [Linker.question, if_neg (by omega), htake, hout, hlen, verifierQuery, show Q + (i + 1) - Q = i + 1 by omega,
      List.getElem?_eq_getElem hi, hlast, slot_lt _ _ hi]
    simp only [Nat.add_one_ne_zero, if_false, Option.map_some, Option.getD_some]
    rw [ih (by omega) (by omega)]
    rfl

/-- C110: key images link signatures, for rings of members with at least two different images. The hash to scalars answers with
uniformly random scalars; the attacker asks `Q` questions, computes without bounds, and chooses message, ring (among published key
vectors) and images in the end. The probability that `Verify` accepts `v` images that are not those of the first `v` keys of a member
of the ring is at most `m (p² m² + p² + 1) / |F|` with `m = Q + n` and `p` published key vectors; `n` bounds the size of the ring. -/
theorem C110_linkable [Fintype F] {R : Ristretto F G} (E : R.Encodings) (hB : R.base ≠ 0) (hgen : ∀ P, ∃ x : F, P = x • R.base)
    (A : Linker F G) (pub : Finset (List G)) (v Q n : Nat) :
    Fintype.card F * Nat.card {coins : Fin (Q + n) → F // ∃ sig I, A.Wins R pub v Q n (List.ofFn coins) sig I} ≤
      (Q + n) * (pub.card ^ 2 * (Q + n) ^ 2 + pub.card ^ 2 + 1) * Fintype.card F ^ (Q + n) := by
  choose dl hdl using hgen
  refine le_trans (Nat.mul_le_mul_left _ ?_) (Oracle.card_guess (pub.card ^ 2 * (Q + n) ^ 2 + pub.card ^ 2 + 1) (Q + n)
    (fun l => lucky R dl v pub (Oracle.play (A.question R Q) l) (A.question R Q (Oracle.play (A.question R Q) l)))
    fun l hl => lucky_card pub _ _ _ (by rw [Oracle.play_length]; exact hl))
  refine Nat.card_le_card_of_injective (fun x => ⟨x.1, ?_⟩) fun x y h => Subtype.ext (by simpa using h)
  obtain ⟨coins, sig, I, h⟩ := x
  show ∃ t : Fin (Q + n), coins t ∈ _
  have hxdl : ∀ x : F, ∀ P, P = x • R.base → x = dl P := by
    intro x P hP
    have h1 := hdl P
    have : (x - dl P) • R.base = 0 := by rw [sub_smul, ← hP, ← h1, sub_self]
    rcases smul_eq_zero.1 this with h | h
    · exact sub_eq_zero.1 h
    · exact absurd h hB
  have himage : ∀ (K : List G) (j : Nat) (hj : j < v) (x : F), K[j]? = some (x • R.base) → imv R dl v K ⟨j, hj⟩ = image R x := by
    intro K j hj x hx
    unfold imv image
    rw [List.getD_eq_getElem?_getD, hx, Option.getD_some, ← hxdl x _ rfl]
  have hdiff : ∀ m m' : List G × List F, ImagesDiffer R v m.1 m'.1 → imv R dl v m.1 ≠ imv R dl v m'.1 := by
    rintro m m' ⟨j, hj, x, x', h1, h2, h3⟩ he
    have := congrFun he ⟨j, hj⟩
    rw [himage _ _ hj _ h1, himage _ _ hj _ h2] at this
    exact h3 this
  -- shapes
  obtain ⟨m, hm, m', hm', hd⟩ := h.differ
  have hd' := hdiff m m' hd
  have hv : I ≠ [] := by
    rintro rfl
    obtain ⟨j, hj, -⟩ := hd
    have := h.images
    simp only [List.length_nil] at this
    omega
  have hr : sig.r ≠ [] := by
    intro hr
    simp [ringOf, hr] at hm
  have hp : sig.pubKeys ≠ [] := by
    intro hp
    simp [ringOf, hp] at hm
  have hacc := h.accepted
  have hfits : sig.r.length ≤ sig.pubKeys.length ∧ Fits I (ringOf sig) := by
    by_contra hcon
    rw [(C26_panic_iff (withHash R (A.game R Q (List.ofFn coins)).hash) sig I hp hr hv).2 hcon] at hacc
    cases hacc
  have hlen : (ringOf sig).length = sig.r.length := by simp [ringOf]; omega
  have h2 : 2 ≤ sig.r.length := by
    by_contra hcon
    have h1 : (ringOf sig).length = 1 := by
      have := List.length_pos_iff.2 hr
      omega
    obtain ⟨a, ha⟩ := List.length_eq_one_iff.1 h1
    rw [ha] at hm hm'
    rw [List.mem_singleton.1 hm, List.mem_singleton.1 hm'] at hd'
    exact hd' rfl
  have hclose := (C17_verify (withHash R (A.game R Q (List.ofFn coins)).hash) sig I h2 hfits.1 hv hfits.2).1.1 hacc
  obtain ⟨t, ht, hmem⟩ := lucky_of_chain (v := v) E hB hdl (A.question R Q) (List.ofFn coins) pub sig.msg I (ringOf sig) sig.c h.images
    (by
      intro m hm
      obtain ⟨k, hk, e⟩ := List.mem_map.1 (List.of_mem_zip hm).1
      rw [← e]
      exact h.published k hk)
    hfits.2
    (by
      intro m hm he
      refine h.foreign m hm fun j hj => ?_
      have hjv : j < v := by rw [← h.images]; exact hj
      have hjK : j < m.1.length := lt_of_lt_of_le hj (hfits.2 m hm).2
      refine ⟨dl m.1[j], by rw [← hdl, List.getElem?_eq_getElem hjK], ?_⟩
      have := congrFun he ⟨j, hjv⟩
      rw [himage m.1 j hjv (dl m.1[j]) (by rw [← hdl, List.getElem?_eq_getElem hjK])] at this
      rw [← this]
      simp [vec, List.getD_eq_getElem?_getD, hj])
    ⟨m, hm, m', hm', hd'⟩ hclose
    (by
      intro i hi
      have hi' : Q + i < (List.ofFn coins).length := by
        have := h.size
        simp only [List.length_ofFn]
        omega
      have ht : tour sig = ringOf sig := if_neg (by omega)
      have := asked A R Q (List.ofFn coins) sig I h.output i (by rw [ht]; exact hi) hi'
      rw [ht] at this
      have he := Oracle.play_entry (A.question R Q) (List.ofFn coins) (Q + i) hi'
      exact Oracle.lookup_of_mem (List.mem_of_getElem? (by rw [he, this]; rfl)))
  simp only [List.length_ofFn] at ht
  exact ⟨⟨t, ht⟩, by simpa using hmem⟩

/-! ### A concrete attacker

A signature with all responses 0 and the image 100, for two published pairs of keys: it is accepted for the coins `[9, 9]`, hence for at
least one of the pairs of coins, and for at most `2 (4 · 4 + 4 + 1) ell` of the `ell²` pairs. -/

theorem toy_image (n : Nat) (h : n < 2 ^ 32) : image Toy.ris (n : Toy.K) = ((n * (n + 1) : Nat) : Toy.K) := by
  have hl := PrimeEll.two64_lt_ell
  have hb : ((n : Toy.K) • Toy.ris.base : Toy.K) = (n : Toy.K) := mul_one _
  unfold image
  rw [hb]
  show (n : Toy.K) * Toy.dv (leBytes 32 (n : Toy.K).val) = _
  unfold Toy.dv
  rw [Toy.leNat_val, ZMod.val_natCast_of_lt (by omega), Nat.mod_eq_of_lt (by omega), Nat.cast_mul]

theorem toy_ne (a b : Nat) (ha : a < 2 ^ 64) (hb : b < 2 ^ 64) (h : a ≠ b) : (a : Toy.K) ≠ (b : Toy.K) := fun e =>
  h (Toy.ris.cast_inj (lt_trans ha Toy.ris.two64_lt) (lt_trans hb Toy.ris.two64_lt) e)

/-- The pairs of keys. -/
def luckKeys : List (List Toy.K) :=
  [[((1 : Nat) : Toy.K) • Toy.ris.base, ((5 : Nat) : Toy.K) • Toy.ris.base], [((2 : Nat) : Toy.K) • Toy.ris.base, ((6 : Nat) : Toy.K) • Toy.ris.base]]

/-- A signature that is accepted by luck only. -/
def luckSig (c : Toy.K) : Signature Toy.K Toy.K := ⟨c, [[0, 0], [0, 0]], luckKeys.map fun k => ⟨true, k⟩, [1]⟩

/-- An attacker that always returns it. -/
def luckLinker (c im : Toy.K) : Linker Toy.K Toy.K := ⟨fun _ => [], fun _ => (luckSig c, [im])⟩

theorem luck_ring (c : Toy.K) : ringOf (luckSig c) = luckKeys.map fun k => (k, [0, 0]) := rfl

/-- If all coins are equal, so are all answers. -/
theorem lookup_const (next : Oracle.Log F → Bytes) (c : F) (k : Nat) : ∀ e ∈ Oracle.play next (List.replicate k c), e.2 = c := by
  induction k with
  | zero => simp [Oracle.play_nil]
  | succ k ih =>
    rw [List.replicate_succ', Oracle.play_snoc]
    intro e he
    rcases List.mem_append.1 he with he | he
    · exact ih e he
    · rw [List.mem_singleton.1 he]
      cases h : (Oracle.play next (List.replicate k c)).lookup (next (Oracle.play next (List.replicate k c))) with
      | none => rfl
      | some a => exact ih _ (Oracle.mem_of_lookup h)

theorem luck_chal (A : Linker F G) (R : Ristretto F G) (c : F) (sig : Signature F G) (I : List G) (Q n : Nat)
    (hout : ∀ log, A.out log = (sig, I)) (hc : sig.c = c) (hn : (ringOf sig).length = n) (h1 : sig.r.length ≠ 1) :
    around (withHash R (A.game R Q (List.replicate (Q + n) c)).hash) sig.msg I (ringOf sig) sig.c = sig.c := by
  have h := chalRound_around (withHash R (A.game R Q (List.replicate (Q + n) c)).hash) sig.msg I (ringOf sig) sig.c _ le_rfl
  rw [List.take_length] at h
  rw [← h, hn]
  cases n with
  | zero => rfl
  | succ n =>
    have ht : tour sig = ringOf sig := if_neg h1
    have := asked A R Q (List.replicate (Q + (n + 1)) c) sig I (hout _) n (by rw [ht]; omega) (by simp)
    rw [ht] at this
    have he := Oracle.play_entry (A.question R Q) (List.replicate (Q + (n + 1)) c) (Q + n) (by simp)
    rw [this] at he
    rw [hc] at he ⊢
    exact lookup_const (A.question R Q) c (Q + (n + 1)) _ (List.mem_of_getElem? he)

theorem luck_wins (c im : Toy.K) (h1 : im ≠ image Toy.ris ((1 : Nat) : Toy.K)) (h2 : im ≠ image Toy.ris ((2 : Nat) : Toy.K)) :
    (luckLinker c im).Wins Toy.ris luckKeys.toFinset 1 0 2 (List.replicate 2 c) (luckSig c) [im] := by
  have hfit : Fits [im] (ringOf (luckSig c)) := by
    rw [luck_ring]
    intro m hm
    simp only [luckKeys, List.map_cons, List.map_nil, List.mem_cons, List.not_mem_nil, or_false] at hm
    rcases hm with rfl | rfl <;> simp
  refine ⟨rfl, ?_, le_rfl, ?_, rfl, ?_, ?_⟩
  · exact (C17_verify _ (luckSig c) _ le_rfl le_rfl (by simp) hfit).1.2 (luck_chal (luckLinker c im) _ c (luckSig c) [im] 0 2 (fun _ => rfl) rfl rfl (by simp [luckSig]))
  · intro k hk
    obtain ⟨a, ha, rfl⟩ := List.mem_map.1 hk
    exact List.mem_toFinset.2 ha
  · refine ⟨(luckKeys[0], [0, 0]), by simp [luck_ring, luckKeys], (luckKeys[1], [0, 0]), by simp [luck_ring, luckKeys], 0, by norm_num,
      ((1 : Nat) : Toy.K), ((2 : Nat) : Toy.K), rfl, rfl, ?_⟩
    rw [toy_image 1 (by norm_num), toy_image 2 (by norm_num)]
    exact toy_ne _ _ (by norm_num) (by norm_num) (by norm_num)
  · intro m hm h
    obtain ⟨x, g1, g2⟩ := h 0 (by simp)
    simp only [List.getElem?_cons_zero, Option.some.injEq] at g2
    have key : ∀ a : Toy.K, im ≠ image Toy.ris a → a • Toy.ris.base ≠ x • Toy.ris.base := by
      intro a ha e
      have e : a = x := by simpa [Toy.ris] using e
      exact ha (by rw [e]; exact g2)
    rw [luck_ring] at hm
    simp only [luckKeys, List.map_cons, List.map_nil, List.mem_cons, List.not_mem_nil, or_false] at hm
    rcases hm with rfl | rfl
    · exact key _ h1 (Option.some.inj g1)
    · exact key _ h2 (Option.some.inj g1)

theorem luck_card : luckKeys.toFinset.card = 2 := by
  have : luckKeys[0] ≠ luckKeys[1] := by
    intro h
    have h := congrArg (fun l => l.getD 0 0) h
    have e : ∀ a : Toy.K, a • Toy.ris.base = a := fun a => mul_one a
    simp only [luckKeys, List.getElem_cons_zero, List.getElem_cons_succ, List.getD_cons_zero] at h
    rw [e, e] at h
    exact toy_ne 1 2 (by norm_num) (by norm_num) (by norm_num) h
  simp only [luckKeys, List.getElem_cons_zero, List.getElem_cons_succ] at this
  rw [luckKeys, List.toFinset_cons, List.toFinset_cons, List.toFinset_nil, Finset.card_insert_of_notMem (by simpa using this)]
  simp

theorem luck_count (c im : Toy.K) (h1 : im ≠ image Toy.ris ((1 : Nat) : Toy.K)) (h2 : im ≠ image Toy.ris ((2 : Nat) : Toy.K)) :
    0 < Nat.card {coins : Fin (0 + 2) → Toy.K // ∃ sig I, (luckLinker c im).Wins Toy.ris luckKeys.toFinset 1 0 2 (List.ofFn coins) sig I} ∧
    Fintype.card Toy.K * Nat.card {coins : Fin (0 + 2) → Toy.K //
      ∃ sig I, (luckLinker c im).Wins Toy.ris luckKeys.toFinset 1 0 2 (List.ofFn coins) sig I} ≤ 2 * (2 ^ 2 * 2 ^ 2 + 2 ^ 2 + 1) * Fintype.card Toy.K ^ 2 := by
  constructor
  · have : Nonempty {coins : Fin (0 + 2) → Toy.K // ∃ sig I, (luckLinker c im).Wins Toy.ris luckKeys.toFinset 1 0 2 (List.ofFn coins) sig I} :=
      ⟨⟨fun _ => c, luckSig c, _, by
        have := luck_wins c im h1 h2
        simpa using this⟩⟩
    exact Nat.card_pos
  · have := C110_linkable Toy.ris_encodings (by simp [Toy.ris]) (fun P => ⟨P, (mul_one P).symm⟩) (luckLinker c im) luckKeys.toFinset 1 0 2
    rw [luck_card, Nat.zero_add] at this
    exact this

/-- The challenge 9 and the image 100; the images of the keys are 2 and 6. -/
example : (∃ sig I, (luckLinker 9 ((100 : Nat) : Toy.K)).Wins Toy.ris luckKeys.toFinset 1 0 2 (List.replicate 2 9) sig I) ∧
    0 < Nat.card {coins : Fin (0 + 2) → Toy.K //
      ∃ sig I, (luckLinker 9 ((100 : Nat) : Toy.K)).Wins Toy.ris luckKeys.toFinset 1 0 2 (List.ofFn coins) sig I} := by
  have h1 : ((100 : Nat) : Toy.K) ≠ image Toy.ris ((1 : Nat) : Toy.K) := by
    rw [toy_image 1 (by norm_num)]
    exact toy_ne _ _ (by norm_num) (by norm_num) (by norm_num)
  have h2 : ((100 : Nat) : Toy.K) ≠ image Toy.ris ((2 : Nat) : Toy.K) := by
    rw [toy_image 2 (by norm_num)]
    exact toy_ne _ _ (by norm_num) (by norm_num) (by norm_num)
  exact ⟨⟨_, _, luck_wins 9 _ h1 h2⟩, (luck_count 9 _ h1 h2).1⟩

end Dusk.Mlsag
