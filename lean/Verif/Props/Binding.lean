import Verif.Props.MlsagChosen
import Verif.Props.Blsag
import Verif.Props.Bls
/-!
# One signature, two messages (C121)

Since a hash function to scalars has collisions, "there is a collision" says nothing; so the theorems name the two inputs: they are
what `Verify` hashes last, which anybody can compute from the two signatures.
-/

set_option linter.unusedSectionVars false

namespace Dusk.Mlsag

variable {F G : Type} [Field F] [AddCommGroup G] [Module F G] [DecidableEq F]

/-- What is hashed last on the way around a ring. -/
def lastQuery (R : Ristretto F G) (msg : Bytes) (I : List G) (ring : List (List G × List F)) (c : F) : Bytes :=
  match ring.getLast? with
  | some m => query R msg I m.1 m.2 (around R msg I ring.dropLast c)
  | none => []

/-- How many points are hashed last. -/
def lastPoints (I : List G) (ring : List (List G × List F)) : Nat :=
  match ring.getLast? with
  | some m => m.1.length + I.length
  | none => 0

theorem around_last (R : Ristretto F G) (msg : Bytes) (I : List G) {ring : List (List G × List F)} (h : ring ≠ []) (c : F) :
    around R msg I ring c = R.sDerive (lastQuery R msg I ring c) := by
  obtain ⟨l, m, rfl⟩ : ∃ l m, ring = l ++ [m] := ⟨_, _, (List.dropLast_append_getLast h).symm⟩
  simp [lastQuery, around, link]

theorem accepted_tour {R : Ristretto F G} {sig : Signature F G} {I : List G} (h : sig.verify R I = .ok true) :
    Fits I (tour sig) ∧ tour sig ≠ [] ∧ around R sig.msg I (tour sig) sig.c = sig.c := by
  have hne : ¬ (sig.pubKeys = [] ∨ sig.r = [] ∨ I = []) := by
    intro hc
    obtain ⟨e, he⟩ := C17_empty R sig I hc
    rw [h] at he
    cases he
  push Not at hne
  obtain ⟨hp, hr, hI⟩ := hne
  have hlen : sig.r.length ≤ sig.pubKeys.length := by
    by_contra hcon
    rw [(C26_panic_iff R sig I hp hr hI).2 fun h => hcon h.1] at h
    cases h
  have hf := verify_fits h
  have hnil : ringOf sig ≠ [] := by
    intro e
    have := congrArg List.length e
    simp only [ringOf, List.length_zip, List.length_map, List.length_nil] at this
    have := List.length_pos_iff.2 hr
    omega
  unfold tour
  by_cases h1 : sig.r.length = 1
  · rw [if_pos h1]
    refine ⟨fun m hm => hf m ((List.mem_append.1 hm).elim id id), by simp [hnil], ?_⟩
    exact (C17_single R sig I h1 hlen hI hf).1 h
  · rw [if_neg h1]
    have := List.length_pos_iff.2 hr
    exact ⟨hf, hnil, (C17_verify R sig I (by omega) hlen hI hf).1.1 h⟩

theorem flatten_length_of {α : Type} {n : Nat} (l : List (List α)) (h : ∀ x ∈ l, x.length = n) : l.flatten.length = l.length * n := by
  induction l with
  | nil => simp
  | cons a l ih =>
    rw [List.flatten_cons, List.length_append, h a (by simp), ih fun x hx => h x (by simp [hx]), List.length_cons]
    ring

theorem query_split {R : Ristretto F G} (E : R.Encodings) (msg : Bytes) {I K : List G} {r : List F} (c : F) (h1 : K.length ≤ r.length)
    (h2 : I.length ≤ K.length) : ∃ t, query R msg I K r c = msg ++ t ∧ t.length = (K.length + I.length) * 32 := by
  refine ⟨_, List.append_assoc _ _ _, ?_⟩
  rw [List.length_append, flatten_length_of (n := 32) _ ?_, flatten_length_of (n := 32) _ ?_]
  · simp only [List.length_zipWith, List.length_zip]
    rw [Nat.min_eq_left h1, Nat.min_eq_right h2, add_mul]
  · intro x hx
    simp only [List.mem_iff_getElem?, List.getElem?_zipWith] at hx
    obtain ⟨i, hi⟩ := hx
    revert hi
    split <;> simp
    rintro rfl
    exact E.pBytes_length _
  · intro x hx
    simp only [List.mem_iff_getElem?, List.getElem?_zipWith] at hx
    obtain ⟨i, hi⟩ := hx
    revert hi
    split <;> simp
    rintro rfl
    exact E.pBytes_length _

theorem lastQuery_split {R : Ristretto F G} (E : R.Encodings) (msg : Bytes) {I : List G} {ring : List (List G × List F)} (h : ring ≠ [])
    (hf : Fits I ring) (c : F) : ∃ t, lastQuery R msg I ring c = msg ++ t ∧ t.length = lastPoints I ring * 32 := by
  obtain ⟨l, m, rfl⟩ : ∃ l m, ring = l ++ [m] := ⟨_, _, (List.dropLast_append_getLast h).symm⟩
  obtain ⟨h1, h2⟩ := hf m (by simp)
  simpa [lastQuery, lastPoints] using query_split E msg (around R msg I l c) h1 h2

/-- C121: two signatures with the same challenge that `Verify` accepts, and for which the same number of points is hashed last, are for
the same message, and what is hashed last is the same; otherwise what is hashed last is a collision of the hash to scalars. -/
theorem C121_mlsag {R : Ristretto F G} (E : R.Encodings) {sig sig' : Signature F G} {I I' : List G} (hc : sig.c = sig'.c)
    (hd : lastPoints I (tour sig) = lastPoints I' (tour sig')) (h : sig.verify R I = .ok true) (h' : sig'.verify R I' = .ok true) :
    sig.msg = sig'.msg ∧ lastQuery R sig.msg I (tour sig) sig.c = lastQuery R sig'.msg I' (tour sig') sig'.c ∨
    lastQuery R sig.msg I (tour sig) sig.c ≠ lastQuery R sig'.msg I' (tour sig') sig'.c ∧
      R.sDerive (lastQuery R sig.msg I (tour sig) sig.c) = R.sDerive (lastQuery R sig'.msg I' (tour sig') sig'.c) := by
  obtain ⟨hf, hn, ha⟩ := accepted_tour h
  obtain ⟨hf', hn', ha'⟩ := accepted_tour h'
  by_cases he : lastQuery R sig.msg I (tour sig) sig.c = lastQuery R sig'.msg I' (tour sig') sig'.c
  · left
    refine ⟨?_, he⟩
    obtain ⟨t, e, ht⟩ := lastQuery_split E sig.msg hn hf sig.c
    obtain ⟨t', e', ht'⟩ := lastQuery_split E sig'.msg hn' hf' sig'.c
    rw [e, e'] at he
    exact (List.append_inj' he (by rw [ht, ht', hd])).1
  · right
    refine ⟨he, ?_⟩
    rw [← around_last _ _ _ hn, ← around_last _ _ _ hn', ha, ha', hc]

/-- C121: a signature that `Verify` accepts, and accepts with another message in its place, gives a collision of the hash to scalars. -/
theorem C121_mlsag_message {R : Ristretto F G} (E : R.Encodings) (sig : Signature F G) (I : List G) (msg' : Bytes) (hm : sig.msg ≠ msg')
    (h : sig.verify R I = .ok true) (h' : Signature.verify R { sig with msg := msg' } I = .ok true) :
    lastQuery R sig.msg I (tour sig) sig.c ≠ lastQuery R msg' I (tour sig) sig.c ∧
      R.sDerive (lastQuery R sig.msg I (tour sig) sig.c) = R.sDerive (lastQuery R msg' I (tour sig) sig.c) :=
  (C121_mlsag E (sig := sig) (sig' := { sig with msg := msg' }) rfl rfl h h').resolve_left fun e => hm e.1

/-- The images for which the members of `B` give the points that the members of `A` give for `I`. -/
def movedImages (R : Ristretto F G) (c : F) (A B : List (G × F)) (I : List G) : List G :=
  List.zipWith (fun (ab : (G × F) × (G × F)) im =>
    c⁻¹ • (ab.1.2 • R.pDerive (R.pBytes ab.1.1) + c • im - ab.2.2 • R.pDerive (R.pBytes ab.2.1))) (A.zip B) I

theorem movedImages_length (R : Ristretto F G) (c : F) (A B : List (G × F)) (I : List G) (hA : I.length ≤ A.length)
    (hB : I.length ≤ B.length) : (movedImages R c A B I).length = I.length := by
  simp only [movedImages, List.length_zipWith, List.length_zip]
  omega

theorem movedImages_points (R : Ristretto F G) {c : F} (hc : c ≠ 0) (A B : List (G × F)) (I : List G) (hA : I.length ≤ A.length)
    (hB : I.length ≤ B.length) :
    List.zipWith (fun (kx : G × F) im => R.pBytes (kx.2 • R.pDerive (R.pBytes kx.1) + c • im)) B (movedImages R c A B I) =
      List.zipWith (fun (kx : G × F) im => R.pBytes (kx.2 • R.pDerive (R.pBytes kx.1) + c • im)) A I := by
  induction I generalizing A B with
  | nil => simp [movedImages]
  | cons im I ih =>
    cases A with
    | nil => simp at hA
    | cons a A =>
      cases B with
      | nil => simp at hB
      | cons b B =>
        have := ih A B (by simpa using hA) (by simpa using hB)
        simp only [movedImages, List.zip_cons_cons, List.zipWith_cons_cons] at this ⊢
        rw [this, smul_inv_smul₀ hc, add_sub_cancel]

/-- C121 (violated): the message is not delimited from the points that follow it. From a signature by one member with at least two
keys anybody can make one for a longer message by the member's other keys: the first point is appended to the message. No secret is
used. -/
theorem C121_longer_message_violated (R : Ristretto F G) (b : Bool) (msg : Bytes) (k : G) (K : List G) (x : F) (r : List F) (I : List G)
    (c : F) (hc : c ≠ 0) (hI : I ≠ []) (hK : I.length ≤ K.length) (hr : K.length ≤ r.length)
    (hfix : link R msg I (k :: K) (x :: r) c = c) :
    Signature.verify R ⟨c, [x :: r], [⟨b, k :: K⟩], msg⟩ I = .ok true ∧
    Signature.verify R ⟨c, [r], [⟨b, K⟩], msg ++ R.pBytes (x • R.base + c • k)⟩
      (movedImages R c ((k :: K).zip (x :: r)) (K.zip r) I) = .ok true := by
  have hB : I.length ≤ (K.zip r).length := by rw [List.length_zip]; omega
  have hA : I.length ≤ ((k :: K).zip (x :: r)).length := by rw [List.length_zip]; simp; omega
  have hl := movedImages_length R c _ _ I hA hB
  have hfix' : link R (msg ++ R.pBytes (x • R.base + c • k)) (movedImages R c ((k :: K).zip (x :: r)) (K.zip r) I) K r c = c := by
    rw [link, query, movedImages_points R hc _ _ I hA hB]
    rw [link, query, List.zipWith_cons_cons, List.flatten_cons] at hfix
    simpa [List.append_assoc] using hfix
  constructor
  · refine (C17_single _ _ _ rfl le_rfl hI ?_).2 ?_
    · intro m hm
      simp only [ringOf, List.map_cons, List.map_nil, List.zip_cons_cons, List.zip_nil_right, List.mem_singleton] at hm
      subst hm
      simp
      omega
    · simp only [ringOf, List.map_cons, List.map_nil, List.zip_cons_cons, List.zip_nil_right, around, List.singleton_append,
        List.foldl_cons, List.foldl_nil]
      rw [hfix, hfix]
  · refine (C17_single _ _ _ rfl le_rfl ?_ ?_).2 ?_
    · intro e
      rw [e] at hl
      exact hI (List.length_eq_zero_iff.1 hl.symm)
    · intro m hm
      simp only [ringOf, List.map_cons, List.map_nil, List.zip_cons_cons, List.zip_nil_right, List.mem_singleton] at hm
      subst hm
      exact ⟨hr, by rw [hl]; exact hK⟩
    · simp only [ringOf, List.map_cons, List.map_nil, List.zip_cons_cons, List.zip_nil_right, around, List.singleton_append,
        List.foldl_cons, List.foldl_nil]
      rw [List.zip_cons_cons] at hfix'
      rw [hfix', hfix']

/-- A signature by one member with keys 3 and 5, with nonces 11 and 13 and one image. -/
theorem toy_single : ∃ c : Toy.K, c ≠ 0 ∧
    link Toy.ris [1] [image Toy.ris 3] [(3 : Toy.K) • Toy.ris.base, (5 : Toy.K) • Toy.ris.base] [11 - c * 3, 13 - c * 5] c = c := by
  refine ⟨Toy.ris.sDerive ([1] ++ (Toy.ris.pBytes ((11 : Toy.K) • Toy.ris.base) ++ Toy.ris.pBytes ((13 : Toy.K) • Toy.ris.base)) ++
    Toy.ris.pBytes ((11 : Toy.K) • Toy.ris.pDerive (Toy.ris.pBytes ((3 : Toy.K) • Toy.ris.base)))), Toy.dv_ne_zero _, ?_⟩
  generalize hc : Toy.ris.sDerive _ = c
  unfold link query image
  simp only [List.zipWith_cons_cons, List.zip_cons_cons, List.zip_nil_right, List.zipWith_nil_right, List.flatten_cons, List.flatten_nil,
    List.append_nil]
  have e1 : (11 - c * 3) • Toy.ris.base + c • (3 : Toy.K) • Toy.ris.base = (11 : Toy.K) • Toy.ris.base := by module
  have e2 : (13 - c * 5) • Toy.ris.base + c • (5 : Toy.K) • Toy.ris.base = (13 : Toy.K) • Toy.ris.base := by module
  have e3 : (11 - c * 3) • Toy.ris.pDerive (Toy.ris.pBytes ((3 : Toy.K) • Toy.ris.base)) +
      c • (3 : Toy.K) • Toy.ris.pDerive (Toy.ris.pBytes ((3 : Toy.K) • Toy.ris.base)) =
      (11 : Toy.K) • Toy.ris.pDerive (Toy.ris.pBytes ((3 : Toy.K) • Toy.ris.base)) := by module
  rw [e1, e2, e3]
  exact hc

example : ∃ (c : Toy.K) (I : List Toy.K),
    Signature.verify Toy.ris ⟨c, [[11 - c * 3, 13 - c * 5]], [⟨false, [(3 : Toy.K) • Toy.ris.base, (5 : Toy.K) • Toy.ris.base]⟩], [1]⟩
      [image Toy.ris 3] = .ok true ∧
    Signature.verify Toy.ris ⟨c, [[13 - c * 5]], [⟨false, [(5 : Toy.K) • Toy.ris.base]⟩],
      [1] ++ Toy.ris.pBytes ((11 - c * 3) • Toy.ris.base + c • (3 : Toy.K) • Toy.ris.base)⟩ I = .ok true := by
  obtain ⟨c, hc, h⟩ := toy_single
  exact ⟨c, _, C121_longer_message_violated Toy.ris false [1] _ [_] _ [_] [_] c hc (by simp) (by simp) (by simp) h⟩

/-- With a hash function of which nothing is kept, a signature is accepted for two messages. -/
example : ∃ (h : Bytes → Toy.K) (sig : Signature Toy.K Toy.K) (I : List Toy.K) (m' : Bytes), sig.msg ≠ m' ∧
    sig.verify (withHash Toy.ris h) I = .ok true ∧ Signature.verify (withHash Toy.ris h) { sig with msg := m' } I = .ok true ∧
    (withHash Toy.ris h).Encodings := by
  have hv : ∀ m : Bytes, Signature.verify (withHash Toy.ris fun _ => 4) ⟨4, [[7]], [⟨false, [(3 : Toy.K)]⟩], m⟩ [(5 : Toy.K)] = .ok true := by
    intro m
    refine (C17_single _ _ _ rfl le_rfl (by simp) ?_).2 ?_
    · simp [Fits, ringOf]
    · simp [ringOf, around, link, withHash]
  exact ⟨fun _ => 4, ⟨4, [[7]], [⟨false, [3]⟩], [1]⟩, [5], [2], by simp, hv _, hv _, ⟨Toy.ris_encodings.1, Toy.ris_encodings.2,
    Toy.ris_encodings.3, Toy.ris_encodings.4⟩⟩

end Dusk.Mlsag

namespace Dusk.Blsag

variable {F G P : Type} [Field F] [AddCommGroup G] [Module F G] [DecidableEq F]

/-- What is hashed last on the way around a ring. -/
def lastQuery (R : Ristretto F G) (V : Raw F G P) (m : Bytes) (I : P) (ring : List (P × F)) (c : F) : Bytes :=
  match ring.getLast? with
  | some x => m ++ V.bytes (V.add (V.smulBase x.2) (V.smul x.1 (around R V m I ring.dropLast c))) ++
      V.bytes (V.add (V.smul (V.derive (V.bytes x.1)) x.2) (V.smul I (around R V m I ring.dropLast c)))
  | none => []

/-- C121: two bLSAG signatures with the same challenge that `Verify` accepts are for the same message, or what is hashed last is a
collision of the hash to scalars. All points are encoded in 32 bytes. -/
theorem C121_blsag (R : Ristretto F G) {V : Raw F G P} (hb : ∀ p, (V.bytes p).length = 32) {m m' : Bytes} {sig sig' : RingSignature F P}
    (hc : sig.C = sig'.C) (h : verify R V m sig = .ok true) (h' : verify R V m' sig' = .ok true) :
    m = m' ∧ lastQuery R V m sig.I (sig.pubKeys.zip sig.S) sig.C = lastQuery R V m' sig'.I (sig'.pubKeys.zip sig'.S) sig'.C ∨
    lastQuery R V m sig.I (sig.pubKeys.zip sig.S) sig.C ≠ lastQuery R V m' sig'.I (sig'.pubKeys.zip sig'.S) sig'.C ∧
      R.sDerive (lastQuery R V m sig.I (sig.pubKeys.zip sig.S) sig.C) =
        R.sDerive (lastQuery R V m' sig'.I (sig'.pubKeys.zip sig'.S) sig'.C) := by
  have key : ∀ {m : Bytes} {sig : RingSignature F P}, verify R V m sig = .ok true →
      R.sDerive (lastQuery R V m sig.I (sig.pubKeys.zip sig.S) sig.C) = sig.C ∧
      ∃ t, lastQuery R V m sig.I (sig.pubKeys.zip sig.S) sig.C = m ++ t ∧ t.length = 64 := by
    intro m sig h
    have hn : sig.pubKeys ≠ [] := fun e => by
      rw [C32_empty R V m sig e] at h
      cases h
    have hS : sig.pubKeys.length ≤ sig.S.length := by
      by_contra hcon
      rw [C32_short R V m sig (by omega)] at h
      cases h
    obtain ⟨b, h1, h2⟩ := C32_verify R V m sig hn hS
    rw [h] at h1
    have h3 := h2.1 (Res.ok.inj h1).symm
    rw [show sig.pubKeys.zip (sig.S.take sig.pubKeys.length) = sig.pubKeys.zip sig.S by
      rw [List.zip_eq_zip_take_min (l₁ := sig.pubKeys) (l₂ := sig.S), Nat.min_eq_left hS, List.take_length]] at h3
    have hne : sig.pubKeys.zip sig.S ≠ [] := by
      intro e
      have := congrArg List.length e
      simp only [List.length_zip, List.length_nil] at this
      have := List.length_pos_iff.2 hn
      omega
    obtain ⟨l, x, e⟩ : ∃ l x, sig.pubKeys.zip sig.S = l ++ [x] := ⟨_, _, (List.dropLast_append_getLast hne).symm⟩
    rw [e] at h3 ⊢
    refine ⟨?_, ?_⟩
    · conv_rhs => rw [← h3]
      simp [lastQuery, around, link]
    · simp only [lastQuery, List.getLast?_append, List.getLast?_singleton, Option.some_or]
      exact ⟨_, List.append_assoc _ _ _, by simp [hb]⟩
  obtain ⟨h1, t, e, ht⟩ := key h
  obtain ⟨h1', t', e', ht'⟩ := key h'
  by_cases he : lastQuery R V m sig.I (sig.pubKeys.zip sig.S) sig.C = lastQuery R V m' sig'.I (sig'.pubKeys.zip sig'.S) sig'.C
  · left
    refine ⟨?_, he⟩
    rw [e, e'] at he
    exact (List.append_inj' he (by rw [ht, ht'])).1
  · exact .inr ⟨he, by rw [h1, h1', hc]⟩

/-- The toy points, with 32 bytes for the additional value too. -/
def toyRaw32 : Raw Toy.K Toy.K (Option Toy.K) := { toyRaw with bytes := fun p => Toy.ris.pBytes (p.getD 0) }

/-- With the hash function that is 4 everywhere, a signature of one member is accepted for all messages. -/
example : (∀ p : Option Toy.K, (toyRaw32.bytes p).length = 32) ∧ ∀ m, verify (Mlsag.withHash Toy.ris fun _ => 4) toyRaw32 m
    ⟨some 5, 4, [7], [some 3]⟩ = .ok true := by
  refine ⟨fun p => Toy.ris_encodings.pBytes_length _, fun m => ?_⟩
  obtain ⟨b, h1, h2⟩ := C32_verify (Mlsag.withHash Toy.ris fun _ => 4) toyRaw32 m ⟨some 5, 4, [7], [some 3]⟩ (by simp) (by simp)
  rw [h1, h2.2]
  simp [around, link, Mlsag.withHash]

end Dusk.Blsag

namespace Dusk.Bls

variable {F G1 G2 GT : Type} [Field F] [AddCommGroup G1] [AddCommGroup G2] [AddCommGroup GT]
  [Module F G1] [Module F G2] [Module F GT]
variable (P : Bn256 F G1 G2 GT) (A : Hash.Algs)

theorem pair_key_inj (h1 : P.g1 ≠ 0) {x : F} (hx : x ≠ 0) {a b : F} (h : P.pair (a • P.g1) (x • P.g2) = P.pair (b • P.g1) (x • P.g2)) :
    a = b := by
  simp only [map_smul, LinearMap.smul_apply, smul_smul] at h
  have h2 : P.pair P.g1 P.g2 ≠ 0 := fun h0 => h1 (P.pair_g2_inj _ h0)
  exact mul_left_cancel₀ hx (smul_left_injective F h2 h)

theorem cast_modEq {a b : Nat} (h : (a : F) = b) : a ≡ b [MOD P.order] := by
  rcases Nat.le_total a b with hle | hle
  · exact (Nat.modEq_iff_dvd' hle).2 ((P.cast_eq_zero _).1 (by rw [Nat.cast_sub hle, h, sub_self]))
  · exact ((Nat.modEq_iff_dvd' hle).2 ((P.cast_eq_zero _).1 (by rw [Nat.cast_sub hle, h, sub_self]))).symm

/-- C121: one signature is accepted by `VerifyUnsafe` for two messages under the public key of a nonzero secret only if the digests of
the messages are equal modulo the group order, and then it is. -/
theorem C121_bls_message (h1 : P.g1 ≠ 0) (x : Nat) (hx : ¬ P.order ∣ x) (m m' : Bytes) (s : UnsafeSignature G1)
    (h : VerifyUnsafe P A (some ⟨.pt ((x : F) • P.g2)⟩) m (some s) = .ok ()) :
    VerifyUnsafe P A (some ⟨.pt ((x : F) • P.g2)⟩) m' (some s) = .ok () ↔ digest A m ≡ digest A m' [MOD P.order] := by
  simp only [VerifyUnsafe, deref_some, Res.bind_ok, verify_ok_iff, Ptr.pt.injEq] at h ⊢
  obtain ⟨g, e, rfl, hs, h⟩ := h
  constructor
  · rintro ⟨g', e', rfl, hs', h'⟩
    rw [hs] at hs'
    obtain rfl := Ptr.pt.inj hs'
    exact cast_modEq P (pair_key_inj P h1 (fun h0 => hx ((P.cast_eq_zero x).1 h0)) (h.trans h'.symm))
  · intro hm
    refine ⟨_, e, rfl, hs, ?_⟩
    have : (digest A m : F) = digest A m' := by
      rcases Nat.le_total (digest A m) (digest A m') with hle | hle
      · have := (P.cast_eq_zero _).2 ((Nat.modEq_iff_dvd' hle).1 hm)
        rw [Nat.cast_sub hle] at this
        exact (sub_eq_zero.1 this).symm
      · have := (P.cast_eq_zero _).2 ((Nat.modEq_iff_dvd' hle).1 hm.symm)
        rw [Nat.cast_sub hle] at this
        exact sub_eq_zero.1 this
    rw [← this, h]

/-- C121: one signature is accepted by `VerifyUnsafe` for one message under the public keys of two secrets only if the secrets are equal
modulo the group order, unless the group order divides the digest of the message. -/
theorem C121_bls_key (h1 : P.g1 ≠ 0) (x y : Nat) (m : Bytes) (hm : ¬ P.order ∣ digest A m) (s : UnsafeSignature G1)
    (h : VerifyUnsafe P A (some ⟨.pt ((x : F) • P.g2)⟩) m (some s) = .ok ())
    (h' : VerifyUnsafe P A (some ⟨.pt ((y : F) • P.g2)⟩) m (some s) = .ok ()) : x ≡ y [MOD P.order] := by
  simp only [VerifyUnsafe, deref_some, Res.bind_ok, verify_ok_iff, Ptr.pt.injEq] at h h'
  obtain ⟨g, e, rfl, hs, h⟩ := h
  obtain ⟨g', e', rfl, hs', h'⟩ := h'
  rw [hs] at hs'
  obtain rfl := Ptr.pt.inj hs'
  refine cast_modEq P (pair_key_inj P h1 (x := (digest A m : F)) (fun h0 => hm ((P.cast_eq_zero _).1 h0)) ?_)
  have := h.trans h'.symm
  simp only [map_smul, LinearMap.smul_apply, smul_smul] at this ⊢
  rw [mul_comm, this, mul_comm]

/-- The toy instance: the signature of `[7]` with the key 3 is not one of `[8]`. -/
example : Toy.bn.g1 ≠ 0 ∧ ¬ Toy.bn.order ∣ 3 ∧ ¬ Toy.bn.order ∣ digest Hash.toyAlgs [7] ∧
    VerifyUnsafe Toy.bn Hash.toyAlgs (some ⟨.pt (((3 : Nat) : Toy.K) • Toy.bn.g2)⟩) [7]
      (some ⟨.pt ((digest Hash.toyAlgs [7] : Toy.K) * ((3 : Nat) : Toy.K))⟩) = .ok () ∧
    ¬ digest Hash.toyAlgs [7] ≡ digest Hash.toyAlgs [8] [MOD Toy.bn.order] := by
  refine ⟨?_, ?_, toy_digest.1, ?_, ?_⟩
  · rw [Toy.bn_g1]
    exact one_ne_zero
  · show ¬ PrimeEll.ell ∣ 3
    decide +kernel
  · rw [Toy.bn_g2, smul_eq_mul, mul_one]
    exact (toy_verify _ _ _ _).2 rfl
  · show ¬ (_ % PrimeEll.ell = _ % PrimeEll.ell)
    decide +kernel

end Dusk.Bls
