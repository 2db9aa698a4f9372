import Verif.Props.MlsagCodec
import Verif.Props.InnerProduct
import Verif.Props.PedConc
/-!
# Counts that do not fit into 32 bits (C146)

The encoders convert the number of elements to `uint32`, and so does `commitToScalars` with the number of missing bases.
-/

set_option linter.unusedSectionVars false

namespace Dusk

variable {F G : Type} [Field F] [AddCommGroup G] [Module F G]

theorem be32_mod (n : Nat) : be32 (n % 2 ^ 32) = be32 n := by
  have e : ∀ a b : Nat, a % 256 = b % 256 → UInt8.ofNat a = UInt8.ofNat b := by
    intro a b h
    apply UInt8.toNat_inj.1
    simpa using h
  unfold be32
  rw [e (n % 2 ^ 32 / 2 ^ 24) (n / 2 ^ 24) (by omega), e (n % 2 ^ 32 / 2 ^ 16) (n / 2 ^ 16) (by omega),
    e (n % 2 ^ 32 / 2 ^ 8) (n / 2 ^ 8) (by omega), e (n % 2 ^ 32) n (by omega)]

namespace Mlsag

/-- C146 (violated expectation: `Encode` writes all responses or reports an error): with a multiple of `2^32` response vectors it
writes, without error, the bytes of the signature without responses, which `Decode` rejects. -/
theorem C146_signature_violated {R : Ristretto F G} (E : R.Encodings) (t s : Signature F G) (keys keys' : Bool) (h : s.r.length % 2 ^ 32 = 0) :
    s.encode R keys = ({ s with r := [] } : Signature F G).encode R keys ∧ (s.encode R keys).Emits 2 (R.sBytes s.c ++ be32 0) ∧
      ∀ r : Reader, r.flat = R.sBytes s.c ++ be32 0 → (t.decode R keys' r).IsErr := by
  have e : s.encode R keys = ({ s with r := [] } : Signature F G).encode R keys := by
    unfold Signature.encode
    rw [← be32_mod s.r.length, h, if_pos rfl]
    rfl
  refine ⟨e, e ▸ C18_encode_empty R _ keys rfl, fun r hr => ?_⟩
  obtain ⟨b, hb, hd⟩ := C18_empty E t ({ s with r := [] } : Signature F G) keys keys' rfl ⟨[], 2, 0⟩ le_rfl
  have h2 := (C18_encode_empty R ({ s with r := [] } : Signature F G) keys rfl).good ⟨[], 2, 0⟩ le_rfl
  have : b = R.sBytes s.c ++ be32 0 := by
    have := congrArg (·.2.out) (hb.symm.trans h2)
    simpa using this
  exact hd r (by rw [hr, this])

/-- C146 (violated): with another number from `2^32` on, all responses are written, but after a count from which `Decode` takes
only the first ones, without error; the others stay in the stream. -/
theorem C146_signature_cut_violated {R : Ristretto F G} (E : R.Encodings) (t s : Signature F G) (n : Nat) (h : s.r.length % 2 ^ 32 ≠ 0)
    (hn : n < 2 ^ 32) (hrect : ∀ r ∈ s.r, r.length = n) :
    (s.encode R false).Emits (writes s false) (encoding R s n false) ∧ ∀ (r : Reader) (rest : Bytes), r.flat = encoding R s n false ++ rest →
      ∃ r', t.decode R false r = .ok ({ t with c := s.c, r := s.r.take (s.r.length % 2 ^ 32) }, r') ∧
        r'.flat = ((s.r.drop (s.r.length % 2 ^ 32)).flatMap fun r => r.flatMap R.sBytes) ++ rest := by
  constructor
  · cases hs : s.r with
    | nil => rw [hs] at h; simp at h
    | cons r0 rs =>
      unfold Signature.encode writes encoding
      rw [if_neg h, hs, show ∀ a b : Nat, 3 + (a + b) = 1 + (1 + (1 + (a + b))) by omega, ← hrect r0 (by rw [hs]; simp)]
      refine (writeB_emits _).bind ((writeB_emits _).bind ((writeB_emits _).bind ?_))
      exact (writeEach_emits (k := List.length) (r0 :: rs) fun a _ => encodeResponses_emits R a).bind .pure
  · intro r rest hr
    have hle : s.r.length % 2 ^ 32 ≤ s.r.length := Nat.mod_le _ _
    have hlen : (s.r.take (s.r.length % 2 ^ 32)).length = s.r.length % 2 ^ 32 := by rw [List.length_take]; omega
    have hd := C18_decode E t ({ s with r := s.r.take (s.r.length % 2 ^ 32) } : Signature F G) false n (by dsimp only; omega) hn
      (fun r hr => hrect r (List.mem_of_mem_take hr)) (by simp)
    obtain ⟨r', h1, h2, -⟩ := hd.full r (((s.r.drop (s.r.length % 2 ^ 32)).flatMap fun r => r.flatMap R.sBytes) ++ rest) (by
      rw [hr]
      unfold encoding
      dsimp only
      rw [hlen, be32_mod]
      conv_lhs => rw [← List.take_append_drop (s.r.length % 2 ^ 32) s.r, List.flatMap_append, List.take_append_drop]
      simp)
    exact ⟨r', h1, h2⟩

end Mlsag

namespace IP

/-- C146 (violated expectation: `Encode` writes the whole proof or reports an error): of a proof with `2^32` or more points `L` it
writes only as copies pairs as their number modulo `2^32`, without error, and `Decode` reads a shorter proof from it. -/
theorem C146_innerproduct_violated [DecidableEq F] [DecidableEq G] {R : Ristretto F G} (E : R.Encodings) (p : Proof F G) (h : p.L.length = p.R.length) :
    let k := p.L.length % 2 ^ 32
    let q : Proof F G := ⟨p.L.take k, p.R.take k, p.A, p.B⟩
    p.encode R = q.encode R ∧ (p.encode R).Emits (2 + 2 * k) (encoding R q) ∧ (p = q ↔ p.L.length < 2 ^ 32) ∧
      ∀ r : Reader, r.flat = encoding R q → r.fin = .eof → Proof.decode R r = .ok (q, ⟨[], .eof⟩) := by
  intro k q
  have hk : k ≤ p.L.length := Nat.mod_le _ _
  have hkl : k < 2 ^ 32 := Nat.mod_lt _ (by norm_num)
  have hl : q.L.length = k := by show (p.L.take k).length = k; rw [List.length_take]; omega
  have hr : q.R.length = k := by show (p.R.take k).length = k; rw [List.length_take]; omega
  have cut : ∀ (L Rs : List G) (w : Writer), L.length ≤ Rs.length → encodeLoop R L Rs w = encodeLoop R L (Rs.take L.length) w := by
    intro L
    induction L with
    | nil => intros; rfl
    | cons l ls ih =>
      intro Rs w hle
      cases Rs with
      | nil => simp at hle
      | cons x xs =>
        simp only [List.length_cons, List.take_succ_cons, encodeLoop]
        congr 1
        funext _
        congr 1
        funext _ w'
        exact ih xs w' (by simpa using hle)
  have e : p.encode R = q.encode R := by
    unfold Proof.encode
    have h1 : p.L.take (p.L.length % 2 ^ 32) = q.L := rfl
    have h2 : q.L.take (q.L.length % 2 ^ 32) = q.L := by rw [hl, Nat.mod_eq_of_lt hkl, ← hl, List.take_length]
    rw [h1, h2]
    congr 1
    funext _
    congr 1
    funext _ w
    have := cut q.L p.R w (by rw [hl]; omega)
    rw [hl] at this
    exact this
  refine ⟨e, ?_, ⟨fun hpq => ?_, fun hlt => ?_⟩, ?_⟩
  · rw [e, ← hl]
    exact C57_encode R q (by rw [hl, hr]) (by rw [hl]; exact hkl)
  · have := congrArg (fun x => x.L.length) hpq
    rw [hl] at this
    omega
  · have hkk : k = p.L.length := Nat.mod_eq_of_lt hlt
    show p = ⟨p.L.take k, p.R.take k, p.A, p.B⟩
    rw [hkk, List.take_length, h, List.take_length]
  · intro r hf he
    exact C57_roundtrip E q (by rw [hl, hr]) (by rw [hl]; exact hkl) [] (by simp) r (by rw [hf, List.append_nil]) he

end IP

/-- C146 (violated expectation: `EncodeCommitments` writes a list that can be read back, or reports an error): it writes the number
modulo `2^32` and all values; `DecodeCommitments` reads only as copies as this number, and the others stay in the stream. -/
theorem C146_commitments_violated {R : Ristretto F G} (E : R.Encodings) (cs : List (Commitment F G)) (rest : Bytes) (r : Reader) :
    let k := cs.length % 2 ^ 32
    let b := be32 k ++ cs.flatMap fun c => R.pBytes c.value
    (Commitment.encodeAll R cs).Emits (1 + cs.length) b ∧ (r.flat = b ++ rest → ∃ r', Commitment.decodeAll R r =
      .ok ((cs.take k).map fun c => ⟨c.value, 0⟩, r') ∧ r'.flat = ((cs.drop k).flatMap fun c => R.pBytes c.value) ++ rest) := by
  intro k b
  have hb : b = be32 cs.length ++ cs.flatMap fun c => R.pBytes c.value := by
    show be32 (cs.length % 2 ^ 32) ++ _ = _
    rw [be32_mod]
  refine ⟨hb ▸ Commitment.encodeAll_emits R cs, fun hr => ?_⟩
  have hk : k ≤ cs.length := Nat.mod_le _ _
  have hd := Commitment.decodeAll_decodes E (cs.take k) (by rw [List.length_take]; have : k < 2 ^ 32 := Nat.mod_lt _ (by norm_num); omega)
  obtain ⟨r', h1, h2, -⟩ := hd.full r (((cs.drop k).flatMap fun c => R.pBytes c.value) ++ rest) (by
    rw [hr, List.length_take, Nat.min_eq_left hk]
    show be32 k ++ _ ++ rest = _
    conv_lhs => rw [← List.take_append_drop k cs, List.flatMap_append]
    simp)
  exact ⟨r', h1, h2⟩

namespace Pedersen

theorem commitLoop_panic (bs : List F) : ∀ (hs : List G) (sum : G), commitLoop bs hs sum = .panic ↔ hs.length < bs.length := by
  induction bs with
  | nil => intro hs sum; simp [commitLoop]
  | cons b bs ih =>
    intro hs sum
    cases hs with
    | nil => simp [commitLoop]
    | cons h hs => rw [commitLoop, ih]; simp

/-- C146 (violated expectation: a commitment to any number of scalars can be computed): `commitToScalars` panics exactly if `2^32` or
more bases are missing. -/
theorem C146_pedersen_violated (R : Ristretto F G) (p : Pedersen G) (blind : Option F) (scalars : List F) :
    p.commitToScalars R blind scalars = .panic ↔ p.baseVector.bases.length + 2 ^ 32 ≤ scalars.length := by
  unfold commitToScalars
  dsimp only
  set gen := if p.baseVector.bases.length < scalars.length then
      p.baseVector.compute R ((scalars.length - p.baseVector.bases.length) % 2 ^ 32)
    else p.baseVector with hgen
  have key : ∀ sum : G, ((commitLoop scalars gen.bases sum).bind fun s => Res.ok (s, { p with baseVector := gen })) = .panic ↔
      gen.bases.length < scalars.length := by
    intro sum
    rw [← commitLoop_panic scalars gen.bases sum]
    cases commitLoop scalars gen.bases sum <;> simp [Res.bind]
  rw [key, hgen]
  split
  · rename_i h
    rw [PedConc.compute_length']
    omega
  · omega

end Pedersen

/-! ## Cases: lists of `2^32` and `2^32 + 1` elements -/

/-- `2^32 + d` copies of an element. -/
def copies {α : Type} (d : Nat) (a : α) : List α := List.replicate (2 ^ 32 + d) a

theorem copies_length {α : Type} (d : Nat) (a : α) : (copies d a).length = 2 ^ 32 + d := List.length_replicate

attribute [irreducible] copies

example (t : Mlsag.Signature Toy.K Toy.K) (c x : Toy.K) (keys keys' : Bool) :=
  Mlsag.C146_signature_violated Toy.ris_encodings t ⟨c, copies 0 [x], [⟨false, [x]⟩], [1]⟩ keys keys' (by dsimp only; rw [copies_length]; norm_num)

example (t : Mlsag.Signature Toy.K Toy.K) (c x : Toy.K) :=
  Mlsag.C146_signature_cut_violated Toy.ris_encodings t ⟨c, copies 1 [x], [⟨false, [x]⟩], [1]⟩ 1 (by dsimp only; rw [copies_length]; norm_num)
    (by norm_num) (fun r hr => by unfold copies at hr; rw [List.eq_of_mem_replicate hr]; rfl)

example := IP.C146_innerproduct_violated Toy.ris_encodings ⟨copies 1 3, copies 1 4, 5, 6⟩ (by dsimp only; rw [copies_length, copies_length])

example (r : Reader) := C146_commitments_violated Toy.ris_encodings (copies 1 ⟨7, 8⟩) [] r

example : (Pedersen.new Toy.ris [1]).commitToScalars Toy.ris (none : Option Toy.K) (copies 0 1) = .panic :=
  (Pedersen.C146_pedersen_violated _ _ _ _).2 (by rw [copies_length]; exact le_rfl)

end Dusk
