import Verif.Props.Mlsag
import Verif.Props.RPCodec
/-!
# Encoding, decoding and equality of MLSAG signatures (C18, C22, C26), and the codecs of all packages (C19 – C21)
-/

set_option linter.unusedSectionVars false

namespace Dusk.Mlsag

variable {F G : Type} [Field F] [AddCommGroup G] [Module F G]

/-! ## C18 -/

/-- Specification: the encoding of a signature with `n` responses per member. -/
def encoding (R : Ristretto F G) (s : Signature F G) (n : Nat) (keys : Bool) : Bytes :=
  R.sBytes s.c ++ (be32 s.r.length ++ (be32 n ++ ((s.r.flatMap fun r => r.flatMap R.sBytes) ++
    if keys then s.pubKeys.flatMap fun k => k.keys.flatMap R.pBytes else [])))

/-- The number of `Write` calls. -/
def writes (s : Signature F G) (keys : Bool) : Nat :=
  3 + ((s.r.map List.length).sum + if keys then (s.pubKeys.map fun k => k.keys.length).sum else 0)

theorem sum_map_one {α : Type} (l : List α) : (l.map fun _ => 1).sum = l.length := by
  induction l with
  | nil => rfl
  | cons a l ih => simp only [List.map_cons, List.sum_cons, ih, List.length_cons]; omega

theorem encodeResponses_emits (R : Ristretto F G) (r : List F) : (encodeResponses R r).Emits r.length (r.flatMap R.sBytes) := by
  have := writeEach_emits (f := fun x => writeB (R.sBytes x)) (k := fun _ => 1) (enc := R.sBytes) r fun a _ => writeB_emits _
  rwa [sum_map_one] at this

theorem PubKeys.encode_emits (R : Ristretto F G) (k : PubKeys G) :
    (PubKeys.encode R k).Emits k.keys.length (k.keys.flatMap R.pBytes) := by
  have := writeEach_emits (f := fun x => writeB (R.pBytes x)) (k := fun _ => 1) (enc := R.pBytes) k.keys fun a _ => writeB_emits _
  rwa [sum_map_one] at this

/-- C18, C21: `Encode` of a signature with at least one response vector writes its encoding; if the writer fails it
returns an error after a prefix of this. -/
theorem C18_encode (R : Ristretto F G) (s : Signature F G) (keys : Bool) (hr : s.r ≠ []) (hl : s.r.length < 2 ^ 32)
    {n : Nat} (hn : s.r.head?.map List.length = some n) :
    (s.encode R keys).Emits (writes s keys) (encoding R s n keys) := by
  cases hs : s.r with
  | nil => exact absurd hs hr
  | cons r0 rs =>
    rw [hs] at hn hl
    have hn : r0.length = n := by simpa using hn
    unfold Signature.encode writes encoding
    rw [hs, Nat.mod_eq_of_lt hl]
    rw [show ∀ a b : Nat, 3 + (a + b) = 1 + (1 + (1 + (a + b))) by omega, ← hn]
    refine (writeB_emits _).bind ((writeB_emits _).bind ?_)
    rw [if_neg (by simp)]
    refine (writeB_emits _).bind ((writeEach_emits (k := List.length) (r0 :: rs) fun a _ => encodeResponses_emits R a).bind ?_)
    cases keys with
    | false => exact .pure
    | true => exact writeEach_emits (k := fun k => k.keys.length) s.pubKeys fun a _ => PubKeys.encode_emits R a

/-- C18: with no response vectors `Encode` writes the challenge and a zero length only. -/
theorem C18_encode_empty (R : Ristretto F G) (s : Signature F G) (keys : Bool) (hr : s.r = []) :
    (s.encode R keys).Emits 2 (R.sBytes s.c ++ be32 0) := by
  unfold Signature.encode
  rw [hr]
  refine (writeB_emits _).bind (k₁ := 1) (k₂ := 1) ?_
  have := (writeB_emits (be32 0)).bind (f := fun _ => Wr.pure ()) .pure
  rw [List.append_nil, Nat.add_zero] at this
  exact this

theorem readScalar_decodes {R : Ristretto F G} (E : R.Encodings) (s : F) : (readScalar R).Decodes (R.sBytes s) s := by
  have := (readN_decodes' (E.sBytes_length s)).map (fun b => R.sOfBytes b)
  rwa [E.sOfBytes_sBytes] at this

theorem readPoint_decodes {R : Ristretto F G} (E : R.Encodings) (P : G) : (readPoint R).Decodes (R.pBytes P) P := by
  refine (readN_decodes' (E.pBytes_length P)).bind_nil ?_
  simp only [E.pOfBytes_pBytes, if_true]
  exact .pure _

theorem decodeResponses_decodes {R : Ristretto F G} (E : R.Encodings) (r : List F) :
    (decodeResponses R [] r.length).Decodes (r.flatMap R.sBytes) r := by
  have := (readTimes_decodes (m := readScalar R) (enc := R.sBytes) r fun a _ => readScalar_decodes E a).map (fun xs => [] ++ xs)
  exact this

theorem PubKeys.decode_decodes {R : Ristretto F G} (E : R.Encodings) (k : PubKeys G) :
    (PubKeys.decode R {} k.keys.length).Decodes (k.keys.flatMap R.pBytes) ⟨false, k.keys⟩ := by
  have := (readTimes_decodes (m := readPoint R) (enc := R.pBytes) k.keys fun a _ => readPoint_decodes E a).map
    (fun xs => ({ ({} : PubKeys G) with keys := ({} : PubKeys G).keys ++ xs } : PubKeys G))
  exact this

/-- What a receiver `t` knows after decoding `s`: challenge and responses, and the points of the keys if they are
included. The message and the decoy flags are not transmitted. -/
def received (t s : Signature F G) (keys : Bool) : Signature F G :=
  { t with c := s.c, r := s.r, pubKeys := if keys then s.pubKeys.map fun k => ⟨false, k.keys⟩ else t.pubKeys }

/-- C18, C19: `Decode` of an encoding of rectangular matrices reads exactly these bytes and restores the signature; every
strict prefix is rejected. -/
theorem C18_decode {R : Ristretto F G} (E : R.Encodings) (t s : Signature F G) (keys : Bool) (n : Nat)
    (hl : s.r.length < 2 ^ 32) (hn : n < 2 ^ 32) (hrect : ∀ r ∈ s.r, r.length = n)
    (hkeys : keys = true → s.pubKeys.length = s.r.length ∧ ∀ k ∈ s.pubKeys, k.keys.length = n) :
    (t.decode R keys).Decodes (encoding R s n keys) (received t s keys) := by
  unfold Signature.decode encoding received
  refine (readScalar_decodes E s.c).bind <| (readU32_decodes hl).bind <| (readU32_decodes hn).bind ?_
  have h1 : (readTimes (decodeResponses R [] n) s.r.length).Decodes (s.r.flatMap fun r => r.flatMap R.sBytes) s.r :=
    readTimes_decodes s.r fun a ha => by
      have := decodeResponses_decodes E a
      rwa [hrect a ha] at this
  cases keys with
  | false => exact h1.bind (.pure _)
  | true =>
    obtain ⟨hk1, hk2⟩ := hkeys rfl
    have h2 : (readTimes (PubKeys.decode R {} n) s.pubKeys.length).Decodes (s.pubKeys.flatMap fun k => k.keys.flatMap R.pBytes)
        (s.pubKeys.map fun k => ⟨false, k.keys⟩) :=
      readTimes_decodes_map s.pubKeys fun k hk => by
        have := PubKeys.decode_decodes E k
        rwa [hk2 k hk] at this
    rw [hk1] at h2
    exact h1.bind (h2.map fun pk => ({ t with c := s.c, r := s.r, pubKeys := pk } : Signature F G))

/-- C18: encode, then decode from any stream that delivers the written bytes first, in any chunks. -/
theorem C18_roundtrip {R : Ristretto F G} (E : R.Encodings) (t s : Signature F G) (keys : Bool) (n : Nat) (hr : s.r ≠ [])
    (hl : s.r.length < 2 ^ 32) (hn : n < 2 ^ 32) (hrect : ∀ r ∈ s.r, r.length = n)
    (hkeys : keys = true → s.pubKeys.length = s.r.length ∧ ∀ k ∈ s.pubKeys, k.keys.length = n)
    (w : Writer) (hw : (s.encode R keys w).1 = .ok ()) (b rest : Bytes) (hb : (s.encode R keys w).2.out = w.out ++ b)
    (r : Reader) (hrd : r.flat = b ++ rest) :
    ∃ r', t.decode R keys r = .ok (received t s keys, r') ∧ r'.flat = rest ∧ r'.fin = r.fin := by
  have hhead : s.r.head?.map List.length = some n := by
    cases hs : s.r with
    | nil => exact absurd hs hr
    | cons r0 rs => simp [hrect r0 (by simp [hs])]
  have hem := C18_encode R s keys hr hl hhead
  rcases Nat.lt_or_ge w.left (writes s keys) with h | h
  · obtain ⟨e, he⟩ := (hem.bad w h).1
    rw [he] at hw; cases hw
  · rw [hem.good w h] at hb
    have hb := List.append_cancel_left hb
    exact (C18_decode E t s keys n hl hn hrect hkeys).full r rest (by rw [hrd, ← hb])

/-- C18: the output of `Encode` on a signature without responses cannot be decoded. -/
theorem C18_empty {R : Ristretto F G} (E : R.Encodings) (t s : Signature F G) (keys keys' : Bool) (hr : s.r = []) (w : Writer)
    (hw : 2 ≤ w.left) : ∃ b, s.encode R keys w = (.ok (), { w with out := w.out ++ b, left := w.left - 2 }) ∧
      ∀ r : Reader, r.flat = b → (t.decode R keys' r).IsErr := by
  refine ⟨_, (C18_encode_empty R s keys hr).good w hw, fun r hrd => ?_⟩
  obtain ⟨r1, a1, b1, c1⟩ := (readScalar_decodes E s.c).full r (be32 0) hrd
  obtain ⟨r2, a2, b2, c2⟩ := (readU32_decodes (n := 0) (by norm_num)).full r1 [] (by rw [b1, List.append_nil])
  have h3 : readU32 r2 = .err "EOF" := by
    unfold readU32 Rd.bind
    rw [readN_of_gt (by rw [b2]; simp)]
    rfl
  unfold Signature.decode
  simp only [Rd.bind, a1, a2, h3, Res.bind_ok, Res.bind_err]
  exact Res.isErr_err _

/-- A signature with two members and two keys each. -/
example : ∃ s : Signature Toy.K Toy.K, Toy.ris.Encodings ∧ s.r ≠ [] ∧ (∀ r ∈ s.r, r.length = 2) ∧ s.pubKeys.length = s.r.length ∧
    ∀ k ∈ s.pubKeys, k.keys.length = 2 :=
  ⟨⟨1, [[2, 3], [4, 5]], [⟨true, [6, 7]⟩, ⟨false, [8, 9]⟩], [1]⟩, Toy.ris_encodings, by simp, by simp, by simp, by simp⟩

/-! ## C19, C20: decoders -/

theorem readScalar_noPanic (R : Ristretto F G) : (readScalar R).NoPanic := (readN_noPanic 32).bind fun _ => .pure _
theorem readScalar_chunkFree (R : Ristretto F G) : (readScalar R).ChunkFree := (readN_chunkFree 32).bind fun _ => .pure _

theorem readPoint_noPanic (R : Ristretto F G) : (readPoint R).NoPanic := by
  refine (readN_noPanic 32).bind fun b => ?_
  split
  · exact .pure _
  · exact .fail _

theorem readPoint_chunkFree (R : Ristretto F G) : (readPoint R).ChunkFree := by
  refine (readN_chunkFree 32).bind fun b => ?_
  split
  · exact .pure _
  · exact .fail _

/-- C19: `Signature.Decode` never panics. -/
theorem C19_mlsag (R : Ristretto F G) (t : Signature F G) (keys : Bool) : (t.decode R keys).NoPanic := by
  refine (readScalar_noPanic R).bind fun c => readU32_noPanic.bind fun l => readU32_noPanic.bind fun n =>
    (readTimes_noPanic ((readTimes_noPanic (readScalar_noPanic R) _).bind fun _ => .pure _) _).bind fun r => ?_
  split
  · exact .pure _
  · exact (readTimes_noPanic ((readTimes_noPanic (readPoint_noPanic R) _).bind fun _ => .pure _) _).bind fun _ => .pure _

example (b : Bytes) : Signature.decode Toy.ris (⟨3, [[1]], [⟨true, [7]⟩], [1, 2]⟩ : Signature Toy.K Toy.K) true (Reader.ofBytes b) ≠ .panic :=
  C19_mlsag Toy.ris _ true _

/-- C19: `DecodeCommitments` never panics. -/
theorem C19_commitments (R : Ristretto F G) : (Commitment.decodeAll R).NoPanic := Commitment.decodeAll_noPanic R

example (b : Bytes) : Commitment.decodeAll Toy.ris (Reader.ofBytes b) ≠ .panic := C19_commitments Toy.ris _

/-- C19: the inner product decoder never panics. -/
theorem C19_innerproduct [DecidableEq F] (R : Ristretto F G) : (IP.Proof.decode R).NoPanic := RP.ipDecode_noPanic R

example (b : Bytes) : IP.Proof.decode Toy.ris (Reader.ofBytes b) ≠ .panic := C19_innerproduct Toy.ris _

/-- C19: the range proof decoder never panics. -/
theorem C19_rangeproof [DecidableEq F] (R : Ristretto F G) (t : RP.Proof F G) (incl : Bool) : (t.decode R incl).NoPanic :=
  RP.C66_noPanic R t incl

example (t : RP.Proof Toy.K Toy.K) (b : Bytes) : t.decode Toy.ris false (Reader.ofBytes b) ≠ .panic := C19_rangeproof Toy.ris t false _

/-- C19: every strict prefix of the encoding of a signature with rectangular matrices is rejected. -/
theorem C19_truncated {R : Ristretto F G} (E : R.Encodings) (t s : Signature F G) (keys : Bool) (n : Nat)
    (hl : s.r.length < 2 ^ 32) (hn : n < 2 ^ 32) (hrect : ∀ r ∈ s.r, r.length = n)
    (hkeys : keys = true → s.pubKeys.length = s.r.length ∧ ∀ k ∈ s.pubKeys, k.keys.length = n)
    (r : Reader) (h1 : r.flat <+: encoding R s n keys) (h2 : r.flat ≠ encoding R s n keys) : (t.decode R keys r).IsErr :=
  (C18_decode E t s keys n hl hn hrect hkeys).short r h1 h2

/-- C20: the outcome of `Signature.Decode` does not depend on the chunks in which the reader delivers the bytes. -/
theorem C20_mlsag (R : Ristretto F G) (t : Signature F G) (keys : Bool) : (t.decode R keys).ChunkFree := by
  refine (readScalar_chunkFree R).bind fun c => readU32_chunkFree.bind fun l => readU32_chunkFree.bind fun n =>
    (readTimes_chunkFree ((readTimes_chunkFree (readScalar_chunkFree R) _).bind fun _ => .pure _) _).bind fun r => ?_
  split
  · exact .pure _
  · exact (readTimes_chunkFree ((readTimes_chunkFree (readPoint_chunkFree R) _).bind fun _ => .pure _) _).bind fun _ => .pure _

/-- C20: likewise for commitments. -/
theorem C20_commitments (R : Ristretto F G) : (Commitment.decodeAll R).ChunkFree := Commitment.decodeAll_chunkFree R

/-- C20: likewise for inner product proofs. -/
theorem C20_innerproduct [DecidableEq F] (R : Ristretto F G) : (IP.Proof.decode R).ChunkFree := RP.ipDecode_chunkFree R

/-- C20: likewise for range proofs. -/
theorem C20_rangeproof [DecidableEq F] (R : Ristretto F G) (t : RP.Proof F G) (incl : Bool) : (t.decode R incl).ChunkFree :=
  RP.C66_chunkFree R t incl

/-- The same bytes in different pieces: all four decoders end alike. -/
example (s : Signature Toy.K Toy.K) (t : RP.Proof Toy.K Toy.K) : let r : Reader := ⟨[[1, 2], [], [3]], .eof⟩
    let r' : Reader := ⟨[[1], [2, 3]], .eof⟩
    SameOutcome (s.decode Toy.ris true r) (s.decode Toy.ris true r') ∧ SameOutcome (Commitment.decodeAll Toy.ris r) (Commitment.decodeAll Toy.ris r') ∧
    SameOutcome (IP.Proof.decode Toy.ris r) (IP.Proof.decode Toy.ris r') ∧ SameOutcome (t.decode Toy.ris true r) (t.decode Toy.ris true r') :=
  have h : (⟨[[1, 2], [], [3]], .eof⟩ : Reader).Same ⟨[[1], [2, 3]], .eof⟩ := ⟨rfl, rfl⟩
  ⟨C20_mlsag _ _ _ _ _ h, C20_commitments _ _ _ h, C20_innerproduct _ _ _ h, C20_rangeproof _ _ _ _ _ h⟩

/-- Two different deliveries of the same bytes. -/
example : (⟨[[1, 2], [], [3]], .eof⟩ : Reader).Same ⟨[[1], [2, 3]], .eof⟩ := ⟨rfl, rfl⟩

/-! ## C21: encoders -/

/-- What C21 asks of an encoder with encoding `b`: on every writer the call returns nil and the writer has received `b`,
or it returns an error and the writer has received a prefix of `b`; a writer that fails before the last `Write` leads to an
error. -/
def ReportsFailures (m : Wr Unit) (b : Bytes) : Prop :=
  ∃ k, ∀ w : Writer, (w.left < k → (m w).1.IsErr) ∧
    (((m w).1 = .ok () ∧ (m w).2.out = w.out ++ b) ∨ ((m w).1.IsErr ∧ ∃ p, p <+: b ∧ (m w).2.out = w.out ++ p))

theorem Wr.Emits.reports {m : Wr Unit} {k : Nat} {b : Bytes} (h : m.Emits k b) : ReportsFailures m b := by
  refine ⟨k, fun w => ⟨fun hw => (h.bad w hw).1, ?_⟩⟩
  rcases Nat.lt_or_ge w.left k with hw | hw
  · exact .inr (h.bad w hw)
  · left
    rw [h.good w hw]
    exact ⟨rfl, rfl⟩

/-- C21: MLSAG signatures. -/
theorem C21_mlsag (R : Ristretto F G) (s : Signature F G) (keys : Bool) (hl : s.r.length < 2 ^ 32) :
    ReportsFailures (s.encode R keys) (if s.r = [] then R.sBytes s.c ++ be32 0 else
      encoding R s ((s.r.head?.map List.length).getD 0) keys) := by
  split
  · rename_i h
    exact Wr.Emits.reports (C18_encode_empty R s keys h)
  · rename_i h
    refine Wr.Emits.reports (C18_encode R s keys h hl ?_)
    cases hs : s.r with
    | nil => exact absurd hs h
    | cons a l => rfl

/-- C21: commitments. -/
theorem C21_commitments (R : Ristretto F G) (cs : List (Commitment F G)) :
    ReportsFailures (Commitment.encodeAll R cs) (be32 cs.length ++ cs.flatMap fun c => R.pBytes c.value) :=
  Wr.Emits.reports (Commitment.encodeAll_emits R cs)

example : ReportsFailures (Commitment.encodeAll Toy.ris [⟨7, 1⟩, ⟨8, 2⟩]) (be32 2 ++ (Toy.ris.pBytes 7 ++ Toy.ris.pBytes 8)) := by
  simpa using C21_commitments Toy.ris [⟨7, 1⟩, ⟨8, 2⟩]

/-- C21: inner product proofs. -/
theorem C21_innerproduct [DecidableEq F] (R : Ristretto F G) (p : IP.Proof F G) (h : p.L.length = p.R.length) (hk : p.L.length < 2 ^ 32) :
    ReportsFailures (p.encode R) (IP.encoding R p) := Wr.Emits.reports (IP.C57_encode R p h hk)

/-- C21: range proofs. -/
theorem C21_rangeproof [DecidableEq F] (R : Ristretto F G) (p : RP.Proof F G) (ip : IP.Proof F G) (hip : p.ip = some ip) (incl : Bool)
    (h : ip.L.length = ip.R.length) (hk : ip.L.length < 2 ^ 32) :
    ReportsFailures (p.encode R incl) (RP.outerEncoding R p incl ++ IP.encoding R ip) :=
  Wr.Emits.reports (RP.C66_encode R p ip hip incl h hk)

/-! ## C22 -/

theorem listEquals_iff {α : Type} [DecidableEq α] (a b : List α) : listEquals a b = true ↔ a = b := by
  unfold listEquals
  by_cases h : a.length = b.length
  · rw [if_neg (by simpa using h)]
    constructor
    · intro h1
      rw [List.all_eq_true] at h1
      apply List.ext_getElem h
      intro i h2 h3
      have := h1 (a[i], b[i]) (List.mem_iff_getElem.2 ⟨i, by simp; omega, by simp⟩)
      simpa using this
    · rintro rfl
      rw [List.all_eq_true]
      intro p hp
      obtain ⟨i, hi, rfl⟩ := List.mem_iff_getElem.1 hp
      simp
  · rw [if_pos h]
    constructor
    · intro h'; cases h'
    · rintro rfl; exact absurd rfl h

theorem equalsLoop_spec [DecidableEq F] : ∀ (a b : List (List F)), a.length ≤ b.length →
    equalsLoop a b = .ok (decide (a = b.take a.length))
  | [], _, _ => by simp [equalsLoop]
  | _ :: _, [], h => by simp at h
  | x :: a, y :: b, h => by
    simp only [List.length_cons, Nat.add_le_add_iff_right] at h
    unfold equalsLoop
    by_cases hxy : x = y
    · rw [(listEquals_iff x y).2 hxy, if_pos rfl, equalsLoop_spec a b h]
      simp [hxy]
    · rw [if_neg (by rw [listEquals_iff]; exact hxy)]
      simp [hxy]

theorem equalsLoop_panic [DecidableEq F] : ∀ (a b : List (List F)), b.length < a.length →
    equalsLoop a b = if b = a.take b.length then .panic else .ok false
  | [], _, h => by simp at h
  | x :: a, [], _ => by simp [equalsLoop]
  | x :: a, y :: b, h => by
    simp only [List.length_cons, Nat.add_lt_add_iff_right] at h
    unfold equalsLoop
    by_cases hxy : x = y
    · rw [(listEquals_iff x y).2 hxy, if_pos rfl, equalsLoop_panic a b h]
      simp [hxy]
    · rw [if_neg (by rw [listEquals_iff]; exact hxy), if_neg]
      simp only [List.length_cons, List.take_succ_cons, List.cons.injEq]
      tauto

variable [DecidableEq F] [DecidableEq G]

theorem keys_all : ∀ (a b : List (PubKeys G)), a.length = b.length →
    ((a.zip b).all fun p => listEquals p.1.keys p.2.keys) = decide (a.map (·.keys) = b.map (·.keys))
  | [], [], _ => by simp
  | [], _ :: _, h => by simp at h
  | _ :: _, [], h => by simp at h
  | x :: a, y :: b, h => by
    simp only [List.zip_cons_cons, List.all_cons, List.map_cons, List.cons.injEq, Bool.decide_and]
    rw [keys_all a b (by simpa using h)]
    congr 1
    rw [Bool.eq_iff_iff, listEquals_iff, decide_eq_true_eq]

/-- C22: with equal numbers of response vectors, `Equals` is equality of challenges, responses and, if included, of the key
points. -/
theorem C22_equal_counts (s t : Signature F G) (keys : Bool) (h : s.r.length = t.r.length) :
    ∃ b, s.equals t keys = .ok b ∧ (b = true ↔ s.c = t.c ∧ s.r = t.r ∧
      (keys = true → s.pubKeys.map (·.keys) = t.pubKeys.map (·.keys))) := by
  unfold Signature.equals
  by_cases hc : s.c = t.c
  · rw [if_neg (by simpa using hc), equalsLoop_spec _ _ (by omega), Res.bind_ok, h, List.take_length]
    by_cases hr : s.r = t.r
    · rw [decide_eq_true hr]
      cases keys with
      | false => exact ⟨true, rfl, by simp [hc, hr]⟩
      | true =>
        simp only [Bool.not_true, Bool.false_eq_true, if_false]
        by_cases hl : s.pubKeys.length = t.pubKeys.length
        · rw [if_neg (by simpa using hl), keys_all _ _ hl]
          exact ⟨_, rfl, by simp [hc, hr]⟩
        · rw [if_pos hl]
          refine ⟨false, rfl, ?_⟩
          simp only [Bool.false_eq_true, forall_const, false_iff, not_and]
          intro _ _ h'
          exact hl (by simpa using congrArg List.length h')
    · rw [decide_eq_false hr]
      exact ⟨false, rfl, by simp [hr]⟩
  · rw [if_pos hc]
    exact ⟨false, rfl, by simp [hc]⟩

/-- C22 (violated): additional response vectors of the other signature are ignored … -/
theorem C22_extra_violated (s : Signature F G) (extra : List (List F)) (keys : Bool) :
    s.equals { s with r := s.r ++ extra } keys = .ok true := by
  unfold Signature.equals
  rw [if_neg (by simp), equalsLoop_spec _ _ (by simp), Res.bind_ok]
  simp only [List.take_left, decide_true, Bool.not_true, Bool.false_eq_true, if_false, ne_eq, not_true_eq_false]
  rw [keys_all _ _ rfl]
  cases keys <;> simp

/-- … while in the other direction `Equals` panics. -/
theorem C22_panic_violated (s : Signature F G) (extra : List (List F)) (he : extra ≠ []) (keys : Bool) :
    ({ s with r := s.r ++ extra } : Signature F G).equals s keys = .panic := by
  unfold Signature.equals
  rw [if_neg (by simp), equalsLoop_panic _ _ (by
    have := mt List.length_eq_zero_iff.1 he
    simp only [List.length_append]; omega), if_pos (by simp), Res.bind_panic]

/-- C22: the outcome of `Equals` in all cases: only the first `len(s.r)` response vectors of the other signature are compared, and the
comparison panics exactly if the other one has fewer, all equal so far. -/
theorem C22_outcome (s t : Signature F G) (keys : Bool) :
    (s.equals t keys = .ok true ↔ s.c = t.c ∧ s.r.length ≤ t.r.length ∧ s.r = t.r.take s.r.length ∧
      (keys = true → s.pubKeys.map (·.keys) = t.pubKeys.map (·.keys))) ∧
    (s.equals t keys = .panic ↔ s.c = t.c ∧ t.r.length < s.r.length ∧ s.r.take t.r.length = t.r) ∧
    ¬ (s.equals t keys).IsErr := by
  unfold Signature.equals
  by_cases hc : s.c = t.c
  · rw [if_neg (by simpa using hc)]
    rcases Nat.lt_or_ge t.r.length s.r.length with hl | hl
    · rw [equalsLoop_panic _ _ hl]
      by_cases hr : t.r = s.r.take t.r.length
      · rw [if_pos hr, Res.bind_panic]
        refine ⟨⟨by simp, fun h => by omega⟩, ⟨fun _ => ⟨hc, hl, hr.symm⟩, fun _ => rfl⟩, by simp [Res.IsErr]⟩
      · rw [if_neg hr, Res.bind_ok]
        refine ⟨⟨by simp, fun h => by omega⟩, ⟨by simp, fun h => absurd h.2.2.symm hr⟩, by simp [Res.IsErr]⟩
    · rw [equalsLoop_spec _ _ hl, Res.bind_ok]
      by_cases hr : s.r = t.r.take s.r.length
      · rw [decide_eq_true hr]
        cases keys with
        | false => simp [hc, hl, ← hr, Res.IsErr]
        | true =>
          simp only [Bool.not_true, Bool.false_eq_true, if_false]
          by_cases hk : s.pubKeys.length = t.pubKeys.length
          · rw [if_neg (by simpa using hk), keys_all _ _ hk]
            simp [hc, hl, ← hr, Res.IsErr]
          · rw [if_pos hk]
            have : s.pubKeys.map (·.keys) ≠ t.pubKeys.map (·.keys) := fun h' => hk (by simpa using congrArg List.length h')
            simp [this, Res.IsErr]
            omega
      · rw [decide_eq_false hr]
        simp [hr, Res.IsErr]
        omega
  · rw [if_pos hc]
    simp [hc, Res.IsErr]

/-- all three outcomes occur, for one signature with one response more than the other. -/
example : (⟨1, [[2]], [], []⟩ : Signature ℚ ℚ).equals ⟨1, [[2], [3]], [], []⟩ false = .ok true ∧
    (⟨1, [[2], [3]], [], []⟩ : Signature ℚ ℚ).equals ⟨1, [[2]], [], []⟩ false = .panic ∧
    (⟨1, [[2], [3]], [], []⟩ : Signature ℚ ℚ).equals ⟨1, [[4]], [], []⟩ false ≠ .panic :=
  ⟨(C22_outcome _ _ _).1.2 (by simp), (C22_outcome _ _ _).2.1.2 (by simp), fun h => by
    simpa using (C22_outcome _ _ _).2.1.1 h⟩

example : (⟨1, [[2]], [], []⟩ : Signature Toy.K Toy.K).equals ⟨1, [[2], [3]], [], []⟩ true = .ok true :=
  C22_extra_violated ⟨1, [[2]], [], []⟩ [[3]] true
example : (⟨1, [[2], [3]], [], []⟩ : Signature Toy.K Toy.K).equals ⟨1, [[2]], [], []⟩ true = .panic :=
  C22_panic_violated (G := Toy.K) ⟨1, [[2]], [], []⟩ [[3]] (by simp) true

/-! ## C26 after decoding -/

theorem readTimes_spec {α : Type} {m : Rd α} {P : α → Prop} (hm : ∀ r a r', m r = .ok (a, r') → P a) :
    ∀ (n : Nat) (r : Reader) (l : List α) (r' : Reader), readTimes m n r = .ok (l, r') → l.length = n ∧ ∀ a ∈ l, P a
  | 0, r, l, r', h => by cases h; simp
  | n + 1, r, l, r', h => by
    obtain ⟨⟨a, r1⟩, h1, h⟩ := Res.bind_eq_ok.1 h
    obtain ⟨⟨as, r2⟩, h2, h⟩ := Res.bind_eq_ok.1 h
    cases h
    obtain ⟨i1, i2⟩ := readTimes_spec hm n r1 as r2 h2
    refine ⟨by simp [i1], fun x hx => ?_⟩
    rcases List.mem_cons.1 hx with rfl | hx
    · exact hm _ _ _ h1
    · exact i2 x hx

/-- C26: what a successful `Decode` guarantees about the dimensions. -/
theorem C26_decoded (R : Ristretto F G) (t s : Signature F G) (r r' : Reader) (h : t.decode R true r = .ok (s, r')) :
    ∃ n, s.pubKeys.length = s.r.length ∧ (∀ x ∈ s.r, x.length = n) ∧ ∀ k ∈ s.pubKeys, k.keys.length = n := by
  unfold Signature.decode at h
  obtain ⟨⟨c, r1⟩, -, h⟩ := Res.bind_eq_ok.1 h
  obtain ⟨⟨l, r2⟩, -, h⟩ := Res.bind_eq_ok.1 h
  obtain ⟨⟨n, r3⟩, -, h⟩ := Res.bind_eq_ok.1 h
  obtain ⟨⟨rs, r4⟩, h4, h⟩ := Res.bind_eq_ok.1 h
  simp only [Bool.not_true, Bool.false_eq_true, if_false] at h
  obtain ⟨⟨ks, r5⟩, h5, h⟩ := Res.bind_eq_ok.1 h
  cases h
  obtain ⟨a1, a2⟩ := readTimes_spec (P := fun x => x.length = n) (by
    intro r a r' h
    obtain ⟨⟨xs, r1⟩, h1, h⟩ := Res.bind_eq_ok.1 h
    cases h
    simpa using (readTimes_spec (P := fun _ => True) (by simp) _ _ _ _ h1).1) _ _ _ _ h4
  obtain ⟨b1, b2⟩ := readTimes_spec (P := fun x : PubKeys G => x.keys.length = n) (by
    intro r a r' h
    obtain ⟨⟨xs, r1⟩, h1, h⟩ := Res.bind_eq_ok.1 h
    cases h
    simpa using (readTimes_spec (P := fun _ => True) (by simp) _ _ _ _ h1).1) _ _ _ _ h5
  exact ⟨n, by simp only; rw [b1, a1], a2, b2⟩

/-- C26: a signature decoded with keys can be verified without panic as long as there are at most as many key images as
responses per member. -/
theorem C26_decoded_verify (R : Ristretto F G) (t s : Signature F G) (r r' : Reader) (h : t.decode R true r = .ok (s, r'))
    (I : List G) (hI : ∀ x ∈ s.r, I.length ≤ x.length) : s.verify R I ≠ .panic := by
  obtain ⟨n, h1, h2, h3⟩ := C26_decoded R t s r r' h
  by_cases he : s.pubKeys = [] ∨ s.r = [] ∨ I = []
  · intro hp
    obtain ⟨e, he⟩ := C17_empty R s I he
    rw [he] at hp; cases hp
  · push Not at he
    intro hp
    rw [C26_panic_iff R s I he.1 he.2.1 he.2.2] at hp
    refine hp ⟨by omega, ?_⟩
    intro m hm
    obtain ⟨j, hj, rfl⟩ := List.mem_iff_getElem.1 hm
    simp only [ringOf, List.length_zip, List.length_map] at hj
    simp only [ringOf, List.getElem_zip, List.getElem_map]
    have e1 := h2 _ (List.getElem_mem (show j < s.r.length by omega))
    have e2 := h3 _ (List.getElem_mem (show j < s.pubKeys.length by omega))
    have e3 := hI _ (List.getElem_mem (show j < s.r.length by omega))
    omega

/-- Both outcomes occur: one image fits, two do not. -/
example : (⟨1, [[2], [3]], [⟨true, [4]⟩, ⟨true, [5]⟩], []⟩ : Signature Toy.K Toy.K).verify Toy.ris [6, 7] = .panic ∧
    (⟨1, [[2], [3]], [⟨true, [4]⟩, ⟨true, [5]⟩], []⟩ : Signature Toy.K Toy.K).verify Toy.ris [6] ≠ .panic := by
  constructor
  · rw [C26_panic_iff _ _ _ (by simp) (by simp) (by simp)]
    simp [Fits, ringOf]
  · rw [Ne, C26_panic_iff _ _ _ (by simp) (by simp) (by simp)]
    simp [Fits, ringOf]

end Dusk.Mlsag
