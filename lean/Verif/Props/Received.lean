import Verif.Props.MlsagCodec
/-!
# C154: signatures received from a stream

The counts in the first 40 bytes of an encoded signature decide how `Verify` indexes the ring and the responses.
-/

set_option linter.unusedSectionVars false

namespace Dusk.Mlsag

variable {F G : Type} [Field F] [AddCommGroup G] [Module F G] [DecidableEq F]

/-- C154: what `Decode` without keys leaves for `Verify`: the ring and the message of the receiver, and as many response vectors of one length as
the stream says. -/
theorem C154_received (R : Ristretto F G) (t s : Signature F G) (r r' : Reader) (h : t.decode R false r = .ok (s, r')) :
    s.pubKeys = t.pubKeys ∧ s.msg = t.msg ∧ ∃ n, ∀ x ∈ s.r, x.length = n := by
  unfold Signature.decode at h
  obtain ⟨⟨c, r1⟩, -, h⟩ := Res.bind_eq_ok.1 h
  obtain ⟨⟨l, r2⟩, -, h⟩ := Res.bind_eq_ok.1 h
  obtain ⟨⟨n, r3⟩, -, h⟩ := Res.bind_eq_ok.1 h
  obtain ⟨⟨rs, r4⟩, h4, h⟩ := Res.bind_eq_ok.1 h
  simp only [Bool.not_false, if_true] at h
  cases h
  refine ⟨rfl, rfl, n, ?_⟩
  exact (readTimes_spec (P := fun x => x.length = n) (by
    intro r a r' h
    obtain ⟨⟨xs, r1⟩, h1, h⟩ := Res.bind_eq_ok.1 h
    cases h
    simpa using (readTimes_spec (P := fun _ => True) (fun _ _ _ _ => trivial) _ _ _ _ h1).1) _ _ _ _ h4).2

/-- C154: a receiver whose ring has `d` keys in every member, and who has `k ≤ d` key images: with no response vectors `Verify` returns an error; it
panics exactly if there are more response vectors than members or fewer than `d` responses in a vector; otherwise it decides by the first members
only, as many as there are response vectors. -/
theorem C154_outcome (R : Ristretto F G) (t s : Signature F G) (r r' : Reader) (h : t.decode R false r = .ok (s, r')) (d : Nat)
    (hring : t.pubKeys ≠ []) (hd : ∀ k ∈ t.pubKeys, k.keys.length = d) (I : List G) (hI : I ≠ []) (hk : I.length ≤ d) :
    (s.r = [] → (s.verify R I).IsErr) ∧
    (s.r ≠ [] → (s.verify R I = .panic ↔ t.pubKeys.length < s.r.length ∨ ∃ x ∈ s.r, x.length < d)) ∧
    (s.r ≠ [] → s.r.length ≤ t.pubKeys.length → (∀ x ∈ s.r, d ≤ x.length) →
      (s.verify R I = .ok true ∨ (s.verify R I).IsErr) ∧
      (s.verify R I = .ok true ↔
        if s.r.length = 1 then
          around R t.msg I ((t.pubKeys.map (·.keys)).zip s.r ++ (t.pubKeys.map (·.keys)).zip s.r) s.c = s.c
        else around R t.msg I ((t.pubKeys.map (·.keys)).zip s.r) s.c = s.c)) := by
  obtain ⟨h1, h2, n, hn⟩ := C154_received R t s r r' h
  have hfits : (∀ x ∈ s.r, d ≤ x.length) → Fits I (ringOf s) := by
    intro hx m hm
    unfold ringOf at hm
    obtain ⟨e1, e2⟩ := List.of_mem_zip hm
    obtain ⟨k, hk', e⟩ := List.mem_map.1 e1
    rw [h1] at hk'
    rw [← e, hd k hk']
    exact ⟨hx _ e2, hk⟩
  refine ⟨fun hr => C17_empty R s I (Or.inr (Or.inl hr)), fun hr => ?_, fun hr hlen hx => ?_⟩
  · rw [C26_panic_iff R s I (by rw [h1]; exact hring) hr hI, h1]
    constructor
    · intro hnot
      by_contra hc
      push Not at hc
      exact hnot ⟨hc.1, hfits hc.2⟩
    · rintro hor ⟨hlen, hf⟩
      rcases hor with hor | ⟨x, hx, hlt⟩
      · omega
      · -- the first member shows the length
        obtain ⟨k0, ks, hks⟩ := List.exists_cons_of_ne_nil hring
        obtain ⟨x0, xs, hxs⟩ := List.exists_cons_of_ne_nil hr
        have hm : (k0.keys, x0) ∈ ringOf s := by
          unfold ringOf
          rw [h1, hks, hxs]
          simp
        have := (hf _ hm).1
        rw [hn x hx] at hlt
        have e0 := hn x0 (by rw [hxs]; simp)
        have ek := hd k0 (by rw [hks]; simp)
        simp only at this
        omega
  · have hnp : s.verify R I ≠ .panic := by
      rw [Ne, C26_panic_iff R s I (by rw [h1]; exact hring) hr hI, h1, not_not]
      exact ⟨hlen, hfits hx⟩
    refine ⟨?_, ?_⟩
    · have e := verify_fold R s I (by rw [h1]; exact hring) hr hI
      rw [e] at hnp ⊢
      revert hnp
      generalize (List.foldl _ _ _ : Res F) = f
      intro hnp
      cases f with
      | ok c =>
        rw [Res.bind_ok]
        split
        · exact Or.inr ⟨_, rfl⟩
        · exact Or.inl rfl
      | err e => exact Or.inr ⟨e, rfl⟩
      | panic => exact absurd rfl hnp
    · have hl0 : s.r.length ≠ 0 := by simpa using hr
      have hro : ringOf s = (t.pubKeys.map (·.keys)).zip s.r := by rw [ringOf, h1]
      split
      · rename_i h1'
        rw [C17_single R s I h1' (by rw [h1]; exact hlen) hI (hfits hx), hro, h2]
      · rename_i h1'
        rw [(C17_verify R s I (by omega) (by rw [h1]; exact hlen) hI (hfits hx)).1, hro, h2]

/-- A ring of two members with one key, three response vectors: the third has no member. -/
example : ∃ s r', (⟨0, [], [⟨false, [3]⟩, ⟨false, [4]⟩], [7]⟩ : Signature Toy.K Toy.K).decode Toy.ris false
    (.ofBytes (encoding Toy.ris ⟨5, [[1], [2], [6]], [], []⟩ 1 false)) = .ok (s, r') ∧ s.verify Toy.ris [9] = .panic := by
  obtain ⟨r', h, -⟩ := (C18_decode Toy.ris_encodings (⟨0, [], [⟨false, [3]⟩, ⟨false, [4]⟩], [7]⟩ : Signature Toy.K Toy.K)
    ⟨5, [[1], [2], [6]], [], []⟩ false 1 (by simp) (by norm_num) (by simp) (by simp)).full
    (.ofBytes (encoding Toy.ris ⟨5, [[1], [2], [6]], [], []⟩ 1 false)) [] (by simp [Reader.ofBytes, Reader.flat])
  refine ⟨_, r', h, ?_⟩
  exact ((C154_outcome Toy.ris _ _ _ r' h 1 (by simp) (by simp) [9] (by simp) (by simp)).2.1 (by simp [received])).2
    (Or.inl (by simp [received]))

theorem nil_flatMap {α : Type} (l : List α) : (l.flatMap fun _ => ([] : Bytes)) = [] := by
  induction l <;> simp_all

theorem blank_decodes (R : Ristretto F G) (t : Signature F G) (keys : Bool) (b : Bytes) (hb : b.length = 32) (N : Nat) (hN : N < 2 ^ 32) :
    (t.decode R keys).Decodes (b ++ (be32 N ++ be32 0))
      { t with c := R.sOfBytes b, r := List.replicate N [], pubKeys := if keys then List.replicate N {} else t.pubKeys } := by
  have hs : (readScalar R).Decodes b (R.sOfBytes b) := by
    have := (readN_decodes' hb).map R.sOfBytes
    exact this
  have h0 : (readTimes (decodeResponses R [] 0) N).Decodes [] (List.replicate N []) := by
    have := readTimes_decodes (m := decodeResponses R [] 0) (enc := fun _ => []) (List.replicate N []) (by
      intro a ha
      rw [List.eq_of_mem_replicate ha]
      exact (Rd.Decodes.pure ([] : List F)).map fun xs => [] ++ xs)
    rw [List.length_replicate, nil_flatMap] at this
    exact this
  have h1 : (readTimes (PubKeys.decode R {} 0) N).Decodes [] (List.replicate N {}) := by
    have := readTimes_decodes (m := PubKeys.decode R {} 0) (enc := fun _ => []) (List.replicate N {}) (by
      intro a ha
      rw [List.eq_of_mem_replicate ha]
      exact (Rd.Decodes.pure ([] : List G)).map fun xs => ({ keys := [] ++ xs } : PubKeys G))
    rw [List.length_replicate, nil_flatMap] at this
    exact this
  unfold Signature.decode
  refine hs.bind ((readU32_decodes hN).bind ((readU32_decodes (by norm_num)).bind_nil (h0.bind_nil ?_)))
  cases keys with
  | false => exact Rd.Decodes.pure _
  | true =>
    simp only [Bool.not_true, Bool.false_eq_true, if_false, if_true]
    exact h1.bind_nil (Rd.Decodes.pure _)


/-- C154 (violated): what is received makes no receiver panic. The 40 bytes of any scalar, the number of members 1 and the number of responses 0 are
accepted by `Decode`, with and without keys, and `Verify` panics on the result, whatever ring, message and key images the receiver has. -/
theorem C154_panic_violated (R : Ristretto F G) (t : Signature F G) (hring : t.pubKeys ≠ []) (keys : Bool) (I : List G) (hI : I ≠ [])
    (b : Bytes) (hb : b.length = 32) (r : Reader) (rest : Bytes) (hr : r.flat = b ++ (be32 1 ++ be32 0) ++ rest) :
    ∃ s r', t.decode R keys r = .ok (s, r') ∧ s.verify R I = .panic := by
  obtain ⟨r', h1, -, -⟩ := (blank_decodes R t keys b hb 1 (by norm_num)).full r rest hr
  refine ⟨_, r', h1, ?_⟩
  have hIl : 0 < I.length := List.length_pos_iff.2 hI
  rw [C26_panic_iff R _ I (by cases keys <;> simp [hring]) (by simp) hI]
  rintro ⟨-, hf⟩
  have hm : ∃ m ∈ ringOf ({ t with c := R.sOfBytes b, r := List.replicate 1 [], pubKeys := if keys then List.replicate 1 {} else t.pubKeys } :
      Signature F G), m.2 = [] := by
    cases keys with
    | true => exact ⟨([], []), by simp [ringOf], rfl⟩
    | false =>
      obtain ⟨k0, ks, hks⟩ := List.exists_cons_of_ne_nil hring
      exact ⟨(k0.keys, []), by simp [ringOf, hks], rfl⟩
  obtain ⟨m, hm, e⟩ := hm
  have := hf m hm
  rw [e, List.length_nil] at this
  omega

example : ∃ s r', (⟨0, [], [⟨false, [3, 4]⟩, ⟨true, [5, 6]⟩], [7]⟩ : Signature Toy.K Toy.K).decode Toy.ris false
    (.ofBytes (List.replicate 32 1 ++ (be32 1 ++ be32 0))) = .ok (s, r') ∧ s.verify Toy.ris [9] = .panic :=
  C154_panic_violated Toy.ris _ (by simp) false [9] (by simp) (List.replicate 32 1) (by simp) _ [] (by simp [Reader.ofBytes, Reader.flat])

/-- C154 (violated): a signature that the receiver accepts is for all of its ring. The sender chooses how many members count: whoever has the keys of
the first member makes bytes with one response vector, which `Decode` accepts and with which `Verify` accepts, whatever other members there are. -/
theorem C154_alone_violated {R : Ristretto F G} (E : R.Encodings) (x nonces : List F) (hn : nonces.length = x.length) (hx : x.length < 2 ^ 32)
    (k : Nat) (hk : 0 < k) (hkx : k ≤ x.length) (f : Bool) (others : List (PubKeys G)) (msg : Bytes) (c0 : F) (r0 : List (List F)) :
    ∃ b : Bytes, b.length = 40 + 32 * x.length ∧ ∀ (r : Reader) (rest : Bytes), r.flat = b ++ rest →
      ∃ s r', (⟨c0, r0, ⟨f, x.map (· • R.base)⟩ :: others, msg⟩ : Signature F G).decode R false r = .ok (s, r') ∧ r'.flat = rest ∧
        s.pubKeys = ⟨f, x.map (· • R.base)⟩ :: others ∧ s.msg = msg ∧ s.verify R ((x.map (image R)).take k) = .ok true := by
  set I := (x.map (image R)).take k with hI
  have hIl : I.length = k := by simp [hI, hkx]
  obtain ⟨c, hc⟩ : ∃ c, firstChallenge R msg nonces I (x.map fun x => x • R.base) = .ok c :=
    ⟨_, firstChallenge_eq R msg x nonces I hn ⟨k, hkx, hI⟩ 0⟩
  set z := List.zipWith (fun x a => -(c * x) + a) x nonces with hz
  have hzl : z.length = x.length := by simp [hz, hn]
  have hlink : link R msg I (x.map (· • R.base)) z c = c := by
    have h := firstChallenge_eq R msg x nonces I hn ⟨k, hkx, hI⟩ c
    rw [hc] at h
    exact (Res.ok.inj h).symm
  refine ⟨encoding R (⟨c, [z], [], []⟩ : Signature F G) x.length false, ?_, ?_⟩
  · have h : ∀ l : List F, (l.flatMap R.sBytes).length = 32 * l.length := by
      intro l
      induction l with
      | nil => rfl
      | cons a l ih =>
        rw [List.flatMap_cons, List.length_append, ih, E.sBytes_length, List.length_cons]
        omega
    simp only [encoding, List.flatMap_cons, List.flatMap_nil, List.append_nil, List.length_append, E.sBytes_length, be32_length, h, hzl,
      Bool.false_eq_true, if_false]
    omega
  · intro r rest hr
    obtain ⟨r', h1, h2, -⟩ := (C18_decode E (⟨c0, r0, ⟨f, x.map (· • R.base)⟩ :: others, msg⟩ : Signature F G) ⟨c, [z], [], []⟩ false x.length
      (by simp) hx (by simp [hzl]) (by simp)).full r rest hr
    refine ⟨_, r', h1, h2, rfl, rfl, ?_⟩
    rw [C17_single R _ I rfl (by simp [received]) (by intro h; simp [h] at hIl; omega) (by simp [Fits, ringOf, received, hIl, hkx, hzl])]
    have e : around R msg I ([(x.map (· • R.base), z)] ++ [(x.map (· • R.base), z)]) c = c := by
      show link R msg I _ z (link R msg I _ z c) = c
      rw [hlink, hlink]
    simpa [ringOf, received] using e

example : ∃ b : Bytes, b.length = 104 ∧ ∀ (r : Reader) (rest : Bytes), r.flat = b ++ rest →
    ∃ s r', (⟨0, [], [⟨true, [(3 : Toy.K) • Toy.ris.base, (4 : Toy.K) • Toy.ris.base]⟩, ⟨true, [5, 6]⟩, ⟨true, [7, 8]⟩], [7]⟩ :
        Signature Toy.K Toy.K).decode Toy.ris false r = .ok (s, r') ∧ s.verify Toy.ris [image Toy.ris 3] = .ok true := by
  obtain ⟨b, h1, h2⟩ := C154_alone_violated Toy.ris_encodings [3, 4] [1, 2] rfl (by simp) 1 (by simp) (by simp) true
    [⟨true, [5, 6]⟩, ⟨true, [7, 8]⟩] [7] 0 []
  refine ⟨b, h1, fun r rest hr => ?_⟩
  obtain ⟨s, r', h3, -, -, -, h4⟩ := h2 r rest hr
  exact ⟨s, r', h3, h4⟩

end Dusk.Mlsag
