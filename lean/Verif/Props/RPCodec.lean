import Verif.Props.RPState
/-!
# Properties of the range proof: encoding and equality (C66, C67)
-/

set_option linter.unusedSectionVars false

namespace Dusk.RP

variable {F G : Type} [Field F] [AddCommGroup G] [Module F G] [DecidableEq F]

/-! ## C66 -/

/-- Specification: the encoding of the outer part of a proof. -/
def outerEncoding (R : Ristretto F G) (p : Proof F G) (includeCommits : Bool) : Bytes :=
  (if includeCommits then be32 p.V.length ++ p.V.flatMap fun c => R.pBytes c.value else []) ++
  (R.pBytes p.A ++ (R.pBytes p.S ++ (R.pBytes p.T1 ++ (R.pBytes p.T2 ++ (R.sBytes p.taux ++ (R.sBytes p.mu ++
    R.sBytes p.t))))))

/-- C66: `Encode` writes the outer components followed by the inner product proof; if the writer fails it returns an
error after a prefix of this. -/
theorem C66_encode (R : Ristretto F G) (p : Proof F G) (ip : IP.Proof F G) (hip : p.ip = some ip) (includeCommits : Bool)
    (h : ip.L.length = ip.R.length) (hk : ip.L.length < 2 ^ 32) :
    (p.encode R includeCommits).Emits ((if includeCommits then 1 + p.V.length else 0) + (9 + 2 * ip.L.length))
      (outerEncoding R p includeCommits ++ IP.encoding R ip) := by
  have hV : (if includeCommits then Commitment.encodeAll R p.V else Wr.pure ()).Emits
      (if includeCommits then 1 + p.V.length else 0)
      (if includeCommits then be32 p.V.length ++ p.V.flatMap fun c => R.pBytes c.value else []) := by
    cases includeCommits
    · exact .pure
    · exact Commitment.encodeAll_emits R p.V
  unfold Proof.encode outerEncoding
  rw [hip]
  dsimp only
  rw [show 9 + 2 * ip.L.length = 1 + (1 + (1 + (1 + (1 + (1 + (1 + (2 + 2 * ip.L.length))))))) by omega]
  simp only [List.append_assoc]
  exact hV.bind <| (writeB_emits _).bind <| (writeB_emits _).bind <| (writeB_emits _).bind <| (writeB_emits _).bind <|
    (writeB_emits _).bind <| (writeB_emits _).bind <| (writeB_emits _).bind <| IP.C57_encode R ip h hk

theorem readerToPoint_decodes {R : Ristretto F G} (E : R.Encodings) (P : G) :
    (readerToPoint R).Decodes (R.pBytes P) P := by
  refine (readN_decodes' (E.pBytes_length P)).bind_nil ?_
  simp only [E.pOfBytes_pBytes, if_true]
  exact .pure _

theorem readerToScalar_decodes {R : Ristretto F G} (E : R.Encodings) (s : F) :
    (readerToScalar R).Decodes (R.sBytes s) s := by
  have := (readN_decodes' (E.sBytes_length s)).map (fun b => R.sOfBytes b)
  rwa [E.sOfBytes_sBytes] at this

/-- What `Decode` keeps of a proof: the points of the commitments (or the receiver's own commitments when they are not
included), and everything else. -/
def received (recv p : Proof F G) (includeCommits : Bool) : Proof F G :=
  { p with V := if includeCommits then p.V.map fun c => ⟨c.value, 0⟩ else recv.V }

theorem decode_outer {R : Ristretto F G} (E : R.Encodings) (recv p : Proof F G) (includeCommits : Bool)
    (hV : p.V.length < 2 ^ 32) {β : Type} {f : Proof F G → Rd β} (r : Reader) (rest : Bytes)
    (hf : r.flat = outerEncoding R p includeCommits ++ rest) :
    ∃ r', r'.flat = rest ∧ r'.fin = r.fin ∧
      (Rd.bind (recv.decode R includeCommits) f) r =
        (Rd.bind (IP.Proof.decode R) fun ip => f { received recv p includeCommits with ip := some ip }) r' := by
  have dV : (if includeCommits then Commitment.decodeAll R else Rd.pure recv.V).Decodes
      (if includeCommits then be32 p.V.length ++ p.V.flatMap fun c => R.pBytes c.value else [])
      (received recv p includeCommits).V := by
    cases includeCommits
    · exact .pure _
    · exact Commitment.decodeAll_decodes E p.V hV
  unfold outerEncoding at hf
  simp only [List.append_assoc] at hf
  obtain ⟨r1, a1, b1, c1⟩ := dV.full r _ hf
  obtain ⟨r2, a2, b2, c2⟩ := (readerToPoint_decodes E p.A).full r1 _ b1
  obtain ⟨r3, a3, b3, c3⟩ := (readerToPoint_decodes E p.S).full r2 _ b2
  obtain ⟨r4, a4, b4, c4⟩ := (readerToPoint_decodes E p.T1).full r3 _ b3
  obtain ⟨r5, a5, b5, c5⟩ := (readerToPoint_decodes E p.T2).full r4 _ b4
  obtain ⟨r6, a6, b6, c6⟩ := (readerToScalar_decodes E p.taux).full r5 _ b5
  obtain ⟨r7, a7, b7, c7⟩ := (readerToScalar_decodes E p.mu).full r6 _ b6
  obtain ⟨r8, a8, b8, c8⟩ := (readerToScalar_decodes E p.t).full r7 _ b7
  refine ⟨r8, b8, by rw [c8, c7, c6, c5, c4, c3, c2, c1], ?_⟩
  unfold Proof.decode
  simp only [Rd.bind, a1, a2, a3, a4, a5, a6, a7, a8, Res.bind_ok]
  cases IP.Proof.decode R r8 <;> simp [Rd.pure, received]

/-- C66: `Decode ∘ Encode` restores everything that is transmitted. -/
theorem C66_roundtrip {R : Ristretto F G} (E : R.Encodings) (recv p : Proof F G) (ip : IP.Proof F G) (hip : p.ip = some ip)
    (includeCommits : Bool) (hV : p.V.length < 2 ^ 32) (h : ip.L.length = ip.R.length) (hk : ip.L.length < 2 ^ 32)
    (rest : Bytes) (hr : rest.length = 0 ∨ rest.length = 32) (r : Reader)
    (hf : r.flat = outerEncoding R p includeCommits ++ IP.encoding R ip ++ rest) (he : r.fin = .eof) :
    recv.decode R includeCommits r = .ok (received recv p includeCommits, ⟨[], .eof⟩) := by
  obtain ⟨r', h1, h2, h3⟩ := decode_outer E recv p includeCommits hV (f := Rd.pure) r (IP.encoding R ip ++ rest)
    (by rw [hf, List.append_assoc])
  have h4 := IP.C57_roundtrip E ip h hk rest hr r' h1 (h2.trans he)
  have h5 : (Rd.bind (recv.decode R includeCommits) Rd.pure) r = recv.decode R includeCommits r := by
    unfold Rd.bind Rd.pure
    cases recv.decode R includeCommits r <;> rfl
  rw [← h5, h3]
  unfold Rd.bind
  rw [h4]
  simp [Rd.pure, received, hip]

theorem c9Loop_values : ∀ (zs : List F) (V W : List (Commitment F G)) (acc : G),
    V.map (·.value) = W.map (·.value) → c9Loop zs V acc = c9Loop zs W acc
  | [], _, _, _, _ => rfl
  | z :: zs, [], [], _, _ => rfl
  | z :: zs, [], _ :: _, _, h => by simp at h
  | z :: zs, _ :: _, [], _, h => by simp at h
  | z :: zs, v :: V, w :: W, acc, h => by
    simp only [List.map_cons, List.cons.injEq] at h
    simp only [c9Loop, h.1, c9Loop_values zs V W _ h.2]

theorem foldl_values (R : Ristretto F G) : ∀ (V W : List (Commitment F G)) (hs : HashCacher),
    V.map (·.value) = W.map (·.value) →
    V.foldl (fun (hs : HashCacher) V => hs.append [R.pBytes V.value]) hs =
      W.foldl (fun (hs : HashCacher) V => hs.append [R.pBytes V.value]) hs
  | [], [], _, _ => rfl
  | [], _ :: _, _, h => by simp at h
  | _ :: _, [], _, h => by simp at h
  | v :: V, w :: W, hs, h => by
    simp only [List.map_cons, List.cons.injEq] at h
    simp only [List.foldl_cons, h.1, foldl_values R V W _ h.2]

/-- C66: the verdict of `Verify` on a proof depends on the commitments only through their points, so the decoded proof
gets the same verdict (for every state, every coin, and every sequence of values of `M` read). -/
theorem C66_verdict [DecidableEq G] (R : Ristretto F G) (recv p : Proof F G) (rd : VReads) (c : F) :
    verifyWith R rd (received recv p true) c = verifyWith R rd p c := by
  have hmap : (received recv p true).V.map (·.value) = p.V.map (·.value) := by
    simp [received]
  have hc : verifyChallenges R (received recv p true) = verifyChallenges R p := by
    unfold verifyChallenges
    rw [foldl_values R _ _ _ hmap]
    rfl
  unfold verifyWith
  rw [hc]
  unfold megacheckWithC
  simp only [c9Loop_values _ _ _ _ hmap]
  rfl

/-- C66: encode, transmit, decode, verify: a proof made by `Prove` is accepted by a process whose last `Prove` call was on
the same number of values (up to padding). -/
theorem C66_transmit [DecidableEq G] {R : Ristretto F G} (E : R.Encodings) (m0 : Nat) (v : List F) (coins : Coins F)
    (p recv : Proof F G) (ip : IP.Proof F G) (hv : ∀ a ∈ v, R.sNat a < 2 ^ 64)
    (h : (prove R m0 v false coins).2 = .ok p) (hip : p.ip = some ip) (hu : ∀ u ∈ IP.challenges R ip.L ip.R, u ≠ 0)
    (w : Writer) (hw : w.left ≥ 2 ^ 32) (r : Reader) (hr : w.out ++ r.flat = (p.encode R true w).2.out)
    (he : r.fin = .eof) :
    (p.encode R true w).1 = .ok () ∧ ∃ q, recv.decode R true r = .ok (q, ⟨[], .eof⟩) ∧
      ∀ c, verify R (prove R m0 v false coins).1 q c = .ok true := by
  have hacc := (C62_violated R m0 v coins p ip hv h hip hu).1
  have hlen : v.length ≤ 16 ∧ 1 ≤ v.length := by
    constructor
    · by_contra h'
      obtain ⟨e, he⟩ := (C68_many R m0 v false coins (by omega)).2
      rw [he] at h; cases h
    · by_contra h'
      have : v = [] := List.length_eq_zero_iff.1 (by omega)
      subst this
      obtain ⟨e, he⟩ := (C68_empty R m0 false coins).2
      rw [he] at h; cases h
  obtain ⟨k, p', ip', hk4, -, -, hon, hL, hR, hM, hif, -⟩ := prove_spec R m0 v false coins hlen.2 hlen.1
  split at hif
  · obtain ⟨e, he⟩ := hif
    rw [he] at h; cases h
  rw [hif] at h
  cases h
  have : ip = ip' := by rw [hon.hasIp] at hip; exact (Option.some.inj hip).symm
  subst this
  have hVl : p.V.length ≤ 16 := by
    have h1 : p.V.length = 2 ^ k := by rw [hon.V]; simp
    have := Nat.pow_le_pow_right (show 0 < 2 by norm_num) hk4
    omega
  have hem := C66_encode R p ip hip true (by rw [hL, hR]) (by omega)
  have hg := hem.good w (by rw [if_pos rfl]; omega)
  rw [hg] at hr ⊢
  simp only at hr
  refine ⟨rfl, received recv p true, ?_, fun c => ?_⟩
  · refine C66_roundtrip E recv p ip hip true (by omega) (by rw [hL, hR]) (by omega) [] (Or.inl rfl) r ?_ he
    rw [List.append_nil]
    exact List.append_cancel_left hr
  · unfold verify
    rw [C66_verdict]
    exact hacc c

/-- C66: `Encode` panics on a proof without inner product proof (unless the writer fails before). -/
theorem C66_nil (R : Ristretto F G) (p : Proof F G) (hip : p.ip = none) (includeCommits : Bool) (w : Writer)
    (hw : (if includeCommits then 1 + p.V.length else 0) + 7 ≤ w.left) : (p.encode R includeCommits w).1 = .panic := by
  have hV : (if includeCommits then Commitment.encodeAll R p.V else Wr.pure ()).Emits
      (if includeCommits then 1 + p.V.length else 0)
      (if includeCommits then be32 p.V.length ++ p.V.flatMap fun c => R.pBytes c.value else []) := by
    cases includeCommits
    · exact .pure
    · exact Commitment.encodeAll_emits R p.V
  unfold Proof.encode
  rw [hip]
  simp only [Wr.bind]
  rw [hV.good w (by omega)]
  generalize (if includeCommits then 1 + p.V.length else 0) = n at *
  obtain ⟨m, hm⟩ : ∃ m, w.left - n = m + 7 := ⟨w.left - n - 7, by omega⟩
  simp only [writeB, hm]
  rfl

theorem readerToPoint_noPanic (R : Ristretto F G) : (readerToPoint R).NoPanic := by
  refine (readN_noPanic 32).bind fun b => ?_
  split
  · exact .pure _
  · exact .fail _

theorem readerToScalar_noPanic (R : Ristretto F G) : (readerToScalar R).NoPanic :=
  (readN_noPanic 32).bind fun _ => .pure _

theorem readerToPoint_chunkFree (R : Ristretto F G) : (readerToPoint R).ChunkFree := by
  refine (readN_chunkFree 32).bind fun b => ?_
  split
  · exact .pure _
  · exact .fail _

theorem readerToScalar_chunkFree (R : Ristretto F G) : (readerToScalar R).ChunkFree :=
  (readN_chunkFree 32).bind fun _ => .pure _

/-- The inner product decoder sees only the bytes delivered. -/
theorem ipDecode_chunkFree (R : Ristretto F G) : (IP.Proof.decode R).ChunkFree := by
  refine (readN_chunkFree 32).bind fun a => (readN_chunkFree 32).bind fun b => readAll_chunkFree.bind fun buf => ?_
  split
  · exact .fail _
  · exact (Rd.ChunkFree.lift _).bind fun _ => .pure _

theorem ipDecodeLoop_ne_panic (R : Ristretto F G) : ∀ (n : Nat) (b : Bytes), IP.decodeLoop R n b ≠ .panic
  | 0, _, h => by cases h
  | n + 1, b, h => by
    unfold IP.decodeLoop at h
    split at h
    · cases h
    split at h
    · cases h
    rcases Res.bind_eq_panic.1 h with h | ⟨_, _, h⟩
    · exact ipDecodeLoop_ne_panic R n _ h
    · cases h

theorem ipDecode_noPanic (R : Ristretto F G) : (IP.Proof.decode R).NoPanic := by
  refine (readN_noPanic 32).bind fun a => (readN_noPanic 32).bind fun b => readAll_noPanic.bind fun buf => ?_
  split
  · exact .fail _
  · exact (Rd.NoPanic.lift (ipDecodeLoop_ne_panic R _ _)).bind fun _ => .pure _

/-- C66: `Decode` never panics, whatever the stream contains. -/
theorem C66_noPanic (R : Ristretto F G) (recv : Proof F G) (includeCommits : Bool) :
    (recv.decode R includeCommits).NoPanic := by
  refine Rd.NoPanic.bind ?_ fun V => (readerToPoint_noPanic R).bind fun _ => (readerToPoint_noPanic R).bind fun _ =>
    (readerToPoint_noPanic R).bind fun _ => (readerToPoint_noPanic R).bind fun _ => (readerToScalar_noPanic R).bind fun _ =>
    (readerToScalar_noPanic R).bind fun _ => (readerToScalar_noPanic R).bind fun _ => (ipDecode_noPanic R).bind fun _ => .pure _
  split
  · exact Commitment.decodeAll_noPanic R
  · exact .pure _

/-- C66: the outcome of `Decode` depends only on the bytes, not on how the reader splits them. -/
theorem C66_chunkFree (R : Ristretto F G) (recv : Proof F G) (includeCommits : Bool) :
    (recv.decode R includeCommits).ChunkFree := by
  refine Rd.ChunkFree.bind ?_ fun V => (readerToPoint_chunkFree R).bind fun _ => (readerToPoint_chunkFree R).bind fun _ =>
    (readerToPoint_chunkFree R).bind fun _ => (readerToPoint_chunkFree R).bind fun _ =>
    (readerToScalar_chunkFree R).bind fun _ => (readerToScalar_chunkFree R).bind fun _ =>
    (readerToScalar_chunkFree R).bind fun _ => (ipDecode_chunkFree R).bind fun _ => .pure _
  split
  · exact Commitment.decodeAll_chunkFree R
  · exact .pure _

/-- C66: a stream that ends within the outer part is rejected with an error. -/
theorem C66_short {R : Ristretto F G} (E : R.Encodings) (recv p : Proof F G) (includeCommits : Bool)
    (hV : p.V.length < 2 ^ 32) (r : Reader) (h1 : r.flat <+: outerEncoding R p includeCommits) :
    (recv.decode R includeCommits r).IsErr := by
  have dV : (if includeCommits then Commitment.decodeAll R else Rd.pure recv.V).Decodes
      (if includeCommits then be32 p.V.length ++ p.V.flatMap fun c => R.pBytes c.value else [])
      (received recv p includeCommits).V := by
    cases includeCommits
    · exact .pure _
    · exact Commitment.decodeAll_decodes E p.V hV
  let m : Rd (Proof F G) :=
    Rd.bind (if includeCommits then Commitment.decodeAll R else Rd.pure recv.V) fun V =>
    Rd.bind (readerToPoint R) fun A =>
    Rd.bind (readerToPoint R) fun S =>
    Rd.bind (readerToPoint R) fun T1 =>
    Rd.bind (readerToPoint R) fun T2 =>
    Rd.bind (readerToScalar R) fun taux =>
    Rd.bind (readerToScalar R) fun mu =>
    Rd.bind (readerToScalar R) fun t =>
    Rd.bind (readN 32) fun _ =>
    Rd.pure ⟨V, A, S, T1, T2, taux, mu, t, none⟩
  have hm : m.Decodes (outerEncoding R p includeCommits ++ List.replicate 32 0)
      ⟨(received recv p includeCommits).V, p.A, p.S, p.T1, p.T2, p.taux, p.mu, p.t, none⟩ := by
    unfold outerEncoding
    simp only [List.append_assoc]
    refine dV.bind <| (readerToPoint_decodes E _).bind <| (readerToPoint_decodes E _).bind <|
      (readerToPoint_decodes E _).bind <| (readerToPoint_decodes E _).bind <| (readerToScalar_decodes E _).bind <|
      (readerToScalar_decodes E _).bind <| (readerToScalar_decodes E _).bind ?_
    exact (readN_decodes' (by rw [List.length_replicate])).bind_nil (.pure _)
  have hs := hm.short r (h1.trans (List.prefix_append _ _)) (by
    intro h
    have := h1.length_le
    rw [h, List.length_append, List.length_replicate] at this
    omega)
  obtain ⟨e, he⟩ := hs
  have step : ∀ {α : Type} (x : Rd α) (f g : α → Rd (Proof F G)) (r : Reader),
      (∀ a r', x r = .ok (a, r') → (f a r').IsErr → (g a r').IsErr) → (Rd.bind x f r).IsErr → (Rd.bind x g r).IsErr := by
    intro α x f g r h hf
    unfold Rd.bind at *
    cases hx : x r with
    | ok a => rw [hx] at hf; exact h a.1 a.2 hx hf
    | err e => exact ⟨e, rfl⟩
    | panic => rw [hx] at hf; obtain ⟨e, he⟩ := hf; cases he
  have hall : (m r).IsErr := ⟨e, he⟩
  revert hall
  refine step _ _ _ _ fun V r1 _ => step _ _ _ _ fun A r2 _ => step _ _ _ _ fun S r3 _ => step _ _ _ _ fun T1 r4 _ =>
    step _ _ _ _ fun T2 r5 _ => step _ _ _ _ fun taux r6 _ => step _ _ _ _ fun mu r7 _ => step _ _ _ _ fun t r8 _ => ?_
  intro h
  obtain ⟨e, he⟩ := h
  cases hx : readN 32 r8 with
  | ok a => simp [Rd.bind, hx, Rd.pure] at he
  | panic => exact absurd hx (readN_noPanic 32 r8)
  | err e =>
    refine ⟨e, ?_⟩
    unfold IP.Proof.decode
    simp [Rd.bind, hx]

/-- The hypotheses are met by the concrete instance and a non-trivial proof. -/
example : ∃ (p : Proof Toy.K Toy.K) (ip : IP.Proof Toy.K Toy.K), Toy.ris.Encodings ∧ p.ip = some ip ∧
    ip.L.length = ip.R.length ∧ ip.L.length = 1 ∧ p.V.length = 2 :=
  ⟨⟨[⟨1, 2⟩, ⟨3, 4⟩], 5, 6, 7, 8, 9, 10, 11, some ⟨[12], [13], 14, 15⟩⟩, ⟨[12], [13], 14, 15⟩, Toy.ris_encodings, rfl, rfl, rfl, rfl⟩

/-! ## C67 -/

variable [DecidableEq G]

/-- The outer components of two proofs agree. -/
def SameOuter (p q : Proof F G) : Prop :=
  p.A = q.A ∧ p.S = q.S ∧ p.T1 = q.T1 ∧ p.T2 = q.T2 ∧ p.taux = q.taux ∧ p.mu = q.mu ∧ p.t = q.t

theorem equalsLoop_spec : ∀ (V W : List (Commitment F G)), V.length ≤ W.length →
    equalsLoop V W = .ok (decide (V.map (·.value) = (W.take V.length).map (·.value)))
  | [], _, _ => by simp [equalsLoop]
  | _ :: _, [], h => by simp at h
  | v :: V, w :: W, h => by
    simp only [List.length_cons, Nat.add_le_add_iff_right] at h
    unfold equalsLoop Commitment.equalValue
    by_cases hv : v.value = w.value
    · simp [hv, equalsLoop_spec V W h]
    · simp [hv]

/-- C67: on proofs with the same number of commitments, `Equals` is true iff the commitment points and the seven outer
components agree, whatever the flag. -/
theorem C67_equal_lengths (p q : Proof F G) (includeCommits : Bool) (h : p.V.length = q.V.length) :
    ∃ b, p.equals q includeCommits = .ok b ∧
      (b = true ↔ p.V.map (·.value) = q.V.map (·.value) ∧ SameOuter p q) := by
  unfold Proof.equals
  rw [if_neg (by simp [h]), equalsLoop_spec _ _ (by omega), Res.bind_ok]
  refine ⟨_, rfl, ?_⟩
  rw [h, List.take_length]
  simp only [Bool.and_eq_true, decide_eq_true_eq, SameOuter]
  tauto

/-- C67: with `includeCommits` and different numbers of commitments the proofs are unequal. -/
theorem C67_different_lengths (p q : Proof F G) (h : p.V.length ≠ q.V.length) : p.equals q true = .ok false := by
  unfold Proof.equals
  rw [if_pos ⟨h, rfl⟩]

/-- C67 (violated): the inner product proofs are not compared. -/
theorem C67_ip_violated (p : Proof F G) (ip : Option (IP.Proof F G)) (includeCommits : Bool) :
    p.equals { p with ip := ip } includeCommits = .ok true := by
  obtain ⟨b, h1, h2⟩ := C67_equal_lengths p { p with ip := ip } includeCommits rfl
  rw [h1, h2.2 ⟨rfl, rfl, rfl, rfl, rfl, rfl, rfl, rfl⟩]

/-- C67 (violated): with `includeCommits = false` the commitments are compared all the same: `Equals` panics if the other
proof has fewer of them, all of the same points. -/
theorem C67_flag_panic_violated (p q : Proof F G) (h : q.V.length < p.V.length)
    (hV : q.V.map (·.value) = (p.V.take q.V.length).map (·.value)) : p.equals q false = .panic := by
  have key : ∀ (V W : List (Commitment F G)), W.length < V.length →
      W.map (·.value) = (V.take W.length).map (·.value) → equalsLoop V W = .panic := by
    intro V
    induction V with
    | nil => intro W h; simp at h
    | cons v V ih =>
      intro W h1 h2
      cases W with
      | nil => rfl
      | cons w W =>
        simp only [List.length_cons, List.take_succ_cons, List.map_cons, List.cons.injEq] at h1 h2
        unfold equalsLoop Commitment.equalValue
        rw [h2.1]
        simp [ih W (by omega) h2.2]
  unfold Proof.equals
  rw [if_neg (by simp), key _ _ h hV]
  rfl

/-- C67 (violated): with `includeCommits = false`, `Equals` is false for two proofs that agree in everything but one
commitment, and ignores additional commitments of the other proof, so that it is not symmetric. -/
theorem C67_flag_violated (p q : Proof F G) (h : p.V.length ≤ q.V.length) :
    ∃ b, p.equals q false = .ok b ∧
      (b = true ↔ p.V.map (·.value) = (q.V.take p.V.length).map (·.value) ∧ SameOuter p q) := by
  unfold Proof.equals
  rw [if_neg (by simp), equalsLoop_spec _ _ h, Res.bind_ok]
  refine ⟨_, rfl, ?_⟩
  simp only [Bool.and_eq_true, decide_eq_true_eq, SameOuter]
  tauto

/-- C67: `Equals` panics in no other case, and it never returns an error. -/
theorem C67_flag_outcome (p q : Proof F G) (includeCommits : Bool) :
    (p.equals q includeCommits = .panic ↔ includeCommits = false ∧ q.V.length < p.V.length ∧
      q.V.map (·.value) = (p.V.take q.V.length).map (·.value)) ∧ ¬ (p.equals q includeCommits).IsErr := by
  have key : ∀ (V W : List (Commitment F G)), (equalsLoop V W = .panic → W.length < V.length ∧
      W.map (·.value) = (V.take W.length).map (·.value)) ∧ ¬ (equalsLoop V W).IsErr := by
    intro V
    induction V with
    | nil => intro W; simp [equalsLoop, Res.IsErr]
    | cons v V ih =>
      intro W
      cases W with
      | nil => simp [equalsLoop, Res.IsErr]
      | cons w W =>
        unfold equalsLoop Commitment.equalValue
        by_cases hv : v.value = w.value
        · simp only [hv, decide_true, Bool.not_true, Bool.false_eq_true, if_false, List.length_cons, List.take_succ_cons,
            List.map_cons, List.cons.injEq, true_and, Nat.add_lt_add_iff_right]
          exact ih W
        · simp [hv, Res.IsErr]
  cases includeCommits with
  | true =>
    by_cases hl : p.V.length = q.V.length
    · obtain ⟨b, hb, -⟩ := C67_equal_lengths p q true hl
      rw [hb]; simp [Res.IsErr]
    · rw [C67_different_lengths p q hl]; simp [Res.IsErr]
  | false =>
    rcases Nat.lt_or_ge q.V.length p.V.length with hl | hl
    · by_cases hV : q.V.map (·.value) = (p.V.take q.V.length).map (·.value)
      · rw [C67_flag_panic_violated p q hl hV]; simp [hl, hV, Res.IsErr]
      · obtain ⟨k1, k2⟩ := key p.V q.V
        unfold Proof.equals
        rw [if_neg (by simp)]
        cases hr : equalsLoop p.V q.V with
        | ok b =>
          refine ⟨iff_of_false (by simp [Res.bind_ok]) fun h => hV h.2.2, ?_⟩
          simp [Res.bind_ok, Res.IsErr]
        | err e => exact absurd ⟨e, hr⟩ k2
        | panic => exact absurd (k1 hr).2 hV
    · obtain ⟨b, hb, -⟩ := C67_flag_violated p q hl
      rw [hb]; simp only [Res.IsErr]; simp; omega

example (p : Proof Toy.K Toy.K) : ({ p with V := [⟨1, 0⟩] } : Proof Toy.K Toy.K).equals { p with V := [] } false = .panic :=
  (C67_flag_outcome _ _ false).1.2 ⟨rfl, by simp, by simp⟩

/-- Two proofs that differ only in the inner product proof. -/
example : (⟨[⟨1, 2⟩], 5, 6, 7, 8, 9, 10, 11, some ⟨[12], [13], 14, 15⟩⟩ : Proof Toy.K Toy.K).equals
    ⟨[⟨1, 2⟩], 5, 6, 7, 8, 9, 10, 11, none⟩ true = .ok true := C67_ip_violated _ _ _
/-- A panic. -/
example : (⟨[⟨1, 2⟩, ⟨3, 4⟩], 5, 6, 7, 8, 9, 10, 11, none⟩ : Proof Toy.K Toy.K).equals
    ⟨[⟨1, 2⟩], 5, 6, 7, 8, 9, 10, 11, none⟩ false = .panic := C67_flag_panic_violated _ _ (by simp) (by simp)

end Dusk.RP
