import Verif.Props.LedgerWire
import Verif.Props.Received
import Verif.Props.RPShape
/-!
# C161: payments from anybody

A receiver of C159 reads bytes from anybody. This says on which bytes its calls can panic.
-/

set_option linter.unusedSectionVars false

namespace Dusk.Mlsag

variable {F G : Type} [Field F] [AddCommGroup G] [Module F G] [DecidableEq F] [DecidableEq G]

/-- C161: reading a payment never panics, whatever is sent, and does not depend on the chunks in which it arrives. -/
theorem C161_read (R : Ristretto F G) (recv : RP.Proof F G) : (readPayment R recv).NoPanic ∧ (readPayment R recv).ChunkFree := by
  constructor
  · refine readU32_noPanic.bind fun n => readU32_noPanic.bind fun k => Rd.NoPanic.bind (readTimes_noPanic ?_ n) fun ins =>
      (C19_rangeproof R recv true).bind fun p => .pure _
    exact (C19_mlsag R _ true).bind fun s => (readPoint_noPanic R).bind fun p => (readPoint_noPanic R).bind fun i => .pure _
  · refine readU32_chunkFree.bind fun n => readU32_chunkFree.bind fun k => Rd.ChunkFree.bind (readTimes_chunkFree ?_ n) fun ins =>
      (C20_rangeproof R recv true).bind fun p => .pure _
    exact (C20_mlsag R _ true).bind fun s => (readPoint_chunkFree R).bind fun p => (readPoint_chunkFree R).bind fun i => .pure _

/-- What is read: every input has as many members as response vectors and as many keys in each member as responses in each vector, and the range proof has
an inner product proof. -/
theorem readPayment_shape (R : Ristretto F G) (recv : RP.Proof F G) (r r' : Reader) (d : Delivery F G) (h : readPayment R recv r = .ok (d, r')) :
    (∀ p ∈ d.ins, ∃ n, p.sig.pubKeys.length = p.sig.r.length ∧ (∀ x ∈ p.sig.r, x.length = n) ∧ ∀ k ∈ p.sig.pubKeys, k.keys.length = n) ∧
      ∃ ip, d.proof.ip = some ip := by
  unfold readPayment at h
  obtain ⟨⟨n, r1⟩, -, h⟩ := Res.bind_eq_ok.1 h
  obtain ⟨⟨k, r2⟩, -, h⟩ := Res.bind_eq_ok.1 h
  obtain ⟨⟨ins, r3⟩, h3, h⟩ := Res.bind_eq_ok.1 h
  obtain ⟨⟨p, r4⟩, h4, h⟩ := Res.bind_eq_ok.1 h
  cases h
  constructor
  · refine (readTimes_spec (P := fun p : Parcel F G => ∃ n, p.sig.pubKeys.length = p.sig.r.length ∧ (∀ x ∈ p.sig.r, x.length = n) ∧
      ∀ k ∈ p.sig.pubKeys, k.keys.length = n) ?_ n r2 ins r3 h3).2
    intro r a r' ha
    unfold readParcel at ha
    obtain ⟨⟨s, q1⟩, h1, ha⟩ := Res.bind_eq_ok.1 ha
    obtain ⟨⟨_, q2⟩, -, ha⟩ := Res.bind_eq_ok.1 ha
    obtain ⟨⟨_, q3⟩, -, ha⟩ := Res.bind_eq_ok.1 ha
    cases ha
    exact C26_decoded R _ s _ _ h1
  · unfold RP.Proof.decode at h4
    obtain ⟨⟨_, _⟩, -, h4⟩ := Res.bind_eq_ok.1 h4
    obtain ⟨⟨_, _⟩, -, h4⟩ := Res.bind_eq_ok.1 h4
    obtain ⟨⟨_, _⟩, -, h4⟩ := Res.bind_eq_ok.1 h4
    obtain ⟨⟨_, _⟩, -, h4⟩ := Res.bind_eq_ok.1 h4
    obtain ⟨⟨_, _⟩, -, h4⟩ := Res.bind_eq_ok.1 h4
    obtain ⟨⟨_, _⟩, -, h4⟩ := Res.bind_eq_ok.1 h4
    obtain ⟨⟨_, _⟩, -, h4⟩ := Res.bind_eq_ok.1 h4
    obtain ⟨⟨_, _⟩, -, h4⟩ := Res.bind_eq_ok.1 h4
    obtain ⟨⟨ip, _⟩, -, h4⟩ := Res.bind_eq_ok.1 h4
    cases h4
    exact ⟨ip, rfl⟩

/-- C161: when the checks of a receiver panic on what it has read. `Verify` of an input does so exactly if there are response vectors and they are empty;
`Verify` of the range proof exactly if its inner product proof has the right number of rounds for the package variable `M` and there are fewer than `M`
commitments. -/
theorem C161_crash (R : Ristretto F G) (recv : RP.Proof F G) (r r' : Reader) (d : Delivery F G) (h : readPayment R recv r = .ok (d, r')) (M : Nat)
    (hM : 1 ≤ M) (hlt : 64 * M < 2 ^ 32) :
    (∀ p ∈ d.ins, ∀ msg, ({ p.sig with msg := msg } : Signature F G).verify R [p.image] = .panic ↔ p.sig.r ≠ [] ∧ ∀ x ∈ p.sig.r, x = []) ∧
      ∀ c, RP.verify R M d.proof c = .panic ↔ ∃ ip, d.proof.ip = some ip ∧ ip.L.length = ip.R.length ∧ 2 ^ ip.L.length = 64 * M ∧ d.proof.V.length < M := by
  obtain ⟨hs, ip, hip⟩ := readPayment_shape R recv r r' d h
  constructor
  · intro p hp msg
    obtain ⟨n, h1, h2, h3⟩ := hs p hp
    by_cases he : p.sig.r = []
    · obtain ⟨e, hv⟩ := C17_empty R ({ p.sig with msg := msg } : Signature F G) [p.image] (Or.inr (Or.inl he))
      rw [hv]
      simp [he]
    have hk : p.sig.pubKeys ≠ [] := fun g => he (List.length_eq_zero_iff.1 (by rw [← h1, g]; rfl))
    rw [C26_panic_iff R ({ p.sig with msg := msg } : Signature F G) [p.image] hk he (by simp)]
    constructor
    · intro g
      refine ⟨he, fun x hx => ?_⟩
      by_contra hx0
      have hn : 1 ≤ n := by rw [← h2 x hx]; exact List.length_pos_iff.2 hx0
      refine g ⟨h1.ge, fun m hm => ?_⟩
      obtain ⟨k, hk, e1⟩ := List.mem_map.1 (List.of_mem_zip hm).1
      have e2 : m.2.length = n := h2 _ (List.of_mem_zip hm).2
      have e3 : m.1.length = n := by rw [← e1]; exact h3 k hk
      exact ⟨by omega, by rw [e3]; exact hn⟩
    · rintro ⟨-, g⟩ ⟨-, hf⟩
      obtain ⟨x, xs, hx⟩ := List.exists_cons_of_ne_nil he
      obtain ⟨k, ks, hk⟩ := List.exists_cons_of_ne_nil hk
      have := hf (k.keys, x) (by simp [ringOf, hx, hk])
      have e : k.keys.length = x.length := by rw [h3 k (by simp [hk]), h2 x (by simp [hx])]
      rw [g x (by simp [hx])] at this e
      have h0 := this.2
      simp only at h0
      rw [e] at h0
      simp at h0
  · intro c
    rw [RP.C86_panic R M hM hlt d.proof c, hip]
    simp [RP.Fits, and_assoc]

/-- C161: a receiver that first compares the rings with its coins and the number of commitments with `M` makes no call that panics, whatever it has
read. -/
theorem C161_careful (R : Ristretto F G) (recv : RP.Proof F G) (r r' : Reader) (d : Delivery F G) (h : readPayment R recv r = .ok (d, r')) (M : Nat)
    (hM : 1 ≤ M) (hlt : 64 * M < 2 ^ 32) (coins : List (G × G))
    (hr : ∀ p ∈ d.ins, ∀ ks ∈ p.sig.pubKeys, ∃ coin ∈ coins, ks.keys = [coin.1, coin.2 - p.pseudo]) (hV : M ≤ d.proof.V.length) :
    (∀ p ∈ d.ins, ∀ msg, ({ p.sig with msg := msg } : Signature F G).verify R [p.image] ≠ .panic) ∧ ∀ c, RP.verify R M d.proof c ≠ .panic := by
  obtain ⟨h1, h2⟩ := C161_crash R recv r r' d h M hM hlt
  refine ⟨fun p hp msg g => ?_, fun c g => ?_⟩
  · obtain ⟨g1, g2⟩ := (h1 p hp msg).1 g
    obtain ⟨n, s1, s2, s3⟩ := (readPayment_shape R recv r r' d h).1 p hp
    obtain ⟨x, xs, hx⟩ := List.exists_cons_of_ne_nil g1
    have hk : p.sig.pubKeys ≠ [] := fun e => g1 (List.length_eq_zero_iff.1 (by rw [← s1, e]; rfl))
    obtain ⟨k, ks, hk⟩ := List.exists_cons_of_ne_nil hk
    have e1 := s3 k (by simp [hk])
    have e2 := s2 x (by simp [hx])
    obtain ⟨coin, -, e3⟩ := hr p hp k (by simp [hk])
    rw [g2 x (by simp [hx])] at e2
    rw [e3] at e1
    simp at e1 e2
    omega
  · obtain ⟨ip, -, -, -, g⟩ := (h2 c).1 g
    omega

/-- C161 (violated): Expected: no payment from a stranger crashes a receiver. Without that comparison of the rings one input of 104 bytes does: a scalar, the
numbers 1 and 0, and two points. -/
theorem C161_signature_violated {R : Ristretto F G} (E : R.Encodings) (b : Bytes) (hb : b.length = 32) (P I : G) (outs : Nat) (ho : outs < 2 ^ 32)
    (proof recv : RP.Proof F G) (ip : IP.Proof F G) (hip : proof.ip = some ip) (hV : proof.V.length < 2 ^ 32) (hl : ip.L.length = ip.R.length)
    (hk : ip.L.length < 2 ^ 32) (r : Reader)
    (hr : r.flat = be32 1 ++ (be32 outs ++ (b ++ (be32 1 ++ be32 0) ++ (R.pBytes P ++ R.pBytes I) ++ RP.bytes R proof ip true))) (hf : r.fin = .eof) :
    ∃ d, readPayment R recv r = .ok (d, ⟨[], .eof⟩) ∧ d.proof = RP.published proof ∧ d.outs = outs ∧
      ∃ p, d.ins = [p] ∧ p.pseudo = P ∧ p.image = I ∧ ∀ msg, ({ p.sig with msg := msg } : Signature F G).verify R [p.image] = .panic := by
  have hd : (readParcel R).Decodes (b ++ (be32 1 ++ be32 0) ++ (R.pBytes P ++ R.pBytes I))
      (⟨⟨R.sOfBytes b, [[]], [{}], []⟩, P, I⟩ : Parcel F G) := by
    have h0 : (Signature.decode R (⟨0, [], [], []⟩ : Signature F G) true).Decodes (b ++ (be32 1 ++ be32 0)) ⟨R.sOfBytes b, [[]], [{}], []⟩ :=
      blank_decodes R _ true b hb 1 (by norm_num)
    exact h0.bind (Rd.Decodes.bind (readPoint_decodes E P) ((readPoint_decodes E I).map fun i =>
      (⟨⟨R.sOfBytes b, [[]], [{}], []⟩, P, i⟩ : Parcel F G)))
  obtain ⟨r1, a1, a2, a3⟩ := (readU32_decodes (n := 1) (by norm_num)).full r _ hr
  obtain ⟨r2, b1, b2, b3⟩ := (readU32_decodes ho).full r1 _ a2
  obtain ⟨r3, c1, c2, c3⟩ := hd.full r2 (RP.bytes R proof ip true) (by rw [b2])
  have h := RP.C66_roundtrip E recv proof ip hip true hV hl hk [] (Or.inl rfl) r3 (by rw [c2, List.append_nil]; rfl) (by rw [c3, b3, a3, hf])
  have hrd : readPayment R recv r = .ok (⟨[⟨⟨R.sOfBytes b, [[]], [{}], []⟩, P, I⟩], outs, RP.published proof⟩, ⟨[], .eof⟩) := by
    unfold readPayment
    simp only [Rd.bind, a1, b1, readTimes, c1, h, Rd.pure, Res.bind_ok]
    rfl
  refine ⟨_, hrd, rfl, rfl, _, rfl, rfl, rfl, fun msg => ?_⟩
  exact ((C161_crash R recv r _ _ hrd 1 le_rfl (by norm_num)).1 _ (by simp) msg).2 ⟨by simp, by simp⟩

/-- C161 (violated): Expected: the same. Without the comparison of the number of commitments 684 + 64 j bytes do, with no input and no commitment, if
the package variable is `2^j`, so 684 bytes in a process that never called `Prove`. -/
theorem C161_range_violated {R : Ristretto F G} (E : R.Encodings) (j : Nat) (hj : j < 26) (outs : Nat) (ho : outs < 2 ^ 32) (P : G) (s : F) :
    ∃ bytes : Bytes, bytes.length = 684 + 64 * j ∧ ∀ (recv : RP.Proof F G) (r : Reader), r.flat = bytes → r.fin = .eof →
      ∃ d, readPayment R recv r = .ok (d, ⟨[], .eof⟩) ∧ d.ins = [] ∧ d.outs = outs ∧ ∀ c, RP.verify R (2 ^ j) d.proof c = .panic := by
  let ip : IP.Proof F G := ⟨List.replicate (j + 6) P, List.replicate (j + 6) P, s, s⟩
  let proof : RP.Proof F G := ⟨[], P, P, P, P, s, s, s, some ip⟩
  have hL : ip.L.length = j + 6 := by simp [ip]
  have hR : ip.R.length = j + 6 := by simp [ip]
  have hb : (2 : Nat) ^ j ≤ 2 ^ 25 := Nat.pow_le_pow_right (by norm_num) (by omega)
  refine ⟨paymentBytes R [] outs proof ip, ?_, fun recv r hr hf => ?_⟩
  · rw [C159_size E [] outs proof ip (by simp) (hL.trans hR.symm), hL]
    simp [proof]
    ring
  · have hrd := C159_receive E [] outs proof recv ip (by simp) (by simp) ho rfl (by simp [proof]) (hL.trans hR.symm) (by omega) [] (Or.inl rfl) r
      (by rw [hr, List.append_nil]) hf
    refine ⟨_, hrd, rfl, rfl, fun c => ?_⟩
    refine ((C161_crash R recv r _ _ hrd (2 ^ j) Nat.one_le_two_pow (by omega)).2 c).2 ⟨ip, rfl, hL.trans hR.symm, ?_, ?_⟩
    · rw [hL, pow_add]; ring
    · simp [RP.published, proof]

/-! ### Examples -/

example (b : Bytes) (recv : RP.Proof Toy.K Toy.K) : readPayment Toy.ris recv (Reader.ofBytes b) ≠ .panic := (C161_read Toy.ris recv).1 _

/-- 684 bytes that crash a new process. -/
example (recv : RP.Proof Toy.K Toy.K) : ∃ bytes : Bytes, bytes.length = 684 ∧ ∃ d, readPayment Toy.ris recv (Reader.ofBytes bytes) = .ok (d, ⟨[], .eof⟩) ∧
    ∀ c, RP.verify Toy.ris 1 d.proof c = .panic := by
  obtain ⟨bytes, h1, h2⟩ := C161_range_violated Toy.ris_encodings 0 (by norm_num) 2 (by norm_num) (5 : Toy.K) (7 : Toy.K)
  obtain ⟨d, h3, -, -, h4⟩ := h2 recv (Reader.ofBytes bytes) (by simp [Reader.ofBytes, Reader.flat]) rfl
  exact ⟨bytes, h1, d, h3, h4⟩

/-- An input that crashes `Verify`, with a range proof of no rounds. -/
example (recv : RP.Proof Toy.K Toy.K) : ∃ d, readPayment Toy.ris recv (Reader.ofBytes (be32 1 ++ (be32 1 ++ (List.replicate 32 1 ++ (be32 1 ++ be32 0) ++
      (Toy.ris.pBytes 10 ++ Toy.ris.pBytes 11) ++ RP.bytes Toy.ris ⟨[⟨12, 1⟩], 13, 14, 15, 16, 17, 18, 19, some ⟨[], [], 22, 23⟩⟩ ⟨[], [], 22, 23⟩ true)))) =
        .ok (d, ⟨[], .eof⟩) ∧ ∃ p, d.ins = [p] ∧ p.sig.verify Toy.ris [p.image] = .panic := by
  obtain ⟨d, h1, -, -, p, h2, -, -, h3⟩ := C161_signature_violated Toy.ris_encodings (List.replicate 32 1) (by simp) (10 : Toy.K) 11 1 (by norm_num)
    ⟨[⟨12, 1⟩], 13, 14, 15, 16, 17, 18, 19, some ⟨[], [], 22, 23⟩⟩ recv ⟨[], [], 22, 23⟩ rfl (by simp) rfl (by simp) (Reader.ofBytes _)
    (by simp [Reader.ofBytes, Reader.flat]; rfl) rfl
  exact ⟨d, h1, p, h2, h3 p.sig.msg⟩

/-- The payment of C159's example is checked by a careful receiver, with `M` one. -/
example (recv : RP.Proof Toy.K Toy.K) : ∃ d, readPayment Toy.ris recv (Reader.ofBytes
      (paymentBytes Toy.ris [smallParcel] 1 ⟨[⟨12, 1⟩], 13, 14, 15, 16, 17, 18, 19, some ⟨[20], [21], 22, 23⟩⟩ ⟨[20], [21], 22, 23⟩)) = .ok (d, ⟨[], .eof⟩) ∧
    (∀ p ∈ d.ins, ∀ msg, ({ p.sig with msg := msg } : Signature Toy.K Toy.K).verify Toy.ris [p.image] ≠ .panic) ∧
    ∀ c, RP.verify Toy.ris 1 d.proof c ≠ .panic := by
  have h := C159_receive Toy.ris_encodings [smallParcel] 1 ⟨[⟨12, 1⟩], 13, 14, 15, 16, 17, 18, 19, some ⟨[20], [21], 22, 23⟩⟩ recv ⟨[20], [21], 22, 23⟩
    smallParcel_even (by simp) (by norm_num) rfl (by simp) rfl (by simp) [] (Or.inl rfl)
    (Reader.ofBytes (paymentBytes Toy.ris [smallParcel] 1 ⟨[⟨12, 1⟩], 13, 14, 15, 16, 17, 18, 19, some ⟨[20], [21], 22, 23⟩⟩ ⟨[20], [21], 22, 23⟩))
    (by simp [Reader.ofBytes, Reader.flat]) rfl
  refine ⟨_, h, C161_careful Toy.ris recv _ _ _ h 1 le_rfl (by norm_num) [(6, 17), (8, 19)] ?_ (by simp [RP.published])⟩
  intro p hp ks hks
  have hp : p = smallParcel.arrived := by simpa using hp
  subst hp
  have hks : ks = ⟨false, [6, 7]⟩ ∨ ks = ⟨false, [8, 9]⟩ := by simpa [Parcel.arrived, received, smallParcel] using hks
  rcases hks with rfl | rfl
  · exact ⟨(6, 17), by simp, by simp [Parcel.arrived, smallParcel]; norm_num⟩
  · exact ⟨(8, 19), by simp, by simp [Parcel.arrived, smallParcel]; norm_num⟩

end Dusk.Mlsag
