import Verif.Spec.Grammar
import Verif.Props.MlsagCodec
/-!
# C71: what the decoders accept
-/

set_option linter.unusedSectionVars false

namespace Dusk

variable {F G : Type} [Field F] [AddCommGroup G] [Module F G]

open Grammar

theorem Rd.Parses.pure {α : Type} (a : α) : (Rd.pure a).Parses (done a) where
  sound r b r' h := by
    cases h
    exact ⟨rfl, [], ⟨rfl, rfl⟩, rfl⟩
  complete r b enc rest h hr := by
    obtain ⟨rfl, rfl⟩ := h
    exact ⟨r, rfl, hr, rfl⟩

theorem Rd.Parses.bind {α β : Type} {m : Rd α} {f : α → Rd β} {S : Bytes → α → Prop} {T : α → Bytes → β → Prop}
    (hm : m.Parses S) (hf : ∀ a, (f a).Parses (T a)) : (m.bind f).Parses (seq S T) where
  sound r b r' h := by
    unfold Rd.bind at h
    cases hm' : m r with
    | ok p =>
      obtain ⟨a, r1⟩ := p
      rw [hm'] at h
      obtain ⟨h1, e, h2, h3⟩ := hm.sound r a r1 hm'
      obtain ⟨h4, e', h5, h6⟩ := (hf a).sound r1 b r' h
      exact ⟨h4.trans h1, e ++ e', ⟨e, a, e', h2, h5, rfl⟩, by rw [h3, h6, List.append_assoc]⟩
    | err e => rw [hm'] at h; cases h
    | panic => rw [hm'] at h; cases h
  complete r b enc rest h hr := by
    obtain ⟨e, a, e', h1, h2, rfl⟩ := h
    obtain ⟨r1, h3, h4, h5⟩ := hm.complete r a e (e' ++ rest) h1 (by rw [hr, List.append_assoc])
    obtain ⟨r2, h6, h7, h8⟩ := (hf a).complete r1 b e' rest h2 h4
    exact ⟨r2, by unfold Rd.bind; rw [h3]; exact h6, h7, h8.trans h5⟩

theorem Rd.Parses.congr {α : Type} {m : Rd α} {S T : Bytes → α → Prop} (hm : m.Parses S) (h : ∀ e a, S e a ↔ T e a) :
    m.Parses T where
  sound r a r' hr := by
    obtain ⟨h1, e, h2, h3⟩ := hm.sound r a r' hr
    exact ⟨h1, e, (h e a).1 h2, h3⟩
  complete r a e rest he hr := hm.complete r a e rest ((h e a).2 he) hr

theorem readN_parses (n : Nat) : (readN n).Parses fun enc b => enc.length = n ∧ b = enc where
  sound r a r' h := by
    by_cases hn : n ≤ r.flat.length
    · obtain ⟨r1, h1, h2, h3⟩ := readN_of_le hn
      rw [h1] at h
      cases h
      exact ⟨h3, _, ⟨by simp [hn], rfl⟩, by rw [h2, List.take_append_drop]⟩
    · rw [readN_of_gt (by omega)] at h
      cases h
  complete r a enc rest h hr := by
    obtain ⟨h1, rfl⟩ := h
    exact (readN_decodes' h1).full r rest hr

theorem readU32_parses : readU32.Parses u32 := by
  refine ((readN_parses 4).bind fun b => Rd.Parses.pure (beNat b)).congr fun e a => ?_
  constructor
  · rintro ⟨e1, b, e2, ⟨h1, rfl⟩, ⟨rfl, rfl⟩, rfl⟩
    simpa [u32] using h1
  · rintro ⟨h1, rfl⟩
    exact ⟨e, e, [], ⟨h1, rfl⟩, ⟨rfl, rfl⟩, by simp⟩

theorem readTimes_parses {α : Type} {m : Rd α} {S : Bytes → α → Prop} (hm : m.Parses S) :
    ∀ n, (readTimes m n).Parses (many S n)
  | 0 => Rd.Parses.pure []
  | n + 1 => by
    refine (hm.bind fun a => (readTimes_parses hm n).bind fun as => Rd.Parses.pure (a :: as)).congr fun e l => ?_
    constructor
    · rintro ⟨e1, a, e2, h1, ⟨e3, l', e4, h2, ⟨rfl, rfl⟩, rfl⟩, rfl⟩
      exact ⟨e1, a, e3, l', h1, h2, by simp, rfl⟩
    · rintro ⟨e1, a, e2, l', h1, h2, rfl, rfl⟩
      exact ⟨e1, a, e2, h1, ⟨e2, l', [], h2, ⟨rfl, rfl⟩, by simp⟩, rfl⟩

theorem checked_parses (R : Ristretto F G) (msg : String) {α : Type} (g : G → α) :
    (Rd.bind (readN 32) fun b => if (R.pOfBytes b).2 then Rd.pure (g (R.pOfBytes b).1) else Rd.fail msg).Parses
      fun enc a => ∃ P, point R enc P ∧ a = g P where
  sound r a r' h := by
    unfold Rd.bind at h
    cases hm : readN 32 r with
    | ok p =>
      obtain ⟨b, r1⟩ := p
      rw [hm] at h
      obtain ⟨h1, e, ⟨h2, rfl⟩, h3⟩ := (readN_parses 32).sound r b r1 hm
      simp only [Res.bind_ok] at h
      split at h
      · rename_i hb
        cases h
        exact ⟨h1, b, ⟨_, ⟨h2, Prod.ext rfl hb⟩, rfl⟩, h3⟩
      · cases h
    | err e => rw [hm] at h; cases h
    | panic => rw [hm] at h; cases h
  complete r a enc rest h hr := by
    obtain ⟨P, ⟨h1, h2⟩, rfl⟩ := h
    obtain ⟨r1, h3, h4, h5⟩ := (readN_parses 32).complete r enc enc rest ⟨h1, rfl⟩ hr
    refine ⟨r1, ?_, h4, h5⟩
    unfold Rd.bind
    rw [h3]
    simp [h2, Rd.pure]

theorem scalar_parses (R : Ristretto F G) : (Rd.bind (readN 32) fun b => Rd.pure (R.sOfBytes b)).Parses (scalar R) := by
  refine ((readN_parses 32).bind fun b => Rd.Parses.pure (R.sOfBytes b)).congr fun e a => ?_
  constructor
  · rintro ⟨e1, b, e2, ⟨h1, rfl⟩, ⟨rfl, rfl⟩, rfl⟩
    simpa [scalar] using h1
  · rintro ⟨h1, rfl⟩
    exact ⟨e, e, [], ⟨h1, rfl⟩, ⟨rfl, rfl⟩, by simp⟩

/-! ## Pedersen commitments -/

/-- Specification: a commitment is transmitted as its point; the blinding factor is zero after decoding. -/
def Grammar.commitment (R : Ristretto F G) (enc : Bytes) (c : Commitment F G) : Prop :=
  ∃ P, point R enc P ∧ c = ⟨P, 0⟩

/-- Specification: the number of commitments and the commitments. -/
def Grammar.commitments (R : Ristretto F G) (enc : Bytes) (cs : List (Commitment F G)) : Prop :=
  ∃ e n e', u32 e n ∧ many (commitment R) n e' cs ∧ enc = e ++ e'

/-- C71: `Commitment.Decode` accepts exactly the 32-byte strings that encode a point. -/
theorem C71_commitment (R : Ristretto F G) : (Commitment.decode R).Parses (commitment R) :=
  checked_parses R _ fun P => (⟨P, 0⟩ : Commitment F G)

/-- C71: `DecodeCommitments` accepts exactly a count followed by that many point encodings. -/
theorem C71_commitments (R : Ristretto F G) : (Commitment.decodeAll R).Parses (commitments R) :=
  readU32_parses.bind fun n => readTimes_parses (C71_commitment R) n

/-! ## MLSAG signatures -/

/-- Specification: challenge, ring size `m`, number of keys `n`, `m` times `n` scalars and, if keys are transmitted, `m`
times `n` points. What is not transmitted (the message) keeps its value. -/
def Grammar.signature (R : Ristretto F G) (t : Mlsag.Signature F G) (keys : Bool) (enc : Bytes) (s : Mlsag.Signature F G) :
    Prop :=
  ∃ ec em en er ek m n,
    enc = ec ++ em ++ en ++ er ++ ek ∧ s.msg = t.msg ∧ scalar R ec s.c ∧ u32 em m ∧ u32 en n ∧
    many (many (scalar R) n) m er s.r ∧
    (if keys then ∃ ks, many (many (point R) n) m ek ks ∧ s.pubKeys = ks.map fun k => { keys := k }
      else ek = [] ∧ s.pubKeys = t.pubKeys)

theorem readPoint_parses (R : Ristretto F G) : (Mlsag.readPoint R).Parses (point R) :=
  (checked_parses R _ id).congr fun _ a => ⟨fun ⟨_, h, h'⟩ => h' ▸ h, fun h => ⟨a, h, rfl⟩⟩

theorem decodeResponses_parses (R : Ristretto F G) (n : Nat) : (Mlsag.decodeResponses R [] n).Parses (many (scalar R) n) := by
  refine ((readTimes_parses (scalar_parses R) n).bind fun xs => Rd.Parses.pure ([] ++ xs)).congr fun e a => ?_
  constructor
  · rintro ⟨e1, b, e2, h1, ⟨rfl, rfl⟩, rfl⟩
    simpa using h1
  · intro h
    exact ⟨e, a, [], h, ⟨rfl, rfl⟩, by simp⟩

theorem pubKeysDecode_parses (R : Ristretto F G) (n : Nat) :
    (Mlsag.PubKeys.decode R {} n).Parses fun e k => ∃ ks, many (point R) n e ks ∧ k = { keys := ks } := by
  refine ((readTimes_parses (readPoint_parses R) n).bind fun xs =>
    Rd.Parses.pure ({ keys := [] ++ xs } : Mlsag.PubKeys G)).congr fun e a => ?_
  constructor
  · rintro ⟨e1, b, e2, h1, ⟨rfl, rfl⟩, rfl⟩
    exact ⟨b, by simpa using h1, rfl⟩
  · rintro ⟨ks, h, rfl⟩
    exact ⟨e, ks, [], h, ⟨rfl, rfl⟩, by simp⟩

theorem many_map {α β : Type} {S : Bytes → α → Prop} (g : α → β) : ∀ (n : Nat) (e : Bytes) (l : List β),
    many (fun e b => ∃ a, S e a ∧ b = g a) n e l ↔ ∃ as, many S n e as ∧ l = as.map g
  | 0, e, l => by
    constructor
    · rintro ⟨rfl, rfl⟩; exact ⟨[], ⟨rfl, rfl⟩, rfl⟩
    · rintro ⟨as, ⟨rfl, rfl⟩, rfl⟩; exact ⟨rfl, rfl⟩
  | n + 1, e, l => by
    constructor
    · rintro ⟨e1, b, e2, l', ⟨a, h1, rfl⟩, h2, rfl, rfl⟩
      obtain ⟨as, h3, rfl⟩ := (many_map g n e2 l').1 h2
      exact ⟨a :: as, ⟨e1, a, e2, as, h1, h3, rfl, rfl⟩, rfl⟩
    · rintro ⟨as, ⟨e1, a, e2, l', h1, h2, rfl, rfl⟩, rfl⟩
      exact ⟨e1, g a, e2, l'.map g, ⟨a, h1, rfl⟩, (many_map g n e2 _).2 ⟨l', h2, rfl⟩, rfl, rfl⟩

/-- C71: `Signature.Decode` accepts exactly the encodings of the specification. -/
theorem C71_mlsag (R : Ristretto F G) (t : Mlsag.Signature F G) (keys : Bool) :
    (t.decode R keys).Parses (signature R t keys) := by
  unfold Mlsag.Signature.decode
  cases keys
  · simp only [Bool.not_false, if_true]
    refine ((scalar_parses R).bind fun c => readU32_parses.bind fun m => readU32_parses.bind fun n =>
      (readTimes_parses (decodeResponses_parses R n) m).bind fun r =>
        Rd.Parses.pure ({ t with c := c, r := r } : Mlsag.Signature F G)).congr fun e s => ?_
    constructor
    · rintro ⟨ec, c, _, hc, ⟨em, m, _, hm, ⟨en, n, _, hn, ⟨er, r, _, hr, ⟨rfl, rfl⟩, rfl⟩, rfl⟩, rfl⟩, rfl⟩
      exact ⟨ec, em, en, er, [], m, n, by simp, rfl, hc, hm, hn, hr, rfl, rfl⟩
    · rintro ⟨ec, em, en, er, ek, m, n, rfl, hmsg, hc, hm, hn, hr, rfl, hk⟩
      refine ⟨ec, s.c, em ++ (en ++ (er ++ [])), hc, ⟨em, m, _, hm, ⟨en, n, _, hn, ⟨er, s.r, [], hr, ⟨rfl, ?_⟩, rfl⟩, rfl⟩, rfl⟩, by simp⟩
      cases s
      simp_all
  · simp only [Bool.not_true, Bool.false_eq_true, if_false]
    refine ((scalar_parses R).bind fun c => readU32_parses.bind fun m => readU32_parses.bind fun n =>
      (readTimes_parses (decodeResponses_parses R n) m).bind fun r =>
      (readTimes_parses (pubKeysDecode_parses R n) m).bind fun pk =>
        Rd.Parses.pure ({ t with c := c, r := r, pubKeys := pk } : Mlsag.Signature F G)).congr fun e s => ?_
    constructor
    · rintro ⟨ec, c, _, hc, ⟨em, m, _, hm, ⟨en, n, _, hn, ⟨er, r, _, hr, ⟨ek, k, _, hk, ⟨rfl, rfl⟩, rfl⟩, rfl⟩, rfl⟩, rfl⟩, rfl⟩
      exact ⟨ec, em, en, er, ek, m, n, by simp, rfl, hc, hm, hn, hr, (many_map _ _ _ _).1 hk⟩
    · rintro ⟨ec, em, en, er, ek, m, n, rfl, hmsg, hc, hm, hn, hr, hk⟩
      refine ⟨ec, s.c, em ++ (en ++ (er ++ (ek ++ []))), hc, ⟨em, m, _, hm, ⟨en, n, _, hn, ⟨er, s.r, _, hr,
        ⟨ek, s.pubKeys, [], (many_map _ _ _ _).2 hk, ⟨rfl, ?_⟩, rfl⟩, rfl⟩, rfl⟩, rfl⟩, by simp⟩
      cases s
      simp_all

/-! ## Inner product and range proofs -/

variable [DecidableEq F]

/-- The 32-byte blocks of a byte string at even and odd positions. -/
def blocks (buf : Bytes) (i : Nat) : Bytes := (buf.drop (32 * i)).take 32

theorem decodeLoop_ok (R : Ristretto F G) : ∀ (n : Nat) (buf : Bytes), 64 * n ≤ buf.length →
    IP.decodeLoop R n buf = .ok ((List.range n).map fun i => (R.pOfBytes (blocks buf (2 * i))).1,
      (List.range n).map fun i => (R.pOfBytes (blocks buf (2 * i + 1))).1)
  | 0, _, _ => rfl
  | n + 1, buf, h => by
    have h1 : ¬ buf.length < 32 := by omega
    have h2 : ¬ (buf.drop 32).length < 32 := by rw [List.length_drop]; omega
    rw [IP.decodeLoop, if_neg h1, if_neg h2, decodeLoop_ok R n _ (by rw [List.length_drop]; omega), Res.bind_ok]
    have hb : ∀ i, blocks (buf.drop 64) i = blocks buf (i + 2) := by
      intro i
      unfold blocks
      rw [List.drop_drop]
      congr 2
      omega
    simp only [hb, List.range_succ_eq_map, List.map_cons, List.map_map]
    rfl

/-- C71 (violated): the decoder of inner product proofs checks nothing but the length. It accepts every stream of
`64 + 32 k` bytes that ends without an error (`k < 2^33`), whether or not its blocks encode points, reads `k / 2` pairs of
points and ignores a block left over; it rejects every other stream. -/
theorem C71_innerproduct_violated (R : Ristretto F G) (r : Reader) (hlen : r.flat.length < 2 ^ 38) :
    IP.Proof.decode R r =
      if 64 ≤ r.flat.length ∧ r.flat.length % 32 = 0 ∧ r.fin = .eof then
        .ok (⟨(List.range ((r.flat.length - 64) / 64)).map fun i => (R.pOfBytes (blocks r.flat (2 * i + 2))).1,
          (List.range ((r.flat.length - 64) / 64)).map fun i => (R.pOfBytes (blocks r.flat (2 * i + 3))).1,
          R.sOfBytes (blocks r.flat 0), R.sOfBytes (blocks r.flat 1)⟩, ⟨[], .eof⟩)
      else if r.flat.length < 64 then .err "EOF"
      else if r.fin = .fault then .err "read error"
      else .err "proof was not formatted correctly" := by
  unfold IP.Proof.decode
  by_cases h32 : r.flat.length < 32
  · rw [if_neg (by omega), if_pos (by omega)]
    simp [Rd.bind, readN_of_gt h32]
  obtain ⟨r1, a1, b1, c1⟩ := readN_of_le (n := 32) (r := r) (by omega)
  by_cases h64 : r.flat.length < 64
  · rw [if_neg (by omega), if_pos h64]
    have : r1.flat.length < 32 := by rw [b1, List.length_drop]; omega
    simp [Rd.bind, a1, readN_of_gt this]
  obtain ⟨r2, a2, b2, c2⟩ := readN_of_le (n := 32) (r := r1) (by rw [b1, List.length_drop]; omega)
  have hf : r2.flat = r.flat.drop 64 := by rw [b2, b1, List.drop_drop]
  have hfin : r2.fin = r.fin := c2.trans c1
  simp only [Rd.bind, a1, a2, Res.bind_ok]
  unfold readAll
  rw [hfin, if_neg h64]
  cases he : r.fin with
  | fault => simp
  | eof =>
    simp only [Res.bind_ok, hf, List.length_drop]
    by_cases hm : r.flat.length % 32 = 0
    · rw [if_neg (by omega), if_pos ⟨by omega, hm, trivial⟩]
      have hn : (r.flat.length - 64) / 64 % 2 ^ 32 = (r.flat.length - 64) / 64 := by
        apply Nat.mod_eq_of_lt
        omega
      have hb : ∀ i, blocks (r.flat.drop 64) i = blocks r.flat (i + 2) := by
        intro i
        unfold blocks
        rw [List.drop_drop]
        congr 2
        omega
      have hb0 : r.flat.take 32 = blocks r.flat 0 := by simp [blocks]
      have hb1 : r1.flat.take 32 = blocks r.flat 1 := by rw [b1]; simp [blocks]
      rw [hn, decodeLoop_ok R _ _ (by rw [List.length_drop]; omega)]
      simp only [hb, hb0, hb1]
      rfl
    · rw [if_pos (by omega), if_neg (by tauto), if_neg (by decide)]
      rfl

/-- Specification: the part of a range proof before the inner product proof. -/
def Grammar.outer (R : Ristretto F G) (recv : RP.Proof F G) (incl : Bool) (enc : Bytes) (p : RP.Proof F G) : Prop :=
  ∃ eV eA eS e1 e2 ex em et, enc = eV ++ eA ++ eS ++ e1 ++ e2 ++ ex ++ em ++ et ∧
    (if incl then commitments R eV p.V else eV = [] ∧ p.V = recv.V) ∧
    point R eA p.A ∧ point R eS p.S ∧ point R e1 p.T1 ∧ point R e2 p.T2 ∧
    scalar R ex p.taux ∧ scalar R em p.mu ∧ scalar R et p.t

theorem readerToPoint_parses (R : Ristretto F G) : (RP.readerToPoint R).Parses (point R) :=
  (checked_parses R _ id).congr fun _ a => ⟨fun ⟨_, h, h'⟩ => h' ▸ h, fun h => ⟨a, h, rfl⟩⟩

theorem ipDecode_rest (R : Ristretto F G) (r r' : Reader) (ip : IP.Proof F G) (h : IP.Proof.decode R r = .ok (ip, r')) :
    r' = ⟨[], .eof⟩ := by
  unfold IP.Proof.decode at h
  simp only [Rd.bind] at h
  obtain ⟨⟨a, r1⟩, -, h⟩ := Res.bind_eq_ok.1 h
  obtain ⟨⟨b, r2⟩, -, h⟩ := Res.bind_eq_ok.1 h
  obtain ⟨⟨c, r3⟩, h3, h⟩ := Res.bind_eq_ok.1 h
  unfold readAll at h3
  split at h3
  · cases h3
    split at h
    · cases h
    · unfold Rd.lift at h
      obtain ⟨⟨d, r4⟩, h4, h⟩ := Res.bind_eq_ok.1 h
      obtain ⟨e, -, h5⟩ := Res.bind_eq_ok.1 h4
      cases h5
      cases h
      rfl
  · cases h3

/-- The part of `Proof.Decode` before the inner product proof. -/
def outerRd (R : Ristretto F G) (recv : RP.Proof F G) (incl : Bool) : Rd (RP.Proof F G) :=
  Rd.bind (if incl then Commitment.decodeAll R else Rd.pure recv.V) fun V =>
  Rd.bind (RP.readerToPoint R) fun A =>
  Rd.bind (RP.readerToPoint R) fun S =>
  Rd.bind (RP.readerToPoint R) fun T1 =>
  Rd.bind (RP.readerToPoint R) fun T2 =>
  Rd.bind (RP.readerToScalar R) fun taux =>
  Rd.bind (RP.readerToScalar R) fun mu =>
  Rd.bind (RP.readerToScalar R) fun t =>
  Rd.pure ⟨V, A, S, T1, T2, taux, mu, t, none⟩

theorem Rd.bind_assoc {α β γ : Type} (m : Rd α) (f : α → Rd β) (g : β → Rd γ) :
    Rd.bind (Rd.bind m f) g = Rd.bind m fun a => Rd.bind (f a) g := by
  funext r
  unfold Rd.bind
  cases m r <;> rfl

theorem Rd.pure_bind {α β : Type} (a : α) (f : α → Rd β) : Rd.bind (Rd.pure a) f = f a := rfl

theorem decode_split (R : Ristretto F G) (recv : RP.Proof F G) (incl : Bool) :
    recv.decode R incl = Rd.bind (outerRd R recv incl) fun p => Rd.bind (IP.Proof.decode R) fun ip =>
      Rd.pure { p with ip := some ip } := by
  unfold outerRd
  simp only [Rd.bind_assoc, Rd.pure_bind]
  rfl

theorem outerRd_parses (R : Ristretto F G) (recv : RP.Proof F G) (incl : Bool) :
    (outerRd R recv incl).Parses fun e p => outer R recv incl e p ∧ p.ip = none := by
  have hV : (if incl then Commitment.decodeAll R else Rd.pure recv.V).Parses
      (fun e V => if incl then commitments R e V else e = [] ∧ V = recv.V) := by
    cases incl
    · exact (Rd.Parses.pure recv.V).congr fun e V => by simp [done]
    · simpa using C71_commitments R
  refine (hV.bind fun V => (readerToPoint_parses R).bind fun A => (readerToPoint_parses R).bind fun S =>
    (readerToPoint_parses R).bind fun T1 => (readerToPoint_parses R).bind fun T2 => (scalar_parses R).bind fun taux =>
    (scalar_parses R).bind fun mu => (scalar_parses R).bind fun t =>
      Rd.Parses.pure (⟨V, A, S, T1, T2, taux, mu, t, none⟩ : RP.Proof F G)).congr fun e p => ?_
  constructor
  · rintro ⟨eV, V, _, hV, ⟨eA, A, _, hA, ⟨eS, S, _, hS, ⟨e1, T1, _, h1, ⟨e2, T2, _, h2, ⟨ex, taux, _, hx,
      ⟨em, mu, _, hm, ⟨et, t, _, ht, ⟨rfl, rfl⟩, rfl⟩, rfl⟩, rfl⟩, rfl⟩, rfl⟩, rfl⟩, rfl⟩, rfl⟩
    exact ⟨⟨eV, eA, eS, e1, e2, ex, em, et, by simp, hV, hA, hS, h1, h2, hx, hm, ht⟩, rfl⟩
  · rintro ⟨⟨eV, eA, eS, e1, e2, ex, em, et, rfl, hV, hA, hS, h1, h2, hx, hm, ht⟩, hip⟩
    refine ⟨eV, p.V, _, hV, ⟨eA, p.A, _, hA, ⟨eS, p.S, _, hS, ⟨e1, p.T1, _, h1, ⟨e2, p.T2, _, h2, ⟨ex, p.taux, _, hx,
      ⟨em, p.mu, _, hm, ⟨et, p.t, [], ht, ⟨rfl, ?_⟩, rfl⟩, rfl⟩, rfl⟩, rfl⟩, rfl⟩, rfl⟩, rfl⟩, by simp⟩
    cases p
    simp_all

/-- C71: `Proof.Decode` of a range proof succeeds exactly on streams that begin with an encoding of the outer part, all
points of which are valid, and on the rest of which the inner product decoder succeeds; the result is made of the two. -/
theorem C71_rangeproof (R : Ristretto F G) (recv : RP.Proof F G) (incl : Bool) (r : Reader) (p : RP.Proof F G) (r' : Reader) :
    recv.decode R incl r = .ok (p, r') ↔
      ∃ enc ip r1, outer R recv incl enc p ∧ p.ip = some ip ∧ r.flat = enc ++ r1.flat ∧ r1.fin = r.fin ∧
        IP.Proof.decode R r1 = .ok (ip, r') := by
  rw [decode_split]
  constructor
  · intro h
    unfold Rd.bind at h
    obtain ⟨⟨p0, r1⟩, h1, h⟩ := Res.bind_eq_ok.1 h
    obtain ⟨⟨ip, r2⟩, h2, h⟩ := Res.bind_eq_ok.1 h
    cases h
    obtain ⟨h3, enc, ⟨h4, -⟩, h5⟩ := (outerRd_parses R recv incl).sound r p0 r1 h1
    exact ⟨enc, ip, r1, h4, rfl, h5, h3, h2⟩
  · rintro ⟨enc, ip, r1, h1, h2, h3, h4, h5⟩
    obtain ⟨r2, h6, h7, h8⟩ := (outerRd_parses R recv incl).complete r { p with ip := none } enc r1.flat ⟨h1, rfl⟩ h3
    have hs := RP.ipDecode_chunkFree R r1 r2 ⟨h7.symm, h4.trans h8.symm⟩
    rw [h5] at hs
    have hip : IP.Proof.decode R r2 = .ok (ip, r') := by
      cases hd : IP.Proof.decode R r2 with
      | ok q =>
        obtain ⟨ip', r3⟩ := q
        rw [hd] at hs
        obtain ⟨rfl, -⟩ := hs
        rw [ipDecode_rest R _ _ _ hd, ipDecode_rest R _ _ _ h5]
      | err e => rw [hd] at hs; exact hs.elim
      | panic => rw [hd] at hs; exact hs.elim
    simp only [Rd.bind, h6, hip, Res.bind_ok, Rd.pure]
    rw [← h2]

/-- There are both valid and invalid point encodings, and the grammars are inhabited. -/
example (x : Toy.K) : Grammar.point Toy.ris (Toy.ris.pBytes x) x :=
  ⟨Toy.ris_encodings.pBytes_length x, Toy.ris_encodings.pOfBytes_pBytes x⟩
example : ∀ P, ¬ Grammar.point Toy.ris (List.replicate 32 255) P := by
  rintro P ⟨-, h⟩
  have : (Toy.ris.pOfBytes (List.replicate 32 255)).2 = false := by
    rw [Toy.ris_pOfBytes]
    decide +kernel
  rw [h] at this
  cases this
/-- A commitment list with an invalid point is rejected. -/
example (x : Toy.K) : ∀ cs r, Commitment.decodeAll Toy.ris
    (Reader.ofBytes (be32 2 ++ Toy.ris.pBytes x ++ List.replicate 32 255)) ≠ .ok (cs, r) := by
  intro cs r h
  obtain ⟨-, enc, ⟨e, n, e', ⟨h1, h2⟩, h3, rfl⟩, h5⟩ := (C71_commitments Toy.ris).sound _ _ _ h
  simp only [Reader.ofBytes, Reader.flat, List.flatten_cons, List.flatten_nil, List.append_nil, List.append_assoc] at h5
  obtain ⟨rfl, h6⟩ := List.append_inj h5 (by rw [h1]; rfl)
  rw [beNat_be32_of_lt (by norm_num)] at h2
  subst h2
  obtain ⟨e1, a1, e2, l', ⟨P, ⟨l1, -⟩, -⟩, ⟨e3, a3, e4, l'', ⟨Q, ⟨l2, hq⟩, -⟩, ⟨rfl, -⟩, rfl, -⟩, rfl, -⟩ := h3
  rw [List.append_assoc] at h6
  obtain ⟨-, h7⟩ := List.append_inj h6 (by rw [l1, Toy.ris_encodings.pBytes_length])
  rw [List.append_nil] at h7
  have h8 : List.replicate 32 255 ++ [] = e3 ++ r.chunks.flatten := by rw [List.append_nil]; exact h7
  obtain ⟨rfl, -⟩ := List.append_inj h8 (by rw [l2]; rfl)
  have : (Toy.ris.pOfBytes (List.replicate 32 255)).2 = false := by
    rw [Toy.ris_pOfBytes]
    decide +kernel
  rw [hq] at this
  cases this

/-! ## C72: equality of commitments -/

/-- C72: `EqualValue` compares the points only; `Equals` compares points and blinding factors. -/
theorem C72_equality [DecidableEq G] (c d : Commitment F G) :
    (Commitment.equalValue c d = true ↔ c.value = d.value) ∧ (Commitment.equals c d = true ↔ c = d) := by
  constructor
  · simp [Commitment.equalValue]
  · cases c; cases d
    simp [Commitment.equals, Commitment.equalValue]

/-- C72 (violated): `Equals` does not survive encoding: a commitment with a nonzero blinding factor differs from what its
encoding decodes to, while `EqualValue` holds. -/
theorem C72_decoded_violated [DecidableEq G] {R : Ristretto F G} (E : R.Encodings) (c : Commitment F G)
    (hb : c.blindingFactor ≠ 0) (r : Reader) (rest : Bytes) (hr : r.flat = R.pBytes c.value ++ rest) :
    ∃ d r', Commitment.decode R r = .ok (d, r') ∧ Commitment.equalValue c d = true ∧ Commitment.equals c d = false := by
  obtain ⟨r', h1, -, -⟩ := (C71_commitment R).complete r ⟨c.value, 0⟩ (R.pBytes c.value) rest
    ⟨c.value, ⟨E.pBytes_length _, E.pOfBytes_pBytes _⟩, rfl⟩ hr
  refine ⟨_, r', h1, (C72_equality _ _).1.2 rfl, ?_⟩
  rw [Bool.eq_false_iff, Ne, (C72_equality _ _).2]
  rintro h
  exact hb (congrArg Commitment.blindingFactor h)

example : (⟨3, 4⟩ : Commitment Toy.K Toy.K).blindingFactor ≠ 0 := by
  intro h
  have := Toy.ris.cast_inj (m := 4) (n := 0) (by have := Toy.ris.two64_lt; omega) (by have := Toy.ris.two64_lt; omega)
    (by simpa using h)
  omega

end Dusk
