import Verif.Props.LedgerHide
import Verif.Props.Streams
/-!
# C159: payments sent as bytes

A wallet that pays as in C157 sends the payment with the encoders of the library one after another: the numbers of inputs and outputs, for every input
`Signature.Encode(w, true)`, the new commitment and the key image, and last the range proof with `Encode(w, true)`. A receiver reads it with
the decoders and checks it against its own coins.
-/

set_option linter.unusedSectionVars false

namespace Dusk.Mlsag

open scoped BigOperators

variable {F G : Type} [Field F] [AddCommGroup G] [Module F G] [DecidableEq F] [DecidableEq G]

/-- An input of a payment. -/
structure Parcel (F G : Type) where
  sig : Signature F G
  pseudo : G
  image : G

/-- The inputs of a slip, if all signatures were made. -/
def Slip.parcels (s : Slip F G) : Res (List (Parcel F G)) :=
  mapRes (fun p : Res (Signature F G × G) × G => p.1.bind fun q => .ok ⟨q.1, p.2, q.2⟩) (s.sigs.zip s.pseudos)

/-- The calls that write an input. -/
def sendParcel (R : Ristretto F G) (p : Parcel F G) : Wr Unit :=
  (p.sig.encode R true).bind fun _ => (writeB (R.pBytes p.pseudo)).bind fun _ => writeB (R.pBytes p.image)

/-- The calls that write a payment. -/
def sendPayment (R : Ristretto F G) (ins : List (Parcel F G)) (outs : Nat) (proof : RP.Proof F G) : Wr Unit :=
  (writeB (be32 ins.length)).bind fun _ => (writeB (be32 outs)).bind fun _ => (writeEach (sendParcel R) ins).bind fun _ => proof.encode R true

/-- The calls that read an input, into a new `Signature`. -/
def readParcel (R : Ristretto F G) : Rd (Parcel F G) :=
  ((⟨0, [], [], []⟩ : Signature F G).decode R true).bind fun s => (readPoint R).bind fun p => (readPoint R).bind fun i => Rd.pure ⟨s, p, i⟩

/-- What a receiver has read: inputs, number of outputs, range proof. -/
structure Delivery (F G : Type) where
  ins : List (Parcel F G)
  outs : Nat
  proof : RP.Proof F G

/-- The calls that read a payment, the range proof into `recv`. -/
def readPayment (R : Ristretto F G) (recv : RP.Proof F G) : Rd (Delivery F G) :=
  readU32.bind fun n => readU32.bind fun k => (readTimes (readParcel R) n).bind fun ins => (recv.decode R true).bind fun p => Rd.pure ⟨ins, k, p⟩

/-- The checks of a receiver, whose package variable is `M`: the range proof, the sum of the commitments, every signature for the message that it
computes, and that all rings are made of its coins. -/
structure Delivery.Taken (R : Ristretto F G) (gen : Bytes) (M : Nat) (msg : RP.Proof F G → List G → Nat → Bytes) (coins : List (G × G)) (fee : Nat)
    (d : Delivery F G) : Prop where
  range : ∀ c, RP.verify R M d.proof c = .ok true
  sum : (d.ins.map Parcel.pseudo).sum = ((d.proof.V.take d.outs).map Commitment.value).sum + (fee : F) • (Pedersen.new R gen).basePoint
  signed : ∀ i (hi : i < d.ins.length),
    ({ d.ins[i].sig with msg := msg d.proof (d.ins.map Parcel.pseudo) i } : Signature F G).verify R [d.ins[i].image] = .ok true
  rings : ∀ p ∈ d.ins, ∀ ks ∈ p.sig.pubKeys, ∃ coin ∈ coins, ks.keys = [coin.1, coin.2 - p.pseudo]

/-! ### Bytes -/

/-- The signatures that `Prove` of a `DualKey` makes: as many response vectors as members, of two responses, and two keys for each member. -/
structure Parcel.Even (p : Parcel F G) : Prop where
  some : p.sig.r ≠ []
  few : p.sig.r.length < 2 ^ 32
  two : ∀ r ∈ p.sig.r, r.length = 2
  same : p.sig.pubKeys.length = p.sig.r.length
  keys : ∀ k ∈ p.sig.pubKeys, k.keys.length = 2

/-- Specification: the bytes of an input. -/
def parcelBytes (R : Ristretto F G) (p : Parcel F G) : Bytes := encoding R p.sig 2 true ++ (R.pBytes p.pseudo ++ R.pBytes p.image)

/-- Specification: the bytes of a payment. -/
def paymentBytes (R : Ristretto F G) (ins : List (Parcel F G)) (outs : Nat) (proof : RP.Proof F G) (ip : IP.Proof F G) : Bytes :=
  be32 ins.length ++ (be32 outs ++ (ins.flatMap (parcelBytes R) ++ RP.bytes R proof ip true))

/-- The number of `Write` calls for a payment. -/
def paymentWrites (ins : List (Parcel F G)) (proof : RP.Proof F G) (ip : IP.Proof F G) : Nat :=
  1 + (1 + ((ins.map fun p => writes p.sig true + (1 + 1)).sum + ((1 + proof.V.length) + (9 + 2 * ip.L.length))))

/-- What is read of an input: the signature without message and decoy flags. -/
def Parcel.arrived (p : Parcel F G) : Parcel F G := ⟨received ⟨0, [], [], []⟩ p.sig true, p.pseudo, p.image⟩

theorem sendParcel_emits (R : Ristretto F G) (p : Parcel F G) (h : p.Even) :
    (sendParcel R p).Emits (writes p.sig true + (1 + 1)) (parcelBytes R p) := by
  have hh : p.sig.r.head?.map List.length = some 2 := by
    cases hs : p.sig.r with
    | nil => exact absurd hs h.some
    | cons r0 rs => simp [h.two r0 (by simp [hs])]
  exact (C18_encode R p.sig true h.some h.few hh).bind ((writeB_emits _).bind (writeB_emits _))

theorem readParcel_decodes {R : Ristretto F G} (E : R.Encodings) (p : Parcel F G) (h : p.Even) :
    (readParcel R).Decodes (parcelBytes R p) p.arrived :=
  (C18_decode E ⟨0, [], [], []⟩ p.sig true 2 h.few (by norm_num) h.two fun _ => ⟨h.same, h.keys⟩).bind
    ((readPoint_decodes E p.pseudo).bind ((readPoint_decodes E p.image).map fun i => (⟨_, p.pseudo, i⟩ : Parcel F G)))

/-- C159: the bytes of a payment. A writer that takes all writes has them after the calls; another one makes the calls fail and has
received a prefix. -/
theorem C159_send (R : Ristretto F G) (ins : List (Parcel F G)) (outs : Nat) (proof : RP.Proof F G) (ip : IP.Proof F G) (he : ∀ p ∈ ins, p.Even)
    (hip : proof.ip = some ip) (hl : ip.L.length = ip.R.length) (hk : ip.L.length < 2 ^ 32) :
    (sendPayment R ins outs proof).Emits (paymentWrites ins proof ip) (paymentBytes R ins outs proof ip) := by
  have h := RP.C66_encode R proof ip hip true hl hk
  rw [if_pos rfl] at h
  exact (writeB_emits _).bind ((writeB_emits _).bind ((writeEach_emits ins fun p hp => sendParcel_emits R p (he p hp)).bind h))

/-- C159: a payment is read back, in whatever chunks its bytes arrive, also when 32 bytes of anything follow. -/
theorem C159_receive {R : Ristretto F G} (E : R.Encodings) (ins : List (Parcel F G)) (outs : Nat) (proof recv : RP.Proof F G) (ip : IP.Proof F G)
    (he : ∀ p ∈ ins, p.Even) (hn : ins.length < 2 ^ 32) (ho : outs < 2 ^ 32) (hip : proof.ip = some ip) (hV : proof.V.length < 2 ^ 32)
    (hl : ip.L.length = ip.R.length) (hk : ip.L.length < 2 ^ 32) (tail : Bytes) (ht : tail.length = 0 ∨ tail.length = 32) (r : Reader)
    (hr : r.flat = paymentBytes R ins outs proof ip ++ tail) (hf : r.fin = .eof) :
    readPayment R recv r = .ok (⟨ins.map Parcel.arrived, outs, RP.published proof⟩, ⟨[], .eof⟩) := by
  have hd : (readTimes (readParcel R) ins.length).Decodes (ins.flatMap (parcelBytes R)) (ins.map Parcel.arrived) :=
    readTimes_decodes_map ins fun p hp => readParcel_decodes E p (he p hp)
  obtain ⟨r1, a1, a2, a3⟩ := (readU32_decodes hn).full r (be32 outs ++ (ins.flatMap (parcelBytes R) ++ RP.bytes R proof ip true) ++ tail)
    (by rw [hr, paymentBytes, List.append_assoc])
  obtain ⟨r2, b1, b2, b3⟩ := (readU32_decodes ho).full r1 (ins.flatMap (parcelBytes R) ++ RP.bytes R proof ip true ++ tail)
    (by rw [a2]; simp only [List.append_assoc])
  obtain ⟨r3, c1, c2, c3⟩ := hd.full r2 (RP.bytes R proof ip true ++ tail) (by rw [b2, List.append_assoc])
  have h := RP.C66_roundtrip E recv proof ip hip true hV hl hk tail ht r3 c2 (by rw [c3, b3, a3, hf])
  unfold readPayment
  simp only [Rd.bind, a1, b1, c1, h, Rd.pure, Res.bind_ok]
  rfl

/-- C159: the size of a payment: 300 bytes, for every input 104 bytes and 128 for each member of its ring, 32 for every commitment of the range proof
and 64 for every round of its inner product proof. -/
theorem C159_size {R : Ristretto F G} (E : R.Encodings) (ins : List (Parcel F G)) (outs : Nat) (proof : RP.Proof F G) (ip : IP.Proof F G)
    (he : ∀ p ∈ ins, p.Even) (hl : ip.L.length = ip.R.length) :
    (paymentBytes R ins outs proof ip).length =
      300 + 32 * proof.V.length + 64 * ip.L.length + 104 * ins.length + 128 * (ins.map fun p => p.sig.r.length).sum := by
  have h1 : ∀ p ∈ ins, (parcelBytes R p).length = 104 + 128 * p.sig.r.length := by
    intro p hp
    have e1 : (p.sig.r.flatMap fun r => r.flatMap R.sBytes).length = 64 * p.sig.r.length :=
      flatMap_sized _ 64 _ fun r hr => by rw [flatMap_sized _ 32 _ fun x _ => E.sBytes_length x, (he p hp).two r hr]
    have e2 : (p.sig.pubKeys.flatMap fun k => k.keys.flatMap R.pBytes).length = 64 * p.sig.pubKeys.length :=
      flatMap_sized _ 64 _ fun k hk => by rw [flatMap_sized _ 32 _ fun x _ => E.pBytes_length x, (he p hp).keys k hk]
    simp only [parcelBytes, encoding, if_true, List.length_append, E.sBytes_length, E.pBytes_length, be32_length, e1, e2, (he p hp).same]
    ring
  have h2 : (ins.flatMap (parcelBytes R)).length = 104 * ins.length + 128 * (ins.map fun p => p.sig.r.length).sum := by
    clear he
    induction ins with
    | nil => simp
    | cons p ps ih =>
      rw [List.flatMap_cons, List.length_append, h1 p (by simp), ih fun q hq => h1 q (by simp [hq])]
      simp only [List.length_cons, List.map_cons, List.sum_cons]
      ring
  rw [paymentBytes, List.length_append, List.length_append, List.length_append, be32_length, be32_length, h2, RP.bytes_length E proof ip true hl,
    if_pos rfl]
  ring

/-! ### Honest payments -/

/-- What `Prove` of a `DualKey` returns can be sent, after any calls. -/
theorem prove_even (R : Ristretto F G) (ops : List (EOp F G)) (d : DualKey F G) (hd : EOp.run R DualKey.new ops = .ok d) (coins : Coins F)
    (sig : Signature F G) (I : G) (h : (d.prove R coins).2 = .ok (sig, I)) :
    sig.r.length = sig.pubKeys.length ∧ sig.r.length = (Calls.ring ops).length + 1 ∧ (∀ r ∈ sig.r, r.length = 2) ∧
      ∀ k ∈ sig.pubKeys, k.keys.length = 2 := by
  have o := C84_outcome R ops d hd coins
  have bad : ∀ {x : Res (Signature F G × G)}, x = .ok (sig, I) → ¬ x.IsErr := by
    rintro x hx ⟨e, he⟩
    rw [hx] at he; cases he
  have n0 : Calls.primary 0 ops ≠ 0 := fun g => bad h (o.1 (Or.inl g))
  have n1 : Calls.zeroing 0 ops ≠ 0 := fun g => bad h (o.1 (Or.inr g))
  obtain ⟨o1, o2, -⟩ := o.2 n0 n1
  have hn : Calls.ring ops ≠ [] := fun g => by rw [o1 g] at h; cases h
  have hx : EOp.secrets ops = [] := by
    by_contra g
    exact bad h (o2 hn (Or.inl g))
  have hl : ∀ ks ∈ Calls.ring ops, ks.length = 2 := by
    by_contra g
    push Not at g
    exact bad h (o2 hn (Or.inr g))
  rcases run_spec R ops DualKey.new with ⟨g, -⟩ | ⟨d', g, -, h0, h1, hm, hr⟩
  · rw [hd] at g
    cases g
  rw [hd] at g
  cases g
  change d.key0 = Calls.primary 0 ops at h0
  change d.key1 = Calls.zeroing 0 ops at h1
  change d.proof.matrix.map PubKeys.keys = [] ++ Calls.ring ops at hr
  rw [List.nil_append] at hr
  have hn' : d.proof.matrix ≠ [] := fun g => hn (by rw [← hr, g]; rfl)
  have hl' : ∀ k ∈ d.proof.matrix, k.keys.length = 2 := fun k hk => hl _ (by rw [← hr]; exact List.mem_map_of_mem hk)
  obtain ⟨f1, f2, f3⟩ := Fresh'.run ops (Fresh'.new R) hd
  rw [hx] at f1 f2
  have e1 : (loaded R d).privKeys = [d.key0, d.key1] := by simp [loaded, Proof.addSecret, f1]
  have e2 : (loaded R d).signer.keys = [d.key0 • R.base, d.key1 • R.base] := by
    simp [loaded, Proof.addSecret, PubKeys.addPubKey, privKeyToPubKey, f2]
  obtain ⟨sig', I', g1, g2, -⟩ := prove_gen R (loaded R d) true coins (by rw [e1, e2]; rfl)
    (fun k hk => .inl (f3 k hk)) hn' (by rw [e1]; simp) (by rw [e1]; simp) (by rw [e1]; intro k hk; rw [hl' k hk]; simp)
  have hI := g2.images
  rw [e1] at hI
  have hI : I' = [image R d.key0] := hI
  subst hI
  have es : sig' = sig := by
    unfold DualKey.prove at h
    rw [if_neg (by rw [h0, h1]; tauto)] at h
    simp only [g1, Res.bind_ok] at h
    exact (Prod.mk.inj (Res.ok.inj h)).1
  subst es
  rw [e1] at g2
  have hp := g2.perm
  have e3 : (loaded R d).matrix = d.proof.matrix := rfl
  rw [e3] at hp
  refine ⟨by rw [g2.ring, g2.lenR], ?_, ?_, ?_⟩
  · rw [g2.lenR, hp.length_eq, ← hr]; simp
  · intro r hr
    obtain ⟨j, hj⟩ := List.getElem?_of_mem hr
    by_cases hji : j = ((loaded R d).prove R true coins).1.index
    · obtain ⟨c, hc⟩ := g2.real
      rw [hji, hc] at hj
      rw [← Option.some.inj hj]
      simp
    · rw [g2.resp j hji r hj]; simp
  · intro k hk
    rw [g2.ring, hp.mem_iff, List.mem_append] at hk
    rcases hk with hk | hk
    · exact hl' k hk
    · rw [List.mem_singleton.1 hk]; simp

/-- C159: a signature that was sent with its keys, with the message put back, has the verdict of the signature sent, whatever it is. -/
theorem C159_verdict (R : Ristretto F G) (t s : Signature F G) (I : List G) :
    ({ received t s true with msg := s.msg } : Signature F G).verify R I = s.verify R I := by
  have hb : ({ received t s true with msg := s.msg } : Signature F G).verifyBody R I = s.verifyBody R I := by
    funext i c
    unfold Signature.verifyBody received
    simp only [if_true]
    cases idx s.r (prevIndex s.r.length i) with
    | ok resp =>
      simp only [Res.bind_ok]
      unfold idx
      rw [List.getElem?_map]
      cases s.pubKeys[prevIndex s.r.length i]? with
      | none => rfl
      | some k => rfl
    | err _ => rfl
    | panic => rfl
  unfold Signature.verify
  rw [hb]
  simp [received]

/-- The signature of an honest input. -/
theorem signLine_honest (R : Ristretto F G) (gen : Bytes) (side : Nat × Nat → Nat) (m : Bytes) (l : Input F G × Entry F × F) (hx : l.1.x ≠ 0)
    (ho : l.1.others ≠ []) (hne : (lineNew side l).point R gen ≠ (Entry.opening side l.2.1).point R gen) :
    ∃ sig, signLine R gen side m l = .ok (sig, image R l.1.x) ∧ sig.verify R [image R l.1.x] = .ok true ∧ sig.msg = m ∧
      sig.r.length = sig.pubKeys.length ∧ sig.r.length = l.1.others.length + 1 ∧ (∀ r ∈ sig.r, r.length = 2) ∧
      (∀ k ∈ sig.pubKeys, k.keys.length = 2) ∧
      (sig.pubKeys.map PubKeys.keys).Perm ((l.1.others ++ [(l.1.x • R.base, (Entry.opening side l.2.1).point R gen)]).map fun k =>
        [k.1, k.2 - (lineNew side l).point R gen]) := by
  have hb : (Entry.opening side l.2.1).blind ≠ (lineNew side l).blind := by
    intro e
    apply hne
    unfold Opening.point
    rw [e]
    rfl
  obtain ⟨D, sig, I, g1, g2, rfl, g3, g4, g5⟩ := C151_honest R gen l.1.x (Entry.opening side l.2.1) (lineNew side l) l.1.others m l.1.coins hx rfl hb ho
  obtain ⟨a, b, c, e⟩ := prove_even R _ D g1 _ sig _ g2
  refine ⟨sig, ?_, g3, g4, a, ?_, c, e, g5⟩
  · unfold signLine
    rw [g1]
    exact g2
  · rw [b]
    simp [spendCalls, Calls.ring, Calls.subs, Calls.shift, Function.comp_def]

theorem mapRes_exists {α β : Type} {f : α → Res β} {P : α → β → Prop} : ∀ L : List α, (∀ a ∈ L, ∃ b, f a = .ok b ∧ P a b) →
    ∃ bs, mapRes f L = .ok bs ∧ List.Forall₂ P L bs
  | [], _ => ⟨[], rfl, .nil⟩
  | a :: L, h => by
    obtain ⟨b, h1, h2⟩ := h a (by simp)
    obtain ⟨bs, h3, h4⟩ := mapRes_exists L fun x hx => h x (by simp [hx])
    exact ⟨b :: bs, by simp [mapRes, h1, h3], .cons h2 h4⟩

theorem mapRes_map {α β γ : Type} (f : β → Res γ) (g : α → β) : ∀ L : List α, mapRes f (L.map g) = mapRes (fun a => f (g a)) L
  | [] => rfl
  | a :: L => by simp only [List.map_cons, mapRes, mapRes_map f g L]

/-- C159: an honest payment arrives. For non-zero keys, rings with another coin, and coins that the receiver knows, the wallet of C157 sends the payment,
unless a new commitment is the old one. Its size is known from the numbers of inputs, members and outputs. In whatever chunks the bytes arrive, and also
when 32 bytes of anything follow, the receiver reads a payment that it takes if its package variable is the number of outputs, padded to a power of
two; with any other value `Verify` fails. So a receiver that never called `Prove`, where the variable is 1, takes no payment with two outputs. -/
theorem C159_arrives {R : Ristretto F G} (E : R.Encodings) (gen : Bytes) (hR : ∀ b, R.sDerive b ≠ 0) {side : Nat × Nat → Nat}
    (hs : side = Prod.fst ∨ side = Prod.snd) {n : Nat} (M : Nat) (book : List (Entry F)) (o : Order F G) (h : o.Admissible n (book.map Prod.fst))
    (h1 : 1 ≤ o.outs.length) (h2 : o.outs.length ≤ 16) (k : Nat) (hk : o.outs.length ≤ 2 ^ k) (hmin : ∀ j, o.outs.length ≤ 2 ^ j → k ≤ j)
    (d : RP.Coins F) (b : Nat → F) (hn : o.ins.length < 2 ^ 32) (coins : List (G × G))
    (hin : ∀ i ∈ o.ins, i.x ≠ 0 ∧ i.others ≠ [] ∧ i.others.length + 1 < 2 ^ 32 ∧ (∀ c ∈ i.others, c ∈ coins) ∧
      (i.x • R.base, (Entry.opening side (book.getD i.coin ((0, 0), 0))).point R gen) ∈ coins)
    (msg : RP.Proof F G → List G → Nat → Bytes) (hm : ∀ i (hi : i < o.ins.length), o.ins[i].msg = fun p ps => msg p ps i) :
    ∃ slip, (pay R gen side M book o d b).1 = some slip ∧
      ((∀ i (hi : i < o.ins.length), slip.pseudos[i]? ≠ some ((Entry.opening side (book.getD o.ins[i].coin ((0, 0), 0))).point R gen)) →
      ∃ ins, slip.parcels = .ok ins ∧ (∃ N, ∀ w : Writer, N ≤ w.left → (sendPayment R ins o.outs.length slip.proof w).1 = .ok ()) ∧
      ∀ w : Writer, (sendPayment R ins o.outs.length slip.proof w).1 = .ok () →
      ∃ bytes, (sendPayment R ins o.outs.length slip.proof w).2.out = w.out ++ bytes ∧
        bytes.length = 684 + 32 * 2 ^ k + 64 * k + (o.ins.map fun i => 232 + 128 * i.others.length).sum ∧
        ∀ (recv : RP.Proof F G) (tail : Bytes) (r : Reader), (tail.length = 0 ∨ tail.length = 32) → r.flat = bytes ++ tail → r.fin = .eof →
          ∃ del : Delivery F G, readPayment R recv r = .ok (del, ⟨[], .eof⟩) ∧
            del.Taken R gen (2 ^ k) msg coins o.fee ∧ ∀ m < 2 ^ 26, m ≠ 2 ^ k → ∀ c, (RP.verify R m del.proof c).IsErr) := by
  have hM : (RP.prove R M (o.outs.map fun v => ((side v : Nat) : F)) false d).1 = 2 ^ k := by
    obtain ⟨k', p, ip, a1, a2, a3, -⟩ := RP.C68_prove R M (o.outs.map fun v => ((side v : Nat) : F)) false d (by simpa using h1) (by simpa using h2)
    obtain rfl : k = k' := Nat.le_antisymm (hmin _ (by simpa using a1)) (a2 _ (by simpa using hk))
    exact a3
  have hv : ∀ a ∈ o.outs.map (fun v => ((side v : Nat) : F)), R.sNat a < 2 ^ 64 := by
    intro a ha
    obtain ⟨v, hv, rfl⟩ := List.mem_map.1 ha
    rcases hs with rfl | rfl
    · exact sNat_cast_lt R (h.range v hv).1
    · exact sNat_cast_lt R (h.range v hv).2
  obtain ⟨slip, hp, hver, hsum, -, -⟩ := C157_accepted R gen hR hs M book o h h1 h2 d b
  rw [hM] at hver
  refine ⟨slip, hp, fun hne => ?_⟩
  obtain ⟨q, hq, -⟩ := RP.C60_nonzero_hash R hR M (o.outs.map fun v => ((side v : Nat) : F)) d (by simpa using h1) (by simpa using h2) hv
  obtain ⟨k', ip, hk4, hk', hmin', hip, hL, hRl, hV⟩ := RP.prove_ok R M _ false d q hq
  obtain rfl : k = k' := Nat.le_antisymm (hmin _ (by simpa using hk')) (hmin' _ (by simpa using hk))
  have hk16 : 2 ^ k ≤ 2 ^ 4 := Nat.pow_le_pow_right (by norm_num) hk4
  have hstate := (RP.C62_violated R M _ d q ip hv hq hip (RP.challenges_ne R hR _ _)).2
  rw [hM] at hstate
  unfold pay at hp
  rw [hq] at hp
  simp only [Option.some.injEq] at hp
  generalize hls : lines book o.ins b ((q.V.take o.outs.length).map Commitment.blindingFactor).sum = ls at hp
  have hlen : ls.length = o.ins.length := by rw [← hls]; simp [lines]
  have hget : ∀ i (hi : i < ls.length) (hi' : i < o.ins.length), ls[i].1 = o.ins[i] ∧ ls[i].2.1 = book.getD o.ins[i].coin ((0, 0), 0) := by
    intro i hi hi'
    subst hls
    simp [lines]
  set points := ls.map fun l => (lineNew side l).point R gen with hpts
  let P : Input F G × Entry F × F → Parcel F G → Prop := fun l p =>
    p.pseudo = (lineNew side l).point R gen ∧ p.image = image R l.1.x ∧ p.sig.verify R [image R l.1.x] = .ok true ∧
      p.sig.msg = l.1.msg (RP.published q) points ∧ p.Even ∧ p.sig.r.length = l.1.others.length + 1 ∧
      ∀ ks ∈ p.sig.pubKeys, ∃ coin ∈ coins, ks.keys = [coin.1, coin.2 - p.pseudo]
  obtain ⟨ins, hins, hall⟩ := mapRes_exists (P := P)
    (f := fun l => (signLine R gen side (l.1.msg (RP.published q) points) l).bind fun q => .ok (⟨q.1, (lineNew side l).point R gen, q.2⟩ : Parcel F G))
    ls (by
      intro l hl
      obtain ⟨i, hi, rfl⟩ := List.getElem_of_mem hl
      have hi' : i < o.ins.length := by omega
      obtain ⟨e1, e2⟩ := hget i hi hi'
      obtain ⟨x0, x1, x2, x3, x4⟩ := hin o.ins[i] (List.getElem_mem hi')
      rw [← e1] at x0 x1 x2 x3 x4
      have hd : (lineNew side ls[i]).point R gen ≠ (Entry.opening side ls[i].2.1).point R gen := by
        have := hne i hi'
        rw [← hp, ← e2] at this
        simp only [hpts, List.getElem?_map, List.getElem?_eq_getElem hi, Option.map_some, ne_eq, Option.some.injEq] at this
        exact this
      obtain ⟨sig, s1, s2, s3, s4, s5, s6, s7, s8⟩ := signLine_honest R gen side (ls[i].1.msg (RP.published q) points) ls[i] x0 x1 hd
      refine ⟨⟨sig, (lineNew side ls[i]).point R gen, image R ls[i].1.x⟩, by rw [s1]; rfl, rfl, rfl, s2, s3, ⟨?_, lt_of_eq_of_lt s5 x2, s6, s4.symm, s7⟩, s5, ?_⟩
      · intro h0
        rw [h0] at s5
        simp at s5
      · intro ks hks
        have := s8.mem_iff.1 (List.mem_map_of_mem hks)
        obtain ⟨c, hc, hc'⟩ := List.mem_map.1 this
        refine ⟨c, ?_, hc'.symm⟩
        rcases List.mem_append.1 hc with g | g
        · exact x3 c g
        · rw [List.mem_singleton.1 g, e2, e1]
          rw [e1] at x4
          exact x4)
  have hil : ins.length = o.ins.length := by rw [← hall.length_eq, hlen]
  have hPi : ∀ i (hi : i < ins.length) (hi' : i < ls.length), P ls[i] ins[i] := fun i hi hi' => List.Forall₂.get hall hi' hi
  have hpar : slip.parcels = .ok ins := by
    rw [← hins, ← hp]
    unfold Slip.parcels
    simp only [hpts]
    rw [List.zip_map', mapRes_map]
  have hps : ins.map Parcel.pseudo = points := by
    refine List.ext_getElem (by simp [hpts, hil, hlen]) fun i g g' => ?_
    simp only [hpts, List.getElem_map]
    exact (hPi i (by simpa using g) (by simpa [hpts] using g')).1
  have heven : ∀ p ∈ ins, p.Even := by
    intro p hp
    obtain ⟨i, hi, rfl⟩ := List.getElem_of_mem hp
    exact (hPi i hi (by omega)).2.2.2.2.1
  have hproof : slip.proof = RP.published q := by rw [← hp]
  have hpse : slip.pseudos = points := by rw [← hp]
  have hLR : ip.L.length = ip.R.length := by rw [hL, hRl]
  have hpip : slip.proof.ip = some ip := by rw [hproof]; exact hip
  have hpV : slip.proof.V.length = 2 ^ k := by rw [hproof, ← hV]; simp [RP.published]
  have hem := C159_send R ins o.outs.length slip.proof ip heven hpip hLR (by omega)
  refine ⟨ins, hpar, ⟨_, fun w hw => by rw [hem.good w hw]⟩, fun w hw => ?_⟩
  have hout : (sendPayment R ins o.outs.length slip.proof w).2.out = w.out ++ paymentBytes R ins o.outs.length slip.proof ip := by
    rcases Nat.lt_or_ge w.left (paymentWrites ins slip.proof ip) with g | g
    · obtain ⟨e, he⟩ := (hem.bad w g).1
      rw [he] at hw; cases hw
    · rw [hem.good w g]
  refine ⟨_, hout, ?_, fun recv tail r ht hr hf => ?_⟩
  · rw [C159_size E ins _ _ _ heven hLR, hpV, hL, hil]
    have e : ins.map (fun p => p.sig.r.length) = o.ins.map fun i => i.others.length + 1 := by
      refine List.ext_getElem (by simp [hil]) fun i g g' => ?_
      have hi : i < ls.length := by rw [hlen]; simpa using g'
      simp only [List.getElem_map]
      rw [(hPi i (by simpa using g) hi).2.2.2.2.2.1, (hget i hi (by omega)).1]
    rw [e]
    have : ∀ L : List (Input F G), 104 * L.length + 128 * (L.map fun i => i.others.length + 1).sum = (L.map fun i => 232 + 128 * i.others.length).sum := by
      intro L
      induction L with
      | nil => rfl
      | cons a L ih => simp only [List.length_cons, List.map_cons, List.sum_cons, ← ih]; ring
    rw [← this]
    ring
  · have hrd := C159_receive E ins o.outs.length slip.proof recv ip heven (by omega) (by omega) hpip (by omega) hLR (by omega) tail ht r hr hf
    have hpp : RP.published slip.proof = slip.proof := by rw [hproof]; simp [RP.published, Function.comp_def]
    rw [hpp] at hrd
    have ha : (ins.map Parcel.arrived).map Parcel.pseudo = ins.map Parcel.pseudo := by rw [List.map_map]; rfl
    refine ⟨_, hrd, ⟨hver, ?_, ?_, ?_⟩, ?_⟩
    · dsimp only
      rw [ha, hps, ← hpse]
      exact hsum
    · intro i hi
      have hi1 : i < ins.length := by simpa using hi
      have hi2 : i < ls.length := by omega
      have hi3 : i < o.ins.length := by omega
      obtain ⟨p1, p2, p3, p4, -⟩ := hPi i hi1 hi2
      have em : msg slip.proof (ins.map Parcel.pseudo) i = ins[i].sig.msg := by
        rw [p4, hproof, hps, (hget i hi2 hi3).1, hm i hi3]
      simp only [List.getElem_map, ha, em, Parcel.arrived]
      rw [C159_verdict, p2]
      exact p3
    · intro p hp ks hks
      obtain ⟨p0, hp0, rfl⟩ := List.mem_map.1 hp
      obtain ⟨i, hi, rfl⟩ := List.getElem_of_mem hp0
      simp only [Parcel.arrived, received, if_true] at hks ⊢
      obtain ⟨ks0, hks0, rfl⟩ := List.mem_map.1 hks
      exact (hPi i hi (by omega)).2.2.2.2.2.2 ks0 hks0
    · intro m hm26 hmM c
      dsimp only
      rw [hproof, RP.C75_verify_published R _ (RP.published q) q (by simp [RP.published, Function.comp_def]) c]
      exact hstate m hm26 hmM c

/-! ### Coins from nothing -/

/-- C159 (violated): Expected: a payment that a receiver takes has outputs worth no more than the coins spent. `Verify` of the range proof accepts
further commitments that nothing is proved about (C64), so the holder of one coin of any value makes a payment of `2^k` outputs of any values
and one more output, which is worth what is missing, a negative number modulo the order. Sent as bytes it is read and taken by every receiver whose
package variable is `2^k`. -/
theorem C159_inflation_violated {R : Ristretto F G} (E : R.Encodings) (gen : Bytes) (hR : ∀ b, R.sDerive b ≠ 0) (x : F) (old : Opening F)
    (others : List (G × G)) (vals : List Nat) (hvals : ∀ v ∈ vals, v < 2 ^ 64) (k : Nat) (hk : vals.length = 2 ^ k) (hk4 : k ≤ 4) (fee : Nat)
    (d : RP.Coins F) (c : Coins F) (rho : F) (hx : x ≠ 0) (ho : others ≠ []) (hr : others.length + 1 < 2 ^ 32)
    (hb : old.blind ≠ ∑ j ∈ Finset.range (2 ^ k), d.vBlind j + rho) (coins : List (G × G)) (hown : (x • R.base, old.point R gen) ∈ coins)
    (hoth : ∀ o ∈ others, o ∈ coins) (msg : RP.Proof F G → List G → Nat → Bytes) :
    ∃ (p : Parcel F G) (proof : RP.Proof F G) (N : Nat), p.image = image R x ∧
      (∀ w : Writer, N ≤ w.left → (sendPayment R [p] (2 ^ k + 1) proof w).1 = .ok ()) ∧
      ∀ w : Writer, (sendPayment R [p] (2 ^ k + 1) proof w).1 = .ok () →
      ∃ bytes, (sendPayment R [p] (2 ^ k + 1) proof w).2.out = w.out ++ bytes ∧
        ∀ (recv : RP.Proof F G) (r : Reader), r.flat = bytes → r.fin = .eof →
          ∃ del : Delivery F G, readPayment R recv r = .ok (del, ⟨[], .eof⟩) ∧ del.Taken R gen (2 ^ k) msg coins fee ∧
            (del.proof.V.take del.outs).map Commitment.value =
              (List.range (2 ^ k)).map (fun j => (⟨vals.getD j 0, d.vBlind j⟩ : Opening F).point R gen) ++
                [((old.value : F) - fee - (vals.sum : Nat)) • (Pedersen.new R gen).basePoint + rho • R.base] := by
  have hbl : ∀ g, (Pedersen.new R g).blindPoint = R.base := fun _ => rfl
  let ext : Commitment F G := ⟨((old.value : F) - fee - (vals.sum : Nat)) • (Pedersen.new R gen).basePoint + rho • R.base, rho⟩
  have hlen : (vals.map fun v : Nat => ((v : Nat) : F)).length = 2 ^ k := by simpa using hk
  obtain ⟨q, ip, hip, hV, hq⟩ := RP.C64_violated R (vals.map fun v : Nat => ((v : Nat) : F)) [ext] d k hlen hk4 (by
    intro a ha
    obtain ⟨v, hv, rfl⟩ := List.mem_map.1 ha
    exact sNat_cast_lt R (hvals v hv))
  obtain ⟨n1, n2, n3⟩ := RP.chalOf_ne R hR q
  obtain ⟨-, hL, hRl, hver⟩ := hq n1 n2 n3 (RP.challenges_ne R hR _ _)
  rw [hlen] at hver hV
  have hk16 : 2 ^ k ≤ 2 ^ 4 := Nat.pow_le_pow_right (by norm_num) hk4
  have hvs : q.V.map Commitment.value =
      (List.range (2 ^ k)).map (fun j => (⟨vals.getD j 0, d.vBlind j⟩ : Opening F).point R gen) ++ [ext.value] := by
    rw [hV, List.map_append, List.map_map]
    congr 1
    refine List.map_congr_left fun j hj => ?_
    have hj : j < vals.length := by rw [hk]; exact List.mem_range.1 hj
    simp only [Function.comp, Opening.point]
    rw [List.getD_eq_getElem _ _ (by simpa using hj), List.getElem_map, List.getD_eq_getElem _ _ hj]
    rfl
  have hVl : q.V.length = 2 ^ k + 1 := by rw [hV]; simp
  let new : Opening F := ⟨old.value, ∑ j ∈ Finset.range (2 ^ k), d.vBlind j + rho⟩
  obtain ⟨D, sig, I, g1, g2, rfl, g3, g4, g5⟩ := C151_honest R gen x old new others (msg (RP.published q) [new.point R gen] 0) c hx rfl hb ho
  obtain ⟨a1, a2, a3, a4⟩ := prove_even R _ D g1 _ sig _ g2
  have a2 : sig.r.length = others.length + 1 := by
    rw [a2]
    simp [spendCalls, Calls.ring, Calls.subs, Calls.shift, Function.comp_def]
  let p : Parcel F G := ⟨sig, new.point R gen, image R x⟩
  have heven : ∀ y ∈ [p], y.Even := by
    intro y hy
    rw [List.mem_singleton.1 hy]
    refine ⟨fun h0 => ?_, lt_of_eq_of_lt a2 hr, a3, a1.symm, a4⟩
    change sig.r = [] at h0
    rw [h0] at a2
    simp at a2
  have hLR : ip.L.length = ip.R.length := by rw [hL, hRl]
  have hem := C159_send R [p] (2 ^ k + 1) q ip heven hip hLR (by omega)
  refine ⟨p, q, paymentWrites [p] q ip, rfl, fun w hw => by rw [hem.good w hw], fun w hw => ?_⟩
  have hout : (sendPayment R [p] (2 ^ k + 1) q w).2.out = w.out ++ paymentBytes R [p] (2 ^ k + 1) q ip := by
    rcases Nat.lt_or_ge w.left (paymentWrites [p] q ip) with g | g
    · obtain ⟨e, he⟩ := (hem.bad w g).1
      rw [he] at hw; cases hw
    · rw [hem.good w g]
  refine ⟨_, hout, fun recv r hr hf => ?_⟩
  have hrd := C159_receive E [p] (2 ^ k + 1) q recv ip heven (by simp) (by omega) hip (by omega) hLR (by omega) [] (Or.inl rfl) r
    (by rw [hr, List.append_nil]) hf
  have hpv : (RP.published q).V.map Commitment.value = q.V.map Commitment.value := by simp [RP.published, Function.comp_def]
  have htake : ((RP.published q).V.take (2 ^ k + 1)).map Commitment.value =
      (List.range (2 ^ k)).map (fun j => (⟨vals.getD j 0, d.vBlind j⟩ : Opening F).point R gen) ++ [ext.value] := by
    rw [List.map_take, hpv, hvs, List.take_of_length_le (by simp)]
  refine ⟨_, hrd, ⟨fun c => ?_, ?_, ?_, ?_⟩, htake⟩
  · dsimp only
    rw [RP.C75_verify_published R _ (RP.published q) q (by simp [RP.published, Function.comp_def]) c]
    exact hver c
  · dsimp only
    rw [htake, List.sum_append]
    have e1 : ((List.range (2 ^ k)).map (fun j => (⟨vals.getD j 0, d.vBlind j⟩ : Opening F).point R gen)).sum =
        ((vals.sum : Nat) : F) • (Pedersen.new R gen).basePoint + (∑ j ∈ Finset.range (2 ^ k), d.vBlind j) • R.base := by
      have e2 : ((vals.sum : Nat) : F) = ∑ j ∈ Finset.range (2 ^ k), ((vals.getD j 0 : Nat) : F) := by
        rw [← hk, sum_range_getD (fun v : Nat => (v : F)) 0 vals]
        exact map_list_sum (Nat.castRingHom F) vals
      rw [e2, Finset.sum_smul, Finset.sum_smul, ← Finset.sum_add_distrib]
      rfl
    rw [e1]
    simp only [List.map_cons, List.map_nil, List.sum_cons, List.sum_nil, add_zero, Parcel.arrived, p, new, Opening.point, Pedersen.commitToScalar, ext]
    rw [hbl, sub_smul, sub_smul, add_smul]
    abel
  · intro i hi
    have hi : i = 0 := by simpa using hi
    subst hi
    have e : ([p].map Parcel.arrived).map Parcel.pseudo = [new.point R gen] := rfl
    have em : msg (RP.published q) [new.point R gen] 0 = sig.msg := g4.symm
    simp only [e, em, List.getElem_map, List.getElem_cons_zero, Parcel.arrived]
    rw [C159_verdict]
    exact g3
  · intro y hy ks hks
    have hy : y = p.arrived := by simpa using hy
    subst hy
    simp only [Parcel.arrived, received, if_true] at hks ⊢
    obtain ⟨ks0, hks0, rfl⟩ := List.mem_map.1 hks
    obtain ⟨cn, hc, hc'⟩ := List.mem_map.1 (g5.mem_iff.1 (List.mem_map_of_mem hks0))
    refine ⟨cn, ?_, hc'.symm⟩
    rcases List.mem_append.1 hc with g | g
    · exact hoth cn g
    · rw [List.mem_singleton.1 g]; exact hown

/-! ### A payment of 3 -/

/-- The message of input `i`: all commitments, and `i`. -/
def allPoints : RP.Proof Toy.K Toy.K → List Toy.K → Nat → Bytes := fun p ps i => be32 i ++ (p.V.map Commitment.value ++ ps).flatMap Toy.ris.pBytes

/-- A coin with the key 3 and the value 3 is spent to 1 and 2, in a ring with one more coin. -/
def smallOrder : Order Toy.K Toy.K := ⟨[⟨0, 3, [(17, 9)], fun p ps => allPoints p ps 0, ⟨fun _ => 1, fun _ _ => 2, fun _ => 0⟩⟩], 0, [(1, 1), (2, 2)]⟩

/-- The coins that the receiver knows. -/
def knownCoins (r : Toy.K) : List (Toy.K × Toy.K) := [(17, 9), ((3 : Toy.K) • Toy.ris.base, (⟨3, r⟩ : Opening Toy.K).point Toy.ris [1])]

theorem three_ne_zero' : (3 : Toy.K) ≠ 0 := by decide +kernel

/-- It takes 1172 bytes, which a receiver takes after it called `Prove` for two values, but not before. -/
example (r : Toy.K) (d : RP.Coins Toy.K) (b : Nat → Toy.K) :
    ∃ slip, (pay Toy.ris [1] Prod.fst 1 [((3, 3), r)] smallOrder d b).1 = some slip ∧
      (slip.pseudos[0]? ≠ some ((⟨3, r⟩ : Opening Toy.K).point Toy.ris [1]) → ∃ ins, slip.parcels = .ok ins ∧
        ∀ w : Writer, (sendPayment Toy.ris ins 2 slip.proof w).1 = .ok () →
        ∃ bytes, (sendPayment Toy.ris ins 2 slip.proof w).2.out = w.out ++ bytes ∧ bytes.length = 1172 ∧
        ∃ del : Delivery Toy.K Toy.K, readPayment Toy.ris slip.proof (Reader.ofBytes bytes) = .ok (del, ⟨[], .eof⟩) ∧
          del.Taken Toy.ris [1] 2 allPoints (knownCoins r) 0 ∧ ∀ c, (RP.verify Toy.ris 1 del.proof c).IsErr) := by
  have hmin : ∀ j, smallOrder.outs.length ≤ 2 ^ j → 1 ≤ j := by
    intro j hj
    rcases Nat.eq_zero_or_pos j with rfl | h
    · simp [smallOrder] at hj
    · exact h
  obtain ⟨slip, h1, h2⟩ := C159_arrives Toy.ris_encodings [1] Toy.dv_ne_zero (side := Prod.fst) (Or.inl rfl) (n := 0) 1 [((3, 3), r)] smallOrder
    ⟨by simp [smallOrder], by simp [smallOrder], by simp [smallOrder], by simp [smallOrder], by simp [smallOrder]⟩ (by simp [smallOrder])
    (by simp [smallOrder]) 1 (by simp [smallOrder]) hmin d b (by simp [smallOrder]) (knownCoins r) (by
      intro i hi
      have hi : i = ⟨0, 3, [(17, 9)], fun p ps => allPoints p ps 0, ⟨fun _ => 1, fun _ _ => 2, fun _ => 0⟩⟩ := by simpa [smallOrder] using hi
      subst hi
      exact ⟨three_ne_zero', by simp, by simp, by simp [knownCoins], by simp [knownCoins, Entry.opening]⟩) allPoints (by
      intro i hi
      have hi : i = 0 := by simpa [smallOrder] using hi
      subst hi
      rfl)
  refine ⟨slip, h1, fun hne => ?_⟩
  obtain ⟨ins, h3, -, h4⟩ := h2 (by
    intro i hi
    have hi : i = 0 := by simpa [smallOrder] using hi
    subst hi
    exact hne)
  refine ⟨ins, h3, fun w hw => ?_⟩
  obtain ⟨bytes, h5, h6, h7⟩ := h4 w hw
  obtain ⟨del, h8, h9, h10⟩ := h7 slip.proof [] (Reader.ofBytes bytes) (Or.inl rfl) (by simp [Reader.ofBytes, Reader.flat]) rfl
  exact ⟨bytes, h5, h6, del, h8, h9, h10 1 (by norm_num) (by norm_num)⟩

/-- The same coin of 3 is spent to two outputs of `2^63` and one that is not proved. -/
example (r : Toy.K) (d : RP.Coins Toy.K) (c : Coins Toy.K) (rho : Toy.K) (hb : r ≠ ∑ j ∈ Finset.range (2 ^ 1), d.vBlind j + rho) :
    ∃ (p : Parcel Toy.K Toy.K) (proof : RP.Proof Toy.K Toy.K) (N : Nat), p.image = image Toy.ris 3 ∧
      ∀ w : Writer, N ≤ w.left → ∃ bytes, (sendPayment Toy.ris [p] 3 proof w).2.out = w.out ++ bytes ∧
        ∃ del : Delivery Toy.K Toy.K, readPayment Toy.ris proof (Reader.ofBytes bytes) = .ok (del, ⟨[], .eof⟩) ∧
          del.Taken Toy.ris [1] 2 allPoints (knownCoins r) 0 ∧
          (del.proof.V.take del.outs).map Commitment.value = [(⟨2 ^ 63, d.vBlind 0⟩ : Opening Toy.K).point Toy.ris [1],
            (⟨2 ^ 63, d.vBlind 1⟩ : Opening Toy.K).point Toy.ris [1],
            (((3 : Nat) : Toy.K) - ((0 : Nat) : Toy.K) - ((2 ^ 64 : Nat) : Toy.K)) • (Pedersen.new Toy.ris [1]).basePoint + rho • Toy.ris.base] := by
  obtain ⟨p, proof, N, h1, h2, h3⟩ := C159_inflation_violated Toy.ris_encodings [1] Toy.dv_ne_zero 3 ⟨3, r⟩ [(17, 9)] [2 ^ 63, 2 ^ 63] (by simp) 1 rfl
    (by norm_num) 0 d c rho three_ne_zero' (by simp) (by simp) hb (knownCoins r) (by simp [knownCoins]) (by simp [knownCoins]) allPoints
  refine ⟨p, proof, N, h1, fun w hw => ?_⟩
  obtain ⟨bytes, h5, h6⟩ := h3 w (h2 w hw)
  obtain ⟨del, h7, h8, h9⟩ := h6 proof (Reader.ofBytes bytes) (by simp [Reader.ofBytes, Reader.flat]) rfl
  exact ⟨bytes, h5, del, h7, h8, h9⟩

/-- One input with two members, and a range proof with one round. -/
def smallParcel : Parcel Toy.K Toy.K := ⟨⟨1, [[2, 3], [4, 5]], [⟨true, [6, 7]⟩, ⟨false, [8, 9]⟩], [1]⟩, 10, 11⟩

theorem smallParcel_even : ∀ p ∈ [smallParcel], p.Even := by
  intro p hp
  rw [List.mem_singleton.1 hp]
  exact ⟨by simp [smallParcel], by simp [smallParcel], by simp [smallParcel], by simp [smallParcel], by simp [smallParcel]⟩

example : (sendPayment Toy.ris [smallParcel] 1 ⟨[⟨12, 1⟩], 13, 14, 15, 16, 17, 18, 19, some ⟨[20], [21], 22, 23⟩⟩).Emits
    (paymentWrites [smallParcel] (⟨[⟨12, 1⟩], 13, 14, 15, 16, 17, 18, 19, some ⟨[20], [21], 22, 23⟩⟩ : RP.Proof Toy.K Toy.K) ⟨[20], [21], 22, 23⟩)
    (paymentBytes Toy.ris [smallParcel] 1 ⟨[⟨12, 1⟩], 13, 14, 15, 16, 17, 18, 19, some ⟨[20], [21], 22, 23⟩⟩ ⟨[20], [21], 22, 23⟩) :=
  C159_send Toy.ris [smallParcel] 1 _ ⟨[20], [21], 22, 23⟩ smallParcel_even rfl rfl (by simp)

example : (paymentBytes Toy.ris [smallParcel] 1 ⟨[⟨12, 1⟩], 13, 14, 15, 16, 17, 18, 19, some ⟨[20], [21], 22, 23⟩⟩ ⟨[20], [21], 22, 23⟩).length =
    300 + 32 * 1 + 64 * 1 + 104 * 1 + 128 * 2 :=
  C159_size Toy.ris_encodings [smallParcel] 1 ⟨[⟨12, 1⟩], 13, 14, 15, 16, 17, 18, 19, some ⟨[20], [21], 22, 23⟩⟩ ⟨[20], [21], 22, 23⟩ smallParcel_even rfl

/-- Read with 32 bytes behind it. -/
example (recv : RP.Proof Toy.K Toy.K) : readPayment Toy.ris recv (Reader.ofBytes
      (paymentBytes Toy.ris [smallParcel] 1 ⟨[⟨12, 1⟩], 13, 14, 15, 16, 17, 18, 19, some ⟨[20], [21], 22, 23⟩⟩ ⟨[20], [21], 22, 23⟩ ++ List.replicate 32 7)) =
    .ok (⟨[⟨⟨1, [[2, 3], [4, 5]], [⟨false, [6, 7]⟩, ⟨false, [8, 9]⟩], []⟩, 10, 11⟩], 1,
      ⟨[⟨12, 0⟩], 13, 14, 15, 16, 17, 18, 19, some ⟨[20], [21], 22, 23⟩⟩⟩, ⟨[], .eof⟩) :=
  C159_receive Toy.ris_encodings [smallParcel] 1 ⟨[⟨12, 1⟩], 13, 14, 15, 16, 17, 18, 19, some ⟨[20], [21], 22, 23⟩⟩ recv ⟨[20], [21], 22, 23⟩ smallParcel_even
    (by simp) (by norm_num) rfl (by simp) rfl (by simp) (List.replicate 32 7) (Or.inr (by simp)) _ (by simp [Reader.ofBytes, Reader.flat]) rfl

example (I : List Toy.K) : (⟨1, [[2, 3], [4, 5]], [⟨false, [6, 7]⟩, ⟨false, [8, 9]⟩], [1]⟩ : Signature Toy.K Toy.K).verify Toy.ris I =
    smallParcel.sig.verify Toy.ris I := C159_verdict Toy.ris ⟨0, [], [], []⟩ smallParcel.sig I

end Dusk.Mlsag
