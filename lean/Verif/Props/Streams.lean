import Verif.Props.RPWork
import Verif.Props.RPCases
import Verif.Props.MlsagCodec
import Verif.Props.Decode
/-!
# C140: how many bytes are written, and several objects in one stream

The sizes of what the encoders write are functions of counts only. Signatures and lists of commitments written one after
another to one stream are read back one after another. Range proofs are not: their decoder reads to the end of the stream.
-/

set_option linter.unusedSectionVars false

namespace Dusk

variable {F G : Type} [Field F] [AddCommGroup G] [Module F G] [DecidableEq F]

/-- Specification: after an encoder wrote to `w` without an error, `n` bytes more have been written. -/
def Adds (m : Wr Unit) (n : Nat) : Prop := ∀ w, (m w).1 = .ok () → (m w).2.out.length = w.out.length + n

theorem Wr.Emits.adds {m : Wr Unit} {k : Nat} {b : Bytes} (h : m.Emits k b) : Adds m b.length := fun w hw => by
  rcases Nat.lt_or_ge w.left k with h' | h'
  · obtain ⟨e, he⟩ := (h.bad w h').1
    rw [he] at hw; cases hw
  · rw [h.good w h']; simp

theorem flatMap_sized {α : Type} (f : α → Bytes) (n : Nat) : ∀ (l : List α), (∀ a ∈ l, (f a).length = n) →
    (l.flatMap f).length = n * l.length
  | [], _ => by simp
  | a :: l, h => by
    rw [List.flatMap_cons, List.length_append, h a (by simp), flatMap_sized f n l fun b hb => h b (by simp [hb]), List.length_cons]
    ring

/-! ## Signatures -/

namespace Mlsag

/-- C140: a signature with `m` members of `n` keys is written as `40 + 32·m·n` bytes, with the keys as `40 + 64·m·n`. -/
theorem C140_signature_size {R : Ristretto F G} (E : R.Encodings) (s : Signature F G) (keys : Bool) (n : Nat) (hr : s.r ≠ [])
    (hl : s.r.length < 2 ^ 32) (hrect : ∀ r ∈ s.r, r.length = n)
    (hkeys : keys = true → s.pubKeys.length = s.r.length ∧ ∀ k ∈ s.pubKeys, k.keys.length = n) :
    Adds (s.encode R keys) (40 + (if keys then 64 else 32) * (s.r.length * n)) := by
  have hhead : s.r.head?.map List.length = some n := by
    cases hs : s.r with
    | nil => exact absurd hs hr
    | cons r0 rs => simp [hrect r0 (by simp [hs])]
  have h := (C18_encode R s keys hr hl hhead).adds
  have h1 : (s.r.flatMap fun r => r.flatMap R.sBytes).length = 32 * n * s.r.length :=
    flatMap_sized _ _ _ fun r hr => by rw [flatMap_sized _ 32 _ fun x _ => E.sBytes_length x, hrect r hr]
  have h2 : (encoding R s n keys).length = 40 + (if keys then 64 else 32) * (s.r.length * n) := by
    unfold encoding
    cases keys with
    | false =>
      simp only [List.length_append, E.sBytes_length, be32_length, h1, Bool.false_eq_true, if_false, List.length_nil]
      ring
    | true =>
      obtain ⟨k1, k2⟩ := hkeys rfl
      have h3 : (s.pubKeys.flatMap fun k => k.keys.flatMap R.pBytes).length = 32 * n * s.pubKeys.length :=
        flatMap_sized _ _ _ fun k hk => by rw [flatMap_sized _ 32 _ fun x _ => E.pBytes_length x, k2 k hk]
      simp only [List.length_append, E.sBytes_length, be32_length, h1, h3, if_true, k1]
      ring
  rwa [h2] at h

/-- C140: a signature made by `Prove` with `d` decoys and `n` secrets has `40 + 32·(d+1)·n` bytes, with the keys
`40 + 64·(d+1)·n`: nothing else about the keys, the message, the signer's position or the random choices changes the size. -/
theorem C140_prove_size {R : Ristretto F G} (E : R.Encodings) (msg : Bytes) (ops : List (Op F G)) (skip : Bool) (coins : Coins F)
    (hd : decoys ops ≠ []) (hx : secrets ops ≠ []) (hskip : skip = true → 2 ≤ (secrets ops).length)
    (hdim : ∀ k ∈ decoys ops, k.length = (secrets ops).length) (hl : (decoys ops).length + 1 < 2 ^ 32) (keys : Bool) :
    ∃ sig I, ((build R msg ops).prove R skip coins).2 = .ok (sig, I) ∧
      Adds (sig.encode R keys) (40 + (if keys then 64 else 32) * (((decoys ops).length + 1) * (secrets ops).length)) := by
  obtain ⟨sig, I, h, hp⟩ := C14_prove R msg ops skip coins hd hx hskip hdim
  refine ⟨sig, I, h, ?_⟩
  have hm : ((build R msg ops).prove R skip coins).1.matrix.length = (decoys ops).length + 1 := by
    rw [hp.perm.length_eq]; simp
  have hlen : sig.r.length = (decoys ops).length + 1 := hp.lenR.trans hm
  rw [← hlen]
  refine C140_signature_size E sig keys _ ?_ (by omega) ?_ ?_
  · intro h0; rw [h0] at hlen; simp at hlen
  · intro r hr
    obtain ⟨j, hj⟩ := List.getElem?_of_mem hr
    by_cases hji : j = ((build R msg ops).prove R skip coins).1.index
    · obtain ⟨c, hc⟩ := hp.real
      rw [hji, hc] at hj
      rw [← Option.some.inj hj]
      simp
    · rw [hp.resp j hji r hj]; simp
  · intro _
    refine ⟨by rw [hp.ring, hp.lenR], fun k hk => ?_⟩
    rw [hp.ring, hp.perm.mem_iff, List.mem_append] at hk
    rcases hk with hk | hk
    · obtain ⟨x, hx', rfl⟩ := List.mem_map.1 hk
      exact hdim x hx'
    · rw [List.mem_singleton.1 hk]; simp

/-- Three members of two keys: 40 + 32·6 bytes, 40 + 64·6 with the keys. -/
example (coins : Coins Toy.K) : ∃ sig I, ((build Toy.ris [1] [.decoy ⟨false, [1, 2]⟩, .secret 3, .decoy ⟨true, [4, 5]⟩, .secret 6]).prove Toy.ris true coins).2 =
    .ok (sig, I) ∧ Adds (sig.encode Toy.ris true) 424 :=
  C140_prove_size Toy.ris_encodings [1] [.decoy ⟨false, [1, 2]⟩, .secret 3, .decoy ⟨true, [4, 5]⟩, .secret 6] true coins (by simp [decoys])
    (by simp [secrets]) (by simp [secrets]) (by simp [decoys, secrets]) (by simp [decoys]) true

/-- The bytes of one signature in a stream. -/
def streamed (R : Ristretto F G) (keys : Bool) (s : Signature F G) : Bytes := encoding R s ((s.r.head?.map List.length).getD 0) keys

theorem signatures_emit (R : Ristretto F G) (keys : Bool) (sigs : List (Signature F G))
    (hne : ∀ s ∈ sigs, s.r ≠ [] ∧ s.r.length < 2 ^ 32) :
    (writeEach (fun s => s.encode R keys) sigs).Emits ((sigs.map fun s => writes s keys).sum) (sigs.flatMap (streamed R keys)) :=
  writeEach_emits sigs fun s hs => by
    have h1 : s.r.head?.map List.length = some ((s.r.head?.map List.length).getD 0) := by
      cases hsr : s.r with
      | nil => exact absurd hsr (hne s hs).1
      | cons r0 rs => rfl
    exact C18_encode R s keys (hne s hs).1 (hne s hs).2 h1

/-- C140: signatures of any dimensions written one after another to a stream are read back one after another, whatever
follows and however the stream is delivered. -/
theorem C140_signature_stream {R : Ristretto F G} (E : R.Encodings) (t : Signature F G) (keys : Bool) (sigs : List (Signature F G))
    (hne : ∀ s ∈ sigs, s.r ≠ [] ∧ s.r.length < 2 ^ 32)
    (hrect : ∀ s ∈ sigs, ∃ n < 2 ^ 32, (∀ r ∈ s.r, r.length = n) ∧
      (keys = true → s.pubKeys.length = s.r.length ∧ ∀ k ∈ s.pubKeys, k.keys.length = n))
    (w : Writer) (hw : (writeEach (fun s => s.encode R keys) sigs w).1 = .ok ()) (b rest : Bytes)
    (hb : (writeEach (fun s => s.encode R keys) sigs w).2.out = w.out ++ b) (r : Reader) (hr : r.flat = b ++ rest) :
    ∃ r', readTimes (t.decode R keys) sigs.length r = .ok (sigs.map fun s => received t s keys, r') ∧ r'.flat = rest ∧
      r'.fin = r.fin := by
  have hn : ∀ s ∈ sigs, ∃ n < 2 ^ 32, s.r.head?.map List.length = some n ∧ (∀ r ∈ s.r, r.length = n) ∧
      (keys = true → s.pubKeys.length = s.r.length ∧ ∀ k ∈ s.pubKeys, k.keys.length = n) := by
    intro s hs
    obtain ⟨n, hn, h1, h2⟩ := hrect s hs
    refine ⟨n, hn, ?_, h1, h2⟩
    cases hsr : s.r with
    | nil => exact absurd hsr (hne s hs).1
    | cons r0 rs => simp [h1 r0 (by simp [hsr])]
  have hem := signatures_emit R keys sigs hne
  have hdec : (readTimes (t.decode R keys) sigs.length).Decodes (sigs.flatMap (streamed R keys)) (sigs.map fun s => received t s keys) :=
    readTimes_decodes_map sigs fun s hs => by
      obtain ⟨n, h0, h1, h2, h3⟩ := hn s hs
      have := C18_decode E t s keys n (hne s hs).2 h0 h2 h3
      unfold streamed
      rwa [h1]
  rcases Nat.lt_or_ge w.left ((sigs.map fun s => writes s keys).sum) with h | h
  · obtain ⟨e, he⟩ := (hem.bad w h).1
    rw [he] at hw; cases hw
  · rw [hem.good w h] at hb
    exact hdec.full r rest (by rw [hr, ← List.append_cancel_left hb])

/-- Two signatures of different dimensions, with keys, followed by three bytes. -/
example : ∃ r', readTimes ((⟨0, [], [], []⟩ : Signature Toy.K Toy.K).decode Toy.ris true) 2
    (Reader.ofBytes ([⟨1, [[2, 3], [4, 5]], [⟨true, [6, 7]⟩, ⟨false, [8, 9]⟩], [1]⟩, ⟨1, [[2]], [⟨true, [6]⟩], [1]⟩].flatMap
      (streamed Toy.ris true) ++ [7, 8, 9])) =
    .ok ([⟨1, [[2, 3], [4, 5]], [⟨false, [6, 7]⟩, ⟨false, [8, 9]⟩], []⟩, ⟨1, [[2]], [⟨false, [6]⟩], []⟩], r') ∧ r'.flat = [7, 8, 9] := by
  let sigs : List (Signature Toy.K Toy.K) := [⟨1, [[2, 3], [4, 5]], [⟨true, [6, 7]⟩, ⟨false, [8, 9]⟩], [1]⟩, ⟨1, [[2]], [⟨true, [6]⟩], [1]⟩]
  have hne : ∀ s ∈ sigs, s.r ≠ [] ∧ s.r.length < 2 ^ 32 := by simp [sigs]
  have hem := signatures_emit Toy.ris true sigs hne
  have hg := hem.good ⟨[], 100, 0⟩ (by simp [sigs, writes])
  obtain ⟨r', a1, a2, -⟩ := C140_signature_stream Toy.ris_encodings (⟨0, [], [], []⟩ : Signature Toy.K Toy.K) true sigs hne
    (by
      intro s hs
      simp only [sigs, List.mem_cons, List.not_mem_nil, or_false] at hs
      rcases hs with rfl | rfl
      · exact ⟨2, by norm_num, by simp, by simp⟩
      · exact ⟨1, by norm_num, by simp, by simp⟩)
    ⟨[], 100, 0⟩ (by rw [hg]) (sigs.flatMap (streamed Toy.ris true)) [7, 8, 9] (by rw [hg])
    (Reader.ofBytes (sigs.flatMap (streamed Toy.ris true) ++ [7, 8, 9]))
    (by simp only [Reader.ofBytes, Reader.flat, List.flatten_cons, List.flatten_nil, List.append_nil])
  exact ⟨r', a1, a2⟩

end Mlsag

/-! ## Commitments -/

/-- C140: a list of `n` commitments is written as `4 + 32·n` bytes. -/
theorem C140_commitments_size {R : Ristretto F G} (E : R.Encodings) (cs : List (Commitment F G)) :
    Adds (Commitment.encodeAll R cs) (4 + 32 * cs.length) := by
  have h := (Commitment.encodeAll_emits R cs).adds
  rwa [List.length_append, be32_length, flatMap_sized _ 32 _ fun c _ => E.pBytes_length c.value] at h

example : Adds (Commitment.encodeAll Toy.ris [⟨7, 1⟩, ⟨8, 2⟩]) (4 + 32 * 2) := C140_commitments_size Toy.ris_encodings [⟨7, 1⟩, ⟨8, 2⟩]

/-- C140: lists of commitments written one after another are read back one after another (without the blinding factors). -/
theorem C140_commitments_stream {R : Ristretto F G} (E : R.Encodings) (l : List (List (Commitment F G)))
    (hl : ∀ cs ∈ l, cs.length < 2 ^ 32) (w : Writer) (hw : (writeEach (Commitment.encodeAll R) l w).1 = .ok ()) (b rest : Bytes)
    (hb : (writeEach (Commitment.encodeAll R) l w).2.out = w.out ++ b) (r : Reader) (hr : r.flat = b ++ rest) :
    ∃ r', readTimes (Commitment.decodeAll R) l.length r = .ok (l.map fun cs => cs.map fun c => ⟨c.value, 0⟩, r') ∧ r'.flat = rest ∧
      r'.fin = r.fin := by
  have hem := writeEach_emits (f := Commitment.encodeAll R) l fun cs _ => Commitment.encodeAll_emits R cs
  have hdec := readTimes_decodes_map (m := Commitment.decodeAll R) l fun cs hcs => Commitment.decodeAll_decodes E cs (hl cs hcs)
  by_cases h : w.left < (l.map fun cs => 1 + cs.length).sum
  · obtain ⟨e, he⟩ := (hem.bad w h).1
    rw [he] at hw; cases hw
  · rw [hem.good w (Nat.le_of_not_lt h)] at hb
    exact hdec.full r rest (by rw [hr, ← List.append_cancel_left hb])

/-- Two lists of commitments, one of them empty. -/
example : ∃ r', readTimes (Commitment.decodeAll Toy.ris) 2 (Reader.ofBytes ((be32 1 ++ Toy.ris.pBytes 5) ++ be32 0 ++ [9])) =
    .ok ([[⟨5, 0⟩], []], r') ∧ r'.flat = [9] := by
  have hg := ((Commitment.encodeAll_emits Toy.ris [⟨(5 : Toy.K), 6⟩]).bind (f := fun _ => _)
    ((Commitment.encodeAll_emits Toy.ris []).bind (f := fun _ => _) .pure)).good ⟨[], 100, 0⟩ (by simp)
  obtain ⟨r', a1, a2, -⟩ := C140_commitments_stream Toy.ris_encodings [[⟨(5 : Toy.K), (6 : Toy.K)⟩], []] (by simp) ⟨[], 100, 0⟩
    (congrArg Prod.fst hg) _ [9] (congrArg (fun x => x.2.out) hg)
    (Reader.ofBytes ((be32 1 ++ Toy.ris.pBytes 5) ++ be32 0 ++ [9])) (by simp [Reader.ofBytes, Reader.flat])
  exact ⟨r', a1, a2⟩

/-! ## Range proofs -/

namespace RP

/-- The bytes of a range proof. -/
def bytes (R : Ristretto F G) (p : Proof F G) (ip : IP.Proof F G) (incl : Bool) : Bytes := outerEncoding R p incl ++ IP.encoding R ip

theorem bytes_length {R : Ristretto F G} (E : R.Encodings) (p : Proof F G) (ip : IP.Proof F G) (incl : Bool)
    (h : ip.L.length = ip.R.length) :
    (bytes R p ip incl).length = (if incl then 4 + 32 * p.V.length else 0) + 288 + 64 * ip.L.length := by
  have h1 := flatMap_sized (fun c : Commitment F G => R.pBytes c.value) 32 p.V fun _ _ => E.pBytes_length _
  have h2 := flatMap_sized (fun x : G × G => R.pBytes x.1 ++ R.pBytes x.2) 64 (ip.L.zip ip.R) fun _ _ => by
    simp [E.pBytes_length]
  unfold bytes outerEncoding IP.encoding
  cases incl <;>
    simp [List.length_append, E.pBytes_length, E.sBytes_length, h1, h2, be32_length, List.length_zip, h] <;> omega

/-- What `Prove` returns: the number of values is padded to a power of two `2^k`, and there are `k + 6` rounds. -/
theorem prove_ok [DecidableEq G] (R : Ristretto F G) (m0 : Nat) (v : List F) (debug : Bool) (coins : Coins F) (p : Proof F G)
    (h : (prove R m0 v debug coins).2 = .ok p) :
    ∃ k ip, k ≤ 4 ∧ v.length ≤ 2 ^ k ∧ (∀ j, v.length ≤ 2 ^ j → k ≤ j) ∧ p.ip = some ip ∧ ip.L.length = k + 6 ∧
      ip.R.length = k + 6 ∧ p.V.length = 2 ^ k := by
  have hlen : v.length ≤ 16 ∧ 1 ≤ v.length := by
    constructor
    · by_contra h'
      obtain ⟨e, he⟩ := (C68_many R m0 v debug coins (by omega)).2
      rw [he] at h; cases h
    · by_contra h'
      have : v = [] := List.length_eq_zero_iff.1 (by omega)
      subst this
      obtain ⟨e, he⟩ := (C68_empty R m0 debug coins).2
      rw [he] at h; cases h
  obtain ⟨k, p', ip, hk4, hk, hmin, hon, hL, hR, -, hif, -⟩ := prove_spec R m0 v debug coins hlen.2 hlen.1
  split at hif
  · obtain ⟨e, he⟩ := hif
    rw [he] at h; cases h
  rw [hif] at h
  cases h
  exact ⟨k, ip, hk4, hk, hmin, hon.hasIp, hL, hR, by rw [hon.V]; simp⟩

/-- C140: a range proof for `n` values, `2^k` the least power of two that is at least `n`, is written as `672 + 64·k` bytes, and with the
commitments as `676 + 64·k + 32·2^k` bytes: logarithmic in the number of values, and the size tells nothing else about them. -/
theorem C140_proof_size [DecidableEq G] {R : Ristretto F G} (E : R.Encodings) (m0 : Nat) (v : List F) (debug : Bool) (coins : Coins F)
    (p : Proof F G) (h : (prove R m0 v debug coins).2 = .ok p) (incl : Bool) (k : Nat) (hk : v.length ≤ 2 ^ k)
    (hmin : ∀ j, v.length ≤ 2 ^ j → k ≤ j) :
    Adds (p.encode R incl) ((if incl then 4 + 32 * 2 ^ k else 0) + 672 + 64 * k) := by
  obtain ⟨k', ip, h4, hk', hmin', hip, hL, hR, hV⟩ := prove_ok R m0 v debug coins p h
  obtain rfl : k = k' := Nat.le_antisymm (hmin _ hk') (hmin' _ hk)
  have := (C66_encode R p ip hip incl (by rw [hL, hR]) (by omega)).adds
  have h2 := bytes_length E p ip incl (by rw [hL, hR])
  unfold bytes at h2
  rw [h2, hV, hL] at this
  convert this using 1
  ring

/-- C140 (violated): Expected: a range proof can be followed by something else in its stream. Whatever follows, all of it is read; if
its length is not a multiple of 32 then decoding fails, otherwise every further 64 bytes become two more points of the inner
product proof. -/
theorem C140_tail_violated {R : Ristretto F G} (E : R.Encodings) (recv p : Proof F G) (ip : IP.Proof F G)
    (incl : Bool) (hV : p.V.length < 2 ^ 32) (h : ip.L.length = ip.R.length) (tail : Bytes)
    (hlen : 64 * ip.L.length + tail.length < 2 ^ 37) (r : Reader) (hf : r.flat = bytes R p ip incl ++ tail) (he : r.fin = .eof) :
    (tail.length % 32 ≠ 0 → (recv.decode R incl r).IsErr) ∧
    (tail.length % 32 = 0 → ∃ ip', recv.decode R incl r = .ok ({ received recv p incl with ip := some ip' }, ⟨[], .eof⟩) ∧
      ip'.L.length = ip.L.length + tail.length / 64 ∧ ip'.R.length = ip.L.length + tail.length / 64 ∧
      ip'.A = ip.A ∧ ip'.B = ip.B) := by
  obtain ⟨r', h1, h2, h3⟩ := decode_outer E recv p incl hV (f := Rd.pure) r (IP.encoding R ip ++ tail)
    (by rw [hf, bytes, List.append_assoc])
  have h5 : (Rd.bind (recv.decode R incl) Rd.pure) r = recv.decode R incl r := by
    unfold Rd.bind Rd.pure
    cases recv.decode R incl r <;> rfl
  rw [h5] at h3
  have hfin : r'.fin = .eof := h2.trans he
  have hl2 : (IP.encoding R ip).length = 64 + 64 * ip.L.length := by
    have h2 := flatMap_sized (fun x : G × G => R.pBytes x.1 ++ R.pBytes x.2) 64 (ip.L.zip ip.R) fun _ _ => by
      simp [E.pBytes_length]
    unfold IP.encoding
    simp only [List.length_append, E.sBytes_length, h2, List.length_zip, h, Nat.min_self]
  have hl : r'.flat.length = 64 + 64 * ip.L.length + tail.length := by rw [h1, List.length_append, hl2]
  have hd := C71_innerproduct_violated R r' (by omega)
  refine ⟨fun ht => ?_, fun ht => ?_⟩
  · rw [if_neg (by omega), if_neg (by omega), if_neg (by rw [hfin]; decide)] at hd
    rw [h3, Rd.bind, hd]
    exact ⟨_, rfl⟩
  · rw [if_pos ⟨by omega, by omega, hfin⟩] at hd
    rw [h3, Rd.bind, hd]
    have hb : ∀ i, i < 2 → blocks r'.flat i = ((R.sBytes ip.A ++ R.sBytes ip.B).drop (32 * i)).take 32 := by
      intro i hi
      rw [h1]
      unfold blocks IP.encoding
      rw [List.append_assoc, List.drop_append_of_le_length (by simp [E.sBytes_length]; omega), List.take_append_of_le_length]
      simp [E.sBytes_length]; omega
    refine ⟨_, rfl, ?_, ?_, ?_, ?_⟩
    · simp only [List.length_map, List.length_range, hl]; omega
    · simp only [List.length_map, List.length_range, hl]; omega
    · simp only [hb 0 (by omega)]
      rw [Nat.mul_zero, List.drop_zero, List.take_left' (E.sBytes_length _), E.sOfBytes_sBytes]
    · simp only [hb 1 (by omega)]
      rw [Nat.mul_one, List.drop_left' (E.sBytes_length _), List.take_of_length_le (by rw [E.sBytes_length]), E.sOfBytes_sBytes]

/-- C140 (violated): Expected: two range proofs written one after another to a stream are read back one after another. For every two
proofs that `Prove` returns: written with their commitments, decoding the first fails; written without them, decoding the first
swallows the second, and what it returns is refused by `Verify`, whatever commitments are given and for every `M` below 1024. -/
theorem C140_two_proofs_violated [DecidableEq G] {R : Ristretto F G} (E : R.Encodings) (m₁ m₂ : Nat) (v₁ v₂ : List F) (d₁ d₂ : Bool)
    (coins₁ coins₂ : Coins F) (p₁ p₂ recv : Proof F G) (h₁ : (prove R m₁ v₁ d₁ coins₁).2 = .ok p₁)
    (h₂ : (prove R m₂ v₂ d₂ coins₂).2 = .ok p₂) (incl : Bool) (w : Writer) (hw : 2 ^ 32 ≤ w.left) :
    ∃ b, (writeEach (fun p => p.encode R incl) [p₁, p₂] w).1 = .ok () ∧
      (writeEach (fun p => p.encode R incl) [p₁, p₂] w).2.out = w.out ++ b ∧
      ∀ r : Reader, r.flat = b → r.fin = .eof →
        if incl then (recv.decode R incl r).IsErr
        else ∃ q, recv.decode R incl r = .ok (q, ⟨[], .eof⟩) ∧
          ∀ V m c, 1 ≤ m → m < 1024 → (verify R m { q with V := V } c).IsErr := by
  obtain ⟨k₁, ip₁, a₁, -, -, b₁, L₁, R₁, V₁⟩ := prove_ok R m₁ v₁ d₁ coins₁ p₁ h₁
  obtain ⟨k₂, ip₂, a₂, -, -, b₂, L₂, R₂, V₂⟩ := prove_ok R m₂ v₂ d₂ coins₂ p₂ h₂
  have le₁ : 2 ^ k₁ ≤ 2 ^ 4 := Nat.pow_le_pow_right (by norm_num) a₁
  have le₂ : 2 ^ k₂ ≤ 2 ^ 4 := Nat.pow_le_pow_right (by norm_num) a₂
  have e₁ := C66_encode R p₁ ip₁ b₁ incl (by rw [L₁, R₁]) (by omega)
  have e₂ := C66_encode R p₂ ip₂ b₂ incl (by rw [L₂, R₂]) (by omega)
  have hem : (writeEach (fun p => p.encode R incl) [p₁, p₂]).Emits _ (bytes R p₁ ip₁ incl ++ (bytes R p₂ ip₂ incl ++ [])) :=
    e₁.bind (e₂.bind .pure)
  have hg := hem.good w (by rw [V₁, V₂, L₁, L₂]; split <;> omega)
  rw [List.append_nil] at hg
  refine ⟨bytes R p₁ ip₁ incl ++ bytes R p₂ ip₂ incl, by rw [hg], by rw [hg], fun r hf he => ?_⟩
  have hl := bytes_length E p₂ ip₂ incl (by rw [L₂, R₂])
  rw [V₂, L₂] at hl
  obtain ⟨t1, t2⟩ := C140_tail_violated E recv p₁ ip₁ incl (by omega) (by rw [L₁, R₁]) (bytes R p₂ ip₂ incl)
    (by rw [hl, L₁]; split <;> omega) r hf he
  cases incl with
  | true =>
    rw [if_pos rfl] at hl ⊢
    exact t1 (by omega)
  | false =>
    simp only [Bool.false_eq_true, if_false] at hl ⊢
    obtain ⟨ip', hd, hL, hR, -, -⟩ := t2 (by omega)
    refine ⟨_, hd, fun V m c hm hm' => ?_⟩
    refine (C86_shapes R m hm (by omega) _ c).2.1 ip' rfl ?_
    rintro ⟨-, hfit⟩
    have : 2 ^ 16 ≤ 2 ^ ip'.L.length := Nat.pow_le_pow_right (by norm_num) (by rw [hL, L₁, hl]; omega)
    omega

/-- A proof for two values: 736 bytes, 804 with the commitments. -/
example (coins : Coins Toy.K) : ∃ p, (prove Toy.ris 1 [(1 : Toy.K), 2] false coins).2 = .ok p ∧ Adds (p.encode Toy.ris false) 736 ∧
    Adds (p.encode Toy.ris true) 804 := by
  obtain ⟨p, ip, h, -⟩ := case_two 1 coins
  have hmin : ∀ j, [(1 : Toy.K), 2].length ≤ 2 ^ j → 1 ≤ j := by
    intro j hj
    by_contra h0
    rw [show j = 0 by omega] at hj
    simp at hj
  exact ⟨p, h, C140_proof_size Toy.ris_encodings 1 _ false coins p h false 1 (by simp) hmin,
    C140_proof_size Toy.ris_encodings 1 _ false coins p h true 1 (by simp) hmin⟩

/-- Two proofs for two values in one stream, with and without commitments. -/
example (coins : Coins Toy.K) (recv : Proof Toy.K Toy.K) (incl : Bool) : ∃ p b, (prove Toy.ris 1 [(1 : Toy.K), 2] false coins).2 = .ok p ∧
    ∀ r : Reader, r.flat = b → r.fin = .eof → if incl then (recv.decode Toy.ris incl r).IsErr
      else ∃ q, recv.decode Toy.ris incl r = .ok (q, ⟨[], .eof⟩) ∧
        ∀ V m c, 1 ≤ m → m < 1024 → (verify Toy.ris m { q with V := V } c).IsErr := by
  obtain ⟨p, ip, h, -⟩ := case_two 1 coins
  obtain ⟨b, -, -, hb⟩ := C140_two_proofs_violated Toy.ris_encodings 1 1 _ _ false false coins coins p p recv h h incl ⟨[], 2 ^ 32, 0⟩ le_rfl
  exact ⟨p, b, h, hb⟩

end RP

end Dusk
