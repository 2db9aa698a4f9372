import Verif.Model.MlsagSmall
import Verif.Props.MlsagCalls
import Verif.Props.DecodeState
/-!
# C89: bookkeeping of package mlsag

Numbers of keys, responses and members; decoding into a receiver that is already in use; the public keys handed out.
-/

set_option linter.unusedSectionVars false

namespace Dusk.Mlsag

open Calls

variable {F G : Type} [Field F] [AddCommGroup G] [Module F G]

/-! ## Adding and counting -/

theorem addPubKeys_keys (l : List G) : ∀ p : PubKeys G, (l.foldl PubKeys.addPubKey p) = ⟨p.decoy, p.keys ++ l⟩ := by
  induction l with
  | nil => intro p; simp
  | cons k l ih => intro p; simp [ih, PubKeys.addPubKey]

/-- C89: after any calls of `AddPubKey` on an empty vector, `Len` is their number and `OutputKey` the argument of the first
one; without a call `OutputKey` panics. -/
theorem C89_pubkeys (l : List G) :
    (l.foldl PubKeys.addPubKey {}).len = l.length ∧
    (l.foldl PubKeys.addPubKey {}).outputKey = match l with | [] => .panic | k :: _ => .ok k := by
  rw [addPubKeys_keys]
  cases l <;> simp [PubKeys.len, PubKeys.outputKey, idx]

example : ([7, 8, 9].foldl PubKeys.addPubKey ({} : PubKeys Toy.K)).len = 3 ∧
    ([7, 8, 9].foldl PubKeys.addPubKey ({} : PubKeys Toy.K)).outputKey = .ok 7 ∧ ({} : PubKeys Toy.K).outputKey = .panic :=
  ⟨(C89_pubkeys [7, 8, 9]).1, (C89_pubkeys [7, 8, 9]).2, (C89_pubkeys []).2⟩

/-- C89: `AddResponse` and `AddPrivateKey` append. -/
theorem C89_append (l res : List F) :
    l.foldl addResponse res = res ++ l ∧ responsesLen (l.foldl addResponse res) = responsesLen res + l.length ∧
    l.foldl addPrivateKey res = res ++ l ∧ privKeysLen (l.foldl addPrivateKey res) = privKeysLen res + l.length := by
  have h1 : ∀ res : List F, l.foldl addResponse res = res ++ l := by
    induction l with
    | nil => simp
    | cons x l ih => intro res; simp [ih, addResponse]
  have h2 : ∀ res : List F, l.foldl addPrivateKey res = res ++ l := by
    clear h1
    induction l with
    | nil => simp
    | cons x l ih => intro res; simp [ih, addPrivateKey]
  rw [h1, h2]
  simp [responsesLen, privKeysLen]

example : [3, 4].foldl addResponse [(1 : Toy.K)] = [1, 3, 4] ∧ responsesLen ([3, 4].foldl addResponse [(1 : Toy.K)]) = 3 :=
  ⟨(C89_append [3, 4] [1]).1, (C89_append [3, 4] [1]).2.1⟩

/-- C89: `isNumInList` tests membership. -/
theorem C89_isNumInList (x : Int) (l : List Int) : isNumInList x l = true ↔ x ∈ l := by
  induction l with
  | nil => simp [isNumInList]
  | cons b l ih =>
    unfold isNumInList
    by_cases h : b = x
    · simp [h]
    · simp [h, ih, Ne.symm h]

example : isNumInList 3 [5, 3] = true ∧ isNumInList 4 [5, 3] ≠ true :=
  ⟨(C89_isNumInList 3 [5, 3]).2 (by simp), fun h => absurd ((C89_isNumInList 4 [5, 3]).1 h) (by simp)⟩

/-- C89: `readerToPoint` consumes 32 bytes, and returns an error if there are fewer or they encode no point. -/
theorem C89_readerToPoint (R : Ristretto F G) (r : Reader) :
    (∀ b, r.flat.take 32 = b → 32 ≤ r.flat.length → (R.pOfBytes b).2 = true →
      ∃ r', readerToPoint R r = .ok ((R.pOfBytes b).1, r') ∧ r'.flat = r.flat.drop 32 ∧ r'.fin = r.fin) ∧
    ((r.flat.length < 32 ∨ (R.pOfBytes (r.flat.take 32)).2 = false) → (readerToPoint R r).IsErr) := by
  constructor
  · rintro b rfl h hp
    exact (point_elem R).good r _ h (by simp [pointOf, hp])
  · intro h
    by_cases hl : r.flat.length < 32
    · exact (point_elem R).short r hl
    · exact (point_elem R).refused r (by omega) (by simp [pointOf, h.resolve_left hl])

example (P : Toy.K) : (∃ r', readerToPoint Toy.ris (Reader.ofBytes (Toy.ris.pBytes P ++ [1, 2])) = .ok (P, r') ∧ r'.flat = [1, 2]) ∧
    (readerToPoint Toy.ris (Reader.ofBytes [1, 2])).IsErr := by
  have hl := Toy.ris_encodings.pBytes_length P
  have hf : (Reader.ofBytes (Toy.ris.pBytes P ++ [1, 2])).flat = Toy.ris.pBytes P ++ [1, 2] := by simp [Reader.ofBytes, Reader.flat]
  have ht : (Toy.ris.pBytes P ++ [1, 2]).take 32 = Toy.ris.pBytes P := List.take_left' hl
  have hd : (Toy.ris.pBytes P ++ [1, 2]).drop 32 = [1, 2] := List.drop_left' hl
  constructor
  · obtain ⟨r', h1, h2, -⟩ := (C89_readerToPoint Toy.ris (Reader.ofBytes (Toy.ris.pBytes P ++ [1, 2]))).1 (Toy.ris.pBytes P)
      (by rw [hf, ht]) (by rw [hf, List.length_append, hl]; simp) (by rw [Toy.ris_encodings.pOfBytes_pBytes])
    rw [Toy.ris_encodings.pOfBytes_pBytes] at h1
    exact ⟨r', h1, by rw [h2, hf, hd]⟩
  · exact (C89_readerToPoint Toy.ris (Reader.ofBytes [1, 2])).2 (.inl (by simp [Reader.ofBytes, Reader.flat]))

/-! ## Decoding into a receiver in use -/

/-- C89: `Responses.Decode` appends to its receiver, also when it fails: everything read before the stream ended stays. -/
theorem C89_responses_decode (R : Ristretto F G) (res : List F) (n : Nat) (r : Reader) :
    let o := responsesDec R n res r
    o.recv = res ++ items (scalarOf R) n r.flat ∧
    (32 * n ≤ r.flat.length → ∃ r', o.res = .ok ((), r') ∧ decodeResponses R res n r = .ok (o.recv, r') ∧
      r'.flat = r.flat.drop (32 * n) ∧ responsesLen o.recv = responsesLen res + n) ∧
    (r.flat.length < 32 * n → o.res.IsErr ∧ (decodeResponses R res n r).IsErr ∧
      responsesLen o.recv = responsesLen res + r.flat.length / 32) := by
  obtain ⟨-, h2, h3, h4⟩ := Dec.row_spec (scalar_elem R) (wrap := id) (snoc := fun x res => res ++ [x]) (fun _ _ => rfl) n 0 res r
  obtain ⟨g1, g2⟩ := Dec.readTimes_items (scalar_elem R) n r
  have hlen := scalars_length R n r.flat
  dsimp only
  have h2 : (responsesDec R n res r).recv = res ++ items (scalarOf R) n r.flat := h2
  refine ⟨h2, fun h => ?_, fun h => ?_⟩
  · have hn : (items (scalarOf R) n r.flat).length = n := by rw [hlen]; omega
    obtain ⟨r', e1, e2, e3⟩ := h3 hn
    obtain ⟨r'', f1, f2, f3⟩ := g1 hn
    have hrr : r' = r'' := by
      have hs := Dec.row_sim (elem := readScalar R) (wrap := id) (snoc := fun x res => res ++ [x]) (fun _ _ => rfl) n 0 res r
      rw [f1] at hs
      have := hs.1
      rw [e1] at this
      simpa using this
    refine ⟨r', e1, ?_, e2, ?_⟩
    · simp [decodeResponses, Rd.bind, f1, Res.bind, Rd.pure, h2, hrr]
    · rw [h2]
      simp [responsesLen, hn]
  · have hn : (items (scalarOf R) n r.flat).length ≠ n := by rw [hlen]; omega
    refine ⟨h4 hn, ?_, ?_⟩
    · obtain ⟨e, he⟩ := (g2 hn).exists
      simp [decodeResponses, Rd.bind, he, Res.bind, Res.IsErr]
    · rw [h2]
      simp only [responsesLen, List.length_append, hlen]
      omega

/-- C89: `PubKeys.Decode` appends to its receiver and keeps the decoy flag, also when it fails: everything before the first
incomplete or invalid key stays. A vector that had keys keeps its output key. -/
theorem C89_pubkeys_decode (R : Ristretto F G) (p : PubKeys G) (n : Nat) (r : Reader) :
    let o := PubKeys.dec R n p r
    o.recv.keys = p.keys ++ items (pointOf R) n r.flat ∧ o.recv.decoy = p.decoy ∧
    (0 < p.len → o.recv.outputKey = p.outputKey) ∧
    ((items (pointOf R) n r.flat).length = n → ∃ r', o.res = .ok ((), r') ∧ PubKeys.decode R p n r = .ok (o.recv, r') ∧
      r'.flat = r.flat.drop (32 * n) ∧ o.recv.len = p.len + n) ∧
    ((items (pointOf R) n r.flat).length ≠ n → o.res.IsErr ∧ (PubKeys.decode R p n r).IsErr) := by
  obtain ⟨-, h2, h3, h4⟩ := Dec.row_spec (point_elem R) (wrap := fun k => (⟨p.decoy, k⟩ : PubKeys G))
    (snoc := fun x p => p.addPubKey x) (fun _ _ => rfl) n 0 p.keys r
  obtain ⟨g1, g2⟩ := Dec.readTimes_items (point_elem R) n r
  dsimp only
  have h2 : (PubKeys.dec R n p r).recv = ⟨p.decoy, p.keys ++ items (pointOf R) n r.flat⟩ := h2
  refine ⟨by rw [h2], by rw [h2], fun h => ?_, fun hn => ?_, fun hn => ⟨h4 hn, ?_⟩⟩
  · rw [h2]
    unfold PubKeys.outputKey idx
    simp only [PubKeys.len] at h
    rw [List.getElem?_append_left h]
  · obtain ⟨r', e1, e2, e3⟩ := h3 hn
    obtain ⟨r'', f1, f2, f3⟩ := g1 hn
    have hrr : r' = r'' := by
      have hs := Dec.row_sim (elem := readPoint R) (wrap := fun k => (⟨p.decoy, k⟩ : PubKeys G))
        (snoc := fun x p => p.addPubKey x) (fun _ _ => rfl) n 0 p.keys r
      rw [f1] at hs
      have := hs.1
      rw [e1] at this
      simpa using this
    refine ⟨r', e1, ?_, e2, ?_⟩
    · simp [PubKeys.decode, Rd.bind, f1, Res.bind, Rd.pure, h2, hrr]
    · rw [h2]
      simp [PubKeys.len, hn]
  · obtain ⟨e, he⟩ := (g2 hn).exists
    simp [PubKeys.decode, Rd.bind, he, Res.bind, Res.IsErr]

/-- C89, violated expectation: decoding a vector of keys into one in use does not give the encoded vector. For every vector and
every receiver with keys, `Decode` succeeds and the result differs from what was encoded. -/
theorem C89_reuse_violated {R : Ristretto F G} (E : R.Encodings) [DecidableEq G] (p q : PubKeys G) (hq : 0 < q.len) (r : Reader)
    (rest : Bytes) (hr : r.flat = p.keys.flatMap R.pBytes ++ rest) :
    ∃ r', PubKeys.decode R q p.len r = .ok (⟨q.decoy, q.keys ++ p.keys⟩, r') ∧ r'.flat = rest ∧
      listEquals (q.keys ++ p.keys) p.keys = false := by
  have h := readTimes_decodes (m := readPoint R) (enc := R.pBytes) p.keys fun k _ => readPoint_decodes E k
  obtain ⟨r', h1, h2, h3⟩ := h.full r rest hr
  refine ⟨r', ?_, h2, ?_⟩
  · simp [PubKeys.decode, Rd.bind, PubKeys.len, h1, Res.bind, Rd.pure]
  · simp only [PubKeys.len] at hq
    unfold listEquals
    rw [if_pos (by simp; intro h; rw [h] at hq; simp at hq)]

/-! ## The keys handed out -/

theorem EOp.run_append (R : Ristretto F G) (l l' : List (EOp F G)) : ∀ d : DualKey F G,
    EOp.run R d (l ++ l') = (EOp.run R d l).bind fun d => EOp.run R d l' := by
  induction l with
  | nil => intro d; rfl
  | cons o l ih =>
    intro d
    simp only [List.cons_append, EOp.run]
    cases o.apply R d with
    | ok d' => simpa [Res.bind] using ih d'
    | err e => rfl
    | panic => rfl

theorem primary_append (x y : F) : ∀ (ops : List (EOp F G)) (z : F), primary z (ops ++ [.op (.primary x), .op (.comm y)]) = x
  | [], _ => rfl
  | .op (.primary _) :: ops, _ => primary_append x y ops _
  | .op (.comm _) :: ops, _ => primary_append x y ops _
  | .op (.decoy _) :: ops, _ => primary_append x y ops _
  | .op (.msg _) :: ops, _ => primary_append x y ops _
  | .op (.sub _) :: ops, _ => primary_append x y ops _
  | .secret _ :: ops, _ => primary_append x y ops _
  | .decoys _ :: ops, _ => primary_append x y ops _

theorem zeroing_append (x y : F) : ∀ (ops : List (EOp F G)) (z : F), zeroing z (ops ++ [.op (.primary x), .op (.comm y)]) = y
  | [], _ => rfl
  | .op (.primary _) :: ops, _ => zeroing_append x y ops _
  | .op (.comm _) :: ops, _ => zeroing_append x y ops _
  | .op (.decoy _) :: ops, _ => zeroing_append x y ops _
  | .op (.msg _) :: ops, _ => zeroing_append x y ops _
  | .op (.sub _) :: ops, _ => zeroing_append x y ops _
  | .secret _ :: ops, _ => zeroing_append x y ops _
  | .decoys _ :: ops, _ => zeroing_append x y ops _

/-- C89: the points returned by `SetPrimaryKey(x)` and `SetCommToZero(y)` are the two public keys of the signer in the ring of
the first signature, if these are the last such calls. -/
theorem C89_handed_out [DecidableEq F] (R : Ristretto F G) (ops : List (EOp F G)) (d : DualKey F G)
    (hd : EOp.run R DualKey.new ops = .ok d) (x y : F) (coins : Coins F) (sig : Signature F G) (I : G)
    (h : ((((d.setPrimaryKey R x).1.setCommToZero R y).1).prove R coins).2 = .ok (sig, I)) :
    [(d.setPrimaryKey R x).2, ((d.setPrimaryKey R x).1.setCommToZero R y).2] ∈ sig.pubKeys.map PubKeys.keys ∧
    I = x • R.pDerive (R.pBytes (d.setPrimaryKey R x).2) := by
  have hd' : EOp.run R DualKey.new (ops ++ [.op (.primary x), .op (.comm y)]) = .ok ((d.setPrimaryKey R x).1.setCommToZero R y).1 := by
    rw [EOp.run_append, hd]
    rfl
  have hx : primary 0 (ops ++ [.op (.primary x), .op (.comm y)]) = x := primary_append x y ops 0
  have hy : zeroing 0 (ops ++ [.op (.primary x), .op (.comm y)]) = y := zeroing_append x y ops 0
  have key := C84_outcome R _ _ hd' coins
  rw [hx, hy] at key
  obtain ⟨k1, k2⟩ := key
  by_cases h0 : x = 0 ∨ y = 0
  · have := k1 h0
    rw [h] at this
    simp [Res.IsErr] at this
  · push Not at h0
    obtain ⟨a, b, c⟩ := k2 h0.1 h0.2
    by_cases e1 : ring (ops ++ [.op (.primary x), .op (.comm y)]) = []
    · rw [a e1] at h
      cases h
    · by_cases e2 : EOp.secrets (ops ++ [.op (.primary x), .op (.comm y)]) = [] ∧
          ∀ ks ∈ ring (ops ++ [.op (.primary x), .op (.comm y)]), ks.length = 2
      · obtain ⟨sig', I', g1, g2, -, -, g3⟩ := c e1 e2.1 e2.2
        rw [h] at g1
        cases g1
        exact ⟨g3.mem_iff.2 (by simp [DualKey.setPrimaryKey, DualKey.setCommToZero, privKeyToPubKey]), g2⟩
      · have := b e1 (by
          by_contra hc
          push Not at hc
          exact e2 ⟨hc.1, hc.2⟩)
        rw [h] at this
        simp [Res.IsErr] at this

/-- One decoy, keys 1 and 1: the first signature contains the points handed out. -/
example (coins : Coins Toy.K) : ∃ d sig I, EOp.run Toy.ris DualKey.new [.op (.decoy ⟨false, [10, 11]⟩)] = .ok d ∧
    ((((d.setPrimaryKey Toy.ris 1).1.setCommToZero Toy.ris 1).1).prove Toy.ris coins).2 = .ok (sig, I) ∧
    [(d.setPrimaryKey Toy.ris 1).2, ((d.setPrimaryKey Toy.ris 1).1.setCommToZero Toy.ris 1).2] ∈ sig.pubKeys.map PubKeys.keys := by
  obtain ⟨sig, I, h1, -⟩ := ((C84_outcome Toy.ris [.op (.decoy ⟨false, [10, 11]⟩), .op (.primary 1), .op (.comm 1)] _ rfl coins).2
    (by simp [primary]) (by simp [zeroing])).2.2 (by simp [ring]) (by simp [EOp.secrets]) (by simp [ring, shift])
  exact ⟨_, sig, I, rfl, h1, (C89_handed_out Toy.ris [.op (.decoy ⟨false, [10, 11]⟩)] _ rfl 1 1 coins sig I h1).1⟩

/-! ## LenMembers -/

/-- A call on a `DualKey`, which may be `Prove`. -/
inductive Step (F G : Type) where
  | call (o : EOp F G)
  | prove (coins : Coins F)

/-- The calls one after the other; results of `Prove` are ignored. -/
def Step.run [DecidableEq F] (R : Ristretto F G) (d : DualKey F G) : List (Step F G) → Res (DualKey F G)
  | [] => .ok d
  | .call o :: l => (o.apply R d).bind fun d => Step.run R d l
  | .prove coins :: l => Step.run R (d.prove R coins).1 l

/-- The number of decoys added, and of calls of `Prove` with keys that are not zero. -/
def members [DecidableEq F] : F → F → List (Step F G) → Nat
  | _, _, [] => 0
  | _, k1, .call (.op (.primary x)) :: l => members x k1 l
  | k0, _, .call (.op (.comm x)) :: l => members k0 x l
  | k0, k1, .call (.op (.decoy _)) :: l => 1 + members k0 k1 l
  | k0, k1, .call (.decoys ks) :: l => ks.length + members k0 k1 l
  | k0, k1, .call _ :: l => members k0 k1 l
  | k0, k1, .prove _ :: l => (if k0 = 0 ∨ k1 = 0 then 0 else 1) + members k0 k1 l

theorem subCommToZero_state {d d' : DualKey F G} {P : G} (h : d.subCommToZero P = .ok d') :
    d'.proof.matrix.length = d.proof.matrix.length ∧ d'.key0 = d.key0 ∧ d'.key1 = d.key1 := by
  have hn : ∀ k ∈ d.proof.matrix, 2 ≤ k.keys.length := by
    by_contra hc
    push Not at hc
    rw [(C27_panic d P).2 hc] at h
    cases h
  obtain ⟨e, h1, h2, h3, -, -, -, -, h4, -⟩ := C27_sub d P hn
  rw [h] at h1
  cases h1
  exact ⟨h4, h2, h3⟩

theorem lenMembers_run [DecidableEq F] (R : Ristretto F G) : ∀ (steps : List (Step F G)) (d d' : DualKey F G),
    Step.run R d steps = .ok d' → d'.proof.lenMembers = d.proof.lenMembers + members d.key0 d.key1 steps
  | [], d, d', h => by
    cases h
    simp [members]
  | .call (.op (.primary x)) :: l, d, d', h => lenMembers_run R l _ d' h
  | .call (.op (.comm x)) :: l, d, d', h => lenMembers_run R l _ d' h
  | .call (.op (.msg m)) :: l, d, d', h => lenMembers_run R l (d.setMsg m) d' h
  | .call (.secret x) :: l, d, d', h => lenMembers_run R l { d with proof := d.proof.addSecret R x } d' h
  | .call (.op (.decoy k)) :: l, d, d', h => by
    rw [lenMembers_run R l _ d' h]
    simp [members, Proof.lenMembers, Proof.addDecoy, Proof.addPubKeys]
    omega
  | .call (.decoys ks) :: l, d, d', h => by
    rw [lenMembers_run R l _ d' h]
    simp [members, Proof.lenMembers, addDecoys_matrix]
    omega
  | .call (.op (.sub P)) :: l, d, d', h => by
    simp only [Step.run, EOp.apply, DOp.apply] at h
    obtain ⟨d1, h1, h2⟩ := Res.bind_eq_ok.1 h
    obtain ⟨a, b, c⟩ := subCommToZero_state h1
    rw [lenMembers_run R l _ d' h2, b, c]
    simp [members, Proof.lenMembers, a]
  | .prove coins :: l, d, d', h => by
    rw [lenMembers_run R l _ d' h]
    unfold DualKey.prove
    by_cases hz : d.key0 = 0 ∨ d.key1 = 0
    · simp only [if_pos hz, members]
      omega
    · simp only [if_neg hz, members]
      rw [prove_state]
      obtain ⟨m, e1, e2, -⟩ := shuffleSet_ring ((d.proof.addSecret R d.key0).addSecret R d.key1) coins.shuffle
      have := e2.length_eq
      simp only [Proof.lenMembers, e1, this]
      simp [Proof.addSecret]
      omega

/-- C89: `LenMembers` counts the decoys and the calls of `Prove` with keys that are not zero, whether they succeed or not. -/
theorem C89_lenMembers [DecidableEq F] (R : Ristretto F G) (steps : List (Step F G)) (d : DualKey F G)
    (h : Step.run R DualKey.new steps = .ok d) : d.proof.lenMembers = members 0 0 steps := by
  have := lenMembers_run R steps DualKey.new d h
  simpa [DualKey.new, Proof.lenMembers] using this

/-- A one-key decoy, a primary key that is never used, two decoys: three members; `Prove` without a commitment key adds none,
the two later ones add one each although both fail (a decoy has one key only). -/
example (c : Coins Toy.K) : ∃ d, Step.run Toy.ris DualKey.new [.call (.op (.decoy ⟨false, [10]⟩)), .call (.op (.primary 1)), .prove c,
    .call (.decoys [⟨true, [1, 2]⟩, ⟨true, [3, 4]⟩]), .call (.op (.comm 1)), .prove c, .prove c] = .ok d ∧ d.proof.lenMembers = 5 := by
  refine ⟨_, rfl, ?_⟩
  rw [C89_lenMembers Toy.ris [.call (.op (.decoy ⟨false, [10]⟩)), .call (.op (.primary 1)), .prove c,
    .call (.decoys [⟨true, [1, 2]⟩, ⟨true, [3, 4]⟩]), .call (.op (.comm 1)), .prove c, .prove c] _ rfl]
  simp [members]

/-- Two keys decoded into a vector in use: accepted, and different from what was encoded. -/
example : ∃ r', PubKeys.decode Toy.ris ⟨false, [7]⟩ 2 ⟨[Toy.ris.pBytes 3 ++ Toy.ris.pBytes 4], .eof⟩ = .ok (⟨false, [7, 3, 4]⟩, r') := by
  obtain ⟨r', h, -⟩ := C89_reuse_violated Toy.ris_encodings ⟨false, [3, 4]⟩ ⟨false, [7]⟩ (by simp [PubKeys.len])
    ⟨[Toy.ris.pBytes 3 ++ Toy.ris.pBytes 4], .eof⟩ [] (by simp [Reader.flat])
  exact ⟨r', h⟩

/-- A stream that ends within the second response: the first one stays in the receiver. -/
example (b : Bytes) (h : b.length = 40) : (responsesDec Toy.ris 2 [5] ⟨[b], .eof⟩).res.IsErr ∧
    responsesLen (responsesDec Toy.ris 2 [5] ⟨[b], .eof⟩).recv = 2 := by
  obtain ⟨-, -, h2⟩ := C89_responses_decode Toy.ris [5] 2 ⟨[b], .eof⟩
  have := h2 (by simp [Reader.flat, h])
  exact ⟨this.1, by rw [this.2.2]; simp [responsesLen, Reader.flat, h]⟩

end Dusk.Mlsag
