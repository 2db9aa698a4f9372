import Verif.Model.Pointers
import Verif.Props.DecodeState
/-!
# C119: `Decode` through any pointer
-/

set_option linter.unusedSectionVars false

namespace Dusk

/-- What a caller of a `Decode` method may rely on, whatever the pointer and the stream: no panic, and nothing at all when the
pointer is nil (the same error for every stream, nothing allocated, the pointer still nil). -/
structure SafeDecode {σ : Type} (m : Dec (Option σ) Unit) : Prop where
  noPanic : ∀ p r, (m p r).res.IsErr ∨ ∃ r', (m p r).res = .ok ((), r')
  onNil : ∃ e, ∀ r, m none r = ⟨.err e, none, 0⟩
  notNil : ∀ s r, (m (some s) r).recv.isSome

theorem Dec.nilChecked_safe {σ : Type} {m : Dec σ Unit} (h : ∀ s r, (m s r).res.IsErr ∨ ∃ r', (m s r).res = .ok ((), r')) :
    SafeDecode (Dec.nilChecked m) where
  noPanic p r := by
    cases p with
    | none => exact Or.inl ⟨_, rfl⟩
    | some s => exact h s r
  onNil := ⟨_, fun _ => rfl⟩
  notNil _ _ := rfl

theorem Done.cases {ok : Prop} {d : Nat} {r : Reader} {res : Res (Unit × Reader)} (h : Done ok d r res) :
    res.IsErr ∨ ∃ r', res = .ok ((), r') := by
  by_cases hok : ok
  · obtain ⟨r', e, -⟩ := h.1 hok
    exact Or.inr ⟨r', e⟩
  · exact Or.inl (h.2 hok)

variable {F G : Type} [Field F] [AddCommGroup G] [Module F G]

namespace Mlsag

/-- C119: `Responses.Decode` appends the scalars it can read, at most `n`, and succeeds when there are `n`. -/
theorem C119_responses (R : Ristretto F G) (n : Nat) (res : List F) (r : Reader) :
    let o := responsesDecodePtr R n (some res) r
    o.recv = some (res ++ items (scalarOf R) n r.flat) ∧ o.made = 0 ∧ Done (32 * n ≤ r.flat.length) (32 * n) r o.res := by
  obtain ⟨h1, h2, h3⟩ := Dec.row_spec (scalar_elem R) (wrap := id) (snoc := fun x res => res ++ [x]) (fun _ _ => rfl) n 0 res r
  refine ⟨congrArg some h2, h1, ?_⟩
  have : (items (scalarOf R) n r.flat).length = n ↔ 32 * n ≤ r.flat.length := by
    rw [scalars_length]
    omega
  rw [this] at h3
  exact h3

/-- C119: `PubKeys.Decode` appends the points it can read, at most `n`, and succeeds when there are `n`. It does not touch the
mark of a decoy. -/
theorem C119_pubkeys (R : Ristretto F G) (n : Nat) (p : PubKeys G) (r : Reader) :
    let o := PubKeys.decodePtr R n (some p) r
    o.recv = some ⟨p.decoy, p.keys ++ items (pointOf R) n r.flat⟩ ∧ o.made = 0 ∧
      Done ((items (pointOf R) n r.flat).length = n) (32 * n) r o.res := by
  obtain ⟨h1, h2, h3⟩ := Dec.row_spec (point_elem R) (wrap := fun l => (⟨p.decoy, l⟩ : PubKeys G))
    (snoc := fun x p => p.addPubKey x) (fun _ _ => rfl) n 0 p.keys r
  exact ⟨congrArg some h2, h1, h3⟩

/-- C119: the decoders of package mlsag. -/
theorem C119_mlsag (R : Ristretto F G) (n : Nat) (keys : Bool) :
    SafeDecode (responsesDecodePtr R n) ∧ SafeDecode (PubKeys.decodePtr R n) ∧
      SafeDecode (Signature.decodePtr (G := G) R keys) :=
  ⟨Dec.nilChecked_safe fun s r => (C119_responses R n s r).2.2.cases,
    Dec.nilChecked_safe fun s r => (C119_pubkeys R n s r).2.2.cases,
    Dec.nilChecked_safe fun s r => (C87_mlsag R keys s r).noPanic⟩

example : ∃ e, ∀ r, Signature.decodePtr (F := Toy.K) (G := Toy.K) Toy.ris true none r = ⟨.err e, none, 0⟩ := (C119_mlsag Toy.ris 2 true).2.2.onNil

/-- Reading two keys into a set that has one leaves three. -/
example (P Q S : Toy.K) : ((PubKeys.decodePtr Toy.ris 2 (some ⟨true, [P]⟩)
    (Reader.ofBytes (Toy.ris.pBytes Q ++ Toy.ris.pBytes S))).recv) = some ⟨true, [P, Q, S]⟩ := by
  rw [(C119_pubkeys Toy.ris 2 _ _).1]
  have hl := Toy.ris_encodings.pBytes_length
  have hd := Toy.ris_encodings.pOfBytes_pBytes
  have h1 : ((Toy.ris.pBytes Q) ++ (Toy.ris.pBytes S)).take 32 = Toy.ris.pBytes Q := List.take_left' (hl Q)
  have h2 : ((Toy.ris.pBytes Q) ++ (Toy.ris.pBytes S)).drop 32 = Toy.ris.pBytes S := List.drop_left' (hl Q)
  have h3 : (Toy.ris.pBytes S).take 32 = Toy.ris.pBytes S := List.take_of_length_le (by rw [hl])
  simp [Reader.ofBytes, Reader.flat, items, pointOf, h1, h2, h3, hl, hd]

end Mlsag

namespace RP

/-- C119: what `Commitment.Decode` leaves: the value is replaced as soon as 32 bytes were read, the blinding factor never. -/
theorem C119_commitment (R : Ristretto F G) (bad : G → Bytes → G) (c : Commitment F G) (r : Reader) :
    let o := commitmentDecodePtr R bad (some c) r
    o.made = 0 ∧
    o.recv = some (if 32 ≤ r.flat.length then
        ⟨if (R.pOfBytes (r.flat.take 32)).2 then (R.pOfBytes (r.flat.take 32)).1 else bad c.value (r.flat.take 32),
          c.blindingFactor⟩
      else c) ∧
    Done (32 ≤ r.flat.length ∧ (R.pOfBytes (r.flat.take 32)).2 = true) 32 r o.res := by
  dsimp only [commitmentDecodePtr, Dec.nilChecked]
  unfold commitmentDec
  by_cases h32 : 32 ≤ r.flat.length
  swap
  · simp only [Dec.bind, Dec.read, readN_of_gt (show r.flat.length < 32 by omega)]
    exact ⟨trivial, by simp [h32], fun h => absurd h.1 h32, fun _ => by simp [Res.IsErr]⟩
  obtain ⟨r1, e1, f1, g1⟩ := readN_of_le h32
  simp only [Dec.bind, Dec.read, e1]
  by_cases hp : (R.pOfBytes (r.flat.take 32)).2 = true
  · simp only [hp, if_true, Dec.set, h32]
    exact ⟨trivial, trivial, fun _ => ⟨r1, rfl, f1, g1⟩, fun h => absurd ⟨trivial, trivial⟩ h⟩
  · simp only [hp, Bool.false_eq_true, if_false, Dec.set, h32, if_true, Dec.fail, Dec.bind]
    exact ⟨trivial, trivial, fun h => absurd h.2 (by simp), fun _ => by simp [Res.IsErr]⟩

/-- C119: the decoders of package rangeproof and its subpackages. -/
theorem C119_rangeproof (R : Ristretto F G) (bad : G → Bytes → G) (commits : Bool) :
    SafeDecode (commitmentDecodePtr R bad) ∧ SafeDecode (ipDecodePtr (F := F) R) ∧
      SafeDecode (Proof.decodePtr (F := F) R bad commits) := by
  refine ⟨Dec.nilChecked_safe fun s r => (C119_commitment R bad s r).2.2.cases, Dec.nilChecked_safe fun p r => ?_,
    Dec.nilChecked_safe fun p r => ?_⟩
  · obtain ⟨-, -, h1, h2⟩ := C87_innerproduct R p r
    by_cases h : ipOk r.flat r.fin
    · exact Or.inr ⟨_, h1 h⟩
    · exact Or.inl (h2 h)
  · have outer : ∀ {p : Proof F G} {b : Bytes} {fin : StreamEnd} {o : Outcome (Proof F G) Unit}, OuterSpec R bad p b fin o →
        o.res.IsErr ∨ ∃ r', o.res = .ok ((), r') := by
      intro p b fin o h
      by_cases h7 : reach R b 7
      · by_cases hi : ipOk (b.drop 224) fin
        · exact Or.inr ⟨_, h.good h7 hi⟩
        · exact Or.inl (h.failed (Or.inr hi))
      · exact Or.inl (h.failed (Or.inl h7))
    cases commits
    · exact outer (C87_rangeproof_bare R bad p r)
    · obtain ⟨h1, h2⟩ := C87_rangeproof R bad p r
      by_cases h : commitsOk R r.flat
      · obtain ⟨o', h3, h4⟩ := h2 h
        rw [h4]
        have := outer h3
        exact this
      · exact Or.inl (h1 h).1

example (bad : Toy.K → Bytes → Toy.K) : ∃ e, ∀ r, Proof.decodePtr (F := Toy.K) Toy.ris bad true none r = ⟨.err e, none, 0⟩ :=
  (C119_rangeproof (F := Toy.K) Toy.ris bad true).2.2.onNil

/-- C119 (violated: a decoded commitment carries no secrets): decoding into a commitment of which the opening is known keeps the
old blinding factor next to the new value, although nothing relates the two. -/
theorem C119_stale_blinding_violated [DecidableEq G] {R : Ristretto F G} (E : R.Encodings) (bad : G → Bytes → G)
    (c d : Commitment F G) (r : Reader) (rest : Bytes) (hr : r.flat = R.pBytes d.value ++ rest) :
    ∃ r', (commitmentDecodePtr R bad (some c) r).res = .ok ((), r') ∧
      (commitmentDecodePtr R bad (some c) r).recv = some ⟨d.value, c.blindingFactor⟩ := by
  obtain ⟨-, h2, h3⟩ := C119_commitment R bad c r
  have hl := E.pBytes_length d.value
  have h32 : 32 ≤ r.flat.length := by
    rw [hr, List.length_append, hl]
    omega
  have ht : r.flat.take 32 = R.pBytes d.value := by rw [hr, List.take_left' hl]
  obtain ⟨r', e, -⟩ := h3.1 ⟨h32, by rw [ht, E.pOfBytes_pBytes]⟩
  refine ⟨r', e, ?_⟩
  rw [h2, if_pos h32, ht, E.pOfBytes_pBytes]
  simp

/-- The commitment to 3 with blinding 7, decoded into one with blinding 5. -/
example (bad : Toy.K → Bytes → Toy.K) : ∃ r', (commitmentDecodePtr Toy.ris bad (some ⟨2, 5⟩)
      (Reader.ofBytes (Toy.ris.pBytes 3))).res = .ok ((), r') ∧
    (commitmentDecodePtr Toy.ris bad (some ⟨2, 5⟩) (Reader.ofBytes (Toy.ris.pBytes 3))).recv = some ⟨3, 5⟩ :=
  C119_stale_blinding_violated Toy.ris_encodings bad ⟨2, 5⟩ ⟨3, 7⟩ _ [] (by simp [Reader.ofBytes, Reader.flat])

end RP

end Dusk
