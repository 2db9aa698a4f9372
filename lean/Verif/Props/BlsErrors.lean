import Verif.Props.Bls
/-!
# C141: wrong signatures in an accepted aggregate
-/

namespace Dusk.Bls

set_option linter.unusedSectionVars false

variable {F G1 G2 GT : Type} [Field F] [AddCommGroup G1] [AddCommGroup G2] [AddCommGroup GT]
  [Module F G1] [Module F G2] [Module F GT]
variable (P : Bn256 F G1 G2 GT) (A : Hash.Algs)

/-- Specification: a message, a key and a point offered as the signature of the message with this key. -/
structure Part (G1 G2 : Type) where
  msg : Bytes
  key : G2
  sig : G1

/-- Specification: how far the two pairings of the verification of a single signature are apart. -/
def Part.error (t : Part G1 G2) : GT := P.pair t.sig P.g2 - P.pair ((beNat (A.sha3_256 t.msg) : F) • P.g1) t.key

/-- The verdict of `VerifyUnsafe` on a part. -/
def Part.Valid (t : Part G1 G2) : Prop := VerifyUnsafe P A (some ⟨.pt t.key⟩) t.msg (some ⟨.pt t.sig⟩) = .ok ()

/-- `UnsafeBatch` of the signatures, then `VerifyUnsafeBatch` with the keys and the messages. -/
def BatchAccepted (l : List (Part G1 G2)) : Prop :=
  ∃ agg, unsafeBatch (l.map fun t => some ⟨.pt t.sig⟩) = .ok (some agg) ∧
    VerifyUnsafeBatch P A (l.map fun t => some ⟨.pt t.key⟩) (l.map fun t => t.msg) (some agg) = .ok ()

theorem valid_iff (t : Part G1 G2) : t.Valid P A ↔ t.error P A = 0 := by
  unfold Part.Valid Part.error
  simp only [VerifyUnsafe, deref_some, Res.bind_ok, verify_iff, sub_eq_zero]
  exact eq_comm

theorem error_sum : ∀ (l : List (Part G1 G2)),
    (l.map (Part.error P A)).sum = P.pair (l.map fun t => t.sig).sum P.g2 -
      batchSum (fun a b => P.pair a b) (hashPoint P A) ((l.map fun t => t.msg).zip (l.map fun t => t.key))
  | [] => by simp [batchSum]
  | t :: l => by
    have ih := error_sum l
    simp only [List.map_cons, List.sum_cons, List.zip_cons_cons, batchSum, map_add, LinearMap.add_apply, ih, Part.error, hashPoint,
      digest]
    abel

/-- C141: whatever the single signatures are, their aggregate is accepted exactly if their errors add up to zero. -/
theorem C141_exact (l : List (Part G1 G2)) (hn : l ≠ []) (hd : ((l.map fun t => t.msg).map A.sha3_256).Nodup) :
    BatchAccepted P A l ↔ (l.map (Part.error P A)).sum = 0 := by
  have h1 := unsafeBatch_eq (l.map fun t => t.sig) (by simpa using hn)
  rw [List.map_map] at h1
  have h2 := (C36_unsafe P A (l.map fun t => t.key) (l.map fun t => t.msg) (l.map fun t => t.sig).sum (by simpa using hn)
    (by simp) hd).1
  rw [List.map_map] at h2
  rw [error_sum, sub_eq_zero, ← h2]
  constructor
  · rintro ⟨agg, h3, h4⟩
    rw [show (l.map fun t => (some ⟨.pt t.sig⟩ : Option (UnsafeSignature G1))) =
      l.map ((fun s => some ⟨.pt s⟩) ∘ fun t => t.sig) from rfl, h1] at h3
    cases h3
    exact h4
  · exact fun h => ⟨_, h1, h⟩

/-- C141: the verdict on an aggregate depends neither on the order of the parts… -/
theorem C141_order (l l' : List (Part G1 G2)) (hn : l ≠ []) (hd : ((l.map fun t => t.msg).map A.sha3_256).Nodup) (h : l.Perm l') :
    BatchAccepted P A l ↔ BatchAccepted P A l' := by
  rw [C141_exact P A l hn hd, C141_exact P A l' (fun h0 => hn (by rw [h0] at h; exact h.eq_nil))
    ((((h.map fun t => t.msg).map A.sha3_256).nodup_iff).1 hd), (h.map (Part.error P A)).sum_eq]

/-- C141: … nor on the parts that are valid: if all others are valid, an aggregate is accepted exactly if this part is. -/
theorem C141_one (l₁ : List (Part G1 G2)) (t : Part G1 G2) (l₂ : List (Part G1 G2))
    (hd : (((l₁ ++ t :: l₂).map fun t => t.msg).map A.sha3_256).Nodup) (hv : ∀ u ∈ l₁ ++ l₂, u.Valid P A) :
    BatchAccepted P A (l₁ ++ t :: l₂) ↔ t.Valid P A := by
  rw [C141_exact P A _ (by simp) hd, valid_iff]
  have h0 : ∀ l : List (Part G1 G2), (∀ u ∈ l, u.Valid P A) → (l.map (Part.error P A)).sum = 0 := by
    intro l hl
    refine List.sum_eq_zero fun x hx => ?_
    obtain ⟨u, hu, rfl⟩ := List.mem_map.1 hx
    exact (valid_iff P A u).1 (hl u hu)
  rw [List.map_append, List.sum_append, List.map_cons, List.sum_cons, h0 l₁ fun u hu => hv u (by simp [hu]),
    h0 l₂ fun u hu => hv u (by simp [hu])]
  simp

/-- C141 (violated): Expected: an aggregate is accepted only if every signature in it is valid. In every list of valid signatures
anybody can replace two of them by invalid ones, with any point `δ ≠ 0` of their choice, such that the aggregate is accepted. -/
theorem C141_cancel_violated (l₁ : List (Part G1 G2)) (t : Part G1 G2) (l₂ : List (Part G1 G2)) (u : Part G1 G2) (l₃ : List (Part G1 G2))
    (hd : (((l₁ ++ t :: (l₂ ++ u :: l₃)).map fun t => t.msg).map A.sha3_256).Nodup)
    (hv : ∀ v ∈ l₁ ++ t :: (l₂ ++ u :: l₃), v.Valid P A) (δ : G1) (hδ : δ ≠ 0) :
    ¬ ({ t with sig := t.sig + δ } : Part G1 G2).Valid P A ∧ ¬ ({ u with sig := u.sig - δ } : Part G1 G2).Valid P A ∧
      BatchAccepted P A (l₁ ++ { t with sig := t.sig + δ } :: (l₂ ++ { u with sig := u.sig - δ } :: l₃)) := by
  have ht := (valid_iff P A t).1 (hv t (by simp))
  have hu := (valid_iff P A u).1 (hv u (by simp))
  have e1 : Part.error P A ({ t with sig := t.sig + δ } : Part G1 G2) = P.pair δ P.g2 := by
    have : Part.error P A ({ t with sig := t.sig + δ } : Part G1 G2) = t.error P A + P.pair δ P.g2 := by
      simp only [Part.error, map_add, LinearMap.add_apply]; abel
    rw [this, ht, zero_add]
  have e2 : Part.error P A ({ u with sig := u.sig - δ } : Part G1 G2) = - P.pair δ P.g2 := by
    have : Part.error P A ({ u with sig := u.sig - δ } : Part G1 G2) = u.error P A - P.pair δ P.g2 := by
      simp only [Part.error, map_sub, LinearMap.sub_apply]; abel
    rw [this, hu, zero_sub]
  have hne : P.pair δ P.g2 ≠ 0 := fun h => hδ (P.pair_g2_inj δ h)
  refine ⟨by rw [valid_iff, e1]; exact hne, by rw [valid_iff, e2]; exact neg_ne_zero.2 hne, ?_⟩
  rw [C141_exact P A _ (by simp) (by simpa using hd)]
  have hz : ∀ l : List (Part G1 G2), (∀ v ∈ l, v.Valid P A) → (l.map (Part.error P A)).sum = 0 := by
    intro l hl
    refine List.sum_eq_zero fun x hx => ?_
    obtain ⟨v, hv', rfl⟩ := List.mem_map.1 hx
    exact (valid_iff P A v).1 (hl v hv')
  simp only [List.map_append, List.map_cons, List.sum_append, List.sum_cons, e1, e2]
  rw [hz l₁ fun v h => hv v (by simp [h]), hz l₂ fun v h => hv v (by simp [h]), hz l₃ fun v h => hv v (by simp [h])]
  abel

/-! ## Multisignatures -/

/-- A part of a multisignature on `m`: a key and a point offered as what `Sign` returns for it, checked under `NewApk` of the key. -/
def PartValid (m : Bytes) (t : G2 × G1) : Prop :=
  ∃ apk, newApk P A (some ⟨.pt t.1⟩) = .ok apk ∧ Verify P A apk m (some ⟨.pt t.2⟩) = .ok ()

/-- `Aggregate` of all signatures, then `Verify` under `AggregateApk` of all keys. -/
def MultiAccepted (m : Bytes) (t : G2 × G1) (l : List (G2 × G1)) : Prop :=
  ∃ agg apk, aggregateSigs ⟨.pt t.2⟩ (l.map fun u => ⟨.pt u.2⟩) = .ok agg ∧
    aggregateApk P A ((t :: l).map fun u => some ⟨.pt u.1⟩) = .ok apk ∧ Verify P A apk m (some agg) = .ok ()

/-- Specification: how far the two pairings of the verification of a part are apart. -/
def partError (m : Bytes) (t : G2 × G1) : GT :=
  P.pair t.2 P.g2 - P.pair ((beNat (A.sha3_256 m) : F) • P.g1) ((beNat (A.sha3_256 (P.g2Bytes t.1)) : F) • t.1)

theorem partValid_iff (m : Bytes) (t : G2 × G1) : PartValid P A m t ↔ partError P A m t = 0 := by
  unfold PartValid partError
  rw [newApk_eq]
  simp only [Res.ok.injEq, exists_eq_left', Verify, deref_some, Res.bind_ok, Apk.gx, verify_iff, sub_eq_zero]
  exact eq_comm

theorem multi_error_sum (m : Bytes) : ∀ (l : List (G2 × G1)),
    (l.map (partError P A m)).sum = P.pair (l.map fun t => t.2).sum P.g2 -
      P.pair ((digest A m : F) • P.g1) (l.map fun t => (digest A (P.g2Bytes t.1) : F) • t.1).sum
  | [] => by simp
  | t :: l => by
    have ih := multi_error_sum m l
    simp only [List.map_cons, List.sum_cons, map_add, LinearMap.add_apply, ih, partError, digest]
    abel

/-- C141: the same for multisignatures: the aggregate is accepted exactly if the errors of the parts add up to zero. -/
theorem C141_multi_exact (m : Bytes) (t : G2 × G1) (l : List (G2 × G1)) :
    MultiAccepted P A m t l ↔ ((t :: l).map (partError P A m)).sum = 0 := by
  have h1 := aggregateSigs_eq (l.map fun u => u.2) t.2
  rw [List.map_map] at h1
  have h2 : aggregateApk P A ((t :: l).map fun u => some ⟨.pt u.1⟩) =
      .ok (some ⟨some ⟨.pt (((t :: l).map fun u => (digest A (P.g2Bytes u.1) : F) • u.1).sum)⟩⟩) := by
    have := aggregateLoop_eq P A (l.map fun u => u.1) ((digest A (P.g2Bytes t.1) : F) • t.1)
    simp only [List.map_map, Function.comp_def] at this
    simp only [List.map_cons, aggregateApk, newApk_eq, Res.bind_ok, List.sum_cons, this]
  have h3 : Verify P A (some ⟨some ⟨.pt (((t :: l).map fun u => (digest A (P.g2Bytes u.1) : F) • u.1).sum)⟩⟩) m
      (some ⟨.pt (t.2 + (l.map fun u => u.2).sum)⟩) = .ok () ↔ ((t :: l).map (partError P A m)).sum = 0 := by
    rw [multi_error_sum, sub_eq_zero, List.map_cons (f := fun u : G2 × G1 => u.2), List.sum_cons]
    simp only [Verify, deref_some, Res.bind_ok, Apk.gx, verify_iff]
    exact eq_comm
  rw [← h3]
  constructor
  · rintro ⟨agg, apk, h4, h5, h6⟩
    rw [show (l.map fun u => (⟨.pt u.2⟩ : Signature G1)) = l.map ((fun s => ⟨.pt s⟩) ∘ fun u => u.2) from rfl, h1] at h4
    rw [h2] at h5
    cases h4; cases h5
    exact h6
  · exact fun h => ⟨_, _, h1, h2, h⟩

/-- C141 (violated): two signers can contribute invalid parts, with any point `δ ≠ 0`, such that the multisignature is accepted. -/
theorem C141_multi_cancel_violated (m : Bytes) (t u : G2 × G1) (l : List (G2 × G1)) (hv : ∀ v ∈ t :: u :: l, PartValid P A m v)
    (δ : G1) (hδ : δ ≠ 0) :
    ¬ PartValid P A m (t.1, t.2 + δ) ∧ ¬ PartValid P A m (u.1, u.2 - δ) ∧
      MultiAccepted P A m (t.1, t.2 + δ) ((u.1, u.2 - δ) :: l) := by
  have ht := (partValid_iff P A m t).1 (hv t (by simp))
  have hu := (partValid_iff P A m u).1 (hv u (by simp))
  have e1 : partError P A m (t.1, t.2 + δ) = P.pair δ P.g2 := by
    have : partError P A m (t.1, t.2 + δ) = partError P A m t + P.pair δ P.g2 := by
      simp only [partError, map_add, LinearMap.add_apply]; abel
    rw [this, ht, zero_add]
  have e2 : partError P A m (u.1, u.2 - δ) = - P.pair δ P.g2 := by
    have : partError P A m (u.1, u.2 - δ) = partError P A m u - P.pair δ P.g2 := by
      simp only [partError, map_sub, LinearMap.sub_apply]; abel
    rw [this, hu, zero_sub]
  have hne : P.pair δ P.g2 ≠ 0 := fun h => hδ (P.pair_g2_inj δ h)
  refine ⟨by rw [partValid_iff, e1]; exact hne, by rw [partValid_iff, e2]; exact neg_ne_zero.2 hne, ?_⟩
  rw [C141_multi_exact]
  have hz : (l.map (partError P A m)).sum = 0 := by
    refine List.sum_eq_zero fun x hx => ?_
    obtain ⟨v, hv', rfl⟩ := List.mem_map.1 hx
    exact (partValid_iff P A m v).1 (hv v (by simp [hv']))
  simp only [List.map_cons, List.sum_cons, e1, e2, hz]
  abel

/-- Two signers on two messages; both signatures are changed, and the aggregate is accepted. -/
example (x y : Toy.K) : ∃ l : List (Part Toy.K Toy.K), l.length = 2 ∧ l.map Part.key = [x, y] ∧
    (∀ t ∈ l, ¬ t.Valid Toy.bn Hash.toyAlgs) ∧ BatchAccepted Toy.bn Hash.toyAlgs l := by
  have hne : Hash.toyAlgs.sha3_256 [7] ≠ Hash.toyAlgs.sha3_256 [8] := by decide
  obtain ⟨h1, h2, h3⟩ := C141_cancel_violated Toy.bn Hash.toyAlgs [] ⟨[7], x, (digest Hash.toyAlgs [7] : Toy.K) * x⟩ []
    ⟨[8], y, (digest Hash.toyAlgs [8] : Toy.K) * y⟩ [] (by simpa using hne)
    (by
      intro t ht
      unfold Part.Valid
      rw [toy_verify]
      simp only [List.nil_append, List.mem_cons, List.not_mem_nil, or_false] at ht
      rcases ht with rfl | rfl <;> rfl) 1 one_ne_zero
  refine ⟨_, ?_, ?_, ?_, h3⟩
  · rfl
  · rfl
  · intro t ht
    simp only [List.nil_append, List.mem_cons, List.not_mem_nil, or_false] at ht
    rcases ht with rfl | rfl
    · exact h1
    · exact h2

/-- Two signers of one message. -/
example (x y : Nat) (m : Bytes) : ∃ t u : Toy.K × Toy.K, t.1 = x ∧ u.1 = y ∧ ¬ PartValid Toy.bn Hash.toyAlgs m t ∧
    ¬ PartValid Toy.bn Hash.toyAlgs m u ∧ MultiAccepted Toy.bn Hash.toyAlgs m t [u] := by
  obtain ⟨h1, h2, h3⟩ := C141_multi_cancel_violated Toy.bn Hash.toyAlgs m
    ((x : Toy.K), (digest Hash.toyAlgs m : Toy.K) * ((digest Hash.toyAlgs (Toy.bn.g2Bytes (x : Toy.K)) : Toy.K) * x))
    ((y : Toy.K), (digest Hash.toyAlgs m : Toy.K) * ((digest Hash.toyAlgs (Toy.bn.g2Bytes (y : Toy.K)) : Toy.K) * y)) []
    (by
      intro v hv
      rw [partValid_iff]
      simp only [List.mem_cons, List.not_mem_nil, or_false] at hv
      rcases hv with rfl | rfl <;>
        simp [partError, Toy.bn_pair, Toy.bn_g1, Toy.bn_g2, digest]) 1 one_ne_zero
  exact ⟨_, _, rfl, rfl, h1, h2, h3⟩

/-- Two correct signatures on different messages, and a third part: accepted together exactly if the third is correct. -/
example (x y z s : Toy.K) : BatchAccepted Toy.bn Hash.toyAlgs
      [⟨[7], x, (digest Hash.toyAlgs [7] : Toy.K) * x⟩, ⟨[9], z, s⟩, ⟨[8], y, (digest Hash.toyAlgs [8] : Toy.K) * y⟩] ↔
    (digest Hash.toyAlgs [9] : Toy.K) * z = s := by
  refine (C141_one Toy.bn Hash.toyAlgs [⟨[7], x, (digest Hash.toyAlgs [7] : Toy.K) * x⟩] ⟨[9], z, s⟩
    [⟨[8], y, (digest Hash.toyAlgs [8] : Toy.K) * y⟩] (by simp only [List.singleton_append, List.map_cons, List.map_nil]; decide) ?_).trans ?_
  · intro u hu
    unfold Part.Valid
    rw [toy_verify]
    simp only [List.singleton_append, List.mem_cons, List.not_mem_nil, or_false] at hu
    rcases hu with rfl | rfl <;> rfl
  · unfold Part.Valid
    exact toy_verify _ _ _ _

/-- The order of two parts does not matter. -/
example (x y s t : Toy.K) : BatchAccepted Toy.bn Hash.toyAlgs [⟨[7], x, s⟩, ⟨[8], y, t⟩] ↔ BatchAccepted Toy.bn Hash.toyAlgs [⟨[8], y, t⟩, ⟨[7], x, s⟩] :=
  C141_order Toy.bn Hash.toyAlgs _ _ (by simp) (by simp only [List.map_cons, List.map_nil]; decide) (List.Perm.swap _ _ _)

end Dusk.Bls
