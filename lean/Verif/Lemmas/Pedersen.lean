import Verif.Model.Pedersen
import Verif.Spec.Chain
import Verif.Lemmas.ListAlg
import Verif.Lemmas.IO
/-!
# Lemmas about generators and Pedersen commitments
-/

namespace Dusk

variable {F G : Type} [Field F] [AddCommGroup G] [Module F G]

/-- The generator holds the first elements of its chain. -/
def Gen.OnChain (R : Ristretto F G) (g : Gen G) : Prop := g.bases = chain R g.data g.bases.length

theorem Gen.onChain_new (R : Ristretto F G) (d : Bytes) : (Gen.new d : Gen G).OnChain R := rfl

theorem Gen.iterate_onChain {R : Ristretto F G} {g : Gen G} (h : g.OnChain R) :
    g.iterate R = chainAt R g.data g.bases.length := by
  unfold Gen.iterate
  rw [h]
  generalize g.bases.length = k
  cases k with
  | zero => rfl
  | succ k => simp [chain_succ, chainAt]

theorem Gen.compute_onChain {R : Ristretto F G} : ∀ (n : Nat) {g : Gen G}, g.OnChain R →
    g.compute R n = ⟨g.data, chain R g.data (g.bases.length + n)⟩
  | 0, g, h => by
    cases g with
    | mk d b => simpa [Gen.compute, Gen.OnChain] using h
  | n + 1, g, h => by
    rw [Gen.compute]
    have h' : ({ g with bases := g.bases ++ [g.iterate R] } : Gen G).OnChain R := by
      simp only [Gen.OnChain, List.length_append, List.length_singleton, chain_succ,
        Gen.iterate_onChain h]
      rw [← h]
    rw [Gen.compute_onChain n h']
    simp [Nat.add_assoc, Nat.add_comm 1 n]

theorem Pedersen.commitLoop_eq : ∀ (a : List F) (g : List G) (s : G), a.length ≤ g.length →
    Pedersen.commitLoop a g s = .ok (s + msm a g)
  | [], g, s, _ => by simp [Pedersen.commitLoop]
  | x :: a, p :: g, s, h => by
    simp only [List.length_cons, Nat.add_le_add_iff_right] at h
    simp [Pedersen.commitLoop, Pedersen.commitLoop_eq a g _ h, add_assoc]
  | _ :: _, [], _, h => by simp at h

theorem msm_take_right : ∀ (a : List F) (g : List G), msm a (g.take a.length) = msm a g
  | [], g => by simp
  | _ :: _, [] => by simp
  | x :: a, p :: g => by simp [msm_take_right a g]

theorem Pedersen.commitToScalars_eq {R : Ristretto F G} {p : Pedersen G} (hp : p.baseVector.OnChain R)
    (blind : Option F) (a : List F) (ha : a.length < 2 ^ 32) :
    p.commitToScalars R blind a =
      .ok ((match blind with | some b => b • p.blindPoint | none => 0) +
          msm a (chain R p.baseVector.data a.length),
        { p with baseVector := ⟨p.baseVector.data,
            chain R p.baseVector.data (max p.baseVector.bases.length a.length)⟩ }) := by
  have key : (if p.baseVector.bases.length < a.length then
      p.baseVector.compute R ((a.length - p.baseVector.bases.length) % 2 ^ 32)
      else p.baseVector) = ⟨p.baseVector.data,
            chain R p.baseVector.data (max p.baseVector.bases.length a.length)⟩ := by
    split
    · rename_i h
      rw [Nat.mod_eq_of_lt (by omega), Gen.compute_onChain _ hp]
      congr 2
      omega
    · rename_i h
      have : max p.baseVector.bases.length a.length = p.baseVector.bases.length := by omega
      rw [this]
      cases hb : p.baseVector with
      | mk d b => rw [hb] at hp; simpa [Gen.OnChain] using hp
  unfold Pedersen.commitToScalars
  simp only [key]
  rw [Pedersen.commitLoop_eq _ _ _ (by simp)]
  simp only [Res.bind_ok]
  have : msm a (chain R p.baseVector.data (max p.baseVector.bases.length a.length)) =
      msm a (chain R p.baseVector.data a.length) := by
    rw [← msm_take_right, chain_take _ _ (by omega)]
  rw [this]
  cases blind <;> simp

/-! ## Codec of commitments -/

theorem Commitment.encode_emits (R : Ristretto F G) (c : Commitment F G) :
    (c.encode R).Emits 1 (R.pBytes c.value) := writeB_emits _

theorem Commitment.encodeAll_emits (R : Ristretto F G) (cs : List (Commitment F G)) :
    (Commitment.encodeAll R cs).Emits (1 + cs.length)
      (be32 cs.length ++ cs.flatMap fun c => R.pBytes c.value) := by
  have h := writeEach_emits (f := Commitment.encode R) (k := fun _ => 1)
    (enc := fun c => R.pBytes c.value) cs (fun c _ => c.encode_emits R)
  have hs : (cs.map fun _ => 1).sum = cs.length := by simp
  rw [hs] at h
  exact (writeB_emits _).bind h

theorem Commitment.decode_decodes {R : Ristretto F G} (E : R.Encodings) (c : Commitment F G) :
    (Commitment.decode R).Decodes (R.pBytes c.value) ⟨c.value, 0⟩ := by
  refine (readN_decodes' (E.pBytes_length c.value)).bind_nil ?_
  simp only [E.pOfBytes_pBytes, if_true]
  exact .pure _

theorem Commitment.decodeAll_decodes {R : Ristretto F G} (E : R.Encodings) (cs : List (Commitment F G))
    (h : cs.length < 2 ^ 32) : (Commitment.decodeAll R).Decodes
      (be32 cs.length ++ cs.flatMap fun c => R.pBytes c.value) (cs.map fun c => ⟨c.value, 0⟩) :=
  (readU32_decodes h).bind (readTimes_decodes_map cs fun c _ => Commitment.decode_decodes E c)

theorem Commitment.decode_chunkFree (R : Ristretto F G) : (Commitment.decode R).ChunkFree := by
  refine (readN_chunkFree 32).bind fun b => ?_
  split
  · exact .pure _
  · exact .fail _

theorem Commitment.decodeAll_chunkFree (R : Ristretto F G) : (Commitment.decodeAll R).ChunkFree :=
  readU32_chunkFree.bind fun n => readTimes_chunkFree (Commitment.decode_chunkFree R) n

theorem Commitment.decode_noPanic (R : Ristretto F G) : (Commitment.decode R).NoPanic := by
  refine (readN_noPanic 32).bind fun b => ?_
  split
  · exact .pure _
  · exact .fail _

theorem Commitment.decodeAll_noPanic (R : Ristretto F G) : (Commitment.decodeAll R).NoPanic :=
  readU32_noPanic.bind fun n => readTimes_noPanic (Commitment.decode_noPanic R) n

end Dusk
