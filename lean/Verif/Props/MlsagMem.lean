import Verif.Model.MlsagMem
import Verif.Props.MlsagDual
import Verif.Props.Shuffle
/-!
# Sharing of key vectors and rings in package mlsag (C81, C82)
-/

set_option linter.unusedSectionVars false

namespace Dusk.MlsagMem

open Dusk.Mlsag

variable {F G : Type} [Field F] [AddCommGroup G] [Module F G]

/-! ## Slices -/

/-- A slice does not exceed its array. -/
def Valid {α : Type} (m : Store α) (s : Slice) : Prop := s.len ≤ (arrOf m s).length

theorem read_length {α : Type} {m : Store α} {s : Slice} (h : Valid m s) : (read m s).length = s.len := by
  unfold read Valid at *
  rw [List.length_take]
  omega

theorem arrOf_write {α : Type} (m : Store α) (s t : Slice) (f : List α → List α) (hf : f [] = []) :
    arrOf (write m s f) t = if t.arr = s.arr then f (arrOf m t) else arrOf m t := by
  unfold arrOf write
  cases hs : s.arr with
  | none =>
    dsimp only
    split
    · rename_i h
      rw [h]
      simp [hf]
    · rfl
  | some i =>
    dsimp only
    cases ht : t.arr with
    | none => simp
    | some j =>
      simp only [Option.bind_some, Option.some.injEq, List.getElem?_modify]
      by_cases h : i = j
      · subst h
        cases m[i]? <;> simp [hf]
      · rw [if_neg (Ne.symm h)]
        cases m[j]? <;> simp [h]

theorem arrOf_append_new {α : Type} (m : Store α) (a : List α) (t : Slice) (h : t.arr ≠ some m.length) :
    arrOf (m ++ [a]) t = arrOf m t := by
  unfold arrOf
  cases ht : t.arr with
  | none => rfl
  | some j =>
    rw [ht] at h
    simp only [Option.bind_some]
    rw [List.getElem?_append]
    split
    · rfl
    · have h1 : j - m.length ≠ 0 := by
        intro h0
        apply h
        congr 1
        omega
      rw [List.getElem?_eq_none (l := m) (by omega), List.getElem?_eq_none (by simp; omega)]

theorem arrOf_at {α : Type} (m : Store α) (a : List α) (n : Nat) : arrOf (m ++ [a]) ⟨some m.length, n⟩ = a := by
  simp [arrOf]

section
variable {α : Type} (z : α) (spare : Nat → Nat) (m : Store α)

theorem read_append {s : Slice} (h : Valid m s) (x : α) :
    read (append z spare m s x).1 (append z spare m s x).2 = read m s ++ [x] := by
  have hl := read_length h
  unfold append
  split
  · rename_i hlt
    unfold read
    dsimp only
    rw [show arrOf (write m s fun a => a.set s.len x) { s with len := s.len + 1 } = (arrOf m s).set s.len x by
      rw [arrOf_write _ _ _ _ (by simp)]
      simp [arrOf]]
    apply List.ext_getElem?
    intro i
    rw [List.getElem?_take, List.getElem?_set, List.getElem?_append, List.getElem?_take, List.length_take]
    by_cases h1 : i < s.len
    · rw [if_pos (by omega), if_neg (by omega), if_pos (by omega), if_pos h1]
    · by_cases h2 : i = s.len
      · subst h2
        rw [if_pos (by omega), if_pos rfl, if_pos hlt, if_neg (by omega), Nat.min_eq_left (by omega)]
        simp
      · rw [if_neg (by omega), if_neg (by omega), List.getElem?_eq_none]
        simp
        omega
  · dsimp only
    unfold read
    rw [arrOf_at]
    have : (read m s ++ [x]).length = s.len + 1 := by simp [hl]
    dsimp only
    rw [List.take_append_of_le_length (by rw [← this]; rfl), List.take_of_length_le (by rw [← this]; rfl)]

theorem read_append_other {s t : Slice} (ht : Valid m t) (h : t.arr = s.arr → t.len ≤ s.len) (x : α) :
    read (append z spare m s x).1 t = read m t := by
  unfold append
  split
  · unfold read
    dsimp only
    rw [arrOf_write _ _ _ _ (by simp)]
    split
    · rename_i e
      rw [List.take_set_of_le (h e)]
    · rfl
  · dsimp only
    by_cases e : t.arr = some m.length
    · have h0 : arrOf m t = [] := by simp [arrOf, e]
      have : t.len = 0 := by
        unfold Valid at ht
        rw [h0] at ht
        simpa using ht
      simp [read, this]
    · unfold read
      rw [arrOf_append_new _ _ _ e]

theorem valid_append {s : Slice} (h : Valid m s) (x : α) : Valid (append z spare m s x).1 (append z spare m s x).2 := by
  have hl := read_length h
  unfold append Valid
  split
  · rename_i hlt
    dsimp only
    rw [show arrOf (write m s fun a => a.set s.len x) { s with len := s.len + 1 } = (arrOf m s).set s.len x by
      rw [arrOf_write _ _ _ _ (by simp)]
      simp [arrOf]]
    rw [List.length_set]
    omega
  · dsimp only
    rw [arrOf_at]
    simp [hl]

theorem valid_append_other {s t : Slice} (ht : Valid m t) (x : α) : Valid (append z spare m s x).1 t := by
  unfold append Valid at *
  split
  · dsimp only
    rw [arrOf_write _ _ _ _ (by simp)]
    split
    · rw [List.length_set]
      exact ht
    · exact ht
  · dsimp only
    by_cases e : t.arr = some m.length
    · have h0 : arrOf m t = [] := by simp [arrOf, e]
      rw [h0] at ht
      simp at ht
      omega
    · rw [arrOf_append_new _ _ _ e]
      exact ht

end

/-! ## C81: SubCommToZero -/

theorem sub_fold (P : G) : ∀ (ks : List Keys) (pts : Store G),
    (∀ k ∈ ks, 2 ≤ k.keys.len) → ∃ pts', ks.foldl (fun (r : Res (Store G)) k => r.bind fun pts => subKeys P pts k) (.ok pts) = .ok pts' ∧
      ∀ s : Slice, arrOf pts' s = (arrOf pts s).modify 1 fun K => K - (ks.countP fun k => decide (k.keys.arr = s.arr)) • P
  | [], pts, _ => by
    refine ⟨pts, rfl, fun s => ?_⟩
    simp only [List.countP_nil, zero_smul, sub_zero]
    exact (List.modify_id 1 _).symm
  | k :: ks, pts, h => by
    have hk := h k (by simp)
    obtain ⟨pts', h1, h2⟩ := sub_fold P ks (write pts k.keys fun a => a.modify 1 fun K => K - P) fun x hx => h x (by simp [hx])
    refine ⟨pts', ?_, fun s => ?_⟩
    · rw [List.foldl_cons, Res.bind_ok]
      unfold subKeys
      rw [if_neg (by omega)]
      exact h1
    · rw [h2 s, arrOf_write _ _ _ _ (by simp), List.countP_cons]
      by_cases e : s.arr = k.keys.arr
      · rw [if_pos e]
        simp only [e, decide_true, if_true, List.modify_modify_eq]
        congr 1
        funext K
        simp only [Function.comp_apply, add_smul, one_smul]
        abel
      · rw [if_neg e]
        simp only [Ne.symm e, decide_false, Bool.false_eq_true, if_false, add_zero]

theorem sub_panic (P : G) : ∀ (ks : List Keys) (r : Res (Store G)), (r = .panic ∨ ∃ x, r = .ok x) → (∃ k ∈ ks, k.keys.len < 2) →
    ks.foldl (fun (r : Res (Store G)) k => r.bind fun pts => subKeys P pts k) r = .panic
  | [], _, _, h => by simp at h
  | k :: ks, r, hr, h => by
    rw [List.foldl_cons]
    have hp : ∀ ks : List Keys, ks.foldl (fun (r : Res (Store G)) k => r.bind fun pts => subKeys P pts k) .panic = .panic := by
      intro ks
      induction ks with
      | nil => rfl
      | cons a l ih => exact ih
    rcases hr with rfl | ⟨x, rfl⟩
    · exact hp ks
    · rw [Res.bind_ok]
      unfold subKeys
      split
      · exact hp ks
      · rename_i h2
        refine sub_panic P ks _ (.inr ⟨_, rfl⟩) ?_
        obtain ⟨a, ha, h3⟩ := h
        rcases List.mem_cons.1 ha with rfl | ha
        · exact absurd h3 h2
        · exact ⟨a, ha, h3⟩

/-- C81: `SubCommToZero(P)` panics iff some member has fewer than two keys. Otherwise in every array of points, element 1 is
decreased by `n P` where `n` is the number of members of the ring that use this array; nothing else changes. -/
theorem C81_sub (w : World G) (d : MDual F) (P : G) :
    (d.subCommToZero w P = .panic ↔ ∃ k ∈ read w.rings d.proof.matrix, k.keys.len < 2) ∧
    ((∀ k ∈ read w.rings d.proof.matrix, 2 ≤ k.keys.len) → ∃ w', d.subCommToZero w P = .ok w' ∧ w'.rings = w.rings ∧
      ∀ s : Slice, arrOf w'.pts s = (arrOf w.pts s).modify 1 fun K =>
        K - ((read w.rings d.proof.matrix).countP fun k => decide (k.keys.arr = s.arr)) • P) := by
  have h2 : (∀ k ∈ read w.rings d.proof.matrix, 2 ≤ k.keys.len) → ∃ w', d.subCommToZero w P = .ok w' ∧ w'.rings = w.rings ∧
      ∀ s : Slice, arrOf w'.pts s = (arrOf w.pts s).modify 1 fun K =>
        K - ((read w.rings d.proof.matrix).countP fun k => decide (k.keys.arr = s.arr)) • P := by
    intro h
    obtain ⟨pts', h1, h2⟩ := sub_fold P _ w.pts h
    unfold MDual.subCommToZero
    rw [h1, Res.bind_ok]
    exact ⟨_, rfl, rfl, h2⟩
  refine ⟨⟨?_, ?_⟩, h2⟩
  · intro h
    by_contra hc
    push Not at hc
    obtain ⟨w', e, -⟩ := h2 hc
    rw [e] at h
    cases h
  · intro h
    unfold MDual.subCommToZero
    rw [sub_panic P _ _ (.inr ⟨_, rfl⟩) h]
    rfl

theorem read_modify (a : List G) (n : Nat) (f : G → G) : (a.modify 1 f).take n = (a.take n).modify 1 f := by
  apply List.ext_getElem?
  intro i
  simp only [List.getElem?_take, List.getElem?_modify]
  split <;> simp

/-- C81: if no two members of the ring, and not the signer's vector, share an array, then on values `SubCommToZero` is the
subtraction of `P` from the second key of every member (C27). -/
theorem C81_distinct (w : World G) (d : MDual F) (P : G) (hv : ∀ k ∈ read w.rings d.proof.matrix, Valid w.pts k.keys)
    (hnd : ((read w.rings d.proof.matrix).map (·.keys.arr)).Nodup)
    (hs : ∀ k ∈ read w.rings d.proof.matrix, k.keys.arr ≠ d.proof.signer.keys.arr) (w' : World G)
    (h : d.subCommToZero w P = .ok w') : (d.value w).subCommToZero P = .ok (d.value w') := by
  have h2 : ∀ k ∈ read w.rings d.proof.matrix, 2 ≤ k.keys.len := by
    by_contra hc
    push Not at hc
    rw [(C81_sub w d P).1.2 hc] at h
    cases h
  obtain ⟨w1, e1, e2, e3⟩ := (C81_sub w d P).2 h2
  rw [e1] at h
  cases h
  have hc : ∀ k ∈ read w.rings d.proof.matrix,
      ((read w.rings d.proof.matrix).countP fun k' => decide (k'.keys.arr = k.keys.arr)) = 1 := by
    intro k hk
    have : (read w.rings d.proof.matrix).countP (fun k' => decide (k'.keys.arr = k.keys.arr)) =
        ((read w.rings d.proof.matrix).map (·.keys.arr)).count k.keys.arr := by
      rw [List.count, List.countP_map]
      apply List.countP_congr
      intro x _
      simp
    rw [this]
    exact List.count_eq_one_of_mem hnd (List.mem_map.2 ⟨k, hk, rfl⟩)
  have hview : ∀ k ∈ read w.rings d.proof.matrix, (view w k).subSecond P = .ok (view w' k) := by
    intro k hk
    have hl := read_length (hv k hk)
    have h2k := h2 k hk
    unfold PubKeys.subSecond view
    dsimp only
    rw [idx_of_lt (by omega), Res.bind_ok]
    congr 2
    unfold read
    rw [e3, hc k hk, read_modify, one_smul]
    apply List.ext_getElem?
    intro i
    simp only [List.getElem?_set, List.getElem?_modify]
    split
    · rename_i hi
      subst hi
      have : 1 < (List.take k.keys.len (arrOf w.pts k.keys)).length := by
        show 1 < (read w.pts k.keys).length
        omega
      rw [if_pos this, List.getElem?_eq_getElem this]
      rfl
    · simp
  have hmap : ∀ l : List Keys, (∀ k ∈ l, (view w k).subSecond P = .ok (view w' k)) →
      mapRes (PubKeys.subSecond P) (l.map (view w)) = .ok (l.map (view w')) := by
    intro l
    induction l with
    | nil => intro _; rfl
    | cons a l ih =>
      intro hl
      rw [List.map_cons, mapRes, hl a (by simp), Res.bind_ok, ih fun k hk => hl k (by simp [hk]), Res.bind_ok]
      rfl
  have hsig : view w' d.proof.signer = view w d.proof.signer := by
    unfold view read
    rw [e3]
    have : ((read w.rings d.proof.matrix).countP fun k' => decide (k'.keys.arr = d.proof.signer.keys.arr)) = 0 := by
      rw [List.countP_eq_zero]
      intro k hk
      simpa using hs k hk
    rw [this]
    simp only [zero_smul, sub_zero]
    rw [show (fun K : G => K) = id from rfl, List.modify_id]
  unfold DualKey.subCommToZero MDual.value MProof.value
  dsimp only
  unfold ring
  rw [hmap _ hview, Res.bind_ok, hsig, e2]

/-- C81 (violated expectation: the caller's key vectors are not changed): after `AddDecoy(k)`, `SubCommToZero(P)` subtracts
`P` from the second key of the caller's own `k` — once for every time its array is in the ring. -/
theorem C81_caller_violated (g : Growth) (w : World G) (d : MDual F) (k : Keys) (P : G) (hr : Valid w.rings d.proof.matrix)
    (w' : World G)
    (h : ({ d with proof := (d.proof.addDecoy g w k).2 } : MDual F).subCommToZero (d.proof.addDecoy g w k).1 P = .ok w') :
    (view w' k).keys = (view w k).keys.modify 1 fun K =>
      K - (((read w.rings d.proof.matrix).countP fun x => decide (x.keys.arr = k.keys.arr)) + 1) • P := by
  set w1 := (d.proof.addDecoy g w k).1 with hw1
  set d1 : MDual F := { d with proof := (d.proof.addDecoy g w k).2 } with hd1
  have hread : read w1.rings d1.proof.matrix = read w.rings d.proof.matrix ++ [{ k with decoy := true }] :=
    read_append _ _ _ hr _
  have h2 : ∀ x ∈ read w1.rings d1.proof.matrix, 2 ≤ x.keys.len := by
    by_contra hc
    push Not at hc
    rw [(C81_sub w1 d1 P).1.2 hc] at h
    cases h
  obtain ⟨w2, e1, -, e3⟩ := (C81_sub w1 d1 P).2 h2
  rw [e1] at h
  cases h
  unfold view read
  dsimp only
  rw [e3, read_modify]
  rw [hread, List.countP_append]
  simp only [List.countP_singleton, decide_true, if_true]
  rfl

/-- C81 (violated expectation: each member is shifted by `P`): a decoy that was added twice is shifted by `2 P`, in both
places. -/
theorem C81_twice_violated (w : World G) (d : MDual F) (k : Keys) (P : G) (w' : World G)
    (hring : read w.rings d.proof.matrix = [k, k]) (h : d.subCommToZero w P = .ok w') :
    ring w' d.proof.matrix = [⟨k.decoy, (view w k).keys.modify 1 fun K => K - (P + P)⟩,
      ⟨k.decoy, (view w k).keys.modify 1 fun K => K - (P + P)⟩] := by
  have h2 : ∀ x ∈ read w.rings d.proof.matrix, 2 ≤ x.keys.len := by
    by_contra hc
    push Not at hc
    rw [(C81_sub w d P).1.2 hc] at h
    cases h
  obtain ⟨w2, e1, e2, e3⟩ := (C81_sub w d P).2 h2
  rw [e1] at h
  cases h
  have hv : view w' k = ⟨k.decoy, (view w k).keys.modify 1 fun K => K - (P + P)⟩ := by
    unfold view read
    rw [e3, read_modify, hring]
    simp [two_smul, List.countP_cons]
  unfold ring
  rw [e2, hring]
  simp [hv]

/-- C81 (violated expectation: a signature is not changed by later calls): a signature shares its ring with the proof, so
`SubCommToZero(P)` after `Prove` subtracts `P` from the second key of every member of the signature's ring. -/
theorem C81_signature_violated (w : World G) (d : MDual F) (P : G) (s : MSig F) (hs : s.pubKeys = d.proof.matrix)
    (hnd : ((read w.rings d.proof.matrix).map (·.keys.arr)).Nodup) (w' : World G) (h : d.subCommToZero w P = .ok w') :
    (s.value w').pubKeys = (s.value w).pubKeys.map fun k => ⟨k.decoy, k.keys.modify 1 fun K => K - P⟩ := by
  have h2 : ∀ k ∈ read w.rings d.proof.matrix, 2 ≤ k.keys.len := by
    by_contra hc
    push Not at hc
    rw [(C81_sub w d P).1.2 hc] at h
    cases h
  obtain ⟨w1, e1, e2, e3⟩ := (C81_sub w d P).2 h2
  rw [e1] at h
  cases h
  have hc : ∀ k ∈ read w.rings d.proof.matrix,
      ((read w.rings d.proof.matrix).countP fun k' => decide (k'.keys.arr = k.keys.arr)) = 1 := by
    intro k hk
    have : (read w.rings d.proof.matrix).countP (fun k' => decide (k'.keys.arr = k.keys.arr)) =
        ((read w.rings d.proof.matrix).map (·.keys.arr)).count k.keys.arr := by
      rw [List.count, List.countP_map]
      apply List.countP_congr
      intro x _
      simp
    rw [this]
    exact List.count_eq_one_of_mem hnd (List.mem_map.2 ⟨k, hk, rfl⟩)
  unfold MSig.value ring
  dsimp only
  rw [hs, e2, List.map_map]
  apply List.map_congr_left
  intro k hk
  simp only [Function.comp_apply]
  unfold view read
  dsimp only
  rw [e3, hc k hk, read_modify, one_smul]

/-! ## C82: the memory model of `Prove` -/

/-- Slices within their arrays; a member of the ring that shares the signer's array is not longer than the signer's
vector. -/
structure WF (w : World G) (p : MProof F) : Prop where
  matrix : Valid w.rings p.matrix
  members : ∀ k ∈ read w.rings p.matrix, Valid w.pts k.keys ∧ (k.keys.arr = p.signer.keys.arr → k.keys.len ≤ p.signer.keys.len)
  signer : Valid w.pts p.signer.keys

/-- `AddDecoy` on values. -/
theorem WF.addDecoy (g : Growth) {w : World G} {p : MProof F} (h : WF w p) (k : Keys) (hk : Valid w.pts k.keys)
    (hs : k.keys.arr = p.signer.keys.arr → k.keys.len ≤ p.signer.keys.len) :
    (p.addDecoy g w k).2.value (p.addDecoy g w k).1 = (p.value w).addDecoy (view w k) ∧
      WF (p.addDecoy g w k).1 (p.addDecoy g w k).2 := by
  have hread : read (p.addDecoy g w k).1.rings (p.addDecoy g w k).2.matrix = read w.rings p.matrix ++ [{ k with decoy := true }] :=
    read_append _ _ _ h.matrix _
  constructor
  · unfold MProof.value ring
    rw [hread, List.map_append]
    rfl
  · refine ⟨valid_append _ _ _ h.matrix _, ?_, h.signer⟩
    intro x hx
    rw [hread] at hx
    rcases List.mem_append.1 hx with hx | hx
    · exact h.members x hx
    · rw [List.mem_singleton] at hx
      subst hx
      exact ⟨hk, hs⟩

/-- C82: `AddDecoys` on slices refines `AddDecoys` on values; the arrays of points are left alone. -/
theorem C82_decoys (g : Growth) : ∀ (ks : List Keys) {w : World G} {p : MProof F}, WF w p →
    (∀ k ∈ ks, Valid w.pts k.keys ∧ (k.keys.arr = p.signer.keys.arr → k.keys.len ≤ p.signer.keys.len)) →
    (p.addDecoys g w ks).2.value (p.addDecoys g w ks).1 = (p.value w).addDecoys (ks.map (view w)) ∧
      WF (p.addDecoys g w ks).1 (p.addDecoys g w ks).2 ∧ (p.addDecoys g w ks).1.pts = w.pts
  | [], w, p, h, _ => ⟨rfl, h, rfl⟩
  | k :: ks, w, p, h, hk => by
    obtain ⟨h1, h2⟩ := h.addDecoy g k (hk k (by simp)).1 (hk k (by simp)).2
    have e : (p.addDecoy g w k).1.pts = w.pts := rfl
    obtain ⟨i1, i2, i3⟩ := C82_decoys g ks h2 fun x hx => hk x (by simp [hx])
    refine ⟨?_, i2, i3⟩
    have hv : ks.map (view (p.addDecoy g w k).1) = ks.map (view w) := rfl
    rw [hv, h1] at i1
    exact i1

theorem WF.addSecret (R : Ristretto F G) (g : Growth) {w : World G} {p : MProof F} (h : WF w p) (x : F) :
    (p.addSecret R g w x).2.value (p.addSecret R g w x).1 = (p.value w).addSecret R x ∧
      WF (p.addSecret R g w x).1 (p.addSecret R g w x).2 ∧ (p.addSecret R g w x).1.rings = w.rings ∧
      (p.addSecret R g w x).2.matrix = p.matrix ∧ ring (p.addSecret R g w x).1 p.matrix = ring w p.matrix := by
  have hring : ring (p.addSecret R g w x).1 p.matrix = ring w p.matrix := by
    unfold ring
    apply List.map_congr_left
    intro k hk
    obtain ⟨h1, h2⟩ := h.members k hk
    unfold view
    rw [show read (p.addSecret R g w x).1.pts k.keys = read w.pts k.keys from read_append_other _ _ _ h1 h2 _]
  refine ⟨?_, ⟨h.matrix, ?_, valid_append _ _ _ h.signer _⟩, rfl, rfl, hring⟩
  · have h1 : view (p.addSecret R g w x).1 (p.addSecret R g w x).2.signer = (view w p.signer).addPubKey (privKeyToPubKey R x) := by
      unfold view PubKeys.addPubKey
      rw [show read (p.addSecret R g w x).1.pts (p.addSecret R g w x).2.signer.keys = read w.pts p.signer.keys ++ [privKeyToPubKey R x]
        from read_append _ _ _ h.signer _]
      rfl
    unfold MProof.value Proof.addSecret
    rw [h1]
    show (⟨_, _, _, ring _ p.matrix, _⟩ : Proof F G) = _
    rw [hring]
    rfl
  · intro k hk
    obtain ⟨h1, h2⟩ := h.members k hk
    refine ⟨valid_append_other _ _ _ h1 _, ?_⟩
    intro e
    show k.keys.len ≤ (append 0 g.pts w.pts p.signer.keys (privKeyToPubKey R x)).2.len
    have e : k.keys.arr = (append 0 g.pts w.pts p.signer.keys (privKeyToPubKey R x)).2.arr := e
    unfold append at e ⊢
    split at e
    · rename_i hlt
      rw [if_pos hlt]
      have := h2 e
      dsimp only
      omega
    · rename_i hlt
      rw [if_neg hlt]
      dsimp only at e ⊢
      have h0 : arrOf w.pts k.keys = [] := by simp [arrOf, e]
      unfold Valid at h1
      rw [h0] at h1
      simp at h1
      omega

/-- The ring after `addSignerPubKey`. -/
theorem WF.addSigner (g : Growth) {w : World G} {p : MProof F} (h : WF w p) :
    (p.addSignerPubKey g w).2.value (p.addSignerPubKey g w).1 = (p.value w).addSignerPubKey ∧
      WF (p.addSignerPubKey g w).1 (p.addSignerPubKey g w).2 ∧
      read (p.addSignerPubKey g w).1.rings (p.addSignerPubKey g w).2.matrix = read w.rings p.matrix ++ [{ p.signer with decoy := false }] := by
  have hread : read (p.addSignerPubKey g w).1.rings (p.addSignerPubKey g w).2.matrix =
      read w.rings p.matrix ++ [{ p.signer with decoy := false }] := read_append _ _ _ h.matrix _
  refine ⟨?_, ⟨valid_append _ _ _ h.matrix _, ?_, h.signer⟩, hread⟩
  · unfold MProof.value ring
    rw [hread, List.map_append]
    rfl
  · intro x hx
    rw [hread] at hx
    rcases List.mem_append.1 hx with hx | hx
    · exact h.members x hx
    · rw [List.mem_singleton] at hx
      subst hx
      exact ⟨h.signer, fun _ => le_rfl⟩

theorem shuffleLoop_nil {α : Type} (s : Nat → Nat) (n : Nat) : shuffleLoop s n ([] : List α) = [] :=
  List.perm_nil.1 (shuffleLoop_perm s n [])

theorem arr_shuffle (w : World G) (p : MProof F) (s : Nat → Nat) (t : Slice) :
    arrOf (p.shuffleSet w s).1.rings t = if t.arr = p.matrix.arr then
      shuffleLoop s (p.matrix.len - 1) ((arrOf w.rings t).take p.matrix.len) ++ (arrOf w.rings t).drop p.matrix.len
      else arrOf w.rings t := by
  have h : (p.shuffleSet w s).1.rings = write w.rings p.matrix
      (fun a => shuffleLoop s (p.matrix.len - 1) (a.take p.matrix.len) ++ a.drop p.matrix.len) := by
    unfold MProof.shuffleSet
    dsimp only
    split <;> rfl
  rw [h, arrOf_write _ _ _ _ (by simp [shuffleLoop_nil])]

theorem matrix_shuffle (w : World G) (p : MProof F) (s : Nat → Nat) : (p.shuffleSet w s).2.1.matrix = p.matrix := by
  unfold MProof.shuffleSet
  dsimp only
  split <;> rfl

theorem pts_shuffle (w : World G) (p : MProof F) (s : Nat → Nat) : (p.shuffleSet w s).1.pts = w.pts := by
  unfold MProof.shuffleSet
  dsimp only
  split <;> rfl

theorem signer_shuffle (w : World G) (p : MProof F) (s : Nat → Nat) : (p.shuffleSet w s).2.1.signer = p.signer := by
  unfold MProof.shuffleSet
  dsimp only
  split <;> rfl

theorem read_shuffle {w : World G} {p : MProof F} (h : Valid w.rings p.matrix) (s : Nat → Nat) :
    read (p.shuffleSet w s).1.rings p.matrix = shuffleLoop s (p.matrix.len - 1) (read w.rings p.matrix) := by
  unfold read
  rw [arr_shuffle, if_pos rfl]
  have hl : (shuffleLoop s (p.matrix.len - 1) (List.take p.matrix.len (arrOf w.rings p.matrix))).length = p.matrix.len := by
    rw [shuffleLoop_length]
    exact read_length h
  rw [List.take_append_of_le_length (by omega), List.take_of_length_le (by omega)]

theorem WF.shuffle {w : World G} {p : MProof F} (h : WF w p) (s : Nat → Nat) :
    (p.shuffleSet w s).2.1.value (p.shuffleSet w s).1 = ((p.value w).shuffleSet s).1 ∧
      (p.shuffleSet w s).2.2 = ((p.value w).shuffleSet s).2 ∧ WF (p.shuffleSet w s).1 (p.shuffleSet w s).2.1 := by
  have hread := read_shuffle h.matrix s
  have hring : ring (p.shuffleSet w s).1 p.matrix = shuffleLoop s ((ring w p.matrix).length - 1) (ring w p.matrix) := by
    unfold ring
    rw [hread, List.length_map, read_length h.matrix, shuffleLoop_map]
    apply List.map_congr_left
    intro k _
    unfold view
    rw [pts_shuffle]
  have hfind : (shuffleLoop s ((ring w p.matrix).length - 1) (ring w p.matrix)).findIdx? (fun k => !k.decoy) =
      (read (p.shuffleSet w s).1.rings p.matrix).findIdx? (fun k => !k.decoy) := by
    rw [← hring]
    unfold ring
    rw [List.findIdx?_map]
    rfl
  have hw : (p.shuffleSet w s).1.rings = write w.rings p.matrix
      (fun a => shuffleLoop s (p.matrix.len - 1) (a.take p.matrix.len) ++ a.drop p.matrix.len) := by
    unfold MProof.shuffleSet
    dsimp only
    split <;> rfl
  have hsig : view (p.shuffleSet w s).1 p.signer = view w p.signer := by
    unfold view
    rw [pts_shuffle]
  have main : (p.shuffleSet w s).2.1.value (p.shuffleSet w s).1 = ((p.value w).shuffleSet s).1 ∧
      (p.shuffleSet w s).2.2 = ((p.value w).shuffleSet s).2 := by
    have key : (p.value w).shuffleSet s =
        match (read (p.shuffleSet w s).1.rings p.matrix).findIdx? (fun k => !k.decoy) with
        | some i => ({ p.value w with matrix := ring (p.shuffleSet w s).1 p.matrix, index := i }, .ok ())
        | none => ({ p.value w with matrix := ring (p.shuffleSet w s).1 p.matrix },
            .err "could not find the index of the non-decoy vector of pubkeys") := by
      rw [← hfind, hring]
      rfl
    have key2 : (p.shuffleSet w s).2 =
        match (read (p.shuffleSet w s).1.rings p.matrix).findIdx? (fun k => !k.decoy) with
        | some i => ({ p with index := i }, .ok ())
        | none => (p, .err "could not find the index of the non-decoy vector of pubkeys") := by
      rw [hw]
      unfold MProof.shuffleSet
      dsimp only
      split <;> rename_i h1 <;> rw [h1]
    rw [key, key2]
    unfold MProof.value
    split
    · dsimp only
      rw [hsig]
      exact ⟨rfl, rfl⟩
    · dsimp only
      rw [hsig]
      exact ⟨rfl, rfl⟩
  refine ⟨main.1, main.2, ?_, ?_, ?_⟩
  · unfold Valid
    rw [matrix_shuffle, arr_shuffle, if_pos rfl, List.length_append, shuffleLoop_length, ← List.length_append, List.take_append_drop]
    exact h.matrix
  · intro k hk
    rw [matrix_shuffle, hread, (shuffleLoop_perm _ _ _).mem_iff] at hk
    rw [signer_shuffle, pts_shuffle]
    exact h.members k hk
  · rw [signer_shuffle, pts_shuffle]
    exact h.signer

/-- The value of a result of `prove`. -/
def resValue {α : Type} (w : World G) (r : Res (MSig F × α)) : Res (Signature F G × α) :=
  r.bind fun x => .ok (x.1.value w, x.2)

theorem prove_fst (R : Ristretto F G) (g : Growth) (w : World G) (p : MProof F) (skip : Bool) (coins : Coins F) :
    (p.prove R g w skip coins).1 = ((p.addSignerPubKey g w).2.shuffleSet (p.addSignerPubKey g w).1 coins.shuffle).1 ∧
    (p.prove R g w skip coins).2.1 = ((p.addSignerPubKey g w).2.shuffleSet (p.addSignerPubKey g w).1 coins.shuffle).2.1 := by
  unfold MProof.prove
  dsimp only
  split
  · split <;> exact ⟨rfl, rfl⟩
  · exact ⟨rfl, rfl⟩
  · exact ⟨rfl, rfl⟩

theorem sign_ring (R : Ristretto F G) (p : Proof F G) (skip : Bool) (coins : Coins F) (x : Signature F G × List G)
    (h : p.sign R skip coins = .ok x) : x.1.pubKeys = p.matrix := by
  unfold Proof.sign at h
  obtain ⟨_, _, h⟩ := Res.bind_eq_ok.1 h
  obtain ⟨_, _, h⟩ := Res.bind_eq_ok.1 h
  obtain ⟨_, _, h⟩ := Res.bind_eq_ok.1 h
  obtain ⟨_, _, h⟩ := Res.bind_eq_ok.1 h
  obtain ⟨_, _, h⟩ := Res.bind_eq_ok.1 h
  obtain ⟨_, _, h⟩ := Res.bind_eq_ok.1 h
  obtain ⟨_, _, h⟩ := Res.bind_eq_ok.1 h
  cases h
  rfl

theorem sign_msg (R : Ristretto F G) (p : Proof F G) (skip : Bool) (coins : Coins F) (x : Signature F G × List G)
    (h : p.sign R skip coins = .ok x) : x.1.msg = p.msg := by
  unfold Proof.sign at h
  obtain ⟨_, _, h⟩ := Res.bind_eq_ok.1 h
  obtain ⟨_, _, h⟩ := Res.bind_eq_ok.1 h
  obtain ⟨_, _, h⟩ := Res.bind_eq_ok.1 h
  obtain ⟨_, _, h⟩ := Res.bind_eq_ok.1 h
  obtain ⟨_, _, h⟩ := Res.bind_eq_ok.1 h
  obtain ⟨_, _, h⟩ := Res.bind_eq_ok.1 h
  obtain ⟨_, _, h⟩ := Res.bind_eq_ok.1 h
  cases h
  rfl

/-- C82: `prove` in memory is `prove` on values, for every growth of the arrays, if the slices are well-formed. -/
theorem WF.prove [DecidableEq F] (R : Ristretto F G) (g : Growth) {w : World G} {p : MProof F} (h : WF w p) (skip : Bool) (coins : Coins F) :
    (p.prove R g w skip coins).2.1.value (p.prove R g w skip coins).1 = ((p.value w).prove R skip coins).1 ∧
      resValue (p.prove R g w skip coins).1 (p.prove R g w skip coins).2.2 = ((p.value w).prove R skip coins).2 ∧
      WF (p.prove R g w skip coins).1 (p.prove R g w skip coins).2.1 ∧
      ∀ s, (p.prove R g w skip coins).2.2 = .ok s → s.1.pubKeys = (p.prove R g w skip coins).2.1.matrix := by
  obtain ⟨a1, a2, a3⟩ := h.addSigner g
  obtain ⟨b1, b2, b3⟩ := a2.shuffle coins.shuffle
  rw [a1] at b1 b2
  obtain ⟨f1, f2⟩ := prove_fst R g w p skip coins
  have hdim : (((p.addSignerPubKey g w).2.shuffleSet (p.addSignerPubKey g w).1 coins.shuffle).2.1.value
      ((p.addSignerPubKey g w).2.shuffleSet (p.addSignerPubKey g w).1 coins.shuffle).1).matrix.any
        (fun k => decide (k.keys.length ≠ ((p.addSignerPubKey g w).2.shuffleSet (p.addSignerPubKey g w).1 coins.shuffle).2.1.privKeys.length)) =
      (read ((p.addSignerPubKey g w).2.shuffleSet (p.addSignerPubKey g w).1 coins.shuffle).1.rings
        ((p.addSignerPubKey g w).2.shuffleSet (p.addSignerPubKey g w).1 coins.shuffle).2.1.matrix).any
        (fun k => decide (k.keys.len ≠ ((p.addSignerPubKey g w).2.shuffleSet (p.addSignerPubKey g w).1 coins.shuffle).2.1.privKeys.length)) := by
    unfold MProof.value ring
    dsimp only
    rw [List.any_map, Bool.eq_iff_iff, List.any_eq_true, List.any_eq_true]
    constructor
    · rintro ⟨k, hk, e⟩
      refine ⟨k, hk, ?_⟩
      simpa [view, read_length (b3.members k hk).1] using e
    · rintro ⟨k, hk, e⟩
      refine ⟨k, hk, ?_⟩
      simpa [view, read_length (b3.members k hk).1] using e
  refine ⟨?_, ?_, by rw [f1, f2]; exact b3, ?_⟩
  · rw [f1, f2, b1, prove_state]
  · rw [f1]
    unfold MProof.prove Proof.prove
    dsimp only
    rw [← b1, ← b2]
    generalize hst : (p.addSignerPubKey g w).2.shuffleSet (p.addSignerPubKey g w).1 coins.shuffle = st at *
    obtain ⟨w1, p1, r1⟩ := st
    cases r1 with
    | ok _ =>
      dsimp only
      rw [show (p1.value w1).privKeys = p1.privKeys from rfl, hdim]
      split
      · rfl
      · dsimp only
        unfold resValue
        cases hs : (p1.value w1).sign R skip coins with
        | ok x =>
          have := sign_ring R _ skip coins x hs
          simp only [Res.bind_ok]
          unfold MSig.value
          dsimp only
          rw [show ring w1 p1.matrix = x.1.pubKeys from this.symm]
        | err e => rfl
        | panic => rfl
    | err e => rfl
    | panic => rfl
  · intro s hs
    rw [f2]
    unfold MProof.prove at hs
    dsimp only at hs
    split at hs
    · split at hs
      · cases hs
      · obtain ⟨x, -, h2⟩ := Res.bind_eq_ok.1 hs
        cases h2
        rfl
    · cases hs
    · cases hs

/-- C82: `DualKey.Prove` in memory is `DualKey.Prove` on values, for every growth of the arrays, if the slices are
well-formed; they stay so, and the ring of the signature is the slice of the proof. -/
theorem C82_refines [DecidableEq F] (R : Ristretto F G) (g : Growth) (w : World G) (d : MDual F) (h : WF w d.proof) (coins : Coins F) :
    (d.prove R g w coins).2.1.value (d.prove R g w coins).1 = ((d.value w).prove R coins).1 ∧
      resValue (d.prove R g w coins).1 (d.prove R g w coins).2.2 = ((d.value w).prove R coins).2 ∧
      WF (d.prove R g w coins).1 (d.prove R g w coins).2.1.proof ∧
      ∀ s, (d.prove R g w coins).2.2 = .ok s → s.1.pubKeys = (d.prove R g w coins).2.1.proof.matrix := by
  unfold MDual.prove DualKey.prove
  by_cases h0 : d.key0 = 0 ∨ d.key1 = 0
  · rw [if_pos h0, if_pos (show (d.value w).key0 = 0 ∨ (d.value w).key1 = 0 from h0)]
    exact ⟨rfl, rfl, h, fun s hs => by cases hs⟩
  · rw [if_neg h0, if_neg (show ¬ ((d.value w).key0 = 0 ∨ (d.value w).key1 = 0) from h0)]
    obtain ⟨a1, a2, -⟩ := h.addSecret R g d.key0
    obtain ⟨b1, b2, -⟩ := a2.addSecret R g d.key1
    obtain ⟨c1, c2, c3, c4⟩ := b2.prove R g true coins
    rw [b1, a1] at c1 c2
    refine ⟨?_, ?_, c3, ?_⟩
    · dsimp only
      unfold MDual.value
      dsimp only
      rw [c1]
    · dsimp only
      rw [show (d.value w).proof = d.proof.value w from rfl, show (d.value w).key0 = d.key0 from rfl,
        show (d.value w).key1 = d.key1 from rfl, ← c2]
      unfold resValue
      cases hq : (MProof.prove R g ((d.proof.addSecret R g w d.key0).2.addSecret R g (d.proof.addSecret R g w d.key0).1 d.key1).1
        ((d.proof.addSecret R g w d.key0).2.addSecret R g (d.proof.addSecret R g w d.key0).1 d.key1).2 true coins).2.2 with
      | ok x =>
        obtain ⟨a, l⟩ := x
        rcases l with _ | ⟨i, _ | ⟨j, l⟩⟩ <;> rfl
      | err e => rfl
      | panic => rfl
    · intro s hs
      dsimp only at hs ⊢
      obtain ⟨x, h1, h2⟩ := Res.bind_eq_ok.1 hs
      rw [← c4 x h1]
      split at h2
      · cases h2; rfl
      · cases h2

/-- C82: no step in memory changes the message, and it is the message of the signature. -/
theorem C82_message [DecidableEq F] (R : Ristretto F G) (g : Growth) (w : World G) (d : MDual F) (coins : Coins F) :
    (d.prove R g w coins).2.1.proof.msg = d.proof.msg ∧ ∀ s, (d.prove R g w coins).2.2 = .ok s → s.1.msg = d.proof.msg := by
  have hs : ∀ (w : World G) (p : MProof F) f, (p.shuffleSet w f).2.1.msg = p.msg := by
    intro w p f
    unfold MProof.shuffleSet
    dsimp only
    split <;> rfl
  have hp : ∀ (w : World G) (p : MProof F), (p.prove R g w true coins).2.1.msg = p.msg ∧
      ∀ s, (p.prove R g w true coins).2.2 = .ok s → s.1.msg = p.msg := by
    intro w p
    refine ⟨?_, ?_⟩
    · rw [(prove_fst R g w p true coins).2, hs]
      rfl
    · intro s h
      unfold MProof.prove at h
      dsimp only at h
      split at h
      · split at h
        · cases h
        · obtain ⟨x, h1, h2⟩ := Res.bind_eq_ok.1 h
          cases h2
          rw [show x.1.msg = _ from sign_msg R _ true coins x h1]
          exact hs _ _ _
      · cases h
      · cases h
  unfold MDual.prove
  split
  · exact ⟨rfl, fun s h => by cases h⟩
  · obtain ⟨h1, h2⟩ := hp ((d.proof.addSecret R g w d.key0).2.addSecret R g (d.proof.addSecret R g w d.key0).1 d.key1).1
      ((d.proof.addSecret R g w d.key0).2.addSecret R g (d.proof.addSecret R g w d.key0).1 d.key1).2
    refine ⟨h1, fun s h => ?_⟩
    obtain ⟨x, h3, h4⟩ := Res.bind_eq_ok.1 h
    split at h4
    · cases h4
      exact h2 x h3
    · cases h4

/-- What `prove` does to the ring slice as it was before. -/
theorem prove_old_ring (R : Ristretto F G) (g : Growth) {w : World G} {p : MProof F} (h : WF w p) (skip : Bool) (coins : Coins F) :
    ring (p.prove R g w skip coins).1 p.matrix =
      if p.matrix.len < (arrOf w.rings p.matrix).length then
        (shuffleLoop coins.shuffle p.matrix.len (ring w p.matrix ++ [⟨false, (view w p.signer).keys⟩])).take p.matrix.len
      else ring w p.matrix := by
  obtain ⟨a1, a2, a3⟩ := h.addSigner g
  rw [(prove_fst R g w p skip coins).1]
  have hview : ∀ k, view ((p.addSignerPubKey g w).2.shuffleSet (p.addSignerPubKey g w).1 coins.shuffle).1 k = view w k := by
    intro k
    unfold view
    rw [pts_shuffle]
    rfl
  unfold ring
  rw [List.map_congr_left fun k _ => hview k]
  split
  · rename_i hlt
    have hm : (p.addSignerPubKey g w).2.matrix = { p.matrix with len := p.matrix.len + 1 } := by
      show (append {} g.rings w.rings p.matrix _).2 = _
      unfold append
      rw [if_pos hlt]
    have hr := read_shuffle a2.matrix coins.shuffle
    rw [a3, hm] at hr
    have hcut : read ((p.addSignerPubKey g w).2.shuffleSet (p.addSignerPubKey g w).1 coins.shuffle).1.rings p.matrix =
        (read ((p.addSignerPubKey g w).2.shuffleSet (p.addSignerPubKey g w).1 coins.shuffle).1.rings
          { p.matrix with len := p.matrix.len + 1 }).take p.matrix.len := by
      unfold read
      rw [List.take_take, Nat.min_eq_left (show p.matrix.len ≤ p.matrix.len + 1 by omega)]
      rfl
    rw [hcut, hr, List.map_take, ← shuffleLoop_map, List.map_append]
    rfl
  · rename_i hlt
    congr 1
    have hm : (p.addSignerPubKey g w).2.matrix = ⟨some w.rings.length, p.matrix.len + 1⟩ := by
      show (append {} g.rings w.rings p.matrix _).2 = _
      unfold append
      rw [if_neg hlt]
    by_cases e : p.matrix.arr = some w.rings.length
    · have h0 : arrOf w.rings p.matrix = [] := by simp [arrOf, e]
      have h1 : p.matrix.len = 0 := by
        have := h.matrix
        unfold Valid at this
        rw [h0] at this
        simpa using this
      simp [read, h1]
    · unfold read
      rw [arr_shuffle, hm, if_neg e]
      show List.take _ (arrOf (append {} g.rings w.rings p.matrix _).1 p.matrix) = _
      unfold append
      rw [if_neg hlt, arrOf_append_new _ _ _ e]

/-- `DualKey.Prove` with non-zero keys, seen through the ring slice as it was before. -/
theorem dual_old_ring [DecidableEq F] (R : Ristretto F G) (g : Growth) (w : World G) (d : MDual F) (h : WF w d.proof) (coins : Coins F)
    (h0 : d.key0 ≠ 0) (h1 : d.key1 ≠ 0) :
    ring (d.prove R g w coins).1 d.proof.matrix =
      if d.proof.matrix.len < (arrOf w.rings d.proof.matrix).length then
        (shuffleLoop coins.shuffle d.proof.matrix.len (ring w d.proof.matrix ++
          [⟨false, (view w d.proof.signer).keys ++ [d.key0 • R.base, d.key1 • R.base]⟩])).take d.proof.matrix.len
      else ring w d.proof.matrix := by
  obtain ⟨a1, a2, a3, a4, a5⟩ := h.addSecret R g d.key0
  obtain ⟨b1, b2, b3, b4, b5⟩ := a2.addSecret R g d.key1
  have := prove_old_ring R g b2 true coins
  rw [a4] at b5
  rw [b3, b4, a3, a4, b5, a5] at this
  have hs : (view ((d.proof.addSecret R g w d.key0).2.addSecret R g (d.proof.addSecret R g w d.key0).1 d.key1).1
      ((d.proof.addSecret R g w d.key0).2.addSecret R g (d.proof.addSecret R g w d.key0).1 d.key1).2.signer).keys =
      (view w d.proof.signer).keys ++ [d.key0 • R.base, d.key1 • R.base] := by
    have e := congrArg (fun q : Proof F G => q.signer.keys) b1
    rw [a1] at e
    refine Eq.trans e ?_
    simp [Proof.addSecret, PubKeys.addPubKey, privKeyToPubKey, MProof.value]
  rw [hs] at this
  unfold MDual.prove
  rw [if_neg (by tauto)]
  exact this

/-- C82: if the array of the ring is full, a later `Prove` does not change the ring of a signature made before. -/
theorem C82_full [DecidableEq F] (R : Ristretto F G) (g : Growth) (w : World G) (d : MDual F) (h : WF w d.proof) (coins : Coins F)
    (s : MSig F) (hs : s.pubKeys = d.proof.matrix) (hfull : (arrOf w.rings d.proof.matrix).length = d.proof.matrix.len) :
    s.value (d.prove R g w coins).1 = s.value w := by
  unfold MSig.value
  rw [hs]
  by_cases h0 : d.key0 = 0 ∨ d.key1 = 0
  · unfold MDual.prove
    rw [if_pos h0]
  · push Not at h0
    rw [dual_old_ring R g w d h coins h0.1 h0.2, if_neg (by omega)]

/-- C82 (violated expectation: a signature is not changed by later calls): if the array of the ring has room for another
member, a second `Prove` — which returns an error — adds the signer's vector, now with all keys twice, in place and shuffles
the array: the ring of the first signature is then the beginning of the shuffled ring. -/
theorem C82_second_violated [DecidableEq F] (R : Ristretto F G) (g : Growth) (w : World G) (d : MDual F) (h : WF w d.proof)
    (coins : Coins F) (h0 : d.key0 ≠ 0) (h1 : d.key1 ≠ 0) (hspent : Spent (d.value w)) (s : MSig F) (hs : s.pubKeys = d.proof.matrix)
    (hroom : d.proof.matrix.len < (arrOf w.rings d.proof.matrix).length) :
    (d.prove R g w coins).2.2.IsErr ∧ (s.value (d.prove R g w coins).1).pubKeys =
      (shuffleLoop coins.shuffle (s.value w).pubKeys.length ((s.value w).pubKeys ++
        [⟨false, (view w d.proof.signer).keys ++ [d.key0 • R.base, d.key1 • R.base]⟩])).take (s.value w).pubKeys.length := by
  have hl : (ring w d.proof.matrix).length = d.proof.matrix.len := by
    unfold ring
    rw [List.length_map, read_length h.matrix]
  constructor
  · have e := (C82_refines R g w d h coins).2.1
    have := (hspent.prove R (d.value w) coins).1
    rw [← e] at this
    unfold resValue at this
    cases hq : (d.prove R g w coins).2.2 with
    | ok x =>
      rw [hq] at this
      simp [Res.IsErr] at this
    | err e => exact Res.isErr_err _
    | panic =>
      rw [hq] at this
      simp [Res.IsErr, Res.bind] at this
  · unfold MSig.value
    dsimp only
    rw [hs, dual_old_ring R g w d h coins h0 h1, if_pos hroom, hl]

/-- C82: the room in the array of the ring after a `Prove` with non-zero keys: what is left of the room before, or what the
runtime gave to the new array. -/
theorem C82_room [DecidableEq F] (R : Ristretto F G) (g : Growth) (w : World G) (d : MDual F) (h : WF w d.proof)
    (coins : Coins F) (h0 : d.key0 ≠ 0) (h1 : d.key1 ≠ 0) :
    (d.prove R g w coins).2.1.proof.matrix.len = d.proof.matrix.len + 1 ∧
    (arrOf (d.prove R g w coins).1.rings (d.prove R g w coins).2.1.proof.matrix).length =
      if d.proof.matrix.len < (arrOf w.rings d.proof.matrix).length then (arrOf w.rings d.proof.matrix).length
      else d.proof.matrix.len + 1 + g.rings d.proof.matrix.len := by
  have hl := read_length h.matrix
  unfold MDual.prove
  rw [if_neg (by tauto)]
  dsimp only
  rw [(prove_fst _ _ _ _ _ _).1, (prove_fst _ _ _ _ _ _).2, matrix_shuffle, arr_shuffle, if_pos rfl, List.length_append, shuffleLoop_length,
    ← List.length_append, List.take_append_drop]
  show (append _ g.rings w.rings d.proof.matrix _).2.len = _ ∧ (arrOf (append _ g.rings w.rings d.proof.matrix _).1
    (append _ g.rings w.rings d.proof.matrix _).2).length = _
  unfold append
  split
  · refine ⟨rfl, ?_⟩
    dsimp only
    rw [arrOf_write _ _ _ _ (by simp), if_pos rfl, List.length_set]
    rfl
  · refine ⟨rfl, ?_⟩
    dsimp only
    rw [arrOf_at]
    simp only [List.length_append, hl, List.length_singleton, List.length_replicate]

/-- The last of `k + 1` elements goes to `signerPosition`. -/
theorem shuffle_last {α : Type} (s : Nat → Nat) (l : List α) (x : α) :
    (shuffleLoop s l.length (l ++ [x]))[signerPosition s l.length]? = some x := by
  have hrange : l ++ [x] = (List.range (l.length + 1)).map fun i => (l ++ [x]).getD i x := by
    apply List.ext_getElem
    · simp
    · intro i g1 g2
      simp only [List.getElem_map, List.getElem_range]
      rw [List.getD_eq_getElem?_getD, List.getElem?_eq_getElem g1, Option.getD_some]
  rw [hrange, shuffleLoop_map, List.getElem?_map]
  unfold signerPosition
  have hmem : l.length ∈ shuffleLoop s l.length (List.range (l.length + 1)) := (shuffleLoop_perm _ _ _).mem_iff.2 (by simp)
  have hlt : (shuffleLoop s l.length (List.range (l.length + 1))).findIdx (· == l.length) <
      (shuffleLoop s l.length (List.range (l.length + 1))).length := List.findIdx_lt_length_of_exists ⟨_, hmem, by simp⟩
  have hval := List.findIdx_getElem (w := hlt)
  rw [List.getElem?_eq_getElem hlt, beq_iff_eq.1 hval]
  simp [List.getD_eq_getElem?_getD]

theorem signerPosition_le (s : Nat → Nat) (k : Nat) : signerPosition s k ≤ k := by
  unfold signerPosition
  have hmem : k ∈ shuffleLoop s k (List.range (k + 1)) := (shuffleLoop_perm _ _ _).mem_iff.2 (by simp)
  have hlt : (shuffleLoop s k (List.range (k + 1))).findIdx (· == k) < (shuffleLoop s k (List.range (k + 1))).length :=
    List.findIdx_lt_length_of_exists ⟨_, hmem, by simp⟩
  rw [shuffleLoop_length, List.length_range] at hlt
  omega

/-- C82 (violated expectation: a valid signature stays valid): a first `Prove` returns a signature that verifies; after a
second `Prove` on the same `DualKey`, if the array of the ring had room and the second shuffle does not leave the signer last,
verifying that same first signature panics. -/
theorem C82_panic_violated [DecidableEq F] (R : Ristretto F G) (g : Growth) (w : World G) (d : MDual F) (hw : WF w d.proof)
    (hf : Fresh (d.value w)) (h0 : d.key0 ≠ 0) (h1 : d.key1 ≠ 0) (hm : ring w d.proof.matrix ≠ [])
    (h2 : ∀ k ∈ ring w d.proof.matrix, k.keys.length = 2) (coins coins' : Coins F) :
    ∃ s im, (d.prove R g w coins).2.2 = .ok (s, im) ∧ (s.value (d.prove R g w coins).1).verify R [im] = .ok true ∧
      (s.pubKeys.len < (arrOf (d.prove R g w coins).1.rings s.pubKeys).length →
        signerPosition coins'.shuffle ((ring w d.proof.matrix).length + 1) ≠ (ring w d.proof.matrix).length + 1 →
        (s.value ((d.prove R g w coins).2.1.prove R g (d.prove R g w coins).1 coins').1).verify R [im] = .panic) := by
  obtain ⟨c1, c2, c3, c4⟩ := C82_refines R g w d hw coins
  -- the first signature
  have e1 : (loaded R (d.value w)).privKeys = [d.key0, d.key1] := by
    simp [loaded, Proof.addSecret, hf.1]
    exact ⟨rfl, rfl⟩
  have e2 : (loaded R (d.value w)).signer.keys = [d.key0 • R.base, d.key1 • R.base] := by
    simp [loaded, Proof.addSecret, PubKeys.addPubKey, privKeyToPubKey, hf.2.1]
    exact ⟨rfl, rfl⟩
  obtain ⟨sig, I, g1, g2, -⟩ := prove_gen R (loaded R (d.value w)) true coins (by rw [e1, e2]; rfl)
    (fun k hk => .inl (hf.2.2 k hk)) hm (by rw [e1]; simp) (by rw [e1]; simp) (by rw [e1]; exact h2)
  have hI := g2.images
  rw [e1] at hI
  have hI : I = [image R d.key0] := hI
  subst hI
  have hprove : ((d.value w).prove R coins).2 = .ok (sig, image R d.key0) := by
    unfold DualKey.prove
    rw [if_neg (show ¬ ((d.value w).key0 = 0 ∨ (d.value w).key1 = 0) by
      show ¬ (d.key0 = 0 ∨ d.key1 = 0)
      tauto)]
    simp only
    rw [show ((d.value w).proof.addSecret R (d.value w).key0).addSecret R (d.value w).key1 = loaded R (d.value w) from rfl, g1]
    rfl
  rw [hprove] at c2
  unfold resValue at c2
  obtain ⟨⟨s, im⟩, hq, e⟩ := Res.bind_eq_ok.1 c2
  simp only [Res.ok.injEq, Prod.mk.injEq] at e
  obtain ⟨e, rfl⟩ := e
  refine ⟨s, _, hq, by rw [e]; exact g2.accepted, ?_⟩
  intro hroom hpos
  have hmat := c4 _ hq
  dsimp only at hmat
  set w1 := (d.prove R g w coins).1 with hw1
  set d1 := (d.prove R g w coins).2.1 with hd1
  have hk0 : d1.key0 = d.key0 ∧ d1.key1 = d.key1 := by
    rw [hd1]
    unfold MDual.prove
    split <;> exact ⟨rfl, rfl⟩
  have hspent : Spent (d1.value w1) := by
    rw [c1]
    exact Spent.of_prove R _ coins hf h0 h1
  obtain ⟨-, hring⟩ := C82_second_violated R g w1 d1 c3 coins' (by rw [hk0.1]; exact h0) (by rw [hk0.2]; exact h1) hspent s hmat
    (by rw [← hmat]; exact hroom)
  have hsl : (view w1 d1.proof.signer).keys.length = 2 := by
    have : (d1.value w1).proof.signer.keys = [d.key0 • R.base, d.key1 • R.base] := by
      rw [c1]
      unfold DualKey.prove
      rw [if_neg (show ¬ ((d.value w).key0 = 0 ∨ (d.value w).key1 = 0) by
        show ¬ (d.key0 = 0 ∨ d.key1 = 0)
        tauto)]
      show ((loaded R (d.value w)).prove R true coins).1.signer.keys = _
      rw [prove_state, ← e2]
      unfold Proof.shuffleSet
      dsimp only
      split <;> rfl
    have := congrArg List.length this
    exact this
  have hn : (s.value w1).pubKeys.length = (ring w d.proof.matrix).length + 1 := by
    rw [e, g2.ring, g2.perm.length_eq]
    simp only [List.length_append, List.length_singleton]
    rfl
  have hrl : sig.r.length = (ring w d.proof.matrix).length + 1 := by
    rw [g2.lenR, ← g2.ring, ← e, hn]
  rw [hn] at hring
  set k := (ring w d.proof.matrix).length + 1 with hk
  have hj : signerPosition coins'.shuffle k < k := by
    have := signerPosition_le coins'.shuffle k
    omega
  have hlast := shuffle_last coins'.shuffle (s.value w1).pubKeys
    ⟨false, (view w1 d1.proof.signer).keys ++ [d1.key0 • R.base, d1.key1 • R.base]⟩
  rw [hn] at hlast
  set w2 := (d1.prove R g w1 coins').1
  have hat : (s.value w2).pubKeys[signerPosition coins'.shuffle k]? =
      some ⟨false, (view w1 d1.proof.signer).keys ++ [d1.key0 • R.base, d1.key1 • R.base]⟩ := by
    rw [hring, List.getElem?_take, if_pos hj, hlast]
  have hr2 : (s.value w2).r = sig.r := by
    rw [← e]
    rfl
  have hresp : ∀ r, sig.r[signerPosition coins'.shuffle k]? = some r → r.length = 2 := by
    intro r hr
    have hp : (loaded R (d.value w)).privKeys.length = 2 := by rw [e1]; rfl
    by_cases hi : signerPosition coins'.shuffle k = ((loaded R (d.value w)).prove R true coins).1.index
    · obtain ⟨c, hc⟩ := g2.real
      rw [← hi, hr] at hc
      rw [Option.some.inj hc]
      simp [hp]
    · rw [g2.resp _ hi r hr]
      simp [hp]
  rw [C26_panic_iff R _ _ ?_ ?_ (by simp)]
  · rintro ⟨-, hfit⟩
    have hlt : signerPosition coins'.shuffle k < sig.r.length := by omega
    have hmem : ((view w1 d1.proof.signer).keys ++ [d1.key0 • R.base, d1.key1 • R.base], sig.r[signerPosition coins'.shuffle k]) ∈
        ringOf (s.value w2) := by
      unfold ringOf
      rw [hr2, List.mem_iff_getElem?]
      refine ⟨signerPosition coins'.shuffle k, ?_⟩
      rw [List.getElem?_zip_eq_some, List.getElem?_map, hat]
      exact ⟨rfl, List.getElem?_eq_getElem hlt⟩
    have := (hfit _ hmem).1
    rw [hresp _ (List.getElem?_eq_getElem hlt), List.length_append, hsl] at this
    simp at this
  · intro hh
    rw [hh] at hat
    simp at hat
  · rw [hr2]
    intro hh
    rw [hh] at hrl
    simp at hrl

/-! ### The hypotheses are met -/

section
open Toy

/-- Two decoys of two keys each, in an array of rings with room for two more. -/
def exWorld : World K := ⟨[[10, 11], [12, 13]], [[⟨true, ⟨some 0, 2⟩⟩, ⟨true, ⟨some 1, 2⟩⟩, {}, {}]]⟩

def exDual : MDual K := ⟨{ matrix := ⟨some 0, 2⟩, msg := [1, 2] }, 5, 6⟩

theorem exKeys : exDual.key0 ≠ 0 ∧ exDual.key1 ≠ 0 := by
  have h5 : ((5 : ℕ) : K) ≠ 0 ∧ ((6 : ℕ) : K) ≠ 0 := by
    rw [Ne, Ne, ZMod.natCast_eq_zero_iff, ZMod.natCast_eq_zero_iff]
    exact ⟨Nat.not_dvd_of_pos_of_lt (by norm_num) (by norm_num [PrimeEll.ell]),
      Nat.not_dvd_of_pos_of_lt (by norm_num) (by norm_num [PrimeEll.ell])⟩
  exact h5

theorem exWF : WF exWorld exDual.proof := by
  refine ⟨by simp [Valid, arrOf, exDual, exWorld], ?_, by simp [Valid, exDual]⟩
  intro k hk
  have : read exWorld.rings exDual.proof.matrix = [⟨true, ⟨some 0, 2⟩⟩, ⟨true, ⟨some 1, 2⟩⟩] := rfl
  rw [this] at hk
  simp only [List.mem_cons, List.not_mem_nil, or_false] at hk
  rcases hk with rfl | rfl
  · exact ⟨by simp [Valid, arrOf, exWorld], by simp [exDual]⟩
  · exact ⟨by simp [Valid, arrOf, exWorld], by simp [exDual]⟩

/-- Adding the two vectors again: the ring has four members. -/
example (g : Growth) : ((exDual.proof.addDecoys g exWorld [⟨false, ⟨some 0, 2⟩⟩, ⟨false, ⟨some 1, 2⟩⟩]).2.value
    (exDual.proof.addDecoys g exWorld [⟨false, ⟨some 0, 2⟩⟩, ⟨false, ⟨some 1, 2⟩⟩]).1).matrix =
      [⟨true, [10, 11]⟩, ⟨true, [12, 13]⟩, ⟨true, [10, 11]⟩, ⟨true, [12, 13]⟩] := by
  rw [(C82_decoys g _ exWF (by
    intro k hk
    simp only [List.mem_cons, List.not_mem_nil, or_false] at hk
    rcases hk with rfl | rfl
    · exact ⟨by simp [Valid, arrOf, exWorld], by simp [exDual]⟩
    · exact ⟨by simp [Valid, arrOf, exWorld], by simp [exDual]⟩)).1]
  rfl

/-- `SubCommToZero` on the two decoys; a signature on this ring would change with it. -/
example (P : K) (s : MSig K) (hs : s.pubKeys = exDual.proof.matrix) : ∃ w', exDual.subCommToZero exWorld P = .ok w' ∧
    (s.value w').pubKeys = [⟨true, [10, 11 - P]⟩, ⟨true, [12, 13 - P]⟩] := by
  refine ⟨_, rfl, ?_⟩
  rw [C81_signature_violated exWorld exDual P s hs (by decide) _ rfl]
  unfold MSig.value
  rw [hs]
  rfl

example (P : K) : (exDual.value exWorld).subCommToZero P = .ok (exDual.value ⟨[[10, 11 - P], [12, 13 - P]], exWorld.rings⟩) := by
  refine C81_distinct exWorld exDual P (fun k hk => (exWF.members k hk).1) (by decide) ?_ _ rfl
  intro k hk
  have : read exWorld.rings exDual.proof.matrix = [⟨true, ⟨some 0, 2⟩⟩, ⟨true, ⟨some 1, 2⟩⟩] := rfl
  rw [this] at hk
  simp only [List.mem_cons, List.not_mem_nil, or_false] at hk
  rcases hk with rfl | rfl <;> simp [exDual]

/-- A caller's vector `[10, 11]` is `[10, 11 - P]` afterwards. -/
example (g : Growth) (P : K) : ∃ w', ({ exDual with proof := (({ } : MProof K).addDecoy g exWorld ⟨false, ⟨some 0, 2⟩⟩).2 } : MDual K).subCommToZero
    (({ } : MProof K).addDecoy g exWorld ⟨false, ⟨some 0, 2⟩⟩).1 P = .ok w' ∧ (view w' ⟨false, ⟨some 0, 2⟩⟩).keys = [10, 11 - P] :=
  ⟨_, rfl, rfl⟩

example (P : K) : ∃ w', exDual.subCommToZero exWorld P = .ok w' ∧ w'.pts = [[10, 11 - P], [12, 13 - P]] := ⟨_, rfl, rfl⟩

/-- The message of a proof with the message `[7, 7]` is in its signature. -/
example (coins : Coins K) : ∃ s im, (MDual.prove ris ⟨fun _ => 0, fun _ => 0⟩ exWorld
    { exDual with proof := { exDual.proof with msg := [7, 7] } } coins).2.2 = .ok (s, im) ∧ s.msg = [7, 7] := by
  have hring : ring exWorld exDual.proof.matrix = [⟨true, [10, 11]⟩, ⟨true, [12, 13]⟩] := rfl
  obtain ⟨s, im, h1, -⟩ := C82_panic_violated ris ⟨fun _ => 0, fun _ => 0⟩ exWorld { exDual with proof := { exDual.proof with msg := [7, 7] } }
    ⟨exWF.matrix, exWF.members, exWF.signer⟩
    ⟨rfl, rfl, by intro k hk; change k ∈ ring exWorld exDual.proof.matrix at hk; rw [hring] at hk; simp at hk; rcases hk with rfl | rfl <;> rfl⟩
    exKeys.1 exKeys.2 (by change ring exWorld exDual.proof.matrix ≠ []; rw [hring]; simp)
    (by change ∀ k ∈ ring exWorld exDual.proof.matrix, _; rw [hring]; simp) coins coins
  exact ⟨s, im, h1, (C82_message ris _ exWorld _ coins).2 _ h1⟩

/-- Verifying the first signature panics after the second `Prove`. -/
example (coins coins' : Coins K) (hc : coins'.shuffle = fun _ => 0) :
    ∃ s im, (exDual.prove ris ⟨fun _ => 0, fun _ => 0⟩ exWorld coins).2.2 = .ok (s, im) ∧
      (s.value (exDual.prove ris ⟨fun _ => 0, fun _ => 0⟩ exWorld coins).1).verify ris [im] = .ok true ∧
      (s.value ((exDual.prove ris ⟨fun _ => 0, fun _ => 0⟩ exWorld coins).2.1.prove ris ⟨fun _ => 0, fun _ => 0⟩
        (exDual.prove ris ⟨fun _ => 0, fun _ => 0⟩ exWorld coins).1 coins').1).verify ris [im] = .panic := by
  have hring : ring exWorld exDual.proof.matrix = [⟨true, [10, 11]⟩, ⟨true, [12, 13]⟩] := rfl
  obtain ⟨s, im, h1, h2, h3⟩ := C82_panic_violated ris ⟨fun _ => 0, fun _ => 0⟩ exWorld exDual exWF
    ⟨rfl, rfl, by intro k hk; change k ∈ ring exWorld exDual.proof.matrix at hk; rw [hring] at hk; simp at hk; rcases hk with rfl | rfl <;> rfl⟩
    exKeys.1 exKeys.2 (by rw [hring]; simp) (by rw [hring]; simp) coins coins'
  refine ⟨s, im, h1, h2, h3 ?_ ?_⟩
  · obtain ⟨r1, r2⟩ := C82_room ris ⟨fun _ => 0, fun _ => 0⟩ exWorld exDual exWF coins exKeys.1 exKeys.2
    rw [(C82_refines ris _ exWorld exDual exWF coins).2.2.2 _ h1, r1, r2]
    decide
  · rw [hring, hc]
    decide

end

end Dusk.MlsagMem
