import Verif.Lemmas.Mlsag
/-!
# Properties of MLSAG signatures (C14 – C17, C25 – C28)
-/

set_option linter.unusedSectionVars false

namespace Dusk.Mlsag

variable {F G : Type} [Field F] [AddCommGroup G] [Module F G]

/-! ## Building a proof with the API -/

/-- A call of the API before proving. -/
inductive Op (F G : Type) where
  | decoy (k : PubKeys G)
  | secret (x : F)

/-- The effect of a call. -/
def Op.apply (R : Ristretto F G) (p : Proof F G) : Op F G → Proof F G
  | .decoy k => p.addDecoy k
  | .secret x => p.addSecret R x

/-- A proof built from nothing by any sequence of `AddDecoy` and `AddSecret` calls. -/
def build (R : Ristretto F G) (msg : Bytes) (ops : List (Op F G)) : Proof F G :=
  ops.foldl (Op.apply R) { msg := msg }

/-- The secrets added, in order. -/
def secrets : List (Op F G) → List F
  | [] => []
  | .decoy _ :: l => secrets l
  | .secret x :: l => x :: secrets l

/-- The key vectors of the decoys added, in order. -/
def decoys : List (Op F G) → List (List G)
  | [] => []
  | .decoy k :: l => k.keys :: decoys l
  | .secret _ :: l => decoys l

theorem foldl_ops (R : Ristretto F G) : ∀ (ops : List (Op F G)) (p : Proof F G),
    let q := ops.foldl (Op.apply R) p
    q.privKeys = p.privKeys ++ secrets ops ∧ q.signer.keys = p.signer.keys ++ (secrets ops).map (· • R.base) ∧
    q.matrix = p.matrix ++ (decoys ops).map (fun k => ⟨true, k⟩) ∧ q.msg = p.msg
  | [], p => by simp [secrets, decoys]
  | .decoy k :: l, p => by
    have := foldl_ops R l (p.addDecoy k)
    simpa [secrets, decoys, Op.apply, Proof.addDecoy, Proof.addPubKeys] using this
  | .secret x :: l, p => by
    have := foldl_ops R l (p.addSecret R x)
    simpa [secrets, decoys, Op.apply, Proof.addSecret, PubKeys.addPubKey, privKeyToPubKey] using this

theorem build_eq (R : Ristretto F G) (msg : Bytes) (ops : List (Op F G)) :
    (build R msg ops).privKeys = secrets ops ∧ (build R msg ops).signer.keys = (secrets ops).map (· • R.base) ∧
    (build R msg ops).matrix = (decoys ops).map (fun k => ⟨true, k⟩) ∧ (build R msg ops).msg = msg := by
  simpa [build] using foldl_ops R ops { msg := msg }

/-- `AddDecoys` is a sequence of `AddDecoy` calls. -/
theorem addDecoys_eq (R : Ristretto F G) (p : Proof F G) (ks : List (PubKeys G)) :
    p.addDecoys ks = (ks.map Op.decoy).foldl (Op.apply R) p := by
  unfold Proof.addDecoys
  rw [List.foldl_map]
  rfl

/-! ## Shuffling -/

/-- After adding the signer's vector to a ring whose other non-decoys are the same vector, and shuffling, the index is a
position of the signer's vector. -/
theorem shuffleSet_gen (p : Proof F G) (shuffle : Nat → Nat)
    (hd : ∀ k ∈ p.matrix, k.decoy = true ∨ k = ⟨false, p.signer.keys⟩) :
    ∃ (m : List (PubKeys G)) (i : Nat), p.addSignerPubKey.shuffleSet shuffle =
        ({ p with signer := { p.signer with decoy := false }, matrix := m, index := i }, .ok ()) ∧
      m.Perm (p.matrix ++ [(⟨false, p.signer.keys⟩ : PubKeys G)]) ∧ m[i]? = some (⟨false, p.signer.keys⟩ : PubKeys G) := by
  have e : p.addSignerPubKey = { p with signer := { p.signer with decoy := false }, matrix := p.matrix ++ [⟨false, p.signer.keys⟩] } := rfl
  rw [e]
  unfold Proof.shuffleSet
  dsimp only
  have hp := shuffleLoop_perm shuffle ((p.matrix ++ [(⟨false, p.signer.keys⟩ : PubKeys G)]).length - 1)
    (p.matrix ++ [(⟨false, p.signer.keys⟩ : PubKeys G)])
  generalize shuffleLoop shuffle ((p.matrix ++ [(⟨false, p.signer.keys⟩ : PubKeys G)]).length - 1)
    (p.matrix ++ [(⟨false, p.signer.keys⟩ : PubKeys G)]) = m at *
  have hmem : ∀ k ∈ m, k.decoy = false → k = ⟨false, p.signer.keys⟩ := by
    intro k hk hf
    rcases List.mem_append.1 (hp.mem_iff.1 hk) with h | h
    · rcases hd k h with h | h
      · rw [h] at hf; cases hf
      · exact h
    · simpa using h
  have hin : (⟨false, p.signer.keys⟩ : PubKeys G) ∈ m := hp.mem_iff.2 (by simp)
  cases hf : m.findIdx? fun k => !k.decoy with
  | none =>
    rw [List.findIdx?_eq_none_iff] at hf
    have := hf _ hin
    simp at this
  | some i =>
    obtain ⟨hlt, h1, h2⟩ := List.findIdx?_eq_some_iff_getElem.1 hf
    have hi : m[i] = ⟨false, p.signer.keys⟩ := hmem _ (List.getElem_mem _) (by simpa using h1)
    exact ⟨m, i, rfl, hp, by rw [List.getElem?_eq_getElem hlt, hi]⟩

/-- A list with exactly one non-decoy has it at only one position. -/
theorem only_signer (m d : List (PubKeys G)) (K : List G) (hd : ∀ k ∈ d, k.decoy = true) (hp : m.Perm (d ++ [⟨false, K⟩]))
    {i : Nat} (hi : m[i]? = some ⟨false, K⟩) (j : Nat) (hj : j ≠ i) (k : PubKeys G) (hk : m[j]? = some k) : k.decoy = true := by
  by_contra hne
  have hkf : k.decoy = false := by simpa using hne
  obtain ⟨hjl, rfl⟩ := List.getElem?_eq_some_iff.1 hk
  obtain ⟨hil, hi⟩ := List.getElem?_eq_some_iff.1 hi
  have hc : m.countP (fun k => !k.decoy) = 1 := by
    rw [hp.countP_eq, List.countP_append]
    have : d.countP (fun k => !k.decoy) = 0 := by
      rw [List.countP_eq_zero]
      intro k hk
      simp [hd k hk]
    rw [this]
    simp
  have key : ∀ (i j : Nat) (hi : i < m.length) (hj : j < m.length), i < j → m[i].decoy = false → m[j].decoy = false → False := by
    intro i j hil hjl hij h1 h2
    have hsplit : m = m.take j ++ m.drop j := (List.take_append_drop j m).symm
    rw [hsplit, List.countP_append] at hc
    have c1 : 1 ≤ (m.take j).countP (fun k => !k.decoy) := by
      rw [Nat.one_le_iff_ne_zero, Ne, List.countP_eq_zero]
      intro h
      have := h m[i] (List.mem_take_iff_getElem.2 ⟨i, by omega, rfl⟩)
      simp [h1] at this
    have c2 : 1 ≤ (m.drop j).countP (fun k => !k.decoy) := by
      rw [Nat.one_le_iff_ne_zero, Ne, List.countP_eq_zero]
      intro h
      have := h m[j] (List.mem_drop_iff_getElem.2 ⟨0, by simpa using hjl, by simp⟩)
      simp [h2] at this
    omega
  rcases Nat.lt_or_gt_of_ne hj with h | h
  · exact key j i hjl hil h hkf (by rw [hi])
  · exact key i j hil hjl h (by rw [hi]) hkf

/-! ## C17, C26: Verify -/

/-- One step of `Verify`, by position. -/
def slotStep (R : Ristretto F G) (sig : Signature F G) (I : List G) (j : Nat) (c : F) : Res F :=
  (idx sig.r j).bind fun resp => (idx sig.pubKeys j).bind fun keys => generateChallenge R sig.msg resp I keys c

/-- The ring as seen by `Verify`. -/
def ringOf (sig : Signature F G) : List (List G × List F) := (sig.pubKeys.map (·.keys)).zip sig.r

theorem slotStep_noErr (R : Ristretto F G) (sig : Signature F G) (I : List G) (j : Nat) (c : F) :
    NoErr (slotStep R sig I j c) :=
  (NoErr.idx _ _).bind fun _ _ => (NoErr.idx _ _).bind fun _ _ => generateChallenge_noErr _ _ _ _ _ _

theorem slotStep_fits (R : Ristretto F G) (sig : Signature F G) (I : List G) (j : Nat) (c : F) {m : List G × List F}
    (hm : (ringOf sig)[j]? = some m) (hf : m.1.length ≤ m.2.length ∧ I.length ≤ m.1.length) :
    slotStep R sig I j c = .ok (link R sig.msg I m.1 m.2 c) := by
  unfold ringOf at hm
  obtain ⟨h1, rfl⟩ := List.getElem?_eq_some_iff.1 hm
  simp only [List.length_zip, List.length_map] at h1
  simp only [List.getElem_zip, List.getElem_map] at hf ⊢
  unfold slotStep
  rw [idx_of_lt (by omega), Res.bind_ok, idx_of_lt (by omega), Res.bind_ok, generateChallenge_eq _ _ _ _ _ _ hf.1 hf.2]

theorem slotStep_panic (R : Ristretto F G) (sig : Signature F G) (I : List G) (j : Nat) (c : F)
    (h : ∀ m, (ringOf sig)[j]? = some m → ¬ (m.1.length ≤ m.2.length ∧ I.length ≤ m.1.length)) :
    slotStep R sig I j c = .panic := by
  unfold slotStep
  rcases Nat.lt_or_ge j sig.r.length with h1 | h1
  · rw [idx_of_lt h1, Res.bind_ok]
    rcases Nat.lt_or_ge j sig.pubKeys.length with h2 | h2
    · rw [idx_of_lt h2, Res.bind_ok, generateChallenge_panic]
      exact h (sig.pubKeys[j].keys, sig.r[j]) (by simp [ringOf, List.getElem?_zip_eq_some, h1, h2])
    · rw [idx_of_ge h2, Res.bind_panic]
  · rw [idx_of_ge h1, Res.bind_panic]

/-- `Verify` goes once around the ring; with a single member the step is made twice. -/
theorem verify_fold [DecidableEq F] (R : Ristretto F G) (sig : Signature F G) (I : List G) (hp : sig.pubKeys ≠ [])
    (hr : sig.r ≠ []) (hI : I ≠ []) :
    sig.verify R I = ((if sig.r.length = 1 then [0, 0] else List.range sig.r.length).foldl
      (fun (r : Res F) j => r.bind (slotStep R sig I j)) (.ok sig.c)).bind fun c =>
        if c ≠ sig.c then .err "c'0 does not equal c0" else .ok true := by
  have hp := mt List.length_eq_zero_iff.1 hp
  have hr := mt List.length_eq_zero_iff.1 hr
  have hI := mt List.length_eq_zero_iff.1 hI
  unfold Signature.verify
  rw [if_neg (by tauto)]
  dsimp only
  have hbody : ∀ k, sig.verifyBody R I ((k + 1) % sig.r.length) = slotStep R sig I (k % sig.r.length) := by
    intro k
    funext c
    unfold Signature.verifyBody slotStep
    dsimp only
    rw [prevIndex_succ (by omega)]
  have hlast : sig.verifyBody R I 0 = slotStep R sig I (sig.r.length - 1) := by
    have := hbody (sig.r.length - 1)
    rwa [show sig.r.length - 1 + 1 = sig.r.length by omega, Nat.mod_self, Nat.mod_eq_of_lt (by omega)] at this
  rw [Nat.zero_mod]
  by_cases h1 : sig.r.length = 1
  · rw [if_pos h1, h1]
    unfold ringLoop
    rw [if_neg (by norm_num)]
    have e : sig.verifyBody R I (1 % 1) = slotStep R sig I 0 := by
      have := hbody 0
      rw [h1] at this
      exact this
    rw [e]
    have e2 : ringLoop (sig.verifyBody R I) 1 0 1 ((1 + 1) % 1) = .ok := by
      funext s
      rfl
    rw [e2]
    show ((slotStep R sig I 0 sig.c).bind Res.ok).bind _ = ((slotStep R sig I 0 sig.c).bind (slotStep R sig I 0)).bind _
    cases slotStep R sig I 0 sig.c <;> rfl
  · rw [if_neg h1]
    have hf := ringLoop_fold (sig.verifyBody R I) sig.r.length 0 (by omega) (sig.r.length - 1) sig.c (sig.r.length + 1)
      (by omega) (by omega)
    rw [show 0 + sig.r.length - (sig.r.length - 1) = 1 by omega, Nat.mod_eq_of_lt (by omega)] at hf
    rw [hf, hlast]
    have e : List.range sig.r.length = List.range (sig.r.length - 1) ++ [sig.r.length - 1] := by
      rw [← List.range_succ, show (sig.r.length - 1).succ = sig.r.length by omega]
    rw [e, List.foldl_append]
    have e3 : (List.range (sig.r.length - 1)).foldl (fun (r : Res F) j => r.bind (sig.verifyBody R I ((1 + j) % sig.r.length))) (.ok sig.c) =
        (List.range (sig.r.length - 1)).foldl (fun (r : Res F) j => r.bind (slotStep R sig I j)) (.ok sig.c) := by
      apply List.foldl_ext
      intro r j hj
      have := List.mem_range.1 hj
      rw [Nat.add_comm 1 j, hbody, Nat.mod_eq_of_lt (by omega)]
    rw [e3]
    simp only [List.foldl_cons, List.foldl_nil]
    cases (List.range (sig.r.length - 1)).foldl (fun (r : Res F) j => r.bind (slotStep R sig I j)) (.ok sig.c) <;> rfl

theorem fold_ok (R : Ristretto F G) (sig : Signature F G) (I : List G) : ∀ (l : List Nat) (ms : List (List G × List F)) (c : F),
    l.map (fun j => (ringOf sig)[j]?) = ms.map some → Fits I ms →
    l.foldl (fun (r : Res F) j => r.bind (slotStep R sig I j)) (.ok c) = .ok (around R sig.msg I ms c)
  | [], [], _, _, _ => rfl
  | [], _ :: _, _, h, _ => by simp at h
  | _ :: _, [], _, h, _ => by simp at h
  | j :: l, m :: ms, c, h, hf => by
    simp only [List.map_cons, List.cons.injEq] at h
    rw [List.foldl_cons, Res.bind_ok, slotStep_fits R sig I j c h.1 (hf m (by simp)),
      fold_ok R sig I l ms _ h.2 fun x hx => hf x (by simp [hx])]
    rfl

theorem fold_panic (R : Ristretto F G) (sig : Signature F G) (I : List G) : ∀ (l : List Nat) (r : Res F), NoErr r →
    (∃ j ∈ l, ∀ m, (ringOf sig)[j]? = some m → ¬ (m.1.length ≤ m.2.length ∧ I.length ≤ m.1.length)) →
    l.foldl (fun (r : Res F) j => r.bind (slotStep R sig I j)) r = .panic
  | [], _, _, h => by simp at h
  | j :: l, r, hr, ⟨i, hi, h⟩ => by
    rw [List.foldl_cons]
    have hpan : ∀ l : List Nat, l.foldl (fun (r : Res F) j => r.bind (slotStep R sig I j)) .panic = .panic := by
      intro l
      induction l with
      | nil => rfl
      | cons a l ih => exact ih
    rcases List.mem_cons.1 hi with rfl | hi
    · rcases hr with ⟨c, rfl⟩ | rfl
      · rw [Res.bind_ok, slotStep_panic R sig I i c h, hpan]
      · exact hpan l
    · exact fold_panic R sig I l _ (hr.bind fun c _ => slotStep_noErr R sig I j c) ⟨i, hi, h⟩

theorem range_ring (sig : Signature F G) (h : sig.r.length ≤ sig.pubKeys.length) :
    (List.range sig.r.length).map (fun j => (ringOf sig)[j]?) = (ringOf sig).map some := by
  have hl : (ringOf sig).length = sig.r.length := by simp [ringOf]; omega
  apply List.ext_getElem
  · simp [hl]
  · intro i h1 h2
    simp only [List.length_map] at h2
    simp [h2]

/-- C17: for a ring of at least two members with fitting dimensions, `Verify` accepts iff going once around the ring returns
to the challenge `c`; otherwise it returns an error. -/
theorem C17_verify [DecidableEq F] (R : Ristretto F G) (sig : Signature F G) (I : List G) (h2 : 2 ≤ sig.r.length)
    (hlen : sig.r.length ≤ sig.pubKeys.length) (hI : I ≠ []) (hf : Fits I (ringOf sig)) :
    (sig.verify R I = .ok true ↔ around R sig.msg I (ringOf sig) sig.c = sig.c) ∧
    (around R sig.msg I (ringOf sig) sig.c ≠ sig.c → (sig.verify R I).IsErr) := by
  have h := verify_fold R sig I (by rintro h; rw [h, List.length_nil] at hlen; omega) (by rintro h; rw [h, List.length_nil] at h2; omega) hI
  rw [if_neg (by omega), fold_ok R sig I _ _ _ (range_ring sig hlen) hf, Res.bind_ok] at h
  rw [h]
  split
  · rename_i hc; simp [hc]
  · rename_i hc
    rw [not_not] at hc
    simp [hc]

/-- C17: with a single member the step is made twice. -/
theorem C17_single [DecidableEq F] (R : Ristretto F G) (sig : Signature F G) (I : List G) (h1 : sig.r.length = 1)
    (hlen : sig.r.length ≤ sig.pubKeys.length) (hI : I ≠ []) (hf : Fits I (ringOf sig)) :
    sig.verify R I = .ok true ↔ around R sig.msg I (ringOf sig ++ ringOf sig) sig.c = sig.c := by
  have h := verify_fold R sig I (by rintro h; simp [h] at hlen; simp [hlen] at h1) (by rintro h; simp [h] at h1) hI
  have hr := range_ring sig hlen
  rw [if_pos h1, fold_ok R sig I [0, 0] (ringOf sig ++ ringOf sig) _ ?_ (by
    intro m hm
    rcases List.mem_append.1 hm with hm | hm <;> exact hf m hm), Res.bind_ok] at h
  · rw [h]
    split
    · rename_i hc; simp [hc]
    · rename_i hc
      rw [not_not] at hc
      simp [hc]
  · rw [h1] at hr
    rw [List.map_append, ← hr]
    rfl

/-- C17: empty inputs are rejected with an error. -/
theorem C17_empty [DecidableEq F] (R : Ristretto F G) (sig : Signature F G) (I : List G)
    (h : sig.pubKeys = [] ∨ sig.r = [] ∨ I = []) : (sig.verify R I).IsErr := by
  unfold Signature.verify
  rw [if_pos]
  · simp
  · rcases h with h | h | h <;> simp [h]

/-- C26: with non-empty inputs, `Verify` panics exactly when there are fewer key vectors than response vectors or some
member's dimensions do not fit. -/
theorem C26_panic_iff [DecidableEq F] (R : Ristretto F G) (sig : Signature F G) (I : List G) (hp : sig.pubKeys ≠ [])
    (hr : sig.r ≠ []) (hI : I ≠ []) :
    sig.verify R I = .panic ↔ ¬ (sig.r.length ≤ sig.pubKeys.length ∧ Fits I (ringOf sig)) := by
  have hrl := mt List.length_eq_zero_iff.1 hr
  rw [verify_fold R sig I hp hr hI]
  constructor
  · rintro h ⟨hlen, hf⟩
    by_cases h1 : sig.r.length = 1
    · rw [if_pos h1, fold_ok R sig I [0, 0] (ringOf sig ++ ringOf sig) _ ?_ (by
        intro m hm
        rcases List.mem_append.1 hm with hm | hm <;> exact hf m hm), Res.bind_ok] at h
      · split at h <;> cases h
      · have hr := range_ring sig hlen
        rw [h1] at hr
        rw [List.map_append, ← hr]
        rfl
    · rw [if_neg h1, fold_ok R sig I _ _ _ (range_ring sig hlen) hf, Res.bind_ok] at h
      split at h <;> cases h
  · intro h
    have hbad : ∃ j < sig.r.length, ∀ m, (ringOf sig)[j]? = some m → ¬ (m.1.length ≤ m.2.length ∧ I.length ≤ m.1.length) := by
      rcases Nat.lt_or_ge sig.pubKeys.length sig.r.length with h1 | h1
      · refine ⟨sig.pubKeys.length, h1, fun m hm => ?_⟩
        obtain ⟨hl, -⟩ := List.getElem?_eq_some_iff.1 hm
        simp [ringOf] at hl
      · have hf : ¬ Fits I (ringOf sig) := fun hf => h ⟨h1, hf⟩
        unfold Fits at hf
        push Not at hf
        obtain ⟨m, hm, hm2⟩ := hf
        obtain ⟨j, hj, rfl⟩ := List.mem_iff_getElem.1 hm
        have hl : (ringOf sig).length = sig.r.length := by simp [ringOf]; omega
        refine ⟨j, by omega, fun m' hm' => ?_⟩
        rw [List.getElem?_eq_getElem hj] at hm'
        cases hm'
        rintro ⟨a, b⟩
        have := hm2 a
        omega
    rw [fold_panic R sig I _ _ (NoErr.ok _) ?_, Res.bind_panic]
    obtain ⟨j, hj, hb⟩ := hbad
    refine ⟨j, ?_, hb⟩
    split
    · have : j = 0 := by omega
      simp [this]
    · simpa using hj

/-! ## C14, C15, C16 -/

/-- Going around a cycle of challenges. -/
theorem around_cycle (R : Ristretto F G) (msg : Bytes) (I : List G) (C : Nat → F) : ∀ (ms : List (List G × List F)) (i : Nat),
    (∀ j (h : j < ms.length), C (i + j + 1) = link R msg I ms[j].1 ms[j].2 (C (i + j))) →
    around R msg I ms (C i) = C (i + ms.length)
  | [], i, _ => rfl
  | m :: ms, i, h => by
    have h0 := h 0 (by simp)
    simp only [Nat.add_zero, List.getElem_cons_zero] at h0
    have := around_cycle R msg I C ms (i + 1) fun j hj => by
      have := h (j + 1) (by simp; omega)
      simp only [List.getElem_cons_succ] at this
      rw [show i + 1 + j + 1 = i + (j + 1) + 1 by omega, this, show i + 1 + j = i + (j + 1) by omega]
    unfold around at this ⊢
    rw [List.foldl_cons, ← h0, this, List.length_cons, show i + 1 + ms.length = i + (ms.length + 1) by omega]

/-- Everything about a call of `prove` on a ring `m0`: with at least one member, at least one secret (two if the last key image is
skipped) and equal dimensions. -/
structure Proved [DecidableEq F] (R : Ristretto F G) (msg : Bytes) (xs : List F) (m0 : List (PubKeys G)) (skip : Bool)
    (coins : Coins F) (q : Proof F G) (sig : Signature F G) (I : List G) : Prop where
  /-- C14 -/
  accepted : sig.verify R I = .ok true
  /-- C15: the ring of the signature is the ring of the proof, a permutation of the previous ring and the signer -/
  ring : sig.pubKeys = q.matrix
  perm : q.matrix.Perm (m0 ++ [⟨false, xs.map (· • R.base)⟩])
  index : q.matrix[q.index]? = some ⟨false, xs.map (· • R.base)⟩
  msg : sig.msg = msg
  /-- C16 -/
  images : I = if skip then (xs.map (image R)).dropLast else xs.map (image R)
  /-- decoy responses are the random scalars drawn for them; the signer's hide the secret behind the nonces -/
  lenR : sig.r.length = q.matrix.length
  resp : ∀ j, j ≠ q.index → ∀ r, sig.r[j]? = some r → r = (List.range xs.length).map (coins.resp j)
  real : ∃ c, sig.r[q.index]? = some (List.zipWith (fun x a => -(c * x) + a) xs ((List.range xs.length).map coins.nonce))

theorem prove_gen [DecidableEq F] (R : Ristretto F G) (p : Proof F G) (skip : Bool) (coins : Coins F)
    (hs : p.signer.keys = p.privKeys.map (· • R.base))
    (hd : ∀ k ∈ p.matrix, k.decoy = true ∨ k = ⟨false, p.signer.keys⟩)
    (hne : p.matrix ≠ []) (hx : p.privKeys ≠ []) (hskip : skip = true → 2 ≤ p.privKeys.length)
    (hdim : ∀ k ∈ p.matrix, k.keys.length = p.privKeys.length) :
    ∃ sig I, (p.prove R skip coins).2 = .ok (sig, I) ∧
      Proved R p.msg p.privKeys p.matrix skip coins (p.prove R skip coins).1 sig I ∧
      (p.prove R skip coins).1.privKeys = p.privKeys ∧ (p.prove R skip coins).1.signer.keys = p.signer.keys ∧
      (p.prove R skip coins).1.msg = p.msg := by
  obtain ⟨m, i, h1, h2, h3⟩ := shuffleSet_gen p coins.shuffle hd
  have hdl : p.matrix.length ≠ 0 := mt List.length_eq_zero_iff.1 hne
  have hml : m.length = p.matrix.length + 1 := by rw [h2.length_eq]; simp
  have hxl : p.privKeys.length ≠ 0 := mt List.length_eq_zero_iff.1 hx
  have hdim2 : ∀ k ∈ m, k.keys.length = p.privKeys.length := by
    intro k hk
    rcases List.mem_append.1 (h2.mem_iff.1 hk) with h | h
    · exact hdim k h
    · have : k = ⟨false, p.signer.keys⟩ := by simpa using h
      rw [this, hs]
      simp
  have hcond : (m.any fun k => decide (k.keys.length ≠ p.privKeys.length)) = false := by
    rw [List.any_eq_false]
    intro k hk
    simp [hdim2 k hk]
  have hprove : p.prove R skip coins = ({ p with signer := { p.signer with decoy := false }, matrix := m, index := i },
      Proof.sign R { p with signer := { p.signer with decoy := false }, matrix := m, index := i } skip coins) := by
    unfold Proof.prove
    simp only [h1]
    rw [hcond]
    simp
  obtain ⟨C, r, I, g1, g2, g3, g4, g5⟩ := sign_eq R
    { p with signer := { p.signer with decoy := false }, matrix := m, index := i } skip coins (p.matrix.length + 1) hml (by omega) hs
    ⟨_, h3, hs⟩ hdim2 (fun _ => hx)
  rw [hprove, g5]
  dsimp only at g1 g2 g3 g4 ⊢
  refine ⟨_, I, rfl, ?_, rfl, rfl, rfl⟩
  have hil : i < m.length := (List.getElem?_eq_some_iff.1 h3).1
  have hIne : I ≠ [] := by
    rw [g1]
    cases skip with
    | false => simpa using hx
    | true =>
      have := hskip rfl
      intro h
      have := congrArg List.length h
      simp at this
      omega
  have hIlen : I.length ≤ p.privKeys.length := by
    rw [g1]; cases skip <;> simp
  have hring : (m.map (·.keys)).zip r = ringOf (⟨C 0, r, m, p.msg⟩ : Signature F G) := rfl
  refine ⟨?_, rfl, ?_, ?_, rfl, g1, ?_, ?_, ?_⟩
  · refine ((C17_verify R _ I (by dsimp only; omega) (by dsimp only; omega) hIne ?_).1).2 ?_
    · intro x hxm
      obtain ⟨j, hj, rfl⟩ := List.mem_iff_getElem.1 hxm
      simp only [ringOf, List.length_zip, List.length_map] at hj
      simp only [ringOf, List.getElem_zip, List.getElem_map]
      rw [hdim2 _ (List.getElem_mem _)]
      refine ⟨?_, hIlen⟩
      rw [g3 j (by omega)]
      split <;> simp [generateNonces]
    · dsimp only
      have hl : (ringOf (⟨C 0, r, m, p.msg⟩ : Signature F G)).length = p.matrix.length + 1 := by simp [ringOf]; omega
      have := around_cycle R p.msg I (fun k => C (k % (p.matrix.length + 1))) (ringOf (⟨C 0, r, m, p.msg⟩ : Signature F G)) 0 (by
        intro j hj
        rw [hl] at hj
        rw [Nat.zero_add, Nat.mod_eq_of_lt hj, g4 j _ _ (List.getElem?_eq_getElem (by omega)) (List.getElem?_eq_getElem (by omega))]
        simp [ringOf])
      rw [hl, Nat.zero_add, Nat.mod_self, Nat.zero_mod] at this
      exact this
  · rw [← hs]; exact h2
  · rw [← hs]; exact h3
  · show r.length = m.length
    omega
  · intro j hj x hx
    obtain ⟨h, rfl⟩ := List.getElem?_eq_some_iff.1 hx
    dsimp only at h ⊢
    rw [g3 j h, if_neg hj]
  · refine ⟨C i, ?_⟩
    dsimp only
    rw [List.getElem?_eq_getElem (by omega), g3 i (by omega), if_pos rfl]
    rfl

/-- C14, C15, C16: a first call of `prove`, after any sequence of `AddDecoy` and `AddSecret` calls with at least one decoy,
at least one secret (two if the last image is skipped) and fitting dimensions, for all random choices: it succeeds, the
signature is accepted with the returned key images, the ring is a permutation of the decoys and the signer's keys with the
index pointing to the latter, and the key images are those of the secrets. -/
theorem C14_prove [DecidableEq F] (R : Ristretto F G) (msg : Bytes) (ops : List (Op F G)) (skip : Bool) (coins : Coins F)
    (hd : decoys ops ≠ []) (hx : secrets ops ≠ []) (hskip : skip = true → 2 ≤ (secrets ops).length)
    (hdim : ∀ k ∈ decoys ops, k.length = (secrets ops).length) :
    ∃ sig I, ((build R msg ops).prove R skip coins).2 = .ok (sig, I) ∧
      Proved R msg (secrets ops) ((decoys ops).map (fun k => ⟨true, k⟩)) skip coins ((build R msg ops).prove R skip coins).1 sig I := by
  obtain ⟨b1, b2, b3, b4⟩ := build_eq R msg ops
  obtain ⟨sig, I, h1, h2, -⟩ := prove_gen R (build R msg ops) skip coins (by rw [b2, b1])
    (by rw [b3]; intro k hk; obtain ⟨x, -, rfl⟩ := List.mem_map.1 hk; exact .inl rfl) (by rw [b3]; simpa using hd)
    (by rw [b1]; exact hx) (by rw [b1]; exact hskip)
    (by rw [b1, b3]; intro k hk; obtain ⟨x, hx, rfl⟩ := List.mem_map.1 hk; exact hdim x hx)
  rw [b1, b4, b3] at h2
  exact ⟨sig, I, h1, h2⟩

/-- C14 -/
theorem C14_completeness [DecidableEq F] (R : Ristretto F G) (msg : Bytes) (ops : List (Op F G)) (skip : Bool) (coins : Coins F)
    (hd : decoys ops ≠ []) (hx : secrets ops ≠ []) (hskip : skip = true → 2 ≤ (secrets ops).length)
    (hdim : ∀ k ∈ decoys ops, k.length = (secrets ops).length) :
    ∃ sig I, ((build R msg ops).prove R skip coins).2 = .ok (sig, I) ∧ sig.verify R I = .ok true :=
  let ⟨sig, I, h, hp⟩ := C14_prove R msg ops skip coins hd hx hskip hdim
  ⟨sig, I, h, hp.accepted⟩

/-- Two decoys and two secrets, added in mixed order. -/
example (coins : Coins Toy.K) : ∃ sig I, ((build Toy.ris [1, 2, 3] [.decoy ⟨false, [10, 11]⟩, .secret 5, .decoy ⟨true, [12, 13]⟩,
    .secret 7]).prove Toy.ris true coins).2 = .ok (sig, I) ∧ sig.verify Toy.ris I = .ok true :=
  C14_completeness Toy.ris _ _ true coins (by simp [decoys]) (by simp [secrets]) (by simp [secrets]) (by simp [decoys, secrets])

/-- C15 -/
theorem C15_ring [DecidableEq F] (R : Ristretto F G) (msg : Bytes) (ops : List (Op F G)) (skip : Bool) (coins : Coins F)
    (hd : decoys ops ≠ []) (hx : secrets ops ≠ []) (hskip : skip = true → 2 ≤ (secrets ops).length)
    (hdim : ∀ k ∈ decoys ops, k.length = (secrets ops).length) :
    ∃ sig I q, (build R msg ops).prove R skip coins = (q, .ok (sig, I)) ∧ sig.pubKeys = q.matrix ∧
      sig.pubKeys.Perm ((decoys ops).map (fun k => ⟨true, k⟩) ++ [⟨false, (secrets ops).map (· • R.base)⟩]) ∧
      sig.pubKeys[q.index]? = some ⟨false, (secrets ops).map (· • R.base)⟩ ∧
      ∀ j, j ≠ q.index → ∀ k, sig.pubKeys[j]? = some k → k.decoy = true := by
  obtain ⟨sig, I, h, hp⟩ := C14_prove R msg ops skip coins hd hx hskip hdim
  refine ⟨sig, I, _, Prod.ext rfl h, hp.ring, ?_, ?_, ?_⟩
  · rw [hp.ring]; exact hp.perm
  · rw [hp.ring]; exact hp.index
  · rw [hp.ring]
    exact only_signer _ _ _ (by intro k hk; obtain ⟨x, -, rfl⟩ := List.mem_map.1 hk; rfl) hp.perm hp.index

/-- C16: the key images do not depend on message, decoys, order of calls and randomness. -/
theorem C16_images [DecidableEq F] (R : Ristretto F G) (msg : Bytes) (ops : List (Op F G)) (skip : Bool) (coins : Coins F)
    (hd : decoys ops ≠ []) (hx : secrets ops ≠ []) (hskip : skip = true → 2 ≤ (secrets ops).length)
    (hdim : ∀ k ∈ decoys ops, k.length = (secrets ops).length) :
    ∃ sig I, ((build R msg ops).prove R skip coins).2 = .ok (sig, I) ∧
      I = if skip then ((secrets ops).map (image R)).dropLast else (secrets ops).map (image R) := by
  obtain ⟨sig, I, h, hp⟩ := C14_prove R msg ops skip coins hd hx hskip hdim
  exact ⟨sig, I, h, hp.images⟩

/-- C16: two signatures made with the same secret at the same position have the same key image there. -/
theorem C16_link [DecidableEq F] (R : Ristretto F G) (msg msg' : Bytes) (ops ops' : List (Op F G)) (coins coins' : Coins F)
    (hd : decoys ops ≠ []) (hd' : decoys ops' ≠ [])
    (hdim : ∀ k ∈ decoys ops, k.length = (secrets ops).length) (hdim' : ∀ k ∈ decoys ops', k.length = (secrets ops').length)
    (sig sig' : Signature F G) (I I' : List G) (i : Nat) (x : F)
    (h : ((build R msg ops).prove R false coins).2 = .ok (sig, I))
    (h' : ((build R msg' ops').prove R false coins').2 = .ok (sig', I'))
    (hi : (secrets ops)[i]? = some x) (hi' : (secrets ops')[i]? = some x) :
    I[i]? = some (image R x) ∧ I'[i]? = some (image R x) := by
  have key : ∀ (msg : Bytes) (ops : List (Op F G)) (coins : Coins F) (sig : Signature F G) (I : List G), decoys ops ≠ [] →
      (∀ k ∈ decoys ops, k.length = (secrets ops).length) →
      ((build R msg ops).prove R false coins).2 = .ok (sig, I) → (secrets ops)[i]? = some x → I[i]? = some (image R x) := by
    intro msg ops coins sig I hd hdim h hi
    obtain ⟨sig1, I1, h1, h2⟩ := C16_images R msg ops false coins hd (by rintro e; simp [e] at hi) (by simp) hdim
    rw [h1] at h
    cases h
    rw [h2]
    simp [hi]
  exact ⟨key _ _ _ _ _ hd hdim h hi, key _ _ _ _ _ hd' hdim' h' hi'⟩

/-! ## C25 -/

/-- C25 (violated): without decoys, and with at least one secret, `prove` panics. -/
theorem C25_violated [DecidableEq F] (R : Ristretto F G) (msg : Bytes) (ops : List (Op F G)) (skip : Bool) (coins : Coins F)
    (hd : decoys ops = []) (hx : secrets ops ≠ []) : ((build R msg ops).prove R skip coins).2 = .panic := by
  obtain ⟨b1, b2, b3, b4⟩ := build_eq R msg ops
  rw [hd] at b3
  obtain ⟨m, i, h1, h2, h3⟩ := shuffleSet_gen (build R msg ops) coins.shuffle (by rw [b3]; simp)
  rw [b3] at h2
  have hm : m = [⟨false, (build R msg ops).signer.keys⟩] := List.perm_singleton.1 h2
  have hi : i = 0 := by
    obtain ⟨hl, -⟩ := List.getElem?_eq_some_iff.1 h3
    rw [hm] at hl
    simpa using hl
  subst hi
  unfold Proof.prove
  simp only [h1]
  rw [hm, b2, b1]
  simp only [List.any_cons, List.any_nil, List.length_map, ne_eq, not_true_eq_false, decide_false, Bool.or_self,
    Bool.false_eq_true, if_false]
  have hxl : (secrets ops).length ≠ 0 := mt List.length_eq_zero_iff.1 hx
  unfold Proof.sign
  rw [calculateKeyImages_eq R _ (by dsimp only) skip (by intro _; exact hx), Res.bind_ok]
  dsimp only
  rw [b4]
  generalize hI : (if skip then ((secrets ops).map (image R)).dropLast else (secrets ops).map (image R)) = I
  generalize hnon : generateNonces coins.nonce (secrets ops).length = nonces
  have hnl : nonces.length = (secrets ops).length := by rw [← hnon]; simp [generateNonces]
  have hIl : ∃ j ≤ (secrets ops).length, I = ((secrets ops).map (image R)).take j := by
    rw [← hI]
    cases skip with
    | false => exact ⟨_, le_rfl, by simp⟩
    | true => exact ⟨(secrets ops).length - 1, by omega, by simp [List.dropLast_eq_take]⟩
  rw [idx_of_lt (by simp), Res.bind_ok, List.getElem_cons_zero, firstChallenge_eq R msg _ nonces I hnl hIl 0, Res.bind_ok]
  unfold ringLoop
  rw [if_neg (by simp)]
  unfold proveBody
  have e1 : prevIndex [({ decoy := false, keys := (secrets ops).map (· • R.base) } : PubKeys G)].length
      ((0 + 2) % [({ decoy := false, keys := (secrets ops).map (· • R.base) } : PubKeys G)].length) = 0 := by
    simp [prevIndex]
  dsimp only
  rw [e1, idx_of_lt (by simp [generateResponses]), Res.bind_ok, idx_of_lt (by simp), Res.bind_ok, generateChallenge_panic]
  · rfl
  · rintro ⟨h, -⟩
    simp [generateResponses] at h
    exact hx h

/-- One secret, no decoy. -/
example (coins : Coins Toy.K) : ((build Toy.ris [1] [.secret 5]).prove Toy.ris false coins).2 = .panic :=
  C25_violated Toy.ris _ _ _ coins rfl (by simp [secrets])

/-! ## C27 -/

/-- C27: if all key vectors of the ring have at least two keys, `SubCommToZero(P)` replaces the second key of each by
itself minus `P` and changes nothing else. -/
theorem C27_sub (d : DualKey F G) (P : G) (h : ∀ k ∈ d.proof.matrix, 2 ≤ k.keys.length) :
    ∃ d', d.subCommToZero P = .ok d' ∧ d'.key0 = d.key0 ∧ d'.key1 = d.key1 ∧ d'.proof.index = d.proof.index ∧
      d'.proof.privKeys = d.proof.privKeys ∧ d'.proof.signer = d.proof.signer ∧ d'.proof.msg = d.proof.msg ∧
      d'.proof.matrix.length = d.proof.matrix.length ∧
      ∀ i (h1 : i < d.proof.matrix.length) (h2 : i < d'.proof.matrix.length),
        d'.proof.matrix[i].decoy = d.proof.matrix[i].decoy ∧
        d'.proof.matrix[i].keys.length = d.proof.matrix[i].keys.length ∧
        ∀ j, d'.proof.matrix[i].keys[j]? = if j = 1 then d.proof.matrix[i].keys[1]?.map (· - P) else d.proof.matrix[i].keys[j]? := by
  unfold DualKey.subCommToZero
  rw [mapRes_ok _ (fun k => { k with keys := k.keys.set 1 ((k.keys.getD 1 0) - P) })]
  · rw [Res.bind_ok]
    refine ⟨_, rfl, rfl, rfl, rfl, rfl, rfl, rfl, by simp, fun i h1 h2 => ?_⟩
    have hk := h _ (List.getElem_mem h1)
    dsimp only
    simp only [List.getElem_map, List.length_set, true_and]
    intro j
    by_cases hj : j = 1
    · subst hj
      rw [if_pos rfl, List.getElem?_set_self (by omega), List.getElem?_eq_getElem (by omega)]
      simp [List.getD_eq_getElem?_getD, hk, show 1 < d.proof.matrix[i].keys.length by omega]
    · rw [if_neg hj, List.getElem?_set_ne (Ne.symm hj)]
  · intro k hk
    unfold PubKeys.subSecond
    have := h k hk
    rw [idx_of_lt (by omega), Res.bind_ok]
    simp [List.getD_eq_getElem?_getD, show 1 < k.keys.length by omega]

/-- C27: two calls are one call with the sum. -/
theorem C27_twice (d : DualKey F G) (P Q : G) :
    ((d.subCommToZero P).bind fun d => d.subCommToZero Q) = d.subCommToZero (P + Q) := by
  have key : ∀ m : List (PubKeys G), ((mapRes (PubKeys.subSecond P) m).bind fun m => mapRes (PubKeys.subSecond Q) m) =
      mapRes (PubKeys.subSecond (P + Q)) m := by
    intro m
    induction m with
    | nil => rfl
    | cons k m ih =>
      rcases Nat.lt_or_ge 1 k.keys.length with h | h
      · have h1 : ∀ P, PubKeys.subSecond P k = .ok { k with keys := k.keys.set 1 (k.keys[1] - P) } := by
          intro P
          unfold PubKeys.subSecond
          rw [idx_of_lt h, Res.bind_ok]
        rw [mapRes, mapRes, h1, h1, Res.bind_ok, Res.bind_ok, ← ih]
        cases hm : mapRes (PubKeys.subSecond P) m with
        | ok m' =>
          have h2 : PubKeys.subSecond Q { k with keys := k.keys.set 1 (k.keys[1] - P) } =
              .ok { k with keys := k.keys.set 1 (k.keys[1] - (P + Q)) } := by
            unfold PubKeys.subSecond
            dsimp only
            rw [idx_of_lt (by simpa using h), Res.bind_ok]
            simp [sub_sub]
          simp only [Res.bind_ok, mapRes, h2]
        | err e => rfl
        | panic => rfl
      · have h1 : ∀ P, PubKeys.subSecond P k = .panic := by
          intro P
          unfold PubKeys.subSecond
          rw [idx_of_ge h, Res.bind_panic]
        rw [mapRes, mapRes, h1, h1]
        rfl
  unfold DualKey.subCommToZero
  rw [← key d.proof.matrix]
  cases mapRes (PubKeys.subSecond P) d.proof.matrix <;> rfl

example (d : DualKey Toy.K Toy.K) : ((d.subCommToZero 3).bind fun d => d.subCommToZero 4) = d.subCommToZero (3 + 4) := C27_twice d 3 4

/-- C27: it panics iff some key vector has fewer than two keys. -/
theorem C27_panic (d : DualKey F G) (P : G) :
    d.subCommToZero P = .panic ↔ ∃ k ∈ d.proof.matrix, k.keys.length < 2 := by
  constructor
  · intro h
    by_contra hc
    push Not at hc
    obtain ⟨d', h', -⟩ := C27_sub d P hc
    rw [h] at h'
    cases h'
  · rintro ⟨k, hk, hl⟩
    unfold DualKey.subCommToZero
    rw [mapRes_panic, Res.bind_panic]
    · intro k _
      exact (NoErr.idx _ _).bind fun _ _ => .ok _
    · refine ⟨k, hk, ?_⟩
      unfold PubKeys.subSecond
      rw [idx_of_ge (by omega), Res.bind_panic]

/-- A ring with two vectors of two and three keys. -/
example : ∃ d' : DualKey Toy.K Toy.K,
    (⟨{ matrix := [⟨true, [1, 2]⟩, ⟨true, [3, 4, 5]⟩] }, 6, 7⟩ : DualKey Toy.K Toy.K).subCommToZero 10 = .ok d' := by
  obtain ⟨d', h, -⟩ := C27_sub (⟨{ matrix := [⟨true, [1, 2]⟩, ⟨true, [3, 4, 5]⟩] }, 6, 7⟩ : DualKey Toy.K Toy.K) 10 (by simp)
  exact ⟨d', h⟩

/-! ## C28 -/

/-- C28: if the hash inputs of one member agree for two challenges `c ≠ c'` (same message, keys, images; responses `r`,
`r'`), then the discrete logarithms of all keys are `(r'_i - r_i)/(c - c')`, and the key images are the correct ones. -/
theorem C28_special_soundness {R : Ristretto F G} (E : R.Encodings) (msg : Bytes) (I K : List G) (r r' : List F) (c c' : F)
    (hc : c ≠ c') (hK : K.length ≤ r.length) (hK' : K.length ≤ r'.length) (hI : I.length ≤ K.length)
    (h : query R msg I K r c = query R msg I K r' c') :
    (∀ i (h1 : i < K.length) (h2 : i < r.length) (h3 : i < r'.length), K[i] = ((r'[i] - r[i]) / (c - c')) • R.base) ∧
    ∀ i (h0 : i < I.length) (h1 : i < K.length) (h2 : i < r.length) (h3 : i < r'.length),
      I[i] = image R ((r'[i] - r[i]) / (c - c')) := by
  have hcc : c - c' ≠ 0 := sub_ne_zero.2 hc
  have solve : ∀ (x x' : F) (B P : G), x • B + c • P = x' • B + c' • P → P = ((x' - x) / (c - c')) • B := by
    intro x x' B P h
    have h1 : (c - c') • P = (x' - x) • B := by
      rw [sub_smul, sub_smul, sub_eq_sub_iff_add_eq_add, add_comm, h, add_comm]
    rw [div_eq_inv_mul, mul_smul, ← h1, inv_smul_smul₀ hcc]
  -- concatenations of 32-byte blocks determine the blocks
  have flat : ∀ (a b : List Bytes), a.length = b.length → (∀ x ∈ a, x.length = 32) → (∀ x ∈ b, x.length = 32) →
      ∀ s t : Bytes, a.flatten ++ s = b.flatten ++ t → a = b ∧ s = t := by
    intro a
    induction a with
    | nil =>
      intro b hl _ _ s t h
      have : b = [] := List.length_eq_zero_iff.1 (by simpa using hl.symm)
      subst this
      exact ⟨rfl, by simpa using h⟩
    | cons x a ih =>
      intro b hl ha hb s t h
      cases b with
      | nil => simp at hl
      | cons y b =>
        simp only [List.flatten_cons, List.append_assoc] at h
        have hxy := List.append_inj h (by rw [ha x (by simp), hb y (by simp)])
        obtain ⟨e1, e2⟩ := ih b (by simpa using hl) (fun z hz => ha z (by simp [hz])) (fun z hz => hb z (by simp [hz])) s t hxy.2
        exact ⟨by rw [hxy.1, e1], e2⟩
  unfold query at h
  rw [List.append_assoc, List.append_assoc] at h
  have h := List.append_cancel_left h
  obtain ⟨f1, f2⟩ := flat _ _ (by simp; omega) (by
      intro x hx
      obtain ⟨j, hj, rfl⟩ := List.mem_iff_getElem.1 hx
      simp [E.pBytes_length]) (by
      intro x hx
      obtain ⟨j, hj, rfl⟩ := List.mem_iff_getElem.1 hx
      simp [E.pBytes_length]) _ _ h
  have f2 : ∀ i (g1 : i < I.length) (g2 : i < K.length) (g3 : i < r.length) (g4 : i < r'.length),
      r[i] • R.pDerive (R.pBytes K[i]) + c • I[i] = r'[i] • R.pDerive (R.pBytes K[i]) + c' • I[i] := by
    have f3 := congrArg (· ++ ([] : Bytes)) f2
    obtain ⟨e, -⟩ := flat _ _ (by simp; omega) (by
      intro x hx
      obtain ⟨j, hj, rfl⟩ := List.mem_iff_getElem.1 hx
      simp [E.pBytes_length]) (by
      intro x hx
      obtain ⟨j, hj, rfl⟩ := List.mem_iff_getElem.1 hx
      simp [E.pBytes_length]) [] [] f3
    intro i g1 g2 g3 g4
    have := congrArg (fun l => l[i]?) e
    simp only [List.getElem?_zipWith, List.zip_eq_zipWith, List.getElem?_eq_getElem g1, List.getElem?_eq_getElem g2,
      List.getElem?_eq_getElem g3, List.getElem?_eq_getElem g4, Option.some.injEq] at this
    exact E.pBytes_inj this
  have f1' : ∀ i (h1 : i < K.length) (h2 : i < r.length) (h3 : i < r'.length),
      K[i] = ((r'[i] - r[i]) / (c - c')) • R.base := by
    intro i h1 h2 h3
    have := congrArg (fun l => l[i]?) f1
    simp only [List.getElem?_zipWith, List.getElem?_eq_getElem h1, List.getElem?_eq_getElem h2, List.getElem?_eq_getElem h3,
      Option.some.injEq] at this
    exact solve _ _ _ _ (E.pBytes_inj this)
  refine ⟨f1', fun i h0 h1 h2 h3 => ?_⟩
  have := solve _ _ _ _ (f2 i h0 h1 h2 h3)
  rw [this]
  unfold image
  rw [← f1' i h1 h2 h3]

/-- Two different challenges with equal hash inputs. -/
example : query Toy.ris [1] [image Toy.ris 3] [3 • Toy.ris.base] [10 - 4 * 3] 4 =
    query Toy.ris [1] [image Toy.ris 3] [3 • Toy.ris.base] [(10 - 5 * 3 : Toy.K)] 5 := by
  have e : ∀ B : Toy.K, (10 - 4 * 3 : Toy.K) • B + (4 : Toy.K) • (3 : Toy.K) • B = (10 - 5 * 3 : Toy.K) • B + (5 : Toy.K) • (3 : Toy.K) • B := by
    intro B
    simp only [smul_eq_mul]
    ring
  have e0 : (3 • Toy.ris.base : Toy.K) = (3 : Toy.K) • Toy.ris.base := by
    rw [nsmul_eq_mul, smul_eq_mul]; norm_num
  unfold query image
  rw [e0]
  simp only [List.zipWith_cons_cons, List.zip_cons_cons]
  rw [e, e]
  rfl

end Dusk.Mlsag
