import Verif.Props.Mlsag
/-!
# What an MLSAG signature reveals (C107)
-/

set_option linter.unusedSectionVars false

namespace Dusk.Mlsag

variable {F G : Type} [Field F] [AddCommGroup G] [Module F G] [DecidableEq F]

/-- For fixed choices of the shuffle, `prove` signs for one ring and one position. -/
theorem prove_sign (R : Ristretto F G) (p : Proof F G) (skip : Bool) (sh : Nat → Nat)
    (hs : p.signer.keys = p.privKeys.map (· • R.base))
    (hd : ∀ k ∈ p.matrix, k.decoy = true ∨ k = ⟨false, p.signer.keys⟩)
    (hdim : ∀ k ∈ p.matrix, k.keys.length = p.privKeys.length) :
    ∃ (m : List (PubKeys G)) (i : Nat), m.Perm (p.matrix ++ [(⟨false, p.signer.keys⟩ : PubKeys G)]) ∧
      m[i]? = some (⟨false, p.signer.keys⟩ : PubKeys G) ∧ (∀ k ∈ m, k.keys.length = p.privKeys.length) ∧
      ∀ nonce resp, p.prove R skip ⟨nonce, resp, sh⟩ = ({ p with signer := { p.signer with decoy := false }, matrix := m, index := i },
        Proof.sign R { p with signer := { p.signer with decoy := false }, matrix := m, index := i } skip ⟨nonce, resp, sh⟩) := by
  obtain ⟨m, i, h1, h2, h3⟩ := shuffleSet_gen p sh hd
  have hdim2 : ∀ k ∈ m, k.keys.length = p.privKeys.length := by
    intro k hk
    rcases List.mem_append.1 (h2.mem_iff.1 hk) with h | h
    · exact hdim k h
    · have : k = ⟨false, p.signer.keys⟩ := by simpa using h
      rw [this, hs]
      simp
  have hcond : (m.any fun k => decide (k.keys.length ≠ p.privKeys.length)) = false := by
    rw [List.any_eq_false]
    intro k hk
    simp [hdim2 k hk]
  refine ⟨m, i, h2, h3, hdim2, fun nonce resp => ?_⟩
  unfold Proof.prove
  simp only [h1]
  rw [hcond]
  simp

/-- Changing the challenge and the signer's responses together does not change the next challenge. -/
theorem link_signer (R : Ristretto F G) (msg : Bytes) (xs nonces : List F) (I : List G)
    (hn : nonces.length = xs.length) (hI : ∃ j ≤ xs.length, I = (xs.map (image R)).take j) (c c' : F) :
    link R msg I (xs.map fun x => x • R.base) (List.zipWith (fun x a => -(c * x) + a) xs nonces) c =
    link R msg I (xs.map fun x => x • R.base) (List.zipWith (fun x a => -(c' * x) + a) xs nonces) c' :=
  Res.ok.inj ((firstChallenge_eq R msg xs nonces I hn hI c).symm.trans (firstChallenge_eq R msg xs nonces I hn hI c'))

/-- Two cycles of challenges that agree at one place and in the links after it agree everywhere. -/
theorem cycle_unique {n i : Nat} (hi : i < n) (C C' : Nat → F) (f : Nat → F → F) (h0 : C ((i + 1) % n) = C' ((i + 1) % n))
    (hC : ∀ j < n, j ≠ i → C ((j + 1) % n) = f j (C j)) (hC' : ∀ j < n, j ≠ i → C' ((j + 1) % n) = f j (C' j)) :
    ∀ j < n, C j = C' j := by
  have key : ∀ t < n, C ((i + 1 + t) % n) = C' ((i + 1 + t) % n) := by
    intro t
    induction t with
    | zero => intro _; exact h0
    | succ t ih =>
      intro ht
      have hlt : (i + 1 + t) % n < n := Nat.mod_lt _ (by omega)
      have hne : (i + 1 + t) % n ≠ i := by
        intro h
        by_cases hb : i + 1 + t < n
        · rw [Nat.mod_eq_of_lt hb] at h; omega
        · rw [Nat.mod_eq_sub_mod (by omega), Nat.mod_eq_of_lt (by omega)] at h; omega
      have e : (i + 1 + (t + 1)) % n = ((i + 1 + t) % n + 1) % n := by
        rw [Nat.mod_add_mod]; rfl
      rw [e, hC _ hlt hne, hC' _ hlt hne, ih (by omega)]
  intro j hj
  by_cases h : i + 1 ≤ j
  · have := key (j - (i + 1)) (by omega)
    rwa [show i + 1 + (j - (i + 1)) = j by omega, Nat.mod_eq_of_lt hj] at this
  · have := key (j + n - (i + 1)) (by omega)
    rwa [show i + 1 + (j + n - (i + 1)) = j + n by omega, Nat.add_mod_right, Nat.mod_eq_of_lt hj] at this

/-- The challenge at member `j`. -/
def chalMember (R : Ristretto F G) (msg : Bytes) (I : List G) (ring : List (List G × List F)) (c : F) (j : Nat) : F :=
  around R msg I (ring.take j) c

theorem chalMember_succ (R : Ristretto F G) (msg : Bytes) (I : List G) (ring : List (List G × List F)) (c : F) {j : Nat} (h : j < ring.length) :
    chalMember R msg I ring c (j + 1) = link R msg I ring[j].1 ring[j].2 (chalMember R msg I ring c j) := by
  unfold chalMember around
  rw [List.take_succ_eq_append_getElem h, List.foldl_append]
  rfl

/-- The signatures `sign` makes for given ring and position are exactly the accepted ones of this shape, each for exactly one
choice of the nonces and of the responses of the others. -/
theorem sign_exact (R : Ristretto F G) (p : Proof F G) (skip : Bool) (sh : Nat → Nat) (hn : 2 ≤ p.matrix.length)
    (hs : p.signer.keys = p.privKeys.map fun x => x • R.base) {sk : PubKeys G} (hidx : p.matrix[p.index]? = some sk)
    (hsk : sk.keys = p.privKeys.map fun x => x • R.base)
    (hdim : ∀ k ∈ p.matrix, k.keys.length = p.privKeys.length) (hx : p.privKeys ≠ []) (hskip : skip = true → 2 ≤ p.privKeys.length)
    (I : List G) (hI : I = (if skip then (p.privKeys.map (image R)).dropLast else p.privKeys.map (image R))) :
    (∀ nonce resp, ∃ sig, p.sign R skip ⟨nonce, resp, sh⟩ = .ok (sig, I)) ∧
    (∀ sig : Signature F G, (∃ nonce resp, p.sign R skip ⟨nonce, resp, sh⟩ = .ok (sig, I)) ↔
      sig.msg = p.msg ∧ sig.pubKeys = p.matrix ∧ sig.r.length = p.matrix.length ∧ (∀ x ∈ sig.r, x.length = p.privKeys.length) ∧
        sig.verify R I = .ok true) ∧
    (∀ nonce resp nonce' resp', p.sign R skip ⟨nonce, resp, sh⟩ = p.sign R skip ⟨nonce', resp', sh⟩ →
      (∀ i < p.privKeys.length, nonce i = nonce' i) ∧
      ∀ j < p.matrix.length, j ≠ p.index → ∀ i < p.privKeys.length, resp j i = resp' j i) := by
  have hil : p.index < p.matrix.length := (List.getElem?_eq_some_iff.1 hidx).1
  have hxl : p.privKeys.length ≠ 0 := mt List.length_eq_zero_iff.1 hx
  have hIne : I ≠ [] := by
    rw [hI]
    cases skip with
    | false => simpa using hx
    | true =>
      have := hskip rfl
      intro h
      have := congrArg List.length h
      simp at this
      omega
  have hIlen : I.length ≤ p.privKeys.length := by
    rw [hI]; cases skip <;> simp
  have hIt : ∃ j ≤ p.privKeys.length, I = (p.privKeys.map (image R)).take j := by
    rw [hI]
    cases skip with
    | false => exact ⟨_, le_rfl, by simp⟩
    | true => exact ⟨p.privKeys.length - 1, by omega, by simp [List.dropLast_eq_take]⟩
  have hsign := fun nonce resp => sign_eq R p skip ⟨nonce, resp, sh⟩ p.matrix.length rfl hn hs ⟨sk, hidx, hsk⟩ hdim (fun _ => hx)
  have hmem : ∀ j (h : j < p.matrix.length), (p.matrix[j]).keys.length = p.privKeys.length := fun j h => hdim _ (List.getElem_mem _)
  have hfit : ∀ sig : Signature F G, sig.pubKeys = p.matrix → sig.r.length = p.matrix.length → (∀ x ∈ sig.r, x.length = p.privKeys.length) →
      (sig.verify R I = .ok true ↔ around R sig.msg I (ringOf sig) sig.c = sig.c) := by
    intro sig h1 h2 h3
    refine (C17_verify R sig I (by omega) (by rw [h1]; omega) hIne ?_).1
    intro m hm
    obtain ⟨a, b⟩ := List.of_mem_zip hm
    obtain ⟨k, hk, e⟩ := List.mem_map.1 a
    rw [h1] at hk
    rw [← e, hdim k hk, h3 _ b]
    exact ⟨le_rfl, hIlen⟩
  refine ⟨fun nonce resp => ?_, fun sig => ⟨?_, ?_⟩, ?_⟩
  · obtain ⟨C, r, I', g1, -, -, -, g5⟩ := hsign nonce resp
    rw [← hI] at g1
    subst g1
    exact ⟨_, g5⟩
  · rintro ⟨nonce, resp, h⟩
    obtain ⟨C, r, I', g1, g2, g3, g4, g5⟩ := hsign nonce resp
    rw [← hI] at g1
    subst g1
    rw [g5] at h
    obtain ⟨rfl, -⟩ := Prod.mk.inj (Res.ok.inj h)
    have hr : ∀ x ∈ r, x.length = p.privKeys.length := by
      intro x hx
      obtain ⟨j, hj, rfl⟩ := List.mem_iff_getElem.1 hx
      rw [g3 j hj]
      split <;> simp [generateNonces]
    refine ⟨rfl, rfl, g2, hr, ?_⟩
    rw [hfit _ rfl g2 hr]
    have hl : (ringOf (⟨C 0, r, p.matrix, p.msg⟩ : Signature F G)).length = p.matrix.length := by simp [ringOf]; omega
    have := around_cycle R p.msg I' (fun k => C (k % p.matrix.length)) (ringOf (⟨C 0, r, p.matrix, p.msg⟩ : Signature F G)) 0 (by
      intro j hj
      rw [hl] at hj
      rw [Nat.zero_add, Nat.mod_eq_of_lt hj, g4 j _ _ (List.getElem?_eq_getElem (by omega)) (List.getElem?_eq_getElem (by omega))]
      simp [ringOf])
    rw [hl, Nat.zero_add, Nat.mod_self, Nat.zero_mod] at this
    exact this
  · rintro ⟨h1, h2, h3, h4, h5⟩
    rw [hfit sig h2 h3 h4] at h5
    have hrl : (ringOf sig).length = p.matrix.length := by simp [ringOf, h2, h3]
    have hget : ∀ j (h : j < (ringOf sig).length), (ringOf sig)[j] = ((p.matrix[j]'(by omega)).keys, sig.r[j]'(by omega)) := by
      intro j h
      simp [ringOf, h2]
    generalize hC' : chalMember R sig.msg I (ringOf sig) sig.c = C'
    have hstep : ∀ j (h : j < p.matrix.length), C' ((j + 1) % p.matrix.length) = link R p.msg I (p.matrix[j]).keys (sig.r[j]'(by omega)) (C' j) := by
      intro j h
      have hs := chalMember_succ R sig.msg I (ringOf sig) sig.c (j := j) (by omega)
      rw [hC', hget j (by omega), h1] at hs
      by_cases hj : j + 1 < p.matrix.length
      · rw [Nat.mod_eq_of_lt hj]; exact hs
      · have e : j + 1 = p.matrix.length := by omega
        rw [e, Nat.mod_self, ← hs, e, ← hC']
        unfold chalMember
        rw [← hrl, List.take_length, h5]
        rfl
    have h0 : C' 0 = sig.c := by rw [← hC']; rfl
    let nonce : Nat → F := fun i => (sig.r.getD p.index []).getD i 0 + C' p.index * p.privKeys.getD i 0
    let resp : Nat → Nat → F := fun j i => (sig.r.getD j []).getD i 0
    obtain ⟨C, r, I', g1, g2, g3, g4, g5⟩ := hsign nonce resp
    rw [← hI] at g1
    subst g1
    have hreal : ∀ (h : p.index < sig.r.length), sig.r[p.index] =
        List.zipWith (fun x a => -(C' p.index * x) + a) p.privKeys (generateNonces nonce p.privKeys.length) := by
      intro h
      apply List.ext_getElem
      · simp [generateNonces, h4 _ (List.getElem_mem h)]
      · intro i a b
        have hi : i < p.privKeys.length := by rw [← h4 _ (List.getElem_mem h)]; exact a
        simp [generateNonces, nonce, List.getD_eq_getElem?_getD, h, a, hi]
    have hother : ∀ j (h : j < sig.r.length), sig.r[j] = (List.range p.privKeys.length).map (resp j) := by
      intro j h
      apply List.ext_getElem
      · simp [h4 _ (List.getElem_mem h)]
      · intro i a b
        simp [resp, List.getD_eq_getElem?_getD, h, a]
    have hii : p.matrix[p.index].keys = p.privKeys.map fun x => x • R.base := by
      rw [List.getElem?_eq_getElem hil] at hidx
      rw [Option.some.inj hidx, hsk]
    have hCC : ∀ j < p.matrix.length, C j = C' j := by
      refine cycle_unique hil C C' (fun j c => link R p.msg I' (p.matrix.getD j {}).keys (sig.r.getD j []) c) ?_ ?_ ?_
      · rw [g4 p.index _ _ (List.getElem?_eq_getElem hil) (List.getElem?_eq_getElem (by omega)), g3 _ (by omega), if_pos rfl, hstep _ hil,
          hreal (by omega), hii]
        exact link_signer R p.msg p.privKeys _ I' (by simp [generateNonces]) hIt _ _
      · intro j hj hne
        rw [g4 j _ _ (List.getElem?_eq_getElem hj) (List.getElem?_eq_getElem (by omega)), g3 _ (by omega), if_neg hne, ← hother j (by omega)]
        simp [List.getD_eq_getElem?_getD, hj, show j < sig.r.length by omega]
      · intro j hj hne
        rw [hstep j hj]
        simp [List.getD_eq_getElem?_getD, hj, show j < sig.r.length by omega]
    refine ⟨nonce, resp, ?_⟩
    rw [g5]
    congr 2
    have hr : r = sig.r := by
      apply List.ext_getElem
      · omega
      · intro j a b
        rw [g3 j a]
        split
        · next e =>
          subst e
          rw [hCC _ hil, hreal]
        · rw [hother]
    rw [hr, hCC 0 (by omega), h0, ← h1, ← h2]
  · intro nonce resp nonce' resp' h
    obtain ⟨C, r, I1, a1, a2, a3, a4, a5⟩ := hsign nonce resp
    obtain ⟨C', r', I2, b1, b2, b3, b4, b5⟩ := hsign nonce' resp'
    rw [a5, b5] at h
    obtain ⟨h, hI12⟩ := Prod.mk.inj (Res.ok.inj h)
    obtain ⟨hc, hr, -, -⟩ := Signature.mk.inj h
    subst hr
    subst hI12
    have hCC : ∀ j < p.matrix.length, C j = C' j := by
      have : ∀ j, j < p.matrix.length → C j = C' j := by
        intro j
        induction j with
        | zero => intro _; exact hc
        | succ j ih =>
          intro hj
          have e1 := a4 j _ _ (List.getElem?_eq_getElem (by omega)) (List.getElem?_eq_getElem (by omega))
          have e2 := b4 j _ _ (List.getElem?_eq_getElem (by omega)) (List.getElem?_eq_getElem (by omega))
          rw [Nat.mod_eq_of_lt hj] at e1 e2
          rw [e1, e2, ih (by omega)]
      exact this
    refine ⟨fun i hi => ?_, fun j hj hne i hi => ?_⟩
    · have e := (a3 p.index (by omega)).symm.trans (b3 p.index (by omega))
      rw [if_pos rfl, if_pos rfl, hCC _ hil] at e
      have := congrArg (fun l => l[i]?) e
      simp [generateNonces, hi] at this
      exact this
    · have e := (a3 j (by omega)).symm.trans (b3 j (by omega))
      rw [if_neg hne, if_neg hne] at e
      have := congrArg (fun l => l[i]?) e
      simp [hi] at this
      exact this

/-- The images `Prove` returns for secrets `xs`. -/
def imagesOf (R : Ristretto F G) (skip : Bool) (xs : List F) : List G :=
  if skip then (xs.map (image R)).dropLast else xs.map (image R)

/-- A signature for message `msg` and ring `ring` in which every member has `k` responses, and which `Verify` accepts with
images `I`. -/
def Accepted (R : Ristretto F G) (msg : Bytes) (ring : List (PubKeys G)) (k : Nat) (I : List G) (sig : Signature F G) : Prop :=
  sig.msg = msg ∧ sig.pubKeys = ring ∧ sig.r.length = ring.length ∧ (∀ x ∈ sig.r, x.length = k) ∧ sig.verify R I = .ok true

/-- C107: for given secrets, decoys, message and shuffle, every accepted signature of the shape of the returned ones is
returned, for exactly one choice of the nonces and of the responses of the other members. -/
theorem C107_exact (R : Ristretto F G) (msg : Bytes) (ops : List (Op F G)) (skip : Bool) (sh : Nat → Nat)
    (hd : decoys ops ≠ []) (hx : secrets ops ≠ []) (hskip : skip = true → 2 ≤ (secrets ops).length)
    (hdim : ∀ k ∈ decoys ops, k.length = (secrets ops).length) :
    ∃ (ring : List (PubKeys G)) (i : Nat),
      ring.Perm ((decoys ops).map (fun k => ⟨true, k⟩) ++ [⟨false, (secrets ops).map (· • R.base)⟩]) ∧
      ring[i]? = some ⟨false, (secrets ops).map (· • R.base)⟩ ∧
      (∀ nonce resp, ∃ sig, ((build R msg ops).prove R skip ⟨nonce, resp, sh⟩).2 = .ok (sig, imagesOf R skip (secrets ops))) ∧
      (∀ sig, (∃ nonce resp, ((build R msg ops).prove R skip ⟨nonce, resp, sh⟩).2 = .ok (sig, imagesOf R skip (secrets ops))) ↔
        Accepted R msg ring (secrets ops).length (imagesOf R skip (secrets ops)) sig) ∧
      (∀ nonce resp nonce' resp',
        ((build R msg ops).prove R skip ⟨nonce, resp, sh⟩).2 = ((build R msg ops).prove R skip ⟨nonce', resp', sh⟩).2 ↔
        (∀ a < (secrets ops).length, nonce a = nonce' a) ∧
        ∀ j < ring.length, j ≠ i → ∀ a < (secrets ops).length, resp j a = resp' j a) := by
  obtain ⟨b1, b2, b3, b4⟩ := build_eq R msg ops
  obtain ⟨m, i, h1, h2, h3, h4⟩ := prove_sign R (build R msg ops) skip sh (by rw [b2, b1])
    (by rw [b3]; intro k hk; obtain ⟨x, -, rfl⟩ := List.mem_map.1 hk; exact .inl rfl)
    (by rw [b1, b3]; intro k hk; obtain ⟨x, hx, rfl⟩ := List.mem_map.1 hk; exact hdim x hx)
  have hml : 2 ≤ m.length := by
    have := List.length_pos_iff.2 hd
    rw [h1.length_eq, b3]; simp; omega
  obtain ⟨g1, g2, g3⟩ := sign_exact R { build R msg ops with signer := { (build R msg ops).signer with decoy := false }, matrix := m, index := i }
    skip sh hml (by rw [b2, b1]) h2 (by rw [b2, b1]) h3 (by rw [b1]; exact hx) (by rw [b1]; exact hskip) _ rfl
  simp only [b1, b4] at g1 g2 g3 h4
  rw [b2, b3] at h1
  rw [b2] at h2
  refine ⟨m, i, h1, h2, ?_, ?_, ?_⟩
  · intro nonce resp
    simp only [h4]
    exact g1 nonce resp
  · intro sig
    simp only [h4]
    exact g2 sig
  · intro nonce resp nonce' resp'
    simp only [h4]
    refine ⟨g3 nonce resp nonce' resp', fun ⟨e1, e2⟩ => ?_⟩
    have hn : generateNonces nonce (secrets ops).length = generateNonces nonce' (secrets ops).length :=
      List.map_congr_left fun a ha => e1 a (List.mem_range.1 ha)
    have hr : generateResponses resp m.length (secrets ops).length i = generateResponses resp' m.length (secrets ops).length i := by
      refine List.map_congr_left fun j hj => ?_
      split
      · rfl
      · next hne => exact List.map_congr_left fun a ha => e2 j (List.mem_range.1 hj) hne a (List.mem_range.1 ha)
    unfold Proof.sign
    simp only [b1, hn, hr]

/-- Verification does not read the decoy flags. -/
theorem verify_flags (R : Ristretto F G) (c : F) (r : List (List F)) (msg : Bytes) (ring ring' : List (PubKeys G)) (I : List G)
    (h : ring.map (·.keys) = ring'.map (·.keys)) (k : Nat) (hn : 2 ≤ r.length) (hl : r.length = ring.length)
    (hr : ∀ x ∈ r, x.length = k) (hk : ∀ m ∈ ring, m.keys.length = k) (hI : I ≠ []) (hIk : I.length ≤ k) :
    Signature.verify R ⟨c, r, ring, msg⟩ I = .ok true ↔ Signature.verify R ⟨c, r, ring', msg⟩ I = .ok true := by
  have hl' : ring.length = ring'.length := by simpa using congrArg List.length h
  have e : ringOf (⟨c, r, ring, msg⟩ : Signature F G) = ringOf ⟨c, r, ring', msg⟩ := by simp [ringOf, h]
  have hf : Fits I (ringOf (⟨c, r, ring, msg⟩ : Signature F G)) := by
    intro m hm
    obtain ⟨a, b⟩ := List.of_mem_zip hm
    obtain ⟨q, hq, e⟩ := List.mem_map.1 a
    rw [← e, hk q hq, hr _ b]
    exact ⟨le_rfl, hIk⟩
  rw [(C17_verify R _ I hn hl.le hI hf).1, (C17_verify R _ I hn (by simp; omega) hI (e ▸ hf)).1, e]

/-- C107: two signers with the same images in the same ring of keys return the same signatures, whatever their secrets and
positions are (the unexported flag of the key vectors aside). -/
theorem C107_signers (R : Ristretto F G) (msg : Bytes) (ops ops' : List (Op F G)) (skip skip' : Bool) (sh sh' : Nat → Nat)
    (hd : decoys ops ≠ []) (hx : secrets ops ≠ []) (hskip : skip = true → 2 ≤ (secrets ops).length)
    (hdim : ∀ k ∈ decoys ops, k.length = (secrets ops).length)
    (hd' : decoys ops' ≠ []) (hx' : secrets ops' ≠ []) (hskip' : skip' = true → 2 ≤ (secrets ops').length)
    (hdim' : ∀ k ∈ decoys ops', k.length = (secrets ops').length)
    (nonce nonce' : Nat → F) (resp resp' : Nat → Nat → F) (sig sig' : Signature F G) (I : List G)
    (h : ((build R msg ops).prove R skip ⟨nonce, resp, sh⟩).2 = .ok (sig, I))
    (h' : ((build R msg ops').prove R skip' ⟨nonce', resp', sh'⟩).2 = .ok (sig', I))
    (hring : sig.pubKeys.map (·.keys) = sig'.pubKeys.map (·.keys)) :
    ∃ nonce'' resp'' sig'', ((build R msg ops').prove R skip' ⟨nonce'', resp'', sh'⟩).2 = .ok (sig'', I) ∧
      sig''.c = sig.c ∧ sig''.r = sig.r ∧ sig''.msg = sig.msg ∧ sig''.pubKeys.map (·.keys) = sig.pubKeys.map (·.keys) := by
  obtain ⟨ring, i, p1, p2, p3, p4, p5⟩ := C107_exact R msg ops skip sh hd hx hskip hdim
  obtain ⟨ring', i', q1, q2, q3, q4, q5⟩ := C107_exact R msg ops' skip' sh' hd' hx' hskip' hdim'
  have eI : I = imagesOf R skip (secrets ops) := by
    obtain ⟨s, hs⟩ := p3 nonce resp
    rw [h] at hs
    exact (Prod.mk.inj (Res.ok.inj hs)).2
  have eI' : I = imagesOf R skip' (secrets ops') := by
    obtain ⟨s, hs⟩ := q3 nonce' resp'
    rw [h'] at hs
    exact (Prod.mk.inj (Res.ok.inj hs)).2
  rw [← eI] at p4
  rw [← eI'] at q4
  obtain ⟨a1, a2, a3, a4, a5⟩ := (p4 sig).1 ⟨nonce, resp, h⟩
  obtain ⟨c1, c2, c3, c4, c5⟩ := (q4 sig').1 ⟨nonce', resp', h'⟩
  have hdr : ∀ m ∈ ring, m.keys.length = (secrets ops).length := by
    intro m hm
    rcases List.mem_append.1 (p1.mem_iff.1 hm) with g | g
    · obtain ⟨x, hx, rfl⟩ := List.mem_map.1 g
      exact hdim x hx
    · rw [List.mem_singleton.1 g]; simp
  have hdr' : ∀ m ∈ ring', m.keys.length = (secrets ops').length := by
    intro m hm
    rcases List.mem_append.1 (q1.mem_iff.1 hm) with g | g
    · obtain ⟨x, hx, rfl⟩ := List.mem_map.1 g
      exact hdim' x hx
    · rw [List.mem_singleton.1 g]; simp
  rw [a2, c2] at hring
  have hl : ring.length = ring'.length := by simpa using congrArg List.length hring
  have h2 : 2 ≤ ring.length := by
    have := List.length_pos_iff.2 hd
    rw [p1.length_eq]; simp; omega
  have hk : (secrets ops).length = (secrets ops').length := by
    have e0 := congrArg (fun l => l[0]?) hring
    have g1 : 0 < ring.length := by omega
    have g2 : 0 < ring'.length := by omega
    simp only [List.getElem?_map, List.getElem?_eq_getElem g1, List.getElem?_eq_getElem g2, Option.map_some, Option.some.injEq] at e0
    rw [← hdr _ (List.getElem_mem g1), ← hdr' _ (List.getElem_mem g2), e0]
  have hIlen : I.length ≤ (secrets ops).length := by
    rw [eI]; unfold imagesOf; cases skip <;> simp
  have hIne : I ≠ [] := by
    intro hI
    have e := congrArg List.length (eI.symm.trans hI)
    have := List.length_pos_iff.2 hx
    cases skip with
    | false => simp only [imagesOf, Bool.false_eq_true, if_false, List.length_map, List.length_nil] at e; omega
    | true =>
      have := hskip rfl
      simp only [imagesOf, if_true, List.length_dropLast, List.length_map, List.length_nil] at e
      omega
  have hv : Signature.verify R ⟨sig.c, sig.r, ring', msg⟩ I = .ok true := by
    rw [← verify_flags R sig.c sig.r msg ring ring' I hring _ (by omega) a3 a4 hdr hIne hIlen]
    rw [← a1, ← a2]
    exact a5
  obtain ⟨nonce'', resp'', e⟩ := (q4 ⟨sig.c, sig.r, ring', msg⟩).2 ⟨rfl, rfl, by simp; omega, by rw [← hk]; exact a4, hv⟩
  exact ⟨nonce'', resp'', _, e, rfl, rfl, a1.symm, by rw [a2]; exact hring.symm⟩

/-- C107: over a finite field there are exactly `|F|^(n k)` accepted signatures of this shape, whatever the hash functions are. -/
theorem C107_count [Finite F] (R : Ristretto F G) (msg : Bytes) (ops : List (Op F G)) (skip : Bool) (sh : Nat → Nat)
    (hd : decoys ops ≠ []) (hx : secrets ops ≠ []) (hskip : skip = true → 2 ≤ (secrets ops).length)
    (hdim : ∀ k ∈ decoys ops, k.length = (secrets ops).length) :
    ∃ ring : List (PubKeys G), ring.length = (decoys ops).length + 1 ∧
      (∀ nonce resp sig I, ((build R msg ops).prove R skip ⟨nonce, resp, sh⟩).2 = .ok (sig, I) → sig.pubKeys = ring) ∧
      Nat.card {sig // Accepted R msg ring (secrets ops).length (imagesOf R skip (secrets ops)) sig} =
        Nat.card F ^ (((decoys ops).length + 1) * (secrets ops).length) := by
  obtain ⟨ring, i, p1, p2, p3, p4, p5⟩ := C107_exact R msg ops skip sh hd hx hskip hdim
  have hl : ring.length = (decoys ops).length + 1 := by rw [p1.length_eq]; simp
  have hi : i < ring.length := (List.getElem?_eq_some_iff.1 p2).1
  refine ⟨ring, hl, ?_, ?_⟩
  · intro nonce resp sig I h
    obtain ⟨s, hs⟩ := p3 nonce resp
    have e := (Prod.mk.inj (Res.ok.inj (h.symm.trans hs))).2
    subst e
    exact ((p4 sig).1 ⟨nonce, resp, h⟩).2.1
  set k := (secrets ops).length with hkdef
  set I := imagesOf R skip (secrets ops)
  -- the coins as a function of member and key: at the signer's position the nonces
  obtain ⟨nonceOf, hno⟩ : ∃ g : (Fin ring.length → Fin k → F) → Nat → F, ∀ f a (h : a < k), g f a = f ⟨i, hi⟩ ⟨a, h⟩ :=
    ⟨fun f a => if h : a < k then f ⟨i, hi⟩ ⟨a, h⟩ else 0, fun f a h => by simp [h]⟩
  obtain ⟨respOf, hre⟩ : ∃ g : (Fin ring.length → Fin k → F) → Nat → Nat → F, ∀ f j a (hj : j < ring.length) (h : a < k),
      g f j a = f ⟨j, hj⟩ ⟨a, h⟩ :=
    ⟨fun f j a => if h : j < ring.length ∧ a < k then f ⟨j, h.1⟩ ⟨a, h.2⟩ else 0, fun f j a hj h => by simp [hj, h]⟩
  choose out hout using fun f => p3 (nonceOf f) (respOf f)
  have hb : Function.Bijective (fun f => (⟨out f, (p4 _).1 ⟨_, _, hout f⟩⟩ : {sig // Accepted R msg ring k I sig})) := by
    constructor
    · intro f g h
      have h : out f = out g := congrArg Subtype.val h
      have e := (p5 (nonceOf f) (respOf f) (nonceOf g) (respOf g)).1 ((hout f).trans (by rw [h]; exact (hout g).symm))
      funext j a
      by_cases hj : j.1 = i
      · have := e.1 a.1 a.2
        rw [hno _ _ a.2, hno _ _ a.2] at this
        rw [show j = ⟨i, hi⟩ from Fin.ext hj]
        exact this
      · have := e.2 j.1 j.2 hj a.1 a.2
        rwa [hre _ _ _ j.2 a.2, hre _ _ _ j.2 a.2] at this
    · rintro ⟨sig, hs⟩
      obtain ⟨nonce, resp, h⟩ := (p4 sig).2 hs
      refine ⟨fun j a => if j.1 = i then nonce a.1 else resp j.1 a.1, Subtype.ext ?_⟩
      generalize hg : (fun (j : Fin ring.length) (a : Fin k) => if j.1 = i then nonce a.1 else resp j.1 a.1) = g
      have e := (p5 (nonceOf g) (respOf g) nonce resp).2
        ⟨fun a ha => by rw [hno g a ha, ← hg]; simp, fun j hj hne a ha => by rw [hre g j a hj ha, ← hg]; simp [hne]⟩
      exact (Prod.mk.inj (Res.ok.inj ((hout g).symm.trans (e.trans h)))).1
  rw [← Nat.card_congr (Equiv.ofBijective _ hb)]
  rw [Nat.card_fun, Nat.card_fun, Nat.card_fin, Nat.card_fin, ← pow_mul, hl, Nat.mul_comm]

/-- Two secrets and two decoys: the premises hold. -/
example (sh : Nat → Nat) := C107_exact Toy.ris [1, 2, 3] [.decoy ⟨false, [10, 11]⟩, .secret 5, .decoy ⟨true, [12, 13]⟩, .secret 7] true sh
  (by simp [decoys]) (by simp [secrets]) (by simp [secrets]) (by simp [decoys, secrets])

/-- Two different signers with the same images and the same ring, in which they take each other's places: they differ in the
last secret, whose image is not returned. -/
example : ∃ (sig sig' : Signature Toy.K Toy.K) (I : List Toy.K),
    ((build Toy.ris [1] [.decoy ⟨false, [(5 : Toy.K) • Toy.ris.base, (8 : Toy.K) • Toy.ris.base]⟩, .secret 5, .secret 7]).prove Toy.ris true ⟨0, 0, fun _ => 0⟩).2 = .ok (sig, I) ∧
    ((build Toy.ris [1] [.decoy ⟨false, [(5 : Toy.K) • Toy.ris.base, (7 : Toy.K) • Toy.ris.base]⟩, .secret 5, .secret 8]).prove Toy.ris true ⟨0, 0, fun _ => 1⟩).2 = .ok (sig', I) ∧
    sig.pubKeys.map (·.keys) = sig'.pubKeys.map (·.keys) ∧ sig.pubKeys ≠ sig'.pubKeys := by
  obtain ⟨s, I, q, h1, h2, -⟩ := C15_ring Toy.ris [1] [.decoy ⟨false, [(5 : Toy.K) • Toy.ris.base, (8 : Toy.K) • Toy.ris.base]⟩, .secret 5, .secret 7]
    true ⟨0, 0, fun _ => 0⟩ (by simp [decoys]) (by simp [secrets]) (by simp [secrets]) (by simp [decoys, secrets])
  obtain ⟨s', I', q', h1', h2', -⟩ := C15_ring Toy.ris [1] [.decoy ⟨false, [(5 : Toy.K) • Toy.ris.base, (7 : Toy.K) • Toy.ris.base]⟩, .secret 5, .secret 8]
    true ⟨0, 0, fun _ => 1⟩ (by simp [decoys]) (by simp [secrets]) (by simp [secrets]) (by simp [decoys, secrets])
  have e1 := congrArg (·.1.matrix) h1
  have e1' := congrArg (·.1.matrix) h1'
  have a1 : q.matrix = [⟨false, [(5 : Toy.K) • Toy.ris.base, (7 : Toy.K) • Toy.ris.base]⟩, ⟨true, [(5 : Toy.K) • Toy.ris.base, (8 : Toy.K) • Toy.ris.base]⟩] := by
    rw [← e1]; rfl
  have a2 : q'.matrix = [⟨true, [(5 : Toy.K) • Toy.ris.base, (7 : Toy.K) • Toy.ris.base]⟩, ⟨false, [(5 : Toy.K) • Toy.ris.base, (8 : Toy.K) • Toy.ris.base]⟩] := by
    rw [← e1']; rfl
  obtain ⟨t, J, g, gI⟩ := C16_images Toy.ris [1] [.decoy ⟨false, [(5 : Toy.K) • Toy.ris.base, (8 : Toy.K) • Toy.ris.base]⟩, .secret 5, .secret 7]
    true ⟨0, 0, fun _ => 0⟩ (by simp [decoys]) (by simp [secrets]) (by simp [secrets]) (by simp [decoys, secrets])
  obtain ⟨t', J', g', gI'⟩ := C16_images Toy.ris [1] [.decoy ⟨false, [(5 : Toy.K) • Toy.ris.base, (7 : Toy.K) • Toy.ris.base]⟩, .secret 5, .secret 8]
    true ⟨0, 0, fun _ => 1⟩ (by simp [decoys]) (by simp [secrets]) (by simp [secrets]) (by simp [decoys, secrets])
  rw [h1] at g
  rw [h1'] at g'
  have k1 : I = J := (Prod.mk.inj (Res.ok.inj g)).2
  have k2 : I' = J' := (Prod.mk.inj (Res.ok.inj g')).2
  have k3 : I = I' := by rw [k1, k2, gI, gI']; simp [secrets]
  subst k3
  exact ⟨s, s', I, by rw [h1], by rw [h1'], by rw [h2, h2', a1, a2]; rfl, by rw [h2, h2', a1, a2]; simp⟩

end Dusk.Mlsag
