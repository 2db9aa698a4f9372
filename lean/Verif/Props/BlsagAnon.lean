import Verif.Props.Blsag
import Verif.Props.MlsagAnon
/-!
# What a bLSAG signature reveals (C108)
-/

set_option linter.unusedSectionVars false

namespace Dusk.Blsag

variable {F G P : Type} [Field F] [AddCommGroup G] [Module F G] [DecidableEq F]

/-- The challenge at member `j`. -/
def chalMember (R : Ristretto F G) (V : Raw F G P) (m : Bytes) (I : P) (ring : List (P × F)) (c : F) (j : Nat) : F :=
  around R V m I (ring.take j) c

theorem chalMember_succ (R : Ristretto F G) (V : Raw F G P) (m : Bytes) (I : P) (ring : List (P × F)) (c : F) {j : Nat} (h : j < ring.length) :
    chalMember R V m I ring c (j + 1) = link R V m I ring[j].1 ring[j].2 (chalMember R V m I ring c j) := by
  unfold chalMember around
  rw [List.take_succ_eq_append_getElem h, List.foldl_append]
  rfl

/-- Changing the challenge and the signer's response together does not change the next challenge. -/
theorem link_signer {R : Ristretto F G} {V : Raw F G P} (hV : V.Lawful R) (m : Bytes) (sK a c c' : F) :
    link R V m (V.inj (sK • R.pDerive (R.pBytes (sK • R.base)))) (V.inj (sK • R.base)) (-(c * sK) + a) c =
    link R V m (V.inj (sK • R.pDerive (R.pBytes (sK • R.base)))) (V.inj (sK • R.base)) (-(c' * sK) + a) c' := by
  have e : ∀ (x : F) (B : G), (-(x * sK) + a) • B + x • sK • B = a • B := by
    intro x B
    module
  unfold link
  simp only [hV.bytes, hV.add, hV.derive, hV.smul, hV.smulBase, e]

/-- A signature of the shape `Sign` returns: image of the key, the key at position `j`, the others zero values, a response for
each, the first of them zero unless the signer is there. -/
structure Shape (R : Ristretto F G) (V : Raw F G P) (sK : F) (n j : Nat) (sig : RingSignature F P) : Prop where
  image : sig.I = V.inj (sK • R.pDerive (R.pBytes (sK • R.base)))
  ring : sig.pubKeys = (List.replicate n V.zero).set j (V.inj (sK • R.base))
  lenS : sig.S.length = n
  first : j ≠ 0 → sig.S[0]? = some 0

/-- C108: for given key, message, number of mixins and position, the signatures `Sign` can return are exactly the accepted ones of
this shape, each for exactly one choice of `alpha` and of the responses of the members other than the first and the signer. -/
theorem C108_exact {R : Ristretto F G} {V : Raw F G P} (hV : V.Lawful R) (m : Bytes) (mixin : List P) (sK : F) (pos : Nat) :
    (∀ alpha s, ∃ sig, sign R V m mixin sK ⟨pos, alpha, s⟩ = .ok sig) ∧
    (∀ sig, (∃ alpha s, sign R V m mixin sK ⟨pos, alpha, s⟩ = .ok sig) ↔
      Shape R V sK (mixin.length + 1) (pos % (mixin.length + 1)) sig ∧ verify R V m sig = .ok true) ∧
    (∀ alpha s alpha' s', sign R V m mixin sK ⟨pos, alpha, s⟩ = sign R V m mixin sK ⟨pos, alpha', s'⟩ ↔
      alpha = alpha' ∧ ∀ i < mixin.length + 1, i ≠ 0 → i ≠ pos % (mixin.length + 1) → s i = s' i) := by
  have hsign := fun alpha s => sign_eq hV m mixin sK ⟨pos, alpha, s⟩
  have hcomp := fun alpha s => C29_completeness hV m mixin sK ⟨pos, alpha, s⟩
  dsimp only at hsign
  generalize hn : mixin.length + 1 = n at *
  have hn0 : 0 < n := by omega
  generalize hj : pos % n = j at *
  have hjn : j < n := by rw [← hj]; exact Nat.mod_lt _ hn0
  have hgetP : ∀ (l : List P), l = (List.replicate n V.zero).set j (V.inj (sK • R.base)) → ∀ (h : j < l.length),
      l[j] = V.inj (sK • R.base) := by
    rintro l rfl h
    simp
  refine ⟨fun alpha s => let ⟨_, sig, h, _⟩ := hsign alpha s; ⟨sig, h⟩, fun sig => ⟨?_, ?_⟩, ?_⟩
  · rintro ⟨alpha, s, h⟩
    obtain ⟨C, sig', g1, g2, g3, g4, g5, g6⟩ := hsign alpha s
    obtain ⟨sig'', k1, k2⟩ := hcomp alpha s
    rw [h] at g1 k1
    cases Res.ok.inj g1
    cases Res.ok.inj k1
    refine ⟨⟨g2, g4, by rw [g5]; simp [preS], fun h0 => ?_⟩, k2⟩
    rw [g5, List.getElem?_set_ne h0]
    simp [preS, hn0]
  · rintro ⟨⟨h1, h2, h3, h4⟩, h5⟩
    have hpl : sig.pubKeys.length = n := by rw [h2]; simp
    obtain ⟨b, e, hb⟩ := C32_verify R V m sig (by intro h; rw [h] at hpl; simp at hpl; omega) (by omega)
    rw [h5] at e
    cases Res.ok.inj e
    have hcl := hb.1 rfl
    rw [hpl, ← h3, List.take_length] at hcl
    generalize hrg : sig.pubKeys.zip sig.S = ring at hcl
    have hrl : ring.length = n := by rw [← hrg]; simp [hpl, h3]
    generalize hC' : chalMember R V m sig.I ring sig.C = C'
    have hstep : ∀ i (h : i < n), C' ((i + 1) % n) = link R V m sig.I (sig.pubKeys[i]'(by omega)) (sig.S[i]'(by omega)) (C' i) := by
      intro i h
      have hs := chalMember_succ R V m sig.I ring sig.C (j := i) (by omega)
      have hri : ring[i]'(by omega) = (sig.pubKeys[i]'(by omega), sig.S[i]'(by omega)) := by simp [← hrg]
      rw [hC', hri] at hs
      by_cases hi : i + 1 < n
      · rw [Nat.mod_eq_of_lt hi]; exact hs
      · have e : i + 1 = n := by omega
        rw [e, Nat.mod_self, ← hs, e, ← hC']
        unfold chalMember
        rw [← hrl, List.take_length, hcl]
        rfl
    have h0 : C' 0 = sig.C := by rw [← hC']; rfl
    let alpha : F := sig.S.getD j 0 + C' j * sK
    let s : Nat → F := fun i => sig.S.getD i 0
    obtain ⟨C, sig', g1, g2, g3, g4, g5, g6⟩ := hsign alpha s
    have hpk : sig'.pubKeys = sig.pubKeys := by rw [g4, h2]
    have hI : sig'.I = sig.I := by rw [g2, h1]
    have hS' : sig'.S.length = n := by rw [g5]; simp [preS]
    have hpl' : sig'.pubKeys.length = n := by rw [hpk, hpl]
    have hSi : ∀ i (h : i < n), i ≠ j → sig'.S[i]'(by omega) = sig.S[i]'(by omega) := by
      intro i h hne
      have : sig'.S[i]? = sig.S[i]? := by
        rw [g5, List.getElem?_set_ne (Ne.symm hne)]
        by_cases hi0 : i = 0
        · subst hi0
          rw [h4 (Ne.symm hne)]
          simp [preS, hn0]
        · simp [preS, h, hi0, s, List.getD_eq_getElem?_getD, show i < sig.S.length by omega]
      rw [List.getElem?_eq_getElem (by omega), List.getElem?_eq_getElem (by omega)] at this
      exact Option.some.inj this
    have hSj' : sig'.S[j]'(by omega) = -(C j * sK) + alpha := by
      have : sig'.S[j]? = some (-(C j * sK) + alpha) := by
        rw [g5, List.getElem?_set_self (by simp [preS, hjn])]
      rw [List.getElem?_eq_getElem (by omega)] at this
      exact Option.some.inj this
    have hSj : sig.S[j]'(by omega) = -(C' j * sK) + alpha := by
      simp only [alpha, List.getD_eq_getElem?_getD, show j < sig.S.length by omega, List.getElem?_eq_getElem, Option.getD_some]
      ring
    have hCC : ∀ i < n, C i = C' i := by
      refine Mlsag.cycle_unique hjn C C' (fun i c => link R V m sig.I (sig.pubKeys.getD i V.zero) (sig.S.getD i 0) c) ?_ ?_ ?_
      · rw [g6 j (by omega) (by omega), hstep j hjn, hSj', hSj, hgetP _ g4, hgetP _ h2, hI, h1]
        exact link_signer hV m sK alpha _ _
      · intro i hi hne
        rw [g6 i (by omega) (by omega), hSi i hi hne, hI]
        simp [List.getD_eq_getElem?_getD, show i < sig.S.length by omega, show i < sig.pubKeys.length by omega, hpk]
      · intro i hi hne
        rw [hstep i hi]
        simp [List.getD_eq_getElem?_getD, show i < sig.S.length by omega, show i < sig.pubKeys.length by omega]
    refine ⟨alpha, s, ?_⟩
    rw [g1]
    have hS : sig'.S = sig.S := by
      apply List.ext_getElem
      · omega
      · intro i a b
        by_cases hi : i = j
        · subst hi
          rw [hSj', hSj, hCC i hjn]
        · exact hSi i (by omega) hi
    have hC0 : sig'.C = sig.C := by rw [g3, hCC 0 hn0, h0]
    cases sig
    cases sig'
    simp only at hS hC0 hpk hI
    rw [hS, hC0, hpk, hI]
  · intro alpha s alpha' s'
    constructor
    · intro h
      obtain ⟨C, sig, a1, a2, a3, a4, a5, a6⟩ := hsign alpha s
      obtain ⟨C', sig', b1, b2, b3, b4, b5, b6⟩ := hsign alpha' s'
      rw [a1, b1] at h
      cases Res.ok.inj h
      have hpl : sig.pubKeys.length = n := by rw [a4]; simp
      have hsl : sig.S.length = n := by rw [a5]; simp [preS]
      have hCC : ∀ i, i < n → C i = C' i := by
        intro i
        induction i with
        | zero => intro _; rw [← a3, b3]
        | succ i ih =>
          intro hi
          have e1 := a6 i (by omega) (by omega)
          have e2 := b6 i (by omega) (by omega)
          rw [Nat.mod_eq_of_lt hi] at e1 e2
          rw [e1, e2, ih (by omega)]
      have e := a5.symm.trans b5
      refine ⟨?_, fun i hi h0 hne => ?_⟩
      · have := congrArg (fun l => l[j]?) e
        rw [List.getElem?_set_self (by simp [preS, hjn]), List.getElem?_set_self (by simp [preS, hjn]), hCC j hjn] at this
        exact add_left_cancel (Option.some.inj this)
      · have := congrArg (fun l => l[i]?) e
        rw [List.getElem?_set_ne (Ne.symm hne), List.getElem?_set_ne (Ne.symm hne)] at this
        simpa [preS, hi, h0] using this
    · rintro ⟨rfl, h⟩
      obtain ⟨C, sig, a1, a2, a3, a4, a5, a6⟩ := hsign alpha s
      obtain ⟨C', sig', b1, b2, b3, b4, b5, b6⟩ := hsign alpha s'
      have hpl : sig.pubKeys.length = n := by rw [a4]; simp
      have hsl : sig.S.length = n := by rw [a5]; simp [preS]
      have hpl' : sig'.pubKeys.length = n := by rw [b4]; simp
      have hsl' : sig'.S.length = n := by rw [b5]; simp [preS]
      have hpre : ∀ i (h : i < n), i ≠ j → sig.S[i]'(by omega) = sig'.S[i]'(by omega) := by
        intro i hi hne
        have : sig.S[i]? = sig'.S[i]? := by
          rw [a5, b5, List.getElem?_set_ne (Ne.symm hne), List.getElem?_set_ne (Ne.symm hne)]
          by_cases h0 : i = 0
          · subst h0
            simp [preS, hi]
          · simp [preS, hi, h0, h i hi h0 hne]
        rw [List.getElem?_eq_getElem (by omega), List.getElem?_eq_getElem (by omega)] at this
        exact Option.some.inj this
      have hSj : sig.S[j]'(by omega) = -(C j * sK) + alpha := by
        have : sig.S[j]? = some (-(C j * sK) + alpha) := by rw [a5, List.getElem?_set_self (by simp [preS, hjn])]
        rw [List.getElem?_eq_getElem (by omega)] at this
        exact Option.some.inj this
      have hSj' : sig'.S[j]'(by omega) = -(C' j * sK) + alpha := by
        have : sig'.S[j]? = some (-(C' j * sK) + alpha) := by rw [b5, List.getElem?_set_self (by simp [preS, hjn])]
        rw [List.getElem?_eq_getElem (by omega)] at this
        exact Option.some.inj this
      have hpk : sig.pubKeys = sig'.pubKeys := by rw [a4, b4]
      have hI : sig.I = sig'.I := by rw [a2, b2]
      have hCC : ∀ i < n, C i = C' i := by
        refine Mlsag.cycle_unique hjn C C' (fun i c => link R V m sig'.I (sig'.pubKeys.getD i V.zero) (sig'.S.getD i 0) c) ?_ ?_ ?_
        · rw [a6 j (by omega) (by omega), b6 j (by omega) (by omega), hSj, hSj', hgetP _ a4, hgetP _ b4, a2, b2]
          exact link_signer hV m sK alpha _ _
        · intro i hi hne
          rw [a6 i (by omega) (by omega), hpre i hi hne, hI]
          simp [List.getD_eq_getElem?_getD, show i < sig'.S.length by omega, show i < sig'.pubKeys.length by omega, hpk]
        · intro i hi hne
          rw [b6 i (by omega) (by omega)]
          simp [List.getD_eq_getElem?_getD, show i < sig'.S.length by omega, show i < sig'.pubKeys.length by omega]
      rw [a1, b1]
      have hS : sig.S = sig'.S := by
        apply List.ext_getElem
        · omega
        · intro i a b
          by_cases hi : i = j
          · subst hi
            rw [hSj', hSj, hCC i hjn]
          · exact hpre i (by omega) hi
      have hC0 : sig.C = sig'.C := by rw [a3, b3, hCC 0 hn0]
      cases sig
      cases sig'
      simp only at hS hC0 hpk hI
      rw [hS, hC0, hpk, hI]

/-- The positions whose responses are drawn, with the signer's own position standing for `alpha`. -/
def drawn (n j : Nat) : Finset (Fin n) := Finset.univ.filter fun i => i.1 = j ∨ i.1 ≠ 0

/-- C108: over a finite field there are `|F|^n` such signatures for a signer at the first position, and `|F|^(n-1)` for each other
position. -/
theorem C108_count [Finite F] {R : Ristretto F G} {V : Raw F G P} (hV : V.Lawful R) (m : Bytes) (mixin : List P) (sK : F) (pos : Nat) :
    Nat.card {sig // ∃ alpha s, sign R V m mixin sK ⟨pos, alpha, s⟩ = .ok sig} =
      Nat.card F ^ (if pos % (mixin.length + 1) = 0 then mixin.length + 1 else mixin.length) := by
  obtain ⟨p1, -, p3⟩ := C108_exact hV m mixin sK pos
  generalize hn : mixin.length + 1 = n at *
  generalize hj : pos % n = j at *
  have hjn : j < n := by rw [← hj]; exact Nat.mod_lt _ (by omega)
  obtain ⟨alphaOf, ha⟩ : ∃ g : (drawn n j → F) → F, ∀ f, g f = f ⟨⟨j, hjn⟩, by simp [drawn]⟩ := ⟨_, fun _ => rfl⟩
  obtain ⟨sOf, hs⟩ : ∃ g : (drawn n j → F) → Nat → F, ∀ f i (h : i < n) (h0 : i ≠ 0), g f i = f ⟨⟨i, h⟩, by simp [drawn, h0]⟩ :=
    ⟨fun f i => if h : i < n ∧ i ≠ 0 then f ⟨⟨i, h.1⟩, by simp [drawn, h.2]⟩ else 0, fun f i h h0 => by simp [h, h0]⟩
  choose out hout using fun f => p1 (alphaOf f) (sOf f)
  have hb : Function.Bijective (fun f => (⟨out f, _, _, hout f⟩ : {sig // ∃ alpha s, sign R V m mixin sK ⟨pos, alpha, s⟩ = .ok sig})) := by
    constructor
    · intro f g h
      have h : out f = out g := congrArg Subtype.val h
      obtain ⟨e1, e2⟩ := (p3 (alphaOf f) (sOf f) (alphaOf g) (sOf g)).1 ((hout f).trans (by rw [h]; exact (hout g).symm))
      funext i
      by_cases hi : i.1.1 = j
      · rw [ha, ha] at e1
        have : i = ⟨⟨j, hjn⟩, by simp [drawn]⟩ := Subtype.ext (Fin.ext hi)
        rw [this]
        exact e1
      · have h0 : i.1.1 ≠ 0 := by
          have := i.2
          simp only [drawn, Finset.mem_filter, Finset.mem_univ, true_and] at this
          exact this.resolve_left hi
        have := e2 i.1.1 i.1.2 h0 hi
        rwa [hs f _ i.1.2 h0, hs g _ i.1.2 h0] at this
    · rintro ⟨sig, alpha, s, h⟩
      generalize hg : (fun i : drawn n j => if i.1.1 = j then alpha else s i.1.1) = g
      refine ⟨g, Subtype.ext ?_⟩
      have e := (p3 (alphaOf g) (sOf g) alpha s).2
        ⟨by rw [ha, ← hg]; simp, fun i hi h0 hne => by rw [hs g i hi h0, ← hg]; simp [hne]⟩
      exact Res.ok.inj ((hout g).symm.trans (e.trans h))
  rw [← Nat.card_congr (Equiv.ofBijective _ hb), Nat.card_fun, Nat.card_eq_fintype_card (α := drawn n j), Fintype.card_coe]
  congr 1
  obtain ⟨k, rfl⟩ : ∃ k, n = k + 1 := ⟨n - 1, by omega⟩
  split
  · next h0 =>
    rw [show drawn (k + 1) j = Finset.univ by ext i; simp [drawn, h0]; omega]
    simp
  · next h0 =>
    rw [show drawn (k + 1) j = Finset.univ.erase 0 by
      ext i
      simp only [drawn, Finset.mem_filter, Finset.mem_univ, true_and, Finset.mem_erase, and_true, ne_eq, Fin.ext_iff, Fin.val_zero]
      omega]
    rw [Finset.card_erase_of_mem (Finset.mem_univ _)]
    simp
    omega

/-- C108 (violated): with the first response a signature reveals whether its signer is at the first position: it is zero for all
signatures of the others; for a signer there, for all choices of the other responses, it is zero for at most one `alpha` for each value of the
challenge. -/
theorem C108_first_violated {R : Ristretto F G} {V : Raw F G P} (hV : V.Lawful R) (m : Bytes) (mixin : List P) (sK alpha : F) (s : Nat → F)
    (pos : Nat) (sig : RingSignature F P) (h : sign R V m mixin sK ⟨pos, alpha, s⟩ = .ok sig) :
    (pos % (mixin.length + 1) ≠ 0 → sig.S[0]? = some 0) ∧
    (pos % (mixin.length + 1) = 0 → (sig.S[0]? = some 0 ↔ alpha = sig.C * sK)) := by
  obtain ⟨C, sig', g1, g2, g3, g4, g5, g6⟩ := sign_eq hV m mixin sK ⟨pos, alpha, s⟩
  rw [h] at g1
  cases Res.ok.inj g1
  dsimp only at g5
  refine ⟨(((C108_exact hV m mixin sK pos).2.1 sig).1 ⟨alpha, s, h⟩).1.first, fun h0 => ?_⟩
  rw [h0] at g5
  rw [g5, List.getElem?_set_self (by simp [preS]), g3, Option.some.injEq, neg_add_eq_zero, eq_comm]

/-- Three members, signer at position 1. -/
example (m : Bytes) (sK alpha : Toy.K) (s : Nat → Toy.K) : ∃ sig, sign Toy.ris toyRaw m [some 5, some 6] sK ⟨1, alpha, s⟩ = .ok sig ∧ sig.S[0]? = some 0 := by
  obtain ⟨sig, h⟩ := (C108_exact toyRaw_lawful m [some 5, some 6] sK 1).1 alpha s
  exact ⟨sig, h, (C108_first_violated toyRaw_lawful m [some 5, some 6] sK alpha s 1 sig h).1 (by decide)⟩

end Dusk.Blsag
