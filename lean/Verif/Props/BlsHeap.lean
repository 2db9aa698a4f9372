import Verif.Lemmas.BlsHeap
/-!
# C45: in-place aggregation changes its receiver only

Histories of calls over shared handles, started in a program that holds no BLS object yet.
-/

namespace Dusk.Bls

set_option linter.unusedSectionVars false

variable {F G1 G2 GT : Type} [Field F] [AddCommGroup G1] [AddCommGroup G2] [AddCommGroup GT]
  [Module F G1] [Module F G2] [Module F GT]
variable (P : Bn256 F G1 G2 GT) (A : Hash.Algs)

/-- A heap some history of calls produces. -/
def Reachable (h : Heap G1 G2) : Prop := ∃ os, Heap.run P A {} os = .ok h

/-- The `PublicKey` object a call writes to: the receiver of an in-place method. -/
def writesPk (h : Heap G1 G2) : HOp → Option Nat
  | .apkAggregate a _ => h.apk[a]?
  | .apkAggregateBytes a _ => h.apk[a]?
  | .apkUnmarshal a _ => h.apk[a]?
  | .pkUnmarshal i _ => some i
  | _ => none

/-- The `Signature` object a call writes to. -/
def writesSig : HOp → Option Nat
  | .sigAggregate s _ => some s
  | .sigAdd s _ _ => some s
  | .sigAggregateBytes s _ => some s
  | .sigUnmarshal s _ => some s
  | _ => none

/-- The `UnsafeSignature` object a call writes to. -/
def writesUsig : HOp → Option Nat
  | .usigUnmarshal u _ => some u
  | _ => none

theorem Reachable.inv {h : Heap G1 G2} (hr : Reachable P A h) : h.Inv := by
  obtain ⟨os, e⟩ := hr
  have := Heap.run_sim P A os {} Heap.inv_empty
  rw [e] at this
  generalize Store.run P A _ os = s at this
  cases this with
  | ok hi _ => exact hi

/-- **C45.** Every history of calls on shared handles produces exactly the values that the same calls produce
when every handle holds a value of its own and in-place methods assign to their receiver; it panics exactly
when that computation does. -/
theorem C45_history (os : List HOp) :
    (Heap.run (G1 := G1) (G2 := G2) P A {} os).map Heap.view = Store.run P A {} os := by
  have := Heap.run_sim P A os {} Heap.inv_empty
  have e : (({} : Heap G1 G2)).view = {} := rfl
  rw [e] at this
  generalize Heap.run P A {} os = r at this
  generalize Store.run P A {} os = s at this
  cases this with
  | ok _ hs => rw [hs]; rfl
  | panic => rfl

theorem addApk_frame {s s' : Store G1 G2} {a : Apk G2} (e : s.addApk a = .ok s') :
    (∀ i, i < s.pk.length → s'.pk[i]? = s.pk[i]?) ∧ s'.sig = s.sig ∧ s'.usig = s.usig ∧ s.apk <+: s'.apk ∧
      ∃ v, a.pk = some v ∧ s' = { s with pk := s.pk ++ [v], apk := s.apk ++ [s.pk.length] } := by
  rcases a with ⟨_ | v⟩
  · cases e
  · simp only [Store.addApk, deref_some, Res.bind_ok, Res.ok.injEq] at e
    subst e
    exact ⟨fun i hi => by simp [hi, List.getElem?_append_left], rfl, rfl, by simp, v, rfl, rfl⟩

theorem setApk_frame {s s' : Store G1 G2} {a : Nat} {v : Option (Apk G2)} (e : s.setApk a v = .ok s') :
    (∀ i, s.apk[a]? ≠ some i → s'.pk[i]? = s.pk[i]?) ∧ s'.sig = s.sig ∧ s'.usig = s.usig ∧ s'.apk = s.apk := by
  simp only [Store.setApk, Res.bind_eq_ok] at e
  obtain ⟨p, hp, v, -, w, -, e⟩ := e
  rw [Res.ok.injEq] at e
  subst e
  rw [idx_eq_ok] at hp
  refine ⟨fun i hi => ?_, rfl, rfl, rfl⟩
  rw [List.getElem?_set_ne]
  rintro rfl
  exact hi hp

theorem settle_ok {α β : Type} {r : Res α} {k : Res β} {b : β} (e : Store.settle r k = .ok b) : k = .ok b := by
  cases r
  · exact e
  · exact e
  · cases e

/-- The effect of one call on the values. -/
theorem store_frame {s s' : Store G1 G2} {h : Heap G1 G2} (hv : s.apk = h.apk) {o : HOp}
    (e : s.step P A o = .ok s') :
    (∀ i, i < s.pk.length → writesPk h o ≠ some i → s'.pk[i]? = s.pk[i]?) ∧
    (∀ i, i < s.sig.length → writesSig o ≠ some i → s'.sig[i]? = s.sig[i]?) ∧
    (∀ i, i < s.usig.length → writesUsig o ≠ some i → s'.usig[i]? = s.usig[i]?) ∧
    s.apk <+: s'.apk := by
  cases o with
  | genKeyPair x =>
    simp only [Store.step, Bls.genKeyPair, Res.bind_ok, Res.ok.injEq] at e
    subst e
    exact ⟨fun i hi _ => by simp [Store.addPk, List.getElem?_append_left hi], fun _ _ _ => rfl, fun _ _ _ => rfl,
      List.prefix_refl _⟩
  | unmarshalPk b =>
    simp only [Store.step] at e
    split at e <;> cases e
    · exact ⟨fun i hi _ => by simp [Store.addPk, List.getElem?_append_left hi], fun _ _ _ => rfl, fun _ _ _ => rfl,
        List.prefix_refl _⟩
    · exact ⟨fun _ _ _ => rfl, fun _ _ _ => rfl, fun _ _ _ => rfl, List.prefix_refl _⟩
  | unmarshalApk b =>
    simp only [Store.step] at e
    split at e
    · obtain ⟨h1, h2, h3, h4, -⟩ := addApk_frame e
      exact ⟨fun i hi _ => h1 i hi, fun _ _ _ => by rw [h2], fun _ _ _ => by rw [h3], h4⟩
    · cases e; exact ⟨fun _ _ _ => rfl, fun _ _ _ => rfl, fun _ _ _ => rfl, List.prefix_refl _⟩
    · cases e
  | unmarshalSignature b =>
    simp only [Store.step] at e
    split at e <;> cases e
    · exact ⟨fun _ _ _ => rfl, fun i hi _ => by simp [Store.addSig, List.getElem?_append_left hi],
        fun _ _ _ => rfl, List.prefix_refl _⟩
    · exact ⟨fun _ _ _ => rfl, fun _ _ _ => rfl, fun _ _ _ => rfl, List.prefix_refl _⟩
  | newApk i =>
    simp only [Store.step, Res.bind_eq_ok] at e
    obtain ⟨v, -, r, -, a, -, e⟩ := e
    obtain ⟨h1, h2, h3, h4, -⟩ := addApk_frame e
    exact ⟨fun i hi _ => h1 i hi, fun _ _ _ => by rw [h2], fun _ _ _ => by rw [h3], h4⟩
  | apkLiteral i =>
    simp only [Store.step, Res.bind_eq_ok] at e
    obtain ⟨v, -, e⟩ := e
    cases e
    exact ⟨fun _ _ _ => rfl, fun _ _ _ => rfl, fun _ _ _ => rfl, by simp⟩
  | apkCopy a =>
    simp only [Store.step, Res.bind_eq_ok] at e
    obtain ⟨v, -, r, -, e⟩ := e
    obtain ⟨h1, h2, h3, h4, -⟩ := addApk_frame e
    exact ⟨fun i hi _ => h1 i hi, fun _ _ _ => by rw [h2], fun _ _ _ => by rw [h3], h4⟩
  | apkAggregate a i =>
    simp only [Store.step, Res.bind_eq_ok] at e
    obtain ⟨v, -, r, -, e⟩ := e
    obtain ⟨h1, h2, h3, h4⟩ := setApk_frame (settle_ok e)
    exact ⟨fun j _ hw => h1 j (by rw [hv]; exact hw), fun _ _ _ => by rw [h2], fun _ _ _ => by rw [h3],
      by rw [h4]⟩
  | apkAggregateBytes a b =>
    simp only [Store.step, Res.bind_eq_ok] at e
    obtain ⟨r, -, e⟩ := e
    obtain ⟨h1, h2, h3, h4⟩ := setApk_frame (settle_ok e)
    exact ⟨fun j _ hw => h1 j (by rw [hv]; exact hw), fun _ _ _ => by rw [h2], fun _ _ _ => by rw [h3],
      by rw [h4]⟩
  | aggregateApk i is =>
    simp only [Store.step, Res.bind_eq_ok] at e
    obtain ⟨v, -, r, -, a, -, e⟩ := e
    obtain ⟨h1, h2, h3, h4, -⟩ := addApk_frame e
    exact ⟨fun i hi _ => h1 i hi, fun _ _ _ => by rw [h2], fun _ _ _ => by rw [h3], h4⟩
  | pkAggregate i j =>
    simp only [Store.step, Res.bind_eq_ok] at e
    obtain ⟨a, -, b, -, c, -, e⟩ := e
    cases e
    exact ⟨fun i hi _ => by simp [Store.addPk, List.getElem?_append_left hi], fun _ _ _ => rfl, fun _ _ _ => rfl,
      List.prefix_refl _⟩
  | pkUnmarshal i b =>
    simp only [Store.step, Res.bind_eq_ok] at e
    obtain ⟨a, -, e⟩ := e
    cases e
    refine ⟨fun j hj hw => ?_, fun _ _ _ => rfl, fun _ _ _ => rfl, List.prefix_refl _⟩
    exact List.getElem?_set_ne fun h' => hw (by rw [writesPk, h'])
  | apkUnmarshal a b =>
    simp only [Store.step, Res.bind_eq_ok] at e
    obtain ⟨r, -, e⟩ := e
    obtain ⟨h1, h2, h3, h4⟩ := setApk_frame e
    exact ⟨fun j _ hw => h1 j (by rw [hv]; exact hw), fun _ _ _ => by rw [h2], fun _ _ _ => by rw [h3],
      by rw [h4]⟩
  | sign x i m =>
    simp only [Store.step, Res.bind_eq_ok] at e
    obtain ⟨a, -, b, -, e⟩ := e
    cases e
    exact ⟨fun _ _ _ => rfl, fun i hi _ => by simp [Store.addSig, List.getElem?_append_left hi],
      fun _ _ _ => rfl, List.prefix_refl _⟩
  | sigCopy i =>
    simp only [Store.step, Res.bind_eq_ok] at e
    obtain ⟨a, -, b, -, e⟩ := e
    cases e
    exact ⟨fun _ _ _ => rfl, fun i hi _ => by simp [Store.addSig, List.getElem?_append_left hi],
      fun _ _ _ => rfl, List.prefix_refl _⟩
  | sigAggregate i j =>
    simp only [Store.step, Res.bind_eq_ok] at e
    obtain ⟨a, -, b, -, c, -, e⟩ := e
    cases e
    exact ⟨fun _ _ _ => rfl, fun k hk hw => List.getElem?_set_ne fun h' => hw (by rw [writesSig, h']),
      fun _ _ _ => rfl, List.prefix_refl _⟩
  | sigAdd i p u =>
    simp only [Store.step, Res.bind_eq_ok] at e
    obtain ⟨a, -, b, -, c, -, e⟩ := e
    cases settle_ok e
    exact ⟨fun _ _ _ => rfl, fun k hk hw => List.getElem?_set_ne fun h' => hw (by rw [writesSig, h']),
      fun _ _ _ => rfl, List.prefix_refl _⟩
  | sigAggregateBytes i b =>
    simp only [Store.step, Res.bind_eq_ok] at e
    obtain ⟨c, -, e⟩ := e
    cases settle_ok e
    exact ⟨fun _ _ _ => rfl, fun k hk hw => List.getElem?_set_ne fun h' => hw (by rw [writesSig, h']),
      fun _ _ _ => rfl, List.prefix_refl _⟩
  | sigUnmarshal i b =>
    simp only [Store.step, Res.bind_eq_ok] at e
    obtain ⟨c, -, e⟩ := e
    cases e
    exact ⟨fun _ _ _ => rfl, fun k hk hw => List.getElem?_set_ne fun h' => hw (by rw [writesSig, h']),
      fun _ _ _ => rfl, List.prefix_refl _⟩
  | unsafeSign x m =>
    simp only [Store.step, Res.bind_eq_ok] at e
    obtain ⟨a, -, e⟩ := e
    cases e
    exact ⟨fun _ _ _ => rfl, fun _ _ _ => rfl,
      fun i hi _ => by simp [Store.addUsig, List.getElem?_append_left hi], List.prefix_refl _⟩
  | unsafeAggregate u v =>
    simp only [Store.step, Res.bind_eq_ok] at e
    obtain ⟨a, -, b, -, c, -, e⟩ := e
    cases e
    exact ⟨fun _ _ _ => rfl, fun _ _ _ => rfl,
      fun i hi _ => by simp [Store.addUsig, List.getElem?_append_left hi], List.prefix_refl _⟩
  | unsafeBatch us =>
    simp only [Store.step, Res.bind_eq_ok] at e
    obtain ⟨a, -, b, -, e⟩ := e
    split at e <;> cases e
    · exact ⟨fun _ _ _ => rfl, fun _ _ _ => rfl, fun _ _ _ => rfl, List.prefix_refl _⟩
    · exact ⟨fun _ _ _ => rfl, fun _ _ _ => rfl, fun _ _ _ => rfl, List.prefix_refl _⟩
    · exact ⟨fun _ _ _ => rfl, fun _ _ _ => rfl,
        fun i hi _ => by simp [Store.addUsig, List.getElem?_append_left hi], List.prefix_refl _⟩
  | usigUnmarshal u b =>
    simp only [Store.step, Res.bind_eq_ok] at e
    obtain ⟨c, -, e⟩ := e
    cases e
    exact ⟨fun _ _ _ => rfl, fun _ _ _ => rfl,
      fun k hk hw => List.getElem?_set_ne fun h' => hw (by rw [writesUsig, h']), List.prefix_refl _⟩

/-- **C45.** After any history, a call leaves every public key, signature and unsafe signature except its
receiver as it was; existing `Apk`s keep embedding the same public key object. -/
theorem C45_frame {h h' : Heap G1 G2} (hr : Reachable P A h) {o : HOp} (e : h.step P A o = .ok h') :
    (∀ i, i < h.pk.length → writesPk h o ≠ some i → h'.rdPk i = h.rdPk i) ∧
    (∀ s, s < h.sig.length → writesSig o ≠ some s → h'.rdSig s = h.rdSig s) ∧
    (∀ u, u < h.usig.length → writesUsig o ≠ some u → h'.rdUsig u = h.rdUsig u) ∧
    (∀ a, a < h.apk.length → h'.apk[a]? = h.apk[a]?) := by
  have hi := hr.inv
  have hs := Heap.step_sim P A hi o
  rw [e] at hs
  generalize hst : h.view.step P A o = s' at hs
  cases hs with
  | ok hi' hs =>
    subst hs
    obtain ⟨h1, h2, h3, h4⟩ := store_frame P A (h := h) rfl hst
    refine ⟨fun i hl hw => ?_, fun i hl hw => ?_, fun i hl hw => ?_, fun a ha => ?_⟩
    · rw [Heap.rdPk_view hi, Heap.rdPk_view hi', idx, idx, h1 i (by simpa [Heap.view] using hl) hw]
    · rw [Heap.rdSig_view hi, Heap.rdSig_view hi', idx, idx, h2 i (by simpa [Heap.view] using hl) hw]
    · rw [Heap.rdUsig_view hi, Heap.rdUsig_view hi', idx, idx, h3 i (by simpa [Heap.view] using hl) hw]
    · obtain ⟨t, ht⟩ := h4
      have : h'.apk = h.apk ++ t := ht.symm
      rw [this, List.getElem?_append_left ha]

theorem Reachable.step {h h' : Heap G1 G2} (hr : Reachable P A h) {o : HOp} (e : h.step P A o = .ok h') :
    Reachable P A h' := by
  obtain ⟨os, eo⟩ := hr
  refine ⟨os ++ [o], ?_⟩
  have : ∀ (os : List HOp) (k : Heap G1 G2), k.run P A os = .ok h → k.run P A (os ++ [o]) = .ok h' := by
    intro os
    induction os with
    | nil =>
      intro k hk
      simp only [Heap.run, Res.ok.injEq] at hk
      subst hk
      simp [Heap.run, e]
    | cons q os ih =>
      intro k hk
      simp only [Heap.run, Res.bind_eq_ok] at hk
      obtain ⟨k', e1, e2⟩ := hk
      simp only [List.cons_append, Heap.run, e1, Res.bind_ok]
      exact ih k' e2
  exact this os _ eo

theorem view_step {h h' : Heap G1 G2} (hr : Reachable P A h) {o : HOp} (e : h.step P A o = .ok h') :
    h.view.step P A o = .ok h'.view ∧ h'.Inv := by
  have hs := Heap.step_sim P A hr.inv o
  rw [e] at hs
  generalize h.view.step P A o = s' at hs
  cases hs with
  | ok hi' hs => exact ⟨by rw [hs], hi'⟩

theorem step_of_view {h : Heap G1 G2} (hr : Reachable P A h) {o : HOp} {s : Store G1 G2}
    (e : h.view.step P A o = .ok s) : ∃ h', h.step P A o = .ok h' ∧ h'.Inv ∧ h'.view = s := by
  have hs := Heap.step_sim P A hr.inv o
  rw [e] at hs
  obtain ⟨h', e1, e2, e3⟩ := Heap.Sim.eq_ok hs
  exact ⟨h', e1, e2, e3.symm⟩

theorem rdPk_some {h : Heap G1 G2} (hi : h.Inv) {i : Nat} {v : PublicKey G2} (e : h.rdPk i = .ok v) :
    h.view.pk[i]? = some v ∧ i < h.pk.length := by
  rw [Heap.rdPk_view hi, idx_eq_ok] at e
  exact ⟨e, by rw [← Heap.view_pk_length]; exact (List.getElem?_eq_some_iff.1 e).1⟩

theorem rdSig_some {h : Heap G1 G2} (hi : h.Inv) {i : Nat} {v : Signature G1} (e : h.rdSig i = .ok v) :
    h.view.sig[i]? = some v ∧ i < h.sig.length := by
  rw [Heap.rdSig_view hi, idx_eq_ok] at e
  exact ⟨e, by rw [← Heap.view_sig_length]; exact (List.getElem?_eq_some_iff.1 e).1⟩

/-- **C45.** What happens to the receiver: aggregating a key `q` into an `Apk` of value `g` makes its value
`g + H₁(q) q`; this also holds when the key is the one the `Apk` embeds. -/
theorem C45_apk_receiver {h : Heap G1 G2} (hr : Reachable P A h) {a p i : Nat} {g q : G2}
    (hp : h.apk[a]? = some p) (hg : h.rdPk p = .ok ⟨.pt g⟩) (hq : h.rdPk i = .ok ⟨.pt q⟩) :
    ∃ h', h.step P A (.apkAggregate a i) = .ok h' ∧
      h'.rdPk p = .ok ⟨.pt (g + (digest A (P.g2Bytes q) : F) • q)⟩ := by
  obtain ⟨hg', hl⟩ := rdPk_some hr.inv hg
  obtain ⟨hq', -⟩ := rdPk_some hr.inv hq
  have hst : h.view.step P A (.apkAggregate a i) =
      .ok { h.view with pk := h.view.pk.set p ⟨.pt (g + (digest A (P.g2Bytes q) : F) • q)⟩ } := by
    have h1 : idx h.view.pk i = .ok ⟨.pt q⟩ := idx_eq_ok.2 hq'
    have h2 : idx h.view.apk a = .ok p := idx_eq_ok.2 hp
    have h3 : idx h.view.pk p = .ok ⟨.pt g⟩ := idx_eq_ok.2 hg'
    simp [Store.step, Store.rdApk, Store.setApk, h1, h2, h3, apk_aggregate_eq, Store.settle]
  obtain ⟨h', e1, e2, e3⟩ := step_of_view P A hr hst
  refine ⟨h', e1, ?_⟩
  rw [Heap.rdPk_view e2, e3, idx_eq_ok]
  simp [Heap.view_pk_length, hl]

/-- **C45.** Aggregating signature `t` into `s` makes the value of `s` the sum; also when `s` and `t` are the
same handle. -/
theorem C45_sig_receiver {h : Heap G1 G2} (hr : Reachable P A h) {s t : Nat} {x y : G1}
    (hx : h.rdSig s = .ok ⟨.pt x⟩) (hy : h.rdSig t = .ok ⟨.pt y⟩) :
    ∃ h', h.step P A (.sigAggregate s t) = .ok h' ∧ h'.rdSig s = .ok ⟨.pt (x + y)⟩ := by
  obtain ⟨hx', hl⟩ := rdSig_some hr.inv hx
  obtain ⟨hy', -⟩ := rdSig_some hr.inv hy
  have hst : h.view.step P A (.sigAggregate s t) =
      .ok { h.view with sig := h.view.sig.set s ⟨.pt (x + y)⟩ } := by
    have h1 : idx h.view.sig s = .ok ⟨.pt x⟩ := idx_eq_ok.2 hx'
    have h2 : idx h.view.sig t = .ok ⟨.pt y⟩ := idx_eq_ok.2 hy'
    simp [Store.step, h1, h2, Signature.aggregate]
  obtain ⟨h', e1, e2, e3⟩ := step_of_view P A hr hst
  refine ⟨h', e1, ?_⟩
  rw [Heap.rdSig_view e2, e3, idx_eq_ok]
  simp [Heap.view_sig_length, hl]

/-- **C45.** `Apk.Copy` of a well-formed `Apk` returns a new handle, with a public key object that did not
exist before and the same value. -/
theorem C45_apk_copy {h : Heap G1 G2} (hr : Reachable P A h) {a p : Nat} {g : G2}
    (hp : h.apk[a]? = some p) (hg : h.rdPk p = .ok ⟨.pt g⟩) :
    ∃ h', h.step P A (.apkCopy a) = .ok h' ∧ h'.apk = h.apk ++ [h.pk.length] ∧
      h'.rdPk h.pk.length = .ok ⟨.pt g⟩ ∧ h'.rdPk p = .ok ⟨.pt g⟩ ∧ p < h.pk.length := by
  obtain ⟨hg', hl⟩ := rdPk_some hr.inv hg
  have hst : h.view.step P A (.apkCopy a) =
      .ok { h.view with pk := h.view.pk ++ [⟨.pt g⟩], apk := h.view.apk ++ [h.view.pk.length] } := by
    have h2 : idx h.view.apk a = .ok p := idx_eq_ok.2 hp
    have h3 : idx h.view.pk p = .ok ⟨.pt g⟩ := idx_eq_ok.2 hg'
    have h4 := P.g2OfBytes_g2Bytes g []
    rw [List.append_nil] at h4
    simp [Store.step, Store.rdApk, h2, h3, Apk.copy, Apk.gx, h4, Store.addApk]
  obtain ⟨h', e1, e2, e3⟩ := step_of_view P A hr hst
  have hap : h'.apk = h'.view.apk := rfl
  refine ⟨h', e1, by rw [hap, e3, Heap.view_pk_length]; rfl, ?_, ?_, hl⟩
  · rw [Heap.rdPk_view e2, e3, idx_eq_ok, ← Heap.view_pk_length]
    simp
  · rw [Heap.rdPk_view e2, e3, idx_eq_ok]
    dsimp only
    rw [List.getElem?_append_left (by rw [Heap.view_pk_length]; exact hl), hg']

/-- **C45.** `Signature.Copy` returns a new handle with the same value. -/
theorem C45_sig_copy {h : Heap G1 G2} (hr : Reachable P A h) {s : Nat} {x : G1}
    (hx : h.rdSig s = .ok ⟨.pt x⟩) :
    ∃ h', h.step P A (.sigCopy s) = .ok h' ∧ h'.sig.length = h.sig.length + 1 ∧
      h'.rdSig h.sig.length = .ok ⟨.pt x⟩ ∧ h'.rdSig s = .ok ⟨.pt x⟩ ∧ s < h.sig.length := by
  obtain ⟨hx', hl⟩ := rdSig_some hr.inv hx
  have hst : h.view.step P A (.sigCopy s) = .ok { h.view with sig := h.view.sig ++ [⟨.pt x⟩] } := by
    have h3 : idx h.view.sig s = .ok ⟨.pt x⟩ := idx_eq_ok.2 hx'
    have h4 := P.g1OfBytes_g1Bytes x []
    rw [List.append_nil] at h4
    simp [Store.step, h3, Signature.copy, h4, Store.addSig]
  obtain ⟨h', e1, e2, e3⟩ := step_of_view P A hr hst
  refine ⟨h', e1, by rw [← Heap.view_sig_length, ← Heap.view_sig_length, e3]; simp, ?_, ?_, hl⟩
  · rw [Heap.rdSig_view e2, e3, idx_eq_ok, ← Heap.view_sig_length]
    simp
  · rw [Heap.rdSig_view e2, e3, idx_eq_ok]
    dsimp only
    rw [List.getElem?_append_left (by rw [Heap.view_sig_length]; exact hl), hx']

theorem pk_length_mono {h h' : Heap G1 G2} (hr : Reachable P A h) {o : HOp} (e : h.step P A o = .ok h') :
    h.pk.length ≤ h'.pk.length ∧ h.sig.length ≤ h'.sig.length := by
  by_contra hc
  obtain ⟨h1, h2⟩ := view_step P A hr e
  rw [← Heap.view_pk_length, ← Heap.view_pk_length, ← Heap.view_sig_length, ← Heap.view_sig_length] at hc
  generalize h.view = s at h1 hc
  generalize h'.view = s' at h1 hc
  clear h2 e hr
  apply hc
  have hap : ∀ {t t' : Store G1 G2} {a : Apk G2}, t.addApk a = .ok t' →
      t.pk.length ≤ t'.pk.length ∧ t.sig.length ≤ t'.sig.length := by
    intro t t' a e
    obtain ⟨-, -, -, -, v, -, rfl⟩ := addApk_frame e
    simp
  have hset : ∀ {t t' : Store G1 G2} {a : Nat} {v : Option (Apk G2)}, t.setApk a v = .ok t' →
      t.pk.length ≤ t'.pk.length ∧ t.sig.length ≤ t'.sig.length := by
    intro t t' a v e
    simp only [Store.setApk, Res.bind_eq_ok] at e
    obtain ⟨p, hp, v, -, w, -, e⟩ := e
    cases e
    simp
  cases o with
  | genKeyPair x => cases h1; simp [Store.addPk]
  | unmarshalPk b => simp only [Store.step] at h1; split at h1 <;> cases h1 <;> simp [Store.addPk]
  | unmarshalApk b =>
    simp only [Store.step] at h1; split at h1
    · exact hap h1
    · cases h1; simp
    · cases h1
  | unmarshalSignature b => simp only [Store.step] at h1; split at h1 <;> cases h1 <;> simp [Store.addSig]
  | newApk i =>
    simp only [Store.step, Res.bind_eq_ok] at h1
    obtain ⟨v, -, r, -, a, -, e⟩ := h1
    exact hap e
  | apkLiteral i =>
    simp only [Store.step, Res.bind_eq_ok] at h1
    obtain ⟨v, -, e⟩ := h1
    cases e; simp
  | apkCopy a =>
    simp only [Store.step, Res.bind_eq_ok] at h1
    obtain ⟨v, -, r, -, e⟩ := h1
    exact hap e
  | apkAggregate a i =>
    simp only [Store.step, Res.bind_eq_ok] at h1
    obtain ⟨v, -, r, -, e⟩ := h1
    exact hset (settle_ok e)
  | apkAggregateBytes a b =>
    simp only [Store.step, Res.bind_eq_ok] at h1
    obtain ⟨r, -, e⟩ := h1
    exact hset (settle_ok e)
  | aggregateApk i is =>
    simp only [Store.step, Res.bind_eq_ok] at h1
    obtain ⟨v, -, r, -, a, -, e⟩ := h1
    exact hap e
  | pkAggregate i j =>
    simp only [Store.step, Res.bind_eq_ok] at h1
    obtain ⟨a, -, b, -, c, -, e⟩ := h1
    cases e; simp [Store.addPk]
  | pkUnmarshal i b =>
    simp only [Store.step, Res.bind_eq_ok] at h1
    obtain ⟨a, -, e⟩ := h1
    cases e; simp
  | apkUnmarshal a b =>
    simp only [Store.step, Res.bind_eq_ok] at h1
    obtain ⟨r, -, e⟩ := h1
    exact hset e
  | sign x i m =>
    simp only [Store.step, Res.bind_eq_ok] at h1
    obtain ⟨a, -, b, -, e⟩ := h1
    cases e; simp [Store.addSig]
  | sigCopy i =>
    simp only [Store.step, Res.bind_eq_ok] at h1
    obtain ⟨a, -, b, -, e⟩ := h1
    cases e; simp [Store.addSig]
  | sigAggregate i j =>
    simp only [Store.step, Res.bind_eq_ok] at h1
    obtain ⟨a, -, b, -, c, -, e⟩ := h1
    cases e; simp
  | sigAdd i p u =>
    simp only [Store.step, Res.bind_eq_ok] at h1
    obtain ⟨a, -, b, -, c, -, e⟩ := h1
    cases settle_ok e; simp
  | sigAggregateBytes i b =>
    simp only [Store.step, Res.bind_eq_ok] at h1
    obtain ⟨c, -, e⟩ := h1
    cases settle_ok e; simp
  | sigUnmarshal i b =>
    simp only [Store.step, Res.bind_eq_ok] at h1
    obtain ⟨c, -, e⟩ := h1
    cases e; simp
  | unsafeSign x m =>
    simp only [Store.step, Res.bind_eq_ok] at h1
    obtain ⟨a, -, e⟩ := h1
    cases e; simp [Store.addUsig]
  | unsafeAggregate u v =>
    simp only [Store.step, Res.bind_eq_ok] at h1
    obtain ⟨a, -, b, -, c, -, e⟩ := h1
    cases e; simp [Store.addUsig]
  | unsafeBatch us =>
    simp only [Store.step, Res.bind_eq_ok] at h1
    obtain ⟨a, -, b, -, e⟩ := h1
    split at e <;> cases e <;> simp [Store.addUsig]
  | usigUnmarshal u b =>
    simp only [Store.step, Res.bind_eq_ok] at h1
    obtain ⟨c, -, e⟩ := h1
    cases e; simp

/-- **C45.** Copies stay independent: whatever happens afterwards, a signature changes only through calls that
have it as receiver. -/
theorem C45_sig_independent : ∀ (os : List HOp) {h h' : Heap G1 G2}, Reachable P A h → h.run P A os = .ok h' →
    ∀ s, s < h.sig.length → (∀ o ∈ os, writesSig o ≠ some s) → h'.rdSig s = h.rdSig s
  | [], h, h', _, e, s, _, _ => by cases e; rfl
  | o :: os, h, h', hr, e, s, hs, hw => by
    simp only [Heap.run, Res.bind_eq_ok] at e
    obtain ⟨k, e1, e2⟩ := e
    rw [C45_sig_independent os (hr.step P A e1) e2 s (Nat.lt_of_lt_of_le hs (pk_length_mono P A hr e1).2)
      fun o ho => hw o (by simp [ho])]
    exact (C45_frame P A hr e1).2.1 s hs (hw o (by simp))

/-- `&bls.Apk{PublicKey: pk}` does not occur. -/
def NoLiteral (os : List HOp) : Prop := ∀ i, HOp.apkLiteral i ∉ os

/-- The public key object a call creates for an `Apk`. -/
theorem apk_step {h h' : Heap G1 G2} (hr : Reachable P A h) {o : HOp} (e : h.step P A o = .ok h')
    (hn : ∀ i, o ≠ .apkLiteral i) :
    h'.apk = h.apk ∨ h'.apk = h.apk ++ [h.pk.length] := by
  obtain ⟨h1, -⟩ := view_step P A hr e
  have e1 : h'.apk = h'.view.apk := rfl
  have e2 : h.apk = h.view.apk := rfl
  rw [e1, e2, ← Heap.view_pk_length]
  generalize h.view = s at h1
  generalize h'.view = s' at h1
  clear e1 e2
  have hap : ∀ {t t' : Store G1 G2} {a : Apk G2}, t.addApk a = .ok t' → t'.apk = t.apk ++ [t.pk.length] := by
    intro t t' a e
    obtain ⟨-, -, -, -, v, -, rfl⟩ := addApk_frame e
    rfl
  have hset : ∀ {t t' : Store G1 G2} {a : Nat} {v : Option (Apk G2)}, t.setApk a v = .ok t' →
      t'.apk = t.apk := fun e => (setApk_frame e).2.2.2
  cases o with
  | genKeyPair x => cases h1; left; rfl
  | unmarshalPk b => simp only [Store.step] at h1; split at h1 <;> cases h1 <;> exact .inl rfl
  | unmarshalApk b =>
    simp only [Store.step] at h1; split at h1
    · exact .inr (hap h1)
    · cases h1; exact .inl rfl
    · cases h1
  | unmarshalSignature b => simp only [Store.step] at h1; split at h1 <;> cases h1 <;> exact .inl rfl
  | newApk i =>
    simp only [Store.step, Res.bind_eq_ok] at h1
    obtain ⟨v, -, r, -, a, -, e⟩ := h1
    exact .inr (hap e)
  | apkLiteral i => exact absurd rfl (hn i)
  | apkCopy a =>
    simp only [Store.step, Res.bind_eq_ok] at h1
    obtain ⟨v, -, r, -, e⟩ := h1
    exact .inr (hap e)
  | apkAggregate a i =>
    simp only [Store.step, Res.bind_eq_ok] at h1
    obtain ⟨v, -, r, -, e⟩ := h1
    exact .inl (hset (settle_ok e))
  | apkAggregateBytes a b =>
    simp only [Store.step, Res.bind_eq_ok] at h1
    obtain ⟨r, -, e⟩ := h1
    exact .inl (hset (settle_ok e))
  | aggregateApk i is =>
    simp only [Store.step, Res.bind_eq_ok] at h1
    obtain ⟨v, -, r, -, a, -, e⟩ := h1
    exact .inr (hap e)
  | pkAggregate i j =>
    simp only [Store.step, Res.bind_eq_ok] at h1
    obtain ⟨a, -, b, -, c, -, e⟩ := h1
    cases e; exact .inl rfl
  | pkUnmarshal i b =>
    simp only [Store.step, Res.bind_eq_ok] at h1
    obtain ⟨a, -, e⟩ := h1
    cases e; exact .inl rfl
  | apkUnmarshal a b =>
    simp only [Store.step, Res.bind_eq_ok] at h1
    obtain ⟨r, -, e⟩ := h1
    exact .inl (hset e)
  | sign x i m =>
    simp only [Store.step, Res.bind_eq_ok] at h1
    obtain ⟨a, -, b, -, e⟩ := h1
    cases e; exact .inl rfl
  | sigCopy i =>
    simp only [Store.step, Res.bind_eq_ok] at h1
    obtain ⟨a, -, b, -, e⟩ := h1
    cases e; exact .inl rfl
  | sigAggregate i j =>
    simp only [Store.step, Res.bind_eq_ok] at h1
    obtain ⟨a, -, b, -, c, -, e⟩ := h1
    cases e; exact .inl rfl
  | sigAdd i p u =>
    simp only [Store.step, Res.bind_eq_ok] at h1
    obtain ⟨a, -, b, -, c, -, e⟩ := h1
    cases settle_ok e; exact .inl rfl
  | sigAggregateBytes i b =>
    simp only [Store.step, Res.bind_eq_ok] at h1
    obtain ⟨c, -, e⟩ := h1
    cases settle_ok e; exact .inl rfl
  | sigUnmarshal i b =>
    simp only [Store.step, Res.bind_eq_ok] at h1
    obtain ⟨c, -, e⟩ := h1
    cases e; exact .inl rfl
  | unsafeSign x m =>
    simp only [Store.step, Res.bind_eq_ok] at h1
    obtain ⟨a, -, e⟩ := h1
    cases e; exact .inl rfl
  | unsafeAggregate u v =>
    simp only [Store.step, Res.bind_eq_ok] at h1
    obtain ⟨a, -, b, -, c, -, e⟩ := h1
    cases e; exact .inl rfl
  | unsafeBatch us =>
    simp only [Store.step, Res.bind_eq_ok] at h1
    obtain ⟨a, -, b, -, e⟩ := h1
    split at e <;> cases e <;> exact .inl rfl
  | usigUnmarshal u b =>
    simp only [Store.step, Res.bind_eq_ok] at h1
    obtain ⟨c, -, e⟩ := h1
    cases e; exact .inl rfl

theorem separate_from : ∀ (os : List HOp) {h h' : Heap G1 G2}, Reachable P A h → NoLiteral os →
    h.run P A os = .ok h' → h.apk.Nodup →
    h'.apk.Nodup ∧ ∀ i, i < h.pk.length → i ∉ h.apk → i ∉ h'.apk
  | [], h, h', _, _, e, hn => by cases e; exact ⟨hn, fun _ _ h => h⟩
  | o :: os, h, h', hr, hl, e, hn => by
    simp only [Heap.run, Res.bind_eq_ok] at e
    obtain ⟨k, e1, e2⟩ := e
    have hk := apk_step P A hr e1 fun i h' => hl i (by simp [h'])
    have hkn : k.apk.Nodup := by
      rcases hk with hk | hk
      · rwa [hk]
      · rw [hk]; exact Heap.nodup_concat hn hr.inv.apkLt
    obtain ⟨h1, h2⟩ := separate_from os (hr.step P A e1) (fun i hi => hl i (by simp [hi])) e2 hkn
    refine ⟨h1, fun i hi hni => h2 i (Nat.lt_of_lt_of_le hi (pk_length_mono P A hr e1).1) ?_⟩
    rcases hk with hk | hk
    · rwa [hk]
    · rw [hk]
      intro hm
      rcases List.mem_append.1 hm with hm | hm
      · exact hni hm
      · rw [List.mem_singleton.1 hm] at hi; exact Nat.lt_irrefl _ hi

/-- **C45.** As long as the client does not build an `Apk` by hand around a key, distinct `Apk`s embed distinct
public keys, and a public key that was not created inside an `Apk` never becomes the one an `Apk` writes to. -/
theorem C45_separate {os os' : List HOp} {h h' : Heap G1 G2} (hl : NoLiteral os) (hl' : NoLiteral os')
    (e : Heap.run P A {} os = .ok h) (e' : h.run P A os' = .ok h') :
    (∀ a b p : Nat, h.apk[a]? = some p → h.apk[b]? = some p → a = b) ∧
    ∀ i, i < h.pk.length → i ∉ h.apk → i ∉ h'.apk := by
  have h0 := separate_from P A os (h := {}) ⟨[], rfl⟩ hl e (by simp)
  refine ⟨fun a b p ha hb => ?_, (separate_from P A os' ⟨os, e⟩ hl' e' h0.1).2⟩
  obtain ⟨h1, h2⟩ := List.getElem?_eq_some_iff.1 ha
  obtain ⟨h3, h4⟩ := List.getElem?_eq_some_iff.1 hb
  exact (List.Nodup.getElem_inj_iff h0.1).1 (h2.trans h4.symm)

/-- **C45.** Aggregating into one `Apk` leaves every other `Apk` and every free-standing public key as it was. -/
theorem C45_apk_independent {os : List HOp} {h h' : Heap G1 G2} (hl : NoLiteral os)
    (e : Heap.run P A {} os = .ok h) {a i : Nat} (e' : h.step P A (.apkAggregate a i) = .ok h') :
    (∀ b p : Nat, h.apk[b]? = some p → b ≠ a → h'.rdPk p = h.rdPk p) ∧
    ∀ j, j < h.pk.length → j ∉ h.apk → h'.rdPk j = h.rdPk j := by
  have hr : Reachable P A h := ⟨os, e⟩
  obtain ⟨h1, -⟩ := C45_separate P A (os' := []) hl (by simp [NoLiteral]) e (h' := h) rfl
  obtain ⟨hf, -⟩ := C45_frame P A hr e'
  refine ⟨fun b p hb hne => ?_, fun j hj hn => hf j hj fun hw => hn (List.mem_of_getElem? hw)⟩
  have hp : p < h.pk.length := hr.inv.apkLt p (List.mem_of_getElem? hb)
  exact hf p hp fun hw => hne (h1 b a p hb hw)

/-- **C45, limit.** With the exported field, a client can build `&bls.Apk{PublicKey: pk}`; aggregating into that
`Apk` changes the key itself, while `NewApk` protects it. -/
theorem C45_literal_shares {h : Heap G1 G2} (hr : Reachable P A h) {i j : Nat} {g q : G2}
    (hg : h.rdPk i = .ok ⟨.pt g⟩) (hq : h.rdPk j = .ok ⟨.pt q⟩) :
    ∃ h', h.run P A [.apkLiteral i, .apkAggregate h.apk.length j] = .ok h' ∧
      h'.rdPk i = .ok ⟨.pt (g + (digest A (P.g2Bytes q) : F) • q)⟩ := by
  have e1 : h.step P A (.apkLiteral i) = .ok { h with apk := h.apk ++ [i] } := by
    simp [Heap.step, hg]
  have hr' := hr.step P A e1
  obtain ⟨h', e2, e3⟩ := C45_apk_receiver P A hr' (a := h.apk.length) (p := i) (i := j) (g := g) (q := q)
    (by simp) hg hq
  exact ⟨h', by simp [Heap.run, e1, e2], e3⟩

/-- The hypotheses are met in every instance: two keys, an `Apk` of the first, a copy, an aggregation of the
second key into the copy; a signature, its copy, an aggregation. -/
example (x y z : Nat) (m : Bytes) :
    ∃ h h' h'' : Heap G1 G2,
      Heap.run P A {} [.genKeyPair x, .genKeyPair y, .newApk 0, .apkCopy 0, .sign z 0 m, .sigCopy 0] = .ok h ∧
      NoLiteral [.genKeyPair x, .genKeyPair y, .newApk 0, .apkCopy 0, .sign z 0 m, .sigCopy 0] ∧
      h.apk = [2, 3] ∧ h.rdPk 3 = h.rdPk 2 ∧ (∃ g, h.rdPk 3 = .ok ⟨.pt g⟩) ∧ (∃ e, h.rdSig 1 = .ok ⟨.pt e⟩) ∧
      h.step P A (.apkAggregate 1 1) = .ok h' ∧ h.step P A (.sigAggregate 1 0) = .ok h'' := by
  have h2 : ∀ g, P.g2OfBytes (P.g2Bytes g) = some (g, []) := fun g => by
    simpa using P.g2OfBytes_g2Bytes g []
  have h1 : ∀ g, P.g1OfBytes (P.g1Bytes g) = some (g, []) := fun g => by
    simpa using P.g1OfBytes_g1Bytes g []
  let g := (x : F) • P.g2
  let a := (digest A (P.g2Bytes g) : F) • g
  let s := (digest A (P.g2Bytes g) : F) • (z : F) • (digest A m : F) • P.g1
  refine ⟨⟨[.pt g, .pt ((y : F) • P.g2), .pt a, .pt a], [0, 1, 2, 3], [2, 3], [.pt s, .pt s], [0, 1], []⟩, ?h', ?h'',
    ?e, by simp [NoLiteral], rfl, rfl, ⟨a, rfl⟩, ⟨s, rfl⟩, ?e', ?e''⟩
  case e =>
    simp only [Heap.run, Heap.step, Heap.newApk, Heap.rdPk, Heap.rdSig, Heap.allocPk, Heap.allocApk, Heap.allocSig, idx,
      Res.bind_ok, List.nil_append, List.cons_append, List.length_cons, List.length_nil, List.getElem?_cons_zero,
      List.getElem?_cons_succ, pkt_eq, Apk.copy, Apk.gx, deref_some, Ptr.get_pt, h2, h1, sign_eq, Signature.copy,
      Nat.zero_add, Nat.reduceAdd, g, a, s]
  case e' =>
    simp only [Heap.step, Heap.apkAggregate, Heap.rdPk, Heap.writePk, idx, Res.bind_ok, List.getElem?_cons_zero,
      List.getElem?_cons_succ, pkt_eq, Ptr.get_pt]
    rfl
  case e'' =>
    simp only [Heap.step, Heap.sigAggregate, Heap.rdSig, Heap.writeSig, idx, Res.bind_ok, List.getElem?_cons_zero,
      List.getElem?_cons_succ, Ptr.get_pt, Signature.aggregate]
    rfl

end Dusk.Bls
