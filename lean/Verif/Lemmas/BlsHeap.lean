import Mathlib.Data.List.Nodup
import Mathlib.Data.List.GetD
import Verif.Spec.BlsHeap
import Verif.Lemmas.Bls
/-!
# The BLS heap behaves like a store of values
-/

namespace Dusk.Bls

set_option linter.unusedSectionVars false

variable {F G1 G2 GT : Type} [Field F] [AddCommGroup G1] [AddCommGroup G2] [AddCommGroup GT]
  [Module F G1] [Module F G2] [Module F GT]
variable (P : Bn256 F G1 G2 GT) (A : Hash.Algs)

/-- No two objects point to the same point, and every pointer is valid. -/
structure Heap.Inv {G1 G2 : Type} (h : Heap G1 G2) : Prop where
  pkNodup : h.pk.Nodup
  pkLt : ∀ c ∈ h.pk, c < h.g2.length
  sigNodup : h.sig.Nodup
  usigNodup : h.usig.Nodup
  disj : ∀ c ∈ h.sig, c ∉ h.usig
  sigLt : ∀ c ∈ h.sig, c < h.g1.length
  usigLt : ∀ c ∈ h.usig, c < h.g1.length
  apkLt : ∀ p ∈ h.apk, p < h.pk.length

theorem idx_map_read {α β : Type} (l : List Nat) (m : List α) (d : α) (f : α → β) (i : Nat)
    (hlt : ∀ c ∈ l, c < m.length) :
    ((idx l i).bind fun c => (idx m c).bind fun v => .ok (f v)) = idx (l.map fun c => f (m.getD c d)) i := by
  by_cases hi : i < l.length
  · rw [idx_of_lt hi, Res.bind_ok, idx_of_lt (hlt _ (List.getElem_mem hi)), Res.bind_ok,
      idx_of_lt (by simpa using hi)]
    rw [List.getElem_map, List.getD_eq_getElem _ _ (hlt _ (List.getElem_mem hi))]
  · rw [idx_of_ge (by omega), idx_of_ge (by simpa using hi)]; rfl

namespace Heap

variable {h : Heap G1 G2}

theorem inv_empty : (⟨[], [], [], [], [], []⟩ : Heap G1 G2).Inv := by constructor <;> simp

theorem rdPk_view (hi : h.Inv) (i : Nat) : h.rdPk i = idx h.view.pk i := idx_map_read _ _ _ _ _ hi.pkLt

theorem rdSig_view (hi : h.Inv) (i : Nat) : h.rdSig i = idx h.view.sig i :=
  idx_map_read _ _ _ _ _ hi.sigLt

theorem rdUsig_view (hi : h.Inv) (i : Nat) : h.rdUsig i = idx h.view.usig i :=
  idx_map_read _ _ _ _ _ hi.usigLt

theorem map_read_append {α β : Type} (l : List Nat) (m : List α) (d v : α) (f : α → β)
    (hlt : ∀ c ∈ l, c < m.length) : (l.map fun c => f ((m ++ [v]).getD c d)) = l.map fun c => f (m.getD c d) := by
  apply List.map_congr_left
  intro c hc
  rw [List.getD_append _ _ _ _ (hlt c hc)]

theorem map_write {α β : Type} (l : List Nat) (m : List α) (d v : α) (f : α → β) (i c : Nat)
    (hlt : ∀ c ∈ l, c < m.length) (hn : l.Nodup) (hc : l[i]? = some c) :
    (l.map fun x => f ((m.set c v).getD x d)) = (l.map fun x => f (m.getD x d)).set i (f v) := by
  obtain ⟨hil, hic⟩ := List.getElem?_eq_some_iff.1 hc
  apply List.ext_getElem (by simp)
  intro j hj hj'
  simp only [List.length_map] at hj
  have hjl := hlt _ (List.getElem_mem hj)
  rw [List.getElem_map, List.getElem_set]
  by_cases e : i = j
  · subst e
    rw [if_pos rfl, List.getD_eq_getElem _ _ (by simpa using hjl), List.getElem_set, if_pos hic.symm]
  · have hne : c ≠ l[j] := by
      rw [← hic]; intro h'; exact e ((List.Nodup.getElem_inj_iff hn).1 h')
    rw [if_neg e, List.getD_eq_getElem _ _ (by simpa using hjl), List.getElem_set, if_neg hne, List.getElem_map,
      List.getD_eq_getElem _ _ hjl]

theorem map_write_other {α β : Type} (l : List Nat) (m : List α) (d v : α) (f : α → β) (c : Nat) (hc : c ∉ l) :
    (l.map fun x => f ((m.set c v).getD x d)) = l.map fun x => f (m.getD x d) := by
  apply List.map_congr_left
  intro x hx
  rw [List.getD_eq_getElem?_getD, List.getD_eq_getElem?_getD, List.getElem?_set_ne]
  rintro rfl; exact hc hx

theorem map_repoint {α β : Type} (l : List Nat) (m : List α) (d v : α) (f : α → β) (i : Nat)
    (hlt : ∀ c ∈ l, c < m.length) :
    ((l.set i m.length).map fun x => f ((m ++ [v]).getD x d)) = (l.map fun x => f (m.getD x d)).set i (f v) := by
  rw [List.map_set, map_read_append _ _ _ _ _ hlt]
  congr 2
  simp [List.getD_eq_getElem?_getD]

theorem nodup_set_fresh {l : List Nat} {n : Nat} (i : Nat) (hn : l.Nodup) (hlt : ∀ c ∈ l, c < n) :
    (l.set i n).Nodup := by
  by_cases hi : i < l.length
  · exact hn.set fun h => absurd (hlt n h) (Nat.lt_irrefl n)
  · rwa [List.set_eq_of_length_le (by omega)]

theorem nodup_concat {l : List Nat} {n : Nat} (hn : l.Nodup) (hlt : ∀ c ∈ l, c < n) : (l ++ [n]).Nodup := by
  rw [List.nodup_append]
  refine ⟨hn, by simp, ?_⟩
  rintro a ha b hb rfl
  simp only [List.mem_singleton] at hb
  subst hb
  exact absurd (hlt _ ha) (Nat.lt_irrefl _)

theorem lt_concat {l : List Nat} {n : Nat} (hlt : ∀ c ∈ l, c < n) : ∀ c ∈ l ++ [n], c < n + 1 := by
  intro c hc
  rcases List.mem_append.1 hc with hc | hc
  · exact Nat.lt_succ_of_lt (hlt c hc)
  · simp only [List.mem_singleton] at hc; omega

theorem lt_set {l : List Nat} {n : Nat} (i : Nat) (hlt : ∀ c ∈ l, c < n) : ∀ c ∈ l.set i n, c < n + 1 := by
  intro c hc
  rcases List.mem_or_eq_of_mem_set hc with hc | rfl
  · exact Nat.lt_succ_of_lt (hlt c hc)
  · omega

theorem notMem_of_lt {l : List Nat} {n : Nat} (hlt : ∀ c ∈ l, c < n) : n ∉ l :=
  fun h => absurd (hlt n h) (Nat.lt_irrefl n)

theorem lt_succ {l : List Nat} {n : Nat} (hlt : ∀ c ∈ l, c < n) : ∀ c ∈ l, c < n + 1 :=
  fun c hc => Nat.lt_succ_of_lt (hlt c hc)

/-! ### The primitive effects -/

theorem allocPk_inv (hi : h.Inv) (v : Ptr G2) : (h.allocPk v).Inv where
  pkNodup := nodup_concat hi.pkNodup hi.pkLt
  pkLt := by simpa [allocPk] using lt_concat hi.pkLt
  sigNodup := hi.sigNodup
  usigNodup := hi.usigNodup
  disj := hi.disj
  sigLt := hi.sigLt
  usigLt := hi.usigLt
  apkLt := by simpa [allocPk] using lt_succ hi.apkLt

theorem allocPk_view (hi : h.Inv) (v : Ptr G2) : (h.allocPk v).view = h.view.addPk ⟨v⟩ := by
  have := map_read_append h.pk h.g2 .nil v PublicKey.mk hi.pkLt
  simp only [view, allocPk, Store.addPk, List.map_append, this]
  simp [List.getD_eq_getElem?_getD]

theorem allocApk_inv (hi : h.Inv) (v : Ptr G2) : (h.allocApk v).Inv :=
  { allocPk_inv hi v with apkLt := by simpa [allocApk, allocPk] using lt_concat hi.apkLt }

theorem allocApk_view (hi : h.Inv) (v : Ptr G2) : h.view.addApk ⟨some ⟨v⟩⟩ = .ok (h.allocApk v).view := by
  have h1 := allocPk_view hi v
  have h2 : (h.allocApk v).view = { (h.allocPk v).view with apk := h.apk ++ [h.pk.length] } := rfl
  rw [h2, h1]
  simp [Store.addApk, Store.addPk, view]

theorem allocSig_inv (hi : h.Inv) (v : Ptr G1) : (h.allocSig v).Inv where
  pkNodup := hi.pkNodup
  pkLt := hi.pkLt
  sigNodup := nodup_concat hi.sigNodup hi.sigLt
  usigNodup := hi.usigNodup
  disj := by
    intro c hc
    rcases List.mem_append.1 hc with hc | hc
    · exact hi.disj c hc
    · rw [List.mem_singleton.1 hc]; exact notMem_of_lt hi.usigLt
  sigLt := by simpa [allocSig] using lt_concat hi.sigLt
  usigLt := by simpa [allocSig] using lt_succ hi.usigLt
  apkLt := hi.apkLt

theorem allocSig_view (hi : h.Inv) (v : Ptr G1) : (h.allocSig v).view = h.view.addSig ⟨v⟩ := by
  have := map_read_append h.sig h.g1 .nil v Signature.mk hi.sigLt
  have h' := map_read_append h.usig h.g1 .nil v UnsafeSignature.mk hi.usigLt
  simp only [view, allocSig, Store.addSig, List.map_append, this, h']
  simp [List.getD_eq_getElem?_getD]

theorem allocUsig_inv (hi : h.Inv) (v : Ptr G1) : (h.allocUsig v).Inv where
  pkNodup := hi.pkNodup
  pkLt := hi.pkLt
  sigNodup := hi.sigNodup
  usigNodup := nodup_concat hi.usigNodup hi.usigLt
  disj := by
    intro c hc hc'
    rcases List.mem_append.1 hc' with hc' | hc'
    · exact hi.disj c hc hc'
    · rw [List.mem_singleton.1 hc'] at hc; exact notMem_of_lt hi.sigLt hc
  sigLt := by simpa [allocUsig] using lt_succ hi.sigLt
  usigLt := by simpa [allocUsig] using lt_concat hi.usigLt
  apkLt := hi.apkLt

theorem allocUsig_view (hi : h.Inv) (v : Ptr G1) : (h.allocUsig v).view = h.view.addUsig ⟨v⟩ := by
  have := map_read_append h.sig h.g1 .nil v Signature.mk hi.sigLt
  have h' := map_read_append h.usig h.g1 .nil v UnsafeSignature.mk hi.usigLt
  simp only [view, allocUsig, Store.addUsig, List.map_append, this, h']
  simp [List.getD_eq_getElem?_getD]

theorem writePk_spec (hi : h.Inv) {i : Nat} (hl : i < h.pk.length) (v : Ptr G2) :
    ∃ h', h.writePk i v = .ok h' ∧ h'.Inv ∧ h'.view = { h.view with pk := h.view.pk.set i ⟨v⟩ } ∧
      h'.pk = h.pk ∧ h'.apk = h.apk := by
  refine ⟨{ h with g2 := h.g2.set h.pk[i] v }, by rw [writePk, idx_of_lt hl]; rfl, ?_, ?_, rfl, rfl⟩
  · exact { hi with pkLt := by simpa using hi.pkLt }
  · have := map_write h.pk h.g2 .nil v PublicKey.mk i h.pk[i] hi.pkLt hi.pkNodup (List.getElem?_eq_getElem hl)
    simp only [view, this]

theorem writeSig_spec (hi : h.Inv) {i : Nat} (hl : i < h.sig.length) (v : Ptr G1) :
    ∃ h', h.writeSig i v = .ok h' ∧ h'.Inv ∧ h'.view = { h.view with sig := h.view.sig.set i ⟨v⟩ } := by
  refine ⟨{ h with g1 := h.g1.set h.sig[i] v }, by rw [writeSig, idx_of_lt hl]; rfl, ?_, ?_⟩
  · exact { hi with sigLt := by simpa using hi.sigLt, usigLt := by simpa using hi.usigLt }
  · have := map_write h.sig h.g1 .nil v Signature.mk i h.sig[i] hi.sigLt hi.sigNodup (List.getElem?_eq_getElem hl)
    have h' := map_write_other h.usig h.g1 .nil v UnsafeSignature.mk h.sig[i] (hi.disj _ (List.getElem_mem hl))
    simp only [view, this, h']

theorem repointPk_inv (hi : h.Inv) (i : Nat) (v : Ptr G2) : (h.repointPk i v).Inv where
  pkNodup := nodup_set_fresh i hi.pkNodup hi.pkLt
  pkLt := by simpa [repointPk] using lt_set i hi.pkLt
  sigNodup := hi.sigNodup
  usigNodup := hi.usigNodup
  disj := hi.disj
  sigLt := hi.sigLt
  usigLt := hi.usigLt
  apkLt := by simpa [repointPk] using hi.apkLt

theorem repointPk_view (hi : h.Inv) (i : Nat) (v : Ptr G2) :
    (h.repointPk i v).view = { h.view with pk := h.view.pk.set i ⟨v⟩ } := by
  have := map_repoint h.pk h.g2 .nil v PublicKey.mk i hi.pkLt
  simp only [view, repointPk, this]

theorem repointSig_inv (hi : h.Inv) (i : Nat) (v : Ptr G1) : (h.repointSig i v).Inv where
  pkNodup := hi.pkNodup
  pkLt := hi.pkLt
  sigNodup := nodup_set_fresh i hi.sigNodup hi.sigLt
  usigNodup := hi.usigNodup
  disj := by
    intro c hc
    rcases List.mem_or_eq_of_mem_set hc with hc | rfl
    · exact hi.disj c hc
    · exact notMem_of_lt hi.usigLt
  sigLt := by simpa [repointSig] using lt_set i hi.sigLt
  usigLt := by simpa [repointSig] using lt_succ hi.usigLt
  apkLt := hi.apkLt

theorem repointSig_view (hi : h.Inv) (i : Nat) (v : Ptr G1) :
    (h.repointSig i v).view = { h.view with sig := h.view.sig.set i ⟨v⟩ } := by
  have := map_repoint h.sig h.g1 .nil v Signature.mk i hi.sigLt
  have h' := map_read_append h.usig h.g1 .nil v UnsafeSignature.mk hi.usigLt
  simp only [view, repointSig, this, h']

theorem repointUsig_inv (hi : h.Inv) (i : Nat) (v : Ptr G1) : (h.repointUsig i v).Inv where
  pkNodup := hi.pkNodup
  pkLt := hi.pkLt
  sigNodup := hi.sigNodup
  usigNodup := nodup_set_fresh i hi.usigNodup hi.usigLt
  disj := by
    intro c hc hc'
    rcases List.mem_or_eq_of_mem_set hc' with hc' | rfl
    · exact hi.disj c hc hc'
    · exact notMem_of_lt hi.sigLt hc
  sigLt := by simpa [repointUsig] using lt_succ hi.sigLt
  usigLt := by simpa [repointUsig] using lt_set i hi.usigLt
  apkLt := hi.apkLt

theorem repointUsig_view (hi : h.Inv) (i : Nat) (v : Ptr G1) :
    (h.repointUsig i v).view = { h.view with usig := h.view.usig.set i ⟨v⟩ } := by
  have := map_read_append h.sig h.g1 .nil v Signature.mk hi.sigLt
  have h' := map_repoint h.usig h.g1 .nil v UnsafeSignature.mk i hi.usigLt
  simp only [view, repointUsig, this, h']

/-! ### Calls -/

/-- The heap call and the call on values end alike: both panic, or the heap keeps its shape and shows the
values. -/
inductive Sim : Res (Heap G1 G2) → Res (Store G1 G2) → Prop
  | ok {h : Heap G1 G2} {s : Store G1 G2} (hi : h.Inv) (hs : s = h.view) : Sim (.ok h) (.ok s)
  | panic : Sim .panic .panic

theorem Sim.eq_panic {r : Res (Heap G1 G2)} (hs : Sim r .panic) : r = .panic := by
  generalize e : (Res.panic : Res (Store G1 G2)) = x at hs
  cases hs
  · cases e
  · rfl

theorem Sim.eq_ok {r : Res (Heap G1 G2)} {s : Store G1 G2} (hs : Sim r (.ok s)) :
    ∃ h', r = .ok h' ∧ h'.Inv ∧ s = h'.view := by
  generalize e : (Res.ok s) = x at hs
  cases hs with
  | ok hi hs => cases e; exact ⟨_, rfl, hi, hs⟩
  | panic => cases e

theorem mapRes_idx {α : Type} (l : List α) : ∀ is : List Nat, (∀ i ∈ is, i < l.length) →
    ∃ vs, mapRes (idx l) is = .ok vs
  | [], _ => ⟨[], rfl⟩
  | i :: is, hl => by
    obtain ⟨vs, e⟩ := mapRes_idx l is fun j hj => hl j (by simp [hj])
    exact ⟨_, by simp only [mapRes, idx_of_lt (hl i (by simp)), e, Res.bind_ok]; rfl⟩

theorem mapRes_idx_lt {α : Type} (l : List α) : ∀ (is : List Nat) (vs : List α), mapRes (idx l) is = .ok vs →
    (∀ i ∈ is, i < l.length)
  | [], _, _ => by simp
  | i :: is, vs, e => by
    simp only [mapRes, Res.bind_eq_ok] at e
    obtain ⟨a, ha, bs, hb, -⟩ := e
    intro j hj
    rcases List.mem_cons.1 hj with rfl | hj
    · rw [idx_eq_ok] at ha; exact (List.getElem?_eq_some_iff.1 ha).1
    · exact mapRes_idx_lt l is bs hb j hj

theorem mapRes_idx_cases {α : Type} (l : List α) (is : List Nat) :
    mapRes (idx l) is = .panic ∨ ∃ vs, mapRes (idx l) is = .ok vs := by
  induction is with
  | nil => right; exact ⟨[], rfl⟩
  | cons i is ih =>
    by_cases hi : i < l.length
    · rcases ih with e | ⟨vs, e⟩
      · left; simp only [mapRes, idx_of_lt hi, e, Res.bind_ok, Res.bind_panic]
      · right; exact ⟨_, by simp only [mapRes, idx_of_lt hi, e, Res.bind_ok]; rfl⟩
    · left; simp only [mapRes, idx_of_ge (Nat.le_of_not_lt hi), Res.bind_panic]

/-- `pkt` either panics or succeeds. -/
theorem pkt_cases (pk : PublicKey G2) : pkt P A (some pk) = .panic ∨ ∃ g, pkt P A (some pk) = .ok g := by
  rcases pk with ⟨_ | _ | g⟩
  · left; rfl
  · left; rfl
  · right; exact ⟨_, pkt_eq P A g⟩

theorem idx_bind_sim {α : Type} {l : List α} {i : Nat} {f : α → Res (Heap G1 G2)} {g : α → Res (Store G1 G2)}
    (H : ∀ a, l[i]? = some a → Sim (f a) (g a)) : Sim ((idx l i).bind f) ((idx l i).bind g) := by
  unfold idx
  cases e : l[i]? with
  | none => exact .panic
  | some a => exact H a e

theorem view_pk_length : h.view.pk.length = h.pk.length := by simp [view]
theorem view_sig_length : h.view.sig.length = h.sig.length := by simp [view]

theorem newApk_sim (hi : h.Inv) (i : Nat) : Sim (h.newApk P A i) (h.view.step P A (.newApk i)) := by
  simp only [newApk, Store.step, rdPk_view hi]
  refine idx_bind_sim fun v _ => ?_
  rcases pkt_cases P A v with e | ⟨g, e⟩
  · simp only [e, Bls.newApk, Res.bind_panic]; exact .panic
  · simp only [e, Bls.newApk, Res.bind_ok, deref_some, allocApk_view hi]
    exact .ok (allocApk_inv hi _) rfl

theorem apkAggregate_sim (hi : h.Inv) (a : Nat) (v : PublicKey G2) :
    Sim (h.apkAggregate P A a v) ((h.view.rdApk a).bind fun r =>
      Store.settle (Apk.aggregate P A (some r) (some v)).1 (h.view.setApk a (Apk.aggregate P A (some r) (some v)).2)) := by
  have hap : h.view.apk = h.apk := rfl
  simp only [apkAggregate, Store.rdApk, Store.setApk, hap]
  by_cases ha : a < h.apk.length
  swap
  · rw [idx_of_ge (by omega)]
    rcases pkt_cases P A v with e | ⟨g, e⟩ <;> rw [e] <;> exact .panic
  have hp := hi.apkLt _ (List.getElem_mem ha)
  have hp' : h.apk[a] < h.view.pk.length := by rwa [view_pk_length]
  simp only [idx_of_lt ha, Res.bind_ok, rdPk_view hi, idx_of_lt hp']
  rcases pkt_cases P A v with e | ⟨g, e⟩
  · simp only [e, Apk.aggregate, Res.bind_panic, Store.settle]; exact .panic
  · simp only [e, Apk.aggregate, Res.bind_ok, deref_some, Apk.gx]
    generalize hw : h.view.pk[h.apk[a]] = w
    rcases w with ⟨_ | _ | q⟩
    · exact .panic
    · exact .panic
    · obtain ⟨h', e1, e2, e3, -, -⟩ := writePk_spec hi hp (.pt (q + g))
      simp only [Ptr.get_pt, Res.bind_ok, e1, Store.settle, deref_some]
      exact .ok e2 e3.symm

theorem aggregateAll_sim (a : Nat) (ha : h.apk.length = a) : ∀ (is : List Nat) (k : Heap G1 G2) (w : PublicKey G2),
    k.Inv → h.view.addApk ⟨some w⟩ = .ok k.view → (∀ i ∈ is, i < h.pk.length) →
    Sim (aggregateAll P A a k is) ((mapRes (idx h.view.pk) is).bind fun vs =>
      (aggregateLoop P A (some ⟨some w⟩) (vs.map some)).bind fun r => (deref r).bind h.view.addApk)
  | [], k, w, hk, hv, _ => by
    simp only [aggregateAll, mapRes, Res.bind_ok, List.map_nil, aggregateLoop, deref_some, hv]
    exact .ok hk rfl
  | i :: is, k, w, hk, hv, hlt => by
    have hil : i < h.view.pk.length := by rw [view_pk_length]; exact hlt i (by simp)
    have ekv := hv
    simp only [Store.addApk, deref_some, Res.bind_ok, Res.ok.injEq] at ekv
    have epk : k.view.pk = h.view.pk ++ [w] := by rw [← ekv]
    have eapk : k.view.apk = h.view.apk ++ [h.view.pk.length] := by rw [← ekv]
    have hik : idx k.view.pk i = .ok h.view.pk[i] := by
      rw [epk, idx_of_lt (by simp; omega), List.getElem_append_left hil]
    simp only [aggregateAll, mapRes, rdPk_view hk, hik, idx_of_lt hil, Res.bind_ok]
    have hs := apkAggregate_sim P A hk a h.view.pk[i]
    have hra : k.view.rdApk a = .ok ⟨some w⟩ := by
      have h1 : idx k.view.apk a = .ok h.view.pk.length := by
        rw [eapk, ← ha, idx_eq_ok]; simp [view]
      have h2 : idx k.view.pk h.view.pk.length = .ok w := by rw [epk, idx_eq_ok]; simp
      rw [Store.rdApk, h1, Res.bind_ok, h2]; rfl
    rw [hra, Res.bind_ok] at hs
    obtain ⟨vs, evs⟩ := mapRes_idx h.view.pk is fun j hj => by
      rw [view_pk_length]; exact hlt j (by simp [hj])
    rw [evs, Res.bind_ok, Res.bind_ok, List.map_cons]
    rcases pkt_cases P A h.view.pk[i] with e | ⟨g, e⟩
    · have e' : Apk.aggregate P A (some ⟨some w⟩) (some h.view.pk[i]) = (.panic, some ⟨some w⟩) := by
        simp [Apk.aggregate, e]
      rw [e'] at hs
      rw [Sim.eq_panic hs]
      simp only [aggregateLoop, e', Res.bind_panic]
      exact .panic
    · rcases w with ⟨_ | _ | q⟩
      · have e' : Apk.aggregate P A (some ⟨some ⟨.nil⟩⟩) (some h.view.pk[i]) = (.panic, some ⟨some ⟨.nil⟩⟩) := by
          simp [Apk.aggregate, e, Apk.gx]
        rw [e'] at hs
        rw [Sim.eq_panic hs]
        simp only [aggregateLoop, e', Res.bind_panic]
        exact .panic
      · have e' : Apk.aggregate P A (some ⟨some ⟨.junk⟩⟩) (some h.view.pk[i]) = (.panic, some ⟨some ⟨.junk⟩⟩) := by
          simp [Apk.aggregate, e, Apk.gx, Ptr.get]
        rw [e'] at hs
        rw [Sim.eq_panic hs]
        simp only [aggregateLoop, e', Res.bind_panic]
        exact .panic
      · have e' : Apk.aggregate P A (some ⟨some ⟨.pt q⟩⟩) (some h.view.pk[i]) =
            (.ok (), some ⟨some ⟨.pt (q + g)⟩⟩) := by
          simp [Apk.aggregate, e, Apk.gx]
        have h1 : idx k.view.apk a = .ok h.view.pk.length := by
          rw [eapk, ← ha, idx_eq_ok]; simp [view]
        rw [e'] at hs
        simp only [Store.settle, Store.setApk, h1, Res.bind_ok, deref_some] at hs
        obtain ⟨k', e1, e2, e3⟩ := Sim.eq_ok hs
        have hv' : h.view.addApk ⟨some ⟨.pt (q + g)⟩⟩ = .ok k'.view := by
          rw [← e3, ← ekv]
          simp [Store.addApk]
        have ih := aggregateAll_sim a ha is k' ⟨.pt (q + g)⟩ e2 hv' fun j hj => hlt j (by simp [hj])
        rw [evs, Res.bind_ok] at ih
        rw [e1, Res.bind_ok]
        simp only [aggregateLoop, e']
        exact ih

theorem mapRes_congr {α β : Type} {f g : α → Res β} (hfg : ∀ a, f a = g a) (l : List α) :
    mapRes f l = mapRes g l := by rw [funext hfg]

theorem copy_apk (v : PublicKey G2) : (∃ g, v = ⟨.pt g⟩ ∧ Apk.copy P ⟨some v⟩ = .ok ⟨some ⟨.pt g⟩⟩) ∨
    Apk.copy P ⟨some v⟩ = .panic := by
  rcases v with ⟨_ | _ | g⟩
  · right; rfl
  · right; rfl
  · left
    have := P.g2OfBytes_g2Bytes g []
    rw [List.append_nil] at this
    exact ⟨g, rfl, by simp [Apk.copy, Apk.gx, this]⟩

theorem copy_sig (v : Signature G1) : (∃ g, v = ⟨.pt g⟩ ∧ v.copy P = .ok ⟨.pt g⟩) ∨ v.copy P = .panic := by
  rcases v with ⟨_ | _ | g⟩
  · right; rfl
  · right; rfl
  · left
    have := P.g1OfBytes_g1Bytes g []
    rw [List.append_nil] at this
    exact ⟨g, rfl, by simp [Signature.copy, this]⟩

theorem sigAggregate_sim (hi : h.Inv) (s : Nat) (o : Signature G1) :
    Sim (h.sigAggregate s o) ((idx h.view.sig s).bind fun a => (a.aggregate o).bind fun c =>
      .ok { h.view with sig := h.view.sig.set s c }) := by
  simp only [sigAggregate, rdSig_view hi]
  refine idx_bind_sim fun a ha => ?_
  have hl : s < h.sig.length := by
    rw [← view_sig_length]; exact (List.getElem?_eq_some_iff.1 ha).1
  rcases a with ⟨_ | _ | x⟩
  · exact .panic
  · exact .panic
  · rcases o with ⟨_ | _ | y⟩
    · exact .panic
    · exact .panic
    · obtain ⟨h', e1, e2, e3⟩ := writeSig_spec hi hl (.pt (x + y))
      simp only [Signature.aggregate, Ptr.get_pt, Res.bind_ok, e1]
      exact .ok e2 e3.symm

theorem apkSigWrap_cases (pk : PublicKey G2) (v : UnsafeSignature G1) :
    apkSigWrap P A (some pk) v = .panic ∨ ∃ s, apkSigWrap P A (some pk) v = .ok s := by
  rcases pk with ⟨_ | _ | g⟩
  · left; rfl
  · left; rfl
  · rcases v with ⟨_ | _ | s⟩
    · left; simp [apkSigWrap, h1_eq]
    · left; simp [apkSigWrap, h1_eq, Ptr.get]
    · right; exact ⟨_, apkSigWrap_eq P A g s⟩

theorem unsafeAggregate_cases (a b : UnsafeSignature G1) :
    unsafeAggregate (some a) (some b) = .panic ∨ ∃ s, unsafeAggregate (some a) (some b) = .ok s := by
  rcases a with ⟨_ | _ | g⟩
  · left; rfl
  · left; rfl
  · rcases b with ⟨_ | _ | s⟩
    · left; rfl
    · left; rfl
    · right; exact ⟨_, rfl⟩

theorem unsafeBatchLoop_cases : ∀ (vs : List (UnsafeSignature G1)) (a : UnsafeSignature G1),
    unsafeBatchLoop (some a) (vs.map some) = .panic ∨ ∃ s, unsafeBatchLoop (some a) (vs.map some) = .ok (some s)
  | [], a => .inr ⟨a, rfl⟩
  | v :: vs, a => by
    simp only [List.map_cons, unsafeBatchLoop]
    rcases unsafeAggregate_cases a v with e | ⟨s, e⟩
    · left; rw [e]; rfl
    · rw [e]; exact unsafeBatchLoop_cases vs s

theorem set_self {α : Type} {l : List α} {i : Nat} {a : α} (ha : l[i]? = some a) : l.set i a = l := by
  apply List.ext_getElem?
  intro j
  rw [List.getElem?_set]
  split_ifs with h1 h2
  · subst h1; exact ha.symm
  · subst h1; rw [List.getElem?_eq_none (by omega)]
  · rfl

theorem step_sim (hi : h.Inv) (o : HOp) : Sim (h.step P A o) (h.view.step P A o) := by
  cases o with
  | genKeyPair x =>
    simp only [step, Store.step, Bls.genKeyPair, Res.bind_ok]
    exact .ok (allocPk_inv hi _) (allocPk_view hi _).symm
  | unmarshalPk b =>
    simp only [step, Store.step]
    cases Bls.unmarshalPk P b with
    | ok v => exact .ok (allocPk_inv hi _) (allocPk_view hi _).symm
    | err e => exact .ok hi rfl
    | panic => exact .panic
  | unmarshalApk b =>
    simp only [step, Store.step]
    cases Bls.unmarshalApk P b with
    | ok v =>
      rcases v with ⟨_ | v⟩
      · exact .panic
      · simp only [Apk.gx, deref_some, Res.bind_ok, allocApk_view hi]
        exact .ok (allocApk_inv hi _) rfl
    | err e => exact .ok hi rfl
    | panic => exact .panic
  | unmarshalSignature b =>
    simp only [step, Store.step]
    cases Bls.unmarshalSignature P b with
    | ok v => exact .ok (allocSig_inv hi _) (allocSig_view hi _).symm
    | err e => exact .ok hi rfl
    | panic => exact .panic
  | newApk i => exact newApk_sim P A hi i
  | apkLiteral i =>
    simp only [step, Store.step, rdPk_view hi]
    refine idx_bind_sim fun v hv => ?_
    have hl : i < h.pk.length := by
      rw [← view_pk_length]; exact (List.getElem?_eq_some_iff.1 hv).1
    refine .ok { hi with apkLt := ?_ } rfl
    intro p hp
    rcases List.mem_append.1 hp with hp | hp
    · exact hi.apkLt p hp
    · rw [List.mem_singleton.1 hp]; exact hl
  | apkCopy a =>
    have hap : h.view.apk = h.apk := rfl
    simp only [step, Store.step, rdPk_view hi, Store.rdApk, hap]
    by_cases ha : a < h.apk.length
    · have hp : h.apk[a] < h.view.pk.length := by rw [view_pk_length]; exact hi.apkLt _ (List.getElem_mem ha)
      simp only [idx_of_lt ha, Res.bind_ok, idx_of_lt hp]
      rcases copy_apk P h.view.pk[h.apk[a]] with ⟨g, -, e⟩ | e
      · simp only [e, Res.bind_ok, Apk.gx, deref_some, allocApk_view hi]
        exact .ok (allocApk_inv hi _) rfl
      · simp only [e, Res.bind_panic]; exact .panic
    · simp only [idx_of_ge (Nat.le_of_not_lt ha), Res.bind_panic]; exact .panic
  | apkAggregate a i =>
    simp only [step, Store.step, rdPk_view hi]
    exact idx_bind_sim fun v _ => apkAggregate_sim P A hi a v
  | apkAggregateBytes a b =>
    simp only [step, Store.step, Apk.aggregateBytes, PublicKey.unmarshal]
    cases P.g2OfBytes b with
    | none =>
      have hap : h.view.apk = h.apk := rfl
      simp only [Store.rdApk, Store.settle, Store.setApk, rdPk_view hi, deref_some, hap]
      by_cases ha : a < h.apk.length
      · have hp : h.apk[a] < h.view.pk.length := by rw [view_pk_length]; exact hi.apkLt _ (List.getElem_mem ha)
        simp only [idx_of_lt ha, Res.bind_ok, idx_of_lt hp, deref_some, List.set_getElem_self]
        exact .ok hi rfl
      · simp only [idx_of_ge (Nat.le_of_not_lt ha), Res.bind_panic]; exact .panic
    | some r => exact apkAggregate_sim P A hi a _
  | aggregateApk i is =>
    simp only [step, Store.step, mapRes_congr (rdPk_view hi)]
    rcases mapRes_idx_cases h.view.pk (i :: is) with e | ⟨vs, e⟩
    · rw [e]; exact .panic
    · have hlt := mapRes_idx_lt _ _ _ e
      have hil := hlt i (by simp)
      obtain ⟨ws, ew⟩ := mapRes_idx h.view.pk is fun j hj => hlt j (by simp [hj])
      have evs : vs = h.view.pk[i] :: ws := by
        simp only [mapRes, idx_of_lt hil, ew, Res.bind_ok, Res.ok.injEq] at e
        exact e.symm
      subst evs
      rw [e, Res.bind_ok, Res.bind_ok]
      simp only [List.map_cons, Bls.aggregateApk]
      have hs := newApk_sim P A hi i
      simp only [Store.step, idx_of_lt hil, Res.bind_ok] at hs
      rcases pkt_cases P A h.view.pk[i] with ep | ⟨g, ep⟩
      · have en : Bls.newApk P A (some h.view.pk[i]) = .panic := by simp [Bls.newApk, ep]
        rw [en] at hs ⊢
        rw [Sim.eq_panic hs]
        exact .panic
      · have en : Bls.newApk P A (some h.view.pk[i]) = .ok (some ⟨some ⟨.pt g⟩⟩) := by simp [Bls.newApk, ep]
        rw [en] at hs ⊢
        simp only [Res.bind_ok, deref_some] at hs ⊢
        rw [allocApk_view hi] at hs
        obtain ⟨k, e1, e2, e3⟩ := Sim.eq_ok hs
        rw [e1, Res.bind_ok]
        have := aggregateAll_sim P A (h := h) _ rfl is k ⟨.pt g⟩ e2 (by rw [allocApk_view hi, e3])
          fun j hj => by rw [← view_pk_length]; exact hlt j (by simp [hj])
        rw [ew, Res.bind_ok] at this
        exact this
  | pkAggregate i j =>
    simp only [step, Store.step, rdPk_view hi]
    refine idx_bind_sim fun a _ => idx_bind_sim fun b _ => ?_
    rcases a with ⟨_ | _ | a⟩
    · exact .panic
    · exact .panic
    · rcases b with ⟨_ | _ | b⟩
      · exact .panic
      · exact .panic
      · simp only [PublicKey.aggregate, Ptr.get_pt, Res.bind_ok]
        exact .ok (allocPk_inv hi _) (allocPk_view hi _).symm
  | pkUnmarshal i b =>
    simp only [step, Store.step, rdPk_view hi]
    exact idx_bind_sim fun a _ => .ok (repointPk_inv hi _ _) (repointPk_view hi _ _).symm
  | apkUnmarshal a b =>
    have hap : h.view.apk = h.apk := rfl
    simp only [step, Store.step, rdPk_view hi, Store.rdApk, Store.setApk, hap]
    by_cases ha : a < h.apk.length
    · have hp : h.apk[a] < h.view.pk.length := by rw [view_pk_length]; exact hi.apkLt _ (List.getElem_mem ha)
      simp only [idx_of_lt ha, Res.bind_ok, idx_of_lt hp, Apk.unmarshal, deref_some]
      exact .ok (repointPk_inv hi _ _) (repointPk_view hi _ _).symm
    · simp only [idx_of_ge (Nat.le_of_not_lt ha), Res.bind_panic]; exact .panic
  | sign x i m =>
    simp only [step, Store.step, rdPk_view hi]
    refine idx_bind_sim fun a _ => ?_
    rw [Bls.sign, unsafeSign_eq, Res.bind_ok]
    rcases apkSigWrap_cases P A a ⟨.pt ((x : F) • (digest A m : F) • P.g1)⟩ with e | ⟨s, e⟩
    · rw [e]; exact .panic
    · rw [e]; exact .ok (allocSig_inv hi _) (allocSig_view hi _).symm
  | sigCopy s =>
    simp only [step, Store.step, rdSig_view hi]
    refine idx_bind_sim fun a _ => ?_
    rcases copy_sig P a with ⟨g, -, e⟩ | e
    · rw [e]; exact .ok (allocSig_inv hi _) (allocSig_view hi _).symm
    · rw [e]; exact .panic
  | sigAggregate s t =>
    simp only [step, Store.step, rdSig_view hi]
    by_cases ht : t < h.view.sig.length
    · simp only [idx_of_lt ht, Res.bind_ok]; exact sigAggregate_sim hi s _
    · simp only [idx_of_ge (Nat.le_of_not_lt ht), Res.bind_panic]
      unfold idx
      cases h.view.sig[s]? <;> exact .panic
  | sigAdd s i u =>
    simp only [step, Store.step, rdPk_view hi, rdUsig_view hi]
    refine idx_bind_sim fun pk _ => idx_bind_sim fun v _ => ?_
    rcases apkSigWrap_cases P A pk v with e | ⟨o, e⟩
    · simp only [e, Res.bind_panic, Signature.add, Store.settle]
      unfold idx
      cases h.view.sig[s]? <;> exact .panic
    · have := sigAggregate_sim hi s o
      rw [e, Res.bind_ok]
      convert this using 3 with a
      simp only [Signature.add, e]
      rcases a with ⟨_ | _ | x⟩
      · rfl
      · rfl
      · rcases o with ⟨_ | _ | y⟩ <;> rfl
  | sigAggregateBytes s b =>
    have e : ∀ a : Signature G1, a.aggregateBytes P b =
        match Signature.unmarshal P ⟨.nil⟩ b with
        | (.err e, _) => (.err e, a)
        | (.panic, _) => (.panic, a)
        | (.ok _, sig) =>
          match a.aggregate sig with
          | .ok s => (.ok (), s)
          | .err e => (.err e, a)
          | .panic => (.panic, a) := fun _ => rfl
    simp only [step, Store.step, e]
    rcases Signature.unmarshal P ⟨.nil⟩ b with ⟨_ | _ | _, o⟩
    · convert sigAggregate_sim hi s o using 3 with a
      rcases a with ⟨_ | _ | x⟩
      · rfl
      · rfl
      · rcases o with ⟨_ | _ | y⟩ <;> rfl
    · simp only [rdSig_view hi]
      refine idx_bind_sim fun a ha => ?_
      simp only [Store.settle, set_self ha]
      exact .ok hi rfl
    · unfold idx
      cases h.view.sig[s]? <;> exact .panic
  | sigUnmarshal s b =>
    simp only [step, Store.step, rdSig_view hi]
    refine idx_bind_sim fun a ha => ?_
    have hcase : (∃ w, a.unmarshal P b = (.ok (), w)) ∨ ∃ e, a.unmarshal P b = (.err e, a) := by
      unfold Signature.unmarshal
      split
      · cases P.decompress b
        · right; exact ⟨_, rfl⟩
        · left; exact ⟨_, rfl⟩
      · cases P.g1OfBytes b
        · right; exact ⟨_, rfl⟩
        · left; exact ⟨_, rfl⟩
    rcases hcase with ⟨w, e⟩ | ⟨w, e⟩
    · rw [e]; exact .ok (repointSig_inv hi _ _) (repointSig_view hi _ _).symm
    · rw [e]
      simp only [set_self ha]
      exact .ok hi rfl
  | unsafeSign x m =>
    simp only [step, Store.step, unsafeSign_eq, Res.bind_ok]
    exact .ok (allocUsig_inv hi _) (allocUsig_view hi _).symm
  | unsafeAggregate u v =>
    simp only [step, Store.step, rdUsig_view hi]
    refine idx_bind_sim fun a _ => idx_bind_sim fun b _ => ?_
    rcases unsafeAggregate_cases a b with e | ⟨s, e⟩
    · rw [e]; exact .panic
    · rw [e]; exact .ok (allocUsig_inv hi _) (allocUsig_view hi _).symm
  | unsafeBatch us =>
    simp only [step, Store.step, mapRes_congr (rdUsig_view hi)]
    rcases mapRes_idx_cases h.view.usig us with e | ⟨vs, e⟩
    · rw [e]; exact .panic
    · rw [e, Res.bind_ok, Res.bind_ok]
      rcases us with _ | ⟨u, _ | ⟨u', us⟩⟩
      · simp only [mapRes, Res.ok.injEq] at e
        subst e
        exact .ok hi rfl
      · simp only [mapRes, Res.bind_eq_ok, Res.ok.injEq] at e
        obtain ⟨a, -, bs, rfl, rfl⟩ := e
        exact .ok hi rfl
      · rw [if_neg (by simp)]
        simp only [mapRes, Res.bind_eq_ok, Res.ok.injEq] at e
        obtain ⟨a, -, bs, -, rfl⟩ := e
        simp only [List.map_cons, Bls.unsafeBatch]
        rcases unsafeBatchLoop_cases bs a with e | ⟨s, e⟩
        · rw [e]; exact .panic
        · rw [e]; exact .ok (allocUsig_inv hi _) (allocUsig_view hi _).symm
  | usigUnmarshal u b =>
    simp only [step, Store.step, rdUsig_view hi]
    refine idx_bind_sim fun a ha => ?_
    unfold UnsafeSignature.unmarshal
    cases P.g1OfBytes b
    · simp only [set_self ha]; exact .ok hi rfl
    · exact .ok (repointUsig_inv hi _ _) (repointUsig_view hi _ _).symm

theorem run_sim : ∀ (os : List HOp) (h : Heap G1 G2), h.Inv → Sim (h.run P A os) (h.view.run P A os)
  | [], _, hi => .ok hi rfl
  | o :: os, h, hi => by
    have hs := step_sim P A hi o
    simp only [run, Store.run]
    generalize h.step P A o = r at hs
    generalize h.view.step P A o = s at hs
    cases hs with
    | ok hi' hs => subst hs; exact run_sim os _ hi'
    | panic => exact .panic

end Heap
end Dusk.Bls
