import Verif.Model.HashMem
import Verif.Model.Ristretto
/-!
# C92: transcripts in memory
-/

namespace Dusk.HashMem

open Go

/-! ## Specification: transcripts as values -/

/-- The memory of the caller and the transcripts. -/
structure Spec where
  mem : Mem UInt8
  transcripts : List Bytes := []

/-- What a step should do: appending adds the bytes of the arguments to one transcript. -/
def Spec.step (w : Spec) : Op → Spec
  | .new => { w with transcripts := w.transcripts ++ [[]] }
  | .copy k => { w with transcripts := w.transcripts ++ (w.transcripts[k]?).toList }
  | .append k xs => { w with transcripts := w.transcripts.modify k fun t => t ++ (xs.map (read w.mem)).flatten }
  | .clear k => { w with transcripts := w.transcripts.modify k fun _ => [] }
  | .store i j x => { w with mem := store w.mem i j x }

def Spec.run (w : Spec) (ops : List Op) : Spec := ops.foldl Spec.step w

/-! ## One call -/

theorem append_snd_free (spare : Nat → Nat) {m : Mem UInt8} {s t : Slice} (ht : Valid m t) (hf : Free s t) (xs : List UInt8) :
    Free (append 0 spare m s xs).2 t := by
  unfold append
  split
  · intro h
    dsimp only
    rcases hf h with h | h | h | h
    · left
      omega
    · right
      left
      exact h
    · right
      right
      left
      omega
    · right
      right
      right
      exact h
  · intro h
    dsimp only at h ⊢
    have := ht.len_eq_zero (by omega)
    omega

/-- C92: `Append` adds the bytes of its arguments to the cache, also if they lie in the cache itself; slices which do not reach
behind the cache keep their bytes. -/
theorem C92_append (spare : Nat → Nat) : ∀ (xs : List Slice) (m : Mem UInt8) (s : Slice), Valid m s →
    (∀ x ∈ xs, Valid m x ∧ Free s x) →
    read (appendAll spare m s xs).1 (appendAll spare m s xs).2 = read m s ++ (xs.map (read m)).flatten ∧
    Valid (appendAll spare m s xs).1 (appendAll spare m s xs).2 ∧
    ∀ t, Valid m t → Free s t → read (appendAll spare m s xs).1 t = read m t ∧ Valid (appendAll spare m s xs).1 t ∧
      Free (appendAll spare m s xs).2 t
  | [], m, s, hv, _ => by
    exact ⟨by simp [appendAll], hv, fun t ht hf => ⟨rfl, ht, hf⟩⟩
  | x :: xs, m, s, hv, hx => by
    have hvx := hx x (by simp)
    obtain ⟨h1, h2, h3⟩ := C92_append spare xs (append 0 spare m s (read m x)).1 (append 0 spare m s (read m x)).2
      (append_valid 0 spare hv _) fun y hy => ⟨Valid.append 0 spare hv (hx y (by simp [hy])).1 _,
        append_snd_free spare (hx y (by simp [hy])).1 (hx y (by simp [hy])).2 _⟩
    rw [appendAll]
    refine ⟨?_, h2, fun t ht hf => ?_⟩
    · rw [h1, append_read 0 spare hv, List.map_cons, List.flatten_cons, List.append_assoc]
      congr 3
      apply List.map_congr_left
      intro y hy
      exact append_read_free 0 spare hv (hx y (by simp [hy])).1 (hx y (by simp [hy])).2 _
    · obtain ⟨h4, h5, h6⟩ := h3 t (Valid.append 0 spare hv ht _) (append_snd_free spare ht hf _)
      exact ⟨by rw [h4, append_read_free 0 spare hv ht hf], h5, h6⟩

/-! ## Programs without copies -/

/-- The steps of a caller who does not copy a `HashCacher` and keeps to its own arrays `m`: it passes slices of them, and does not
assign to what `Result` returns. -/
def Polite (m : Mem UInt8) : Op → Prop
  | .copy _ => False
  | .append _ xs => ∀ x ∈ xs, Valid m x ∧ (x.cap = 0 ∨ x.arr < m.length)
  | .store i _ _ => i < m.length
  | _ => True

/-- The caches are private: each lies in an array of its own, apart from the caller's. -/
structure Private (n : Nat) (w : World) : Prop where
  len : n ≤ w.mem.length
  valid : ∀ s ∈ w.caches, Valid w.mem s
  own : ∀ s ∈ w.caches, s.cap = 0 ∨ n ≤ s.arr
  apart : ∀ (k k' : Nat) (s s' : Slice), w.caches[k]? = some s → w.caches[k']? = some s' → k ≠ k' → s.arr = s'.arr →
    s.cap = 0 ∨ s'.cap = 0

/-- Memory and specification agree. -/
structure Agree (w : World) (sp : Spec) : Prop where
  own : Private sp.mem.length w
  mem : ∀ i, i < sp.mem.length → w.mem[i]? = sp.mem[i]?
  transcripts : w.caches.map (read w.mem) = sp.transcripts

/-- Another cache is not written by `Append`. -/
theorem Private.free {n : Nat} {w : World} (h : Private n w) {k k' : Nat} {s s' : Slice} (hk : w.caches[k]? = some s)
    (hk' : w.caches[k']? = some s') (hne : k ≠ k') : Free s s' := by
  intro ha
  have h1 := (h.valid s (List.mem_of_getElem? hk)).le
  have h2 := (h.valid s' (List.mem_of_getElem? hk')).le
  rcases h.apart k k' s s' hk hk' hne ha.symm with h | h
  · left
    omega
  · right
    left
    omega

/-- The caller's arrays are not written by `Append`. -/
theorem Private.free_caller {n : Nat} {w : World} (h : Private n w) {s t : Slice} (hs : s ∈ w.caches) (ht : t.arr < n) :
    Free s t := by
  intro ha
  have h1 := (h.valid s hs).le
  rcases h.own s hs with h | h
  · left
    omega
  · omega

/-- What `Append` does to the arrays. -/
theorem appendAll_arrays (spare : Nat → Nat) : ∀ (xs : List Slice) (m : Mem UInt8) (s : Slice), Valid m s →
    m.length ≤ (appendAll spare m s xs).1.length ∧
    (∀ i, i < m.length → size (appendAll spare m s xs).1 i = size m i) ∧
    (∀ i, i < m.length → s.len = s.cap ∨ i ≠ s.arr → (appendAll spare m s xs).1[i]? = m[i]?) ∧
    ((appendAll spare m s xs).2.arr = s.arr ∧ (appendAll spare m s xs).2.cap = s.cap ∨ m.length ≤ (appendAll spare m s xs).2.arr)
  | [], m, s, _ => by simp [appendAll]
  | x :: xs, m, s, hv => by
    obtain ⟨h1, h2, h3, h4⟩ := appendAll_arrays spare xs (append 0 spare m s (read m x)).1 (append 0 spare m s (read m x)).2
      (append_valid 0 spare hv _)
    have hl := append_length_le 0 spare m s (read m x)
    rw [appendAll]
    refine ⟨by omega, fun i hi => by rw [h2 i (by omega), append_size 0 spare hv _ hi], fun i hi hc => ?_, ?_⟩
    · have hfst : (append 0 spare m s (read m x)).1[i]? = m[i]? := by
        unfold append
        split
        · rw [List.getElem?_modify]
          rcases hc with hc | hc
          · have : read m x = [] := List.length_eq_zero_iff.1 (by omega)
            rw [this]
            have hsp : ∀ a : List UInt8, splice (s.off + s.len) [] a = a := by simp [splice]
            split <;> simp [hsp]
          · simp [Ne.symm hc]
        · exact List.getElem?_append_left hi
      rw [h3 i (by omega) ?_, hfst]
      unfold append
      split
      · rcases hc with hc | hc
        · left
          dsimp only
          omega
        · exact Or.inr hc
      · right
        dsimp only
        omega
    · have hsnd : (append 0 spare m s (read m x)).2.arr = s.arr ∧ (append 0 spare m s (read m x)).2.cap = s.cap ∨
          m.length ≤ (append 0 spare m s (read m x)).2.arr := by
        unfold append
        split
        · exact Or.inl ⟨rfl, rfl⟩
        · exact Or.inr le_rfl
      rcases h4 with ⟨h4, h5⟩ | h4
      · rw [h4, h5]
        exact hsnd
      · right
        omega

theorem agree_step (spare : Nat → Nat) (w : World) (sp : Spec) (h : Agree w sp) (o : Op) (ho : Polite sp.mem o) :
    Agree (step spare w o) (sp.step o) := by
  obtain ⟨hp, hm, ht⟩ := h
  cases o with
  | new =>
    refine ⟨⟨hp.len, ?_, ?_, ?_⟩, hm, ?_⟩
    · intro s hs
      simp only [step, List.mem_append, List.mem_singleton] at hs
      rcases hs with hs | rfl
      · exact hp.valid s hs
      · exact ⟨le_rfl, by simp [empty]⟩
    · intro s hs
      simp only [step, List.mem_append, List.mem_singleton] at hs
      rcases hs with hs | rfl
      · exact hp.own s hs
      · exact Or.inl rfl
    · intro k k' s s' hk hk' hne ha
      simp only [step, List.getElem?_append] at hk hk'
      split at hk
      · split at hk'
        · exact hp.apart k k' s s' hk hk' hne ha
        · have := List.mem_of_getElem? hk'
          simp only [List.mem_singleton] at this
          right
          rw [this]
          rfl
      · have := List.mem_of_getElem? hk
        simp only [List.mem_singleton] at this
        left
        rw [this]
        rfl
    · simp [step, Spec.step, ht, Go.read, empty]
  | copy k => exact ho.elim
  | clear k =>
    have key : ∀ (k' : Nat) (s : Slice), (w.caches.modify k fun _ => empty)[k']? = some s → s = empty ∨ w.caches[k']? = some s := by
      intro k' s hs
      rw [List.getElem?_modify] at hs
      cases hc : w.caches[k']? with
      | none => simp [hc] at hs
      | some s0 =>
        rw [hc] at hs
        by_cases hk : k = k'
        · left
          simpa [hk, eq_comm] using hs
        · right
          simpa [hk] using hs
    refine ⟨⟨hp.len, ?_, ?_, ?_⟩, hm, ?_⟩
    · intro s hs
      obtain ⟨k', hk'⟩ := List.mem_iff_getElem?.1 hs
      rcases key k' s hk' with rfl | h
      · exact ⟨le_rfl, by simp [empty]⟩
      · exact hp.valid s (List.mem_of_getElem? h)
    · intro s hs
      obtain ⟨k', hk'⟩ := List.mem_iff_getElem?.1 hs
      rcases key k' s hk' with rfl | h
      · exact Or.inl rfl
      · exact hp.own s (List.mem_of_getElem? h)
    · intro k1 k2 s s' hk1 hk2 hne ha
      rcases key k1 s hk1 with rfl | h
      · exact Or.inl rfl
      · rcases key k2 s' hk2 with rfl | h'
        · exact Or.inr rfl
        · exact hp.apart k1 k2 s s' h h' hne ha
    · apply List.ext_getElem?
      intro i
      simp only [step, Spec.step, ← ht, List.getElem?_map, List.getElem?_modify]
      cases w.caches[i]? with
      | none => simp
      | some s0 => by_cases hk : k = i <;> simp [hk, Go.read, empty]
  | store i j x =>
    have hi : i < sp.mem.length := ho
    have hlen : sp.mem.length = (sp.step (.store i j x)).mem.length := (store_length ..).symm
    refine ⟨?_, ?_, ?_⟩
    · rw [← hlen]
      refine ⟨?_, fun s hs => Valid.store (hp.valid s hs) i j x, hp.own, hp.apart⟩
      simp only [step]
      rw [store_length]
      exact hp.len
    · rw [← hlen]
      intro i' hi'
      simp only [step, Spec.step, store, List.getElem?_modify, hm i' hi']
    · simp only [step, Spec.step]
      rw [← ht]
      apply List.map_congr_left
      intro s hs
      by_cases hc : s.cap = 0
      · have h1 := (hp.valid s hs).read_length
        have h2 := (Valid.store (hp.valid s hs) i j x).read_length
        have h3 : s.len = 0 := by have := (hp.valid s hs).le; omega
        rw [List.length_eq_zero_iff.1 (h1.trans h3), List.length_eq_zero_iff.1 (h2.trans h3)]
      · apply read_eq_of_getElem?
        have : s.arr ≠ i := by
          have := (hp.own s hs).resolve_left hc
          omega
        simp [store, this.symm]
  | append k xs =>
    cases hk : w.caches[k]? with
    | none =>
      have hge : w.caches.length ≤ k := List.getElem?_eq_none_iff.1 hk
      have : step spare w (.append k xs) = w := by simp only [step, hk]
      rw [this]
      refine ⟨hp, hm, ?_⟩
      simp only [Spec.step]
      rw [ht]
      apply List.ext_getElem?
      intro i
      rw [List.getElem?_modify]
      by_cases hki : k = i
      · subst hki
        have : sp.transcripts[k]? = none := by
          rw [← ht]
          simpa using hge
        rw [this]
        rfl
      · simp [hki]
    | some s =>
      have hs := List.mem_of_getElem? hk
      have hv := hp.valid s hs
      have hstep : step spare w (.append k xs) = ⟨(appendAll spare w.mem s xs).1, w.caches.set k (appendAll spare w.mem s xs).2⟩ := by
        simp only [step, hk]
      have hxs : ∀ x ∈ xs, Valid w.mem x ∧ Free s x ∧ read w.mem x = read sp.mem x := by
        intro x hx
        obtain ⟨hvx, harr⟩ := ho x hx
        have hle := hvx.le
        by_cases hc : x.arr < sp.mem.length
        · refine ⟨⟨hvx.le, ?_⟩, hp.free_caller hs hc, read_eq_of_getElem? (hm _ hc)⟩
          unfold size
          rw [hm _ hc]
          exact hvx.fits
        · have h0 := hvx.len_eq_zero (by omega)
          have h1 : Valid w.mem x := ⟨hvx.le, by omega⟩
          refine ⟨h1, fun _ => Or.inr (Or.inl h0.2.1), ?_⟩
          rw [List.length_eq_zero_iff.1 (h1.read_length.trans h0.2.1), List.length_eq_zero_iff.1 (hvx.read_length.trans h0.2.1)]
      obtain ⟨hr, hv', hother⟩ := C92_append spare xs w.mem s hv fun x hx => ⟨(hxs x hx).1, (hxs x hx).2.1⟩
      obtain ⟨hl, hsz, harr, hsl⟩ := appendAll_arrays spare xs w.mem s hv
      have hflat : (xs.map (read w.mem)).flatten = (xs.map (read sp.mem)).flatten := by
        congr 1
        exact List.map_congr_left fun x hx => (hxs x hx).2.2
      have key : ∀ k' s', (w.caches.set k (appendAll spare w.mem s xs).2)[k']? = some s' →
          (k' = k ∧ s' = (appendAll spare w.mem s xs).2) ∨ (k' ≠ k ∧ w.caches[k']? = some s') := by
        intro k' s' h
        rw [List.getElem?_set] at h
        by_cases hkk : k = k'
        · subst hkk
          rw [if_pos rfl, if_pos (List.getElem?_eq_some_iff.1 hk).1] at h
          left
          exact ⟨rfl, by simpa [eq_comm] using h⟩
        · rw [if_neg hkk] at h
          exact Or.inr ⟨Ne.symm hkk, h⟩
      rw [hstep]
      have hnew : (appendAll spare w.mem s xs).2.cap = 0 ∨ sp.mem.length ≤ (appendAll spare w.mem s xs).2.arr := by
        rcases hsl with ⟨h1, h2⟩ | h
        · rw [h1, h2]
          exact hp.own s hs
        · right
          have := hp.len
          omega
      have hclash : ∀ k' s', k' ≠ k → w.caches[k']? = some s' → s'.arr = (appendAll spare w.mem s xs).2.arr →
          s'.cap = 0 ∨ (appendAll spare w.mem s xs).2.cap = 0 := by
        intro k' s' hne hk' ha
        rcases hsl with ⟨h1, h2⟩ | h
        · rw [h2]
          exact hp.apart k' k s' s hk' hk hne (by omega)
        · left
          exact ((hp.valid s' (List.mem_of_getElem? hk')).len_eq_zero (by omega)).2.2
      refine ⟨⟨hp.len.trans hl, ?_, ?_, ?_⟩, ?_, ?_⟩
      · intro s' hs'
        obtain ⟨k', hk'⟩ := List.mem_iff_getElem?.1 hs'
        rcases key k' s' hk' with ⟨-, rfl⟩ | ⟨-, h⟩
        · exact hv'
        · exact Valid.mono (hp.valid s' (List.mem_of_getElem? h)) hsz
      · intro s' hs'
        obtain ⟨k', hk'⟩ := List.mem_iff_getElem?.1 hs'
        rcases key k' s' hk' with ⟨-, rfl⟩ | ⟨-, h⟩
        · exact hnew
        · exact hp.own s' (List.mem_of_getElem? h)
      · intro k1 k2 s1 s2 hk1 hk2 hne ha
        rcases key k1 s1 hk1 with ⟨e1, f1⟩ | ⟨e1, f1⟩ <;> rcases key k2 s2 hk2 with ⟨e2, f2⟩ | ⟨e2, f2⟩
        · omega
        · rw [f1] at ha ⊢
          exact (hclash k2 s2 e2 f2 ha.symm).symm
        · rw [f2] at ha ⊢
          exact hclash k1 s1 e1 f1 ha
        · exact hp.apart k1 k2 s1 s2 f1 f2 hne ha
      · intro i hi
        have hi' : i < w.mem.length := lt_of_lt_of_le hi hp.len
        change (appendAll spare w.mem s xs).1[i]? = sp.mem[i]?
        rw [harr i hi' ?_]
        · exact hm i hi
        · rcases hp.own s hs with h | h
          · left
            have := hv.le
            omega
          · right
            have : i < sp.mem.length := hi
            omega
      · apply List.ext_getElem?
        intro i
        simp only [Spec.step, ← ht, List.getElem?_map, List.getElem?_modify]
        rw [List.getElem?_set]
        by_cases hki : k = i
        · subst hki
          rw [if_pos rfl, if_pos (List.getElem?_eq_some_iff.1 hk).1, hk]
          simp [hr, hflat]
        · rw [if_neg hki]
          cases hci : w.caches[i]? with
          | none => simp
          | some s' =>
            simp only [Option.map_some, hki, if_false]
            rw [(hother s' (hp.valid s' (List.mem_of_getElem? hci)) (hp.free hk hci hki)).1]
            simp

/-- C92: for a caller who does not copy a `HashCacher` and does not assign to what `Result` returns, the transcripts are values:
after any program, every `HashCacher` returns the concatenation of what was appended to it since it was made or cleared, whatever
happened to the others, its challenge is that of these bytes, and the caller's memory is as the caller left it. -/
theorem C92_private (spare : Nat → Nat) (m : Mem UInt8) (ops : List Op) (hops : ∀ o ∈ ops, Polite m o) :
    (run spare ⟨m, []⟩ ops).caches.map (read (run spare ⟨m, []⟩ ops).mem) = (Spec.run ⟨m, []⟩ ops).transcripts ∧
    (∀ k, result (run spare ⟨m, []⟩ ops) k = (Spec.run ⟨m, []⟩ ops).transcripts[k]?) ∧
    (∀ {F G : Type} [Field F] [AddCommGroup G] [Module F G] (R : Ristretto F G) (k : Nat),
      derive R (run spare ⟨m, []⟩ ops) k = ((Spec.run ⟨m, []⟩ ops).transcripts[k]?).map R.sDerive) ∧
    ∀ i, i < m.length → (run spare ⟨m, []⟩ ops).mem[i]? = (Spec.run ⟨m, []⟩ ops).mem[i]? := by
  have hstep : ∀ (sp : Spec) (o o' : Op), Polite sp.mem o' → Polite (sp.step o).mem o' := by
    intro sp o o' h
    cases o with
    | store i j x =>
      cases o' with
      | append k xs =>
        intro y hy
        obtain ⟨h1, h2⟩ := h y hy
        refine ⟨Valid.store h1 i j x, ?_⟩
        simp only [Spec.step, store_length]
        exact h2
      | store i' j' x' =>
        change i' < (store sp.mem i j x).length
        rw [store_length]
        exact h
      | _ => exact h
    | _ => exact h
  have key : ∀ (ops : List Op) (w : World) (sp : Spec), Agree w sp → (∀ o ∈ ops, Polite sp.mem o) →
      Agree (run spare w ops) (sp.run ops) := by
    intro ops
    induction ops with
    | nil => exact fun w sp h _ => h
    | cons o ops ih =>
      intro w sp h hpol
      exact ih _ _ (agree_step spare w sp h o (hpol o (by simp))) fun o' ho' => hstep sp o o' (hpol o' (by simp [ho']))
  have h0 : Agree ⟨m, []⟩ ⟨m, []⟩ := ⟨⟨le_rfl, by simp, by simp, by simp⟩, fun _ _ => rfl, rfl⟩
  have h := key ops _ _ h0 hops
  have hl : ∀ (ops : List Op) (sp : Spec), (sp.run ops).mem.length = sp.mem.length := by
    intro ops
    induction ops with
    | nil => exact fun _ => rfl
    | cons o ops ih =>
      intro sp
      refine (ih (sp.step o)).trans ?_
      cases o <;> simp [Spec.step, store_length]
  exact ⟨h.transcripts, fun k => by rw [← h.transcripts, List.getElem?_map]; rfl,
    fun R k => by rw [← h.transcripts, List.getElem?_map, Option.map_map]; rfl, fun i hi => h.mem i (by rw [hl]; exact hi)⟩

/-! ## Violations -/

/-- C92 (violated): copies of a `HashCacher` are not independent. While the cache has spare capacity, what is appended to a copy
replaces what was appended to the original: its transcript, and so its challenge, is that of the other data. -/
theorem C92_copy_violated (spare : Nat → Nat) (m : Mem UInt8) (s x y : Slice) (hs : Valid m s) (hx : Valid m x) (hy : Valid m y)
    (fy : Free s y) (hlen : x.len = y.len) (hcap : s.len + x.len ≤ s.cap) :
    let w := run spare ⟨m, [s]⟩ [.copy 0, .append 0 [x], .append 1 [y]]
    result w 0 = some (read m s ++ read m y) ∧ result w 1 = some (read m s ++ read m y) ∧
    ∀ {F G : Type} [Field F] [AddCommGroup G] [Module F G] (R : Ristretto F G),
      derive R w 0 = some (R.sDerive (read m s ++ read m y)) ∧ derive R w 1 = some (R.sDerive (read m s ++ read m y)) := by
  intro w
  have hxl := hx.read_length
  have hyl := hy.read_length
  let m1 := (append 0 spare m s (read m x)).1
  let t : Slice := { s with len := s.len + x.len }
  have ht : (append 0 spare m s (read m x)).2 = t := by
    unfold append
    rw [if_pos (by omega), hxl]
  have hv1 : Valid m1 s := Valid.append 0 spare hs hs _
  have hry : read m1 y = read m y := append_read_free 0 spare hs hy fy _
  let m2 := (append 0 spare m1 s (read m1 y)).1
  have ht2 : (append 0 spare m1 s (read m1 y)).2 = t := by
    unfold append
    rw [hry, if_pos (by omega), hyl, ← hlen]
  have hw : w = ⟨m2, [t, t]⟩ := by
    have : w = ⟨m2, [(append 0 spare m s (read m x)).2, (append 0 spare m1 s (read m1 y)).2]⟩ := rfl
    rw [this, ht, ht2]
  have hread : read m2 t = read m s ++ read m y := by
    have h := append_read 0 spare hv1 (read m1 y)
    rw [ht2, hry] at h
    rw [show m2 = (append 0 spare m1 s (read m y)).1 by rw [← hry], h]
    congr 1
    refine append_read_free 0 spare hs hs (fun _ => ?_) _
    right
    right
    left
    exact le_rfl
  rw [hw]
  simp [result, derive, hread]

/-- C92 (violated): `Result` returns the memory of the cache. A byte the caller stores through it changes the transcript. -/
theorem C92_result_violated (spare : Nat → Nat) (m : Mem UInt8) (s : Slice) (hs : Valid m s) (j : Nat) (hj : j < s.len) (x : UInt8) :
    result (run spare ⟨m, [s]⟩ [.store s.arr (s.off + j) x]) 0 = some ((read m s).set j x) := by
  simp [result, run, step, read_store hs hj]

/-! ### The hypotheses can be met -/

/-- The caller's arrays. -/
def exMem : Mem UInt8 := [[1, 2, 3, 4], [9]]

/-- A polite program: two transcripts, interleaved, one is cleared, and the caller reuses its buffer. -/
def exOps : List Op :=
  [.new, .new, .append 0 [⟨0, 0, 2, 4⟩, ⟨0, 2, 2, 2⟩], .append 1 [⟨1, 0, 1, 1⟩], .store 1 0 8, .append 0 [⟨1, 0, 1, 1⟩],
    .clear 1, .append 1 [⟨1, 0, 1, 1⟩]]

example : (run (fun n => n) ⟨exMem, []⟩ exOps).caches.map (read (run (fun n => n) ⟨exMem, []⟩ exOps).mem) =
    [[1, 2, 3, 4, 8], [8]] ∧ (Spec.run ⟨exMem, []⟩ exOps).transcripts = [[1, 2, 3, 4, 8], [8]] := by decide +kernel

example : ∀ o ∈ exOps, Polite exMem o := by
  have v : ∀ x ∈ [(⟨0, 0, 2, 4⟩ : Slice), ⟨0, 2, 2, 2⟩, ⟨1, 0, 1, 1⟩], Valid exMem x ∧ (x.cap = 0 ∨ x.arr < exMem.length) := by
    intro x hx
    simp only [List.mem_cons, List.not_mem_nil, or_false] at hx
    rcases hx with rfl | rfl | rfl <;> exact ⟨⟨by decide, by decide⟩, by decide⟩
  intro o ho
  simp only [exOps, List.mem_cons, List.not_mem_nil, or_false] at ho
  rcases ho with rfl | rfl | rfl | rfl | rfl | rfl | rfl | rfl
  · trivial
  · trivial
  · intro x hx
    exact v x (by simp only [List.mem_cons, List.not_mem_nil, or_false] at hx ⊢; tauto)
  · intro x hx
    exact v x (by simp only [List.mem_cons, List.not_mem_nil, or_false] at hx ⊢; tauto)
  · change 1 < 2
    decide
  · intro x hx
    exact v x (by simp only [List.mem_cons, List.not_mem_nil, or_false] at hx ⊢; tauto)
  · trivial
  · intro x hx
    exact v x (by simp only [List.mem_cons, List.not_mem_nil, or_false] at hx ⊢; tauto)

/-- A cache with spare capacity, as in `C92_copy_violated`, arises from one `Append`; the copy then replaces `3` by `9`. -/
example : (run (fun n => n) ⟨exMem, []⟩ [.new, .append 0 [⟨0, 0, 2, 4⟩]]).caches = [⟨2, 0, 2, 4⟩] ∧
    (let w := run (fun n => n) ⟨exMem, []⟩ [.new, .append 0 [⟨0, 0, 2, 4⟩], .copy 0, .append 0 [⟨0, 2, 1, 2⟩], .append 1 [⟨1, 0, 1, 1⟩]]
    result w 0 = some [1, 2, 9]) := by decide +kernel

example : result (run (fun n => n) ⟨exMem, [⟨0, 0, 2, 4⟩]⟩ [.copy 0, .append 0 [⟨0, 0, 1, 1⟩], .append 1 [⟨1, 0, 1, 1⟩]]) 0 = some [1, 2, 9] :=
  (C92_copy_violated (fun n => n) exMem ⟨0, 0, 2, 4⟩ ⟨0, 0, 1, 1⟩ ⟨1, 0, 1, 1⟩ ⟨by decide, by decide⟩ ⟨by decide, by decide⟩ ⟨by decide, by decide⟩
    (fun h => absurd h (by decide)) rfl (by decide)).1

end Dusk.HashMem
