import Verif.Go.IO
/-!
# Lemmas about readers and writers
-/

namespace Dusk

/-! ## Big-endian integers -/

theorem be32_length (n : Nat) : (be32 n).length = 4 := rfl

theorem beNat_be32 (n : Nat) : beNat (be32 n) = n % 2 ^ 32 := by
  simp only [beNat, be32, List.foldl, UInt8.toNat_ofNat']
  omega

theorem beNat_be32_of_lt {n : Nat} (h : n < 2 ^ 32) : beNat (be32 n) = n := by
  rw [beNat_be32]; exact Nat.mod_eq_of_lt h

/-! ## `io.ReadFull` sees only the concatenation of the chunks -/

theorem readChunks_of_le : ∀ (cs : List Bytes) (n : Nat), n ≤ cs.flatten.length →
    ∃ cs', readChunks n cs = some (cs.flatten.take n, cs') ∧ cs'.flatten = cs.flatten.drop n
  | cs, 0, _ => ⟨cs, by simp [readChunks]⟩
  | [], n + 1, h => by simp at h
  | c :: cs, n + 1, h => by
    by_cases hc : n + 1 ≤ c.length
    · refine ⟨c.drop (n + 1) :: cs, ?_, ?_⟩
      · have h0 : n + 1 - c.length = 0 := by omega
        simp [readChunks, hc, List.take_append, h0]
      · have h0 : n + 1 - c.length = 0 := by omega
        simp [List.drop_append, h0]
    · have hle : n + 1 - c.length ≤ cs.flatten.length := by
        simp only [List.flatten_cons, List.length_append] at h; omega
      obtain ⟨cs', h1, h2⟩ := readChunks_of_le cs (n + 1 - c.length) hle
      refine ⟨cs', ?_, ?_⟩
      · have : List.take (n + 1) c = c := List.take_of_length_le (by omega)
        simp [readChunks, hc, h1, List.take_append, this]
      · have : List.drop (n + 1) c = [] := List.drop_of_length_le (by omega)
        simp [h2, List.drop_append, this]

theorem readChunks_of_gt : ∀ (cs : List Bytes) (n : Nat), cs.flatten.length < n →
    readChunks n cs = none
  | cs, 0, h => by simp at h
  | [], n + 1, _ => by simp [readChunks]
  | c :: cs, n + 1, h => by
    simp only [List.flatten_cons, List.length_append] at h
    have hc : ¬ n + 1 ≤ c.length := by omega
    simp [readChunks, hc, readChunks_of_gt cs (n + 1 - c.length) (by omega)]

theorem readN_of_le {n : Nat} {r : Reader} (h : n ≤ r.flat.length) :
    ∃ r', readN n r = .ok (r.flat.take n, r') ∧ r'.flat = r.flat.drop n ∧ r'.fin = r.fin := by
  obtain ⟨cs', h1, h2⟩ := readChunks_of_le r.chunks n h
  exact ⟨⟨cs', r.fin⟩, by simp [readN, h1, Reader.flat], by simp [Reader.flat, h2], rfl⟩

theorem readN_of_gt {n : Nat} {r : Reader} (h : r.flat.length < n) : readN n r = .err "EOF" := by
  simp [readN, readChunks_of_gt r.chunks n h]

/-! ## Chunk independence -/

/-- Two readers deliver the same bytes and end in the same way. -/
def Reader.Same (r₁ r₂ : Reader) : Prop := r₁.flat = r₂.flat ∧ r₁.fin = r₂.fin

/-- Outcomes agree up to the chunking of the remaining stream. -/
def SameOutcome {α : Type u} : Res (α × Reader) → Res (α × Reader) → Prop
  | .ok (a, r), .ok (b, s) => a = b ∧ r.Same s
  | .err e, .err f => e = f
  | .panic, .panic => True
  | _, _ => False

/-- A decoder whose outcome only depends on the delivered bytes. -/
def Rd.ChunkFree {α : Type u} (m : Rd α) : Prop := ∀ r₁ r₂, r₁.Same r₂ → SameOutcome (m r₁) (m r₂)

theorem Rd.ChunkFree.pure {α : Type u} (a : α) : (Rd.pure a).ChunkFree := fun _ _ h => ⟨rfl, h⟩

theorem Rd.ChunkFree.fail {α : Type u} (e : String) : (Rd.fail e : Rd α).ChunkFree := fun _ _ _ => rfl

theorem Rd.ChunkFree.lift {α : Type u} (x : Res α) : (Rd.lift x).ChunkFree := by
  intro r₁ r₂ h
  cases x with
  | ok a => exact ⟨rfl, h⟩
  | err e => exact rfl
  | panic => trivial

theorem Rd.ChunkFree.bind {α : Type u} {β : Type v} {m : Rd α} {f : α → Rd β} (hm : m.ChunkFree)
    (hf : ∀ a, (f a).ChunkFree) : (m.bind f).ChunkFree := by
  intro r₁ r₂ h
  have h1 := hm r₁ r₂ h
  unfold Rd.bind
  match h₁ : m r₁, h₂ : m r₂, h1 with
  | .ok (a, r), .ok (b, s), h1 => obtain ⟨rfl, hs⟩ := h1; exact hf a r s hs
  | .err e, .err f, h1 => exact h1
  | .panic, .panic, _ => trivial
  | .ok _, .err _, h1 => exact h1.elim
  | .ok _, .panic, h1 => exact h1.elim
  | .err _, .ok _, h1 => exact h1.elim
  | .err _, .panic, h1 => exact h1.elim
  | .panic, .ok _, h1 => exact h1.elim
  | .panic, .err _, h1 => exact h1.elim

theorem readN_chunkFree (n : Nat) : (readN n).ChunkFree := by
  intro r₁ r₂ h
  by_cases hn : n ≤ r₁.flat.length
  · obtain ⟨s₁, e₁, f₁, g₁⟩ := readN_of_le hn
    obtain ⟨s₂, e₂, f₂, g₂⟩ := readN_of_le (r := r₂) (by rw [← h.1]; exact hn)
    rw [e₁, e₂]
    exact ⟨by rw [h.1], by rw [f₁, f₂, h.1], by rw [g₁, g₂, h.2]⟩
  · rw [readN_of_gt (by omega), readN_of_gt (by rw [← h.1]; omega)]
    exact rfl

theorem readU32_chunkFree : readU32.ChunkFree :=
  (readN_chunkFree 4).bind fun _ => .pure _

theorem readAll_chunkFree : readAll.ChunkFree := by
  intro r₁ r₂ h
  unfold readAll
  rw [h.2]
  cases r₂.fin with
  | eof => exact ⟨h.1, rfl, rfl⟩
  | fault => exact rfl

theorem readTimes_chunkFree {α : Type u} {m : Rd α} (hm : m.ChunkFree) :
    ∀ n, (readTimes m n).ChunkFree
  | 0 => .pure _
  | n + 1 => hm.bind fun _ => (readTimes_chunkFree hm n).bind fun _ => .pure _

/-! ## Panic freedom -/

def Rd.NoPanic {α : Type u} (m : Rd α) : Prop := ∀ r, m r ≠ .panic

theorem Rd.NoPanic.pure {α : Type u} (a : α) : (Rd.pure a).NoPanic := by intro r h; cases h
theorem Rd.NoPanic.fail {α : Type u} (e : String) : (Rd.fail e : Rd α).NoPanic := by intro r h; cases h
theorem Rd.NoPanic.lift {α : Type u} {x : Res α} (h : x ≠ .panic) : (Rd.lift x).NoPanic := by
  intro r h'
  cases x with
  | ok a => cases h'
  | err e => cases h'
  | panic => exact h rfl

theorem Rd.NoPanic.bind {α : Type u} {β : Type v} {m : Rd α} {f : α → Rd β} (hm : m.NoPanic)
    (hf : ∀ a, (f a).NoPanic) : (m.bind f).NoPanic := by
  intro r h
  rcases Res.bind_eq_panic.1 h with h | ⟨a, _, h⟩
  · exact hm r h
  · exact hf _ _ h

theorem readN_noPanic (n : Nat) : (readN n).NoPanic := by
  intro r h
  unfold readN at h
  split at h <;> cases h

theorem readU32_noPanic : readU32.NoPanic := (readN_noPanic 4).bind fun _ => .pure _

theorem readAll_noPanic : readAll.NoPanic := by
  intro r h; unfold readAll at h; split at h <;> cases h

theorem readTimes_noPanic {α : Type u} {m : Rd α} (hm : m.NoPanic) : ∀ n, (readTimes m n).NoPanic
  | 0 => .pure _
  | n + 1 => hm.bind fun _ => (readTimes_noPanic hm n).bind fun _ => .pure _

/-! ## Round trips -/

/-- `m` reads exactly the encoding `enc`, returning `a` and leaving the rest of the stream, and every
stream that is a strict prefix of `enc` is rejected. -/
structure Rd.Decodes {α : Type u} (m : Rd α) (enc : Bytes) (a : α) : Prop where
  full : ∀ (r : Reader) (rest : Bytes), r.flat = enc ++ rest →
    ∃ r', m r = .ok (a, r') ∧ r'.flat = rest ∧ r'.fin = r.fin
  short : ∀ (r : Reader), r.flat <+: enc → r.flat ≠ enc → (m r).IsErr

theorem Rd.Decodes.pure {α : Type u} (a : α) : (Rd.pure a).Decodes [] a where
  full r rest h := ⟨r, rfl, by simpa using h, rfl⟩
  short r h1 h2 := by simp at h1; exact absurd h1 h2

theorem Rd.Decodes.bind {α : Type u} {β : Type v} {m : Rd α} {f : α → Rd β} {e₁ e₂ : Bytes} {a : α}
    {b : β} (hm : m.Decodes e₁ a) (hf : (f a).Decodes e₂ b) : (m.bind f).Decodes (e₁ ++ e₂) b where
  full r rest h := by
    obtain ⟨r', h1, h2, h3⟩ := hm.full r (e₂ ++ rest) (by rw [h, List.append_assoc])
    obtain ⟨r'', h4, h5, h6⟩ := hf.full r' rest h2
    exact ⟨r'', by simp [Rd.bind, h1, h4], h5, h6.trans h3⟩
  short r h1 h2 := by
    by_cases hlen : r.flat.length < e₁.length
    · have hp : r.flat <+: e₁ :=
        List.prefix_of_prefix_length_le h1 (List.prefix_append _ _) (by omega)
      obtain ⟨e, he⟩ := hm.short r hp (fun h => by simp [h] at hlen)
      exact ⟨e, by simp [Rd.bind, he]⟩
    · have hp : e₁ <+: r.flat :=
        List.prefix_of_prefix_length_le (List.prefix_append _ _) h1 (by omega)
      obtain ⟨t, ht⟩ := hp
      obtain ⟨r', h3, h4, h5⟩ := hm.full r t ht.symm
      have hs : ((f a) r').IsErr := by
        apply hf.short
        · rw [h4]; rw [← ht] at h1; exact (List.prefix_append_right_inj e₁).1 h1
        · rw [h4]; rintro rfl; exact h2 ht.symm
      obtain ⟨e, he⟩ := hs
      exact ⟨e, by simp [Rd.bind, h3, he]⟩

theorem Rd.Decodes.map {α : Type u} {β : Type v} {m : Rd α} {e₁ : Bytes} {a : α} (g : α → β)
    (hm : m.Decodes e₁ a) : (m.bind fun x => Rd.pure (g x)).Decodes e₁ (g a) := by
  simpa using hm.bind (f := fun x => Rd.pure (g x)) (Rd.Decodes.pure (g a))

theorem Rd.Decodes.bind_nil {α : Type u} {β : Type v} {m : Rd α} {f : α → Rd β} {e : Bytes} {a : α}
    {b : β} (hm : m.Decodes e a) (hf : (f a).Decodes [] b) : (m.bind f).Decodes e b := by
  have := hm.bind hf
  rwa [List.append_nil] at this

theorem readN_decodes (b : Bytes) : (readN b.length).Decodes b b where
  full r rest h := by
    obtain ⟨r', h1, h2, h3⟩ := readN_of_le (n := b.length) (r := r) (by rw [h]; simp)
    exact ⟨r', by rw [h1, h]; simp, by rw [h2, h]; simp, h3⟩
  short r h1 h2 := by
    have := h1.length_le
    have : r.flat.length ≠ b.length := fun h => h2 (h1.eq_of_length h)
    exact ⟨_, readN_of_gt (by omega)⟩

theorem readN_decodes' {n : Nat} {b : Bytes} (h : b.length = n) : (readN n).Decodes b b := by
  subst h; exact readN_decodes b

theorem readU32_decodes {n : Nat} (h : n < 2 ^ 32) : readU32.Decodes (be32 n) n := by
  have := (readN_decodes' (be32_length n)).map beNat
  rwa [beNat_be32_of_lt h] at this

theorem readTimes_decodes {α : Type u} {m : Rd α} {enc : α → Bytes} :
    ∀ (l : List α), (∀ a ∈ l, m.Decodes (enc a) a) →
      (readTimes m l.length).Decodes (l.flatMap enc) l
  | [], _ => .pure _
  | a :: l, h => by
    simp only [List.length_cons, readTimes, List.flatMap_cons]
    exact (h a (by simp)).bind
      ((readTimes_decodes l fun b hb => h b (by simp [hb])).map (fun as => a :: as))

theorem readTimes_decodes_map {α : Type u} {β : Type v} {m : Rd β} {enc : α → Bytes} {g : α → β} :
    ∀ (l : List α), (∀ a ∈ l, m.Decodes (enc a) (g a)) →
      (readTimes m l.length).Decodes (l.flatMap enc) (l.map g)
  | [], _ => .pure _
  | a :: l, h => by
    simp only [List.length_cons, readTimes, List.flatMap_cons, List.map_cons]
    exact (h a (by simp)).bind
      ((readTimes_decodes_map l fun b hb => h b (by simp [hb])).map (fun as => g a :: as))

/-! ## Writers -/

/-- `m` performs `k` writes that together emit `b`. With fewer than `k` successful writes left the call
returns an error and the writer has received a prefix of `b`. -/
structure Wr.Emits (m : Wr Unit) (k : Nat) (b : Bytes) : Prop where
  good : ∀ w : Writer, k ≤ w.left →
    m w = (.ok (), { w with out := w.out ++ b, left := w.left - k })
  bad : ∀ w : Writer, w.left < k → (m w).1.IsErr ∧ ∃ p, p <+: b ∧ (m w).2.out = w.out ++ p

theorem Wr.Emits.pure : (Wr.pure ()).Emits 0 [] where
  good w _ := by simp [Wr.pure]
  bad w h := by simp at h

theorem writeB_emits (b : Bytes) : (writeB b).Emits 1 b where
  good w h := by
    obtain ⟨k, hk⟩ : ∃ k, w.left = k + 1 := ⟨w.left - 1, by omega⟩
    simp [writeB, hk]
  bad w h := by
    have h0 : w.left = 0 := by omega
    exact ⟨⟨_, by simp [writeB, h0]; rfl⟩, b.take w.part, List.take_prefix _ _, by simp [writeB, h0]⟩

theorem Wr.Emits.bind {m : Wr Unit} {f : Unit → Wr Unit} {k₁ k₂ : Nat} {b₁ b₂ : Bytes}
    (hm : m.Emits k₁ b₁) (hf : (f ()).Emits k₂ b₂) : (m.bind f).Emits (k₁ + k₂) (b₁ ++ b₂) where
  good w h := by
    simp only [Wr.bind, hm.good w (by omega)]
    rw [hf.good _ (by simp; omega)]
    simp [Nat.sub_sub]
  bad w h := by
    by_cases h1 : k₁ ≤ w.left
    · simp only [Wr.bind, hm.good w h1]
      obtain ⟨he, p, hp, ho⟩ := hf.bad { w with out := w.out ++ b₁, left := w.left - k₁ } (by simp; omega)
      exact ⟨he, b₁ ++ p, (List.prefix_append_right_inj b₁).2 hp, by simp [ho]⟩
    · obtain ⟨⟨e, he⟩, p, hp, ho⟩ := hm.bad w (by omega)
      have : m w = (.err e, (m w).2) := by rw [← he]
      unfold Wr.bind
      rw [this]
      exact ⟨⟨e, rfl⟩, p, hp.trans (List.prefix_append _ _), ho⟩

theorem writeEach_emits {α : Type u} {f : α → Wr Unit} {k : α → Nat} {enc : α → Bytes} :
    ∀ (l : List α), (∀ a ∈ l, (f a).Emits (k a) (enc a)) →
      (writeEach f l).Emits ((l.map k).sum) (l.flatMap enc)
  | [], _ => .pure
  | a :: l, h => by
    simp only [writeEach, List.map_cons, List.sum_cons, List.flatMap_cons]
    exact (h a (by simp)).bind (writeEach_emits l fun b hb => h b (by simp [hb]))

end Dusk
