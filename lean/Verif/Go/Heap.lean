import Verif.Go.Slice
/-!
# Programs on memory

`St σ α`: a computation which ends with a value, an error or a panic, and in every case with a new memory.
-/

namespace Dusk.Go

/-- Computations with memory `σ`. -/
structure St (σ α : Type) where
  run : σ → Res α × σ

namespace St

variable {σ α β : Type}

protected def pure (a : α) : St σ α := ⟨fun s => (.ok a, s)⟩

protected def bind (x : St σ α) (f : α → St σ β) : St σ β := ⟨fun s =>
  match x.run s with
  | (.ok a, s') => (f a).run s'
  | (.err e, s') => (.err e, s')
  | (.panic, s') => (.panic, s')⟩

instance : Monad (St σ) where
  pure := St.pure
  bind := St.bind

/-- An outcome that does not involve the memory. -/
def lift (r : Res α) : St σ α := ⟨fun s => (r, s)⟩

theorem run_bind (x : St σ α) (f : α → St σ β) (s : σ) : (x >>= f).run s =
    match x.run s with
    | (.ok a, s') => (f a).run s'
    | (.err e, s') => (.err e, s')
    | (.panic, s') => (.panic, s') := rfl

theorem run_pure (a : α) (s : σ) : (pure a : St σ α).run s = (.ok a, s) := rfl

theorem run_lift (r : Res α) (s : σ) : (lift r : St σ α).run s = (r, s) := rfl

/-- After a successful step. -/
theorem bind_ok {x : St σ α} {f : α → St σ β} {s s' : σ} {a : α} (h : x.run s = (.ok a, s')) :
    (x >>= f).run s = (f a).run s' := by
  rw [run_bind, h]

theorem bind_lift (r : Res α) (f : α → St σ β) (s : σ) : ((lift r >>= f).run s).1 = r.bind fun a => ((f a).run s).1 := by
  rw [run_bind, run_lift]
  cases r <;> rfl

/-- `for i := lo; i < lo + k; i++ { f(i) }`. -/
def loop (f : Nat → St σ Unit) : Nat → Nat → St σ Unit
  | 0, _ => pure ()
  | k + 1, i => f i >>= fun _ => loop f k (i + 1)

/-- Loops with an invariant. -/
theorem loop_ok {f : Nat → St σ Unit} (I : Nat → σ → Prop) (n : Nat)
    (hstep : ∀ i s, i < n → I i s → ∃ s', (f i).run s = (.ok (), s') ∧ I (i + 1) s') :
    ∀ (k i : Nat) (s : σ), i + k = n → I i s → ∃ s', (loop f k i).run s = (.ok (), s') ∧ I n s'
  | 0, i, s, h, hi => ⟨s, rfl, by simpa [← h] using hi⟩
  | k + 1, i, s, h, hi => by
    obtain ⟨s1, h1, h2⟩ := hstep i s (by omega) hi
    obtain ⟨s2, h3, h4⟩ := loop_ok I n hstep k (i + 1) s1 (by omega) h2
    exact ⟨s2, by rw [loop, bind_ok h1, h3], h4⟩

/-- What holds after every computation, whatever the outcome. -/
def Keeps (P : σ → σ → Prop) (x : St σ α) : Prop := ∀ s, P s (x.run s).2

theorem Keeps.bind {P : σ → σ → Prop} (ht : ∀ a b c, P a b → P b c → P a c) {x : St σ α} {f : α → St σ β} (hx : Keeps P x)
    (hf : ∀ a, Keeps P (f a)) : Keeps P (x >>= f) := by
  intro s
  have h := hx s
  rw [run_bind]
  revert h
  generalize x.run s = r
  rcases r with ⟨r | e | _, s'⟩
  · exact fun h => ht _ _ _ h (hf r s')
  · exact fun h => h
  · exact fun h => h

theorem Keeps.pure {P : σ → σ → Prop} (hr : ∀ a, P a a) (a : α) : Keeps P (pure a : St σ α) := fun s => hr s

theorem Keeps.lift {P : σ → σ → Prop} (hr : ∀ a, P a a) (r : Res α) : Keeps P (lift r : St σ α) := fun s => hr s

theorem Keeps.loop {P : σ → σ → Prop} (hr : ∀ a, P a a) (ht : ∀ a b c, P a b → P b c → P a c) {f : Nat → St σ Unit}
    (hf : ∀ i, Keeps P (f i)) : ∀ k i, Keeps P (loop f k i)
  | 0, _ => Keeps.pure hr ()
  | k + 1, i => Keeps.bind ht (hf i) fun _ => Keeps.loop hr ht hf k (i + 1)

end St

/-! ## Slices -/

variable {α : Type}

/-- `s[i]`. -/
def get (s : Slice) (i : Nat) : St (Mem α) α := ⟨fun m => (idx (read m s) i, m)⟩

/-- `s[i] = x`. -/
def put (s : Slice) (i : Nat) (x : α) : St (Mem α) Unit := ⟨fun m =>
  if i < s.len then (.ok (), store m s.arr (s.off + i) x) else (.panic, m)⟩

/-- `make([]T, n)`. -/
def make (z : α) (n : Nat) : St (Mem α) Slice := ⟨fun m => (.ok ⟨m.length, 0, n, n⟩, m ++ [List.replicate n z])⟩

/-- `copy(dst, src)`. -/
def copy (dst src : Slice) : St (Mem α) Unit := ⟨fun m => (.ok (), m.modify dst.arr (splice dst.off ((read m src).take dst.len)))⟩

/-- The elements of a slice, for code that only reads them. -/
def load (s : Slice) : St (Mem α) (List α) := ⟨fun m => (.ok (read m s), m)⟩

/-- `s[:n]` (with `n ≤ cap(s)`). -/
def Slice.front (s : Slice) (n : Nat) : Slice := ⟨s.arr, s.off, n, s.cap⟩

/-- `s[n:]` (with `n ≤ len(s)`). -/
def Slice.back (s : Slice) (n : Nat) : Slice := ⟨s.arr, s.off + n, s.len - n, s.cap - n⟩

/-- `var s []T`. -/
def Slice.nil : Slice := ⟨0, 0, 0, 0⟩

/-- The arrays below `N` stay as they are. -/
def Frame (N : Nat) (m m' : Mem α) : Prop := N ≤ m.length → N ≤ m'.length ∧ ∀ i, i < N → m'[i]? = m[i]?

theorem Frame.refl (N : Nat) (m : Mem α) : Frame N m m := fun h => ⟨h, fun _ _ => rfl⟩

theorem Frame.trans (N : Nat) (a b c : Mem α) (h : Frame N a b) (h' : Frame N b c) : Frame N a c := fun hl =>
  ⟨(h' (h hl).1).1, fun i hi => ((h' (h hl).1).2 i hi).trans ((h hl).2 i hi)⟩

theorem get_keeps (N : Nat) (s : Slice) (i : Nat) : St.Keeps (Frame N) (get s i : St (Mem α) α) := fun m => Frame.refl N m

theorem load_keeps (N : Nat) (s : Slice) : St.Keeps (Frame N) (load s : St (Mem α) _) := fun m => Frame.refl N m

theorem put_keeps (N : Nat) (s : Slice) (i : Nat) (x : α) (h : N ≤ s.arr ∨ s.len = 0) : St.Keeps (Frame N) (put s i x) := by
  intro m hl
  unfold put
  dsimp only
  split
  · refine ⟨?_, fun j hj => ?_⟩
    · rw [store_length]
      exact hl
    · have : s.arr ≠ j := by omega
      simp [store, this]
  · exact ⟨hl, fun _ _ => rfl⟩

theorem make_keeps (N : Nat) (z : α) (n : Nat) : St.Keeps (Frame N) (make z n) := by
  intro m hl
  refine ⟨?_, fun i hi => ?_⟩
  · simp [make]
    omega
  · simp only [make]
    exact List.getElem?_append_left (by omega)

theorem copy_keeps (N : Nat) (dst src : Slice) (h : N ≤ dst.arr) : St.Keeps (Frame N) (copy dst src : St (Mem α) Unit) := by
  intro m hl
  refine ⟨by simpa [copy] using hl, fun i hi => ?_⟩
  have : dst.arr ≠ i := by omega
  simp [copy, this]

theorem get_eq {m : Mem α} {s : Slice} {i : Nat} {x : α} (hi : i < s.len) (hx : cell m s.arr (s.off + i) = some x) :
    (get s i).run m = (.ok x, m) := by
  unfold get idx
  dsimp only
  rw [read_getElem?, if_pos hi, hx]

theorem put_eq {m : Mem α} {s : Slice} {i : Nat} (hi : i < s.len) (x : α) :
    (put s i x).run m = (.ok (), store m s.arr (s.off + i) x) := by
  simp [put, hi]

/-- A slice of a whole new array. -/
theorem read_last (m : Mem α) (a : List α) : read (m ++ [a]) ⟨m.length, 0, a.length, a.length⟩ = a := by
  simp [read]

/-- Slices of older arrays after an allocation. -/
theorem read_alloc {m : Mem α} {x : Slice} (hx : Valid m x) (a : List α) : read (m ++ [a]) x = read m x := by
  by_cases ha : x.arr < m.length
  · apply read_eq_of_getElem?
    exact List.getElem?_append_left ha
  · have h0 := hx.len_eq_zero (by omega)
    simp [read, h0.2.1]

theorem Valid.alloc {m : Mem α} {x : Slice} (hx : Valid m x) (a : List α) : Valid (m ++ [a]) x := by
  apply Valid.mono hx
  intro i hi
  unfold size
  rw [List.getElem?_append_left hi]

/-- `a := make([]T, len(x)); copy(a, x)`. -/
def clone (z : α) (x : Slice) : St (Mem α) Slice := do
  let a ← make z x.len
  copy a x
  pure a

theorem clone_eq (z : α) (x : Slice) {m : Mem α} (hx : Valid m x) :
    (clone z x).run m = (.ok ⟨m.length, 0, x.len, x.len⟩, m ++ [read m x]) := by
  have hl := hx.read_length
  have hr := read_alloc hx (List.replicate x.len z)
  unfold clone
  rw [St.bind_ok (x := make z x.len) (a := ⟨m.length, 0, x.len, x.len⟩) (s' := m ++ [List.replicate x.len z]) rfl]
  rw [St.bind_ok (a := ()) (s' := m ++ [read m x])]
  · rfl
  · simp only [copy, hr]
    congr 1
    apply List.ext_getElem?
    intro i
    rw [List.getElem?_modify, List.getElem?_append, List.getElem?_append]
    by_cases hi : i < m.length
    · have : m.length ≠ i := by omega
      simp [hi, this]
    · rw [if_neg hi, if_neg hi]
      by_cases hi' : m.length = i
      · subst hi'
        simp [splice, ← hl]
      · rw [List.getElem?_eq_none (by simp; omega), List.getElem?_eq_none (by simp; omega)]
        rfl

theorem clone_keeps (N : Nat) (z : α) (x : Slice) : St.Keeps (Frame N) (clone z x) := by
  intro m hl
  have h1 := make_keeps N z x.len m hl
  have h2 := copy_keeps (α := α) N ⟨m.length, 0, x.len, x.len⟩ x hl (m ++ [List.replicate x.len z])
  exact Frame.trans N _ _ _ (fun _ => h1) h2 hl

end Dusk.Go
