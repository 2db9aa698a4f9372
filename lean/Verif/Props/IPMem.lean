import Verif.Model.IPMem
import Verif.Props.VecMem
import Verif.Props.InnerProduct
/-!
# C94: `Generate` of package innerproduct in memory
-/

set_option linter.unusedSectionVars false

namespace Dusk.IPMem

open Go

variable {F G : Type} [Field F] [AddCommGroup G] [Module F G] [DecidableEq F]

/-! ## Simulation -/

/-- The computation `x`, started with `s`, has the outcome `y`; after a success the results are related by `P`. -/
def Sim {σ α β : Type} (P : σ → α → β → Prop) (s : σ) (x : St σ α) : Res β → Prop
  | .ok b => ∃ a s', x.run s = (.ok a, s') ∧ P s' a b
  | .err e => (x.run s).1 = .err e
  | .panic => (x.run s).1 = .panic

theorem Sim.bind {σ α β α' β' : Type} {P : σ → α → β → Prop} {Q : σ → α' → β' → Prop} {s : σ} {x : St σ α} {y : Res β}
    {f : α → St σ α'} {g : β → Res β'} (hx : Sim P s x y)
    (hf : ∀ a b s', y = .ok b → P s' a b → Sim Q s' (f a) (g b)) : Sim Q s (x >>= f) (y.bind g) := by
  cases y with
  | ok b =>
    obtain ⟨a, s', h1, h2⟩ := hx
    have := hf a b s' rfl h2
    rw [Res.bind_ok]
    unfold Sim at this ⊢
    rw [St.bind_ok h1]
    exact this
  | err e =>
    have h : (x.run s).1 = .err e := hx
    show ((x >>= f).run s).1 = .err e
    rw [St.run_bind]
    revert h
    generalize x.run s = r
    rcases r with ⟨r | e | _, s'⟩ <;> simp
  | panic =>
    have h : (x.run s).1 = .panic := hx
    show ((x >>= f).run s).1 = .panic
    rw [St.run_bind]
    revert h
    generalize x.run s = r
    rcases r with ⟨r | e | _, s'⟩ <;> simp

/-- Code that only reads. -/
theorem Sim.ro {σ α : Type} {s : σ} {x : St σ α} {y : Res α} (h : x.run s = (y, s)) : Sim (fun s' a b => s' = s ∧ a = b) s x y := by
  cases y with
  | ok b => exact ⟨b, s, h, rfl, rfl⟩
  | err e => exact congrArg Prod.fst h
  | panic => exact congrArg Prod.fst h

theorem Sim.step {σ α α' β : Type} {Q : σ → α' → β → Prop} {s s' : σ} {x : St σ α} {f : α → St σ α'} {y : Res β} {a : α}
    (h : x.run s = (.ok a, s')) (hf : Sim Q s' (f a) y) : Sim Q s (x >>= f) y := by
  cases y with
  | ok b =>
    obtain ⟨c, t, h1, h2⟩ := hf
    exact ⟨c, t, by rw [St.bind_ok h, h1], h2⟩
  | err e =>
    show ((x >>= f).run s).1 = _
    rw [St.bind_ok h]
    exact hf
  | panic =>
    show ((x >>= f).run s).1 = _
    rw [St.bind_ok h]
    exact hf

theorem Sim.onS {α β : Type} {P : Mem F → α → β → Prop} {m : Mem F} {g : Mem G} {x : St (Mem F) α} {y : Res β} (h : Sim P m x y) :
    Sim (fun (s' : Heap F G) a b => P s'.1 a b ∧ s'.2 = g) (m, g) (onS x) y := by
  cases y with
  | ok b =>
    obtain ⟨c, t, h1, h2⟩ := h
    refine ⟨c, (t, g), ?_, h2, rfl⟩
    simp [IPMem.onS, h1]
  | err e => exact h
  | panic => exact h

/-! ## Slices in place -/

theorem cell_lt_size {α : Type} {m : Mem α} {i j : Nat} {x : α} (h : cell m i j = some x) : j < size m i := by
  rw [cell_eq] at h
  exact (List.getElem?_eq_some_iff.1 h).1

/-- The state of the folding loop on one vector: the first `i` elements of the lower half are done. -/
structure Prog {α : Type} (m : Mem α) (a : Slice) (n i : Nat) (x y f : Nat → α) : Prop where
  lo : ∀ j, j < n → cell m a.arr (a.off + j) = some (if j < i then f j else x j)
  hi : ∀ j, j < n → cell m a.arr (a.off + n + j) = some (y j)

theorem Prog.congr {α : Type} {m m' : Mem α} {a : Slice} {n i : Nat} {x y f : Nat → α} (h : Prog m a n i x y f)
    (hm : m'[a.arr]? = m[a.arr]?) : Prog m' a n i x y f := by
  have hc : ∀ j, cell m' a.arr j = cell m a.arr j := fun j => by rw [cell_eq, cell_eq, hm]
  exact ⟨fun j hj => by rw [hc, h.lo j hj], fun j hj => by rw [hc, h.hi j hj]⟩

theorem Prog.step {α : Type} {m : Mem α} {a : Slice} {n i : Nat} {x y f : Nat → α} (h : Prog m a n i x y f) (hi : i < n) :
    Prog (store m a.arr (a.off + i) (f i)) a n (i + 1) x y f := by
  have hs := cell_lt_size (h.lo i hi)
  constructor
  · intro j hj
    rw [store_cell]
    by_cases hij : j = i
    · subst hij
      rw [if_pos ⟨rfl, rfl, hs⟩, if_pos (by omega)]
    · rw [if_neg (by omega), h.lo j hj]
      congr 1
      by_cases hlt : j < i
      · rw [if_pos hlt, if_pos (by omega)]
      · rw [if_neg hlt, if_neg (by omega)]
  · intro j hj
    rw [store_cell, if_neg (by omega), h.hi j hj]

theorem Prog.combine {α : Type} {m : Mem α} {a : Slice} {n i : Nat} {x y f : Nat → α} (h : Prog m a n i x y f) (hi : i < n)
    (hlen : a.len = 2 * n) (op : α → α → α) (hop : f i = op (x i) (y i)) :
    (combine op (a.front n) (a.back n) i).run m = (.ok (), store m a.arr (a.off + i) (f i)) := by
  unfold IPMem.combine
  have h1 : (get (a.front n) i).run m = (.ok (x i), m) := by
    apply get_eq
    · exact hi
    · have := h.lo i hi
      rw [if_neg (lt_irrefl i)] at this
      exact this
  have h2 : (get (a.back n) i).run m = (.ok (y i), m) := by
    apply get_eq
    · dsimp only [Slice.back]
      omega
    · exact h.hi i hi
  rw [St.bind_ok h1, St.bind_ok h2, put_eq (show i < (a.front n).len from hi), hop]
  rfl

theorem Prog.start {α : Type} {m : Mem α} {a : Slice} {n : Nat} (hv : Valid m a) (hlen : a.len = 2 * n) (f : Nat → α) (z : α) :
    Prog m a n 0 (fun j => (read m (a.front n)).getD j z) (fun j => (read m (a.back n)).getD j z) f := by
  have h1 := hv.le
  have h2 := hv.fits
  have hvf : Valid m (a.front n) := ⟨by dsimp only [Slice.front]; omega, h2⟩
  have hvb : Valid m (a.back n) := ⟨by dsimp only [Slice.back]; omega, by dsimp only [Slice.back]; omega⟩
  have hlf : (read m (a.front n)).length = n := hvf.read_length
  have hlb : (read m (a.back n)).length = n := by rw [hvb.read_length]; dsimp only [Slice.back]; omega
  constructor
  · intro j hj
    rw [if_neg (by omega)]
    have h3 := read_getElem? m (a.front n) j
    rw [if_pos (by exact hj), List.getElem?_eq_getElem (by omega)] at h3
    change _ = cell m a.arr (a.off + j) at h3
    rw [← h3, List.getD_eq_getElem _ _ (by omega)]
  · intro j hj
    have h3 := read_getElem? m (a.back n) j
    rw [if_pos (by dsimp only [Slice.back]; omega), List.getElem?_eq_getElem (by omega)] at h3
    change _ = cell m a.arr (a.off + n + j) at h3
    rw [← h3, List.getD_eq_getElem _ _ (by omega)]

theorem Prog.done {α : Type} {m : Mem α} {a : Slice} {n : Nat} {x y f : Nat → α} (h : Prog m a n n x y f) :
    read m (a.front n) = (List.range n).map f := by
  apply List.ext_getElem?
  intro j
  rw [read_getElem?]
  by_cases hj : j < n
  · rw [if_pos (by exact hj)]
    have := h.lo j hj
    rw [if_pos hj] at this
    simp only [Slice.front]
    rw [this]
    simp [hj]
  · rw [if_neg (by exact hj), List.getElem?_eq_none (by simp; omega)]

/-! ## The folding loop -/

/-- Memory outside two arrays, and sizes. -/
structure Same {α : Type} (i j : Nat) (m m' : Mem α) : Prop where
  other : ∀ k, k ≠ i → k ≠ j → m'[k]? = m[k]?
  size : ∀ k, size m' k = size m k

theorem Same.store {α : Type} {i j : Nat} {m m' : Mem α} (h : Same i j m m') {k : Nat} (hk : k = i ∨ k = j) (o : Nat) (x : α) :
    Same i j m (store m' k o x) := by
  refine ⟨fun k' h1 h2 => ?_, fun k' => ?_⟩
  · rw [← h.other k' h1 h2]
    have : k ≠ k' := by rcases hk with rfl | rfl <;> exact Ne.symm ‹_›
    simp [Go.store, this]
  · rw [store_size, h.size]

theorem fold_ok (u : F) (cL cR : Nat → St (Mem F) F) (kL kR : Nat → F) (a b Gv Hv : Slice) (n : Nat) (s : Heap F G)
    (ha : Valid s.1 a) (hb : Valid s.1 b) (hG : Valid s.2 Gv) (hH : Valid s.2 Hv) (la : a.len = 2 * n) (lb : b.len = 2 * n)
    (lG : Gv.len = 2 * n) (lH : Hv.len = 2 * n) (hab : a.arr ≠ b.arr) (hGH : Gv.arr ≠ Hv.arr)
    (hc : ∀ i m, i < n → Same a.arr b.arr s.1 m → (cL i).run m = (.ok (kL i), m) ∧ (cR i).run m = (.ok (kR i), m)) :
    ∃ s', (St.loop (foldBody u cL cR (a.front n, a.back n) (b.front n, b.back n) (Gv.front n, Gv.back n) (Hv.front n, Hv.back n))
        n 0).run s = (.ok (), s') ∧
      read s'.1 (a.front n) = List.zipWith (fun x y => x * u + y * u⁻¹) (read s.1 (a.front n)) (read s.1 (a.back n)) ∧
      read s'.1 (b.front n) = List.zipWith (fun x y => x * u⁻¹ + y * u) (read s.1 (b.front n)) (read s.1 (b.back n)) ∧
      read s'.2 (Gv.front n) = List.zipWith (fun x y => u⁻¹ • x + u • y) (read s.2 (Gv.front n)) (read s.2 (Gv.back n)) ∧
      read s'.2 (Hv.front n) = (List.range n).map (fun i => kL i • (read s.2 (Hv.front n)).getD i 0 +
        kR i • (read s.2 (Hv.back n)).getD i 0) ∧
      Same a.arr b.arr s.1 s'.1 ∧ Same Gv.arr Hv.arr s.2 s'.2 := by
  let fa : Nat → F := fun i => (read s.1 (a.front n)).getD i 0 * u + (read s.1 (a.back n)).getD i 0 * u⁻¹
  let fb : Nat → F := fun i => (read s.1 (b.front n)).getD i 0 * u⁻¹ + (read s.1 (b.back n)).getD i 0 * u
  let fG : Nat → G := fun i => u⁻¹ • (read s.2 (Gv.front n)).getD i 0 + u • (read s.2 (Gv.back n)).getD i 0
  let fH : Nat → G := fun i => kL i • (read s.2 (Hv.front n)).getD i 0 + kR i • (read s.2 (Hv.back n)).getD i 0
  obtain ⟨s', h1, h2, h3, h4, h5, h6, h7⟩ := St.loop_ok
    (f := foldBody u cL cR (a.front n, a.back n) (b.front n, b.back n) (Gv.front n, Gv.back n) (Hv.front n, Hv.back n))
    (fun i s' =>
      Prog s'.1 a n i (fun j => (read s.1 (a.front n)).getD j 0) (fun j => (read s.1 (a.back n)).getD j 0) fa ∧
      Prog s'.1 b n i (fun j => (read s.1 (b.front n)).getD j 0) (fun j => (read s.1 (b.back n)).getD j 0) fb ∧
      Prog s'.2 Gv n i (fun j => (read s.2 (Gv.front n)).getD j 0) (fun j => (read s.2 (Gv.back n)).getD j 0) fG ∧
      Prog s'.2 Hv n i (fun j => (read s.2 (Hv.front n)).getD j 0) (fun j => (read s.2 (Hv.back n)).getD j 0) fH ∧
      Same a.arr b.arr s.1 s'.1 ∧ Same Gv.arr Hv.arr s.2 s'.2) n (by
      rintro i ⟨m, g⟩ hi ⟨pa, pb, pG, pH, sF, sG⟩
      dsimp only at pa pb pG pH sF sG
      have ra := pa.combine hi la (fun x y => x * u + y * u⁻¹) rfl
      have pa' := pa.step hi
      have pb' : Prog (store m a.arr (a.off + i) (fa i)) b n i _ _ _ := pb.congr (by simp [store, hab])
      have sF' := sF.store (Or.inl rfl) (a.off + i) (fa i)
      have rb := pb'.combine hi lb (fun x y => x * u⁻¹ + y * u) rfl
      have pb'' := pb'.step hi
      have pa'' : Prog (store (store m a.arr (a.off + i) (fa i)) b.arr (b.off + i) (fb i)) a n (i + 1) _ _ _ :=
        pa'.congr (by simp [store, hab.symm])
      have sF'' := sF'.store (Or.inr rfl) (b.off + i) (fb i)
      have rG := pG.combine hi lG (fun x y => u⁻¹ • x + u • y) rfl
      have pG' := pG.step hi
      have pH' : Prog (store g Gv.arr (Gv.off + i) (fG i)) Hv n i _ _ _ := pH.congr (by simp [store, hGH])
      have sG' := sG.store (Or.inl rfl) (Gv.off + i) (fG i)
      have rH := pH'.combine hi lH (fun x y => kL i • x + kR i • y) rfl
      have pH'' := pH'.step hi
      have pG'' : Prog (store (store g Gv.arr (Gv.off + i) (fG i)) Hv.arr (Hv.off + i) (fH i)) Gv n (i + 1) _ _ _ :=
        pG'.congr (by simp [store, hGH.symm])
      have sG'' := sG'.store (Or.inr rfl) (Hv.off + i) (fH i)
      obtain ⟨c1, c2⟩ := hc i _ hi sF''
      refine ⟨(store (store m a.arr (a.off + i) (fa i)) b.arr (b.off + i) (fb i),
        store (store g Gv.arr (Gv.off + i) (fG i)) Hv.arr (Hv.off + i) (fH i)), ?_, pa'', pb'', pG'', pH'', sF'', sG''⟩
      unfold foldBody
      rw [St.bind_ok (x := onS _) (a := ()) (s' := (store m a.arr (a.off + i) (fa i), g)) (by simp only [onS]; rw [ra])]
      rw [St.bind_ok (x := onS _) (a := ()) (s' := (store (store m a.arr (a.off + i) (fa i)) b.arr (b.off + i) (fb i), g))
        (by simp only [onS]; rw [rb])]
      rw [St.bind_ok (x := onP _) (a := ()) (s' := (store (store m a.arr (a.off + i) (fa i)) b.arr (b.off + i) (fb i),
        store g Gv.arr (Gv.off + i) (fG i))) (by simp only [onP]; rw [rG])]
      rw [St.bind_ok (x := onS _) (a := kL i) (s' := (store (store m a.arr (a.off + i) (fa i)) b.arr (b.off + i) (fb i),
        store g Gv.arr (Gv.off + i) (fG i))) (by simp only [onS]; rw [c1])]
      rw [St.bind_ok (x := onS _) (a := kR i) (s' := (store (store m a.arr (a.off + i) (fa i)) b.arr (b.off + i) (fb i),
        store g Gv.arr (Gv.off + i) (fG i))) (by simp only [onS]; rw [c2])]
      simp only [onP]
      rw [rH]) n 0 s (by omega)
      ⟨Prog.start ha la _ 0, Prog.start hb lb _ 0, Prog.start hG lG _ 0, Prog.start hH lH _ 0, ⟨fun _ _ _ => rfl, fun _ => rfl⟩,
        ⟨fun _ _ _ => rfl, fun _ => rfl⟩⟩
  have zip : ∀ {α : Type} (z : α) (m : Mem α) (c : Slice) (op : α → α → α), Valid m c → c.len = 2 * n →
      (List.range n).map (fun i => op ((read m (c.front n)).getD i z) ((read m (c.back n)).getD i z)) =
        List.zipWith op (read m (c.front n)) (read m (c.back n)) := by
    intro α z m c op hv hl
    have h1 := hv.le
    have h2 := hv.fits
    have hvf : Valid m (c.front n) := ⟨by dsimp only [Slice.front]; omega, h2⟩
    have hvb : Valid m (c.back n) := ⟨by dsimp only [Slice.back]; omega, by dsimp only [Slice.back]; omega⟩
    have hlf : (read m (c.front n)).length = n := hvf.read_length
    have hlb : (read m (c.back n)).length = n := by rw [hvb.read_length]; dsimp only [Slice.back]; omega
    apply List.ext_getElem?
    intro i
    by_cases hi : i < n
    · simp [hi, show i < (read m (c.front n)).length by omega, show i < (read m (c.back n)).length by omega]
    · rw [List.getElem?_eq_none (by simp; omega), List.getElem?_eq_none (by simp; omega)]
  refine ⟨s', h1, ?_, ?_, ?_, h5.done, h6, h7⟩
  · rw [h2.done]
    exact zip 0 s.1 a (fun x y => x * u + y * u⁻¹) ha la
  · rw [h3.done]
    exact zip 0 s.1 b (fun x y => x * u⁻¹ + y * u) hb lb
  · rw [h4.done]
    exact zip 0 s.2 Gv (fun x y => u⁻¹ • x + u • y) hG lG

/-! ## The factors -/

theorem mulLoop_sim (m : Mem F) (f : Slice) (hf : Valid m f) (off N : Nat) : ∀ (rest pre : List F), pre.length + rest.length = N →
    Sim (fun s' (_ : Unit) r => s' = m ++ [pre ++ r] ∧ r.length = rest.length) (m ++ [pre ++ rest])
      (St.loop (fun i => do
        let x ← get ⟨m.length, 0, N, N⟩ i
        let y ← get f (i + off)
        put ⟨m.length, 0, N, N⟩ i (x * y)) rest.length pre.length)
      (IP.mulFactors rest ((read m f).drop (pre.length + off)))
  | [], pre, h => ⟨(), _, rfl, rfl, rfl⟩
  | x :: rest, pre, h => by
    simp only [List.length_cons] at h
    have hg : (get ⟨m.length, 0, N, N⟩ pre.length).run (m ++ [pre ++ x :: rest]) = (.ok x, m ++ [pre ++ x :: rest]) := by
      apply get_eq
      · dsimp only
        omega
      · rw [cell_eq]
        simp
    rw [List.length_cons, St.loop]
    by_cases hi : pre.length + off < (read m f).length
    · have hg2 : (get f (pre.length + off)).run (m ++ [pre ++ x :: rest]) =
          (.ok (read m f)[pre.length + off], m ++ [pre ++ x :: rest]) := VecMem.get_old hf _ hi
      have hp := VecMem.put_last m (pre ++ x :: rest) (show pre.length < N by omega) (x * (read m f)[pre.length + off])
      rw [List.drop_eq_getElem_cons hi, IP.mulFactors]
      have ih := mulLoop_sim m f hf off N rest (pre ++ [x * (read m f)[pre.length + off]]) (by simp; omega)
      have hset : (pre ++ x :: rest).set pre.length (x * (read m f)[pre.length + off]) =
          pre ++ [x * (read m f)[pre.length + off]] ++ rest := by
        rw [List.set_append_right _ _ (le_refl _)]
        simp
      rw [hset] at hp
      have hrun : (do
          let x ← get ⟨m.length, 0, N, N⟩ pre.length
          let y ← get f (pre.length + off)
          put ⟨m.length, 0, N, N⟩ pre.length (x * y) : St (Mem F) Unit).run (m ++ [pre ++ x :: rest]) =
          (.ok (), m ++ [pre ++ [x * (read m f)[pre.length + off]] ++ rest]) := by
        rw [St.bind_ok hg, St.bind_ok hg2, hp]
      have hlen : (pre ++ [x * (read m f)[pre.length + off]]).length = pre.length + 1 := by simp
      have hlen' : pre.length + 1 + off = pre.length + off + 1 := by omega
      rw [hlen, hlen'] at ih
      revert ih
      cases hr : IP.mulFactors rest ((read m f).drop (pre.length + off + 1)) with
      | ok r =>
        rintro ⟨a, s', h1, h2, h3⟩
        refine ⟨a, s', ?_, ?_, ?_⟩
        · rw [St.bind_ok hrun, h1]
        · rw [h2]
          simp
        · simp [h3]
      | err e =>
        intro h1
        show (St.run _ _).1 = _
        rw [St.bind_ok hrun]
        exact h1
      | panic =>
        intro h1
        show (St.run _ _).1 = _
        rw [St.bind_ok hrun]
        exact h1
    · have hnil : (read m f).drop (pre.length + off) = [] := List.drop_eq_nil_of_le (by omega)
      rw [hnil, IP.mulFactors]
      show (St.run _ _).1 = _
      have hg2 : (get f (pre.length + off)).run (m ++ [pre ++ x :: rest]) = (.panic, m ++ [pre ++ x :: rest]) := by
        unfold Go.get
        dsimp only
        rw [read_alloc hf, idx_of_ge (by omega)]
      have hrun : (do
          let x ← get ⟨m.length, 0, N, N⟩ pre.length
          let y ← get f (pre.length + off)
          put ⟨m.length, 0, N, N⟩ pre.length (x * y) : St (Mem F) Unit).run (m ++ [pre ++ x :: rest]) =
          (.panic, m ++ [pre ++ x :: rest]) := by
        rw [St.bind_ok hg, St.run_bind, hg2]
      rw [St.run_bind, hrun]

/-- The product with the factors is a new array. -/
theorem timesFactors_sim (m : Mem F) (v f : Slice) (hv : Valid m v) (hf : Valid m f) (off : Nat) :
    Sim (fun s' sl r => s' = m ++ [r] ∧ sl = ⟨m.length, 0, r.length, r.length⟩ ∧ r.length = v.len) m (timesFactors v f off)
      (IP.mulFactors (read m v) ((read m f).drop off)) := by
  have h := mulLoop_sim m f hf off v.len (read m v) [] (by simpa using hv.read_length)
  simp only [List.nil_append, List.length_nil, Nat.zero_add, hv.read_length] at h
  unfold timesFactors
  revert h
  cases hr : IP.mulFactors (read m v) ((read m f).drop off) with
  | ok r =>
    rintro ⟨a, s', h1, h2, h3⟩
    refine ⟨⟨m.length, 0, v.len, v.len⟩, s', ?_, h2, by rw [h3], h3⟩
    rw [St.bind_ok (clone_eq 0 v hv)]
    unfold mulFactors
    rw [St.bind_ok h1]
    rfl
  | err e =>
    intro h1
    show (St.run _ _).1 = _
    rw [St.bind_ok (clone_eq 0 v hv), St.run_bind]
    unfold mulFactors
    change (St.run _ _).1 = _ at h1
    revert h1
    generalize (St.run _ _ : Res Unit × Mem F) = q
    rcases q with ⟨r | e | _, s'⟩ <;> simp
  | panic =>
    intro h1
    show (St.run _ _).1 = _
    rw [St.bind_ok (clone_eq 0 v hv), St.run_bind]
    unfold mulFactors
    change (St.run _ _).1 = _ at h1
    revert h1
    generalize (St.run _ _ : Res Unit × Mem F) = q
    rcases q with ⟨r | e | _, s'⟩ <;> simp

/-! ## Halves -/

theorem read_splitNil {α : Type} (m : Mem α) (x : Slice) (hx : Valid m x) (n : Nat) :
    read m (splitNil x n).1 = (IP.splitNil (read m x) n).1 ∧ read m (splitNil x n).2 = (IP.splitNil (read m x) n).2 ∧
    Valid m (splitNil x n).1 ∧ Valid m (splitNil x n).2 := by
  obtain ⟨h1, h2⟩ := VecMem.C93_split m x hx n
  have hnil : read m Slice.nil = [] := by simp [Go.read, Slice.nil]
  have hvn : Valid m Slice.nil := ⟨le_rfl, Nat.zero_le _⟩
  unfold splitNil IP.splitNil
  cases hs : VecMem.split x n with
  | ok p =>
    rw [hs] at h1
    simp only [Res.bind_ok] at h1
    rw [← h1]
    exact ⟨rfl, rfl, h2 p hs⟩
  | err e =>
    rw [hs] at h1
    simp only [Res.bind_err] at h1
    rw [← h1]
    exact ⟨hnil, hnil, hvn, hvn⟩
  | panic =>
    rw [hs] at h1
    simp only [Res.bind_panic] at h1
    rw [← h1]
    exact ⟨hnil, hnil, hvn, hvn⟩

/-- Halves of the right length come from a successful split. -/
theorem splitNil_halves {α : Type} {m : Mem α} {x : Slice} (hx : Valid m x) {n : Nat} (hn : 0 < n)
    (h1 : (read m (splitNil x n).1).length = n) (h2 : (read m (splitNil x n).2).length = n) :
    splitNil x n = (x.front n, x.back n) ∧ x.len = 2 * n := by
  have hv := (read_splitNil m x hx n).2.2
  rw [hv.1.read_length] at h1
  rw [hv.2.read_length] at h2
  unfold splitNil at *
  cases hs : VecMem.split x n with
  | ok p =>
    rw [hs] at h1 h2
    unfold VecMem.split at hs
    split_ifs at hs
    cases hs
    refine ⟨rfl, ?_⟩
    dsimp only [Slice.back] at h2
    omega
  | err e =>
    rw [hs] at h1
    dsimp only [Slice.nil] at h1
    omega
  | panic =>
    rw [hs] at h1
    dsimp only [Slice.nil] at h1
    omega

theorem exp_ok {a : List F} {b : List G} {n : Nat} {e : G} (h : Vec.exp a b n 1 = .ok e) : a.length = b.length ∧ n ≤ a.length := by
  unfold Vec.exp at h
  split_ifs at h with h1 h2
  exact ⟨by simpa using h1, by omega⟩

theorem splitNil_le {α : Type} (x : List α) (n : Nat) : (IP.splitNil x n).1.length ≤ n := by
  unfold IP.splitNil Vec.split
  split_ifs <;> simp

/-! ## Rounds -/

/-- The vectors lie within their arrays, and scalars and points in two arrays each. -/
structure Layout (s : Heap F G) (a b Gv Hv : Slice) : Prop where
  va : Valid s.1 a
  vb : Valid s.1 b
  vG : Valid s.2 Gv
  vH : Valid s.2 Hv
  ab : 0 < a.len → 0 < b.len → a.arr ≠ b.arr
  GH : 0 < Gv.len → 0 < Hv.len → Gv.arr ≠ Hv.arr

/-- The slices hold the vectors of the value model. -/
structure Good (s : Heap F G) (mr : Round G) (r : IP.Round F G) : Prop where
  L : mr.L = r.L
  R : mr.R = r.R
  hs : mr.hs = r.hs
  a : read s.1 mr.a = r.a
  b : read s.1 mr.b = r.b
  Gs : read s.2 mr.Gs = r.Gs
  Hs : read s.2 mr.Hs = r.Hs
  lay : Layout s mr.a mr.b mr.Gs mr.Hs

theorem Valid.front {α : Type} {m : Mem α} {a : Slice} {n : Nat} (h : Valid m a) (hl : a.len = 2 * n) : Valid m (a.front n) :=
  ⟨by have := h.le; dsimp only [Slice.front]; omega, h.fits⟩

theorem Same.valid {α : Type} {i j : Nat} {m m' : Mem α} (h : Same i j m m') {x : Slice} (hx : Valid m x) : Valid m' x :=
  Valid.mono hx fun k _ => h.size k

/-- The folding loop with what follows. -/
theorem fold_sim (u : F) (cL cR : Nat → St (Mem F) F) (kL kR : Nat → F) (a b Gv Hv : Slice) (n : Nat) (hn : 0 < n) (s : Heap F G)
    (lay : Layout s a b Gv Hv) (L Rp : G) (hs : HashCacher) (Hs : List G)
    (a1 : (read s.1 (splitNil a n).1).length = n) (a2 : (read s.1 (splitNil a n).2).length = n)
    (b1 : (read s.1 (splitNil b n).1).length = n) (b2 : (read s.1 (splitNil b n).2).length = n)
    (g1 : (read s.2 (splitNil Gv n).1).length = n) (g2 : (read s.2 (splitNil Gv n).2).length = n)
    (h1 : (read s.2 (splitNil Hv n).1).length = n) (h2 : (read s.2 (splitNil Hv n).2).length = n)
    (hc : ∀ i m, i < n → Same a.arr b.arr s.1 m → (cL i).run m = (.ok (kL i), m) ∧ (cR i).run m = (.ok (kR i), m))
    (hHs : Hs = (List.range n).map (fun i => kL i • (read s.2 (splitNil Hv n).1).getD i 0 +
      kR i • (read s.2 (splitNil Hv n).2).getD i 0)) :
    Sim Good s (St.loop (foldBody u cL cR (splitNil a n) (splitNil b n) (splitNil Gv n) (splitNil Hv n)) n 0 >>= fun _ =>
        pure ⟨L, Rp, (splitNil a n).1, (splitNil b n).1, (splitNil Gv n).1, (splitNil Hv n).1, hs⟩)
      (.ok {
        L := L
        R := Rp
        a := List.zipWith (fun x y => x * u + y * u⁻¹) (read s.1 (splitNil a n).1) (read s.1 (splitNil a n).2)
        b := List.zipWith (fun x y => x * u⁻¹ + y * u) (read s.1 (splitNil b n).1) (read s.1 (splitNil b n).2)
        Gs := List.zipWith (fun x y => u⁻¹ • x + u • y) (read s.2 (splitNil Gv n).1) (read s.2 (splitNil Gv n).2)
        Hs := Hs
        hs := hs }) := by
  obtain ⟨ea, la⟩ := splitNil_halves lay.va hn a1 a2
  obtain ⟨eb, lb⟩ := splitNil_halves lay.vb hn b1 b2
  obtain ⟨eG, lG⟩ := splitNil_halves lay.vG hn g1 g2
  obtain ⟨eH, lH⟩ := splitNil_halves lay.vH hn h1 h2
  obtain ⟨s', r1, r2, r3, r4, r5, r6, r7⟩ := fold_ok u cL cR kL kR a b Gv Hv n s lay.va lay.vb lay.vG lay.vH la lb lG lH
    (lay.ab (by omega) (by omega)) (lay.GH (by omega) (by omega)) hc
  rw [eH] at hHs
  rw [ea, eb, eG, eH]
  refine ⟨⟨L, Rp, a.front n, b.front n, Gv.front n, Hv.front n, hs⟩, s', ?_, ?_⟩
  · rw [St.bind_ok r1]
    rfl
  · exact ⟨rfl, rfl, rfl, r2, r3, r4, r5.trans hHs.symm, ⟨r6.valid (Valid.front lay.va la), r6.valid (Valid.front lay.vb lb),
      r7.valid (Valid.front lay.vG lG), r7.valid (Valid.front lay.vH lH), fun _ _ => lay.ab (by omega) (by omega),
      fun _ _ => lay.GH (by omega) (by omega)⟩⟩

theorem zipWith_range {α β : Type} (z : α) (op : α → α → β) (x y : List α) {n : Nat} (hx : x.length = n) (hy : y.length = n) :
    List.zipWith op x y = (List.range n).map (fun i => op (x.getD i z) (y.getD i z)) := by
  apply List.ext_getElem?
  intro i
  by_cases hi : i < n
  · simp [hi, show i < x.length by omega, show i < y.length by omega]
  · rw [List.getElem?_eq_none (by simp; omega), List.getElem?_eq_none (by simp; omega)]

theorem nextRound_sim (R : Ristretto F G) (n : Nat) (hn : 0 < n) (a b Gv Hv : Slice) (Q : G) (hs : HashCacher) (s : Heap F G)
    (lay : Layout s a b Gv Hv) : Sim Good s (nextRound R n a b Gv Hv Q hs)
      (IP.nextRound R n (read s.1 a) (read s.1 b) (read s.2 Gv) (read s.2 Hv) Q hs) := by
  obtain ⟨a1, a2, -, -⟩ := read_splitNil s.1 a lay.va n
  obtain ⟨b1, b2, -, -⟩ := read_splitNil s.1 b lay.vb n
  obtain ⟨g1, g2, -, -⟩ := read_splitNil s.2 Gv lay.vG n
  obtain ⟨h1, h2, -, -⟩ := read_splitNil s.2 Hv lay.vH n
  have na := splitNil_le (read s.1 a) n
  have nb := splitNil_le (read s.1 b) n
  have nG := splitNil_le (read s.2 Gv) n
  have nH := splitNil_le (read s.2 Hv) n
  unfold nextRound IP.nextRound
  dsimp only
  rw [← a1, ← a2, ← b1, ← b2, ← g1, ← g2, ← h1, ← h2]
  rw [← a1] at na
  rw [← b1] at nb
  rw [← g1] at nG
  rw [← h1] at nH
  refine Sim.bind (Sim.ro rfl) ?_
  rintro _ cL _ - ⟨rfl, rfl⟩
  refine Sim.bind (Sim.ro rfl) ?_
  rintro _ cR _ - ⟨rfl, rfl⟩
  refine Sim.bind (Sim.ro rfl) ?_
  rintro e1 _ _ x1 ⟨rfl, rfl⟩
  refine Sim.bind (Sim.ro rfl) ?_
  rintro e2 _ _ x2 ⟨rfl, rfl⟩
  refine Sim.bind (Sim.ro rfl) ?_
  rintro e4 _ _ x4 ⟨rfl, rfl⟩
  refine Sim.bind (Sim.ro rfl) ?_
  rintro _ e5 s x5 ⟨rfl, rfl⟩
  have y1 := exp_ok x1
  have y2 := exp_ok x2
  have y4 := exp_ok x4
  have y5 := exp_ok x5
  exact fold_sim _ _ _ (fun _ => _) (fun _ => _) a b Gv Hv n hn s lay _ _ _ _ (by omega) (by omega) (by omega) (by omega) (by omega)
    (by omega) (by omega) (by omega) (fun i m _ _ => ⟨rfl, rfl⟩)
    (zipWith_range 0 _ _ _ (by omega) (by omega))

theorem mulFactors_length : ∀ (v f r : List F), IP.mulFactors v f = .ok r → r.length = v.length ∧ v.length ≤ f.length
  | [], f, r, h => by
    cases h
    simp
  | x :: v, [], r, h => by cases h
  | x :: v, f :: fs, r, h => by
    obtain ⟨r', h1, h2⟩ := Res.bind_eq_ok.1 h
    cases h2
    have := mulFactors_length v fs r' h1
    simp
    omega

theorem firstRound_sim (R : Ristretto F G) (n : Nat) (a b Gv Hv hpf : Slice) (Q : G) (hs : HashCacher) (s : Heap F G)
    (lay : Layout s a b Gv Hv) (vf : Valid s.1 hpf) (ha : 0 < hpf.len → hpf.arr ≠ a.arr) (hb : 0 < hpf.len → hpf.arr ≠ b.arr) :
    Sim Good s (firstRound R n a b Gv Hv hpf Q hs)
      (IP.firstRound R n (read s.1 a) (read s.1 b) (read s.2 Gv) (read s.2 Hv) (read s.1 hpf) Q hs) := by
  obtain ⟨a1, a2, va1, va2⟩ := read_splitNil s.1 a lay.va n
  obtain ⟨b1, b2, vb1, vb2⟩ := read_splitNil s.1 b lay.vb n
  obtain ⟨g1, g2, vg1, vg2⟩ := read_splitNil s.2 Gv lay.vG n
  obtain ⟨h1, h2, vh1, vh2⟩ := read_splitNil s.2 Hv lay.vH n
  have na := splitNil_le (read s.1 a) n
  have nb := splitNil_le (read s.1 b) n
  have nG := splitNil_le (read s.2 Gv) n
  have nH := splitNil_le (read s.2 Hv) n
  unfold firstRound IP.firstRound
  dsimp only
  rw [← a1, ← a2, ← b1, ← b2, ← g1, ← g2, ← h1, ← h2]
  rw [← a1] at na
  rw [← b1] at nb
  rw [← g1] at nG
  rw [← h1] at nH
  obtain ⟨m, g⟩ := s
  dsimp only at *
  refine Sim.step (s' := (m, g)) rfl ?_
  dsimp only
  cases Vec.innerProduct (read m (splitNil a n).1) (read m (splitNil b n).2) <;> dsimp only
  case' ok c => generalize c = cL
  case' err => generalize (0 : F) = cL
  case' panic => generalize (0 : F) = cL
  all_goals
    refine Sim.bind (Sim.ro rfl) ?_
    rintro cR _ _ x0 ⟨rfl, rfl⟩
    refine Sim.bind (Sim.ro rfl) ?_
    rintro e1 _ _ x1 ⟨rfl, rfl⟩
    have t1 := timesFactors_sim m (splitNil b n).2 hpf vb2 vf 0
    rw [List.drop_zero] at t1
    refine Sim.bind (Sim.onS t1) ?_
    rintro _ r1 ⟨m1, g1'⟩ z1 ⟨⟨w1, w2, w3⟩, w4⟩
    dsimp only at w1 w4
    subst w1 w2 w4
    have hr1 : read (m ++ [r1]) ⟨m.length, 0, r1.length, r1.length⟩ = r1 := read_last m r1
    refine Sim.bind (Sim.ro (y := Vec.exp r1 (read g1' (splitNil Hv n).1) n 1) (by
      simp only [exp, hr1])) ?_
    rintro e2 _ _ x2 ⟨rfl, rfl⟩
    refine Sim.bind (Sim.ro (y := Vec.exp (read m (splitNil a n).2) (read g1' (splitNil Gv n).1) n 1) (by
      simp only [exp, read_alloc va2])) ?_
    rintro e4 _ _ x4 ⟨rfl, rfl⟩
    have t2 := timesFactors_sim (m ++ [r1]) (splitNil b n).1 hpf (Valid.alloc vb1 _) (Valid.alloc vf _) n
    rw [read_alloc vb1, read_alloc vf] at t2
    refine Sim.bind (Sim.onS t2) ?_
    rintro _ r2 ⟨m2, g2'⟩ z2 ⟨⟨w1, w2, w3'⟩, w4⟩
    dsimp only at w1 w4
    subst w1 w2 w4
    have hr2 := read_last (m ++ [r1]) r2
    refine Sim.bind (Sim.ro (y := Vec.exp r2 (read g2' (splitNil Hv n).2) n 1) (by
      simp only [exp, hr2])) ?_
    rintro e5 _ _ x5 ⟨rfl, rfl⟩
    have y1 := exp_ok x1
    have y2 := exp_ok x2
    have y4 := exp_ok x4
    have y5 := exp_ok x5
    have q1 := mulFactors_length _ _ _ z1
    have q2 := mulFactors_length _ _ _ z2
    have old : ∀ {x : Slice}, Valid m x → read (m ++ [r1] ++ [r2]) x = read m x := fun hx => by
      rw [read_alloc (Valid.alloc hx _), read_alloc hx]
    have oldv : ∀ {x : Slice}, Valid m x → Valid (m ++ [r1] ++ [r2]) x := fun hx => Valid.alloc (Valid.alloc hx _) _
    have lay' : Layout (F := F) (G := G) (m ++ [r1] ++ [r2], g2') a b Gv Hv :=
      ⟨oldv lay.va, oldv lay.vb, lay.vG, lay.vH, lay.ab, lay.GH⟩
    by_cases hn : n = 0
    · subst hn
      have na' : read m (splitNil a 0).1 = [] := List.length_eq_zero_iff.1 (by omega)
      have nb' : read m (splitNil b 0).1 = [] := List.length_eq_zero_iff.1 (by omega)
      have nG' : read g2' (splitNil Gv 0).1 = [] := List.length_eq_zero_iff.1 (by omega)
      have nH' : read g2' (splitNil Hv 0).1 = [] := List.length_eq_zero_iff.1 (by omega)
      refine ⟨_, (m ++ [r1] ++ [r2], g2'), rfl, rfl, rfl, rfl, ?_, ?_, ?_, ?_, oldv va1, oldv vb1, vg1, vh1, fun h _ => ?_, fun h _ => ?_⟩
      · simp only [old va1, na', List.zipWith_nil_left]
      · simp only [old vb1, nb', List.zipWith_nil_left]
      · simp only [nG', List.zipWith_nil_left]
      · simp only [nH', List.zipWith_nil_left, List.zipWith_nil_right]
      · have := va1.read_length
        rw [na'] at this
        simp only [List.length_nil] at this
        dsimp only at h
        omega
      · have := vg1.read_length
        rw [nG'] at this
        simp only [List.length_nil] at this
        dsimp only at h
        omega
    · rw [List.length_drop] at q2
      have hsim := fold_sim (HashCacher.derive R (hs.append [R.pBytes (e1 + e2 + cL • Q), R.pBytes (e4 + e5 + cR • Q)]))
        (fun i => do let f ← get hpf i; pure (f * HashCacher.derive R (hs.append [R.pBytes (e1 + e2 + cL • Q), R.pBytes (e4 + e5 + cR • Q)])))
        (fun i => do let f ← get hpf (i + n); pure (f * (HashCacher.derive R (hs.append [R.pBytes (e1 + e2 + cL • Q), R.pBytes (e4 + e5 + cR • Q)]))⁻¹))
        (fun i => (read m hpf).getD i 0 * HashCacher.derive R (hs.append [R.pBytes (e1 + e2 + cL • Q), R.pBytes (e4 + e5 + cR • Q)]))
        (fun i => (read m hpf).getD (i + n) 0 * (HashCacher.derive R (hs.append [R.pBytes (e1 + e2 + cL • Q), R.pBytes (e4 + e5 + cR • Q)]))⁻¹)
        a b Gv Hv n (by omega) (m ++ [r1] ++ [r2], g2') lay' (e1 + e2 + cL • Q) (e4 + e5 + cR • Q)
        (hs.append [R.pBytes (e1 + e2 + cL • Q), R.pBytes (e4 + e5 + cR • Q)])
        (List.zipWith (fun x y => x + y)
          (List.zipWith (fun f x => (f * HashCacher.derive R (hs.append [R.pBytes (e1 + e2 + cL • Q), R.pBytes (e4 + e5 + cR • Q)])) • x)
            (read m hpf) (read g2' (splitNil Hv n).1))
          (List.zipWith (fun f x => (f * (HashCacher.derive R (hs.append [R.pBytes (e1 + e2 + cL • Q), R.pBytes (e4 + e5 + cR • Q)]))⁻¹) • x)
            ((read m hpf).drop n) (read g2' (splitNil Hv n).2)))
        (by rw [old va1]; omega) (by rw [old va2]; omega) (by rw [old vb1]; omega) (by rw [old vb2]; omega) (by dsimp only; omega)
        (by dsimp only; omega) (by dsimp only; omega) (by dsimp only; omega)
        (by
          intro i m' hi hsame
          have hlf := vf.read_length
          have hread : read m' hpf = read m hpf := by
            have h1 : m'[hpf.arr]? = (m ++ [r1] ++ [r2])[hpf.arr]? := hsame.other _ (ha (by omega)) (hb (by omega))
            rw [read_eq_of_getElem? h1, old vf]
          have h1 : (get hpf i).run m' = (.ok ((read m hpf).getD i 0), m') := by
            unfold Go.get
            dsimp only
            rw [hread, idx_of_lt (by omega), List.getD_eq_getElem _ _ (by omega)]
          have h2 : (get hpf (i + n)).run m' = (.ok ((read m hpf).getD (i + n) 0), m') := by
            unfold Go.get
            dsimp only
            rw [hread, idx_of_lt (by omega), List.getD_eq_getElem _ _ (by omega)]
          exact ⟨by rw [St.bind_ok h1]; rfl, by rw [St.bind_ok h2]; rfl⟩)
        (by
          dsimp only
          apply List.ext_getElem?
          intro i
          by_cases hi : i < n
          · rw [List.getElem?_map, List.getElem?_range hi, List.getElem?_eq_getElem (by simp; omega)]
            simp only [List.getElem_zipWith, Option.map_some, Option.some.injEq, List.getElem_drop]
            rw [List.getD_eq_getElem _ _ (by omega), List.getD_eq_getElem _ _ (by omega), List.getD_eq_getElem _ _ (by omega),
              List.getD_eq_getElem _ _ (by omega)]
            simp only [Nat.add_comm n i]
          · rw [List.getElem?_eq_none (by simp; omega), List.getElem?_eq_none (by simp; omega)])
      simp only [old va1, old va2, old vb1, old vb2] at hsim
      exact hsim

theorem finish_sim (Lj Rj : List G) (a b : Slice) (s : Heap F G) (va : Valid s.1 a) (vb : Valid s.1 b) :
    Sim (fun _ p q => p = q) s (finish Lj Rj a b) (IP.finish Lj Rj (read s.1 a) (read s.1 b)) := by
  have la := va.read_length
  have lb := vb.read_length
  unfold finish IP.finish
  by_cases ha : a.len = 0
  · have h0 : read s.1 a = [] := List.length_eq_zero_iff.1 (by omega)
    rw [h0, if_pos ha]
    rfl
  · have e1 : (read s.1 a).getLast? = some ((read s.1 a)[a.len - 1]'(by omega)) := by
      rw [List.getLast?_eq_getElem?, List.getElem?_eq_getElem (by omega)]
      simp only [la]
    rw [if_neg ha, e1]
    have r1 : (onS (G := G) (get a (a.len - 1))).run s = (.ok ((read s.1 a)[a.len - 1]'(by omega)), s) := by
      unfold onS Go.get
      dsimp only
      rw [idx_of_lt (by omega)]
    by_cases hb : b.len = 0
    · have h0 : read s.1 b = [] := List.length_eq_zero_iff.1 (by omega)
      rw [h0, if_pos hb]
      show (St.run _ s).1 = _
      rw [St.bind_ok r1]
      rfl
    · have e2 : (read s.1 b).getLast? = some ((read s.1 b)[b.len - 1]'(by omega)) := by
        rw [List.getLast?_eq_getElem?, List.getElem?_eq_getElem (by omega)]
        simp only [lb]
      have r2 : (onS (G := G) (get b (b.len - 1))).run s = (.ok ((read s.1 b)[b.len - 1]'(by omega)), s) := by
        unfold onS Go.get
        dsimp only
        rw [idx_of_lt (by omega)]
      rw [if_neg hb, e2]
      refine ⟨_, s, ?_, rfl⟩
      rw [St.bind_ok r1, St.bind_ok r2]
      rfl

theorem genLoop_sim (R : Ristretto F G) (Q : G) : ∀ (n : Nat) (a b Gv Hv : Slice) (hs : HashCacher) (Lj Rj : List G) (s : Heap F G),
    Layout s a b Gv Hv → Sim (fun _ p q => p = q) s (genLoop R Q n a b Gv Hv hs Lj Rj)
      (IP.genLoop R Q n (read s.1 a) (read s.1 b) (read s.2 Gv) (read s.2 Hv) hs Lj Rj) := by
  intro n
  induction n using Nat.strong_induction_on with
  | _ n ih =>
    intro a b Gv Hv hs Lj Rj s lay
    rw [genLoop, IP.genLoop]
    by_cases hn : n > 1
    · rw [dif_pos hn, dif_pos hn]
      refine Sim.bind (nextRound_sim R (n / 2) (by omega) a b Gv Hv Q hs s lay) ?_
      rintro mr r s' - g
      have := ih (n / 2) (by omega) mr.a mr.b mr.Gs mr.Hs mr.hs (Lj ++ [mr.L]) (Rj ++ [mr.R]) s' g.lay
      rw [g.a, g.b, g.Gs, g.Hs, g.hs, g.L, g.R] at this
      rw [g.hs, g.L, g.R]
      exact this
    · rw [dif_neg hn, dif_neg hn]
      exact finish_sim Lj Rj a b s lay.va lay.vb

/-! ## Arrays of the caller -/

/-- Arrays allocated before, of scalars and of points, stay as they are. -/
def Frame2 (N M : Nat) (s s' : Heap F G) : Prop := Frame N s.1 s'.1 ∧ Frame M s.2 s'.2

theorem Frame2.refl (N M : Nat) (s : Heap F G) : Frame2 N M s s := ⟨Frame.refl N _, Frame.refl M _⟩

theorem Frame2.trans (N M : Nat) (a b c : Heap F G) (h : Frame2 N M a b) (h' : Frame2 N M b c) : Frame2 N M a c :=
  ⟨Frame.trans N _ _ _ h.1 h'.1, Frame.trans M _ _ _ h.2 h'.2⟩

theorem onS_keeps {α : Type} {N : Nat} (M : Nat) {x : St (Mem F) α} (h : St.Keeps (Frame N) x) :
    St.Keeps (Frame2 (G := G) N M) (onS x) := fun s => ⟨h s.1, Frame.refl M _⟩

theorem onP_keeps {α : Type} (N : Nat) {M : Nat} {x : St (Mem G) α} (h : St.Keeps (Frame M) x) :
    St.Keeps (Frame2 (F := F) N M) (onP x) := fun s => ⟨Frame.refl N _, h s.2⟩

theorem combine_keeps {α : Type} (N : Nat) (f : α → α → α) (x y : Slice) (i : Nat) (h : N ≤ x.arr ∨ x.len = 0) :
    St.Keeps (Frame N) (combine f x y i) :=
  St.Keeps.bind (Frame.trans N) (get_keeps N x i) fun _ => St.Keeps.bind (Frame.trans N) (get_keeps N y i) fun _ => put_keeps N x i _ h

theorem foldBody_keeps (N M : Nat) (u : F) (cL cR : Nat → St (Mem F) F) (a b Gs Hs : Slice × Slice) (i : Nat)
    (ha : N ≤ a.1.arr ∨ a.1.len = 0) (hb : N ≤ b.1.arr ∨ b.1.len = 0) (hG : M ≤ Gs.1.arr ∨ Gs.1.len = 0)
    (hH : M ≤ Hs.1.arr ∨ Hs.1.len = 0) (hL : ∀ i, St.Keeps (Frame N) (cL i)) (hR : ∀ i, St.Keeps (Frame N) (cR i)) :
    St.Keeps (Frame2 (G := G) N M) (foldBody u cL cR a b Gs Hs i) :=
  St.Keeps.bind (Frame2.trans N M) (onS_keeps M (combine_keeps N _ _ _ i ha)) fun _ =>
  St.Keeps.bind (Frame2.trans N M) (onS_keeps M (combine_keeps N _ _ _ i hb)) fun _ =>
  St.Keeps.bind (Frame2.trans N M) (onP_keeps N (combine_keeps M _ _ _ i hG)) fun _ =>
  St.Keeps.bind (Frame2.trans N M) (onS_keeps M (hL i)) fun _ =>
  St.Keeps.bind (Frame2.trans N M) (onS_keeps M (hR i)) fun _ => onP_keeps N (combine_keeps M _ _ _ i hH)

theorem mulFactors_keeps (N : Nat) (v f : Slice) (off : Nat) (h : N ≤ v.arr ∨ v.len = 0) :
    St.Keeps (Frame N) (mulFactors (F := F) v f off) :=
  St.Keeps.loop (Frame.refl N) (Frame.trans N) (fun i =>
    St.Keeps.bind (Frame.trans N) (get_keeps N v i) fun _ => St.Keeps.bind (Frame.trans N) (get_keeps N f _) fun _ =>
      put_keeps N v i _ h) _ _

theorem timesFactors_keeps (N : Nat) (v f : Slice) (off : Nat) : St.Keeps (Frame N) (timesFactors (F := F) v f off) := by
  intro m hl
  unfold timesFactors clone
  rw [St.bind_ok (s' := (m ++ [List.replicate v.len 0]).modify m.length (splice 0 ((read (m ++ [List.replicate v.len 0]) v).take v.len)))
    (a := ⟨m.length, 0, v.len, v.len⟩) rfl]
  have h1 : Frame N m ((m ++ [List.replicate v.len 0]).modify m.length (splice 0 ((read (m ++ [List.replicate v.len 0]) v).take v.len))) :=
    clone_keeps N 0 v m
  have h2 := St.Keeps.bind (Frame.trans N) (mulFactors_keeps (F := F) N ⟨m.length, 0, v.len, v.len⟩ f off (Or.inl hl)) (fun _ =>
    St.Keeps.pure (Frame.refl N) (⟨m.length, 0, v.len, v.len⟩ : Slice))
  exact Frame.trans N _ _ _ h1 (h2 _) hl

theorem splitNil_arr (x : Slice) (n N : Nat) (h : N ≤ x.arr ∨ x.len = 0) :
    N ≤ (splitNil x n).1.arr ∨ (splitNil x n).1.len = 0 := by
  unfold splitNil VecMem.split
  split_ifs
  · simp [Slice.nil]
  all_goals simp [Slice.front, Slice.nil]
  all_goals omega

theorem ro_keeps {α : Type} (N M : Nat) (f : Heap F G → Res α) : St.Keeps (Frame2 N M) (⟨fun s => (f s, s)⟩ : St (Heap F G) α) :=
  fun s => Frame2.refl N M s

/-- After a step, what is known of its result. -/
theorem Keeps.bind' {σ α β : Type} {P : σ → σ → Prop} (ht : ∀ a b c, P a b → P b c → P a c) {x : St σ α} {f : α → St σ β}
    {I : α → Prop} (hx : ∀ s, P s (x.run s).2 ∧ ∀ a, (x.run s).1 = .ok a → I a) (hf : ∀ a, I a → St.Keeps P (f a)) :
    St.Keeps P (x >>= f) := by
  intro s
  have h := hx s
  rw [St.run_bind]
  revert h
  generalize x.run s = r
  rcases r with ⟨r | e | _, s'⟩
  · exact fun h => ht _ _ _ h.1 (hf r (h.2 r rfl) s')
  · exact fun h => h.1
  · exact fun h => h.1

/-- The slices a round returns are empty or lie in arrays from `N`, `M` on. -/
def Own (N M : Nat) (r : Round G) : Prop :=
  (N ≤ r.a.arr ∨ r.a.len = 0) ∧ (N ≤ r.b.arr ∨ r.b.len = 0) ∧ (M ≤ r.Gs.arr ∨ r.Gs.len = 0) ∧ (M ≤ r.Hs.arr ∨ r.Hs.len = 0)

theorem nextRound_keeps (N M : Nat) (R : Ristretto F G) (n : Nat) (a b Gv Hv : Slice) (Q : G) (hs : HashCacher)
    (ha : N ≤ a.arr ∨ a.len = 0) (hb : N ≤ b.arr ∨ b.len = 0) (hG : M ≤ Gv.arr ∨ Gv.len = 0) (hH : M ≤ Hv.arr ∨ Hv.len = 0) :
    St.Keeps (Frame2 N M) (nextRound R n a b Gv Hv Q hs) :=
  St.Keeps.bind (Frame2.trans N M) (ro_keeps N M _) fun _ =>
  St.Keeps.bind (Frame2.trans N M) (ro_keeps N M _) fun _ =>
  St.Keeps.bind (Frame2.trans N M) (ro_keeps N M _) fun _ =>
  St.Keeps.bind (Frame2.trans N M) (ro_keeps N M _) fun _ =>
  St.Keeps.bind (Frame2.trans N M) (ro_keeps N M _) fun _ =>
  St.Keeps.bind (Frame2.trans N M) (ro_keeps N M _) fun _ =>
  St.Keeps.bind (Frame2.trans N M) (St.Keeps.loop (Frame2.refl N M) (Frame2.trans N M) (fun i =>
    foldBody_keeps N M _ _ _ _ _ _ _ i (splitNil_arr a n N ha) (splitNil_arr b n N hb) (splitNil_arr Gv n M hG) (splitNil_arr Hv n M hH)
      (fun _ => St.Keeps.pure (Frame.refl N) _) (fun _ => St.Keeps.pure (Frame.refl N) _)) _ _) fun _ =>
  St.Keeps.pure (Frame2.refl N M) _

theorem firstRound_keeps (N M : Nat) (R : Ristretto F G) (n : Nat) (a b Gv Hv hpf : Slice) (Q : G) (hs : HashCacher)
    (ha : N ≤ a.arr ∨ a.len = 0) (hb : N ≤ b.arr ∨ b.len = 0) (hG : M ≤ Gv.arr ∨ Gv.len = 0) (hH : M ≤ Hv.arr ∨ Hv.len = 0) :
    St.Keeps (Frame2 N M) (firstRound R n a b Gv Hv hpf Q hs) :=
  St.Keeps.bind (Frame2.trans N M) (ro_keeps N M _) fun _ =>
  St.Keeps.bind (Frame2.trans N M) (ro_keeps N M _) fun _ =>
  St.Keeps.bind (Frame2.trans N M) (ro_keeps N M _) fun _ =>
  St.Keeps.bind (Frame2.trans N M) (onS_keeps M (timesFactors_keeps N _ hpf 0)) fun _ =>
  St.Keeps.bind (Frame2.trans N M) (ro_keeps N M _) fun _ =>
  St.Keeps.bind (Frame2.trans N M) (ro_keeps N M _) fun _ =>
  St.Keeps.bind (Frame2.trans N M) (onS_keeps M (timesFactors_keeps N _ hpf n)) fun _ =>
  St.Keeps.bind (Frame2.trans N M) (ro_keeps N M _) fun _ =>
  St.Keeps.bind (Frame2.trans N M) (St.Keeps.loop (Frame2.refl N M) (Frame2.trans N M) (fun i =>
    foldBody_keeps N M _ _ _ _ _ _ _ i (splitNil_arr a n N ha) (splitNil_arr b n N hb) (splitNil_arr Gv n M hG) (splitNil_arr Hv n M hH)
      (fun i => St.Keeps.bind (Frame.trans N) (get_keeps N hpf i) fun _ => St.Keeps.pure (Frame.refl N) _)
      (fun _ => St.Keeps.bind (Frame.trans N) (get_keeps N hpf _) fun _ => St.Keeps.pure (Frame.refl N) _)) _ _) fun _ =>
  St.Keeps.pure (Frame2.refl N M) _

/-- The result of a computation that ends with `pure`. -/
theorem ok_of_bind {σ α β : Type} {x : St σ α} {f : α → St σ β} {s : σ} {b : β} (h : ((x >>= f).run s).1 = .ok b) :
    ∃ a s', ((f a).run s').1 = .ok b := by
  rw [St.run_bind] at h
  revert h
  generalize x.run s = r
  rcases r with ⟨r | e | _, s'⟩
  · exact fun h => ⟨r, s', h⟩
  · intro h; cases h
  · intro h; cases h

theorem nextRound_own (N M : Nat) (R : Ristretto F G) (n : Nat) (a b Gv Hv : Slice) (Q : G) (hs : HashCacher)
    (ha : N ≤ a.arr ∨ a.len = 0) (hb : N ≤ b.arr ∨ b.len = 0) (hG : M ≤ Gv.arr ∨ Gv.len = 0) (hH : M ≤ Hv.arr ∨ Hv.len = 0)
    (s : Heap F G) (r : Round G) (h : ((nextRound R n a b Gv Hv Q hs).run s).1 = .ok r) : Own N M r := by
  unfold nextRound at h
  dsimp only at h
  iterate 7 obtain ⟨_, _, h⟩ := ok_of_bind h
  rw [St.run_pure] at h
  cases h
  exact ⟨splitNil_arr a n N ha, splitNil_arr b n N hb, splitNil_arr Gv n M hG, splitNil_arr Hv n M hH⟩

theorem firstRound_own (N M : Nat) (R : Ristretto F G) (n : Nat) (a b Gv Hv hpf : Slice) (Q : G) (hs : HashCacher)
    (ha : N ≤ a.arr ∨ a.len = 0) (hb : N ≤ b.arr ∨ b.len = 0) (hG : M ≤ Gv.arr ∨ Gv.len = 0) (hH : M ≤ Hv.arr ∨ Hv.len = 0)
    (s : Heap F G) (r : Round G) (h : ((firstRound R n a b Gv Hv hpf Q hs).run s).1 = .ok r) : Own N M r := by
  unfold firstRound at h
  dsimp only at h
  iterate 9 obtain ⟨_, _, h⟩ := ok_of_bind h
  rw [St.run_pure] at h
  cases h
  exact ⟨splitNil_arr a n N ha, splitNil_arr b n N hb, splitNil_arr Gv n M hG, splitNil_arr Hv n M hH⟩

theorem finish_keeps (N M : Nat) (Lj Rj : List G) (a b : Slice) : St.Keeps (Frame2 N M) (finish (F := F) Lj Rj a b) := by
  refine St.Keeps.bind (Frame2.trans N M) (onS_keeps M ?_) fun _ => St.Keeps.bind (Frame2.trans N M) (onS_keeps M ?_) fun _ =>
    St.Keeps.pure (Frame2.refl N M) _
  · split_ifs
    · exact St.Keeps.lift (Frame.refl N) _
    · exact get_keeps N a _
  · split_ifs
    · exact St.Keeps.lift (Frame.refl N) _
    · exact get_keeps N b _

theorem genLoop_keeps (N M : Nat) (R : Ristretto F G) (Q : G) : ∀ (n : Nat) (a b Gv Hv : Slice) (hs : HashCacher) (Lj Rj : List G),
    (N ≤ a.arr ∨ a.len = 0) → (N ≤ b.arr ∨ b.len = 0) → (M ≤ Gv.arr ∨ Gv.len = 0) → (M ≤ Hv.arr ∨ Hv.len = 0) →
    St.Keeps (Frame2 N M) (genLoop R Q n a b Gv Hv hs Lj Rj) := by
  intro n
  induction n using Nat.strong_induction_on with
  | _ n ih =>
    intro a b Gv Hv hs Lj Rj ha hb hG hH
    rw [genLoop]
    by_cases hn : n > 1
    · rw [dif_pos hn]
      refine Keeps.bind' (Frame2.trans N M) (I := Own N M) (fun s => ⟨nextRound_keeps N M R _ a b Gv Hv Q hs ha hb hG hH s,
        nextRound_own N M R _ a b Gv Hv Q hs ha hb hG hH s⟩) ?_
      rintro r ⟨h1, h2, h3, h4⟩
      exact ih (n / 2) (by omega) _ _ _ _ _ _ _ h1 h2 h3 h4
    · rw [dif_neg hn]
      exact finish_keeps N M Lj Rj a b

/-! ## The claims -/

/-- `Generate` is what the model on values says, whatever memory the arguments lie in: they may overlap or be the same slice. -/
theorem C94_result (R : Ristretto F G) (GVec HVec aVec bVec hpf : Slice) (Q : G) (s : Heap F G) (hG : Valid s.2 GVec)
    (hH : Valid s.2 HVec) (ha : Valid s.1 aVec) (hb : Valid s.1 bVec) (hf : Valid s.1 hpf) :
    ((generate R GVec HVec aVec bVec hpf Q).run s).1 =
      IP.generate R (read s.2 GVec) (read s.2 HVec) (read s.1 aVec) (read s.1 bVec) (read s.1 hpf) Q := by
  have fin : ∀ {x : St (Heap F G) (IP.Proof F G)} {y : Res (IP.Proof F G)} {s}, Sim (fun _ p q => p = q) s x y → (x.run s).1 = y := by
    intro x y s h
    cases y with
    | ok b =>
      obtain ⟨p, t, h1, rfl⟩ := h
      rw [h1]
    | err e => exact h
    | panic => exact h
  obtain ⟨m, g⟩ := s
  dsimp only at *
  unfold generate IP.generate
  rw [hG.read_length]
  dsimp only
  split_ifs with h1 h2
  rotate_left 2
  · rfl
  all_goals
    have va2 : Valid (m ++ [read m aVec]) bVec := Valid.alloc hb _
    have vG2 : Valid (g ++ [read g GVec]) HVec := Valid.alloc hH _
    have c1 : (onS (G := G) (clone 0 aVec)).run (m, g) = (.ok ⟨m.length, 0, aVec.len, aVec.len⟩, (m ++ [read m aVec], g)) := by
      simp [onS, clone_eq 0 aVec ha]
    have c2 : (onS (G := G) (clone 0 bVec)).run (m ++ [read m aVec], g) =
        (.ok ⟨m.length + 1, 0, bVec.len, bVec.len⟩, (m ++ [read m aVec] ++ [read m bVec], g)) := by
      simp [onS, clone_eq 0 bVec va2, read_alloc hb]
    have c3 : (onP (F := F) (clone 0 GVec)).run (m ++ [read m aVec] ++ [read m bVec], g) =
        (.ok ⟨g.length, 0, GVec.len, GVec.len⟩, (m ++ [read m aVec] ++ [read m bVec], g ++ [read g GVec])) := by
      simp [onP, clone_eq 0 GVec hG]
    have c4 : (onP (F := F) (clone 0 HVec)).run (m ++ [read m aVec] ++ [read m bVec], g ++ [read g GVec]) =
        (.ok ⟨g.length + 1, 0, HVec.len, HVec.len⟩, (m ++ [read m aVec] ++ [read m bVec], g ++ [read g GVec] ++ [read g HVec])) := by
      simp [onP, clone_eq 0 HVec vG2, read_alloc hH]
    have q1 := read_last m (read m aVec)
    have q2 := read_last (m ++ [read m aVec]) (read m bVec)
    have q3 := read_last g (read g GVec)
    have q4 := read_last (g ++ [read g GVec]) (read g HVec)
    have v1 : Valid (m ++ [read m aVec]) ⟨m.length, 0, aVec.len, aVec.len⟩ := ⟨le_refl _, by simp [size, ha.read_length]⟩
    have v2 : Valid (m ++ [read m aVec] ++ [read m bVec]) ⟨m.length + 1, 0, bVec.len, bVec.len⟩ := ⟨le_refl _, by
      simp [size, hb.read_length]⟩
    have v3 : Valid (g ++ [read g GVec]) ⟨g.length, 0, GVec.len, GVec.len⟩ := ⟨le_refl _, by simp [size, hG.read_length]⟩
    have v4 : Valid (g ++ [read g GVec] ++ [read g HVec]) ⟨g.length + 1, 0, HVec.len, HVec.len⟩ := ⟨le_refl _, by
      simp [size, hH.read_length]⟩
    have lay : Layout (F := F) (G := G) (m ++ [read m aVec] ++ [read m bVec], g ++ [read g GVec] ++ [read g HVec])
        ⟨m.length, 0, aVec.len, aVec.len⟩ ⟨m.length + 1, 0, bVec.len, bVec.len⟩ ⟨g.length, 0, GVec.len, GVec.len⟩
        ⟨g.length + 1, 0, HVec.len, HVec.len⟩ :=
      ⟨Valid.alloc v1 _, v2, Valid.alloc v3 _, v4, fun _ _ => by simp, fun _ _ => by simp⟩
    rw [ha.read_length] at q1
    rw [hb.read_length, List.length_append, List.length_singleton] at q2
    rw [hG.read_length] at q3
    rw [hH.read_length, List.length_append, List.length_singleton] at q4
    have p1 := (read_alloc v1 (read m bVec)).trans q1
    have p3 := (read_alloc v3 (read g HVec)).trans q3
    rw [St.bind_ok c1, St.bind_ok c2, St.bind_ok c3, St.bind_ok c4]
  · apply fin
    have harr : 0 < hpf.len → hpf.arr < m.length := by
      intro h
      by_contra hc
      have := (hf.len_eq_zero (by omega)).2.1
      omega
    have hfr := firstRound_sim R (GVec.len % 2 ^ 32 / 2) ⟨m.length, 0, aVec.len, aVec.len⟩ ⟨m.length + 1, 0, bVec.len, bVec.len⟩
      ⟨g.length, 0, GVec.len, GVec.len⟩ ⟨g.length + 1, 0, HVec.len, HVec.len⟩ hpf Q {} _ lay (Valid.alloc (Valid.alloc hf _) _)
      (fun h => by have := harr h; dsimp only; omega) (fun h => by have := harr h; dsimp only; omega)
    dsimp only at hfr
    rw [p1, q2, p3, q4, read_alloc (Valid.alloc hf _), read_alloc hf] at hfr
    refine Sim.bind hfr ?_
    rintro mr r s' - gd
    have := genLoop_sim R Q (GVec.len % 2 ^ 32 / 2) mr.a mr.b mr.Gs mr.Hs mr.hs [mr.L] [mr.R] s' gd.lay
    rw [gd.a, gd.b, gd.Gs, gd.Hs, gd.hs, gd.L, gd.R] at this
    rw [gd.hs, gd.L, gd.R]
    exact this
  · apply fin
    have := finish_sim [] [] _ _ _ lay.va lay.vb
    dsimp only at this
    rw [p1, q2] at this
    exact this

/-- Whatever the outcome of `Generate`, every array there was before the call is left as it was. -/
theorem C94_memory (R : Ristretto F G) (GVec HVec aVec bVec hpf : Slice) (Q : G) (s : Heap F G) (hG : Valid s.2 GVec)
    (hH : Valid s.2 HVec) (ha : Valid s.1 aVec) (hb : Valid s.1 bVec) :
    (∀ i, i < s.1.length → ((generate R GVec HVec aVec bVec hpf Q).run s).2.1[i]? = s.1[i]?) ∧
      ∀ i, i < s.2.length → ((generate R GVec HVec aVec bVec hpf Q).run s).2.2[i]? = s.2[i]? := by
  obtain ⟨m, g⟩ := s
  dsimp only at *
  suffices h : Frame2 m.length g.length (m, g) ((generate R GVec HVec aVec bVec hpf Q).run (m, g)).2 from
    ⟨(h.1 (le_refl _)).2, (h.2 (le_refl _)).2⟩
  unfold generate
  dsimp only
  split_ifs with h1 h2
  rotate_left 2
  · exact Frame2.refl _ _ _
  all_goals
    have va2 : Valid (m ++ [read m aVec]) bVec := Valid.alloc hb _
    have vG2 : Valid (g ++ [read g GVec]) HVec := Valid.alloc hH _
    have c1 : (onS (G := G) (clone 0 aVec)).run (m, g) = (.ok ⟨m.length, 0, aVec.len, aVec.len⟩, (m ++ [read m aVec], g)) := by
      simp [onS, clone_eq 0 aVec ha]
    have c2 : (onS (G := G) (clone 0 bVec)).run (m ++ [read m aVec], g) =
        (.ok ⟨m.length + 1, 0, bVec.len, bVec.len⟩, (m ++ [read m aVec] ++ [read m bVec], g)) := by
      simp [onS, clone_eq 0 bVec va2, read_alloc hb]
    have c3 : (onP (F := F) (clone 0 GVec)).run (m ++ [read m aVec] ++ [read m bVec], g) =
        (.ok ⟨g.length, 0, GVec.len, GVec.len⟩, (m ++ [read m aVec] ++ [read m bVec], g ++ [read g GVec])) := by
      simp [onP, clone_eq 0 GVec hG]
    have c4 : (onP (F := F) (clone 0 HVec)).run (m ++ [read m aVec] ++ [read m bVec], g ++ [read g GVec]) =
        (.ok ⟨g.length + 1, 0, HVec.len, HVec.len⟩, (m ++ [read m aVec] ++ [read m bVec], g ++ [read g GVec] ++ [read g HVec])) := by
      simp [onP, clone_eq 0 HVec vG2, read_alloc hH]
    have f1 : Frame2 m.length g.length (m, g) (m ++ [read m aVec] ++ [read m bVec], g ++ [read g GVec] ++ [read g HVec]) := by
      refine ⟨fun _ => ⟨by simp, fun i hi => ?_⟩, fun _ => ⟨by simp, fun i hi => ?_⟩⟩ <;>
      · dsimp only
        rw [List.append_assoc, List.getElem?_append_left hi]
    rw [St.bind_ok c1, St.bind_ok c2, St.bind_ok c3, St.bind_ok c4]
    refine Frame2.trans _ _ _ _ _ f1 ?_
  · refine Keeps.bind' (Frame2.trans _ _) (I := Own m.length g.length) (fun s => ⟨firstRound_keeps _ _ R _ _ _ _ _ hpf Q _ ?_ ?_ ?_ ?_ s,
      firstRound_own _ _ R _ _ _ _ _ hpf Q _ ?_ ?_ ?_ ?_ s⟩) ?_ _
    · exact Or.inl (le_refl _)
    · exact Or.inl (Nat.le_succ _)
    · exact Or.inl (le_refl _)
    · exact Or.inl (Nat.le_succ _)
    · exact Or.inl (le_refl _)
    · exact Or.inl (Nat.le_succ _)
    · exact Or.inl (le_refl _)
    · exact Or.inl (Nat.le_succ _)
    · rintro r ⟨h1, h2, h3, h4⟩
      exact genLoop_keeps _ _ R Q _ _ _ _ _ _ _ _ h1 h2 h3 h4
  · exact finish_keeps _ _ _ _ _ _ _

/-- So a proof for slices of length `2^k`, overlapping or not, is accepted for what the slices held before the call, which they
still hold after it. -/
theorem C94_overlap [DecidableEq G] (R : Ristretto F G) (GVec HVec aVec bVec hpf : Slice) (Q : G) (s : Heap F G) (hG : Valid s.2 GVec)
    (hH : Valid s.2 HVec) (ha : Valid s.1 aVec) (hb : Valid s.1 bVec) (hf : Valid s.1 hpf) (k : Nat) (hk : k < 32)
    (lG : GVec.len = 2 ^ k) (lH : HVec.len = 2 ^ k) (la : aVec.len = 2 ^ k) (lb : bVec.len = 2 ^ k) (lf : 2 ^ k ≤ hpf.len) :
    ∃ p s', (generate R GVec HVec aVec bVec hpf Q).run s = (.ok p, s') ∧
      (∀ x, Valid s.1 x → read s'.1 x = read s.1 x) ∧ (∀ x, Valid s.2 x → read s'.2 x = read s.2 x) ∧
      ((∀ u ∈ IP.challenges R p.L p.R, u ≠ 0) → IP.verify R p (read s'.2 GVec) (read s'.2 HVec) (read s'.1 hpf) Q
        (IP.commitPoint (read s'.2 GVec) (read s'.2 HVec) (read s'.1 hpf) Q (read s'.1 aVec) (read s'.1 bVec)) (2 ^ k) = .ok true) := by
  have h := C94_result R GVec HVec aVec bVec hpf Q s hG hH ha hb hf
  obtain ⟨p, h1, -, -, h2⟩ := IP.C53_completeness R Q k hk (read s.1 aVec) (read s.1 bVec) (read s.1 hpf) (read s.2 GVec) (read s.2 HVec)
    (by rw [ha.read_length, la]) (by rw [hb.read_length, lb]) (by rw [hG.read_length, lG]) (by rw [hH.read_length, lH])
    (by rw [hf.read_length]; exact lf)
  obtain ⟨m1, m2⟩ := C94_memory R GVec HVec aVec bVec hpf Q s hG hH ha hb
  rw [h1] at h
  generalize hr : (generate R GVec HVec aVec bVec hpf Q).run s = r at h m1 m2
  obtain ⟨r, s'⟩ := r
  dsimp only at h m1 m2
  subst h
  have e1 : ∀ x, Valid s.1 x → read s'.1 x = read s.1 x := by
    intro x hx
    by_cases hl : x.arr < s.1.length
    · exact read_eq_of_getElem? (m1 _ hl)
    · have := (hx.len_eq_zero (by omega)).2.1
      simp [Go.read, this]
  have e2 : ∀ x, Valid s.2 x → read s'.2 x = read s.2 x := by
    intro x hx
    by_cases hl : x.arr < s.2.length
    · exact read_eq_of_getElem? (m2 _ hl)
    · have := (hx.len_eq_zero (by omega)).2.1
      simp [Go.read, this]
  refine ⟨p, s', rfl, e1, e2, fun hnz => ?_⟩
  rw [e1 _ ha, e1 _ hb, e1 _ hf, e2 _ hG, e2 _ hH, h2 hnz _ _ (le_refl _), decide_eq_true rfl]

/-! ### The hypotheses are satisfiable: one slice for all scalar arguments, one for both lists of points -/

def exHeap (k : Nat) : Heap Toy.K Toy.K := ([List.replicate (2 ^ k) 5], [List.replicate (2 ^ k) 2])

theorem exValid (α : Type) (k : Nat) (x : α) : Valid [List.replicate (2 ^ k) x] ⟨0, 0, 2 ^ k, 2 ^ k⟩ := ⟨le_refl _, by simp [size]⟩

example (k : Nat) (hk : k < 32) : ∃ p, ((generate Toy.ris ⟨0, 0, 2 ^ k, 2 ^ k⟩ ⟨0, 0, 2 ^ k, 2 ^ k⟩ ⟨0, 0, 2 ^ k, 2 ^ k⟩
    ⟨0, 0, 2 ^ k, 2 ^ k⟩ ⟨0, 0, 2 ^ k, 2 ^ k⟩ 7).run (exHeap k)).1 = .ok p := by
  obtain ⟨p, s', h, -⟩ := C94_overlap Toy.ris ⟨0, 0, 2 ^ k, 2 ^ k⟩ ⟨0, 0, 2 ^ k, 2 ^ k⟩ ⟨0, 0, 2 ^ k, 2 ^ k⟩ ⟨0, 0, 2 ^ k, 2 ^ k⟩
    ⟨0, 0, 2 ^ k, 2 ^ k⟩ 7 (exHeap k) (exValid _ k _) (exValid _ k _) (exValid _ k _) (exValid _ k _) (exValid _ k _) k hk rfl rfl rfl rfl
    (le_refl _)
  exact ⟨p, by rw [h]⟩

end Dusk.IPMem
