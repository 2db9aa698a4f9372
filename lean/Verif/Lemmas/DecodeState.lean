import Verif.Model.DecodeState
import Verif.Lemmas.IO
import Mathlib.Data.List.GetD
/-!
# Lemmas about decoders with receivers
-/

set_option linter.unusedSectionVars false

namespace Dusk

/-- The values of the first blocks of 32 bytes, at most `k`, up to the first one that is incomplete or refused. -/
def items {α : Type} (f : Bytes → Option α) : Nat → Bytes → List α
  | 0, _ => []
  | k + 1, b =>
    if 32 ≤ b.length then
      match f (b.take 32) with
      | some x => x :: items f k (b.drop 32)
      | none => []
    else []

/-- `k` rows of length `n`, filled with `xs` from the top. -/
def rows {α : Type} (k n : Nat) (xs : List α) : List (List α) := (List.range k).map fun i => (xs.drop (i * n)).take n

theorem rows_succ {α : Type} (k n : Nat) (xs : List α) : rows (k + 1) n xs = xs.take n :: rows k n (xs.drop n) := by
  unfold rows
  rw [List.range_succ_eq_map, List.map_cons, List.map_map]
  congr 1
  · simp
  · apply List.map_congr_left
    intro i _
    simp only [Function.comp, List.drop_drop]
    congr 2
    rw [Nat.succ_mul, Nat.add_comm]

theorem rows_nil {α : Type} (k n : Nat) : rows k n ([] : List α) = List.replicate k [] := by
  unfold rows
  apply List.ext_getElem
  · simp
  · intro i h1 h2
    simp

theorem rows_length {α : Type} (k n : Nat) (xs : List α) : (rows k n xs).length = k := by simp [rows]

theorem items_length_le {α : Type} (f : Bytes → Option α) : ∀ k b, (items f k b).length ≤ k
  | 0, _ => by simp [items]
  | k + 1, b => by
    unfold items
    split
    · split
      · have := items_length_le f k (b.drop 32)
        simp only [List.length_cons]
        omega
      · simp
    · simp

theorem items_add {α : Type} (f : Bytes → Option α) : ∀ n k b, items f (n + k) b =
    items f n b ++ if (items f n b).length = n then items f k (b.drop (32 * n)) else []
  | 0, k, b => by simp [items]
  | n + 1, k, b => by
    rw [show n + 1 + k = (n + k) + 1 by omega]
    rw [items, items]
    split
    · split
      · rename_i x _
        rw [items_add f n k, List.cons_append, List.length_cons, List.drop_drop, show 32 + 32 * n = 32 * (n + 1) by ring]
        simp only [Nat.add_right_cancel_iff]
      · simp
    · simp

theorem items_bytes {α : Type} (f : Bytes → Option α) : ∀ k b, 32 * (items f k b).length ≤ b.length
  | 0, b => by simp [items]
  | k + 1, b => by
    unfold items
    split
    · split
      · have := items_bytes f k (b.drop 32)
        simp only [List.length_drop] at this
        simp only [List.length_cons]
        omega
      · simp
    · simp

/-- Success after `d` bytes, or an error. -/
def Done (ok : Prop) (d : Nat) (r : Reader) (res : Res (Unit × Reader)) : Prop :=
  (ok → ∃ r', res = .ok ((), r') ∧ r'.flat = r.flat.drop d ∧ r'.fin = r.fin) ∧ (¬ ok → res.IsErr)

/-- Reading one block of 32 bytes. -/
structure Elem {α : Type} (elem : Rd α) (f : Bytes → Option α) : Prop where
  good : ∀ r x, 32 ≤ r.flat.length → f (r.flat.take 32) = some x →
    ∃ r', elem r = .ok (x, r') ∧ r'.flat = r.flat.drop 32 ∧ r'.fin = r.fin
  refused : ∀ r, 32 ≤ r.flat.length → f (r.flat.take 32) = none → (elem r).IsErr
  short : ∀ r, r.flat.length < 32 → (elem r).IsErr

theorem Res.IsErr.exists {α : Type} {x : Res α} (h : x.IsErr) : ∃ e, x = .err e := by
  cases x with
  | ok a => simp [Res.IsErr] at h
  | err e => exact ⟨e, rfl⟩
  | panic => simp [Res.IsErr] at h

namespace Dec

variable {σ τ ρ α β : Type}

theorem bind_ok {m : Dec σ α} {f : α → Dec σ β} {s : σ} {r : Reader} {a : α} {r' : Reader} (h : (m s r).res = .ok (a, r')) :
    (bind m f s r).res = (f a (m s r).recv r').res ∧ (bind m f s r).recv = (f a (m s r).recv r').recv ∧
      (bind m f s r).made = (m s r).made + (f a (m s r).recv r').made := by
  unfold bind
  simp [h]

theorem bind_err {m : Dec σ α} {f : α → Dec σ β} {s : σ} {r : Reader} (h : (m s r).res.IsErr) :
    (bind m f s r).res.IsErr ∧ (bind m f s r).recv = (m s r).recv ∧ (bind m f s r).made = (m s r).made := by
  obtain ⟨e, h⟩ := h.exists
  unfold bind
  simp [h, Res.IsErr]

theorem bind_err' {m : Dec σ α} {f : α → Dec σ β} {s : σ} {r : Reader} {e : String} (h : (m s r).res = .err e) :
    (bind m f s r).res = .err e := by
  unfold bind
  simp [h]

theorem bind_panic {m : Dec σ α} {f : α → Dec σ β} {s : σ} {r : Reader} (h : (m s r).res = .panic) :
    (bind m f s r).res = .panic := by
  unfold bind
  simp [h]

theorem loop_succ (body : Nat → Dec σ Unit) (i k : Nat) : loop body i (k + 1) = bind (body i) fun _ => loop body (i + 1) k := rfl

/-- A row. -/
theorem row_spec {elem : Rd α} {f : Bytes → Option α} (he : Elem elem f) (wrap : List α → ρ) (snoc : α → ρ → ρ)
    (hs : ∀ x l, snoc x (wrap l) = wrap (l ++ [x])) : ∀ (n i : Nat) (acc : List α) (r : Reader),
    let o := loop (fun _ => bind (read elem) fun x => set (snoc x)) i n (wrap acc) r
    o.made = 0 ∧ o.recv = wrap (acc ++ items f n r.flat) ∧ Done ((items f n r.flat).length = n) (32 * n) r o.res
  | 0, i, acc, r => by simp [loop, pure, items, Done]
  | n + 1, i, acc, r => by
    dsimp only
    rw [loop_succ, items]
    by_cases hl : 32 ≤ r.flat.length
    swap
    · rw [if_neg hl]
      have h1 : (bind (read elem) (fun x => set (snoc x)) (wrap acc) r).res.IsErr ∧
          (bind (read elem) (fun x => set (snoc x)) (wrap acc) r).recv = wrap acc ∧
          (bind (read elem) (fun x => set (snoc x)) (wrap acc) r).made = 0 := by
        obtain ⟨a, b, c⟩ := bind_err (m := read elem) (f := fun x => set (snoc x)) (s := wrap acc) (r := r) (he.short r (by omega))
        exact ⟨a, b, c⟩
      obtain ⟨a, b, c⟩ := bind_err (f := fun _ => loop (fun _ => bind (read elem) fun x => set (snoc x)) (i + 1) n) h1.1
      refine ⟨c.trans h1.2.2, by rw [b, h1.2.1]; simp, ?_⟩
      exact ⟨fun h => by simp at h, fun _ => a⟩
    · rw [if_pos hl]
      cases hf : f (r.flat.take 32) with
      | none =>
        have h1 : (bind (read elem) (fun x => set (snoc x)) (wrap acc) r).res.IsErr ∧
            (bind (read elem) (fun x => set (snoc x)) (wrap acc) r).recv = wrap acc ∧
            (bind (read elem) (fun x => set (snoc x)) (wrap acc) r).made = 0 := by
          obtain ⟨a, b, c⟩ := bind_err (m := read elem) (f := fun x => set (snoc x)) (s := wrap acc) (r := r) (he.refused r hl hf)
          exact ⟨a, b, c⟩
        obtain ⟨a, b, c⟩ := bind_err (f := fun _ => loop (fun _ => bind (read elem) fun x => set (snoc x)) (i + 1) n) h1.1
        refine ⟨c.trans h1.2.2, by rw [b, h1.2.1]; simp, ?_⟩
        exact ⟨fun h => by simp at h, fun _ => a⟩
      | some x =>
        obtain ⟨r1, g1, g2, g3⟩ := he.good r x hl hf
        obtain ⟨a, b, c⟩ := bind_ok (m := read elem) (f := fun x => set (snoc x)) (s := wrap acc) (r := r) g1
        obtain ⟨a', b', c'⟩ := bind_ok (f := fun _ => loop (fun _ => bind (read elem) fun x => set (snoc x)) (i + 1) n) (a.trans rfl)
        have hb : (bind (read elem) (fun x => set (snoc x)) (wrap acc) r).recv = wrap (acc ++ [x]) := b.trans (hs x acc)
        rw [hb] at a' b' c'
        obtain ⟨p, q, t⟩ := row_spec he wrap snoc hs n (i + 1) (acc ++ [x]) r1
        rw [g2] at q t
        dsimp only
        refine ⟨by rw [c', c]; simp only [p]; rfl, by rw [b', q]; simp, ?_⟩
        rw [a']
        refine ⟨fun h => ?_, fun h => t.2 (by simpa using h)⟩
        obtain ⟨r', e1, e2, e3⟩ := t.1 (by simpa using h)
        refine ⟨r', e1, ?_, e3.trans g3⟩
        rw [e2, g2, List.drop_drop]
        congr 1
        ring

/-- A matrix, whose rows `i, …` are still empty. -/
theorem matrix_spec {elem : Rd α} {f : Bytes → Option α} (he : Elem elem f) (wrap : List α → ρ) (snoc : α → ρ → ρ)
    (hs : ∀ x l, snoc x (wrap l) = wrap (l ++ [x])) (get : σ → List ρ) (put : List ρ → σ → σ) (hgp : ∀ l s, get (put l s) = l)
    (hpp : ∀ l l' s, put l (put l' s) = put l s) (n : Nat) : ∀ (k i : Nat) (done : List ρ) (s : σ) (r : Reader), done.length = i →
    let o := loop (fun i => on (fun s => (get s).getD i (wrap [])) (fun x s => put ((get s).set i x) s)
      (loop (fun _ => bind (read elem) fun x => set (snoc x)) 0 n)) i k (put (done ++ List.replicate k (wrap [])) s) r
    o.made = 0 ∧ o.recv = put (done ++ (rows k n (items f (n * k) r.flat)).map wrap) s ∧
      Done ((items f (n * k) r.flat).length = n * k) (32 * (n * k)) r o.res
  | 0, i, done, s, r, hd => by simp [loop, pure, items, Done, rows]
  | k + 1, i, done, s, r, hd => by
    dsimp only
    rw [loop_succ]
    set body : Nat → Dec σ Unit := fun i => on (fun s => (get s).getD i (wrap [])) (fun x s => put ((get s).set i x) s)
      (loop (fun _ => bind (read elem) fun x => set (snoc x)) 0 n) with hbody
    have hget : (get (put (done ++ List.replicate (k + 1) (wrap [])) s)).getD i (wrap []) = wrap [] := by
      rw [hgp, ← hd, List.getD_append_right _ _ _ _ (le_refl _)]
      simp [List.replicate_succ]
    obtain ⟨p, q, t⟩ := row_spec he wrap snoc hs n 0 [] r
    have hres : (body i (put (done ++ List.replicate (k + 1) (wrap [])) s) r).res =
        (loop (fun _ => bind (read elem) fun x => set (snoc x)) 0 n (wrap []) r).res := by
      simp only [hbody, on, hget]
    have hmade : (body i (put (done ++ List.replicate (k + 1) (wrap [])) s) r).made = 0 := by
      simp only [hbody, on, hget]
      exact p
    have hrecv : (body i (put (done ++ List.replicate (k + 1) (wrap [])) s) r).recv =
        put ((done ++ [wrap (items f n r.flat)]) ++ List.replicate k (wrap [])) s := by
      simp only [hbody, on, hget]
      rw [q, hgp, hpp, ← hd]
      congr 1
      rw [List.set_append_right _ _ (le_refl _), Nat.sub_self]
      simp [List.replicate_succ]
    have hadd := items_add f n (n * k) r.flat
    rw [show n + n * k = n * (k + 1) by ring] at hadd
    have hle := items_length_le f n r.flat
    by_cases hn : (items f n r.flat).length = n
    · rw [if_pos hn] at hadd
      obtain ⟨r1, e1, e2, e3⟩ := t.1 hn
      obtain ⟨a, b, c⟩ := bind_ok (f := fun _ => loop body (i + 1) k) (hres.trans e1)
      rw [hrecv] at a b c
      obtain ⟨p', q', t'⟩ := matrix_spec he wrap snoc hs get put hgp hpp n k (i + 1) (done ++ [wrap (items f n r.flat)]) s r1 (by simp [hd])
      rw [e2] at q' t'
      refine ⟨by rw [c, hmade]; simp only [zero_add]; exact p', ?_, ?_⟩
      · rw [b]
        refine q'.trans ?_
        rw [rows_succ, hadd, List.take_left' hn, List.drop_left' hn]
        simp
      · rw [a, hadd, List.length_append, hn]
        refine ⟨fun h => ?_, fun h => t'.2 (by rw [show n * (k + 1) = n + n * k by ring] at h; omega)⟩
        obtain ⟨r', g1, g2, g3⟩ := t'.1 (by rw [show n * (k + 1) = n + n * k by ring] at h; omega)
        refine ⟨r', g1, ?_, g3.trans e3⟩
        rw [g2, e2, List.drop_drop]
        congr 1
        ring
    · rw [if_neg hn, List.append_nil] at hadd
      have herr : (body i (put (done ++ List.replicate (k + 1) (wrap [])) s) r).res.IsErr := by rw [hres]; exact t.2 hn
      obtain ⟨a, b, c⟩ := bind_err (f := fun _ => loop body (i + 1) k) herr
      refine ⟨c.trans hmade, ?_, ?_⟩
      · rw [b, hrecv, hadd, rows_succ, List.take_of_length_le hle, List.drop_of_length_le hle, rows_nil]
        simp
      · refine ⟨fun h => ?_, fun _ => a⟩
        rw [hadd, show n * (k + 1) = n + n * k by ring] at h
        omega

/-- A decoder with receiver behaves like a decoder returning its result. -/
def Sim {τ : Type} (o : Outcome σ Unit) (d : Res (τ × Reader)) (g : τ → σ) : Prop :=
  match d with
  | .ok (x, r') => o.res = .ok ((), r') ∧ o.recv = g x
  | .err e => o.res = .err e
  | .panic => o.res = .panic

theorem row_sim {elem : Rd α} (wrap : List α → ρ) (snoc : α → ρ → ρ)
    (hs : ∀ x l, snoc x (wrap l) = wrap (l ++ [x])) : ∀ (n i : Nat) (acc : List α) (r : Reader),
    Sim (loop (fun _ => bind (read elem) fun x => set (snoc x)) i n (wrap acc) r) (readTimes elem n r) fun xs => wrap (acc ++ xs)
  | 0, i, acc, r => by simp [loop, pure, readTimes, Sim, Rd.pure]
  | n + 1, i, acc, r => by
    rw [loop_succ]
    unfold readTimes
    simp only [Rd.bind]
    cases h : elem r with
    | err e => simp [Sim, bind, read, h, Res.bind]
    | panic => simp [Sim, bind, read, h, Res.bind]
    | ok p =>
      have ih := row_sim (elem := elem) wrap snoc hs n (i + 1) (acc ++ [p.1]) p.2
      have hl : ∀ body : Dec ρ Unit, bind (bind (read elem) fun x => set (snoc x)) (fun _ => body) (wrap acc) r =
          ⟨(body (wrap (acc ++ [p.1])) p.2).res, (body (wrap (acc ++ [p.1])) p.2).recv, (body (wrap (acc ++ [p.1])) p.2).made⟩ := by
        intro body
        simp [bind, read, set, h, hs]
      rw [hl]
      simp only [Res.bind]
      generalize readTimes elem n p.2 = d at ih ⊢
      cases d with
      | ok q => simpa [Sim, Rd.pure] using ih
      | err e => simpa [Sim] using ih
      | panic => simpa [Sim] using ih

theorem matrix_sim {row : Dec ρ Unit} {rowRd : Rd ρ} (e : ρ) (hrow : ∀ r, Sim (row e r) (rowRd r) id)
    (get : σ → List ρ) (put : List ρ → σ → σ) (hgp : ∀ l s, get (put l s) = l)
    (hpp : ∀ l l' s, put l (put l' s) = put l s) : ∀ (k i : Nat) (done : List ρ) (s : σ) (r : Reader), done.length = i →
    Sim (loop (fun i => on (fun s => (get s).getD i e) (fun x s => put ((get s).set i x) s) row) i k
      (put (done ++ List.replicate k e) s) r) (readTimes rowRd k r) fun xs => put (done ++ xs) s
  | 0, i, done, s, r, hd => by simp [loop, pure, readTimes, Sim, Rd.pure]
  | k + 1, i, done, s, r, hd => by
    rw [loop_succ]
    unfold readTimes
    simp only [Rd.bind]
    set body : Nat → Dec σ Unit := fun i => on (fun s => (get s).getD i e) (fun x s => put ((get s).set i x) s) row with hbody
    have hget : (get (put (done ++ List.replicate (k + 1) e) s)).getD i e = e := by
      rw [hgp, ← hd, List.getD_append_right _ _ _ _ (le_refl _)]
      simp [List.replicate_succ]
    have hres : (body i (put (done ++ List.replicate (k + 1) e) s) r).res = (row e r).res := by
      simp only [hbody, on, hget]
    have hrecv : (body i (put (done ++ List.replicate (k + 1) e) s) r).recv =
        put ((done ++ [(row e r).recv]) ++ List.replicate k e) s := by
      simp only [hbody, on, hget]
      rw [hgp, hpp, ← hd]
      congr 1
      rw [List.set_append_right _ _ (le_refl _), Nat.sub_self]
      simp [List.replicate_succ]
    have h1 := hrow r
    cases h : rowRd r with
    | err x =>
      rw [h] at h1
      exact bind_err' (hres.trans h1)
    | panic =>
      rw [h] at h1
      exact bind_panic (hres.trans h1)
    | ok p =>
      rw [h] at h1
      simp only [Sim, id_eq] at h1
      have ih := matrix_sim e hrow get put hgp hpp k (i + 1) (done ++ [p.1]) s p.2 (by simp [hd])
      rw [h1.2] at hrecv
      have hl := bind_ok (f := fun _ => loop body (i + 1) k) (hres.trans h1.1)
      rw [hrecv] at hl
      obtain ⟨l1, l2, -⟩ := hl
      simp only [Res.bind]
      generalize readTimes rowRd k p.2 = d at ih ⊢
      cases d with
      | ok q =>
        simp only [Sim] at ih
        simp only [Sim, Rd.pure]
        rw [l1, l2]
        exact ⟨ih.1, ih.2.trans (by simp)⟩
      | err x =>
        simp only [Sim] at ih
        simp only [Sim]
        rw [l1]
        exact ih
      | panic =>
        simp only [Sim] at ih
        simp only [Sim]
        rw [l1]
        exact ih

theorem readTimes_items {elem : Rd α} {f : Bytes → Option α} (he : Elem elem f) (n : Nat) (r : Reader) :
    ((items f n r.flat).length = n → ∃ r', readTimes elem n r = .ok (items f n r.flat, r') ∧ r'.flat = r.flat.drop (32 * n) ∧
      r'.fin = r.fin) ∧ ((items f n r.flat).length ≠ n → (readTimes elem n r).IsErr) := by
  have h1 := row_spec he (wrap := id) (snoc := fun x l => l ++ [x]) (fun _ _ => rfl) n 0 [] r
  have h2 := row_sim (elem := elem) (wrap := id) (snoc := fun x l => l ++ [x]) (fun _ _ => rfl) n 0 [] r
  obtain ⟨-, h3, h4, h5⟩ := h1
  generalize loop (fun _ => bind (read elem) fun x => set fun l => l ++ [x]) 0 n (id []) r = o at h2 h3 h4 h5
  simp only [List.nil_append, id_eq] at h2 h3
  constructor
  · intro h
    obtain ⟨r', e1, e2, e3⟩ := h4 h
    unfold Sim at h2
    split at h2
    · rename_i x r'' hd
      rw [e1] at h2
      obtain ⟨h6, h7⟩ := h2
      injection h6 with h6
      injection h6 with _ h6
      refine ⟨r', ?_, e2, e3⟩
      rw [hd, h6, ← h3, show o.recv = x from h7]
    · rw [e1] at h2
      cases h2
    · rw [e1] at h2
      cases h2
  · intro h
    obtain ⟨e, he⟩ := (h5 h).exists
    unfold Sim at h2
    split at h2
    · rw [he] at h2
      cases h2.1
    · rename_i hd
      rw [hd]
      simp [Res.IsErr]
    · rw [he] at h2
      cases h2

end Dec

end Dusk
