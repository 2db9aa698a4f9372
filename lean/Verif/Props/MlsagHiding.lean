import Verif.Spec.MlsagHiding
/-!
# Signatures reveal no more about the signer than the key images do (C127)
-/

set_option linter.unusedSectionVars false

namespace Dusk.Mlsag

variable {F G : Type} [Field F] [AddCommGroup G] [Module F G] [DecidableEq F]

/-! ## Logs -/

theorem lookup_distinct {log : Oracle.Log F} (h : (log.map (·.1)).Nodup) (q : Bytes) (a : F) : log.lookup q = some a ↔ (q, a) ∈ log := by
  induction log with
  | nil => simp
  | cons e log ih =>
    obtain ⟨q', a'⟩ := e
    rw [List.map_cons, List.nodup_cons] at h
    rw [List.lookup_cons]
    by_cases hq : q = q'
    · subst hq
      have : (q, a) ∉ log := fun hm => h.1 (List.mem_map.2 ⟨_, hm, rfl⟩)
      simp [this, eq_comm]
    · have hb : (q == q') = false := by simpa using hq
      rw [hb]
      simp [ih h.2, hq]

theorem lookup_perm {a b : Oracle.Log F} (h : a.Perm b) (hn : (b.map (·.1)).Nodup) (q : Bytes) : a.lookup q = b.lookup q := by
  have hn' : (a.map (·.1)).Nodup := (h.map _).nodup_iff.2 hn
  apply Option.ext
  intro x
  rw [lookup_distinct hn, lookup_distinct hn', h.mem_iff]

/-- Questions that are all fresh are answered by the coins. -/
theorem Pending.run_fresh (Q : Nat → Bytes) (a : Nat → F) : ∀ (m : Nat) (k : List (F → Bytes)) (l : List F) (log : Oracle.Log F) (i : Nat),
    k.length = m → m ≤ l.length →
    (∀ s (h : s < k.length), k[s] (a (i + s)) = Q (i + s + 1)) → (∀ s (h : s < l.length), s < m → l[s] = a (i + s)) →
    (∀ s < m, log.lookup (Q (i + s)) = none) → (∀ s < m, ∀ t < m, Q (i + s) = Q (i + t) → s = t) →
    Pending.run ⟨log, Q i, k⟩ l = ⟨log ++ (List.range m).map fun s => (Q (i + s), a (i + s)), Q (i + m), []⟩ := by
  intro m
  induction m with
  | zero =>
    intro k l log i hk _ _ _ _ _
    obtain rfl := List.length_eq_zero_iff.1 hk
    rw [Pending.run_stopped _ rfl]
    simp
  | succ m ih =>
    intro k l log i hk hl hkQ hla hfr hinj
    cases k with
    | nil => simp at hk
    | cons f k =>
      cases l with
      | nil => simp at hl
      | cons b l =>
        have hb : b = a i := hla 0 (Nat.succ_pos _) (by omega)
        have hf : f (a i) = Q (i + 1) := hkQ 0 (Nat.succ_pos _)
        have h0 : log.lookup (Q i) = none := by simpa using hfr 0 (by omega)
        rw [Pending.run_cons]
        show Pending.run ⟨log.ask (Q i) b, f ((log.lookup (Q i)).getD b), k⟩ l = _
        rw [h0, Option.getD_none, hb, hf]
        have hlog : log.ask (Q i) (a i) = log ++ [(Q i, a i)] := by rw [Oracle.Log.ask, h0]; rfl
        rw [hlog]
        have := ih k l (log ++ [(Q i, a i)]) (i + 1) (by simpa using hk) (by simpa using hl)
          (fun s h => by
            have := hkQ (s + 1) (by simpa using h)
            rw [List.getElem_cons_succ] at this
            rw [show i + 1 + s = i + (s + 1) by omega]
            exact this)
          (fun s h hs => by
            have := hla (s + 1) (by simpa using h) (by omega)
            rw [List.getElem_cons_succ] at this
            rw [show i + 1 + s = i + (s + 1) by omega]
            exact this)
          (fun s hs => by
            rw [show i + 1 + s = i + (s + 1) by omega, List.lookup_append, hfr (s + 1) (by omega)]
            have hne : Q (i + (s + 1)) ≠ Q i := fun h => by have := hinj (s + 1) (by omega) 0 (by omega) h; omega
            have hb : (Q (i + (s + 1)) == Q i) = false := by simpa using hne
            simp [List.lookup_cons, hb])
          (fun s hs t ht h => by
            rw [show i + 1 + s = i + (s + 1) by omega, show i + 1 + t = i + (t + 1) by omega] at h
            have := hinj (s + 1) (by omega) (t + 1) (by omega) h
            omega)
        rw [this, List.range_succ_eq_map]
        simp only [List.map_cons, List.map_map, List.append_assoc, List.cons_append, List.nil_append, Pending.mk.injEq, Nat.add_zero]
        refine ⟨?_, by congr 1; omega, trivial⟩
        congr 2
        refine List.map_congr_left fun s _ => ?_
        simp only [Function.comp_apply, Nat.succ_eq_add_one]
        rw [show i + 1 + s = i + (s + 1) by omega]

theorem follow_fresh (h : Bytes → F) (Q : Nat → Bytes) (a : Nat → F) (k : List (F → Bytes))
    (hk : ∀ s (hs : s < k.length), k[s] (a s) = Q (s + 1)) (hQ : ∀ s ≤ k.length, h (Q s) = a s) :
    ∀ s ≤ k.length, follow h (Q 0) (k.take s) = Q s := by
  intro s
  induction s with
  | zero => intro _; rfl
  | succ s ih =>
    intro hs
    rw [follow_take_succ h k _ s (by omega), ih (by omega), hQ s (by omega), hk s (by omega)]

/-! ## One signature -/

section

variable {R : Ristretto F G} {skip : Bool} {xs : Nat → List F} {d w : Nat}

/-- The coins with which a signer at position `i` of `n`, with secrets `x`, makes the signature with given responses and challenges. -/
def rearrange (n i : Nat) (hi : i < n) (hn : n ≤ w) (x : List F) (c : StepCoins d w F) : StepCoins d w F :=
  (fun a => c.2.1 ⟨i, by omega⟩ a + ext c.2.2 i * x.getD a 0, Function.update c.2.1 ⟨i, by omega⟩ c.1,
    fun k => if (k : Nat) < n then ext c.2.2 ((i + 1 + k) % n) else c.2.2 k)

theorem rearrange_injective (n i : Nat) (hi : i < n) (hn : n ≤ w) (x : List F) :
    Function.Injective (rearrange n i hi hn x : StepCoins d w F → _) := by
  rintro ⟨z, r, a⟩ ⟨z', r', a'⟩ h
  unfold rearrange at h
  simp only [Prod.mk.injEq] at h
  obtain ⟨h1, h2, h3⟩ := h
  have ha : a = a' := by
    funext j
    by_cases hj : (j : Nat) < n
    · have hk : (j + (n - 1 - i)) % n < n := Nat.mod_lt _ (by omega)
      have := congrFun h3 ⟨(j + (n - 1 - i)) % n, by omega⟩
      simp only [hk, if_true] at this
      have e : (i + 1 + (j + (n - 1 - i)) % n) % n = j := by
        rw [Nat.add_mod_mod, show i + 1 + (j + (n - 1 - i)) = j + n by omega, Nat.add_mod_right, Nat.mod_eq_of_lt hj]
      rw [e, ext_lt _ _ j.2, ext_lt _ _ j.2] at this
      exact this
    · have := congrFun h3 j
      simpa [hj] using this
  subst ha
  have hz : z = z' := by
    have := congrFun h2 ⟨i, by omega⟩
    simpa using this
  have hr : r = r' := by
    funext j
    by_cases hj : j = ⟨i, by omega⟩
    · subst hj
      funext b
      have := congrFun h1 b
      simpa using this
    · have := congrFun h2 j
      simpa [Function.update_of_ne hj] using this
  subst hz hr
  rfl

variable (R) in
/-- Some question of the signature was asked before, or two are the same. -/
def Stale (log : Oracle.Log F) (msg : Bytes) (I : List G) (ring : List (List G)) (c : StepCoins d w F) : Prop :=
  ∃ j < ring.length, query R msg I (ring.getD j []) (row c.2.1 j) (ext c.2.2 j) ∈ log.map (·.1) ∨
    ∃ j' < ring.length, j' ≠ j ∧ query R msg I (ring.getD j []) (row c.2.1 j) (ext c.2.2 j) =
      query R msg I (ring.getD j' []) (row c.2.1 j') (ext c.2.2 j')

theorem lookup_none {log : Oracle.Log F} {q : Bytes} : log.lookup q = none ↔ q ∉ log.map (·.1) := by
  induction log with
  | nil => simp
  | cons e log ih =>
    obtain ⟨q', a⟩ := e
    rw [List.lookup_cons]
    by_cases h : q = q'
    · subst h; simp
    · have hb : (q == q') = false := by simpa using h
      rw [hb]
      simp [h, ih]

/-- Unless a question is stale, the user's signature is the invented one, and the hash function becomes the same. -/
theorem sign_invented (hx : ∀ u, (xs u).length = d) (hd : 1 ≤ d) {r : Request G} {u : Nat} {msg : Bytes} {ring : List (List G)}
    (hm : r.Makes (keysOf R xs) u msg ring d w) (log log2 : Oracle.Log F) (hlog : ∀ q, log.lookup q = log2.lookup q)
    (c : StepCoins d w F) (hfresh : ¬ Stale R log2 msg (imsOf R skip xs u) ring c)
    (hi : r.position (keysOf R xs u) < ring.length) (hn : ring.length ≤ w) {c' : StepCoins d w F}
    (hc' : c' = rearrange ring.length (r.position (keysOf R xs u)) hi hn (xs u) c) {p : Pending F}
    (hp : (r.chain R skip xs log c'.1 c'.2.1).run (List.ofFn c'.2.2) = p) :
    (∀ q, (p.log.ask p.q (ext c'.2.2 r.decoys.length)).lookup q =
      (log2 ++ inventedLog R msg (imsOf R skip xs u) ring c.2.1 c.2.2 : Oracle.Log F).lookup q) ∧
    ∃ sig, ((build R r.msg (r.ops (xs r.user))).prove (withHash R (p.log.ask p.q (ext c'.2.2 r.decoys.length)).hash) skip
      ⟨ext c'.1, fun j => ext (ext c'.2.1 j), r.shuffle⟩).2 = .ok (sig, imsOf R skip xs u) ∧ sig.pubKeys = r.ring (keysOf R xs u) ∧
      sig.seen = inventedSig msg ring c.2.1 c.2.2 := by
  obtain ⟨rfl, rfl, hring, hne, hfew, hdim⟩ := hm
  obtain ⟨z, resp, ch⟩ := c
  generalize hpos : r.position (keysOf R xs r.user) = i at *
  generalize hnn : ring.length = n at *
  have hrl : (r.ring (keysOf R xs r.user)).length = n := by rw [← hnn, ← hring, List.length_map]
  have hdl : r.decoys.length + 1 = n := by rw [← hrl, ring_length]
  have hpi : (r.ring (keysOf R xs r.user))[i]? = some ⟨false, keysOf R xs r.user⟩ := by rw [← hpos]; exact ring_position r _
  have hget : ∀ j, ((r.ring (keysOf R xs r.user)).getD j {}).keys = ring.getD j [] := by
    intro j
    rw [← hring, List.getD_eq_getElem?_getD, List.getD_eq_getElem?_getD, List.getElem?_map]
    cases (r.ring (keysOf R xs r.user))[j]? <;> rfl
  have hgeti : ring.getD i [] = keysOf R xs r.user := by
    rw [← hget, List.getD_eq_getElem?_getD, hpi]; rfl
  -- the questions in the order of the ring, and in the order of the signer
  let q : Nat → Bytes := fun j => query R r.msg (imsOf R skip xs r.user) (ring.getD j []) (row resp j) (ext ch j)
  let Q : Nat → Bytes := fun s => q ((i + s) % n)
  let a : Nat → F := fun s => ext ch ((i + 1 + s) % n)
  have hq1 : ∀ j < n, log2.lookup (q j) = none := by
    intro j hj
    rw [lookup_none]
    intro h
    exact hfresh ⟨j, by omega, .inl h⟩
  have hq2 : ∀ j < n, ∀ j' < n, q j = q j' → j = j' := by
    intro j hj j' hj' h
    by_contra hne
    exact hfresh ⟨j, by omega, .inr ⟨j', by omega, fun e => hne e.symm, h⟩⟩
  have hmod : ∀ s, (i + s) % n < n := fun s => Nat.mod_lt _ (by omega)
  have hQ1 : ∀ s, log.lookup (Q s) = none := fun s => by rw [hlog]; exact hq1 _ (hmod s)
  have hQ2 : ∀ s < n, ∀ t < n, Q s = Q t → s = t := fun s hs t ht h => mod_inj hs ht (hq2 _ (hmod s) _ (hmod t) h)
  -- the coins
  have hc1 : c'.1 = fun b => resp ⟨i, by omega⟩ b + ext ch i * (xs r.user).getD b 0 := by rw [hc']; rfl
  have hc2 : c'.2.1 = Function.update resp ⟨i, by omega⟩ z := by rw [hc']; rfl
  have hc3 : ∀ s < n, ext c'.2.2 s = a s := by
    intro s hs
    rw [ext_lt _ _ (by omega), hc']
    simp only [rearrange, hs, if_true, a]
  have hrow : ∀ j, j ≠ i → row c'.2.1 j = row resp j := by
    intro j hj
    rw [hc2]
    unfold row
    congr 2
    unfold ext
    split
    · rename_i hjw
      have : (⟨j, hjw⟩ : Fin w) ≠ ⟨i, by omega⟩ := fun e => hj (Fin.mk.inj e)
      rw [Function.update_of_ne this]
    · rfl
  have hrowi : List.ofFn (resp ⟨i, by omega⟩) = row resp i := by
    unfold row
    rw [ext_lt resp i (by omega), range_ext]
  have hshift : (fun b : Fin d => -(ext ch i * (xs r.user).getD b 0) + c'.1 b) = resp ⟨i, by omega⟩ := by
    rw [hc1]
    funext b
    ring
  have hQ0 : query R r.msg (imsOf R skip xs r.user) (keysOf R xs r.user) (List.ofFn c'.1) 0 = Q 0 := by
    have := query_shift R r.msg skip xs r.user (hx r.user) c'.1 (ext ch i)
    rw [hshift, hrowi] at this
    show _ = q ((i + 0) % n)
    rw [Nat.add_zero, Nat.mod_eq_of_lt hi]
    show _ = query R r.msg (imsOf R skip xs r.user) (ring.getD i []) (row resp i) (ext ch i)
    rw [hgeti]
    exact this.symm
  obtain ⟨L, hL⟩ : ∃ L, laterQueries R r.msg (imsOf R skip xs r.user) (r.ring (keysOf R xs r.user)) i (row c'.2.1) = L := ⟨_, rfl⟩
  have hLl : L.length = n - 1 := by rw [← hL]; simp [laterQueries, hrl]
  have hLs : ∀ s (h : s < L.length), L[s] (a s) = Q (s + 1) := by
    intro s h
    have hs1 : (i + 1 + s) % n ≠ i := by
      intro e
      rw [show i + 1 + s = i + (s + 1) by omega] at e
      have := mod_inj (n := n) (i := i) (s := s + 1) (t := 0) (by omega) (by omega) (by rw [e, Nat.add_zero, Nat.mod_eq_of_lt hi])
      omega
    have : L[s] = query R r.msg (imsOf R skip xs r.user) (ring.getD ((i + 1 + s) % n) []) (row resp ((i + 1 + s) % n)) := by
      simp only [← hL, laterQueries, List.getElem_map, List.getElem_range, hrl, hget]
      rw [hrow _ hs1]
    rw [this]
    show query R r.msg _ _ _ (ext ch ((i + 1 + s) % n)) = q ((i + (s + 1)) % n)
    rw [show i + (s + 1) = i + 1 + s by omega]
  have hrun : p = ⟨log ++ (List.range (n - 1)).map fun s => (Q s, a s), Q (n - 1), []⟩ := by
    rw [← hp]
    unfold Request.chain
    rw [hQ0, hpos, hL]
    have := Pending.run_fresh Q a (n - 1) L (List.ofFn c'.2.2) log 0 hLl (by simp; omega) (by simpa using hLs)
      (fun s h hs => by
        have := hc3 s (by omega)
        rw [ext_lt _ _ (by simpa using h)] at this
        simpa using this)
      (fun s hs => hQ1 _) (fun s hs t ht h => by simpa using hQ2 (0 + s) (by omega) (0 + t) (by omega) h)
    simpa using this
  have hpq : p.q = Q (n - 1) := by rw [hrun]
  have hplog : p.log = log ++ (List.range (n - 1)).map fun s => (Q s, a s) := by rw [hrun]
  have hlast : p.log.ask p.q (ext c'.2.2 r.decoys.length) = log ++ (List.range n).map fun s => (Q s, a s) := by
    have hnone : p.log.lookup p.q = none := by
      rw [lookup_none, hplog, hpq, List.map_append, List.mem_append, not_or]
      refine ⟨lookup_none.1 (hQ1 _), ?_⟩
      intro h
      simp only [List.map_map, List.mem_map, List.mem_range, Function.comp_apply] at h
      obtain ⟨s, hs, e⟩ := h
      have := hQ2 s (by omega) (n - 1) (by omega) e
      omega
    rw [Oracle.Log.ask, hnone, Option.getD_none, hplog, hpq, show r.decoys.length = n - 1 by omega, hc3 _ (by omega)]
    obtain ⟨m, rfl⟩ : ∃ m, n = m + 1 := ⟨n - 1, by omega⟩
    rw [show m + 1 - 1 = m by omega, List.range_succ, List.map_append, List.append_assoc]
    rfl
  have hinv : inventedLog R r.msg (imsOf R skip xs r.user) ring resp ch = (List.range n).map fun j => (q j, ext ch ((j + 1) % n)) := by
    unfold inventedLog
    rw [hnn]
  have hnd : (((List.range n).map fun j => (q j, ext ch ((j + 1) % n))).map (·.1)).Nodup := by
    rw [List.map_map]
    refine List.Nodup.map_on ?_ List.nodup_range
    intro j hj j' hj' h
    exact hq2 j (List.mem_range.1 hj) j' (List.mem_range.1 hj') h
  have hperm : ((List.range n).map fun s => (Q s, a s)).Perm ((List.range n).map fun j => (q j, ext ch ((j + 1) % n))) := by
    have e : ((List.range n).map fun s => (Q s, a s)) = ((List.range n).map fun s => (i + s) % n).map fun j => (q j, ext ch ((j + 1) % n)) := by
      rw [List.map_map]
      refine List.map_congr_left fun s _ => ?_
      simp only [Function.comp_apply, Q, a]
      rw [Nat.mod_add_mod, show i + s + 1 = i + 1 + s by omega]
    rw [e]
    refine List.Perm.map _ ?_
    refine (List.perm_ext_iff_of_nodup (List.Nodup.map_on ?_ List.nodup_range) List.nodup_range).2 ?_
    · intro s hs t ht h
      exact mod_inj (List.mem_range.1 hs) (List.mem_range.1 ht) h
    · intro j
      rw [List.mem_map, List.mem_range]
      constructor
      · rintro ⟨s, -, rfl⟩
        exact hmod s
      · intro hj
        refine ⟨(j + (n - i)) % n, List.mem_range.2 (Nat.mod_lt _ (by omega)), ?_⟩
        rw [Nat.add_mod_mod, show i + (j + (n - i)) = j + n by omega, Nat.add_mod_right, Nat.mod_eq_of_lt hj]
  have hlook : ∀ q, (p.log.ask p.q (ext c'.2.2 r.decoys.length)).lookup q =
      (log2 ++ inventedLog R r.msg (imsOf R skip xs r.user) ring resp ch : Oracle.Log F).lookup q := by
    intro q'
    rw [hlast, hinv, List.lookup_append, List.lookup_append, hlog, lookup_perm hperm hnd]
  refine ⟨hlook, ?_⟩
  have hh : ∀ s < n, (p.log.ask p.q (ext c'.2.2 r.decoys.length)).hash (Q s) = a s := by
    intro s hs
    unfold Oracle.Log.hash
    have hnd' : (((List.range n).map fun s => (Q s, a s)).map (·.1)).Nodup := (hperm.map _).nodup_iff.2 hnd
    rw [hlast, List.lookup_append, hQ1 s, Option.none_or,
      (lookup_distinct hnd' (Q s) (a s)).2 (List.mem_map.2 ⟨s, List.mem_range.2 hs, rfl⟩)]
    rfl
  have hfol := follow_fresh (p.log.ask p.q (ext c'.2.2 r.decoys.length)).hash Q a L hLs (fun s hs => hh s (by omega))
  have hai : a (n - 1) = ext ch i := by
    show ext ch ((i + 1 + (n - 1)) % n) = _
    rw [show i + 1 + (n - 1) = i + n by omega, Nat.add_mod_right, Nat.mod_eq_of_lt hi]
  have hprove := prove_explicit R (p.log.ask p.q (ext c'.2.2 r.decoys.length)).hash skip r xs (hx _) hd hne hdim c'.1 c'.2.1 (ext ch i) (by
    show _ = Oracle.Log.hash _ (follow _ (query R r.msg (imsOf R skip xs r.user) (keysOf R xs r.user) (List.ofFn c'.1) 0)
      (laterQueries R r.msg (imsOf R skip xs r.user) (r.ring (keysOf R xs r.user)) (r.position (keysOf R xs r.user)) (row c'.2.1)))
    rw [hpos, hL, hQ0]
    have := hfol L.length le_rfl
    rw [List.take_length] at this
    rw [this, hLl, hh _ (by omega), hai])
  refine ⟨_, hprove, rfl, ?_⟩
  rw [hshift]
  unfold simSig Signature.seen inventedSig
  dsimp only
  rw [hpos, hrl, hnn]
  have hstart : query R r.msg (imagesOf R skip (xs r.user)) (keysOf R xs r.user) (List.ofFn (resp ⟨i, by omega⟩)) (ext ch i) = Q 0 := by
    have := query_shift R r.msg skip xs r.user (hx r.user) c'.1 (ext ch i)
    rw [hshift] at this
    rw [this]
    exact hQ0
  rw [hstart]
  change Signature.mk _ _ _ _ = _
  have hL' : laterQueries R r.msg (imagesOf R skip (xs r.user)) (r.ring (keysOf R xs r.user)) i (row c'.2.1) = L := hL
  rw [hL', hfol _ (by omega), hh _ (by omega)]
  congr 1
  · show ext ch ((i + 1 + (n - 1 - i)) % n) = _
    rw [show i + 1 + (n - 1 - i) = n by omega, Nat.mod_self]
  · refine List.map_congr_left fun j hj => ?_
    split
    · next e => rw [e, hrowi]
    · next e => exact hrow j e
  · rw [← hring, List.map_map]
    rfl

/-! ## Stale questions are rare -/

theorem ext_setResp (p : Fin w) (k : Fin d) (c : StepCoins d w F) (y : F) : (setResp p k c y).2.2 = c.2.2 := rfl

theorem card_stale [Fintype F] (E : R.Encodings) (hB : R.base ≠ 0) (hd : 1 ≤ d) (log : Oracle.Log F) (msg : Bytes) {I : List G}
    (hI : I.length ≤ d) {ring : List (List G)} (hring : ∀ k ∈ ring, k.length = d) (hn : ring.length ≤ w)
    [DecidablePred fun c : StepCoins d w F => Stale R log msg I ring c] :
    Fintype.card F * (Finset.univ.filter fun c : StepCoins d w F => Stale R log msg I ring c).card ≤
      w * (log.length + w) * Fintype.card (StepCoins d w F) := by
  classical
  let q : StepCoins d w F → Nat → Bytes := fun c j => query R msg I (ring.getD j []) (row c.2.1 j) (ext c.2.2 j)
  let S : Nat → StepCoins d w F → Prop := fun j c => q c j ∈ log.map (·.1) ∨ ∃ j' < ring.length, j' ≠ j ∧ q c j = q c j'
  have hS : ∀ j < ring.length, Fintype.card F * (Finset.univ.filter (S j)).card ≤ (log.length + w) * Fintype.card (StepCoins d w F) := by
    intro j hj
    let p : Fin w := ⟨j, by omega⟩
    let k : Fin d := ⟨0, hd⟩
    refine card_fiber _ (setResp p k) (fun c => c.2.1 p k) ?_ ?_ ?_ _ fun c => ?_
    · intro a x y
      simp [setResp]
    · intro a x
      simp [setResp]
    · intro a
      simp [setResp]
    · have hother : ∀ j' ≠ j, ∀ y, q (setResp p k c y) j' = q c j' := by
        intro j' hj' y
        show query R msg I _ (row (setResp p k c y).2.1 j') (ext c.2.2 j') = _
        rw [row_setResp_ne p k c y j' hj']
      refine le_trans (Finset.card_le_card_of_injOn (t := (log.map (·.1)).toFinset ∪ ((List.range ring.length).map (q c)).toFinset)
        (fun y => q (setResp p k c y) j) ?_ ?_) ?_
      · intro y hy
        rcases (Finset.mem_filter.1 hy).2 with h | ⟨j', h1, h2, h3⟩
        · exact Finset.mem_union_left _ (List.mem_toFinset.2 h)
        · refine Finset.mem_union_right _ (List.mem_toFinset.2 (List.mem_map.2 ⟨j', List.mem_range.2 h1, ?_⟩))
          rw [← hother j' h2 y]
          exact h3.symm
      · intro y _ y' _ h
        have hK : (ring.getD j []).length = d := by
          rw [List.getD_eq_getElem?_getD, List.getElem?_eq_getElem hj]
          exact hring _ (List.getElem_mem hj)
        have := (query_points E rfl (by omega) (by rw [row_length]; omega) (by rw [row_length]; omega) h).1 0 (by omega)
        rw [show (0 : Nat) = (k : Nat) from rfl, show j = (p : Nat) from rfl, row_setResp_self, row_setResp_self, ext_setResp, ext_setResp,
          add_left_inj] at this
        rw [← sub_eq_zero, ← sub_smul] at this
        rcases smul_eq_zero.1 this with h | h
        · exact sub_eq_zero.1 h
        · exact absurd h hB
      · refine (Finset.card_union_le _ _).trans (Nat.add_le_add ((List.toFinset_card_le _).trans (by simp)) ?_)
        exact (List.toFinset_card_le _).trans (by simpa using hn)
  have hsub : (Finset.univ.filter fun c : StepCoins d w F => Stale R log msg I ring c) ⊆
      (Finset.range ring.length).biUnion fun j => Finset.univ.filter (S j) := by
    intro c hc
    obtain ⟨j, hj, h⟩ := (Finset.mem_filter.1 hc).2
    exact Finset.mem_biUnion.2 ⟨j, Finset.mem_range.2 hj, Finset.mem_filter.2 ⟨Finset.mem_univ _, h⟩⟩
  calc _ ≤ Fintype.card F * ∑ j ∈ Finset.range ring.length, (Finset.univ.filter (S j)).card :=
        Nat.mul_le_mul_left _ ((Finset.card_le_card hsub).trans Finset.card_biUnion_le)
    _ = ∑ j ∈ Finset.range ring.length, Fintype.card F * (Finset.univ.filter (S j)).card := Finset.mul_sum _ _ _
    _ ≤ ∑ _j ∈ Finset.range ring.length, (log.length + w) * Fintype.card (StepCoins d w F) :=
        Finset.sum_le_sum fun j hj => hS j (Finset.mem_range.1 hj)
    _ = ring.length * ((log.length + w) * Fintype.card (StepCoins d w F)) := by rw [Finset.sum_const, Finset.card_range, smul_eq_mul]
    _ ≤ w * ((log.length + w) * Fintype.card (StepCoins d w F)) := Nat.mul_le_mul_right _ hn
    _ = _ := by ring

/-! ## All steps -/

variable (R skip xs) in
/-- The number of coins with which the observer says yes in the real game. -/
def realCount [Fintype F] (W : Hidden G) (O : Observer F G) (log : Oracle.Log F) (d w T : Nat) : ℤ :=
  ∑ c : Fin T → StepCoins d w F, if O.real R skip W xs log (List.ofFn c) then 1 else 0

variable (R) in
/-- The number of coins with which the observer says yes in the game without users. -/
def inventedCount [Fintype F] (im : Nat → List G) (O : Observer F G) (log : Oracle.Log F) (d w T : Nat) : ℤ :=
  ∑ c : Fin T → StepCoins d w F, if O.invented R im log (List.ofFn c) then 1 else 0

theorem sum_coins {α : Type} [Fintype α] (T : Nat) (f : List α → ℤ) :
    ∑ c : Fin (T + 1) → α, f (List.ofFn c) = ∑ a : α, ∑ c : Fin T → α, f (a :: List.ofFn c) := by
  rw [← Fintype.sum_prod_type']
  refine (Fintype.sum_equiv (Fin.consEquiv fun _ => α) _ _ ?_).symm
  rintro ⟨a, c⟩
  simp [Fin.consEquiv, List.ofFn_succ]

theorem sum_range {α : Type} [Fintype α] (P : α → Bool) : 0 ≤ (∑ a, if P a then (1 : ℤ) else 0) ∧ (∑ a, if P a then (1 : ℤ) else 0) ≤ Fintype.card α := by
  constructor
  · exact Finset.sum_nonneg fun a _ => by split <;> simp
  · calc (∑ a, if P a then (1 : ℤ) else 0) ≤ ∑ _a : α, (1 : ℤ) := Finset.sum_le_sum fun a _ => by split <;> simp
      _ = _ := by simp

/-- The numbers differ little. -/
theorem count_diff [Fintype F] (E : R.Encodings) (hB : R.base ≠ 0) (hx : ∀ u, (xs u).length = d) (hd : 1 ≤ d) (hw : 1 ≤ w) (W : Hidden G)
    (user : Nat → Nat) : ∀ (T : Nat) (O : Observer F G) (log log2 : Oracle.Log F), O.Served W (keysOf R xs) user d w →
    (∀ q, log.lookup q = log2.lookup q) →
    (Fintype.card F : ℤ) * |realCount R skip xs W O log d w T - inventedCount R (fun a => imsOf R skip xs (user a)) O log2 d w T| ≤
      (T * w * (log2.length + T * w) : ℕ) * (Fintype.card (StepCoins d w F) ^ T : ℕ) := by
  classical
  intro T
  induction T with
  | zero =>
    intro O log log2 _ _
    have : realCount R skip xs W O log d w 0 = inventedCount R (fun a => imsOf R skip xs (user a)) O log2 d w 0 := by
      unfold realCount inventedCount
      refine Finset.sum_congr rfl fun c _ => ?_
      have h : O.real R skip W xs log (List.ofFn c) = O.invented R (fun a => imsOf R skip xs (user a)) log2 (List.ofFn c) := by
        cases O <;> simp [Observer.real, Observer.invented]
      rw [h]
    rw [this]
    simp
  | succ T ih =>
    intro O log log2 hO hlog
    generalize hC : Fintype.card (StepCoins d w F) = C at *
    cases O with
    | done b =>
      have : realCount R skip xs W (.done b) log d w (T + 1) =
          inventedCount R (fun a => imsOf R skip xs (user a)) (.done b) log2 d w (T + 1) := by
        unfold realCount inventedCount
        refine Finset.sum_congr rfl fun c _ => ?_
        have h : (Observer.done b).real R skip W xs log (List.ofFn c) =
            (Observer.done b).invented R (fun a => imsOf R skip xs (user a)) log2 (List.ofFn c) := by
          simp [Observer.real, Observer.invented]
        rw [h]
      rw [this, sub_self, abs_zero, mul_zero]
      positivity
    | hash q next =>
      have hask : ∀ x, (log.ask q x).hash q = (log2.ask q x).hash q ∧ ∀ q', (log.ask q x).lookup q' = (log2.ask q x).lookup q' := by
        intro x
        have : ∀ q', (log.ask q x).lookup q' = (log2.ask q x).lookup q' := by
          intro q'
          rw [lookup_ask, lookup_ask, hlog, hlog]
        exact ⟨by unfold Oracle.Log.hash; rw [this], this⟩
      have e1 : realCount R skip xs W (.hash q next) log d w (T + 1) = ∑ c : StepCoins d w F,
          realCount R skip xs W (next ((log2.ask q (ext c.2.2 0)).hash q)) (log.ask q (ext c.2.2 0)) d w T := by
        unfold realCount
        rw [sum_coins T fun l => if (Observer.hash q next).real R skip W xs log l then 1 else 0]
        refine Finset.sum_congr rfl fun c _ => Finset.sum_congr rfl fun l _ => ?_
        rw [Observer.real, (hask _).1]
      have e2 : inventedCount R (fun a => imsOf R skip xs (user a)) (.hash q next) log2 d w (T + 1) = ∑ c : StepCoins d w F,
          inventedCount R (fun a => imsOf R skip xs (user a)) (next ((log2.ask q (ext c.2.2 0)).hash q)) (log2.ask q (ext c.2.2 0)) d w T := by
        unfold inventedCount
        rw [sum_coins T fun l => if (Observer.hash q next).invented R _ log2 l then 1 else 0]
        refine Finset.sum_congr rfl fun c _ => Finset.sum_congr rfl fun l _ => ?_
        rw [Observer.invented]
      rw [e1, e2, ← Finset.sum_sub_distrib]
      calc (Fintype.card F : ℤ) * |_| ≤ (Fintype.card F : ℤ) * ∑ c : StepCoins d w F, |_| := by
            gcongr; exact Finset.abs_sum_le_sum_abs _ _
        _ = ∑ c : StepCoins d w F, (Fintype.card F : ℤ) * |_| := Finset.mul_sum _ _ _
        _ ≤ ∑ _c : StepCoins d w F, (((T * w * (log2.length + 1 + T * w) : ℕ) * (C ^ T : ℕ) : ℕ) : ℤ) := by
            refine Finset.sum_le_sum fun c _ => ?_
            refine (ih _ _ _ (hO _) (hask _).2).trans (le_of_eq ?_)
            push_cast [Oracle.Log.ask, List.length_append, List.length_singleton]
            ring
        _ = ((C * (T * w * (log2.length + 1 + T * w) * C ^ T) : ℕ) : ℤ) := by
            rw [Finset.sum_const, Finset.card_univ, hC]; push_cast; ring
        _ ≤ (((T + 1) * w * (log2.length + (T + 1) * w) * C ^ (T + 1) : ℕ) : ℤ) := by
            rw [Int.ofNat_le, pow_succ]
            have h1 : T * w * (log2.length + 1 + T * w) ≤ (T + 1) * w * (log2.length + (T + 1) * w) := by
              refine Nat.mul_le_mul (Nat.mul_le_mul_right _ (by omega)) ?_
              rw [add_mul]; omega
            calc _ = T * w * (log2.length + 1 + T * w) * (C ^ T * C) := by ring
              _ ≤ _ := Nat.mul_le_mul_right _ h1
        _ = _ := by push_cast; ring
    | sign who msg ring next =>
      obtain ⟨hm, hnext⟩ := hO
      obtain ⟨r, hr⟩ : ∃ r, W who msg ring = r := ⟨_, rfl⟩
      rw [hr] at hm
      have hrl : (r.ring (keysOf R xs (user who))).length = ring.length := by rw [← hm.ring, List.length_map]
      have hn : ring.length ≤ w := by
        have := hm.few
        rw [← hrl, ring_length]; omega
      have hi : r.position (keysOf R xs (user who)) < ring.length := by
        rw [← hrl]
        exact (List.getElem?_eq_some_iff.1 (ring_position r (keysOf R xs (user who)))).1
      let φ := rearrange (d := d) ring.length (r.position (keysOf R xs (user who))) hi hn (xs (user who))
      have hφ : Function.Bijective φ := Finite.injective_iff_bijective.1 (rearrange_injective _ _ _ _ _)
      let after : StepCoins d w F → ℤ := fun c => ∑ l : Fin T → StepCoins d w F,
        if (Observer.sign who msg ring next).real R skip W xs log (φ c :: List.ofFn l) then 1 else 0
      have e1 : realCount R skip xs W (.sign who msg ring next) log d w (T + 1) = ∑ c : StepCoins d w F, after c := by
        unfold realCount
        rw [sum_coins T fun l => if (Observer.sign who msg ring next).real R skip W xs log l then 1 else 0]
        exact (Function.Bijective.sum_comp hφ fun c => ∑ l : Fin T → StepCoins d w F,
          if (Observer.sign who msg ring next).real R skip W xs log (c :: List.ofFn l) then 1 else 0).symm
      let after2 : StepCoins d w F → ℤ := fun c => inventedCount R (fun a => imsOf R skip xs (user a))
        (next (inventedSig msg ring c.2.1 c.2.2) (imsOf R skip xs (user who)))
        (log2 ++ inventedLog R msg (imsOf R skip xs (user who)) ring c.2.1 c.2.2) d w T
      have e2 : inventedCount R (fun a => imsOf R skip xs (user a)) (.sign who msg ring next) log2 d w (T + 1) = ∑ c : StepCoins d w F, after2 c := by
        unfold inventedCount
        rw [sum_coins T fun l => if (Observer.sign who msg ring next).invented R _ log2 l then 1 else 0]
        refine Finset.sum_congr rfl fun c _ => Finset.sum_congr rfl fun l _ => ?_
        rw [Observer.invented]
      let bound : ℤ := ((T * w * (log2.length + w + T * w) * C ^ T : ℕ) : ℤ)
      have hgood : ∀ c, ¬ Stale R log2 msg (imsOf R skip xs (user who)) ring c → (Fintype.card F : ℤ) * |after c - after2 c| ≤ bound := by
        intro c hc
        obtain ⟨h1, sig, h2, -, h3⟩ := sign_invented (R := R) (skip := skip) hx hd hm log log2 hlog c hc hi hn rfl rfl
        have e3 : after c = realCount R skip xs W (next (inventedSig msg ring c.2.1 c.2.2) (imsOf R skip xs (user who)))
            ((((r.chain R skip xs log (φ c).1 (φ c).2.1).run (List.ofFn (φ c).2.2)).log.ask
              ((r.chain R skip xs log (φ c).1 (φ c).2.1).run (List.ofFn (φ c).2.2)).q (ext (φ c).2.2 r.decoys.length))) d w T := by
          refine Finset.sum_congr rfl fun l _ => ?_
          rw [Observer.real, hr]
          have : ((build R r.msg (r.ops (xs r.user))).prove (withHash R
            (Oracle.Log.hash (((r.chain R skip xs log (φ c).1 (φ c).2.1).run (List.ofFn (φ c).2.2)).log.ask
              ((r.chain R skip xs log (φ c).1 (φ c).2.1).run (List.ofFn (φ c).2.2)).q (ext (φ c).2.2 r.decoys.length)))) skip
              ⟨ext (φ c).1, fun j => ext (ext (φ c).2.1 j), r.shuffle⟩).2 = .ok (sig, imsOf R skip xs (user who)) := h2
          unfold Request.chain keysOf imsOf at this
          rw [this, ← h3]
          rfl
        rw [e3]
        refine (ih _ _ _ (hnext _ _) h1).trans ?_
        have hl : (log2 ++ inventedLog R msg (imsOf R skip xs (user who)) ring c.2.1 c.2.2).length ≤ log2.length + w := by
          simp [inventedLog]; omega
        rw [← Nat.cast_mul, Int.ofNat_le]
        gcongr
      have hall : ∀ c, |after c - after2 c| ≤ (C ^ T : ℕ) := by
        intro c
        obtain ⟨a1, a2⟩ := sum_range fun l : Fin T → StepCoins d w F =>
          (Observer.sign who msg ring next).real R skip W xs log (φ c :: List.ofFn l)
        obtain ⟨b1, b2⟩ := sum_range fun l : Fin T → StepCoins d w F =>
          (next (inventedSig msg ring c.2.1 c.2.2) (imsOf R skip xs (user who))).invented R (fun a => imsOf R skip xs (user a))
            (log2 ++ inventedLog R msg (imsOf R skip xs (user who)) ring c.2.1 c.2.2) (List.ofFn l)
        have hcard : Fintype.card (Fin T → StepCoins d w F) = C ^ T := by rw [Fintype.card_fun, Fintype.card_fin, hC]
        rw [hcard] at a2 b2
        refine abs_sub_le_iff.2 ⟨?_, ?_⟩
        · exact (sub_le_self _ b1).trans a2
        · exact (sub_le_self _ a1).trans b2
      have hrk : ∀ k ∈ ring, k.length = d := by
        intro k hk
        rw [← hm.ring] at hk
        obtain ⟨k', hk', rfl⟩ := List.mem_map.1 hk
        exact ring_keys_length r _ (by simp [keysOf, hx]) hm.dim k' hk'
      have hIl : (imsOf R skip xs (user who)).length ≤ d := by
        unfold imsOf
        rw [imagesOf_length, hx]
        split <;> omega
      have hstale := card_stale (w := w) E hB hd log2 msg hIl hrk hn
      rw [hC] at hstale
      rw [e1, e2, ← Finset.sum_sub_distrib]
      have hF : (0 : ℤ) ≤ Fintype.card F := by positivity
      calc (Fintype.card F : ℤ) * |∑ c : StepCoins d w F, (after c - after2 c)|
          ≤ (Fintype.card F : ℤ) * ∑ c : StepCoins d w F, |after c - after2 c| := by
            gcongr; exact Finset.abs_sum_le_sum_abs _ _
        _ = ∑ c : StepCoins d w F, (Fintype.card F : ℤ) * |after c - after2 c| := Finset.mul_sum _ _ _
        _ ≤ ∑ c : StepCoins d w F, (bound + if Stale R log2 msg (imsOf R skip xs (user who)) ring c then
              (Fintype.card F : ℤ) * (C ^ T : ℕ) else 0) := by
            refine Finset.sum_le_sum fun c _ => ?_
            split
            · have : 0 ≤ bound := Int.natCast_nonneg _
              have := mul_le_mul_of_nonneg_left (hall c) hF
              omega
            · next h => rw [add_zero]; exact hgood c h
        _ = C * bound + ((Fintype.card F * (Finset.univ.filter fun c : StepCoins d w F =>
              Stale R log2 msg (imsOf R skip xs (user who)) ring c).card : ℕ) : ℤ) * (C ^ T : ℕ) := by
            rw [Finset.sum_add_distrib, Finset.sum_const, Finset.card_univ, hC, ← Finset.sum_filter, Finset.sum_const, nsmul_eq_mul,
              nsmul_eq_mul]
            push_cast
            ring
        _ ≤ C * bound + ((w * (log2.length + w) * C : ℕ) : ℤ) * (C ^ T : ℕ) := by
            gcongr
        _ = (((T * w * (log2.length + w + T * w) + w * (log2.length + w)) * C ^ (T + 1) : ℕ) : ℤ) := by
            simp only [bound]; push_cast; ring
        _ ≤ (((T + 1) * w * (log2.length + (T + 1) * w) * C ^ (T + 1) : ℕ) : ℤ) := by
            rw [Int.ofNat_le]
            refine Nat.mul_le_mul_right _ ?_
            calc T * w * (log2.length + w + T * w) + w * (log2.length + w)
                ≤ T * w * (log2.length + w + T * w) + w * (log2.length + w + T * w)    := by gcongr _ + w * ?_; omega
              _ = _ := by ring
        _ = _ := by push_cast; ring

/-! ## Chances -/

theorem chance_eq {α : Type} [Fintype α] (P : α → Bool) : chance (fun a => P a = true) = ((∑ a, if P a then (1 : ℤ) else 0 : ℤ) : ℚ) / Fintype.card α := by
  unfold chance
  rw [Nat.card_eq_fintype_card, Nat.card_eq_fintype_card, Fintype.card_subtype, Finset.card_filter]
  push_cast
  rfl

/-- The chance for pairs is the mean. -/
theorem chance_prod {α β : Type} [Fintype α] [Fintype β] [Nonempty α] [Nonempty β] (P : α × β → Bool) :
    chance (fun p => P p = true) = (∑ a, chance fun b => P (a, b) = true) / Fintype.card α := by
  have ha : (Fintype.card α : ℚ) ≠ 0 := by exact_mod_cast Fintype.card_ne_zero
  have hb : (Fintype.card β : ℚ) ≠ 0 := by exact_mod_cast Fintype.card_ne_zero
  simp only [chance_eq]
  rw [Fintype.sum_prod_type, Fintype.card_prod]
  simp only [div_eq_mul_inv]
  rw [← Finset.sum_mul]
  push_cast
  rw [mul_inv]
  ring

theorem chance_close {α β : Type} [Fintype α] [Fintype β] [Nonempty α] [Nonempty β] (P Q : α × β → Bool) {ε : ℚ}
    (h : ∀ a, |(chance fun b => P (a, b) = true) - chance fun b => Q (a, b) = true| ≤ ε) :
    |(chance fun p => P p = true) - chance fun p => Q p = true| ≤ ε := by
  have ha : (0 : ℚ) < Fintype.card α := by exact_mod_cast Fintype.card_pos
  rw [chance_prod, chance_prod, ← sub_div, ← Finset.sum_sub_distrib, abs_div, abs_of_pos ha, div_le_iff₀ ha]
  calc _ ≤ ∑ a : α, |(chance fun b => P (a, b) = true) - chance fun b => Q (a, b) = true| := Finset.abs_sum_le_sum_abs _ _
    _ ≤ ∑ _a : α, ε := Finset.sum_le_sum fun a _ => h a
    _ = _ := by rw [Finset.sum_const, Finset.card_univ, nsmul_eq_mul, mul_comm]

/-- C127: the real signatures can be replaced by invented ones. An observer makes `T` steps; in each it asks for a hash, or it asks a
pseudonym for a signature of a message for a ring of its choice, with fewer than `w` decoys. The user behind the pseudonym signs with `Prove`. An
observer says yes with almost the same probability when all signatures are made of random numbers, from the ring and the images only. -/
theorem C127_invented [Fintype F] (E : R.Encodings) (hB : R.base ≠ 0) (hx : ∀ u, (xs u).length = d) (hd : 1 ≤ d) (hw : 1 ≤ w) (W : Hidden G)
    (user : Nat → Nat) (O : Observer F G) (hO : O.Served W (keysOf R xs) user d w) (T : Nat) :
    |(chance fun c : Fin T → StepCoins d w F => O.real R skip W xs [] (List.ofFn c) = true) -
      chance fun c : Fin T → StepCoins d w F => O.invented R (fun a => imsOf R skip xs (user a)) [] (List.ofFn c) = true| ≤
      ((T * w) ^ 2 : ℕ) / Fintype.card F := by
  have h := count_diff (skip := skip) E hB hx hd hw W user T O [] [] hO fun _ => rfl
  have hF : (0 : ℚ) < Fintype.card F := by exact_mod_cast Fintype.card_pos
  have hC : (0 : ℚ) < (Fintype.card (StepCoins d w F) ^ T : ℕ) := by exact_mod_cast Nat.pow_pos Fintype.card_pos
  rw [chance_eq, chance_eq, Fintype.card_fun, Fintype.card_fin, ← sub_div, abs_div, abs_of_pos hC, div_le_div_iff₀ hC hF, mul_comm]
  have h2 : ((Fintype.card F : ℤ) * |realCount R skip xs W O [] d w T - inventedCount R (fun a => imsOf R skip xs (user a)) O [] d w T| : ℚ) ≤
      (((T * w) ^ 2 : ℕ) : ℚ) * (Fintype.card (StepCoins d w F) ^ T : ℕ) := by
    have e : T * w * (([] : Oracle.Log F).length + T * w) = (T * w) ^ 2 := by rw [List.length_nil]; ring
    rw [e] at h
    exact_mod_cast h
  refine le_trans (le_of_eq ?_) h2
  rw [← Int.cast_sub, ← Int.cast_abs]
  rfl

/-- C127: in two worlds with different users behind the pseudonyms, the observer says yes with almost the same probability, unless it
can tell the images apart: the test compares two runs of one game in which all signatures are invented, and which gets the images as data. -/
theorem C127_two_worlds [Fintype F] (E : R.Encodings) (hB : R.base ≠ 0) (hx : ∀ u, (xs u).length = d) (hd : 1 ≤ d) (hw : 1 ≤ w)
    (W W' : Hidden G) (user user' : Nat → Nat) (O : Observer F G) (hO : O.Served W (keysOf R xs) user d w)
    (hO' : O.Served W' (keysOf R xs) user' d w) (T : Nat) :
    |(chance fun c : Fin T → StepCoins d w F => O.real R skip W xs [] (List.ofFn c) = true) -
      chance fun c : Fin T → StepCoins d w F => O.real R skip W' xs [] (List.ofFn c) = true| ≤
      2 * (((T * w) ^ 2 : ℕ) / Fintype.card F) +
      |(chance fun c : Fin T → StepCoins d w F => O.invented R (fun a => imsOf R skip xs (user a)) [] (List.ofFn c) = true) -
        chance fun c : Fin T → StepCoins d w F => O.invented R (fun a => imsOf R skip xs (user' a)) [] (List.ofFn c) = true| := by
  have h1 := abs_le.1 (C127_invented (skip := skip) E hB hx hd hw W user O hO T)
  have h2 := abs_le.1 (C127_invented (skip := skip) E hB hx hd hw W' user' O hO' T)
  rw [abs_le]
  have h3 := neg_abs_le ((chance fun c : Fin T → StepCoins d w F => O.invented R (fun a => imsOf R skip xs (user a)) [] (List.ofFn c) = true) -
        chance fun c : Fin T → StepCoins d w F => O.invented R (fun a => imsOf R skip xs (user' a)) [] (List.ofFn c) = true)
  have h4 := le_abs_self ((chance fun c : Fin T → StepCoins d w F => O.invented R (fun a => imsOf R skip xs (user a)) [] (List.ofFn c) = true) -
        chance fun c : Fin T → StepCoins d w F => O.invented R (fun a => imsOf R skip xs (user' a)) [] (List.ofFn c) = true)
  constructor <;> linarith [h1.1, h1.2, h2.1, h2.2]

end

theorem users_length {m d : Nat} (x : Fin m → Fin d → F) (u : Nat) : (users x u).length = d := by
  unfold users
  split <;> simp

/-- C127: signers are hidden if key images look like random points. The secrets of `m` users are random; the observer knows the public keys.
If it tells two worlds apart, then it tells, up to a small error, the images of the users behind the pseudonyms from random points in one
of the worlds, given the public keys only. To tell `x • H(K)` from a random point, given `K = x • B`, is the decisional Diffie-Hellman
problem for the bases `B` and `H(K)`. -/
theorem C127_random_images [Fintype F] {R : Ristretto F G} (E : R.Encodings) (hB : R.base ≠ 0) (skip : Bool) (m d w k v : Nat) (hd : 1 ≤ d)
    (hw : 1 ≤ w) (W W' : (Nat → List G) → Hidden G) (user user' : Nat → Nat) (O : (Nat → List G) → Observer F G)
    (hO : ∀ x : Fin m → Fin d → F, (O (keysOf R (users x))).Served (W (keysOf R (users x))) (keysOf R (users x)) user d w)
    (hO' : ∀ x : Fin m → Fin d → F, (O (keysOf R (users x))).Served (W' (keysOf R (users x))) (keysOf R (users x)) user' d w) (T : Nat) :
    |(chance fun p : (Fin m → Fin d → F) × (Fin T → StepCoins d w F) =>
        (O (keysOf R (users p.1))).real R skip (W (keysOf R (users p.1))) (users p.1) [] (List.ofFn p.2) = true) -
      chance fun p : (Fin m → Fin d → F) × (Fin T → StepCoins d w F) =>
        (O (keysOf R (users p.1))).real R skip (W' (keysOf R (users p.1))) (users p.1) [] (List.ofFn p.2) = true| ≤
      2 * (((T * w) ^ 2 : ℕ) / Fintype.card F) +
      Observer.advantage R skip m d w k v T user O + Observer.advantage R skip m d w k v T user' O := by
  have h1 := chance_close (fun p : (Fin m → Fin d → F) × (Fin T → StepCoins d w F) =>
      (O (keysOf R (users p.1))).real R skip (W (keysOf R (users p.1))) (users p.1) [] (List.ofFn p.2))
    (fun p => (O (keysOf R (users p.1))).invented R (fun a => imsOf R skip (users p.1) (user a)) [] (List.ofFn p.2))
    (fun x => C127_invented (skip := skip) E hB (users_length x) hd hw _ user _ (hO x) T)
  have h2 := chance_close (fun p : (Fin m → Fin d → F) × (Fin T → StepCoins d w F) =>
      (O (keysOf R (users p.1))).real R skip (W' (keysOf R (users p.1))) (users p.1) [] (List.ofFn p.2))
    (fun p => (O (keysOf R (users p.1))).invented R (fun a => imsOf R skip (users p.1) (user' a)) [] (List.ofFn p.2))
    (fun x => C127_invented (skip := skip) E hB (users_length x) hd hw _ user' _ (hO' x) T)
  have h1 := abs_le.1 h1
  have h2 := abs_le.1 h2
  unfold Observer.advantage
  generalize (chance fun p : ((Fin m → Fin d → F) × (Fin k → Fin v → F)) × (Fin T → StepCoins d w F) =>
      (O fun u => (users p.1.1 u).map (· • R.base)).invented R (points R p.1.2) [] (List.ofFn p.2) = true) = random
  change _ ≤ 2 * (((T * w) ^ 2 : ℕ) / Fintype.card F : ℚ) + |(chance fun p : (Fin m → Fin d → F) × (Fin T → StepCoins d w F) =>
        (O (keysOf R (users p.1))).invented R (fun a => imsOf R skip (users p.1) (user a)) [] (List.ofFn p.2) = true) - random| +
      |(chance fun p : (Fin m → Fin d → F) × (Fin T → StepCoins d w F) =>
        (O (keysOf R (users p.1))).invented R (fun a => imsOf R skip (users p.1) (user' a)) [] (List.ofFn p.2) = true) - random|
  generalize (chance fun p : (Fin m → Fin d → F) × (Fin T → StepCoins d w F) =>
        (O (keysOf R (users p.1))).invented R (fun a => imsOf R skip (users p.1) (user a)) [] (List.ofFn p.2) = true) = i1 at *
  generalize (chance fun p : (Fin m → Fin d → F) × (Fin T → StepCoins d w F) =>
        (O (keysOf R (users p.1))).invented R (fun a => imsOf R skip (users p.1) (user' a)) [] (List.ofFn p.2) = true) = i2 at *
  have h3 := neg_abs_le (i1 - random)
  have h4 := le_abs_self (i1 - random)
  have h5 := neg_abs_le (i2 - random)
  have h6 := le_abs_self (i2 - random)
  rw [abs_le]
  constructor <;> linarith [h1.1, h1.2, h2.1, h2.2]

/-- C127: the encoding of a signature does not depend on the private field that marks decoys. -/
theorem C127_encoding (R : Ristretto F G) (s : Signature F G) (keys : Bool) : s.seen.encode R keys = s.encode R keys := by
  unfold Signature.encode Signature.seen
  have : ∀ l : List (PubKeys G), writeEach (PubKeys.encode R) (l.map fun k => ⟨false, k.keys⟩) = writeEach (PubKeys.encode R) l := by
    intro l
    induction l with
    | nil => rfl
    | cons k l ih => simp only [List.map_cons, writeEach, ih]; rfl
  simp only [this]

/-- C127 (violated): the signature that `Prove` returns names the signer: in its ring, the signer's keys, and no others, are not marked as
decoys. -/
theorem C127_marked_violated (R : Ristretto F G) (skip : Bool) (r : Request G) (xs : List F) (d w : Nat) (hx : xs.length = d) (hd : 1 ≤ d)
    (hne : r.decoys ≠ []) (hdim : ∀ k ∈ r.decoys, k.length = d) (nonce : Fin d → F) (resp : Fin w → Fin d → F) :
    ∃ sig I, ((build R r.msg (r.ops xs)).prove R skip ⟨ext nonce, fun j => ext (ext resp j), r.shuffle⟩).2 = .ok (sig, I) ∧
      sig.pubKeys.filter (fun k => !k.decoy) = [⟨false, xs.map (· • R.base)⟩] := by
  have h := prove_explicit R R.sDerive skip r (fun _ => xs) (w := w) hx hd hne hdim nonce resp _ rfl
  refine ⟨_, _, h, ?_⟩
  show (r.ring (xs.map (· • R.base))).filter _ = _
  have hp := (ring_perm r (xs.map (· • R.base))).filter fun k => !k.decoy
  have hnil : (r.decoys.map fun k => (⟨true, k⟩ : PubKeys G)).filter (fun k => !k.decoy) = [] := List.filter_eq_nil_iff.2 (by
    intro k hk
    obtain ⟨x, -, rfl⟩ := List.mem_map.1 hk
    simp)
  rw [List.filter_append, hnil, List.nil_append] at hp
  exact List.perm_singleton.1 hp

/-! ## An observer and two worlds -/

/-- User `u` of two signs for a ring of two: the other one is the decoy; the shuffle moves the signer to its place in the order of the users. -/
def pairWorld (keys : Nat → List G) (user : Nat → Nat) : Hidden G := fun a msg _ =>
  ⟨user a, msg, [keys (1 - user a)], fun _ => user a⟩

/-- It asks the pseudonym 0 for a signature for the ring of both users, and for a hash, and compares. -/
def curious (keys : Nat → List G) : Observer F G :=
  .sign 0 [1, 2, 3] [keys 0, keys 1] fun sig _ => .hash [7] fun a => .done (decide (a = sig.c))

theorem curious_served (keys : Nat → List G) (u : Nat) (hu : u < 2) (hk : ∀ u, (keys u).length = 1) :
    (curious keys : Observer F G).Served (pairWorld keys fun _ => u) keys (fun _ => u) 1 2 := by
  refine ⟨⟨rfl, rfl, ?_, by simp [pairWorld], by simp [pairWorld], by simp [pairWorld, hk]⟩, fun _ _ _ => trivial⟩
  obtain rfl | rfl : u = 0 ∨ u = 1 := by omega
  · rfl
  · rfl

example : ∀ x : Fin 2 → Fin 1 → Toy.K, (curious (keysOf Toy.ris (users x))).Served (F := Toy.K)
      (pairWorld (keysOf Toy.ris (users x)) fun _ => 0) (keysOf Toy.ris (users x)) (fun _ => 0) 1 2 ∧
    (curious (keysOf Toy.ris (users x))).Served (F := Toy.K)
      (pairWorld (keysOf Toy.ris (users x)) fun _ => 1) (keysOf Toy.ris (users x)) (fun _ => 1) 1 2 := by
  intro x
  exact ⟨curious_served _ 0 (by omega) fun u => by simp [keysOf, users_length], curious_served _ 1 (by omega) fun u => by simp [keysOf, users_length]⟩

/-- Two users with one key each; the observer of `curious_served` faces the first or the second one. -/
example [NeZero PrimeEll.ell] (x : Fin 2 → Fin 1 → Toy.K) (T : Nat) :=
  C127_two_worlds (R := Toy.ris) (skip := false) (xs := users x) (d := 1) (w := 2) Toy.ris_encodings one_ne_zero (fun u => users_length x u) le_rfl
    (by norm_num) _ _ _ _ (curious (keysOf Toy.ris (users x)))
    (curious_served _ 0 (by omega) fun u => by simp [keysOf, users_length])
    (curious_served _ 1 (by omega) fun u => by simp [keysOf, users_length]) T

example [NeZero PrimeEll.ell] (k v T : Nat) :=
  C127_random_images (R := Toy.ris) Toy.ris_encodings one_ne_zero false 2 1 2 k v le_rfl (by norm_num)
    (fun keys => pairWorld keys fun _ => 0) (fun keys => pairWorld keys fun _ => 1) _ _ curious
    (fun x => curious_served _ 0 (by omega) fun u => by simp [keysOf, users_length])
    (fun x => curious_served _ 1 (by omega) fun u => by simp [keysOf, users_length]) T

/-- The key that is not marked as a decoy is that of the signer. -/
example (nonce : Fin 1 → Toy.K) (resp : Fin 2 → Fin 1 → Toy.K) (sh : Nat → Nat) : ∃ sig I,
    ((build Toy.ris [1] ((⟨0, [1], [[9]], sh⟩ : Request Toy.K).ops [5])).prove Toy.ris false ⟨ext nonce, fun j => ext (ext resp j), sh⟩).2 = .ok (sig, I) ∧
      sig.pubKeys.filter (fun k => !k.decoy) = [⟨false, [(5 : Toy.K) • Toy.ris.base]⟩] :=
  C127_marked_violated Toy.ris false ⟨0, [1], [[9]], sh⟩ [5] 1 2 rfl le_rfl (by simp) (by simp) nonce resp

example (c : Toy.K) (keys : Bool) : (⟨c, [[2]], [⟨false, [7]⟩], [1]⟩ : Signature Toy.K Toy.K).seen.encode Toy.ris keys =
    (⟨c, [[2]], [⟨false, [7]⟩], [1]⟩ : Signature Toy.K Toy.K).encode Toy.ris keys := C127_encoding Toy.ris _ keys

end Dusk.Mlsag
