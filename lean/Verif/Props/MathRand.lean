import Verif.Model.MathRand
import Verif.Props.Shuffle
import Verif.Props.Blsag
import Mathlib.Data.List.Permutation
import Mathlib.Data.Set.Card
/-!
# Rings ordered by a generator that is seeded with the time (C145)
-/

set_option linter.unusedSectionVars false

namespace Dusk

variable {F G : Type} [Field F] [AddCommGroup G] [Module F G] {S : Type}

/-- The state made from a seed is that made from its remainder, one of `2^31 - 1` numbers. -/
theorem MathRand.Documented.seed_eq {g : MathRand S} (hg : g.Documented) (t : Int) :
    ∃ r < 2 ^ 31 - 1, g.seed t = g.seed (r : Nat) := by
  refine ⟨(t % (2 ^ 31 - 1)).toNat, ?_, ?_⟩
  · have := Int.emod_lt_of_pos t (show (0 : Int) < 2 ^ 31 - 1 by norm_num)
    omega
  · refine hg.seed_mod _ _ ?_
    rw [Int.toNat_of_nonneg (Int.emod_nonneg _ (by norm_num)), Int.emod_emod_of_dvd _ (dvd_refl _)]

namespace Mlsag

/-- The ring that is published, as key vectors. -/
theorem published_ring [DecidableEq F] (R : Ristretto F G) (msg : Bytes) (ops : List (Op F G)) (skip : Bool) (coins : Coins F)
    (hd : decoys ops ≠ []) (hx : secrets ops ≠ []) (hskip : skip = true → 2 ≤ (secrets ops).length)
    (hdim : ∀ k ∈ decoys ops, k.length = (secrets ops).length) :
    ∃ sig I, ((build R msg ops).prove R skip coins).2 = .ok (sig, I) ∧ sig.pubKeys.map (·.keys) =
      shuffleLoop coins.shuffle (decoys ops).length (decoys ops ++ [(secrets ops).map (· • R.base)]) := by
  obtain ⟨sig, I, h, hp⟩ := C14_prove R msg ops skip coins hd hx hskip hdim
  obtain ⟨b1, b2, b3, b4⟩ := build_eq R msg ops
  refine ⟨sig, I, h, ?_⟩
  have h1 : ((build R msg ops).prove R skip coins).1 = ((build R msg ops).addSignerPubKey.shuffleSet coins.shuffle).1 := by
    unfold Proof.prove
    dsimp only
    split
    · split <;> rfl
    · rfl
    · rfl
  have h2 : (build R msg ops).addSignerPubKey.matrix = (decoys ops).map (fun k => (⟨true, k⟩ : PubKeys G)) ++ [⟨false, (secrets ops).map (· • R.base)⟩] := by
    show (build R msg ops).matrix ++ [(⟨false, (build R msg ops).signer.keys⟩ : PubKeys G)] = _
    rw [b3, b2]
  have h3 : sig.pubKeys = shuffleLoop coins.shuffle (decoys ops).length
      ((decoys ops).map (fun k => (⟨true, k⟩ : PubKeys G)) ++ [⟨false, (secrets ops).map (· • R.base)⟩]) := by
    rw [hp.ring, h1]
    unfold Proof.shuffleSet
    dsimp only
    rw [h2]
    split <;> simp
  rw [h3, ← shuffleLoop_map]
  simp [Function.comp_def]

/-- The number of members of the ring is that of decoys and one. -/
theorem build_matrix_length (R : Ristretto F G) (msg : Bytes) (ops : List (Op F G)) : (build R msg ops).matrix.length = (decoys ops).length := by
  obtain ⟨b1, b2, b3, b4⟩ := build_eq R msg ops
  rw [b3]
  simp

/-- C145 (violated expectation: every ordering of the ring can be published): whatever the time, the nonces and the other random
numbers, all published rings are among `2^31 - 1` orderings that the keys determine. With 13 or more members of different keys
there are orderings that are never published. -/
theorem C145_orderings_violated [DecidableEq F] {g : MathRand S} (hg : g.Documented) (R : Ristretto F G) (msg : Bytes) (ops : List (Op F G))
    (skip : Bool) (hd : decoys ops ≠ []) (hx : secrets ops ≠ []) (hskip : skip = true → 2 ≤ (secrets ops).length)
    (hdim : ∀ k ∈ decoys ops, k.length = (secrets ops).length) :
    let ring := decoys ops ++ [(secrets ops).map (· • R.base)]
    (∃ f : Nat → List (List G), ∀ seconds nonce resp, ∃ sig I, ((build R msg ops).proveAt g seconds R skip nonce resp).2 = .ok (sig, I) ∧
      (sig.pubKeys.map (·.keys)).Perm ring ∧ ∃ r < 2 ^ 31 - 1, sig.pubKeys.map (·.keys) = f r) ∧
    (ring.Nodup → 13 ≤ ring.length → ∃ order, order.Perm ring ∧ ∀ seconds nonce resp sig I,
      ((build R msg ops).proveAt g seconds R skip nonce resp).2 = .ok (sig, I) → sig.pubKeys.map (·.keys) ≠ order) := by
  classical
  intro ring
  have key : ∀ seconds nonce resp, ∃ sig I, ((build R msg ops).proveAt g seconds R skip nonce resp).2 = .ok (sig, I) ∧
      sig.pubKeys.map (·.keys) = shuffleLoop (g.draws (g.seed seconds) (decoys ops).length) (decoys ops).length ring := by
    intro seconds nonce resp
    obtain ⟨sig, I, h1, h2⟩ := published_ring R msg ops skip ⟨nonce, resp, g.draws (g.seed seconds) (decoys ops).length⟩ hd hx hskip hdim
    refine ⟨sig, I, ?_, h2⟩
    unfold Proof.proveAt
    rw [build_matrix_length]
    exact h1
  refine ⟨⟨fun r => shuffleLoop (g.draws (g.seed (r : Nat)) (decoys ops).length) (decoys ops).length ring, fun seconds nonce resp => ?_⟩, ?_⟩
  · obtain ⟨sig, I, h1, h2⟩ := key seconds nonce resp
    obtain ⟨r, hr, hs⟩ := hg.seed_eq seconds
    exact ⟨sig, I, h1, h2 ▸ shuffleLoop_perm _ _ _, r, hr, by rw [h2, hs]⟩
  · intro hnd h13
    by_contra hne
    push Not at hne
    have hsub : (ring.permutations).toFinset ⊆ (Finset.range (2 ^ 31 - 1)).image
        fun r : Nat => shuffleLoop (g.draws (g.seed (r : Nat)) (decoys ops).length) (decoys ops).length ring := by
      intro o ho
      obtain ⟨seconds, nonce, resp, sig, I, h1, h2⟩ := hne o (List.mem_permutations.1 (List.mem_toFinset.1 ho))
      obtain ⟨sig', I', h3, h4⟩ := key seconds nonce resp
      obtain ⟨r, hr, hs⟩ := hg.seed_eq seconds
      obtain ⟨rfl, rfl⟩ := Prod.mk.inj (Res.ok.inj (h1.symm.trans h3))
      exact Finset.mem_image.2 ⟨r, Finset.mem_range.2 hr, by rw [← h2, h4, hs]⟩
    have hc := (Finset.card_le_card hsub).trans Finset.card_image_le
    rw [List.toFinset_card_of_nodup (List.nodup_permutations _ hnd), List.length_permutations, Finset.card_range] at hc
    have : (13).factorial ≤ ring.length.factorial := Nat.factorial_le h13
    have h : (13).factorial = 6227020800 := by decide
    omega

/-- C145 (violated expectation: the time at which a signature was made does not tell who signed): if it is known to be one of the
seconds in `W`, the signer is at one of at most as many positions as there are seconds in `W`; the positions are computed from
`W`, the generator and the number of members alone. -/
theorem C145_window_violated [DecidableEq F] (g : MathRand S) (W : Finset Int) (n : Nat) :
    ∃ C : Finset Nat, C.card ≤ W.card ∧ ∀ (R : Ristretto F G) (msg : Bytes) (ops : List (Op F G)) (skip : Bool) (nonce : Nat → F)
      (resp : Nat → Nat → F), ∀ seconds ∈ W, (decoys ops).length = n → decoys ops ≠ [] → secrets ops ≠ [] →
      (skip = true → 2 ≤ (secrets ops).length) → (∀ k ∈ decoys ops, k.length = (secrets ops).length) →
      ∃ sig I, ((build R msg ops).proveAt g seconds R skip nonce resp).2 = .ok (sig, I) ∧
        ∃ j ∈ C, (sig.pubKeys[j]?).map (·.keys) = some ((secrets ops).map (· • R.base)) := by
  refine ⟨W.image fun t => signerPosition (g.draws (g.seed t) n) n, Finset.card_image_le, ?_⟩
  intro R msg ops skip nonce resp seconds hW hn hd hx hskip hdim
  obtain ⟨sig, I, h1, h2⟩ := C80_position_violated R msg ops skip ⟨nonce, resp, g.draws (g.seed seconds) n⟩ hd hx hskip hdim
  refine ⟨sig, I, ?_, _, Finset.mem_image_of_mem _ hW, hn ▸ h2⟩
  unfold Proof.proveAt
  rw [build_matrix_length, hn]
  exact h1

end Mlsag

namespace Blsag

variable {P : Type}

/-- C145 (violated): two calls of `Sign` whose times differ by a multiple of `2^31 - 1` nanoseconds (2.1 seconds), with equally
many mixins, have their signers at the same position, whatever the messages, keys, mixins, random scalars and the earlier use of
the generator. -/
theorem C145_period_violated {g : MathRand S} (hg : g.Documented) {R : Ristretto F G} {V : Raw F G P} (hV : V.Lawful R) (t t' : Int)
    (ht : t % (2 ^ 31 - 1) = t' % (2 ^ 31 - 1)) (n : Nat) :
    ∃ j ≤ n, ∀ (m m' : Bytes) (mixin mixin' : List P) (sK sK' alpha alpha' : F) (s s' : Nat → F) (b b' : S), mixin.length = n → mixin'.length = n →
      ∃ sig sig', (signAt g t R V m mixin sK alpha s b).1 = .ok sig ∧ (signAt g t' R V m' mixin' sK' alpha' s' b').1 = .ok sig' ∧
        sig.pubKeys[j]? = some (V.inj (sK • R.base)) ∧ sig'.pubKeys[j]? = some (V.inj (sK' • R.base)) := by
  have hlt := hg.intn_lt (g.seed t) (n + 1) (by omega)
  refine ⟨(g.intn (g.seed t) (n + 1)).1, by omega, ?_⟩
  intro m m' mixin mixin' sK sK' alpha alpha' s s' b b' hn hn'
  obtain ⟨sig, h1, -, h2⟩ := C30_violated hV m mixin sK ⟨(g.intn (g.seed t) (n + 1)).1, alpha, s⟩
  obtain ⟨sig', h1', -, h2'⟩ := C30_violated hV m' mixin' sK' ⟨(g.intn (g.seed t) (n + 1)).1, alpha', s'⟩
  refine ⟨sig, sig', ?_, ?_, ?_, ?_⟩
  · unfold signAt
    rw [hn]
    exact h1
  · unfold signAt
    rw [hn', ← hg.seed_mod t t' ht]
    exact h1'
  · rw [h2 _ (by omega), if_pos (by rw [hn]; exact (Nat.mod_eq_of_lt hlt).symm)]
  · rw [h2' _ (by omega), if_pos (by rw [hn']; exact (Nat.mod_eq_of_lt hlt).symm)]

/-- The numbers that a program draws from the shared generator. -/
def numbersDrawn (g : MathRand S) : S → List Nat → List Nat
  | _, [] => []
  | s, n :: ns => (g.intn s n).1 :: numbersDrawn g (g.intn s n).2 ns

/-- C145 (violated expectation: `Sign` has no effect on the rest of the program): it sets the shared generator to a state that
depends only on the time modulo `2^31 - 1` and the number of mixins. All numbers that the program draws afterwards are the same
for any two calls that agree in these, whatever it did with the generator before. -/
theorem C145_shared_violated {g : MathRand S} (hg : g.Documented) (R : Ristretto F G) (V : Raw F G P) (t t' : Int)
    (ht : t % (2 ^ 31 - 1) = t' % (2 ^ 31 - 1)) (m m' : Bytes) (mixin mixin' : List P) (sK sK' alpha alpha' : F) (s s' : Nat → F) (b b' : S)
    (hn : mixin.length = mixin'.length) (ns : List Nat) :
    numbersDrawn g (signAt g t R V m mixin sK alpha s b).2 ns = numbersDrawn g (signAt g t' R V m' mixin' sK' alpha' s' b').2 ns := by
  unfold signAt
  rw [hn, hg.seed_mod t t' ht]

/-- The number drawn for `n` after the draws `ns`. -/
def lastDrawn (g : MathRand S) : S → List Nat → Nat → Nat
  | s, [], n => (g.intn s n).1
  | s, k :: ns, n => lastDrawn g (g.intn s k).2 ns n

/-- The state after the draws `ns`. -/
def afterDraws (g : MathRand S) : S → List Nat → S
  | s, [] => s
  | s, k :: ns => afterDraws g (g.intn s k).2 ns

theorem afterDraws_append (g : MathRand S) : ∀ (s : S) (ns : List Nat) (k : Nat),
    afterDraws g s (ns ++ [k]) = (g.intn (afterDraws g s ns) k).2
  | _, [], _ => rfl
  | s, a :: ns, k => afterDraws_append g (g.intn s a).2 ns k

theorem lastDrawn_eq (g : MathRand S) : ∀ (s : S) (ns : List Nat) (n : Nat), lastDrawn g s ns n = (g.intn (afterDraws g s ns) n).1
  | _, [], _ => rfl
  | s, a :: ns, n => lastDrawn_eq g (g.intn s a).2 ns n

section
variable {ι : Type} [DecidableEq ι]

/-- What holds at every time: the generator is at some draws after the last seeding. -/
structure Seeded (g : MathRand S) (nanos : ι → Int) (size : ι → Nat) (c : Signers S ι) : Prop where
  gen : (∀ i, c.next i = .seed) ∨ ∃ (k : ι) (ds : List ι), c.gen = afterDraws g (g.seed (nanos k)) (ds.map size) ∧ c.next k ≠ .seed ∧ ds.Nodup ∧
    ∀ d ∈ ds, c.next d = .rest
  pos : ∀ i p, c.position i = some p → c.next i = .rest ∧ ∃ (k : ι) (ds : List ι), p = lastDrawn g (g.seed (nanos k)) (ds.map size) (size i) ∧
    c.next k ≠ .seed ∧ (i :: ds).Nodup ∧ ∀ d ∈ ds, c.next d = .rest

theorem seeded_step (g : MathRand S) (nanos : ι → Int) (size : ι → Nat) (c : Signers S ι) (i : ι) (h : Seeded g nanos size c) :
    Seeded g nanos size (c.step g nanos size i) := by
  have keep : ∀ (st : SignStep), st ≠ .seed → c.next i ≠ .rest → ∀ d, c.next d = .rest → Function.update c.next i st d = .rest := by
    intro st _ hi d hd
    rw [Function.update_of_ne (by rintro rfl; exact hi hd)]
    exact hd
  have keep' : ∀ (st : SignStep), st ≠ .seed → ∀ k, c.next k ≠ .seed → Function.update c.next i st k ≠ .seed := by
    intro st hst k hk
    by_cases e : k = i
    · subst e
      rwa [Function.update_self]
    · rwa [Function.update_of_ne e]
  unfold Signers.step
  split
  · rename_i hs
    have hne : c.next i ≠ .rest := by rw [hs]; decide
    refine ⟨.inr ⟨i, [], rfl, by simp, by simp, by simp⟩, fun a p hp => ?_⟩
    obtain ⟨h1, k, ds, h2, h3, h4, h5⟩ := h.pos a p hp
    exact ⟨keep _ (by decide) hne a h1, k, ds, h2, keep' _ (by decide) k h3, h4, fun d hd => keep _ (by decide) hne d (h5 d hd)⟩
  · rename_i hs
    have hne : c.next i ≠ .rest := by rw [hs]; decide
    rcases h.gen with h0 | ⟨k, ds, g1, g2, g3, g4⟩
    · exact absurd (h0 i) (by rw [hs]; decide)
    have hi : i ∉ ds := fun hm => hne (g4 i hm)
    refine ⟨.inr ⟨k, ds ++ [i], ?_, keep' _ (by decide) k g2, ?_, ?_⟩, fun a p hp => ?_⟩
    · dsimp only
      rw [g1, List.map_append, List.map_cons, List.map_nil, afterDraws_append]
    · exact List.nodup_append.2 ⟨g3, by simp, by rintro a ha b hb rfl; exact hi (List.mem_singleton.1 hb ▸ ha)⟩
    · intro d hd
      rcases List.mem_append.1 hd with hd | hd
      · exact keep _ (by decide) hne d (g4 d hd)
      · rw [List.mem_singleton.1 hd]
        exact Function.update_self ..
    · dsimp only at hp ⊢
      by_cases e : a = i
      · subst e
        rw [Function.update_self] at hp
        refine ⟨by rw [Function.update_self], k, ds, ?_, keep' _ (by decide) k g2, List.nodup_cons.2 ⟨hi, g3⟩,
          fun d hd => keep _ (by decide) hne d (g4 d hd)⟩
        rw [lastDrawn_eq, ← g1]
        exact (Option.some.inj hp).symm
      · rw [Function.update_of_ne e] at hp
        obtain ⟨h1, k', ds', h2, h3, h4, h5⟩ := h.pos a p hp
        exact ⟨keep _ (by decide) hne a h1, k', ds', h2, keep' _ (by decide) k' h3, h4, fun d hd => keep _ (by decide) hne d (h5 d hd)⟩
  · exact h

/-- C145: calls of `Sign` in several goroutines, in every order of their steps: the position of each is drawn from the sequence of
the time of some call, its own or another, after the positions of different other calls. -/
theorem C145_goroutines (g : MathRand S) (nanos : ι → Int) (size : ι → Nat) (b : S) (sched : List ι) (i : ι) (p : Nat)
    (h : ((Signers.start b).exec g nanos size sched).position i = some p) :
    ∃ (k : ι) (ds : List ι), p = lastDrawn g (g.seed (nanos k)) (ds.map size) (size i) ∧ (i :: ds).Nodup := by
  have hinv : Seeded g nanos size ((Signers.start b).exec g nanos size sched) := by
    unfold Signers.exec
    generalize hc : (Signers.start b : Signers S ι) = c
    have h0 : Seeded g nanos size c := by
      subst hc
      exact ⟨.inl fun _ => rfl, fun i p hp => by simp [Signers.start] at hp⟩
    clear hc h
    induction sched generalizing c with
    | nil => exact h0
    | cons a as ih => exact ih _ (seeded_step g nanos size c a h0)
  obtain ⟨-, k, ds, h2, -, h4, -⟩ := hinv.pos i p h
  exact ⟨k, ds, h2, h4⟩

/-- C145 (violated expectation: a call of `Sign` draws from the sequence of its own time): in some order of the steps of two calls,
the position of the first is the one that belongs to the time of the second, and the second gets the next number. -/
theorem C145_goroutines_violated (g : MathRand S) (nanos : ι → Int) (size : ι → Nat) (b : S) {i j : ι} (hij : i ≠ j) :
    ∃ sched, ((Signers.start b).exec g nanos size sched).position i = some (g.intn (g.seed (nanos j)) (size i)).1 ∧
      ((Signers.start b).exec g nanos size sched).position j = some (lastDrawn g (g.seed (nanos j)) [size i] (size j)) := by
  refine ⟨[i, j, i, j], ?_, ?_⟩
  · simp [Signers.exec, Signers.start, Signers.step, Function.update_of_ne hij, Function.update_of_ne hij.symm]
  · simp [Signers.exec, Signers.start, Signers.step, Function.update_of_ne hij, Function.update_of_ne hij.symm, lastDrawn]

end

end Blsag

/-- C145: the draws of one shuffle, from the last position down, are the numbers that follow the seed, with the bounds `n + 1`, `n`, …, 2. -/
theorem C145_draws (g : MathRand S) : ∀ (n : Nat) (s : S),
    (List.range n).map (fun j => g.draws s n (n - j)) = Blsag.numbersDrawn g s ((List.range n).map fun j => n + 1 - j)
  | 0, _ => rfl
  | n + 1, s => by
    rw [List.range_succ_eq_map, List.map_cons, List.map_cons, Blsag.numbersDrawn, List.map_map, List.map_map]
    have e : ((fun j => n + 1 + 1 - j) ∘ Nat.succ) = fun j => n + 1 - j := by funext j; simp only [Function.comp]; omega
    rw [e]
    congr 1
    · simp [MathRand.draws]
    · rw [← C145_draws g n, Nat.sub_zero]
      refine List.map_congr_left fun j hj => ?_
      have := List.mem_range.1 hj
      simp only [Function.comp, MathRand.draws]
      rw [if_neg (by omega)]
      congr 1
      omega

/-- C145: that only `2^31 - 1` orders are published is due to the generator alone: for every order of the ring there is a generator as
documented with which it is published, in every second. -/
theorem C145_every_order [DecidableEq F] (R : Ristretto F G) (msg : Bytes) (ops : List (Mlsag.Op F G)) (skip : Bool) (hd : Mlsag.decoys ops ≠ [])
    (hx : Mlsag.secrets ops ≠ []) (hskip : skip = true → 2 ≤ (Mlsag.secrets ops).length)
    (hdim : ∀ k ∈ Mlsag.decoys ops, k.length = (Mlsag.secrets ops).length) (order : List (List G))
    (ho : order.Perm (Mlsag.decoys ops ++ [(Mlsag.secrets ops).map (· • R.base)])) :
    ∃ g : MathRand Unit, g.Documented ∧ ∀ seconds nonce resp, ∃ sig I,
      ((Mlsag.build R msg ops).proveAt g seconds R skip nonce resp).2 = .ok (sig, I) ∧ sig.pubKeys.map (·.keys) = order := by
  obtain ⟨d, hle, hs⟩ := Mlsag.shuffle_exists (Mlsag.decoys ops).length _ order (by simp) ho (by
    intro k hk
    rw [List.getElem?_eq_none (by rw [ho.length_eq]; simpa using hk), List.getElem?_eq_none (by simpa using hk)])
  let g : MathRand Unit := ⟨fun _ => (), fun _ n => (d (n - 1), ())⟩
  have hdraw : ∀ (n : Nat) (u : Unit) (k : Nat), 1 ≤ k → k ≤ n → g.draws u n k = d k := by
    intro n
    induction n with
    | zero => intro u k h1 h2; omega
    | succ n ih =>
      intro u k h1 h2
      rw [MathRand.draws]
      dsimp only
      split
      · rename_i e; rw [e]; rfl
      · exact ih _ k h1 (by omega)
  refine ⟨g, ⟨fun _ _ _ => rfl, fun _ n hn => ?_⟩, fun seconds nonce resp => ?_⟩
  · show d (n - 1) < n
    have := hle (n - 1)
    omega
  · obtain ⟨sig, I, h, e⟩ := Mlsag.published_ring R msg ops skip ⟨nonce, resp, g.draws (g.seed seconds) (Mlsag.build R msg ops).matrix.length⟩ hd hx
      hskip hdim
    refine ⟨sig, I, h, e.trans ?_⟩
    rw [← hs]
    refine Mlsag.shuffleLoop_congr _ _ fun i h1 h2 => ?_
    show g.draws _ _ i % _ = _
    rw [Mlsag.build_matrix_length, hdraw _ _ i h1 h2]

/-! ## Cases -/

/-- A generator as documented: its state is the remainder of the seed, multiplied in every step. -/
def lehmer : MathRand Nat where
  seed s := (s % (2 ^ 31 - 1)).toNat
  intn s n := (s * 48271 % (2 ^ 31 - 1) % n, s * 48271 % (2 ^ 31 - 1))

theorem lehmer_documented : lehmer.Documented :=
  ⟨fun a b h => by simp only [lehmer]; rw [h], fun s n h => Nat.mod_lt _ h⟩

/-- A ring of 14 members: some order is never published. -/
example : ∃ order, order.Perm ((List.range 13).map (fun i => [((i + 2 : Nat) : Toy.K)]) ++ [[(1 : Toy.K) • Toy.ris.base]]) ∧
    ∀ seconds nonce resp sig I, ((Mlsag.build Toy.ris [1] (.secret 1 :: (List.range 13).map fun i => .decoy ⟨true, [((i + 2 : Nat) : Toy.K)]⟩)).proveAt
      lehmer seconds Toy.ris false nonce resp).2 = .ok (sig, I) → sig.pubKeys.map (·.keys) ≠ order := by
  have h := (Mlsag.C145_orderings_violated lehmer_documented Toy.ris [1]
    (.secret 1 :: (List.range 13).map fun i => .decoy ⟨true, [((i + 2 : Nat) : Toy.K)]⟩) false
    (by decide +kernel) (by decide +kernel) (by simp) (by decide +kernel)).2
  exact h (by decide +kernel) (by decide +kernel)

/-- Three draws of the generator above. -/
example : (List.range 3).map (fun j => lehmer.draws 1 3 (3 - j)) = Blsag.numbersDrawn lehmer 1 [4, 3, 2] := C145_draws lehmer 3 1

/-- The signer, the last in the list of keys, can be published first. -/
example : ∃ g : MathRand Unit, g.Documented ∧ ∀ seconds nonce resp, ∃ sig I,
    ((Mlsag.build Toy.ris [1] [.secret 1, .decoy ⟨true, [(2 : Toy.K)]⟩, .decoy ⟨true, [3]⟩]).proveAt g seconds Toy.ris false nonce resp).2 = .ok (sig, I) ∧
      sig.pubKeys.map (·.keys) = [[(1 : Toy.K) • Toy.ris.base], [2], [3]] :=
  C145_every_order Toy.ris [1] [.secret 1, .decoy ⟨true, [(2 : Toy.K)]⟩, .decoy ⟨true, [3]⟩] false (by simp [Mlsag.decoys]) (by simp [Mlsag.secrets]) (by simp)
    (by simp [Mlsag.decoys, Mlsag.secrets]) _ (by simpa [Mlsag.decoys, Mlsag.secrets] using (List.perm_append_comm (l₁ := [[(1 : Toy.K) • Toy.ris.base]]) (l₂ := [[2], [3]])))

/-- One second known: one position. -/
example := Mlsag.C145_window_violated (F := Toy.K) (G := Toy.K) lehmer {1700000000} 4

/-- Two signatures, 2147483647 nanoseconds apart. -/
example : ∃ j ≤ 3, ∀ (m m' : Bytes) (mixin mixin' : List (Option Toy.K)) (sK sK' alpha alpha' : Toy.K) (s s' : Nat → Toy.K) (b b' : Nat),
    mixin.length = 3 → mixin'.length = 3 →
      ∃ sig sig', (Blsag.signAt lehmer 1700000000000000000 Toy.ris Blsag.toyRaw m mixin sK alpha s b).1 = .ok sig ∧
        (Blsag.signAt lehmer 1700000002147483647 Toy.ris Blsag.toyRaw m' mixin' sK' alpha' s' b').1 = .ok sig' ∧
        sig.pubKeys[j]? = some (Blsag.toyRaw.inj (sK • Toy.ris.base)) ∧ sig'.pubKeys[j]? = some (Blsag.toyRaw.inj (sK' • Toy.ris.base)) :=
  Blsag.C145_period_violated lehmer_documented Blsag.toyRaw_lawful _ _ (by decide) 3

example (b b' : Nat) (m : Bytes) (x y a : Toy.K) (s : Nat → Toy.K) :
    Blsag.numbersDrawn lehmer (Blsag.signAt lehmer 5 Toy.ris Blsag.toyRaw m [some 3] x a s b).2 [10, 20] =
      Blsag.numbersDrawn lehmer (Blsag.signAt lehmer 5 Toy.ris Blsag.toyRaw m [none] y a s b').2 [10, 20] :=
  Blsag.C145_shared_violated lehmer_documented _ _ 5 5 rfl m m _ _ x y a a s s b b' rfl _

/-- The position 5 of the first of two goroutines comes from the sequence of the time of one of them. -/
example : ∃ (k : Fin 2) (ds : List (Fin 2)),
    96542 % 7 = Blsag.lastDrawn lehmer (lehmer.seed (![1, 2] k)) (ds.map ![7, 7]) 7 ∧ (0 :: ds).Nodup :=
  Blsag.C145_goroutines lehmer ![1, 2] ![7, 7] 0 [0, 1, 0, 1] 0 _ (by decide +kernel)

/-- Two goroutines with rings of seven members: alone, the first has the position 6; in the order of the theorem the position 5. -/
example : ((Signers.start 0).exec lehmer ![1, 2] ![7, 7] [(0 : Fin 2), 0, 1, 1]).position 0 = some (48271 % 7) ∧
    ((Signers.start 0).exec lehmer ![1, 2] ![7, 7] [(0 : Fin 2), 1, 0, 1]).position 0 = some (96542 % 7) := by decide +kernel

example := Blsag.C145_goroutines_violated lehmer ![1, 2] ![7, 7] 0 (i := (0 : Fin 2)) (j := 1) (by decide)

end Dusk
