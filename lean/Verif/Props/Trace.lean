import Verif.Lemmas.Trace
import Verif.Props.Binding
import Verif.Props.MlsagDual
import Verif.Spec.Trace
/-!
# C134: the steps of signing and verifying
-/

set_option linter.unusedSectionVars false

namespace Dusk

open Traced

theorem flatMap_const {α β : Type} (S : List β) : ∀ l : List α, (l.flatMap fun _ => S) = (List.replicate l.length S).flatten
  | [] => rfl
  | a :: l => by rw [List.flatMap_cons, List.length_cons, List.replicate_succ, List.flatten_cons, flatMap_const S l]

/-- A loop with the same steps in every iteration. -/
theorem Traced.Runs.loop {α β : Type} (f : α → Traced β) (S : List Step) (l : List α) (h : ∀ a ∈ l, Runs (f a) S) :
    Runs (Traced.map f l) (List.replicate l.length S).flatten :=
  (Runs.map f (fun _ => S) l h).congr (flatMap_const S l)

namespace Mlsag

variable {F G : Type} [Field F] [AddCommGroup G] [Module F G]

theorem generateChallengeT_runs {R : Ristretto F G} (E : R.Encodings) (msg : Bytes) (r : List F) (I : List G) (K : PubKeys G) (c : F) :
    Runs (generateChallengeT R msg r I K c) (challengeSteps K.keys.length I.length msg.length) := by
  have h1 := Runs.loop (fun i => (lift (idx r i)).bind fun r =>
    (did [.base] (r • R.base)).bind fun P => (lift (idx K.keys i)).bind fun k => (did [.mult] (c • k)).bind fun cK =>
    (did [.add] (P + cK)).bind fun P => did [.bytes] (R.pBytes P)) [.base, .mult, .add, .bytes] (List.range K.keys.length)
    (fun i _ => Runs.bind (S := []) (Runs.lift _) fun _ _ => Runs.bind (S := [.base]) (Runs.did _ _) fun _ _ =>
      Runs.bind (S := []) (Runs.lift _) fun _ _ => Runs.bind (S := [.mult]) (Runs.did _ _) fun _ _ =>
      Runs.bind (S := [.add]) (Runs.did _ _) fun _ _ => Runs.did _ _)
  have h2 := Runs.loop (fun i => (lift (idx r i)).bind fun r =>
    (lift (idx K.keys i)).bind fun k => (did [.bytes] (R.pBytes k)).bind fun b => (did [.derive] (R.pDerive b)).bind fun hK =>
    (did [.mult] (r • hK)).bind fun P => (lift (idx I i)).bind fun im => (did [.mult] (c • im)).bind fun cK =>
    (did [.add] (P + cK)).bind fun P => did [.bytes] (R.pBytes P)) [.bytes, .derive, .mult, .mult, .add, .bytes] (List.range I.length)
    (fun i _ => Runs.bind (S := []) (Runs.lift _) fun _ _ => Runs.bind (S := []) (Runs.lift _) fun _ _ =>
      Runs.bind (S := [.bytes]) (Runs.did _ _) fun _ _ => Runs.bind (S := [.derive]) (Runs.did _ _) fun _ _ =>
      Runs.bind (S := [.mult]) (Runs.did _ _) fun _ _ => Runs.bind (S := []) (Runs.lift _) fun _ _ =>
      Runs.bind (S := [.mult]) (Runs.did _ _) fun _ _ => Runs.bind (S := [.add]) (Runs.did _ _) fun _ _ => Runs.did _ _)
  rw [List.length_range] at h1 h2
  unfold generateChallengeT challengeSteps
  rw [List.append_assoc]
  refine Runs.bind h1 fun b1 e1 => Runs.bind h2 fun b2 e2 => ?_
  have l1 : b1.flatten.length = K.keys.length * 32 := by
    rw [res_map] at e1
    rw [mapRes_flatten (k := 32) (fun a b h => ?_) e1, List.length_range]
    simp only [res_bind, res_lift, res_did, Res.bind_ok, Res.bind_eq_ok, Res.ok.injEq] at h
    obtain ⟨_, -, _, -, rfl⟩ := h
    exact E.pBytes_length _
  have l2 : b2.flatten.length = I.length * 32 := by
    rw [res_map] at e2
    rw [mapRes_flatten (k := 32) (fun a b h => ?_) e2, List.length_range]
    simp only [res_bind, res_lift, res_did, Res.bind_ok, Res.bind_eq_ok, Res.ok.injEq] at h
    obtain ⟨_, -, _, -, _, -, rfl⟩ := h
    exact E.pBytes_length _
  refine (Runs.did _ _).congr ?_
  rw [List.length_append, List.length_append, l1, l2]
  congr 2
  ring

theorem firstChallengeT_runs {R : Ristretto F G} (E : R.Encodings) (msg : Bytes) (nonces : List F) (I K : List G) :
    Runs (firstChallengeT R msg nonces I K) ((List.replicate nonces.length [.base, .bytes]).flatten ++
      (List.replicate I.length [.bytes, .derive, .mult, .bytes]).flatten ++ [.hash (msg.length + 32 * (nonces.length + I.length))]) := by
  have h1 := Runs.loop (fun i => (lift (idx nonces i)).bind fun a =>
    (did [.base] (a • R.base)).bind fun P => did [.bytes] (R.pBytes P)) [.base, .bytes] (List.range nonces.length)
    (fun i _ => Runs.bind (S := []) (Runs.lift _) fun _ _ => Runs.bind (S := [.base]) (Runs.did _ _) fun _ _ => Runs.did _ _)
  have h2 := Runs.loop (fun i => (lift (idx nonces i)).bind fun a => (lift (idx K i)).bind fun k =>
    (did [.bytes] (R.pBytes k)).bind fun b => (did [.derive] (R.pDerive b)).bind fun hK =>
    (did [.mult] (a • hK)).bind fun P => did [.bytes] (R.pBytes P)) [.bytes, .derive, .mult, .bytes] (List.range I.length)
    (fun i _ => Runs.bind (S := []) (Runs.lift _) fun _ _ => Runs.bind (S := []) (Runs.lift _) fun _ _ =>
      Runs.bind (S := [.bytes]) (Runs.did _ _) fun _ _ => Runs.bind (S := [.derive]) (Runs.did _ _) fun _ _ =>
      Runs.bind (S := [.mult]) (Runs.did _ _) fun _ _ => Runs.did _ _)
  rw [List.length_range] at h1 h2
  unfold firstChallengeT
  rw [List.append_assoc]
  refine Runs.bind h1 fun b1 e1 => Runs.bind h2 fun b2 e2 => ?_
  have l1 : b1.flatten.length = nonces.length * 32 := by
    rw [res_map] at e1
    rw [mapRes_flatten (k := 32) (fun a b h => ?_) e1, List.length_range]
    simp only [res_bind, res_lift, res_did, Res.bind_ok, Res.bind_eq_ok, Res.ok.injEq] at h
    obtain ⟨_, -, rfl⟩ := h
    exact E.pBytes_length _
  have l2 : b2.flatten.length = I.length * 32 := by
    rw [res_map] at e2
    rw [mapRes_flatten (k := 32) (fun a b h => ?_) e2, List.length_range]
    simp only [res_bind, res_lift, res_did, Res.bind_ok, Res.bind_eq_ok, Res.ok.injEq] at h
    obtain ⟨_, -, _, -, rfl⟩ := h
    exact E.pBytes_length _
  refine (Runs.did _ _).congr ?_
  rw [List.length_append, List.length_append, l1, l2]
  congr 2
  ring

/-- A loop around the ring, `d` iterations before its end. -/
theorem ringLoopT_runs {σ : Type} (body : Nat → σ → Traced σ) (n stop : Nat) (hstop : stop < n) (S : Nat → List Step)
    (hb : ∀ i s, Runs (body i s) (S i)) : ∀ (d : Nat) (s : σ) (fuel : Nat), d < n → d < fuel →
      Runs (ringLoopT body n stop fuel ((stop + n - d) % n) s) ((List.range d).flatMap fun j => S ((stop + n - d + j) % n))
  | d, s, 0, _, hf => by omega
  | 0, s, fuel + 1, _, _ => by
    rw [ringLoopT, if_pos]
    · exact Runs.lift _
    · rw [Nat.sub_zero, Nat.add_mod_right, Nat.mod_eq_of_lt hstop]
  | d + 1, s, fuel + 1, hd, hf => by
    have hne : (stop + n - (d + 1)) % n ≠ stop := by
      rcases Nat.lt_or_ge stop (d + 1) with h | h
      · rw [Nat.mod_eq_of_lt (by omega)]; omega
      · rw [show stop + n - (d + 1) = stop - (d + 1) + n by omega, Nat.add_mod_right, Nat.mod_eq_of_lt (by omega)]
        omega
    rw [ringLoopT, if_neg hne, Nat.mod_mod, Nat.mod_add_mod, show stop + n - (d + 1) + 1 = stop + n - d by omega,
      List.range_succ_eq_map, List.flatMap_cons, Nat.add_zero, List.flatMap_map]
    refine Runs.bind (hb _ s) fun a _ => ?_
    refine (ringLoopT_runs body n stop hstop S hb d a fuel (by omega) (by omega)).congr ?_
    congr 1
    funext j
    rw [show stop + n - d + j = stop + n - (d + 1) + j.succ by omega]

/-- The loop of `prove`: it starts two positions after the signer. -/
theorem ringLoopT_prove {σ : Type} (body : Nat → σ → Traced σ) (n i : Nat) (hn : 2 ≤ n) (S : List Step)
    (hb : ∀ i s, Runs (body i s) S) (s : σ) :
    Runs (ringLoopT body n ((i + 1) % n) (n + 1) (i + 2) s) (List.replicate (n - 1) S).flatten := by
  have hlt : (i + 1) % n < n := Nat.mod_lt _ (by omega)
  have hne : i + 2 ≠ (i + 1) % n := by
    have := Nat.mod_le (i + 1) n
    omega
  have h := ringLoopT_runs body n ((i + 1) % n) hlt (fun _ => S) hb (n - 1) s (n + 1) (by omega) (by omega)
  rw [flatMap_const, List.length_range, show (i + 1) % n + n - (n - 1) = (i + 1) % n + 1 by omega, Nat.mod_add_mod] at h
  have hne' : (i + 1 + 1) % n ≠ (i + 1) % n := by
    intro e
    have h1 : (i + 1 + 1) % n = ((i + 1) % n + 1) % n := by rw [Nat.mod_add_mod]
    rw [h1] at e
    rcases Nat.lt_or_ge ((i + 1) % n + 1) n with h2 | h2
    · rw [Nat.mod_eq_of_lt h2] at e; omega
    · rw [show (i + 1) % n + 1 = n by omega, Nat.mod_self] at e; omega
  rw [ringLoopT, if_neg hne', Nat.mod_mod, Nat.mod_add_mod] at h
  rw [ringLoopT, if_neg hne]
  exact h

theorem replicate_flatten_singleton (n : Nat) (s : Step) : (List.replicate n [s]).flatten = List.replicate n s := by
  induction n with
  | zero => rfl
  | succ n ih => rw [List.replicate_succ, List.flatten_cons, ih]; rfl

theorem generateNoncesT_runs (nonce : Nat → F) (n : Nat) : Runs (generateNoncesT nonce n) (List.replicate n .rand) := by
  have := Runs.loop (fun i => did [.rand] (nonce i)) [.rand] (List.range n) fun i _ => Runs.did _ _
  rwa [List.length_range, replicate_flatten_singleton] at this

theorem generateResponsesT_runs (resp : Nat → Nat → F) (m n skip : Nat) (h : skip < m) :
    Runs (generateResponsesT resp m n skip) (List.replicate ((m - 1) * n) .rand) := by
  unfold generateResponsesT
  refine (Runs.map _ (fun i => if i = skip then [] else List.replicate n .rand) _ fun i _ => ?_).congr ?_
  · split
    · exact Runs.lift _
    · have := Runs.loop (fun j => did [.rand] (resp i j)) [.rand] (List.range n) fun i _ => Runs.did _ _
      rwa [List.length_range, replicate_flatten_singleton] at this
  · have key : ∀ k ≤ m, ((List.range k).flatMap fun i => if i = skip then [] else List.replicate n Step.rand) =
        List.replicate ((if skip < k then k - 1 else k) * n) .rand := by
      intro k
      induction k with
      | zero => intro _; simp
      | succ k ih =>
        intro hk
        rw [List.range_succ, List.flatMap_append, ih (by omega), List.flatMap_singleton]
        by_cases h1 : k = skip
        · subst h1; simp
        · rw [if_neg h1, ← List.replicate_add]
          congr 1
          by_cases h2 : skip < k
          · rw [if_pos h2, if_pos (by omega), ← Nat.succ_mul]; congr 1; omega
          · rw [if_neg h2, if_neg (by omega), ← Nat.succ_mul]
    rw [key m le_rfl, if_pos h]

theorem calculateKeyImagesT_runs (R : Ristretto F G) (p : Proof F G) (skip : Bool) :
    Runs (p.calculateKeyImagesT R skip) (List.replicate p.privKeys.length [.bytes, .derive, .mult]).flatten := by
  have h1 := Runs.loop (fun i => (lift (idx p.privKeys i)).bind fun x => (lift (idx p.signer.keys i)).bind fun k => calculateKeyImageT R x k)
    [.bytes, .derive, .mult] (List.range p.privKeys.length)
    (fun i _ => Runs.bind (S := []) (Runs.lift _) fun _ _ => Runs.bind (S := []) (Runs.lift _) fun _ _ =>
      Runs.bind (S := [.bytes]) (Runs.did _ _) fun _ _ => Runs.bind (S := [.derive]) (Runs.did _ _) fun _ _ => Runs.did _ _)
  rw [List.length_range] at h1
  have := Runs.bind (T := []) h1 (f := fun images => if !skip then lift (.ok images)
    else if images.length = 0 then lift .panic else lift (.ok (images.take (images.length - 1)))) fun a _ => by
      split
      · exact Runs.lift _
      · split <;> exact Runs.lift _
  rwa [List.append_nil] at this

theorem shuffleLoopT_steps {α : Type} (sh : Nat → Nat) : ∀ i (l : List α), (shuffleLoopT sh i l).steps = shuffleSteps (i + 1)
  | 0, _ => rfl
  | i + 1, l => by
    rw [shuffleLoopT, steps_bind (res_did _ _), shuffleLoopT_steps sh i, shuffleSteps]
    rfl

theorem findT_steps : ∀ (i j : Nat) (l : List (PubKeys G)), (findT i l).res = .ok j →
    i ≤ j ∧ (findT i l).steps = List.replicate (j - i + 1) .look ∧ j - i < l.length
  | _, _, [], h => by cases h
  | i, j, k :: ks, h => by
    rw [findT, res_bind, res_did, Res.bind_ok] at h
    rw [findT, steps_bind (res_did _ _), steps_did]
    cases hk : k.decoy with
    | false =>
      rw [hk] at h
      simp only [Bool.not_false, if_true, res_lift, Res.ok.injEq] at h ⊢
      subst h
      simp
    | true =>
      rw [hk] at h
      simp only [Bool.not_true, Bool.false_eq_true, if_false] at h ⊢
      obtain ⟨h1, h2, h3⟩ := findT_steps (i + 1) j ks h
      refine ⟨by omega, ?_, by simp only [List.length_cons]; omega⟩
      rw [h2, show j - i + 1 = (j - (i + 1) + 1) + 1 by omega, List.replicate_succ (n := j - (i + 1) + 1)]
      rfl

theorem dimsT_steps (d : Nat) : ∀ l : List (PubKeys G), (dimsT d l).res = .ok () →
    (dimsT d l).steps = List.replicate l.length .len ∧ ∀ k ∈ l, k.keys.length = d
  | [], _ => ⟨rfl, by simp⟩
  | k :: ks, h => by
    rw [dimsT, res_bind, res_did, Res.bind_ok] at h
    rw [dimsT, steps_bind (res_did _ _), steps_did]
    by_cases hk : k.keys.length = d
    · simp only [hk, ne_eq, not_true_eq_false, if_false] at h ⊢
      obtain ⟨h1, h2⟩ := dimsT_steps d ks h
      exact ⟨by rw [h1]; rfl, fun x hx => by rcases List.mem_cons.1 hx with rfl | hx; exacts [hk, h2 x hx]⟩
    · simp [hk] at h

theorem proveBodyT_runs {R : Ristretto F G} (E : R.Encodings) (msg : Bytes) (resp : List (List F)) (I : List G) (m : List (PubKeys G))
    (n d : Nat) (hdim : ∀ k ∈ m, k.keys.length = d) (i : Nat) (s : List F × F) :
    Runs (proveBodyT R msg resp I m n i s) (challengeSteps d I.length msg.length) := by
  unfold proveBodyT
  refine Runs.bind (S := []) (Runs.lift _) fun r _ => Runs.bind (S := []) (T := challengeSteps d I.length msg.length) (Runs.lift _) fun k hk => ?_
  rw [res_lift] at hk
  have h := generateChallengeT_runs E msg r I k s.2
  rw [hdim k (List.mem_of_getElem? (idx_eq_ok.1 hk))] at h
  have := Runs.bind (T := []) h (f := fun c => lift (.ok (s.1.set i c, c))) fun c _ => Runs.lift _
  rwa [List.append_nil] at this

/-- The steps after finding the signer. -/
theorem signT_runs {R : Ristretto F G} (E : R.Encodings) (p : Proof F G) (skip : Bool) (coins : Coins F) (hn : 2 ≤ p.matrix.length)
    (hi : p.index < p.matrix.length) (hdim : ∀ k ∈ p.matrix, k.keys.length = p.privKeys.length) (sig : Signature F G) (I : List G)
    (h : (p.signT R skip coins).res = .ok (sig, I)) :
    List.replicate p.matrix.length .len ++ (p.signT R skip coins).steps =
      signSteps p.matrix.length p.privKeys.length I.length p.msg.length := by
  have hI : ∃ ks, (p.calculateKeyImagesT R skip).res = .ok ks ∧ ks = I := by
    rw [Proof.signT, res_bind] at h
    obtain ⟨ks, h1, h2⟩ := Res.bind_eq_ok.1 h
    refine ⟨ks, h1, ?_⟩
    simp only [res_bind, res_lift, Res.bind_eq_ok, Res.ok.injEq, Prod.mk.injEq] at h2
    obtain ⟨_, -, _, -, _, -, _, -, _, -, _, -, _, -, _, -, -, e⟩ := h2
    exact e
  obtain ⟨ks, hks, rfl⟩ := hI
  have hruns : Runs (p.signT R skip coins) ((List.replicate p.privKeys.length [.bytes, .derive, .mult]).flatten ++
      (List.replicate p.privKeys.length .rand ++ (List.replicate ((p.matrix.length - 1) * p.privKeys.length) .rand ++ ([] ++
      (((List.replicate p.privKeys.length [.base, .bytes]).flatten ++
        (List.replicate ks.length [.bytes, .derive, .mult, .bytes]).flatten ++ [.hash (p.msg.length + 32 * (p.privKeys.length + ks.length))]) ++
      ((List.replicate (p.matrix.length - 1) (challengeSteps p.privKeys.length ks.length p.msg.length)).flatten ++ ([] ++
      ((List.replicate p.privKeys.length [.sMul, .sNeg, .sAdd]).flatten ++ ([] ++ []))))))))) := by
    refine Runs.bind (calculateKeyImagesT_runs R p skip) fun I' e => ?_
    rw [hks] at e
    cases e
    refine Runs.bind (generateNoncesT_runs _ _) fun nonces e1 => ?_
    have l1 : nonces.length = p.privKeys.length := by
      rw [generateNoncesT_res] at e1; cases e1; simp [generateNonces]
    refine Runs.bind (generateResponsesT_runs _ _ _ _ hi) fun responses _ => Runs.bind (Runs.lift _) fun K _ => ?_
    refine Runs.bind ?_ fun c1 _ => ?_
    · rw [← l1]; exact firstChallengeT_runs E _ _ _ _
    refine Runs.bind (ringLoopT_prove _ _ _ hn _ (proveBodyT_runs E _ _ _ _ _ _ hdim) _) fun s _ => ?_
    refine Runs.bind (Runs.lift _) fun ch _ => Runs.bind ?_ fun real _ => Runs.bind (Runs.lift _) fun c0 _ => Runs.lift _
    have := Runs.loop (fun i => (lift (idx p.privKeys i)).bind fun x => (lift (idx nonces i)).bind fun a =>
      (did [.sMul] (ch * x)).bind fun r => (did [.sNeg] (-r)).bind fun r => did [.sAdd] (r + a)) [.sMul, .sNeg, .sAdd]
      (List.range p.privKeys.length) (fun i _ => Runs.bind (S := []) (Runs.lift _) fun _ _ => Runs.bind (S := []) (Runs.lift _) fun _ _ =>
        Runs.bind (S := [.sMul]) (Runs.did _ _) fun _ _ => Runs.bind (S := [.sNeg]) (Runs.did _ _) fun _ _ => Runs.did _ _)
    rwa [List.length_range] at this
  rw [hruns.2 _ h, signSteps]
  simp only [List.append_assoc, List.nil_append, List.append_nil]

/-- C134: the steps of every call of `Prove` that returns a signature (for a `Proof` with at least one decoy, in any state): they depend
on the number of members, of keys and of images, the length of the message, and the position of the signer in the ring. -/
theorem C134_prove {R : Ristretto F G} (E : R.Encodings) (p : Proof F G) (skip : Bool) (coins : Coins F) (hd : p.matrix ≠ [])
    (sig : Signature F G) (I : List G) (h : (p.prove R skip coins).2 = .ok (sig, I)) :
    ∃ pos, sig.pubKeys.findIdx? (fun k => !k.decoy) = some pos ∧ (p.prove R skip coins).1.index = pos ∧
      (p.proveT R skip coins).res = .ok (sig, I) ∧
      (p.proveT R skip coins).steps = proveSteps (p.matrix.length + 1) p.privKeys.length I.length p.msg.length pos := by
  have h0 : (p.proveT R skip coins).res = .ok (sig, I) := by rw [proveT_res, h]
  have hm : p.addSignerPubKey.matrix.length = p.matrix.length + 1 := by simp [Proof.addSignerPubKey, Proof.addPubKeys]
  have hl := (shuffleLoop_perm coins.shuffle (p.addSignerPubKey.matrix.length - 1) p.addSignerPubKey.matrix).length_eq
  have h1 := h0
  rw [Proof.proveT, res_bind, shuffleLoopT_res, Res.bind_ok, res_bind] at h1
  obtain ⟨pos, e1, h1⟩ := Res.bind_eq_ok.1 h1
  rw [res_bind] at h1
  obtain ⟨u, e2, h1⟩ := Res.bind_eq_ok.1 h1
  cases u
  obtain ⟨-, f2, f3⟩ := findT_steps 0 pos _ e1
  obtain ⟨d1, d2⟩ := dimsT_steps _ _ e2
  have hr := e1
  rw [findT_res] at hr
  have hfind : (shuffleLoop coins.shuffle (p.addSignerPubKey.matrix.length - 1) p.addSignerPubKey.matrix).findIdx? (fun k => !k.decoy) =
      some pos := by
    split at hr
    · rename_i j hj
      rw [hj]
      cases hr
      rw [Nat.zero_add]
    · cases hr
  have hs : p.addSignerPubKey.shuffleSet coins.shuffle = ({ p.addSignerPubKey with
      matrix := shuffleLoop coins.shuffle (p.addSignerPubKey.matrix.length - 1) p.addSignerPubKey.matrix, index := pos }, .ok ()) := by
    unfold Proof.shuffleSet
    simp only [hfind]
  refine ⟨pos, ?_, ?_, h0, ?_⟩
  · rw [← hfind]
    congr 1
    rw [Proof.signT] at h1
    simp only [res_bind, res_lift, Res.bind_eq_ok, Res.ok.injEq, Prod.mk.injEq] at h1
    obtain ⟨_, -, _, -, _, -, _, -, _, -, _, -, _, -, _, -, _, -, e, -⟩ := h1
    rw [← e]
  · simp only [Proof.prove, hs]
    split <;> rfl
  · have h2 := signT_runs E { p.addSignerPubKey with
      matrix := shuffleLoop coins.shuffle (p.addSignerPubKey.matrix.length - 1) p.addSignerPubKey.matrix, index := pos } skip coins
      (by
        have := List.length_pos_iff.2 hd
        show 2 ≤ (shuffleLoop _ _ _).length
        rw [hl, hm]; omega)
      (by simpa using f3) d2 sig I h1
    rw [Proof.proveT]
    rw [steps_bind (shuffleLoopT_res _ _ _), steps_bind e1, steps_bind e2, shuffleLoopT_steps, f2, d1]
    rw [proveSteps, show p.addSignerPubKey.matrix.length - 1 + 1 = p.matrix.length + 1 by omega, List.append_assoc, Nat.sub_zero]
    congr 2
    rw [h2]
    simp only
    rw [hl, hm]
    rfl

theorem look_not_mem (n d v L : Nat) : Step.look ∉ signSteps n d v L := by
  simp [signSteps, challengeSteps, List.mem_replicate]

theorem look_not_mem_shuffle : ∀ n, Step.look ∉ shuffleSteps n
  | 0 => by simp [shuffleSteps]
  | 1 => by simp [shuffleSteps]
  | n + 2 => by simp [shuffleSteps, look_not_mem_shuffle (n + 1)]

/-- C134: without the search for the position of the signer, the steps of `Prove` are the same for all secret keys, decoys, messages of
the same length, and random choices, the position of the signer among them. -/
theorem C134_signer [DecidableEq F] {R : Ristretto F G} (E : R.Encodings) (msg msg' : Bytes) (ops ops' : List (Op F G)) (skip : Bool)
    (coins coins' : Coins F) (hmsg : msg.length = msg'.length)
    (hd : decoys ops ≠ []) (hx : secrets ops ≠ []) (hskip : skip = true → 2 ≤ (secrets ops).length)
    (hdim : ∀ k ∈ decoys ops, k.length = (secrets ops).length) (hdim' : ∀ k ∈ decoys ops', k.length = (secrets ops').length)
    (h1 : (decoys ops).length = (decoys ops').length) (h2 : (secrets ops).length = (secrets ops').length) :
    ((build R msg ops).proveT R skip coins).steps.filter (· ≠ .look) =
      ((build R msg' ops').proveT R skip coins').steps.filter (· ≠ .look) ∧
    ∀ s, s ≠ .look → ((build R msg ops).proveT R skip coins).steps.count s = ((build R msg' ops').proveT R skip coins').steps.count s := by
  have hd' : decoys ops' ≠ [] := by
    intro e; rw [e] at h1; exact hd (List.length_eq_zero_iff.1 h1)
  have hx' : secrets ops' ≠ [] := by
    intro e; rw [e] at h2; exact hx (List.length_eq_zero_iff.1 h2)
  have key : ∀ (msg : Bytes) (ops : List (Op F G)) (coins : Coins F), decoys ops ≠ [] → secrets ops ≠ [] →
      (skip = true → 2 ≤ (secrets ops).length) → (∀ k ∈ decoys ops, k.length = (secrets ops).length) →
      ((build R msg ops).proveT R skip coins).steps.filter (· ≠ .look) = shuffleSteps ((decoys ops).length + 1) ++
        signSteps ((decoys ops).length + 1) (secrets ops).length (if skip then (secrets ops).length - 1 else (secrets ops).length) msg.length := by
    intro msg ops coins hd hx hskip hdim
    obtain ⟨sig, I, e, hp⟩ := C14_prove R msg ops skip coins hd hx hskip hdim
    obtain ⟨b1, b2, b3, b4⟩ := build_eq R msg ops
    obtain ⟨pos, -, -, -, hs⟩ := C134_prove E _ skip coins (by rw [b3]; simpa using hd) sig I e
    rw [hs, proveSteps, List.filter_append, List.filter_append, b3, b1, b4, List.length_map,
      (List.filter_eq_nil_iff.2 (by intro a ha; rw [List.eq_of_mem_replicate ha]; simp) :
        (List.replicate (pos + 1) Step.look).filter (· ≠ .look) = []), List.append_nil,
      List.filter_eq_self.2 (by intro a ha; simp only [ne_eq, decide_eq_true_eq]; rintro rfl; exact look_not_mem_shuffle _ ha),
      List.filter_eq_self.2 (by intro a ha; simp only [ne_eq, decide_eq_true_eq]; rintro rfl; exact look_not_mem _ _ _ _ ha)]
    congr 2
    rw [hp.images]
    split <;> simp
  have e := (key msg ops coins hd hx hskip hdim).trans
    ((by rw [h1, h2, hmsg] : _ = _).trans (key msg' ops' coins' hd' hx' (by rw [← h2]; exact hskip) hdim').symm)
  refine ⟨e, fun s hs => ?_⟩
  rw [← List.count_filter (l := ((build R msg ops).proveT R skip coins).steps) (p := (· ≠ .look)) (by simpa using hs), e,
    List.count_filter (by simpa using hs)]

theorem count_look (n d v L pos : Nat) : (proveSteps n d v L pos).count .look = pos + 1 := by
  rw [proveSteps, List.count_append, List.count_append, List.count_eq_zero_of_not_mem (look_not_mem_shuffle _),
    List.count_eq_zero_of_not_mem (look_not_mem _ _ _ _), List.count_replicate_self]
  omega

/-- C134 (violated): the search reveals the position of the signer, which was to stay secret: the number of its tests is the position. -/
theorem C134_position_violated [DecidableEq F] {R : Ristretto F G} (E : R.Encodings) (msg : Bytes) (ops : List (Op F G)) (skip : Bool)
    (coins : Coins F) (hd : decoys ops ≠ []) (hx : secrets ops ≠ []) (hskip : skip = true → 2 ≤ (secrets ops).length)
    (hdim : ∀ k ∈ decoys ops, k.length = (secrets ops).length) :
    ∃ sig I pos, ((build R msg ops).prove R skip coins).2 = .ok (sig, I) ∧
      sig.pubKeys[pos]? = some ⟨false, (secrets ops).map (· • R.base)⟩ ∧
      ((build R msg ops).proveT R skip coins).steps.count .look = pos + 1 := by
  obtain ⟨sig, I, q, e, e1, e2, e3, e4⟩ := C15_ring R msg ops skip coins hd hx hskip hdim
  obtain ⟨b1, b2, b3, b4⟩ := build_eq R msg ops
  obtain ⟨pos, -, f2, -, hs⟩ := C134_prove E _ skip coins (by rw [b3]; simpa using hd) sig I (by rw [e])
  refine ⟨sig, I, pos, by rw [e], ?_, ?_⟩
  · rw [← f2, e]; exact e3
  · rw [hs, count_look]

example (sh : Nat → Nat) := C134_position_violated Toy.ris_encodings [1, 2, 3] [.decoy ⟨false, [10, 11]⟩, .secret 5, .decoy ⟨true, [12, 13]⟩, .secret 7] true
  ⟨0, 0, sh⟩ (by simp [decoys]) (by simp [secrets]) (by simp [secrets]) (by simp [decoys, secrets])

/-- C134: the steps of `DualKey.Prove`. -/
theorem C134_dualKey [DecidableEq F] {R : Ristretto F G} (E : R.Encodings) (d : DualKey F G) (coins : Coins F) (hd : d.proof.matrix ≠ [])
    (sig : Signature F G) (im : G) (h : (d.prove R coins).2 = .ok (sig, im)) :
    ∃ pos, sig.pubKeys.findIdx? (fun k => !k.decoy) = some pos ∧ (d.proveT R coins).res = .ok (sig, im) ∧
      (d.proveT R coins).steps = [.isNonZero, .isNonZero, .base, .base] ++
        proveSteps (d.proof.matrix.length + 1) (d.proof.privKeys.length + 2) 1 d.proof.msg.length pos := by
  have h0 : (d.proveT R coins).res = .ok (sig, im) := by rw [dualKey_proveT_res, h]
  unfold DualKey.prove at h
  by_cases hz : d.key0 = 0 ∨ d.key1 = 0
  · rw [if_pos hz] at h; cases h
  rw [if_neg hz] at h
  obtain ⟨⟨sig', I⟩, e1, e2⟩ := Res.bind_eq_ok.1 h
  have hI : I = [im] ∧ sig' = sig := by
    match I, e2 with
    | [im'], e2 => cases e2; exact ⟨rfl, rfl⟩
    | [], e2 => cases e2
    | _ :: _ :: _, e2 => cases e2
  obtain ⟨rfl, rfl⟩ := hI
  obtain ⟨pos, f1, -, f3, f4⟩ := C134_prove E _ true coins (by simpa [Proof.addSecret] using hd) sig' [im] e1
  refine ⟨pos, f1, h0, ?_⟩
  rw [not_or] at hz
  unfold DualKey.proveT
  rw [steps_bind (res_did _ _)]
  simp only [hz.1, hz.2, decide_false, Bool.false_eq_true, if_false]
  rw [steps_bind (res_did _ _)]
  simp only [Bool.false_eq_true, if_false]
  have a1 : (d.proof.addSecretT R d.key0).res = .ok (d.proof.addSecret R d.key0) := rfl
  have a2 : ((d.proof.addSecret R d.key0).addSecretT R d.key1).res = .ok ((d.proof.addSecret R d.key0).addSecret R d.key1) := rfl
  rw [steps_bind a1, steps_bind a2, steps_bind f3, f4]
  simp [Proof.addSecretT, privKeyToPubKeyT, steps_bind (res_did _ _), Proof.addSecret]

/-- A key with two decoys. -/
example (coins : Coins Toy.K) : ∃ (d : DualKey Toy.K Toy.K) (sig : Signature Toy.K Toy.K) (I : Toy.K) (pos : Nat), (d.prove Toy.ris coins).2 = .ok (sig, I) ∧
    (d.proveT Toy.ris coins).steps = [.isNonZero, .isNonZero, .base, .base] ++ proveSteps 3 2 1 1 pos := by
  have h0 : ((5 : Nat) : Toy.K) ≠ 0 := by decide +kernel
  have h1 : ((7 : Nat) : Toy.K) ≠ 0 := by decide +kernel
  obtain ⟨sig, h, -⟩ := C23_prove Toy.ris [.msg [9], .decoy ⟨false, [10, 11]⟩, .decoy ⟨true, [12, 13]⟩, .primary ((5 : Nat) : Toy.K), .comm ((7 : Nat) : Toy.K)] _ rfl coins h0 h1
    (by decide) (by decide)
  obtain ⟨pos, -, -, e⟩ := C134_dualKey Toy.ris_encodings _ coins (by decide) sig _ h
  exact ⟨_, sig, _, pos, h, e⟩

/-- Two signers with different keys, messages and random choices. -/
example (coins coins' : Coins Toy.K) :
    ((build Toy.ris [1, 2, 3] [.decoy ⟨true, [10, 11]⟩, .secret 5, .decoy ⟨true, [12, 13]⟩, .secret 7]).proveT Toy.ris true coins).steps.filter
        (· ≠ .look) =
      ((build Toy.ris [4, 5, 6] [.secret 0, .secret 1, .decoy ⟨false, [0, 1]⟩, .decoy ⟨true, [12, 12]⟩]).proveT Toy.ris true coins').steps.filter
        (· ≠ .look) :=
  (C134_signer Toy.ris_encodings [1, 2, 3] [4, 5, 6] [.decoy ⟨true, [10, 11]⟩, .secret 5, .decoy ⟨true, [12, 13]⟩, .secret 7]
    [.secret 0, .secret 1, .decoy ⟨false, [0, 1]⟩, .decoy ⟨true, [12, 12]⟩] true coins coins' rfl (by simp [decoys]) (by simp [secrets]) (by simp [secrets]) (by simp [decoys, secrets])
    (by simp [decoys, secrets]) (by simp [decoys]) (by simp [secrets])).1

/-- The signer at the end of a ring of three, and at its beginning. -/
example (nonce : Nat → Toy.K) (resp : Nat → Nat → Toy.K) :
    ((build Toy.ris [1] [.decoy ⟨true, [10]⟩, .secret 5, .decoy ⟨true, [12]⟩]).proveT Toy.ris false ⟨nonce, resp, fun i => i⟩).steps.count
        .look = 3 ∧
    ((build Toy.ris [1] [.decoy ⟨true, [10]⟩, .secret 5, .decoy ⟨true, [12]⟩]).proveT Toy.ris false ⟨nonce, resp, fun _ => 0⟩).steps.count
        .look = 2 := by
  have key : ∀ shuffle i, ((build Toy.ris [1] [.decoy ⟨true, [10]⟩, .secret 5, .decoy ⟨true, [12]⟩]).prove Toy.ris false
      ⟨nonce, resp, shuffle⟩).1.index = i →
      ((build Toy.ris [1] [.decoy ⟨true, [10]⟩, .secret 5, .decoy ⟨true, [12]⟩]).proveT Toy.ris false ⟨nonce, resp, shuffle⟩).steps.count
        .look = i + 1 := by
    rintro shuffle i rfl
    obtain ⟨sig, I, h, -⟩ := C14_prove Toy.ris [1] [.decoy ⟨true, [10]⟩, .secret 5, .decoy ⟨true, [12]⟩] false ⟨nonce, resp, shuffle⟩
      (by simp [decoys]) (by simp [secrets]) (by simp) (by simp [decoys, secrets])
    obtain ⟨pos, -, e, -, hs⟩ := C134_prove Toy.ris_encodings _ _ _ (by simp [(build_eq _ _ _).2.2.1, decoys]) sig I h
    rw [hs, e, count_look]
  exact ⟨key (fun i => i) 2 rfl, key (fun _ => 0) 1 rfl⟩

theorem bind_assoc {α β γ : Type} (m : Traced α) (f : α → Traced β) (g : β → Traced γ) :
    (m.bind f).bind g = m.bind fun a => (f a).bind g := by
  unfold Traced.bind
  cases m.res with
  | ok a =>
    simp only
    cases (f a).res <;> simp [List.append_assoc]
  | err e => rfl
  | panic => rfl

theorem ringLoop_noErr {σ : Type} (body : Nat → σ → Res σ) (hb : ∀ i s, NoErr (body i s)) (n stop : Nat) : ∀ fuel k s,
    NoErr (ringLoop body n stop fuel k s)
  | 0, _, _ => .inr rfl
  | fuel + 1, k, s => by
    rw [ringLoop]
    split
    · exact .ok _
    · exact (hb _ _).bind fun a _ => ringLoop_noErr body hb n stop fuel _ a

/-- C134: the steps of `Verify` for every signature and all images: a challenge for each member that has responses, with the numbers of
its keys. If it panics, these are the steps until then. -/
theorem C134_verify [DecidableEq F] {R : Ristretto F G} (E : R.Encodings) (sig : Signature F G) (I : List G)
    (h : sig.pubKeys ≠ [] ∧ sig.r ≠ [] ∧ I ≠ []) (S : List Step)
    (hS : S = ((visited sig.r.length).flatMap fun i =>
      challengeSteps (sig.pubKeys.getD i {}).keys.length I.length sig.msg.length) ++ [.equals]) :
    (sig.verifyT R I).steps <+: S ∧ (sig.verify R I ≠ .panic → (sig.verifyT R I).steps = S) := by
  obtain ⟨h1, h2, h3⟩ := h
  have n1 := List.length_pos_iff.2 h1
  have n2 := List.length_pos_iff.2 h2
  have n3 := List.length_pos_iff.2 h3
  let T : Nat → List Step := fun i => challengeSteps (sig.pubKeys.getD i {}).keys.length I.length sig.msg.length
  have hb : ∀ i s, Runs (sig.verifyBodyT R I i s) (T (prevIndex sig.r.length i)) := by
    intro i s
    refine Runs.bind (S := []) (Runs.lift _) fun r _ => Runs.bind (S := []) (Runs.lift _) fun k hk => ?_
    rw [res_lift] at hk
    have := generateChallengeT_runs E sig.msg r I k s
    simp only [List.getD_eq_getElem?_getD, idx_eq_ok.1 hk, Option.getD_some]
    exact this
  have hloop : Runs (ringLoopT (sig.verifyBodyT R I) sig.r.length (0 % sig.r.length) (sig.r.length + 1) 1 sig.c)
      ((if sig.r.length = 1 then [0] else List.range (sig.r.length - 1)).flatMap T) := by
    rw [Nat.zero_mod]
    by_cases hn : sig.r.length = 1
    · rw [if_pos hn, hn, ringLoopT, if_neg (by omega)]
      refine Runs.bind (T := []) ?_ fun a _ => ?_
      · have := hb (1 % 1) sig.c
        rwa [hn] at this
      · rw [show (1 + 1) % 1 = 0 from rfl, ringLoopT, if_pos rfl]
        exact Runs.lift _
    · rw [if_neg hn]
      have := ringLoopT_runs (sig.verifyBodyT R I) sig.r.length 0 n2 _ hb (sig.r.length - 1) sig.c (sig.r.length + 1) (by omega) (by omega)
      rw [show 0 + sig.r.length - (sig.r.length - 1) = 1 by omega, Nat.mod_eq_of_lt (by omega)] at this
      refine this.congr ?_
      refine List.flatMap_congr fun j hj => ?_
      have hj := List.mem_range.1 hj
      rw [Nat.add_comm 1 j, prevIndex_succ n2, Nat.mod_eq_of_lt (by omega)]
  have hS' : S = ((if sig.r.length = 1 then [0] else List.range (sig.r.length - 1)).flatMap T) ++
      (T (prevIndex sig.r.length 0) ++ [.equals]) := by
    rw [hS, ← List.append_assoc]
    congr 1
    have hp : prevIndex sig.r.length 0 = sig.r.length - 1 := by
      rw [prevIndex_eq n2, Nat.zero_add, Nat.mod_eq_of_lt (by omega)]
    rw [hp]
    unfold visited
    by_cases hn : sig.r.length = 1
    · rw [if_pos hn, if_pos hn, hn]; simp [T]
    · rw [if_neg hn, if_neg hn]
      conv_lhs => rw [show sig.r.length = (sig.r.length - 1) + 1 by omega, List.range_succ, List.flatMap_append, List.flatMap_singleton]
  let M : Traced Bool := (ringLoopT (sig.verifyBodyT R I) sig.r.length (0 % sig.r.length) (sig.r.length + 1) 1 sig.c).bind fun c =>
    (sig.verifyBodyT R I 0 c).bind fun c => did [.equals] (c = sig.c : Bool)
  have hM : Runs M S := hS' ▸ Runs.bind hloop fun c _ => Runs.bind (hb 0 c) fun c _ => Runs.did _ _
  let g : Bool → Traced Bool := fun ok => if !ok then lift (.err "c'0 does not equal c0") else lift (.ok true)
  have hg : ∀ b, (g b).steps = [] := by intro b; cases b <;> rfl
  have hV : sig.verifyT R I = M.bind g := by
    unfold Signature.verifyT
    rw [if_neg (by omega), bind_assoc]
    dsimp only
    congr 1
    funext c
    rw [bind_assoc]
  have hne : NoErr M.res := by
    have hbody : ∀ i s, NoErr (sig.verifyBodyT R I i s).res := by
      intro i s
      simp only [Signature.verifyBodyT, res_bind, res_lift, generateChallengeT_res]
      exact (NoErr.idx _ _).bind fun _ _ => (NoErr.idx _ _).bind fun _ _ => generateChallenge_noErr _ _ _ _ _ _
    simp only [M, res_bind, ringLoopT_res, res_did]
    exact (ringLoop_noErr _ hbody _ _ _ _ _).bind fun _ _ => (hbody _ _).bind fun _ _ => .ok _
  rw [← verifyT_res, hV]
  rcases hne with ⟨b, hb⟩ | hb
  · rw [steps_bind hb, hg, List.append_nil]
    exact ⟨hM.1, fun _ => hM.2 b hb⟩
  · have e : (M.bind g).steps = M.steps := by unfold Traced.bind; rw [hb]
    rw [e]
    refine ⟨hM.1, fun hp => ?_⟩
    rw [res_bind, hb] at hp
    exact (hp rfl).elim

example : ((⟨4, [[7], [8]], [⟨true, [3]⟩, ⟨false, [5]⟩], [1, 2]⟩ : Signature Toy.K Toy.K).verifyT Toy.ris [6]).steps =
    challengeSteps 1 1 2 ++ challengeSteps 1 1 2 ++ [.equals] := by
  have h := C17_verify Toy.ris (⟨4, [[7], [8]], [⟨true, [3]⟩, ⟨false, [5]⟩], [1, 2]⟩ : Signature Toy.K Toy.K) [6] (by simp) (by simp) (by simp)
    (by simp [Fits, ringOf])
  refine (C134_verify Toy.ris_encodings (⟨4, [[7], [8]], [⟨true, [3]⟩, ⟨false, [5]⟩], [1, 2]⟩ : Signature Toy.K Toy.K) [6] (by simp) _ rfl).2 ?_
  intro e
  rw [e] at h
  have : (Res.panic : Res Bool).IsErr := h.2 fun g => by cases h.1.2 g
  simp at this

end Mlsag

namespace Blsag

variable {F G P : Type} [Field F] [AddCommGroup G] [Module F G]

theorem toyRaw32_lawful : toyRaw32.Lawful Toy.ris where
  __ := toyRaw_lawful

theorem computeCLRT_steps (R : Ristretto F G) (V : Raw F G P) (hB : ∀ p, (V.bytes p).length = 32) (m : Bytes) (I k : P) (s c : F) :
    (computeCLRT R V m I k s c).steps = memberSteps m.length := by
  have : ∀ a b, (m ++ V.bytes a ++ V.bytes b).length = m.length + 64 := by
    intro a b
    rw [List.length_append, List.length_append, hB, hB]
  simp only [computeCLRT, steps_bind (res_did _ _), steps_did, this]
  rfl

theorem computeCLRT_runs (R : Ristretto F G) (V : Raw F G P) (hB : ∀ p, (V.bytes p).length = 32) (m : Bytes) (I k : P) (s c : F) :
    Runs (computeCLRT R V m I k s c) (memberSteps m.length) := by
  rw [← computeCLRT_steps R V hB m I k s c]
  exact ⟨List.prefix_rfl, fun _ _ => rfl⟩

theorem signLoopT_runs (R : Ristretto F G) (V : Raw F G P) (hB : ∀ p, (V.bytes p).length = 32) (m : Bytes) (I : P) (pk : List P)
    (sv : List F) (j : Nat) (hj : j < pk.length) : ∀ (d fuel i : Nat) (st : List F × F), i + d = j + pk.length → j < i → d < fuel →
      Runs (signLoopT R V m I pk sv j fuel i st) (List.replicate d (memberSteps m.length)).flatten
  | d, 0, i, st, _, _, h => by omega
  | 0, fuel + 1, i, st, h, _, _ => by
    rw [signLoopT]
    dsimp only
    rw [if_pos (by rw [show i = j + pk.length by omega, Nat.add_mod_right, Nat.mod_eq_of_lt hj])]
    exact Runs.lift _
  | d + 1, fuel + 1, i, st, h, hi, hf => by
    rw [signLoopT]
    dsimp only
    rw [if_neg]
    · rw [List.replicate_succ, List.flatten_cons]
      exact Runs.bind (S := []) (Runs.lift _) fun _ _ => Runs.bind (S := []) (Runs.lift _) fun _ _ =>
        Runs.bind (computeCLRT_runs R V hB m I _ _ _) fun r _ =>
        signLoopT_runs R V hB m I pk sv j hj d fuel (i + 1) _ (by omega) (by omega) (by omega)
    · intro e
      rcases Nat.lt_or_ge i pk.length with h' | h'
      · rw [Nat.mod_eq_of_lt h'] at e; omega
      · rw [Nat.mod_eq_sub_mod h', Nat.mod_eq_of_lt (by omega)] at e; omega

/-- C134: the steps of `Sign` depend on the numbers of members and the length of the message only. -/
theorem C134_sign {R : Ristretto F G} {V : Raw F G P} (hV : V.Lawful R) (hB : ∀ p, (V.bytes p).length = 32) (m : Bytes)
    (mixin : List P) (sK : F) (coins : Coins F) :
    (signT R V m mixin sK coins).steps = signSteps (mixin.length + 1) m.length ∧
    ∃ sig, (signT R V m mixin sK coins).res = .ok sig ∧ sign R V m mixin sK coins = .ok sig := by
  obtain ⟨-, sig, hs, -⟩ := sign_eq hV m mixin sK coins
  have hr : (signT R V m mixin sK coins).res = .ok sig := by rw [signT_res, hs]
  refine ⟨?_, sig, hr, hs⟩
  have hm : Runs (map (fun i => if i = 0 then lift (.ok (0 : F)) else did [.rand] (coins.s i)) (List.range (mixin.length + 1)))
      (List.replicate mixin.length .rand) := by
    refine (Runs.map _ (fun i => if i = 0 then [] else [.rand]) _ fun i _ => ?_).congr ?_
    · split
      · exact Runs.lift _
      · exact Runs.did _ _
    · rw [List.range_succ_eq_map, List.flatMap_cons, if_pos rfl, List.nil_append, List.flatMap_map]
      simp only [Nat.succ_ne_zero, if_false]
      rw [flatMap_const, List.length_range, Mlsag.replicate_flatten_singleton]
  have hl : ∀ a b, (m ++ V.bytes a ++ V.bytes b).length = m.length + 64 := by
    intro a b
    rw [List.length_append, List.length_append, hB, hB]
  have hrun : Runs (signT R V m mixin sK coins) ([.base] ++ ([.intn (mixin.length + 1)] ++ ([.bytes] ++ ([.derive] ++ ([.mult] ++ ([.rand] ++
      (List.replicate mixin.length .rand ++ ([.base] ++ ([.mult] ++ ([.bytes] ++ ([.bytes] ++ ([.hash (m.length + 64)] ++
      ((List.replicate mixin.length (memberSteps m.length)).flatten ++ ([.sMul] ++ ([.sNeg] ++ ([.sAdd] ++ ([] ++ []))))))))))))))))) := by
    refine Runs.bind (Runs.did _ _) fun pK _ => Runs.bind (Runs.did _ _) fun j hj => Runs.bind (Runs.did _ _) fun b _ =>
      Runs.bind (Runs.did _ _) fun h _ => Runs.bind (Runs.did _ _) fun I _ => Runs.bind (Runs.did _ _) fun alpha _ =>
      Runs.bind hm fun sv _ => Runs.bind (Runs.did _ _) fun L _ => Runs.bind (Runs.did _ _) fun Rj _ =>
      Runs.bind (Runs.did _ _) fun bL e1 => Runs.bind (Runs.did _ _) fun bR e2 => ?_
    cases e1
    cases e2
    cases hj
    refine Runs.bind ((Runs.did _ _).congr (by rw [hl])) fun c _ => Runs.bind ?_ fun st _ => Runs.bind (Runs.did _ _) fun x _ =>
      Runs.bind (Runs.did _ _) fun x _ => Runs.bind (Runs.did _ _) fun x _ => Runs.bind (Runs.lift _) fun c0 _ => Runs.lift _
    have hlen : ((List.replicate (mixin.length + 1) V.zero).set (coins.position % (mixin.length + 1)) pK).length = mixin.length + 1 := by simp
    exact signLoopT_runs R V hB m I _ _ _ (by rw [hlen]; exact Nat.mod_lt _ (by omega)) _ _ _ _ (by rw [hlen]; omega) (by omega) (by omega)
  rw [hrun.2 sig hr]
  simp [signSteps]

/-- C134: the steps of `Sign` are the same for all secret keys, mixins, positions, random scalars, and messages of the same length. -/
theorem C134_sign_independent {R : Ristretto F G} {V : Raw F G P} (hV : V.Lawful R) (hB : ∀ p, (V.bytes p).length = 32) (m m' : Bytes)
    (mixin mixin' : List P) (sK sK' : F) (coins coins' : Coins F) (hm : m.length = m'.length) (hx : mixin.length = mixin'.length) :
    (signT R V m mixin sK coins).steps = (signT R V m' mixin' sK' coins').steps := by
  rw [(C134_sign hV hB m mixin sK coins).1, (C134_sign hV hB m' mixin' sK' coins').1, hm, hx]

/-- A secret key 0 at the first position, and a secret key 7 at the last. -/
example (alpha alpha' : Toy.K) (s s' : Nat → Toy.K) : (signT Toy.ris toyRaw32 [1, 2] [some 5, some 6] 0 ⟨0, alpha, s⟩).steps =
    (signT Toy.ris toyRaw32 [3, 4] [some 7, some 7] 7 ⟨2, alpha', s'⟩).steps :=
  C134_sign_independent (V := toyRaw32) toyRaw32_lawful (fun _ => Toy.ris_encodings.pBytes_length _) _ _ _ _ _ _ _ _ rfl rfl

theorem verifyLoopT_runs (R : Ristretto F G) (V : Raw F G P) (hB : ∀ p, (V.bytes p).length = 32) (m : Bytes) (I : P) (S : List F) (n : Nat) :
    ∀ i pks st, Runs (verifyLoopT R V m I S n i pks st) (List.replicate pks.length (memberSteps m.length)).flatten
  | _, [], _ => Runs.lift _
  | i, pk :: pks, (Cs, Ls, Rs, c) => by
    rw [verifyLoopT, List.length_cons, List.replicate_succ, List.flatten_cons]
    exact Runs.bind (S := []) (Runs.lift _) fun _ _ => Runs.bind (computeCLRT_runs R V hB m I _ _ _) fun r _ =>
      verifyLoopT_runs R V hB m I S n (i + 1) pks _

theorem checkLoopT_steps [DecidableEq F] (R : Ristretto F G) (V : Raw F G P) (hB : ∀ p, (V.bytes p).length = 32) (m : Bytes)
    (Cs : List F) (Ls Rs : List P) : ∀ is, (∀ k ∈ is, ∃ L Rp, Ls[k]? = some L ∧ Rs[k]? = some Rp ∧
      Cs[(k + 1) % Cs.length]? = some (R.sDerive (m ++ V.bytes L ++ V.bytes Rp))) →
    (checkLoopT R V m Cs Ls Rs is).steps = (List.replicate is.length [.bytes, .bytes, .hash (m.length + 64), .equals]).flatten
  | [], _ => rfl
  | i :: is, h => by
    obtain ⟨L, Rp, h1, h2, h3⟩ := h i (by simp)
    rw [checkLoopT, steps_bind (by rw [res_lift, idx_eq_ok.2 h1]), steps_bind (res_did _ _),
      steps_bind (by rw [res_lift, idx_eq_ok.2 h2]), steps_bind (res_did _ _)]
    dsimp only
    rw [steps_bind (res_did _ _), steps_bind (by rw [res_lift, idx_eq_ok.2 h3]), steps_bind (res_did _ _), decide_eq_true rfl]
    simp only [Bool.not_true, Bool.false_eq_true, if_false]
    rw [checkLoopT_steps R V hB m Cs Ls Rs is fun k hk => h k (by simp [hk]), List.length_cons, List.replicate_succ, List.flatten_cons,
      List.length_append, List.length_append, hB, hB]
    rfl

/-- C134: the steps of `Verify`. If the ring is empty or there are fewer responses than members, it panics. -/
theorem C134_verify [DecidableEq F] (R : Ristretto F G) (V : Raw F G P) (hB : ∀ p, (V.bytes p).length = 32) (m : Bytes)
    (sig : RingSignature F P) (hn : sig.pubKeys ≠ []) (hS : sig.pubKeys.length ≤ sig.S.length) :
    (verifyT R V m sig).steps = verifySteps sig.pubKeys.length m.length := by
  have hn0 : sig.pubKeys.length ≠ 0 := mt List.length_eq_zero_iff.1 hn
  obtain ⟨st, e1, e2, e3⟩ := verifyLoop_inv R V m sig.I sig.S sig.pubKeys.length sig.C sig.pubKeys 0
    (List.replicate sig.pubKeys.length (0 : F), List.replicate sig.pubKeys.length V.zero,
      List.replicate sig.pubKeys.length V.zero, sig.C) (by omega) hS
    ⟨by simp, by simp, by simp, by simp, by simp⟩
  rw [← verifyLoopT_res] at e1
  have hdone : ∀ k ∈ List.range sig.pubKeys.length, ∃ L Rp, st.2.1[k]? = some L ∧ st.2.2.1[k]? = some Rp ∧
      st.1[(k + 1) % st.1.length]? = some (R.sDerive (m ++ V.bytes L ++ V.bytes Rp)) := by
    intro k hk
    rw [e2.lenC]
    exact e2.done k (List.mem_range.1 hk)
  unfold verifyT
  dsimp only
  rw [steps_bind e1, (verifyLoopT_runs R V hB m _ _ _ _ _ _).2 _ e1, e2.lenC, e2.lenL, e2.lenR, if_neg (by simp),
    steps_bind (by rw [checkLoopT_res]; exact checkLoop_true R V m _ _ _ _ hdone), checkLoopT_steps R V hB m _ _ _ _ hdone]
  have h0 := e2.last (by omega)
  rw [Nat.mod_self] at h0
  simp only [Bool.not_true, Bool.false_eq_true, if_false]
  rw [steps_bind (by rw [res_lift, idx_eq_ok.2 h0]), steps_bind (res_did _ _), verifySteps, List.length_range, List.append_assoc]
  congr 2
  split <;> rfl

example (m : Bytes) : (verifyT Toy.ris toyRaw32 m ⟨some 5, 4, [7, 8], [some 3, none]⟩).steps = verifySteps 2 m.length :=
  C134_verify Toy.ris toyRaw32 (fun _ => Toy.ris_encodings.pBytes_length _) m _ (by simp) (by simp)

end Blsag

end Dusk
