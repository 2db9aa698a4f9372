import Verif.Model.MlsagConc
import Verif.Lemmas.Mlsag
/-!
# Programs on a shared DualKey: running alone, and pausing
-/

namespace Dusk.MlsagConc

open Mlsag

variable {S α β γ ι : Type}

theorem bind_assoc (p : Prog S α) (f : α → Prog S β) (g : β → Prog S γ) : (p.bind f).bind g = p.bind fun a => (f a).bind g := by
  induction p with
  | ret r => cases r <;> rfl
  | load k ih => simp only [Prog.bind, ih]
  | store w k ih => simp only [Prog.bind, ih]

theorem bindR_assoc (r : Res α) (f : α → Res β) (g : β → Res γ) : (r.bind f).bind g = r.bind fun a => (f a).bind g := by
  cases r <;> rfl

theorem run_bind (f : α → Prog S β) (p : Prog S α) : ∀ s, run s (p.bind f) =
    match run s p with
    | (s', .ok a) => run s' (f a)
    | (s', .err e) => (s', .err e)
    | (s', .panic) => (s', .panic) := by
  induction p with
  | ret r => intro s; cases r <;> rfl
  | load k ih => intro s; simp only [Prog.bind, run, ih]
  | store w k ih => intro s; simp only [Prog.bind, run, ih]

theorem run_bind_ok {p : Prog S α} {s s' : S} {a : α} (h : run s p = (s', .ok a)) (f : α → Prog S β) :
    run s (p.bind f) = run s' (f a) := by rw [run_bind, h]

theorem run_bind_panic {p : Prog S α} {s s' : S} (h : run s p = (s', .panic)) (f : α → Prog S β) :
    run s (p.bind f) = (s', .panic) := by rw [run_bind, h]

theorem run_bind_err {p : Prog S α} {s s' : S} {e : String} (h : run s p = (s', .err e)) (f : α → Prog S β) :
    run s (p.bind f) = (s', .err e) := by rw [run_bind, h]

/-- A program that does not change the object. -/
theorem run_bind_pure {p : Prog S α} {s : S} {r : Res α} (h : run s p = (s, r)) (f : α → Prog S β) (g : α → Res β)
    (hf : ∀ a, r = .ok a → run s (f a) = (s, g a)) : run s (p.bind f) = (s, r.bind g) := by
  rw [run_bind, h]
  cases r with
  | ok a => exact hf a rfl
  | err e => rfl
  | panic => rfl

theorem run_read (f : S → α) (k : α → Prog S β) (s : S) : run s ((read f).bind k) = run s (k (f s)) := rfl

theorem run_ret (r : Res α) (s : S) : run s (.ret r) = (s, r) := rfl

theorem run_readR (f : S → Res α) (s : S) : run s (readR f) = (s, f s) := rfl

theorem run_done (a : α) (s : S) : run s (done a) = (s, .ok a) := rfl

theorem run_write (f : S → S) (k : Unit → Prog S β) (s : S) : run s ((write f).bind k) = run (f s) (k ()) := rfl

variable {F G : Type} [Field F] [AddCommGroup G] [Module F G]

omit [Field F] [AddCommGroup G] [Module F G] in
theorem run_readP (f : Proof F G → α) (k : α → Prog (DualKey F G) β) (d : DualKey F G) :
    run d ((readP f).bind k) = run d (k (f d.proof)) := rfl

omit [Field F] [AddCommGroup G] [Module F G] in
theorem run_writeP (f : Proof F G → Proof F G) (k : Unit → Prog (DualKey F G) β) (d : DualKey F G) :
    run d ((writeP f).bind k) = run { d with proof := f d.proof } (k ()) := rfl

omit [Field F] [AddCommGroup G] [Module F G] in
theorem run_member (i : Nat) (d : DualKey F G) : run d (member i) = (d, idx d.proof.matrix i) := rfl

/-! ## The methods alone -/

omit [Field F] [AddCommGroup G] [Module F G] in
theorem run_addPubKeys (d : DualKey F G) (keys : PubKeys G) :
    run d (addPubKeysP keys) = ({ d with proof := d.proof.addPubKeys keys }, .ok ()) := rfl

omit [Field F] [AddCommGroup G] [Module F G] in
theorem run_addDecoy (d : DualKey F G) (keys : PubKeys G) :
    run d (addDecoyP keys) = ({ d with proof := d.proof.addDecoy keys }, .ok ()) := rfl

omit [Field F] [AddCommGroup G] [Module F G] in
theorem run_addDecoys (keys : List (PubKeys G)) : ∀ d : DualKey F G,
    run d (addDecoysP keys) = ({ d with proof := d.proof.addDecoys keys }, .ok ()) := by
  induction keys with
  | nil => exact fun d => rfl
  | cons k ks ih => intro d; rw [addDecoysP, run_bind_ok (run_addDecoy d k), ih]; rfl

theorem run_addSecret (R : Ristretto F G) (d : DualKey F G) (x : F) :
    run d (addSecretP R x) = ({ d with proof := d.proof.addSecret R x }, .ok ()) := rfl

theorem run_secrets (R : Ristretto F G) (d : DualKey F G) :
    run d (secretsP R) = ({ d with proof := (d.proof.addSecret R d.key0).addSecret R d.key1 }, .ok ()) := rfl

omit [Field F] [AddCommGroup G] [Module F G] in
theorem run_addSigner (d : DualKey F G) : run d addSignerP = ({ d with proof := d.proof.addSignerPubKey }, .ok ()) := rfl

theorem idx_some {l : List α} {i : Nat} {a : α} (h : l[i]? = some a) : idx l i = .ok a := by simp only [idx, h]

theorem idx_none {l : List α} {i : Nat} (h : l[i]? = none) : idx l i = .panic := by simp only [idx, h]

omit [Field F] [AddCommGroup G] [Module F G] in
theorem run_shuffleLoop (shuffle : Nat → Nat) : ∀ (i : Nat) (d : DualKey F G), (i ≠ 0 → i < d.proof.matrix.length) →
    run d (shuffleLoopP shuffle i) = ({ d with proof := { d.proof with matrix := shuffleLoop shuffle i d.proof.matrix } }, .ok ())
  | 0, _, _ => rfl
  | i + 1, d, h => by
    have hi := h (Nat.succ_ne_zero i)
    have hj : shuffle (i + 1) % (i + 2) < d.proof.matrix.length := lt_of_lt_of_le (Nat.mod_lt _ (by omega)) hi
    have e1 : run d (member (shuffle (i + 1) % (i + 2))) = (d, .ok d.proof.matrix[shuffle (i + 1) % (i + 2)]) := by
      rw [run_member, idx_some (List.getElem?_eq_getElem hj)]
    have e2 : run d (member (i + 1)) = (d, .ok d.proof.matrix[i + 1]) := by
      rw [run_member, idx_some (List.getElem?_eq_getElem hi)]
    rw [shuffleLoopP]
    dsimp only
    rw [run_bind_ok e1, run_bind_ok e2, run_writeP, run_writeP, run_shuffleLoop shuffle i _ (by simp; omega)]
    rw [shuffleLoop, swap, List.getElem?_eq_getElem hi, List.getElem?_eq_getElem hj]

omit [Field F] [AddCommGroup G] [Module F G] in
theorem run_find : ∀ (k i : Nat) (d : DualKey F G), i + k = d.proof.matrix.length → run d (findP k i) =
    match (d.proof.matrix.drop i).findIdx? fun m => !m.decoy with
    | some j => ({ d with proof := { d.proof with index := i + j } }, .ok ())
    | none => (d, .err "could not find the index of the non-decoy vector of pubkeys")
  | 0, i, d, h => by rw [List.drop_eq_nil_of_le (by omega)]; rfl
  | k + 1, i, d, h => by
    have hi : i < d.proof.matrix.length := by omega
    rw [findP, run_bind_ok (p := member i) (a := d.proof.matrix[i]) (by rw [run_member, idx_some (List.getElem?_eq_getElem hi)]),
      List.drop_eq_getElem_cons hi, List.findIdx?_cons]
    by_cases hd : d.proof.matrix[i].decoy
    · simp only [hd, Bool.not_true, Bool.false_eq_true, if_false]
      rw [run_find k (i + 1) d (by omega)]
      cases (d.proof.matrix.drop (i + 1)).findIdx? fun m => !m.decoy with
      | none => rfl
      | some j => simp only [Option.map_some]; rw [show i + (j + 1) = i + 1 + j by omega]
    · simp only [hd, Bool.not_false, if_true]; rfl

omit [Field F] [AddCommGroup G] [Module F G] in
theorem run_shuffleSet (shuffle : Nat → Nat) (d : DualKey F G) : run d (shuffleSetP shuffle) =
    ({ d with proof := (d.proof.shuffleSet shuffle).1 }, (d.proof.shuffleSet shuffle).2) := by
  rw [shuffleSetP, run_readP, run_bind_ok (run_shuffleLoop shuffle _ d (by omega)), run_readP,
    run_find _ _ _ (by simp), List.drop_zero, Proof.shuffleSet]
  dsimp only
  cases (shuffleLoop shuffle (d.proof.matrix.length - 1) d.proof.matrix).findIdx? fun m => !m.decoy with
  | none => rfl
  | some j => simp only [Nat.zero_add]

omit [Field F] [AddCommGroup G] [Module F G] in
theorem run_dims (len : Nat) : ∀ (k i : Nat) (d : DualKey F G), i + k = d.proof.matrix.length → run d (dimsP len k i) =
    (d, if (d.proof.matrix.drop i).any fun m => m.keys.length ≠ len then
      .err "all vectors in the pubkey matrix must be the same size" else .ok ())
  | 0, i, d, h => by rw [List.drop_eq_nil_of_le (by omega)]; rfl
  | k + 1, i, d, h => by
    have hi : i < d.proof.matrix.length := by omega
    rw [dimsP, run_bind_ok (p := member i) (a := d.proof.matrix[i]) (by rw [run_member, idx_some (List.getElem?_eq_getElem hi)]),
      List.drop_eq_getElem_cons hi, List.any_cons]
    by_cases hd : d.proof.matrix[i].keys.length = len
    · simp only [hd, ne_eq, not_true_eq_false, if_false, decide_false, Bool.false_or]
      rw [run_dims len k (i + 1) d (by omega)]
    · simp only [hd, ne_eq, not_false_eq_true, if_true, decide_true, Bool.true_or]; rfl

theorem run_images (R : Ristretto F G) (skip : Bool) (d : DualKey F G) :
    run d (imagesP R skip) = (d, d.proof.calculateKeyImages R skip) := rfl

theorem run_ring (R : Ristretto F G) (responses : List (List F)) (images : List G) (n stop : Nat) (d : DualKey F G) :
    ∀ (fuel k : Nat) (s : List F × F), run d (ringP R responses images n stop fuel k s) =
      (d, ringLoop (proveBody R d.proof.msg responses images d.proof.matrix n) n stop fuel k s)
  | 0, _, _ => rfl
  | fuel + 1, k, s => by
    rw [ringP, ringLoop]
    by_cases h : k = stop
    · rw [if_pos h, if_pos h]; rfl
    · rw [if_neg h, if_neg h]
      unfold proveBody
      dsimp only
      rw [bindR_assoc]
      refine run_bind_pure (run_ret _ _) _ _ fun resp _ => ?_
      rw [bindR_assoc]
      refine run_bind_pure (run_member _ _) _ _ fun keys _ => ?_
      rw [run_readP, bindR_assoc]
      refine run_bind_pure (run_ret _ _) _ _ fun c _ => ?_
      exact run_ring R responses images n stop d fuel _ _

theorem ringLoop_length (R : Ristretto F G) (msg : Bytes) (responses : List (List F)) (images : List G) (m : List (PubKeys G))
    (n stop : Nat) : ∀ (fuel k : Nat) (s s' : List F × F), ringLoop (proveBody R msg responses images m n) n stop fuel k s = .ok s' →
      s'.1.length = s.1.length
  | 0, _, _, _, h => by simp [ringLoop] at h
  | fuel + 1, k, s, s', h => by
    rw [ringLoop] at h
    by_cases hk : k = stop
    · rw [if_pos hk] at h; cases h; rfl
    · rw [if_neg hk] at h
      obtain ⟨t, ht, h⟩ := Res.bind_eq_ok.1 h
      rw [ringLoop_length R msg responses images m n stop fuel _ t s' h]
      unfold proveBody at ht
      obtain ⟨_, -, ht⟩ := Res.bind_eq_ok.1 ht
      obtain ⟨_, -, ht⟩ := Res.bind_eq_ok.1 ht
      obtain ⟨_, -, ht⟩ := Res.bind_eq_ok.1 ht
      cases ht
      simp

omit [AddCommGroup G] [Module F G] in
theorem run_real (ch nonces : List F) (d : DualKey F G) (c : F) (hc : idx ch d.proof.index = .ok c) : ∀ k i,
    run d (realP ch nonces k i) = (d, mapRes (fun j => (idx d.proof.privKeys j).bind fun x => (idx nonces j).bind fun a =>
      .ok (-(c * x) + a)) (List.range' i k))
  | 0, _ => rfl
  | k + 1, i => by
    rw [realP, List.range'_succ, mapRes, bindR_assoc]
    rw [run_bind_ok (p := readR _) (a := c) (by rw [run_readR, hc])]
    refine run_bind_pure (run_readR _ _) _ _ fun x _ => ?_
    rw [bindR_assoc]
    refine run_bind_pure (run_ret _ _) _ _ fun a _ => ?_
    rw [Res.bind_ok]
    exact run_bind_pure (run_real ch nonces d c hc k (i + 1)) _ _ fun r _ => rfl

omit [AddCommGroup G] [Module F G] in
theorem run_real_panic (ch nonces : List F) (d : DualKey F G) (hc : idx ch d.proof.index = .panic) (k i : Nat) :
    run d (realP ch nonces (k + 1) i) = (d, .panic) := by
  rw [realP, run_bind_panic (p := readR _) (by rw [run_readR, hc])]

/-- `DualKey.Prove` alone, from the key images on. -/
theorem run_responses (R : Ristretto F G) (coins : Coins F) (images : List G) (d : DualKey F G) :
    run d ((responsesP R coins images (generateNonces coins.nonce d.proof.privKeys.length) d.proof.matrix.length
      d.proof.privKeys.length).bind fun r => packP (r, images)) =
    (d,
      let nonces := generateNonces coins.nonce d.proof.privKeys.length
      let n := d.proof.matrix.length
      let responses := generateResponses coins.resp n d.proof.privKeys.length d.proof.index
      (idx d.proof.matrix d.proof.index).bind fun signersPubKeys =>
      (firstChallenge R d.proof.msg nonces images signersPubKeys.keys).bind fun c1 =>
      let challenges := (List.replicate n (0 : F)).set ((d.proof.index + 1) % n) c1
      (ringLoop (proveBody R d.proof.msg responses images d.proof.matrix n) n ((d.proof.index + 1) % n) (n + 1) (d.proof.index + 2)
        (challenges, c1)).bind fun s =>
      (idx s.1 d.proof.index).bind fun challenge =>
      (mapRes (fun i => (idx d.proof.privKeys i).bind fun x => (idx nonces i).bind fun a => .ok (-(challenge * x) + a))
        (List.range d.proof.privKeys.length)).bind fun real =>
      (idx s.1 0).bind fun c0 =>
      .ok (⟨c0, responses.set d.proof.index real, d.proof.matrix, d.proof.msg⟩, images)) := by
  dsimp only
  rw [responsesP, chainP, bind_assoc, bind_assoc, run_readP]
  dsimp only
  rw [bind_assoc, run_readP, bind_assoc, run_readP, bind_assoc]
  refine run_bind_pure (run_member _ _) _ _ fun keys _ => ?_
  rw [bind_assoc]
  refine run_bind_pure (run_ret _ _) _ _ fun c1 _ => ?_
  rw [bind_assoc]
  refine run_bind_pure (run_ring _ _ _ _ _ _ _ _ _) _ _ fun s hs => ?_
  have hl := ringLoop_length _ _ _ _ _ _ _ _ _ _ _ hs
  simp only [List.length_set, List.length_replicate] at hl
  have hr : ∀ k, (generateResponses coins.resp d.proof.matrix.length k d.proof.index).length = d.proof.matrix.length := by
    simp [generateResponses]
  change run d (((realP s.1 _ _ 0).bind _).bind _) = _
  rw [bind_assoc]
  by_cases hi : d.proof.index < s.1.length
  · have hc := idx_of_lt hi
    rw [hc, Res.bind_ok, List.range_eq_range']
    refine run_bind_pure (run_real _ _ d _ hc _ _) _ _ fun real _ => ?_
    rw [bind_assoc, run_readP]
    dsimp only
    rw [if_pos (by rw [hr, ← hl]; exact hi), bind_assoc]
    rw [run_bind_ok (run_ret _ _), bind_assoc]
    exact run_bind_pure (run_ret _ _) _ _ fun c _ => rfl
  · have hc : idx s.1 d.proof.index = .panic := idx_none (List.getElem?_eq_none (by omega))
    rw [hc]
    change _ = (d, Res.panic)
    cases hk : d.proof.privKeys.length with
    | zero =>
      change run d ((Prog.bind (readP Proof.index) _).bind _) = _
      rw [bind_assoc, run_readP]
      dsimp only
      rw [if_neg (by rw [hr, ← hl]; exact hi)]
      rfl
    | succ k => rw [run_bind_panic (run_real_panic _ _ d hc k 0)]

/-- `Proof.prove` alone. -/
theorem run_prove (R : Ristretto F G) (skip : Bool) (coins : Coins F) (d : DualKey F G) : run d (proveP R skip coins) =
    ({ d with proof := (d.proof.prove R skip coins).1 }, (d.proof.prove R skip coins).2) := by
  rw [proveP, prepareP, bind_assoc, run_bind_ok (run_addSigner d), bind_assoc, Proof.prove]
  rw [run_bind, run_shuffleSet]
  dsimp only
  generalize d.proof.addSignerPubKey.shuffleSet coins.shuffle = s
  obtain ⟨p, r⟩ := s
  cases r with
  | err e => rfl
  | panic => rfl
  | ok u =>
    dsimp only
    rw [bind_assoc, run_readP, bind_assoc, run_readP, run_bind, run_dims _ _ _ _ (by simp), List.drop_zero]
    dsimp only
    by_cases hany : (p.matrix.any fun m => decide (m.keys.length ≠ p.privKeys.length)) = true
    · rw [if_pos hany, if_pos hany]
    · rw [if_neg hany, if_neg hany]
      dsimp only
      rw [signP, bind_assoc, Proof.sign]
      refine run_bind_pure (run_images _ _ _) _ _ fun images _ => ?_
      rw [bind_assoc, run_readP, bind_assoc, run_readP, bind_assoc, run_readP, bind_assoc]
      exact run_responses R coins images ⟨p, d.key0, d.key1⟩

/-- `DualKey.Prove` alone. -/
theorem run_dualProve [DecidableEq F] (R : Ristretto F G) (coins : Coins F) (d : DualKey F G) :
    run d (dualProveP R coins) = d.prove R coins := by
  rw [dualProveP, keysP, bind_assoc, DualKey.prove, run_read]
  by_cases h0 : d.key0 = 0
  · rw [if_pos h0, if_pos (.inl h0)]; rfl
  · rw [if_neg h0, bind_assoc, run_read]
    by_cases h1 : d.key1 = 0
    · rw [if_pos h1, if_pos (.inr h1)]; rfl
    · rw [if_neg h1, if_neg (not_or.2 ⟨h0, h1⟩)]
      change run d ((secretsP R).bind _) = _
      rw [run_bind_ok (run_secrets R d), run_bind, run_prove]
      dsimp only
      generalize ((d.proof.addSecret R d.key0).addSecret R d.key1).prove R true coins = q
      obtain ⟨p, r⟩ := q
      cases r with
      | err e => rfl
      | panic => rfl
      | ok s =>
        obtain ⟨sig, I⟩ := s
        rcases I with _ | ⟨a, _ | ⟨b, l⟩⟩ <;> rfl

omit [Field F] [Module F G] in
/-- The loop of `SubCommToZero` alone. -/
theorem run_subLoop (P : G) : ∀ (k i : Nat) (d : DualKey F G) (pre post : List (PubKeys G)), d.proof.matrix = pre ++ post → pre.length = i →
    post.length = k → (run d (subLoopP P k i)).2 = (mapRes (PubKeys.subSecond P) post).bind (fun _ => .ok ()) ∧
      ∀ m, mapRes (PubKeys.subSecond P) post = .ok m →
        (run d (subLoopP P k i)).1 = { d with proof := { d.proof with matrix := pre ++ m } }
  | 0, i, d, pre, post, hm, hi, hk => by
    obtain rfl := List.length_eq_zero_iff.1 hk
    refine ⟨rfl, fun m h => ?_⟩
    cases h
    rw [← hm]; rfl
  | k + 1, i, d, pre, [], hm, hi, hk => by simp at hk
  | k + 1, i, d, pre, x :: post, hm, hi, hk => by
    have hx : idx d.proof.matrix i = .ok x := idx_some (by rw [hm, ← hi]; simp)
    rw [subLoopP, mapRes]
    cases hK : idx x.keys 1 with
    | err e => simp [idx] at hK; split at hK <;> cases hK
    | panic =>
      rw [run_bind_panic (p := readR _) (s' := d) (by rw [run_readR, hx, Res.bind_ok, hK])]
      simp [PubKeys.subSecond, hK, Res.bind]
    | ok K =>
      rw [run_bind_ok (p := readR _) (s' := d) (a := K) (by rw [run_readR, hx, Res.bind_ok, hK]), run_writeP]
      have hs : PubKeys.subSecond P x = .ok { x with keys := x.keys.set 1 (K - P) } := by rw [PubKeys.subSecond, hK, Res.bind_ok]
      rw [hs, Res.bind_ok]
      have ih := run_subLoop P k (i + 1)
        { d with proof := { d.proof with matrix := d.proof.matrix.modify i fun m => { m with keys := m.keys.set 1 (K - P) } } }
        (pre ++ [{ x with keys := x.keys.set 1 (K - P) }]) post
        (by simp [hm, ← hi, List.modify_eq_set_getElem?]) (by simp [hi]) (by simpa using hk)
      obtain ⟨i1, i2⟩ := ih
      refine ⟨?_, fun m h => ?_⟩
      · rw [i1, bindR_assoc]; rfl
      · obtain ⟨m', h', h⟩ := Res.bind_eq_ok.1 h
        cases h
        rw [i2 m' h']
        simp

/-! ## Pausing -/

variable [DecidableEq ι]

theorem exec_append (s : Shared S ι α) (a b : List ι) : s.exec (a ++ b) = (s.exec a).exec b := List.foldl_append

/-- A goroutine executes the first part of its program without the others. -/
theorem exec_part (i : ι) (f : β → Prog S α) (p : Prog S β) : ∀ s : Shared S ι α, s.prog i = p.bind f → ∃ sched : List ι,
    ∀ s' a, run s.obj p = (s', .ok a) → s.exec sched = ⟨s', Function.update s.prog i (f a)⟩ := by
  induction p with
  | ret r =>
    intro s h
    refine ⟨[], fun s' a hr => ?_⟩
    cases hr
    change s = _
    rw [show f a = s.prog i from h.symm, Function.update_eq_self]
  | load k ih =>
    intro s h
    obtain ⟨sched, hs⟩ := ih s.obj ⟨s.obj, Function.update s.prog i ((k s.obj).bind f)⟩ (by simp)
    refine ⟨i :: sched, fun s' a hr => ?_⟩
    have e : s.step i = ⟨s.obj, Function.update s.prog i ((k s.obj).bind f)⟩ := by rw [Shared.step, h]; rfl
    change (s.step i).exec sched = _
    rw [e, hs s' a hr, Function.update_idem]
  | store w k ih =>
    intro s h
    obtain ⟨sched, hs⟩ := ih ⟨w s.obj, Function.update s.prog i (k.bind f)⟩ (by simp)
    refine ⟨i :: sched, fun s' a hr => ?_⟩
    have e : s.step i = ⟨w s.obj, Function.update s.prog i (k.bind f)⟩ := by rw [Shared.step, h]; rfl
    change (s.step i).exec sched = _
    rw [e, hs s' a hr, Function.update_idem]

/-- A goroutine executes the rest of its program without the others. -/
theorem exec_rest (i : ι) (p : Prog S α) : ∀ s : Shared S ι α, s.prog i = p → ∃ sched : List ι,
    s.exec sched = ⟨(run s.obj p).1, Function.update s.prog i (.ret (run s.obj p).2)⟩ := by
  induction p with
  | ret r => intro s h; exact ⟨[], by change s = _; rw [run, ← h, Function.update_eq_self]⟩
  | load k ih =>
    intro s h
    obtain ⟨sched, hs⟩ := ih s.obj ⟨s.obj, Function.update s.prog i (k s.obj)⟩ (by simp)
    refine ⟨i :: sched, ?_⟩
    change (s.step i).exec sched = _
    rw [show s.step i = ⟨s.obj, Function.update s.prog i (k s.obj)⟩ by rw [Shared.step, h]; rfl, hs, Function.update_idem]
    rfl
  | store w k ih =>
    intro s h
    obtain ⟨sched, hs⟩ := ih ⟨w s.obj, Function.update s.prog i k⟩ (by simp)
    refine ⟨i :: sched, ?_⟩
    change (s.step i).exec sched = _
    rw [show s.step i = ⟨w s.obj, Function.update s.prog i k⟩ by rw [Shared.step, h]; rfl, hs, Function.update_idem]
    rfl

/-- A goroutine executes the first part of its program, then another one all of its, then the first one the rest. -/
theorem exec_between {s : Shared S ι α} {i j : ι} (hij : i ≠ j) {p : Prog S β} {f : β → Prog S α} (hi : s.prog i = p.bind f)
    {t u v : S} {a : β} {r r' : Res α} (hp : run s.obj p = (t, .ok a)) (hj : run t (s.prog j) = (u, r)) (hf : run u (f a) = (v, r')) :
    ∃ sched, s.exec sched = ⟨v, Function.update (Function.update s.prog j (.ret r)) i (.ret r')⟩ := by
  obtain ⟨s1, e1⟩ := exec_part i f p s hi
  have e1 := e1 _ _ hp
  obtain ⟨s2, e2⟩ := exec_rest j (s.prog j) ⟨t, Function.update s.prog i (f a)⟩ (by simp only [Function.update_of_ne hij.symm])
  rw [hj] at e2
  obtain ⟨s3, e3⟩ := exec_rest i (f a) ⟨u, Function.update (Function.update s.prog i (f a)) j (.ret r)⟩ (by
    simp only [Function.update_of_ne hij, Function.update_self])
  rw [hf] at e3
  refine ⟨s1 ++ s2 ++ s3, ?_⟩
  rw [exec_append, exec_append, e1, e2, e3]
  congr 1
  funext k
  by_cases hi : k = i
  · simp only [hi, Function.update_self]
  · by_cases hj : k = j
    · simp only [hj, Function.update_of_ne hij.symm, Function.update_self]
    · simp only [Function.update_of_ne hi, Function.update_of_ne hj]

/-- The same, where the other goroutine executes the first part of its program only. -/
theorem exec_between_part {s : Shared S ι α} {i j : ι} (hij : i ≠ j) {p : Prog S β} {f : β → Prog S α} (hi : s.prog i = p.bind f)
    {q : Prog S γ} {g : γ → Prog S α} (hq : s.prog j = q.bind g)
    {t u v : S} {a : β} {b : γ} {r' : Res α} (hp : run s.obj p = (t, .ok a)) (hj : run t q = (u, .ok b)) (hf : run u (f a) = (v, r')) :
    ∃ sched, s.exec sched = ⟨v, Function.update (Function.update s.prog j (g b)) i (.ret r')⟩ := by
  obtain ⟨s1, e1⟩ := exec_part i f p s hi
  have e1 := e1 _ _ hp
  obtain ⟨s2, e2⟩ := exec_part j g q ⟨t, Function.update s.prog i (f a)⟩ (by simp only [Function.update_of_ne hij.symm, hq])
  have e2 := e2 _ _ hj
  obtain ⟨s3, e3⟩ := exec_rest i (f a) ⟨u, Function.update (Function.update s.prog i (f a)) j (g b)⟩ (by
    simp only [Function.update_of_ne hij, Function.update_self])
  rw [hf] at e3
  refine ⟨s1 ++ s2 ++ s3, ?_⟩
  rw [exec_append, exec_append, e1, e2, e3]
  congr 1
  funext k
  by_cases hi : k = i
  · simp only [hi, Function.update_self]
  · by_cases hj : k = j
    · simp only [hj, Function.update_of_ne hij.symm, Function.update_self]
    · simp only [Function.update_of_ne hi, Function.update_of_ne hj]

end Dusk.MlsagConc
