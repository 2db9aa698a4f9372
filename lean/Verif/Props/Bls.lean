import Mathlib.Algebra.BigOperators.Group.List.Basic
import Mathlib.Algebra.BigOperators.GroupWithZero.Action
import Verif.Lemmas.Bls
import Verif.Props.Hash
/-!
# C34–C41, C46: BLS signatures
-/

namespace Dusk.Bls

set_option linter.unusedSectionVars false

variable {F G1 G2 GT : Type} [Field F] [AddCommGroup G1] [AddCommGroup G2] [AddCommGroup GT]
  [Module F G1] [Module F G2] [Module F GT]
variable (P : Bn256 F G1 G2 GT) (A : Hash.Algs)

/-! ## C34 -/

theorem genKeyPair_eq {coin : Res Nat} {pk : PublicKey G2} {sk : SecretKey}
    (h : genKeyPair P coin = .ok (pk, sk)) :
    ∃ x : Nat, coin = .ok x ∧ sk = ⟨x⟩ ∧ pk = ⟨.pt ((x : F) • P.g2)⟩ := by
  cases coin with
  | ok x => simp only [genKeyPair, Res.bind_ok, Res.ok.injEq, Prod.mk.injEq] at h; exact ⟨x, rfl, h.2.symm, h.1.symm⟩
  | err e => simp [genKeyPair] at h
  | panic => simp [genKeyPair] at h

/-- C34: for every key pair that `GenKeyPair` can return and every message, `VerifyUnsafe` accepts the result
of `UnsafeSign`. -/
theorem C34_unsafe {coin : Res Nat} {pk : PublicKey G2} {sk : SecretKey}
    (h : genKeyPair P coin = .ok (pk, sk)) (m : Bytes) :
    ∃ s, unsafeSign P A sk m = .ok s ∧ VerifyUnsafe P A (some pk) m (some s) = .ok () := by
  obtain ⟨x, -, rfl, rfl⟩ := genKeyPair_eq P h
  refine ⟨_, unsafeSign_eq P A x m, ?_⟩
  simp only [VerifyUnsafe, deref_some, Res.bind_ok]
  rw [verify_iff]
  simp only [map_smul, LinearMap.smul_apply, smul_smul]

/-- C34: … and `Verify` accepts the result of `Sign` under `NewApk` of the public key. -/
theorem C34_safe {coin : Res Nat} {pk : PublicKey G2} {sk : SecretKey}
    (h : genKeyPair P coin = .ok (pk, sk)) (m : Bytes) :
    ∃ s apk, sign P A sk (some pk) m = .ok s ∧ newApk P A (some pk) = .ok (some apk) ∧
      Verify P A (some apk) m (some s) = .ok () := by
  obtain ⟨x, -, rfl, rfl⟩ := genKeyPair_eq P h
  refine ⟨_, _, sign_eq P A x _ m, newApk_eq P A _, ?_⟩
  simp only [Verify, deref_some, Res.bind_ok, Apk.gx]
  rw [verify_iff]
  simp only [map_smul, LinearMap.smul_apply, smul_smul]
  congr 1
  ring

theorem toy_verify (A : Hash.Algs) (x s : Toy.K) (m : Bytes) :
    VerifyUnsafe Toy.bn A (some ⟨.pt x⟩) m (some ⟨.pt s⟩) = .ok () ↔ (digest A m : Toy.K) * x = s := by
  simp only [VerifyUnsafe, deref_some, Res.bind_ok]
  rw [verify_iff, Toy.bn_pair, Toy.bn_pair, Toy.bn_g1, Toy.bn_g2, smul_eq_mul, mul_one, mul_one]

theorem toy_digest_ne (A : Hash.Algs) (m : Bytes) (h : ¬ PrimeEll.ell ∣ digest A m) : (digest A m : Toy.K) ≠ 0 :=
  fun h0 => h ((Toy.bn.cast_eq_zero _).1 h0)

theorem toy_digest : ¬ PrimeEll.ell ∣ digest Hash.toyAlgs [7] ∧ ¬ PrimeEll.ell ∣ digest Hash.toyAlgs [8] := by
  decide +kernel

/-- A key pair that `GenKeyPair` returns; the verifier does not accept everything. -/
example (x : Nat) (hx : (x : Toy.K) ≠ 0) : ∃ pk sk, genKeyPair Toy.bn (.ok x) = .ok (pk, sk) ∧ sk.x = x ∧
    VerifyUnsafe Toy.bn Hash.toyAlgs (some pk) [7] (some ⟨.pt 0⟩) ≠ .ok () := by
  refine ⟨_, _, rfl, rfl, ?_⟩
  rw [Ne, toy_verify, Toy.bn_g2, smul_eq_mul, mul_one]
  exact mul_ne_zero (toy_digest_ne _ _ toy_digest.1) hx

/-! ## C35 -/

/-- How the next co-signer's contribution is added to an aggregate signature. -/
inductive How where
  | aggregate
  | bytes
  | compressed
  | add

/-- A client adds the contribution of the holder of secret `x` to `sigma`. -/
def contribute (m : Bytes) (sigma : Signature G1) (x : Nat) (how : How) : Res (Signature G1) :=
  let pk : PublicKey G2 := ⟨.pt ((x : F) • P.g2)⟩
  match how with
  | .aggregate => (sign P A ⟨x⟩ (some pk) m).bind fun s => sigma.aggregate s
  | .bytes => (sign P A ⟨x⟩ (some pk) m).bind fun s => (s.marshal P).bind fun b =>
      let r := sigma.aggregateBytes P b
      r.1.bind fun _ => .ok r.2
  | .compressed => (sign P A ⟨x⟩ (some pk) m).bind fun s => (s.compress P).bind fun b =>
      let r := sigma.aggregateBytes P b
      r.1.bind fun _ => .ok r.2
  | .add => (unsafeSign P A ⟨x⟩ m).bind fun u =>
      let r := sigma.add P A (some pk) u
      r.1.bind fun _ => .ok r.2

/-- Aggregation by a client: any number of further contributions, each added in any of the four ways. -/
def contributeAll (m : Bytes) : Signature G1 → List (Nat × How) → Res (Signature G1)
  | sigma, [] => .ok sigma
  | sigma, (x, how) :: rest => (contribute P A m sigma x how).bind fun s => contributeAll m s rest

/-- The Apk, built by `Aggregate` (`false`) or `AggregateBytes` (`true`) calls. -/
def apkAll : Option (Apk G2) → List (Nat × Bool) → Res (Option (Apk G2))
  | apk, [] => .ok apk
  | apk, (x, viaBytes) :: rest =>
    let pk : PublicKey G2 := ⟨.pt ((x : F) • P.g2)⟩
    if viaBytes then (pk.marshal P).bind fun b =>
      let r := Apk.aggregateBytes P A apk b
      r.1.bind fun _ => apkAll r.2 rest
    else
      let r := Apk.aggregate P A apk (some pk)
      r.1.bind fun _ => apkAll r.2 rest

/-- Contribution of a secret to the aggregate signature. -/
def sigPart (m : Bytes) (x : Nat) : G1 :=
  (digest A (P.g2Bytes ((x : F) • P.g2)) : F) • (x : F) • (digest A m : F) • P.g1

/-- Contribution of a secret to the aggregate key. -/
def keyPart (x : Nat) : G2 := (digest A (P.g2Bytes ((x : F) • P.g2)) : F) • (x : F) • P.g2

theorem g1OfBytes_marshal (p : G1) : P.g1OfBytes (P.g1Bytes p) = some (p, []) := by
  have := P.g1OfBytes_g1Bytes p []
  rwa [List.append_nil] at this

theorem g2OfBytes_marshal (p : G2) : P.g2OfBytes (P.g2Bytes p) = some (p, []) := by
  have := P.g2OfBytes_g2Bytes p []
  rwa [List.append_nil] at this

theorem aggregateBytes_marshal (a b : G1) :
    Signature.aggregateBytes P ⟨.pt a⟩ (P.g1Bytes b) = (.ok (), ⟨.pt (a + b)⟩) := by
  have h := P.g1Bytes_length b
  simp [Signature.aggregateBytes, Signature.unmarshal, h, g1OfBytes_marshal, Signature.aggregate]

theorem aggregateBytes_compress (a b : G1) (hb : b ≠ 0) :
    Signature.aggregateBytes P ⟨.pt a⟩ (P.compress b) = (.ok (), ⟨.pt (a + b)⟩) := by
  simp [Signature.aggregateBytes, Signature.unmarshal, P.compress_length b hb, P.decompress_compress b hb,
    Signature.aggregate]

theorem contribute_eq (m : Bytes) (a : G1) (x : Nat) (how : How) (hx : how = .compressed → sigPart P A m x ≠ 0) :
    contribute P A m ⟨.pt a⟩ x how = .ok ⟨.pt (a + sigPart P A m x)⟩ := by
  cases how with
  | aggregate => simp only [contribute, sign_eq, Res.bind_ok]; simp only [Signature.aggregate, Ptr.get_pt, Res.bind_ok]; rfl
  | bytes =>
    simp only [contribute, sign_eq, Res.bind_ok, Signature.marshal, Ptr.get_pt, aggregateBytes_marshal]; rfl
  | compressed =>
    simp only [contribute, sign_eq, Res.bind_ok, Signature.compress, Ptr.get_pt]
    have h := aggregateBytes_compress P a _ (hx rfl)
    rw [sigPart] at h
    rw [h]; rfl
  | add =>
    simp only [contribute, unsafeSign_eq, Res.bind_ok, Signature.add, apkSigWrap_eq, Signature.aggregate, Ptr.get_pt]
    rfl

theorem contributeAll_eq (m : Bytes) : ∀ (ks : List (Nat × How)) (a : G1),
    (∀ x, (x, How.compressed) ∈ ks → sigPart P A m x ≠ 0) →
    contributeAll P A m ⟨.pt a⟩ ks = .ok ⟨.pt (a + ((ks.map Prod.fst).map (sigPart P A m)).sum)⟩
  | [], a, _ => by simp [contributeAll]
  | (x, how) :: ks, a, h => by
    rw [contributeAll, contribute_eq P A m a x how (fun e => h x (by rw [e]; exact .head _)), Res.bind_ok,
      contributeAll_eq m ks _ fun y hy => h y (.tail _ hy)]
    simp [add_assoc]

theorem apkAll_eq : ∀ (ks : List (Nat × Bool)) (a : G2),
    apkAll P A (some ⟨some ⟨.pt a⟩⟩) ks = .ok (some ⟨some ⟨.pt (a + ((ks.map Prod.fst).map (keyPart P A)).sum)⟩⟩)
  | [], a => by simp [apkAll]
  | (x, true) :: ks, a => by
    simp only [apkAll, PublicKey.marshal, Ptr.get_pt, Res.bind_ok, if_true, Apk.aggregateBytes,
      PublicKey.unmarshal, g2OfBytes_marshal, apk_aggregate_eq]
    rw [apkAll_eq ks]
    simp [add_assoc, keyPart]
  | (x, false) :: ks, a => by
    simp only [apkAll, Bool.false_eq_true, if_false, apk_aggregate_eq, Res.bind_ok]
    rw [apkAll_eq ks]
    simp [add_assoc, keyPart]

theorem pair_sum (h : F) (m : Bytes) (hm : h = (digest A m : F)) : ∀ (xs : List Nat),
    P.pair (h • P.g1) ((xs.map (keyPart P A)).sum) = P.pair ((xs.map (sigPart P A m)).sum) P.g2
  | [] => by simp
  | x :: xs => by
    simp only [List.map_cons, List.sum_cons, map_add, LinearMap.add_apply]
    rw [pair_sum h m hm xs]
    congr 1
    simp only [keyPart, sigPart, map_smul, LinearMap.smul_apply, smul_smul, hm]
    congr 1
    ring

/-- C35: any non-empty list of signers (repetitions allowed), aggregating in any order with `Aggregate`,
`AggregateBytes` on either wire form, or `Add`; the Apk built with `NewApk`/`Aggregate`/`AggregateBytes` from
any permutation of the public keys equals what `AggregateApk` returns, and `Verify` accepts. The compressed form is only used
for signatures other than the point at infinity. -/
theorem C35_multisig (m : Bytes) (x₀ : Nat) (ks : List (Nat × How)) (y₀ : Nat) (js : List (Nat × Bool))
    (hperm : (y₀ :: js.map Prod.fst).Perm (x₀ :: ks.map Prod.fst))
    (hc : ∀ x, (x, How.compressed) ∈ ks → sign P A ⟨x⟩ (some ⟨.pt ((x : F) • P.g2)⟩) m ≠ .ok ⟨.pt 0⟩) :
    ∃ s₀ s a₀ apk, sign P A ⟨x₀⟩ (some ⟨.pt ((x₀ : F) • P.g2)⟩) m = .ok s₀ ∧
      contributeAll P A m s₀ ks = .ok s ∧
      newApk P A (some ⟨.pt ((y₀ : F) • P.g2)⟩) = .ok a₀ ∧
      apkAll P A a₀ js = .ok (some apk) ∧
      aggregateApk P A ((x₀ :: ks.map Prod.fst).map fun x : Nat => some ⟨.pt ((x : F) • P.g2)⟩) = .ok (some apk) ∧
      Verify P A (some apk) m (some s) = .ok () := by
  have hsum : keyPart P A y₀ + ((js.map Prod.fst).map (keyPart P A)).sum =
      ((x₀ :: ks.map Prod.fst).map (keyPart P A)).sum := by
    rw [← (hperm.map (keyPart P A)).sum_eq, List.map_cons, List.sum_cons]
  refine ⟨⟨.pt (sigPart P A m x₀)⟩, _, _, _, sign_eq P A _ _ m, contributeAll_eq P A m ks _ ?_, newApk_eq P A _,
    apkAll_eq P A js _, ?_, ?_⟩
  · intro x hx e
    refine hc x hx ?_
    rw [sign_eq]
    exact congrArg (fun p => Res.ok (⟨.pt p⟩ : Signature G1)) e
  · rw [List.map_cons, aggregateApk, newApk_eq, Res.bind_ok]
    have := aggregateLoop_eq P A ((ks.map Prod.fst).map fun x : Nat => (x : F) • P.g2)
      ((digest A (P.g2Bytes ((x₀ : F) • P.g2)) : F) • (x₀ : F) • P.g2)
    rw [List.map_map] at this
    simp only [Function.comp_def] at this
    rw [this]
    change _ = Res.ok (some (⟨some ⟨.pt (keyPart P A y₀ + _)⟩⟩ : Apk G2))
    rw [hsum, List.map_cons, List.sum_cons, List.map_map]
    rfl
  · simp only [Verify, deref_some, Res.bind_ok, Apk.gx]
    rw [verify_iff]
    change P.pair _ (keyPart P A y₀ + _) = _
    rw [hsum, pair_sum P A _ m rfl, List.map_cons, List.sum_cons]

/-- Three signers, one of them twice, added in different ways; keys in another order. -/
example : ((2 :: [(3, false), (2, true), (5, true)].map Prod.fst : List Nat)).Perm
    (5 :: [(2, How.add), (3, How.bytes), (2, How.compressed)].map Prod.fst) := by decide

/-! ## C36 -/

theorem distinctLoop_iff : ∀ (msgs : List Bytes) (seen : List Bytes),
    distinctLoop A seen msgs = true ↔
      (msgs.map A.sha3_256).Nodup ∧ ∀ h ∈ msgs.map A.sha3_256, h ∉ seen
  | [], seen => by simp [distinctLoop]
  | m :: ms, seen => by
    rw [distinctLoop, List.map_cons, List.nodup_cons]
    by_cases h : A.sha3_256 m ∈ seen
    · simp [h]
    · simp only [h, if_false, distinctLoop_iff ms, List.mem_cons, not_or, forall_eq_or_imp, not_false_eq_true,
        true_and]
      constructor
      · rintro ⟨h1, h2⟩
        exact ⟨⟨fun hm => (h2 _ hm).1 rfl, h1⟩, fun k hk => (h2 k hk).2⟩
      · rintro ⟨⟨h1, h2⟩, h3⟩
        exact ⟨h2, fun k hk => ⟨fun e => h1 (e ▸ hk), h3 k hk⟩⟩

theorem distinct_iff (msgs : List Bytes) : distinct A msgs = true ↔ (msgs.map A.sha3_256).Nodup := by
  simp [distinct, distinctLoop_iff]

/-- The point a message is mapped to. -/
def hashPoint (m : Bytes) : G1 := (digest A m : F) • P.g1

/-- The left-hand side of the textbook batch equation. -/
def batchLhs (msgs : List Bytes) (gs : List G2) : GT :=
  batchSum (fun a b => P.pair a b) (hashPoint P A) (msgs.zip gs)

theorem batchLoop_succ (gs : List G2) : ∀ (msgs : List Bytes) (i : Nat) (a : GT), 0 < i →
    i + msgs.length ≤ gs.length →
    batchLoop P A (gs.map .pt) i (some a) msgs = .ok (some (a + batchLhs P A msgs (gs.drop i)))
  | [], i, a, _, _ => by simp [batchLoop, batchLhs, batchSum]
  | m :: ms, i, a, hi, hl => by
    simp only [List.length_cons] at hl
    have hi' : i < gs.length := by omega
    have hidx : idx (gs.map Ptr.pt) i = .ok (.pt gs[i]) := by
      rw [idx_eq_ok, List.getElem?_map, List.getElem?_eq_getElem hi']; rfl
    simp only [batchLoop, h0_eq, Res.bind_ok, hidx, Ptr.get_pt, if_neg (by omega : i ≠ 0), deref_some]
    rw [batchLoop_succ gs ms (i + 1) _ (by omega) (by omega), List.drop_eq_getElem_cons hi']
    simp only [batchLhs, List.zip_cons_cons, batchSum, add_assoc]
    rfl

theorem batchLoop_zero (gs : List G2) (m : Bytes) (ms : List Bytes) (hl : (m :: ms).length ≤ gs.length) :
    batchLoop P A (gs.map .pt) 0 none (m :: ms) = .ok (some (batchLhs P A (m :: ms) gs)) := by
  cases gs with
  | nil => simp at hl
  | cons g gs =>
    have hidx : idx ((g :: gs).map Ptr.pt) 0 = .ok (.pt g) := rfl
    simp only [batchLoop, h0_eq, Res.bind_ok, hidx, Ptr.get_pt, if_true]
    rw [batchLoop_succ P A (g :: gs) ms 1 _ (by omega) (by simp only [List.length_cons] at hl ⊢; omega)]
    rfl

theorem verifyBatch_eq (gs : List G2) (msgs : List Bytes) (s : G1) (ad : Bool) (hn : msgs ≠ [])
    (hl : msgs.length ≤ gs.length) (hd : ad = true ∨ (msgs.map A.sha3_256).Nodup)
    [Decidable (P.pair s P.g2 = batchLhs P A msgs gs)] :
    verifyBatch P A (gs.map .pt) msgs (.pt s) ad =
      if P.pair s P.g2 = batchLhs P A msgs gs then .ok () else .err "bls: Invalid Signature" := by
  have hc : (!ad && !distinct A msgs) = false := by
    rcases hd with rfl | hd
    · rfl
    · rw [(distinct_iff A msgs).2 hd]; simp
  cases msgs with
  | nil => exact absurd rfl hn
  | cons m ms =>
    rw [verifyBatch, hc, if_neg (by simp), batchLoop_zero P A gs m ms hl, g2Base_eq]
    simp only [Res.bind_ok, Ptr.get_pt, deref_some]
    by_cases h : P.pair s P.g2 = batchLhs P A (m :: ms) gs
    · rw [if_pos h, h, if_neg (not_not_intro rfl)]
    · rw [if_neg h, if_pos (fun hb => h (P.gtBytes_inj _ _ hb))]

theorem mapRes_pks (gs : List G2) :
    mapRes (fun a : Option (PublicKey G2) => (deref a).bind fun a => Res.ok a.gx)
      (gs.map fun g => some ⟨.pt g⟩) = .ok (gs.map .pt) := by
  induction gs with
  | nil => rfl
  | cons g gs ih => simp [mapRes, ih]

theorem mapRes_apks (gs : List G2) :
    mapRes (fun a : Option (Apk G2) => (deref a).bind Apk.gx)
      (gs.map fun g => some ⟨some ⟨.pt g⟩⟩) = .ok (gs.map .pt) := by
  induction gs with
  | nil => rfl
  | cons g gs ih => simp [mapRes, Apk.gx, ih]

theorem exact_of_eq {c : Prop} {r : Res Unit} {e : String} (h : ∀ _ : Decidable c, r = if c then .ok () else .err e) :
    (r = .ok () ↔ c) ∧ (r = .ok () ∨ r = .err e) := by
  classical
  rw [h inferInstance]
  by_cases hc : c <;> simp [hc]

/-- C36: for at least one message, pairwise distinct digests and at least as many keys as messages,
`VerifyUnsafeBatch` accepts iff the signature satisfies the batch equation with the keys at the positions of
the messages; otherwise it returns an error. -/
theorem C36_unsafe (gs : List G2) (msgs : List Bytes) (s : G1) (hn : msgs ≠ [])
    (hl : msgs.length ≤ gs.length) (hd : (msgs.map A.sha3_256).Nodup) :
    (VerifyUnsafeBatch P A (gs.map fun g => some ⟨.pt g⟩) msgs (some ⟨.pt s⟩) = .ok () ↔
      P.pair s P.g2 = batchSum (fun a b => P.pair a b) (hashPoint P A) (msgs.zip gs)) ∧
    (VerifyUnsafeBatch P A (gs.map fun g => some ⟨.pt g⟩) msgs (some ⟨.pt s⟩) = .ok () ∨
      VerifyUnsafeBatch P A (gs.map fun g => some ⟨.pt g⟩) msgs (some ⟨.pt s⟩) = .err "bls: Invalid Signature") := by
  have h : VerifyUnsafeBatch P A (gs.map fun g => some ⟨.pt g⟩) msgs (some ⟨.pt s⟩) =
      verifyBatch P A (gs.map .pt) msgs (.pt s) false := by
    simp [VerifyUnsafeBatch, mapRes_pks]
  rw [h]
  exact exact_of_eq (c := P.pair s P.g2 = batchLhs P A msgs gs) (fun _ => verifyBatch_eq P A gs msgs s false hn hl (.inr hd))

/-- C36: `VerifyBatch` with equal numbers of Apks and messages. -/
theorem C36_safe (gs : List G2) (msgs : List Bytes) (s : G1) (hn : msgs ≠ [])
    (hl : msgs.length = gs.length) (hd : (msgs.map A.sha3_256).Nodup) :
    (VerifyBatch P A (gs.map fun g => some ⟨some ⟨.pt g⟩⟩) msgs (some ⟨.pt s⟩) = .ok () ↔
      P.pair s P.g2 = batchSum (fun a b => P.pair a b) (hashPoint P A) (msgs.zip gs)) ∧
    (VerifyBatch P A (gs.map fun g => some ⟨some ⟨.pt g⟩⟩) msgs (some ⟨.pt s⟩) = .ok () ∨
      VerifyBatch P A (gs.map fun g => some ⟨some ⟨.pt g⟩⟩) msgs (some ⟨.pt s⟩) = .err "bls: Invalid Signature") := by
  have h : VerifyBatch P A (gs.map fun g => some ⟨some ⟨.pt g⟩⟩) msgs (some ⟨.pt s⟩) =
      verifyBatch P A (gs.map .pt) msgs (.pt s) false := by
    simp [VerifyBatch, mapRes_apks, hl]
  rw [h]
  exact exact_of_eq (c := P.pair s P.g2 = batchLhs P A msgs gs) (fun _ => verifyBatch_eq P A gs msgs s false hn hl.le (.inr hd))

/-- C36: `VerifyCompressed`, with `allowDistinct` also for repeated messages. -/
theorem C36_compressed (gs : List G2) (msgs : List Bytes) (b : Bytes) (s : G1) (ad : Bool) (hn : msgs ≠ [])
    (hb : P.decompress b = some s)
    (hl : msgs.length ≤ gs.length) (hd : ad = true ∨ (msgs.map A.sha3_256).Nodup) :
    (VerifyCompressed P A (gs.map .pt) msgs b ad = .ok () ↔
      P.pair s P.g2 = batchSum (fun a b => P.pair a b) (hashPoint P A) (msgs.zip gs)) ∧
    (VerifyCompressed P A (gs.map .pt) msgs b ad = .ok () ∨
      VerifyCompressed P A (gs.map .pt) msgs b ad = .err "bls: Invalid Signature") := by
  simp only [VerifyCompressed, hb]
  exact exact_of_eq (c := P.pair s P.g2 = batchLhs P A msgs gs) (fun _ => verifyBatch_eq P A gs msgs s ad hn hl hd)

theorem unsafeBatchLoop_eq : ∀ (ss : List G1) (a : G1),
    unsafeBatchLoop (some ⟨.pt a⟩) (ss.map fun s => some ⟨.pt s⟩) = .ok (some ⟨.pt (a + ss.sum)⟩)
  | [], a => by simp [unsafeBatchLoop]
  | s :: ss, a => by
    simp only [List.map_cons, unsafeBatchLoop, unsafeAggregate, deref_some, Res.bind_ok, Ptr.get_pt]
    rw [unsafeBatchLoop_eq ss, List.sum_cons, add_assoc]

theorem unsafeBatch_eq (ss : List G1) (hn : ss ≠ []) :
    unsafeBatch (ss.map fun s => some ⟨.pt s⟩) = .ok (some ⟨.pt ss.sum⟩) := by
  cases ss with
  | nil => exact absurd rfl hn
  | cons s ss => rw [List.map_cons, unsafeBatch, unsafeBatchLoop_eq, List.sum_cons]

theorem batch_sum_valid : ∀ (l : List (Bytes × G2 × G1)),
    (∀ t ∈ l, P.pair (hashPoint P A t.1) t.2.1 = P.pair t.2.2 P.g2) →
    P.pair (l.map fun t => t.2.2).sum P.g2 = batchLhs P A (l.map fun t => t.1) (l.map fun t => t.2.1)
  | [], _ => by simp [batchLhs, batchSum]
  | t :: l, h => by
    have ih := batch_sum_valid l fun u hu => h u (List.mem_cons_of_mem _ hu)
    simp only [batchLhs] at ih
    simp only [List.map_cons, List.sum_cons, map_add, LinearMap.add_apply, ih, batchLhs, List.zip_cons_cons,
      batchSum]
    rw [h t List.mem_cons_self]

/-- C36 (completeness): `UnsafeBatch` of individually valid signatures on messages with distinct digests is
accepted by `VerifyUnsafeBatch`, for every number of signers. -/
theorem C36_complete (l : List (Bytes × G2 × G1)) (hn : l ≠ [])
    (hd : ((l.map fun t => t.1).map A.sha3_256).Nodup)
    (hv : ∀ t ∈ l, VerifyUnsafe P A (some ⟨.pt t.2.1⟩) t.1 (some ⟨.pt t.2.2⟩) = .ok ()) :
    ∃ agg, unsafeBatch (l.map fun t => some ⟨.pt t.2.2⟩) = .ok (some agg) ∧
      VerifyUnsafeBatch P A (l.map fun t => some ⟨.pt t.2.1⟩) (l.map fun t => t.1) (some agg) = .ok () := by
  have h1 := unsafeBatch_eq (l.map fun t => t.2.2) (by simpa using hn)
  rw [List.map_map] at h1
  refine ⟨_, h1, ?_⟩
  have h2 := (C36_unsafe P A (l.map fun t => t.2.1) (l.map fun t => t.1) (l.map fun t => t.2.2).sum (by simpa using hn)
    (by simp) hd).1
  rw [List.map_map] at h2
  refine h2.2 (batch_sum_valid P A l fun t ht => ?_)
  have := hv t ht
  simp only [VerifyUnsafe, deref_some, Res.bind_ok, verify_iff] at this
  exact this

/-- `Signature.Aggregate` along a list. -/
def aggregateSigs : Signature G1 → List (Signature G1) → Res (Signature G1)
  | s, [] => .ok s
  | s, t :: ts => (s.aggregate t).bind fun u => aggregateSigs u ts

theorem aggregateSigs_eq : ∀ (ss : List G1) (a : G1),
    aggregateSigs ⟨.pt a⟩ (ss.map fun s => ⟨.pt s⟩) = .ok ⟨.pt (a + ss.sum)⟩
  | [], a => by simp [aggregateSigs]
  | s :: ss, a => by
    simp only [List.map_cons, aggregateSigs, Signature.aggregate, Res.bind_ok, Ptr.get_pt]
    rw [aggregateSigs_eq ss, List.sum_cons, add_assoc]

/-- C36 (completeness, Apks): the aggregate of valid (multi)signatures under their Apks on messages with
distinct digests is accepted by `VerifyBatch`. -/
theorem C36_complete_safe (t : Bytes × G2 × G1) (l : List (Bytes × G2 × G1))
    (hd : (((t :: l).map fun t => t.1).map A.sha3_256).Nodup)
    (hv : ∀ u ∈ t :: l, Verify P A (some ⟨some ⟨.pt u.2.1⟩⟩) u.1 (some ⟨.pt u.2.2⟩) = .ok ()) :
    ∃ agg, aggregateSigs ⟨.pt t.2.2⟩ (l.map fun u => ⟨.pt u.2.2⟩) = .ok agg ∧
      VerifyBatch P A ((t :: l).map fun u => some ⟨some ⟨.pt u.2.1⟩⟩) ((t :: l).map fun u => u.1) (some agg) =
        .ok () := by
  have h1 := aggregateSigs_eq (l.map fun u => u.2.2) t.2.2
  rw [List.map_map] at h1
  refine ⟨_, h1, ?_⟩
  have h2 := (C36_safe P A ((t :: l).map fun u => u.2.1) ((t :: l).map fun u => u.1)
    (t.2.2 + (l.map fun u => u.2.2).sum) (by simp) (by simp) hd).1
  rw [List.map_map] at h2
  refine h2.2 ?_
  have := batch_sum_valid P A (t :: l) fun u hu => ?_
  · rw [List.map_cons, List.sum_cons] at this; exact this
  · have := hv u hu
    simp only [Verify, Apk.gx, deref_some, Res.bind_ok, verify_iff] at this
    exact this

/-- Two signers on two messages meet the hypotheses of the completeness theorems. -/
example (x y : Toy.K) : ∃ l : List (Bytes × Toy.K × Toy.K), l.length = 2 ∧
    ((l.map fun t => t.1).map Hash.toyAlgs.sha3_256).Nodup ∧ l.map (fun t => t.2.1) = [x, y] ∧
    ∀ t ∈ l, VerifyUnsafe Toy.bn Hash.toyAlgs (some ⟨.pt t.2.1⟩) t.1 (some ⟨.pt t.2.2⟩) = .ok () := by
  refine ⟨[([7], x, (digest Hash.toyAlgs [7] : Toy.K) * x), ([8], y, (digest Hash.toyAlgs [8] : Toy.K) * y)],
    rfl, ?_, rfl, ?_⟩
  · have : Hash.toyAlgs.sha3_256 [7] ≠ Hash.toyAlgs.sha3_256 [8] := by decide
    simpa using this
  · intro t ht
    rw [toy_verify]
    simp only [List.mem_cons, List.not_mem_nil, or_false] at ht
    rcases ht with rfl | rfl <;> rfl

/-! ## C37 -/

theorem verify_ok_iff (pk : Ptr G2) (m : Bytes) (s : Ptr G1) :
    verify P A pk m s = .ok () ↔
      ∃ g e, pk = .pt g ∧ s = .pt e ∧ P.pair ((digest A m : F) • P.g1) g = P.pair e P.g2 := by
  cases pk with
  | nil => simp [verify, h0_eq]
  | junk => simp [verify, h0_eq, Ptr.get]
  | pt g =>
    cases s with
    | nil => simp [verify, h0_eq]
    | junk => simp [verify, h0_eq, Ptr.get]
    | pt e => rw [verify_iff]; simp

/-- C37: two signatures accepted by `VerifyUnsafe` for the same key and message are equal. -/
theorem C37_unsafe (pk : Option (PublicKey G2)) (m : Bytes) (s s' : Option (UnsafeSignature G1))
    (h : VerifyUnsafe P A pk m s = .ok ()) (h' : VerifyUnsafe P A pk m s' = .ok ()) : s = s' := by
  cases pk with
  | none => simp [VerifyUnsafe] at h
  | some pk =>
    cases s with
    | none => simp [VerifyUnsafe] at h
    | some s =>
      cases s' with
      | none => simp [VerifyUnsafe] at h'
      | some s' =>
        simp only [VerifyUnsafe, deref_some, Res.bind_ok, verify_ok_iff] at h h'
        obtain ⟨g, e, h1, h2, h3⟩ := h
        obtain ⟨g', e', h1', h2', h3'⟩ := h'
        obtain ⟨rfl⟩ : g = g' := by rw [h1] at h1'; exact Ptr.pt.inj h1'
        obtain ⟨rfl⟩ : e = e' := pair_inj P (h3.symm.trans h3')
        cases s; cases s'
        simp_all

/-- C37: … and likewise for `Verify` under one Apk. -/
theorem C37_safe (apk : Option (Apk G2)) (m : Bytes) (s s' : Option (Signature G1))
    (h : Verify P A apk m s = .ok ()) (h' : Verify P A apk m s' = .ok ()) : s = s' := by
  cases apk with
  | none => simp [Verify] at h
  | some apk =>
    obtain ⟨pk⟩ := apk
    cases pk with
    | none => simp [Verify, Apk.gx] at h
    | some pk =>
      cases s with
      | none => simp [Verify, Apk.gx] at h
      | some s =>
        cases s' with
        | none => simp [Verify, Apk.gx] at h'
        | some s' =>
          simp only [Verify, Apk.gx, deref_some, Res.bind_ok, verify_ok_iff] at h h'
          obtain ⟨g, e, h1, h2, h3⟩ := h
          obtain ⟨g', e', h1', h2', h3'⟩ := h'
          obtain ⟨rfl⟩ : g = g' := by rw [h1] at h1'; exact Ptr.pt.inj h1'
          obtain ⟨rfl⟩ : e = e' := pair_inj P (h3.symm.trans h3')
          cases s; cases s'
          simp_all

/-- C37 (batches): at most one signature is accepted for a batch. -/
theorem C37_batch (gs : List G2) (msgs : List Bytes) (s s' : G1) (hn : msgs ≠ [])
    (hl : msgs.length ≤ gs.length) (hd : (msgs.map A.sha3_256).Nodup)
    (h : VerifyUnsafeBatch P A (gs.map fun g => some ⟨.pt g⟩) msgs (some ⟨.pt s⟩) = .ok ())
    (h' : VerifyUnsafeBatch P A (gs.map fun g => some ⟨.pt g⟩) msgs (some ⟨.pt s'⟩) = .ok ()) : s = s' :=
  pair_inj P (((C36_unsafe P A gs msgs s hn hl hd).1.1 h).trans ((C36_unsafe P A gs msgs s' hn hl hd).1.1 h').symm)

/-! ## C38 -/

theorem forge {g : G2} {m : Bytes} {e : G1} (m' : Bytes) (hm : ¬ P.order ∣ digest A m)
    (h : P.pair ((digest A m : F) • P.g1) g = P.pair e P.g2) :
    P.pair ((digest A m' : F) • P.g1) g = P.pair ((quot P.order (digest A m) (digest A m') : F) • e) P.g2 := by
  have hz : (digest A m : F) ≠ 0 := fun hz => hm ((P.cast_eq_zero _).1 hz)
  have hq := quot_spec P (digest A m') hz
  have hr : P.pair ((quot P.order (digest A m) (digest A m') : F) • e) P.g2 =
      (quot P.order (digest A m) (digest A m') : F) • P.pair e P.g2 := by rw [map_smul, LinearMap.smul_apply]
  rw [hr, ← h]
  simp only [map_smul, LinearMap.smul_apply, smul_smul, hq]

/-- C38 (violated): from one accepted unsafe signature on `m` (with digest not divisible by the group order)
anybody obtains an accepted signature on every other message, by multiplying the point with an integer
computed from the two digests. No secret is involved: the statement holds for every key. -/
theorem C38_unsafe_violated (g : G2) (m : Bytes) (e : G1) (hm : ¬ P.order ∣ digest A m)
    (h : VerifyUnsafe P A (some ⟨.pt g⟩) m (some ⟨.pt e⟩) = .ok ()) (m' : Bytes) :
    VerifyUnsafe P A (some ⟨.pt g⟩) m'
      (some ⟨.pt ((quot P.order (digest A m) (digest A m') : F) • e)⟩) = .ok () := by
  simp only [VerifyUnsafe, deref_some, Res.bind_ok, verify_iff] at h ⊢
  exact forge P A m' hm h

/-- C38 (violated): the same for signatures and multisignatures under any Apk. -/
theorem C38_safe_violated (g : G2) (m : Bytes) (e : G1) (hm : ¬ P.order ∣ digest A m)
    (h : Verify P A (some ⟨some ⟨.pt g⟩⟩) m (some ⟨.pt e⟩) = .ok ()) (m' : Bytes) :
    Verify P A (some ⟨some ⟨.pt g⟩⟩) m'
      (some ⟨.pt ((quot P.order (digest A m) (digest A m') : F) • e)⟩) = .ok () := by
  simp only [Verify, Apk.gx, deref_some, Res.bind_ok, verify_iff] at h ⊢
  exact forge P A m' hm h

/-- C38 (violated): a signature made by `Sign` with one key is converted into what `Sign` returns for any
other message. -/
theorem C38_sign_violated (x : Nat) (g : G2) (m m' : Bytes) (hm : ¬ P.order ∣ digest A m) :
    ∃ e, sign P A ⟨x⟩ (some ⟨.pt g⟩) m = .ok ⟨.pt e⟩ ∧
      sign P A ⟨x⟩ (some ⟨.pt g⟩) m' = .ok ⟨.pt ((quot P.order (digest A m) (digest A m') : F) • e)⟩ := by
  refine ⟨_, sign_eq P A x g m, ?_⟩
  have hz : (digest A m : F) ≠ 0 := fun hz => hm ((P.cast_eq_zero _).1 hz)
  have hq := quot_spec P (digest A m') hz
  rw [sign_eq]
  congr 3
  simp only [smul_smul]
  congr 1
  linear_combination -((digest A (P.g2Bytes g) : F) * x) * hq

/-- A digest not divisible by the order, and a valid signature. -/
example (x : Toy.K) : ¬ Toy.bn.order ∣ digest Hash.toyAlgs [7] ∧
    VerifyUnsafe Toy.bn Hash.toyAlgs (some ⟨.pt x⟩) [7]
      (some ⟨.pt ((digest Hash.toyAlgs [7] : Toy.K) * x)⟩) = .ok () :=
  ⟨toy_digest.1, (toy_verify _ _ _ _).2 rfl⟩

/-! ## C39 -/

/-- The attacker's public key against the honest key `g` for messages with digests `d₁`, `d₂`. -/
def rogueKey (g : G2) (d₁ d₂ α : Nat) : G2 := (α : F) • P.g2 - (quot P.order d₂ d₁ : F) • g

/-- C39 (violated): for every honest key and every two messages with different digests (the second not
divisible by the order) there is a key, computed from public data and a scalar `α` of the attacker's choice,
for which `UnsafeSign` with `α` on the second message passes as the joint signature of both keys: the honest
key is shown to have signed `m₁`. -/
theorem C39_distinct_violated (g : G2) (m₁ m₂ : Bytes) (α : Nat) (hd : A.sha3_256 m₁ ≠ A.sha3_256 m₂)
    (hm : ¬ P.order ∣ digest A m₂) :
    ∃ s, unsafeSign P A ⟨α⟩ m₂ = .ok s ∧
      VerifyUnsafeBatch P A [some ⟨.pt g⟩, some ⟨.pt (rogueKey P g (digest A m₁) (digest A m₂) α)⟩] [m₁, m₂]
        (some s) = .ok () := by
  refine ⟨_, unsafeSign_eq P A α m₂, ?_⟩
  have h := (C36_unsafe P A [g, rogueKey P g (digest A m₁) (digest A m₂) α] [m₁, m₂]
    ((α : F) • (digest A m₂ : F) • P.g1) (by simp) (by simp) (by simp [hd])).1
  refine h.2 ?_
  have hz : (digest A m₂ : F) ≠ 0 := fun hz => hm ((P.cast_eq_zero _).1 hz)
  have hq := quot_spec P (digest A m₁) hz
  simp only [batchSum, List.zip_cons_cons, List.zip_nil_right, hashPoint, rogueKey, map_smul, LinearMap.smul_apply,
    map_sub, add_zero]
  rw [← hq]
  module

/-- C39 (violated, classical rogue key): with `allowDistinct` the key `α·g₂ - g` and `UnsafeSign` with `α` pass
for every honest key `g` and message (if the signature is not the point at infinity, whose compressed form may not be read). -/
theorem C39_classical_violated (g : G2) (m : Bytes) (α : Nat) :
    ∃ s b, unsafeSign P A ⟨α⟩ m = .ok s ∧ s.compress P = .ok b ∧ (s ≠ ⟨.pt 0⟩ →
      VerifyCompressed P A [.pt g, .pt ((α : F) • P.g2 - g)] [m, m] b true = .ok ()) := by
  refine ⟨_, _, unsafeSign_eq P A α m, rfl, fun hs => ?_⟩
  have h := (C36_compressed P A [g, (α : F) • P.g2 - g] [m, m] _ ((α : F) • (digest A m : F) • P.g1) true (by simp)
    (P.decompress_compress _ fun e => hs (by rw [e])) (by simp) (.inl rfl)).1
  refine h.2 ?_
  simp only [batchSum, List.zip_cons_cons, List.zip_nil_right, hashPoint, map_smul, LinearMap.smul_apply,
    map_sub, add_zero]
  module

/-- C39 (violated): the classical rogue key also works against `PublicKey.Aggregate` and `VerifyUnsafe`. -/
theorem C39_aggregate_violated (g : G2) (m : Bytes) (α : Nat) :
    ∃ s pk, unsafeSign P A ⟨α⟩ m = .ok s ∧
      PublicKey.aggregate ⟨.pt g⟩ ⟨.pt ((α : F) • P.g2 - g)⟩ = .ok pk ∧
      VerifyUnsafe P A (some pk) m (some s) = .ok () := by
  refine ⟨_, _, unsafeSign_eq P A α m, rfl, ?_⟩
  simp only [VerifyUnsafe, deref_some, Res.bind_ok]
  rw [verify_iff]
  simp only [map_smul, LinearMap.smul_apply, add_sub_cancel, smul_smul, mul_comm]

/-- A victim with key `5`; the attacker's secret is `3` and their key is published as `3 - 5`. -/
example : ∃ s b s' pk, unsafeSign Toy.bn Hash.toyAlgs ⟨3⟩ [7] = .ok s ∧ s.compress Toy.bn = .ok b ∧
    VerifyCompressed Toy.bn Hash.toyAlgs [.pt 5, .pt (((3 : Nat) : Toy.K) • Toy.bn.g2 - 5)] [[7], [7]] b true = .ok () ∧
    unsafeSign Toy.bn Hash.toyAlgs ⟨3⟩ [7] = .ok s' ∧
    PublicKey.aggregate ⟨.pt 5⟩ ⟨.pt (((3 : Nat) : Toy.K) • Toy.bn.g2 - 5)⟩ = .ok pk ∧
    VerifyUnsafe Toy.bn Hash.toyAlgs (some pk) [7] (some s') = .ok () := by
  obtain ⟨s, b, h1, h2, h3⟩ := C39_classical_violated Toy.bn Hash.toyAlgs 5 [7] 3
  obtain ⟨s', pk, h4, h5, h6⟩ := C39_aggregate_violated Toy.bn Hash.toyAlgs 5 [7] 3
  refine ⟨s, b, s', pk, h1, h2, h3 ?_, h4, h5, h6⟩
  rintro rfl
  rw [unsafeSign_eq] at h1
  have h1 : ((3 : Nat) : Toy.K) • (digest Hash.toyAlgs [7] : Toy.K) • (1 : Toy.K) = 0 := by simpa [Toy.bn] using h1
  rw [smul_eq_mul, smul_eq_mul, mul_one] at h1
  exact (mul_ne_zero (by decide +kernel) (toy_digest_ne _ _ toy_digest.1)) h1

example : Hash.toyAlgs.sha3_256 [7] ≠ Hash.toyAlgs.sha3_256 [8] ∧ ¬ Toy.bn.order ∣ digest Hash.toyAlgs [8] :=
  ⟨by decide, toy_digest.2⟩

/-! ## C40 -/

theorem not_distinct {msgs : List Bytes} (h : ¬ msgs.Nodup) : distinct A msgs = false := by
  rw [Bool.eq_false_iff, Ne, distinct_iff]
  exact fun hn => h (List.Nodup.of_map _ hn)

theorem verifyBatch_dup (pks : List (Ptr G2)) {msgs : List Bytes} (s : Ptr G1) (h : ¬ msgs.Nodup) :
    verifyBatch P A pks msgs s false = .err "bls: Messages are not distinct" := by
  simp [verifyBatch, not_distinct A h]

/-- C40: a repeated message is rejected by `VerifyUnsafeBatch`, whatever the (non-nil) keys and signature; with
nil pointers the call does not succeed either. -/
theorem C40_unsafe (msgs : List Bytes) (h : ¬ msgs.Nodup) :
    (∀ (pks : List (PublicKey G2)) (s : UnsafeSignature G1),
      (VerifyUnsafeBatch P A (pks.map some) msgs (some s)).IsErr) ∧
    ∀ (pks : List (Option (PublicKey G2))) (s : Option (UnsafeSignature G1)),
      VerifyUnsafeBatch P A pks msgs s ≠ .ok () := by
  constructor
  · intro pks s
    have : mapRes (fun a : Option (PublicKey G2) => (deref a).bind fun a => Res.ok a.gx) (pks.map some) =
        .ok (pks.map fun p => p.gx) := by
      induction pks with
      | nil => rfl
      | cons p ps ih => simp [mapRes, ih]
    simp [VerifyUnsafeBatch, this, verifyBatch_dup P A _ _ h]
  · intro pks s he
    rw [VerifyUnsafeBatch, Res.bind_eq_ok] at he
    obtain ⟨a, -, he⟩ := he
    rw [Res.bind_eq_ok] at he
    obtain ⟨b, -, he⟩ := he
    rw [verifyBatch_dup P A _ _ h] at he
    cases he

/-- C40: the same for `VerifyBatch` (non-nil Apks). -/
theorem C40_safe (msgs : List Bytes) (h : ¬ msgs.Nodup) :
    (∀ (pks : List (PublicKey G2)) (s : Signature G1),
      (VerifyBatch P A (pks.map fun pk => some ⟨some pk⟩) msgs (some s)).IsErr) ∧
    ∀ (apks : List (Option (Apk G2))) (s : Option (Signature G1)), VerifyBatch P A apks msgs s ≠ .ok () := by
  constructor
  · intro pks s
    have : mapRes (fun a : Option (Apk G2) => (deref a).bind Apk.gx) (pks.map fun pk => some ⟨some pk⟩) =
        .ok (pks.map fun p => p.gx) := by
      induction pks with
      | nil => rfl
      | cons p ps ih => simp [mapRes, ih, Apk.gx]
    rw [VerifyBatch]
    split
    · simp
    · simp [this, verifyBatch_dup P A _ _ h]
  · intro apks s he
    rw [VerifyBatch] at he
    split at he
    · cases he
    rw [Res.bind_eq_ok] at he
    obtain ⟨a, -, he⟩ := he
    rw [Res.bind_eq_ok] at he
    obtain ⟨b, -, he⟩ := he
    rw [verifyBatch_dup P A _ _ h] at he
    cases he

/-- C40: the same for `VerifyCompressed` without `allowDistinct`. -/
theorem C40_compressed (msgs : List Bytes) (h : ¬ msgs.Nodup) (pks : List (Ptr G2)) (b : Bytes) :
    (VerifyCompressed P A pks msgs b false).IsErr := by
  rw [VerifyCompressed]
  cases P.decompress b <;> simp [verifyBatch_dup P A _ _ h]

theorem collision_of_not_distinct {msgs : List Bytes} (hn : msgs.Nodup) (h : distinct A msgs = false) :
    ∃ m ∈ msgs, ∃ m' ∈ msgs, m ≠ m' ∧ A.sha3_256 m = A.sha3_256 m' := by
  by_contra hc
  push Not at hc
  have : (msgs.map A.sha3_256).Nodup :=
    List.Nodup.map_on (fun x hx y hy e => by by_contra hxy; exact hc x hx y hy hxy e) hn
  rw [← distinct_iff, h] at this
  cases this

theorem batchLoop_noErr (pks : List (Ptr G2)) : ∀ (msgs : List Bytes) (i : Nat) (acc : Option GT) (e : String),
    batchLoop P A pks i acc msgs ≠ .err e
  | [], _, _, e => by simp [batchLoop]
  | m :: ms, i, acc, e => by
    simp only [batchLoop, h0_eq, Res.bind_ok]
    cases hi : idx pks i with
    | err e => simp only [idx] at hi; split at hi <;> cases hi
    | panic => simp
    | ok p =>
      rw [Res.bind_ok]
      cases p with
      | nil => simp
      | junk => simp [Ptr.get]
      | pt g =>
        rw [Ptr.get_pt, Res.bind_ok]
        split
        · exact batchLoop_noErr pks ms _ _ e
        · cases acc with
          | none => simp
          | some a => rw [deref_some, Res.bind_ok]; exact batchLoop_noErr pks ms _ _ e

/-- C40: pairwise distinct messages are rejected as "not distinct" only if two of them have the same SHA3-256
digest; stated for the common verifier behind the three functions, for all keys and signatures. -/
theorem C40_collision (pks : List (Ptr G2)) (msgs : List Bytes) (s : Ptr G1) (ad : Bool) (hn : msgs.Nodup)
    (h : verifyBatch P A pks msgs s ad = .err "bls: Messages are not distinct") :
    ∃ m ∈ msgs, ∃ m' ∈ msgs, m ≠ m' ∧ A.sha3_256 m = A.sha3_256 m' := by
  cases hd : distinct A msgs with
  | false => exact collision_of_not_distinct A hn hd
  | true =>
    exfalso
    rw [verifyBatch, hd] at h
    simp only [Bool.not_true, Bool.and_false, Bool.false_eq_true, if_false] at h
    cases hb : batchLoop P A pks 0 none msgs with
    | err e => exact batchLoop_noErr P A pks msgs 0 none e hb
    | panic => rw [hb] at h; cases h
    | ok acc =>
      rw [hb, Res.bind_ok, g2Base_eq] at h
      cases s with
      | nil => cases h
      | junk => cases h
      | pt e =>
        simp only [Ptr.get_pt, Res.bind_ok] at h
        cases acc with
        | none => cases h
        | some a =>
          simp only [deref_some, Res.bind_ok] at h
          split at h
          · simp at h
          · cases h

example : ¬ ([[1], [2], [1]] : List Bytes).Nodup := by decide

/-! ## C41 -/

/-- C41: `VerifyBatch` returns an error on unequal numbers of Apks and messages. -/
theorem C41_lengths (apks : List (Option (Apk G2))) (msgs : List Bytes) (s : Option (Signature G1))
    (h : apks.length ≠ msgs.length) : (VerifyBatch P A apks msgs s).IsErr := by
  rw [VerifyBatch, if_pos (Ne.symm h)]
  simp

theorem batchLoop_take (pks extra : List (Ptr G2)) : ∀ (msgs : List Bytes) (i : Nat) (acc : Option GT),
    i + msgs.length ≤ pks.length → batchLoop P A (pks ++ extra) i acc msgs = batchLoop P A pks i acc msgs
  | [], _, _, _ => rfl
  | m :: ms, i, acc, hl => by
    simp only [List.length_cons] at hl
    have : idx (pks ++ extra) i = idx pks i := by
      rw [idx, idx, List.getElem?_append_left (by omega)]
    simp only [batchLoop, this, batchLoop_take pks extra ms (i + 1) _ (by omega)]

theorem verifyBatch_extra (pks extra : List (Ptr G2)) (msgs : List Bytes) (s : Ptr G1) (ad : Bool)
    (hl : msgs.length ≤ pks.length) :
    verifyBatch P A (pks ++ extra) msgs s ad = verifyBatch P A pks msgs s ad := by
  simp only [verifyBatch, batchLoop_take P A pks extra msgs 0 none (by omega)]

theorem mapRes_append {α β : Type} (f : α → Res β) : ∀ (l₁ l₂ : List α),
    mapRes f (l₁ ++ l₂) = (mapRes f l₁).bind fun a => (mapRes f l₂).bind fun b => .ok (a ++ b)
  | [], l₂ => by cases h : mapRes f l₂ <;> simp [mapRes, h]
  | x :: l₁, l₂ => by
    simp only [List.cons_append, mapRes, mapRes_append f l₁]
    cases f x <;> cases mapRes f l₁ <;> cases mapRes f l₂ <;> simp

theorem mapRes_gx (pks : List (PublicKey G2)) :
    mapRes (fun a : Option (PublicKey G2) => (deref a).bind fun a => Res.ok a.gx) (pks.map some) =
      .ok (pks.map fun p => p.gx) := by
  induction pks with
  | nil => rfl
  | cons p ps ih => simp [mapRes, ih]

/-- C41: surplus public keys are ignored by `VerifyUnsafeBatch`: they need not have signed anything. -/
theorem C41_surplus_unsafe (pks extra : List (PublicKey G2)) (msgs : List Bytes) (s : Option (UnsafeSignature G1))
    (hl : msgs.length ≤ pks.length) :
    VerifyUnsafeBatch P A ((pks ++ extra).map some) msgs s = VerifyUnsafeBatch P A (pks.map some) msgs s := by
  simp only [VerifyUnsafeBatch, mapRes_gx, Res.bind_ok]
  rw [List.map_append]
  cases s with
  | none => rfl
  | some s => simp only [deref_some, Res.bind_ok]; exact verifyBatch_extra P A _ _ _ _ _ (by simpa using hl)

/-- C41: … and by `VerifyCompressed`. -/
theorem C41_surplus_compressed (pks extra : List (Ptr G2)) (msgs : List Bytes) (b : Bytes) (ad : Bool)
    (hl : msgs.length ≤ pks.length) :
    VerifyCompressed P A (pks ++ extra) msgs b ad = VerifyCompressed P A pks msgs b ad := by
  simp only [VerifyCompressed, verifyBatch_extra P A pks extra msgs _ ad hl]

theorem batchLoop_missing (gs : List G2) : ∀ (msgs : List Bytes) (i : Nat) (acc : Option GT),
    gs.length < i + msgs.length → i ≤ gs.length → (i = 0 ∨ acc.isSome) →
    batchLoop P A (gs.map .pt) i acc msgs = .panic
  | [], i, acc, h, h', _ => by simp only [List.length_nil] at h; omega
  | m :: ms, i, acc, h, h', ha => by
    simp only [List.length_cons] at h
    simp only [batchLoop, h0_eq, Res.bind_ok]
    by_cases hi : i < gs.length
    · have hidx : idx (gs.map Ptr.pt) i = .ok (.pt gs[i]) := by
        rw [idx_eq_ok, List.getElem?_map, List.getElem?_eq_getElem hi]; rfl
      rw [hidx, Res.bind_ok, Ptr.get_pt, Res.bind_ok]
      split
      · exact batchLoop_missing gs ms _ _ (by omega) (by omega) (.inr rfl)
      · rcases ha with ha | ha
        · omega
        · obtain ⟨a, rfl⟩ := Option.isSome_iff_exists.1 ha
          rw [deref_some, Res.bind_ok]
          exact batchLoop_missing gs ms _ _ (by omega) (by omega) (.inr rfl)
    · rw [idx_of_ge (by simpa using hi), Res.bind_panic]

theorem verifyBatch_missing (gs : List G2) (msgs : List Bytes) (s : Ptr G1) (ad : Bool)
    (hd : ad = true ∨ (msgs.map A.sha3_256).Nodup) (hl : gs.length < msgs.length) :
    verifyBatch P A (gs.map .pt) msgs s ad = .panic := by
  have hc : (!ad && !distinct A msgs) = false := by
    rcases hd with rfl | hd
    · rfl
    · rw [(distinct_iff A msgs).2 hd]; simp
  rw [verifyBatch, hc, if_neg (by simp), batchLoop_missing P A gs msgs 0 none (by omega) (by omega) (.inl rfl),
    Res.bind_panic]

/-- C41: missing public keys crash `VerifyUnsafeBatch` (messages with distinct digests). -/
theorem C41_missing_unsafe (gs : List G2) (msgs : List Bytes) (s : UnsafeSignature G1)
    (hd : (msgs.map A.sha3_256).Nodup) (hl : gs.length < msgs.length) :
    VerifyUnsafeBatch P A (gs.map fun g => some ⟨.pt g⟩) msgs (some s) = .panic := by
  simp only [VerifyUnsafeBatch, mapRes_pks, Res.bind_ok, deref_some]
  exact verifyBatch_missing P A gs msgs _ _ (.inr hd) hl

/-- C41: … and `VerifyCompressed`. -/
theorem C41_missing_compressed (gs : List G2) (msgs : List Bytes) (b : Bytes) (s : G1) (ad : Bool)
    (hb : P.decompress b = some s) (hd : ad = true ∨ (msgs.map A.sha3_256).Nodup) (hl : gs.length < msgs.length) :
    VerifyCompressed P A (gs.map .pt) msgs b ad = .panic := by
  simp only [VerifyCompressed, hb]
  exact verifyBatch_missing P A gs msgs _ _ hd hl

theorem verifyBatch_nil (pks : List (Ptr G2)) (s : Ptr G1) (ad : Bool) :
    verifyBatch P A pks [] s ad = .panic := by
  have : (!ad && !distinct A []) = false := by simp [distinct, distinctLoop]
  rw [verifyBatch, this, if_neg (by simp), batchLoop, Res.bind_ok, g2Base_eq]
  cases s <;> rfl

/-- C41: an empty message list crashes all three functions (with well-formed other arguments). -/
theorem C41_empty (pks : List (PublicKey G2)) (s : UnsafeSignature G1) (s' : Signature G1) (ps : List (Ptr G2))
    (b : Bytes) (e : G1) (ad : Bool) (hb : P.decompress b = some e) :
    VerifyUnsafeBatch P A (pks.map some) [] (some s) = .panic ∧
    VerifyBatch P A [] [] (some s') = .panic ∧
    VerifyCompressed P A ps [] b ad = .panic := by
  refine ⟨?_, ?_, ?_⟩
  · simp only [VerifyUnsafeBatch, mapRes_gx, Res.bind_ok, deref_some, verifyBatch_nil]
  · simp [VerifyBatch, mapRes, verifyBatch_nil]
  · simp only [VerifyCompressed, hb, verifyBatch_nil]

/-! ## C46 -/

theorem aggregateLoop_nil_recv (pk : Option (PublicKey G2)) (pks : List (Option (PublicKey G2)))
    (hpk : pk = none ∨ ∃ g, pk = some ⟨.pt g⟩) : aggregateLoop P A none (pk :: pks) = .panic := by
  rcases hpk with rfl | ⟨g, rfl⟩
  · simp [aggregateLoop, Apk.aggregate, pkt, h1]
  · simp [aggregateLoop, Apk.aggregate, pkt_eq]

theorem aggregateLoop_none : ∀ (gs : List (Option G2)) (a : G2), none ∈ gs →
    aggregateLoop P A (some ⟨some ⟨.pt a⟩⟩) (gs.map (Option.map fun g => ⟨.pt g⟩)) = .panic
  | [], _, h => by simp at h
  | none :: gs, a, _ => by simp [aggregateLoop, Apk.aggregate, pkt, h1]
  | some g :: gs, a, h => by
    simp only [List.map_cons, Option.map_some, aggregateLoop, apk_aggregate_eq]
    exact aggregateLoop_none gs _ (by simpa using h)

/-- C46: `AggregateApk` on every list of keys, nil entries allowed anywhere: nil Apk and no error for the empty
list and for a single nil; a panic if a nil occurs in any longer list; otherwise `Σ H₁(pkᵢ)·pkᵢ`. -/
theorem C46_aggregateApk (gs : List (Option G2)) :
    ((gs = [] ∨ gs = [none]) ∧ aggregateApk P A (gs.map (Option.map fun g => ⟨.pt g⟩)) = .ok none) ∨
    (2 ≤ gs.length ∧ none ∈ gs ∧ aggregateApk P A (gs.map (Option.map fun g => ⟨.pt g⟩)) = .panic) ∨
    (gs ≠ [] ∧ none ∉ gs ∧ ∃ l : List G2, gs = l.map some ∧
      aggregateApk P A (gs.map (Option.map fun g => ⟨.pt g⟩)) =
        .ok (some ⟨some ⟨.pt (l.map fun g => (digest A (P.g2Bytes g) : F) • g).sum⟩⟩)) := by
  cases gs with
  | nil => exact .inl ⟨.inl rfl, rfl⟩
  | cons o gs =>
    cases o with
    | none =>
      cases gs with
      | nil => exact .inl ⟨.inr rfl, rfl⟩
      | cons o' gs =>
        refine .inr (.inl ⟨by simp, by simp, ?_⟩)
        simp only [List.map_cons, aggregateApk, Option.map_none, newApk, Res.bind_ok]
        exact aggregateLoop_nil_recv P A _ _ (by cases o' <;> simp)
    | some g =>
      by_cases hn : none ∈ gs
      · refine .inr (.inl ⟨?_, by simp [hn], ?_⟩)
        · have := List.length_pos_of_mem hn
          simp only [List.length_cons]; omega
        · simp only [List.map_cons, aggregateApk, Option.map_some, newApk_eq, Res.bind_ok]
          exact aggregateLoop_none P A gs _ hn
      · refine .inr (.inr ⟨by simp, by simpa using hn, ?_⟩)
        have hl : ∃ l : List G2, gs = l.map some := by
          clear g
          induction gs with
          | nil => exact ⟨[], rfl⟩
          | cons o gs ih =>
            cases o with
            | none => simp at hn
            | some g =>
              obtain ⟨l, rfl⟩ := ih (by simpa using hn)
              exact ⟨g :: l, rfl⟩
        obtain ⟨l, rfl⟩ := hl
        refine ⟨g :: l, rfl, ?_⟩
        simp only [List.map_cons, aggregateApk, Option.map_some, newApk_eq, Res.bind_ok, List.map_map,
          Function.comp_def]
        rw [aggregateLoop_eq, List.sum_cons]

/-- C46: `Verify` with the nil Apk that `AggregateApk` returns for no keys panics. -/
theorem C46_verify_nil (m : Bytes) (s : Option (Signature G1)) :
    ∃ apk, aggregateApk P A [] = .ok apk ∧ Verify P A apk m s = .panic :=
  ⟨none, rfl, rfl⟩

example (A : Hash.Algs) (m : Bytes) : aggregateApk Toy.bn A [] = .ok none ∧ Verify Toy.bn A none m (some ⟨.pt 3⟩) = .panic := by
  obtain ⟨apk, h1, h2⟩ := C46_verify_nil Toy.bn A m (some ⟨.pt 3⟩)
  have h0 : aggregateApk Toy.bn A [] = .ok none := rfl
  obtain rfl : apk = none := Res.ok.inj (h1.symm.trans h0)
  exact ⟨h0, h2⟩

example : none ∉ ([some (1 : Toy.K), some 2] : List (Option Toy.K)) ∧
    none ∈ ([some (1 : Toy.K), none] : List (Option Toy.K)) := by simp

end Dusk.Bls
