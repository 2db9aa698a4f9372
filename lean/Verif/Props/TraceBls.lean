import Verif.Model.TraceBls
import Verif.Props.Bls
/-!
# C148: the calls made by the functions of package bls
-/

set_option linter.unusedSectionVars false

namespace Dusk.Bls

open Tr Call

variable {F G1 G2 GT : Type} [Field F] [AddCommGroup G1] [AddCommGroup G2] [AddCommGroup GT]
  [Module F G1] [Module F G2] [Module F GT]

namespace Tr

variable {α β : Type}

@[simp] theorem res_lift (r : Res α) : (lift r).res = r := rfl
@[simp] theorem calls_lift (r : Res α) : (lift r).calls = [] := rfl
@[simp] theorem res_call (c : Call) (a : α) : (call c a).res = .ok a := rfl
@[simp] theorem calls_call (c : Call) (a : α) : (call c a).calls = [c] := rfl

@[simp] theorem res_bind (m : Tr α) (f : α → Tr β) : (m.bind f).res = m.res.bind fun a => (f a).res := by
  unfold bind
  cases m.res <;> rfl

theorem calls_bind {m : Tr α} {a : α} (h : m.res = .ok a) (f : α → Tr β) : (m.bind f).calls = m.calls ++ (f a).calls := by
  unfold bind
  rw [h]

@[simp] theorem lift_ok_bind (a : α) (f : α → Tr β) : (lift (.ok a)).bind f = f a := by simp [lift, bind]
@[simp] theorem lift_err_bind (e : String) (f : α → Tr β) : (lift (.err e)).bind f = lift (.err e) := rfl
@[simp] theorem lift_panic_bind (f : α → Tr β) : (lift .panic).bind f = lift .panic := rfl

@[simp] theorem calls_call_bind (c : Call) (a : α) (f : α → Tr β) : ((call c a).bind f).calls = c :: (f a).calls := rfl

end Tr

variable (P : Bn256 F G1 G2 GT) (A : Hash.Algs)

/-! ## Leaving out the calls -/

@[simp] theorem shaT_res (b : Bytes) : (shaT A b).res = (Hash.performHash { alg := A.sha3_256 } b).1 := rfl

@[simp] theorem h0T_res (m : Bytes) : (h0T P A m).res = h0 P A m := by simp [h0T, h0]

@[simp] theorem h1T_res (pk : Option (PublicKey G2)) : (h1T P A pk).res = h1 P A pk := by
  simp [h1T, h1, PublicKey.marshalT, PublicKey.marshal]

@[simp] theorem pktT_res (pk : Option (PublicKey G2)) : (pktT P A pk).res = pkt P A pk := by simp [pktT, pkt]

theorem newApkT_res (pk : Option (PublicKey G2)) : (newApkT P A pk).res = newApk P A pk := by
  cases pk with
  | none => rfl
  | some pk =>
    simp only [newApkT, newApk, pktT_res]
    cases pkt P A (some pk) <;> rfl

theorem aggregateLoopT_res : ∀ (pks : List (Option (PublicKey G2))) (apk : Option (Apk G2)),
    (aggregateLoopT P A apk pks).res = aggregateLoop P A apk pks
  | [], apk => rfl
  | pk :: pks, apk => by
    simp only [aggregateLoopT, aggregateLoop, Apk.aggregateT, Apk.aggregate, res_bind, pktT_res, res_lift, res_call]
    cases pkt P A pk with
    | ok g =>
      simp only [Res.bind_ok]
      cases ((deref apk).bind fun a => a.gx.bind fun p => p.get) with
      | ok a => simp only [Res.bind_ok]; exact aggregateLoopT_res pks _
      | err e => rfl
      | panic => rfl
    | err e => rfl
    | panic => rfl

theorem unsafeBatchLoopT_res : ∀ (sigs : List (Option (UnsafeSignature G1))) (sum : Option (UnsafeSignature G1)),
    (unsafeBatchLoopT sum sigs).res = unsafeBatchLoop sum sigs
  | [], _ => rfl
  | s :: sigs, sum => by
    simp only [unsafeBatchLoopT, unsafeBatchLoop, unsafeAggregateT, unsafeAggregate, res_bind, res_lift, res_call,
      unsafeBatchLoopT_res sigs]

theorem distinctLoopT_res : ∀ (msgs seen : List Bytes), (distinctLoopT A seen msgs).res = .ok (distinctLoop A seen msgs)
  | [], _ => rfl
  | m :: msgs, seen => by
    simp only [distinctLoopT, distinctLoop, res_bind, res_call, Res.bind_ok]
    split
    · rfl
    · exact distinctLoopT_res msgs _

theorem batchLoopT_res (pkeys : List (Ptr G2)) : ∀ (msgs : List Bytes) (i : Nat) (acc : Option GT),
    (batchLoopT P A pkeys i acc msgs).res = batchLoop P A pkeys i acc msgs
  | [], _, _ => rfl
  | m :: msgs, i, acc => by
    simp only [batchLoopT, batchLoop, res_bind, res_lift, res_call, h0T_res, Res.bind_ok]
    congr 1; funext h; congr 1; funext pk; congr 1; funext g
    split
    · exact batchLoopT_res pkeys msgs _ _
    · simp only [res_bind, res_lift, res_call, Res.bind_ok, batchLoopT_res pkeys msgs]

theorem verifyBatchT_res (pkeys : List (Ptr G2)) (msgs : List Bytes) (sig : Ptr G1) (ad : Bool) :
    (verifyBatchT P A pkeys msgs sig ad).res = verifyBatch P A pkeys msgs sig ad := by
  have hd : (if ad then lift (.ok true) else distinctLoopT A [] msgs).res = .ok (ad || distinct A msgs) := by
    cases ad
    · simp [distinctLoopT_res, distinct]
    · rfl
  simp only [verifyBatchT, verifyBatch, res_bind, hd, Res.bind_ok]
  have : (!ad && !distinct A msgs) = !(ad || distinct A msgs) := by cases ad <;> simp
  rw [this]
  cases ad || distinct A msgs
  · rfl
  · simp [batchLoopT_res]

/-- C148: the functions with calls return what the functions of package bls return. -/
theorem C148_same :
    (∀ key msg, (unsafeSignT P A key msg).res = unsafeSign P A key msg) ∧
    (∀ sk pk msg, (signT P A sk pk msg).res = sign P A sk pk msg) ∧
    (∀ pks, (aggregateApkT P A pks).res = aggregateApk P A pks) ∧
    (∀ sigs : List (Option (UnsafeSignature G1)), (unsafeBatchT sigs).res = unsafeBatch sigs) ∧
    (∀ apk msg sigma, (VerifyT P A apk msg sigma).res = Verify P A apk msg sigma) ∧
    (∀ apks msgs sigma, (VerifyBatchT P A apks msgs sigma).res = VerifyBatch P A apks msgs sigma) ∧
    (∀ pks msgs s, (VerifyUnsafeBatchT P A pks msgs s).res = VerifyUnsafeBatch P A pks msgs s) := by
  refine ⟨fun key msg => ?_, fun sk pk msg => ?_, fun pks => ?_, fun sigs => ?_, fun apk msg sigma => ?_,
    fun apks msgs sigma => ?_, fun pks msgs s => ?_⟩
  · simp [unsafeSignT, unsafeSign]
  · simp [signT, sign, unsafeSignT, unsafeSign, apkSigWrapT, apkSigWrap]
  · cases pks with
    | nil => rfl
    | cons pk pks => simp only [aggregateApkT, aggregateApk, res_bind, newApkT_res, aggregateLoopT_res]
  · cases sigs with
    | nil => rfl
    | cons s sigs => exact unsafeBatchLoopT_res sigs s
  · simp only [VerifyT, Verify, verifyT, verify, res_bind, res_lift, res_call, h0T_res, Res.bind_ok, decide_eq_false_iff_not]
  · simp only [VerifyBatchT, VerifyBatch]
    split
    · rfl
    · simp only [res_bind, res_lift, verifyBatchT_res]
  · simp only [VerifyUnsafeBatchT, VerifyUnsafeBatch, res_bind, res_lift, verifyBatchT_res]

/-! ## The calls -/

theorem h0T_res_ok (m : Bytes) : (h0T P A m).res = .ok (hashPoint P A m) := by rw [h0T_res, h0_eq]; rfl

theorem h0T_calls (m : Bytes) : (h0T P A m).calls = [.sha m.length, .g1Base] := rfl

theorem h0T_bind {β : Type} (m : Bytes) (f : G1 → Tr β) :
    ((h0T P A m).bind f).calls = .sha m.length :: .g1Base :: (f (hashPoint P A m)).calls := by
  rw [calls_bind (h0T_res_ok P A m), h0T_calls]
  rfl

theorem h1T_calls (g : G2) : (h1T P A (some ⟨.pt g⟩)).calls = [.g2Bytes, .sha (P.g2Bytes g).length] := rfl

/-- C148: signing makes the same calls for all secret keys, and the hashed lengths are those of the message and of the public key. -/
theorem C148_sign (sk : SecretKey) (g : G2) (msg : Bytes) :
    (unsafeSignT P A sk msg).calls = [.sha msg.length, .g1Base, .g1Mult] ∧
    (signT P A sk (some ⟨.pt g⟩) msg).calls =
      [.sha msg.length, .g1Base, .g1Mult, .g2Bytes, .sha (P.g2Bytes g).length, .g1Mult] := ⟨rfl, rfl⟩

/-- C148: `Verify` makes the same calls, two pairings among them, whether it accepts or not. -/
theorem C148_verify (g : G2) (msg : Bytes) (s : G1) :
    (VerifyT P A (some ⟨some ⟨.pt g⟩⟩) msg (some ⟨.pt s⟩)).calls =
      [.sha msg.length, .g1Base, .pair, .gtBytes, .pair, .gtBytes, .compare] := by
  simp only [VerifyT, deref_some, Apk.gx, Res.bind_ok, lift_ok_bind, verifyT, h0T_bind, Ptr.get_pt, calls_call_bind, g2Base_eq, calls_lift]

/-- The calls of `verifyBatch` for the messages, the first of them without an addition. -/
def batchCalls : List Bytes → List Call
  | [] => []
  | m :: ms => [.sha m.length, .g1Base, .pair] ++ ms.flatMap fun m => [.sha m.length, .g1Base, .pair, .gtAdd]

theorem distinctLoopT_calls : ∀ (msgs seen : List Bytes), (msgs.map A.sha3_256).Nodup → (∀ h ∈ msgs.map A.sha3_256, h ∉ seen) →
    (distinctLoopT A seen msgs).calls = msgs.map fun m => .sha m.length
  | [], _, _, _ => rfl
  | m :: msgs, seen, hn, hs => by
    rw [List.map_cons, List.nodup_cons] at hn
    rw [distinctLoopT, calls_call_bind, if_neg (hs _ (by simp)), distinctLoopT_calls msgs _ hn.2, List.map_cons]
    intro h hh hc
    rcases List.mem_cons.1 hc with rfl | hc
    · exact hn.1 hh
    · exact hs h (by simp [hh]) hc

/-- The digests before the first repetition. -/
theorem distinctLoopT_repeat : ∀ (pre : List Bytes) (m : Bytes) (post seen : List Bytes), (pre.map A.sha3_256).Nodup →
    (∀ h ∈ pre.map A.sha3_256, h ∉ seen) → (A.sha3_256 m ∈ pre.map A.sha3_256 ∨ A.sha3_256 m ∈ seen) →
    (distinctLoopT A seen (pre ++ m :: post)).res = .ok false ∧
      (distinctLoopT A seen (pre ++ m :: post)).calls = (pre ++ [m]).map fun m => .sha m.length
  | [], m, post, seen, _, _, hm => by
    have : A.sha3_256 m ∈ seen := by simpa using hm
    simp [distinctLoopT, calls_call_bind, if_pos this]
  | a :: pre, m, post, seen, hn, hs, hm => by
    rw [List.map_cons, List.nodup_cons] at hn
    have := distinctLoopT_repeat pre m post (A.sha3_256 a :: seen) hn.2 (by
      intro h hh hc
      rcases List.mem_cons.1 hc with rfl | hc
      · exact hn.1 hh
      · exact hs h (by simp [hh]) hc) (by
      rcases hm with hm | hm
      · rw [List.map_cons] at hm
        rcases List.mem_cons.1 hm with hm | hm
        · exact Or.inr (by simp [hm])
        · exact Or.inl hm
      · exact Or.inr (List.mem_cons_of_mem _ hm))
    rw [List.cons_append, distinctLoopT, res_bind, res_call, Res.bind_ok, calls_call_bind, if_neg (hs _ (by simp)), this.1, this.2]
    exact ⟨rfl, rfl⟩

/-- The loop over the messages, with as many keys as needed. -/
theorem batchLoopT_calls (gs : List G2) : ∀ (msgs : List Bytes) (i : Nat) (a : GT), 1 ≤ i → i + msgs.length ≤ gs.length →
    (batchLoopT P A (gs.map .pt) i (some a) msgs).calls = msgs.flatMap fun m => [.sha m.length, .g1Base, .pair, .gtAdd]
  | [], _, _, _, _ => rfl
  | m :: msgs, i, a, hi, hl => by
    have hi' : i < gs.length := by simp at hl; omega
    have hidx : idx (gs.map Ptr.pt) i = .ok (.pt gs[i]) := by simp [idx, hi']
    rw [batchLoopT, h0T_bind, hidx, lift_ok_bind, Ptr.get_pt, lift_ok_bind, calls_call_bind, if_neg (by omega), deref_some, lift_ok_bind,
      calls_call_bind, batchLoopT_calls gs msgs (i + 1) _ (by omega) (by simp at hl; omega), List.flatMap_cons]
    rfl

theorem batchLoopT_start (gs : List G2) (msgs : List Bytes) (hl : msgs.length ≤ gs.length) :
    (batchLoopT P A (gs.map .pt) 0 none msgs).calls = batchCalls msgs := by
  cases msgs with
  | nil => rfl
  | cons m msgs =>
    have hi' : 0 < gs.length := by simp at hl; omega
    have hidx : idx (gs.map Ptr.pt) 0 = .ok (.pt gs[0]) := by simp [idx, hi']
    rw [batchLoopT, h0T_bind, hidx, lift_ok_bind, Ptr.get_pt, lift_ok_bind, calls_call_bind, if_pos rfl,
      batchLoopT_calls P A gs msgs 1 _ le_rfl (by simp at hl; omega), batchCalls]
    rfl

/-- The loop fails at the first message without a key. -/
theorem batchLoopT_short (gs : List G2) : ∀ (msgs : List Bytes) (i : Nat) (a : GT), 1 ≤ i → i ≤ gs.length → gs.length < i + msgs.length →
    (batchLoopT P A (gs.map .pt) i (some a) msgs).res = .panic ∧
    (batchLoopT P A (gs.map .pt) i (some a) msgs).calls =
      ((msgs.take (gs.length - i)).flatMap fun m => [.sha m.length, .g1Base, .pair, .gtAdd]) ++
        ((msgs.drop (gs.length - i)).take 1).flatMap fun m => [.sha m.length, .g1Base]
  | [], _, _, _, h1, h2 => by simp at h2; omega
  | m :: msgs, i, a, hi, h1, h2 => by
    rcases Nat.lt_or_ge i gs.length with hlt | hge
    · have hidx : idx (gs.map Ptr.pt) i = .ok (.pt gs[i]) := by simp [idx, hlt]
      have ih := batchLoopT_short gs msgs (i + 1) (a + P.pair (hashPoint P A m) gs[i]) (by omega) (by omega) (by simp at h2; omega)
      have hsub : gs.length - i = (gs.length - (i + 1)) + 1 := by omega
      constructor
      · rw [batchLoopT, res_bind, h0T_res_ok, Res.bind_ok, hidx, lift_ok_bind, Ptr.get_pt, lift_ok_bind, res_bind, res_call, Res.bind_ok,
          if_neg (by omega), deref_some, lift_ok_bind, res_bind, res_call, Res.bind_ok]
        exact ih.1
      · rw [batchLoopT, h0T_bind, hidx, lift_ok_bind, Ptr.get_pt, lift_ok_bind, calls_call_bind, if_neg (by omega), deref_some, lift_ok_bind,
          calls_call_bind, ih.2, hsub, List.take_succ_cons, List.drop_succ_cons, List.flatMap_cons]
        simp
    · have hidx : idx (gs.map (Ptr.pt (P := G2))) i = .panic := by simp [idx, hge]
      have hz : gs.length - i = 0 := by omega
      constructor
      · rw [batchLoopT, res_bind, h0T_res_ok, Res.bind_ok, hidx, lift_panic_bind, res_lift]
      · rw [batchLoopT, h0T_bind, hidx, lift_panic_bind, calls_lift, hz]
        simp

theorem batchLoop_ok (gs : List G2) (msgs : List Bytes) (hl : msgs.length ≤ gs.length) :
    ∃ acc, batchLoop P A (gs.map .pt) 0 none msgs = .ok acc ∧ (msgs ≠ [] → ∃ a, acc = some a) := by
  cases msgs with
  | nil => exact ⟨none, rfl, fun h => (h rfl).elim⟩
  | cons m ms =>
    cases gs with
    | nil => simp at hl
    | cons g gs => exact ⟨_, batchLoop_zero P A (g :: gs) m ms hl, fun _ => ⟨_, rfl⟩⟩

/-- C148: a batch of messages with different digests: every message is hashed twice, and there is one pairing more than there are
messages; also if the signature is wrong, and if there are more keys than messages. -/
theorem C148_batch (gs : List G2) (msgs : List Bytes) (s : G1) (hne : msgs ≠ []) (hl : msgs.length ≤ gs.length)
    (hd : (msgs.map A.sha3_256).Nodup) :
    (VerifyUnsafeBatchT P A (gs.map fun g => some ⟨.pt g⟩) msgs (some ⟨.pt s⟩)).calls =
      (msgs.map fun m => .sha m.length) ++ batchCalls msgs ++ [.pair, .gtBytes, .gtBytes, .compare] ∧
    (msgs.length = gs.length →
      (VerifyBatchT P A (gs.map fun g => some ⟨some ⟨.pt g⟩⟩) msgs (some ⟨.pt s⟩)).calls =
        (msgs.map fun m => .sha m.length) ++ batchCalls msgs ++ [.pair, .gtBytes, .gtBytes, .compare]) := by
  have key : (verifyBatchT P A (gs.map .pt) msgs (.pt s) false).calls =
      (msgs.map fun m => .sha m.length) ++ batchCalls msgs ++ [.pair, .gtBytes, .gtBytes, .compare] := by
    obtain ⟨acc, e, ha⟩ := batchLoop_ok P A gs msgs hl
    obtain ⟨a, rfl⟩ := ha hne
    have e' := (batchLoopT_res P A (gs.map .pt) msgs 0 none).trans e
    have hd' : (distinctLoopT A [] msgs).res = .ok true := by
      rw [distinctLoopT_res]; exact congrArg _ ((distinct_iff A msgs).2 hd)
    rw [verifyBatchT, if_neg (by simp), calls_bind hd', distinctLoopT_calls A msgs [] hd (by simp), if_neg (by simp), calls_bind e',
      batchLoopT_start P A gs msgs hl, g2Base_eq]
    simp
  have m1 : mapRes (fun a : Option (PublicKey G2) => (deref a).bind fun a => .ok a.gx) (gs.map fun g => some ⟨.pt g⟩) = .ok (gs.map .pt) := by
    clear hl key
    induction gs with
    | nil => rfl
    | cons g gs ih => simp only [List.map_cons, mapRes, deref_some, Res.bind_ok, ih]
  have m2 : mapRes (fun a : Option (Apk G2) => (deref a).bind Apk.gx) (gs.map fun g => some ⟨some ⟨.pt g⟩⟩) = .ok (gs.map .pt) := by
    clear hl key m1
    induction gs with
    | nil => rfl
    | cons g gs ih => simp only [List.map_cons, mapRes, deref_some, Res.bind_ok, Apk.gx, ih]
  refine ⟨?_, fun hlen => ?_⟩
  · rw [VerifyUnsafeBatchT, m1, lift_ok_bind, deref_some, lift_ok_bind, key]
  · rw [VerifyBatchT, if_neg (by simp [hlen]), m2, lift_ok_bind, deref_some, lift_ok_bind, key]

/-- C148: if a message repeats, the messages are hashed up to the first repetition and nothing else is computed, whatever the keys and
the signature. -/
theorem C148_repeated (pks : List (Ptr G2)) (pre post : List Bytes) (m : Bytes) (sig : Ptr G1) (hd : (pre.map A.sha3_256).Nodup)
    (hm : A.sha3_256 m ∈ pre.map A.sha3_256) :
    (verifyBatchT P A pks (pre ++ m :: post) sig false).calls = (pre ++ [m]).map fun m => .sha m.length := by
  obtain ⟨h1, h2⟩ := distinctLoopT_repeat A pre m post [] hd (by simp) (Or.inl hm)
  rw [verifyBatchT, if_neg (by simp), calls_bind h1, h2]
  simp

/-- C148: an empty batch costs a pairing before the panic. -/
theorem C148_empty (pks : List (Ptr G2)) (s : G1) (ad : Bool) :
    (verifyBatchT P A pks [] (.pt s) ad).calls = [.pair, .gtBytes] ∧ (verifyBatchT P A pks [] (.pt s) ad).res = .panic := by
  have h : (if ad = true then lift (.ok true) else distinctLoopT A [] []) = lift (.ok true) := by cases ad <;> rfl
  rw [verifyBatchT, h, lift_ok_bind, if_neg (by simp), batchLoopT, lift_ok_bind, g2Base_eq]
  exact ⟨rfl, rfl⟩

/-- C148: with fewer keys than messages, all keys are paired before the panic. -/
theorem C148_short (g : G2) (gs : List G2) (m : Bytes) (msgs : List Bytes) (s : Ptr G1) (hl : gs.length < msgs.length)
    (hd : ((m :: msgs).map A.sha3_256).Nodup) :
    (verifyBatchT P A ((g :: gs).map .pt) (m :: msgs) s false).calls =
      ((m :: msgs).map fun m => .sha m.length) ++ batchCalls (m :: msgs.take gs.length) ++
        ((msgs.drop gs.length).take 1).flatMap (fun m => [.sha m.length, .g1Base]) ∧
    (verifyBatchT P A ((g :: gs).map .pt) (m :: msgs) s false).res = .panic := by
  have hd' : (distinctLoopT A [] (m :: msgs)).res = .ok true := by
    rw [distinctLoopT_res]; exact congrArg _ ((distinct_iff A _).2 hd)
  have hidx : idx ((g :: gs).map Ptr.pt) 0 = .ok (.pt g) := by simp [idx]
  obtain ⟨r, c⟩ := batchLoopT_short P A (g :: gs) msgs 1 (P.pair (hashPoint P A m) g) le_rfl (by simp) (by simp; omega)
  have hr : (batchLoopT P A ((g :: gs).map .pt) 0 none (m :: msgs)).res = .panic := by
    rw [batchLoopT, res_bind, h0T_res_ok, Res.bind_ok, hidx, lift_ok_bind, Ptr.get_pt, lift_ok_bind, res_bind, res_call, Res.bind_ok,
      if_pos rfl]
    exact r
  have hc : (batchLoopT P A ((g :: gs).map .pt) 0 none (m :: msgs)).calls = batchCalls (m :: msgs.take gs.length) ++
      ((msgs.drop gs.length).take 1).flatMap (fun m => [.sha m.length, .g1Base]) := by
    rw [batchLoopT, h0T_bind, hidx, lift_ok_bind, Ptr.get_pt, lift_ok_bind, calls_call_bind, if_pos rfl, c]
    simp [batchCalls]
  constructor
  · rw [verifyBatchT, if_neg (by simp), calls_bind hd', distinctLoopT_calls A _ [] hd (by simp), if_neg (by simp), List.append_assoc,
      ← hc, Tr.bind, hr]
  · rw [verifyBatchT, if_neg (by simp), res_bind, hd', Res.bind_ok, if_neg (by simp), res_bind, hr]
    rfl

/-- C148: aggregating `n` keys hashes and multiplies every key once; aggregating `n` signatures adds `n - 1` times. -/
theorem C148_aggregate (g : G2) (gs : List G2) (s : G1) (ss : List G1) :
    (aggregateApkT P A ((g :: gs).map fun g => some ⟨.pt g⟩)).calls = [.g2Bytes, .sha (P.g2Bytes g).length, .g2Mult] ++
      gs.flatMap (fun g => [.g2Bytes, .sha (P.g2Bytes g).length, .g2Mult, .g2Add]) ∧
    (unsafeBatchT ((s :: ss).map fun s => some ⟨.pt s⟩)).calls = List.replicate ss.length .g1Add := by
  have key : ∀ (gs : List G2) (a : G2), (aggregateLoopT P A (some ⟨some ⟨.pt a⟩⟩) (gs.map fun g => some ⟨.pt g⟩)).calls =
      gs.flatMap (fun g => [.g2Bytes, .sha (P.g2Bytes g).length, .g2Mult, .g2Add]) := by
    intro gs
    induction gs with
    | nil => intro a; rfl
    | cons g gs ih =>
      intro a
      have h : (Apk.aggregateT P A (some ⟨some ⟨.pt a⟩⟩) (some ⟨.pt g⟩)).res =
          .ok (some ⟨some ⟨.pt (a + (digest A (P.g2Bytes g) : F) • g)⟩⟩) := by
        rw [Apk.aggregateT, res_bind, pktT_res, pkt_eq, Res.bind_ok]
        rfl
      rw [List.map_cons, aggregateLoopT, calls_bind h, ih, List.flatMap_cons]
      rfl
  have key2 : ∀ (ss : List G1) (a : G1), (unsafeBatchLoopT (some ⟨.pt a⟩) (ss.map fun s => some ⟨.pt s⟩)).calls =
      List.replicate ss.length .g1Add := by
    intro ss
    induction ss with
    | nil => intro a; rfl
    | cons s ss ih =>
      intro a
      have h : (unsafeAggregateT (some ⟨.pt a⟩) (some ⟨.pt s⟩)).res = .ok ⟨.pt (a + s)⟩ := rfl
      rw [List.map_cons, unsafeBatchLoopT, calls_bind h, ih, List.length_cons, List.replicate_succ]
      rfl
  refine ⟨?_, key2 ss s⟩
  have h : (newApkT P A (some ⟨.pt g⟩)).res = .ok (some ⟨some ⟨.pt ((digest A (P.g2Bytes g) : F) • g)⟩⟩) := by
    rw [newApkT_res]; exact newApk_eq P A g
  rw [List.map_cons, aggregateApkT, calls_bind h, key]
  rfl

/-- C148: the number of pairings is at most the number of messages plus one, for all arguments. -/
theorem C148_pairings (pks : List (Ptr G2)) (msgs : List Bytes) (sig : Ptr G1) (ad : Bool) :
    (verifyBatchT P A pks msgs sig ad).calls.count .pair ≤ msgs.length + 1 := by
  have bnd : ∀ {α β : Type} (m : Tr α) (f : α → Tr β) (n k : Nat), m.calls.count .pair ≤ n →
      (∀ a, m.res = .ok a → (f a).calls.count .pair ≤ k) → (m.bind f).calls.count .pair ≤ n + k := by
    intro α β m f n k hm hf
    unfold Tr.bind
    split
    · rename_i a e
      rw [List.count_append]
      exact Nat.add_le_add hm (hf a e)
    · exact hm.trans (by omega)
    · exact hm.trans (by omega)
  have hdist : ∀ (msgs seen : List Bytes), (distinctLoopT A seen msgs).calls.count .pair ≤ 0 := by
    intro msgs
    induction msgs with
    | nil => intro seen; simp [distinctLoopT]
    | cons m msgs ih =>
      intro seen
      rw [distinctLoopT, calls_call_bind, List.count_cons_of_ne (by simp)]
      split
      · simp
      · exact ih _
  have hloop : ∀ (msgs : List Bytes) (i : Nat) (acc : Option GT), (batchLoopT P A pks i acc msgs).calls.count .pair ≤ msgs.length := by
    intro msgs
    induction msgs with
    | nil => intro i acc; simp [batchLoopT]
    | cons m msgs ih =>
      intro i acc
      rw [batchLoopT, h0T_bind, List.count_cons_of_ne (by simp), List.count_cons_of_ne (by simp), List.length_cons, Nat.add_comm]
      refine (bnd _ _ 0 (0 + (1 + msgs.length)) (by simp) fun pk _ => bnd _ _ 0 (1 + msgs.length) (by simp) fun g _ => ?_).trans
        (by omega)
      refine bnd _ _ 1 msgs.length (by simp) fun a _ => ?_
      split
      · exact ih _ _
      · refine (bnd _ _ 0 (0 + msgs.length) (by simp) fun b _ => bnd _ _ 0 msgs.length (by simp) fun c _ => ih _ _).trans (by omega)
  rw [verifyBatchT]
  refine (bnd _ _ 0 (msgs.length + 1) ?_ fun d _ => ?_).trans (by omega)
  · split
    · simp
    · exact hdist _ _
  · split
    · simp
    · refine bnd _ _ msgs.length 1 (hloop _ _ _) fun acc _ => ?_
      refine (bnd _ _ 0 (0 + 1) (by simp) fun s _ => bnd _ _ 0 1 (by simp) fun b _ => ?_).trans (by omega)
      rw [calls_call_bind, calls_call_bind]
      cases acc with
      | none => simp
      | some acc => simp

theorem batchCalls_pairs (msgs : List Bytes) : (batchCalls msgs).count .pair = msgs.length := by
  have h : ∀ ms : List Bytes, (ms.flatMap fun m : Bytes => [Call.sha m.length, .g1Base, .pair, .gtAdd]).count .pair = ms.length := by
    intro ms
    induction ms with
    | nil => rfl
    | cons m ms ih => rw [List.flatMap_cons, List.count_append, ih, List.length_cons, Nat.add_comm]; rfl
  cases msgs with
  | nil => rfl
  | cons m ms => rw [batchCalls, List.count_append, h, List.length_cons, Nat.add_comm]; rfl

/-- C148: for `n` different messages a batch costs `n + 1` pairings, and verifying them one by one `2 n`. -/
theorem C148_saving (gs : List G2) (msgs : List Bytes) (s : G1) (hne : msgs ≠ []) (hl : msgs.length ≤ gs.length)
    (hd : (msgs.map A.sha3_256).Nodup) :
    (VerifyUnsafeBatchT P A (gs.map fun g => some ⟨.pt g⟩) msgs (some ⟨.pt s⟩)).calls.count .pair = msgs.length + 1 ∧
    ∀ (g : G2) (m : Bytes) (s : G1), (VerifyT P A (some ⟨some ⟨.pt g⟩⟩) m (some ⟨.pt s⟩)).calls.count .pair = 2 := by
  refine ⟨?_, fun g m s => ?_⟩
  · have h0 : (msgs.map fun m : Bytes => Call.sha m.length).count .pair = 0 := by
      rw [List.count_eq_zero]; simp
    rw [(C148_batch P A gs msgs s hne hl hd).1, List.count_append, List.count_append, batchCalls_pairs, h0, Nat.zero_add]
    rfl
  · rw [C148_verify]
    rfl

/-! ## Examples -/

example : (VerifyUnsafeBatchT Toy.bn Hash.toyAlgs [some ⟨.pt 5⟩, some ⟨.pt 6⟩] [[7], [8, 8]] (some ⟨.pt 1⟩)).calls =
    [.sha 1, .sha 2, .sha 1, .g1Base, .pair, .sha 2, .g1Base, .pair, .gtAdd, .pair, .gtBytes, .gtBytes, .compare] :=
  (C148_batch Toy.bn Hash.toyAlgs [5, 6] [[7], [8, 8]] 1 (by simp) le_rfl (by decide)).1

example : (VerifyUnsafeBatchT Toy.bn Hash.toyAlgs [some ⟨.pt 5⟩, some ⟨.pt 6⟩] [[7], [8, 8]] (some ⟨.pt 1⟩)).calls.count .pair = 3 :=
  (C148_saving Toy.bn Hash.toyAlgs [5, 6] [[7], [8, 8]] 1 (by simp) le_rfl (by decide)).1

example : (verifyBatchT Toy.bn Hash.toyAlgs [.nil] [[7], [8, 8], [7], [9]] .nil false).calls = [.sha 1, .sha 2, .sha 1] :=
  C148_repeated Toy.bn Hash.toyAlgs [.nil] [[7], [8, 8]] [[9]] [7] .nil (by decide) (by decide)

example : (verifyBatchT Toy.bn Hash.toyAlgs [.pt 5] [[7], [8, 8], [9]] .nil false).calls =
    [.sha 1, .sha 2, .sha 1, .sha 1, .g1Base, .pair, .sha 2, .g1Base] :=
  (C148_short Toy.bn Hash.toyAlgs 5 [] [7] [[8, 8], [9]] .nil (by decide) (by decide)).1

example : (verifyBatchT Toy.bn Hash.toyAlgs [.pt 5, .nil] [] (.pt 1) false).calls.count .pair ≤ 1 :=
  C148_pairings Toy.bn Hash.toyAlgs [.pt 5, .nil] [] (.pt 1) false

example : (verifyBatchT Toy.bn Hash.toyAlgs [.pt 5] [] (.pt 1) false).res = .panic := (C148_empty Toy.bn Hash.toyAlgs [.pt 5] 1 false).2

example : (signT Toy.bn Hash.toyAlgs ⟨3⟩ (some ⟨.pt 5⟩) [7, 7]).calls = (signT Toy.bn Hash.toyAlgs ⟨4⟩ (some ⟨.pt 5⟩) [8, 9]).calls := by
  rw [(C148_sign Toy.bn Hash.toyAlgs ⟨3⟩ 5 [7, 7]).2, (C148_sign Toy.bn Hash.toyAlgs ⟨4⟩ 5 [8, 9]).2]
  rfl

example : (VerifyT Toy.bn Hash.toyAlgs (some ⟨some ⟨.pt 5⟩⟩) [7] (some ⟨.pt 0⟩)).calls =
    (VerifyT Toy.bn Hash.toyAlgs (some ⟨some ⟨.pt 0⟩⟩) [8] (some ⟨.pt 0⟩)).calls := by
  rw [C148_verify, C148_verify]
  rfl

example : (unsafeBatchT ([1, 2, 3].map fun s : Toy.K => some ⟨.pt s⟩)).calls = [.g1Add, .g1Add] :=
  (C148_aggregate Toy.bn Hash.toyAlgs 5 [6] 1 [2, 3]).2

example : (VerifyBatchT Toy.bn Hash.toyAlgs [] [[7]] none).res = .err "BLS Verify APK Batch" :=
  ((C148_same Toy.bn Hash.toyAlgs).2.2.2.2.2.1 [] [[7]] none).trans rfl

end Dusk.Bls
