import Verif.Model.Via
import Verif.Props.Merkle
import Verif.Props.Bls
/-!
# C158: methods on nil pointers and zero values
-/

set_option linter.unusedSectionVars false

namespace Dusk.Via

/-! ## mlsag -/

section Mlsag

open Dusk.Mlsag

variable {F G : Type} [Field F] [AddCommGroup G] [Module F G]

/-- C158: through a pointer that is not nil, the methods of `Proof` do what `Verif.Model.Mlsag` says. -/
theorem C158_proof_agrees (R : Ristretto F G) (p : Proof F G) :
    (∀ k, addDecoy (some p) k = (.ok (), some (p.addDecoy k))) ∧
    (∀ ks, addDecoys (some p) ks = (.ok (), some (p.addDecoys ks))) ∧
    (∀ x, addSecret R (some p) x = (.ok (), some (p.addSecret R x))) ∧ lenMembers (some p) = .ok p.matrix.length := by
  refine ⟨fun _ => rfl, fun ks => ?_, fun _ => rfl, rfl⟩
  induction ks generalizing p with
  | nil => rfl
  | cons k ks ih => exact ih (p.addDecoy k)

/-- C158: on a nil `*Proof`, `AddDecoys` of no vectors returns; everything else panics. -/
theorem C158_proof_nil (R : Ristretto F G) :
    (∀ k, addDecoy (none : Option (Proof F G)) k = (.panic, none)) ∧
    (∀ ks, addDecoys (none : Option (Proof F G)) ks = if ks = [] then (.ok (), none) else (.panic, none)) ∧
    (∀ x, addSecret R (none : Option (Proof F G)) x = (.panic, none)) ∧ lenMembers (none : Option (Proof F G)) = .panic := by
  refine ⟨fun _ => rfl, fun ks => ?_, fun _ => rfl, rfl⟩
  cases ks <;> rfl

example : addDecoys (none : Option (Proof ℚ ℚ)) [] = (.ok (), none) ∧
    addDecoys (none : Option (Proof ℚ ℚ)) [⟨false, [1]⟩, {}] = (.panic, none) := ⟨rfl, rfl⟩

/-- C158: key vectors and responses through a pointer: on nil every method other than `Decode` panics, and nothing is written;
otherwise the pointer makes no difference. -/
theorem C158_vectors [DecidableEq G] (R : Ristretto F G) (p : PubKeys G) (res : List F) :
    ((∀ other : PubKeys G, pubKeysEquals none other = .panic) ∧ (∀ w, pubKeysEncode R none w = (.panic, w)) ∧
      (∀ k : G, addPubKey none k = (.panic, none)) ∧ pubKeysLen (none : Option (PubKeys G)) = .panic ∧
      outputKey (none : Option (PubKeys G)) = .panic ∧ (∀ x : F, addResponse none x = (.panic, none)) ∧
      ∀ x : F, addPrivateKey none x = (.panic, none)) ∧
    ((∀ other : PubKeys G, pubKeysEquals (some p) other = .ok (decide (p.keys = other.keys))) ∧
      pubKeysEncode R (some p) = p.encode R ∧ (∀ k, addPubKey (some p) k = (.ok (), some ⟨p.decoy, p.keys ++ [k]⟩)) ∧
      pubKeysLen (some p) = .ok p.keys.length ∧ (∀ k ks, p.keys = k :: ks → outputKey (some p) = .ok k) ∧
      (∀ x, addResponse (some res) x = (.ok (), some (res ++ [x]))) ∧
      ∀ x, addPrivateKey (some res) x = (.ok (), some (res ++ [x]))) := by
  refine ⟨⟨fun _ => rfl, fun _ => rfl, fun _ => rfl, rfl, rfl, fun _ => rfl, fun _ => rfl⟩,
    ⟨fun other => ?_, rfl, fun _ => rfl, rfl, fun k ks h => ?_, fun _ => rfl, fun _ => rfl⟩⟩
  · have : listEquals p.keys other.keys = decide (p.keys = other.keys) := by
      generalize p.keys = a
      generalize other.keys = b
      have key : ∀ (a b : List G), a.length = b.length →
          ((a.zip b).all fun p => decide (p.1 = p.2)) = decide (a = b) := by
        intro a
        induction a with
        | nil => intro b hb; cases b <;> simp_all
        | cons x a ih =>
          intro b hb
          cases b with
          | nil => simp at hb
          | cons y b =>
            have := ih b (by simpa using hb)
            by_cases hxy : x = y <;> simp [hxy, this]
      unfold listEquals
      split
      · rename_i hl
        symm
        rw [decide_eq_false_iff_not]
        rintro rfl
        exact hl rfl
      · rename_i hl
        exact key a b (by simpa using hl)
    change Res.ok (listEquals p.keys other.keys) = _
    rw [this]
  · change idx p.keys 0 = _
    rw [h]
    rfl

example (R : Ristretto ℚ ℚ) : pubKeysEncode R none ⟨[9], 5, 0⟩ = (.panic, ⟨[9], 5, 0⟩) := ((C158_vectors R {} []).1).2.1 _

/-- C158: a nil `*Signature` panics in `Encode`, before anything is written, in `Equals` and in `Verify`; the zero value of
`Signature` is an ordinary value: `Verify` returns an error, it equals itself, and `Encode` writes the 36 bytes of an empty
signature. -/
theorem C158_signature [DecidableEq F] [DecidableEq G] (R : Ristretto F G) :
    ((∀ ek w, sigEncode R ek (none : Option (Signature F G)) w = (.panic, w)) ∧
      (∀ o ik, sigEquals (none : Option (Signature F G)) o ik = .panic) ∧
      ∀ ims, sigVerify R (none : Option (Signature F G)) ims = .panic) ∧
    (∀ s : Signature F G, (∀ ek, sigEncode R ek (some s) = s.encode R ek) ∧ (∀ o ik, sigEquals (some s) o ik = s.equals o ik) ∧
      ∀ ims, sigVerify R (some s) ims = s.verify R ims) ∧
    ((∀ ims, (sigVerify R (some (⟨0, [], [], []⟩ : Signature F G)) ims).IsErr) ∧
      (∀ ik, sigEquals (some (⟨0, [], [], []⟩ : Signature F G)) ⟨0, [], [], []⟩ ik = .ok true) ∧
      ∀ ek n pt out, 2 ≤ n → ∃ w, sigEncode R ek (some (⟨0, [], [], []⟩ : Signature F G)) ⟨out, n, pt⟩ = (.ok (), w) ∧
        w.out = out ++ R.sBytes 0 ++ [0, 0, 0, 0]) := by
  refine ⟨⟨fun _ _ => rfl, fun _ _ => rfl, fun _ => rfl⟩, fun s => ⟨fun _ => rfl, fun _ _ => rfl, fun _ => rfl⟩,
    fun ims => ⟨_, rfl⟩, fun ik => ?_, fun ek n pt out hn => ?_⟩
  · cases ik <;> simp [sigEquals, reading, Signature.equals, equalsLoop]
  · obtain ⟨n, rfl⟩ : ∃ m, n = m + 2 := ⟨n - 2, by omega⟩
    exact ⟨_, rfl, congrArg (out ++ R.sBytes 0 ++ ·) (by decide : be32 0 = [0, 0, 0, 0])⟩

/-- C158: after `NewDualKey`, and after every call that follows, a `DualKey` has its two keys, and the methods do what
`Verif.Model.Mlsag` says. -/
theorem C158_dual_agrees [DecidableEq F] (R : Ristretto F G) (d : DualKey F G) :
    (Dual.new : Dual F G) = Dual.of DualKey.new ∧
    (∀ x, setPrimaryKey R (some (Dual.of d)) x = (.ok (x • R.base), some (Dual.of (d.setPrimaryKey R x).1))) ∧
    (∀ x, setCommToZero R (some (Dual.of d)) x = (.ok (x • R.base), some (Dual.of (d.setCommToZero R x).1))) ∧
    (∀ m, setMsg (some (Dual.of d)) m = (.ok (), some (Dual.of (d.setMsg m)))) ∧
    (∀ ks, promoted (fun p => addDecoys p ks) (some (Dual.of d)) =
      (.ok (), some (Dual.of { d with proof := d.proof.addDecoys ks }))) ∧
    (∀ P, subCommToZero (some (Dual.of d)) P = (d.subCommToZero P).bind fun d' => .ok (Dual.of d')) ∧
    ∀ coins, dualProve R coins (some (Dual.of d)) = ((d.prove R coins).2, some (Dual.of (d.prove R coins).1)) := by
  refine ⟨rfl, fun _ => rfl, fun _ => rfl, fun _ => rfl, fun ks => ?_, fun P => ?_, fun coins => ?_⟩
  · simp only [promoted, Dual.of, (C158_proof_agrees R d.proof).2.1, Option.getD]
  · simp only [subCommToZero, reading, Dual.of, DualKey.subCommToZero, Bls.deref_some, Res.bind_ok]
    cases mapRes (PubKeys.subSecond P) d.proof.matrix <;> rfl
  · simp only [dualProve, changing, Dual.prove, Dual.of, DualKey.prove]
    by_cases h0 : d.key0 = 0
    · simp [idx, h0]
    · by_cases h1 : d.key1 = 0
      · simp [idx, h0, h1]
      · simp only [idx, h0, h1, if_false, or_self, List.getElem?_cons_zero, List.getElem?_cons_succ]
        rfl

/-- A call on a `DualKey`. Every method other than the three that use the keys changes at most the embedded proof, also when it
panics on the way. -/
inductive DualCall (F G : Type) where
  | setPrimaryKey (x : F)
  | setCommToZero (x : F)
  | prove (coins : Coins F)
  | other (f : Proof F G → Proof F G)

/-- The `DualKey` after a call, whose panic, if any, is recovered. -/
def Dual.call [DecidableEq F] (R : Ristretto F G) (d : Dual F G) : DualCall F G → Dual F G
  | .setPrimaryKey x => (setPrimaryKey R (some d) x).2.getD d
  | .setCommToZero x => (setCommToZero R (some d) x).2.getD d
  | .prove coins => (dualProve R coins (some d)).2.getD d
  | .other f => { d with proof := f d.proof }

theorem Dual.call_length [DecidableEq F] (R : Ristretto F G) (d : Dual F G) (c : DualCall F G) :
    (d.call R c).dualkeys.length = d.dualkeys.length := by
  cases c with
  | setPrimaryKey x =>
    simp only [Dual.call, Via.setPrimaryKey, changing, Dual.setKey]
    split <;> simp
  | setCommToZero x =>
    simp only [Dual.call, Via.setCommToZero, changing, Dual.setKey]
    split <;> simp
  | prove coins =>
    simp only [Dual.call, dualProve, changing, Dual.prove, Option.getD_some]
    split
    · split
      · rfl
      · split
        · split <;> rfl
        · rfl
    · rfl
  | other f => rfl

/-- C158: a `DualKey` that was not made by `NewDualKey` stays unusable, whatever is called on it: the two setters and `Prove`
panic, and change nothing. One made by `NewDualKey` never panics in the setters. -/
theorem C158_dual_zero [DecidableEq F] (R : Ristretto F G) (calls : List (DualCall F G)) :
    (∀ d, d = calls.foldl (Dual.call R) {} → (∀ x, setPrimaryKey R (some d) x = (.panic, some d)) ∧
      (∀ x, setCommToZero R (some d) x = (.panic, some d)) ∧ ∀ coins, dualProve R coins (some d) = (.panic, some d)) ∧
    (∀ d, d = calls.foldl (Dual.call R) Dual.new → (∀ x, (setPrimaryKey R (some d) x).1 = .ok (x • R.base)) ∧
      (∀ x, (setCommToZero R (some d) x).1 = .ok (x • R.base)) ∧ ∃ d', d = Dual.of d') := by
  have key : ∀ (l : List (DualCall F G)) (d : Dual F G), (l.foldl (Dual.call R) d).dualkeys.length = d.dualkeys.length := by
    intro l
    induction l with
    | nil => intro d; rfl
    | cons c l ih => intro d; rw [List.foldl_cons, ih, Dual.call_length]
  constructor
  · rintro d hd
    have hl : d.dualkeys = [] := by
      have := key calls {}
      rw [← hd] at this
      exact List.length_eq_zero_iff.1 this
    obtain ⟨p, ks⟩ := d
    subst hl
    exact ⟨fun _ => rfl, fun _ => rfl, fun _ => rfl⟩
  · rintro d hd
    have hl : d.dualkeys.length = 2 := by
      have := key calls Dual.new
      rw [← hd] at this
      exact this
    obtain ⟨p, ks⟩ := d
    match ks, hl with
    | [a, b], _ => exact ⟨fun _ => rfl, fun _ => rfl, ⟨p, a, b⟩, rfl⟩

example (R : Ristretto ℚ ℚ) (coins : Coins ℚ) :
    dualProve R coins (some ([DualCall.setPrimaryKey 3, .other fun p => p.addDecoy {}, .setCommToZero 4].foldl (Dual.call R) {})) =
      (.panic, some ⟨{ matrix := [⟨true, []⟩] }, []⟩) :=
  ((C158_dual_zero R _).1 _ rfl).2.2 coins

/-- C158: a nil `*DualKey` panics in every method, also in `AddDecoys` of no vectors. -/
theorem C158_dual_nil [DecidableEq F] (R : Ristretto F G) :
    (∀ x, setPrimaryKey R (none : Option (Dual F G)) x = (.panic, none)) ∧
    (∀ x, setCommToZero R (none : Option (Dual F G)) x = (.panic, none)) ∧
    (∀ m, setMsg (none : Option (Dual F G)) m = (.panic, none)) ∧
    (∀ P, subCommToZero (none : Option (Dual F G)) P = .panic) ∧
    (∀ coins, dualProve R coins none = (.panic, none)) ∧
    ∀ ks, promoted (fun p : Option (Proof F G) => addDecoys p ks) none = (.panic, none) :=
  ⟨fun _ => rfl, fun _ => rfl, fun _ => rfl, fun _ => rfl, fun _ => rfl, fun _ => rfl⟩

end Mlsag

/-! ## rangeproof and its packages -/

section RangeProof

variable {F G : Type} [Field F] [AddCommGroup G] [Module F G]

theorem commitVecLoop_some (R : Ristretto F G) (blind : F) (vs : List (List F)) : ∀ (i : Nat) (p : Pedersen G) (sum : G),
    commitVecLoop R blind i vs (some p) sum = (Pedersen.commitVecLoop R blind i vs p sum).bind fun r => .ok (r.1, some r.2) := by
  induction vs with
  | nil => intro i p sum; rfl
  | cons v vs ih =>
    intro i p sum
    unfold commitVecLoop Pedersen.commitVecLoop
    by_cases hi : i = 0
    · simp only [if_pos hi, Bls.deref_some, Res.bind_ok]
      cases p.commitToScalars R (some blind) v with
      | ok c => exact ih _ _ _
      | err e => rfl
      | panic => rfl
    · simp only [if_neg hi, Bls.deref_some, Res.bind_ok]
      cases (Pedersen.new R (p.genData ++ [UInt8.ofNat i])).commitToScalars R none v with
      | ok c => exact ih _ _ _
      | err e => rfl
      | panic => rfl

/-- C158: through pointers that are not nil, generators, transcripts and Pedersen values do what the other models say. -/
theorem C158_commit_agrees (R : Ristretto F G) (g : Gen G) (h : HashCacher) (p : Pedersen G) :
    (genClear (some g) = (.ok (), some g.clear) ∧ genIterate R (some g) = .ok (g.iterate R) ∧
      ∀ n, genCompute R (some g) n = (.ok (), some (g.compute R n))) ∧
    ((∀ vals, cacheAppend (some h) vals = (.ok (), some (h.append vals))) ∧ cacheResult (some h) = .ok h.cache ∧
      cacheClear (some h) = (.ok (), some ⟨[]⟩) ∧ cacheDerive R (some h) = .ok (R.sDerive h.cache)) ∧
    (∀ v blind : F, commitToScalar (some p) v blind = .ok (p.commitToScalar v blind)) ∧
    ∀ (vs : List (List F)) blind, commitToVectors R (some p) vs blind =
      (p.commitToVectors R vs blind).bind fun r => .ok (r.1, some r.2) := by
  refine ⟨⟨rfl, rfl, fun n => ?_⟩, ⟨fun vals => ?_, rfl, rfl, rfl⟩, fun _ _ => rfl, fun vs blind => ?_⟩
  · induction n generalizing g with
    | zero => rfl
    | succ n ih => exact ih _
  · induction vals generalizing h with
    | nil => rfl
    | cons x xs ih => exact ih ⟨h.cache ++ x⟩
  · unfold commitToVectors Pedersen.commitToVectors
    rw [commitVecLoop_some]
    cases Pedersen.commitVecLoop R blind 0 vs p 0 <;> rfl

/-- C158: on nil, `Compute(0)`, `Append()` and `CommitToVectors()` return normally, the last with the neutral element and a blinding
factor that plays no part in it; everything else panics. -/
theorem C158_commit_nil (R : Ristretto F G) :
    (genClear (none : Option (Gen G)) = (.panic, none) ∧ genIterate R none = .panic ∧
      ∀ n, genCompute R none n = if n = 0 then (.ok (), none) else (.panic, none)) ∧
    ((∀ vals, cacheAppend none vals = if vals = [] then (.ok (), none) else (.panic, none)) ∧ cacheResult none = .panic ∧
      cacheClear none = (.panic, none) ∧ cacheDerive R none = .panic) ∧
    (∀ v blind : F, commitToScalar (none : Option (Pedersen G)) v blind = .panic) ∧
    ∀ (vs : List (List F)) blind, commitToVectors R none vs blind = if vs = [] then .ok (⟨0, blind⟩, none) else .panic := by
  refine ⟨⟨rfl, rfl, fun n => ?_⟩, ⟨fun vals => ?_, rfl, rfl, rfl⟩, fun _ _ => rfl, fun vs blind => ?_⟩
  · cases n <;> rfl
  · cases vals <;> rfl
  · cases vs <;> rfl

example (R : Ristretto ℚ ℚ) : commitToVectors R none [] 7 = .ok (⟨0, 7⟩, none) ∧ commitToVectors R none [[]] 7 = .panic :=
  ⟨(C158_commit_nil R).2.2.2 [] 7, (C158_commit_nil R).2.2.2 [[]] 7⟩

/-- C158: on nil, commitments, inner product proofs, range proofs and bit commitments panic in every method other than `Decode`, and
nothing is written. -/
theorem C158_proofs_nil [DecidableEq F] [DecidableEq G] (R : Ristretto F G) :
    ((∀ w, commEncode R (none : Option (Commitment F G)) w = (.panic, w)) ∧
      (∀ o, commEqualValue (none : Option (Commitment F G)) o = .panic) ∧
      ∀ o, commEquals (none : Option (Commitment F G)) o = .panic) ∧
    (ipVerifScalars R (none : Option (IP.Proof F G)) = .panic ∧
      (∀ Gv Hv hpf Q P n, ipVerify R (none : Option (IP.Proof F G)) Gv Hv hpf Q P n = .panic) ∧
      (∀ w, ipEncode R (none : Option (IP.Proof F G)) w = (.panic, w)) ∧
      ∀ o, ipEquals (none : Option (IP.Proof F G)) o = .panic) ∧
    ((∀ ic w, rpEncode R ic (none : Option (RP.Proof F G)) w = (.panic, w)) ∧
      ∀ o ic, rpEquals (none : Option (RP.Proof F G)) o ic = .panic) ∧
    ∀ v, bitDebug (none : Option (RP.BitCommitment F)) v = .panic :=
  ⟨⟨fun _ => rfl, fun _ => rfl, fun _ => rfl⟩, ⟨rfl, fun _ _ _ _ _ _ => rfl, fun _ => rfl, fun _ => rfl⟩,
    ⟨fun _ _ => rfl, fun _ _ => rfl⟩, fun _ => rfl⟩

/-- C158: through pointers that are not nil they do what the other models say. -/
theorem C158_proofs_agree [DecidableEq F] [DecidableEq G] (R : Ristretto F G) (c : Commitment F G) (q : IP.Proof F G)
    (p : RP.Proof F G) (b : RP.BitCommitment F) :
    (commEncode R (some c) = c.encode R ∧ (∀ o, commEqualValue (some c) o = .ok (decide (c.value = o.value))) ∧
      ∀ o, commEquals (some c) o = .ok (decide (c = o))) ∧
    (ipVerifScalars R (some q) = IP.verifScalars R q ∧
      (∀ Gv Hv hpf Q P n, ipVerify R (some q) Gv Hv hpf Q P n = IP.verify R q Gv Hv hpf Q P n) ∧
      ipEncode R (some q) = q.encode R ∧ ∀ o, ipEquals (some q) o = q.equals o) ∧
    ((∀ ic, rpEncode R ic (some p) = p.encode R ic) ∧ ∀ o ic, rpEquals (some p) o ic = p.equals o ic) ∧
    ∀ v, bitDebug (some b) v = b.debug v := by
  refine ⟨⟨rfl, fun _ => rfl, fun o => ?_⟩, ⟨rfl, fun _ _ _ _ _ _ => rfl, rfl, fun _ => rfl⟩,
    ⟨fun _ => rfl, fun _ _ => rfl⟩, fun _ => rfl⟩
  obtain ⟨cv, cb⟩ := c
  obtain ⟨ov, ob⟩ := o
  by_cases hv : cv = ov
  · simp [commEquals, commEqualValue, reading, Commitment.equalValue, hv]
  · simp [commEquals, commEqualValue, reading, Commitment.equalValue, hv]

example : commEquals (some (⟨1, 2⟩ : Commitment ℚ ℚ)) ⟨1, 3⟩ = .ok false := by
  simp [commEquals, commEqualValue, reading, Commitment.equalValue]

end RangeProof

/-! ## merkletree -/

section Merkle

open Dusk.Merkle

variable {α : Type} (A : Hash.Algs) (hashOf : α → Res Bytes)

/-- C158: through a pointer that is not nil the methods of `Tree` do what `Verif.Model.Merkle` says. -/
theorem C158_tree_agrees (f : Nat) (t : Tree) (a : Arena α) :
    (∀ pl, rebuildTreeUsing A hashOf f (some t) pl a =
      (Merkle.rebuildTreeUsing A hashOf f t pl a).map fun r => (r.1, some r.2.1, r.2.2)) ∧
    rebuildTree A hashOf f (some t) a = (Merkle.rebuildTree A hashOf f t a).map (fun r => (r.1, some r.2.1, r.2.2)) ∧
    verifyTree A hashOf f (some t) a = Merkle.verifyTree A hashOf f t a ∧
    ∀ d, verifyContent A hashOf f (some t) d a = Merkle.verifyContent A hashOf f t d a := by
  refine ⟨fun pl => ?_, rfl, rfl, fun _ => rfl⟩
  unfold rebuildTreeUsing Merkle.rebuildTreeUsing
  cases create A hashOf f pl a with
  | none => rfl
  | some r =>
    cases r with
    | ok x => cases hi : idx x.2.2 x.1 <;> simp only [hi] <;> rfl
    | err e => rfl
    | panic => rfl

/-- C158: on a nil `*Tree`, `RebuildTreeUsing` builds the whole tree and then panics where `NewTree` would have returned it, while it
returns the error of `NewTree` where that fails; the other methods panic at once. -/
theorem C158_tree_nil (pl : List α) (a : Arena α) :
    (∀ f, pl.length + 1 ≤ f →
      ((pl ≠ [] ∧ ∀ d ∈ pl, ∃ h, hashOf d = .ok h) → rebuildTreeUsing A hashOf f none pl a = some (.panic, none, a)) ∧
      ∀ e, rebuildTreeUsing A hashOf f none pl a = some (.err e, none, a) ↔ newTree A hashOf f pl a = some (.err e)) ∧
    ∀ f, rebuildTree A hashOf f none a = some (.panic, none, a) ∧ verifyTree A hashOf f none a = some .panic ∧
      ∀ d, verifyContent A hashOf f none d a = some .panic := by
  refine ⟨fun f hf => ⟨fun h => ?_, fun e => ?_⟩, fun f => ⟨rfl, rfl, fun _ => rfl⟩⟩
  · obtain ⟨hs, hh⟩ := (hashes_iff hashOf pl).2 h.2
    obtain ⟨t, a', ht⟩ := newTree_ok A hashOf pl hs a h.1 hh
    have ht := ht f hf
    rw [newTree] at ht
    unfold rebuildTreeUsing
    cases hc : create A hashOf f pl a with
    | none => rw [hc] at ht; cases ht
    | some r =>
      cases r with
      | ok x => rfl
      | err e => rw [hc] at ht; cases ht
      | panic => rfl
  · unfold rebuildTreeUsing newTree
    cases hc : create A hashOf f pl a with
    | none => simp
    | some r =>
      cases r with
      | ok x =>
        obtain ⟨root, lv, a'⟩ := x
        simp only [Run.bind_ok]
        constructor
        · intro h; cases h
        · intro h
          cases hi : idx a' root with
          | ok n => rw [hi] at h; cases h
          | err e' => exact absurd hi (by unfold idx; split <;> simp)
          | panic => rw [hi] at h; cases h
      | err e' => simp
      | panic => simp

example (A : Hash.Algs) : rebuildTreeUsing A demoHash 3 none [[1], [2]] [] = some (.panic, none, []) ∧
    rebuildTreeUsing A demoHash 3 none [[1], []] [] = some (.err "empty", none, []) :=
  ⟨((C158_tree_nil A demoHash [[1], [2]] []).1 3 (le_refl _)).1 ⟨by simp, by simp [demoHash]⟩, rfl⟩

end Merkle

/-! ## bls -/

section Bls

open Dusk.Bls

variable {F G1 G2 GT : Type} [Field F] [AddCommGroup G1] [AddCommGroup G2] [AddCommGroup GT]
  [Module F G1] [Module F G2] [Module F GT]
variable (P : Bn256 F G1 G2 GT) (A : Hash.Algs)

/-- C158: a nil secret key, the zero value of `SecretKey` and a nil public key make `UnsafeSign` and `Sign` panic; otherwise the
pointers make no difference. -/
theorem C158_sign (msg : Bytes) :
    (unsafeSign P A none msg = .panic ∧ unsafeSign P A (some ⟨none⟩) msg = .panic ∧
      ∀ x, unsafeSign P A (some ⟨some x⟩) msg = Bls.unsafeSign P A ⟨x⟩ msg) ∧
    ((∀ pk, sign P A none pk msg = .panic) ∧ (∀ pk, sign P A (some ⟨none⟩) pk msg = .panic) ∧ (∀ sk, sign P A sk none msg = .panic) ∧
      ∀ x pk, sign P A (some ⟨some x⟩) pk msg = Bls.sign P A ⟨x⟩ pk msg) := by
  have hn : unsafeSign P A none msg = .panic := by rw [unsafeSign, h0_eq]; rfl
  have hz : unsafeSign P A (some ⟨none⟩) msg = .panic := by rw [unsafeSign, h0_eq]; rfl
  have hs : ∀ x, unsafeSign P A (some ⟨some x⟩) msg = Bls.unsafeSign P A ⟨x⟩ msg := fun x => rfl
  refine ⟨⟨hn, hz, hs⟩, fun pk => by rw [sign, hn]; rfl, fun pk => by rw [sign, hz]; rfl, fun sk => ?_, fun x pk => ?_⟩
  · cases sk with
    | none => rw [sign, hn]; rfl
    | some k =>
      obtain ⟨x⟩ := k
      cases x with
      | none => rw [sign, hz]; rfl
      | some x =>
        rw [sign, hs, Bls.unsafeSign, h0_eq]
        rfl
  · rw [sign, hs, Bls.sign]
    rfl

/-- C158: through pointers that are not nil the methods of package bls do what `Verif.Model.Bls` says. -/
theorem C158_bls_agrees (pk pp : PublicKey G2) (apk : Apk G2) (s o : Signature G1) (u : UnsafeSignature G1) (b : Bytes) :
    (pkUnmarshal P (some pk) b = ((pk.unmarshal P b).1, some (pk.unmarshal P b).2) ∧
      pkUnmarshalText P (some pk) b = ((pk.unmarshalText P b).1, some (pk.unmarshalText P b).2) ∧
      pkMarshal P (some pk) = pk.marshal P ∧ pkMarshalText P (some pk) = pk.marshalText P ∧
      pkAggregate (some pk) (some pp) = pk.aggregate pp) ∧
    (apkCopy P (some apk) = apk.copy P ∧ apkMarshal P (some apk) = apk.marshal P ∧
      apkUnmarshal P (some apk) b = ((apk.unmarshal P b).1, some (apk.unmarshal P b).2)) ∧
    (sigDecompress P (some s) b = ((s.decompress P b).1, some (s.decompress P b).2) ∧
      sigUnmarshal P (some s) b = ((s.unmarshal P b).1, some (s.unmarshal P b).2) ∧
      sigAggregate (some s) (some o) = s.aggregate o ∧
      (∀ q, sigAdd P A (some s) q (some u) = ((s.add P A q u).1, some (s.add P A q u).2)) ∧
      sigAggregateBytes P (some s) b = ((s.aggregateBytes P b).1, some (s.aggregateBytes P b).2) ∧
      sigCompress P (some s) = s.compress P ∧ sigMarshal P (some s) = s.marshal P ∧ sigCopy P (some s) = s.copy P) ∧
    (usigDecompress P (some u) b = ((u.decompress P b).1, some (u.decompress P b).2) ∧
      usigUnmarshal P (some u) b = ((u.unmarshal P b).1, some (u.unmarshal P b).2) ∧
      usigCompress P (some u) = u.compress P ∧ usigMarshal P (some u) = u.marshal P) := by
  have hd : sigDecompress P (some s) b = ((s.decompress P b).1, some (s.decompress P b).2) := by
    unfold sigDecompress Signature.decompress
    cases P.decompress b <;> rfl
  have hagg : ∀ t : Signature G1, sigAggregated (some s) t = (match s.aggregate t with
      | .ok s' => (.ok (), some s')
      | .err e => (.err e, some s)
      | .panic => (.panic, some s)) := fun t => rfl
  refine ⟨⟨rfl, ?_, rfl, rfl, rfl⟩, ⟨rfl, rfl, rfl⟩, ⟨hd, ?_, rfl, fun q => ?_, ?_, rfl, rfl, rfl⟩, ?_, ?_, rfl, rfl⟩
  · unfold pkUnmarshalText PublicKey.unmarshalText
    cases decodeText b with
    | ok bs =>
      simp only [pkUnmarshal, changing, PublicKey.unmarshal]
    | err e => rfl
    | panic => rfl
  · unfold sigUnmarshal Signature.unmarshal
    split
    · exact hd
    · cases P.g1OfBytes b <;> rfl
  · unfold sigAdd Signature.add
    have he : apkSigWrap P A q (some u) = Bls.apkSigWrap P A q u := rfl
    rw [he]
    cases Bls.apkSigWrap P A q u with
    | ok t =>
      simp only [hagg]
      cases s.aggregate t <;> rfl
    | err e => rfl
    | panic => rfl
  · unfold sigAggregateBytes Signature.aggregateBytes
    generalize Signature.unmarshal P ⟨.nil⟩ b = r
    obtain ⟨r, t⟩ := r
    cases r with
    | ok x =>
      simp only [hagg]
      cases s.aggregate t <;> rfl
    | err e => rfl
    | panic => rfl
  · unfold usigDecompress UnsafeSignature.decompress
    cases P.decompress b <;> rfl
  · unfold usigUnmarshal UnsafeSignature.unmarshal
    cases P.g1OfBytes b <;> rfl

/-- C158: on a nil `*Signature`, `Unmarshal` and `AggregateBytes` return the error of `UnmarshalSignature` for bytes that are no
signature, and panic for those that are one. -/
theorem C158_sig_nil_bytes (b : Bytes) :
    (∀ e, unmarshalSignature P b = .err e →
      sigUnmarshal P none b = (.err e, none) ∧ sigAggregateBytes P none b = (.err e, none)) ∧
    (∀ s, unmarshalSignature P b = .ok s → sigUnmarshal P none b = (.panic, none) ∧ sigAggregateBytes P none b = (.panic, none)) ∧
    unmarshalSignature P b ≠ .panic := by
  by_cases h : b.length = 33
  · cases hd : P.decompress b with
    | none => simp [unmarshalSignature, Signature.unmarshal, sigUnmarshal, sigDecompress, sigAggregateBytes, h, hd]
    | some g =>
      simp [unmarshalSignature, Signature.unmarshal, sigUnmarshal, sigDecompress, sigAggregateBytes, h, hd, sigAssign, updating,
        changing, sigAggregated, sigAggregate, reading]
  · cases hd : P.g1OfBytes b with
    | none => simp [unmarshalSignature, Signature.unmarshal, sigUnmarshal, sigAggregateBytes, h, hd]
    | some g =>
      simp [unmarshalSignature, Signature.unmarshal, sigUnmarshal, sigAggregateBytes, h, hd, sigAssign, updating,
        changing, sigAggregated, sigAggregate, reading]

example : sigUnmarshal Toy.bn none (Toy.bn.g1Bytes 3) = (.panic, none) ∧ (sigUnmarshal Toy.bn none [1, 2]).1.IsErr := by
  have hl : (Toy.bn.g1Bytes 3).length ≠ 33 := by rw [Toy.bn.g1Bytes_length]; decide
  have h := Toy.bn.g1OfBytes_g1Bytes 3 []
  rw [List.append_nil] at h
  refine ⟨((C158_sig_nil_bytes Toy.bn (Toy.bn.g1Bytes 3)).2.1 ⟨.pt 3⟩ ?_).1, ?_⟩
  · simp [unmarshalSignature, Signature.unmarshal, hl, h]
  · have hs := Toy.bn.g1OfBytes_short [1, 2] (by decide)
    have he : unmarshalSignature Toy.bn [1, 2] = .err "bn256: malformed point" := by
      simp [unmarshalSignature, Signature.unmarshal, hs]
    exact ⟨_, congrArg Prod.fst ((C158_sig_nil_bytes Toy.bn [1, 2]).1 _ he).1⟩

/-- C158: the same for `Decompress` of both kinds of signatures and `Unmarshal` of an `UnsafeSignature`. -/
theorem C158_sig_nil_parse (b : Bytes) :
    ((P.decompress b = none → ∃ e, sigDecompress P none b = (.err e, none) ∧ usigDecompress P none b = (.err e, none)) ∧
      ∀ g, P.decompress b = some g → sigDecompress P none b = (.panic, none) ∧ usigDecompress P none b = (.panic, none)) ∧
    ((P.g1OfBytes b = none → ∃ e, usigUnmarshal P none b = (.err e, none)) ∧
      ∀ g, P.g1OfBytes b = some g → usigUnmarshal P none b = (.panic, none)) := by
  refine ⟨⟨fun h => ?_, fun g h => ?_⟩, fun h => ?_, fun g h => ?_⟩ <;>
    simp [sigDecompress, usigDecompress, usigUnmarshal, h, sigAssign, updating, changing]

example : usigUnmarshal Toy.bn none (Toy.bn.g1Bytes 3) = (.panic, none) ∧
    sigDecompress Toy.bn none (Toy.bn.compress 3) = (.panic, none) := by
  have h := Toy.bn.g1OfBytes_g1Bytes 3 []
  rw [List.append_nil] at h
  exact ⟨(C158_sig_nil_parse Toy.bn _).2.2 _ h,
    ((C158_sig_nil_parse Toy.bn _).1.2 3 (Toy.bn.decompress_compress 3 (by decide +kernel))).1⟩

/-- C158: `UnmarshalText` on a nil `*PublicKey` returns the error of text that is not base64 and panics on all other text, while
`Unmarshal` panics on all bytes. -/
theorem C158_pk_nil (b : Bytes) :
    pkUnmarshal P (none : Option (PublicKey G2)) b = (.panic, none) ∧
    (∀ e, Base64.decode b = .err e → pkUnmarshalText P none b = (.err e, none)) ∧
    (∀ bs, Base64.decode b = .ok bs → pkUnmarshalText P none b = (.panic, none)) := by
  refine ⟨rfl, fun e h => ?_, fun bs h => ?_⟩
  · rw [pkUnmarshalText, decodeText, h]
  · rw [pkUnmarshalText, decodeText, h]
    rfl

example : pkUnmarshalText Toy.bn none [65, 65] = (.panic, none) ∧ (pkUnmarshalText Toy.bn none [33]).1.IsErr := by
  have h1 : Base64.decode [65, 65] = .ok [0] := by rfl
  have h2 : Base64.decode [33] = .err "illegal base64 data" := by rfl
  exact ⟨(C158_pk_nil Toy.bn _).2.2 _ h1, _, congrArg Prod.fst ((C158_pk_nil Toy.bn _).2.1 _ h2)⟩

/-- C158: the remaining methods of package bls panic on nil. -/
theorem C158_bls_nil :
    (pkMarshal P (none : Option (PublicKey G2)) = .panic ∧ pkMarshalText P (none : Option (PublicKey G2)) = .panic ∧
      ∀ q, pkAggregate (none : Option (PublicKey G2)) q = .panic ∧ pkAggregate q none = .panic) ∧
    (apkCopy P none = .panic ∧ apkMarshal P none = .panic ∧ ∀ b, apkUnmarshal P none b = (.panic, none)) ∧
    ((∀ q : Option (Signature G1), sigAggregate none q = .panic ∧ sigAggregate q none = .panic) ∧
      (∀ pk u, sigAdd P A none pk u = (.panic, none)) ∧ (∀ s pk, sigAdd P A s pk none = (.panic, s)) ∧
      sigCompress P none = .panic ∧ sigMarshal P none = .panic ∧ sigCopy P none = .panic) ∧
    usigCompress P none = .panic ∧ usigMarshal P none = .panic := by
  have h1c : ∀ pk : Option (PublicKey G2), h1 P A pk = .panic ∨ ∃ t, h1 P A pk = .ok t := by
    intro pk
    cases pk with
    | none => exact Or.inl rfl
    | some pk =>
      obtain ⟨gx⟩ := pk
      cases gx with
      | nil => exact Or.inl rfl
      | junk => exact Or.inl rfl
      | pt g => exact Or.inr ⟨_, h1_eq P A g⟩
  refine ⟨⟨rfl, rfl, fun q => ⟨rfl, ?_⟩⟩, ⟨rfl, rfl, fun _ => rfl⟩, ⟨fun q => ⟨rfl, ?_⟩, fun pk u => ?_, fun s pk => ?_, rfl, rfl, rfl⟩,
    rfl, rfl⟩
  · cases q <;> rfl
  · cases q <;> rfl
  · unfold sigAdd apkSigWrap
    rcases h1c pk with h | ⟨t, h⟩
    · rw [h]
      rfl
    · rw [h]
      simp only [Res.bind_ok]
      cases u with
      | none => rfl
      | some u =>
        obtain ⟨e⟩ := u
        cases e <;> rfl
  · unfold sigAdd apkSigWrap
    rcases h1c pk with h | ⟨t, h⟩ <;> rw [h] <;> rfl

end Bls

end Dusk.Via
