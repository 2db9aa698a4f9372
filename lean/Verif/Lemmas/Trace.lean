import Verif.Model.Trace
import Verif.Props.Mlsag
import Verif.Props.Blsag
/-!
# Lemmas about sequences of steps
-/

set_option linter.unusedSectionVars false

namespace Dusk

namespace Traced

variable {α β : Type}

/-! ## Leaving out the steps -/

@[simp] theorem res_lift (r : Res α) : (lift r).res = r := rfl

@[simp] theorem res_did (l : List Step) (a : α) : (did l a).res = .ok a := rfl

@[simp] theorem res_bind (m : Traced α) (f : α → Traced β) : (m.bind f).res = m.res.bind fun a => (f a).res := by
  unfold bind
  cases m.res <;> rfl

@[simp] theorem res_map (f : α → Traced β) : ∀ l, (map f l).res = mapRes (fun a => (f a).res) l
  | [] => rfl
  | a :: l => by simp only [map, mapRes, res_bind, res_lift, res_map f l]

/-! ## Sequences -/

@[simp] theorem steps_lift (r : Res α) : (lift r).steps = [] := rfl

@[simp] theorem steps_did (l : List Step) (a : α) : (did l a).steps = l := rfl

theorem steps_bind {m : Traced α} {a : α} (h : m.res = .ok a) (f : α → Traced β) : (m.bind f).steps = m.steps ++ (f a).steps := by
  unfold bind
  rw [h]

/-- The steps are the ones listed, or the first of them if an error or a panic ends the call. -/
def Runs (m : Traced α) (S : List Step) : Prop := m.steps <+: S ∧ ∀ a, m.res = .ok a → m.steps = S

theorem Runs.lift (r : Res α) : Runs (lift r) [] := ⟨List.prefix_rfl, fun _ _ => rfl⟩

theorem Runs.did (l : List Step) (a : α) : Runs (did l a) l := ⟨List.prefix_rfl, fun _ _ => rfl⟩

theorem Runs.stop (r : Res α) (h : ∀ a, r ≠ .ok a) (S : List Step) : Runs (Traced.lift r) S :=
  ⟨List.nil_prefix, fun a e => (h a e).elim⟩

theorem Runs.bind {m : Traced α} {f : α → Traced β} {S T : List Step} (h : Runs m S) (hf : ∀ a, m.res = .ok a → Runs (f a) T) :
    Runs (m.bind f) (S ++ T) := by
  cases e : m.res with
  | ok a =>
    obtain ⟨f1, f2⟩ := hf a e
    refine ⟨?_, fun b hb => ?_⟩
    · rw [steps_bind e, h.2 a e]
      exact (List.prefix_append_right_inj S).2 f1
    · rw [steps_bind e, h.2 a e, f2 b]
      rw [res_bind, e] at hb
      exact hb
  | err x =>
    have hs : (m.bind f).steps = m.steps := by unfold Traced.bind; rw [e]
    refine ⟨hs ▸ h.1.trans (List.prefix_append _ _), fun b hb => ?_⟩
    rw [res_bind, e] at hb; cases hb
  | panic =>
    have hs : (m.bind f).steps = m.steps := by unfold Traced.bind; rw [e]
    refine ⟨hs ▸ h.1.trans (List.prefix_append _ _), fun b hb => ?_⟩
    rw [res_bind, e] at hb; cases hb

theorem Runs.map (f : α → Traced β) (S : α → List Step) : ∀ l, (∀ a ∈ l, Runs (f a) (S a)) → Runs (map f l) (l.flatMap S)
  | [], _ => Runs.lift _
  | a :: l, h => by
    rw [Traced.map, List.flatMap_cons]
    refine Runs.bind (h a (by simp)) fun b _ => ?_
    have := Runs.bind (T := []) (Runs.map f S l fun x hx => h x (by simp [hx])) fun bs _ => Runs.lift (.ok (b :: bs))
    rwa [List.append_nil] at this

theorem Runs.congr {m : Traced α} {S T : List Step} (h : Runs m S) (e : S = T) : Runs m T := e ▸ h

end Traced

theorem mapRes_length {α β : Type} {f : α → Res β} : ∀ {l : List α} {bs : List β}, mapRes f l = .ok bs → bs.length = l.length
  | [], bs, h => by cases h; rfl
  | a :: l, bs, h => by
    rw [mapRes] at h
    obtain ⟨b, -, h⟩ := Res.bind_eq_ok.1 h
    obtain ⟨cs, h1, h⟩ := Res.bind_eq_ok.1 h
    cases h
    simp [mapRes_length h1]

theorem mapRes_flatten {α : Type} {f : α → Res Bytes} {k : Nat} (hf : ∀ a b, f a = .ok b → b.length = k) :
    ∀ {l : List α} {bs : List Bytes}, mapRes f l = .ok bs → bs.flatten.length = l.length * k
  | [], bs, h => by cases h; simp
  | a :: l, bs, h => by
    rw [mapRes] at h
    obtain ⟨b, h0, h⟩ := Res.bind_eq_ok.1 h
    obtain ⟨cs, h1, h⟩ := Res.bind_eq_ok.1 h
    cases h
    rw [List.flatten_cons, List.length_append, mapRes_flatten hf h1, hf a b h0, List.length_cons]
    ring

open Traced

namespace Mlsag

variable {F G : Type} [Field F] [AddCommGroup G] [Module F G]

/-! ## Leaving out the steps -/

theorem shuffleLoopT_res {α : Type} (sh : Nat → Nat) : ∀ i (l : List α), (shuffleLoopT sh i l).res = .ok (shuffleLoop sh i l)
  | 0, _ => rfl
  | i + 1, l => by
    rw [shuffleLoopT, res_bind, res_did, Res.bind_ok, shuffleLoopT_res sh i, shuffleLoop]

theorem findT_res : ∀ (i : Nat) (l : List (PubKeys G)), (findT i l).res =
    match l.findIdx? fun k => !k.decoy with
    | some j => .ok (i + j)
    | none => .err "could not find the index of the non-decoy vector of pubkeys"
  | _, [] => rfl
  | i, k :: ks => by
    rw [findT, res_bind, res_did, Res.bind_ok, List.findIdx?_cons]
    cases k.decoy with
    | false => rfl
    | true =>
      simp only [Bool.not_true, Bool.false_eq_true, if_false]
      rw [findT_res (i + 1) ks]
      cases ks.findIdx? fun k => !k.decoy with
      | none => rfl
      | some j =>
        simp only [Option.map_some, Res.ok.injEq]
        omega

theorem dimsT_res (d : Nat) : ∀ l : List (PubKeys G), (dimsT d l).res =
    if l.any fun k => k.keys.length ≠ d then .err "all vectors in the pubkey matrix must be the same size" else .ok ()
  | [] => rfl
  | k :: ks => by
    rw [dimsT, res_bind, res_did, Res.bind_ok, List.any_cons]
    by_cases h : k.keys.length = d
    · simp [h, dimsT_res d ks]
    · simp [h]

theorem ringLoopT_res {σ : Type} (body : Nat → σ → Traced σ) (n stop : Nat) : ∀ fuel k s,
    (ringLoopT body n stop fuel k s).res = ringLoop (fun i s => (body i s).res) n stop fuel k s
  | 0, _, _ => rfl
  | fuel + 1, k, s => by
    rw [ringLoopT, ringLoop]
    split
    · rfl
    · rw [res_bind]
      congr 1
      funext a
      exact ringLoopT_res body n stop fuel _ a

theorem generateChallengeT_res (R : Ristretto F G) (msg : Bytes) (r : List F) (I : List G) (K : PubKeys G) (c : F) :
    (generateChallengeT R msg r I K c).res = generateChallenge R msg r I K c := by
  simp only [generateChallengeT, generateChallenge, res_bind, res_map, res_lift, res_did, Res.bind_ok]

theorem firstChallengeT_res (R : Ristretto F G) (msg : Bytes) (nonces : List F) (I K : List G) :
    (firstChallengeT R msg nonces I K).res = firstChallenge R msg nonces I K := by
  simp only [firstChallengeT, firstChallenge, res_bind, res_map, res_lift, res_did, Res.bind_ok]

theorem calculateKeyImagesT_res (R : Ristretto F G) (p : Proof F G) (skip : Bool) :
    (p.calculateKeyImagesT R skip).res = p.calculateKeyImages R skip := by
  simp only [Proof.calculateKeyImagesT, Proof.calculateKeyImages, calculateKeyImageT, calculateKeyImage, res_bind, res_map, res_lift,
    res_did, Res.bind_ok]
  congr 1
  funext a
  split <;> [rfl; (split <;> rfl)]

theorem generateNoncesT_res (nonce : Nat → F) (n : Nat) : (generateNoncesT nonce n).res = .ok (generateNonces nonce n) := by
  rw [generateNoncesT, res_map]
  exact mapRes_ok _ _ _ fun _ _ => rfl

theorem generateResponsesT_res (resp : Nat → Nat → F) (m n skip : Nat) :
    (generateResponsesT resp m n skip).res = .ok (generateResponses resp m n skip) := by
  rw [generateResponsesT, res_map]
  refine mapRes_ok _ _ _ fun i _ => ?_
  split
  · rfl
  · rw [res_map]
    exact mapRes_ok _ _ _ fun _ _ => rfl

theorem signT_res (R : Ristretto F G) (p : Proof F G) (skip : Bool) (coins : Coins F) :
    (p.signT R skip coins).res = p.sign R skip coins := by
  simp only [Proof.signT, Proof.sign, res_bind, res_map, res_lift, res_did, Res.bind_ok, calculateKeyImagesT_res, generateNoncesT_res,
    generateResponsesT_res, firstChallengeT_res, ringLoopT_res]
  have hb : ∀ (msg : Bytes) (resp : List (List F)) (I : List G) (m : List (PubKeys G)) (n : Nat),
      (fun i s => (proveBodyT R msg resp I m n i s).res) = proveBody R msg resp I m n := by
    intro msg resp I m n
    funext i s
    simp only [proveBodyT, proveBody, res_bind, res_lift, generateChallengeT_res]
  simp only [hb]

/-- Leaving out the steps of `prove`. -/
theorem proveT_res (R : Ristretto F G) (p : Proof F G) (skip : Bool) (coins : Coins F) :
    (p.proveT R skip coins).res = (p.prove R skip coins).2 := by
  simp only [Proof.proveT, res_bind, shuffleLoopT_res, Res.bind_ok, findT_res, dimsT_res, signT_res]
  rcases h : (shuffleLoop coins.shuffle (p.addSignerPubKey.matrix.length - 1) p.addSignerPubKey.matrix).findIdx? (fun k => !k.decoy)
    with _ | i
  · have hs : p.addSignerPubKey.shuffleSet coins.shuffle = ({ p.addSignerPubKey with
        matrix := shuffleLoop coins.shuffle (p.addSignerPubKey.matrix.length - 1) p.addSignerPubKey.matrix },
        .err "could not find the index of the non-decoy vector of pubkeys") := by
      unfold Proof.shuffleSet
      simp only [h]
    simp only [Proof.prove, hs, h, Res.bind_err]
  · have hs : p.addSignerPubKey.shuffleSet coins.shuffle = ({ p.addSignerPubKey with
        matrix := shuffleLoop coins.shuffle (p.addSignerPubKey.matrix.length - 1) p.addSignerPubKey.matrix, index := i }, .ok ()) := by
      unfold Proof.shuffleSet
      simp only [h]
    simp only [Proof.prove, hs, h, Res.bind_ok, Nat.zero_add]
    split <;> rfl

/-- Leaving out the steps of `Verify`. -/
theorem verifyT_res [DecidableEq F] (R : Ristretto F G) (sig : Signature F G) (I : List G) : (sig.verifyT R I).res = sig.verify R I := by
  unfold Signature.verifyT Signature.verify
  split
  · rfl
  · simp only [res_bind, ringLoopT_res, res_did, Res.bind_ok, Signature.verifyBodyT, res_lift, generateChallengeT_res]
    congr 1
    funext c
    simp only [Signature.verifyBody]
    congr 1
    funext c
    by_cases h : c = sig.c <;> simp [h]

/-- Leaving out the steps of `DualKey.Prove`. -/
theorem dualKey_proveT_res [DecidableEq F] (R : Ristretto F G) (d : DualKey F G) (coins : Coins F) :
    (d.proveT R coins).res = (d.prove R coins).2 := by
  unfold DualKey.proveT DualKey.prove
  by_cases h0 : d.key0 = 0
  · simp [h0]
  · by_cases h1 : d.key1 = 0
    · simp [h0, h1]
    · simp only [h0, h1, decide_false, res_bind, res_did, Res.bind_ok, Bool.false_eq_true, if_false, or_self, Proof.addSecretT,
        privKeyToPubKeyT, res_lift, proveT_res, Proof.addSecret, privKeyToPubKey]
      congr 1
      funext s
      obtain ⟨sig, l⟩ := s
      match l with
      | [] => rfl
      | [_] => rfl
      | _ :: _ :: _ => rfl

end Mlsag

namespace Blsag

variable {F G P : Type} [Field F] [AddCommGroup G] [Module F G]

theorem computeCLRT_res (R : Ristretto F G) (V : Raw F G P) (m : Bytes) (I k : P) (s c : F) :
    (computeCLRT R V m I k s c).res = .ok (computeCLR R V m I k s c) := rfl

theorem signLoopT_res (R : Ristretto F G) (V : Raw F G P) (m : Bytes) (I : P) (pk : List P) (sv : List F) (j : Nat) : ∀ fuel i st,
    (signLoopT R V m I pk sv j fuel i st).res = signLoop R V m I pk sv j fuel i st
  | 0, _, _ => rfl
  | fuel + 1, i, st => by
    rw [signLoopT, signLoop]
    dsimp only
    split
    · rfl
    · simp only [res_bind, res_lift, computeCLRT_res, Res.bind_ok, signLoopT_res R V m I pk sv j fuel]

/-- Leaving out the steps of `Sign`. -/
theorem signT_res (R : Ristretto F G) (V : Raw F G P) (m : Bytes) (mixin : List P) (sK : F) (coins : Coins F) :
    (signT R V m mixin sK coins).res = sign R V m mixin sK coins := by
  have h : (map (fun i => if i = 0 then lift (.ok (0 : F)) else did [.rand] (coins.s i)) (List.range (mixin.length + 1))).res =
      .ok ((List.range (mixin.length + 1)).map fun i => if i = 0 then 0 else coins.s i) := by
    rw [res_map]
    refine mapRes_ok _ _ _ fun i _ => ?_
    split <;> rfl
  simp only [signT, sign, res_bind, res_did, Res.bind_ok, h, signLoopT_res, res_lift]

theorem verifyLoopT_res (R : Ristretto F G) (V : Raw F G P) (m : Bytes) (I : P) (S : List F) (n : Nat) : ∀ i pks st,
    (verifyLoopT R V m I S n i pks st).res = verifyLoop R V m I S n i pks st
  | _, [], _ => rfl
  | i, pk :: pks, (Cs, Ls, Rs, c) => by
    simp only [verifyLoopT, verifyLoop, res_bind, res_lift, computeCLRT_res, Res.bind_ok, verifyLoopT_res R V m I S n]

theorem checkLoopT_res [DecidableEq F] (R : Ristretto F G) (V : Raw F G P) (m : Bytes) (Cs : List F) (Ls Rs : List P) : ∀ is,
    (checkLoopT R V m Cs Ls Rs is).res = checkLoop R V m Cs Ls Rs is
  | [] => rfl
  | i :: is => by
    simp only [checkLoopT, checkLoop, res_bind, res_lift, res_did, Res.bind_ok]
    congr 1
    funext L
    congr 1
    funext Rp
    congr 1
    funext c
    by_cases h : c = R.sDerive (m ++ V.bytes L ++ V.bytes Rp)
    · rw [if_neg (not_not.2 h), decide_eq_true h, ← checkLoopT_res R V m Cs Ls Rs is]
      rfl
    · rw [if_pos h, decide_eq_false h]
      rfl

/-- Leaving out the steps of `Verify`. -/
theorem verifyT_res [DecidableEq F] (R : Ristretto F G) (V : Raw F G P) (m : Bytes) (sig : RingSignature F P) :
    (verifyT R V m sig).res = verify R V m sig := by
  simp only [verifyT, verify, res_bind, verifyLoopT_res]
  congr 1
  funext st
  split
  · rfl
  · simp only [res_bind, checkLoopT_res]
    congr 1
    funext ok
    cases ok with
    | false => rfl
    | true =>
      simp only [Bool.not_true, Bool.false_eq_true, if_false, res_bind, res_lift, res_did, Res.bind_ok]
      congr 1
      funext c
      by_cases h : c = sig.C <;> simp [h]

end Blsag

end Dusk
