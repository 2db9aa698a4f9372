import Verif.Props.MlsagDual
/-!
# DualKey with the methods of the embedded Proof (C83)
-/

set_option linter.unusedSectionVars false

namespace Dusk.Mlsag

variable {F G : Type} [Field F] [AddCommGroup G] [Module F G]

/-- A call on a `DualKey` other than `Prove`, including those of the embedded `Proof`. -/
inductive EOp (F G : Type) where
  | op (o : DOp F G)
  | secret (x : F)
  | decoys (ks : List (PubKeys G))

/-- The effect of a call. -/
def EOp.apply (R : Ristretto F G) (d : DualKey F G) : EOp F G → Res (DualKey F G)
  | .op o => o.apply R d
  | .secret x => .ok { d with proof := d.proof.addSecret R x }
  | .decoys ks => .ok { d with proof := d.proof.addDecoys ks }

/-- A sequence of calls. -/
def EOp.run (R : Ristretto F G) (d : DualKey F G) : List (EOp F G) → Res (DualKey F G)
  | [] => .ok d
  | o :: l => (o.apply R d).bind fun d => EOp.run R d l

/-- The secrets added by `AddSecret`. -/
def EOp.secrets : List (EOp F G) → List F
  | [] => []
  | .secret x :: l => x :: secrets l
  | .op _ :: l => secrets l
  | .decoys _ :: l => secrets l

/-- Before the first `Prove`: the secrets so far and their public keys, and only decoys in the ring. -/
def Fresh' (R : Ristretto F G) (xs : List F) (d : DualKey F G) : Prop :=
  d.proof.privKeys = xs ∧ d.proof.signer.keys = xs.map (· • R.base) ∧ ∀ k ∈ d.proof.matrix, k.decoy = true

theorem addDecoys_matrix (p : Proof F G) (ks : List (PubKeys G)) :
    (p.addDecoys ks).matrix = p.matrix ++ ks.map (fun k => { k with decoy := true }) ∧ (p.addDecoys ks).privKeys = p.privKeys ∧
      (p.addDecoys ks).signer = p.signer := by
  induction ks generalizing p with
  | nil => simp [Proof.addDecoys]
  | cons k ks ih =>
    have := ih (p.addDecoy k)
    unfold Proof.addDecoys at this ⊢
    rw [List.foldl_cons, this.1, this.2.1, this.2.2]
    simp [Proof.addDecoy, Proof.addPubKeys]

theorem Fresh'.apply {R : Ristretto F G} {xs : List F} {d d' : DualKey F G} (h : Fresh' R xs d) (o : EOp F G) (ho : o.apply R d = .ok d') :
    Fresh' R (xs ++ EOp.secrets [o]) d' := by
  obtain ⟨h1, h2, h3⟩ := h
  cases o with
  | op o =>
    simp only [EOp.secrets, List.append_nil]
    cases o with
    | decoy k =>
      cases ho
      refine ⟨h1, h2, fun x hx => ?_⟩
      simp only [Proof.addDecoy, Proof.addPubKeys, List.mem_append, List.mem_singleton] at hx
      rcases hx with hx | rfl
      · exact h3 x hx
      · rfl
    | primary x => cases ho; exact ⟨h1, h2, h3⟩
    | comm x => cases ho; exact ⟨h1, h2, h3⟩
    | msg m => cases ho; exact ⟨h1, h2, h3⟩
    | sub P =>
      simp only [EOp.apply, DOp.apply, DualKey.subCommToZero] at ho
      obtain ⟨m, hm, ho⟩ := Res.bind_eq_ok.1 ho
      cases ho
      refine ⟨h1, h2, fun x hx => ?_⟩
      obtain ⟨y, hy, e⟩ := mapRes_mem _ _ _ hm x hx
      rw [(subSecond_ok e).1]
      exact h3 y hy
  | secret x =>
    cases ho
    refine ⟨?_, ?_, h3⟩
    · simp [Proof.addSecret, h1, EOp.secrets]
    · simp [Proof.addSecret, PubKeys.addPubKey, privKeyToPubKey, h2, EOp.secrets]
  | decoys ks =>
    cases ho
    obtain ⟨a, b, c⟩ := addDecoys_matrix d.proof ks
    refine ⟨?_, ?_, ?_⟩
    · simp [b, h1, EOp.secrets]
    · simp [c, h2, EOp.secrets]
    · dsimp only
      rw [a]
      intro k hk
      rcases List.mem_append.1 hk with hk | hk
      · exact h3 k hk
      · obtain ⟨y, -, rfl⟩ := List.mem_map.1 hk
        rfl

theorem EOp.secrets_cons (o : EOp F G) (l : List (EOp F G)) : EOp.secrets (o :: l) = EOp.secrets [o] ++ EOp.secrets l := by
  cases o <;> rfl

theorem Fresh'.run {R : Ristretto F G} : ∀ (ops : List (EOp F G)) {xs : List F} {d d' : DualKey F G}, Fresh' R xs d →
    EOp.run R d ops = .ok d' → Fresh' R (xs ++ EOp.secrets ops) d'
  | [], xs, d, d', h, e => by cases e; simpa [EOp.secrets] using h
  | o :: l, xs, d, d', h, e => by
    obtain ⟨d1, h1, h2⟩ := Res.bind_eq_ok.1 e
    have := Fresh'.run l (h.apply o h1) h2
    rwa [List.append_assoc, ← EOp.secrets_cons] at this

theorem Fresh'.new (R : Ristretto F G) : Fresh' R [] (DualKey.new : DualKey F G) := ⟨rfl, rfl, by simp [DualKey.new]⟩

theorem secrets_map : ∀ xs : List F, secrets (xs.map (Op.secret (G := G))) = xs ∧ decoys (xs.map (Op.secret (G := G))) = []
  | [] => ⟨rfl, rfl⟩
  | x :: xs => by
    obtain ⟨a, b⟩ := secrets_map xs
    exact ⟨by rw [List.map_cons, secrets, a], by rw [List.map_cons, decoys, b]⟩

/-- C83: the outcome of the first `Prove` after any calls on a new `DualKey`, those of the embedded `Proof` included, with
non-zero keys: a panic without decoys; an error if some decoy has not as many keys as there are secrets, or if a secret was
added by `AddSecret`; otherwise a signature. -/
theorem C83_outcome [DecidableEq F] (R : Ristretto F G) (ops : List (EOp F G)) (d : DualKey F G)
    (hd : EOp.run R DualKey.new ops = .ok d) (coins : Coins F) (h0 : d.key0 ≠ 0) (h1 : d.key1 ≠ 0) :
    (d.proof.matrix = [] → (d.prove R coins).2 = .panic) ∧
    (d.proof.matrix ≠ [] → (∃ k ∈ d.proof.matrix, k.keys.length ≠ (EOp.secrets ops).length + 2) → (d.prove R coins).2.IsErr) ∧
    (d.proof.matrix ≠ [] → EOp.secrets ops ≠ [] → (d.prove R coins).2.IsErr) ∧
    (d.proof.matrix ≠ [] → (∀ k ∈ d.proof.matrix, k.keys.length = 2) → EOp.secrets ops = [] →
      ∃ sig, (d.prove R coins).2 = .ok (sig, image R d.key0) ∧ sig.verify R [image R d.key0] = .ok true) := by
  obtain ⟨f1, f2, f3⟩ := Fresh'.run ops (Fresh'.new R) hd
  rw [List.nil_append] at f1 f2
  generalize EOp.secrets ops = xs at *
  have e1 : (loaded R d).privKeys = xs ++ [d.key0, d.key1] := by simp [loaded, Proof.addSecret, f1]
  have e2 : (loaded R d).signer.keys = (xs ++ [d.key0, d.key1]).map (· • R.base) := by
    simp [loaded, Proof.addSecret, PubKeys.addPubKey, privKeyToPubKey, f2]
  have hdec : ∀ k ∈ (loaded R d).matrix, k.decoy = true ∨ k = ⟨false, (loaded R d).signer.keys⟩ := fun k hk => .inl (f3 k hk)
  -- a dimension mismatch
  have hmis : (∃ k ∈ d.proof.matrix, k.keys.length ≠ xs.length + 2) → (d.prove R coins).2.IsErr := by
    rintro ⟨k, hk, hl⟩
    obtain ⟨m, i, g1, g2, g3⟩ := shuffleSet_gen (loaded R d) coins.shuffle hdec
    have hany : (m.any fun k => decide (k.keys.length ≠ (loaded R d).privKeys.length)) = true := by
      rw [List.any_eq_true]
      refine ⟨k, g2.mem_iff.2 (List.mem_append_left _ hk), ?_⟩
      rw [e1]
      simpa using hl
    unfold DualKey.prove
    rw [if_neg (by tauto)]
    unfold Proof.prove
    simp only [g1]
    rw [hany]
    simp [Res.IsErr, Res.bind]
  have hgood : d.proof.matrix ≠ [] → (∀ k ∈ d.proof.matrix, k.keys.length = xs.length + 2) →
      ∃ sig I, ((loaded R d).prove R true coins).2 = .ok (sig, I) ∧ sig.verify R I = .ok true ∧
        I = ((xs ++ [d.key0, d.key1]).map (image R)).dropLast := by
    intro hm hl
    obtain ⟨sig, I, g1, g2, -⟩ := prove_gen R (loaded R d) true coins (by rw [e1, e2]) hdec hm (by rw [e1]; simp) (by rw [e1]; simp)
      (by rw [e1]; intro k hk; rw [hl k hk]; simp)
    have hI := g2.images
    rw [e1] at hI
    exact ⟨sig, I, g1, g2.accepted, hI⟩
  refine ⟨?_, fun _ h => hmis h, ?_, ?_⟩
  · intro hm
    have e : ((loaded R d).prove R true coins).2 = .panic := by
      obtain ⟨hs, hdd⟩ := secrets_map (G := G) (xs ++ [d.key0, d.key1])
      have hc := C25_violated R d.proof.msg ((xs ++ [d.key0, d.key1]).map Op.secret) true coins hdd (by rw [hs]; simp)
      obtain ⟨b1, b2, b3, b4⟩ := build_eq R d.proof.msg ((xs ++ [d.key0, d.key1]).map (Op.secret (G := G)))
      rw [← hc]
      refine prove_congr R coins _ _ ?_ ?_ ?_ ?_ hdec
      · rw [b3, hdd]
        exact hm
      · rw [b1, hs, e1]
      · rw [b2, hs, e2]
      · exact b4.symm
    unfold DualKey.prove
    rw [if_neg (by tauto)]
    simp only [e, Res.bind_panic]
  · intro hm hx
    by_cases hl : ∀ k ∈ d.proof.matrix, k.keys.length = xs.length + 2
    · obtain ⟨sig, I, g1, -, g3⟩ := hgood hm hl
      unfold DualKey.prove
      rw [if_neg (by tauto)]
      simp only [g1, Res.bind_ok]
      cases xs with
      | nil => exact absurd rfl hx
      | cons x xs =>
        have hI : 2 ≤ I.length := by
          rw [g3]
          simp
        rcases I with _ | ⟨a, _ | ⟨b, l⟩⟩
        · simp at hI
        · simp at hI
        · exact Res.isErr_err _
    · push Not at hl
      exact hmis hl
  · intro hm hl hx
    subst hx
    obtain ⟨sig, I, g1, g2, g3⟩ := hgood hm hl
    have hI : I = [image R d.key0] := g3
    subst hI
    refine ⟨sig, ?_, g2⟩
    unfold DualKey.prove
    rw [if_neg (by tauto)]
    simp only [g1, Res.bind_ok]

/-- C83: the first `Prove` succeeds exactly if both keys are non-zero, no secret was added by `AddSecret`, there is a decoy,
and every decoy has two keys. -/
theorem C83_ok_iff [DecidableEq F] (R : Ristretto F G) (ops : List (EOp F G)) (d : DualKey F G)
    (hd : EOp.run R DualKey.new ops = .ok d) (coins : Coins F) :
    (∃ s, (d.prove R coins).2 = .ok s) ↔ d.key0 ≠ 0 ∧ d.key1 ≠ 0 ∧ EOp.secrets ops = [] ∧ d.proof.matrix ≠ [] ∧
      ∀ k ∈ d.proof.matrix, k.keys.length = 2 := by
  constructor
  · rintro ⟨s, hs⟩
    have nerr : ¬ (d.prove R coins).2.IsErr := by rw [hs]; simp [Res.IsErr]
    have h0 : ¬ (d.key0 = 0 ∨ d.key1 = 0) := fun h => nerr (C23_zero R d coins h).2
    push Not at h0
    obtain ⟨a, b, c, -⟩ := C83_outcome R ops d hd coins h0.1 h0.2
    have hm : d.proof.matrix ≠ [] := fun h => by rw [a h] at hs; cases hs
    have hx : EOp.secrets ops = [] := by
      by_contra h
      exact nerr (c hm h)
    refine ⟨h0.1, h0.2, hx, hm, ?_⟩
    by_contra h
    push Not at h
    rw [hx] at b
    exact nerr (b hm h)
  · rintro ⟨h0, h1, hx, hm, hl⟩
    obtain ⟨sig, h, -⟩ := (C83_outcome R ops d hd coins h0 h1).2.2.2 hm hl hx
    exact ⟨_, h⟩

/-- With an `AddSecret(7)` and decoys of three keys, a signature is computed but not returned. -/
example (coins : Coins Toy.K) : ∃ d, EOp.run Toy.ris DualKey.new [.op (.decoy ⟨false, [10, 11, 12]⟩), .op (.primary 5), .secret 7,
    .op (.comm 5), .decoys [⟨true, [13, 14, 15]⟩]] = .ok d ∧ (d.prove Toy.ris coins).2.IsErr := by
  have h5 : (5 : Toy.K) ≠ 0 := by
    intro h
    rw [show (5 : Toy.K) = ((5 : Nat) : Toy.K) by norm_num, Toy.ris.cast_eq_zero 5] at h
    have := Nat.le_of_dvd (by norm_num) h
    have := Toy.ris.two64_lt
    omega
  refine ⟨_, rfl, ?_⟩
  exact (C83_outcome Toy.ris [.op (.decoy ⟨false, [10, 11, 12]⟩), .op (.primary 5), .secret 7,
    .op (.comm 5), .decoys [⟨true, [13, 14, 15]⟩]] _ rfl coins h5 h5).2.2.1 (by simp [Proof.addDecoys, Proof.addDecoy, Proof.addPubKeys, Proof.addSecret, DualKey.setPrimaryKey, DualKey.setCommToZero, DualKey.new])
    (by simp [EOp.secrets])

end Dusk.Mlsag
