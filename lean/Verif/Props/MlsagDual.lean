import Verif.Props.Mlsag
/-!
# DualKey and repeated proving (C16, C23, C24)
-/

set_option linter.unusedSectionVars false

namespace Dusk.Mlsag

variable {F G : Type} [Field F] [AddCommGroup G] [Module F G]

/-- A call on a `DualKey` other than `Prove`. -/
inductive DOp (F G : Type) where
  | decoy (k : PubKeys G)
  | primary (x : F)
  | comm (x : F)
  | msg (m : Bytes)
  | sub (P : G)

/-- The effect of a call (`SubCommToZero` may panic). -/
def DOp.apply (R : Ristretto F G) (d : DualKey F G) : DOp F G → Res (DualKey F G)
  | .decoy k => .ok { d with proof := d.proof.addDecoy k }
  | .primary x => .ok (d.setPrimaryKey R x).1
  | .comm x => .ok (d.setCommToZero R x).1
  | .msg m => .ok (d.setMsg m)
  | .sub P => d.subCommToZero P

/-- A sequence of calls. -/
def DOp.run (R : Ristretto F G) (d : DualKey F G) : List (DOp F G) → Res (DualKey F G)
  | [] => .ok d
  | o :: l => (o.apply R d).bind fun d => DOp.run R d l

/-- No `Prove` yet: no secrets in the ring, only decoys. -/
def Fresh (d : DualKey F G) : Prop :=
  d.proof.privKeys = [] ∧ d.proof.signer.keys = [] ∧ ∀ k ∈ d.proof.matrix, k.decoy = true

theorem mapRes_mem {α β : Type} (f : α → Res β) : ∀ (l : List α) (m : List β), mapRes f l = .ok m → ∀ y ∈ m, ∃ x ∈ l, f x = .ok y
  | [], m, h, y, hy => by cases h; simp at hy
  | x :: l, m, h, y, hy => by
    rw [mapRes] at h
    obtain ⟨a, h1, h⟩ := Res.bind_eq_ok.1 h
    obtain ⟨b, h2, h⟩ := Res.bind_eq_ok.1 h
    cases h
    rcases List.mem_cons.1 hy with rfl | hy
    · exact ⟨x, by simp, h1⟩
    · obtain ⟨z, hz, e⟩ := mapRes_mem f l b h2 y hy
      exact ⟨z, by simp [hz], e⟩

theorem mapRes_mem' {α β : Type} (f : α → Res β) : ∀ (l : List α) (m : List β), mapRes f l = .ok m → ∀ x ∈ l, ∃ y ∈ m, f x = .ok y
  | [], m, h, x, hx => by simp at hx
  | a :: l, m, h, x, hx => by
    rw [mapRes] at h
    obtain ⟨b, h1, h⟩ := Res.bind_eq_ok.1 h
    obtain ⟨c, h2, h⟩ := Res.bind_eq_ok.1 h
    cases h
    rcases List.mem_cons.1 hx with rfl | hx
    · exact ⟨b, by simp, h1⟩
    · obtain ⟨z, hz, e⟩ := mapRes_mem' f l c h2 x hx
      exact ⟨z, by simp [hz], e⟩

theorem subSecond_ok {P : G} {k k' : PubKeys G} (h : k.subSecond P = .ok k') :
    k'.decoy = k.decoy ∧ k'.keys.length = k.keys.length := by
  unfold PubKeys.subSecond at h
  obtain ⟨K, -, h⟩ := Res.bind_eq_ok.1 h
  cases h
  simp

theorem Fresh.apply {R : Ristretto F G} {d d' : DualKey F G} (h : Fresh d) (o : DOp F G) (ho : o.apply R d = .ok d') : Fresh d' := by
  obtain ⟨h1, h2, h3⟩ := h
  cases o with
  | decoy k =>
    cases ho
    refine ⟨h1, h2, fun x hx => ?_⟩
    simp only [Proof.addDecoy, Proof.addPubKeys, List.mem_append, List.mem_singleton] at hx
    rcases hx with hx | rfl
    · exact h3 x hx
    · rfl
  | primary x => cases ho; exact ⟨h1, h2, h3⟩
  | comm x => cases ho; exact ⟨h1, h2, h3⟩
  | msg m => cases ho; exact ⟨h1, h2, h3⟩
  | sub P =>
    simp only [DOp.apply, DualKey.subCommToZero] at ho
    obtain ⟨m, hm, ho⟩ := Res.bind_eq_ok.1 ho
    cases ho
    refine ⟨h1, h2, fun x hx => ?_⟩
    obtain ⟨y, hy, e⟩ := mapRes_mem _ _ _ hm x hx
    rw [(subSecond_ok e).1]
    exact h3 y hy

theorem Fresh.run {R : Ristretto F G} : ∀ (ops : List (DOp F G)) {d d' : DualKey F G}, Fresh d → DOp.run R d ops = .ok d' → Fresh d'
  | [], d, d', h, e => by cases e; exact h
  | o :: l, d, d', h, e => by
    obtain ⟨d1, h1, h2⟩ := Res.bind_eq_ok.1 e
    exact Fresh.run l (h.apply o h1) h2

theorem Fresh.new : Fresh (DualKey.new : DualKey F G) := ⟨rfl, rfl, by simp [DualKey.new]⟩

/-- The state from which `Prove` proves. -/
abbrev loaded (R : Ristretto F G) (d : DualKey F G) : Proof F G := (d.proof.addSecret R d.key0).addSecret R d.key1

/-- C23: a zero secret is refused and nothing is touched. -/
theorem C23_zero [DecidableEq F] (R : Ristretto F G) (d : DualKey F G) (coins : Coins F) (h : d.key0 = 0 ∨ d.key1 = 0) :
    (d.prove R coins).1 = d ∧ (d.prove R coins).2.IsErr := by
  unfold DualKey.prove
  rw [if_pos h]
  exact ⟨rfl, Res.isErr_err _⟩

/-- C23: after any calls on a new `DualKey`, with non-zero keys, at least one decoy and all decoys of two keys, the first
`Prove` returns exactly the key image of the primary key, with which the signature verifies. -/
theorem C23_prove [DecidableEq F] (R : Ristretto F G) (ops : List (DOp F G)) (d : DualKey F G)
    (hd : DOp.run R DualKey.new ops = .ok d) (coins : Coins F) (h0 : d.key0 ≠ 0) (h1 : d.key1 ≠ 0) (hm : d.proof.matrix ≠ [])
    (h2 : ∀ k ∈ d.proof.matrix, k.keys.length = 2) :
    ∃ sig, (d.prove R coins).2 = .ok (sig, image R d.key0) ∧ sig.verify R [image R d.key0] = .ok true ∧ sig.msg = d.proof.msg ∧
      sig.pubKeys.Perm (d.proof.matrix ++ [⟨false, [d.key0 • R.base, d.key1 • R.base]⟩]) := by
  obtain ⟨f1, f2, f3⟩ := Fresh.run ops Fresh.new hd
  have e1 : (loaded R d).privKeys = [d.key0, d.key1] := by simp [loaded, Proof.addSecret, f1]
  have e2 : (loaded R d).signer.keys = [d.key0 • R.base, d.key1 • R.base] := by
    simp [loaded, Proof.addSecret, PubKeys.addPubKey, privKeyToPubKey, f2]
  have e3 : (loaded R d).matrix = d.proof.matrix := rfl
  obtain ⟨sig, I, g1, g2, -⟩ := prove_gen R (loaded R d) true coins (by rw [e1, e2]; rfl)
    (fun k hk => .inl (f3 k hk)) hm (by rw [e1]; simp) (by rw [e1]; simp) (by rw [e1]; exact h2)
  have hI := g2.images
  rw [e1] at hI
  have hI : I = [image R d.key0] := hI
  subst hI
  refine ⟨sig, ?_, g2.accepted, g2.msg, ?_⟩
  · unfold DualKey.prove
    rw [if_neg (by tauto)]
    simp only [g1, Res.bind_ok]
  · rw [g2.ring]
    have := g2.perm
    rw [e1] at this
    exact this

/-- The result of `prove` does not depend on the old index nor on the old flag. -/
theorem prove_congr [DecidableEq F] (R : Ristretto F G) (coins : Coins F) (p q : Proof F G) (a : p.matrix = q.matrix)
    (b : p.privKeys = q.privKeys) (c : p.signer.keys = q.signer.keys) (d : p.msg = q.msg)
    (hp : ∀ k ∈ p.matrix, k.decoy = true ∨ k = ⟨false, p.signer.keys⟩) : (p.prove R true coins).2 = (q.prove R true coins).2 := by
  obtain ⟨pi, pp, ⟨pd, pk⟩, pm, pmsg⟩ := p
  obtain ⟨qi, qp, ⟨qd, qk⟩, qm, qmsg⟩ := q
  simp only at a b c d
  subst a b c d
  obtain ⟨m, i, h, -, -⟩ := shuffleSet_gen ⟨pi, pp, ⟨pd, pk⟩, pm, pmsg⟩ coins.shuffle hp
  obtain ⟨m', i', h', -, -⟩ := shuffleSet_gen ⟨qi, pp, ⟨qd, pk⟩, pm, pmsg⟩ coins.shuffle hp
  have : (⟨pi, pp, ⟨pd, pk⟩, pm, pmsg⟩ : Proof F G).addSignerPubKey.shuffleSet coins.shuffle =
      (⟨qi, pp, ⟨qd, pk⟩, pm, pmsg⟩ : Proof F G).addSignerPubKey.shuffleSet coins.shuffle := by
    rw [h, h']
    have hh := h
    unfold Proof.shuffleSet at h h'
    simp only [Proof.addSignerPubKey, Proof.addPubKeys] at h h'
    cases hfi : List.findIdx? (fun k : PubKeys G => !k.decoy) (shuffleLoop coins.shuffle ((pm ++ [(⟨false, pk⟩ : PubKeys G)]).length - 1) (pm ++ [⟨false, pk⟩])) with
    | none => rw [hfi] at h; simp at h
    | some z =>
      rw [hfi] at h h'
      simp only [Prod.mk.injEq, Proof.mk.injEq, and_true, true_and] at h h'
      rw [← h.1, ← h'.1, ← h.2, ← h'.2]
  unfold Proof.prove
  rw [this]

/-- What a successful `prove` without decoys would need never happens. -/
theorem prove_empty [DecidableEq F] (R : Ristretto F G) (d : DualKey F G) (hf : Fresh d) (coins : Coins F)
    (h0 : d.key0 ≠ 0) (h1 : d.key1 ≠ 0) (hm : d.proof.matrix = []) : (d.prove R coins).2 = .panic := by
  have e : ((loaded R d).prove R true coins).2 = .panic := by
    have := C25_violated R d.proof.msg [.secret d.key0, .secret d.key1] true coins rfl (by simp [secrets])
    have eb : (build R d.proof.msg [.secret d.key0, .secret d.key1]).matrix = (loaded R d).matrix ∧
      (build R d.proof.msg [.secret d.key0, .secret d.key1]).privKeys = (loaded R d).privKeys ∧
      (build R d.proof.msg [.secret d.key0, .secret d.key1]).signer.keys = (loaded R d).signer.keys := by
      simp [build, Op.apply, loaded, Proof.addSecret, PubKeys.addPubKey, hm, hf.1, hf.2.1]
    rw [← this]
    exact (prove_congr R coins _ _ eb.1 eb.2.1 eb.2.2 rfl (by rw [eb.1]; intro k hk; exact .inl (hf.2.2 k hk))).symm
  unfold DualKey.prove
  rw [if_neg (by tauto)]
  simp only [e, Res.bind_panic]

/-- C23: whenever the first `Prove` succeeds, the returned image is that of the primary key and the signature verifies
with this single image. -/
theorem C23_success [DecidableEq F] (R : Ristretto F G) (ops : List (DOp F G)) (d : DualKey F G)
    (hd : DOp.run R DualKey.new ops = .ok d) (coins : Coins F) (sig : Signature F G) (im : G)
    (h : (d.prove R coins).2 = .ok (sig, im)) : im = image R d.key0 ∧ sig.verify R [im] = .ok true := by
  have hf := Fresh.run ops Fresh.new hd
  by_cases h0 : d.key0 = 0 ∨ d.key1 = 0
  · have := (C23_zero R d coins h0).2
    rw [h] at this
    simp [Res.IsErr] at this
  push Not at h0
  by_cases hm : d.proof.matrix = []
  · rw [prove_empty R d hf coins h0.1 h0.2 hm] at h
    cases h
  by_cases h2 : ∀ k ∈ d.proof.matrix, k.keys.length = 2
  · obtain ⟨sig', g1, g2, -⟩ := C23_prove R ops d hd coins h0.1 h0.2 hm h2
    rw [g1] at h
    cases h
    exact ⟨rfl, g2⟩
  · exfalso
    push Not at h2
    obtain ⟨k, hk, hl⟩ := h2
    obtain ⟨m, i, g1, g2, g3⟩ := shuffleSet_gen (loaded R d) coins.shuffle (fun k hk => .inl (hf.2.2 k hk))
    have hany : (m.any fun k => decide (k.keys.length ≠ (loaded R d).privKeys.length)) = true := by
      rw [List.any_eq_true]
      refine ⟨k, g2.mem_iff.2 (List.mem_append_left _ hk), ?_⟩
      simp [loaded, Proof.addSecret, hf.1, hl]
    unfold DualKey.prove at h
    rw [if_neg (by tauto)] at h
    unfold Proof.prove at h
    simp only [g1] at h
    rw [hany] at h
    simp at h

/-- Two decoys, subtraction of a commitment, keys 5 and 7. -/
example (coins : Coins Toy.K) : ∃ d sig, DOp.run Toy.ris DualKey.new [.decoy ⟨false, [10, 11]⟩, .primary 5, .decoy ⟨true, [12, 13]⟩,
    .comm 7, .sub 3, .msg [1, 2]] = .ok d ∧ (d.prove Toy.ris coins).2 = .ok (sig, image Toy.ris (5 : Toy.K)) := by
  have h57 : ((5 : Toy.K) ≠ 0 ∧ (7 : Toy.K) ≠ 0) := by
    have c5 := Toy.ris.cast_eq_zero 5
    have c7 := Toy.ris.cast_eq_zero 7
    have o := Toy.ris.two64_lt
    constructor
    · intro h
      rw [show (5 : Toy.K) = ((5 : Nat) : Toy.K) by norm_num, c5] at h
      have := Nat.le_of_dvd (by norm_num) h
      omega
    · intro h
      rw [show (7 : Toy.K) = ((7 : Nat) : Toy.K) by norm_num, c7] at h
      have := Nat.le_of_dvd (by norm_num) h
      omega
  have hrun : DOp.run Toy.ris DualKey.new [.decoy ⟨false, [10, 11]⟩, .primary 5, .decoy ⟨true, [12, 13]⟩,
    .comm 7, .sub 3, .msg [1, 2]] = .ok ⟨{ matrix := [⟨true, [10, 11 - 3]⟩, ⟨true, [12, 13 - 3]⟩], msg := [1, 2] }, 5, 7⟩ := rfl
  obtain ⟨sig, h, -⟩ := C23_prove Toy.ris _ _ hrun coins h57.1 h57.2 (by simp) (by simp)
  exact ⟨_, sig, hrun, h⟩

/-! ## C16 for DualKey -/

/-- C16: all successful first proofs under one primary key return one image. -/
theorem C16_dual [DecidableEq F] (R : Ristretto F G) (ops ops' : List (DOp F G)) (d d' : DualKey F G)
    (hd : DOp.run R DualKey.new ops = .ok d) (hd' : DOp.run R DualKey.new ops' = .ok d') (coins coins' : Coins F)
    (sig sig' : Signature F G) (im im' : G) (h : (d.prove R coins).2 = .ok (sig, im)) (h' : (d'.prove R coins').2 = .ok (sig', im'))
    (hk : d.key0 = d'.key0) : im = im' := by
  rw [(C23_success R ops d hd coins sig im h).1, (C23_success R ops' d' hd' coins' sig' im' h').1, hk]

/-! ## C24 -/

/-- A call on a `DualKey`, including `Prove`. -/
inductive DCall (F G : Type) where
  | op (o : DOp F G)
  | prove (coins : Coins F)

/-- All results of `Prove` in a history; a panicking call ends it. -/
def DCall.outcomes [DecidableEq F] (R : Ristretto F G) (d : DualKey F G) : List (DCall F G) → List (Res (Signature F G × G))
  | [] => []
  | .op o :: l =>
    match o.apply R d with
    | .ok d' => DCall.outcomes R d' l
    | _ => []
  | .prove coins :: l => (d.prove R coins).2 :: DCall.outcomes R (d.prove R coins).1 l

/-- The state after a `Prove` with non-zero keys: a vector shorter than the next number of secrets is in the ring. -/
def Spent (d : DualKey F G) : Prop := 2 ≤ d.proof.privKeys.length ∧ ∃ k ∈ d.proof.matrix, k.keys.length = 2

theorem Spent.apply {R : Ristretto F G} {d d' : DualKey F G} (h : Spent d) (o : DOp F G) (ho : o.apply R d = .ok d') : Spent d' := by
  obtain ⟨h1, k, hk, hl⟩ := h
  cases o with
  | decoy x =>
    cases ho
    exact ⟨h1, k, by simp [Proof.addDecoy, Proof.addPubKeys, hk], hl⟩
  | primary x => cases ho; exact ⟨h1, k, hk, hl⟩
  | comm x => cases ho; exact ⟨h1, k, hk, hl⟩
  | msg m => cases ho; exact ⟨h1, k, hk, hl⟩
  | sub P =>
    simp only [DOp.apply, DualKey.subCommToZero] at ho
    obtain ⟨m, hm, ho⟩ := Res.bind_eq_ok.1 ho
    cases ho
    obtain ⟨y, hy, e⟩ := mapRes_mem' _ _ _ hm k hk
    exact ⟨h1, y, hy, by rw [(subSecond_ok e).2, hl]⟩

/-- The ring after shuffling contains the old ring and the signer's vector. -/
theorem shuffleSet_ring (p : Proof F G) (shuffle : Nat → Nat) : ∃ m,
    (p.addSignerPubKey.shuffleSet shuffle).1.matrix = m ∧ m.Perm (p.matrix ++ [⟨false, p.signer.keys⟩]) ∧
    (p.addSignerPubKey.shuffleSet shuffle).1.privKeys = p.privKeys ∧
    (p.addSignerPubKey.shuffleSet shuffle).2 = .ok () := by
  unfold Proof.shuffleSet
  dsimp only
  have hp := shuffleLoop_perm shuffle (p.addSignerPubKey.matrix.length - 1) p.addSignerPubKey.matrix
  generalize shuffleLoop shuffle (p.addSignerPubKey.matrix.length - 1) p.addSignerPubKey.matrix = m at *
  refine ⟨m, ?_, hp, ?_, ?_⟩
  · split <;> rfl
  · split <;> rfl
  · cases hf : m.findIdx? fun k => !k.decoy with
    | some i => rfl
    | none =>
      rw [List.findIdx?_eq_none_iff] at hf
      have := hf ⟨false, p.signer.keys⟩ (hp.mem_iff.2 (by simp [Proof.addSignerPubKey, Proof.addPubKeys]))
      simp at this

theorem prove_state [DecidableEq F] (R : Ristretto F G) (p : Proof F G) (skip : Bool) (coins : Coins F) :
    (p.prove R skip coins).1 = (p.addSignerPubKey.shuffleSet coins.shuffle).1 := by
  unfold Proof.prove
  dsimp only
  split
  · split <;> rfl
  · rfl
  · rfl

/-- A `Prove` with non-zero keys spends the `DualKey`, if no secret was added before. -/
theorem Spent.of_prove [DecidableEq F] (R : Ristretto F G) (d : DualKey F G) (coins : Coins F) (hf : Fresh d)
    (h0 : d.key0 ≠ 0) (h1 : d.key1 ≠ 0) : Spent (d.prove R coins).1 := by
  unfold DualKey.prove
  rw [if_neg (by tauto)]
  dsimp only
  obtain ⟨m, e1, e2, e3, -⟩ := shuffleSet_ring (loaded R d) coins.shuffle
  unfold Spent
  dsimp only
  rw [prove_state, e3, e1]
  refine ⟨by simp [loaded, Proof.addSecret], _, e2.mem_iff.2 (List.mem_append_right _ (List.mem_singleton.2 rfl)), ?_⟩
  simp [loaded, Proof.addSecret, PubKeys.addPubKey, hf.2.1]

/-- Once spent, `Prove` returns an error and stays spent. -/
theorem Spent.prove [DecidableEq F] (R : Ristretto F G) (d : DualKey F G) (coins : Coins F) (h : Spent d) :
    (d.prove R coins).2.IsErr ∧ Spent (d.prove R coins).1 := by
  by_cases h0 : d.key0 = 0 ∨ d.key1 = 0
  · obtain ⟨a, b⟩ := C23_zero R d coins h0
    rw [a]
    exact ⟨b, h⟩
  obtain ⟨h1, k, hk, hl⟩ := h
  obtain ⟨m, e1, e2, e3, e4⟩ := shuffleSet_ring (loaded R d) coins.shuffle
  have hk' : k ∈ m := e2.mem_iff.2 (List.mem_append_left _ hk)
  unfold DualKey.prove
  rw [if_neg h0]
  dsimp only
  constructor
  · have : ((loaded R d).prove R true coins).2.IsErr := by
      unfold Proof.prove
      dsimp only
      rw [e4]
      dsimp only
      rw [e1, e3, if_pos]
      · exact Res.isErr_err _
      · rw [List.any_eq_true]
        refine ⟨k, hk', ?_⟩
        simp only [loaded, Proof.addSecret, List.length_append, List.length_singleton, hl, decide_eq_true_eq]
        omega
    obtain ⟨e, he⟩ : ∃ e, ((loaded R d).prove R true coins).2 = .err e := by
      cases hh : ((loaded R d).prove R true coins).2 <;> rw [hh] at this <;> simp [Res.IsErr] at this
      exact ⟨_, rfl⟩
    rw [he]
    exact Res.isErr_err _
  · unfold Spent
    dsimp only
    rw [prove_state, e3, e1]
    exact ⟨by simp [loaded, Proof.addSecret], k, hk', hl⟩

theorem Spent.outcomes [DecidableEq F] (R : Ristretto F G) : ∀ (calls : List (DCall F G)) (d : DualKey F G), Spent d →
    ∀ r ∈ DCall.outcomes R d calls, r.IsErr
  | [], d, _, r, hr => by simp [DCall.outcomes] at hr
  | .op o :: l, d, h, r, hr => by
    unfold DCall.outcomes at hr
    split at hr
    · rename_i d' hd'
      exact Spent.outcomes R l d' (h.apply o hd') r hr
    · simp at hr
  | .prove coins :: l, d, h, r, hr => by
    unfold DCall.outcomes at hr
    rcases List.mem_cons.1 hr with rfl | hr
    · exact (h.prove R d coins).1
    · exact Spent.outcomes R l _ (h.prove R d coins).2 r hr

/-- C24 (violated): after one `Prove` with non-zero keys on a new `DualKey` (successful or not), every later `Prove`
returns an error, whatever calls are made in between. -/
theorem C24_violated [DecidableEq F] (R : Ristretto F G) (ops : List (DOp F G)) (d : DualKey F G)
    (hd : DOp.run R DualKey.new ops = .ok d) (coins : Coins F) (h0 : d.key0 ≠ 0) (h1 : d.key1 ≠ 0)
    (calls : List (DCall F G)) : ∀ r ∈ DCall.outcomes R (d.prove R coins).1 calls, r.IsErr :=
  Spent.outcomes R calls _ (Spent.of_prove R d coins (Fresh.run ops Fresh.new hd) h0 h1)

/-- The results of `n` further calls of `prove` with the same flag. -/
def proveMany [DecidableEq F] (R : Ristretto F G) (skip : Bool) (p : Proof F G) : List (Coins F) →
    Proof F G × List (Res (Signature F G × List G))
  | [] => (p, [])
  | c :: l =>
    let r := p.prove R skip c
    let s := proveMany R skip r.1 l
    (s.1, r.2 :: s.2)

theorem proveMany_gen [DecidableEq F] (R : Ristretto F G) (skip : Bool) (ds : List (List G)) (xs : List F)
    (hd : ds ≠ []) (hx : xs ≠ []) (hskip : skip = true → 2 ≤ xs.length) (hdim : ∀ k ∈ ds, k.length = xs.length) :
    ∀ (l : List (Coins F)) (p : Proof F G) (k : Nat), p.privKeys = xs → p.signer.keys = xs.map (· • R.base) →
    p.matrix.Perm (ds.map (fun k => ⟨true, k⟩) ++ List.replicate k ⟨false, xs.map (· • R.base)⟩) →
    (proveMany R skip p l).1.matrix.Perm (ds.map (fun k => ⟨true, k⟩) ++ List.replicate (k + l.length) ⟨false, xs.map (· • R.base)⟩) ∧
    ∀ r ∈ (proveMany R skip p l).2, ∃ sig I, r = .ok (sig, I) ∧ sig.verify R I = .ok true
  | [], p, k, _, _, hp => ⟨by simpa [proveMany] using hp, by simp [proveMany]⟩
  | c :: l, p, k, e1, e2, hp => by
    have hmem : ∀ y ∈ p.matrix, (∃ d ∈ ds, y = ⟨true, d⟩) ∨ y = ⟨false, xs.map (· • R.base)⟩ := by
      intro y hy
      rcases List.mem_append.1 (hp.mem_iff.1 hy) with h | h
      · obtain ⟨d, hd, rfl⟩ := List.mem_map.1 h
        exact .inl ⟨d, hd, rfl⟩
      · exact .inr (List.eq_of_mem_replicate h)
    obtain ⟨sig, I, g1, g2, g3, g4, -⟩ := prove_gen R p skip c (by rw [e1, e2])
      (by
        intro y hy
        rcases hmem y hy with ⟨d, -, rfl⟩ | rfl
        · exact .inl rfl
        · rw [e2]; exact .inr rfl)
      (by
        intro h
        rw [h] at hp
        have := hp.length_eq
        simp at this
        exact hd (List.length_eq_zero_iff.1 (by omega)))
      (by rw [e1]; exact hx) (by rw [e1]; exact hskip)
      (by
        intro y hy
        rw [e1]
        rcases hmem y hy with ⟨d, h, rfl⟩ | rfl
        · exact hdim d h
        · simp)
    have hperm := g2.perm
    rw [e1] at hperm
    obtain ⟨i1, i2⟩ := proveMany_gen R skip ds xs hd hx hskip hdim l (p.prove R skip c).1 (k + 1) (by rw [g3, e1]) (by rw [g4, e2])
      (by
        refine hperm.trans ((hp.append_right _).trans ?_)
        rw [List.append_assoc, ← List.replicate_succ'])
    unfold proveMany
    dsimp only
    refine ⟨?_, ?_⟩
    · rw [List.length_cons, show k + (l.length + 1) = k + 1 + l.length by omega]
      exact i1
    · intro r hr
      rcases List.mem_cons.1 hr with rfl | hr
      · exact ⟨sig, I, g1, g2.accepted⟩
      · exact i2 r hr

/-- C24 (violated): repeated `prove` calls all succeed and verify, but after `n` calls the ring contains the signer's vector
`n` times. -/
theorem C24_ring_grows_violated [DecidableEq F] (R : Ristretto F G) (msg : Bytes) (ops : List (Op F G)) (skip : Bool)
    (hd : decoys ops ≠ []) (hx : secrets ops ≠ []) (hskip : skip = true → 2 ≤ (secrets ops).length)
    (hdim : ∀ k ∈ decoys ops, k.length = (secrets ops).length) (l : List (Coins F)) :
    (proveMany R skip (build R msg ops) l).1.matrix.Perm
      ((decoys ops).map (fun k => ⟨true, k⟩) ++ List.replicate l.length ⟨false, (secrets ops).map (· • R.base)⟩) ∧
    ∀ r ∈ (proveMany R skip (build R msg ops) l).2, ∃ sig I, r = .ok (sig, I) ∧ sig.verify R I = .ok true := by
  obtain ⟨b1, b2, b3, b4⟩ := build_eq R msg ops
  have := proveMany_gen R skip (decoys ops) (secrets ops) hd hx hskip hdim l (build R msg ops) 0 b1 b2 (by rw [b3]; simp)
  simpa using this

example (c : Coins Toy.K) : (proveMany Toy.ris false (build Toy.ris [1] [.decoy ⟨false, [10]⟩, .secret 5]) [c, c, c]).1.matrix.Perm
    [⟨true, [10]⟩, ⟨false, [5 • Toy.ris.base]⟩, ⟨false, [5 • Toy.ris.base]⟩, ⟨false, [5 • Toy.ris.base]⟩] := by
  have := (C24_ring_grows_violated Toy.ris [1] [.decoy ⟨false, [10]⟩, .secret 5] false (by simp [decoys]) (by simp [secrets]) (by simp)
    (by simp [decoys, secrets]) [c, c, c]).1
  simpa [decoys, secrets, List.replicate_succ, ofNat_smul_eq_nsmul] using this

end Dusk.Mlsag
