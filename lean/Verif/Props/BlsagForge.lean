import Verif.Props.Blsag
import Verif.Props.Mlsag
import Mathlib.Data.List.GetD
/-!
# C28, C95, C96, C97: soundness of bLSAG, forgeries on rings with zero values, rotation of rings
-/

set_option linter.unusedSectionVars false

namespace Dusk

theorem drop_zip' {α β : Type} (a : List α) (b : List β) (k : Nat) : (a.zip b).drop k = (a.drop k).zip (b.drop k) := by
  simp only [List.zip_eq_zipWith, List.drop_zipWith]

theorem take_zip' {α β : Type} (a : List α) (b : List β) (k : Nat) : (a.zip b).take k = (a.take k).zip (b.take k) := by
  simp only [List.zip_eq_zipWith, List.take_zipWith]

namespace Blsag

variable {F G P : Type} [Field F] [AddCommGroup G] [Module F G]

/-! ## C95 -/

/-- What is hashed for a ring member `K` with response `s` and challenge `c`. -/
def gquery (R : Ristretto F G) (m : Bytes) (I K : G) (s c : F) : Bytes :=
  m ++ R.pBytes (s • R.base + c • K) ++ R.pBytes (s • R.pDerive (R.pBytes K) + c • I)

/-- C95: if the hash inputs of one member agree for two challenges `c ≠ c'`, then the secret key of this member is
`(s' - s)/(c - c')`, and `I` is its key image. -/
theorem C95_special_soundness {R : Ristretto F G} (E : R.Encodings) (m : Bytes) (I K : G) (s s' c c' : F) (hc : c ≠ c')
    (h : gquery R m I K s c = gquery R m I K s' c') :
    K = ((s' - s) / (c - c')) • R.base ∧ I = ((s' - s) / (c - c')) • R.pDerive (R.pBytes K) := by
  have hcc : c - c' ≠ 0 := sub_ne_zero.2 hc
  have solve : ∀ (B Q : G), s • B + c • Q = s' • B + c' • Q → Q = ((s' - s) / (c - c')) • B := by
    intro B Q h
    have h1 : (c - c') • Q = (s' - s) • B := by
      rw [sub_smul, sub_smul, sub_eq_sub_iff_add_eq_add, add_comm, h, add_comm]
    rw [div_eq_inv_mul, mul_smul, ← h1, inv_smul_smul₀ hcc]
  unfold gquery at h
  rw [List.append_assoc, List.append_assoc] at h
  obtain ⟨h1, h2⟩ := List.append_inj (List.append_cancel_left h) (by rw [E.pBytes_length, E.pBytes_length])
  exact ⟨solve _ _ (E.pBytes_inj h1), solve _ _ (E.pBytes_inj h2)⟩

/-- The challenge with which the member at index `j` is entered. -/
def chalAt (R : Ristretto F G) (m : Bytes) (I : G) (ring : List (G × F)) (c : F) (j : Nat) : F :=
  (ring.take j).foldl (fun c x => glink R m I x.1 x.2 c) c

/-- What is hashed at index `j`. -/
def queryAt (R : Ristretto F G) (m : Bytes) (I : G) (ring : List (G × F)) (c : F) (j : Nat) (h : j < ring.length) : Bytes :=
  gquery R m I ring[j].1 ring[j].2 (chalAt R m I ring c j)

theorem chalAt_succ (R : Ristretto F G) (m : Bytes) (I : G) (ring : List (G × F)) (c : F) (j : Nat) (h : j < ring.length) :
    chalAt R m I ring c (j + 1) = R.sDerive (queryAt R m I ring c j h) := by
  unfold chalAt queryAt
  rw [List.take_add_one, List.getElem?_eq_getElem h, Option.toList_some, List.foldl_append]
  rfl

/-- Over a ring of group elements `Verify` accepts iff every challenge is the hash of what is hashed at the member before it, where
the last member comes before the first. -/
theorem C95_closed [DecidableEq F] {R : Ristretto F G} {V : Raw F G P} (hV : V.Lawful R) (m : Bytes) (I : G) (c : F)
    (ring : List (G × F)) (hn : ring ≠ []) :
    verify R V m ⟨V.inj I, c, ring.map (·.2), ring.map fun x => V.inj x.1⟩ = .ok true ↔
      chalAt R m I ring c 0 = R.sDerive (queryAt R m I ring c (ring.length - 1) (by
        have := List.length_pos_iff.2 hn; omega)) := by
  have hpos := List.length_pos_iff.2 hn
  rw [verify_eq R V m _ (by simpa using hn) (by simp)]
  dsimp only
  have e : ((ring.map fun x => V.inj x.1).zip (ring.map (·.2))) = ring.map fun x => (V.inj x.1, x.2) := by
    rw [List.zip_map', List.map_congr_left]
    intros; rfl
  rw [e, C32_group hV, ← chalAt_succ]
  have e2 : chalAt R m I ring c (ring.length - 1 + 1) = ring.foldl (fun c x => glink R m I x.1 x.2 c) c := by
    unfold chalAt
    rw [show ring.length - 1 + 1 = ring.length by omega, List.take_length]
  rw [e2]
  simp [chalAt, eq_comm]

/-- Whatever the order in which the hashes of an accepted signature were asked for, there is a member whose hash was asked for no
later than the one which gives its challenge: going around the ring, time cannot increase at every step. This is the member
at which an extractor changes the answer. -/
theorem C95_order [DecidableEq F] {R : Ristretto F G} {V : Raw F G P} (hV : V.Lawful R) (m : Bytes) (I : G) (c : F)
    (ring : List (G × F)) (hn : ring ≠ []) (h : verify R V m ⟨V.inj I, c, ring.map (·.2), ring.map fun x => V.inj x.1⟩ = .ok true)
    (time : Bytes → Nat) :
    ∃ (j k : Nat) (hj : j < ring.length) (hk : k < ring.length), (k + 1) % ring.length = j ∧
      chalAt R m I ring c j = R.sDerive (queryAt R m I ring c k hk) ∧
      time (queryAt R m I ring c j hj) ≤ time (queryAt R m I ring c k hk) := by
  have hpos := List.length_pos_iff.2 hn
  rw [C95_closed hV m I c ring hn] at h
  by_contra hno
  push Not at hno
  -- the time increases from each member to the next
  have step : ∀ j (hj : j < ring.length), time (queryAt R m I ring c 0 hpos) + j ≤ time (queryAt R m I ring c j hj) := by
    intro j
    induction j with
    | zero => intro hj; omega
    | succ j ih =>
      intro hj
      have h1 := ih (by omega)
      have h2 := hno (j + 1) j hj (by omega) (Nat.mod_eq_of_lt hj) (chalAt_succ R m I ring c j (by omega))
      omega
  have hlast := hno 0 (ring.length - 1) hpos (by omega) (by
    rw [show ring.length - 1 + 1 = ring.length by omega, Nat.mod_self]) h
  have := step (ring.length - 1) (by omega)
  omega

/-- So if a second accepted signature of the same message with the same image and ring, for another random oracle, has the same
hash input at such a member and another challenge there, the secret key follows. -/
theorem C95_extract [DecidableEq F] {R R' : Ristretto F G} (E : R.Encodings) (hb : R'.base = R.base) (hd : R'.pDerive = R.pDerive)
    (hp : R'.pBytes = R.pBytes) (m : Bytes) (I : G) (c c' : F) (ring ring' : List (G × F)) (j : Nat) (hj : j < ring.length)
    (hj' : j < ring'.length) (hk : ring'[j].1 = ring[j].1) (hq : queryAt R' m I ring' c' j hj' = queryAt R m I ring c j hj)
    (hne : chalAt R' m I ring' c' j ≠ chalAt R m I ring c j) :
    ∃ x : F, ring[j].1 = x • R.base ∧ I = x • R.pDerive (R.pBytes ring[j].1) := by
  unfold queryAt gquery at hq
  rw [hb, hd, hp, hk] at hq
  exact ⟨_, C95_special_soundness E m I ring[j].1 ring[j].2 ring'[j].2 _ _ (Ne.symm hne) hq.symm⟩

/-! ## C96 -/

/-- The Go zero value absorbs: with all coordinates zero the addition formulas give all coordinates zero. -/
structure Raw.Absorbs (V : Raw F G P) : Prop where
  smul : ∀ c, c ≠ 0 → V.smul V.zero c = V.zero
  add_zero : ∀ p, V.add p V.zero = V.zero

/-- At a zero value with the image zero the next challenge is always the same. -/
theorem link_zero {R : Ristretto F G} {V : Raw F G P} (hA : V.Absorbs) (m : Bytes) (s c : F) (hc : c ≠ 0) :
    link R V m V.zero V.zero s c = R.sDerive (m ++ V.bytes V.zero ++ V.bytes V.zero) := by
  unfold link
  rw [hA.smul c hc, hA.add_zero, hA.add_zero]

/-- C96 (violated expectation: an accepted signature needs a secret key of the ring): if the zero value is in the ring, the signature
with image zero and any responses is accepted for any message, with a challenge that is computed from public values. -/
theorem C96_forgery_violated [DecidableEq F] {R : Ristretto F G} {V : Raw F G P} (hA : V.Absorbs) (m : Bytes) (A B : List (P × F)) (s : F)
    (hc : around R V m V.zero A (around R V m V.zero B (R.sDerive (m ++ V.bytes V.zero ++ V.bytes V.zero))) ≠ 0) :
    verify R V m ⟨V.zero, around R V m V.zero B (R.sDerive (m ++ V.bytes V.zero ++ V.bytes V.zero)),
      (A ++ (V.zero, s) :: B).map (·.2), (A ++ (V.zero, s) :: B).map (·.1)⟩ = .ok true := by
  rw [verify_eq R V m _ (by simp) (by simp)]
  dsimp only
  have e : (((A ++ (V.zero, s) :: B).map (·.1)).zip ((A ++ (V.zero, s) :: B).map (·.2))) = A ++ (V.zero, s) :: B := by
    rw [List.zip_map']
    simp
  rw [e]
  congr 1
  rw [decide_eq_true_eq]
  unfold around at hc ⊢
  rw [List.foldl_append, List.foldl_cons]
  rw [link_zero hA m s _ hc]

/-- C96 (violated): every ring `Sign` makes with at least one mixin has a zero value in it, so anyone can sign any message for it. -/
theorem C96_honest_ring_violated [DecidableEq F] {R : Ristretto F G} {V : Raw F G P} (hV : V.Lawful R) (hA : V.Absorbs)
    (hnz : ∀ b, R.sDerive b ≠ 0) (m m' : Bytes) (mixin : List P) (hm : mixin ≠ []) (sK : F) (coins : Coins F) (S : List F)
    (hS : S.length = mixin.length + 1) :
    ∃ sig C, sign R V m mixin sK coins = .ok sig ∧ verify R V m' ⟨V.zero, C, S, sig.pubKeys⟩ = .ok true := by
  obtain ⟨sig, h1, h2, h3⟩ := C30_violated hV m mixin sK coins
  have hlen : 0 < mixin.length := List.length_pos_iff.2 hm
  -- a position other than the signer's
  obtain ⟨p, hp, hpj⟩ : ∃ p, p < mixin.length + 1 ∧ p ≠ coins.position % (mixin.length + 1) := by
    by_cases h : coins.position % (mixin.length + 1) = 0
    · exact ⟨1, by omega, by omega⟩
    · exact ⟨0, by omega, by omega⟩
  have hz : sig.pubKeys[p]? = some V.zero := by rw [h3 p hp, if_neg hpj]
  have hzip : (sig.pubKeys.zip S)[p]? = some (V.zero, S[p]'(by omega)) := by
    rw [List.getElem?_zip_eq_some]
    exact ⟨hz, List.getElem?_eq_getElem (by omega)⟩
  obtain ⟨hp', hget⟩ := List.getElem?_eq_some_iff.1 hzip
  have hsplit : sig.pubKeys.zip S = (sig.pubKeys.zip S).take p ++ (V.zero, S[p]'(by omega)) :: (sig.pubKeys.zip S).drop (p + 1) := by
    rw [← hget, ← List.drop_eq_getElem_cons hp', List.take_append_drop]
  have hpos : ∀ (l : List (P × F)) (c : F), c ≠ 0 → around R V m' V.zero l c ≠ 0 := by
    intro l
    induction l with
    | nil => intro c h; exact h
    | cons x l ih => intro c _; exact ih _ (hnz _)
  have h := C96_forgery_violated (R := R) hA m' ((sig.pubKeys.zip S).take p) ((sig.pubKeys.zip S).drop (p + 1)) (S[p]'(by omega))
    (hpos _ _ (hpos _ _ (hnz _)))
  rw [← hsplit, List.map_snd_zip (by omega), List.map_fst_zip (by omega)] at h
  exact ⟨sig, _, h1, h⟩

/-! ## C97 -/

/-- C97 (violated expectation: an accepted signature cannot be changed into another one): rotating the ring and the responses, with the
challenge at the new start, gives an accepted signature of the same message with the same image. -/
theorem C97_blsag_violated [DecidableEq F] (R : Ristretto F G) (V : Raw F G P) (m : Bytes) (sig : RingSignature F P)
    (hl : sig.S.length = sig.pubKeys.length) (h : verify R V m sig = .ok true) (k : Nat) (hk : k ≤ sig.pubKeys.length) :
    verify R V m ⟨sig.I, around R V m sig.I ((sig.pubKeys.zip sig.S).take k) sig.C, sig.S.drop k ++ sig.S.take k,
      sig.pubKeys.drop k ++ sig.pubKeys.take k⟩ = .ok true := by
  have hn : sig.pubKeys ≠ [] := by
    intro hn
    rw [C32_empty R V m sig hn] at h
    cases h
  have hpos := List.length_pos_iff.2 hn
  rw [verify_eq R V m sig hn (by omega)] at h
  have h' := of_decide_eq_true (Res.ok.inj h)
  rw [verify_eq R V m _ (by
    intro h0
    have := congrArg List.length h0
    simp only [List.length_append, List.length_drop, List.length_take, List.length_nil] at this
    omega) (by simp; omega)]
  congr 1
  rw [decide_eq_true_eq]
  dsimp only
  rw [List.zip_append (by simp; omega), ← drop_zip', ← take_zip']
  conv at h' => lhs; rw [← List.take_append_drop k (sig.pubKeys.zip sig.S)]
  unfold around at h' ⊢
  rw [List.foldl_append] at h' ⊢
  rw [h']

/-! ### The hypotheses are satisfiable -/

/-- Answers `s = α - c x` of the owner of a key to any two challenges. -/
example (R : Ristretto F G) (m : Bytes) (x α c c' : F) :
    gquery R m (x • R.pDerive (R.pBytes (x • R.base))) (x • R.base) (α - c * x) c =
      gquery R m (x • R.pDerive (R.pBytes (x • R.base))) (x • R.base) (α - c' * x) c' := by
  have e : ∀ (B : G) (c : F), (α - c * x) • B + c • x • B = α • B := by
    intro B c
    rw [sub_smul, mul_smul, sub_add_cancel]
  simp only [gquery, e]

theorem toyRaw_absorbs : toyRaw.Absorbs := ⟨fun _ _ => rfl, fun p => by cases p <;> rfl⟩

/-- A forged signature of any message for the ring of an honest one. -/
example (m m' : Bytes) (sK : Toy.K) (coins : Coins Toy.K) : ∃ sig C, sign Toy.ris toyRaw m [some 5, some 6] sK coins = .ok sig ∧
    verify Toy.ris toyRaw m' ⟨none, C, [1, 2, 3], sig.pubKeys⟩ = .ok true :=
  C96_honest_ring_violated toyRaw_lawful toyRaw_absorbs (fun b => Toy.dv_ne_zero b) m m' _ (by simp) sK coins [1, 2, 3] rfl

/-- A signature for a ring of group elements: the owner of the only key. -/
example (m : Bytes) (x : Toy.K) (coins : Coins Toy.K) : ∃ sig, sign Toy.ris toyRaw m [] x coins = .ok sig ∧
    verify Toy.ris toyRaw m sig = .ok true ∧ sig.pubKeys = [some (x • Toy.ris.base)] ∧ sig.S.length = sig.pubKeys.length := by
  obtain ⟨sig, h1, h2⟩ := C29_completeness toyRaw_lawful m [] x coins
  obtain ⟨sig', h1', h3, h4⟩ := C30_violated toyRaw_lawful m [] x coins
  obtain ⟨sig'', c, h1'', h5, -⟩ := C31_violated toyRaw_lawful m [] x coins
  rw [h1] at h1' h1''
  cases h1'
  cases h1''
  refine ⟨sig, h1, h2, ?_, by rw [h3, h5]⟩
  have h := h4 0 (by simp)
  simp only [List.length_nil, Nat.zero_add, Nat.mod_one, if_true] at h h3
  obtain ⟨a, ha⟩ := List.length_eq_one_iff.1 h3
  rw [ha] at h ⊢
  simpa [toyRaw] using h

end Blsag

namespace Mlsag

variable {F G : Type} [Field F] [AddCommGroup G] [Module F G]

/-- C97 (violated) for MLSAG: the same. -/
theorem C97_mlsag_violated [DecidableEq F] (R : Ristretto F G) (sig : Signature F G) (I : List G) (h2 : 2 ≤ sig.r.length)
    (hl : sig.pubKeys.length = sig.r.length) (h : sig.verify R I = .ok true) (k : Nat) (hk : k ≤ sig.r.length) :
    ({ sig with
        c := around R sig.msg I ((ringOf sig).take k) sig.c
        r := sig.r.drop k ++ sig.r.take k
        pubKeys := sig.pubKeys.drop k ++ sig.pubKeys.take k } : Signature F G).verify R I = .ok true := by
  have hI : I ≠ [] := by
    intro h0
    obtain ⟨e, he⟩ := C17_empty R sig I (.inr (.inr h0))
    rw [h] at he; cases he
  have hf : sig.r.length ≤ sig.pubKeys.length ∧ Fits I (ringOf sig) := by
    by_contra hc
    have := (C26_panic_iff R sig I (by rintro h0; simp [h0] at hl; omega) (by rintro h0; simp [h0] at h2) hI).2 hc
    rw [h] at this; cases this
  have hc := (C17_verify R sig I h2 hf.1 hI hf.2).1.1 h
  have hring : ∀ (c : F), ringOf ({ sig with
        c := c
        r := sig.r.drop k ++ sig.r.take k
        pubKeys := sig.pubKeys.drop k ++ sig.pubKeys.take k } : Signature F G) = (ringOf sig).drop k ++ (ringOf sig).take k := by
    intro c
    unfold ringOf
    dsimp only
    rw [List.map_append, List.zip_append (by simp; omega), List.map_drop, List.map_take, ← drop_zip', ← take_zip']
  rw [(C17_verify R _ I (by dsimp only; simp; omega) (by dsimp only; simp; omega) hI (by
    rw [hring]
    intro x hx
    apply hf.2
    rcases List.mem_append.1 hx with hx | hx
    · exact List.mem_of_mem_drop hx
    · exact List.mem_of_mem_take hx)).1]
  rw [hring]
  dsimp only
  conv at hc => lhs; rw [← List.take_append_drop k (ringOf sig)]
  unfold around at hc ⊢
  rw [List.foldl_append] at hc ⊢
  rw [hc]

example (coins : Coins Toy.K) : ∃ (sig : Signature Toy.K Toy.K) (I : List Toy.K), sig.verify Toy.ris I = .ok true ∧
    sig.r.length = 3 ∧ sig.pubKeys.length = sig.r.length := by
  obtain ⟨sig, I, -, hp⟩ := C14_prove (F := Toy.K) Toy.ris [1, 2, 3] [.decoy ⟨false, [10, 11]⟩, .secret 5, .decoy ⟨true, [12, 13]⟩,
    .secret 7] true coins (by simp [decoys]) (by simp [secrets]) (by simp [secrets]) (by simp [decoys, secrets])
  have hrl : sig.r.length = 3 := by rw [hp.lenR, hp.perm.length_eq]; simp [decoys]
  have hpl : sig.pubKeys.length = 3 := by rw [← hrl, hp.lenR, hp.ring]
  exact ⟨sig, I, hp.accepted, hrl, by omega⟩

/-! ## C28 for whole signatures -/

/-- The challenge with which the member at index `j` is entered. -/
def chalAt (R : Ristretto F G) (msg : Bytes) (I : List G) (ring : List (List G × List F)) (c : F) (j : Nat) : F :=
  around R msg I (ring.take j) c

/-- What is hashed at index `j`. -/
def queryAt (R : Ristretto F G) (msg : Bytes) (I : List G) (ring : List (List G × List F)) (c : F) (j : Nat)
    (h : j < ring.length) : Bytes :=
  query R msg I ring[j].1 ring[j].2 (chalAt R msg I ring c j)

theorem chalAt_succ (R : Ristretto F G) (msg : Bytes) (I : List G) (ring : List (List G × List F)) (c : F) (j : Nat)
    (h : j < ring.length) : chalAt R msg I ring c (j + 1) = R.sDerive (queryAt R msg I ring c j h) := by
  unfold chalAt queryAt around
  rw [List.take_add_one, List.getElem?_eq_getElem h, Option.toList_some, List.foldl_append]
  rfl

/-- C28: whatever the order in which the hashes of an accepted signature were asked for, there is a member whose hash was asked for
no later than the one which gives its challenge. -/
theorem C28_order [DecidableEq F] (R : Ristretto F G) (sig : Signature F G) (I : List G) (h2 : 2 ≤ sig.r.length)
    (h : sig.verify R I = .ok true) (time : Bytes → Nat) :
    ∃ (j k : Nat) (hj : j < (ringOf sig).length) (hk : k < (ringOf sig).length), (k + 1) % (ringOf sig).length = j ∧
      chalAt R sig.msg I (ringOf sig) sig.c j = R.sDerive (queryAt R sig.msg I (ringOf sig) sig.c k hk) ∧
      time (queryAt R sig.msg I (ringOf sig) sig.c j hj) ≤ time (queryAt R sig.msg I (ringOf sig) sig.c k hk) := by
  have hI : I ≠ [] := by
    intro h0
    obtain ⟨e, he⟩ := C17_empty R sig I (.inr (.inr h0))
    rw [h] at he; cases he
  have hp : sig.pubKeys ≠ [] := by
    intro h0
    obtain ⟨e, he⟩ := C17_empty R sig I (.inl h0)
    rw [h] at he; cases he
  have hf : sig.r.length ≤ sig.pubKeys.length ∧ Fits I (ringOf sig) := by
    by_contra hc
    have := (C26_panic_iff R sig I hp (by rintro h0; simp [h0] at h2) hI).2 hc
    rw [h] at this; cases this
  have hc := (C17_verify R sig I h2 hf.1 hI hf.2).1.1 h
  have hpos : 0 < (ringOf sig).length := by
    unfold ringOf
    simp only [List.length_zip, List.length_map]
    omega
  generalize ringOf sig = ring at *
  have hclose : chalAt R sig.msg I ring sig.c 0 = R.sDerive (queryAt R sig.msg I ring sig.c (ring.length - 1) (by omega)) := by
    rw [← chalAt_succ, show ring.length - 1 + 1 = ring.length by omega]
    unfold chalAt
    rw [List.take_length, hc]
    rfl
  by_contra hno
  push Not at hno
  have step : ∀ j (hj : j < ring.length), time (queryAt R sig.msg I ring sig.c 0 hpos) + j ≤ time (queryAt R sig.msg I ring sig.c j hj) := by
    intro j
    induction j with
    | zero => intro hj; omega
    | succ j ih =>
      intro hj
      have h1 := ih (by omega)
      have h2 := hno (j + 1) j hj (by omega) (Nat.mod_eq_of_lt hj) (chalAt_succ R sig.msg I ring sig.c j (by omega))
      omega
  have hlast := hno 0 (ring.length - 1) hpos (by omega) (by
    rw [show ring.length - 1 + 1 = ring.length by omega, Nat.mod_self]) hclose
  have := step (ring.length - 1) (by omega)
  omega

/-- C28: a second signature of the same message and ring with the same images, for another random oracle, that has the same hash
input at such a member and another challenge there, gives the secret keys of this member. -/
theorem C28_extract {R R' : Ristretto F G} (E : R.Encodings) (hb : R'.base = R.base) (hd : R'.pDerive = R.pDerive)
    (hp : R'.pBytes = R.pBytes) (msg : Bytes) (I : List G) (c c' : F) (ring ring' : List (List G × List F)) (hf : Fits I ring)
    (hf' : Fits I ring') (j : Nat) (hj : j < ring.length) (hj' : j < ring'.length) (hk : ring'[j].1 = ring[j].1)
    (hq : queryAt R' msg I ring' c' j hj' = queryAt R msg I ring c j hj)
    (hne : chalAt R' msg I ring' c' j ≠ chalAt R msg I ring c j) :
    ∃ x : Nat → F, (∀ i (h : i < ring[j].1.length), ring[j].1[i] = x i • R.base) ∧ ∀ i (h : i < I.length), I[i] = image R (x i) := by
  have f1 := hf _ (List.getElem_mem hj)
  have f2 := hf' _ (List.getElem_mem hj')
  have hq' : query R msg I ring[j].1 ring[j].2 (chalAt R msg I ring c j) =
      query R msg I ring[j].1 ring'[j].2 (chalAt R' msg I ring' c' j) := by
    rw [show query R msg I ring[j].1 ring'[j].2 (chalAt R' msg I ring' c' j) = queryAt R' msg I ring' c' j hj' by
      unfold queryAt query
      rw [hb, hd, hp, hk], hq]
    rfl
  rw [hk] at f2
  obtain ⟨h1, h2⟩ := C28_special_soundness E msg I ring[j].1 ring[j].2 ring'[j].2 _ _ (Ne.symm hne) f1.1 f2.1 f1.2 hq'
  refine ⟨fun i => (ring'[j].2.getD i 0 - ring[j].2.getD i 0) / (chalAt R msg I ring c j - chalAt R' msg I ring' c' j), ?_, ?_⟩
  · intro i hi
    dsimp only
    rw [h1 i hi (by omega) (by omega), List.getD_eq_getElem _ _ (by omega), List.getD_eq_getElem _ _ (by omega)]
  · intro i hi
    dsimp only
    rw [h2 i hi (by omega) (by omega) (by omega), List.getD_eq_getElem _ _ (by omega), List.getD_eq_getElem _ _ (by omega)]

end Mlsag

end Dusk
