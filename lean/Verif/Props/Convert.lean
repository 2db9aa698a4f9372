import Verif.Props.MlsagCodec
import Verif.Props.MlsagDual
import Verif.Props.Blsag
/-!
# C139: signatures of package blsag as signatures of package mlsag

Both packages hash the message, the points `s G + c K` and the points `s Hp(K) + c I`, in this order and without a name of the
package.
-/

namespace Dusk.Convert

variable {F G P : Type}

/-- The signature of package blsag with this image, challenge, and ring of keys with responses. -/
def toBlsag (V : Blsag.Raw F G P) (I : G) (c : F) (ring : List (G × F)) : Blsag.RingSignature F P :=
  ⟨V.inj I, c, ring.map Prod.snd, ring.map fun x => V.inj x.1⟩

/-- The signature of package mlsag with this message, challenge, and ring of keys with responses, one key for each member. -/
def toMlsag (m : Bytes) (c : F) (ring : List (G × F)) : Mlsag.Signature F G :=
  ⟨c, ring.map fun x => [x.2], ring.map fun x => ⟨false, [x.1]⟩, m⟩

theorem ringOf_toMlsag (m : Bytes) (c : F) (ring : List (G × F)) :
    Mlsag.ringOf (toMlsag m c ring) = ring.map fun x => ([x.1], [x.2]) := by
  simp only [Mlsag.ringOf, toMlsag, List.map_map, List.zip_map', Function.comp_def]

theorem fits (m : Bytes) (c : F) (I : G) (ring : List (G × F)) : Mlsag.Fits [I] (Mlsag.ringOf (toMlsag m c ring)) := by
  rw [ringOf_toMlsag]
  intro x hx
  obtain ⟨y, -, rfl⟩ := List.mem_map.1 hx
  simp

variable [Field F] [AddCommGroup G] [Module F G]

theorem around_eq (R : Ristretto F G) (m : Bytes) (I : G) : ∀ (ring : List (G × F)) (c : F),
    Mlsag.around R m [I] (ring.map fun x => ([x.1], [x.2])) c = ring.foldl (fun c x => Blsag.glink R m I x.1 x.2 c) c := by
  intro ring c
  rw [Mlsag.around, List.foldl_map]
  congr 1
  funext c x
  simp [Mlsag.link, Mlsag.query, Blsag.glink]

theorem verify_blsag [DecidableEq F] {R : Ristretto F G} {V : Blsag.Raw F G P} (hV : V.Lawful R) (m : Bytes) (I : G) (c : F)
    (ring : List (G × F)) (hn : ring ≠ []) :
    Blsag.verify R V m (toBlsag V I c ring) = .ok true ↔ ring.foldl (fun c x => Blsag.glink R m I x.1 x.2 c) c = c := by
  rw [Blsag.verify_eq R V m _ (by simpa [toBlsag] using hn) (by simp [toBlsag])]
  have : (toBlsag V I c ring).pubKeys.zip (toBlsag V I c ring).S = ring.map fun x => (V.inj x.1, x.2) := by
    simp only [toBlsag, List.zip_map']
  rw [this, Res.ok.injEq, decide_eq_true_eq, toBlsag, Blsag.C32_group hV]

/-- C139 violated: for two members or more, the two packages accept the same signatures (of one key for each member). -/
theorem C139_same_violated [DecidableEq F] {R : Ristretto F G} {V : Blsag.Raw F G P} (hV : V.Lawful R) (m : Bytes) (I : G) (c : F)
    (ring : List (G × F)) (hn : 2 ≤ ring.length) :
    (toMlsag m c ring).verify R [I] = .ok true ↔ Blsag.verify R V m (toBlsag V I c ring) = .ok true := by
  rw [(Mlsag.C17_verify R (toMlsag m c ring) [I] (by simpa [toMlsag] using hn) (by simp [toMlsag]) (by simp) (fits m c I ring)).1,
    ringOf_toMlsag, verify_blsag hV m I c ring (by rintro rfl; simp at hn)]
  simp only [toMlsag, around_eq]

/-- C139 violated: with one member, package mlsag accepts what package blsag accepts for the member taken twice. -/
theorem C139_single_violated [DecidableEq F] {R : Ristretto F G} {V : Blsag.Raw F G P} (hV : V.Lawful R) (m : Bytes) (I : G) (c : F)
    (x : G × F) : (toMlsag m c [x]).verify R [I] = .ok true ↔ Blsag.verify R V m (toBlsag V I c [x, x]) = .ok true := by
  rw [Mlsag.C17_single R (toMlsag m c [x]) [I] (by simp [toMlsag]) (by simp [toMlsag]) (by simp) (fits m c I [x]),
    ringOf_toMlsag, verify_blsag hV m I c [x, x] (by simp), ← List.map_append, around_eq]
  simp [toMlsag]

/-- C139 violated: whatever package blsag accepts, package mlsag accepts for the same message, ring and key image. -/
theorem C139_replay_violated [DecidableEq F] {R : Ristretto F G} {V : Blsag.Raw F G P} (hV : V.Lawful R) (m : Bytes) (I : G) (c : F)
    (ring : List (G × F)) (h : Blsag.verify R V m (toBlsag V I c ring) = .ok true) :
    (toMlsag m c ring).verify R [I] = .ok true := by
  match ring, h with
  | [], h =>
    rw [Blsag.C32_empty R V m _ (by simp [toBlsag])] at h
    simp at h
  | [x], h =>
    rw [C139_single_violated hV]
    rw [verify_blsag hV m I c _ (by simp)] at h ⊢
    simp only [List.foldl_cons, List.foldl_nil] at h ⊢
    rw [h, h]
  | x :: y :: ring, h => exact (C139_same_violated hV m I c _ (by simp)).2 h

/-- The bytes of the signature for `mlsag.Signature.Decode`. -/
def bytes (R : Ristretto F G) (c : F) (ring : List (G × F)) : Bytes :=
  R.sBytes c ++ be32 ring.length ++ be32 1 ++ ring.flatMap (fun x => R.sBytes x.2) ++ ring.flatMap fun x => R.pBytes x.1

/-- C139 violated: the bytes can be written down without any secret; `Decode` accepts them and the result verifies. -/
theorem C139_decode_violated [DecidableEq F] {R : Ristretto F G} (E : R.Encodings) {V : Blsag.Raw F G P} (hV : V.Lawful R) (m : Bytes)
    (I : G) (c : F) (ring : List (G × F)) (hl : ring.length < 2 ^ 32) (h : Blsag.verify R V m (toBlsag V I c ring) = .ok true)
    (t : Mlsag.Signature F G) (r : Reader) (rest : Bytes) (hr : r.flat = bytes R c ring ++ rest) :
    ∃ sig r', t.decode R true r = .ok (sig, r') ∧ r'.flat = rest ∧ { sig with msg := m }.verify R [I] = .ok true := by
  have he : Mlsag.encoding R (toMlsag m c ring) 1 true = bytes R c ring := by
    simp [Mlsag.encoding, toMlsag, bytes, List.flatMap_map]
  obtain ⟨r', h1, h2, -⟩ := (Mlsag.C18_decode E t (toMlsag m c ring) true 1 (by simpa [toMlsag] using hl) (by norm_num)
    (by simp +contextual [toMlsag, eq_comm]) (by simp +contextual [toMlsag, eq_comm])).full r rest (by rw [he, hr])
  refine ⟨_, r', h1, h2, ?_⟩
  have := C139_replay_violated hV m I c ring h
  convert this using 2
  simp [Mlsag.received, toMlsag]

/-- C139 violated: a signature made by `Sign` of package blsag without mixins, for all keys, messages and random choices, is a signature
of package mlsag, with the image that `DualKey.Prove` returns for this primary key. -/
theorem C139_sign_violated [DecidableEq F] {R : Ristretto F G} {V : Blsag.Raw F G P} (hV : V.Lawful R) (m : Bytes) (x : F)
    (coins : Blsag.Coins F) :
    ∃ sig c s, Blsag.sign R V m [] x coins = .ok sig ∧ sig = toBlsag V (Mlsag.image R x) c [(x • R.base, s)] ∧
      (toMlsag m c [(x • R.base, s)]).verify R [Mlsag.image R x] = .ok true := by
  obtain ⟨C, sig, h1, h2, h3, h4, h5, -⟩ := Blsag.sign_eq hV m [] x coins
  have hs : sig = toBlsag V (Mlsag.image R x) (C 0) [(x • R.base, -(C 0 * x) + coins.alpha)] := by
    obtain ⟨I, c, S, K⟩ := sig
    simp only at h2 h3 h4 h5
    subst h2 h3 h4 h5
    simp [toBlsag, Mlsag.image, Blsag.preS, Nat.mod_one]
  obtain ⟨sig', h6, h7⟩ := Blsag.C29_completeness hV m [] x coins
  rw [h1] at h6
  cases h6
  rw [hs] at h7
  exact ⟨sig, _, _, h1, hs, C139_replay_violated hV m _ _ _ h7⟩

/-- C139: two signatures, one of each package, made with one key, have the same key image. -/
theorem C139_linked [DecidableEq F] {R : Ristretto F G} {V : Blsag.Raw F G P} (hV : V.Lawful R) (m : Bytes) (mixin : List P) (x : F)
    (coins : Blsag.Coins F) (ops : List (Mlsag.DOp F G)) (d : Mlsag.DualKey F G) (hd : Mlsag.DOp.run R Mlsag.DualKey.new ops = .ok d)
    (coins' : Mlsag.Coins F) (sig' : Mlsag.Signature F G) (im : G) (h : (d.prove R coins').2 = .ok (sig', im)) (hx : d.key0 = x) :
    ∃ sig, Blsag.sign R V m mixin x coins = .ok sig ∧ sig.I = V.inj im := by
  obtain ⟨sig, h1, h2⟩ := Blsag.C33_image hV m mixin x coins
  refine ⟨sig, h1, h2.trans ?_⟩
  rw [(Mlsag.C23_success R ops d hd coins' sig' im h).1, hx, Mlsag.image]

/-- The same secret in a dual key and in a blsag signature. -/
example (m : Bytes) (coins : Blsag.Coins Toy.K) (coins' : Mlsag.Coins Toy.K) (d : Mlsag.DualKey Toy.K Toy.K) (ops : List (Mlsag.DOp Toy.K Toy.K))
    (hd : Mlsag.DOp.run Toy.ris Mlsag.DualKey.new ops = .ok d) (hx : d.key0 = 5) (sig' : Mlsag.Signature Toy.K Toy.K) (im : Toy.K)
    (h : (d.prove Toy.ris coins').2 = .ok (sig', im)) : ∃ sig, Blsag.sign Toy.ris Blsag.toyRaw m [some 9] 5 coins = .ok sig ∧ sig.I = Blsag.toyRaw.inj im :=
  C139_linked Blsag.toyRaw_lawful m [some 9] 5 coins ops d hd coins' sig' im h hx

/-- C139 violated: a signature made by package mlsag with one secret and decoys of one key is a signature of package blsag. -/
theorem C139_prove_violated [DecidableEq F] {R : Ristretto F G} {V : Blsag.Raw F G P} (hV : V.Lawful R) (m : Bytes)
    (ops : List (Mlsag.Op F G)) (x : F) (hx : Mlsag.secrets ops = [x]) (hd : Mlsag.decoys ops ≠ [])
    (hdim : ∀ k ∈ Mlsag.decoys ops, k.length = 1) (coins : Mlsag.Coins F) :
    ∃ sig ring, ((Mlsag.build R m ops).prove R false coins).2 = .ok (sig, [Mlsag.image R x]) ∧
      sig.r = (toMlsag m sig.c ring).r ∧
      sig.pubKeys.map (·.keys) = (toMlsag m sig.c ring).pubKeys.map (·.keys) ∧
      Blsag.verify R V m (toBlsag V (Mlsag.image R x) sig.c ring) = .ok true := by
  obtain ⟨sig, I, h1, hp⟩ := Mlsag.C14_prove R m ops false coins hd (by rw [hx]; simp) (by simp) (by rw [hx]; exact hdim)
  have hI : I = [Mlsag.image R x] := by rw [hp.images, hx]; simp
  subst hI
  -- every response vector and key vector has length one
  have hrl : ∀ r ∈ sig.r, r.length = 1 := by
    intro r hr
    obtain ⟨j, hj⟩ := List.mem_iff_getElem?.1 hr
    by_cases hji : j = ((Mlsag.build R m ops).prove R false coins).1.index
    · obtain ⟨c, hc⟩ := hp.real
      rw [hji, hc] at hj
      cases hj
      simp [hx]
    · rw [hp.resp j hji r hj, hx]
      simp
  have hkl : ∀ k ∈ sig.pubKeys, k.keys.length = 1 := by
    intro k hk
    rw [hp.ring] at hk
    rcases List.mem_append.1 (hp.perm.mem_iff.1 hk) with hk | hk
    · obtain ⟨y, hy, rfl⟩ := List.mem_map.1 hk
      exact hdim y hy
    · rw [List.mem_singleton.1 hk, hx]
      simp
  have hll : sig.pubKeys.length = sig.r.length := by rw [hp.ring, hp.lenR]
  have h2l : 2 ≤ sig.r.length := by
    have := hp.perm.length_eq
    have h0 : (Mlsag.decoys ops).length ≠ 0 := by simpa using hd
    rw [hp.lenR, this]
    simp
    omega
  have one : ∀ {β : Type} (b : β) (l : List (List β)), (∀ y ∈ l, y.length = 1) → l = (l.map fun y => y.headD b).map fun y => [y] := by
    intro β b l hl
    induction l with
    | nil => rfl
    | cons y l ih =>
      rw [List.map_cons, List.map_cons, ← ih fun z hz => hl z (List.mem_cons_of_mem _ hz)]
      obtain ⟨z, rfl⟩ := List.length_eq_one_iff.1 (hl y List.mem_cons_self)
      rfl
  set ring : List (G × F) := ((sig.pubKeys.map (·.keys)).map fun y => y.headD 0).zip (sig.r.map fun y => y.headD 0) with hring
  have hlen : ((sig.pubKeys.map (·.keys)).map fun y => y.headD (0 : G)).length = (sig.r.map fun y => y.headD (0 : F)).length := by
    simp [hll]
  have e1 : sig.r = (toMlsag m sig.c ring).r := by
    conv_lhs => rw [one 0 sig.r hrl]
    simp only [toMlsag]
    rw [show (fun x : G × F => [x.2]) = (fun y => [y]) ∘ Prod.snd from rfl, ← List.map_map, hring, List.map_snd_zip (by omega)]
  have e2 : sig.pubKeys.map (·.keys) = (toMlsag m sig.c ring).pubKeys.map (·.keys) := by
    have hK : (toMlsag m sig.c ring).pubKeys.map (·.keys) = (ring.map Prod.fst).map fun y => [y] := by
      simp [toMlsag, Function.comp_def]
    rw [hK, hring, List.map_fst_zip (by omega)]
    exact one 0 _ (by simpa using hkl)
  refine ⟨sig, ring, h1, e1, e2, ?_⟩
  have hrl2 : 2 ≤ ring.length := by
    have : sig.r.length = ring.length := by rw [e1]; simp [toMlsag]
    omega
  rw [← C139_same_violated hV m _ _ ring hrl2]
  have e3 : Mlsag.ringOf sig = Mlsag.ringOf (toMlsag m sig.c ring) := by rw [Mlsag.ringOf, e1, e2]; rfl
  have ha := hp.accepted
  rw [(Mlsag.C17_verify R sig _ h2l (by omega) (by simp) (by rw [e3]; exact fits m _ _ _)).1, e3, hp.msg] at ha
  rw [(Mlsag.C17_verify R (toMlsag m sig.c ring) _ (by simpa [toMlsag] using hrl2) (by simp [toMlsag]) (by simp) (fits m _ _ _)).1]
  exact ha

/-! ## Concrete cases -/

example (m : Bytes) (coins : Blsag.Coins Toy.K) : ∃ sig c s, Blsag.sign Toy.ris Blsag.toyRaw m [] 5 coins = .ok sig ∧
    sig = toBlsag Blsag.toyRaw (Mlsag.image Toy.ris (5 : Toy.K)) c [((5 : Toy.K) • Toy.ris.base, s)] ∧
    (toMlsag m c [((5 : Toy.K) • Toy.ris.base, s)]).verify Toy.ris [Mlsag.image Toy.ris (5 : Toy.K)] = .ok true :=
  C139_sign_violated Blsag.toyRaw_lawful m 5 coins

/-- The bytes of such a signature, followed by anything, decode to a signature of package mlsag. -/
example (m : Bytes) (coins : Blsag.Coins Toy.K) (t : Mlsag.Signature Toy.K Toy.K) (rest : Bytes) :
    ∃ c s, ∀ r : Reader, r.flat = bytes Toy.ris c [((5 : Toy.K) • Toy.ris.base, s)] ++ rest →
      ∃ sig r', t.decode Toy.ris true r = .ok (sig, r') ∧ r'.flat = rest ∧
        { sig with msg := m }.verify Toy.ris [Mlsag.image Toy.ris (5 : Toy.K)] = .ok true := by
  obtain ⟨sig, c, s, h1, h2, -⟩ := C139_sign_violated Blsag.toyRaw_lawful m (5 : Toy.K) coins
  obtain ⟨sig', h3, h4⟩ := Blsag.C29_completeness Blsag.toyRaw_lawful m [] (5 : Toy.K) coins
  rw [h1] at h3
  cases h3
  rw [h2] at h4
  exact ⟨c, s, fun r hr => C139_decode_violated Toy.ris_encodings Blsag.toyRaw_lawful m _ c _ (by simp) h4 t r rest hr⟩

/-- A ring of three members made by package mlsag. -/
example (m : Bytes) (coins : Mlsag.Coins Toy.K) : ∃ sig ring,
    ((Mlsag.build Toy.ris m [.decoy ⟨false, [10]⟩, .secret 5, .decoy ⟨true, [12]⟩]).prove Toy.ris false coins).2
      = .ok (sig, [Mlsag.image Toy.ris (5 : Toy.K)]) ∧ ring.length = 3 ∧
    Blsag.verify Toy.ris Blsag.toyRaw m (toBlsag Blsag.toyRaw (Mlsag.image Toy.ris (5 : Toy.K)) sig.c ring) = .ok true := by
  obtain ⟨sig, ring, h1, h2, -, h4⟩ := C139_prove_violated (R := Toy.ris) Blsag.toyRaw_lawful m
    [.decoy ⟨false, [10]⟩, .secret 5, .decoy ⟨true, [12]⟩] 5 rfl (by simp [Mlsag.decoys]) (by simp [Mlsag.decoys]) coins
  refine ⟨sig, ring, h1, ?_, h4⟩
  obtain ⟨sig', I, h5, hp⟩ := Mlsag.C14_prove Toy.ris m [.decoy ⟨false, [10]⟩, .secret 5, .decoy ⟨true, [12]⟩] false coins
    (by simp [Mlsag.decoys]) (by simp [Mlsag.secrets]) (by simp) (by simp [Mlsag.decoys, Mlsag.secrets])
  rw [h1] at h5
  cases h5
  have e := congrArg List.length h2
  rw [hp.lenR, hp.perm.length_eq] at e
  simpa [Mlsag.decoys, toMlsag] using e.symm

end Dusk.Convert
