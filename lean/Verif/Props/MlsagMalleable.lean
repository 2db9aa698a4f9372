import Verif.Props.MlsagCodec
import Verif.Props.Mlsag
/-!
# What an MLSAG signature does not bind (C76, C77, C78)
-/

set_option linter.unusedSectionVars false

namespace Dusk.Mlsag

variable {F G : Type} [Field F] [AddCommGroup G] [Module F G] [DecidableEq F]

/-! ## C76: surplus key vectors, surplus responses and flags are ignored -/

/-- Only as many responses as there are keys matter. -/
theorem link_prefix (R : Ristretto F G) (msg : Bytes) (I K : List G) (r r' : List F) (c : F) (h : K.length ≤ r.length)
    (hp : r <+: r') : link R msg I K r' c = link R msg I K r c := by
  obtain ⟨t, rfl⟩ := hp
  have e1 : ∀ {γ : Type} (f : G → F → γ), List.zipWith f K (r ++ t) = List.zipWith f K r := by
    intro γ f
    apply List.ext_getElem
    · simp; omega
    · intro i h1 h2
      simp only [List.length_zipWith] at h2
      simp only [List.getElem_zipWith]
      rw [List.getElem_append_left (by omega)]
  unfold link query
  rw [e1, List.zip, e1]

theorem slotStep_mono (R : Ristretto F G) (sig sig' : Signature F G) (I : List G) (hm : sig'.msg = sig.msg)
    (hrl : sig'.r.length = sig.r.length)
    (hk : (sig'.pubKeys.map (·.keys)).take sig.r.length = (sig.pubKeys.map (·.keys)).take sig.r.length)
    (hr : ∀ j (h : j < sig.r.length) (h' : j < sig'.r.length), sig.r[j] <+: sig'.r[j]) (j : Nat) (c a : F)
    (h : slotStep R sig I j c = .ok a) : slotStep R sig' I j c = .ok a := by
  have hex : ∃ m, (ringOf sig)[j]? = some m ∧ m.1.length ≤ m.2.length ∧ I.length ≤ m.1.length := by
    by_contra hc
    push Not at hc
    have := slotStep_panic R sig I j c (by
      intro m hm h2
      exact absurd h2.2 (not_le.2 (hc m hm h2.1)))
    rw [h] at this
    cases this
  obtain ⟨m, hm1, hm2⟩ := hex
  have h0 := hm1
  unfold ringOf at h0
  obtain ⟨h1, rfl⟩ := List.getElem?_eq_some_iff.1 h0
  simp only [List.length_zip, List.length_map] at h1
  rw [slotStep_fits R sig I j c hm1 hm2] at h
  simp only [List.getElem_zip, List.getElem_map] at hm2 h
  have hkj := congrArg (fun l => l[j]?) hk
  simp only [List.getElem?_take, show j < sig.r.length by omega, if_true, List.getElem?_map] at hkj
  rw [List.getElem?_eq_getElem (l := sig.pubKeys) (by omega), Option.map_some] at hkj
  have hj' : j < sig'.pubKeys.length := by
    by_contra hc
    rw [List.getElem?_eq_none (by omega)] at hkj
    cases hkj
  rw [List.getElem?_eq_getElem hj', Option.map_some, Option.some.injEq] at hkj
  have hp := hr j (by omega) (by omega)
  have hring : (ringOf sig')[j]? = some (sig.pubKeys[j].keys, sig'.r[j]'(by omega)) := by
    unfold ringOf
    rw [List.getElem?_eq_getElem (by simp only [List.length_zip, List.length_map]; omega)]
    simp only [List.getElem_zip, List.getElem_map, hkj]
  rw [slotStep_fits R sig' I j c hring ⟨hm2.1.trans hp.length_le, hm2.2⟩, hm, link_prefix R sig.msg I _ _ _ c hm2.1 hp]
  exact h

theorem fold_mono (f g : Nat → F → Res F) (hfg : ∀ j c a, f j c = .ok a → g j c = .ok a) : ∀ (l : List Nat) (r r' : Res F) (a : F),
    (∀ b, r = .ok b → r' = .ok b) →
    l.foldl (fun (r : Res F) j => r.bind (f j)) r = .ok a → l.foldl (fun (r : Res F) j => r.bind (g j)) r' = .ok a
  | [], _, _, _, hr, h => hr _ h
  | j :: l, r, r', a, hr, h => by
    rw [List.foldl_cons] at h ⊢
    refine fold_mono f g hfg l _ _ a ?_ h
    intro b hb
    obtain ⟨x, hx, hb⟩ := Res.bind_eq_ok.1 hb
    rw [hr x hx, Res.bind_ok]
    exact hfg j x b hb

/-- C76: whatever `Verify` accepts, it also accepts after appending any key vectors, any responses to any members, and
changing the decoy flags: only the first `len(r)` key vectors and, of each member, as many responses as it has keys are
read. -/
theorem C76_surplus (R : Ristretto F G) (sig sig' : Signature F G) (I : List G) (hm : sig'.msg = sig.msg) (hc : sig'.c = sig.c)
    (hrl : sig'.r.length = sig.r.length)
    (hk : (sig'.pubKeys.map (·.keys)).take sig.r.length = (sig.pubKeys.map (·.keys)).take sig.r.length)
    (hr : ∀ j (h : j < sig.r.length) (h' : j < sig'.r.length), sig.r[j] <+: sig'.r[j])
    (h : sig.verify R I = .ok true) : sig'.verify R I = .ok true := by
  have hne : ¬ (sig.pubKeys = [] ∨ sig.r = [] ∨ I = []) := by
    intro hn
    obtain ⟨e, he⟩ := C17_empty R sig I hn
    rw [h] at he; cases he
  push Not at hne
  have hpos := mt List.length_eq_zero_iff.1 hne.2.1
  have hr' : sig'.r ≠ [] := by
    intro h0
    rw [h0] at hrl
    exact hpos hrl.symm
  have hp' : sig'.pubKeys ≠ [] := by
    intro h0
    have := congrArg List.length hk
    have := mt List.length_eq_zero_iff.1 hne.1
    simp only [h0, List.map_nil, List.take_nil, List.length_nil, List.length_take, List.length_map] at *
    omega
  rw [verify_fold R sig I hne.1 hne.2.1 hne.2.2] at h
  rw [verify_fold R sig' I hp' hr' hne.2.2, hc, hrl]
  obtain ⟨c, h1, h2⟩ := Res.bind_eq_ok.1 h
  rw [fold_mono _ _ (slotStep_mono R sig sig' I hm hrl hk hr) _ _ _ c (fun _ hb => hb) h1, Res.bind_ok]
  exact h2

/-- C76 (violated expectation: an accepted signature cannot be turned into a different accepted one by someone without the
secret): every accepted signature with an added response for every member is accepted, has the same message, keys and
challenge, and `Equals` tells it apart from the original. -/
theorem C76_malleable_violated [DecidableEq G] (R : Ristretto F G) (sig : Signature F G) (I : List G) (x : F)
    (h : sig.verify R I = .ok true) :
    ({ sig with r := sig.r.map (· ++ [x]) } : Signature F G).verify R I = .ok true ∧
    sig.equals { sig with r := sig.r.map (· ++ [x]) } false = .ok false := by
  refine ⟨C76_surplus R sig _ I rfl rfl (by simp) rfl (by intro j h h'; simp) h, ?_⟩
  have hne : sig.r ≠ [] := by
    intro hn
    obtain ⟨e, he⟩ := C17_empty R sig I (.inr (.inl hn))
    rw [h] at he; cases he
  unfold Signature.equals
  rw [if_neg (by simp)]
  cases hr : sig.r with
  | nil => exact absurd hr hne
  | cons a as => simp [equalsLoop, listEquals]

/-- C76: the altered signature survives the encoding without keys: a receiver that supplies the same keys and message and
decodes the bytes written by `Encode` for the altered signature accepts it. -/
theorem C76_wire_violated {R : Ristretto F G} (E : R.Encodings) (sig t : Signature F G) (I : List G) (x : F) (n : Nat)
    (hn : n + 1 < 2 ^ 32) (hl : sig.r.length < 2 ^ 32) (hrect : ∀ r ∈ sig.r, r.length = n)
    (htk : t.pubKeys = sig.pubKeys) (htm : t.msg = sig.msg) (h : sig.verify R I = .ok true) (w : Writer)
    (hw : (({ sig with r := sig.r.map (· ++ [x]) } : Signature F G).encode R false w).1 = .ok ()) (b rest : Bytes)
    (hb : (({ sig with r := sig.r.map (· ++ [x]) } : Signature F G).encode R false w).2.out = w.out ++ b) (r : Reader)
    (hrd : r.flat = b ++ rest) :
    ∃ s r', t.decode R false r = .ok (s, r') ∧ s.r = sig.r.map (· ++ [x]) ∧ s.verify R I = .ok true := by
  have hne : sig.r ≠ [] := by
    intro hn
    obtain ⟨e, he⟩ := C17_empty R sig I (.inr (.inl hn))
    rw [h] at he; cases he
  obtain ⟨r', h1, -⟩ := C18_roundtrip E t { sig with r := sig.r.map (· ++ [x]) } false (n + 1) (by simpa using hne)
    (by simpa using hl) hn (by
      intro y hy
      obtain ⟨z, hz, rfl⟩ := List.mem_map.1 hy
      simp [hrect z hz]) (by simp) w hw b rest hb r hrd
  refine ⟨_, r', h1, rfl, ?_⟩
  refine C76_surplus R sig _ I htm rfl (by simp [received]) (by simp [received, htk]) (by intro j h h'; simp [received]) h

/-! ## C77: keys without an image are not bound -/

/-- Changing key `j` and response `j` so that `r_j G + c K_j` stays the same does not change the hash, unless the key has
an image. -/
theorem link_modify (R : Ristretto F G) (msg : Bytes) (I K : List G) (r : List F) (c δ : F) (j : Nat) (hj : I.length ≤ j) :
    link R msg I (K.modify j (· + δ • R.base)) (r.modify j (· - c * δ)) c = link R msg I K r c := by
  have e1 : List.zipWith (fun k x => R.pBytes (x • R.base + c • k)) (K.modify j (· + δ • R.base)) (r.modify j (· - c * δ)) =
      List.zipWith (fun k x => R.pBytes (x • R.base + c • k)) K r := by
    apply List.ext_getElem
    · simp
    · intro i h1 h2
      simp only [List.getElem_zipWith, List.getElem_modify]
      split
      · congr 1
        module
      · rfl
  have e2 : List.zipWith (fun (kx : G × F) im => R.pBytes (kx.2 • R.pDerive (R.pBytes kx.1) + c • im))
        ((K.modify j (· + δ • R.base)).zip (r.modify j (· - c * δ))) I =
      List.zipWith (fun (kx : G × F) im => R.pBytes (kx.2 • R.pDerive (R.pBytes kx.1) + c • im)) (K.zip r) I := by
    apply List.ext_getElem
    · simp
    · intro i h1 h2
      simp only [List.length_zipWith] at h2
      simp only [List.getElem_zipWith, List.getElem_zip, List.getElem_modify]
      rw [if_neg (by omega)]
      simp only [if_neg (show ¬ j = i by omega)]
  unfold link query
  rw [e1, e2]

/-- Shift key `j` of member `i` by `δ G` and compensate in the response, where `c` is the challenge of member `i`. -/
def shiftKey (R : Ristretto F G) (sig : Signature F G) (i j : Nat) (c δ : F) : Signature F G :=
  { sig with
    pubKeys := sig.pubKeys.modify i fun k => { k with keys := k.keys.modify j (· + δ • R.base) }
    r := sig.r.modify i fun r => r.modify j (· - c * δ) }

theorem ringOf_shiftKey (R : Ristretto F G) (sig : Signature F G) (i j : Nat) (c δ : F) :
    ringOf (shiftKey R sig i j c δ) =
      (ringOf sig).modify i fun m => (m.1.modify j (· + δ • R.base), m.2.modify j (· - c * δ)) := by
  apply List.ext_getElem
  · simp [ringOf, shiftKey]
  · intro n h1 h2
    simp only [ringOf, shiftKey, List.getElem_zip, List.getElem_map, List.getElem_modify]
    split <;> rfl

/-- C77: in a ring of at least two members, any key that has no key image can be shifted by a multiple of the base point
with a compensating change of one response: `Verify` accepts the result with the same images, message and challenge. The
challenge of member `i` is computed from the signature alone. -/
theorem C77_shift (R : Ristretto F G) (sig : Signature F G) (I : List G) (h2 : 2 ≤ sig.r.length) (i j : Nat)
    (hi : i < sig.r.length) (hj : I.length ≤ j) (δ : F) (h : sig.verify R I = .ok true) :
    (shiftKey R sig i j (around R sig.msg I ((ringOf sig).take i) sig.c) δ).verify R I = .ok true := by
  have hne : ¬ (sig.pubKeys = [] ∨ sig.r = [] ∨ I = []) := by
    intro hn
    obtain ⟨e, he⟩ := C17_empty R sig I hn
    rw [h] at he; cases he
  push Not at hne
  have hfit : sig.r.length ≤ sig.pubKeys.length ∧ Fits I (ringOf sig) := by
    by_contra hc
    rw [← C26_panic_iff R sig I hne.1 hne.2.1 hne.2.2, h] at hc
    cases hc
  obtain ⟨hlen, hf⟩ := hfit
  have hfix := (C17_verify R sig I h2 hlen hne.2.2 hf).1.1 h
  set c := around R sig.msg I ((ringOf sig).take i) sig.c with hcdef
  have hring := ringOf_shiftKey R sig i j c δ
  have hil : i < (ringOf sig).length := by simp [ringOf]; omega
  have hsplit : ringOf sig = (ringOf sig).take i ++ (ringOf sig)[i] :: (ringOf sig).drop (i + 1) := by
    rw [List.cons_getElem_drop_succ, List.take_append_drop]
  have hring' : ringOf (shiftKey R sig i j c δ) = (ringOf sig).take i ++
      ((ringOf sig)[i].1.modify j (· + δ • R.base), (ringOf sig)[i].2.modify j (· - c * δ)) :: (ringOf sig).drop (i + 1) := by
    rw [hring, List.modify_eq_take_cons_drop hil]
  refine (C17_verify R (shiftKey R sig i j c δ) I (by simpa [shiftKey] using h2) (by simpa [shiftKey] using hlen) hne.2.2 ?_).1.2 ?_
  · intro m hm
    rw [hring'] at hm
    rcases List.mem_append.1 hm with hm | hm
    · exact hf m (List.mem_of_mem_take hm)
    · rcases List.mem_cons.1 hm with rfl | hm
      · simpa using hf _ (List.getElem_mem hil)
      · exact hf m (List.mem_of_mem_drop hm)
  · rw [hring']
    show around R sig.msg I _ sig.c = sig.c
    conv_rhs => rw [← hfix, hsplit]
    unfold around
    rw [List.foldl_append, List.foldl_append, List.foldl_cons, List.foldl_cons]
    have : List.foldl (fun c (m : List G × List F) => link R sig.msg I m.1 m.2 c) sig.c ((ringOf sig).take i) = c := rfl
    rw [this, link_modify R sig.msg I _ _ c δ j hj]

/-- C77 (violated expectation: a signature is valid only for the ring it was made for): if some member of an accepted
signature has more keys than there are images, then a signature with the same message and images is accepted for a different
ring, in which that key is any other point `K + δ G`. -/
theorem C77_binding_violated (R : Ristretto F G) (hb : R.base ≠ 0) (sig : Signature F G) (I : List G) (h2 : 2 ≤ sig.r.length)
    (i j : Nat) (hi : i < sig.r.length) (hip : i < sig.pubKeys.length) (hj : I.length ≤ j) (hjk : j < sig.pubKeys[i].keys.length) (δ : F) (hδ : δ ≠ 0)
    (h : sig.verify R I = .ok true) :
    ∃ sig' : Signature F G, sig'.verify R I = .ok true ∧ sig'.msg = sig.msg ∧ sig'.c = sig.c ∧
      (∀ i', i' ≠ i → sig'.pubKeys[i']? = sig.pubKeys[i']?) ∧
      (∃ K', sig'.pubKeys[i]? = some K' ∧ K'.keys[j]? = some (sig.pubKeys[i].keys[j] + δ • R.base)) ∧
      sig'.pubKeys ≠ sig.pubKeys := by
  have hK : (shiftKey R sig i j (around R sig.msg I ((ringOf sig).take i) sig.c) δ).pubKeys[i]? =
      some { sig.pubKeys[i] with keys := sig.pubKeys[i].keys.modify j (· + δ • R.base) } := by
    simp [shiftKey, List.getElem?_modify, hip]
  refine ⟨_, C77_shift R sig I h2 i j hi hj δ h, rfl, rfl, ?_, ⟨_, hK, by simp [List.getElem?_modify, hjk]⟩, ?_⟩
  · intro i' hi'
    simp [shiftKey, List.getElem?_modify, Ne.symm hi']
  · intro he
    rw [he, List.getElem?_eq_getElem hip, Option.some.injEq] at hK
    have h3 := congrArg (fun k => k.keys[j]?) hK
    simp only [List.getElem?_modify, hjk, List.getElem?_eq_getElem, if_true, Option.map_eq_map, Option.map_some, Option.some.injEq] at h3
    have : δ • R.base = 0 := by
      have := h3
      rwa [left_eq_add] at this
    rcases smul_eq_zero.1 this with h | h
    · exact hδ h
    · exact hb h

/-- C77: this applies to every signature made without an image for the last key (the mode of `DualKey`): the last key of any
member, signer or decoy, can be shifted by anyone. -/
theorem C77_skip_violated (R : Ristretto F G) (msg : Bytes) (ops : List (Op F G)) (coins : Coins F)
    (hd : decoys ops ≠ []) (hx : 2 ≤ (secrets ops).length) (hdim : ∀ k ∈ decoys ops, k.length = (secrets ops).length) :
    ∃ sig I, ((build R msg ops).prove R true coins).2 = .ok (sig, I) ∧ sig.verify R I = .ok true ∧
      sig.r.length = (decoys ops).length + 1 ∧
      ∀ i < sig.r.length, ∀ δ : F,
        (shiftKey R sig i ((secrets ops).length - 1) (around R sig.msg I ((ringOf sig).take i) sig.c) δ).verify R I = .ok true := by
  obtain ⟨sig, I, h, hp⟩ := C14_prove R msg ops true coins hd (by rintro h; simp [h] at hx) (fun _ => hx) hdim
  have hIl : I.length = (secrets ops).length - 1 := by
    have := hp.images
    simp only [if_true] at this
    rw [this]; simp
  have hrl : sig.r.length = (decoys ops).length + 1 := by
    rw [hp.lenR, hp.perm.length_eq]; simp
  have hdl := mt List.length_eq_zero_iff.1 hd
  exact ⟨sig, I, h, hp.accepted, hrl, fun i hi δ => C77_shift R sig I (by omega) i _ hi (by omega) δ hp.accepted⟩

/-- A signature with two keys, and a ring in which the signer's second key has been replaced. -/
example (coins : Coins Toy.K) : ∃ (sig sig' : Signature Toy.K Toy.K) (I : List Toy.K), sig.verify Toy.ris I = .ok true ∧
    sig'.verify Toy.ris I = .ok true ∧ sig'.msg = sig.msg ∧ sig'.pubKeys ≠ sig.pubKeys := by
  obtain ⟨sig, I, -, hp⟩ := C14_prove (F := Toy.K) Toy.ris [1, 2, 3] [.decoy ⟨false, [10, 11]⟩, .secret 5, .decoy ⟨true, [12, 13]⟩,
    .secret 7] true coins (by simp [decoys]) (by simp [secrets]) (by simp [secrets]) (by simp [decoys, secrets])
  have hrl : sig.r.length = 3 := by rw [hp.lenR, hp.perm.length_eq]; simp [decoys]
  have hpl : sig.pubKeys.length = 3 := by rw [← hrl, hp.lenR, hp.ring]
  have hk : ∀ k ∈ sig.pubKeys, k.keys.length = 2 := by
    rw [hp.ring]
    intro k hk
    rw [hp.perm.mem_iff] at hk
    simp [decoys, secrets] at hk
    rcases hk with rfl | rfl | rfl <;> rfl
  have hIl : I.length = 1 := by rw [hp.images]; simp [secrets]
  obtain ⟨sig', h1, h2, -, -, -, h3⟩ := C77_binding_violated Toy.ris (by simp [Toy.ris]) sig I (by omega) 0 1 (by omega) (by omega)
    (by omega) (by rw [hk _ (List.getElem_mem _)]; omega) 1 one_ne_zero hp.accepted
  exact ⟨sig, sig', I, hp.accepted, h1, h2, h3⟩

/-! ## C78: the shape of the ring is not checked -/

/-- C78 (violated expectation: every member has the same number of keys, and there is an image for every key, or every key
but the last): for all decoys of any sizes, and any number `I.length ≥ 1` of images of the first keys of the signer, someone
who knows the keys of one member of any size makes a signature that `Verify` accepts. -/
theorem C78_shapes_violated (R : Ristretto F G) (msg : Bytes) (pre post : List (List G × List F)) (x nonces : List F) (I : List G)
    (hI : I ≠ []) (hIx : I = (x.take I.length).map (image R)) (hn : nonces.length = x.length) (hd : Fits I (pre ++ post))
    (h2 : pre ++ post ≠ []) :
    ∃ (c : F) (r : List F), r.length = x.length ∧
      (⟨c, pre.map (·.2) ++ r :: post.map (·.2),
        pre.map (fun m => ⟨true, m.1⟩) ++ ⟨false, x.map (· • R.base)⟩ :: post.map (fun m => ⟨true, m.1⟩), msg⟩ :
          Signature F G).verify R I = .ok true := by
  have hIl : I.length ≤ x.length := by
    have := congrArg List.length hIx
    simp only [List.length_map, List.length_take] at this
    omega
  -- the challenge after the signer, and the one of the signer
  set cn := link R msg I (x.map (· • R.base)) nonces 0 with hcn
  set c := around R msg I post cn with hc
  set cs := around R msg I pre c with hcs
  set r := List.zipWith (fun a y => a - cs * y) nonces x with hr
  have hrl : r.length = x.length := by simp [hr, hn]
  refine ⟨c, r, hrl, ?_⟩
  have hlink : link R msg I (x.map (· • R.base)) r cs = cn := by
    rw [hcn]
    unfold link query
    have e1 : List.zipWith (fun k y => R.pBytes (y • R.base + cs • k)) (x.map (· • R.base)) r =
        List.zipWith (fun k y => R.pBytes (y • R.base + (0 : F) • k)) (x.map (· • R.base)) nonces := by
      apply List.ext_getElem
      · simp [hrl, hn]
      · intro i h1 h2
        simp only [hr, List.getElem_zipWith, List.getElem_map]
        congr 1
        module
    have e2 : List.zipWith (fun (kx : G × F) im => R.pBytes (kx.2 • R.pDerive (R.pBytes kx.1) + cs • im)) ((x.map (· • R.base)).zip r) I =
        List.zipWith (fun (kx : G × F) im => R.pBytes (kx.2 • R.pDerive (R.pBytes kx.1) + (0 : F) • im)) ((x.map (· • R.base)).zip nonces) I := by
      apply List.ext_getElem
      · simp [hrl, hn]
      · intro i h1 h2
        simp only [List.length_zipWith] at h2
        have him : I[i]'(by omega) = image R (x[i]'(by omega)) := by
          have := congrArg (fun l => l[i]?) hIx
          simp only [List.getElem?_eq_getElem (l := I) (show i < I.length by omega), List.getElem?_map, List.getElem?_take,
            if_pos (show i < I.length by omega), List.getElem?_eq_getElem (l := x) (show i < x.length by omega),
            Option.map_some, Option.some.injEq] at this
          exact this
        simp only [hr, List.getElem_zipWith, List.getElem_zip, List.getElem_map, him, image]
        congr 1
        module
    rw [e1, e2]
  set sig : Signature F G := ⟨c, pre.map (·.2) ++ r :: post.map (·.2),
        pre.map (fun m => ⟨true, m.1⟩) ++ ⟨false, x.map (· • R.base)⟩ :: post.map (fun m => ⟨true, m.1⟩), msg⟩ with hsig
  have hring : ringOf sig = pre ++ (x.map (· • R.base), r) :: post := by
    have hz : ∀ l : List (List G × List F), (l.map (·.1)).zip (l.map (·.2)) = l := by
      intro l; induction l with
      | nil => rfl
      | cons a l ih => simp [ih]
    simp only [ringOf, hsig, List.map_append, List.map_map, List.map_cons]
    rw [List.zip_append (by simp), List.zip_cons_cons]
    exact congrArg₂ (fun a b => a ++ _ :: b) (hz pre) (hz post)
  have hpos : 0 < pre.length + post.length := by
    have := mt List.length_eq_zero_iff.1 h2
    rw [List.length_append] at this
    omega
  refine (C17_verify R sig I (by simp [hsig]; omega) (by simp [hsig]) hI ?_).1.2 ?_
  · intro m hm
    rw [hring] at hm
    simp only [List.mem_append, List.mem_cons] at hm
    rcases hm with hm | rfl | hm
    · exact hd m (by simp [hm])
    · simp [hrl, hIl]
    · exact hd m (by simp [hm])
  · rw [hring]
    show around R msg I _ c = c
    conv_rhs => rw [hc]
    unfold around
    rw [List.foldl_append, List.foldl_cons]
    show List.foldl _ (link R msg I (x.map (· • R.base)) r cs) post = _
    rw [hlink]

/-- A ring in which the decoys have two and three keys and the signer has only one. -/
example : ∃ sig : Signature Toy.K Toy.K, sig.pubKeys.map (·.keys.length) = [2, 1, 3] ∧
    sig.verify Toy.ris [image Toy.ris 5] = .ok true ∧
    ({ sig with r := sig.r.map (· ++ [9]) } : Signature Toy.K Toy.K).verify Toy.ris [image Toy.ris 5] = .ok true := by
  obtain ⟨c, r, -, h⟩ := C78_shapes_violated (F := Toy.K) Toy.ris [1] [([10, 11], [1, 2])] [([12, 13, 14], [3, 4, 5])] [5] [8]
    [image Toy.ris 5] (by simp) (by simp) rfl (by simp [Fits]) (by simp)
  exact ⟨_, rfl, h, (C76_malleable_violated Toy.ris _ _ 9 h).1⟩

end Dusk.Mlsag
