import Verif.Props.MlsagSecrets
/-!
# DualKey described by the calls alone (C84)

The specification below never mentions the fields of a `DualKey`: the keys, the message and the ring are read off the sequence
of calls.
-/

set_option linter.unusedSectionVars false

namespace Dusk.Mlsag

variable {F G : Type} [Field F] [AddCommGroup G] [Module F G]

namespace Calls

/-- The argument of the last `SetPrimaryKey`, zero without one. -/
def primary : F → List (EOp F G) → F
  | x, [] => x
  | _, .op (.primary y) :: l => primary y l
  | x, _ :: l => primary x l

/-- The argument of the last `SetCommToZero`, zero without one. -/
def zeroing : F → List (EOp F G) → F
  | x, [] => x
  | _, .op (.comm y) :: l => zeroing y l
  | x, _ :: l => zeroing x l

/-- The argument of the last `SetMsg`. -/
def msg : Bytes → List (EOp F G) → Bytes
  | m, [] => m
  | _, .op (.msg m) :: l => msg m l
  | m, _ :: l => msg m l

/-- The sum of the arguments of all `SubCommToZero`. -/
def subs : List (EOp F G) → G
  | [] => 0
  | .op (.sub P) :: l => P + subs l
  | _ :: l => subs l

/-- Subtract `S` from the second key. -/
def shift (S : G) : List G → List G
  | a :: b :: l => a :: (b - S) :: l
  | l => l

/-- The ring: every decoy in order, its second key diminished by what the calls *after* it subtract. -/
def ring : List (EOp F G) → List (List G)
  | [] => []
  | .op (.decoy k) :: l => shift (subs l) k.keys :: ring l
  | .decoys ks :: l => ks.map (fun k => shift (subs l) k.keys) ++ ring l
  | _ :: l => ring l

/-- Whether some `SubCommToZero` is called. -/
def anySub : List (EOp F G) → Prop
  | [] => False
  | .op (.sub _) :: _ => True
  | _ :: l => anySub l

/-- A `SubCommToZero` follows a decoy of fewer than two keys. -/
def bad : List (EOp F G) → Prop
  | [] => False
  | .op (.decoy k) :: l => (k.keys.length < 2 ∧ anySub l) ∨ bad l
  | .decoys ks :: l => ((∃ k ∈ ks, k.keys.length < 2) ∧ anySub l) ∨ bad l
  | _ :: l => bad l

end Calls

open Calls

theorem shift_zero : ∀ l : List G, shift 0 l = l
  | [] => rfl
  | [_] => rfl
  | a :: b :: l => by simp [shift]

theorem shift_add (S P : G) : ∀ l : List G, shift S (shift P l) = shift (P + S) l
  | [] => rfl
  | [_] => rfl
  | a :: b :: l => by simp [shift, sub_sub]

theorem shift_length (S : G) : ∀ l : List G, (shift S l).length = l.length
  | [] => rfl
  | [_] => rfl
  | _ :: _ :: _ => rfl

theorem subSecond_spec (P : G) (k : PubKeys G) :
    k.subSecond P = if k.keys.length < 2 then .panic else .ok { k with keys := shift P k.keys } := by
  obtain ⟨d, ks⟩ := k
  rcases ks with _ | ⟨a, _ | ⟨b, l⟩⟩
  · simp [PubKeys.subSecond, idx, Res.bind]
  · simp [PubKeys.subSecond, idx, Res.bind]
  · simp [PubKeys.subSecond, idx, Res.bind, shift]

theorem mapRes_subSecond (P : G) : ∀ ks : List (PubKeys G),
    ((∃ k ∈ ks, k.keys.length < 2) → mapRes (PubKeys.subSecond P) ks = .panic) ∧
    ((∀ k ∈ ks, ¬ k.keys.length < 2) → mapRes (PubKeys.subSecond P) ks = .ok (ks.map fun k => { k with keys := shift P k.keys }))
  | [] => by simp [mapRes]
  | k :: ks => by
    obtain ⟨h1, h2⟩ := mapRes_subSecond P ks
    rw [mapRes, subSecond_spec]
    constructor
    · rintro ⟨x, hx, hl⟩
      by_cases hk : k.keys.length < 2
      · rw [if_pos hk, Res.bind_panic]
      · rcases List.mem_cons.1 hx with rfl | hx
        · exact absurd hl hk
        · rw [if_neg hk, Res.bind_ok, h1 ⟨x, hx, hl⟩, Res.bind_panic]
    · intro h
      rw [if_neg (h k (by simp)), Res.bind_ok, h2 fun x hx => h x (by simp [hx]), Res.bind_ok, List.map_cons]

/-- What the calls still to come make of a `DualKey`. -/
theorem run_spec (R : Ristretto F G) : ∀ (ops : List (EOp F G)) (d : DualKey F G),
    (EOp.run R d ops = .panic ∧ (((∃ k ∈ d.proof.matrix, k.keys.length < 2) ∧ anySub ops) ∨ bad ops)) ∨
    (∃ d', EOp.run R d ops = .ok d' ∧ ¬ (((∃ k ∈ d.proof.matrix, k.keys.length < 2) ∧ anySub ops) ∨ bad ops) ∧
      d'.key0 = primary d.key0 ops ∧ d'.key1 = zeroing d.key1 ops ∧ d'.proof.msg = msg d.proof.msg ops ∧
      d'.proof.matrix.map PubKeys.keys = d.proof.matrix.map (fun k => shift (subs ops) k.keys) ++ ring ops)
  | [], d => by
    refine .inr ⟨d, rfl, by simp [anySub, bad], rfl, rfl, rfl, ?_⟩
    simp [subs, ring, shift_zero]
  | .op (.decoy k) :: l, d => by
    rcases run_spec R l { d with proof := d.proof.addDecoy k } with ⟨h, hb⟩ | ⟨d', h, hb, h0, h1, hm, hr⟩
    · refine .inl ⟨h, ?_⟩
      simp only [Proof.addDecoy, Proof.addPubKeys, List.mem_append, List.mem_singleton] at hb
      rcases hb with ⟨⟨x, hx | rfl, hl⟩, ha⟩ | hb
      · exact .inl ⟨⟨x, hx, hl⟩, ha⟩
      · exact .inr (.inl ⟨hl, ha⟩)
      · exact .inr (.inr hb)
    · refine .inr ⟨d', h, ?_, h0, h1, hm, ?_⟩
      · rintro (⟨⟨x, hx, hl⟩, ha⟩ | ⟨hl, ha⟩ | hb')
        · exact hb (.inl ⟨⟨x, by simp [Proof.addDecoy, Proof.addPubKeys, hx], hl⟩, ha⟩)
        · exact hb (.inl ⟨⟨{ k with decoy := true }, by simp [Proof.addDecoy, Proof.addPubKeys], hl⟩, ha⟩)
        · exact hb (.inr hb')
      · rw [hr]
        simp [Proof.addDecoy, Proof.addPubKeys, subs, ring]
  | .decoys ks :: l, d => by
    have e := (addDecoys_matrix d.proof ks).1
    have em : (d.proof.addDecoys ks).msg = d.proof.msg := by
      clear e
      generalize d.proof = p
      induction ks generalizing p with
      | nil => rfl
      | cons k ks ih => exact ih (p.addDecoy k)
    rcases run_spec R l { d with proof := d.proof.addDecoys ks } with ⟨h, hb⟩ | ⟨d', h, hb, h0, h1, hm, hr⟩
    · refine .inl ⟨h, ?_⟩
      simp only [e, List.mem_append, List.mem_map] at hb
      rcases hb with ⟨⟨x, hx | ⟨y, hy, rfl⟩, hl⟩, ha⟩ | hb
      · exact .inl ⟨⟨x, hx, hl⟩, ha⟩
      · exact .inr (.inl ⟨⟨y, hy, hl⟩, ha⟩)
      · exact .inr (.inr hb)
    · refine .inr ⟨d', h, ?_, h0, h1, by rw [hm, em]; rfl, ?_⟩
      · simp only [e, List.mem_append, List.mem_map] at hb
        rintro (⟨⟨x, hx, hl⟩, ha⟩ | ⟨⟨y, hy, hl⟩, ha⟩ | hb')
        · exact hb (.inl ⟨⟨x, .inl hx, hl⟩, ha⟩)
        · exact hb (.inl ⟨⟨{ y with decoy := true }, .inr ⟨y, hy, rfl⟩, hl⟩, ha⟩)
        · exact hb (.inr hb')
      · rw [hr]
        simp only [e]
        simp [subs, ring, Function.comp_def]
  | .op (.primary x) :: l, d => by simpa [EOp.run, EOp.apply, DOp.apply, DualKey.setPrimaryKey, primary, zeroing, msg, subs, ring, anySub, bad] using run_spec R l { d with key0 := x }
  | .op (.comm x) :: l, d => by simpa [EOp.run, EOp.apply, DOp.apply, DualKey.setCommToZero, primary, zeroing, msg, subs, ring, anySub, bad] using run_spec R l { d with key1 := x }
  | .op (.msg m) :: l, d => by simpa [EOp.run, EOp.apply, DOp.apply, DualKey.setMsg, primary, zeroing, msg, subs, ring, anySub, bad] using run_spec R l (d.setMsg m)
  | .secret x :: l, d => by
    simpa [EOp.run, EOp.apply, Proof.addSecret, primary, zeroing, msg, subs, ring, anySub, bad]
      using run_spec R l { d with proof := d.proof.addSecret R x }
  | .op (.sub P) :: l, d => by
    obtain ⟨g1, g2⟩ := mapRes_subSecond P d.proof.matrix
    by_cases hs : ∃ k ∈ d.proof.matrix, k.keys.length < 2
    · refine .inl ⟨?_, .inl ⟨hs, trivial⟩⟩
      simp [EOp.run, EOp.apply, DOp.apply, DualKey.subCommToZero, g1 hs, Res.bind]
    · have hs' : ∀ k ∈ d.proof.matrix, ¬ k.keys.length < 2 := fun k hk h => hs ⟨k, hk, h⟩
      have er : EOp.run R d (.op (.sub P) :: l) = EOp.run R { d with proof := { d.proof with matrix := d.proof.matrix.map fun k => { k with keys := shift P k.keys } } } l := by
        simp only [EOp.run, EOp.apply, DOp.apply, DualKey.subCommToZero, g2 hs', Res.bind_ok]
      rw [er]
      have hn : ¬ ∃ k ∈ d.proof.matrix.map (fun k : PubKeys G => { k with keys := shift P k.keys }), k.keys.length < 2 := by
        rintro ⟨k, hk, hl⟩
        obtain ⟨y, hy, rfl⟩ := List.mem_map.1 hk
        rw [shift_length] at hl
        exact hs ⟨y, hy, hl⟩
      rcases run_spec R l { d with proof := { d.proof with matrix := d.proof.matrix.map fun k => { k with keys := shift P k.keys } } } with
        ⟨h, hb⟩ | ⟨d', h, hb, h0, h1, hm, hr⟩
      · refine .inl ⟨h, .inr ?_⟩
        rcases hb with ⟨hb, -⟩ | hb
        · exact absurd hb hn
        · exact hb
      · refine .inr ⟨d', h, ?_, h0, h1, hm, ?_⟩
        · rintro (⟨hb', -⟩ | hb')
          · exact hs hb'
          · exact hb (.inr hb')
        · rw [hr]
          simp [subs, ring, shift_add, Function.comp_def]

/-- C84: a sequence of calls on a new `DualKey` panics exactly if some `SubCommToZero` follows a decoy of fewer than two keys;
it never fails otherwise. -/
theorem C84_panic (R : Ristretto F G) (ops : List (EOp F G)) :
    (EOp.run R DualKey.new ops = .panic ↔ bad ops) ∧ ((∃ d, EOp.run R DualKey.new ops = .ok d) ↔ ¬ bad ops) := by
  rcases run_spec R ops DualKey.new with ⟨h, hb⟩ | ⟨d', h, hb, -⟩
  · have hb : bad ops := by simpa [DualKey.new] using hb
    rw [h]
    simp [hb]
  · have hb : ¬ bad ops := by simpa [DualKey.new] using hb
    rw [h]
    simp [hb]

/-- C84: the outcome of a first `Prove` in terms of the calls before it. A zero key (a key never set is zero) is refused; without
decoys it panics; with a secret from `AddSecret`, or a decoy that has not two keys, it fails; and otherwise it returns a
signature of the last message, whose ring contains exactly the decoys (each with its second key reduced by the points
subtracted after it was added) and the signer's two public keys, together with the key image of the last primary key, and the
signature verifies with this image. -/
theorem C84_outcome [DecidableEq F] (R : Ristretto F G) (ops : List (EOp F G)) (d : DualKey F G)
    (hd : EOp.run R DualKey.new ops = .ok d) (coins : Coins F) :
    ((primary 0 ops = 0 ∨ zeroing 0 ops = 0) → (d.prove R coins).2.IsErr) ∧
    (primary 0 ops ≠ 0 → zeroing 0 ops ≠ 0 →
      (ring ops = [] → (d.prove R coins).2 = .panic) ∧
      (ring ops ≠ [] → (EOp.secrets ops ≠ [] ∨ ∃ ks ∈ ring ops, ks.length ≠ 2) → (d.prove R coins).2.IsErr) ∧
      (ring ops ≠ [] → EOp.secrets ops = [] → (∀ ks ∈ ring ops, ks.length = 2) →
        ∃ sig I, (d.prove R coins).2 = .ok (sig, I) ∧ I = primary 0 ops • R.pDerive (R.pBytes (primary 0 ops • R.base)) ∧
          sig.verify R [I] = .ok true ∧ sig.msg = msg [] ops ∧
          (sig.pubKeys.map PubKeys.keys).Perm (ring ops ++ [[primary 0 ops • R.base, zeroing 0 ops • R.base]]))) := by
  rcases run_spec R ops DualKey.new with ⟨h, -⟩ | ⟨d', h, -, h0, h1, hm, hr⟩
  · rw [hd] at h
    cases h
  rw [hd] at h
  cases h
  change d.key0 = primary 0 ops at h0
  change d.key1 = zeroing 0 ops at h1
  change d.proof.msg = msg [] ops at hm
  change d.proof.matrix.map PubKeys.keys = [] ++ ring ops at hr
  rw [List.nil_append] at hr
  rw [← h0, ← h1]
  have hnil : ring ops = [] ↔ d.proof.matrix = [] := by rw [← hr]; simp
  have hall : ∀ p : List G → Prop, (∀ ks ∈ ring ops, p ks) ↔ ∀ k ∈ d.proof.matrix, p k.keys := by
    intro p
    rw [← hr]
    simp
  refine ⟨fun h => (C23_zero R d coins h).2, fun n0 n1 => ?_⟩
  obtain ⟨a, b, c, e⟩ := C83_outcome R ops d hd coins n0 n1
  refine ⟨fun h => a (hnil.1 h), ?_, ?_⟩
  · rintro hn hx
    have hn' : d.proof.matrix ≠ [] := fun h => hn (hnil.2 h)
    by_cases hx0 : EOp.secrets ops = []
    · obtain ⟨ks, hk, hl⟩ := hx.resolve_left (not_not.2 hx0)
      rw [← hr] at hk
      obtain ⟨k, hk', rfl⟩ := List.mem_map.1 hk
      exact b hn' ⟨k, hk', by simpa [hx0] using hl⟩
    · exact c hn' hx0
  · intro hn hx hl
    have hn' : d.proof.matrix ≠ [] := fun h => hn (hnil.2 h)
    have hl' := (hall _).1 hl
    obtain ⟨f1, f2, f3⟩ := Fresh'.run ops (Fresh'.new R) hd
    rw [hx] at f1 f2
    have e1 : (loaded R d).privKeys = [d.key0, d.key1] := by simp [loaded, Proof.addSecret, f1]
    have e2 : (loaded R d).signer.keys = [d.key0 • R.base, d.key1 • R.base] := by
      simp [loaded, Proof.addSecret, PubKeys.addPubKey, privKeyToPubKey, f2]
    obtain ⟨sig, I, g1, g2, g3⟩ := prove_gen R (loaded R d) true coins (by rw [e1, e2]; rfl)
      (fun k hk => .inl (f3 k hk)) hn' (by rw [e1]; simp) (by rw [e1]; simp) (by rw [e1]; intro k hk; rw [hl' k hk]; simp)
    have hI := g2.images
    rw [e1] at hI
    have hI : I = [image R d.key0] := hI
    subst hI
    refine ⟨sig, image R d.key0, ?_, rfl, g2.accepted, g2.msg.trans hm, ?_⟩
    · unfold DualKey.prove
      rw [if_neg (by tauto)]
      simp only [g1, Res.bind_ok]
    · rw [g2.ring, ← hr]
      have := g2.perm
      rw [e1] at this
      have e3 : (loaded R d).matrix = d.proof.matrix := rfl
      simpa [e3] using this.map PubKeys.keys

/-- The primary key is set twice; the subtraction reaches the first decoy only; the ring in the signature has the first decoy
shifted, the second not. -/
example (coins : Coins Toy.K) : ∃ d sig I,
    EOp.run Toy.ris DualKey.new [.op (.primary 9), .op (.decoy ⟨false, [10, 11]⟩), .op (.sub 3), .op (.comm 7),
      .decoys [⟨true, [12, 13]⟩], .op (.primary 5), .op (.msg [1, 2])] = .ok d ∧
    (d.prove Toy.ris coins).2 = .ok (sig, I) ∧ sig.verify Toy.ris [I] = .ok true ∧ sig.msg = [1, 2] ∧
    (sig.pubKeys.map PubKeys.keys).Perm [[10, 11 - 3], [12, 13 - 0], [(5 : Toy.K) • Toy.ris.base, (7 : Toy.K) • Toy.ris.base]] := by
  have h57 : ((5 : Toy.K) ≠ 0 ∧ (7 : Toy.K) ≠ 0) := by
    have c5 := Toy.ris.cast_eq_zero 5
    have c7 := Toy.ris.cast_eq_zero 7
    have o := Toy.ris.two64_lt
    constructor
    · intro h
      rw [show (5 : Toy.K) = ((5 : Nat) : Toy.K) by norm_num, c5] at h
      have := Nat.le_of_dvd (by norm_num) h
      omega
    · intro h
      rw [show (7 : Toy.K) = ((7 : Nat) : Toy.K) by norm_num, c7] at h
      have := Nat.le_of_dvd (by norm_num) h
      omega
  let ops : List (EOp Toy.K Toy.K) := [.op (.primary 9), .op (.decoy ⟨false, [10, 11]⟩), .op (.sub 3), .op (.comm 7),
      .decoys [⟨true, [12, 13]⟩], .op (.primary 5), .op (.msg [1, 2])]
  obtain ⟨d, hd⟩ := (C84_panic Toy.ris ops).2.2 (by simp [ops, bad, anySub])
  obtain ⟨sig, I, h1, -, h3, h4, h5⟩ := ((C84_outcome Toy.ris ops d hd coins).2 h57.1 h57.2).2.2 (by simp [ops, ring])
    (by simp [ops, EOp.secrets]) (by simp [ops, ring, shift])
  refine ⟨d, sig, I, hd, h1, h3, h4, ?_⟩
  have hr : ring ops = [[10, 11 - 3], [12, 13 - 0]] := by simp [ops, ring, shift, subs]
  rw [hr] at h5
  exact h5

/-- A one-key decoy is harmless until something is subtracted. -/
example : EOp.run Toy.ris DualKey.new [.op (.decoy ⟨false, [10]⟩), .op (.primary 5), .op (.sub 3)] = .panic ∧
    ∃ d, EOp.run Toy.ris DualKey.new [.op (.sub 3), .op (.decoy ⟨false, [10]⟩), .op (.primary 5)] = .ok d :=
  ⟨(C84_panic Toy.ris _).1.2 (by simp [bad, anySub]), (C84_panic Toy.ris _).2.2 (by simp [bad, anySub])⟩

end Dusk.Mlsag
