import Verif.Props.Bls
import Verif.Props.BlsCodec
import Verif.Props.Mlsag
/-!
C150: the neutral element as a key.

No function of packages bls and mlsag refuses the neutral element of the group as a public key; only `DualKey` refuses the secret key
zero (C23). Whoever appears with it "signs" every message without any secret.
-/

namespace Dusk.Bls

variable {F G1 G2 GT : Type} [Field F] [AddCommGroup G1] [AddCommGroup G2] [AddCommGroup GT]
  [Module F G1] [Module F G2] [Module F GT]
variable (P : Bn256 F G1 G2 GT) (A : Hash.Algs)

theorem pair_g2_eq_zero (s : G1) : P.pair s P.g2 = 0 ↔ s = 0 :=
  ⟨P.pair_g2_inj s, fun h => by rw [h, map_zero, LinearMap.zero_apply]⟩

theorem cast_eq_cast {a b : Nat} : (a : F) = b → a ≡ b [MOD P.order] := by
  have key : ∀ a b : Nat, a ≤ b → (a : F) = b → a ≡ b [MOD P.order] := by
    intro a b hab h
    refine (Nat.modEq_iff_dvd' hab).2 ((P.cast_eq_zero _).1 ?_)
    rw [Nat.cast_sub hab, h, sub_self]
  intro h
  rcases le_total a b with hab | hab
  · exact key a b hab h
  · exact (key b a hab h.symm).symm

theorem aggregateApk_keys : ∀ l : List G2, l ≠ [] → aggregateApk P A (l.map fun g => some ⟨.pt g⟩) =
    .ok (some ⟨some ⟨.pt (l.map fun g => (digest A (P.g2Bytes g) : F) • g).sum⟩⟩)
  | [], h => absurd rfl h
  | g :: l, _ => by
    rw [List.map_cons, aggregateApk, newApk_eq, Res.bind_ok, aggregateLoop_eq, List.map_cons, List.sum_cons]

/-- C150 (violated): the neutral element is decoded as a key like any other, `NewApk` of it is the neutral aggregated key, and for these
keys the neutral signature is accepted for every message, and no other signature. -/
theorem C150_key_violated (rest : Bytes) :
    unmarshalPk P (P.g2Bytes 0 ++ rest) = .ok ⟨.pt 0⟩ ∧ unmarshalApk P (P.g2Bytes 0 ++ rest) = .ok ⟨some ⟨.pt 0⟩⟩ ∧
    newApk P A (some ⟨.pt 0⟩) = .ok (some ⟨some ⟨.pt 0⟩⟩) ∧
    ∀ (m : Bytes) (s : G1), (Verify P A (some ⟨some ⟨.pt 0⟩⟩) m (some ⟨.pt s⟩) = .ok () ↔ s = 0) ∧
      (VerifyUnsafe P A (some ⟨.pt 0⟩) m (some ⟨.pt s⟩) = .ok () ↔ s = 0) := by
  have hv : ∀ (m : Bytes) (s : G1), verify P A (.pt (0 : G2)) m (.pt s) = .ok () ↔ s = 0 := by
    intro m s
    rw [verify_iff, map_zero, eq_comm, pair_g2_eq_zero]
  refine ⟨?_, ?_, ?_, fun m s => ⟨?_, ?_⟩⟩
  · simp [unmarshalPk, PublicKey.unmarshal, P.g2OfBytes_g2Bytes]
  · simp [unmarshalApk, Apk.unmarshal, PublicKey.unmarshal, P.g2OfBytes_g2Bytes]
  · rw [newApk_eq, smul_zero]
  · simp only [Verify, deref_some, Res.bind_ok, Apk.gx]
    exact hv m s
  · simp only [VerifyUnsafe, deref_some, Res.bind_ok]
    exact hv m s

example : unmarshalPk Toy.bn (Toy.bn.g2Bytes 0) = .ok ⟨.pt 0⟩ ∧
    VerifyUnsafe Toy.bn Hash.toyAlgs (some ⟨.pt 0⟩) [7] (some ⟨.pt 0⟩) = .ok () ∧
    VerifyUnsafe Toy.bn Hash.toyAlgs (some ⟨.pt 0⟩) [8] (some ⟨.pt 0⟩) = .ok () ∧
    VerifyUnsafe Toy.bn Hash.toyAlgs (some ⟨.pt 0⟩) [7] (some ⟨.pt 1⟩) ≠ .ok () := by
  have h := C150_key_violated Toy.bn Hash.toyAlgs []
  rw [List.append_nil] at h
  exact ⟨h.1, ((h.2.2.2 [7] 0).2).2 rfl, ((h.2.2.2 [8] 0).2).2 rfl, fun h' => one_ne_zero (((h.2.2.2 [7] 1).2).1 h')⟩

/-- C150: no other key is like that: if one signature is accepted for two messages whose digests differ modulo the order of the group,
then key and signature are neutral. -/
theorem C150_only (h1 : P.g1 ≠ 0) (x : F) (m m' : Bytes) (s : G1) (hne : ¬ digest A m ≡ digest A m' [MOD P.order])
    (h : VerifyUnsafe P A (some ⟨.pt (x • P.g2)⟩) m (some ⟨.pt s⟩) = .ok ())
    (h' : VerifyUnsafe P A (some ⟨.pt (x • P.g2)⟩) m' (some ⟨.pt s⟩) = .ok ()) : x • P.g2 = 0 ∧ s = 0 := by
  simp only [VerifyUnsafe, deref_some, Res.bind_ok] at h h'
  rw [verify_iff] at h h'
  have e : ∀ d : Nat, P.pair ((d : F) • P.g1) (x • P.g2) = P.pair ((x * d) • P.g1) P.g2 := by
    intro d
    simp only [map_smul, LinearMap.smul_apply, smul_smul]
  rw [e] at h h'
  have h2 : P.pair ((x * digest A m - x * digest A m') • P.g1) P.g2 = 0 := by
    rw [sub_smul, map_sub, LinearMap.sub_apply, h, h', sub_self]
  rcases smul_eq_zero.1 (P.pair_g2_inj _ h2) with h3 | h3
  · rw [← mul_sub, mul_eq_zero] at h3
    rcases h3 with rfl | h3
    · rw [zero_mul, zero_smul, map_zero, LinearMap.zero_apply, eq_comm, pair_g2_eq_zero] at h
      exact ⟨zero_smul _ _, h⟩
    · exact absurd (cast_eq_cast P (sub_eq_zero.1 h3)) hne
  · exact absurd h3 h1

example : ∃ (s : Toy.K), VerifyUnsafe Toy.bn Hash.toyAlgs (some ⟨.pt ((3 : Toy.K) • Toy.bn.g2)⟩) [7] (some ⟨.pt s⟩) = .ok () ∧
    ¬ digest Hash.toyAlgs [7] ≡ digest Hash.toyAlgs [8] [MOD Toy.bn.order] ∧
    VerifyUnsafe Toy.bn Hash.toyAlgs (some ⟨.pt ((3 : Toy.K) • Toy.bn.g2)⟩) [8] (some ⟨.pt s⟩) ≠ .ok () := by
  have h3 : (3 : Toy.K) ≠ 0 := by decide +kernel
  have hd : ¬ digest Hash.toyAlgs [7] ≡ digest Hash.toyAlgs [8] [MOD Toy.bn.order] := by decide +kernel
  refine ⟨digest Hash.toyAlgs [7] * ((3 : Toy.K) • Toy.bn.g2), (toy_verify _ _ _ _).2 rfl, hd, fun h => ?_⟩
  have := (C150_only Toy.bn Hash.toyAlgs one_ne_zero 3 [7] [8] _ hd ((toy_verify _ _ _ _).2 rfl) h).1
  rw [Toy.bn_g2, smul_eq_mul, mul_one] at this
  exact h3 this

/-- C150 (violated): neutral keys among the keys given to `AggregateApk` change nothing. So somebody with a neutral key appears among
the signers of everything the others sign. -/
theorem C150_member_violated [DecidableEq G2] (l : List G2) (h : ∃ g ∈ l, g ≠ 0) :
    aggregateApk P A (l.map fun g => some ⟨.pt g⟩) = aggregateApk P A ((l.filter fun g => g ≠ 0).map fun g => some ⟨.pt g⟩) := by
  have hf : (l.filter fun g => g ≠ 0) ≠ [] := by
    obtain ⟨g, hg, h0⟩ := h
    exact List.ne_nil_of_mem (List.mem_filter.2 ⟨hg, by simpa using h0⟩)
  rw [aggregateApk_keys P A l (by rintro rfl; simp at h), aggregateApk_keys P A _ hf]
  congr 6
  clear h hf
  induction l with
  | nil => rfl
  | cons g l ih =>
    by_cases h0 : g = 0
    · subst h0
      rw [List.filter_cons_of_neg (by simp), List.map_cons, List.sum_cons, smul_zero, zero_add, ih]
    · rw [List.filter_cons_of_pos (by simpa using h0), List.map_cons, List.map_cons, List.sum_cons, List.sum_cons, ih]

example : aggregateApk Toy.bn Hash.toyAlgs [some ⟨.pt 0⟩, some ⟨.pt 5⟩, some ⟨.pt 0⟩] =
    aggregateApk Toy.bn Hash.toyAlgs [some ⟨.pt (5 : Toy.K)⟩] := by
  have h5 : (5 : Toy.K) ≠ 0 := by decide +kernel
  have := C150_member_violated Toy.bn Hash.toyAlgs [0, 5, 0] ⟨5, by simp, h5⟩
  simpa [h5] using this

omit [AddCommGroup G1] in
theorem batchSum_neutral (e : G1 → G2 → GT) (he : ∀ a, e a 0 = 0) (hash : Bytes → G1) (r : List (Bytes × G2)) (m : Bytes) :
    ∀ l : List (Bytes × G2), batchSum e hash (l ++ (m, 0) :: r) = batchSum e hash (l ++ r)
  | [] => by rw [List.nil_append, List.nil_append, batchSum, he, zero_add]
  | (m', g) :: l => by rw [List.cons_append, List.cons_append, batchSum, batchSum, batchSum_neutral e he hash r m l]

/-- C150 (violated): in a batch, the message of a neutral key is not checked: a batch is accepted exactly if it is accepted without that key
and its message. -/
theorem C150_batch_violated (l r : List (Bytes × G2)) (m : Bytes) (s : G1) (hne : l ++ r ≠ [])
    (hd : ((l ++ (m, 0) :: r).map fun t => A.sha3_256 t.1).Nodup) :
    VerifyBatch P A ((l ++ (m, 0) :: r).map fun t => some ⟨some ⟨.pt t.2⟩⟩) ((l ++ (m, 0) :: r).map Prod.fst) (some ⟨.pt s⟩) = .ok () ↔
    VerifyBatch P A ((l ++ r).map fun t => some ⟨some ⟨.pt t.2⟩⟩) ((l ++ r).map Prod.fst) (some ⟨.pt s⟩) = .ok () := by
  have key : ∀ q : List (Bytes × G2), q ≠ [] → (q.map fun t => A.sha3_256 t.1).Nodup →
      (VerifyBatch P A (q.map fun t => some ⟨some ⟨.pt t.2⟩⟩) (q.map Prod.fst) (some ⟨.pt s⟩) = .ok () ↔
        P.pair s P.g2 = batchSum (fun a b => P.pair a b) (hashPoint P A) q) := by
    intro q hq hn
    have h := (C36_safe P A (q.map Prod.snd) (q.map Prod.fst) s (by simpa using hq) (by simp)
      (by rw [List.map_map]; exact hn)).1
    rw [List.map_map] at h
    rw [show (q.map Prod.fst).zip (q.map Prod.snd) = q from by rw [List.zip_map', List.map_id']] at h
    exact h
  have hd' : ((l ++ r).map fun t => A.sha3_256 t.1).Nodup := by
    refine hd.sublist (List.Sublist.map _ ?_)
    exact List.Sublist.append_left (List.sublist_cons_self _ _) l
  rw [key _ (by simp) hd, key _ hne hd', batchSum_neutral _ (fun a => map_zero _)]

example (s : Toy.K) (h : VerifyBatch Toy.bn Hash.toyAlgs [some ⟨some ⟨.pt 5⟩⟩] [[7]] (some ⟨.pt s⟩) = .ok ()) :
    VerifyBatch Toy.bn Hash.toyAlgs [some ⟨some ⟨.pt 5⟩⟩, some ⟨some ⟨.pt 0⟩⟩] [[7], [8]] (some ⟨.pt s⟩) = .ok () :=
  (C150_batch_violated Toy.bn Hash.toyAlgs [([7], 5)] [] [8] s (by simp) (by decide +kernel)).2 h

/-- C150: `GenKeyPair` returns the neutral key only if the library chooses a multiple of the order. -/
theorem C150_generated (h1 : P.g1 ≠ 0) (x : Nat) : genKeyPair P (.ok x) = .ok (⟨.pt 0⟩, ⟨x⟩) ↔ P.order ∣ x := by
  have hg : P.g2 ≠ 0 := fun h => h1 (P.pair_g2_inj P.g1 (by rw [h, map_zero]))
  rw [← P.cast_eq_zero]
  simp [genKeyPair, hg]

example : genKeyPair Toy.bn (.ok 5) ≠ .ok (⟨.pt 0⟩, ⟨5⟩) ∧ genKeyPair Toy.bn (.ok PrimeEll.ell) = .ok (⟨.pt 0⟩, ⟨PrimeEll.ell⟩) :=
  ⟨fun h => absurd ((C150_generated Toy.bn one_ne_zero 5).1 h) (by decide +kernel), (C150_generated Toy.bn one_ne_zero _).2 dvd_rfl⟩

end Dusk.Bls

namespace Dusk.Mlsag

variable {F G : Type} [Field F] [AddCommGroup G] [Module F G]

/-- C150 (violated): `Prove` signs with secret keys zero: with any decoys, for any message, the result is accepted for a ring that contains
the vector of neutral keys, and all its key images are neutral. -/
theorem C150_ring_violated [DecidableEq F] (R : Ristretto F G) (msg : Bytes) (ks : List (PubKeys G)) (d : Nat) (coins : Coins F)
    (hk : ks ≠ []) (hd : 0 < d) (hdim : ∀ k ∈ ks, k.keys.length = d) :
    ∃ sig, ((build R msg (ks.map .decoy ++ List.replicate d (.secret 0))).prove R false coins).2 = .ok (sig, List.replicate d 0) ∧
      sig.msg = msg ∧ (⟨false, List.replicate d 0⟩ : PubKeys G) ∈ sig.pubKeys ∧ sig.verify R (List.replicate d 0) = .ok true := by
  have hs : ∀ n, secrets (List.replicate n (.secret 0) : List (Op F G)) = List.replicate n 0 ∧
      decoys (List.replicate n (.secret 0) : List (Op F G)) = [] := by
    intro n
    induction n with
    | zero => exact ⟨rfl, rfl⟩
    | succ n ih => exact ⟨by rw [List.replicate_succ, secrets, ih.1, List.replicate_succ], by rw [List.replicate_succ, decoys, ih.2]⟩
  have hops : ∀ ks : List (PubKeys G), secrets (ks.map .decoy ++ List.replicate d (.secret 0) : List (Op F G)) = List.replicate d 0 ∧
      decoys (ks.map .decoy ++ List.replicate d (.secret 0) : List (Op F G)) = ks.map PubKeys.keys := by
    intro ks
    induction ks with
    | nil => exact hs d
    | cons k ks ih => exact ⟨by rw [List.map_cons, List.cons_append, secrets, ih.1], by
        rw [List.map_cons, List.cons_append, decoys, ih.2, List.map_cons]⟩
  obtain ⟨e1, e2⟩ := hops ks
  obtain ⟨sig, I, h, hp⟩ := C14_prove R msg (ks.map .decoy ++ List.replicate d (.secret 0)) false coins (by rw [e2]; simpa using hk)
    (by rw [e1]; simp; omega) (by simp) (by
      rw [e1, e2, List.length_replicate]
      intro k hk
      obtain ⟨k', hk', rfl⟩ := List.mem_map.1 hk
      exact hdim k' hk')
  have hI : I = List.replicate d 0 := by
    rw [hp.images, e1]
    simp [image]
  subst hI
  refine ⟨sig, h, hp.msg, ?_, hp.accepted⟩
  have := List.mem_of_getElem? hp.index
  rw [e1, List.map_replicate, zero_smul] at this
  rw [hp.ring]
  exact this

example (coins : Coins Toy.K) : ∃ sig, ((build Toy.ris [1, 2, 3] [.decoy ⟨false, [10, 11]⟩, .secret 0, .secret 0]).prove Toy.ris false
    coins).2 = .ok (sig, [0, 0]) ∧ sig.verify Toy.ris [0, 0] = .ok true :=
  let ⟨sig, h, _, _, hv⟩ := C150_ring_violated Toy.ris [1, 2, 3] [⟨false, [10, 11]⟩] 2 coins (by simp) (by omega) (by simp)
  ⟨sig, h, hv⟩

/-- C150: a key image is neutral only if the secret key is zero or the public key is hashed to the neutral element. -/
theorem C150_image (R : Ristretto F G) (x : F) (K : G) : calculateKeyImage R x K = 0 ↔ x = 0 ∨ R.pDerive (R.pBytes K) = 0 :=
  smul_eq_zero

example : calculateKeyImage Toy.ris 0 7 = 0 := (C150_image Toy.ris 0 7).2 (.inl rfl)

end Dusk.Mlsag
