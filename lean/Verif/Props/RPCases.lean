import Verif.Props.RPCodec
import Verif.Props.RPDebug
import Verif.Props.RPSound
import Verif.Props.RPState
import Verif.Props.RPZk
import Verif.Props.RPVerOut
import Verif.Props.RPDisturbed
import Verif.Props.RPProveConc
/-!
# Concrete cases for the theorems about range proofs

Every example applies a theorem of C59–C106 to concrete values, so that its hypotheses are seen to be satisfiable.
-/

namespace Dusk.RP

open Prog

/-! ## C59 to C61 -/

example : (bitCommit (F := Toy.K) 5).AL[0]'(by simp [(C59_value (F := Toy.K) 5).1]) * (bitCommit (F := Toy.K) 5).AR[0]'(by simp [(C59_value (F := Toy.K) 5).2.1]) = 0 :=
  (C59_value (F := Toy.K) 5).2.2.2.1 0 _ _

example : (⟨[1], []⟩ : BitCommitment Toy.K).debug 1 = .panic := C59_debug_short _ _ (.inl (by simp))

/-- A returned proof of the values 1 and 2. -/
theorem case_two (m0 : Nat) (coins : Coins Toy.K) : ∃ p ip, (prove Toy.ris m0 [1, 2] false coins).2 = .ok p ∧ p.ip = some ip ∧
    (∀ u ∈ IP.challenges Toy.ris ip.L ip.R, u ≠ 0) ∧ (prove Toy.ris m0 [(1 : Toy.K), 2] false coins).1 = 2 ∧ ip.L.length = 7 ∧ ip.R.length = 7 ∧
    p.V.length = 2 := by
  obtain ⟨k, p, ip, h1, h2, h5, hon, h3, h4, hif⟩ := C68_prove Toy.ris m0 [(1 : Toy.K), 2] false coins (by simp) (by simp)
  have hk : k = 1 := by
    have := h2 1 (by simp)
    have hk0 : k ≠ 0 := by rintro rfl; simp at h1
    omega
  subst hk
  obtain ⟨n1, n2, n3⟩ := chalOf_ne Toy.ris Toy.dv_ne_zero p
  rw [if_neg (by simp [n1, n2, n3])] at hif
  exact ⟨p, ip, hif, hon.hasIp, challenges_ne Toy.ris Toy.dv_ne_zero _ _, h5, h3, h4, by rw [hon.V]; simp⟩

example (m0 : Nat) (coins : Coins Toy.K) : ∃ p, (prove Toy.ris m0 [(1 : Toy.K), 2] false coins).2 = .ok p := by
  obtain ⟨p, ip, -, h, -⟩ := C60_completeness Toy.ris m0 [(1 : Toy.K), 2] coins (by simp) (by simp) toy_two
  obtain ⟨n1, n2, n3⟩ := chalOf_ne Toy.ris Toy.dv_ne_zero p
  rcases h with h | ⟨h, -⟩
  · exact ⟨p, h.2.2.2⟩
  · rcases h with h | h | h
    · exact absurd h n1
    · exact absurd h n2
    · exact absurd h n3

/-- C61: the value `2^64` is not accepted. -/
example (coins : Coins Toy.K) (c : Toy.K) : ∃ p, (prove Toy.ris 1 [((2 ^ 64 : Nat) : Toy.K)] false coins).2 = .ok p ∧
    verify Toy.ris (prove Toy.ris 1 [((2 ^ 64 : Nat) : Toy.K)] false coins).1 p c = .err "megacheck failed" := by
  obtain ⟨k, p, ip, -, -, -, hon, -, -, hif⟩ := C68_prove Toy.ris 1 [((2 ^ 64 : Nat) : Toy.K)] false coins (by simp) (by simp)
  obtain ⟨n1, n2, n3⟩ := chalOf_ne Toy.ris Toy.dv_ne_zero p
  rw [if_neg (by simp [n1, n2, n3])] at hif
  refine ⟨p, hif, ?_⟩
  rw [C61_out_of_range Toy.ris 1 _ coins p ip hif hon.hasIp (challenges_ne Toy.ris Toy.dv_ne_zero _ _) c, if_neg]
  have hs : Toy.ris.sNat ((2 ^ 64 : Nat) : Toy.K) = 2 ^ 64 := Toy.ris.sNat_cast Toy.ris.two64_lt
  have h0 : ((2 ^ 64 : Nat) : Toy.K) ≠ 0 := by
    intro h
    have := Toy.ris.cast_inj (m := 2 ^ 64) (n := 0) Toy.ris.two64_lt (by have := Toy.ris.two64_lt; omega) (by rw [h]; simp)
    omega
  simp only [List.length_singleton, Finset.sum_range_one, List.getD_cons_zero, hs, Nat.mod_self, Nat.cast_zero, sub_zero, smul_eq_mul, mul_eq_zero,
    pow_eq_zero_iff (show 0 + 2 ≠ 0 by omega), n3, h0, Toy.dv_ne_zero, or_self, false_or, not_false_eq_true]
  exact Toy.dv_ne_zero _

example (S : Finset Toy.K) (hS : ∀ z ∈ S, z ≠ 0 ∧ ∑ j ∈ Finset.range 2, z ^ (j + 2) *
      ([((2 ^ 64 : Nat) : Toy.K), 0].getD j 0 - ((Toy.ris.sNat ([((2 ^ 64 : Nat) : Toy.K), 0].getD j 0) % 2 ^ 64 : Nat) : Toy.K)) = 0) : S.card < 2 :=
  C61_few_challenges Toy.ris [((2 ^ 64 : Nat) : Toy.K), 0] ⟨_, by simp, (Toy.ris.sNat_cast Toy.ris.two64_lt).ge⟩ S hS

/-! ## C62 to C65 -/

example (coins : Coins Toy.K) (c : Toy.K) : ∃ p, (prove Toy.ris 1 [1, 2] false coins).2 = .ok p ∧ (verify Toy.ris (stateAfter Toy.ris []) p c).IsErr := by
  obtain ⟨p, ip, h1, h2, h3, -⟩ := case_two 1 coins
  exact ⟨p, h1, C62_fresh_violated Toy.ris 1 [1, 2] coins p ip toy_two (by simp) h1 h2 h3 c⟩

example (coins : Coins Toy.K) (c : Toy.K) : ∃ p ip, (prove Toy.ris 1 [1, 2] false coins).2 = .ok p ∧ p.ip = some ip ∧
    residue1 (pub Toy.ris (64 * 2)) 2 (chalOf Toy.ris p) p +
      c • residue2 (pub Toy.ris (64 * 2)) 2 (chalOf Toy.ris p) (IP.challenges Toy.ris ip.L ip.R) p ip = 0 := by
  obtain ⟨p, ip, h1, h2, h3, h4, h5, h6, h7⟩ := case_two 1 coins
  obtain ⟨q, e, hq⟩ := C60_nonzero_hash Toy.ris Toy.dv_ne_zero 1 [(1 : Toy.K), 2] coins (by simp) (by simp) toy_two
  rw [h1] at e
  cases e
  rw [h4] at hq
  refine ⟨p, ip, h1, h2, ?_⟩
  have := C63_equation Toy.ris 2 7 p ip c h2 (by norm_num) (by norm_num) h5 h6 h7.ge
  rw [hq] at this
  by_contra hc
  rw [if_neg hc] at this
  cases this

example (coins : Coins Toy.K) : ∃ p ip, (prove Toy.ris 1 [1, 2] false coins).2 = .ok p ∧ p.ip = some ip ∧
    residue1 (pub Toy.ris (64 * 2)) 2 (chalOf Toy.ris p) p = 0 := by
  obtain ⟨p, ip, h1, h2, h3, h4, h5, h6, h7⟩ := case_two 1 coins
  obtain ⟨q, e, hq⟩ := C60_nonzero_hash Toy.ris Toy.dv_ne_zero 1 [(1 : Toy.K), 2] coins (by simp) (by simp) toy_two
  rw [h1] at e
  cases e
  rw [h4] at hq
  exact ⟨p, ip, h1, h2, ((C63_coin Toy.ris 2 7 p ip h2 (by norm_num) (by norm_num) h5 h6 h7.ge).1.2 hq).1⟩

/-- C65: with any vectors, an error means that a value is out of range. -/
example (l : List Toy.K) (hl : l.length = nBits * 1) (h : (debugProve Toy.ris (Reads.const 1 1) 1 1 0 [(0 : Toy.K)] l l l l l l).IsErr) :
    ∃ a ∈ [(0 : Toy.K)], 2 ^ 64 - 1 ≤ Toy.ris.sNat a :=
  ((C65_checks Toy.ris (Reads.const 1 1) 1 rfl rfl rfl (by norm_num [nBits]) 1 1 0 one_ne_zero _ _ _ _ _ _ _ hl hl hl hl hl hl).2.1 h).2.2

example (coins : Coins Toy.K) : ∃ p, (prove Toy.ris 1 [1, 2] true coins).2 = .ok p := by
  obtain ⟨p, ip, h1, -⟩ := case_two 1 coins
  refine ⟨p, (C65_debug_agrees Toy.ris 1 [1, 2] coins p ?_).2 h1⟩
  intro a ha
  rcases List.mem_cons.1 ha with rfl | ha
  · have := toy_sNat 1 (by norm_num)
    rw [Nat.cast_one] at this
    rw [this]; norm_num
  · rw [List.mem_singleton.1 ha]
    have := toy_sNat 2 (by norm_num)
    rw [show ((2 : Nat) : Toy.K) = 2 by norm_num] at this
    rw [this]; norm_num

/-! ## C66 to C68 -/

/-- A proof with two commitments and one round. -/
def caseProof : Proof Toy.K Toy.K := ⟨[⟨1, 2⟩, ⟨3, 4⟩], 5, 6, 7, 8, 9, 10, 11, some ⟨[12], [13], 14, 15⟩⟩

example : (caseProof.encode Toy.ris true ⟨[], 14, 0⟩).1 = .ok () := by
  rw [(C66_encode Toy.ris caseProof ⟨[12], [13], 14, 15⟩ rfl true rfl (by norm_num)).good _ (by simp [caseProof])]

example (recv : Proof Toy.K Toy.K) : recv.decode Toy.ris true ⟨[outerEncoding Toy.ris caseProof true ++ IP.encoding Toy.ris ⟨[12], [13], 14, 15⟩], .eof⟩ =
    .ok (received recv caseProof true, ⟨[], .eof⟩) :=
  C66_roundtrip Toy.ris_encodings recv caseProof ⟨[12], [13], 14, 15⟩ rfl true (by norm_num [caseProof]) rfl (by norm_num) [] (.inl rfl) _
    (by simp [Reader.flat]) rfl

/-- C66: a proof that is sent and accepted. -/
example (coins : Coins Toy.K) (recv : Proof Toy.K Toy.K) : ∃ p r q, (prove Toy.ris 1 [1, 2] false coins).2 = .ok p ∧
    recv.decode Toy.ris true r = .ok (q, ⟨[], .eof⟩) ∧ ∀ c, verify Toy.ris 2 q c = .ok true := by
  obtain ⟨p, ip, h1, h2, h3, h4, -⟩ := case_two 1 coins
  obtain ⟨-, q, h5, h6⟩ := C66_transmit Toy.ris_encodings 1 [(1 : Toy.K), 2] coins p recv ip toy_two h1 h2 h3 ⟨[], 2 ^ 32, 0⟩ le_rfl
    ⟨[(p.encode Toy.ris true ⟨[], 2 ^ 32, 0⟩).2.out], .eof⟩ (by simp [Reader.flat]) rfl
  rw [h4] at h6
  exact ⟨p, _, q, h1, h5, h6⟩

example : (({ caseProof with ip := none } : Proof Toy.K Toy.K).encode Toy.ris true ⟨[], 10, 0⟩).1 = .panic :=
  C66_nil Toy.ris _ rfl true _ (by simp [caseProof])

example (recv : Proof Toy.K Toy.K) : (recv.decode Toy.ris false (Reader.ofBytes ((outerEncoding Toy.ris caseProof false).take 100))).IsErr :=
  C66_short Toy.ris_encodings recv caseProof false (by norm_num [caseProof]) _ (by simp [Reader.ofBytes, Reader.flat, List.take_prefix])

example : ∃ b, caseProof.equals { caseProof with ip := none } true = .ok b ∧ b = true := by
  obtain ⟨b, h, hb⟩ := C67_equal_lengths caseProof { caseProof with ip := none } true rfl
  exact ⟨b, h, hb.2 ⟨rfl, rfl, rfl, rfl, rfl, rfl, rfl, rfl⟩⟩

example : caseProof.equals { caseProof with V := [] } true = .ok false := C67_different_lengths _ _ (by simp [caseProof])

example : ∃ b, ({ caseProof with V := [⟨1, 2⟩] } : Proof Toy.K Toy.K).equals caseProof false = .ok b ∧ b = true := by
  obtain ⟨b, h, hb⟩ := C67_flag_violated { caseProof with V := [⟨1, 2⟩] } caseProof (by simp [caseProof])
  exact ⟨b, h, hb.2 ⟨rfl, rfl, rfl, rfl, rfl, rfl, rfl, rfl⟩⟩

example (coins : Coins Toy.K) : (prove Toy.ris 1 (List.replicate 17 0) false coins).1 = 17 := by
  rw [(C68_many Toy.ris 1 (List.replicate 17 0) false coins (by simp)).1]
  simp

/-! ## C69 -/

/-- The operations on scalars of `Toy`, with points without a relation between them. -/
def caseRis : Ristretto Toy.K (Nat → Toy.K) where
  order := Toy.ris.order
  two64_lt := Toy.ris.two64_lt
  cast_eq_zero := Toy.ris.cast_eq_zero
  sNat := Toy.ris.sNat
  sNat_lt := Toy.ris.sNat_lt
  cast_sNat := Toy.ris.cast_sNat
  sBytes := Toy.ris.sBytes
  sOfBytes := Toy.ris.sOfBytes
  sDerive := Toy.ris.sDerive
  pBytes _ := []
  pOfBytes _ := (0, false)
  pDerive _ := 0
  base := 0

theorem case_small {a b : Nat} (ha : a < 2 ^ 64) (hb : b < 2 ^ 64) (h : (a : Toy.K) = b) : a = b :=
  Toy.ris.cast_inj (ha.trans Toy.ris.two64_lt) (hb.trans Toy.ris.two64_lt) h

theorem case_sq (i : Fin 4) : (i.val + 1) * (i.val + 1) < 2 ^ 64 :=
  (Nat.mul_le_mul i.isLt i.isLt).trans_lt (by norm_num)

theorem case_folds : ∃ u : Fin 4 → Toy.K, (∀ i, u i ≠ 0) ∧ ∀ i j, i ≠ j → u i * u i ≠ u j * u j := by
  refine ⟨fun i => ((i.val + 1 : Nat) : Toy.K), fun i h => ?_, fun i j hij h => hij ?_⟩
  · have := case_small (a := i.val + 1) (b := 0) (by omega) (by norm_num) (by simpa using h)
    omega
  · rw [← Nat.cast_mul, ← Nat.cast_mul] at h
    have := case_small (case_sq i) (case_sq j) h
    have := Nat.mul_self_inj.1 this
    exact Fin.ext (by omega)

/-- The honest prover of the values 1 and 2, with points without a relation between them, meets all hypotheses. -/
theorem case_sound [DecidableEq (Nat → Toy.K)] (coins : Coins Toy.K) : ∃ (P : Pub (Nat → Toy.K)) (s : Strategy Toy.K (Nat → Toy.K) 7) (q : Queries Toy.K),
    P.Gv.length = 64 * 2 ∧ P.Hv.length = 64 * 2 ∧ 2 ≤ s.V.length ∧ q.Good s 2 ∧ s.Accepting q P 2 ∧ Independent Toy.K P (64 * 2) ∧
    (s.V.map fun V => V.value).getD 1 0 = (2 : Toy.K) • P.B + coins.vBlind 1 • P.Bl := by
  obtain ⟨P, h1, h2, h3⟩ := exists_independent (64 * 2)
  obtain ⟨q, q1, q2, q3, q4, q5⟩ := exists_queries 2 (by norm_num)
  obtain ⟨u, u1, u2⟩ := case_folds
  obtain ⟨g, a⟩ := C69_satisfiable caseRis P u u1 u2 7 (by norm_num) [1, 2] (by norm_num) h1 h2 toy_two coins q q1 q2 q3 q4 q5
  exact ⟨P, _, q, h1, h2, by simp [honestStrategy], g, a, h3, by simp [honestStrategy]⟩

example [DecidableEq (Nat → Toy.K)] (coins : Coins Toy.K) : ∃ n < 2 ^ 64, (2 : Toy.K) = ((n : Nat) : Toy.K) := by
  obtain ⟨P, s, q, h1, h2, h3, h4, h5, h6, h7⟩ := case_sound coins
  exact C69_soundness P s q (by norm_num) (by norm_num) h1 h2 h3 h4 h5 h6 1 (by norm_num) _ _ h7

example [DecidableEq (Nat → Toy.K)] (coins : Coins Toy.K) : ∃ (s : Strategy Toy.K (Nat → Toy.K) 7) (q : Queries Toy.K) (y : Toy.K),
    ∃ n < 2 ^ 64, (openV s q 2 y 1).1 = ((n : Nat) : Toy.K) := by
  obtain ⟨P, s, q, h1, h2, h3, h4, h5, h6, h7⟩ := case_sound coins
  obtain ⟨y₀, hy₀⟩ : q.ys.Nonempty := Finset.card_pos.1 (by have := h4.y_card; omega)
  obtain ⟨z₀, hz₀⟩ : (q.zs y₀).Nonempty := Finset.card_pos.1 (by have := h4.z_card y₀ hy₀; omega)
  rcases C69_extraction P s q (by norm_num) (by norm_num) h1 h2 h3 h4 h5 hy₀ hz₀ with ⟨ρ, -, e, e'⟩ | h
  · exact absurd e' (h6 ρ e)
  · exact ⟨s, q, y₀, (h 1 (by norm_num)).2⟩

example (R : Ristretto Toy.K Toy.K) (p : Proof Toy.K Toy.K) (c : Toy.K) (h : verify R 2 p c = .ok true) :
    megacheckWithC R (VReads.const 2) c p.ip p.mu (chalOf R p).x (chalOf R p).y (chalOf R p).z p.t p.taux
      (chalOf R p).w p.A (pub R (64 * 2)).B (pub R (64 * 2)).Bl p.S p.T1 p.T2 (pub R (64 * 2)).Gv (pub R (64 * 2)).Hv p.V = .ok true :=
  (C69_verify R 2 (by norm_num) p c).symm.trans h

/-! ## C70 -/

example (coins : Coins Toy.K) (procs : Nat → Proc) (h : procs 3 = Proc.start 2) :
    ((exec 1 procs (List.replicate 17 3)).2 3).result Toy.ris [1, 2] false coins = (prove Toy.ris 1 [1, 2] false coins).2 := by
  rw [← C70_alone Toy.ris 1 [1, 2] false coins (by simp) (by simp) procs 3 h]

example (coins : Coins Toy.K) : ((exec 1 (fun _ => Proc.start (2 ^ 1)) ((List.replicate 17 [0, 1]).flatten)).2 1).result Toy.ris [1, 2] false coins =
    (prove Toy.ris 1 [1, 2] false coins).2 :=
  C70_uniform Toy.ris 1 (by norm_num) 1 _ [1, 2] false coins rfl 1 (by decide +kernel)

example (coins : Coins Toy.K) : (proveWith Toy.ris ⟨2, 2, 2, 2, 2, 3, 2, 2, 2, 2, 2, 2, 2, 2, 2⟩ [1, 2] false coins).IsErr :=
  C70_mixed_reads Toy.ris _ [1, 2] false coins (by simp) (by decide +kernel) (by simp) (by norm_num [nBits]) (by norm_num [nBits]) (by norm_num)
    (by norm_num [nBits])

example (coins : Coins Toy.K) : ((exec 1 (fun i => Proc.start (i + 1)) (List.replicate 5 0 ++ List.replicate 17 1 ++ List.replicate 12 0)).2 0).pc = Proc.end :=
  (C70_violated Toy.ris 1 5 false coins (fun i => Proc.start (i + 1)) rfl rfl).1

example (coins : Coins Toy.K) : (exec 1 (fun i => Proc.start (3 - i)) (List.replicate 2 0 ++ List.replicate 1 1 ++ List.replicate 15 0)).1 = 2 :=
  (C70_pad_violated Toy.ris 1 5 6 7 false coins (fun i => Proc.start (3 - i)) rfl rfl).2.1

example : (exec 1 (fun i => Proc.start (3 + i)) (List.replicate 3 0 ++ List.replicate 17 1 ++ List.replicate 2 0)).1 = 5 :=
  (C70_lost_update_violated 1 (fun i => Proc.start (3 + i)) rfl rfl).2

/-! ## C75, C86, C98 -/

example (coins : Coins Toy.K) : ∃ (p q : Proof Toy.K Toy.K) (coins' : Coins Toy.K), (prove Toy.ris 1 [1, 2] false coins).2 = .ok p ∧
    (prove Toy.ris 1 [0, 0] false coins').2 = .ok q ∧ published q = published p := by
  obtain ⟨p, ip, h1, -⟩ := case_two 1 coins
  obtain ⟨Φ, h⟩ := C75_witness_indistinguishable Toy.ris (fun P => ⟨P, by simp [Toy.ris]⟩) 1 [(1 : Toy.K), 2] [0, 0] rfl toy_two
    (by intro a ha; simp only [List.mem_cons, List.not_mem_nil, or_false, or_self] at ha; rw [ha]; exact toy_zero) (published p)
  obtain ⟨q, h2, h3⟩ := (h coins).1 ⟨p, h1, rfl⟩
  exact ⟨p, q, Φ coins, h1, h2, h3⟩

example (R : Ristretto Toy.K Toy.K) (p : Proof Toy.K Toy.K) (c : Toy.K) (h : p.V = [⟨1, 2⟩, ⟨3, 4⟩]) :
    verify R 2 { p with V := [⟨1, 5⟩, ⟨3, 6⟩] } c = verify R 2 p c :=
  C75_verify_published R 2 _ _ (by simp [published, h]) c

example (c : Toy.K) : verify Toy.ris 2 { caseProof with ip := none } c = .panic :=
  (C86_panic Toy.ris 2 (by norm_num) (by norm_num) _ c).2 (.inl rfl)

example (c : Toy.K) : verify Toy.ris 2 caseProof c ≠ .panic := by
  rw [Ne, C86_panic Toy.ris 2 (by norm_num) (by norm_num)]
  rintro (h | ⟨ip, h, ⟨-, h'⟩, -⟩)
  · cases h
  · cases h
    simp at h'

example (p : Proof Toy.K Toy.K) (c : Toy.K) :
    (Sys.exec ⟨2 ^ 1, fun _ => Proc.start (2 ^ 1), fun _ => []⟩ ((List.replicate 6 [.inr 0, .inl 0, .inl 1]).flatten)).verdict Toy.ris 0 p c = verify Toy.ris (2 ^ 1) p c :=
  C98_uniform Toy.ris 1 (by norm_num) _ 0 p c (by decide +kernel)

/-! ## C101, C104, C106 -/

example (coins : Coins Toy.K) : ∃ p ip, proveWith Toy.ris ⟨2, 2, 9, 1, 2, 2, 2, 0, 0, 0, 0, 0, 0, 5, 2⟩ [1, 2] false coins = .ok p ∧ p.V.length = 2 ∧
    Honest Toy.ris 2 [1, 2] coins p ip := by
  have hs : (⟨2, 2, 9, 1, 2, 2, 2, 0, 0, 0, 0, 0, 0, 5, 2⟩ : Reads).Small := ⟨by norm_num, by norm_num, by norm_num, by norm_num, by norm_num, by norm_num⟩
  obtain ⟨p, ip, -, -, -, -, h, -⟩ := C101_agree Toy.ris ⟨2, 2, 9, 1, 2, 2, 2, 0, 0, 0, 0, 0, 0, 5, 2⟩ hs [1, 2] coins 2 (by decide) (by norm_num)
    ⟨by simp, by norm_num, rfl, rfl, rfl, by norm_num, 1, rfl⟩
  obtain ⟨n1, n2, n3⟩ := chalOf_ne Toy.ris Toy.dv_ne_zero p
  have hp := (h n1 n2 n3).2.1.2 ⟨rfl, by norm_num⟩
  have h0 : padAmount 2 = 0 := by decide
  obtain ⟨e, -, ip', hon, -⟩ := C101_returned Toy.ris _ hs [1, 2] coins (by simp [h0]) p hp
  have e2 : p.V.length = 2 := by rw [e, h0]; rfl
  rw [e2] at hon
  exact ⟨p, ip', hp, e2, hon⟩

example (coins : Coins Toy.K) : ∃ p ip, ((exec 1 (fun _ => Proc.start 2) ((List.replicate 17 [0, 1]).flatten)).2 1).result Toy.ris [1, 2] false coins = .ok p ∧
    Honest Toy.ris p.V.length [1, 2] coins p ip := by
  obtain ⟨p, -, h1, -⟩ := case_two 1 coins
  have hr : ((exec 1 (fun _ => Proc.start 2) ((List.replicate 17 [0, 1]).flatten)).2 1).result Toy.ris [1, 2] false coins = .ok p :=
    (C70_uniform Toy.ris 1 (by norm_num) 1 _ [1, 2] false coins rfl 1 (by decide +kernel)).trans h1
  obtain ⟨-, ip, hon⟩ := C101_interleaved Toy.ris 1 (fun _ => Proc.start 2) ((List.replicate 17 [0, 1]).flatten) 1 [1, 2] coins _ rfl (by decide +kernel)
    (by decide +kernel) p hr
  exact ⟨p, ip, hr, hon⟩

theorem case_usual : Usual 2 := ⟨by norm_num, by norm_num⟩

/-- C104: a proof with half of the blinding factors, reached. -/
theorem case_disturbed (coins : Coins Toy.K) (M0 : Nat) : ∃ (p : Proof Toy.K Toy.K) (ip : IP.Proof Toy.K Toy.K) (v' : Nat → List Toy.K) (sched : List (Option Nat)),
    (((Calls.mk M0 (withProves Toy.ris (proveP Toy.ris [1, 2] false coins) v' coins)).exec sched).prog none).result = some (.ok p) ∧
      Disturbed Toy.ris 2 [1, 2] (cut coins 64) (fun i => i < 64) p ip := by
  obtain ⟨p, ip, v', sched, -, h1, h2⟩ := C104_reached Toy.ris Toy.dv_ne_zero [1, 2] (by simp) coins (m := 2) (m1 := 2) (k := 1) case_usual (by decide) rfl (by norm_num) 64
    le_rfl (by norm_num) (fun i => i < 64) (by simp) M0
  exact ⟨p, ip, v', sched, h1, h2⟩

example (coins : Coins Toy.K) (c : Toy.K) : ∃ (p : Proof Toy.K Toy.K), Out Usual (proveP Toy.ris [1, 2] false coins) (.ok p) ∧
    verify Toy.ris p.V.length p c =
      if (excess Toy.ris (chalOf Toy.ris p).z [1, 2] + lackB Toy.ris p.V.length [1, 2] (fun i => i < 64) (chalOf Toy.ris p).z) • (pub Toy.ris (64 * p.V.length)).B +
        c • lackH Toy.ris p.V.length (fun i => i < 64) (chalOf Toy.ris p).y (chalOf Toy.ris p).z = 0 then .ok true
      else .err "megacheck failed" := by
  obtain ⟨p, ip, -, -, -, h⟩ := case_disturbed coins 1
  have hV : p.V.length = 2 := by rw [h.V]; simp
  obtain ⟨n1, n2, n3⟩ := chalOf_ne Toy.ris Toy.dv_ne_zero p
  refine ⟨p, (C104_returned Toy.ris [1, 2] coins p (by rw [hV]; norm_num)).2 ⟨by simp, ⟨2, case_usual, by rw [hV]; decide⟩, ⟨1, hV⟩, n1, n2, n3,
    64, _, ip, le_rfl, by rw [hV]; norm_num, ?_, by rw [hV]; exact h⟩, ?_⟩
  · simp
  · exact C104_verify Toy.ris [1, 2] (cut coins 64) p (by rw [hV]; norm_num) (k := 1) hV (by rw [hV]; rfl) n2 _ ip (by rw [hV]; exact h)
      (challenges_ne Toy.ris Toy.dv_ne_zero _ _) c

/-- A call that is given enough steps ends. -/
theorem case_ends {ι : Type} [DecidableEq ι] {τ : ι → Type} (i : ι) : ∀ (q : Prog (τ i)) (s : Calls ι τ), s.prog i = q →
    ∃ n r, ((s.exec (List.replicate n i)).prog i).result = some r
  | .done r, s, h => ⟨0, r, by show (s.prog i).result = _; rw [h]; rfl⟩
  | .read k, s, h => by
    obtain ⟨n, r, hr⟩ := case_ends i (k s.M) (s.step i) (by rw [Calls.step_self, h]; rfl)
    exact ⟨n + 1, r, hr⟩
  | .write m p, s, h => by
    obtain ⟨n, r, hr⟩ := case_ends i p (s.step i) (by rw [Calls.step_self, h]; rfl)
    exact ⟨n + 1, r, hr⟩

theorem case_two_of (coins : Coins Toy.K) (r : Res (Proof Toy.K Toy.K)) (h : prove Toy.ris (2 ^ 1) [1, 2] false coins = (2 ^ 1, r)) :
    ∃ p, r = .ok p ∧ p.V.length = 2 := by
  obtain ⟨p, ip, h1, -, -, -, -, -, h2⟩ := case_two (2 ^ 1) coins
  rw [h] at h1
  exact ⟨p, h1, h2⟩

/-- C104: one of many calls of `Prove` on the same values, among calls of `Verify`. -/
example (coins : Coins Toy.K) (p : Nat → Proof Toy.K Toy.K) (c : Nat → Toy.K) (i : Nat) : ∃ (sched : List (Nat ⊕ Nat)) (q : Proof Toy.K Toy.K) (n : Nat)
      (W : Nat → Bool) (ip : IP.Proof Toy.K Toy.K),
    (((Calls.mk (2 ^ 1) (mixed Toy.ris (fun _ : Nat => [1, 2]) (fun _ => false) (fun _ => coins) p c)).exec sched).prog (.inl i)).result = some (.ok q) ∧
    Disturbed Toy.ris q.V.length [1, 2] (cut coins n) W q ip := by
  have hc := C102_concurrent Toy.ris (k := 1) (by norm_num) (fun _ : Nat => [(1 : Toy.K), 2]) (fun _ => false) (fun _ => coins) p c (fun _ => rfl)
  obtain ⟨n, r, hr⟩ := case_ends (.inl i) _ (Calls.mk (2 ^ 1) (mixed Toy.ris (fun _ : Nat => [(1 : Toy.K), 2]) (fun _ => false) (fun _ => coins) p c)) rfl
  obtain ⟨q, rfl, hq⟩ := case_two_of coins r ((hc _).2.1 i r hr)
  obtain ⟨n', W, ip, -, -, -, h⟩ := C104_interleaved Toy.ris (2 ^ 1) (fun _ : Nat => [(1 : Toy.K), 2]) (fun _ => false) (fun _ => coins) p c (List.replicate n (.inl i))
    (fun pre _ => by rw [(hc pre).1]; exact case_usual) i rfl q (by rw [hq]; norm_num) hr
  exact ⟨_, q, n', W, ip, hr, h⟩

/-- C106: one of many calls of `Verify`, among calls of `Prove`. -/
example (coins : Coins Toy.K) (p : Nat → Proof Toy.K Toy.K) (c : Nat → Toy.K) (j : Nat) : ∃ (sched : List (Nat ⊕ Nat)) (r : Res Bool),
    (((Calls.mk (2 ^ 1) (mixed Toy.ris (fun _ : Nat => [1, 2]) (fun _ => false) (fun _ => coins) p c)).exec sched).prog (.inr j)).result = some r ∧
    Out Usual (verifyP Toy.ris (p j) (c j)) r := by
  have hc := C102_concurrent Toy.ris (k := 1) (by norm_num) (fun _ : Nat => [(1 : Toy.K), 2]) (fun _ => false) (fun _ => coins) p c (fun _ => rfl)
  obtain ⟨n, r, hr⟩ := case_ends (.inr j) _ (Calls.mk (2 ^ 1) (mixed Toy.ris (fun _ : Nat => [(1 : Toy.K), 2]) (fun _ => false) (fun _ => coins) p c)) rfl
  exact ⟨_, r, hr, C106_interleaved Toy.ris (2 ^ 1) (fun _ : Nat => [(1 : Toy.K), 2]) (fun _ => false) (fun _ => coins) p c (List.replicate n (.inr j))
    (fun pre _ => by rw [(hc pre).1]; exact case_usual) j r hr⟩

/-- C106: the outcomes are reached. -/
example (p : Proof Toy.K Toy.K) (c : Toy.K) (coins : Coins Toy.K) (M0 : Nat) : ∃ (v : Nat → List Toy.K) (sched : List (Option Nat)),
    (((Calls.mk M0 (withProves Toy.ris (verifyP Toy.ris p c) v coins)).exec sched).prog none).result = some (verify Toy.ris 2 p c) := by
  have hc := C102_concurrent Toy.ris (k := 1) (by norm_num) (fun _ : Nat => [(1 : Toy.K), 2]) (fun _ => false) (fun _ => coins) (fun _ : Nat => p) (fun _ => c) (fun _ => rfl)
  obtain ⟨n, r, hr⟩ := case_ends (.inr 0) _ (Calls.mk (2 ^ 1) (mixed Toy.ris (fun _ : Nat => [(1 : Toy.K), 2]) (fun _ => false) (fun _ => coins) (fun _ : Nat => p) (fun _ => c))) rfl
  have ho := C106_interleaved Toy.ris (2 ^ 1) (fun _ : Nat => [(1 : Toy.K), 2]) (fun _ => false) (fun _ => coins) (fun _ : Nat => p) (fun _ => c) (List.replicate n (.inr 0))
    (fun pre _ => by rw [(hc pre).1]; exact case_usual) 0 r hr
  obtain ⟨v, sched, -, h⟩ := C106_reached Toy.ris p c r ho coins M0
  exact ⟨v, sched, by rw [h, ← (hc _).2.2 0 r hr]; rfl⟩

end Dusk.RP
