import Verif.Lemmas.IPCausal
import Verif.Spec.RandomHash
import Verif.Props.RangeProof
import Verif.Props.InnerProduct
import Verif.Props.RPFiatShamir
import Mathlib.Data.Nat.Log
import Mathlib.FieldTheory.Finite.Basic
/-!
# C147: how often honest proofs fail

C53 and C60 say that honest proofs are accepted unless certain challenges are zero. Here the hash function is chosen at random, and
we count for how many hash functions the proofs fail.
-/

set_option linter.unusedSectionVars false

namespace Dusk

open Mlsag (withHash)
open RandomHash (on on_mem)

variable {F G : Type} [Field F] [AddCommGroup G] [Module F G] [DecidableEq F] [DecidableEq G]

namespace IP

/-- C147: an inner product proof for vectors of length `2^k` made by `Generate` is accepted by `Verify` for the point it was made for,
except for at most `k` out of `|F|` hash functions. -/
theorem C147_innerproduct [Fintype F] (R : Ristretto F G) (E : R.Encodings) (Q : G) (k : Nat) (hk : k < 32) (a b hpf : List F) (Gv Hv : List G)
    (ha : a.length = 2 ^ k) (hb : b.length = 2 ^ k) (hg : Gv.length = 2 ^ k) (hh : Hv.length = 2 ^ k) (hf : 2 ^ k ≤ hpf.length)
    (W : Finset Bytes) (hW : ∀ x : Bytes, x.length ≤ 64 * k → x ∈ W) (d : Bytes → F) :
    Fintype.card F * Nat.card {h : W → F // ¬ ∃ p, generate (withHash R (on W d h)) Gv Hv a b hpf Q = .ok p ∧
      verify (withHash R (on W d h)) p Gv Hv hpf Q (commitPoint Gv Hv hpf Q a b) (2 ^ k) = .ok true} ≤
    k * Fintype.card (W → F) := by
  have key := fun h : W → F => C53_completeness (withHash R (on W d h)) Q k hk a b hpf Gv Hv ha hb hg hh hf
  choose p hp hL hR hver using key
  have mem : ∀ h i, asked R (p h) i ∈ W := fun h i => hW _ (by have := asked_length E (p h) i; rw [hL] at this; exact this)
  have := RandomHash.card_zero (F := F) (W := W) (fun h i => ⟨asked R (p h) i, mem h i⟩) (by
    intro h h' i hj
    refine Subtype.ext (generate_causal R _ _ (hp h) (hp h') i fun j hji => ?_)
    rw [on_mem d h (mem h j), on_mem d h' (mem h j)]
    exact hj j hji) k
  refine le_trans (Nat.mul_le_mul_left _ ?_) this
  refine Nat.card_le_card_of_injective (fun x => ⟨x.1, ?_⟩) fun x y e => ?_
  · by_contra hc
    push Not at hc
    refine x.2 ⟨p x.1, hp x.1, ?_⟩
    rw [hver x.1 ?_ _ _ le_rfl, decide_eq_true rfl]
    intro u hu
    rw [challenges_asked, List.mem_map] at hu
    obtain ⟨j, hj, rfl⟩ := hu
    rw [List.mem_range, List.length_zip, hL, hR, min_self] at hj
    have := hc j hj
    rw [← on_mem d x.1 (mem x.1 j)] at this
    exact this
  · simp only [Subtype.mk.injEq] at e
    exact Subtype.ext e

/-- A concrete case: vectors of length 4, so 2 out of `ℓ` hash functions at most. -/
example [NeZero PrimeEll.ell] (x y : Toy.K) (P Q : Toy.K) : ∃ W : Finset Bytes, (∀ x, x ∈ W ↔ x.length ≤ 128) ∧
    Fintype.card Toy.K * Nat.card {h : W → Toy.K // ¬ ∃ p,
        generate (withHash Toy.ris (on W (fun _ => 0) h)) [P, Q, P, Q] [Q, P, P, Q] [x, y, x, 1] [y, 0, y, x] [1, 1, 1, 1] P = .ok p ∧
        verify (withHash Toy.ris (on W (fun _ => 0) h)) p [P, Q, P, Q] [Q, P, P, Q] [1, 1, 1, 1] P
          (commitPoint [P, Q, P, Q] [Q, P, P, Q] [1, 1, 1, 1] P [x, y, x, 1] [y, 0, y, x]) (2 ^ 2) = .ok true} ≤
      2 * Fintype.card (W → Toy.K) := by
  obtain ⟨W, hW⟩ := RandomHash.exists_short 128
  exact ⟨W, hW, C147_innerproduct Toy.ris Toy.ris_encodings P 2 (by norm_num) _ _ _ _ _ rfl rfl rfl rfl le_rfl W (fun x hx => (hW x).2 hx) _⟩

end IP

namespace RP

/-- What `Prove` hashes: for `y`, `z`, `x`, `w`, and then for the challenges of the inner product proof. -/
def asks (R : Ristretto F G) (p : Proof F G) (ip : IP.Proof F G) : Nat → Bytes
  | 0 => (p.V.flatMap fun V => R.pBytes V.value) ++ R.pBytes p.A ++ R.pBytes p.S
  | 1 => R.sBytes (chalOf R p).y
  | 2 => (p.V.flatMap fun V => R.pBytes V.value) ++ R.pBytes p.A ++ R.pBytes p.S ++ R.sBytes (chalOf R p).z ++
      R.pBytes p.T1 ++ R.pBytes p.T2
  | 3 => (p.V.flatMap fun V => R.pBytes V.value) ++ R.pBytes p.A ++ R.pBytes p.S ++ R.sBytes (chalOf R p).z ++
      R.pBytes p.T1 ++ R.pBytes p.T2 ++ R.sBytes (chalOf R p).x ++ R.sBytes p.taux ++ R.sBytes p.mu ++ R.sBytes p.t
  | j + 4 => IP.asked R ip j

/-- The prover's questions depend on the earlier answers only. -/
theorem asks_causal (R : Ristretto F G) (h h' : Bytes → F) {m : Nat} {v : List F} {coins : Coins F} {p p' : Proof F G}
    {ip ip' : IP.Proof F G} (H : Honest (withHash R h) m v coins p ip) (H' : Honest (withHash R h') m v coins p' ip') (i : Nat)
    (hj : ∀ j, j < i → h (asks (withHash R h) p ip j) = h' (asks (withHash R h) p ip j)) :
    asks (withHash R h) p ip i = asks (withHash R h') p' ip' i := by
  have eV : p.V = p'.V := by rw [H.V, H'.V]; rfl
  have eA : p.A = p'.A := by rw [H.A, H'.A, pub_withHash, pub_withHash]; rfl
  have eS : p.S = p'.S := by rw [H.S, H'.S, pub_withHash, pub_withHash]
  have q0 : asks (withHash R h) p ip 0 = asks (withHash R h') p' ip' 0 := by simp only [asks, eV, eA, eS]; rfl
  rcases i with _ | i
  · exact q0
  have ey : (chalOf (withHash R h) p).y = (chalOf (withHash R h') p').y := by
    have := hj 0 (by omega)
    rw [show (chalOf (withHash R h) p).y = h (asks (withHash R h) p ip 0) from rfl, this, q0]
    rfl
  have q1 : asks (withHash R h) p ip 1 = asks (withHash R h') p' ip' 1 := by simp only [asks, ey]; rfl
  rcases i with _ | i
  · exact q1
  have ez : (chalOf (withHash R h) p).z = (chalOf (withHash R h') p').z := by
    have := hj 1 (by omega)
    rw [show (chalOf (withHash R h) p).z = h (asks (withHash R h) p ip 1) from rfl, this, q1]
    rfl
  have e1 : p.T1 = p'.T1 := by rw [H.T1, H'.T1, ey, ez]; rfl
  have e2 : p.T2 = p'.T2 := by rw [H.T2, H'.T2, ey]; rfl
  have q2 : asks (withHash R h) p ip 2 = asks (withHash R h') p' ip' 2 := by simp only [asks, eV, eA, eS, ez, e1, e2]; rfl
  rcases i with _ | i
  · exact q2
  have ex : (chalOf (withHash R h) p).x = (chalOf (withHash R h') p').x := by
    have := hj 2 (by omega)
    rw [show (chalOf (withHash R h) p).x = h (asks (withHash R h) p ip 2) from rfl, this, q2]
    rfl
  have e3 : p.taux = p'.taux := by rw [H.taux, H'.taux, ex, ez]
  have e4 : p.mu = p'.mu := by rw [H.mu, H'.mu, ex]
  have e5 : p.t = p'.t := by rw [H.t, H'.t, ex, ez, ey]; rfl
  have q3 : asks (withHash R h) p ip 3 = asks (withHash R h') p' ip' 3 := by
    simp only [asks, eV, eA, eS, ez, e1, e2, ex, e3, e4, e5]; rfl
  rcases i with _ | i
  · exact q3
  have ew : (chalOf (withHash R h) p).w = (chalOf (withHash R h') p').w := by
    have := hj 3 (by omega)
    rw [show (chalOf (withHash R h) p).w = h (asks (withHash R h) p ip 3) from rfl, this, q3]
    rfl
  have g := H.gen
  have g' := H'.gen
  rw [ey, ez, ex, ew, pub_withHash] at g
  rw [pub_withHash] at g'
  exact IP.generate_causal R h h' g g' i fun j hji => hj (j + 4) (by omega)

theorem asks_length {R : Ristretto F G} (E : R.Encodings) (p : Proof F G) (ip : IP.Proof F G) {m : Nat} (hV : p.V.length = m)
    (i : Nat) : (asks R p ip i).length ≤ max (32 * (m + 9)) (64 * ip.L.length) := by
  have hfl : (p.V.flatMap fun V => R.pBytes V.value).length = 32 * m := by
    rw [List.length_flatMap, List.map_congr_left (g := fun _ => 32) (fun x _ => E.pBytes_length _)]
    simp [hV, mul_comm]
  rcases i with _ | _ | _ | _ | i
  · simp only [asks, List.length_append, hfl, E.pBytes_length]; omega
  · simp only [asks, E.sBytes_length]; omega
  · simp only [asks, List.length_append, hfl, E.pBytes_length, E.sBytes_length]; omega
  · simp only [asks, List.length_append, hfl, E.pBytes_length, E.sBytes_length]; omega
  · exact (IP.asked_length E ip i).trans (le_max_right _ _)

theorem withHash_encodings {R : Ristretto F G} (E : R.Encodings) (h : Bytes → F) : (withHash R h).Encodings :=
  ⟨E.sBytes_length, E.sOfBytes_sBytes, E.pBytes_length, E.pOfBytes_pBytes⟩

/-- The runs of `Prove` under all hash functions. -/
theorem runs (R : Ristretto F G) (E : R.Encodings) (m0 : Nat) (v : List F) (coins : Coins F) (h1 : 1 ≤ v.length) (h2 : v.length ≤ 16)
    (h : Bytes → F) : ∃ p ip,
      Honest (withHash R h) (2 ^ Nat.clog 2 v.length) v coins p ip ∧ ip.L.length = Nat.clog 2 v.length + 6 ∧
      ip.R.length = Nat.clog 2 v.length + 6 ∧ (∀ i, (asks (withHash R h) p ip i).length ≤ 800) ∧
      (if h (asks (withHash R h) p ip 2) = 0 ∨ h (asks (withHash R h) p ip 0) = 0 ∨ h (asks (withHash R h) p ip 1) = 0 then
        (prove (withHash R h) m0 v false coins).2.IsErr else (prove (withHash R h) m0 v false coins).2 = .ok p) ∧
      ((∀ i, i < Nat.clog 2 v.length + 10 → h (asks (withHash R h) p ip i) ≠ 0) →
        (prove (withHash R h) m0 v false coins).2 = .ok p ∧
          ∀ c, verify (withHash R h) (prove (withHash R h) m0 v false coins).1 p c =
            if excess R (h (asks (withHash R h) p ip 1)) v • R.pDerive (strBytes "blindPoint") = 0 then .ok true
            else .err "megacheck failed") := by
  obtain ⟨k, p, ip, hk4, hle, hmin, hon, hL, hR, hM, hif, hver⟩ := prove_spec (withHash R h) m0 v false coins h1 h2
  have hk : Nat.clog 2 v.length = k := by
    apply le_antisymm
    · exact (Nat.clog_le_iff_le_pow (by norm_num)).2 hle
    · exact hmin _ (Nat.le_pow_clog (by norm_num) _)
  rw [hk]
  have hVl : p.V.length = 2 ^ k := by rw [hon.V]; simp
  have hpow : 2 ^ k ≤ 2 ^ 4 := Nat.pow_le_pow_right (by norm_num) hk4
  have hif' : if h (asks (withHash R h) p ip 2) = 0 ∨ h (asks (withHash R h) p ip 0) = 0 ∨ h (asks (withHash R h) p ip 1) = 0 then
      (prove (withHash R h) m0 v false coins).2.IsErr else (prove (withHash R h) m0 v false coins).2 = .ok p := by
    have e2 : h (asks (withHash R h) p ip 2) = (chalOf (withHash R h) p).x := rfl
    have e0 : h (asks (withHash R h) p ip 0) = (chalOf (withHash R h) p).y := rfl
    have e1 : h (asks (withHash R h) p ip 1) = (chalOf (withHash R h) p).z := rfl
    simpa [e0, e1, e2] using hif
  refine ⟨p, ip, hon, hL, hR, fun i => ?_, hif', fun hnz => ?_⟩
  · refine (asks_length (withHash_encodings E h) p ip hVl i).trans ?_
    rw [hL]
    refine max_le ?_ ?_
    · norm_num at hpow; omega
    · omega
  · have n0 := hnz 0 (by omega)
    have n1 := hnz 1 (by omega)
    have n2 := hnz 2 (by omega)
    rw [if_neg (by simp [n0, n1, n2])] at hif'
    refine ⟨hif', fun c => ?_⟩
    rw [hM, hver ?_ n0 c]
    · rfl
    intro u hu
    rw [IP.challenges_asked, List.mem_map] at hu
    obtain ⟨j, hj, rfl⟩ := hu
    rw [List.mem_range, List.length_zip, hL, hR, min_self] at hj
    exact hnz (j + 4) (by omega)

/-- C147: `Prove`, called with 1 to 16 values below `2^64`, returns a proof, and `Verify` accepts it, except for at most
`10 + ⌈log2 (number of values)⌉` out of `|F|` hash functions. -/
theorem C147_rangeproof [Fintype F] (R : Ristretto F G) (E : R.Encodings) (m0 : Nat) (v : List F) (coins : Coins F)
    (h1 : 1 ≤ v.length) (h2 : v.length ≤ 16) (hv : ∀ a ∈ v, R.sNat a < 2 ^ 64)
    (W : Finset Bytes) (hW : ∀ x : Bytes, x.length ≤ 800 → x ∈ W) (d : Bytes → F) :
    Fintype.card F * Nat.card {h : W → F // ¬ ∃ p, (prove (withHash R (on W d h)) m0 v false coins).2 = .ok p ∧
      ∀ c, verify (withHash R (on W d h)) (prove (withHash R (on W d h)) m0 v false coins).1 p c = .ok true} ≤
    (Nat.clog 2 v.length + 10) * Fintype.card (W → F) := by
  have key := fun h : W → F => runs R E m0 v coins h1 h2 (on W d h)
  choose p ip hon hL hR hlen hif hver using key
  have mem : ∀ h i, asks (withHash R (on W d h)) (p h) (ip h) i ∈ W := fun h i => hW _ (hlen h i)
  have := RandomHash.card_zero (F := F) (W := W) (fun h i => ⟨_, mem h i⟩) (by
    intro h h' i hj
    refine Subtype.ext (asks_causal R _ _ (hon h) (hon h') i fun j hji => ?_)
    rw [on_mem d h (mem h j), on_mem d h' (mem h j)]
    exact hj j hji) (Nat.clog 2 v.length + 10)
  refine le_trans (Nat.mul_le_mul_left _ ?_) this
  refine Nat.card_le_card_of_injective (fun x => ⟨x.1, ?_⟩) fun x y e => ?_
  · by_contra hc
    push Not at hc
    obtain ⟨g1, g2⟩ := hver x.1 fun i hi => by
      rw [on_mem d x.1 (mem x.1 i)]
      exact hc i hi
    refine x.2 ⟨p x.1, g1, fun c => ?_⟩
    rw [g2, excess_zero R _ hv, zero_smul, if_pos rfl]
  · simp only [Subtype.mk.injEq] at e
    exact Subtype.ext e

/-- C147: if one of the values is `2^64` or more, the proof which `Prove` returns is accepted for at most `9 + n + ⌈log2 n⌉` out of `|F|`
hash functions. -/
theorem C147_out_of_range [Fintype F] (R : Ristretto F G) (E : R.Encodings) (hB : R.pDerive (strBytes "blindPoint") ≠ 0) (m0 : Nat)
    (v : List F) (coins : Coins F) (h1 : 1 ≤ v.length) (h2 : v.length ≤ 16) (hv : ∃ a ∈ v, 2 ^ 64 ≤ R.sNat a)
    (W : Finset Bytes) (hW : ∀ x : Bytes, x.length ≤ 800 → x ∈ W) (d : Bytes → F) :
    Fintype.card F * Nat.card {h : W → F // ∃ p c, (prove (withHash R (on W d h)) m0 v false coins).2 = .ok p ∧
      verify (withHash R (on W d h)) (prove (withHash R (on W d h)) m0 v false coins).1 p c = .ok true} ≤
    (v.length + Nat.clog 2 v.length + 9) * Fintype.card (W → F) := by
  classical
  have key := fun h : W → F => runs R E m0 v coins h1 h2 (on W d h)
  choose p ip hon hL hR hlen hif hver using key
  have mem : ∀ h i, asks (withHash R (on W d h)) (p h) (ip h) i ∈ W := fun h i => hW _ (hlen h i)
  have hq : ∀ (h h' : W → F) i, (∀ j, j < i → h ⟨_, mem h j⟩ = h' ⟨_, mem h j⟩) →
      (⟨_, mem h i⟩ : W) = ⟨_, mem h' i⟩ := by
    intro h h' i hj
    refine Subtype.ext (asks_causal R _ _ (hon h) (hon h') i fun j hji => ?_)
    rw [on_mem d h (mem h j), on_mem d h' (mem h j)]
    exact hj j hji
  have b1 := RandomHash.card_zero (F := F) (W := W) (fun h i => ⟨_, mem h i⟩) hq (Nat.clog 2 v.length + 10)
  have b2 := RandomHash.card_hit (F := F) (W := W) (fun h i => ⟨_, mem h i⟩) hq 1
    (Finset.univ.filter fun z => z ≠ 0 ∧ excess R z v = 0)
  have hS := C61_few_challenges R v hv (Finset.univ.filter fun z => z ≠ 0 ∧ excess R z v = 0)
    (fun z hz => (Finset.mem_filter.1 hz).2)
  -- the second question is shorter than the first
  have fresh : ∀ h : W → F, ∀ j, j < 1 → (⟨_, mem h j⟩ : W) ≠ ⟨_, mem h 1⟩ := by
    intro h j hj e
    obtain rfl : j = 0 := by omega
    have := congrArg (fun x : W => x.1.length) e
    have E' := withHash_encodings E (on W d h)
    simp only [asks, List.length_append, E'.pBytes_length, E'.sBytes_length] at this
    omega
  have hsplit : Nat.card {h : W → F // ∃ p c, (prove (withHash R (on W d h)) m0 v false coins).2 = .ok p ∧
        verify (withHash R (on W d h)) (prove (withHash R (on W d h)) m0 v false coins).1 p c = .ok true} ≤
      Nat.card {h : W → F // ∃ i, i < Nat.clog 2 v.length + 10 ∧ h ⟨_, mem h i⟩ = 0} +
      Nat.card {h : W → F // h ⟨_, mem h 1⟩ ∈ (Finset.univ.filter fun z => z ≠ 0 ∧ excess R z v = 0) ∧
        ∀ j, j < 1 → (⟨_, mem h j⟩ : W) ≠ ⟨_, mem h 1⟩} := by
    rw [← Nat.card_sum]
    refine Nat.card_le_card_of_injective (fun x =>
      if hz : ∃ i, i < Nat.clog 2 v.length + 10 ∧ x.1 ⟨_, mem x.1 i⟩ = 0 then .inl ⟨x.1, hz⟩ else .inr ⟨x.1, ?_, fresh x.1⟩) ?_
    · obtain ⟨h, p', c, e1, e2⟩ := x
      push Not at hz
      obtain ⟨g1, g2⟩ := hver h fun i hi => by
        rw [on_mem d h (mem h i)]
        exact hz i hi
      rw [g1] at e1
      obtain rfl := Res.ok.inj e1
      rw [g2] at e2
      refine Finset.mem_filter.2 ⟨Finset.mem_univ _, hz 1 (by omega), ?_⟩
      split at e2
      · rename_i h0
        rw [on_mem d h (mem h 1)] at h0
        exact (smul_eq_zero.1 h0).resolve_right hB
      · cases e2
    · intro x y e
      simp only at e
      split at e <;> split at e
      · have e := Sum.inl.inj e
        simp only [Subtype.mk.injEq] at e
        exact Subtype.ext e
      · cases e
      · cases e
      · have e := Sum.inr.inj e
        simp only [Subtype.mk.injEq] at e
        exact Subtype.ext e
  calc _ ≤ Fintype.card F * (_ + _) := Nat.mul_le_mul_left _ hsplit
    _ ≤ (Nat.clog 2 v.length + 10) * Fintype.card (W → F) +
        (Finset.univ.filter fun z => z ≠ 0 ∧ excess R z v = 0).card * Fintype.card (W → F) := by
        rw [mul_add]; exact Nat.add_le_add b1 b2
    _ ≤ _ := by
        rw [← add_mul]
        exact Nat.mul_le_mul_right _ (by omega)

/-- C147: for at least one out of `|F|` hash functions `Prove` returns an error. -/
theorem C147_error [Fintype F] (R : Ristretto F G) (E : R.Encodings) (m0 : Nat) (v : List F) (coins : Coins F)
    (h1 : 1 ≤ v.length) (h2 : v.length ≤ 16)
    (W : Finset Bytes) (hW : ∀ x : Bytes, x.length ≤ 800 → x ∈ W) (d : Bytes → F) :
    Fintype.card (W → F) ≤
      Fintype.card F * Nat.card {h : W → F // (prove (withHash R (on W d h)) m0 v false coins).2.IsErr} := by
  have key := fun h : W → F => runs R E m0 v coins h1 h2 (on W d h)
  choose p ip hon hL hR hlen hif hver using key
  have same : ∀ h h', asks (withHash R (on W d h)) (p h) (ip h) 0 = asks (withHash R (on W d h')) (p h') (ip h') 0 := fun h h' =>
    asks_causal R _ _ (hon h) (hon h') 0 (by simp)
  refine (RandomHash.card_zero_at (F := F) (⟨_, hW _ (hlen (fun _ => 0) 0)⟩ : W)).trans (Nat.mul_le_mul_left _ ?_)
  refine Nat.card_le_card_of_injective (fun x => ⟨x.1, ?_⟩) fun x y e => ?_
  · have := hif x.1
    rwa [if_pos (Or.inr (Or.inl _))] at this
    rw [same x.1 (fun _ => 0), on_mem d x.1 (hW _ (hlen (fun _ => 0) 0))]
    exact x.2
  · simp only [Subtype.mk.injEq] at e
    exact Subtype.ext e

/-- A concrete case: three values, so 12 out of `ℓ` hash functions at most. -/
example [NeZero PrimeEll.ell] (coins : Coins Toy.K) : ∃ W : Finset Bytes, (∀ x, x ∈ W ↔ x.length ≤ 800) ∧
    Fintype.card Toy.K * Nat.card {h : W → Toy.K // ¬ ∃ p, (prove (withHash Toy.ris (on W (fun _ => 0) h)) 1
        [(5 : Nat), (0 : Nat), ((2 ^ 64 - 1 : Nat) : Toy.K)] false coins).2 = .ok p ∧
      ∀ c, verify (withHash Toy.ris (on W (fun _ => 0) h)) (prove (withHash Toy.ris (on W (fun _ => 0) h)) 1
        [(5 : Nat), (0 : Nat), ((2 ^ 64 - 1 : Nat) : Toy.K)] false coins).1 p c = .ok true} ≤ 12 * Fintype.card (W → Toy.K) := by
  obtain ⟨W, hW⟩ := RandomHash.exists_short 800
  refine ⟨W, hW, (C147_rangeproof Toy.ris Toy.ris_encodings 1 [(5 : Nat), (0 : Nat), ((2 ^ 64 - 1 : Nat) : Toy.K)] coins (by simp) (by simp) ?_ W
    (fun x hx => (hW x).2 hx) _).trans_eq ?_⟩
  · intro a ha
    simp only [List.mem_cons, List.not_mem_nil, or_false] at ha
    rcases ha with rfl | rfl | rfl
    · rw [toy_sNat _ (by norm_num)]; norm_num
    · rw [toy_sNat _ (by norm_num)]; norm_num
    · rw [toy_sNat _ (by norm_num)]; norm_num
  · have : Nat.clog 2 3 = 2 := by decide
    simp only [List.length_cons, List.length_nil]
    rw [this]

/-- A concrete case: the value `2^64` after the value 5. -/
example [NeZero PrimeEll.ell] (coins : Coins Toy.K) (W : Finset Bytes) (hW : ∀ x : Bytes, x.length ≤ 800 → x ∈ W) :=
  C147_out_of_range Toy.ris Toy.ris_encodings (Toy.dv_ne_zero _) 1 [((5 : Nat) : Toy.K), ((2 ^ 64 : Nat) : Toy.K)] coins (by simp) (by simp)
    ⟨_, List.mem_cons_of_mem _ (List.mem_singleton_self _), by rw [Toy.ris.sNat_cast Toy.ris.two64_lt]⟩ W hW (fun _ => 0)

/-- A concrete case: some hash function makes `Prove` fail for the value 5. -/
example [NeZero PrimeEll.ell] (coins : Coins Toy.K) :
    ∃ h : Bytes → Toy.K, (prove (withHash Toy.ris h) 1 [((5 : Nat) : Toy.K)] false coins).2.IsErr := by
  obtain ⟨W, hW⟩ := RandomHash.exists_short 800
  have := C147_error Toy.ris Toy.ris_encodings 1 [((5 : Nat) : Toy.K)] coins (by simp) (by simp) W (fun x hx => (hW x).2 hx) (fun _ => 0)
  have hpos : 0 < Fintype.card (W → Toy.K) := Fintype.card_pos
  have hne : Nat.card {h : W → Toy.K // (prove (withHash Toy.ris (on W (fun _ => 0) h)) 1 [((5 : Nat) : Toy.K)] false coins).2.IsErr} ≠ 0 := by
    intro h0
    rw [h0] at this
    omega
  obtain ⟨⟨h, hh⟩⟩ := (Nat.card_ne_zero.1 hne).1
  exact ⟨_, hh⟩

end RP

end Dusk
