import Verif.Props.RangeProof
import Verif.Model.RPConc
/-!
# Properties of the range proof: state, coin, extra commitments, concurrency (C62, C63, C64, C70)
-/

set_option linter.unusedSectionVars false

namespace Dusk.RP

variable {F G : Type} [Field F] [AddCommGroup G] [Module F G] [DecidableEq F] [DecidableEq G]

/-! ## C63 -/

/-- C63: on a proof with `k` rounds, `2^k = 64 M`, and at least `M` commitments, `Verify` with coin `c` accepts iff
`R1 + c R2 = 0`, and returns an error otherwise. -/
theorem C63_equation (R : Ristretto F G) (m k : Nat) (p : Proof F G) (ip : IP.Proof F G) (c : F) (hip : p.ip = some ip)
    (hk : k < 32) (hm : 2 ^ k = 64 * m) (hL : ip.L.length = k) (hR : ip.R.length = k) (hV : m ≤ p.V.length) :
    verify R m p c =
      if residue1 (pub R (64 * m)) m (chalOf R p) p +
        c • residue2 (pub R (64 * m)) m (chalOf R p) (IP.challenges R ip.L ip.R) p ip = 0 then .ok true
      else .err "megacheck failed" := by
  have hc : (IP.chals R ip).length = k := by simp [IP.chals, IP.chalLoop_length, hL, hR]
  rw [verify_eq R c p ip hip hk hm hL hR hV, ← residue2_eq _ _ _ _ _ _ (by rw [hc]; exact hm) (by simp [pub]) (by simp [pub]),
    IP.chals_eq]

/-- C63: if both residues vanish every coin accepts; otherwise at most one does. -/
theorem C63_coin (R : Ristretto F G) (m k : Nat) (p : Proof F G) (ip : IP.Proof F G) (hip : p.ip = some ip)
    (hk : k < 32) (hm : 2 ^ k = 64 * m) (hL : ip.L.length = k) (hR : ip.R.length = k) (hV : m ≤ p.V.length) :
    ((residue1 (pub R (64 * m)) m (chalOf R p) p = 0 ∧
        residue2 (pub R (64 * m)) m (chalOf R p) (IP.challenges R ip.L ip.R) p ip = 0) ↔
      ∀ c, verify R m p c = .ok true) ∧
    (¬ (residue1 (pub R (64 * m)) m (chalOf R p) p = 0 ∧
        residue2 (pub R (64 * m)) m (chalOf R p) (IP.challenges R ip.L ip.R) p ip = 0) →
      ∀ c c', verify R m p c = .ok true → verify R m p c' = .ok true → c = c') := by
  have hv := fun c => C63_equation R m k p ip c hip hk hm hL hR hV
  generalize residue1 (pub R (64 * m)) m (chalOf R p) p = R1 at *
  generalize residue2 (pub R (64 * m)) m (chalOf R p) (IP.challenges R ip.L ip.R) p ip = R2 at *
  have hacc : ∀ c, verify R m p c = .ok true ↔ R1 + c • R2 = 0 := by
    intro c
    rw [hv c]
    split
    · simp [*]
    · simp [*]
  constructor
  · constructor
    · rintro ⟨h1, h2⟩ c
      rw [hacc, h1, h2]; simp
    · intro h
      have h0 := (hacc 0).1 (h 0)
      have h1 := (hacc 1).1 (h 1)
      simp only [zero_smul, add_zero] at h0
      rw [h0] at h1
      simp only [one_smul, zero_add] at h1
      exact ⟨h0, h1⟩
  · intro hne c c' h h'
    rw [hacc] at h h'
    have : (c - c') • R2 = 0 := by
      rw [sub_smul, sub_eq_zero]
      exact add_left_cancel (h.trans h'.symm)
    rcases smul_eq_zero.1 this with h0 | h0
    · exact sub_eq_zero.1 h0
    · rw [h0] at h
      simp only [smul_zero, add_zero] at h
      exact absurd ⟨h, h0⟩ hne

/-- The dimensions are those of the proofs made by `Prove`, for example for two values. -/
example (coins : Coins Toy.K) : ∃ p ip, (prove Toy.ris 1 [1, 2] false coins).2 = .ok p ∧ p.ip = some ip ∧ 7 < 32 ∧
    2 ^ 7 = 64 * 2 ∧ ip.L.length = 7 ∧ ip.R.length = 7 ∧ 2 ≤ p.V.length := by
  obtain ⟨k, p, ip, h1, h2, -, hon, h3, h4, hif⟩ := C68_prove Toy.ris 1 [1, 2] false coins (by simp) (by simp)
  have hk : k = 1 := by
    have := h2 1 (by simp)
    have hk0 : k ≠ 0 := by rintro rfl; simp at h1
    omega
  subst hk
  obtain ⟨n1, n2, n3⟩ := chalOf_ne Toy.ris Toy.dv_ne_zero p
  rw [if_neg (by simp [n1, n2, n3])] at hif
  refine ⟨p, ip, hif, hon.hasIp, by norm_num, by norm_num, h3, h4, ?_⟩
  rw [hon.V]; simp

/-! ## C62 -/

/-- The value of `M` after a history of `Prove` calls in a fresh process (`M` starts at 1, rangeproof/rangeproof.go:23). -/
def stateAfter (R : Ristretto F G) (hist : List (List F × Bool × Coins F)) : Nat :=
  hist.foldl (fun m c => (prove R m c.1 c.2.1 c.2.2).1) 1

/-- C62: what the history contributes: the last call with at least one value decides, even if it failed. -/
theorem C62_state (R : Ristretto F G) (hist : List (List F × Bool × Coins F)) (v : List F) (debug : Bool)
    (coins : Coins F) :
    (v = [] → stateAfter R (hist ++ [(v, debug, coins)]) = stateAfter R hist) ∧
    (16 < v.length → stateAfter R (hist ++ [(v, debug, coins)]) = v.length) ∧
    (1 ≤ v.length → v.length ≤ 16 → ∃ k, stateAfter R (hist ++ [(v, debug, coins)]) = 2 ^ k ∧ v.length ≤ 2 ^ k ∧
      ∀ j, v.length ≤ 2 ^ j → k ≤ j) := by
  unfold stateAfter
  rw [List.foldl_append]
  simp only [List.foldl_cons, List.foldl_nil]
  refine ⟨?_, ?_, ?_⟩
  · rintro rfl
    exact (C68_empty R _ debug coins).1
  · intro h
    exact (C68_many R _ v debug coins h).1
  · intro h1 h2
    obtain ⟨k, p, ip, a, b, c, -⟩ := C68_prove R (hist.foldl (fun m c => (prove R m c.1 c.2.1 c.2.2).1) 1) v debug coins h1 h2
    exact ⟨k, c, a, b⟩

/-- With a value of `M` that does not fit the number of rounds, `Verify` returns an error. -/
theorem verify_wrong (R : Ristretto F G) (m k : Nat) (p : Proof F G) (ip : IP.Proof F G) (c : F) (hip : p.ip = some ip)
    (hk : k < 32) (hL : ip.L.length = k) (hR : ip.R.length = k) (hm : 64 * m % 2 ^ 32 ≠ 2 ^ k) :
    (verify R m p c).IsErr := by
  have hc : (IP.chals R ip).length = k := by simp [IP.chals, IP.chalLoop_length, hL, hR]
  unfold verify verifyWith megacheckWithC
  rw [hip]
  dsimp only
  rw [IP.verifScalars_eq R ip (by rw [hL, hR]) (by rw [hL]; exact hk), Res.bind_ok]
  dsimp only
  unfold newPed
  rw [compute_new]
  dsimp only
  have : Vec.exp (Vec.mulScalar (Vec.addScalar (Vec.mulScalar (IP.sVec (IP.chals R ip)) ip.A)
      (verifyChallenges R p).2.1) c) (chain R genData (nBits * (VReads.const m).base % 2 ^ 32))
      (chain R genData (nBits * (VReads.const m).base % 2 ^ 32)).length 1 =
      .err "length of slice of scalars a does not equal length of slices of points b" := by
    unfold Vec.exp
    rw [if_pos]
    simp only [Vec.mulScalar, Vec.addScalar, List.length_map, IP.sVec_length, hc, chain_length]
    exact fun h => hm h.symm
  rw [this]
  simp

/-- C62 (violated): a valid proof is accepted with the state left by its `Prove`, and rejected with an error in every
state whose `M` differs (`M < 2^26`). -/
theorem C62_violated (R : Ristretto F G) (m0 : Nat) (v : List F) (coins : Coins F) (p : Proof F G) (ip : IP.Proof F G)
    (hv : ∀ a ∈ v, R.sNat a < 2 ^ 64)
    (h : (prove R m0 v false coins).2 = .ok p) (hip : p.ip = some ip) (hu : ∀ u ∈ IP.challenges R ip.L ip.R, u ≠ 0) :
    (∀ c, verify R (prove R m0 v false coins).1 p c = .ok true) ∧
    ∀ m < 2 ^ 26, m ≠ (prove R m0 v false coins).1 → ∀ c, (verify R m p c).IsErr := by
  rcases Nat.lt_or_ge v.length 1 with h0 | h0
  · have : v = [] := List.length_eq_zero_iff.1 (by omega)
    subst this
    obtain ⟨e, he⟩ := (C68_empty R m0 false coins).2
    rw [he] at h; cases h
  rcases Nat.lt_or_ge 16 v.length with h' | h'
  · obtain ⟨e, he⟩ := (C68_many R m0 v false coins h').2
    rw [he] at h; cases h
  obtain ⟨k, p', ip', hk4, -, -, hon, hL, hR, hM, hif, hver⟩ := prove_spec R m0 v false coins h0 h'
  split at hif
  · obtain ⟨e, he⟩ := hif
    rw [he] at h; cases h
  rename_i hc
  rw [hif] at h
  cases h
  have : ip = ip' := by rw [hon.hasIp] at hip; exact (Option.some.inj hip).symm
  subst this
  simp only [not_or] at hc
  refine ⟨fun c => ?_, fun m hm hne c => verify_wrong R m (k + 6) p ip c hip (by omega) hL hR ?_⟩
  · rw [hM, hver hu hc.2.1 c, excess_zero R _ hv, zero_smul, if_pos rfl]
  · rw [hM] at hne
    rw [Nat.mod_eq_of_lt (by omega), pow_add]
    omega

/-- C62: a proof of more than one value is rejected in a fresh process. -/
theorem C62_fresh_violated (R : Ristretto F G) (m0 : Nat) (v : List F) (coins : Coins F) (p : Proof F G) (ip : IP.Proof F G)
    (hv : ∀ a ∈ v, R.sNat a < 2 ^ 64) (h2 : 2 ≤ v.length)
    (h : (prove R m0 v false coins).2 = .ok p) (hip : p.ip = some ip) (hu : ∀ u ∈ IP.challenges R ip.L ip.R, u ≠ 0)
    (c : F) : (verify R (stateAfter R []) p c).IsErr := by
  refine (C62_violated R m0 v coins p ip hv h hip hu).2 1 (by norm_num) ?_ c
  have := C68_commitments R m0 v false coins p h
  omega

/-- A history in the concrete instance: a proof for one value is accepted, then `Prove` is called on two values, then the
same proof is rejected. -/
example (coins : Coins Toy.K) : ∃ p, (prove Toy.ris 1 [5] false coins).2 = .ok p ∧
    (∀ c, verify Toy.ris (stateAfter Toy.ris [([5], false, coins)]) p c = .ok true) ∧
    ∀ c, (verify Toy.ris (stateAfter Toy.ris [([5], false, coins), ([6, 7], false, coins)]) p c).IsErr := by
  have h5 : Toy.ris.sNat (5 : Toy.K) = 5 := by
    have := toy_sNat 5 (by norm_num)
    exact_mod_cast this
  obtain ⟨k, p, ip, g1, g2, hM, hon, hL, hR, hif⟩ := C68_prove Toy.ris 1 [(5 : Toy.K)] false coins (by simp) (by simp)
  obtain ⟨n1, n2, n3⟩ := chalOf_ne Toy.ris Toy.dv_ne_zero p
  rw [if_neg (by simp [n1, n2, n3])] at hif
  have hk : k = 0 := Nat.le_zero.1 (g2 0 (by simp))
  subst hk
  obtain ⟨a1, a2⟩ := C62_violated Toy.ris 1 [(5 : Toy.K)] coins p ip (by simp [h5]) hif hon.hasIp
    (challenges_ne Toy.ris Toy.dv_ne_zero _ _)
  refine ⟨p, hif, a1, fun c => a2 _ ?_ ?_ c⟩
  · obtain ⟨k, e, -, hk⟩ := (C62_state Toy.ris [([(5 : Toy.K)], false, coins)] [6, 7] false coins).2.2 (by simp) (by simp)
    simp only [List.cons_append, List.nil_append] at e
    rw [e]
    exact (Nat.pow_le_pow_right (by norm_num) (hk 4 (by simp))).trans_lt (by norm_num)
  · obtain ⟨k, e, hk, -⟩ := (C62_state Toy.ris [([(5 : Toy.K)], false, coins)] [6, 7] false coins).2.2 (by simp) (by simp)
    simp only [List.cons_append, List.nil_append] at e
    rw [e, hM]
    simp at hk
    omega

/-! ## C64 -/

/-- The attacker: run `Prove` on `v` (a power of two many values), but put arbitrary further commitments into the
transcript and into the proof. -/
def forge (R : Ristretto F G) (v : List F) (ext : List (Commitment F G)) (coins : Coins F) : Res (Proof F G) :=
  let ped := newPed R v.length
  let c := proveCommit R ped v coins
  (proveTail R (Reads.const v.length v.length) ped (ext.foldl (fun (hs : HashCacher) V => hs.append [R.pBytes V.value]) c.2)
    v c.1 false coins).bind fun p => .ok { p with V := c.1 ++ ext }

/-- C64 (violated): for arbitrary points `ext`, a proof containing them as commitments is accepted; nothing is known about
openings of these points. -/
theorem C64_violated (R : Ristretto F G) (v : List F) (ext : List (Commitment F G)) (coins : Coins F) (k : Nat)
    (hk : v.length = 2 ^ k) (hk4 : k ≤ 4) (hv : ∀ a ∈ v, R.sNat a < 2 ^ 64) :
    ∃ p ip, p.ip = some ip ∧ p.V = (List.range v.length).map (fun j =>
        ⟨v.getD j 0 • (Pedersen.new R genData).basePoint + coins.vBlind j • (Pedersen.new R genData).blindPoint, coins.vBlind j⟩) ++ ext ∧
      ((chalOf R p).x ≠ 0 → (chalOf R p).y ≠ 0 → (chalOf R p).z ≠ 0 → (∀ u ∈ IP.challenges R ip.L ip.R, u ≠ 0) →
        forge R v ext coins = .ok p ∧ ip.L.length = k + 6 ∧ ip.R.length = k + 6 ∧ ∀ c, verify R v.length p c = .ok true) := by
  have hle : 2 ^ k ≤ 2 ^ 4 := Nat.pow_le_pow_right (by norm_num) hk4
  have hlt : nBits * v.length < 2 ^ 32 := by unfold nBits; omega
  have hk6 : 2 ^ (k + 6) = nBits * v.length := by rw [hk, pow_add, Nat.mul_comm]; rfl
  have hcom := proveCommit_commits R hlt v coins rfl
  have hVs : (proveCommit R (newPed R v.length) v coins).1 = (List.range v.length).map (fun j =>
        ⟨v.getD j 0 • (Pedersen.new R genData).basePoint + coins.vBlind j • (Pedersen.new R genData).blindPoint, coins.vBlind j⟩) :=
    proveCommit_eq R hlt v coins rfl
  have hcache : (ext.foldl (fun (hs : HashCacher) V => hs.append [R.pBytes V.value])
      (proveCommit R (newPed R v.length) v coins).2).cache =
      ((proveCommit R (newPed R v.length) v coins).1 ++ ext).flatMap fun V => R.pBytes V.value := by
    rw [foldl_append, proveCommit_cache, List.flatMap_append]
  unfold forge
  dsimp only
  generalize ext.foldl (fun (hs : HashCacher) V => hs.append [R.pBytes V.value])
      (proveCommit R (newPed R v.length) v coins).2 = hs at *
  generalize (proveCommit R (newPed R v.length) v coins).1 = Vs at *
  rcases eq_or_ne (run R hs.cache v Vs coins).y 0 with hy | hy
  · refine ⟨(run R hs.cache v Vs coins).proof (Vs ++ ext) ⟨[], [], 0, 0⟩, _, rfl, by rw [← hVs]; rfl, fun _ h => ?_⟩
    refine absurd ?_ h
    rw [← hy, hcache]
    rfl
  · obtain ⟨ip, g1, g2, g3, g4, g5⟩ := run_verify R v Vs ext coins hk6 (by omega) hcom
      (q := run R hs.cache v Vs coins) (by rw [hcache]) hy
    refine ⟨(run R hs.cache v Vs coins).proof (Vs ++ ext) ip, ip, rfl, by rw [← hVs]; rfl, fun hx _ hz hu => ⟨?_, g2, g3, fun c => ?_⟩⟩
    · rw [g4] at hx hz
      have := proveTail_eq R v.length hs v Vs false coins hlt hy
      dsimp only at this
      rw [if_neg (by simp), Res.bind_ok, if_neg (by rintro (h | h | h); exacts [hx h, hy h, hz h]), g1, Res.bind_ok] at this
      rw [this]
      rfl
    · rw [g5 hu c, excess_zero R _ hv, zero_smul, if_pos rfl]

/-- Concretely: the attacker proves the value 1 and adds any commitment; the proof is accepted. -/
example (V : Commitment Toy.K Toy.K) (coins : Coins Toy.K) : ∃ p, forge Toy.ris [1] [V] coins = .ok p ∧ V ∈ p.V ∧
    ∀ c, verify Toy.ris 1 p c = .ok true := by
  have h1 : Toy.ris.sNat (1 : Toy.K) = 1 := by
    have := toy_sNat 1 (by norm_num)
    exact_mod_cast this
  obtain ⟨p, ip, -, hV, h⟩ := C64_violated Toy.ris [1] [V] coins 0 rfl (by norm_num) (by simp [h1])
  obtain ⟨n1, n2, n3⟩ := chalOf_ne Toy.ris Toy.dv_ne_zero p
  obtain ⟨hf, -, -, hv⟩ := h n1 n2 n3 (challenges_ne Toy.ris Toy.dv_ne_zero _ _)
  exact ⟨p, hf, by rw [hV]; simp, hv⟩

/-! ## C70 -/

/-- Run one call alone for its 17 accesses. -/
theorem step_alone (n M : Nat) (h1 : 1 ≤ n) (h2 : n ≤ 16) (procs : Nat → Proc) (i : Nat) (hi : procs i = Proc.start n) :
    ((exec M procs (List.replicate 17 i)).2 i).pc = Proc.end ∧
    ((exec M procs (List.replicate 17 i)).2 i).n = n ∧
    (exec M procs (List.replicate 17 i)).1 = n + padAmount n ∧
    Reads.ofList ((exec M procs (List.replicate 17 i)).2 i).seen = Reads.const n (n + padAmount n) := by
  have hn : ¬ n < 1 := by omega
  have hm : ¬ n > maxM := by unfold maxM; omega
  have e : List.replicate 17 i = [i, i, i, i, i, i, i, i, i, i, i, i, i, i, i, i, i] := rfl
  rw [e]
  simp [exec, hi, Proc.step, Proc.start, hn, hm, Proc.end, Reads.ofList, Reads.const]

/-- C70: a call of `Prove` whose accesses are not interleaved with others behaves as if run alone. -/
theorem C70_alone (R : Ristretto F G) (M : Nat) (v : List F) (debug : Bool) (coins : Coins F) (h1 : 1 ≤ v.length)
    (h2 : v.length ≤ 16) (procs : Nat → Proc) (i : Nat) (hi : procs i = Proc.start v.length) :
    ((exec M procs (List.replicate 17 i)).1, ((exec M procs (List.replicate 17 i)).2 i).result R v debug coins) =
      prove R M v debug coins := by
  obtain ⟨-, -, hM, hr⟩ := step_alone v.length M h1 h2 procs i hi
  have hn : nextM M v.length = v.length + padAmount v.length := by
    unfold nextM maxM; rw [if_neg (by omega), if_neg (by omega)]
  rw [hM]
  unfold Proc.result prove
  rw [hr, hn]

/-- The invariant of executions in which all calls have the same power-of-two number of values. -/
def Uniform (n : Nat) (M : Nat) (procs : Nat → Proc) : Prop :=
  ∀ i, (procs i).n = n ∧ (procs i).pc ≤ Proc.end ∧
    ((procs i).pc = 0 → (procs i).seen = []) ∧
    ((procs i).pc ≠ 0 → M = n ∧
      (procs i).seen = List.replicate (if (procs i).pc ≤ 4 then (procs i).pc - 1 else (procs i).pc - 2) n)

theorem uniform_step {n : Nat} (h1 : 1 ≤ n) (h2 : n ≤ 16) (hp : padAmount n = 0) {M : Nat} {procs : Nat → Proc}
    (h : Uniform n M procs) (i : Nat) :
    Uniform n ((procs i).step M).1 (fun j => if j = i then ((procs i).step M).2 else procs j) := by
  obtain ⟨g1, g2, g3, g4⟩ := h i
  have key : ((procs i).pc = 0 ∧ (procs i).step M = (n, ⟨n, 1, []⟩)) ∨
      ((procs i).pc ≠ 0 ∧ M = n ∧ ∃ pc', pc' ≠ 0 ∧ pc' ≤ Proc.end ∧ (procs i).step M = (n, ⟨n, pc',
        List.replicate (if pc' ≤ 4 then pc' - 1 else pc' - 2) n⟩)) := by
    rcases Nat.eq_zero_or_pos (procs i).pc with h0 | h0
    · left
      refine ⟨h0, ?_⟩
      unfold Proc.step
      rw [if_pos h0, if_neg (by omega), g1, g3 h0]
    · right
      obtain ⟨hM, hs⟩ := g4 (by omega)
      refine ⟨by omega, hM, ?_⟩
      have hmax : ¬ n > maxM := by unfold maxM; omega
      unfold Proc.step
      rw [if_neg (by omega)]
      by_cases c1 : (procs i).pc = 1
      · refine ⟨2, by omega, by norm_num, ?_⟩
        rw [if_pos c1, hM, if_neg hmax, g1, hs, c1]
        rfl
      by_cases c4 : (procs i).pc = 4
      · refine ⟨5, by omega, by norm_num, ?_⟩
        rw [if_neg c1, if_pos c4, g1, hs, c4]
        simp [hp]
      by_cases c17 : (procs i).pc < Proc.end
      · refine ⟨(procs i).pc + 1, by omega, by omega, ?_⟩
        rw [if_neg c1, if_neg c4, if_pos c17, g1, hs, hM, ← List.replicate_succ']
        congr 3
        by_cases c : (procs i).pc ≤ 4
        · rw [if_pos c, if_pos (by omega)]; omega
        · rw [if_neg c, if_neg (by omega)]; omega
      · refine ⟨(procs i).pc, by omega, g2, ?_⟩
        rw [if_neg c1, if_neg c4, if_neg c17, hM, ← hs, ← g1]
  intro j
  obtain ⟨f1, f2, f3, f4⟩ := h j
  by_cases hj : j = i
  · simp only [if_pos hj]
    rcases key with ⟨-, e⟩ | ⟨-, -, pc', a, b, e⟩
    · rw [e]; simp
    · rw [e]
      exact ⟨rfl, b, fun h => absurd h a, fun _ => ⟨rfl, rfl⟩⟩
  · simp only [if_neg hj]
    refine ⟨f1, f2, f3, fun hpc => ⟨?_, (f4 hpc).2⟩⟩
    rcases key with ⟨-, e⟩ | ⟨-, -, pc', -, -, e⟩ <;> rw [e]

theorem uniform_exec {n : Nat} (h1 : 1 ≤ n) (h2 : n ≤ 16) (hp : padAmount n = 0) : ∀ (sched : List Nat) {M : Nat}
    {procs : Nat → Proc}, Uniform n M procs → Uniform n (exec M procs sched).1 (exec M procs sched).2
  | [], _, _, h => h
  | i :: sched, _, _, h => uniform_exec h1 h2 hp sched (uniform_step h1 h2 hp h i)

/-- C70: any number of concurrent calls, all on the same power-of-two number of values, never interfere: in every
interleaving, from every initial state, each finished call returns what it returns when run alone. -/
theorem C70_uniform (R : Ristretto F G) (k : Nat) (hk : k ≤ 4) (M0 : Nat) (sched : List Nat) (v : List F)
    (debug : Bool) (coins : Coins F) (hv : v.length = 2 ^ k) (i : Nat)
    (hend : ((exec M0 (fun _ => Proc.start (2 ^ k)) sched).2 i).pc = Proc.end) :
    ((exec M0 (fun _ => Proc.start (2 ^ k)) sched).2 i).result R v debug coins = (prove R M0 v debug coins).2 := by
  have hle : 2 ^ k ≤ 2 ^ 4 := Nat.pow_le_pow_right (by norm_num) hk
  have h1 : 1 ≤ 2 ^ k := Nat.one_le_two_pow
  have hp : padAmount (2 ^ k) = 0 := by
    obtain ⟨k', e, -, hmin⟩ := padAmount_spec h1 (by omega)
    have : k' ≤ k := hmin k le_rfl
    have := Nat.pow_le_pow_right (show 0 < 2 by norm_num) this
    omega
  have hu := uniform_exec h1 (by omega) hp sched (M := M0) (procs := fun _ => Proc.start (2 ^ k)) (by
    intro i; simp [Proc.start, Proc.end])
  obtain ⟨-, -, -, g4⟩ := hu i
  obtain ⟨-, hs⟩ := g4 (by rw [hend]; norm_num)
  rw [hend] at hs
  have hn : nextM M0 v.length = 2 ^ k := by
    unfold nextM maxM; rw [hv, if_neg (by omega), if_neg (by omega), hp, Nat.add_zero]
  unfold Proc.result prove
  rw [hs, hn, hv]
  rfl

/-- The tail of `Prove` fails when the number of values seen by `computePoly` differs from the number of values. -/
theorem C70_mixed_reads (R : Ristretto F G) (rd : Reads) (v : List F) (debug : Bool) (coins : Coins F) (h1 : 1 ≤ v.length)
    (hv : (v ++ List.replicate (padAmount rd.pad) (0 : F)).length = v.length) (hv2 : v.length ≤ 16)
    (hb : nBits * rd.base < 2 ^ 32) (hs : nBits * rd.s < 2 ^ 32) (hps : rd.polySum + 3 < 2 ^ 32)
    (hne : nBits * rd.poly % 2 ^ 32 ≠ nBits * v.length) : (proveWith R rd v debug coins).IsErr := by
  unfold proveWith
  rw [if_neg (by omega)]
  by_cases hc : rd.check > maxM
  · rw [if_pos hc]; simp
  rw [if_neg hc]
  dsimp only
  generalize hvp : v ++ List.replicate (padAmount rd.pad) (0 : F) = vp at *
  unfold proveTail
  dsimp only
  generalize (proveCommit R (newPed R rd.base) vp coins) = pc
  have hped : newPed R rd.base = ⟨⟨genData, chain R genData (nBits * rd.base)⟩, genData, R.base, R.pDerive (strBytes "blindPoint")⟩ :=
    newPed_eq R hb
  have haL := aLOf_length R vp
  have haR := aROf_length R vp
  have e1 : (vp.flatMap fun vi => (bitCommit (F := F) (R.sNat vi)).AL) = aLOf R vp := rfl
  have e2 : (vp.flatMap fun vi => (bitCommit (F := F) (R.sNat vi)).AR) = aROf R vp := rfl
  have hsmall : nBits * vp.length < 2 ^ 32 := by rw [hv]; unfold nBits; omega
  rw [e1, e2]
  unfold computeA computeS
  rw [hped, C51_commit R _ (by simp [Gen.OnChain]) rfl _ _ _ (by
    intro w hw
    simp only [List.mem_cons, List.not_mem_nil, or_false] at hw
    rcases hw with rfl | rfl
    · rw [haL]; exact hsmall
    · rw [haR]; exact hsmall), Res.bind_ok]
  dsimp only
  rw [C51_commit R _ (by simp [Gen.OnChain]) rfl _ _ _ (by
    intro w hw
    simp only [List.mem_cons, List.not_mem_nil, or_false] at hw
    rcases hw with rfl | rfl <;> simpa using hs), Res.bind_ok]
  dsimp only [Res.bind_ok]
  unfold computePoly
  dsimp only
  rw [sumZMTwoN_eq R.two_ne_zero _ hps, Res.bind_ok]
  have hh : ∀ y z : F, Vec.hadamard (Vec.addScalar (aROf R vp) z) (Vec.scalarPowers y (nBits * rd.poly % 2 ^ 32)) =
      .err "Length of a does not equal length of b" := by
    intro y z
    unfold Vec.hadamard
    rw [if_pos]
    rw [scalarPowers_length, Vec.addScalar, List.length_map, haR, hv]
    exact Ne.symm hne
  rw [hh]
  simp

/-- C70 (violated): two calls, on one and on two values. Each succeeds when run alone (C60); but if the second call starts
after the first has written `M` and finishes before the first reads it again, the first returns an error. -/
theorem C70_violated (R : Ristretto F G) (M0 : Nat) (a : F) (debug : Bool) (coins : Coins F) (procs : Nat → Proc)
    (h0 : procs 0 = Proc.start 1) (h1 : procs 1 = Proc.start 2) :
    let e := exec M0 procs (List.replicate 5 0 ++ List.replicate 17 1 ++ List.replicate 12 0)
    (e.2 0).pc = Proc.end ∧ (e.2 1).pc = Proc.end ∧ ((e.2 0).result R [a] debug coins).IsErr := by
  have e1 : padAmount 1 = 0 := by decide
  have e2 : padAmount 2 = 0 := by decide
  have key : ∀ e, e = exec M0 procs (List.replicate 5 0 ++ List.replicate 17 1 ++ List.replicate 12 0) →
      (e.2 0) = ⟨1, Proc.end, [1, 1, 1, 2, 2, 2, 2, 2, 2, 2, 2, 2, 2, 2, 2]⟩ ∧ (e.2 1).pc = Proc.end := by
    rintro e rfl
    have er : List.replicate 5 0 ++ List.replicate 17 1 ++ List.replicate 12 0 =
      [0, 0, 0, 0, 0, 1, 1, 1, 1, 1, 1, 1, 1, 1, 1, 1, 1, 1, 1, 1, 1, 1, 0, 0, 0, 0, 0, 0, 0, 0, 0, 0, 0, 0] := rfl
    rw [er]
    simp [exec, h0, h1, Proc.step, Proc.start, maxM, Proc.end, e1, e2]
  intro e
  obtain ⟨k1, k2⟩ := key e rfl
  refine ⟨by rw [k1], k2, ?_⟩
  rw [k1]
  unfold Proc.result
  apply C70_mixed_reads R _ [a] debug coins (by simp)
  · simp [Reads.ofList, e1]
  · simp
  · simp [Reads.ofList, nBits]
  · simp [Reads.ofList, nBits]
  · simp [Reads.ofList, nBits]
  · simp [Reads.ofList, nBits]

/-- Both calls succeed alone in the concrete instance. -/
example (coins : Coins Toy.K) (M0 : Nat) : (∃ p, (prove Toy.ris M0 [0] false coins).2 = .ok p) ∧
    ∃ p, (prove Toy.ris M0 [0, 0] false coins).2 = .ok p := by
  have h0 : Toy.ris.sNat (0 : Toy.K) = 0 := by
    have := toy_sNat 0 (by norm_num)
    exact_mod_cast this
  constructor
  · obtain ⟨p, h, -⟩ := C60_nonzero_hash Toy.ris Toy.dv_ne_zero M0 [0] coins (by simp) (by simp) (by simp [h0])
    exact ⟨p, h⟩
  · obtain ⟨p, h, -⟩ := C60_nonzero_hash Toy.ris Toy.dv_ne_zero M0 [0, 0] coins (by simp) (by simp) (by simp [h0])
    exact ⟨p, h⟩
/-- A schedule of two calls on two values each that interleaves and in which both finish. -/
example : ((exec 1 (fun _ => Proc.start (2 ^ 1)) ((List.replicate 17 [0, 1]).flatten)).2 0).pc = Proc.end ∧
    ((exec 1 (fun _ => Proc.start (2 ^ 1)) ((List.replicate 17 [0, 1]).flatten)).2 1).pc = Proc.end := by
  decide +kernel

end Dusk.RP
