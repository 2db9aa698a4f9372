import Verif.Props.InnerProduct
import Verif.Props.IPSound
import Verif.Lemmas.RangeProof
import Mathlib.Data.List.GetD

/-!
C73: an accepted inner product proof is not bound to its statement.

The challenges of `Generate` and `Verify` are hashes of `L` and `R` only; neither `Q` nor `P` enters them. So a proof can be
made first and its statement chosen afterwards.
-/

set_option linter.unusedSectionVars false

namespace Dusk.IP

variable {F G : Type} [Field F] [DecidableEq F] [AddCommGroup G] [Module F G]

theorem msm_sVec_cons' (u : F) (us : List F) {GL GR : List G} (h : GL.length = 2 ^ us.length)
    (h' : GR.length = 2 ^ us.length) :
    msm (sVec ((u :: us).map fun u => u⁻¹)) (GL ++ GR) =
      msm (sVec (us.map fun u => u⁻¹)) (vadd (GL.map fun x => u • x) (GR.map fun x => u⁻¹ • x)) := by
  rw [List.map_cons, msm_sVec_cons _ _ (by simpa using h) (by simpa using h'), inv_inv]

/-- The two scalars at the end of the loop of `Generate` are weighted sums of the vectors. -/
theorem genLoop_scalars (R : Ristretto F G) (Q : G) : ∀ (k : Nat), k < 32 → ∀ (a b : List F) (Gv Hv : List G)
    (hs : HashCacher) (Lj Rj : List G), a.length = 2 ^ k → b.length = 2 ^ k → Gv.length = 2 ^ k → Hv.length = 2 ^ k →
    ∃ Ls Rs A B, genLoop R Q (2 ^ k) a b Gv Hv hs Lj Rj = .ok ⟨Lj ++ Ls, Rj ++ Rs, A, B⟩ ∧
      Ls.length = k ∧ Rs.length = k ∧
      A = msm (sVec ((chalLoop R hs (Ls.zip Rs)).map fun u => u⁻¹)) a ∧ B = msm (sVec (chalLoop R hs (Ls.zip Rs))) b
  | 0, _, a, b, Gv, Hv, hs, Lj, Rj, ha, hb, hg, hh => by
    obtain ⟨x, rfl⟩ := List.length_eq_one_iff.1 ha
    obtain ⟨y, rfl⟩ := List.length_eq_one_iff.1 hb
    refine ⟨[], [], x, y, ?_, rfl, rfl, ?_, ?_⟩
    · rw [genLoop]; simp [finish]
    · simp [sVec, chalLoop]
    · simp [sVec, chalLoop]
  | k + 1, hk, a, b, Gv, Hv, hs, Lj, Rj, ha, hb, hg, hh => by
    obtain ⟨aL, aR, rfl, ha1, ha2⟩ := split_half ha
    obtain ⟨bL, bR, rfl, hb1, hb2⟩ := split_half hb
    obtain ⟨GL, GR, rfl, hg1, hg2⟩ := split_half hg
    obtain ⟨HL, HR, rfl, hh1, hh2⟩ := split_half hh
    have hpos : 0 < 2 ^ k := Nat.two_pow_pos k
    have h2 : 2 ^ (k + 1) / 2 = 2 ^ k := by rw [pow_succ]; omega
    rw [genLoop, dif_pos (by rw [pow_succ]; omega), h2,
      nextRound_eq R Q hs ha1 ha2 hb1 hb2 hg1 hg2 hh1 hh2 hpos (two_pow_bound hk)]
    simp only [Res.bind_ok]
    set L := crossL Q aL bR GR HL
    set Rp := crossL Q aR bL GL HR
    set hs' := hs.append [R.pBytes L, R.pBytes Rp] with hhs
    set u : F := hs'.derive R with hu
    obtain ⟨Ls, Rs, A, B, e, hl1, hl2, hA, hB⟩ := genLoop_scalars R Q k (by omega)
      (vadd (aL.map fun x => x * u) (aR.map fun x => x * u⁻¹))
      (vadd (bL.map fun x => x * u⁻¹) (bR.map fun x => x * u))
      (vadd (GL.map fun x => u⁻¹ • x) (GR.map fun x => u • x))
      (vadd (HL.map fun x => u • x) (HR.map fun x => u⁻¹ • x)) hs' (Lj ++ [L]) (Rj ++ [Rp])
      (by simp [ha1, ha2]) (by simp [hb1, hb2]) (by simp [hg1, hg2]) (by simp [hh1, hh2])
    have hlen : (chalLoop R hs' (Ls.zip Rs)).length = k := by simp [chalLoop_length, hl1, hl2]
    have hc : chalLoop R hs ((L :: Ls).zip (Rp :: Rs)) = u :: chalLoop R hs' (Ls.zip Rs) := rfl
    refine ⟨L :: Ls, Rp :: Rs, A, B, ?_, by simp [hl1], by simp [hl2], ?_, ?_⟩
    · rw [e]; simp
    · rw [hc, msm_sVec_cons' u _ (by rw [hlen, ha1]) (by rw [hlen, ha2]), hA]
      simp only [smul_eq_mul, mul_comm u, mul_comm u⁻¹]
    · rw [hc, msm_sVec_cons u _ (by rw [hlen, hb1]) (by rw [hlen, hb2]), hB]
      simp only [smul_eq_mul, mul_comm u, mul_comm u⁻¹]

theorem msm_weights (us : List F) (a : List F) (h : a.length = 2 ^ us.length) :
    msm (sVec us) a = ∑ i ∈ Finset.range (2 ^ us.length), weight us i * a.getD i 0 := by
  rw [← dot_eq_msm, dot_eq_sum _ _ (by rw [sVec_length, h]), sVec_length]
  refine Finset.sum_congr rfl fun i hi => ?_
  rw [sVec_eq, List.getD_eq_getElem _ _ (by simpa using hi)]
  simp

/-- C73: the final scalars of a generated proof are the sums of the entries of `a` and `b` with the verifier's weights. -/
theorem C73_scalars (R : Ristretto F G) (Q : G) (k : Nat) (hk : k < 32) (a b hpf : List F)
    (Gv Hv : List G) (ha : a.length = 2 ^ k) (hb : b.length = 2 ^ k) (hg : Gv.length = 2 ^ k)
    (hh : Hv.length = 2 ^ k) (hf : 2 ^ k ≤ hpf.length) (p : Proof F G) (hp : generate R Gv Hv a b hpf Q = .ok p) :
    p.A = ∑ i ∈ Finset.range (2 ^ k), (weight (challenges R p.L p.R) i)⁻¹ * a.getD i 0 ∧
    p.B = ∑ i ∈ Finset.range (2 ^ k), weight (challenges R p.L p.R) i * b.getD i 0 := by
  have hlt : 2 ^ k < 2 ^ 32 := Nat.pow_lt_pow_right (by norm_num) hk
  suffices h : (chals R p).length = k ∧ p.A = msm (sVec ((chals R p).map fun u => u⁻¹)) a ∧ p.B = msm (sVec (chals R p)) b by
    obtain ⟨h1, h2, h3⟩ := h
    rw [msm_weights _ _ (by simp [h1, ha])] at h2
    rw [msm_weights _ _ (by simp [h1, hb])] at h3
    rw [← chals_eq, h2, h3, List.length_map, h1]
    simp only [RP.weight_inv, and_self]
  unfold generate at hp
  rw [hg, Nat.mod_eq_of_lt hlt] at hp
  simp only [isPower2_two_pow hk, not_true_eq_false, if_false] at hp
  rcases k with _ | k
  · obtain ⟨x, rfl⟩ := List.length_eq_one_iff.1 ha
    obtain ⟨y, rfl⟩ := List.length_eq_one_iff.1 hb
    simp only [pow_zero, ne_eq, not_true_eq_false, if_false, finish, List.getLast?_singleton, Res.ok.injEq] at hp
    subst hp
    simp [sVec, chals, chalLoop]
  · obtain ⟨aL, aR, rfl, ha1, ha2⟩ := split_half ha
    obtain ⟨bL, bR, rfl, hb1, hb2⟩ := split_half hb
    obtain ⟨GL, GR, rfl, hg1, hg2⟩ := split_half hg
    obtain ⟨HL, HR, rfl, hh1, hh2⟩ := split_half hh
    have hpos : 0 < 2 ^ k := Nat.two_pow_pos k
    have h2 : 2 ^ (k + 1) / 2 = 2 ^ k := by rw [pow_succ]; omega
    obtain ⟨hL, hR, rfl, hf1, hf2⟩ : ∃ x y, hpf = x ++ y ∧ x.length = 2 ^ k ∧ 2 ^ k ≤ y.length := by
      refine ⟨hpf.take (2 ^ k), hpf.drop (2 ^ k), by simp, ?_, ?_⟩ <;>
      · rw [pow_succ] at hf; simp; omega
    rw [if_pos (by rw [pow_succ]; omega), h2, firstRound_eq R Q _ ha1 ha2 hb1 hb2 hg1 hg2 hh1 hh2 hf1 hf2
      hpos (two_pow_bound hk)] at hp
    have hvs : (vsmul (hL ++ hR) (HL ++ HR)).length = 2 ^ (k + 1) := by
      simp only [vsmul_length, List.length_append]; rw [pow_succ]; omega
    have := genLoop_scalars R Q (k + 1) hk (aL ++ aR) (bL ++ bR) (GL ++ GR) (vsmul (hL ++ hR) (HL ++ HR)) {}
      [] [] ha hb hg hvs
    rw [genLoop, dif_pos (by rw [pow_succ]; omega), h2] at this
    obtain ⟨Ls, Rs, A, B, e, h3, h4, h5, h6⟩ := this
    have hp := e.symm.trans hp
    cases hp
    exact ⟨by simp [chals, chalLoop_length, h3, h4], h5, h6⟩

/-- C73: a proof made for the zero point in place of `Q` is accepted for every `Q`, with the product of its final scalars as
the claimed inner product, whatever the inner product of `a` and `b` is. -/
theorem C73_any_claim [DecidableEq G] (R : Ristretto F G) (k : Nat) (hk : k < 32) (a b hpf : List F) (Gv Hv : List G)
    (ha : a.length = 2 ^ k) (hb : b.length = 2 ^ k) (hg : Gv.length = 2 ^ k) (hh : Hv.length = 2 ^ k)
    (hf : 2 ^ k ≤ hpf.length) :
    ∃ p : Proof F G, generate R Gv Hv a b hpf 0 = .ok p ∧
      ((∀ u ∈ challenges R p.L p.R, u ≠ 0) → ∀ (Q : G) (n : Int), n ≤ 2 ^ k →
        verify R p Gv Hv hpf Q (msm a Gv + msm (had b hpf) Hv + (p.A * p.B) • Q) n = .ok true) := by
  obtain ⟨p, h1, h2, h3, h4⟩ := generate_eq R (0 : G) k hk a b hpf Gv Hv ha hb hg hh hf
  refine ⟨p, h1, fun hnz Q n hn => ?_⟩
  have hpos : (0 : Int) < 2 ^ k := by positivity
  rw [verify_eq R p Gv Hv hpf Q _ n k hk h2 h3 hg hh hf (by omega)]
  rw [← chals_eq] at hnz
  have h5 := h4 hnz
  congr 1
  rw [decide_eq_true_iff]
  unfold VerEq commitPoint at h5
  unfold VerEq
  rw [smul_zero, smul_zero, add_zero, add_zero] at h5
  rw [h5]
  abel

theorem weight_ne_zero (us : List F) (h : ∀ u ∈ us, u ≠ 0) (i : Nat) : weight us i ≠ 0 := by
  unfold weight
  rw [Finset.prod_ne_zero_iff]
  intro j hj
  have hj : j < us.length := by simpa using hj
  rw [List.getD_eq_getElem _ _ hj]
  have := h _ (List.getElem_mem hj)
  split
  · exact this
  · exact inv_ne_zero this

/-- The vector with a one at position `j`. -/
def unit (n j : Nat) : List F := (List.range n).map fun i => if i = j then 1 else 0

theorem sum_unit (n j : Nat) (hj : j < n) (f : Nat → F) :
    ∑ i ∈ Finset.range n, f i * (unit (F := F) n j).getD i 0 = f j := by
  rw [Finset.sum_eq_single_of_mem j (by simpa using hj)]
  · rw [List.getD_eq_getElem _ _ (by simpa [unit] using hj)]
    simp [unit]
  · intro i hi hne
    have hi : i < n := by simpa using hi
    rw [List.getD_eq_getElem _ _ (by simpa [unit] using hi)]
    simp [unit, hne]

theorem msm_sub_left (a b : List F) (g : List G) (h : a.length = b.length) :
    msm (vadd a (b.map fun x => -x)) g = msm a g - msm b g := by
  rw [msm_vadd_left _ _ _ (by simpa using h), msm_neg_left, sub_eq_add_neg]

theorem eq_of_sub_zero : ∀ (a b : List F), a.length = b.length → (∀ x ∈ vadd a (b.map fun x => -x), x = 0) → a = b
  | [], [], _, _ => rfl
  | x :: a, y :: b, h, hz => by
    simp only [List.map_cons, vadd, List.zipWith_cons_cons, List.mem_cons, forall_eq_or_imp] at hz
    rw [eq_of_sub_zero a b (by simpa using h) hz.2, show x = y from by linear_combination hz.1]

theorem had_cancel : ∀ (a b c : List F), a.length = c.length → b.length = c.length → (∀ x ∈ c, x ≠ 0) →
    had a c = had b c → a = b
  | [], [], _, _, _, _, _ => rfl
  | [], _ :: _, [], _, h, _, _ => by simp at h
  | _ :: _, [], [], h, _, _, _ => by simp at h
  | x :: a, y :: b, z :: c, h1, h2, h3, h => by
    simp only [had, List.zipWith_cons_cons, List.cons.injEq] at h
    rw [had_cancel a b c (by simpa using h1) (by simpa using h2) (fun x hx => h3 x (List.mem_cons_of_mem _ hx)) h.2,
      mul_right_cancel₀ (h3 z (by simp)) h.1]

/-- C73 (violated): for every number of rounds above zero there is a proof that `Verify` accepts for a statement `P` of
which an opening `a, b, c` is known to its maker, although `P` is not of the form `<a',G> + <b' ∘ h',H> + <a',b'>Q` for any
vectors if the generators are independent. -/
theorem C73_binding_violated [DecidableEq G] (R : Ristretto F G) (k : Nat) (h0 : 0 < k) (hk : k < 32) (hpf : List F)
    (Gv Hv : List G) (hg : Gv.length = 2 ^ k) (hh : Hv.length = 2 ^ k) (hf : hpf.length = 2 ^ k) (hnz : ∀ x ∈ hpf, x ≠ 0) :
    ∃ (a b : List F) (p : Proof F G), a.length = 2 ^ k ∧ b.length = 2 ^ k ∧ generate R Gv Hv a b hpf 0 = .ok p ∧
      ((∀ u ∈ challenges R p.L p.R, u ≠ 0) → ∃ c ≠ dot a b, ∀ (Q P : G), P = msm a Gv + msm (had b hpf) Hv + c • Q →
        (∀ n : Int, n ≤ 2 ^ k → verify R p Gv Hv hpf Q P n = .ok true) ∧
        (Independent F Gv Hv Q → ¬ ∃ a' b' : List F, a'.length = 2 ^ k ∧ b'.length = 2 ^ k ∧
          P = commitPoint Gv Hv hpf Q a' b')) := by
  have h1 : 1 < 2 ^ k := Nat.one_lt_two_pow (by omega)
  obtain ⟨p, hp, hv⟩ := C73_any_claim R k hk (unit (2 ^ k) 0) (unit (2 ^ k) 1) hpf Gv Hv (by simp [unit]) (by simp [unit])
    hg hh (by omega)
  refine ⟨_, _, p, by simp [unit], by simp [unit], hp, fun hu => ?_⟩
  have hne : p.A * p.B ≠ dot (unit (F := F) (2 ^ k) 0) (unit (2 ^ k) 1) := by
    obtain ⟨e1, e2⟩ := C73_scalars R 0 k hk _ _ hpf Gv Hv (by simp [unit]) (by simp [unit]) hg hh (by omega) p hp
    rw [sum_unit _ _ (by omega)] at e1
    rw [sum_unit _ _ (by omega)] at e2
    have hd : dot (unit (F := F) (2 ^ k) 0) (unit (2 ^ k) 1) = 0 := by
      rw [dot_eq_sum _ _ (by simp [unit])]
      have := sum_unit (2 ^ k) 1 h1 fun i => (unit (F := F) (2 ^ k) 0).getD i 0
      rw [show (unit (F := F) (2 ^ k) 0).length = 2 ^ k by simp [unit], this,
        List.getD_eq_getElem _ _ (by simpa [unit] using h1)]
      simp [unit]
    rw [hd, e1, e2]
    exact mul_ne_zero (inv_ne_zero (weight_ne_zero _ hu _)) (weight_ne_zero _ hu _)
  refine ⟨p.A * p.B, hne, fun Q P hP => ⟨fun n hn => ?_, ?_⟩⟩
  · rw [hP]; exact hv hu Q n hn
  · rintro hind ⟨a', b', ha', hb', hP'⟩
    have e : msm (vadd (unit (F := F) (2 ^ k) 0) (a'.map fun x => -x)) Gv +
        msm (vadd (had (unit (2 ^ k) 1) hpf) ((had b' hpf).map fun x => -x)) Hv + (p.A * p.B - dot a' b') • Q = 0 := by
      rw [msm_sub_left _ _ _ (by simp [unit, ha']), msm_sub_left _ _ _ (by simp [unit, hb']), sub_smul]
      rw [hP] at hP'
      unfold commitPoint at hP'
      refine (sub_eq_zero.2 hP').symm.trans ?_ |>.symm
      abel
    obtain ⟨i1, i2, i3⟩ := hind _ _ _ (by simp [unit, ha', hg]) (by simp [unit, hb', hf, hh]) e
    have ea := eq_of_sub_zero _ _ (by simp [unit, ha']) i1
    have eb := had_cancel _ _ _ (by simp [unit, hf]) (by rw [hb', hf]) hnz (eq_of_sub_zero _ _ (by simp [unit, hb']) i2)
    rw [← ea, ← eb] at i3
    exact hne (sub_eq_zero.1 i3)

/-- An instance with independent generators: two rounds' worth of vectors of length two, five coordinates. -/
def R5 : Ristretto Toy.K (Fin 5 → Toy.K) where
  order := Toy.ris.order
  two64_lt := Toy.ris.two64_lt
  cast_eq_zero := Toy.ris.cast_eq_zero
  sNat := Toy.ris.sNat
  sNat_lt := Toy.ris.sNat_lt
  cast_sNat := Toy.ris.cast_sNat
  sBytes := Toy.ris.sBytes
  sOfBytes := Toy.ris.sOfBytes
  sDerive := Toy.ris.sDerive
  pBytes P := (List.ofFn P).flatMap Toy.ris.pBytes
  pOfBytes _ := (0, false)
  pDerive _ := 0
  base := 0

example : ∃ (p : Proof Toy.K (Fin 5 → Toy.K)) (P : Fin 5 → Toy.K),
    verify R5 p [![1, 0, 0, 0, 0], ![0, 1, 0, 0, 0]] [![0, 0, 1, 0, 0], ![0, 0, 0, 1, 0]] [1, 1] ![0, 0, 0, 0, 1] P 2 = .ok true ∧
    ¬ ∃ a b : List Toy.K, a.length = 2 ∧ b.length = 2 ∧
      P = commitPoint [![1, 0, 0, 0, 0], ![0, 1, 0, 0, 0]] [![0, 0, 1, 0, 0], ![0, 0, 0, 1, 0]] [1, 1] ![0, 0, 0, 0, 1] a b := by
  obtain ⟨a, b, p, _, _, _, h⟩ := C73_binding_violated R5 1 (by norm_num) (by norm_num) [1, 1]
    [![1, 0, 0, 0, 0], ![0, 1, 0, 0, 0]] [![0, 0, 1, 0, 0], ![0, 0, 0, 1, 0]] rfl rfl rfl (by simp)
  obtain ⟨c, _, h⟩ := h (by
    intro u hu
    simp only [challenges, List.mem_map] at hu
    obtain ⟨j, _, rfl⟩ := hu
    exact Toy.dv_ne_zero _)
  obtain ⟨h1, h2⟩ := h ![0, 0, 0, 0, 1] _ rfl
  refine ⟨p, _, h1 2 (by norm_num), h2 ?_⟩
  intro g h q hg hh he
  obtain ⟨x, y, rfl⟩ := List.length_eq_two.1 hg
  obtain ⟨z, w, rfl⟩ := List.length_eq_two.1 hh
  have e0 := congrFun he 0
  have e1 := congrFun he 1
  have e2 := congrFun he 2
  have e3 := congrFun he 3
  have e4 := congrFun he 4
  simp [Matrix.cons_val] at e0 e1 e2 e3 e4
  simp [e0, e1, e2, e3, e4]

end Dusk.IP
