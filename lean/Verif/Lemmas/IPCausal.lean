import Verif.Lemmas.InnerProduct
import Verif.Props.MlsagLink
/-!
# The inner product proof under two hash functions

As long as two hash functions give the same challenges, `Generate` outputs the same points.
-/

namespace Dusk.IP

open Mlsag (withHash)

variable {F G : Type} [Field F] [AddCommGroup G] [Module F G]

/-- What is hashed for the challenge `j`. -/
def asked (R : Ristretto F G) (p : Proof F G) (j : Nat) : Bytes :=
  ((p.L.zip p.R).take (j + 1)).flatMap fun p => R.pBytes p.1 ++ R.pBytes p.2

/-- Two rounds from the same state. -/
structure Twins (R : Ristretto F G) (h h' : Bytes → F) (hs : HashCacher) (r r' : Round F G) : Prop where
  eqL : r.L = r'.L
  eqR : r.R = r'.R
  cache : r.hs.cache = hs.cache ++ (R.pBytes r.L ++ R.pBytes r.R)
  same : h r.hs.cache = h' r.hs.cache → r = r'

theorem nextRound_twins (R : Ristretto F G) (h h' : Bytes → F) {n : Nat} {a b : List F} {Gv Hv : List G} {Q : G} {hs : HashCacher}
    {r r' : Round F G} (e : nextRound (withHash R h) n a b Gv Hv Q hs = .ok r)
    (e' : nextRound (withHash R h') n a b Gv Hv Q hs = .ok r') : Twins R h h' hs r r' := by
  unfold nextRound at e e'
  simp only [Res.bind_eq_ok] at e e'
  obtain ⟨c1, a1, c2, a2, e1, a3, e2, a4, e4, a5, e5, a6, hr⟩ := e
  obtain ⟨c1', b1, c2', b2, e1', b3, e2', b4, e4', b5, e5', b6, hr'⟩ := e'
  obtain rfl := Res.ok.inj (a1.symm.trans b1)
  obtain rfl := Res.ok.inj (a2.symm.trans b2)
  obtain rfl := Res.ok.inj (a3.symm.trans b3)
  obtain rfl := Res.ok.inj (a4.symm.trans b4)
  obtain rfl := Res.ok.inj (a5.symm.trans b5)
  obtain rfl := Res.ok.inj (a6.symm.trans b6)
  cases hr; cases hr'
  refine ⟨rfl, rfl, ?_, fun hh => ?_⟩
  · simp [HashCacher.append, withHash]
  · simp only [HashCacher.derive, withHash] at hh ⊢
    rw [hh]

theorem firstRound_twins (R : Ristretto F G) (h h' : Bytes → F) {n : Nat} {a b hpf : List F} {Gv Hv : List G} {Q : G} {hs : HashCacher}
    {r r' : Round F G} (e : firstRound (withHash R h) n a b Gv Hv hpf Q hs = .ok r)
    (e' : firstRound (withHash R h') n a b Gv Hv hpf Q hs = .ok r') : Twins R h h' hs r r' := by
  unfold firstRound at e e'
  simp only [Res.bind_eq_ok] at e e'
  obtain ⟨c2, a2, e1, a3, f1, a1, e2, a4, e4, a5, f2, a7, e5, a6, hr⟩ := e
  obtain ⟨c2', b2, e1', b3, f1', b1, e2', b4, e4', b5, f2', b7, e5', b6, hr'⟩ := e'
  obtain rfl := Res.ok.inj (a1.symm.trans b1)
  obtain rfl := Res.ok.inj (a2.symm.trans b2)
  obtain rfl := Res.ok.inj (a3.symm.trans b3)
  obtain rfl := Res.ok.inj (a4.symm.trans b4)
  obtain rfl := Res.ok.inj (a5.symm.trans b5)
  obtain rfl := Res.ok.inj (a7.symm.trans b7)
  obtain rfl := Res.ok.inj (a6.symm.trans b6)
  cases hr; cases hr'
  refine ⟨rfl, rfl, ?_, fun hh => ?_⟩
  · simp [HashCacher.append, withHash]
  · simp only [HashCacher.derive, withHash] at hh ⊢
    rw [hh]

omit [Field F] [AddCommGroup G] [Module F G] in
theorem finish_ok {Lj Rj : List G} {a b : List F} {p : Proof F G} (h : finish Lj Rj a b = .ok p) : p.L = Lj ∧ p.R = Rj := by
  unfold finish at h
  split at h
  · cases h; exact ⟨rfl, rfl⟩
  · cases h

theorem genLoop_prefix (R : Ristretto F G) (Q : G) (n : Nat) (a b : List F) (Gv Hv : List G) (hs : HashCacher) (Lj Rj : List G)
    {p : Proof F G} (h : genLoop R Q n a b Gv Hv hs Lj Rj = .ok p) : Lj <+: p.L ∧ Rj <+: p.R := by
  induction n using Nat.strong_induction_on generalizing a b Gv Hv hs Lj Rj with
  | _ n ih =>
    rw [genLoop] at h
    split at h
    · obtain ⟨r, -, h⟩ := Res.bind_eq_ok.1 h
      obtain ⟨h1, h2⟩ := ih (n / 2) (by omega) _ _ _ _ _ _ _ h
      exact ⟨(List.prefix_append _ _).trans h1, (List.prefix_append _ _).trans h2⟩
    · obtain ⟨h1, h2⟩ := finish_ok h
      rw [h1, h2]
      exact ⟨List.prefix_refl _, List.prefix_refl _⟩

theorem take_zip_prefix {α β : Type} {a a' : List α} {b b' : List β} (ha : a <+: a') (hb : b <+: b') (hl : a.length = b.length) {j : Nat}
    (hj : j ≤ a.length) : (a'.zip b').take j = (a.zip b).take j := by
  obtain ⟨x, rfl⟩ := ha
  obtain ⟨y, rfl⟩ := hb
  rw [List.zip_append hl, List.take_append_of_le_length (by simp [← hl, hj])]

/-- The loop under two hash functions. -/
theorem genLoop_causal (R : Ristretto F G) (h h' : Bytes → F) (Q : G) (n : Nat) (a b : List F) (Gv Hv : List G) (hs : HashCacher)
    (Lj Rj : List G) (hl : Lj.length = Rj.length)
    (hc : hs.cache = (Lj.zip Rj).flatMap fun p => R.pBytes p.1 ++ R.pBytes p.2)
    {p p' : Proof F G} (e : genLoop (withHash R h) Q n a b Gv Hv hs Lj Rj = .ok p)
    (e' : genLoop (withHash R h') Q n a b Gv Hv hs Lj Rj = .ok p') (j : Nat)
    (hj : ∀ i, i < j → h (asked R p i) = h' (asked R p i)) : asked R p j = asked R p' j := by
  induction n using Nat.strong_induction_on generalizing a b Gv Hv hs Lj Rj with
  | _ n ih =>
    have pre := genLoop_prefix _ Q n a b Gv Hv hs Lj Rj e
    rw [genLoop] at e e'
    split at e
    · rename_i hn
      rw [dif_pos hn] at e'
      obtain ⟨r, hr, e⟩ := Res.bind_eq_ok.1 e
      obtain ⟨r', hr', e'⟩ := Res.bind_eq_ok.1 e'
      have tw := nextRound_twins R h h' hr hr'
      obtain ⟨p1, p2⟩ := genLoop_prefix _ _ _ _ _ _ _ _ _ _ e
      obtain ⟨p1', p2'⟩ := genLoop_prefix _ _ _ _ _ _ _ _ _ _ e'
      rw [← tw.eqL] at p1'
      rw [← tw.eqR] at p2'
      have hl' : (Lj ++ [r.L]).length = (Rj ++ [r.R]).length := by simp [hl]
      rcases Nat.lt_or_ge Lj.length j with hlt | hge
      · have hask : asked R p Lj.length = r.hs.cache := by
          unfold asked
          rw [take_zip_prefix p1 p2 hl' (by simp), List.take_of_length_le (by simp [hl]), List.zip_append hl, tw.cache, hc]
          simp
        have := hj _ hlt
        rw [hask] at this
        have hrr := tw.same this
        subst hrr
        refine ih (n / 2) (by omega) _ _ _ _ _ _ _ hl' ?_ e e'
        rw [tw.cache, hc, List.zip_append hl]
        simp
      · unfold asked
        rw [take_zip_prefix p1 p2 hl' (by simp; omega), take_zip_prefix p1' p2' hl' (by simp; omega)]
    · rename_i hn
      rw [dif_neg hn] at e'
      rw [e] at e'
      rw [Res.ok.inj e']

/-- `Generate` under two hash functions: what is hashed for a challenge depends on the earlier challenges only. -/
theorem generate_causal (R : Ristretto F G) (h h' : Bytes → F) {Gv Hv : List G} {a b hpf : List F} {Q : G} {p p' : Proof F G}
    (e : generate (withHash R h) Gv Hv a b hpf Q = .ok p) (e' : generate (withHash R h') Gv Hv a b hpf Q = .ok p') (j : Nat)
    (hj : ∀ i, i < j → h (asked R p i) = h' (asked R p i)) : asked R p j = asked R p' j := by
  unfold generate at e e'
  simp only at e e'
  split at e
  · cases e
  · rename_i h1
    rw [if_neg h1] at e'
    split at e
    · rename_i h2
      rw [if_pos h2] at e'
      obtain ⟨r, hr, e⟩ := Res.bind_eq_ok.1 e
      obtain ⟨r', hr', e'⟩ := Res.bind_eq_ok.1 e'
      have tw := firstRound_twins R h h' hr hr'
      obtain ⟨p1, p2⟩ := genLoop_prefix _ _ _ _ _ _ _ _ _ _ e
      obtain ⟨p1', p2'⟩ := genLoop_prefix _ _ _ _ _ _ _ _ _ _ e'
      rw [← tw.eqL] at p1'
      rw [← tw.eqR] at p2'
      rcases Nat.eq_zero_or_pos j with rfl | hpos
      · unfold asked
        rw [take_zip_prefix p1 p2 rfl (by simp), take_zip_prefix p1' p2' rfl (by simp)]
      · have hask : asked R p 0 = r.hs.cache := by
          unfold asked
          rw [take_zip_prefix p1 p2 rfl (by simp), tw.cache]
          simp
        have := hj _ hpos
        rw [hask] at this
        have hrr := tw.same this
        subst hrr
        refine genLoop_causal R h h' _ _ _ _ _ _ _ [r.L] [r.R] rfl ?_ e e' j hj
        rw [tw.cache]
        simp
    · rename_i h2
      rw [if_neg h2, e] at e'
      rw [Res.ok.inj e']

theorem challenges_asked (R : Ristretto F G) (p : Proof F G) :
    challenges R p.L p.R = (List.range (p.L.zip p.R).length).map fun j => R.sDerive (asked R p j) := rfl

theorem asked_length {R : Ristretto F G} (E : R.Encodings) (p : Proof F G) (j : Nat) : (asked R p j).length ≤ 64 * p.L.length := by
  unfold asked
  rw [List.length_flatMap, List.map_congr_left (g := fun _ => 64) (fun x _ => by simp [E.pBytes_length])]
  simp
  omega

end Dusk.IP
