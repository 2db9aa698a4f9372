import Mathlib.NumberTheory.LucasPrimality
import Mathlib.Tactic.NormNum.Prime
/-!
# The order of the Ristretto group is prime

`ell = 2^252 + 27742317777372353535851937790883648493`. Lucas certificates, evaluated in the kernel.
-/

namespace Dusk.PrimeEll

/-- Binary modular exponentiation (fuel = number of bits). -/
def pm (a m : Nat) : Nat → Nat → Nat
  | 0, _ => 1 % m
  | f + 1, k =>
    if k = 0 then 1 % m
    else if k % 2 = 0 then pm a m f (k / 2) * pm a m f (k / 2) % m
    else pm a m f (k / 2) * pm a m f (k / 2) % m * a % m

/-- Same, sharing the recursive call. -/
def pm' (a m : Nat) : Nat → Nat → Nat
  | 0, _ => 1 % m
  | f + 1, k =>
    if k = 0 then 1 % m
    else
      (fun h => if k % 2 = 0 then h * h % m else h * h % m * a % m) (pm' a m f (k / 2))

theorem pm'_eq (a m : Nat) : ∀ f k, pm' a m f k = pm a m f k
  | 0, _ => rfl
  | f + 1, k => by simp only [pm', pm, pm'_eq a m f]

theorem pm_eq (a m : Nat) : ∀ f k, k < 2 ^ f → pm a m f k = a ^ k % m
  | 0, k, h => by
    have : k = 0 := by simpa using h
    simp [pm, this]
  | f + 1, k, h => by
    have hk : k / 2 < 2 ^ f := by rw [pow_succ] at h; omega
    unfold pm
    split
    · simp [*]
    · rw [pm_eq a m f (k / 2) hk]
      split
      · rename_i h2
        conv_rhs => rw [show k = k / 2 + k / 2 by omega, pow_add, Nat.mul_mod]
      · rename_i h2
        conv_rhs => rw [show k = k / 2 + k / 2 + 1 by omega, pow_succ, pow_add]
        simp [Nat.mul_mod]

def check (bits p a : Nat) (fs : List Nat) : Bool :=
  decide (1 < p) && decide (p < 2 ^ bits) && decide (fs.prod = p - 1) && decide (pm' a p bits (p - 1) = 1) &&
    fs.all fun q => decide (pm' a p bits ((p - 1) / q) ≠ 1)

theorem prime_of_check (bits p a : Nat) (fs : List Nat) (hf : ∀ q ∈ fs, q.Prime)
    (h : check bits p a fs = true) : p.Prime := by
  simp only [check, Bool.and_eq_true, decide_eq_true_eq, List.all_eq_true, pm'_eq] at h
  obtain ⟨⟨⟨⟨h0, hb⟩, h1⟩, h2⟩, h3⟩ := h
  have one_mod : 1 % p = 1 := Nat.mod_eq_of_lt h0
  have key : ∀ k, k ≤ p - 1 → (((a : ZMod p) ^ k = 1) ↔ pm a p bits k = 1) := by
    intro k hk
    rw [pm_eq a p bits k (by omega)]
    rw [← Nat.cast_pow, ← Nat.cast_one, ZMod.natCast_eq_natCast_iff', one_mod]
  refine lucas_primality p (a : ZMod p) ((key _ le_rfl).2 h2) ?_
  intro q hq hd
  rw [Ne, key _ (Nat.div_le_self _ _)]
  rw [← h1, (Nat.prime_iff.mp hq).dvd_prod_iff] at hd
  obtain ⟨q', hm, hdq⟩ := hd
  have : q = q' := (Nat.prime_dvd_prime_iff_eq hq (hf _ hm)).1 hdq
  subst this
  exact h3 q hm

theorem prime_1361 : Nat.Prime 1361 :=
  prime_of_check 11 1361 3 [2, 2, 2, 2, 5, 17] (by
    simp only [List.mem_cons, List.not_mem_nil, or_false, forall_eq_or_imp, forall_eq]
    exact ⟨(by norm_num), (by norm_num), (by norm_num), (by norm_num), (by norm_num), (by norm_num)⟩) (by decide +kernel)

theorem prime_1723 : Nat.Prime 1723 :=
  prime_of_check 11 1723 3 [2, 3, 7, 41] (by
    simp only [List.mem_cons, List.not_mem_nil, or_false, forall_eq_or_imp, forall_eq]
    exact ⟨(by norm_num), (by norm_num), (by norm_num), (by norm_num)⟩) (by decide +kernel)

theorem prime_2551 : Nat.Prime 2551 :=
  prime_of_check 12 2551 6 [2, 3, 5, 5, 17] (by
    simp only [List.mem_cons, List.not_mem_nil, or_false, forall_eq_or_imp, forall_eq]
    exact ⟨(by norm_num), (by norm_num), (by norm_num), (by norm_num), (by norm_num)⟩) (by decide +kernel)

theorem prime_2851 : Nat.Prime 2851 :=
  prime_of_check 12 2851 2 [2, 3, 5, 5, 19] (by
    simp only [List.mem_cons, List.not_mem_nil, or_false, forall_eq_or_imp, forall_eq]
    exact ⟨(by norm_num), (by norm_num), (by norm_num), (by norm_num), (by norm_num)⟩) (by decide +kernel)

theorem prime_2939 : Nat.Prime 2939 :=
  prime_of_check 12 2939 2 [2, 13, 113] (by
    simp only [List.mem_cons, List.not_mem_nil, or_false, forall_eq_or_imp, forall_eq]
    exact ⟨(by norm_num), (by norm_num), (by norm_num)⟩) (by decide +kernel)

theorem prime_3797 : Nat.Prime 3797 :=
  prime_of_check 12 3797 2 [2, 2, 13, 73] (by
    simp only [List.mem_cons, List.not_mem_nil, or_false, forall_eq_or_imp, forall_eq]
    exact ⟨(by norm_num), (by norm_num), (by norm_num), (by norm_num)⟩) (by decide +kernel)

theorem prime_5879 : Nat.Prime 5879 :=
  prime_of_check 13 5879 11 [2, 2939] (by
    simp only [List.mem_cons, List.not_mem_nil, or_false, forall_eq_or_imp, forall_eq]
    exact ⟨(by norm_num), prime_2939⟩) (by decide +kernel)

theorem prime_17231 : Nat.Prime 17231 :=
  prime_of_check 15 17231 13 [2, 5, 1723] (by
    simp only [List.mem_cons, List.not_mem_nil, or_false, forall_eq_or_imp, forall_eq]
    exact ⟨(by norm_num), (by norm_num), prime_1723⟩) (by decide +kernel)

theorem prime_22111 : Nat.Prime 22111 :=
  prime_of_check 15 22111 6 [2, 3, 5, 11, 67] (by
    simp only [List.mem_cons, List.not_mem_nil, or_false, forall_eq_or_imp, forall_eq]
    exact ⟨(by norm_num), (by norm_num), (by norm_num), (by norm_num), (by norm_num)⟩) (by decide +kernel)

theorem prime_30703 : Nat.Prime 30703 :=
  prime_of_check 15 30703 3 [2, 3, 7, 17, 43] (by
    simp only [List.mem_cons, List.not_mem_nil, or_false, forall_eq_or_imp, forall_eq]
    exact ⟨(by norm_num), (by norm_num), (by norm_num), (by norm_num), (by norm_num)⟩) (by decide +kernel)

theorem prime_34123 : Nat.Prime 34123 :=
  prime_of_check 16 34123 2 [2, 3, 11, 11, 47] (by
    simp only [List.mem_cons, List.not_mem_nil, or_false, forall_eq_or_imp, forall_eq]
    exact ⟨(by norm_num), (by norm_num), (by norm_num), (by norm_num), (by norm_num)⟩) (by decide +kernel)

theorem prime_41081 : Nat.Prime 41081 :=
  prime_of_check 16 41081 3 [2, 2, 2, 5, 13, 79] (by
    simp only [List.mem_cons, List.not_mem_nil, or_false, forall_eq_or_imp, forall_eq]
    exact ⟨(by norm_num), (by norm_num), (by norm_num), (by norm_num), (by norm_num), (by norm_num)⟩) (by decide +kernel)

theorem prime_82163 : Nat.Prime 82163 :=
  prime_of_check 17 82163 2 [2, 41081] (by
    simp only [List.mem_cons, List.not_mem_nil, or_false, forall_eq_or_imp, forall_eq]
    exact ⟨(by norm_num), prime_41081⟩) (by decide +kernel)

theorem prime_132667 : Nat.Prime 132667 :=
  prime_of_check 18 132667 5 [2, 3, 22111] (by
    simp only [List.mem_cons, List.not_mem_nil, or_false, forall_eq_or_imp, forall_eq]
    exact ⟨(by norm_num), (by norm_num), prime_22111⟩) (by decide +kernel)

theorem prime_137849 : Nat.Prime 137849 :=
  prime_of_check 18 137849 3 [2, 2, 2, 17231] (by
    simp only [List.mem_cons, List.not_mem_nil, or_false, forall_eq_or_imp, forall_eq]
    exact ⟨(by norm_num), (by norm_num), (by norm_num), prime_17231⟩) (by decide +kernel)

theorem prime_409477 : Nat.Prime 409477 :=
  prime_of_check 19 409477 2 [2, 2, 3, 34123] (by
    simp only [List.mem_cons, List.not_mem_nil, or_false, forall_eq_or_imp, forall_eq]
    exact ⟨(by norm_num), (by norm_num), (by norm_num), prime_34123⟩) (by decide +kernel)

theorem prime_531581 : Nat.Prime 531581 :=
  prime_of_check 20 531581 2 [2, 2, 5, 7, 3797] (by
    simp only [List.mem_cons, List.not_mem_nil, or_false, forall_eq_or_imp, forall_eq]
    exact ⟨(by norm_num), (by norm_num), (by norm_num), (by norm_num), prime_3797⟩) (by decide +kernel)

theorem prime_1224481 : Nat.Prime 1224481 :=
  prime_of_check 21 1224481 13 [2, 2, 2, 2, 2, 3, 5, 2551] (by
    simp only [List.mem_cons, List.not_mem_nil, or_false, forall_eq_or_imp, forall_eq]
    exact ⟨(by norm_num), (by norm_num), (by norm_num), (by norm_num), (by norm_num), (by norm_num), (by norm_num), prime_2551⟩) (by decide +kernel)

theorem prime_14741173 : Nat.Prime 14741173 :=
  prime_of_check 24 14741173 2 [2, 2, 3, 3, 409477] (by
    simp only [List.mem_cons, List.not_mem_nil, or_false, forall_eq_or_imp, forall_eq]
    exact ⟨(by norm_num), (by norm_num), (by norm_num), (by norm_num), prime_409477⟩) (by decide +kernel)

theorem prime_58964693 : Nat.Prime 58964693 :=
  prime_of_check 26 58964693 2 [2, 2, 14741173] (by
    simp only [List.mem_cons, List.not_mem_nil, or_false, forall_eq_or_imp, forall_eq]
    exact ⟨(by norm_num), (by norm_num), prime_14741173⟩) (by decide +kernel)

theorem prime_292386187 : Nat.Prime 292386187 :=
  prime_of_check 29 292386187 2 [2, 3, 3, 3, 3, 307, 5879] (by
    simp only [List.mem_cons, List.not_mem_nil, or_false, forall_eq_or_imp, forall_eq]
    exact ⟨(by norm_num), (by norm_num), (by norm_num), (by norm_num), (by norm_num), (by norm_num), prime_5879⟩) (by decide +kernel)

theorem prime_213441916511 : Nat.Prime 213441916511 :=
  prime_of_check 38 213441916511 13 [2, 5, 73, 292386187] (by
    simp only [List.mem_cons, List.not_mem_nil, or_false, forall_eq_or_imp, forall_eq]
    exact ⟨(by norm_num), (by norm_num), (by norm_num), prime_292386187⟩) (by decide +kernel)

theorem prime_1257559732178653 : Nat.Prime 1257559732178653 :=
  prime_of_check 51 1257559732178653 2 [2, 2, 3, 7, 23, 1224481, 531581] (by
    simp only [List.mem_cons, List.not_mem_nil, or_false, forall_eq_or_imp, forall_eq]
    exact ⟨(by norm_num), (by norm_num), (by norm_num), (by norm_num), (by norm_num), prime_1224481, prime_531581⟩) (by decide +kernel)

theorem prime_4434155615661930479 : Nat.Prime 4434155615661930479 :=
  prime_of_check 62 4434155615661930479 17 [2, 41, 43, 1257559732178653] (by
    simp only [List.mem_cons, List.not_mem_nil, or_false, forall_eq_or_imp, forall_eq]
    exact ⟨(by norm_num), (by norm_num), (by norm_num), prime_1257559732178653⟩) (by decide +kernel)

theorem prime_3044861653679985063343 : Nat.Prime 3044861653679985063343 :=
  prime_of_check 72 3044861653679985063343 5 [2, 3, 11, 30703, 82163, 137849, 132667] (by
    simp only [List.mem_cons, List.not_mem_nil, or_false, forall_eq_or_imp, forall_eq]
    exact ⟨(by norm_num), (by norm_num), (by norm_num), prime_30703, prime_82163, prime_137849, prime_132667⟩) (by decide +kernel)

theorem prime_172054593956031949258510691 : Nat.Prime 172054593956031949258510691 :=
  prime_of_check 88 172054593956031949258510691 2 [2, 5, 1361, 2851, 4434155615661930479] (by
    simp only [List.mem_cons, List.not_mem_nil, or_false, forall_eq_or_imp, forall_eq]
    exact ⟨(by norm_num), (by norm_num), prime_1361, prime_2851, prime_4434155615661930479⟩) (by decide +kernel)

theorem prime_198211423230930754013084525763697 : Nat.Prime 198211423230930754013084525763697 :=
  prime_of_check 108 198211423230930754013084525763697 5 [2, 2, 2, 2, 3, 23, 58964693, 3044861653679985063343] (by
    simp only [List.mem_cons, List.not_mem_nil, or_false, forall_eq_or_imp, forall_eq]
    exact ⟨(by norm_num), (by norm_num), (by norm_num), (by norm_num), (by norm_num), (by norm_num), prime_58964693, prime_3044861653679985063343⟩) (by decide +kernel)

theorem prime_19757330305831588566944191468367130476339 : Nat.Prime 19757330305831588566944191468367130476339 :=
  prime_of_check 134 19757330305831588566944191468367130476339 2 [2, 269, 213441916511, 172054593956031949258510691] (by
    simp only [List.mem_cons, List.not_mem_nil, or_false, forall_eq_or_imp, forall_eq]
    exact ⟨(by norm_num), (by norm_num), prime_213441916511, prime_172054593956031949258510691⟩) (by decide +kernel)

theorem prime_276602624281642239937218680557139826668747 : Nat.Prime 276602624281642239937218680557139826668747 :=
  prime_of_check 138 276602624281642239937218680557139826668747 2 [2, 7, 19757330305831588566944191468367130476339] (by
    simp only [List.mem_cons, List.not_mem_nil, or_false, forall_eq_or_imp, forall_eq]
    exact ⟨(by norm_num), (by norm_num), prime_19757330305831588566944191468367130476339⟩) (by decide +kernel)

theorem prime_7237005577332262213973186563042994240857116359379907606001950938285454250989 : Nat.Prime 7237005577332262213973186563042994240857116359379907606001950938285454250989 :=
  prime_of_check 253 7237005577332262213973186563042994240857116359379907606001950938285454250989 2 [2, 2, 3, 11, 198211423230930754013084525763697, 276602624281642239937218680557139826668747] (by
    simp only [List.mem_cons, List.not_mem_nil, or_false, forall_eq_or_imp, forall_eq]
    exact ⟨(by norm_num), (by norm_num), (by norm_num), (by norm_num), prime_198211423230930754013084525763697, prime_276602624281642239937218680557139826668747⟩) (by decide +kernel)

/-- Order of the Ristretto group (RFC 9496). -/
def ell : Nat := 2 ^ 252 + 27742317777372353535851937790883648493

theorem ell_prime : Nat.Prime ell := prime_7237005577332262213973186563042994240857116359379907606001950938285454250989

theorem ell_lt : ell < 256 ^ 32 := by decide +kernel

theorem ell_lt_253 : ell < 2 ^ 253 := by decide +kernel

theorem two64_lt_ell : 2 ^ 64 < ell := by decide +kernel

attribute [irreducible] ell

instance : Fact (Nat.Prime ell) := ⟨ell_prime⟩

end Dusk.PrimeEll
