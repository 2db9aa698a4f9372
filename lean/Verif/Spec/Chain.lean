import Verif.Model.Ristretto
/-!
# Specification of generator chains
-/

namespace Dusk

variable {F G : Type} [Field F] [AddCommGroup G] [Module F G]

/-- `i`-th element of the hash chain started at `data`: `d₀ = Derive(data)`, `dᵢ₊₁ = Derive(bytes dᵢ)`. -/
def chainAt (R : Ristretto F G) (data : Bytes) : Nat → G
  | 0 => R.pDerive data
  | i + 1 => R.pDerive (R.pBytes (chainAt R data i))

/-- The first `k` elements. -/
def chain (R : Ristretto F G) (data : Bytes) (k : Nat) : List G := (List.range k).map (chainAt R data)

@[simp] theorem chain_length (R : Ristretto F G) (data : Bytes) (k : Nat) : (chain R data k).length = k := by
  simp [chain]

theorem chain_succ (R : Ristretto F G) (data : Bytes) (k : Nat) :
    chain R data (k + 1) = chain R data k ++ [chainAt R data k] := by
  simp [chain, List.range_succ]

theorem chain_take (R : Ristretto F G) (data : Bytes) {j k : Nat} (h : j ≤ k) :
    (chain R data k).take j = chain R data j := by
  simp [chain, ← List.map_take, List.take_range, Nat.min_eq_left h]

end Dusk
