import Verif.Lemmas.ListAlg
/-!
# Specification of the inner product argument
-/

namespace Dusk.IP

variable {F G : Type} [Field F] [AddCommGroup G] [Module F G]

/-- Folding weight of index `i` for challenges `u₀ … u_{k-1}`: the product over `j` of `u_j` if bit `k-1-j` of `i` is
set, and of `u_j⁻¹` otherwise. -/
def weight (us : List F) (i : Nat) : F :=
  ∏ j ∈ Finset.range us.length,
    if i.testBit (us.length - 1 - j) then us.getD j 0 else (us.getD j 0)⁻¹

/-- The statement proved by an inner product proof: `P = <a,G> + <b ∘ h', H> + <a,b> Q`. -/
def commitPoint (Gv Hv : List G) (hpf : List F) (Q : G) (a b : List F) : G :=
  msm a Gv + msm (had b hpf) Hv + dot a b • Q

/-- The challenges: `u_j` is the hash of the encodings of `L_0, R_0, …, L_j, R_j`. -/
def challenges (R : Ristretto F G) (Ls Rs : List G) : List F :=
  (List.range (Ls.zip Rs).length).map fun j =>
    R.sDerive (((Ls.zip Rs).take (j + 1)).flatMap fun p => R.pBytes p.1 ++ R.pBytes p.2)

end Dusk.IP
