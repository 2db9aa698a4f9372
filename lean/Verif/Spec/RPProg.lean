import Verif.Model.RPProg
import Verif.Spec.RangeProof
/-!
# What a call of rangeproof.Prove may see and do while `M` changes
-/

namespace Dusk.RP

namespace Prog

variable {α : Type}

/-- `r` is the result for some values of the reads, all of them in `D`. -/
def Out (D : Nat → Prop) : Prog α → Res α → Prop
  | done r', r => r = r'
  | read k, r => ∃ m, D m ∧ Out D (k m) r
  | write _ p, r => Out D p r

end Prog

/-- Values of `M` that do not overflow the 32-bit counters. -/
def Usual (m : Nat) : Prop := 1 ≤ m ∧ 64 * m < 2 ^ 32

variable {F G : Type} [Field F] [AddCommGroup G] [Module F G]

/-- Element `i` of the vector `z² 2^n, z³ 2^n, …` where the elements outside `W` are missing. -/
def maskAt (W : Nat → Bool) (z : F) (i : Nat) : F := if W i then z ^ (i / 64 + 2) * 2 ^ (i % 64) else 0

/-- The missing elements. -/
def missAt (W : Nat → Bool) (z : F) (i : Nat) : F := if W i then 0 else z ^ (i / 64 + 2) * 2 ^ (i % 64)

/-- `r₀` with missing elements. -/
def r0AtS (R : Ristretto F G) (v : List F) (W : Nat → Bool) (y z : F) (i : Nat) : F :=
  y ^ i * (bit R v i - 1 + z) + maskAt W z i

/-- Coins of which only the first `c` blinding scalars are used. -/
def cut (coins : Coins F) (c : Nat) : Coins F :=
  { coins with sL := fun i => if i < c then coins.sL i else 0, sR := fun i => if i < c then coins.sR i else 0 }

/-- As `Honest`, with `r₀` lacking the elements outside `W`. -/
structure Disturbed [DecidableEq F] (R : Ristretto F G) (m : Nat) (v : List F) (coins : Coins F) (W : Nat → Bool) (p : Proof F G)
    (ip : IP.Proof F G) : Prop where
  V : p.V = (List.range m).map fun j =>
    ⟨v.getD j 0 • (pub R (64 * m)).B + coins.vBlind j • (pub R (64 * m)).Bl, coins.vBlind j⟩
  A : p.A = coins.aBlind • (pub R (64 * m)).Bl + ∑ i ∈ Finset.range (64 * m),
    (bit R v i • (pub R (64 * m)).Gv.getD i 0 + (bit R v i - 1) • (pub R (64 * m)).Hv.getD i 0)
  S : p.S = coins.sBlind • (pub R (64 * m)).Bl + ∑ i ∈ Finset.range (64 * m),
    (coins.sL i • (pub R (64 * m)).Gv.getD i 0 + coins.sR i • (pub R (64 * m)).Hv.getD i 0)
  T1 : p.T1 = (∑ i ∈ Finset.range (64 * m), (coins.sL i * r0AtS R v W (chalOf R p).y (chalOf R p).z i +
    l0At R v (chalOf R p).z i * r1At (chalOf R p).y coins.sR i)) • (pub R (64 * m)).B + coins.t1Blind • (pub R (64 * m)).Bl
  T2 : p.T2 = (∑ i ∈ Finset.range (64 * m), coins.sL i * r1At (chalOf R p).y coins.sR i) • (pub R (64 * m)).B +
    coins.t2Blind • (pub R (64 * m)).Bl
  taux : p.taux = (chalOf R p).x * coins.t1Blind + (chalOf R p).x ^ 2 * coins.t2Blind +
    ∑ j ∈ Finset.range m, (chalOf R p).z ^ (j + 2) * coins.vBlind j
  mu : p.mu = coins.aBlind + (chalOf R p).x * coins.sBlind
  t : p.t = ∑ i ∈ Finset.range (64 * m), (l0At R v (chalOf R p).z i + coins.sL i * (chalOf R p).x) *
    (r0AtS R v W (chalOf R p).y (chalOf R p).z i + r1At (chalOf R p).y coins.sR i * (chalOf R p).x)
  hasIp : p.ip = some ip
  gen : IP.generate R (pub R (64 * m)).Gv (pub R (64 * m)).Hv
    ((List.range (64 * m)).map fun i => l0At R v (chalOf R p).z i + coins.sL i * (chalOf R p).x)
    ((List.range (64 * m)).map fun i => r0AtS R v W (chalOf R p).y (chalOf R p).z i +
      r1At (chalOf R p).y coins.sR i * (chalOf R p).x)
    ((List.range (64 * m)).map (invPow (chalOf R p).y)) ((chalOf R p).w • (pub R (64 * m)).B) = .ok ip

end Dusk.RP
