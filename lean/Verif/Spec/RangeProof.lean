import Verif.Model.RangeProof
import Verif.Spec.IPA
import Verif.Spec.Chain
/-!
# Specification of the range proof
-/

namespace Dusk.RP

variable {F G : Type} [Field F] [AddCommGroup G] [Module F G]

/-- The public points: the two generator vectors, the value base and the blinding base. -/
structure Pub (G : Type) where
  Gv : List G
  Hv : List G
  B : G
  Bl : G

/-- The public points of the scheme for vectors of length `n`. -/
def pub (R : Ristretto F G) (n : Nat) : Pub G where
  Gv := chain R (strBytes "dusk.BulletProof.vec1") n
  Hv := chain R (strBytes "dusk.BulletProof.vec1" ++ [1]) n
  B := R.pDerive (strBytes "blindPoint")
  Bl := R.base

/-- `D(y,z) = (z - z²) ∑ y^i - z³ (∑ 2^i) (∑ z^j)`. -/
def delta (y z : F) (m : Nat) : F :=
  (z - z ^ 2) * ∑ i ∈ Finset.range (64 * m), y ^ i -
    z ^ 3 * (∑ i ∈ Finset.range 64, (2 : F) ^ i) * ∑ j ∈ Finset.range m, z ^ j

/-- The verifier's challenges. -/
structure Chal (F : Type) where
  y : F
  z : F
  x : F
  w : F

/-- How far the commitments `V`, `T1`, `T2` are from committing to the value `t` of the polynomial at `x`:
`(t - D) B + taux Bl - ∑ z^(j+2) V_j - x T1 - x² T2`. -/
def residue1 (P : Pub G) (m : Nat) (ch : Chal F) (p : Proof F G) : G :=
  (p.t - delta ch.y ch.z m) • P.B + p.taux • P.Bl
    - ∑ j ∈ Finset.range m, ch.z ^ (j + 2) • ((p.V.map fun V => V.value).getD j 0)
    - ch.x • p.T1 - ch.x ^ 2 • p.T2

/-- `y^-i`; for `y = 0` the code's powers of the (zero) inverse are all zero, including the zeroth. -/
def invPow [DecidableEq F] (y : F) (i : Nat) : F := if y = 0 then 0 else (y⁻¹) ^ i

/-- How far `A + x S` is from being opened by the inner product proof with folding challenges `us`:
`∑ (a s_i + z) G_i + ∑ ((b s_i⁻¹ - z^(j+2) 2^k) y^-i - z) H_i + w (a b - t) B + mu Bl - A - x S - ∑ u² L - ∑ u⁻² R`. -/
def residue2 [DecidableEq F] (P : Pub G) (m : Nat) (ch : Chal F) (us : List F) (p : Proof F G) (ip : IP.Proof F G) : G :=
  (∑ i ∈ Finset.range (64 * m), (ip.A * IP.weight us i + ch.z) • P.Gv.getD i 0)
    + (∑ i ∈ Finset.range (64 * m),
        ((ip.B * (IP.weight us i)⁻¹ - ch.z ^ (i / 64 + 2) * 2 ^ (i % 64)) * invPow ch.y i - ch.z) • P.Hv.getD i 0)
    + (ch.w * (ip.A * ip.B - p.t)) • P.B + p.mu • P.Bl - p.A - ch.x • p.S
    - ((List.zipWith (fun u L => (u * u) • L) us ip.L).sum
        + (List.zipWith (fun u R => (u⁻¹ * u⁻¹) • R) us ip.R).sum)

/-- The transcript: `y = H(V‖A‖S)`, `z = H(y)`, `x = H(V‖A‖S‖z‖T1‖T2)`, `w = H(V‖A‖S‖z‖T1‖T2‖x‖taux‖mu‖t)`. -/
def chalOf (R : Ristretto F G) (p : Proof F G) : Chal F :=
  let t0 := (p.V.flatMap fun V => R.pBytes V.value) ++ R.pBytes p.A ++ R.pBytes p.S
  let y := R.sDerive t0
  let z := R.sDerive (R.sBytes y)
  let t1 := t0 ++ R.sBytes z ++ R.pBytes p.T1 ++ R.pBytes p.T2
  let x := R.sDerive t1
  let t2 := t1 ++ R.sBytes x ++ R.sBytes p.taux ++ R.sBytes p.mu ++ R.sBytes p.t
  ⟨y, z, x, R.sDerive t2⟩

/-! ## The honest prover

The protocol of the Bulletproofs paper for `m` values with given random coins: bit `i % 64` of value `i / 64` is the
`i`-th entry of `a_L`. -/

/-- The `i`-th bit of the list of values. -/
def bit (R : Ristretto F G) (v : List F) (i : Nat) : F := if (R.sNat (v.getD (i / 64) 0)).testBit (i % 64) then 1 else 0

/-- Coefficients of `l(x) = l0 + l1 x` and `r(x) = r0 + r1 x`; `l1 = s_L`. -/
def l0At (R : Ristretto F G) (v : List F) (z : F) (i : Nat) : F := bit R v i - z
def r0At (R : Ristretto F G) (v : List F) (y z : F) (i : Nat) : F :=
  y ^ i * (bit R v i - 1 + z) + z ^ (i / 64 + 2) * 2 ^ (i % 64)
def r1At (y : F) (sR : Nat → F) (i : Nat) : F := y ^ i * sR i

/-- `p` with inner product proof `ip` is the proof for the values `v` (padded with zeros to `m` values) and the coins. -/
structure Honest [DecidableEq F] (R : Ristretto F G) (m : Nat) (v : List F) (coins : Coins F) (p : Proof F G)
    (ip : IP.Proof F G) : Prop where
  V : p.V = (List.range m).map fun j =>
    ⟨v.getD j 0 • (pub R (64 * m)).B + coins.vBlind j • (pub R (64 * m)).Bl, coins.vBlind j⟩
  A : p.A = coins.aBlind • (pub R (64 * m)).Bl + ∑ i ∈ Finset.range (64 * m),
    (bit R v i • (pub R (64 * m)).Gv.getD i 0 + (bit R v i - 1) • (pub R (64 * m)).Hv.getD i 0)
  S : p.S = coins.sBlind • (pub R (64 * m)).Bl + ∑ i ∈ Finset.range (64 * m),
    (coins.sL i • (pub R (64 * m)).Gv.getD i 0 + coins.sR i • (pub R (64 * m)).Hv.getD i 0)
  T1 : p.T1 = (∑ i ∈ Finset.range (64 * m), (coins.sL i * r0At R v (chalOf R p).y (chalOf R p).z i +
    l0At R v (chalOf R p).z i * r1At (chalOf R p).y coins.sR i)) • (pub R (64 * m)).B + coins.t1Blind • (pub R (64 * m)).Bl
  T2 : p.T2 = (∑ i ∈ Finset.range (64 * m), coins.sL i * r1At (chalOf R p).y coins.sR i) • (pub R (64 * m)).B +
    coins.t2Blind • (pub R (64 * m)).Bl
  taux : p.taux = (chalOf R p).x * coins.t1Blind + (chalOf R p).x ^ 2 * coins.t2Blind +
    ∑ j ∈ Finset.range m, (chalOf R p).z ^ (j + 2) * coins.vBlind j
  mu : p.mu = coins.aBlind + (chalOf R p).x * coins.sBlind
  t : p.t = ∑ i ∈ Finset.range (64 * m), (l0At R v (chalOf R p).z i + coins.sL i * (chalOf R p).x) *
    (r0At R v (chalOf R p).y (chalOf R p).z i + r1At (chalOf R p).y coins.sR i * (chalOf R p).x)
  hasIp : p.ip = some ip
  gen : IP.generate R (pub R (64 * m)).Gv (pub R (64 * m)).Hv
    ((List.range (64 * m)).map fun i => l0At R v (chalOf R p).z i + coins.sL i * (chalOf R p).x)
    ((List.range (64 * m)).map fun i => r0At R v (chalOf R p).y (chalOf R p).z i +
      r1At (chalOf R p).y coins.sR i * (chalOf R p).x)
    ((List.range (64 * m)).map (invPow (chalOf R p).y)) ((chalOf R p).w • (pub R (64 * m)).B) = .ok ip

end Dusk.RP
