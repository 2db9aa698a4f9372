import Verif.Spec.Oracle
import Verif.Spec.RPSound
/-!
# Provers against the hash function, in the algebraic group model

The hash to scalars is a random oracle (`Spec/Oracle`). With a question that contains an encoded point the prover gives coefficients of
the point over the public points, that is, it says how it has computed the point from them. After `Q` questions
of the prover, the verifier asks for the challenges; the last coin is the verifier's random scalar `c`.
-/

namespace Dusk.RP

variable {F G : Type} [Field F] [AddCommGroup G] [Module F G] [DecidableEq F]

/-- The points and scalars in a string: blocks of 32 bytes. -/
def blk (s : Bytes) (i : Nat) : Bytes := (s.drop (32 * i)).take 32

def blocks (s : Bytes) : List Bytes := (List.range (s.length / 32)).map (blk s)

/-- A prover: the next question, the proof in the end, and the coefficients of the points in a question. -/
structure AlgProver (F G : Type) where
  next : Oracle.Log F → Bytes
  out : Oracle.Log F → Proof F G
  rep : Oracle.Log F → Bytes → Coef F

/-! ## The inputs of the hash in `Verify` -/

def strY (R : Ristretto F G) (p : Proof F G) : Bytes := (p.V.flatMap fun V => R.pBytes V.value) ++ R.pBytes p.A ++ R.pBytes p.S

def strX (R : Ristretto F G) (h : Bytes → F) (p : Proof F G) : Bytes :=
  strY R p ++ R.sBytes (h (R.sBytes (h (strY R p)))) ++ R.pBytes p.T1 ++ R.pBytes p.T2

def strW (R : Ristretto F G) (h : Bytes → F) (p : Proof F G) : Bytes :=
  strX R h p ++ R.sBytes (h (strX R h p)) ++ R.sBytes p.taux ++ R.sBytes p.mu ++ R.sBytes p.t

def strU (R : Ristretto F G) (ip : IP.Proof F G) (j : Nat) : Bytes :=
  ((ip.L.zip ip.R).take (j + 1)).flatMap fun q => R.pBytes q.1 ++ R.pBytes q.2

/-- The inner product proof, or an empty one. -/
def Proof.inner (p : Proof F G) : IP.Proof F G := p.ip.getD ⟨[], [], 0, 0⟩

/-- What the verifier asks. -/
def verifierAsks (R : Ristretto F G) (h : Bytes → F) (p : Proof F G) : Nat → Bytes
  | 0 => strY R p
  | 1 => R.sBytes (h (strY R p))
  | 2 => strX R h p
  | 3 => strW R h p
  | j + 4 => strU R p.inner j

/-- The prover asks `Q` questions, then the verifier asks. -/
def AlgProver.question (A : AlgProver F G) (R : Ristretto F G) (Q : Nat) (log : Oracle.Log F) : Bytes :=
  if log.length < Q then A.next log else verifierAsks R log.hash (A.out (log.take Q)) (log.length - Q)

def AlgProver.game (A : AlgProver F G) (R : Ristretto F G) (Q : Nat) (coins : List F) : Oracle.Log F :=
  Oracle.play (A.question R Q) coins

/-- The coefficients given with the first question that contains the block. -/
def repFrom (rep : Oracle.Log F → Bytes → Coef F) : Oracle.Log F → Oracle.Log F → Bytes → Coef F
  | _, [], _ => 0
  | past, e :: rest, b => if b ∈ blocks e.1 then rep past b else repFrom rep (past ++ [e]) rest b

def AlgProver.coef (A : AlgProver F G) (log : Oracle.Log F) (b : Bytes) : Coef F := repFrom A.rep [] log b

/-- The points of a proof. -/
def Proof.points (p : Proof F G) : List G := p.V.map (fun V => V.value) ++ [p.A, p.S, p.T1, p.T2] ++ p.inner.L ++ p.inner.R

/-- The coefficients given for the points of the proof are coefficients of these points. -/
def Explains (R : Ristretto F G) (n : Nat) (κ : Bytes → Coef F) (p : Proof F G) : Prop :=
  ∀ P ∈ p.points, ev (pub R n) n (κ (R.pBytes P)) = P

/-! ## What it means to break soundness -/

/-- The challenges. -/
def chalAt (R : Ristretto F G) (h : Bytes → F) (p : Proof F G) : Chal F :=
  ⟨h (strY R p), h (R.sBytes (h (strY R p))), h (strX R h p), h (strW R h p)⟩

def foldAt (R : Ristretto F G) (h : Bytes → F) (ip : IP.Proof F G) : List F :=
  (List.range (ip.L.zip ip.R).length).map fun j => h (strU R ip j)

/-- Coefficients of the first residue of the check of `Verify`. -/
def rel1 (R : Ristretto F G) (κ : Bytes → Coef F) (m : Nat) (ch : Chal F) (p : Proof F G) : Coef F :=
  ((0 : Nat → F), (0 : Nat → F), p.t - delta ch.y ch.z m, p.taux)
    - ∑ j ∈ Finset.range m, ch.z ^ (j + 2) • κ (R.pBytes ((p.V.map fun V => V.value).getD j 0))
    - ch.x • κ (R.pBytes p.T1) - ch.x ^ 2 • κ (R.pBytes p.T2)

/-- Coefficients of the second residue. -/
def rel2 (R : Ristretto F G) (κ : Bytes → Coef F) (ch : Chal F) (us : List F) (p : Proof F G) (ip : IP.Proof F G) : Coef F :=
  (fun i => ip.A * IP.weight us i + ch.z,
   fun i => (ip.B * (IP.weight us i)⁻¹ - ch.z ^ (i / 64 + 2) * 2 ^ (i % 64)) * invPow ch.y i - ch.z,
   ch.w * (ip.A * ip.B - p.t), p.mu)
    - κ (R.pBytes p.A) - ch.x • κ (R.pBytes p.S)
    - ∑ j ∈ Finset.range us.length, ((us.getD j 0 * us.getD j 0) • κ (R.pBytes (ip.L.getD j 0))
        + ((us.getD j 0)⁻¹ * (us.getD j 0)⁻¹) • κ (R.pBytes (ip.R.getD j 0)))

/-- The relation between the public points that an accepted proof gives, together with the coefficients of its points. -/
def relation (R : Ristretto F G) (h : Bytes → F) (κ : Bytes → Coef F) (m : Nat) (p : Proof F G) (c : F) : Coef F :=
  rel1 R κ m (chalAt R h p) p + c • rel2 R κ (chalAt R h p) (foldAt R h p.inner) p p.inner

/-- The coefficients of all commitments are openings to values below `2^64`. -/
def Knows (R : Ristretto F G) (κ : Bytes → Coef F) (m : Nat) (p : Proof F G) : Prop :=
  ∀ j < m, let ρ := κ (R.pBytes ((p.V.map fun V => V.value).getD j 0))
    (∀ i < 64 * m, ρ.1 i = 0) ∧ (∀ i < 64 * m, ρ.2.1 i = 0) ∧ ∃ N < 2 ^ 64, ρ.2.2.1 = ((N : Nat) : F)

/-- `T` questions, `m` values, `k` rounds: a bound for the number of answers to one question that help the prover. -/
def luckyAnswers (k m T : Nat) : Nat := 3 + 3 * T + 3 * T * (T + 1) * (128 * m ^ 2 + 1280 * m * k + 1665 * m + 2 * k + 12)

end Dusk.RP
