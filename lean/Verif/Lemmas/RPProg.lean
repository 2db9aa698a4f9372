import Verif.Model.RPProg
import Verif.Lemmas.RPTop
/-!
# Programs with access to `M`: constant reads
-/

set_option linter.unusedSectionVars false

namespace Dusk.RP

namespace Prog

variable {α β γ : Type}

/-- The result if every read yields `m`. -/
def eval (m : Nat) : Prog α → Res α
  | done r => r
  | read k => eval m (k m)
  | write _ p => eval m p

/-- If every read yields `m`, then only `m` is written. -/
def Keeps (m : Nat) : Prog α → Prop
  | done _ => True
  | read k => Keeps m (k m)
  | write m' p => m' = m ∧ Keeps m p

/-- The program does not write. -/
def Quiet : Prog α → Prop
  | done _ => True
  | read k => ∀ m, Quiet (k m)
  | write _ _ => False

theorem eval_bind (m : Nat) (p : Prog α) (f : α → Prog β) : eval m (p.bind f) = (eval m p).bind fun a => eval m (f a) := by
  induction p with
  | done r => cases r <;> rfl
  | read k ih => exact ih m
  | write m' p ih => exact ih

theorem eval_lift (m : Nat) (r : Res α) : eval m (lift r) = r := rfl

theorem eval_get (m : Nat) : eval m get = .ok m := rfl

theorem eval_get_bind (m : Nat) (f : Nat → Prog β) : eval m (get.bind f) = eval m (f m) := rfl

theorem quiet_bind {p : Prog α} {f : α → Prog β} (hp : Quiet p) (hf : ∀ a, Quiet (f a)) : Quiet (p.bind f) := by
  induction p with
  | done r =>
    cases r with
    | ok a => exact hf a
    | err e => trivial
    | panic => trivial
  | read k ih => exact fun m => ih m (hp m)
  | write m' p ih => exact hp.elim

theorem quiet_lift (r : Res α) : Quiet (lift r) := trivial
theorem quiet_get : Quiet get := fun _ => trivial

theorem Quiet.keeps {p : Prog α} (h : Quiet p) (m : Nat) : Keeps m p := by
  induction p with
  | done r => trivial
  | read k ih => exact ih m (h m)
  | write m' p ih => exact h.elim

theorem keeps_run {m : Nat} {p : Prog α} (h : Keeps m p) : run m p = (m, eval m p) := by
  induction p with
  | done r => rfl
  | read k ih => exact ih m h
  | write m' p ih => rw [run, h.1]; exact ih h.2

theorem keeps_step {m : Nat} {p : Prog α} (h : Keeps m p) :
    (step m p).1 = m ∧ Keeps m (step m p).2 ∧ eval m (step m p).2 = eval m p := by
  cases p with
  | done r => exact ⟨rfl, trivial, rfl⟩
  | read k => exact ⟨rfl, h, rfl⟩
  | write m' p => exact ⟨h.1, h.2, rfl⟩

end Prog

open Prog

theorem Calls.step_self {ι : Type} [DecidableEq ι] {τ : ι → Type} (s : Calls ι τ) (i : ι) :
    (s.step i).prog i = ((s.prog i).step s.M).2 := Function.update_self ..

theorem Calls.step_other {ι : Type} [DecidableEq ι] {τ : ι → Type} (s : Calls ι τ) {i j : ι} (h : j ≠ i) :
    (s.step i).prog j = s.prog j := Function.update_of_ne h ..

/-- If all calls keep `M`, every call has the result it has for constant reads, in every interleaving. -/
theorem Calls.exec_keeps {ι : Type} [DecidableEq ι] {τ : ι → Type} (m : Nat) (sched : List ι) : ∀ s : Calls ι τ, s.M = m →
    (∀ i, Keeps m (s.prog i)) →
    (s.exec sched).M = m ∧ ∀ i, Keeps m ((s.exec sched).prog i) ∧ eval m ((s.exec sched).prog i) = eval m (s.prog i) := by
  induction sched with
  | nil => exact fun s h hk => ⟨h, fun i => ⟨hk i, rfl⟩⟩
  | cons j sched ih =>
    intro s h hk
    obtain ⟨a, b, c⟩ := keeps_step (hk j)
    have hs : (s.step j).M = m := by
      unfold Calls.step
      rw [h]; exact a
    have hj : ∀ i, Keeps m ((s.step j).prog i) ∧ eval m ((s.step j).prog i) = eval m (s.prog i) := by
      intro i
      unfold Calls.step
      dsimp only
      by_cases hi : i = j
      · subst hi
        rw [Function.update_self, h]
        exact ⟨b, c⟩
      · rw [Function.update_of_ne hi]
        exact ⟨hk i, rfl⟩
    obtain ⟨i1, i2⟩ := ih (s.step j) hs fun i => (hj i).1
    exact ⟨i1, fun i => ⟨(i2 i).1, (i2 i).2.trans (hj i).2⟩⟩

variable {F G : Type} [Field F] [DecidableEq F]

theorem sumInner_after (zM twoN : List F) (i : Nat) : ∀ (k j : Nat) (acc : F), i / nBits + 2 ≤ j → sumInner zM twoN i k j acc = .ok acc
  | 0, _, _, _ => rfl
  | k + 1, j, acc, h => by
    rw [sumInner, if_neg, sumInner_after zM twoN i k (j + 1) acc (by omega)]
    unfold nBits at *
    omega

theorem sumInnerP_eval (zM twoN : List F) (i m : Nat) : ∀ (k k' j : Nat) (acc : F), j + k = i / nBits + 2 → j + k' = m + 1 → k ≤ k' →
    eval m (sumInnerP zM twoN i k j acc) = sumInner zM twoN i k' j acc
  | 0, k', j, acc, h, _, _ => by
    rw [sumInner_after zM twoN i k' j acc (by omega)]
    rfl
  | k + 1, 0, j, acc, _, _, h => by omega
  | k + 1, k' + 1, j, acc, h1, h2, h3 => by
    rw [sumInnerP, eval_get_bind, if_pos (by omega), sumInner]
    split
    · simp only [eval_bind, eval_lift]
      congr 1; funext a; congr 1; funext b
      exact sumInnerP_eval zM twoN i m k k' (j + 1) _ (by omega) (by omega) (by omega)
    · exact sumInnerP_eval zM twoN i m k k' (j + 1) _ (by omega) (by omega) (by omega)

theorem mapRes_cons {α β : Type} (f : α → Res β) (a : α) (l : List α) :
    mapRes f (a :: l) = (f a).bind fun b => (mapRes f l).bind fun bs => .ok (b :: bs) := rfl

theorem sumOuterP_eval (zM twoN : List F) (m : Nat) : ∀ (k i : Nat) (acc : List F), i + k = m * nBits →
    eval m (sumOuterP zM twoN k i acc) =
      (mapRes (fun i => sumInner zM twoN i m 1 0) (List.range' i k)).bind fun l => .ok (acc ++ l)
  | 0, i, acc, h => by
    rw [sumOuterP, eval_get_bind, if_neg (by omega)]
    simp [mapRes, eval_lift]
  | k + 1, i, acc, h => by
    have hlt : i / nBits < m := by
      rw [Nat.div_lt_iff_lt_mul (by decide)]
      omega
    rw [sumOuterP, eval_get_bind, if_pos (by omega), eval_bind, List.range'_succ, mapRes_cons,
      sumInnerP_eval zM twoN i m (i / nBits + 1) m 1 0 (by omega) (by omega) (by omega)]
    cases sumInner zM twoN i m 1 0 with
    | err e => rfl
    | panic => rfl
    | ok x =>
      rw [Res.bind_ok, Res.bind_ok, sumOuterP_eval zM twoN m k (i + 1) _ (by omega)]
      cases mapRes (fun i => sumInner zM twoN i m 1 0) (List.range' (i + 1) k) with
      | err e => rfl
      | panic => rfl
      | ok l => simp

theorem sumZMTwoNP_eval (z : F) (m : Nat) : eval m (sumZMTwoNP z) = sumZMTwoN z m := by
  unfold sumZMTwoNP sumZMTwoN
  rw [eval_get_bind, eval_get_bind, sumOuterP_eval _ _ _ _ _ _ (by rw [Nat.mul_comm m]; omega), List.range_eq_range',
    Nat.mul_comm nBits]
  dsimp only
  cases mapRes (fun i => sumInner (Vec.scalarPowers z ((m + 3) % 2 ^ 32)) (Vec.scalarPowers 2 nBits) i m 1 0)
    (List.range' 0 (m * nBits)) <;> rfl

theorem computePolyP_eval (aL aR sL sR : List F) (y z : F) (m : Nat) :
    eval m (computePolyP aL aR sL sR y z) = computePoly m m aL aR sL sR y z := by
  unfold computePolyP computePoly
  dsimp only
  rw [eval_get_bind, eval_bind, sumZMTwoNP_eval]
  rfl

theorem sLoopP_eval (m : Nat) : ∀ (k i : Nat), i + k = nBits * m → eval m (sLoopP (nBits * m) k i) = .ok (nBits * m)
  | 0, i, h => by
    rw [sLoopP, eval_get_bind, if_neg (by omega), eval_lift, ← h]
    simp
  | k + 1, i, h => by
    rw [sLoopP, eval_get_bind, if_pos (by omega), if_pos (by omega)]
    exact sLoopP_eval m k (i + 1) (by omega)

variable [AddCommGroup G] [Module F G]

theorem computeSP_eval (R : Ristretto F G) (ped : Pedersen G) (coins : Coins F) (m : Nat) :
    eval m (computeSP R ped coins) = computeS R ped m coins := by
  unfold computeSP computeS
  rw [eval_get_bind, eval_get_bind, eval_bind, sLoopP_eval m _ _ (by omega), Res.bind_ok, eval_lift]
  simp

variable [DecidableEq G]

theorem debugT0P_eval (aL aR : List F) (y z : F) (m : Nat) : eval m (debugT0P aL aR y z) = debugT0 m m aL aR y z := by
  unfold debugT0P debugT0
  simp only [eval_bind, eval_lift, eval_get, Res.bind_ok, sumZMTwoNP_eval]

theorem debugLxGP_eval (R : Ristretto F G) (l : List F) (x z : F) (aL sL : List F) (m : Nat) :
    eval m (debugLxGP R l x z aL sL) = debugLxG R m l x z aL sL := by
  unfold debugLxGP debugLxG
  simp only [eval_bind, eval_lift, eval_get, Res.bind_ok]

theorem debugRxHPrimeP_eval (R : Ristretto F G) (r : List F) (x y z : F) (aR sR : List F) (m : Nat) :
    eval m (debugRxHPrimeP R r x y z aR sR) = debugRxHPrime R m m r x y z aR sR := by
  unfold debugRxHPrimeP debugRxHPrime
  simp only [eval_bind, eval_lift, eval_get, Res.bind_ok, sumZMTwoNP_eval]

theorem debugProveP_eval (R : Ristretto F G) (rd : Reads) (m : Nat) (h1 : rd.dbgL = m) (h2 : rd.dbgR = m) (h3 : rd.dbgRSum = m)
    (x y z : F) (v l r aL aR sL sR : List F) :
    eval m (debugProveP R x y z v l r aL aR sL sR) = debugProve R rd x y z v l r aL aR sL sR := by
  unfold debugProveP debugProve
  rw [eval_bind, debugLxGP_eval, h1, h2, h3]
  cases debugLxG R m l x z aL sL with
  | err e => rfl
  | panic => rfl
  | ok b =>
    cases b with
    | false => rfl
    | true =>
      simp only [Res.bind_ok, Bool.true_eq_false, if_false]
      rw [eval_bind, debugRxHPrimeP_eval]
      cases debugRxHPrime R m m r x y z aR sR with
      | err e => rfl
      | panic => rfl
      | ok b =>
        cases b with
        | false => rfl
        | true =>
          simp only [Res.bind_ok, Bool.true_eq_false, if_false]
          split <;> rfl

theorem debugBlockP_eval (R : Ristretto F G) (m0 m : Nat) (x y z t : F) (v l r aL aR sL sR : List F) (poly : Polynomial F) :
    eval m (debugBlockP R x y z t v l r aL aR sL sR poly) =
      debugBlock R (Reads.const m0 m) x y z t v l r aL aR sL sR poly := by
  unfold debugBlockP debugBlock
  rw [eval_bind, debugProveP_eval R (Reads.const m0 m) m rfl rfl rfl]
  congr 1; funext _
  rw [eval_bind, debugT0P_eval]
  show (debugT0 m m aL aR y z).bind _ = (debugT0 m m aL aR y z).bind _
  congr 1; funext a
  split
  · rfl
  · rw [eval_get_bind, eval_bind]
    show (computeT0 y z v nBits m).bind _ = (computeT0 y z v nBits m).bind _
    congr 1; funext b
    split
    · rfl
    · split <;> rfl

theorem proveTailP_eval (R : Ristretto F G) (m0 m : Nat) (ped : Pedersen G) (hs : HashCacher) (v : List F)
    (Vs : List (Commitment F G)) (debug : Bool) (coins : Coins F) :
    eval m (proveTailP R ped hs v Vs debug coins) = proveTail R (Reads.const m0 m) ped hs v Vs debug coins := by
  unfold proveTailP proveTail
  dsimp only
  rw [eval_bind, eval_lift]
  congr 1; funext a
  rw [eval_bind, computeSP_eval]
  show (computeS R a.2 m coins).bind _ = (computeS R a.2 m coins).bind _
  congr 1; funext s
  rw [eval_bind, computePolyP_eval]
  show (computePoly m m _ _ _ _ _ _).bind _ = (computePoly m m _ _ _ _ _ _).bind _
  congr 1; funext poly
  rw [eval_bind, eval_lift]
  congr 1; funext l
  rw [eval_bind, eval_lift]
  congr 1; funext r
  rw [eval_bind, eval_lift]
  congr 1; funext t
  rw [eval_bind]
  congr 1
  · cases debug
    · rfl
    · exact debugBlockP_eval R m0 m _ _ _ _ _ _ _ _ _ _ _ _
  · funext _
    split
    · rfl
    · rw [eval_get_bind, eval_get_bind, eval_bind, eval_lift]
      rfl

theorem verifyP_eval (R : Ristretto F G) (p : Proof F G) (c : F) (m : Nat) : eval m (verifyP R p c) = verify R m p c := by
  unfold verifyP verify verifyWith
  rw [eval_get_bind, eval_get_bind]
  dsimp only
  unfold megacheckP megacheckWithC
  cases p.ip with
  | none => rfl
  | some ip =>
    dsimp only
    simp only [eval_bind, eval_lift, eval_get, Res.bind_ok, sumZMTwoNP_eval, VReads.const, apply_ite (eval m)]
    rfl

/-! ## Only `Prove` writes, and only at the beginning -/

theorem quiet_ite {α : Type} {c : Prop} [Decidable c] {p q : Prog α} (hp : Quiet p) (hq : Quiet q) : Quiet (if c then p else q) := by
  split <;> assumption

theorem sumInnerP_quiet (zM twoN : List F) (i : Nat) : ∀ (k j : Nat) (acc : F), Quiet (sumInnerP zM twoN i k j acc)
  | 0, _, _ => trivial
  | k + 1, j, _ => quiet_bind quiet_get fun _ => quiet_ite
      (quiet_ite (quiet_bind (quiet_lift _) fun _ => quiet_bind (quiet_lift _) fun _ => sumInnerP_quiet zM twoN i k (j + 1) _)
        (sumInnerP_quiet zM twoN i k (j + 1) _)) (quiet_lift _)

theorem sumOuterP_quiet (zM twoN : List F) : ∀ (k i : Nat) (acc : List F), Quiet (sumOuterP zM twoN k i acc)
  | 0, _, _ => quiet_bind quiet_get fun _ => quiet_ite (quiet_lift _) (quiet_lift _)
  | k + 1, i, _ => quiet_bind quiet_get fun _ => quiet_ite
      (quiet_bind (sumInnerP_quiet _ _ _ _ _ _) fun _ => sumOuterP_quiet zM twoN k (i + 1) _) (quiet_lift _)

theorem sumZMTwoNP_quiet (z : F) : Quiet (sumZMTwoNP z) :=
  quiet_bind quiet_get fun _ => quiet_bind quiet_get fun _ => sumOuterP_quiet _ _ _ _ _

theorem computePolyP_quiet (aL aR sL sR : List F) (y z : F) : Quiet (computePolyP aL aR sL sR y z) :=
  quiet_bind quiet_get fun _ => quiet_bind (sumZMTwoNP_quiet z) fun _ => quiet_lift _

theorem sLoopP_quiet (n : Nat) : ∀ (k i : Nat), Quiet (sLoopP n k i)
  | 0, _ => quiet_bind quiet_get fun _ => quiet_ite (quiet_lift _) (quiet_lift _)
  | k + 1, i => quiet_bind quiet_get fun _ => quiet_ite (quiet_ite (sLoopP_quiet n k (i + 1)) (quiet_lift _)) (quiet_lift _)

theorem computeSP_quiet (R : Ristretto F G) (ped : Pedersen G) (coins : Coins F) : Quiet (computeSP R ped coins) :=
  quiet_bind quiet_get fun _ => quiet_bind quiet_get fun _ => quiet_bind (sLoopP_quiet _ _ _) fun _ => quiet_lift _

theorem debugT0P_quiet (aL aR : List F) (y z : F) : Quiet (debugT0P aL aR y z) :=
  quiet_bind quiet_get fun _ => quiet_bind (quiet_lift _) fun _ => quiet_bind (sumZMTwoNP_quiet z) fun _ =>
    quiet_bind (quiet_lift _) fun _ => quiet_lift _

theorem debugLxGP_quiet (R : Ristretto F G) (l : List F) (x z : F) (aL sL : List F) : Quiet (debugLxGP R l x z aL sL) :=
  quiet_bind quiet_get fun _ => quiet_bind quiet_get fun _ => quiet_bind (quiet_lift _) fun _ =>
    quiet_bind quiet_get fun _ => quiet_bind (quiet_lift _) fun _ => quiet_bind quiet_get fun _ => quiet_bind (quiet_lift _) fun _ =>
    quiet_bind quiet_get fun _ => quiet_bind quiet_get fun _ => quiet_bind (quiet_lift _) fun _ => quiet_lift _

theorem debugRxHPrimeP_quiet (R : Ristretto F G) (r : List F) (x y z : F) (aR sR : List F) : Quiet (debugRxHPrimeP R r x y z aR sR) :=
  quiet_bind quiet_get fun _ => quiet_bind quiet_get fun _ => quiet_bind (quiet_lift _) fun _ =>
    quiet_bind quiet_get fun _ => quiet_bind (quiet_lift _) fun _ => quiet_bind quiet_get fun _ => quiet_bind (quiet_lift _) fun _ =>
    quiet_bind quiet_get fun _ => quiet_bind quiet_get fun _ => quiet_bind (quiet_lift _) fun _ =>
    quiet_bind (sumZMTwoNP_quiet z) fun _ => quiet_bind quiet_get fun _ => quiet_bind (quiet_lift _) fun _ => quiet_lift _

theorem debugBlockP_quiet (R : Ristretto F G) (x y z t : F) (v l r aL aR sL sR : List F) (poly : Polynomial F) :
    Quiet (debugBlockP R x y z t v l r aL aR sL sR poly) :=
  quiet_bind (quiet_bind (debugLxGP_quiet _ _ _ _ _ _) fun _ => quiet_ite (quiet_lift _)
    (quiet_bind (debugRxHPrimeP_quiet _ _ _ _ _ _ _) fun _ => quiet_ite (quiet_lift _) (quiet_ite (quiet_lift _) (quiet_lift _))))
  fun _ => quiet_bind (debugT0P_quiet _ _ _ _) fun _ => quiet_ite (quiet_lift _)
    (quiet_bind quiet_get fun _ => quiet_bind (quiet_lift _) fun _ => quiet_ite (quiet_lift _) (quiet_ite (quiet_lift _) (quiet_lift _)))

theorem proveTailP_quiet (R : Ristretto F G) (ped : Pedersen G) (hs : HashCacher) (v : List F)
    (Vs : List (Commitment F G)) (debug : Bool) (coins : Coins F) : Quiet (proveTailP R ped hs v Vs debug coins) :=
  quiet_bind (quiet_lift _) fun _ => quiet_bind (computeSP_quiet _ _ _) fun _ => quiet_bind (computePolyP_quiet _ _ _ _ _ _) fun _ =>
    quiet_bind (quiet_lift _) fun _ => quiet_bind (quiet_lift _) fun _ => quiet_bind (quiet_lift _) fun _ =>
    quiet_bind (quiet_ite (debugBlockP_quiet _ _ _ _ _ _ _ _ _ _ _ _ _) (quiet_lift _)) fun _ => quiet_ite (quiet_lift _)
      (quiet_bind quiet_get fun _ => quiet_bind quiet_get fun _ => quiet_bind (quiet_lift _) fun _ => quiet_lift _)

theorem verifyP_quiet (R : Ristretto F G) (p : Proof F G) (c : F) : Quiet (verifyP R p c) := by
  refine quiet_bind quiet_get fun _ => quiet_bind quiet_get fun _ => ?_
  unfold megacheckP
  cases p.ip with
  | none => trivial
  | some ip =>
    exact quiet_bind (quiet_lift _) fun _ => quiet_bind (quiet_lift _) fun _ => quiet_bind (sumZMTwoNP_quiet _) fun _ =>
      quiet_bind (quiet_lift _) fun _ => quiet_bind quiet_get fun _ => quiet_bind (quiet_lift _) fun _ =>
      quiet_bind (quiet_lift _) fun _ => quiet_bind quiet_get fun _ => quiet_bind (quiet_lift _) fun _ =>
      quiet_bind (quiet_lift _) fun _ => quiet_bind quiet_get fun _ => quiet_bind (quiet_lift _) fun _ =>
      quiet_ite (quiet_lift _) (quiet_lift _)

end Dusk.RP
