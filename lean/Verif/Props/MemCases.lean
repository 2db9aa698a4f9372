import Verif.Props.RPMem
import Verif.Props.PedMem
import Verif.Props.HashMem
import Verif.Props.VecMem
import Verif.Props.IPMem
import Verif.Props.DecodeState
import Verif.Props.RPVerConc
/-!
# Concrete cases for the theorems about memory

Every example applies a theorem of C87 or C90–C94 to concrete values, so that its hypotheses are seen to be satisfiable.
-/

namespace Dusk.RPMem

theorem case_valid (a b c d : Toy.K) : Valid [[a, b, c, d]] ⟨0, 0, 3, 4⟩ ∧ Valid [[a, b, c, d]] ⟨0, 0, 4, 4⟩ ∧ Valid [[a, b, c, d]] ⟨0, 2, 2, 2⟩ :=
  ⟨⟨by simp, _, rfl, by simp⟩, ⟨by simp, _, rfl, by simp⟩, ⟨by simp, _, rfl, by simp⟩⟩

example (a b c d : Toy.K) (spare : Nat → Nat) (debug : Bool) (coins : RP.Coins Toy.K) :
    (prove Toy.ris spare [[a, b, c, d]] 0 ⟨0, 0, 3, 4⟩ debug coins).2 = RP.prove Toy.ris 0 [a, b, c] debug coins :=
  C90_refines Toy.ris spare _ 0 _ (case_valid a b c d).1 debug coins

/-- Nothing changes for the caller exactly when the fourth amount is zero. -/
example (a b c d : Toy.K) (spare : Nat → Nat) (debug : Bool) (coins : RP.Coins Toy.K) :
    (∀ i, i < 1 → (prove Toy.ris spare [[a, b, c, d]] 0 ⟨0, 0, 3, 4⟩ debug coins).1[i]? = [[a, b, c, d]][i]?) ↔ d = 0 := by
  have h := C90_unchanged_iff Toy.ris spare [[a, b, c, d]] 0 ⟨0, 0, 3, 4⟩ (case_valid a b c d).1 debug coins
  rw [show overwritten ⟨0, 0, 3, 4⟩ = 1 by decide +kernel] at h
  exact h.trans ⟨fun h => by simpa using h 0 (by norm_num), fun h j hj => by simp [Nat.lt_one_iff.1 hj, h]⟩

/-- The first three of four amounts are proved, then the last two: the second commitment is to zero. -/
example (a b d : Toy.K) (spare : Nat → Nat) (debug : Bool) (coins coins' : RP.Coins Toy.K) : ∃ p,
    (prove Toy.ris spare (prove Toy.ris spare [[a, b, 0, d]] 0 ⟨0, 0, 3, 4⟩ debug coins).1 (prove Toy.ris spare [[a, b, 0, d]] 0 ⟨0, 0, 3, 4⟩ debug coins).2.1
      ⟨0, 2, 2, 2⟩ false coins').2.2 = .ok p ∧ p.V[1]? = some ((Pedersen.new Toy.ris RP.genData).commitToScalar 0 (coins'.vBlind 1)) := by
  have hov : overwritten ⟨0, 0, 3, 4⟩ = 1 := by decide +kernel
  have hm : (prove Toy.ris spare [[a, b, 0, d]] 0 ⟨0, 0, 3, 4⟩ debug coins).1[0]? = some [a, b, 0, 0] := by
    rw [C90_memory Toy.ris spare _ 0 _ (case_valid a b 0 d).1 debug coins 0 (by simp)]
    simp [hov, zeroed]
  generalize hm' : (prove Toy.ris spare [[a, b, 0, d]] 0 ⟨0, 0, 3, 4⟩ debug coins).1 = m' at hm
  generalize hM' : (prove Toy.ris spare [[a, b, 0, d]] 0 ⟨0, 0, 3, 4⟩ debug coins).2.1 = M'
  have hv : Valid m' ⟨0, 2, 2, 2⟩ := ⟨by simp, _, hm, by simp⟩
  have hr : read m' ⟨0, 2, 2, 2⟩ = [0, 0] := by
    show (((m'[0]?).getD []).drop 2).take 2 = _
    rw [hm]
    rfl
  have href := C90_refines Toy.ris spare m' M' ⟨0, 2, 2, 2⟩ hv false coins'
  rw [hr] at href
  obtain ⟨p, hp, -⟩ := RP.C60_nonzero_hash Toy.ris Toy.dv_ne_zero M' [(0 : Toy.K), 0] coins' (by simp) (by simp)
    (by intro x hx; simp only [List.mem_cons, List.not_mem_nil, or_false, or_self] at hx; rw [hx]; exact RP.toy_zero)
  rw [← href] at hp
  refine ⟨p, hp, ?_⟩
  rw [← hm', ← hM'] at hp
  exact C90_other_slice_violated Toy.ris spare [[a, b, 0, d]] 0 ⟨0, 0, 3, 4⟩ ⟨0, 2, 2, 2⟩ (case_valid a b 0 d).1 (case_valid a b 0 d).2.2 rfl debug false coins coins' p hp 1
    (by norm_num) (by norm_num) (by rw [hov]; norm_num)

end Dusk.RPMem

namespace Dusk.PedMem

open Go

theorem case_valid : Valid exMem exSeed := ⟨by decide, by decide⟩

example (spare : Nat → Nat) (vs : List (List Toy.K)) (r : Toy.K) : (commitToVectors Toy.ris spare exMem ⟨exSeed, []⟩ vs r).1 =
    (((⟨exSeed, []⟩ : Ped Toy.K).value Toy.ris exMem).commitToVectors Toy.ris vs r).bind fun r => .ok (r.1, ⟨exSeed, r.2.baseVector.bases⟩) :=
  C91_commit Toy.ris spare exMem ⟨exSeed, []⟩ case_valid vs r

/-- The first two bytes stay; with one vector everything. -/
example (spare : Nat → Nat) (vs : List (List Toy.K)) (v : List Toy.K) (r : Toy.K) :
    cell (commitToVectors Toy.ris spare exMem ⟨exSeed, []⟩ vs r).2 0 1 = some 2 ∧ (commitToVectors Toy.ris spare exMem ⟨exSeed, []⟩ [v] r).2 = exMem := by
  refine ⟨?_, (C91_memory Toy.ris spare exMem ⟨exSeed, []⟩ case_valid [v] r).2.1 (by simp)⟩
  rw [(C91_memory Toy.ris spare exMem ⟨exSeed, []⟩ case_valid vs r).1 0 1 (by decide)]
  · decide
  · rintro ⟨-, -, h⟩
    revert h
    decide

example (spare : Nat → Nat) (n : Nat) : (run (F := Toy.K) Toy.ris spare ⟨exMem, []⟩ [.new exSeed, .store 0 1 7, .compute 0 n]).peds =
    [⟨exSeed, chain Toy.ris [1, 7] n⟩] :=
  (C91_seed_kept_violated Toy.ris spare exMem exSeed case_valid 1 (by decide) 7 n n).1

end Dusk.PedMem

namespace Dusk.HashMem

open Go

example (spare : Nat → Nat) : (run spare ⟨exMem, []⟩ [.new, .append 0 [⟨0, 0, 2, 4⟩], .store 0 0 8]).caches.map
      (read (run spare ⟨exMem, []⟩ [.new, .append 0 [⟨0, 0, 2, 4⟩], .store 0 0 8]).mem) = [[1, 2]] := by
  refine (C92_private spare exMem _ ?_).1.trans (by decide +kernel)
  intro o ho
  simp only [List.mem_cons, List.not_mem_nil, or_false] at ho
  rcases ho with rfl | rfl | rfl
  · trivial
  · intro x hx
    rw [List.mem_singleton.1 hx]
    exact ⟨⟨by decide, by decide⟩, by decide⟩
  · show 0 < exMem.length
    decide

example (spare : Nat → Nat) : result (run spare ⟨exMem, [⟨0, 0, 2, 4⟩]⟩ [.store 0 1 7]) 0 = some [1, 7] :=
  C92_result_violated spare exMem ⟨0, 0, 2, 4⟩ ⟨by decide, by decide⟩ 1 (by decide) 7

end Dusk.HashMem

namespace Dusk.VecMem

open Go

theorem case_valid (a b c d : Toy.K) : Valid [[a, b, c, d]] ⟨0, 0, 3, 4⟩ ∧ Valid [[a, b, c, d]] ⟨0, 1, 3, 3⟩ :=
  ⟨⟨by decide, by simp [size]⟩, ⟨by decide, by simp [size]⟩⟩

example (a b c d : Toy.K) : (sub (F := Toy.K) ⟨0, 0, 3, 4⟩ ⟨0, 1, 3, 3⟩).run [[a, b, c, d]] =
    (.ok ⟨1, 0, 3, 3⟩, [[a, b, c, d], [a - b, b - c, c - d]]) :=
  (C93_binary [[a, b, c, d]] ⟨0, 0, 3, 4⟩ ⟨0, 1, 3, 3⟩ (case_valid a b c d).1 (case_valid a b c d).2).2.1

example (a b c d x : Toy.K) : (addScalar (F := Toy.K) ⟨0, 0, 3, 4⟩ x).run [[a, b, c, d]] = (.ok ⟨1, 0, 3, 3⟩, [[a, b, c, d], [a + x, b + x, c + x]]) :=
  (C93_unary [[a, b, c, d]] ⟨0, 0, 3, 4⟩ (case_valid a b c d).1 x).1

example (a b c d x : Toy.K) : ∃ m', (do let r ← subScalar ⟨0, 0, 3, 4⟩ (0 : Toy.K); put r 2 x).run [[a, b, c, d]] = (.ok (), m') ∧ read m' ⟨0, 0, 3, 4⟩ = [a, b, x] :=
  (C93_alias_violated [[a, b, c, d]] ⟨0, 0, 3, 4⟩ (case_valid a b c d).1).2.2 2 x (by norm_num)

example (a b c d : Toy.K) : ((split ⟨0, 0, 3, 4⟩ 1).bind fun p => .ok (read [[a, b, c, d]] p.1, read [[a, b, c, d]] p.2)) = Vec.split [a, b, c] 1 :=
  (C93_split [[a, b, c, d]] ⟨0, 0, 3, 4⟩ (case_valid a b c d).1 1).1

example (spare : Nat → Nat) (a b c d x : Toy.K) : read (append 0 spare [[a, b, c, d]] ⟨0, 0, 1, 4⟩ [x]).1 ⟨0, 1, 2, 3⟩ = [x, c] :=
  (C93_split_violated 0 spare [[a, b, c, d]] ⟨0, 0, 3, 4⟩ (case_valid a b c d).1 1 (⟨0, 0, 1, 4⟩, ⟨0, 1, 2, 3⟩) rfl x).1

end Dusk.VecMem

namespace Dusk.IPMem

open Go

example (Q : Toy.K) : ((generate Toy.ris ⟨0, 0, 2, 2⟩ ⟨0, 0, 2, 2⟩ ⟨0, 0, 2, 2⟩ ⟨0, 0, 2, 2⟩ ⟨0, 0, 2, 2⟩ Q).run ([[5, 6]], [[2, 3]])).1 =
    IP.generate Toy.ris [2, 3] [2, 3] [5, 6] [5, 6] [5, 6] Q :=
  C94_result Toy.ris ⟨0, 0, 2, 2⟩ ⟨0, 0, 2, 2⟩ ⟨0, 0, 2, 2⟩ ⟨0, 0, 2, 2⟩ ⟨0, 0, 2, 2⟩ Q ([[5, 6]], [[2, 3]]) ⟨by decide, by decide⟩ ⟨by decide, by decide⟩
    ⟨by decide, by decide⟩ ⟨by decide, by decide⟩ ⟨by decide, by decide⟩

example (Q : Toy.K) : ((generate Toy.ris ⟨0, 0, 2, 2⟩ ⟨0, 0, 2, 2⟩ ⟨0, 0, 2, 2⟩ ⟨0, 0, 2, 2⟩ ⟨7, 0, 2, 2⟩ Q).run ([[5, 6]], [[2, 3]])).2.1[0]? = some [5, 6] :=
  (C94_memory Toy.ris ⟨0, 0, 2, 2⟩ ⟨0, 0, 2, 2⟩ ⟨0, 0, 2, 2⟩ ⟨0, 0, 2, 2⟩ ⟨7, 0, 2, 2⟩ Q ([[5, 6]], [[2, 3]]) ⟨by decide, by decide⟩ ⟨by decide, by decide⟩
    ⟨by decide, by decide⟩ ⟨by decide, by decide⟩).1 0 (by decide)

end Dusk.IPMem
