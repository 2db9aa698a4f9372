import Verif.Model.PedMem
import Verif.Props.Pedersen
/-!
# C91: seeds of generators in memory
-/

set_option linter.unusedSectionVars false

namespace Dusk.PedMem

open Go

variable {F G : Type} [Field F] [AddCommGroup G] [Module F G]

/-- The byte behind the seed, if it belongs to the capacity of the slice. -/
def behind (s : Slice) (i j : Nat) : Prop := i = s.arr ∧ s.len < s.cap ∧ j = s.off + s.len

theorem append_one_cell (spare : Nat → Nat) {m : Mem UInt8} {s : Slice} (hv : Valid m s) (x : UInt8) {i : Nat}
    (hi : i < m.length) (j : Nat) (h : ¬ behind s i j) : cell (append 0 spare m s [x]).1 i j = cell m i j := by
  rw [append_cell 0 spare hv [x] hi, if_neg]
  rintro ⟨h1, h2, h3, h4⟩
  simp only [List.length_cons, List.length_nil] at h2 h4
  exact h ⟨h1, by omega, by omega⟩

theorem read_append_self (spare : Nat → Nat) {m : Mem UInt8} {s : Slice} (hv : Valid m s) (x : UInt8) :
    read (append 0 spare m s [x]).1 s = read m s := by
  by_cases hi : s.arr < m.length
  · apply read_congr
    intro j hj
    apply append_one_cell spare hv x hi
    rintro ⟨-, -, h⟩
    omega
  · have h := hv.fits
    rw [size_of_ge (by omega)] at h
    have h2 : s.len = 0 := by have := hv.le; omega
    have h3 : (read m s).length = 0 := by rw [hv.read_length, h2]
    have h4 : (read (append 0 spare m s [x]).1 s).length = 0 := by rw [(Valid.append 0 spare hv hv [x]).read_length, h2]
    rw [List.length_eq_zero_iff.1 h3, List.length_eq_zero_iff.1 h4]

/-- The loop from the second vector on: same result as on values. -/
theorem commitLoop_tail (R : Ristretto F G) (spare : Nat → Nat) (blind : F) : ∀ (vs : List (List F)) (i : Nat) (m : Mem UInt8)
    (p : Ped G) (q : Pedersen G) (sum : G), 1 ≤ i → Valid m p.seed → q.genData = read m p.seed →
    (commitLoop R spare blind i vs m p sum).1 =
      (Pedersen.commitVecLoop R blind i vs q sum).bind fun r => .ok (r.1, p)
  | [], i, m, p, q, sum, _, _, _ => by simp [commitLoop, Pedersen.commitVecLoop]
  | v :: vs, i, m, p, q, sum, hi, hv, hq => by
    rw [commitLoop, if_neg (by omega), Pedersen.commitVecLoop, if_neg (by omega)]
    have h1 : (⟨(append 0 spare m p.seed [UInt8.ofNat i]).2, []⟩ : Ped G).value R (append 0 spare m p.seed [UInt8.ofNat i]).1 =
        Pedersen.new R (q.genData ++ [UInt8.ofNat i]) := by
      unfold Ped.value
      dsimp only
      rw [append_read 0 spare hv, hq]
      rfl
    dsimp only
    rw [h1]
    cases hc : (Pedersen.new R (q.genData ++ [UInt8.ofNat i])).commitToScalars R none v with
    | ok c =>
      simp only [Res.bind_ok]
      exact commitLoop_tail R spare blind vs (i + 1) _ p q _ (by omega) (Valid.append 0 spare hv hv _)
        (by rw [hq, read_append_self spare hv])
    | err e => simp
    | panic => simp

/-- The memory after the loop from the second vector on. -/
theorem commitLoop_mem (R : Ristretto F G) (spare : Nat → Nat) (blind : F) : ∀ (vs : List (List F)) (i : Nat) (m : Mem UInt8)
    (p : Ped G) (sum : G), 1 ≤ i → Valid m p.seed →
    m.length ≤ (commitLoop R spare blind i vs m p sum).2.length ∧
    (∀ a, a < m.length → size (commitLoop R spare blind i vs m p sum).2 a = size m a) ∧
    (∀ a j, a < m.length → ¬ behind p.seed a j → cell (commitLoop R spare blind i vs m p sum).2 a j = cell m a j) ∧
    ∀ r, (commitLoop R spare blind i vs m p sum).1 = .ok r → vs ≠ [] → p.seed.len < p.seed.cap →
      cell (commitLoop R spare blind i vs m p sum).2 p.seed.arr (p.seed.off + p.seed.len) = some (UInt8.ofNat (i + vs.length - 1))
  | [], i, m, p, sum, _, _ => by simp [commitLoop]
  | v :: vs, i, m, p, sum, hi, hv => by
    have hlen := append_length_le 0 spare m p.seed [UInt8.ofNat i]
    have hva := Valid.append 0 spare hv hv [UInt8.ofNat i]
    rw [commitLoop, if_neg (by omega)]
    dsimp only
    cases hc : ((⟨(append 0 spare m p.seed [UInt8.ofNat i]).2, []⟩ : Ped G).value R
      (append 0 spare m p.seed [UInt8.ofNat i]).1).commitToScalars R none v with
    | ok c =>
      dsimp only
      obtain ⟨h1, h2, h3, h4⟩ := commitLoop_mem R spare blind vs (i + 1) (append 0 spare m p.seed [UInt8.ofNat i]).1 p (sum + c.1)
        (by omega) hva
      refine ⟨by omega, fun a ha => ?_, fun a j ha hb => ?_, fun r hr _ hcap => ?_⟩
      · rw [h2 a (by omega), append_size 0 spare hv _ ha]
      · rw [h3 a j (by omega) hb, append_one_cell spare hv _ ha j hb]
      · by_cases hn : vs = []
        · subst hn
          have harr : p.seed.arr < m.length := by
            by_contra hge
            have := hv.fits
            rw [size_of_ge (by omega)] at this
            omega
          simp only [commitLoop]
          rw [append_cell 0 spare hv _ harr, if_pos (by simp; omega)]
          simp
        · rw [h4 r hr hn hcap]
          simp only [List.length_cons]
          congr 2
          omega
    | err e =>
      refine ⟨hlen, fun a ha => append_size 0 spare hv _ ha, fun a j ha hb => append_one_cell spare hv _ ha j hb, ?_⟩
      intro r hr
      cases hr
    | panic =>
      refine ⟨hlen, fun a ha => append_size 0 spare hv _ ha, fun a j ha hb => append_one_cell spare hv _ ha j hb, ?_⟩
      intro r hr
      cases hr

/-- C91: one call of `CommitToVectors` returns what it returns for the bytes of the seed at the time of the call, and extends the
bases of its receiver in the same way, whatever the memory looks like. -/
theorem C91_commit (R : Ristretto F G) (spare : Nat → Nat) (m : Mem UInt8) (p : Ped G) (hv : Valid m p.seed)
    (vs : List (List F)) (blind : F) : (commitToVectors R spare m p vs blind).1 =
      ((p.value R m).commitToVectors R vs blind).bind fun r => .ok (r.1, ⟨p.seed, r.2.baseVector.bases⟩) := by
  unfold commitToVectors Pedersen.commitToVectors
  cases vs with
  | nil => simp [commitLoop, Pedersen.commitVecLoop, Ped.value]
  | cons v vs =>
    rw [commitLoop, if_pos rfl, Pedersen.commitVecLoop, if_pos rfl]
    cases hc : (p.value R m).commitToScalars R (some blind) v with
    | ok c =>
      simp only [Res.bind_ok]
      have hg : c.2.genData = read m p.seed := by
        unfold Pedersen.commitToScalars at hc
        obtain ⟨a, -, h⟩ := Res.bind_eq_ok.1 hc
        cases h
        rfl
      rw [commitLoop_tail R spare blind vs (0 + 1) m ⟨p.seed, c.2.baseVector.bases⟩ c.2 (0 + c.1) le_rfl hv hg]
      have : ∀ (vs : List (List F)) (i : Nat) (q : Pedersen G) (s : G) (r : G × Pedersen G), 1 ≤ i →
          Pedersen.commitVecLoop R blind i vs q s = .ok r → r.2 = q := by
        intro vs
        induction vs with
        | nil =>
          intro i q s r _ h
          cases h
          rfl
        | cons v vs ih =>
          intro i q s r hi h
          rw [Pedersen.commitVecLoop, if_neg (by omega)] at h
          obtain ⟨a, -, h⟩ := Res.bind_eq_ok.1 h
          exact ih _ _ _ _ (by omega) h
      cases hr : Pedersen.commitVecLoop R blind (0 + 1) vs c.2 (0 + c.1) with
      | ok r =>
        have := this vs _ _ _ _ (by omega) hr
        simp [this]
      | err e => simp
      | panic => simp
    | err e => simp
    | panic => simp

/-- C91: what `CommitToVectors` may change in existing memory is the byte behind the seed, and only if it belongs to the capacity
of the seed's slice; after a successful call on two or more vectors this byte is the number of the last vector. -/
theorem C91_memory (R : Ristretto F G) (spare : Nat → Nat) (m : Mem UInt8) (p : Ped G) (hv : Valid m p.seed)
    (vs : List (List F)) (blind : F) :
    (∀ a j, a < m.length → ¬ behind p.seed a j → cell (commitToVectors R spare m p vs blind).2 a j = cell m a j) ∧
    (vs.length ≤ 1 → (commitToVectors R spare m p vs blind).2 = m) ∧
    ∀ r, (commitToVectors R spare m p vs blind).1 = .ok r → 2 ≤ vs.length → p.seed.len < p.seed.cap →
      cell (commitToVectors R spare m p vs blind).2 p.seed.arr (p.seed.off + p.seed.len) = some (UInt8.ofNat (vs.length - 1)) := by
  unfold commitToVectors
  cases vs with
  | nil => simp [commitLoop]
  | cons v vs =>
    rw [commitLoop, if_pos rfl]
    cases hc : (p.value R m).commitToScalars R (some blind) v with
    | ok c =>
      dsimp only
      obtain ⟨-, -, h3, h4⟩ := commitLoop_mem R spare blind vs (0 + 1) m { p with bases := c.2.baseVector.bases } (0 + c.1)
        (by omega) hv
      refine ⟨h3, fun hl => ?_, fun r hr hl hcap => ?_⟩
      · have : vs = [] := List.length_eq_zero_iff.1 (by simpa using hl)
        subst this
        simp [commitLoop]
      · obtain ⟨x, hx, -⟩ := Res.bind_eq_ok.1 hr
        have hne : vs ≠ [] := by
          rintro rfl
          simp at hl
        have := h4 x hx hne hcap
        simp only at this
        rw [this]
        simp only [List.length_cons]
        congr 2
        omega
    | err e => simp
    | panic => simp

theorem commitToVectors_frame (R : Ristretto F G) (spare : Nat → Nat) (m : Mem UInt8) (p : Ped G) (hv : Valid m p.seed)
    (vs : List (List F)) (blind : F) : m.length ≤ (commitToVectors R spare m p vs blind).2.length ∧
    ∀ a, a < m.length → size (commitToVectors R spare m p vs blind).2 a = size m a := by
  unfold commitToVectors
  cases vs with
  | nil => simp [commitLoop]
  | cons v vs =>
    rw [commitLoop, if_pos rfl]
    cases hc : (p.value R m).commitToScalars R (some blind) v with
    | ok c =>
      dsimp only
      obtain ⟨h1, h2, -, -⟩ := commitLoop_mem R spare blind vs (0 + 1) m { p with bases := c.2.baseVector.bases } (0 + c.1)
        (by omega) hv
      exact ⟨h1, h2⟩
    | err e => simp
    | panic => simp

/-! ## Programs -/

/-- All seeds lie within their arrays. -/
def World.Ok (w : World G) : Prop := ∀ p ∈ w.peds, Valid w.mem p.seed

/-- The slices given to `New` lie within the memory `m`. -/
def OpOk (m : Mem UInt8) : Op F → Prop
  | .new s => Valid m s
  | _ => True

theorem step_commit_none (R : Ristretto F G) (spare : Nat → Nat) (w : World G) (k : Nat) (vs : List (List F)) (blind : F)
    (hk : w.peds[k]? = none) : step R spare w (.commit k vs blind) = w := by
  simp only [step, hk]

theorem step_commit_some (R : Ristretto F G) (spare : Nat → Nat) (w : World G) (k : Nat) (vs : List (List F)) (blind : F)
    (p : Ped G) (hk : w.peds[k]? = some p) : step R spare w (.commit k vs blind) =
      ⟨(commitToVectors R spare w.mem p vs blind).2, match (commitToVectors R spare w.mem p vs blind).1 with
        | .ok c => w.peds.set k c.2
        | _ => w.peds⟩ := by
  simp only [step, hk]
  rfl

theorem step_frame (R : Ristretto F G) (spare : Nat → Nat) (w : World G) (hw : w.Ok) (o : Op F) :
    w.mem.length ≤ (step R spare w o).mem.length ∧ ∀ a, a < w.mem.length → size (step R spare w o).mem a = size w.mem a := by
  cases o with
  | new s => exact ⟨le_rfl, fun _ _ => rfl⟩
  | store i j x => exact ⟨(store_length ..).ge, fun a _ => store_size ..⟩
  | compute k n => exact ⟨le_rfl, fun _ _ => rfl⟩
  | clear k => exact ⟨le_rfl, fun _ _ => rfl⟩
  | commit k vs blind =>
    cases hk : w.peds[k]? with
    | none =>
      rw [step_commit_none R spare w k vs blind hk]
      exact ⟨le_rfl, fun _ _ => rfl⟩
    | some p =>
      rw [step_commit_some R spare w k vs blind p hk]
      exact commitToVectors_frame R spare w.mem p (hw p (List.mem_of_getElem? hk)) vs blind

/-- The seed of a `Pedersen` value is never replaced. -/
theorem step_seeds (R : Ristretto F G) (spare : Nat → Nat) (w : World G) (hw : w.Ok) (o : Op F) :
    (step R spare w o).peds.map Ped.seed = w.peds.map Ped.seed ++ match o with | .new s => [s] | _ => [] := by
  cases o with
  | new s => simp [step]
  | store i j x => simp [step]
  | compute k n =>
    simp only [step, List.append_nil]
    apply List.ext_getElem?
    intro i
    simp only [List.getElem?_map, List.getElem?_modify]
    cases w.peds[i]? with
    | none => simp
    | some p => by_cases h : k = i <;> simp [h]
  | clear k =>
    simp only [step, List.append_nil]
    apply List.ext_getElem?
    intro i
    simp only [List.getElem?_map, List.getElem?_modify]
    cases w.peds[i]? with
    | none => simp
    | some p => by_cases h : k = i <;> simp [h]
  | commit k vs blind =>
    cases hk : w.peds[k]? with
    | none => simp [step_commit_none R spare w k vs blind hk]
    | some p =>
      simp only [List.append_nil]
      rw [step_commit_some R spare w k vs blind p hk]
      dsimp only
      rw [C91_commit R spare w.mem p (hw p (List.mem_of_getElem? hk))]
      cases hc : (p.value R w.mem).commitToVectors R vs blind with
      | ok c =>
        simp only [Res.bind_ok]
        apply List.ext_getElem?
        intro i
        rw [List.getElem?_map, List.getElem?_map, List.getElem?_set]
        by_cases h : k = i
        · subst h
          rw [if_pos rfl, hk]
          simp only [Option.map_some]
          rw [if_pos (List.getElem?_eq_some_iff.1 hk).1]
          rfl
        · rw [if_neg h]
      | err e => simp
      | panic => simp

theorem step_ok (R : Ristretto F G) (spare : Nat → Nat) (w : World G) (hw : w.Ok) (o : Op F) (ho : OpOk w.mem o) :
    (step R spare w o).Ok := by
  obtain ⟨-, hs⟩ := step_frame R spare w hw o
  have hm := step_seeds R spare w hw o
  intro p hp
  have : p.seed ∈ (step R spare w o).peds.map Ped.seed := List.mem_map.2 ⟨p, hp, rfl⟩
  rw [hm, List.mem_append] at this
  rcases this with h | h
  · obtain ⟨q, hq, hqs⟩ := List.mem_map.1 h
    rw [← hqs]
    exact Go.Valid.mono (hw q hq) hs
  · cases o with
    | new s =>
      simp only [List.mem_singleton] at h
      rw [h]
      exact ho
    | _ => simp at h

/-- The bases of a `Pedersen` value start the chain of `b`. -/
def Ped.On (R : Ristretto F G) (b : Bytes) (p : Ped G) : Prop := p.bases = chain R b p.bases.length

theorem Ped.On.compute {R : Ristretto F G} {m : Mem UInt8} {b : Bytes} {p : Ped G} (h : p.On R b) (hm : read m p.seed = b) (n : Nat) :
    Ped.On R b { p with bases := ((p.value R m).baseVector.compute R n).bases } := by
  have hc : (p.value R m).baseVector.OnChain R := by
    unfold Gen.OnChain Ped.value
    dsimp only
    rw [hm]
    exact h
  unfold Ped.On
  rw [Gen.compute_onChain n hc]
  simp [Ped.value, hm]

theorem commitToScalars_on {R : Ristretto F G} {m : Mem UInt8} {b : Bytes} {p : Ped G} (h : p.On R b) (hm : read m p.seed = b)
    (blind : Option F) (v : List F) (c : G × Pedersen G) (hc : (p.value R m).commitToScalars R blind v = .ok c) :
    Ped.On R b { p with bases := c.2.baseVector.bases } := by
  unfold Pedersen.commitToScalars at hc
  obtain ⟨a, -, hc⟩ := Res.bind_eq_ok.1 hc
  cases hc
  dsimp only
  split
  · exact h.compute hm _
  · exact h

theorem commit_on {R : Ristretto F G} {m : Mem UInt8} {b : Bytes} {p : Ped G} (h : p.On R b) (hm : read m p.seed = b)
    (vs : List (List F)) (blind : F) (c : Commitment F G × Pedersen G)
    (hc : (p.value R m).commitToVectors R vs blind = .ok c) : Ped.On R b ⟨p.seed, c.2.baseVector.bases⟩ := by
  have hkeep : ∀ (vs : List (List F)) (i : Nat) (q : Pedersen G) (s : G) (r : G × Pedersen G), 1 ≤ i →
      Pedersen.commitVecLoop R blind i vs q s = .ok r → r.2 = q := by
    intro vs
    induction vs with
    | nil =>
      intro i q s r _ h
      cases h
      rfl
    | cons v vs ih =>
      intro i q s r hi h
      rw [Pedersen.commitVecLoop, if_neg (by omega)] at h
      obtain ⟨a, -, h⟩ := Res.bind_eq_ok.1 h
      exact ih _ _ _ _ (by omega) h
  unfold Pedersen.commitToVectors at hc
  obtain ⟨r, hr, hc⟩ := Res.bind_eq_ok.1 hc
  cases hc
  cases vs with
  | nil =>
    cases hr
    exact h
  | cons v vs =>
    rw [Pedersen.commitVecLoop, if_pos rfl] at hr
    obtain ⟨a, ha, hr⟩ := Res.bind_eq_ok.1 hr
    rw [hkeep vs _ _ _ _ (by omega) hr]
    exact commitToScalars_on h hm _ _ a ha

/-- C91: a `Pedersen` value whose seed keeps its bytes has the bases of the chain of these bytes, throughout every program: any
calls on any number of `Pedersen` values, any assignments of the caller elsewhere. -/
theorem C91_chain (R : Ristretto F G) (spare : Nat → Nat) (k : Nat) (b : Bytes) : ∀ (ops : List (Op F)) (w : World G), w.Ok →
    (∀ o ∈ ops, OpOk w.mem o) → (∀ p, w.peds[k]? = some p → p.On R b) →
    (∀ (pre : List (Op F)) (p : Ped G), pre <+: ops → (run R spare w pre).peds[k]? = some p →
      read (run R spare w pre).mem p.seed = b) →
    ∀ p, (run R spare w ops).peds[k]? = some p → p.On R b
  | [], w, _, _, h0, _, p, hp => h0 p hp
  | o :: ops, w, hw, hops, h0, hread, p, hp => by
    refine C91_chain R spare k b ops (step R spare w o) (step_ok R spare w hw o (hops o (by simp))) ?_ ?_ ?_ p hp
    · intro o' ho'
      have := hops o' (by simp [ho'])
      cases o' with
      | new s => exact Go.Valid.mono this (step_frame R spare w hw o).2
      | _ => trivial
    · intro q hq
      have hr := hread [] 
      simp only [run, List.foldl_nil] at hr
      cases o with
      | new s =>
        simp only [step] at hq
        by_cases hlt : k < w.peds.length
        · rw [List.getElem?_append_left hlt] at hq
          exact h0 q hq
        · rw [List.getElem?_append_right (by omega)] at hq
          have : q = ⟨s, []⟩ := by
            have := List.mem_of_getElem? hq
            simpa using this
          subst this
          rfl
      | store i j x => exact h0 q hq
      | compute k' n =>
        simp only [step] at hq
        rw [List.getElem?_modify] at hq
        cases hk : w.peds[k]? with
        | none => simp [hk] at hq
        | some p0 =>
          by_cases hkk : k' = k
          · rw [hk] at hq
            simp [hkk] at hq
            rw [← hq]
            exact (h0 p0 hk).compute (hr p0 List.nil_prefix hk) n
          · rw [hk] at hq
            simp [hkk] at hq
            rw [← hq]
            exact h0 p0 hk
      | clear k' =>
        simp only [step] at hq
        rw [List.getElem?_modify] at hq
        cases hk : w.peds[k]? with
        | none => simp [hk] at hq
        | some p0 =>
          by_cases hkk : k' = k
          · rw [hk] at hq
            simp [hkk] at hq
            rw [← hq]
            rfl
          · rw [hk] at hq
            simp [hkk] at hq
            rw [← hq]
            exact h0 p0 hk
      | commit k' vs blind =>
        cases hk' : w.peds[k']? with
        | none =>
          rw [step_commit_none R spare w k' vs blind hk'] at hq
          exact h0 q hq
        | some p1 =>
          rw [step_commit_some R spare w k' vs blind p1 hk'] at hq
          dsimp only at hq
          rw [C91_commit R spare w.mem p1 (hw p1 (List.mem_of_getElem? hk'))] at hq
          cases hc : (p1.value R w.mem).commitToVectors R vs blind with
          | ok c =>
            simp only [hc, Res.bind_ok] at hq
            rw [List.getElem?_set] at hq
            by_cases hkk : k' = k
            · subst hkk
              rw [if_pos rfl, if_pos (List.getElem?_eq_some_iff.1 hk').1] at hq
              cases hq
              exact commit_on (h0 p1 hk') (hr p1 List.nil_prefix hk') vs blind c hc
            · rw [if_neg hkk] at hq
              exact h0 q hq
          | err e =>
            simp only [hc, Res.bind_err] at hq
            exact h0 q hq
          | panic =>
            simp only [hc, Res.bind_panic] at hq
            exact h0 q hq
    · intro pre q hpre hq
      exact hread (o :: pre) q (List.cons_prefix_cons.2 ⟨rfl, hpre⟩) hq

/-- `append` to `t` does not write into `s`: `t` has no spare capacity, or the byte behind it is not one of `s`. -/
def Apart (s t : Slice) : Prop := ∀ j, j < s.len → ¬ behind t s.arr (s.off + j)

/-- A step which leaves the bytes of `s` alone, given the seeds made so far do. -/
def Quiet (s : Slice) : Op F → Prop
  | .new t => Apart s t
  | .store i j _ => ¬ (i = s.arr ∧ s.off ≤ j ∧ j < s.off + s.len)
  | _ => True

theorem step_read (R : Ristretto F G) (spare : Nat → Nat) (w : World G) (hw : w.Ok) (s : Slice) (hs : Valid w.mem s)
    (hap : ∀ p ∈ w.peds, Apart s p.seed) (o : Op F) (ho : Quiet s o) : read (step R spare w o).mem s = read w.mem s := by
  by_cases ha : s.arr < w.mem.length
  · apply read_congr
    intro j hj
    cases o with
    | new t => rfl
    | store i j' x =>
      simp only [step]
      rw [store_cell, if_neg]
      rintro ⟨rfl, h2⟩
      exact ho ⟨rfl, by omega, by omega⟩
    | compute k n => rfl
    | clear k => rfl
    | commit k vs blind =>
      cases hk : w.peds[k]? with
      | none => rw [step_commit_none R spare w k vs blind hk]
      | some p =>
        have hp := List.mem_of_getElem? hk
        rw [step_commit_some R spare w k vs blind p hk]
        exact (C91_memory R spare w.mem p (hw p hp) vs blind).1 _ _ ha (hap p hp j hj)
  · have hf := hs.fits
    rw [size_of_ge (by omega)] at hf
    have h0 : s.len = 0 := by have := hs.le; omega
    have h1 := (Go.Valid.mono hs (step_frame R spare w hw o).2).read_length
    have h2 := hs.read_length
    rw [List.length_eq_zero_iff.1 (h1.trans h0), List.length_eq_zero_iff.1 (h2.trans h0)]

/-- A `Pedersen` value keeps its number and its seed. -/
theorem step_keeps (R : Ristretto F G) (spare : Nat → Nat) (w : World G) (hw : w.Ok) (o : Op F) (k : Nat) (p : Ped G)
    (hp : w.peds[k]? = some p) : ∃ p', (step R spare w o).peds[k]? = some p' ∧ p'.seed = p.seed := by
  have h := congrArg (·[k]?) (step_seeds R spare w hw o)
  simp only [List.getElem?_map] at h
  rw [List.getElem?_append_left (by simpa using (List.getElem?_eq_some_iff.1 hp).1), List.getElem?_map, hp] at h
  simpa using h

/-- C91: a `Pedersen` value has generators that depend only on the bytes of its seed at the time of `New` if nobody writes to
them: the caller does not, and no other seed ends where this one goes on with capacity to spare. Here for any program from any
state on. -/
theorem C91_isolated (R : Ristretto F G) (spare : Nat → Nat) (k : Nat) : ∀ (ops : List (Op F)) (w : World G) (p : Ped G),
    w.Ok → (∀ o ∈ ops, OpOk w.mem o) → w.peds[k]? = some p → p.On R (read w.mem p.seed) →
    (∀ q ∈ w.peds, Apart p.seed q.seed) → (∀ o ∈ ops, Quiet p.seed o) →
    ∃ p', (run R spare w ops).peds[k]? = some p' ∧ p'.seed = p.seed ∧
      read (run R spare w ops).mem p'.seed = read w.mem p.seed ∧ p'.On R (read w.mem p.seed)
  | [], w, p, _, _, hp, hon, _, _ => ⟨p, hp, rfl, rfl, hon⟩
  | o :: ops, w, p, hw, hops, hp, hon, hap, hq => by
    have hpm := List.mem_of_getElem? hp
    have hr := step_read R spare w hw p.seed (hw p hpm) hap o (hq o (by simp))
    obtain ⟨p', hp', hs'⟩ := step_keeps R spare w hw o k p hp
    have hon' : p'.On R (read w.mem p.seed) := by
      refine C91_chain R spare k _ [o] w hw (fun o' ho' => hops o' ?_) (fun q hq => ?_) (fun pre q hpre hq => ?_) p' hp'
      · simp only [List.mem_singleton] at ho'
        simp [ho']
      · rw [hp] at hq
        cases hq
        exact hon
      · rcases List.prefix_cons_iff.1 hpre with h | ⟨t, h, ht⟩
        · subst h
          change w.peds[k]? = some q at hq
          rw [hp] at hq
          cases hq
          rfl
        · rw [List.prefix_nil.1 ht] at h
          subst h
          change (step R spare w o).peds[k]? = some q at hq
          rw [hp'] at hq
          cases hq
          change read (step R spare w o).mem p'.seed = _
          rw [hs', hr]
    have hap' : ∀ q ∈ (step R spare w o).peds, Apart p'.seed q.seed := by
      intro q hqm
      rw [hs']
      have : q.seed ∈ (step R spare w o).peds.map Ped.seed := List.mem_map.2 ⟨q, hqm, rfl⟩
      rw [step_seeds R spare w hw o, List.mem_append] at this
      rcases this with h | h
      · obtain ⟨q', hq', e⟩ := List.mem_map.1 h
        rw [← e]
        exact hap q' hq'
      · cases o with
        | new t =>
          simp only [List.mem_singleton] at h
          rw [h]
          exact hq (.new t) (by simp)
        | _ => simp at h
    obtain ⟨p'', h1, h2, h3, h4⟩ := C91_isolated R spare k ops (step R spare w o) p' (step_ok R spare w hw o (hops o (by simp)))
      (by
        intro o' ho'
        have := hops o' (by simp [ho'])
        cases o' with
        | new s => exact Go.Valid.mono this (step_frame R spare w hw o).2
        | _ => trivial)
      hp' (by rw [hs', hr]; exact hon') hap' (fun o' ho' => by rw [hs']; exact hq o' (by simp [ho']))
    exact ⟨p'', h1, h2.trans hs', (h3.trans (by rw [hs'])).trans hr, by rw [hs', hr] at h4; exact h4⟩

theorem compute_fresh (R : Ristretto F G) (m : Mem UInt8) (s : Slice) (n : Nat) :
    (((⟨s, []⟩ : Ped G).value R m).baseVector.compute R n).bases = chain R (read m s) n := by
  have h := Gen.compute_onChain n (Gen.onChain_new R (read m s))
  have h' : ((⟨s, []⟩ : Ped G).value R m).baseVector = Gen.new (read m s) := rfl
  rw [h', h]
  simp [Gen.new]

/-- C91 (violated): `New` does not copy the seed. A byte `x` the caller stores into its slice after `New` and before the first
base is derived, or after `Clear`, changes the generators to those of the changed seed. -/
theorem C91_seed_kept_violated (R : Ristretto F G) (spare : Nat → Nat) (m : Mem UInt8) (s : Slice) (hv : Valid m s) (j : Nat)
    (hj : j < s.len) (x : UInt8) (n n' : Nat) :
    (run (F := F) R spare ⟨m, []⟩ [.new s, .store s.arr (s.off + j) x, .compute 0 n]).peds =
      [⟨s, chain R ((read m s).set j x) n⟩] ∧
    (run (F := F) R spare ⟨m, []⟩ [.new s, .compute 0 n', .clear 0, .store s.arr (s.off + j) x, .compute 0 n]).peds =
      [⟨s, chain R ((read m s).set j x) n⟩] := by
  have h := compute_fresh R (store m s.arr (s.off + j) x) s n
  rw [read_store hv hj] at h
  constructor
  · simp [run, step, h]
  · simp [run, step, h]

/-- C91 (violated): two `Pedersen` values whose seeds are prefixes of the same array, of `len` and `len + 1` bytes. A call
of `CommitToVectors` on the first, with two or more vectors, changes the generators of the second to those which the call
used for its last vector. -/
theorem C91_cross_violated (R : Ristretto F G) (spare : Nat → Nat) (m : Mem UInt8) (s : Slice) (hv : Valid m s)
    (hcap : s.len < s.cap) (v : List F) (vs : List (List F)) (hvs : vs ≠ []) (hlen : ∀ u ∈ v :: vs, u.length < 2 ^ 32) (blind : F)
    (n : Nat) :
    ((run R spare ⟨m, []⟩ [.new s, .new { s with len := s.len + 1 }, .commit 0 (v :: vs) blind, .compute 1 n]).peds[1]?).map
      Ped.bases = some (chain R (vectorSeed (read m s) vs.length) n) := by
  let w : World G := ⟨m, [⟨s, []⟩, ⟨{ s with len := s.len + 1 }, []⟩]⟩
  have hrun : run R spare ⟨m, []⟩ [.new s, .new { s with len := s.len + 1 }, .commit 0 (v :: vs) blind, .compute 1 n] =
      step R spare (step R spare w (.commit 0 (v :: vs) blind)) (.compute 1 n) := rfl
  rw [hrun]
  have hw : w.peds[0]? = some ⟨s, []⟩ := rfl
  rw [step_commit_some R spare w 0 (v :: vs) blind ⟨s, []⟩ hw]
  have hc := C91_commit R spare m ⟨s, []⟩ hv (v :: vs) blind
  rw [C51_commit R _ (Gen.onChain_new R (read m s)) rfl v vs blind hlen] at hc
  obtain ⟨hm1, -, hm3⟩ := C91_memory R spare m ⟨s, []⟩ hv (v :: vs) blind
  have hmem := hm3 _ hc (by
    have := List.length_pos_iff.2 hvs
    simp only [List.length_cons]
    omega) hcap
  have hread : read (commitToVectors R spare m ⟨s, []⟩ (v :: vs) blind).2 { s with len := s.len + 1 } =
      vectorSeed (read m s) vs.length := by
    have harr : s.arr < m.length := by
      by_contra hge
      have := hv.fits
      rw [size_of_ge (by omega)] at this
      omega
    have hne : vs.length ≠ 0 := by simpa using hvs
    apply List.ext_getElem?
    intro i
    rw [read_getElem?, vectorSeed, if_neg hne]
    dsimp only
    by_cases hi : i < s.len
    · rw [if_pos (by omega), List.getElem?_append_left (by rw [hv.read_length]; exact hi), read_getElem?, if_pos hi]
      apply hm1 _ _ harr
      rintro ⟨-, -, h⟩
      dsimp only at h
      omega
    · rw [List.getElem?_append_right (by rw [hv.read_length]; omega), hv.read_length]
      by_cases hi' : i = s.len
      · subst hi'
        rw [if_pos (by omega)]
        simpa using hmem
      · rw [if_neg (by omega), List.getElem?_eq_none (by simp; omega)]
  dsimp only [w]
  simp only [hc]
  have := compute_fresh R (commitToVectors R spare m ⟨s, []⟩ (v :: vs) blind).2 { s with len := s.len + 1 } n
  rw [hread] at this
  simp [step, this]

/-! ### The hypotheses can be met -/

/-- Memory of one array of four bytes; a seed of two of them, with spare capacity. -/
def exMem : Mem UInt8 := [[1, 2, 3, 4]]
def exSeed : Slice := ⟨0, 0, 2, 4⟩

example : Valid exMem exSeed := ⟨by decide, by decide⟩

/-- The two `Pedersen` values of `C91_cross_violated`: the seed `1, 2, 3` of the second becomes `1, 2, 1`. -/
example : read exMem { exSeed with len := 3 } = [1, 2, 3] ∧
    read (run Toy.ris (fun n => n) ⟨exMem, []⟩ [.new exSeed, .new { exSeed with len := 3 }, .commit 0 [[5], [7]] 9]).mem
      { exSeed with len := 3 } = [1, 2, 1] := by decide +kernel

/-- Seeds without spare capacity meet the hypotheses of `C91_isolated`, also when they lie in the same array. -/
example : Apart ⟨0, 0, 3, 3⟩ ⟨0, 0, 2, 2⟩ ∧ Apart ⟨0, 0, 3, 3⟩ ⟨0, 0, 3, 3⟩ ∧ ¬ Apart ⟨0, 0, 3, 3⟩ exSeed := by
  refine ⟨fun j _ h => ?_, fun j _ h => ?_, fun h => ?_⟩
  · exact absurd h.2.1 (by decide)
  · exact absurd h.2.1 (by decide)
  · exact h 2 (by decide) ⟨rfl, by decide, rfl⟩

example (blind : Toy.K) (n : Nat) : ((run Toy.ris (fun n => n) ⟨exMem, []⟩ [.new exSeed, .new { exSeed with len := 3 }, .commit 0 [[5], [7]] blind,
      .compute 1 n]).peds[1]?).map Ped.bases = some (chain Toy.ris (vectorSeed [1, 2] 1) n) :=
  C91_cross_violated Toy.ris (fun n => n) exMem exSeed ⟨by decide, by decide⟩ (by decide) [5] [[7]] (by simp) (by simp) blind n

end Dusk.PedMem
