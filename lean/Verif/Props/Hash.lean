import Verif.Model.Hash
import Verif.Lemmas.IO
/-!
# C01–C03: hash
-/

namespace Dusk.Hash

/-- A concrete set of hash functions for the satisfiability examples. -/
def toyAlgs : Algs where
  sha3_256 b := (b ++ List.replicate 32 0).take 32
  sha3_512 b := (b ++ List.replicate 64 0).take 64
  blake2b_256 b := (b.reverse ++ List.replicate 32 0).take 32
  blake2b_512 b := (b.reverse ++ List.replicate 64 0).take 64
  xx64 b := UInt64.ofNat (beNat b)
  sha3_256_length b := by simp
  sha3_512_length b := by simp
  blake2b_256_length b := by simp
  blake2b_512_length b := by simp

/-! ## C01 -/

/-- Specification: all bytes that the calls of a history pass to handle `i`, in order. -/
def writtenTo (i : Nat) : List Op → Bytes
  | [] => []
  | .perform j b :: ops => (if i = j then b else []) ++ writtenTo i ops
  | _ :: ops => writtenTo i ops

/-- C01 (one-shot functions): in every state reached by any history, each one-shot call returns the digest
of exactly the bytes passed and leaves every caller-owned `Hash` unchanged. -/
theorem C01_oneshot (A : Algs) (w₀ : World) (ops : List Op) (b : Bytes) :
    let w := run A w₀ ops
    step A w (.sha3256 b) = (.ok (A.sha3_256 b), { w with garbage := (step A w (.sha3256 b)).2.garbage }) ∧
    step A w (.sha3512 b) = (.ok (A.sha3_512 b), { w with garbage := (step A w (.sha3512 b)).2.garbage }) ∧
    step A w (.blake2b256 b) =
      (.ok (A.blake2b_256 b), { w with garbage := (step A w (.blake2b256 b)).2.garbage }) ∧
    step A w (.blake2b512 b) =
      (.ok (A.blake2b_512 b), { w with garbage := (step A w (.blake2b512 b)).2.garbage }) ∧
    step A w (.xxhash b) =
      (.ok (be64 (A.xx64 b)), { w with garbage := (step A w (.xxhash b)).2.garbage }) := by
  simp [step, sha3256, sha3512, blake2b256, blake2b512, xxhash, newBlake, performHash]

/-- The digest of `[1, 2]` after other digests, with a live handle that has already absorbed a byte. -/
example (h : Hasher) : (step toyAlgs (run toyAlgs {} [.sha3256 [9], .new h, .perform 0 [7], .blake2b512 [3, 4]]) (.xxhash [1, 2])).1 =
    .ok [0, 0, 0, 0, 0, 0, 1, 2] :=
  (congrArg Prod.fst (C01_oneshot toyAlgs {} [.sha3256 [9], .new h, .perform 0 [7], .blake2b512 [3, 4]] [1, 2]).2.2.2.2).trans
    (show Res.ok (be64 (toyAlgs.xx64 [1, 2])) = _ by decide +kernel)

theorem step_perform {A : Algs} {w : World} {i : Nat} {h : Hasher} (hi : w.handles[i]? = some h)
    (b : Bytes) : step A w (.perform i b) =
      ((performHash h b).1, { w with handles := w.handles.set i (performHash h b).2 }) := by
  simp only [step, hi]

theorem run_cons (A : Algs) (w : World) (o : Op) (ops : List Op) :
    run A w (o :: ops) = run A (step A w o).2 ops := rfl

/-- A handle after a history holds what it held before, followed by what was written to it. (For a handle created
in the middle of a history take the state after its creation as initial state.) -/
theorem run_handle (A : Algs) : ∀ (ops : List Op) (w : World) (i : Nat) (h : Hasher),
    w.handles[i]? = some h → h.broken = false →
    (run A w ops).handles[i]? = some { h with absorbed := h.absorbed ++ writtenTo i ops }
  | [], w, i, h, hi, _ => by simp [run, writtenTo, hi]
  | o :: ops, w, i, h, hi, hb => by
    rw [run_cons]
    have hlt : i < w.handles.length := by
      rcases Nat.lt_or_ge i w.handles.length with h' | h'
      · exact h'
      · simp [h'] at hi
    cases o with
    | new g =>
      have : (step A w (.new g)).2.handles[i]? = some h := by
        simp only [step]; rw [List.getElem?_append_left hlt, hi]
      rw [run_handle A ops _ i h this hb]; rfl
    | perform j b =>
      by_cases hij : i = j
      · subst hij
        have : (step A w (.perform i b)).2.handles[i]? =
            some { h with absorbed := h.absorbed ++ b } := by
          simp [step_perform hi, performHash, hb, hlt]
        rw [run_handle A ops _ i _ this hb]
        simp [writtenTo]
      · have : (step A w (.perform j b)).2.handles[i]? = some h := by
          simp only [step]
          split
          · exact hi
          · simp [Ne.symm hij, hi]
        rw [run_handle A ops _ i h this hb]
        simp [writtenTo, hij]
    | sha3256 b => rw [run_handle A ops _ i h (by simpa [step] using hi) hb]; rfl
    | sha3512 b => rw [run_handle A ops _ i h (by simpa [step] using hi) hb]; rfl
    | blake2b256 b => rw [run_handle A ops _ i h (by simpa [step] using hi) hb]; rfl
    | blake2b512 b => rw [run_handle A ops _ i h (by simpa [step] using hi) hb]; rfl
    | xxhash b => rw [run_handle A ops _ i h (by simpa [step] using hi) hb]; rfl

/-- C01 (`PerformHash`): after any history, `PerformHash` on a handle returns the digest of what the handle
held initially, followed by everything written to it by the history, followed by the payload; the handle
then holds that concatenation. A handle whose `Write` fails yields the error and stays as it was. -/
theorem C01_perform (A : Algs) (w₀ : World) (ops : List Op) (i : Nat) (h : Hasher) (b : Bytes)
    (hi : w₀.handles[i]? = some h) (hb : h.broken = false) :
    let all := h.absorbed ++ writtenTo i ops ++ b
    (step A (run A w₀ ops) (.perform i b)).1 = .ok (h.alg all) ∧
    (step A (run A w₀ ops) (.perform i b)).2.handles[i]? = some { h with absorbed := all } ∧
    ∀ j, j ≠ i → (step A (run A w₀ ops) (.perform i b)).2.handles[j]? = (run A w₀ ops).handles[j]? := by
  have hr := run_handle A ops w₀ i h hi hb
  have hlt : i < (run A w₀ ops).handles.length := by
    rcases Nat.lt_or_ge i (run A w₀ ops).handles.length with h' | h'
    · exact h'
    · simp [h'] at hr
  refine ⟨?_, ?_, ?_⟩
  · simp [step_perform hr, performHash, hb]
  · simp [step_perform hr, performHash, hb, hlt]
  · intro j hj
    simp [step_perform hr, Ne.symm hj]

/-- C01 (failing `Write`): the error is returned, nothing changes. -/
theorem C01_perform_broken (h : Hasher) (b : Bytes) (hb : h.broken = true) :
    (performHash h b).1.IsErr ∧ (performHash h b).2 = h := by
  simp [performHash, hb]

/-- Two `PerformHash` calls on one handle: the second digest covers both payloads. -/
example : (step toyAlgs (run toyAlgs { handles := [{ alg := toyAlgs.sha3_256 }] }
      [.perform 0 [1], .sha3512 [7], .perform 0 [2]]) (.perform 0 [3])).1 =
    .ok (toyAlgs.sha3_256 [1, 2, 3]) :=
  (C01_perform toyAlgs { handles := [{ alg := toyAlgs.sha3_256 }] }
      [.perform 0 [1], .sha3512 [7], .perform 0 [2]] 0 _ [3] rfl rfl).1

/-! ## C02 -/

/-- The most significant 32 bits of the 64-bit xxhash. -/
def top32 (x : UInt64) : UInt32 := (x >>> 32).toUInt32

theorem be64_top (x : UInt64) : UInt32.ofNat (beNat ((be64 x).take 4)) = top32 x := by
  apply UInt32.toNat_inj.1
  have hx := x.toNat_lt
  simp only [beNat, be64, top32, List.take, List.foldl, UInt32.toNat_ofNat', UInt64.toNat_toUInt8,
    UInt64.toNat_toUInt32, UInt64.toNat_shiftRight, UInt64.reduceToNat, Nat.reduceMod,
    Nat.shiftRight_eq_div_pow]
  omega

/-- C01: `Xxhash` returns eight bytes, the 64-bit hash with the most significant byte first. -/
theorem C01_xxhash_bytes (A : Algs) (b : Bytes) : ∃ h, xxhash A b = .ok h ∧ h.length = 8 ∧ beNat h = (A.xx64 b).toNat := by
  refine ⟨be64 (A.xx64 b), by simp [xxhash, performHash], rfl, ?_⟩
  have hx := (A.xx64 b).toNat_lt
  simp only [beNat, be64, List.foldl, UInt64.toNat_toUInt8, UInt64.toNat_shiftRight, UInt64.reduceToNat, Nat.reduceMod,
    Nat.shiftRight_eq_div_pow]
  omega

example : ∃ h, xxhash toyAlgs [1, 2] = .ok h ∧ h.length = 8 ∧ beNat h = (258 : UInt64).toNat := C01_xxhash_bytes toyAlgs [1, 2]

example : xxhash toyAlgs [1, 2, 3, 4, 5, 6, 7, 8] = .ok [1, 2, 3, 4, 5, 6, 7, 8] := by decide +kernel

/-- C02: the checksum is the top half of the 64-bit hash. -/
theorem C02_checksum (A : Algs) (data : Bytes) : checksum A data = .ok (top32 (A.xx64 data)) := by
  have := be64_top (A.xx64 data)
  simp only [checksum, xxhash, performHash, Res.bind_ok, Bool.false_eq_true, if_false, List.nil_append]
  rw [this]
  simp [be64]

example : checksum toyAlgs [1, 2, 3, 4, 5, 6, 7, 8] = .ok 0x01020304 := (C02_checksum _ _).trans (by decide +kernel)

/-- C02: `CompareChecksum` never panics and is true exactly for that value. -/
theorem C02_compare (A : Algs) (data : Bytes) (w : UInt32) :
    compareChecksum A data w = .ok (decide (w = top32 (A.xx64 data))) := by
  simp only [compareChecksum, C02_checksum]
  by_cases h : top32 (A.xx64 data) = w
  · simp [h]
  · simp [h, Ne.symm h]

example : compareChecksum toyAlgs [1, 2, 3, 4, 5, 6, 7, 8] 0x01020305 = .ok false := (C02_compare _ _ _).trans (by decide +kernel)

/-- C02: exactly one checksum is accepted for every data. -/
theorem C02_unique (A : Algs) (data : Bytes) : ∃ w, compareChecksum A data w = .ok true ∧
    ∀ w', compareChecksum A data w' = .ok true → w' = w := by
  refine ⟨top32 (A.xx64 data), by simp [C02_compare], fun w' h => ?_⟩
  rw [C02_compare] at h
  simpa using h

example (w : UInt32) (h : compareChecksum toyAlgs [1, 2, 3, 4, 5, 6, 7, 8] w = .ok true) : w = 0x01020304 := by
  obtain ⟨v, _, hv⟩ := C02_unique toyAlgs [1, 2, 3, 4, 5, 6, 7, 8]
  rw [hv w h, hv 0x01020304 (by decide +kernel)]

example : compareChecksum toyAlgs [1, 2, 3, 4, 5, 6, 7, 8] 0x01020304 = .ok true := by decide +kernel
example : compareChecksum toyAlgs [1, 2, 3, 4, 5, 6, 7, 8] 0x05060708 = .ok false := by decide +kernel

/-! ## C03 -/

/-- The contract of `rand.Read(b)` with `len(b) = n`: at most `n` bytes are reported, and only the reported
bytes were produced by the source (`produced`), the others are still zero. -/
structure EntropyRead.Obeys (r : EntropyRead) (n : Nat) (produced : Bytes) : Prop where
  count_le : r.count ≤ n
  count_eq : produced.length = r.count
  buf_eq : r.buf = produced ++ List.replicate (n - r.count) 0

/-- C03: `RandEntropy(n)` returns exactly the `n` bytes produced by the source, or no bytes and an error; it
succeeds exactly if the source reported no error and produced `n` bytes. -/
theorem C03_entropy (read : Nat → EntropyRead) (n : Nat) (hn : n < 2 ^ 32) (produced : Bytes)
    (hr : (read n).Obeys n produced) :
    (randEntropy read n = .ok produced ∧ produced.length = n ∧ (read n).err = none) ∨
    ((randEntropy read n).IsErr ∧ (produced.length < n ∨ (read n).err ≠ none)) := by
  have h1 := hr.count_le
  have h2 := hr.count_eq
  unfold randEntropy
  cases he : (read n).err with
  | some e => right; simp only [he]; simp
  | none =>
    have hm : (read n).count % 2 ^ 32 = (read n).count := Nat.mod_eq_of_lt (by omega)
    by_cases hc : (read n).count = n
    · left
      refine ⟨?_, by omega, rfl⟩
      have : (read n).buf = produced := by rw [hr.buf_eq, hc]; simp
      simp [he, hc, this, Nat.mod_eq_of_lt hn]
    · right
      refine ⟨?_, Or.inl (by omega)⟩
      simp only [he, hm]
      simp [hc]

/-- C03 (without any contract): a returned buffer is the whole buffer handed to the source, and the source
reported no error and a count that is `n` modulo 2^32. -/
theorem C03_success (read : Nat → EntropyRead) (n : Nat) (b : Bytes) (h : randEntropy read n = .ok b) :
    b = (read n).buf ∧ (read n).err = none ∧ (read n).count % 2 ^ 32 = n := by
  unfold randEntropy at h
  cases he : (read n).err with
  | some e => simp [he] at h
  | none =>
    simp only [he] at h
    split at h
    · cases h
    · simp only [Res.ok.injEq] at h
      exact ⟨h.symm, rfl, by omega⟩

example : (⟨[5, 6, 0], 2, none⟩ : EntropyRead).Obeys 3 [5, 6] := ⟨by decide, rfl, rfl⟩
example : (randEntropy (fun _ => ⟨[5, 6, 0], 2, none⟩) 3).IsErr := ⟨_, rfl⟩
example : randEntropy (fun _ => ⟨[5, 6, 7], 3, none⟩) 3 = .ok [5, 6, 7] := rfl

end Dusk.Hash
