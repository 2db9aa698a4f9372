import Verif.Model.Keccak
import Verif.Model.Hash
/-!
# The hash functions of the imported libraries

BLAKE2b of golang.org/x/crypto/blake2b after RFC 7693 (without key), the 64-bit xxHash of OneOfOne/xxhash with seed 0, and the instance
`std` of `Algs` with them and SHA-3. No theorem about the code depends on them; see `Keccak`.
-/

namespace Dusk.Hash

open Keccak (force lane toBytes ofBytes)

/-! ## BLAKE2b -/

/-- Rotate a lane to the right. -/
def rotr (w n : Nat) : Nat := ((w >>> n) ||| (w <<< (64 - n))) % 2 ^ 64

/-- The initialisation vector, as one number. -/
def blakeIV : Nat := Keccak.join
  [0x6A09E667F3BCC908, 0xBB67AE8584CAA73B, 0x3C6EF372FE94F82B, 0xA54FF53A5F1D36F1,
   0x510E527FADE682D1, 0x9B05688C2B3E6C1F, 0x1F83D9ABFB41BD6B, 0x5BE0CD19137E2179]

/-- The permutations of the message words. -/
def blakeSigma : List (List Nat) :=
  [[0, 1, 2, 3, 4, 5, 6, 7, 8, 9, 10, 11, 12, 13, 14, 15],
   [14, 10, 4, 8, 9, 15, 13, 6, 1, 12, 0, 2, 11, 7, 5, 3],
   [11, 8, 12, 0, 5, 2, 15, 13, 10, 14, 3, 6, 7, 1, 9, 4],
   [7, 9, 3, 1, 13, 12, 11, 14, 2, 6, 5, 10, 4, 0, 15, 8],
   [9, 0, 5, 7, 2, 4, 10, 15, 14, 1, 11, 12, 6, 8, 3, 13],
   [2, 12, 6, 10, 0, 11, 8, 3, 4, 13, 7, 5, 15, 14, 1, 9],
   [12, 5, 1, 15, 14, 13, 4, 10, 0, 7, 6, 3, 9, 2, 8, 11],
   [13, 11, 7, 14, 12, 1, 3, 9, 5, 0, 15, 4, 8, 6, 2, 10],
   [6, 15, 14, 9, 11, 3, 0, 8, 12, 2, 13, 7, 1, 4, 10, 5],
   [10, 2, 8, 4, 7, 6, 1, 5, 15, 11, 9, 14, 3, 12, 13, 0],
   [0, 1, 2, 3, 4, 5, 6, 7, 8, 9, 10, 11, 12, 13, 14, 15],
   [14, 10, 4, 8, 9, 15, 13, 6, 1, 12, 0, 2, 11, 7, 5, 3]]

/-- Replace the lane `i`, which is `old`. -/
def setLane (v i old new : Nat) : Nat := v ^^^ ((old ^^^ new) <<< (64 * i))

/-- The mixing function G on the lanes `a`, `b`, `c`, `d` of `v` with the words `x` and `y`. -/
def blakeG (v a b c d x y : Nat) : Nat :=
  force (lane v a) fun va => force (lane v b) fun vb => force (lane v c) fun vc => force (lane v d) fun vd =>
  force ((va + vb + x) % 2 ^ 64) fun va' => force (rotr (vd ^^^ va') 32) fun vd' =>
  force ((vc + vd') % 2 ^ 64) fun vc' => force (rotr (vb ^^^ vc') 24) fun vb' =>
  force ((va' + vb' + y) % 2 ^ 64) fun va'' => force (rotr (vd' ^^^ va'') 16) fun vd'' =>
  force ((vc' + vd'') % 2 ^ 64) fun vc'' => force (rotr (vb' ^^^ vc'') 63) fun vb'' =>
  setLane (setLane (setLane (setLane v a va va'') b vb vb'') c vc vc'') d vd vd''

/-- The lanes that are mixed in one round. -/
def blakeLanes : List (Nat × Nat × Nat × Nat) :=
  [(0, 4, 8, 12), (1, 5, 9, 13), (2, 6, 10, 14), (3, 7, 11, 15), (0, 5, 10, 15), (1, 6, 11, 12), (2, 7, 8, 13), (3, 4, 9, 14)]

/-- One round. -/
def blakeRound (m : Nat) : List (Nat × Nat × Nat × Nat) → List Nat → Nat → Nat
  | (a, b, c, d) :: l, i :: j :: s, v => force (blakeG v a b c d (lane m i) (lane m j)) fun v => blakeRound m l s v
  | _, _, v => v

/-- All rounds. -/
def blakeRounds (m : Nat) : List (List Nat) → Nat → Nat
  | [], v => v
  | s :: l, v => force (blakeRound m blakeLanes s v) fun v => blakeRounds m l v

/-- Compress the block `m`; `t` bytes have been read. -/
def blakeF (h m t : Nat) (last : Bool) : Nat :=
  force (h + blakeIV <<< 512) fun v =>
  force (v ^^^ ((t % 2 ^ 128) <<< 768) ^^^ ((if last then 2 ^ 64 - 1 else 0) <<< 896)) fun v =>
  force (blakeRounds m blakeSigma v) fun v => h ^^^ (v % 2 ^ 512) ^^^ (v >>> 512)

/-- All blocks; `k` more after this one. -/
def blakeBlocks : Nat → Bytes → Nat → Nat → Nat
  | 0, b, t, h => force (ofBytes b) fun m => blakeF h m (t + b.length) true
  | k + 1, b, t, h => force (ofBytes (b.take 128)) fun m => force (blakeF h m (t + 128) false) fun h =>
      blakeBlocks k (b.drop 128) (t + 128) h

/-- BLAKE2b with digests of `n` bytes, without key. -/
def blake2b (n : Nat) (b : Bytes) : Bytes :=
  force (blakeBlocks ((b.length - 1) / 128) b 0 (blakeIV ^^^ (0x01010000 + n))) fun h => toBytes n h

/-! ## xxHash -/

def xxP1 : Nat := 11400714785074694791
def xxP2 : Nat := 14029467366897019727
def xxP3 : Nat := 1609587929392839161
def xxP4 : Nat := 9650029242287828579
def xxP5 : Nat := 2870177450012600261

/-- One accumulator takes one word. -/
def xxRound (acc w : Nat) : Nat := (Keccak.rotl ((acc + w * xxP2) % 2 ^ 64) 31 * xxP1) % 2 ^ 64

/-- Blocks of 32 bytes. -/
def xxBlocks : Nat → Bytes → Nat → Nat → Nat → Nat → Nat × Nat × Nat × Nat
  | 0, _, a, b, c, d => (a, b, c, d)
  | k + 1, s, a, b, c, d => force (ofBytes (s.take 32)) fun w =>
      force (xxRound a (lane w 0)) fun a => force (xxRound b (lane w 1)) fun b =>
      force (xxRound c (lane w 2)) fun c => force (xxRound d (lane w 3)) fun d => xxBlocks k (s.drop 32) a b c d

/-- Merge an accumulator. -/
def xxMerge (h a : Nat) : Nat := ((h ^^^ xxRound 0 a) * xxP1 + xxP4) % 2 ^ 64

/-- The words of 8 bytes that are left. -/
def xxWords : Nat → Bytes → Nat → Nat
  | 0, _, h => h
  | k + 1, s, h => force (ofBytes (s.take 8)) fun w =>
      force ((Keccak.rotl (h ^^^ xxRound 0 w) 27 * xxP1 + xxP4) % 2 ^ 64) fun h => xxWords k (s.drop 8) h

/-- The bytes that are left. -/
def xxBytes : Bytes → Nat → Nat
  | [], h => h
  | x :: s, h => force ((Keccak.rotl (h ^^^ (x.toNat * xxP5 % 2 ^ 64)) 11 * xxP1) % 2 ^ 64) fun h => xxBytes s h

/-- The final mixing. -/
def xxAvalanche (h : Nat) : Nat :=
  force ((h ^^^ (h >>> 33)) * xxP2 % 2 ^ 64) fun h => force ((h ^^^ (h >>> 29)) * xxP3 % 2 ^ 64) fun h => h ^^^ (h >>> 32)

/-- What is left after the blocks of 32 bytes, from the accumulator `h`. -/
def xxTail (s : Bytes) (h : Nat) : Nat :=
  force (xxWords (s.length / 8) s h) fun h =>
  let s := s.drop (s.length / 8 * 8)
  if s.length < 4 then xxAvalanche (xxBytes s h)
  else force ((Keccak.rotl (h ^^^ (ofBytes (s.take 4) * xxP1 % 2 ^ 64)) 23 * xxP2 + xxP3) % 2 ^ 64) fun h =>
    xxAvalanche (xxBytes (s.drop 4) h)

/-- `Sum64` with seed 0. -/
def xxh64 (s : Bytes) : Nat :=
  if s.length < 32 then xxTail s ((xxP5 + s.length) % 2 ^ 64)
  else
    let (a, b, c, d) := xxBlocks (s.length / 32) s ((xxP1 + xxP2) % 2 ^ 64) xxP2 0 (2 ^ 64 - xxP1)
    force ((Keccak.rotl a 1 + Keccak.rotl b 7 + Keccak.rotl c 12 + Keccak.rotl d 18) % 2 ^ 64) fun h =>
    force (xxMerge h a) fun h => force (xxMerge h b) fun h => force (xxMerge h c) fun h => force (xxMerge h d) fun h =>
    xxTail (s.drop (s.length / 32 * 32)) ((h + s.length) % 2 ^ 64)

/-- The hash functions of the imported libraries. -/
def std : Algs where
  sha3_256 := Keccak.sha3_256
  sha3_512 := Keccak.sha3_512
  blake2b_256 := blake2b 32
  blake2b_512 := blake2b 64
  xx64 b := UInt64.ofNat (xxh64 b)
  sha3_256_length _ := Keccak.sha3_length _ _ _
  sha3_512_length _ := Keccak.sha3_length _ _ _
  blake2b_256_length b := by simp [blake2b, Keccak.force_eq, toBytes]
  blake2b_512_length b := by simp [blake2b, Keccak.force_eq, toBytes]

end Dusk.Hash
