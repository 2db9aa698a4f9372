import Verif.Go.IO
/-!
# SHA-3 on numbers

The hash function of golang.org/x/crypto/sha3 that package merkletree and package bls call through hash/hash.go:38-40, after
FIPS 202. No theorem depends on it: the properties are proved for all hash functions. It serves to run the model on the fixtures of the
repository's own tests, which contain digests.

The state of 25 lanes of 64 bits is one number; lane `(x, y)` is at bit `64 (x + 5 y)`.
-/

namespace Dusk.Keccak

/-- `f n`, with `n` evaluated first. -/
def force {α : Type} (n : Nat) (f : Nat → α) : α := match n with
  | 0 => f 0
  | k + 1 => f (k + 1)

theorem force_eq {α : Type} (n : Nat) (f : Nat → α) : force n f = f n := by cases n <;> rfl

/-- The lane number `i`. -/
def lane (S i : Nat) : Nat := (S >>> (64 * i)) % 2 ^ 64

/-- Rotate a lane to the left. -/
def rotl (w n : Nat) : Nat := ((w <<< n) ||| (w >>> (64 - n))) % 2 ^ 64

/-- Put lanes together. -/
def join : List Nat → Nat
  | [] => 0
  | w :: l => force w fun w => force (join l) fun s => w + s <<< 64

/-- θ, with the parities `C` of the columns. -/
def theta (S : Nat) : Nat :=
  force ((S ^^^ (S >>> 320) ^^^ (S >>> 640) ^^^ (S >>> 960) ^^^ (S >>> 1280)) % 2 ^ 320) fun C =>
  force (join ((List.range 5).map fun x => lane C ((x + 4) % 5) ^^^ rotl (lane C ((x + 1) % 5)) 1)) fun D =>
  S ^^^ D ^^^ (D <<< 320) ^^^ (D <<< 640) ^^^ (D <<< 960) ^^^ (D <<< 1280)

/-- For every lane of the result of ρ and π: where it comes from and how far it is rotated. -/
def moves : List (Nat × Nat) :=
  [(0, 0), (6, 44), (12, 43), (18, 21), (24, 14),
   (3, 28), (9, 20), (10, 3), (16, 45), (22, 61),
   (1, 1), (7, 6), (13, 25), (19, 8), (20, 18),
   (4, 27), (5, 36), (11, 10), (17, 15), (23, 56),
   (2, 62), (8, 55), (14, 39), (15, 41), (21, 2)]

/-- ρ and π. -/
def rhoPi (S : Nat) : Nat := join (moves.map fun m => rotl (lane S m.1) m.2)

/-- χ. -/
def chi (S : Nat) : Nat :=
  join ((List.range 25).map fun i =>
    lane S i ^^^ ((2 ^ 64 - 1 - lane S (i / 5 * 5 + (i + 1) % 5)) &&& lane S (i / 5 * 5 + (i + 2) % 5)))

/-- The constants of ι. -/
def roundConstants : List Nat :=
  [0x0000000000000001, 0x0000000000008082, 0x800000000000808A, 0x8000000080008000, 0x000000000000808B, 0x0000000080000001,
   0x8000000080008081, 0x8000000000008009, 0x000000000000008A, 0x0000000000000088, 0x0000000080008009, 0x000000008000000A,
   0x000000008000808B, 0x800000000000008B, 0x8000000000008089, 0x8000000000008003, 0x8000000000008002, 0x8000000000000080,
   0x000000000000800A, 0x800000008000000A, 0x8000000080008081, 0x8000000000008080, 0x0000000080000001, 0x8000000080008008]

/-- Keccak-f[1600]: the rounds with the constants `rc`. -/
def rounds : List Nat → Nat → Nat
  | [], S => S
  | c :: rc, S => force (theta S) fun S => force (rhoPi S) fun S => force (chi S) fun S => force (S ^^^ c) fun S => rounds rc S

/-- The number with the given bytes, the lowest first. -/
def ofBytes (b : Bytes) : Nat := b.foldr (fun x n => x.toNat + 256 * n) 0

/-- The lowest `n` bytes. -/
def toBytes (n S : Nat) : Bytes := (List.range n).map fun i => UInt8.ofNat ((S >>> (8 * i)) % 256)

/-- Padding for SHA-3 to a multiple of `rate` bytes. -/
def pad (rate : Nat) (b : Bytes) : Bytes :=
  let q := rate - b.length % rate
  if q = 1 then b ++ [0x86] else b ++ [0x06] ++ List.replicate (q - 2) 0 ++ [0x80]

/-- Absorb `k` blocks. -/
def absorb (rate : Nat) : Nat → Bytes → Nat → Nat
  | 0, _, S => S
  | k + 1, b, S => force (ofBytes (b.take rate)) fun w => force (rounds roundConstants (S ^^^ w)) fun S => absorb rate k (b.drop rate) S

/-- The sponge: digest of `n` bytes, with `n ≤ rate`. -/
def sha3 (rate n : Nat) (b : Bytes) : Bytes := force (absorb rate (b.length / rate + 1) (pad rate b) 0) fun S => toBytes n S

/-- `sha3.New256`. -/
def sha3_256 (b : Bytes) : Bytes := sha3 136 32 b

/-- `sha3.New512`. -/
def sha3_512 (b : Bytes) : Bytes := sha3 72 64 b

theorem sha3_length (rate n : Nat) (b : Bytes) : (sha3 rate n b).length = n := by
  simp [sha3, force_eq, toBytes]

end Dusk.Keccak
