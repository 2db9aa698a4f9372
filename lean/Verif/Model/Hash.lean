import Verif.Go.IO
/-!
# Model of hash/hash.go
-/

namespace Dusk.Hash

/-- A `hash.Hash` value: the digest function it computes, everything written so far, and whether `Write`
fails (the interface allows an error; the standard implementations never return one). -/
structure Hasher where
  alg : Bytes → Bytes
  absorbed : Bytes := []
  broken : Bool := false

/-- The hash functions of the imported libraries, as arbitrary functions. `xx64` is `Sum64` of xxhash;
its `Sum` appends the big-endian bytes of `Sum64` (OneOfOne/xxhash). -/
structure Algs where
  sha3_256 : Bytes → Bytes
  sha3_512 : Bytes → Bytes
  blake2b_256 : Bytes → Bytes
  blake2b_512 : Bytes → Bytes
  xx64 : Bytes → UInt64
  sha3_256_length : ∀ b, (sha3_256 b).length = 32
  sha3_512_length : ∀ b, (sha3_512 b).length = 64
  blake2b_256_length : ∀ b, (blake2b_256 b).length = 32
  blake2b_512_length : ∀ b, (blake2b_512 b).length = 64

/-- Big-endian bytes of a 64-bit word (`append(b, byte(s>>56), …, byte(s))` in xxhash's `Sum`). -/
def be64 (x : UInt64) : Bytes :=
  [(x >>> 56).toUInt8, (x >>> 48).toUInt8, (x >>> 40).toUInt8, (x >>> 32).toUInt8,
   (x >>> 24).toUInt8, (x >>> 16).toUInt8, (x >>> 8).toUInt8, x.toUInt8]

/-- `PerformHash` (hash/hash.go:43-49): `H.Write(bs)`, then `H.Sum(nil)`, which does not change `H`.
Returns the digest and the new state of `H`. -/
def performHash (h : Hasher) (bs : Bytes) : Res Bytes × Hasher :=
  if h.broken then (.err "write failed", h)
  else
    let h' := { h with absorbed := h.absorbed ++ bs }
    (.ok (h'.alg h'.absorbed), h')

/-- `blake2b.New256(key)` / `New512(key)`: fails iff the key is longer than 64 bytes. -/
def newBlake (alg : Bytes → Bytes) (key : Bytes) : Res Hasher :=
  if key.length > 64 then .err "blake2b: invalid key size" else .ok { alg := alg }

/-- `Blake2b256` (hash/hash.go:19-25). -/
def blake2b256 (A : Algs) (bs : Bytes) : Res Bytes :=
  (newBlake A.blake2b_256 []).bind fun h => (performHash h bs).1

/-- `Blake2b512` (hash/hash.go:28-34). -/
def blake2b512 (A : Algs) (bs : Bytes) : Res Bytes :=
  (newBlake A.blake2b_512 []).bind fun h => (performHash h bs).1

/-- `Sha3256` (hash/hash.go:38-40). -/
def sha3256 (A : Algs) (bs : Bytes) : Res Bytes := (performHash { alg := A.sha3_256 } bs).1

/-- `Sha3512` (hash/hash.go:53-55). -/
def sha3512 (A : Algs) (bs : Bytes) : Res Bytes := (performHash { alg := A.sha3_512 } bs).1

/-- `Xxhash` (hash/hash.go:58-60). -/
def xxhash (A : Algs) (bs : Bytes) : Res Bytes :=
  (performHash { alg := fun b => be64 (A.xx64 b) } bs).1

/-- What one `rand.Read(b)` call did: the contents of `b` afterwards, the reported count, the error. -/
structure EntropyRead where
  buf : Bytes
  count : Nat
  err : Option String

/-- `RandEntropy` (hash/hash.go:64-76). `read n` is the behaviour of `rand.Read` on a buffer of `n` bytes.
`uint32(a) != n` compares the count modulo 2^32. -/
def randEntropy (read : Nat → EntropyRead) (n : Nat) : Res Bytes :=
  let r := read n
  match r.err with
  | some e => .err ("Error generating entropy " ++ e)
  | none =>
    if r.count % 2 ^ 32 ≠ n then .err "Error expected to read"
    else .ok r.buf

/-- `Checksum` (hash/hash.go:94-101): `binary.BigEndian.Uint32(hash[:4])`. -/
def checksum (A : Algs) (data : Bytes) : Res UInt32 :=
  (xxhash A data).bind fun h =>
    if h.length < 4 then .panic else .ok (UInt32.ofNat (beNat (h.take 4)))

/-- `CompareChecksum` (hash/hash.go:81-90). -/
def compareChecksum (A : Algs) (data : Bytes) (want : UInt32) : Res Bool :=
  match checksum A data with
  | .err _ => .ok false
  | .panic => .panic
  | .ok got => if got ≠ want then .ok false else .ok true

/-! ## Histories of calls -/

/-- The calls a program can make. `new` stores a fresh caller-owned `Hash`; `perform i b` is
`PerformHash(handle i, b)`. -/
inductive Op where
  | new (h : Hasher)
  | perform (i : Nat) (b : Bytes)
  | sha3256 (b : Bytes)
  | sha3512 (b : Bytes)
  | blake2b256 (b : Bytes)
  | blake2b512 (b : Bytes)
  | xxhash (b : Bytes)

/-- Heap of all `Hash` objects: the caller's ones come first-in order; the one-shot functions allocate
their own object as well, which nobody else can reach. -/
structure World where
  handles : List Hasher := []
  garbage : List Hasher := []

/-- One call: output bytes and the new heap. -/
def step (A : Algs) (w : World) : Op → Res Bytes × World
  | .new h => (.ok [], { w with handles := w.handles ++ [h] })
  | .perform i b =>
    match w.handles[i]? with
    | none => (.panic, w)
    | some h => ((performHash h b).1, { w with handles := w.handles.set i (performHash h b).2 })
  | .sha3256 b => (Hash.sha3256 A b, { w with garbage := (performHash { alg := A.sha3_256 } b).2 :: w.garbage })
  | .sha3512 b => (Hash.sha3512 A b, { w with garbage := (performHash { alg := A.sha3_512 } b).2 :: w.garbage })
  | .blake2b256 b => (Hash.blake2b256 A b, { w with garbage := (performHash { alg := A.blake2b_256 } b).2 :: w.garbage })
  | .blake2b512 b => (Hash.blake2b512 A b, { w with garbage := (performHash { alg := A.blake2b_512 } b).2 :: w.garbage })
  | .xxhash b => (Hash.xxhash A b, { w with garbage := (performHash { alg := fun b => be64 (A.xx64 b) } b).2 :: w.garbage })

/-- A history of calls. -/
def run (A : Algs) (w : World) (ops : List Op) : World :=
  ops.foldl (fun w o => (step A w o).2) w

end Dusk.Hash
