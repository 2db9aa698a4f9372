import Verif.Go.Core
/-!
# Readers and writers

`io.Reader` is a stream that delivers its bytes in arbitrary chunks and then ends with EOF or with
another error. `io.Writer` accepts a number of `Write` calls and then fails, possibly after having
accepted a part of the failing call's bytes.
-/

namespace Dusk

/-- How a stream ends once its bytes are exhausted. -/
inductive StreamEnd where
  | eof
  | fault
  deriving DecidableEq, Repr

/-- An `io.Reader`: successive `Read` calls deliver at most one chunk each. -/
structure Reader where
  chunks : List Bytes
  fin : StreamEnd
  deriving DecidableEq, Repr

/-- All bytes the reader will ever deliver. -/
def Reader.flat (r : Reader) : Bytes := r.chunks.flatten

/-- Reader over a byte string delivered at once (`bytes.Buffer`). -/
def Reader.ofBytes (b : Bytes) : Reader := ⟨[b], .eof⟩

/-- The `Read` loop of `io.ReadFull` (`io.ReadAtLeast`): keep reading until `n` bytes arrived.
`none`: the stream ended first. A chunk longer than needed is consumed partially. -/
def readChunks : Nat → List Bytes → Option (Bytes × List Bytes)
  | 0, cs => some ([], cs)
  | _ + 1, [] => none
  | n + 1, c :: cs =>
    if n + 1 ≤ c.length then some (c.take (n + 1), c.drop (n + 1) :: cs)
    else (readChunks (n + 1 - c.length) cs).map fun p => (c ++ p.1, p.2)

/-- Reading computations: `func(r io.Reader) (T, error)`. -/
def Rd (α : Type u) := Reader → Res (α × Reader)

namespace Rd

def pure {α : Type u} (a : α) : Rd α := fun r => .ok (a, r)
def fail {α : Type u} (e : String) : Rd α := fun _ => .err e
def bind {α : Type u} {β : Type v} (m : Rd α) (f : α → Rd β) : Rd β :=
  fun r => (m r).bind fun p => f p.1 p.2

/-- A computation that does not touch the stream. -/
def lift {α : Type u} (x : Res α) : Rd α := fun r => x.bind fun a => .ok (a, r)

instance : Monad Rd where
  pure := Rd.pure
  bind := Rd.bind

end Rd

/-- `binary.Read(r, binary.BigEndian, &x)` for an `n`-byte array: `io.ReadFull`. -/
def readN (n : Nat) : Rd Bytes := fun r =>
  match readChunks n r.chunks with
  | some (b, cs) => .ok (b, ⟨cs, r.fin⟩)
  | none => .err "EOF"

/-- `bytes.Buffer.ReadFrom(r)`: read until EOF; another stream error is returned. -/
def readAll : Rd Bytes := fun r =>
  match r.fin with
  | .eof => .ok (r.flat, ⟨[], .eof⟩)
  | .fault => .err "read error"

/-- Big-endian encoding of `uint32(n)` (the conversion truncates modulo 2^32). -/
def be32 (n : Nat) : Bytes :=
  [UInt8.ofNat (n / 2 ^ 24), UInt8.ofNat (n / 2 ^ 16), UInt8.ofNat (n / 2 ^ 8), UInt8.ofNat n]

/-- Big-endian decoding of a byte string as a natural number. -/
def beNat : Bytes → Nat := List.foldl (fun acc b => acc * 256 + b.toNat) 0

/-- `binary.Read(r, binary.BigEndian, &u)` for `u uint32`. -/
def readU32 : Rd Nat := Rd.bind (readN 4) fun b => Rd.pure (beNat b)

/-- An `io.Writer`: `left` further `Write` calls succeed, the next one accepts only `part` bytes and
fails. -/
structure Writer where
  out : Bytes
  left : Nat
  part : Nat
  deriving DecidableEq, Repr

/-- Writing computations: `func(w io.Writer) (T, error)`; the writer keeps what it received even when
the call fails. -/
def Wr (α : Type u) := Writer → Res α × Writer

namespace Wr

def pure {α : Type u} (a : α) : Wr α := fun w => (.ok a, w)
def fail {α : Type u} (e : String) : Wr α := fun w => (.err e, w)
def panic {α : Type u} : Wr α := fun w => (.panic, w)
def bind {α : Type u} {β : Type v} (m : Wr α) (f : α → Wr β) : Wr β := fun w =>
  match m w with
  | (.ok a, w') => f a w'
  | (.err e, w') => (.err e, w')
  | (.panic, w') => (.panic, w')

instance : Monad Wr where
  pure := Wr.pure
  bind := Wr.bind

end Wr

/-- One `w.Write(b)` call (this is what `binary.Write` of a byte slice or a `uint32` performs). -/
def writeB (b : Bytes) : Wr Unit := fun w =>
  match w.left with
  | 0 => (.err "write error", { w with out := w.out ++ b.take w.part })
  | k + 1 => (.ok (), { w with out := w.out ++ b, left := k })

/-- `for i := range l { err := body(l[i]); if err != nil { return err } }` for writers. -/
def writeEach {α : Type u} (f : α → Wr Unit) : List α → Wr Unit
  | [] => Wr.pure ()
  | a :: as => Wr.bind (f a) fun _ => writeEach f as

/-- `for i := 0; i < n; i++ { x, err := body(r) ... }` for readers, collecting results. -/
def readTimes {α : Type u} (m : Rd α) : Nat → Rd (List α)
  | 0 => Rd.pure []
  | n + 1 => Rd.bind m fun a => Rd.bind (readTimes m n) fun as => Rd.pure (a :: as)

end Dusk
