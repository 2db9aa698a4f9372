import Verif.Go.IO
import Verif.Model.Ristretto
/-!
# The encodings accepted by the decoders

A grammar relates byte strings to values. `Rd.Parses` says that a decoder succeeds exactly on the streams that begin with a
byte string of the grammar, consumes that byte string, and returns the related value.
-/

namespace Dusk

/-- `m` succeeds exactly on streams beginning with a string of the grammar `S`. -/
structure Rd.Parses {α : Type} (m : Rd α) (S : Bytes → α → Prop) : Prop where
  sound : ∀ r a r', m r = .ok (a, r') → r'.fin = r.fin ∧ ∃ enc, S enc a ∧ r.flat = enc ++ r'.flat
  complete : ∀ r a enc rest, S enc a → r.flat = enc ++ rest →
    ∃ r', m r = .ok (a, r') ∧ r'.flat = rest ∧ r'.fin = r.fin

namespace Grammar

variable {F G : Type} [Field F] [AddCommGroup G] [Module F G]

/-- 32 bytes that the library accepts as a point. -/
def point (R : Ristretto F G) (enc : Bytes) (P : G) : Prop := enc.length = 32 ∧ R.pOfBytes enc = (P, true)

/-- Any 32 bytes; the library reduces them modulo the group order. -/
def scalar (R : Ristretto F G) (enc : Bytes) (s : F) : Prop := enc.length = 32 ∧ s = R.sOfBytes enc

/-- Four bytes, big-endian. -/
def u32 (enc : Bytes) (n : Nat) : Prop := enc.length = 4 ∧ n = beNat enc

/-- `n` strings of `S` one after the other. -/
def many {α : Type} (S : Bytes → α → Prop) : Nat → Bytes → List α → Prop
  | 0, enc, l => enc = [] ∧ l = []
  | n + 1, enc, l => ∃ e a e' l', S e a ∧ many S n e' l' ∧ enc = e ++ e' ∧ l = a :: l'

/-- A string of `S` with value `a` followed by a string of `T a`. -/
def seq {α β : Type} (S : Bytes → α → Prop) (T : α → Bytes → β → Prop) (enc : Bytes) (b : β) : Prop :=
  ∃ e a e', S e a ∧ T a e' b ∧ enc = e ++ e'

/-- The empty string, with value `a`. -/
def done {α : Type} (a : α) (enc : Bytes) (b : α) : Prop := enc = [] ∧ b = a

end Grammar

end Dusk
