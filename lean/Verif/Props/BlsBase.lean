import Verif.Lemmas.Bls
/-!
# The base points of package bls (C85)

The specification: hexadecimal digits, the Barreto–Naehrig prime with parameter `u = 1868033³`, the curve `y² = x³ + 3`
over the integers modulo `p`, and its sextic twist `y² = x³ + 3 / (i + 3)` over pairs `x i + y` with `i² = -1`.
-/

namespace Dusk.Bls

namespace Base

/-- The hexadecimal digits. -/
def digits : List Char := "0123456789abcdef".toList

/-- Two digits a byte, the high one first. -/
def hex : List UInt8 → List Char
  | [] => []
  | b :: l => digits.getD (b.toNat / 16) '?' :: digits.getD (b.toNat % 16) '?' :: hex l

/-- The parameter of the curve. -/
def u : Nat := 1868033 ^ 3

/-- The Barreto–Naehrig polynomial of the field. -/
def p : Nat := 36 * u ^ 4 + 36 * u ^ 3 + 24 * u ^ 2 + 6 * u + 1

/-- The number of 256 bits with the 32 big-endian bytes from `32 k + o` on. -/
def word (b : Bytes) (o k : Nat) : Nat := beNat ((b.drop (o + 32 * k)).take 32)

/-- `(x i + y) (x' i + y')` with `i² = -1`. -/
def mul (a b : Int × Int) : Int × Int := (a.1 * b.2 + a.2 * b.1, a.2 * b.2 - a.1 * b.1)

/-- Difference. -/
def sub (a b : Int × Int) : Int × Int := (a.1 - b.1, a.2 - b.2)

/-- A point of the curve, with reduced coordinates. -/
def OnCurve (x y : Nat) : Prop := x < p ∧ y < p ∧ y ^ 2 % p = (x ^ 3 + 3) % p

/-- A point of the twist, with reduced coordinates: `(i + 3) (y² - x³) = 3`. -/
def OnTwist (x0 x1 y0 y1 : Nat) : Prop :=
  x0 < p ∧ x1 < p ∧ y0 < p ∧ y1 < p ∧
    let x : Int × Int := (x0, x1)
    let y : Int × Int := (y0, y1)
    let d := mul (1, 3) (sub (mul y y) (mul x (mul x x)))
    d.1 % p = 0 ∧ d.2 % p = 3

end Base

open Base

theorem value_digit : ∀ n < 16, Hex.value (digits.getD n '?') = some n := by decide +kernel

/-- C85: the decoding of the base points inverts hexadecimal encoding, for all byte strings. -/
theorem C85_hex : ∀ b : Bytes, Hex.decode (hex b) = some b
  | [] => rfl
  | b :: l => by
    have h1 := value_digit (b.toNat / 16) (by have := b.toNat_lt; omega)
    have h2 := value_digit (b.toNat % 16) (by omega)
    simp only [hex, Hex.decode, h1, h2, C85_hex l]
    congr 2
    rw [show b.toNat / 16 * 16 + b.toNat % 16 = b.toNat by omega]
    simp

theorem hex_injective : ∀ {s : List Char} {b : Bytes}, s = hex b → ∀ b', Hex.decode s = some b' → b' = b := by
  intro s b h b' h'
  rw [h, C85_hex] at h'
  exact (Option.some.inj h').symm

/-- The hexadecimal digit `n` in capitals. -/
def Base.capitals : List Char := "0123456789ABCDEF".toList

theorem hex_value {c : Char} {n : Nat} : Hex.value c = some n ↔ n < 16 ∧ (c = digits.getD n '?' ∨ c = capitals.getD n '?') := by
  constructor
  · intro h
    have hc : c.toNat < 128 := by
      unfold Hex.value at h
      dsimp only at h
      split at h
      · omega
      split at h
      · omega
      split at h
      · omega
      · cases h
    have key : ∀ k < 128, ∀ n, Hex.value (Char.ofNat k) = some n → n < 16 ∧ (Char.ofNat k = digits.getD n '?' ∨ Char.ofNat k = capitals.getD n '?') := by
      have : ∀ k < 128, ∀ n ∈ Hex.value (Char.ofNat k), n < 16 ∧ (Char.ofNat k = digits.getD n '?' ∨ Char.ofNat k = capitals.getD n '?') := by
        decide +kernel
      exact fun k hk n hn => this k hk n hn
    have e : Char.ofNat c.toNat = c := Char.ofNat_toNat c
    have := key c.toNat hc n
    rw [e] at this
    exact this h
  · rintro ⟨h, rfl | rfl⟩
    · exact value_digit n h
    · revert n
      decide +kernel

/-- C85: the strings that decode to given bytes are exactly those with two digits, small or capital, for every byte. -/
theorem C85_hex_accepts : ∀ (s : List Char) (b : Bytes), Hex.decode s = some b ↔
    s.length = 2 * b.length ∧ ∀ i (h : i < b.length),
      (s.getD (2 * i) ' ' = digits.getD (b[i].toNat / 16) '?' ∨ s.getD (2 * i) ' ' = capitals.getD (b[i].toNat / 16) '?') ∧
      (s.getD (2 * i + 1) ' ' = digits.getD (b[i].toNat % 16) '?' ∨ s.getD (2 * i + 1) ' ' = capitals.getD (b[i].toNat % 16) '?')
  | [], b => by
    cases b <;> simp [Hex.decode]
  | [c], b => by
    simp only [Hex.decode, List.length_singleton]
    constructor
    · intro h; cases h
    · rintro ⟨h, -⟩; omega
  | x :: y :: rest, b => by
    have ih := C85_hex_accepts rest
    constructor
    · intro h
      simp only [Hex.decode] at h
      cases hx : Hex.value x with
      | none => rw [hx] at h; cases h
      | some n1 =>
        cases hy : Hex.value y with
        | none => rw [hx, hy] at h; cases h
        | some n2 =>
          cases ht : Hex.decode rest with
          | none => rw [hx, hy, ht] at h; cases h
          | some t =>
            rw [hx, hy, ht] at h
            cases h
            obtain ⟨a1, a2⟩ := hex_value.1 hx
            obtain ⟨b1, b2⟩ := hex_value.1 hy
            obtain ⟨c1, c2⟩ := (ih t).1 ht
            refine ⟨by simp [c1]; omega, fun i hi => ?_⟩
            cases i with
            | zero =>
              have e : (UInt8.ofNat (n1 * 16 + n2)).toNat = n1 * 16 + n2 := by
                rw [UInt8.toNat_ofNat']; exact Nat.mod_eq_of_lt (by omega)
              simp only [List.getElem_cons_zero, e, show (n1 * 16 + n2) / 16 = n1 by omega, show (n1 * 16 + n2) % 16 = n2 by omega]
              exact ⟨a2, b2⟩
            | succ i =>
              have := c2 i (by simpa using hi)
              simpa [show 2 * (i + 1) = 2 * i + 1 + 1 by ring] using this
    · rintro ⟨h1, h2⟩
      cases b with
      | nil => simp at h1
      | cons b0 t =>
        have ht := (ih t).2 ⟨by simp at h1; omega, fun i hi => by
          have := h2 (i + 1) (by simpa using hi)
          simpa [show 2 * (i + 1) = 2 * i + 1 + 1 by ring] using this⟩
        obtain ⟨u1, u2⟩ := h2 0 (by simp)
        have hx : Hex.value x = some (b0.toNat / 16) := hex_value.2 ⟨by have := b0.toNat_lt; omega, u1⟩
        have hy : Hex.value y = some (b0.toNat % 16) := hex_value.2 ⟨by omega, u2⟩
        simp only [Hex.decode, hx, hy, ht]
        congr 2
        rw [show b0.toNat / 16 * 16 + b0.toNat % 16 = b0.toNat by omega]
        simp

/-- The bytes written as `g1Str`. -/
def g1Bytes' : Bytes := (Hex.decode g1Str.toList).getD []

/-- The bytes written as `g2Str`. -/
def g2Bytes' : Bytes := (Hex.decode g2Str.toList).getD []

theorem g1Str_hex_eq : g1Str.toList = hex g1Bytes' := by decide +kernel
theorem g2Str_hex_eq : g2Str.toList = hex g2Bytes' := by decide +kernel

/-- C85: the constant for the base point of G1 is the hexadecimal form of two coordinates of a point of the curve, namely of
`(1, p - 2)`. -/
theorem C85_g1 : ∃ b : Bytes, g1Str.toList = hex b ∧ b.length = 64 ∧ OnCurve (word b 0 0) (word b 0 1) ∧ word b 0 0 = 1 ∧
    word b 0 1 = p - 2 := by
  refine ⟨g1Bytes', g1Str_hex_eq, ?_, ?_, ?_, ?_⟩
  · decide +kernel
  · unfold OnCurve; decide +kernel
  · decide +kernel
  · decide +kernel

/-- C85: the constant for the base point of G2 is the hexadecimal form of the tag 1 and the four coordinates of a point of the
twist. -/
theorem C85_g2 : ∃ b : Bytes, g2Str.toList = hex b ∧ b.length = 129 ∧ b.head? = some 1 ∧
    OnTwist (word b 1 0) (word b 1 1) (word b 1 2) (word b 1 3) := by
  refine ⟨g2Bytes', g2Str_hex_eq, ?_, ?_, ?_⟩
  · decide +kernel
  · decide +kernel
  · unfold OnTwist; decide +kernel

/-- C85: initialisation parses exactly the bytes of which the constants are the hexadecimal forms, and panics for no decoder that
accepts them. -/
theorem C85_init {F G1 G2 GT : Type} [Field F] [AddCommGroup G1] [Module F G1] [AddCommGroup G2] [Module F G2] [AddCommGroup GT]
    [Module F GT] (P : Bn256 F G1 G2 GT) (s : String) (b : Bytes) (h : s.toList = hex b) :
    newG1Base P s = (match P.g1OfBytes b with | none => .panic | some g => .ok g.1) ∧
    newG2Base P s = (match P.g2OfBytes b with | none => .panic | some g => .ok g.1) := by
  unfold newG1Base newG2Base
  rw [h, C85_hex]
  constructor
  · dsimp only
    rcases P.g1OfBytes b with _ | ⟨g, r⟩ <;> rfl
  · dsimp only
    rcases P.g2OfBytes b with _ | ⟨g, r⟩ <;> rfl

example : Hex.decode ("0Af".toList ++ ['1']) = some [10, 241] := by decide +kernel
example : Hex.decode "0g".toList = none ∧ Hex.decode "012".toList = none := by decide +kernel

end Dusk.Bls
