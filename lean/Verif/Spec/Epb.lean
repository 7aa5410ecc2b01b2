import Verif.Model.Epb
/-!
Specification of emulation prevention, written from the video coding standards (ITU-T H.264 7.3.1 and 7.4.1,
H.265 7.3.1.1 and 7.4.2), independent of the library's functions.
-/
namespace SV.Spec

/-- A standard decoder removing emulation prevention: a byte 03 that follows two (or more) zero bytes is
dropped.  `z` is the number of zero bytes directly before. -/
def strip : Nat → Bytes → Bytes
  | _, [] => []
  | z, b :: bs =>
    if b = 3 ∧ 2 ≤ z then strip 0 bs
    else b :: strip (if b = 0 then z + 1 else 0) bs

/-- A byte string contains a pattern that a decoder may take for a start code (00 00 01), its prefix (00 00 00),
or a reserved pattern (00 00 02). -/
def Emulates (bs : Bytes) : Prop :=
  ∃ pre c post, bs = pre ++ 0 :: 0 :: c :: post ∧ c ≤ 2

/-- Number of zero bytes at the end of a byte string. -/
def trailingZeros (bs : Bytes) : Nat := (bs.reverse.takeWhile (· == 0)).length

end SV.Spec
