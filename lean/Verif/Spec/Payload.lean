import Verif.Model.SeiBytes
/-!
An encoder that gets the payload of a SEI and writes the NAL unit itself, from the video coding standards (ITU-T H.264
7.3.1, 7.3.2.3, 7.3.2.3.1 and D.1.1; H.265 7.3.1.1, 7.3.2.4, 7.3.5).
-/
namespace SV.Spec

/-- Emulation prevention: a byte of at most 3 after two zero bytes gets a byte 3 in front.  `z` is the number of zero
bytes directly before. -/
def protect : Nat → Bytes → Bytes
  | _, [] => []
  | z, b :: bs =>
    if 2 ≤ z ∧ b ≤ 3 then 3 :: b :: protect (if b = 0 then 1 else 0) bs
    else b :: protect (if b = 0 then z + 1 else 0) bs

/-- The size of a payload: `ff` for each 255, and the rest. -/
def codedSize (n : Nat) : Bytes :=
  if n < 255 then [UInt8.ofNat n] else 0xFF :: codedSize (n - 255)

/-- The SEI with user data (payload type 5) that the encoder writes: header, type, size, payload and stop bit. -/
def encoderNal (c : Codec) (payload : Bytes) : Bytes :=
  (match c with | .h264 => ([0x06] : Bytes) | .h265 => [0x4E, 0x01]) ++ [5] ++ codedSize payload.length ++ payload ++ [0x80]

/-- The same in a byte stream, with start code and emulation prevention. -/
def encoderSei (c : Codec) (payload : Bytes) : Bytes := [0, 0, 0, 1] ++ protect 0 (encoderNal c payload)

end SV.Spec
