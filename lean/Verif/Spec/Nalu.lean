import Verif.Model.Nalu
/-! Specification of which NAL units are protected, from the type tables of ITU-T H.264 (table 7-1) and H.265
(table 7-1). -/
namespace SV.Spec

/-- `nal_unit_type` of H.264 (five low bits of the first byte). -/
def h264NalType (b0 : UInt8) : Nat := b0.toNat % 32

/-- `nal_unit_type` of H.265 (bits 1 to 6 of the first byte). -/
def h265NalType (b0 : UInt8) : Nat := b0.toNat / 2 % 64

/-- Types that contribute to the signature: H.264 slices of a non-IDR (1) and of an IDR picture (5); H.265 trailing
pictures (0, 1) and intra random access pictures (16 to 21), the temporal identifier being valid. -/
def Protected : Codec → UInt8 → UInt8 → Prop
  | .h264, b0, _ => h264NalType b0 = 1 ∨ h264NalType b0 = 5
  | .h265, b0, b1 => b1.toNat % 8 ≠ 0 ∧
      (h265NalType b0 = 0 ∨ h265NalType b0 = 1 ∨ (16 ≤ h265NalType b0 ∧ h265NalType b0 ≤ 21))

/-- SEI types. -/
def SeiType : Codec → UInt8 → UInt8 → Prop
  | .h264, b0, _ => h264NalType b0 = 6
  | .h265, b0, b1 => b1.toNat % 8 ≠ 0 ∧ (h265NalType b0 = 39 ∨ h265NalType b0 = 40)

/-- Types with coded slice data (VCL types, tables 7-1 of both standards; H.265 reserved types left out). -/
def CodedSlice : Codec → UInt8 → Prop
  | .h264, b0 => 1 ≤ h264NalType b0 ∧ h264NalType b0 ≤ 5
  | .h265, b0 => h265NalType b0 ≤ 9 ∨ (16 ≤ h265NalType b0 ∧ h265NalType b0 ≤ 21)

/-- The rules of the two standards on the header of a NAL unit that the library checks: the forbidden bit is zero and
- H.264: the type is one of 1 to 13 and 15; `nal_ref_idc` is not zero for IDR slices and parameter sets (5, 7, 8, 13, 15)
  and zero for SEI, end of sequence, end of stream and filler data (6, 10, 11, 12);
- H.265: the temporal identifier is present and the type is neither reserved nor unspecified; the temporal identifier is
  zero for intra random access pictures, VPS, SPS, end of sequence and end of bitstream (the last two in layer 0 only),
  and not zero for TSA, leading and (in layer 0) STSA pictures. -/
def LegalHeader : Codec → UInt8 → UInt8 → Prop
  | .h264, b0, _ =>
    let t := h264NalType b0
    let ref := b0.toNat / 32 % 4
    b0.toNat < 128 ∧ ((1 ≤ t ∧ t ≤ 13) ∨ t = 15) ∧ (t ∈ [5, 7, 8, 13, 15] → ref ≠ 0) ∧ (t ∈ [6, 10, 11, 12] → ref = 0)
  | .h265, b0, b1 =>
    let t := h265NalType b0
    let tid := b1.toNat % 8 - 1
    let base := b0.toNat % 2 = 0 ∧ b1.toNat / 8 = 0
    b0.toNat < 128 ∧ b1.toNat % 8 ≠ 0 ∧ (t ≤ 9 ∨ (16 ≤ t ∧ t ≤ 21) ∨ (32 ≤ t ∧ t ≤ 40)) ∧
      ((16 ≤ t ∧ t ≤ 21) ∨ t = 32 ∨ t = 33 ∨ t = 36 ∨ t = 37 → tid = 0) ∧
      (t = 36 ∨ t = 37 → base) ∧
      (t = 2 ∨ t = 3 ∨ (6 ≤ t ∧ t ≤ 9) → tid ≠ 0) ∧ (t = 4 ∨ t = 5 → base → tid ≠ 0)

/-- The two headers that may precede a NAL unit in a byte stream, or none. -/
inductive Prefix : Bytes → Prop
  | four : Prefix [0, 0, 0, 1]
  | three : Prefix [0, 0, 1]
  | none : Prefix []

/-- A byte string does not itself begin with a start code. -/
def NoStartCode (b : Bytes) : Prop := ¬ [0, 0, 0, 1] <+: b ∧ ¬ [0, 0, 1] <+: b

/-- Number of header bytes. -/
def hdr : Codec → Nat
  | .h264 => 1
  | .h265 => 2

/-- A SEI body that is long enough for what it announces: it is not a user data SEI, or its size field (`j` bytes FF and
a last byte `x`) is complete and the body is the escaped form of a payload `L` that contains the announced bytes (at
least a UUID and a reserved byte) and a stop byte. -/
def SeiRoom (c : Codec) (m : Bytes) : Prop :=
  (∃ h x rest, h.length = hdr c ∧ m = h ++ x :: rest ∧ x ≠ 5) ∨
  ∃ h j x rest L tail, h.length = hdr c ∧ x ≠ 0xFF ∧ m = h ++ 5 :: (List.replicate j 0xFF ++ x :: rest) ∧
    17 ≤ rest.length ∧ m = (writeBytes true L2.init L).1 ++ tail ∧
    hdr c + 2 + j + (255 * j + x.toNat) + 1 ≤ L.length

end SV.Spec
