/-!
Model of the byte writer/reader with emulation prevention of
`/repo/lib/src/signed_video_tlv.c` (lines 1351-1403).
-/
namespace SV

/-- A byte string. -/
abbrev Bytes := List UInt8

/-- The `uint16_t last_two_bytes` register of the C code, as its high and low byte.
`signed_video_tlv.c` 1357-1358: `*last_two_bytes <<= 8; *last_two_bytes |= b` shifts the low byte into
the high byte; the pair is an exact representation of the 16 bit value. -/
structure L2 where
  hi : UInt8
  lo : UInt8
deriving DecidableEq, Repr

/-- `LAST_TWO_BYTES_INIT_VALUE` = 0x0101 (`signed_video_internal.h`). -/
def L2.init : L2 := ⟨1, 1⟩

/-- `*last_two_bytes <<= 8; *last_two_bytes |= b` (`signed_video_tlv.c` 1357-1358, 1386-1387). -/
def L2.push (s : L2) (b : UInt8) : L2 := ⟨s.lo, b⟩

/-- `*last_two_bytes == 0` (`signed_video_tlv.c` 1355, 1376). -/
def L2.isZero (s : L2) : Bool := s.hi == 0 && s.lo == 0

/-- `write_byte` (`signed_video_tlv.c` 1370-1388): the bytes stored at `*data` and the new register.
The destination pointer is represented by the list of bytes produced; room in the destination is
treated separately (see `Model/SeiBytes.lean`). -/
def writeByte (epb : Bool) (s : L2) (b : UInt8) : Bytes × L2 :=
  if epb && (b &&& 0xFC == 0) && s.isZero then
    ([0x03, b], (s.push 0x03).push b)
  else
    ([b], s.push b)

/-- `write_byte_many` (`signed_video_tlv.c` 1390-1403) and any sequence of `write_byte` calls. -/
def writeBytes (epb : Bool) (s : L2) : Bytes → Bytes × L2
  | [] => ([], s)
  | b :: bs =>
    let (o, s') := writeByte epb s b
    let (os, s'') := writeBytes epb s' bs
    (o ++ os, s'')

/-- `read_byte` (`signed_video_tlv.c` 1351-1368) on the memory `mem` that is readable from `*data` on:
the byte returned, the new register and the memory left.  `none` is a read outside of that memory. -/
def readByte (epb : Bool) (s : L2) : Bytes → Option (UInt8 × L2 × Bytes)
  | [] => none
  | c :: mem =>
    if epb && (c == 0x03) && s.isZero then
      match mem with
      | [] => none
      | d :: mem' => some (d, (s.push c).push d, mem')
    else
      some (c, s.push c, mem)

/-- `n` successive `read_byte` calls, e.g. `signed_video_tlv.c` 1236-1238 and the copy loop of
`remove_epb_from_sei_payload` (`signed_video_h26x_common.c` 558-560). -/
def readMany (epb : Bool) (s : L2) : Nat → Bytes → Option (Bytes × L2 × Bytes)
  | 0, mem => some ([], s, mem)
  | n + 1, mem =>
    match readByte epb s mem with
    | none => none
    | some (b, s', mem') =>
      match readMany epb s' n mem' with
      | none => none
      | some (bs, s'', mem'') => some (b :: bs, s'', mem'')

end SV
