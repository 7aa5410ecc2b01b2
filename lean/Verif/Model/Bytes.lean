import Verif.Model.Epb
import Verif.Model.Out
/-!
Big endian integers and bounds-checked reads, `/repo/lib/src/signed_video_tlv.c` 1295-1349.
-/
namespace SV

/-- The two bytes written for a 16 bit value, e.g. `signed_video_tlv.c` 270-271:
`(v >> 8) & 0xff`, `v & 0xff`. -/
def be16 (v : UInt16) : Bytes := [(v >>> 8).toUInt8, v.toUInt8]

/-- The four bytes written for a 32 bit value (`signed_video_tlv.c` 264-267). -/
def be32 (v : UInt32) : Bytes :=
  [(v >>> 24).toUInt8, (v >>> 16).toUInt8, (v >>> 8).toUInt8, v.toUInt8]

/-- The eight bytes written for a timestamp (`signed_video_tlv.c` 281-288).  The C code shifts a signed
value; `(x >> k) & 0xff` of the signed value is the same byte as of its two's complement bit pattern. -/
def be64 (v : UInt64) : Bytes :=
  [(v >>> 56).toUInt8, (v >>> 48).toUInt8, (v >>> 40).toUInt8, (v >>> 32).toUInt8,
   (v >>> 24).toUInt8, (v >>> 16).toUInt8, (v >>> 8).toUInt8, v.toUInt8]

/-- `read_8bits` or `*data_ptr++`. -/
def rd8 : Bytes → Out (UInt8 × Bytes)
  | a :: m => .ok (a, m)
  | _ => .ub .overread

/-- `read_16bits` (`signed_video_tlv.c` 1332-1340) and advancing the pointer. -/
def rd16 : Bytes → Out (UInt16 × Bytes)
  | a :: b :: m => .ok ((a.toUInt16 <<< 8) + b.toUInt16, m)
  | _ => .ub .overread

/-- `read_32bits` (`signed_video_tlv.c` 1320-1330). -/
def rd32 : Bytes → Out (UInt32 × Bytes)
  | a :: b :: c :: d :: m =>
    .ok ((a.toUInt32 <<< 24) + (b.toUInt32 <<< 16) + (c.toUInt32 <<< 8) + d.toUInt32, m)
  | _ => .ub .overread

/-- `read_64bits` (`signed_video_tlv.c` 1295-1309). -/
def rd64 : Bytes → Out (UInt64 × Bytes)
  | a :: b :: c :: d :: e :: f :: g :: h :: m =>
    .ok ((a.toUInt64 <<< 56) + (b.toUInt64 <<< 48) + (c.toUInt64 <<< 40) + (d.toUInt64 <<< 32) +
      (e.toUInt64 <<< 24) + (f.toUInt64 <<< 16) + (g.toUInt64 <<< 8) + h.toUInt64, m)
  | _ => .ub .overread

/-- `memcpy(dst, data_ptr, n); data_ptr += n` as far as reading is concerned. -/
def rdN (n : Nat) (m : Bytes) : Out (Bytes × Bytes) :=
  if n ≤ m.length then .ok (m.take n, m.drop n) else .ub .overread

/-- Reading a C string at `data_ptr` (`strlen`/`strcpy` in `allocate_memory_and_copy_string`,
`signed_video_authenticity.c` 53-79): the bytes before the first NUL; outside the memory if there is
no NUL. -/
def rdStr : Bytes → Out Bytes
  | [] => .ub .overread
  | b :: m => if b == 0 then .ok [] else (rdStr m).bind fun s => .ok (b :: s)

/-- `data_ptr += n` without reading. -/
def skipN (n : Nat) (m : Bytes) : Bytes := m.drop n

end SV
