import Verif.Model.Auth
/-! `signed_video_parse_sei` (`signed_video_h26x_common.c` 1304-1331) in a build with `PRINT_DECODED_SEI` (option `parsesei`,
`meson.build` 21-23). A session is made for one NAL unit, without report: `latest_validation` and `authenticity` are NULL. -/
namespace SV

/-- "Axis Communications AB" (`signed_video_tlv.c` 734). -/
def axisMaker : Bytes := "Axis Communications AB".toList.map fun c => UInt8.ofNat c.toNat

/-- What is printed for one record: its tag, its value and, for a hash list, one line for each hash. The members of the other
records are printed one by one; here the value stands for them. -/
structure Row where
  tag : UInt8
  value : Bytes
  lines : List Bytes := []
deriving DecidableEq, Repr

/-- The loop that prints hashes (`signed_video_tlv.c` 827-829): `arr` is the array `hash_list`, `n` the size of the list. -/
def hashLines (hs : Nat) (arr : Bytes) (n : Nat) : (fuel : Nat) → Nat → Out (List Bytes)
  | 0, _ => .ok []
  | k + 1, i =>
    if i ≥ n then .ok []
    else if i + hs > arr.length then .ub .overread
    else match hashLines hs arr n k (i + hs) with
      | .ok ls => .ok ((arr.drop i).take hs :: ls)
      | .err e => .err e
      | .ub u => .ub u

/-- The printout of `decode_hash_list` (`signed_video_tlv.c` 822-830). A hash size of 0 divides by zero in line 826; there is no
outcome of its own for that, and the loop would not end. A size above `MAX_HASH_SIZE` stands for `(size_t)-1`, see
`AuthEnv.crypto`: the first line reads beyond any buffer. The array has `hashListCap` bytes, the ones after the list are zero
(simplified: an earlier longer list of the same SEI leaves its bytes there). -/
def printList (hs : Nat) (list : Bytes) : Out (List Bytes) :=
  if hs = 0 then .ub .diverge
  else if hs > 64 ∧ list ≠ [] then .ub .overread
  else hashLines hs (buf hashListCap list) list.length list.length 0

/-- What a decoder does in this function beside decoding. `decode_public_key` reads `latest_validation` if the vendor code of
Axis is built in and the manufacturer is known to be Axis (`signed_video_tlv.c` 730-741). -/
def showRow (vendor : Bool) (t : UInt8) (value : Bytes) (s : Validator) : Out Row :=
  if vendor ∧ t = tagPublicKey ∧ s.d.product.manufacturer = some axisMaker then .ub .nullDeref
  else if t = 4 then
    match printList s.d.hashSize s.d.hashList with
    | .ok ls => .ok ⟨t, value, ls⟩
    | .err e => .err e
    | .ub u => .ub u
  else .ok ⟨t, value, []⟩

/-- The loop of `tlv_decode` (`signed_video_tlv.c` 1188-1206) with what is printed. It ends at the first record that cannot be
decoded. Simplified: also at a vendor record, for which `decTag` follows a build without vendors. -/
def showLoop (env : AuthEnv) (vendor : Bool) : (fuel : Nat) → Validator → Bytes → Nat → Out (List Row)
  | 0, _, _, _ => .ok []
  | k + 1, s, mem, size =>
    if size = 0 then .ok []
    else match decHeader mem with
      | .ub u => .ub u
      | .err _ => .ok []
      | .ok (t, n, h) =>
        match s.decTag env t (mem.drop h) n with
        | .ub u => .ub u
        | .err _ _ => .ok []
        | .ok s' _ =>
          match showRow vendor t ((mem.drop h).take n) s' with
          | .ok r =>
            match showLoop env vendor k s' ((mem.drop h).drop n) (size - h - n) with
            | .ok rs => .ok (r :: rs)
            | .err e => .err e
            | .ub u => .ub u
          | .err e => .err e
          | .ub u => .ub u

/-- `signed_video_parse_sei` (`signed_video_h26x_common.c` 1304-1331): the rows printed. The bytes of the NAL unit and the
reserved byte, printed first, are left out; memory is assumed to be available. -/
def showSei (env : AuthEnv) (vendor : Bool) (c : Codec) (data : Bytes) : Out (List Row) :=
  if data = [] then .ok []
  else match parseNalu data c true true with
    | .ok n => if n.gopSei then showLoop env vendor n.tlvSize (newValidator env c) n.tlvMem n.tlvSize else .ok []
    | .err e => .err e
    | .ub u => .ub u

end SV
