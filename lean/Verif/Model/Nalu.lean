import Verif.Model.Tlv
/-!
Parsing of NAL units, `/repo/lib/src/signed_video_h26x_common.c` 319-691.
-/
namespace SV

/-- `SignedVideoCodec` (H.264 and H.265). -/
inductive Codec | h264 | h265
deriving DecidableEq, Repr

/-- `SignedVideoFrameType` / `NALU_TYPE_*` (`signed_video_h26x_internal.h`). -/
inductive NType | undefined | sei | i | p | ps | aud | other
deriving DecidableEq, Repr

/-- `kUuidSignedVideo` (`signed_video_h26x_common.c` 137-138). -/
def uuid : Bytes :=
  [0x53, 0x69, 0x67, 0x6e, 0x65, 0x64, 0x20, 0x56, 0x69, 0x64, 0x65, 0x6f, 0x2e, 0x2e, 0x2e, 0x30]

/-- The part of `h26x_nalu_t` written by `parse_nalu_info`.  Pointers are represented by the bytes they point to:
`hashable` is `hashable_data[0 .. hashable_data_size)`, `tlvMem` the readable memory from `tlv_data` on, `tlvStart` the
readable memory from `tlv_start_in_nalu_data` on and `tlvOff` its offset from `hashable_data`. -/
structure Nalu where
  startCode : UInt32 := 0
  valid : Int := -1
  ntype : NType := .undefined
  hashable : Bytes := []
  isHashable : Bool := false
  primary : Bool := false
  firstInGop : Bool := false
  gopSei : Bool := false
  payloadSize : Nat := 0
  epbs : Int := 0
  reserved : UInt8 := 0
  withEpb : Bool := false
  golden : Bool := false
  tlvSize : Nat := 0
  tlvMem : Bytes := []
  tlvStart : Bytes := []
  tlvOff : Nat := 0
deriving DecidableEq, Repr

/-- `parse_h264_nalu_header` (`signed_video_h26x_common.c` 342-403) on the first header byte: type and whether the
header is valid. -/
def h264Type (b : UInt8) : NType × Bool :=
  let t := b &&& 0x1f
  let ref := b &&& 0x60
  let r : NType × Bool :=
    if t = 1 then (.p, true)
    else if t = 2 ∨ t = 3 ∨ t = 4 then (.other, true)
    else if t = 5 then (.i, ref > 0)
    else if t = 6 then (.sei, ref = 0)
    else if t = 7 ∨ t = 8 ∨ t = 13 ∨ t = 15 then (.ps, ref > 0)
    else if t = 9 then (.aud, true)
    else if t = 10 ∨ t = 11 ∨ t = 12 then (.other, ref = 0)
    else (.undefined, false)
  (r.1, r.2 && (b &&& 0x80 == 0))

/-- The `switch` of `parse_h265_nalu_header` (`signed_video_h26x_common.c` 427-511) on the six bit type, the layer and
the temporal identifier. -/
def h265Table (t : UInt8) (layer tid : UInt8) : NType × Bool :=
  if t = 0 ∨ t = 1 then (.p, true)
  else if t = 2 ∨ t = 3 then (.other, tid ≠ 0)
  else if t = 4 ∨ t = 5 then (.other, if layer = 0 then tid ≠ 0 else true)
  else if t = 6 ∨ t = 7 ∨ t = 8 ∨ t = 9 then (.other, tid ≠ 0)
  else if 16 ≤ t ∧ t ≤ 21 then (.i, tid = 0)
  else if t = 32 ∨ t = 33 then (.ps, tid = 0)
  else if t = 34 then (.ps, true)
  else if t = 35 then (.aud, true)
  else if t = 36 ∨ t = 37 then (.other, (tid = 0 ∧ layer = 0 : Bool))
  else if t = 38 then (.other, true)
  else if t = 39 ∨ t = 40 then (.sei, true)
  else (.undefined, false)

/-- `parse_h265_nalu_header` (`signed_video_h26x_common.c` 405-517) on the two header bytes; `none` for the early
return of line 418-421, which happens before the third byte is read. (`nuh_layer_id > 63` cannot happen.) -/
def h265Type (b0 b1 : UInt8) : Option (NType × Bool) :=
  let t := (b0 &&& 0x7E) >>> 1
  let layer := ((b0 &&& 0x01) <<< 5) ||| ((b1 &&& 0xF8) >>> 3)
  let tid1 := b1 &&& 0x07
  if tid1 = 0 then none
  else
    let r := h265Table t layer (tid1 - 1)
    some (r.1, r.2 && (b0 &&& 0x80 == 0))

/-- Header parsing of either codec on the memory from `hashable_data` on: type, validity, primary slice. -/
def parseHeader (c : Codec) (m : Bytes) : Out (NType × Bool × Bool) :=
  match c with
  | .h264 =>
    match m with
    | b0 :: b1 :: _ => .ok ((h264Type b0).1, (h264Type b0).2, b1 &&& 0x80 != 0)
    | _ => .ub .overread
  | .h265 =>
    match m with
    | b0 :: b1 :: m2 =>
      match h265Type b0 b1 with
      | none => .ok (.undefined, false, false)
      | some (t, v) =>
        match m2 with
        | b2 :: _ => .ok (t, v, b2 &&& 0x80 != 0)
        | [] => .ub .overread
    | _ => .ub .overread

/-- `H264_NALU_HEADER_LEN`, `H265_NALU_HEADER_LEN`. -/
def headerLen : Codec → Nat
  | .h264 => 1
  | .h265 => 2

/-- Length of the data without trailing zero bytes (loop of `signed_video_h26x_common.c` 644-647); reading before the
first byte if there are only zeros. -/
def trimmedLen (data : Bytes) : Out Nat :=
  let n := (data.reverse.dropWhile (· == 0)).length
  if n = 0 then .ub .overread else .ok n

/-- `h264_get_payload_size` (`signed_video_h26x_common.c` 319-330): value and number of bytes. -/
def payloadSizeField : Bytes → Out (Nat × Nat)
  | [] => .ub .overread
  | b :: m =>
    if b = 0xFF then (payloadSizeField m).bind fun p => .ok (255 + p.1, 1 + p.2)
    else .ok (b.toNat, 1)

/-- `remove_epb_from_sei_payload` (`signed_video_h26x_common.c` 524-570).  `m` is the memory from `hashable_data` on,
`off` the offset of the payload.  The allocation (line 549) is assumed to succeed. -/
def removeEpb (n : Nalu) (m : Bytes) (off : Nat) : Out Nalu :=
  if !n.isHashable || !n.gopSei || n.valid ≤ 0 then .ok n
  else
    match m.drop (off + 16) with
    | [] => .ub .overread
    | r :: tlv =>
      let n := { n with
        reserved := r, withEpb := (r &&& 0x80 != 0), golden := (r &&& 0x40 != 0),
        tlvSize := (n.payloadSize + (2 ^ 64 - 17)) % 2 ^ 64,
        tlvMem := tlv, tlvStart := tlv, tlvOff := off + 17 }
      if n.epbs ≤ 0 then .ok n
      else
        let dataSize := off + n.payloadSize + 1
        match readMany true L2.init dataSize m with
        | none => .ub .overread
        | some (d, _, _) =>
          let n := { n with tlvMem := d.drop (off + 17) }
          if n.withEpb then .ok n
          else .ok { n with hashable := d, tlvStart := n.tlvMem, tlvOff := off + 17 }

/-- SEI part of `parse_nalu_info` (`signed_video_h26x_common.c` 650-688). `m` is the memory from `hashable_data` on;
`lastByte` is `nalu_data[nalu_data_size - 1]` after removing trailing zeros.  `memcmp` on the UUID needs 16 bytes. -/
def parseSei (c : Codec) (auth : Bool) (n : Nalu) (m : Bytes) (lastByte : UInt8) : Out Nalu := do
  let h := headerLen c
  let (ud, m1) ← rd8 (m.drop h)
  if ud = 5 then
    let (ps, k) ← payloadSizeField m1
    let off := h + 1 + k
    let (u, _) ← rdN 16 (m.drop off)
    let epbs : Int := n.hashable.length - off - ps - (if lastByte = 0x80 then 1 else 0)
    let n := { n with payloadSize := ps, epbs := epbs, gopSei := u == uuid, isHashable := (u == uuid) && auth }
    removeEpb n m off
  else .ok { n with gopSei := false, isHashable := false }

/-- Start code length and value (`signed_video_h26x_common.c` 609-625). -/
def startCode (a b c d : UInt8) : Nat × UInt32 :=
  if a = 0 ∧ b = 0 ∧ c = 0 ∧ d = 1 then (4, 1)
  else if a = 0 ∧ b = 0 ∧ c = 1 then (3, 1)
  else (0, 0)

/-- `parse_nalu_info` (`signed_video_h26x_common.c` 582-691).  `data` is the whole buffer given by the caller. -/
def parseNalu (data : Bytes) (c : Codec) (checkTrailing auth : Bool) : Out Nalu :=
  match data with
  | [] => .ok {}
  | a :: b :: x :: d :: _ => do
    let r := (startCode a b x d).1
    let m := data.drop r
    let (t, v, prim) ← parseHeader c m
    let size ← (if checkTrailing then trimmedLen data else .ok data.length)
    let n : Nalu := {
      startCode := (startCode a b x d).2
      valid := if v then 1 else 0
      ntype := t
      primary := prim
      isHashable := t == .i || t == .p
      firstInGop := t == .i && prim
      hashable := m.take (size - r) }
    if t = .sei then parseSei c auth n m (data.getD (size - 1) 0)
    else .ok n
  | _ => .ub .overread

/-- `update_hashable_data` (`signed_video_h26x_auth.c` 1050-1065): the bytes of a SEI that are hashed. -/
def updateHashable (n : Nalu) : Out Nalu :=
  if !n.isHashable || !n.gopSei then .ok n
  else do
    match ← findTag n.tlvStart n.tlvSize tagSignature n.withEpb with
    | some k => .ok { n with hashable := n.hashable.take (n.tlvOff + k) }
    | none => .ok n

end SV
