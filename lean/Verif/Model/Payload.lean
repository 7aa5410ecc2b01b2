import Verif.Model.Nalu
/-! The offset of the payload of a SEI that is handed out. -/
namespace SV

/-- `nalu_info.payload - sei` after `parse_nalu_info(sei, *sei_size, self->codec, false, false)`
(`signed_video_h26x_sign.c` 678-683, `signed_video_h26x_common.c` 586-690): the payload of a NAL unit that is not a SEI
with user data is a null pointer, of which the difference is undefined. -/
def payloadOffset (sei : Bytes) (c : Codec) : Out Nat := do
  let _ ← parseNalu sei c false false
  match sei with
  | a :: b :: x :: d :: _ => do
    let r := (startCode a b x d).1
    let m := sei.drop r
    let (t, _, _) ← parseHeader c m
    if t = .sei then
      let (ud, m1) ← rd8 (m.drop (headerLen c))
      if ud = 5 then
        let (_, k) ← payloadSizeField m1
        .ok (r + (headerLen c + 1 + k))
      else .ub .nullDeref
    else .ub .nullDeref
  | _ => .ub .overread

end SV
