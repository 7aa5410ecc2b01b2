import Verif.Model.Nalu
/-!
`signed_video_is_golden_sei` of `/repo/lib/src/signed_video_h26x_common.c`.
-/
namespace SV

/-- `signed_video_is_golden_sei` (`signed_video_h26x_common.c` 1294-1302) of a session with codec `c`. Trailing bytes are not
checked for. -/
def isGolden (c : Codec) (data : Bytes) : Out Bool :=
  if data = [] then .ok false
  else do
    let n ← parseNalu data c false true
    .ok n.golden

end SV
