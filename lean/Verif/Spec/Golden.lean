import Verif.Model.Nalu
/-!
What a golden SEI looks like.
-/
namespace SV.Spec

/-- The header of a NAL unit that is a SEI. -/
def IsSeiHeader : Codec → Bytes → Prop
  | .h264, [b] => b &&& 0x1f = 6
  | .h265, [b, _] => (b &&& 0x7e) >>> 1 = 39 ∨ (b &&& 0x7e) >>> 1 = 40
  | _, _ => False

/-- The identifier of Signed Video. -/
def videoId : Bytes := "Signed Video...0".toList.map fun c => UInt8.ofNat c.toNat

/-- A golden SEI: start code if there is one, header, type and size of the payload, identifier of Signed Video, the byte with
the flags, and anything. -/
def GoldenSei (c : Codec) (data : Bytes) : Prop :=
  ∃ sc hd k b flags rest, data = sc ++ (hd ++ (5 :: (List.replicate k 0xff ++ b :: (videoId ++ flags :: rest)))) ∧
    sc ∈ [[], [0, 0, 1], [0, 0, 0, 1]] ∧ IsSeiHeader c hd ∧ b ≠ 0xff ∧ flags &&& 0x40 ≠ 0

end SV.Spec
