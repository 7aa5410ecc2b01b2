import Verif.Model.Auth
import Verif.Spec.Nalu
import Verif.Spec.SignHist
/-! What a user expects of a session that receives no Signed Video SEI. -/
namespace SV.Spec

/-- The NAL units given to a session since it was created or reset. -/
def sinceReset (cs : List AuthCall) : List Bytes :=
  cs.foldl (fun ds c => match c with
    | .nalu d => ds ++ [d]
    | .reset => []
    | .publicKey _ => ds) []

instance (c : Codec) (b0 b1 : UInt8) : Decidable (LegalHeader c b0 b1) := by
  cases c <;> (unfold LegalHeader; infer_instance)

/-- The NAL unit does not contain the UUID of Signed Video, so it is no Signed Video SEI. -/
def NoSei (d : Bytes) : Prop :=
  ¬ [0x53, 0x69, 0x67, 0x6e, 0x65, 0x64, 0x20, 0x56, 0x69, 0x64, 0x65, 0x6f, 0x2e, 0x2e, 0x2e, 0x30] <:+: d

end SV.Spec
