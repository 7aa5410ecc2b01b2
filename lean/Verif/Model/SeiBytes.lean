import Verif.Model.Nalu
/-!
Generation of the bytes of a SEI, `/repo/lib/src/signed_video_h26x_sign.c` 183-394.
-/
namespace SV

/-- What `generate_sei_nalu` needs besides the encoders' state. -/
structure SeiOpts where
  codec : Codec
  epb : Bool                 -- `sei_epb`
  golden : Bool              -- `is_golden_sei`
  usingGolden : Bool         -- `using_golden_sei`
  gopHashOff : Bool          -- `gop_hash_off`
  vendor : Bool              -- there are vendor encoders
  maxPayload : Nat           -- `max_sei_payload_size`
deriving DecidableEq, Repr

/-- Optional tags written (`signed_video_h26x_sign.c` 225-226, 307). -/
def optTags (o : SeiOpts) : List UInt8 := if o.usingGolden && !o.golden then [] else optionalTags
/-- Mandatory tags written (`signed_video_h26x_sign.c` 227-229, 314). -/
def mandTags (o : SeiOpts) : List UInt8 := if o.golden then [] else mandatoryTags
/-- Vendor tags written (`signed_video_h26x_sign.c` 231-234, 321). -/
def vendorTags (o : SeiOpts) : List UInt8 := if o.vendor then [tagAxis] else []

/-- Fallback to GOP level (`signed_video_h26x_sign.c` 239-247): if the payload is too large the hash list is
dropped. -/
def payloadSizeRaw (o : SeiOpts) (e : EncState) : Nat :=
  tlvListSize e [tagSignature] + tlvListSize e (vendorTags o) + tlvListSize e (optTags o)
    + tlvListSize e (mandTags o) + 16 + 1

def applyFallback (o : SeiOpts) (e : EncState) : EncState :=
  if o.maxPayload > 0 ∧ payloadSizeRaw o e > o.maxPayload ∧ tlvListSize e (mandTags o) > 0 then
    { e with hashList := none }
  else e

/-- `sei_buffer_size` (`signed_video_h26x_sign.c` 248-256). -/
def allocSize (c : Codec) (payload : Nat) : Nat :=
  ((match c with | .h264 => 6 | .h265 => 7) + (payload / 256 + 1) + payload + 1) * 4 / 3

/-- The payload size field (`signed_video_h26x_sign.c` 287-293). -/
def sizeField (n : Nat) : Bytes := List.replicate (n / 255) 0xFF ++ [UInt8.ofNat (n % 255)]

/-- Reserved byte (`signed_video_h26x_sign.c` 301-305). -/
def reservedByte (o : SeiOpts) : UInt8 :=
  (if o.epb then 0x80 else 0) ||| (if o.golden then 0x40 else 0) ||| 0x20 ||| (if o.gopHashOff then 0 else 0x10)

/-- NALU header and payload type (`signed_video_h26x_sign.c` 276-284). -/
def seiHeader : Codec → Bytes
  | .h264 => [0x06, 0x05]
  | .h265 => [0x4E, 0x01, 0x05]

/-- A started SEI: the bytes written so far and the register. -/
structure StartedSei where
  bytes : Bytes
  reg : L2
deriving DecidableEq, Repr

/-- `generate_sei_nalu` up to the signature (`signed_video_h26x_sign.c` 221-327).  Returns the bytes after the
4 byte start code, the register (the reserved byte is stored without updating it) and the session. -/
def seiStart (o : SeiOpts) (e0 : EncState) : StartedSei × EncState :=
  let e := applyFallback o e0
  let n := payloadSizeRaw o e
  let (h, s1) := writeBytes false L2.init (seiHeader o.codec ++ sizeField n)
  let (u, s2) := writeBytes true s1 uuid
  let (w1, s3, e1) := tlvListWrite o.epb e s2 (optTags o)
  let (w2, s4, e2) := tlvListWrite o.epb e1 s3 (mandTags o)
  let (w3, s5, e3) := tlvListWrite o.epb e2 s4 (vendorTags o)
  (⟨h ++ u ++ [reservedByte o] ++ w1 ++ w2 ++ w3, s5⟩, e3)

/-- `get_sign_and_complete_sei_nalu` (`signed_video_h26x_sign.c` 358-394): the signature TLV with the saved register,
then the stop byte.  `e` is the session at completion. -/
def seiComplete (o : SeiOpts) (e : EncState) (st : StartedSei) : Bytes :=
  let (w, s, _) := tlvListWrite o.epb e st.reg [tagSignature]
  let (z, _) := writeBytes false s [0x80]
  st.bytes ++ w ++ z

/-- The start code (`signed_video_h26x_sign.c` 270-273). -/
def startCode4 : Bytes := [0, 0, 0, 1]

/-- The complete SEI as given to the user. -/
def seiBytes (o : SeiOpts) (e0 e1 : EncState) : Bytes :=
  startCode4 ++ seiComplete o e1 (seiStart o e0).1

end SV
