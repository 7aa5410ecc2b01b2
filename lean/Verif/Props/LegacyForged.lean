import Verif.Props.LegacyFalse
/-! C58: what the flag for NAL units that are used in a GOP hash lets through. -/
namespace SV
open Legacy

/-- Sign a stream with SEIs that have a GOP hash, each with its own key or none: what was signed, and the NAL units. -/
def legKeyed : (keys : List Bytes) → UInt32 → (gop rest : List Bytes) → List LegSei × List Bytes
  | _, _, _, [] => ([], [])
  | keys, counter, g, n :: ns =>
    if legIsI n then
      let s := legFor false (keys.headD []) counter (g ++ [n])
      let r := legKeyed keys.tail (counter + 1) [n] ns
      (s :: r.1, s.bytes :: n :: r.2)
    else
      let r := legKeyed keys counter (g ++ [n]) ns
      (r.1, n :: r.2)

/-- A SEI without key that nobody signed. -/
def legForged (product : Bool) (counter : UInt32) (sent : UInt16) (patch status : UInt8) : Bytes :=
  let tlvs := legTlv 1 ([1] ++ be32 counter ++ be16 sent ++ [1, 1, patch]) ++
    (if product then legTlv 3 ([1] ++ (List.replicate 5 [1, 65]).flatten) else [])
  let b := seiHeader .h264 ++ sizeField (17 + tlvs.length + 8 + 33) ++ uuid ++ [0] ++ tlvs ++
    legTlv 5 ([1, status, 0] ++ be16 33 ++ List.replicate 33 7)
  startCode4 ++ (writeBytes true L2.init b).1 ++ [0x80]

/-- Signatures are accepted only of what has been signed; what does not even look like a signature makes the verification fail. -/
def legOnly (signed : List LegSei) : AuthEnv :=
  { polyEnv with verify := fun _ s h =>
      if s = toySig h ∧ h ∈ signed.map (fun x => x.signed 33) then 1 else if s.head? = some 0x51 then 0 else -1 }

/-- Three GOPs, each SEI with the key. -/
def keyedGops : List LegSei × List Bytes := legKeyed (List.replicate 3 [9, 9, 9]) 1 [] (legNalus "IPPIPPI")

/-- Four GOPs; the first two SEIs are without key. -/
def keylessGops : List LegSei × List Bytes := legKeyed [[], [], [9, 9, 9], [9, 9, 9]] 1 [] (legNalus "IPIPPIPI")

/-- The first I-frame, a forged SEI, and the SEI for the I-frame. -/
def forgedSei : List Bytes :=
  [keyedGops.2.getD 1 [], legForged true 0 1 0 0, keyedGops.2.getD 0 []] ++ keyedGops.2.drop 2

/-- Two forged P-frames and two forged SEIs, and then the stream from its first I-frame on. -/
def forgedFrames : List Bytes :=
  [toyNalu 'P' 66, toyNalu 'P' 67, legForged false 0x1010101 3 1 1, legForged true 0 1 1 1] ++ keylessGops.2.drop 1

/-- **C58 does not hold.** The first part: a SEI of the older format that nobody signed is shown with '.', in a report that says OK.
The second part: P-frames that are not in the stream are shown with '.'; the report says NOT OK, because of another NAL unit.
No signature but those of the stream is accepted. -/
theorem C58_covered_false :
    (∃ s os, Session.run (legOnly keyedGops.1) (newSession (legOnly keyedGops.1) .h264) (forgedSei.map .nalu) = .ok (s, os) ∧
      toyReports os = [("ISS", "P..", .ok), ("ISSPPSI", "......P", .ok), ("IPPSI", "....P", .ok)] ∧
      forgedSei.getD 1 [] ∉ keyedGops.2) ∧
    ∃ s os, Session.run (legOnly keylessGops.1) (newSession (legOnly keylessGops.1) .h264) (forgedFrames.map .nalu) = .ok (s, os) ∧
      toyReports os = [("PPS", "PPP", .signaturePresent), ("PPSSIPSIPPS", "...E...PPPP", .notOk), ("IPPSI", "....P", .ok), ("IPSI", "...P", .ok)] ∧
      forgedFrames.getD 0 [] ∉ keylessGops.2 ∧ forgedFrames.getD 1 [] ∉ keylessGops.2 := by
  constructor
  · obtain ⟨s, os, h, hp⟩ := legCheck (legOnly keyedGops.1) (newSession (legOnly keyedGops.1) .h264) (forgedSei.map .nalu)
      (fun _ os => toyReports os == [("ISS", "P..", .ok), ("ISSPPSI", "......P", .ok), ("IPPSI", "....P", .ok)]) (by decide +kernel)
    exact ⟨s, os, h, by simpa using hp, by decide +kernel⟩
  · obtain ⟨s, os, h, hp⟩ := legCheck (legOnly keylessGops.1) (newSession (legOnly keylessGops.1) .h264) (forgedFrames.map .nalu)
      (fun _ os => toyReports os == [("PPS", "PPP", .signaturePresent), ("PPSSIPSIPPS", "...E...PPPP", .notOk), ("IPPSI", "....P", .ok),
        ("IPSI", "...P", .ok)]) (by decide +kernel)
    exact ⟨s, os, h, by simpa using hp, by decide +kernel, by decide +kernel⟩

end SV
