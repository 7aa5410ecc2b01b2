import Verif.Props.AuthDemo
/-!
The model of the validator against the expectations of the project's own tests,
`/repo/tests/check/check_signed_video_auth.c`.  These are tests of the model, not theorems about it: streams are signed by
the model of the signer and manipulated as in the tests, and the numbers compared with `struct validation_stats` are those
computed by `validate_nalu_list` (105-227).
-/
namespace SV

/-- What `validate_nalu_list` counts: reports OK, OK with missing information, NOT OK, NOT SIGNED and SIGNATURE PRESENT,
missed NAL units and pending NAL units, and the final accumulated verdict with the numbers of NAL units received,
validated and pending. -/
structure TestTally where
  valid : Nat := 0
  withMissing : Nat := 0
  invalid : Nat := 0
  unsigned : Nat := 0
  signature : Nat := 0
  missed : Int := 0
  pending : Int := 0
  final : Auth
  received : Nat
  validated : Nat
  held : Nat
deriving DecidableEq, Repr

/-- The number of missed NAL units of a report. -/
def missedOf (l : Latest) : Int := if l.expected ≥ 0 then l.expected - l.received else 0

/-- The number of pending NAL units of a report. -/
def pendingOf (l : Latest) : Int := l.pending

/-- Count the reports of a session. -/
def tally (ns : List Bytes) : Option TestTally :=
  match authRun toyEnv (newValidator toyEnv .h264) (ns.map AuthCall.nalu) with
  | .ok (s, os) =>
    let ls := os.filterMap fun o => o.report.map fun r => r.latest
    let f := (getReport s.rep s.list.length).2.acc
    if os.all (fun o => o.rc = none) then
      some {
        valid := ls.countP fun l => l.auth = .ok
        withMissing := ls.countP fun l => l.auth = .okWithMissing
        invalid := ls.countP fun l => l.auth = .notOk
        unsigned := ls.countP fun l => l.auth = .notSigned
        signature := ls.countP fun l => l.auth = .signaturePresent
        missed := (ls.map missedOf).sum
        pending := (ls.map pendingOf).sum
        final := f.auth, received := f.received, validated := f.validated, held := f.pending }
    else none
  | _ => none

/-- The types of the NAL units of a stream. -/
def toyTypes (ns : List Bytes) : String :=
  String.ofList (ns.map fun b => if b.getD 4 0 = 0x65 then 'I' else if b.getD 4 0 = 0x41 then 'P' else if b.getD 4 0 = 6 then 'S' else '_')

/-- Remove the NAL unit at a position, counted from 1. -/
def rmAt (k : Nat) (l : List Bytes) : List Bytes := l.eraseIdx (k - 1)

/-- Insert a NAL unit after a position. -/
def insAfter (k : Nat) (b : Bytes) (l : List Bytes) : List Bytes := l.take k ++ b :: l.drop k

/-- Take the NAL unit at a position out and insert it after a position of the remaining ones. -/
def mv (i j : Nat) (l : List Bytes) : List Bytes := insAfter j (l.getD (i - 1) []) (rmAt i l)

/-- Change the third byte from the end of a NAL unit; in a SEI that is a byte of the signature. -/
def modAt (k : Nat) (l : List Bytes) : List Bytes :=
  l.modify (k - 1) fun b => if b.length > 60 then b.modify (b.length - 30) (· ^^^ 0xff) else b.modify 6 (· + 100)

def frame (types : String) : List Bytes := toySigned [] types
def gopLevel (types : String) : List Bytes := toySigned [.level 0] types

set_option maxRecDepth 100000

/-- `remove_one_p_nalu` (419-459), frame level. -/
example : tally (rmAt 8 (frame "IPPIPPPIPPIP")) = some
    { valid := 2, withMissing := 1, invalid := 0, unsigned := 1, signature := 0,
      missed := 1, pending := 7, final := .okWithMissing, received := 14, validated := 11, held := 3 } := by
  decide +kernel

/-- `remove_one_p_nalu` (419-459), GOP level. -/
example : tally (rmAt 8 (gopLevel "IPPIPPPIPPIP")) = some
    { valid := 2, withMissing := 0, invalid := 1, unsigned := 1, signature := 0,
      missed := 1, pending := 7, final := .notOk, received := 14, validated := 11, held := 3 } := by
  decide +kernel

/-- `interchange_two_p_nalus` (464-497), frame level. -/
example : tally (mv 7 7 (frame "IPPIPPPIPPIP")) = some
    { valid := 2, withMissing := 0, invalid := 1, unsigned := 1, signature := 0,
      missed := 0, pending := 7, final := .notOk, received := 15, validated := 12, held := 3 } := by
  decide +kernel

/-- `modify_one_p_nalu` (502-528), frame level. -/
example : tally (modAt 6 (frame "IPPIPPPIPPIP")) = some
    { valid := 2, withMissing := 0, invalid := 1, unsigned := 1, signature := 0,
      missed := 0, pending := 7, final := .notOk, received := 15, validated := 12, held := 3 } := by
  decide +kernel

/-- `modify_one_i_nalu` (530-564), frame level. -/
example : tally (modAt 4 (frame "IPPIPPPIPPIPPIP")) = some
    { valid := 2, withMissing := 0, invalid := 2, unsigned := 1, signature := 0,
      missed := 0, pending := 8, final := .notOk, received := 19, validated := 16, held := 3 } := by
  decide +kernel

/-- `modify_one_i_nalu` (530-564), GOP level. -/
example : tally (modAt 4 (gopLevel "IPPIPPPIPPIPPIP")) = some
    { valid := 2, withMissing := 0, invalid := 2, unsigned := 1, signature := 0,
      missed := 0, pending := 8, final := .notOk, received := 19, validated := 16, held := 3 } := by
  decide +kernel

/-- `modify_one_sei` (566-597), frame level. -/
example : tally (modAt 10 (frame "IPPIPPPIPPIP")) = some
    { valid := 2, withMissing := 0, invalid := 1, unsigned := 1, signature := 0,
      missed := 0, pending := 7, final := .notOk, received := 15, validated := 12, held := 3 } := by
  decide +kernel

/-- `remove_the_g_nalu` (605-633), frame level. -/
example : tally (rmAt 9 (frame "IPPIPPIPPIPPIP")) = some
    { valid := 2, withMissing := 0, invalid := 1, unsigned := 1, signature := 0,
      missed := 0, pending := 7, final := .notOk, received := 17, validated := 14, held := 3 } := by
  decide +kernel

/-- `remove_the_i_nalu` (635-666), frame level. -/
example : tally (rmAt 8 (frame "IPPIPPIPPIPPIPPIPPIP")) = some
    { valid := 4, withMissing := 0, invalid := 2, unsigned := 1, signature := 0,
      missed := 1, pending := 9, final := .notOk, received := 25, validated := 22, held := 3 } := by
  decide +kernel

/-- `remove_the_gi_nalus` (668-705), frame level. -/
example : tally (rmAt 8 (rmAt 8 (frame "IPPIPPIPPIPPIPPIP"))) = some
    { valid := 2, withMissing := 0, invalid := 2, unsigned := 1, signature := 0,
      missed := 1, pending := 7, final := .notOk, received := 20, validated := 17, held := 3 } := by
  decide +kernel

/-- `remove_the_gi_nalus` (668-705), GOP level. -/
example : tally (rmAt 8 (rmAt 8 (gopLevel "IPPIPPIPPIPPIPPIP"))) = some
    { valid := 2, withMissing := 0, invalid := 2, unsigned := 1, signature := 0,
      missed := 1, pending := 7, final := .notOk, received := 20, validated := 17, held := 3 } := by
  decide +kernel

/-- `two_lost_seis` (710-741), frame level. -/
example : tally (rmAt 12 (rmAt 9 (frame "IPPIPPIPPIPPIPPIPPIP"))) = some
    { valid := 3, withMissing := 0, invalid := 1, unsigned := 1, signature := 0,
      missed := 0, pending := 8, final := .notOk, received := 24, validated := 21, held := 3 } := by
  decide +kernel

/-- `sei_arrives_late` (747-776), frame level. -/
example : tally (mv 11 14 (frame "IPPPIPPPIPPPIP")) = some
    { valid := 3, withMissing := 0, invalid := 0, unsigned := 1, signature := 0,
      missed := 0, pending := 12, final := .ok, received := 17, validated := 13, held := 4 } := by
  decide +kernel

/-- `all_seis_arrive_late` (815-838), frame level. -/
example : tally (mv 21 23 (mv 16 23 (mv 11 18 (mv 7 13 (frame "IPPPPIPPPIPPPIPPPIPPP"))))) = some
    { valid := 4, withMissing := 0, invalid := 0, unsigned := 2, signature := 0,
      missed := 0, pending := 40, final := .ok, received := 25, validated := 19, held := 6 } := by
  decide +kernel

/-- `all_seis_arrive_late_first_gop_scrapped` (840-886), frame level. -/
example : tally ((mv 21 23 (mv 16 23 (mv 11 18 (mv 7 13 (frame "IPPPPIPPPIPPPIPPPIPPP"))))).drop 5) = some
    { valid := 3, withMissing := 0, invalid := 0, unsigned := 1, signature := 1,
      missed := 0, pending := 29, final := .ok, received := 20, validated := 14, held := 6 } := by
  decide +kernel

/-- `lost_g_before_late_sei_arrival` (891-926), frame level. -/
example : tally (rmAt 11 (mv 16 18 (frame "IPPPIPPPIPPPIPPIPPIP"))) = some
    { valid := 3, withMissing := 0, invalid := 1, unsigned := 1, signature := 0,
      missed := 0, pending := 12, final := .notOk, received := 24, validated := 21, held := 3 } := by
  decide +kernel

/-- `lost_all_nalus_between_two_seis` (988-1024), frame level. -/
example : tally (rmAt 7 (rmAt 7 (rmAt 7 (rmAt 7 (frame "IPPPIPPPIPPPIPPIPPIP"))))) = some
    { valid := 2, withMissing := 1, invalid := 2, unsigned := 1, signature := 0,
      missed := 4, pending := 9, final := .notOk, received := 21, validated := 18, held := 3 } := by
  decide +kernel

/-- `lost_all_nalus_between_two_seis` (988-1024), GOP level. -/
example : tally (rmAt 7 (rmAt 7 (rmAt 7 (rmAt 7 (gopLevel "IPPPIPPPIPPPIPPIPPIP"))))) = some
    { valid := 2, withMissing := 0, invalid := 3, unsigned := 1, signature := 0,
      missed := 4, pending := 9, final := .notOk, received := 21, validated := 18, held := 3 } := by
  decide +kernel

/-- `remove_two_gop_in_start_of_stream` (1060-1115), frame level. -/
example : tally ((mv 7 8 (mv 4 5 (frame "IPIPIPPPIPPPPIPPIP"))).drop 4) = some
    { valid := 2, withMissing := 1, invalid := 1, unsigned := 0, signature := 1,
      missed := 2, pending := 4, final := .notOk, received := 19, validated := 16, held := 3 } := by
  decide +kernel

end SV
