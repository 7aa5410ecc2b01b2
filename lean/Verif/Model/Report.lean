import Verif.Model.NaluList
import Verif.Model.Version
/-!
Authenticity reports, `/repo/lib/src/signed_video_authenticity.c`.
-/
namespace SV

/-- `SignedVideoAuthenticityResult` (`includes/signed_video_auth.h` 37-56). -/
inductive Auth | notSigned | signaturePresent | notOk | okWithMissing | ok | versionMismatch
deriving DecidableEq, Repr

/-- Numerical value of the result. -/
def Auth.val : Auth → Nat
  | notSigned => 0
  | signaturePresent => 1
  | notOk => 2
  | okWithMissing => 3
  | ok => 4
  | versionMismatch => 5

/-- `SignedVideoPublicKeyValidation` (`includes/signed_video_auth.h` 61-72). -/
inductive KeyVal | notFeasible | notOk | ok
deriving DecidableEq, Repr

/-- `signed_video_latest_validation_t` (`includes/signed_video_auth.h` 78-146). -/
structure Latest where
  auth : Auth := .notSigned
  keyChanged : Bool := false
  expected : Int := -1
  received : Int := -1
  pending : Int := 0
  validationStr : Option (List Char) := none
  naluStr : Option (List Char) := none
  keyVal : KeyVal := .notFeasible
  hasTs : Bool := false
  ts : Int := 0
deriving DecidableEq, Repr

/-- `signed_video_accumulated_validation_t` (`includes/signed_video_auth.h` 152-177). The counters are `unsigned int` in
the code; their wrap around is not modelled. -/
structure Accumulated where
  auth : Auth := .notSigned
  keyChanged : Bool := false
  received : Nat := 0
  validated : Nat := 0
  pending : Nat := 0
  keyVal : KeyVal := .notFeasible
  hasTs : Bool := false
  firstTs : Int := 0
  lastTs : Int := 0
deriving DecidableEq, Repr

/-- `latest_validation_init` (`signed_video_authenticity.c` 168-188). -/
def latestInit : Latest := {}

/-- `accumulated_validation_init` (`signed_video_authenticity.c` 190-206). -/
def accumulatedInit : Accumulated := {}

/-- `update_accumulated_validation` (`signed_video_authenticity.c` 221-250). -/
def updateAccumulated (l : Latest) (a : Accumulated) : Accumulated :=
  let a :=
    if a.auth.val ≤ Auth.signaturePresent.val then { a with auth := l.auth }
    else if l.auth.val < a.auth.val then { a with auth := l.auth }
    else a
  let a := { a with keyChanged := a.keyChanged || l.keyChanged }
  let a := if a.keyVal ≠ .notOk then { a with keyVal := l.keyVal } else a
  if l.hasTs then
    let a := if a.hasTs then a else { a with firstTs := l.ts }
    { a with lastTs := l.ts, hasTs := true }
  else a

/-- The local report, the part of `signed_video_authenticity_t` (`includes/signed_video_auth.h` 199-211) that changes.
`thisVersion` and `versionOnSigningSide` are the strings in the local report `self->authenticity`. -/
structure Report where
  versionOnSigningSide : List Char := []
  thisVersion : List Char := []
  latest : Latest := latestInit
  acc : Accumulated := accumulatedInit
deriving DecidableEq, Repr

/-- `signed_video_authenticity_report_create` with `authenticity_report_init` (`signed_video_authenticity.c` 208-219 and
375-386): both version strings are `calloc`ed, hence empty. -/
def reportCreate : Report := {}

/-- `update_authenticity_report` (`signed_video_authenticity.c` 252-287) without legacy validation. -/
def updateReport (r : Report) (l : NList) : Out (Report × NList) := do
  let r := { r with latest := { r.latest with naluStr := some (naluStr l), validationStr := some (validationStr l) } }
  let c ← compareVersions (some r.thisVersion) (some r.versionOnSigningSide)
  let r := if c = 2 then { r with latest := { r.latest with auth := .versionMismatch } } else r
  let n := cleanUpCount l
  let r := { r with acc := updateAccumulated r.latest r.acc }
  let r := if r.acc.auth ≠ .notSigned then { r with acc := { r.acc with validated := r.acc.validated + n } } else r
  pure (r, cleanUp l)

/-- `SIGNED_VIDEO_VERSION` (`signed_video_internal.h` 55), the string "v1.1.29". -/
def signedVideoVersion : List Char := ['v', '1', '.', '1', '.', '2', '9']

/-- `signed_video_get_authenticity_report` (`signed_video_authenticity.c` 304-342), the local report after the call and the
copy handed to the user (`transfer_authenticity`, 145-162), in which the strings are copied by
`allocate_memory_and_copy_string` (54-79), so that NULL becomes an empty string. Product information is left out. -/
def getReport (r : Report) (numItems : Nat) : Report × Report :=
  let r := { r with acc := { r.acc with
    pending := if r.acc.auth = .notSigned then r.acc.received else numItems } }
  (r, { r with
    thisVersion := signedVideoVersion
    latest := { r.latest with
      naluStr := some (r.latest.naluStr.getD [])
      validationStr := some (r.latest.validationStr.getD []) } })

end SV
