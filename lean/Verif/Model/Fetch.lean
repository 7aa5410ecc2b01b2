import Verif.Model.Legacy
/-!
Reports that the user fetches, `signed_video_get_authenticity_report` of `/repo/lib/src/signed_video_authenticity.c`.
-/
namespace SV
namespace Session

/-- The local report.  The session for the older format uses the one of the outer session
(`/repo/lib/src/legacy/legacy_h26x_common.c` 886-890). -/
def rep (s : Session) : Report :=
  match s.leg with
  | none => s.v.rep
  | some l => l.v.rep

/-- The number of items that is shown as pending (`signed_video_authenticity.c` 325-327). -/
def numItems (s : Session) : Nat :=
  match s.leg with
  | none => s.v.list.length
  | some l => l.list.length

/-- Replace the local report. -/
def withRep (s : Session) (r : Report) : Session :=
  match s.leg with
  | none => { s with v := { s.v with rep := r } }
  | some l => { s with leg := some { l with v := { l.v with rep := r } } }

/-- `signed_video_get_authenticity_report` (`signed_video_authenticity.c` 304-342) called by the user: there is none
before the first NAL unit; the number of pending NAL units is written to the local report.  Product information is left
out, and so are failing allocations. -/
def fetch (s : Session) : Session × Option Report :=
  if s.v.hasReport then
    let p := getReport s.rep s.numItems
    (s.withRep p.1, some p.2)
  else (s, none)

end Session

/-- A call of a validating session, now with `signed_video_get_authenticity_report`. -/
inductive FCall
  | call (c : AuthCall)
  | fetch
deriving DecidableEq, Repr

/-- One call with its observation. -/
def Session.fstep (env : AuthEnv) (s : Session) : FCall → Out (Session × AObs)
  | .call c => s.step env c
  | .fetch => .ok (s.fetch.1, ⟨none, s.fetch.2⟩)

/-- A sequence of calls. -/
def Session.frun (env : AuthEnv) : Session → List FCall → Out (Session × List AObs)
  | s, [] => .ok (s, [])
  | s, c :: cs => do
    let (s, o) ← s.fstep env c
    let (s, os) ← frun env s cs
    .ok (s, o :: os)

end SV
