import Verif.Model.Auth
import Verif.Props.SignQueue
/-! Sample streams, signed by the model of the signer and handed to the model of the validator. -/
namespace SV

/-- A signature of a toy signature scheme. -/
def toySig (h : Bytes) : Bytes := 0x51 :: h

/-- A validator that knows the toy hash and the toy signatures. -/
def toyEnv : AuthEnv :=
  { H := fun _ b => toyHash b
    crypto := ⟨fun o => if o = [0x60, 0x86] then some 32 else none, fun k => k != []⟩
    oid := [0x60, 0x86]
    verify := fun _ s h => if s = toySig h then 1 else 0
    ov := .exact
    rounds := 20 }

/-- An H.264 NAL unit: an I-frame, a P-frame or an access unit delimiter. -/
def toyNalu (c : Char) (k : UInt8) : Bytes :=
  if c = 'I' then [0, 0, 0, 1, 0x65, 0x88, k, 0x80]
  else if c = 'P' then [0, 0, 0, 1, 0x41, 0x9a, k, 0x80]
  else [0, 0, 0, 1, 0x09, 0xf0]

/-- Sign the NAL units with the given types; each SEI is put into the stream as soon as it is available. -/
def toyStream (s : Signer) (k : UInt8) : List Char → List Bytes
  | [] => []
  | c :: cs =>
    match signStep toyHashing s (.nalu (toyNalu c k) none true none) with
    | .ok (s, o) =>
      match o.signed with
      | none => toyNalu c k :: toyStream s (k + 1) cs
      | some g =>
        match signStep toyHashing s (.getSei true none [.ok (toySig g.h)]) with
        | .ok (s, o) => toyNalu c k :: (o.sei.toList ++ toyStream s (k + 1) cs)
        | _ => []
    | _ => []

/-- A signer with key and settings. -/
def toyKeyed (sets : List Setting) : Signer :=
  match signRun toyHashing toySigner ((Setting.privateKey (some ([9, 9, 9], 40)) true :: sets).map SCall.set) with
  | .ok p => p.1
  | _ => toySigner

/-- A stream signed with the given settings. -/
def toySigned (sets : List Setting) (types : String) : List Bytes := toyStream (toyKeyed sets) 1 types.toList

/-- The reports of a session: NAL unit types, validation string, verdict. -/
def toyReports (os : List AObs) : List (String × String × Auth) :=
  os.filterMap fun o => o.report.map fun r =>
    (String.ofList (r.latest.naluStr.getD []), String.ofList (r.latest.validationStr.getD []), r.latest.auth)

/-- The reports for a stream, if no undefined behaviour is met. -/
def toyRun (ns : List Bytes) : Option (List (String × String × Auth)) :=
  match authRun toyEnv (newValidator toyEnv .h264) (ns.map AuthCall.nalu) with
  | .ok p => some (toyReports p.2)
  | _ => none

/-- A run that is checked by evaluation. -/
theorem authCheck (env : AuthEnv) (s : Validator) (cs : List AuthCall) (P : Validator → List AObs → Bool)
    (h : (match authRun env s cs with | .ok p => P p.1 p.2 | _ => false) = true) :
    ∃ s' os, authRun env s cs = .ok (s', os) ∧ P s' os = true := by
  cases hr : authRun env s cs with
  | ok p => rw [hr] at h; exact ⟨p.1, p.2, rfl, h⟩
  | err e => rw [hr] at h; cases h
  | ub u => rw [hr] at h; cases h

end SV
