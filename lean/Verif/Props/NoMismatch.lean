import Verif.Proofs.NoMismatch
import Verif.Props.FetchLatest
/-! C25: whole sessions never tell of a version mismatch. -/
namespace SV
open Spec Session

/-- **C25**, whole sessions: whatever is done with a new session, in the newer or the older format, no report that is handed out
or fetched says 'version mismatch', neither as the latest nor as the total result. -/
theorem C25_session_never {env : AuthEnv} {codec : Codec} {cs : List FCall} {t : Session} {os : List AObs} {o : AObs} {r : Report}
    (h : (newSession env codec).frun env cs = .ok (t, os)) (ho : o ∈ os) (hr : o.report = some r) :
    r.latest.auth ≠ .versionMismatch ∧ r.acc.auth ≠ .versionMismatch :=
  frun_unversionedB h ⟨⟨rfl, fun h => (by cases h), fun h => by cases h⟩, fun l hl => by cases hl⟩ o ho r hr

/-- A stream signed with version 9.0.0 of the library. -/
def futureStream : List Bytes :=
  toyStream { toyKeyed [] with e := { (toyKeyed []).e with codeVersion := (9, 0, 0) } } 1 "IPPIPPI".toList

/-- The validator is told of the newer version, and says so in a report with the version 1.1.29 of itself and the verdict OK. -/
theorem futureStream_ok : ∃ t os r, (newSession toyEnv .h264).frun toyEnv (futureStream.map fun d => .call (.nalu d)) = .ok (t, os) ∧
    ⟨none, some r⟩ ∈ os ∧ r.versionOnSigningSide = (⟨9, 0, 0⟩ : Ver).str ∧ r.thisVersion = (⟨1, 1, 29⟩ : Ver).str ∧
    r.latest.auth = .ok := by
  obtain ⟨t, os, h, hp⟩ := fetchCheck toyEnv (newSession toyEnv .h264) (futureStream.map fun d => .call (.nalu d))
    (fun _ os => os.any fun o => match o with
      | ⟨none, some r⟩ => decide (r.versionOnSigningSide = (⟨9, 0, 0⟩ : Ver).str) && decide (r.thisVersion = (⟨1, 1, 29⟩ : Ver).str) &&
        decide (r.latest.auth = .ok)
      | _ => false) (by decide +kernel)
  obtain ⟨o, ho, hp⟩ := List.any_eq_true.1 hp
  split at hp
  · rename_i r
    simp only [Bool.and_eq_true, decide_eq_true_eq] at hp
    exact ⟨t, os, r, h, ho, hp.1.1, hp.1.2, hp.2⟩
  · cases hp

end SV
