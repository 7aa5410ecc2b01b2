import Verif.Proofs.LegacyGood
import Verif.Props.LegacyMarks
/-! C59: what a good verdict of a session for the older format means. -/
namespace SV
open Legacy

/-- The verdict of a report is that of the session, or that the versions do not fit. -/
theorem Legacy.report_auth {s t : Legacy} {r : Report} (h : s.report = .ok t (some r)) :
    s.v.flags.hasAuth = true ∧ (r.latest.auth = s.v.rep.latest.auth ∨ r.latest.auth = .versionMismatch) := by
  unfold Legacy.report at h
  split at h
  · rename_i ha
    split at h
    · cases h
    · split at h
      · cases h
      · cases h
      · rename_i p l hu
        cases h
        refine ⟨ha, ?_⟩
        unfold Legacy.updateReport at hu
        dsimp only at hu
        generalize hc : compareVersions (some s.v.rep.thisVersion) (some s.v.rep.versionOnSigningSide) = c at hu
        cases c with
        | ub u => cases hu
        | err e => cases hu
        | ok c =>
          dsimp only [bind, Out.bind] at hu
          split at hu
          · right; cases hu
            show Latest.auth _ = _
            repeat' split
            all_goals rfl
          · left; cases hu
            show Latest.auth _ = _
            repeat' split
            all_goals rfl
  · cases h

/-- **C59, partial.** A report of a session for the older format that says OK, or OK with missing NAL units, gives the verdict of
the last round of the loop in this call, and in this round the verification returned 1 for the key, the signature and the
signed hash that the session had -- or the round left the status of every NAL unit as it was.

Missing: the second alternative, in which nothing has been verified; it occurs (`C59_ok_unverified_false`). -/
theorem C59_ok_partial {env : AuthEnv} {codec : Codec} {calls : List AuthCall} {s s' : Session} {os : List AObs} {data : Bytes} {r : Report}
    (hist : Session.run env (newSession env codec) calls = .ok (s, os)) (h : s.add env data = .ok s' (some r)) (hold : s'.leg ≠ none)
    (hgood : r.latest.auth = .ok ∨ r.latest.auth = .okWithMissing) :
    ∃ l past v a u b, Since env l past ∧ l.atLoop env data = some v ∧ Legacy.Steps env v a ∧ a.hasPending.2 = true ∧
      a.hasPending.1.begin.prepare env = .ok u () ∧ a.hasPending.1.round env = .ok b () ∧ b.v.rep.latest.auth = r.latest.auth ∧
      (b.v.flags.signing = true → b.hasPending.2 = false) ∧
      ((∃ k, u.v.key = some k ∧ env.verify k u.v.d.signature (buf u.v.d.hashSize u.v.sigHash) = 1 ∧
          u.v.verified = 1 ∧ (u.v.gop.lost && !u.v.gop.transLost) = false) ∨
        ∀ x ∈ a.list, ∃ y ∈ b.list, y.1 = x.1 ∧ y.2.status = x.2.status) := by
  have hr : s.Rooted env := run_rooted (fun l e => by cases e) hist
  obtain ⟨l, past, l', h1, h2⟩ := (add_inner hr data).2 s' r h hold
  have hi := h1.marked.1
  unfold Legacy.add at h2
  split at h2
  · cases h2
  · obtain ⟨t, _, h3, h4⟩ := Res.andThen_eq_ok h2
    obtain ⟨ha, hra⟩ := Legacy.report_auth h4
    have hra : r.latest.auth = t.v.rep.latest.auth := by
      rcases hra with e | e
      · exact e
      · rw [e] at hgood; rcases hgood with e | e <;> cases e
    rcases addH26x_rounds h3 with ⟨v, w, g1, g2, g3, g4⟩ | ⟨-, g2 | g2⟩
    · have hvi : v.Idle := by
        have := atLoop_idle g1
        intro e; exact hi (this.symm.trans e)
      rcases rounds_last env.rounds hvi g3 with ⟨e1, e2⟩ | ⟨a, b, e1, e2, e3, e4, e5, e6⟩
      · rw [g4, e2] at ha
        rw [show v.hasPending.1.v.flags.hasAuth = v.v.flags.hasAuth from rfl, g2] at ha
        cases ha
      · have hb : b.v.rep.latest.auth = r.latest.auth := by rw [hra, g4, e5]; rfl
        obtain ⟨u, f1, f2⟩ := round_good (s := a.hasPending.1) e2 e4 (by rw [hb]; exact hgood)
        refine ⟨l, past, v, a, u, b, h1, g1, e1, e3, f1, e4, hb, e6, ?_⟩
        rcases f2 with ⟨f2, f3, k, f4, f5⟩ | f2
        · exact .inl ⟨k, f4, f5, f2, f3⟩
        · exact .inr f2
    · rw [g2] at ha; cases ha
    · rw [hra, g2] at hgood
      rcases hgood with e | e <;> cases e

/-- A session in which the verification always gives the same result. -/
def polyAlways (r : Int) : AuthEnv := { polyEnv with verify := fun _ _ _ => r }

/-- A SEI of the older format with a GOP hash. -/
def looseSei (counter : UInt32) : Bytes := ({ counter := counter, sent := 5, key := [9, 9, 9], hashes := none } : LegSei).bytes

/-- A SEI of the older format with a list that has the hash of one other NAL unit. -/
def looseList (counter : UInt32) : Bytes :=
  ({ counter := counter, sent := 5, key := [9, 9, 9], hashes := some [legHash [1]] } : LegSei).bytes

/-- **C59 does not hold.** A report can say OK although no signature has ever been accepted.

* The verification fails with an error each time, and the stream is SEI, P, I, SEI, without hash lists.  The second report is
  OK; neither says NOT OK.
* The verification refuses each signature, and the SEIs have hash lists. -/
theorem C59_ok_unverified_false :
    (∃ s os, Session.run (polyAlways (-1)) (newSession (polyAlways (-1)) .h264)
        ([looseSei 1, toyNalu 'P' 1, toyNalu 'I' 2, looseSei 2].map .nalu) = .ok (s, os) ∧
      toyReports os = [("SP", "UN", .signaturePresent), ("IS", "PP", .ok)]) ∧
    ∃ s os, Session.run (polyAlways 0) (newSession (polyAlways 0) .h264)
        ([looseList 1, toyNalu 'I' 1, looseList 2, toyNalu 'P' 2, toyNalu 'I' 3, looseList 3].map .nalu) = .ok (s, os) ∧
      toyReports os = [("SI", "UP", .signaturePresent), ("ISP", "NNN", .notOk), ("IS", "PP", .ok)] := by
  constructor
  · obtain ⟨s, os, h, hp⟩ := legCheck (polyAlways (-1)) (newSession (polyAlways (-1)) .h264)
      ([looseSei 1, toyNalu 'P' 1, toyNalu 'I' 2, looseSei 2].map .nalu)
      (fun _ os => toyReports os == [("SP", "UN", .signaturePresent), ("IS", "PP", .ok)]) (by decide +kernel)
    exact ⟨s, os, h, by simpa using hp⟩
  · obtain ⟨s, os, h, hp⟩ := legCheck (polyAlways 0) (newSession (polyAlways 0) .h264)
      ([looseList 1, toyNalu 'I' 1, looseList 2, toyNalu 'P' 2, toyNalu 'I' 3, looseList 3].map .nalu)
      (fun _ os => toyReports os == [("SI", "UP", .signaturePresent), ("ISP", "NNN", .notOk), ("IS", "PP", .ok)]) (by decide +kernel)
    exact ⟨s, os, h, by simpa using hp⟩

/-- The hypotheses of `C58_marked_partial` and `C59_ok_partial` are met: the second report on a signed stream says OK and shows '.' for
four NAL units. -/
example : ∃ s os, Session.run polyEnv (newSession polyEnv .h264) (((legSigned true "IPPIPPI").take 5).map .nalu) = .ok (s, os) ∧
    ∃ s' r, s.add polyEnv ((legSigned true "IPPIPPI").getD 5 []) = .ok s' (some r) ∧ s'.leg ≠ none ∧ r.latest.auth = .ok ∧
      r.latest.validationStr = some ['.', '.', '.', '.', 'P'] := by
  obtain ⟨s, os, h, hp⟩ := legCheck polyEnv (newSession polyEnv .h264) (((legSigned true "IPPIPPI").take 5).map .nalu)
    (fun s _ => match s.add polyEnv ((legSigned true "IPPIPPI").getD 5 []) with
      | .ok s' (some r) => s'.leg.isSome && decide (r.latest.auth = .ok) && decide (r.latest.validationStr = some ['.', '.', '.', '.', 'P'])
      | _ => false) (by decide +kernel)
  refine ⟨s, os, h, ?_⟩
  split at hp
  · rename_i s' r ha
    simp only [Bool.and_eq_true, decide_eq_true_eq, Option.isSome_iff_ne_none] at hp
    exact ⟨s', r, ha, hp.1.1, hp.1.2, hp.2⟩
  · cases hp

/-- The hypotheses of `C58_no_signature` are met by the session of `C59_ok_unverified_false`. -/
example : (∀ k sig h, (polyAlways (-1)).verify k sig h ≠ 1) ∧
    ∃ s os, Session.run (polyAlways (-1)) (newSession (polyAlways (-1)) .h264)
        ([looseSei 1, toyNalu 'P' 1, toyNalu 'I' 2].map .nalu) = .ok (s, os) ∧
    ∃ s' r, s.add (polyAlways (-1)) (looseSei 2) = .ok s' (some r) ∧ s'.leg ≠ none ∧ r.latest.validationStr = some ['P', 'P'] := by
  refine ⟨fun _ _ _ => by show (-1 : Int) ≠ 1; decide, ?_⟩
  obtain ⟨s, os, h, hp⟩ := legCheck (polyAlways (-1)) (newSession (polyAlways (-1)) .h264) ([looseSei 1, toyNalu 'P' 1, toyNalu 'I' 2].map .nalu)
    (fun s _ => match s.add (polyAlways (-1)) (looseSei 2) with
      | .ok s' (some r) => s'.leg.isSome && decide (r.latest.validationStr = some ['P', 'P'])
      | _ => false) (by decide +kernel)
  refine ⟨s, os, h, ?_⟩
  split at hp
  · rename_i s' r ha
    simp only [Bool.and_eq_true, decide_eq_true_eq, Option.isSome_iff_ne_none] at hp
    exact ⟨s', r, ha, hp.1, hp.2⟩
  · cases hp

end SV
