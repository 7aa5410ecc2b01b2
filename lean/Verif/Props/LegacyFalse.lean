import Verif.Props.LegacyBlocked
/-! C60, C61, C62: what goes wrong in sessions for the older format. -/
namespace SV
open Legacy

/-- A run that is checked by evaluation to end in undefined behaviour. -/
theorem legBad (env : AuthEnv) (s : Session) (cs : List AuthCall) (P : Ub → Bool)
    (h : (match s.run env cs with | .ub u => P u | _ => false) = true) : ∃ u, s.run env cs = .ub u ∧ P u = true := by
  cases hr : s.run env cs with
  | ok p => rw [hr] at h; cases h
  | err e => rw [hr] at h; cases h
  | ub u => rw [hr] at h; exact ⟨u, rfl, h⟩

/-- A signed stream of the older format of which the second SEI and the I-frame after it come after the third NAL unit that
follows them; the NAL units themselves are untouched. -/
def lateSei : List Bytes :=
  let l := legSigned true "IPPPIPPPIPPPI"
  [0, 1, 2, 5, 3, 4, 6].map fun k => l.getD k []

/-- **C60 does not hold.** Untouched NAL units of a stream of the older format, with two swapped, make the session read a NAL unit
through a pointer to a local variable of an earlier call. -/
theorem C60_memory_false :
    (∀ n ∈ lateSei, n ∈ legSigned true "IPPPIPPPIPPPI") ∧
    ∃ u, Session.run polyEnv (newSession polyEnv .h264) (lateSei.map .nalu) = .ub u ∧ u = .useAfterFree := by
  refine ⟨by decide +kernel, ?_⟩
  obtain ⟨u, h, hp⟩ := legBad polyEnv (newSession polyEnv .h264) (lateSei.map .nalu) (fun u => decide (u = .useAfterFree)) (by decide +kernel)
  exact ⟨u, h, by simpa using hp⟩

/-- **C61 does not hold.** A receiver that joins an untouched stream of the older format at the start of a GOP never finds it
authentic: each report says NOT OK. (Joining at a P-frame, the last statement, the session does recover.) -/
theorem C61_join_false :
    (∃ s os, Session.run polyEnv (newSession polyEnv .h264) (((legSigned true "IPPIPPIPPIPPI").drop 1).map .nalu) = .ok (s, os) ∧
      toyReports os = [("I  PPS", "PMMPPU", .signaturePresent), ("I  PPSIPPS", "NMMNNUPPP.", .notOk), ("IPPSIPPS", "NNN.PPP.", .notOk),
        ("IPPSIPPS", "NNN.PPP.", .notOk)]) ∧
    (∃ s os, Session.run polyEnv (newSession polyEnv .h264) (((legSigned false "IPPIPPIPPIPPI").drop 1).map .nalu) = .ok (s, os) ∧
      toyReports os = [("IPPS", "PPPU", .signaturePresent), ("IPPSIPPS", "NNNUPPPN", .notOk), ("IPPSIPPS", "NNNNPPPN", .notOk),
        ("IPPSIPPS", "NNNNPPPN", .notOk)]) ∧
    ∃ s os, Session.run polyEnv (newSession polyEnv .h264) (((legSigned true "IPPIPPIPPIPPI").drop 2).map .nalu) = .ok (s, os) ∧
      (toyReports os).all (fun r => decide (r.2.2 ≠ .notOk)) = true := by
  refine ⟨?_, ?_, ?_⟩
  · obtain ⟨s, os, h, hp⟩ := legCheck polyEnv (newSession polyEnv .h264) (((legSigned true "IPPIPPIPPIPPI").drop 1).map .nalu)
      (fun _ os => toyReports os == [("I  PPS", "PMMPPU", .signaturePresent), ("I  PPSIPPS", "NMMNNUPPP.", .notOk),
        ("IPPSIPPS", "NNN.PPP.", .notOk), ("IPPSIPPS", "NNN.PPP.", .notOk)]) (by decide +kernel)
    exact ⟨s, os, h, by simpa using hp⟩
  · obtain ⟨s, os, h, hp⟩ := legCheck polyEnv (newSession polyEnv .h264) (((legSigned false "IPPIPPIPPIPPI").drop 1).map .nalu)
      (fun _ os => toyReports os == [("IPPS", "PPPU", .signaturePresent), ("IPPSIPPS", "NNNUPPPN", .notOk),
        ("IPPSIPPS", "NNNNPPPN", .notOk), ("IPPSIPPS", "NNNNPPPN", .notOk)]) (by decide +kernel)
    exact ⟨s, os, h, by simpa using hp⟩
  · obtain ⟨s, os, h, hp⟩ := legCheck polyEnv (newSession polyEnv .h264) (((legSigned true "IPPIPPIPPIPPI").drop 2).map .nalu)
      (fun _ os => (toyReports os).all (fun r => decide (r.2.2 ≠ .notOk))) (by decide +kernel)
    exact ⟨s, os, h, hp⟩

/-- **C62 does not hold.** After a stream of the older format and a reset, an untouched stream of the newer format is not
validated: each call with one of its SEIs fails, and the only report says that the stream is not signed. In a new session the
same stream is found authentic. -/
theorem C62_reset_false :
    (∃ s os, Session.run polyEnv (newSession polyEnv .h264)
        ((legSigned true "IPPI").map .nalu ++ [.reset] ++ (polyStream (polySigner 33 []) (polyNalus "IPPIPPIPPI")).map .nalu) = .ok (s, os) ∧
      toyReports os = [("SI", ".P", .ok), ("IPPSI", "....P", .ok), ("IPPI", "PPPP", .notSigned)] ∧
      (os.drop 7).map AObs.rc = [none, none, none, none, some .incompatibleVersion, none, none, none, some .incompatibleVersion,
        none, none, none, some .incompatibleVersion]) ∧
    ∃ s os, Session.run polyEnv (newSession polyEnv .h264) ((polyStream (polySigner 33 []) (polyNalus "IPPIPPIPPI")).map .nalu) = .ok (s, os) ∧
      (toyReports os).map (fun r => r.2.2) = [.notSigned, .ok, .ok, .ok] := by
  constructor
  · obtain ⟨s, os, h, hp⟩ := legCheck polyEnv (newSession polyEnv .h264)
      ((legSigned true "IPPI").map .nalu ++ [.reset] ++ (polyStream (polySigner 33 []) (polyNalus "IPPIPPIPPI")).map .nalu)
      (fun _ os => toyReports os == [("SI", ".P", .ok), ("IPPSI", "....P", .ok), ("IPPI", "PPPP", .notSigned)] &&
        (os.drop 7).map AObs.rc == [none, none, none, none, some .incompatibleVersion, none, none, none, some .incompatibleVersion,
        none, none, none, some .incompatibleVersion]) (by decide +kernel)
    simp only [Bool.and_eq_true, beq_iff_eq] at hp
    exact ⟨s, os, h, hp⟩
  · obtain ⟨s, os, h, hp⟩ := legCheck polyEnv (newSession polyEnv .h264) ((polyStream (polySigner 33 []) (polyNalus "IPPIPPIPPI")).map .nalu)
      (fun _ os => (toyReports os).map (fun r => r.2.2) == [.notSigned, .ok, .ok, .ok]) (by decide +kernel)
    exact ⟨s, os, h, by simpa using hp⟩

end SV
