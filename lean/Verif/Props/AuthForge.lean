import Verif.Props.AuthDemo
/-!
Properties of the validating session that do not hold: streams for which the report is not what it should be.

The streams are signed by the model of the signer and then changed.  They are checked by evaluation.
-/
namespace SV

/-- A toy hash of 32 bytes that depends on all bytes. -/
def polyHash (b : Bytes) : Bytes :=
  let n := b.foldl (fun x y => (x * 257 + y.toNat + 1) % 2 ^ 256) 7
  (List.range 32).map fun i => UInt8.ofNat (n / 256 ^ i)

/-- The hashing of the signer. -/
def polyHashing : Hashing := ⟨fun _ b => polyHash b, fun _ => some ([0x60, 0x86], 32)⟩

/-- The validator. A signature that does not start as it should is an error, any other wrong signature is not verified. -/
def polyEnv : AuthEnv :=
  { toyEnv with
    H := fun _ b => polyHash b
    verify := fun _ s h => if s = toySig h then 1 else if s.head? = some 0x51 then 0 else -1 }

/-- Sign NAL units; each SEI is put into the stream as soon as it is available. -/
def polyStream (s : Signer) : List Bytes → List Bytes
  | [] => []
  | n :: ns =>
    match signStep polyHashing s (.nalu n none true none) with
    | .ok (s, o) =>
      match o.signed with
      | none => n :: polyStream s ns
      | some g =>
        match signStep polyHashing s (.getSei true none [.ok (toySig g.h)]) with
        | .ok (s, o) => n :: (o.sei.toList ++ polyStream s ns)
        | _ => []
    | _ => []

/-- A signer with a key of which the signatures have at most `max` bytes, and with settings. -/
def polySigner (max : Nat) (sets : List Setting) : Signer :=
  match signRun polyHashing toySigner ((Setting.privateKey (some ([9, 9, 9], max)) true :: sets).map SCall.set) with
  | .ok p => p.1
  | _ => toySigner

/-- The NAL units with the given types. -/
def polyNalus (types : String) : List Bytes :=
  types.toList.zipIdx.map fun p => toyNalu p.1 (UInt8.ofNat (p.2 + 1))

/-- The last report of a session: NAL unit types, validation string, verdict. -/
def lastReport (os : List AObs) : Option (String × String × Auth) := (toyReports os).getLast?

/-- A run that ends with a given report. -/
def endsWith (env : AuthEnv) (cs : List AuthCall) (r : String × String × Auth) : Bool :=
  match authRun env (newValidator env .h264) cs with
  | .ok p => lastReport p.2 == some r
  | _ => false

theorem endsWith_run {env : AuthEnv} {cs : List AuthCall} {r : String × String × Auth} (h : endsWith env cs r = true) :
    ∃ s os, authRun env (newValidator env .h264) cs = .ok (s, os) ∧ lastReport os = some r := by
  unfold endsWith at h
  cases hr : authRun env (newValidator env .h264) cs with
  | ok p => rw [hr] at h; exact ⟨p.1, p.2, rfl, by simpa using h⟩
  | err e => rw [hr] at h; cases h
  | ub u => rw [hr] at h; cases h

/-! ### C41 -/

/-- A signed stream of three GOPs. -/
def stream3 : List Bytes := polyStream (polySigner 33 []) (polyNalus "IPPIPPIPPI")

/-- The second SEI with the byte of its signature at a position, counted from the end, replaced. -/
def spoilt (pos : Nat) (b : UInt8) : Bytes := let n := stream3.getD 8 []; n.set (n.length - pos) b

/-- **C41 does not hold (1).** The second GOP is replaced by other frames and the SEI brings a signature on which
`EVP_PKEY_verify` fails with an error.  All NAL units are marked as not authentic, the SEI is marked as an error, and the
verdict is OK.  The reason is that the marks for "used in the GOP hash" are removed before the statistics are taken. -/
theorem C41_verify_error_false :
    let forged := stream3.take 5 ++ [toyNalu 'P' 66, toyNalu 'P' 77, toyNalu 'I' 88, spoilt 34 0x50]
    (∀ k h, polyEnv.verify k (((spoilt 34 0x50).drop ((spoilt 34 0x50).length - 34)).take 33) h = -1) ∧
    ∃ s os, authRun polyEnv (newValidator polyEnv .h264) (forged.map .nalu) = .ok (s, os) ∧
      lastReport os = some ("ISPPIS", "N.NNPE", .ok) := by
  dsimp only
  constructor
  · have h1 : (((spoilt 34 0x50).drop ((spoilt 34 0x50).length - 34)).take 33).head? = some 0x50 := by decide +kernel
    generalize ((spoilt 34 0x50).drop ((spoilt 34 0x50).length - 34)).take 33 = sig at h1
    intro k h
    simp only [polyEnv]
    rw [if_neg (fun e => by rw [e] at h1; cases h1), if_neg (by rw [h1]; decide)]
  · exact endsWith_run (by decide +kernel)

/-- **C41 does not hold (2).** A SEI before which no frame is pending is reported OK although its signature is wrong: no
NAL unit is used in the GOP hash, so that nothing is counted as invalid.  The counter of this SEI is accepted. The SEI
differs from a genuine one in its signature only, and the SEI is marked as not authentic. -/
theorem C41_first_sei_false :
    let forged := stream3.take 3 ++ [stream3.getD 4 [], spoilt 20 0x50, stream3.getD 7 []]
    (spoilt 20 0x50).take ((spoilt 20 0x50).length - 34) = (stream3.getD 8 []).take ((stream3.getD 8 []).length - 34) ∧
    (spoilt 20 0x50).drop ((spoilt 20 0x50).length - 34) ≠ (stream3.getD 8 []).drop ((stream3.getD 8 []).length - 34) ∧
    ∃ s os, authRun polyEnv (newValidator polyEnv .h264) (forged.map .nalu) = .ok (s, os) ∧
      lastReport os = some ("SI", "NP", .ok) ∧ s.latestGop = 2 := by
  refine ⟨by decide +kernel, by decide +kernel, ?_⟩
  obtain ⟨s, os, h, hp⟩ := authCheck polyEnv (newValidator polyEnv .h264)
    ((stream3.take 3 ++ [stream3.getD 4 [], spoilt 20 0x50, stream3.getD 7 []]).map .nalu)
    (fun s os => lastReport os == some ("SI", "NP", .ok) && s.latestGop == 2) (by decide +kernel)
  simp only [Bool.and_eq_true, beq_iff_eq] at hp
  exact ⟨s, os, h, hp.1, hp.2⟩

/-! ### C42 -/

/-- A signed GOP; the signature does not need all bytes reserved for it. -/
def roomy : List Bytes := polyStream (polySigner 110 [.seiEpb false, .level 0]) (polyNalus "IPPI")

/-- The same GOP with another P-frame, signed by the same code (with whatever key). -/
def other : List Bytes :=
  polyStream (polySigner 110 [.seiEpb false, .level 0]) [toyNalu 'I' 1, toyNalu 'P' 77, toyNalu 'P' 3, toyNalu 'I' 4]

/-- The genuine SEI up to the tag of the signature (128 bytes), the signature with a shorter announced length, and in
place of the unused bytes the GENERAL TLV (77 bytes) of the other GOP. -/
def tailSei : Bytes :=
  let a := roomy.getD 4 []
  a.take 128 ++ [5, 0, 38] ++ (a.drop 131).take 38 ++ ((other.getD 4 []).drop 51).take 77 ++ [0x80]

/-- **C42 does not hold (1): data after the signature.** What is signed ends at the tag of the signature, but everything
in the SEI is decoded.  A TLV put behind the signature, in the bytes reserved for the signature but not used by it, replaces
the signed GOP hash.  The changed frame has a different hash, no bit of what is signed and of the signature is changed, and
the GOP is reported OK. -/
theorem C42_unsigned_tail_false :
    let received := [toyNalu 'I' 1, toyNalu 'P' 77, toyNalu 'P' 3, toyNalu 'I' 4, tailSei]
    received.length = roomy.length ∧ received.getD 1 [] ≠ roomy.getD 1 [] ∧
    polyHash ((received.getD 1 []).drop 4) ≠ polyHash ((roomy.getD 1 []).drop 4) ∧
    tailSei.take 129 = (roomy.getD 4 []).take 129 ∧ (tailSei.drop 131).take 38 = ((roomy.getD 4 []).drop 131).take 38 ∧
    ∃ s os, authRun polyEnv (newValidator polyEnv .h264) (received.map .nalu) = .ok (s, os) ∧
      lastReport os = some ("IPPIS", "...P.", .ok) := by
  refine ⟨by decide +kernel, by decide +kernel, by decide +kernel, by decide +kernel, by decide +kernel, ?_⟩
  exact endsWith_run (by decide +kernel)

/-- Two signed GOPs; the second one is too long for a list of hashes (here of at most three hashes). -/
def long : List Bytes := polyStream (polySigner 33 [.listSize 96]) (polyNalus "IPPIPPPPI")

/-- **C42 does not hold (2): replay.** The list of hashes is kept until another SEI brings one.  If a GOP is too long for a
list of hashes, its frames can be replaced by those of the GOP before: the GOP hash is wrong, the hashes of the frames are
found in the old list, and the GOP is reported OK.  Every NAL unit received is one that was signed, unchanged. -/
theorem C42_replay_false :
    let received := [long.getD 0 [], long.getD 1 [], long.getD 2 [], long.getD 0 [], long.getD 4 [], long.getD 1 [],
      long.getD 2 [], long.getD 9 [], long.getD 10 []]
    (∃ s os, authRun polyEnv (newValidator polyEnv .h264) (long.map .nalu) = .ok (s, os) ∧
      lastReport os = some ("ISPPPPIS", "......P.", .ok)) ∧
    ∃ s os, authRun polyEnv (newValidator polyEnv .h264) (received.map .nalu) = .ok (s, os) ∧
      lastReport os = some ("ISPPIS", "....P.", .ok) :=
  ⟨endsWith_run (by decide +kernel), endsWith_run (by decide +kernel)⟩

/-- A stream signed without lists of hashes. -/
def plainStream : List Bytes := polyStream (polySigner 33 [.level 0]) (polyNalus "IPPIPPI")

/-- A SEI made by an attacker: it brings the list of the hashes of an I-frame and of two forged P-frames, and a signature of
version 0, which is refused when everything before it has been decoded. -/
def listSei : Bytes :=
  let n := (polyStream (polySigner 33 []) (polyNalus "IPPI" ++ [toyNalu 'P' 66, toyNalu 'P' 77, toyNalu 'I' 7])).getD 8 []
  n.set (n.length - 39) 0

/-- **C42 does not hold (3), and C41 does not hold (3): a list of hashes from a SEI that is not signed.** The list of hashes
decoded from a SEI is used for the following SEIs without a list, even if the decoding failed or the signature was wrong.
In a stream signed without lists of hashes, an attacker can thus replace frames: the call with the SEI of the attacker
fails, and the GOP with the forged frames is reported OK, all of them marked as valid. -/
theorem C42_injected_list_false :
    let received := plainStream.take 5 ++ [toyNalu 'P' 66, toyNalu 'P' 77, listSei] ++ plainStream.drop 7
    (∃ s os, authRun polyEnv (newValidator polyEnv .h264) (plainStream.map .nalu) = .ok (s, os) ∧
      lastReport os = some ("ISPPIS", "....P.", .ok)) ∧
    (plainStream.drop 5).take 2 = [toyNalu 'P' 5, toyNalu 'P' 6] ∧
    ([toyNalu 'P' 5, toyNalu 'P' 6, toyNalu 'P' 66, toyNalu 'P' 77].map fun n => polyHash (n.drop 4)).Nodup ∧
    ∃ s os, authRun polyEnv (newValidator polyEnv .h264) (received.map .nalu) = .ok (s, os) ∧
      os.map AObs.rc = List.replicate 7 none ++ [some .incompatibleVersion, none, none] ∧
      lastReport os = some ("ISPPSIS", "....EP.", .ok) := by
  refine ⟨endsWith_run (by decide +kernel), by decide +kernel, by decide +kernel, ?_⟩
  obtain ⟨s, os, h, hp⟩ := authCheck polyEnv (newValidator polyEnv .h264)
    ((plainStream.take 5 ++ [toyNalu 'P' 66, toyNalu 'P' 77, listSei] ++ plainStream.drop 7).map .nalu)
    (fun s os => decide (os.map AObs.rc = List.replicate 7 none ++ [some .incompatibleVersion, none, none]) &&
      lastReport os == some ("ISPPSIS", "....EP.", .ok)) (by decide +kernel)
  simp only [Bool.and_eq_true, beq_iff_eq, decide_eq_true_eq] at hp
  exact ⟨s, os, h, hp.1, hp.2⟩

/-! ### C50 -/

/-- A stream in which only the first SEI brings the public key. -/
def rare : List Bytes := polyStream (polySigner 33 [.recurrence 100]) (polyNalus "IPPIPPIPPIPPI")

/-- **C50 does not hold.** The public key survives a reset: the rest of a stream is validated by a session that was reset,
but not by a new one. -/
theorem C50_key_survives_false :
    (∃ s os, authRun polyEnv (newValidator polyEnv .h264) ((rare.drop 7).map .nalu) = .ok (s, os) ∧
      toyReports os = [("IS", "PP", .signaturePresent)]) ∧
    ∃ s os os', authRun polyEnv (newValidator polyEnv .h264) ((rare.take 5).map .nalu ++ .reset :: (rare.drop 7).map .nalu)
        = .ok (s, os ++ os') ∧ os.length = 6 ∧
      toyReports os' = [("I  S", "PMMU", .signaturePresent), ("I  SPPIS", ".MMU..P.", .ok), ("ISPPIS", "....P.", .ok)] := by
  constructor
  · obtain ⟨s, os, h, hp⟩ := authCheck polyEnv (newValidator polyEnv .h264) ((rare.drop 7).map .nalu)
      (fun s os => toyReports os == [("IS", "PP", .signaturePresent)]) (by decide +kernel)
    exact ⟨s, os, h, by simpa using hp⟩
  · obtain ⟨s, os, h, hp⟩ := authCheck polyEnv (newValidator polyEnv .h264)
      ((rare.take 5).map .nalu ++ .reset :: (rare.drop 7).map .nalu)
      (fun s os => decide (6 ≤ os.length) && toyReports (os.drop 6) ==
        [("I  S", "PMMU", .signaturePresent), ("I  SPPIS", ".MMU..P.", .ok), ("ISPPIS", "....P.", .ok)]) (by decide +kernel)
    simp only [Bool.and_eq_true, beq_iff_eq, decide_eq_true_eq] at hp
    exact ⟨s, os.take 6, os.drop 6, by rw [List.take_append_drop]; exact h, by rw [List.length_take]; omega, hp.2⟩

/-! ### C51 -/

/-- **C51 does not hold.** If a SEI is lost, an access unit delimiter before the next I-frame hides that this frame starts a
GOP: it is swallowed by the GOP before it, and all frames of the next GOP are marked as not authentic. -/
theorem C51_delimiter_false :
    let lost := stream3.eraseIdx 8
    (∃ s os, authRun polyEnv (newValidator polyEnv .h264) (lost.map .nalu) = .ok (s, os) ∧
      lastReport os = some ("ISPPIPPIS", "N.NN...P.", .notOk)) ∧
    ∃ s os, authRun polyEnv (newValidator polyEnv .h264) ((lost.take 7 ++ toyNalu 'A' 0 :: lost.drop 7).map .nalu) = .ok (s, os) ∧
      lastReport os = some ("I  SPP_IPPIS", "NMM.NN_NNNN.", .notOk) :=
  ⟨endsWith_run (by decide +kernel), endsWith_run (by decide +kernel)⟩

end SV
