import Verif.Spec.Flow
import Verif.Spec.Tlv
import Verif.Model.SeiBytes
/-! Streams signed with the older format, and what is expected of a validator that receives one as it was sent. -/
namespace SV.Spec

/-- A SEI of the older format.  The values of its tags are those of the newer format (`e`) except for the general tag; the signature comes
last. -/
structure OldSei where
  /-- The tags before the signature, in their order. -/
  tags : List UInt8
  /-- What the tags tell. -/
  e : EncState
  /-- Version 2 of the general tag, which may have a timestamp. -/
  timed : Bool

/-- The general tag: version, number of the GOP, number of hashes, version of the code; since version 2 flags and a timestamp. The hashes that
version 3 has at the end are not there. -/
def OldSei.general (s : OldSei) : Bytes :=
  (if s.timed then 2 else 1) :: (be32 s.e.gopCounter ++ be16 s.e.numNalus ++ [s.e.codeVersion.1, s.e.codeVersion.2.1, s.e.codeVersion.2.2] ++
    if s.timed then (match s.e.timestamp with | none => [0] | some t => 1 :: be64 t.toUInt64) else [])

def OldSei.value (s : OldSei) (t : UInt8) : Bytes := if t = 1 then s.general else valueBytes s.e t

def tlvs (l : List (UInt8 × Bytes)) : Bytes := (l.map fun p => frame p.1 p.2).flatten

/-- The tags that are signed, and the signature. -/
def OldSei.signed (s : OldSei) : List (UInt8 × Bytes) := s.tags.map fun t => (t, s.value t)
def OldSei.last (s : OldSei) : Bytes := frame 5 (valueBytes s.e 5)

/-- The part of the SEI that is signed: the header, the size of the payload, the identifier, the reserved byte, which is 0 in the older format, and the
tags before the signature. -/
def OldSei.doc (s : OldSei) (c : Codec) : Bytes :=
  seiHeader c ++ sizeField (17 + (tlvs s.signed).length + s.last.length) ++ uuid ++ [0] ++ tlvs s.signed

/-- The SEI as it is sent. -/
def OldSei.bytes (s : OldSei) (c : Codec) : Bytes := startCode4 ++ (writeBytes true L2.init (s.doc c ++ s.last)).1 ++ [0x80]

/-- What a SEI has to comply with: the tags have values, and its key, hash algorithm and size of signatures are those of the stream. -/
structure OldSei.Proper (s : OldSei) (env : AuthEnv) (key : Bytes) (max : Nat) : Prop where
  fits : Fits s.e
  tags : ∀ t ∈ s.tags, t ∈ [1, 2, 3, 4, 6, 7]
  general : 1 ∈ s.tags
  values : ∀ t ∈ s.tags, s.value t ≠ []
  key : 2 ∈ s.tags → s.e.publicKey = some key
  oid : 7 ∈ s.tags → s.e.oid = env.oid
  max : s.e.maxSignature = max
  signature : s.e.signature ≠ []
  small : (tlvs s.signed).length < 2 ^ 32

/-- A GOP with its SEI: the SEI is sent before the first NAL unit of the GOP. -/
structure OldGop where
  sei : OldSei
  between : List Bytes
  first : Bytes
  rest : List Bytes

/-- The protected NAL unit, if it is one. -/
def picture (c : Codec) (d : Bytes) : Option Piece := (StreamItem.nalu d none).piece c

/-- What is sent. -/
def OldGop.units (g : OldGop) (c : Codec) : List Bytes := g.sei.bytes c :: (g.between ++ g.first :: g.rest)

/-- The protected NAL units. -/
def OldGop.pictures (g : OldGop) (c : Codec) : List Bytes := (g.first :: g.rest).filterMap fun d => (picture c d).map Piece.bytes

/-- Only the first protected NAL unit of a GOP starts an intra picture; any other NAL units may be sent before and after it. -/
structure OldGop.Shape (g : OldGop) (c : Codec) : Prop where
  between : ∀ d ∈ g.between, Ordinary c d ∧ picture c d = none
  first : Ordinary c g.first ∧ ∃ p, picture c g.first = some p ∧ p.first = true
  rest : ∀ d ∈ g.rest, Ordinary c d ∧ ∀ p, picture c d = some p → p.first = false

/-- The hashes of the NAL units since the start of a GOP: the first one is hashed alone, every other one together with the hash of the first. -/
def oldHashes (H : Bytes → Bytes) : List Bytes → List Bytes
  | [] => []
  | i :: r => H i :: r.map fun n => H (H i ++ H n)

/-- The SEI signs the hashes `hs`: it tells how many there are, and either has a list of them and a signature of its own hash, or a signature of the hash
that is made of them and its own hash one by one. -/
structure OldSei.Signs (s : OldSei) (c : Codec) (H : Bytes → Bytes) (verify : Bytes → Bytes → Int) (hs : List Bytes) : Prop where
  num : s.e.numNalus.toNat = hs.length
  verified : s.e.hashType = 1 ∧ 4 ∈ s.tags ∧ s.e.hashList = some hs.flatten ∧ verify s.e.signature (H (s.doc c)) = 1 ∨
    s.e.hashType = 0 ∧ verify s.e.signature ((hs ++ [H (s.doc c)]).foldl (fun g h => H (g ++ h)) (H [1])) = 1

/-- The GOPs of a signed stream after a GOP with the NAL units `prev` and the number `n` (if any): each SEI signs the NAL units of the GOP before it and the first
NAL unit of its own, and the GOPs are numbered. -/
def OldSigned (env : AuthEnv) (key : Bytes) (c : Codec) (max : Nat) : List Bytes → Option UInt32 → List OldGop → Prop
  | _, _, [] => True
  | prev, n, g :: gs =>
    g.Shape c ∧ g.sei.Proper env key max ∧
    g.sei.Signs c (env.H env.oid) (env.verify key) (oldHashes (env.H env.oid) (prev ++ (g.pictures c).take 1)) ∧
    (∀ k, n = some k → g.sei.e.gopCounter = k + 1) ∧
    OldSigned env key c max (g.pictures c) (some g.sei.e.gopCounter) gs

/-- The SEI, which has a signature of the hash that is made of the hashes of the NAL units, does not match the hashes `hs`. -/
structure OldSei.Refuses (s : OldSei) (c : Codec) (H : Bytes → Bytes) (verify : Bytes → Bytes → Int) (hs : List Bytes) : Prop where
  typ : s.e.hashType = 0
  refused : verify s.e.signature ((hs ++ [H (s.doc c)]).foldl (fun g h => H (g ++ h)) (H [1])) = 0

/-- The GOPs of a stream as it is received: as in `OldSigned` but NAL units may have been changed, added or removed, and SEIs may have been changed; the flag tells
whether the SEI matches the NAL units. -/
def OldReceived (env : AuthEnv) (key : Bytes) (c : Codec) (max : Nat) : List Bytes → Option UInt32 → List (OldGop × Bool) → Prop
  | _, _, [] => True
  | prev, n, (g, b) :: gs =>
    g.Shape c ∧ g.sei.Proper env key max ∧
    (if b then g.sei.Signs c (env.H env.oid) (env.verify key) (oldHashes (env.H env.oid) (prev ++ (g.pictures c).take 1))
      else g.sei.Refuses c (env.H env.oid) (env.verify key) (oldHashes (env.H env.oid) (prev ++ (g.pictures c).take 1))) ∧
    (∀ k, n = some k → g.sei.e.gopCounter = k + 1) ∧
    OldReceived env key c max (g.pictures c) (some g.sei.e.gopCounter) gs

/-- The hash of a GOP, made of the hashes of its NAL units and that of the SEI one by one. -/
def oldGopHash (H : Bytes → Bytes) (pics : List Bytes) (doc : Bytes) : Bytes := (oldHashes H pics ++ [H doc]).foldl (fun g h => H (g ++ h)) (H [1])

/-- What is hashed to make a hash of hashes one by one. -/
def chainInputs (H : Bytes → Bytes) : Bytes → List Bytes → List Bytes
  | _, [] => []
  | g, h :: hs => (g ++ h) :: chainInputs H (H (g ++ h)) hs

/-- All that is hashed to make the hash of a GOP. -/
def oldInputs (H : Bytes → Bytes) (pics : List Bytes) (doc : Bytes) : List Bytes :=
  (doc :: pics) ++ (match pics with | [] => [] | i :: r => r.map fun n => H i ++ H n) ++ [1] :: chainInputs H (H [1]) (oldHashes H pics ++ [H doc])

/-- None of `xs` has the hash of another one of `ys`. -/
def NoneLike (H : Bytes → Bytes) (xs ys : List Bytes) : Prop := ∀ x ∈ xs, ∀ y ∈ ys, H x = H y → x = y

/-- The GOPs of a signed stream, each with what is received of it: the SEIs are the ones sent, all other NAL units may have been changed, added or removed, as long as a GOP
still starts with an intra picture.  Where NAL units that are protected by a SEI have been changed, it has a signature of the hash of the GOP.  There is no accident:
what was received does not have the hashes of what was sent, and the signature does not match another hash. `ps`, `pr` are the protected NAL units of the GOP before as sent
and as received. -/
def OldAltered (env : AuthEnv) (key : Bytes) (c : Codec) : (ps pr : List Bytes) → List (OldGop × OldGop) → Prop
  | _, _, [] => True
  | ps, pr, (s, r) :: l =>
    r.Shape c ∧ r.sei = s.sei ∧
    (pr ++ (r.pictures c).take 1 ≠ ps ++ (s.pictures c).take 1 → s.sei.e.hashType = 0 ∧
      NoneLike (env.H env.oid) (oldInputs (env.H env.oid) (ps ++ (s.pictures c).take 1) (s.sei.doc c)) (oldInputs (env.H env.oid) (pr ++ (r.pictures c).take 1) (s.sei.doc c)) ∧
      (oldGopHash (env.H env.oid) (pr ++ (r.pictures c).take 1) (s.sei.doc c) ≠ oldGopHash (env.H env.oid) (ps ++ (s.pictures c).take 1) (s.sei.doc c) →
        env.verify key s.sei.e.signature (oldGopHash (env.H env.oid) (pr ++ (r.pictures c).take 1) (s.sei.doc c)) = 0)) ∧
    OldAltered env key c (s.pictures c) (r.pictures c) l

/-- What is received, with flags that tell whether the NAL units a SEI protects (those of the GOP before and the first one of its own) are the ones that were sent. -/
def oldFlags (c : Codec) : (ps pr : List Bytes) → List (OldGop × OldGop) → List (OldGop × Bool)
  | _, _, [] => []
  | ps, pr, (s, r) :: l => (r, decide (pr ++ (r.pictures c).take 1 = ps ++ (s.pictures c).take 1)) :: oldFlags c (s.pictures c) (r.pictures c) l

/-- What is to be said of a GOP: how many NAL units were sent and received (with the SEI), how many of those received are not OK, and whether all has been OK so
far. -/
structure OldClaim where
  expected : Nat
  received : Nat
  wrong : Nat
  overall : Bool

/-- The report says it. -/
structure OldClaim.Said (c : OldClaim) (r : Report) : Prop where
  latest : r.latest.auth = if c.wrong = 0 then .ok else .notOk
  overall : r.acc.auth = if c.overall then .ok else .notOk
  key : r.latest.keyChanged = false
  expected : r.latest.expected = c.expected
  received : r.latest.received = c.received
  pending : r.latest.pending = 1
  marks : ∃ str, r.latest.validationStr = some str ∧ str.count '.' = c.received - c.wrong ∧ str.count 'N' = c.wrong ∧ str.count 'M' = c.expected - c.received ∧
    str.count 'P' = 1 ∧ ∀ x ∈ str, x = '.' ∨ x = 'N' ∨ x = 'M' ∨ x = 'P' ∨ x = 'U' ∨ x = '_'

/-- The observations are as claimed. -/
def AsClaimed : List (Option OldClaim) → List AObs → Prop
  | [], [] => True
  | none :: es, o :: os => o.rc = none ∧ o.report = none ∧ AsClaimed es os
  | some k :: es, o :: os => o.rc = none ∧ (∃ r, o.report = some r ∧ k.Said r) ∧ AsClaimed es os
  | _, _ => False

/-- What is to be said of a GOP after one with `k` protected NAL units.  If its SEI does not match, all of them are not OK.  The first one of them is not OK either if the
SEI before, which had signed it as well, did not match (`q`). -/
def OldGop.claim (g : OldGop) (k : Nat) (b q all : Bool) : OldClaim where
  expected := g.sei.e.numNalus.toNat
  received := k + 1
  wrong := if b then (if q then 1 else 0) else k + 1
  overall := all && b && !q

/-- What is to be said of the GOPs: `q` tells that the SEI before did not match, `all` that all has been OK. -/
def oldClaims (c : Codec) : Nat → (q all : Bool) → List (OldGop × Bool) → List (Option OldClaim)
  | _, _, _, [] => []
  | k, q, all, (g, b) :: gs =>
    none :: (g.between.map fun _ => none) ++ some (g.claim k b q all) :: (g.rest.map fun _ => none) ++
      oldClaims c (g.pictures c).length (!b) (all && b && !q) gs

/-- The report that there are signatures but nothing has been verified. -/
structure OldUndecided (r : Report) : Prop where
  latest : r.latest.auth = .signaturePresent
  overall : r.acc.auth = .signaturePresent
  key : r.latest.keyChanged = false
  expected : r.latest.expected = -1
  received : r.latest.received = -1
  pending : r.latest.pending = 1
  marks : ∃ str, r.latest.validationStr = some str ∧ str.count 'P' = 1 ∧ ∀ x ∈ str, x = 'P' ∨ x = 'U' ∨ x = '_'

/-- What the first SEI that is received has signed is not what was received: `pics`, the NAL units of the GOP before it, were not, and there is no accident. Its signature
is neither valid for the first NAL unit of its GOP alone, nor is the hash of that alone in the list. -/
def OldSei.Apart (s : OldSei) (c : Codec) (H : Bytes → Bytes) (verify : Bytes → Bytes → Int) (pics : List Bytes) (first : Bytes) : Prop :=
  pics ≠ [] ∧ (s.e.hashType = 0 → verify s.e.signature (oldGopHash H [first] (s.doc c)) = 0) ∧ (s.e.hashType = 1 → H first ∉ oldHashes H (pics ++ [first]))

/-- The report that `k` NAL units are OK. -/
structure OldGood (k : Nat) (r : Report) : Prop where
  latest : r.latest.auth = .ok
  overall : r.acc.auth = .ok
  key : r.latest.keyChanged = false
  expected : r.latest.expected = k
  received : r.latest.received = k
  pending : r.latest.pending = 1
  marks : ∃ str, r.latest.validationStr = some str ∧ str.count '.' = k ∧ str.count 'P' = 1 ∧ ∀ x ∈ str, x = '.' ∨ x = 'P' ∨ x = 'U' ∨ x = '_'

/-- What is expected to be reported of a GOP that follows one with `k` protected NAL units, call by call: the first NAL unit completes the
GOP before it (whose NAL units and the SEI are OK), nothing else is reported. -/
def OldGop.reports (g : OldGop) (k : Nat) : List (Option Nat) := none :: (g.between.map fun _ => none) ++ some (k + 1) :: g.rest.map fun _ => none

def oldReports (c : Codec) : Nat → List OldGop → List (Option Nat)
  | _, [] => []
  | k, g :: gs => g.reports k ++ oldReports c (g.pictures c).length gs

/-- The observations are as expected. -/
def AsReported : List (Option Nat) → List AObs → Prop
  | [], [] => True
  | none :: es, o :: os => o.rc = none ∧ o.report = none ∧ AsReported es os
  | some k :: es, o :: os => o.rc = none ∧ (∃ r, o.report = some r ∧ OldGood k r) ∧ AsReported es os
  | _, _ => False

end SV.Spec
