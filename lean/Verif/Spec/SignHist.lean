import Verif.Spec.Sign
/-!
What a sequence of NAL units given for signing means: the protected pieces, the GOPs they form and the hash of each of
them.  Written without reference to the session.
-/
namespace SV.Spec

/-- A NAL unit without start code. -/
def body : Bytes → Bytes
  | 0 :: 0 :: 0 :: 1 :: b => b
  | 0 :: 0 :: 1 :: b => b
  | b => b

/-- Without the zeros at the end. -/
def trimZeros (b : Bytes) : Bytes := (b.reverse.dropWhile (· == 0)).reverse

/-- Types of slices of intra pictures: H.264 IDR (5), H.265 intra random access pictures (16 to 21). -/
def IntraType : Codec → UInt8 → UInt8 → Prop
  | .h264, b0, _ => h264NalType b0 = 5
  | .h265, b0, b1 => b1.toNat % 8 ≠ 0 ∧ 16 ≤ h265NalType b0 ∧ h265NalType b0 ≤ 21

instance (c : Codec) (a b : UInt8) : Decidable (Protected c a b) := by cases c <;> unfold Protected <;> infer_instance
instance (c : Codec) (a b : UInt8) : Decidable (IntraType c a b) := by cases c <;> unfold IntraType <;> infer_instance

/-- A protected NAL unit: whether it is the first slice of an intra picture, its bytes and the timestamp given with it. -/
structure Piece where
  first : Bool
  bytes : Bytes
  ts : Option Int64
deriving DecidableEq, Repr

/-- The protected NAL unit that is added by a call, if any. -/
def piece (c : Codec) : SCall → Option Piece
  | .nalu d ts _ _ =>
    if Protected c ((body d).getD 0 0) ((body d).getD 1 0) then
      some ⟨decide (IntraType c ((body d).getD 0 0) ((body d).getD 1 0) ∧ 128 ≤ (sliceByte c d).toNat), trimZeros (body d), ts⟩
    else none
  | _ => none

/-- The NAL units given for signing by a sequence of calls. -/
def pieces (c : Codec) (cs : List SCall) : List Piece := cs.filterMap (piece c)

/-- The GOPs that are finished, and the current one.  A GOP is finished when the first slice of the next intra picture
comes (what precedes the first intra picture is counted to its GOP). -/
def addPiece (g : List (List Piece) × List Piece) (p : Piece) : List (List Piece) × List Piece :=
  if p.first && g.2.any (·.first) then (g.1 ++ [g.2], [p]) else (g.1, g.2 ++ [p])

def gops (ps : List Piece) : List (List Piece) × List Piece := ps.foldl addPiece ([], [])

/-- The hash of the first slice of the latest intra picture, `r` if there is none. -/
def refAfter (H : Bytes → Bytes) (r : Bytes) : List Piece → Bytes
  | [] => r
  | p :: ps => refAfter H (if p.first then H p.bytes else r) ps

/-- The hashes of NAL units: the first slice of an intra picture is hashed alone, every other NAL unit together with the
reference, which is the hash of the former. -/
def pieceHashes (H : Bytes → Bytes) (r : Bytes) : List Piece → List Bytes
  | [] => []
  | p :: ps =>
    (if p.first then H p.bytes else H (r ++ H p.bytes)) :: pieceHashes H (if p.first then H p.bytes else r) ps

/-- Calls of an undisturbed signing session: complete NAL units, fetching SEIs, and settings that do not concern hashes,
keys or the encoding of SEIs. -/
def Regular : SCall → Prop
  | .nalu _ _ last _ => last = true
  | .getSei _ _ _ => True
  | .prepend _ _ => True
  | .set (.product p) => NoNul p.hardwareId ∧ NoNul p.firmwareVersion ∧ NoNul p.serialNumber ∧ NoNul p.manufacturer ∧
      NoNul p.address
  | .set (.addPublicKey _) => True
  | .set (.level _) => True
  | .set (.recurrence _) => True
  | .set (.maxPayload _) => True
  | _ => False

/-- The call does not change the level and the size limit of SEIs. -/
def KeepsLevel : SCall → Prop
  | .set (.level _) => False
  | .set (.maxPayload _) => False
  | _ => True

/-- All NAL units were accepted. -/
def Accepted : List SCall → List Obs → Prop
  | .nalu _ _ _ _ :: cs, o :: os => o.rc = none ∧ Accepted cs os
  | _ :: cs, _ :: os => Accepted cs os
  | _, _ => True

/-- A session at the start of a stream: nothing has been added since it was created or reset. -/
structure Fresh (hs : Hashing) (s : Signer) : Prop where
  list : s.e.hashList = some []
  num : s.e.numNalus = 0
  hasRef : s.hasRef = false
  enabled : s.seiEnabled = false
  linked : s.e.linkedHash = List.replicate s.e.hashSize 0
  linkedNew : s.linkedNew = List.replicate s.e.hashSize 0
  ts : s.e.timestamp = none
  last : s.lastIsLast = true
  golden : s.golden = false
  fits : Fits { s.e with hashType := 1 }
  cap : s.listCap ≤ 19200
  pos : 1 ≤ s.e.hashSize
  len : ∀ x, (hs.H s.e.oid x).length = s.e.hashSize
  ref : s.ref.length = s.e.hashSize

/-- What SEI number `k` (from 0) is generated from: `prev` is the GOP before the signed one `gop`, `next` the NAL unit
after it. -/
structure Describes (hs : Hashing) (s0 : Signer) (k : Nat) (prev : Option (List Piece)) (gop : List Piece) (next : Piece)
    (g : Gen) : Prop where
  gopHash : g.e.gopHash = hs.H s0.e.oid (pieceHashes (hs.H s0.e.oid) s0.ref gop).flatten
  num : g.e.numNalus = UInt16.ofNat gop.length
  linked : g.e.linkedHash = match prev with
    | none => List.replicate s0.e.hashSize 0
    | some p => refAfter (hs.H s0.e.oid) s0.ref p
  counter : g.e.gopCounter = s0.e.gopCounter + UInt32.ofNat k
  list : g.e.hashList = if gop.length * s0.e.hashSize ≤ s0.listCap then
      some (pieceHashes (hs.H s0.e.oid) s0.ref gop).flatten else none
  ts : g.e.timestamp = next.ts
  doc : g.h = hs.H s0.e.oid g.doc

/-- Settings made before the first NAL unit, with values that the format can hold. -/
def Setup (hs : Hashing) : Setting → Prop
  | .product p => NoNul p.hardwareId ∧ NoNul p.firmwareVersion ∧ NoNul p.serialNumber ∧ NoNul p.manufacturer ∧
      NoNul p.address
  | .privateKey (some (k, m)) _ => 1 ≤ k.length ∧ k.length ≤ 65534 ∧ m ≤ 65530
  | .usingGolden b => b = false
  | .hashAlgo name => ∀ oid n, hs.algo name = some (oid, n) → 1 ≤ n ∧ n ≤ 64 ∧ oid.length ≤ 253 ∧ ∀ x, (hs.H oid x).length = n
  | _ => True

/-- An undisturbed session without golden SEI: it is created, set up, and all NAL units are accepted.  `s` is the session
in the end and `os` what was observed. -/
structure Undisturbed (hs : Hashing) (codec : Codec) (oid : Bytes) (v : UInt8 × UInt8 × UInt8) (setup : List Setting)
    (cs : List SCall) (s : Signer) (os : List Obs) : Prop where
  oidLen : oid.length ≤ 253
  hashLen : ∀ x, (hs.H oid x).length = 32
  setupOk : ∀ x ∈ setup, Setup hs x
  regular : ∀ c ∈ cs, Regular c
  notPrepend : ∀ c ∈ cs, NotPrepend c
  honest : Honest hs (newSigner codec oid v) 0 (setup.map SCall.set ++ cs)
  run : signRun hs (newSigner codec oid v) (setup.map SCall.set ++ cs) = .ok (s, os)
  accepted : Accepted (setup.map SCall.set ++ cs) os

/-- SEI number `k` (from 0) belongs to the GOP `gop`; `prev` is the GOP before it and `next` the NAL unit after it. -/
structure Place (ps : List Piece) (k : Nat) (prev : Option (List Piece)) (gop : List Piece) (next : Piece) : Prop where
  isGop : (gops ps).1[k]? = some gop
  isPrev : prev = if k = 0 then none else (gops ps).1[k - 1]?
  isNext : ((gops ps).1 ++ [(gops ps).2])[k + 1]?.bind List.head? = some next

/-- When the data that is sent now and then is due: the number of frames so far, the interval and whether a frame has come
whose number is a multiple of the interval, since a SEI was last completed. -/
structure Recur where
  frames : Nat := 0
  interval : Nat
  due : Bool := false
deriving DecidableEq, Repr

/-- The effect of a call; `isFrame` tells which NAL units are counted. -/
def Recur.next (isFrame : Bytes → Bool) (r : Recur) : SCall → Obs → Recur
  | .nalu d _ _ _, _ => if isFrame d then { r with frames := r.frames + 1, due := r.due || r.frames % r.interval == 0 } else r
  | .set (.recurrence n), o => if o.rc = none then { r with interval := n } else r
  | .getSei _ _ _, o => if o.got = [] then r else { r with due := false }
  | .prepend _ _, o => if o.got = [] then r else { r with due := false }
  | _, _ => r

/-- For each SEI that is generated, whether the data is due. -/
def Recur.dues (isFrame : Bytes → Bool) : Recur → List SCall → List Obs → List Bool
  | r, c :: cs, o :: os => (if o.signed = none then [] else [(r.next isFrame c o).due]) ++ (r.next isFrame c o).dues isFrame cs os
  | _, _, _ => []

/-- What the library counts as a frame: any NAL unit, of whatever type, with the first bit after the header set
(for H.265 also with a temporal id). -/
def countsAsFrame (c : Codec) (d : Bytes) : Bool :=
  decide (128 ≤ (sliceByte c d).toNat) && (match c with
    | .h264 => true
    | .h265 => decide (((body d).getD 1 0).toNat % 8 ≠ 0))

/-- A frame: the first slice of a picture. -/
def isFirstSlice (c : Codec) (d : Bytes) : Bool :=
  decide (Protected c ((body d).getD 0 0) ((body d).getD 1 0) ∧ 128 ≤ (sliceByte c d).toNat)

/-- A receiver that knew `d` knows `d'` from the SEI `b`. -/
def Decoded (env : CryptoEnv) (codec : Codec) (b : Bytes) (d d' : DecState) : Prop :=
  ∃ r, parseNalu b codec true true = .ok r ∧ tlvDecode env d r.tlvMem r.tlvSize = .ok d'

end SV.Spec
