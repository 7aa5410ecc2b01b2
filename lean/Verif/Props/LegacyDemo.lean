import Verif.Model.Legacy
import Verif.Model.SeiBytes
import Verif.Props.AuthForge
/-! Sample streams of the older format and sessions that validate them. -/
namespace SV

/-- A TLV. The length of the general tag has one byte, the lengths of the others used here have two. -/
def legTlv (t : UInt8) (v : Bytes) : Bytes :=
  t :: ((if t = 1 then [UInt8.ofNat v.length] else be16 (UInt16.ofNat v.length)) ++ v)

/-- What a SEI of the older format is made of. -/
structure LegSei where
  counter : UInt32
  sent : UInt16                   -- number of hashed NAL units
  key : Bytes := []               -- left out if empty
  hashes : Option (List Bytes)    -- the hash list, or none for a SEI with a GOP hash
  gop : List Bytes := []          -- the hashes that are in the GOP hash
deriving DecidableEq, Repr

/-- The part of a SEI that is hashed. -/
def LegSei.body (s : LegSei) (max : Nat) : Bytes :=
  let tlvs := legTlv 1 ([1] ++ be32 s.counter ++ be16 s.sent ++ [1, 1, 0]) ++
    (if s.key = [] then [] else legTlv 2 ([2] ++ s.key)) ++
    (match s.hashes with | none => [] | some l => legTlv 4 ([1] ++ l.flatten))
  seiHeader .h264 ++ sizeField (17 + tlvs.length + 8 + max) ++ uuid ++ [0] ++ tlvs

/-- The hash that is signed. -/
def LegSei.signed (s : LegSei) (max : Nat) : Bytes :=
  match s.hashes with
  | some _ => polyHash (s.body max)
  | none => (s.gop ++ [polyHash (s.body max)]).foldl (fun g h => polyHash (g ++ h)) (polyHash [1])

/-- The SEI with a signature of 33 bytes, as a NAL unit. -/
def LegSei.bytes (s : LegSei) (sign : Bytes → Bytes := toySig) : Bytes :=
  let sig := sign (s.signed 33)
  let b := s.body 33 ++ legTlv 5 ([1, 0, if s.hashes.isSome then 1 else 0] ++ be16 (UInt16.ofNat sig.length) ++ sig)
  startCode4 ++ (writeBytes true L2.init b).1 ++ [0x80]

/-- Hash of a NAL unit with a start code. -/
def legHash (n : Bytes) : Bytes := polyHash (n.drop 4)

/-- Hash of a NAL unit with the first NAL unit of the GOP as reference. -/
def legRef (i n : Bytes) : Bytes := polyHash (legHash i ++ legHash n)

/-- The hashes of a GOP and of the first NAL unit of the next one. -/
def legHashes : List Bytes → List Bytes
  | [] => []
  | i :: r => legHash i :: r.map (legRef i)

/-- A SEI for a GOP. -/
def legFor (list : Bool) (key : Bytes) (counter : UInt32) (g : List Bytes) : LegSei :=
  { counter := counter, sent := UInt16.ofNat g.length, key := key
    hashes := if list then some (legHashes g) else none, gop := legHashes g }

/-- The NAL units of GOPs given by their types; the NAL units are numbered. -/
def legNalus (types : String) : List Bytes := polyNalus types

/-- Does a NAL unit start a GOP? -/
def legIsI (n : Bytes) : Bool := n.getD 4 0 == 0x65

/-- Sign a stream: before each I-frame the SEI for the NAL units since the one before it, and it. -/
def legStream (list : Bool) (key : Bytes) (counter : UInt32) : (gop rest : List Bytes) → List Bytes
  | _, [] => []
  | g, n :: ns =>
    if legIsI n then
      (legFor list key counter (g ++ [n])).bytes :: n :: legStream list key (counter + 1) [n] ns
    else n :: legStream list key counter (g ++ [n]) ns

/-- A signed stream. -/
def legSigned (list : Bool) (types : String) : List Bytes := legStream list [9, 9, 9] 1 [] (legNalus types)

/-- The reports of a session. -/
def legRun (env : AuthEnv) (ns : List Bytes) : Out (List (String × String × Auth)) :=
  match Session.run env (newSession env .h264) (ns.map AuthCall.nalu) with
  | .ok p => .ok (toyReports p.2)
  | .err e => .err e
  | .ub u => .ub u

/-- A run that is checked by evaluation. -/
theorem legCheck (env : AuthEnv) (s : Session) (cs : List AuthCall) (P : Session → List AObs → Bool)
    (h : (match s.run env cs with | .ok p => P p.1 p.2 | _ => false) = true) :
    ∃ s' os, s.run env cs = .ok (s', os) ∧ P s' os = true := by
  cases hr : s.run env cs with
  | ok p => rw [hr] at h; exact ⟨p.1, p.2, rfl, h⟩
  | err e => rw [hr] at h; cases h
  | ub u => rw [hr] at h; cases h

end SV
