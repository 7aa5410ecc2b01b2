import Verif.Spec.SignHist
import Verif.Model.Auth
/-! What is expected of a validator that receives a signed stream as it was sent. -/
namespace SV.Spec

/-- A stream consists of the NAL units given for signing, with the timestamps given with them (these are not transmitted),
and of SEIs. -/
inductive StreamItem
  | nalu (d : Bytes) (ts : Option Int64)
  | sei (b : Bytes)
deriving DecidableEq, Repr

/-- What is transmitted. -/
def StreamItem.bytes : StreamItem → Bytes
  | .nalu d _ => d
  | .sei b => b

def StreamItem.given : StreamItem → Option (Bytes × Option Int64)
  | .nalu d ts => some (d, ts)
  | .sei _ => none

def StreamItem.sei? : StreamItem → Option Bytes
  | .nalu _ _ => none
  | .sei b => some b

/-- The protected NAL unit, if it is one. -/
def StreamItem.piece (c : Codec) : StreamItem → Option Piece
  | .nalu d ts => Spec.piece c (.nalu d ts true none)
  | .sei _ => none

/-- The NAL unit given for signing by a call. -/
def givenNalu : SCall → Option (Bytes × Option Int64)
  | .nalu d ts _ _ => some (d, ts)
  | _ => none

/-- The beginning of a signed stream: the protected NAL units in the order given and the SEIs in the order handed out, each of
them somewhere after the last NAL unit of its GOP. Other NAL units may have been added or left out. -/
structure Transmits (codec : Codec) (cs : List SCall) (os : List Obs) (st : List StreamItem) : Prop where
  nalus : st.filterMap (StreamItem.piece codec) <+: pieces codec cs
  seis : st.filterMap StreamItem.sei? <+: delivered os
  after : ∀ a b c, st = a ++ .sei b :: c →
    ((gops (pieces codec cs)).1.take ((a.filterMap StreamItem.sei?).length + 1)).flatten.length ≤ (a.filterMap (StreamItem.piece codec)).length

/-- A part of a signed stream that starts with GOP number `c` (the first one is number 0): the protected NAL units and the SEIs of this GOP and the later
ones, each SEI somewhere after the last NAL unit of its GOP. Other NAL units may have been added or left out. -/
structure Later (codec : Codec) (cs : List SCall) (os : List Obs) (c : Nat) (st : List StreamItem) : Prop where
  nalus : st.filterMap (StreamItem.piece codec) <+: (pieces codec cs).drop ((gops (pieces codec cs)).1.take c).flatten.length
  seis : st.filterMap StreamItem.sei? <+: (delivered os).drop c
  after : ∀ a b d, st = a ++ .sei b :: d →
    (((gops (pieces codec cs)).1.drop c).take ((a.filterMap StreamItem.sei?).length + 1)).flatten.length ≤ (a.filterMap (StreamItem.piece codec)).length

/-- The stream in which each SEI is written as soon as it has been fetched. -/
def inOrder : List SCall → List Obs → List StreamItem
  | c :: cs, o :: os => ((givenNalu c).map fun x => StreamItem.nalu x.1 x.2).toList ++ (o.sei.map StreamItem.sei).toList ++ inOrder cs os
  | _, _ => []

/-- A NAL unit that a validator reads without leaving the memory given and does not take for one of its SEIs, with a header
that it accepts if the NAL unit is protected. -/
structure Ordinary (codec : Codec) (d : Bytes) : Prop where
  some : d ≠ []
  reads : ∃ n, parseNalu d codec true true = .ok n ∧ n.gopSei = false
  legal : Protected codec ((body d).getD 0 0) ((body d).getD 1 0) → LegalHeader codec ((body d).getD 0 0) ((body d).getD 1 0)

/-- The report on a GOP with `gop` NAL units when `rest` later ones have been received. -/
structure AllGood (gop rest : Nat) (r : Report) : Prop where
  latest : r.latest.auth = .ok
  overall : r.acc.auth = .ok
  key : r.latest.keyChanged = false
  expected : r.latest.expected = (gop % 65536 : Nat)
  received : r.latest.received = gop
  pending : r.latest.pending = rest
  marks : ∃ str, r.latest.validationStr = some str ∧ (∀ c ∈ str, c ≠ 'N' ∧ c ≠ 'M' ∧ c ≠ 'E') ∧
    (str.filter (· = 'P')).length = rest ∧ gop + 1 ≤ (str.filter (· = '.')).length

/-- What is observed while the items are received, after `n` protected NAL units and `k` SEIs of a stream with the GOPs `gs`:
every call succeeds, each SEI gives a good report on its GOP, and nothing is reported otherwise, except that the stream is
not signed as long as no SEI has come. -/
def Confirmed (codec : Codec) (gs : List (List Piece)) : Nat → Nat → List StreamItem → List AObs → Prop
  | _, _, [], [] => True
  | n, k, .nalu d ts :: st, o :: os =>
    o.rc = none ∧ (∀ r, o.report = some r → k = 0 ∧ r.latest.auth = .notSigned ∧ r.acc.auth = .notSigned) ∧
      Confirmed codec gs (n + ((StreamItem.nalu d ts).piece codec).toList.length) k st os
  | n, k, .sei _ :: st, o :: os =>
    o.rc = none ∧ (∃ gop r, gs[k]? = some gop ∧ o.report = some r ∧ AllGood gop.length (n - (gs.take (k + 1)).flatten.length) r) ∧
      Confirmed codec gs n (k + 1) st os
  | _, _, _, _ => False

/-- The public key is put into the SEIs. -/
def SendsKey (setup : List Setting) (cs : List SCall) : Prop := ∀ c ∈ setup.map SCall.set ++ cs, c ≠ .set (.addPublicKey false)

/-- What connects a validator with a session for signing that ended in `s`: it knows the hash function, accepts the public key and
the signatures that the plugin made of the hashes given to it. The hash function that a new validator starts with has 32 bytes.
There is a limit to the emulation prevention bytes before the signature, without which the validator does not find it (see C12). -/
structure Trusting (hs : Hashing) (env : AuthEnv) (key : Bytes) (s : Signer) (os : List Obs) : Prop where
  keyed : s.e.publicKey = some key
  keyOk : env.crypto.keyOk key = true
  hash : ∀ b, env.H s.e.oid b = hs.H s.e.oid b
  size : env.crypto.oidHashSize s.e.oid = some s.e.hashSize
  named : s.e.oid ≠ []
  default : s.e.oid = env.oid → s.e.hashSize = 32
  rounds : 2 ≤ env.rounds
  verifies : ∀ (k : Nat) g sig, (os.filterMap Obs.signed)[k]? = some g → (taken os)[k]? = some sig → sig ≠ [] ∧ env.verify key sig g.h = 1
  room : ∀ g ∈ os.filterMap Obs.signed,
    (seiStart g.o g.e).1.bytes.length - (seiStart { g.o with epb := false } g.e).1.bytes.length < 8 + s.e.maxSignature

end SV.Spec
