import Verif.Model.Tlv
/-!
Specification of what a validating session has to know after decoding the SEI of a signing session, and of the
TLV wire format.  Stated in terms of the members of the two sessions only.
-/
namespace SV.Spec

/-- What a C string is reported as: at most 254 characters, the empty string if it was not set. -/
def reported (s : Option Bytes) : Bytes := (s.getD []).take 254

/-- The product info of the report. -/
def reportedProduct (p : ProductInfo) : ProductInfo :=
  ⟨some (reported p.hardwareId), some (reported p.firmwareVersion), some (reported p.serialNumber),
   some (reported p.manufacturer), some (reported p.address)⟩

/-- No NUL inside a C string. -/
def NoNul (s : Option Bytes) : Prop := ∀ b ∈ s.getD [], b ≠ 0

/-- The contents of a signing session fit the fields of the format. -/
structure Fits (e : EncState) : Prop where
  hashSize : e.hashSize ≤ 64
  linked : e.linkedHash.length = e.hashSize
  gop : e.gopHash.length = e.hashSize
  hw : NoNul e.product.hardwareId
  fw : NoNul e.product.firmwareVersion
  sn : NoNul e.product.serialNumber
  mf : NoNul e.product.manufacturer
  ad : NoNul e.product.address
  arbitrary : e.arbitrary.length ≤ 65534
  key : ∀ k, e.publicKey = some k → 1 ≤ k.length ∧ k.length ≤ 65534
  hashList : ∀ l, e.hashList = some l → l.length ≤ 19200
  oid : e.oid.length ≤ 253
  sig : e.signature.length ≤ e.maxSignature
  maxSig : e.maxSignature ≤ 65530
  hashType : e.hashType < 2
  axis : e.axis.length ≤ 65535

/-- The TLV wire format: a tag, a big endian length of one byte (general, crypto info) or two bytes (all other
tags), the value. -/
def frame (t : UInt8) (v : Bytes) : Bytes :=
  if t = 1 ∨ t = 7 then t :: UInt8.ofNat v.length :: v
  else t :: UInt8.ofNat (v.length / 256) :: UInt8.ofNat (v.length % 256) :: v

/-- The library's tags. -/
def Lib (t : UInt8) : Prop := t ∈ [1, 2, 3, 4, 5, 6, 7]

/-- The library's tags and the vendor tag. -/
def Known (t : UInt8) : Prop := t ∈ [1, 2, 3, 4, 5, 6, 7, 129]

/-- Largest value length of a tag. -/
def maxLen (t : UInt8) : Nat := if t = 1 ∨ t = 7 then 255 else 65535

/-- What the OpenSSL functions have to do for a SEI to be decodable: the public key is accepted, and the identifier of
the hash algorithm is known with the hash size the signer used. -/
structure CryptoOk (env : CryptoEnv) (e : EncState) : Prop where
  key : ∀ k, e.publicKey = some k → env.keyOk k = true
  oid : env.oidHashSize e.oid = some e.hashSize

/-- The validating session `d'` knows what the signing session `e` put into a SEI (with public key, product info and
hash algorithm if `recurrent`), and nothing else changed since `d`. -/
structure Carries (e : EncState) (recurrent : Bool) (d d' : DecState) : Prop where
  counter : d'.gopCounter = e.gopCounter + 1
  numNalus : d'.numSent = e.numNalus
  version : d'.codeVersion = e.codeVersion
  hasTimestamp : d'.hasTimestamp = e.timestamp.isSome ∧ d'.latestHasTimestamp = e.timestamp.isSome
  timestamp : ∀ t, e.timestamp = some t → d'.timestamp = t ∧ d'.latestTimestamp = t
  linkedHash : d'.linkedHash = e.linkedHash
  gopHash : d'.gopHash = e.gopHash
  hashList : ∀ l, e.hashList = some l → l ≠ [] → e.frameLevel = true → d'.hashList = l
  arbitrary : e.arbitrary ≠ [] → d'.arbitrary = e.arbitrary
  signature : d'.signature = e.signature ∧ d'.encodingStatus = e.encodingStatus
  key : ∀ k, recurrent = true → e.publicKey = some k → e.addPublicKey = true →
    d'.publicKey = k ∧ d'.hasPublicKey = true
  product : recurrent = true → d'.product = reportedProduct e.product
  oid : recurrent = true → e.oid ≠ [] → d'.oid = e.oid ∧ d'.hashAlgoKnown = true ∧ d'.hashSize = e.hashSize
  noKey : (recurrent = false ∨ e.publicKey = none ∨ e.addPublicKey = false) →
    d'.publicKey = d.publicKey ∧ d'.hasPublicKey = d.hasPublicKey ∧ d'.keyChanged = d.keyChanged
  noProduct : recurrent = false → d'.product = d.product ∧ d'.oid = d.oid ∧ d'.hashSize = d.hashSize
  noList : (e.hashList = none ∨ e.hashList = some [] ∨ e.frameLevel = false) → d'.hashList = d.hashList
  noArbitrary : e.arbitrary = [] → d'.arbitrary = d.arbitrary

/-- Concatenation of frames. -/
def encodeAll (l : List (UInt8 × Bytes)) : Bytes := (l.map fun p => frame p.1 p.2).flatten

/-- One length prefixed string inside a product info value: the size byte, and that many bytes among which there is a
terminating NUL. -/
def IsString (b : Bytes) : Prop := ∃ n s, b = n :: s ∧ s.length = n.toNat ∧ (0 : UInt8) ∈ s

/-- Values that are large enough for the fields they announce, small enough for the fixed size buffers of the
validator, and whose strings are terminated.  (Content may be arbitrary otherwise.) -/
def WellSized (t : UInt8) (v : Bytes) : Prop :=
  if t = 1 then
    11 ≤ v.length ∧ v.length ≤ 11 + 129 ∧ ((v.getD 10 0) &&& 1 = 1 → 19 ≤ v.length)
  else if t = 2 then 2 ≤ v.length
  else if t = 3 then ∃ ver a b c d e, v = ver :: (a ++ b ++ c ++ d ++ e) ∧
    IsString a ∧ IsString b ∧ IsString c ∧ IsString d ∧ IsString e
  else if t = 4 then 1 ≤ v.length
  else if t = 5 then 5 ≤ v.length
  else if t = 6 then 1 ≤ v.length
  else if t = 7 then 2 ≤ v.length ∧ 2 + (v.getD 1 0).toNat ≤ v.length
  else False

end SV.Spec
