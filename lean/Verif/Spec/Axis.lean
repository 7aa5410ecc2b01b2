import Verif.Model.Axis
/-! The Axis attestation report, written down from its description (`axis.c` 301-309) instead of from the parser, and what
it proves about a public key. -/
namespace SV.Spec

/-- The bytes of an attestation report with one item. -/
def attBytes (r : AttReport) : Bytes :=
  r.header ++ r.version ++ r.objectId ++ [1] ++ r.timestamp ++
    [UInt8.ofNat (r.signature.length / 256), UInt8.ofNat (r.signature.length % 256)] ++ r.signature

/-- The members have their sizes and there is a signature. -/
structure AttOk (r : AttReport) : Prop where
  header : r.header.length = 2
  version : r.version.length = 2
  objectId : r.objectId.length = 4
  listLength : r.listLength = 1
  timestamp : r.timestamp.length = 12
  signature : r.signature ≠ []
  short : r.signature.length < 65536

/-- The vendor record: version, attestation with its size, certificates. -/
def axisRecord (att chain : Bytes) : Bytes := 1 :: UInt8.ofNat att.length :: (att ++ chain)

/-- A field of the data signed by the secure element: a tag and a value with a length of two bytes. -/
def field (tag : UInt8) (v : Bytes) : Bytes := tag :: 0x82 :: UInt8.ofNat (v.length / 256) :: UInt8.ofNat v.length :: v

/-- The attributes of the key in the secure element (`axis.c` 69-72). -/
def keyAttributes : Bytes :=
  [0x7b, 0x00, 0x02, 0x01, 0x29, 0x01, 0x00, 0x00, 0x7b, 0x00, 0x00, 0x03, 0x00, 0x00, 0x08, 0x7b, 0x00, 0x00, 0x03, 0x1f,
    0x3c, 0x00, 0x00, 0x08, 0x00, 0x00, 0x00, 0x00, 0x00, 0x20, 0x00, 0x00, 0x02, 0x00, 0x00, 0x00, 0x00]

/-- The constant used in place of a fresh challenge (`axis.c` 75-76). -/
def challenge : Bytes :=
  [0x92, 0xbb, 0xed, 0xfb, 0x98, 0x82, 0xac, 0x16, 0xc7, 0xf0, 0x1a, 0xe4, 0x59, 0x05, 0x96, 0x04]

/-- "Axis Edge Vault Attestation " (`axis.c` 45). -/
def edgeVault : Bytes :=
  [0x41, 0x78, 0x69, 0x73, 0x20, 0x45, 0x64, 0x67, 0x65, 0x20, 0x56, 0x61, 0x75, 0x6c, 0x74, 0x20, 0x41, 0x74, 0x74, 0x65,
    0x73, 0x74, 0x61, 0x74, 0x69, 0x6f, 0x6e, 0x20]

/-- The data signed by the secure element for a key (`axis.c` 365-370, 411-454). -/
def attested (env : AxEnv) (point chip timestamp : Bytes) : Bytes :=
  env.sha256 (0x80 :: 0x22 :: 0 :: 0 :: 0 :: 0 :: 0x21 :: ([0x41, 0x04] ++ keyAttributes.take 4 ++ [0x45, 0x04, 0xf0, 0, 0, 0x12] ++
    [0x46, 0x01, 0x21] ++ [0x47, 0x10] ++ challenge)) ++
  (field 0x41 point ++ field 0x42 chip ++ field 0x43 keyAttributes ++ field 0x44 [0, 0x20] ++ field 0x4f timestamp)

/-- The certificates, the attestation and the serial number prove that the public key belongs to a device of Axis: one or
two certificates lead to the trusted root, the first one is that of a secure element with an EC key and with the serial
number, and its key has signed the public key. -/
def KeyProven (env : AxEnv) (chain att serial key : Bytes) : Prop :=
  ∃ c rest ak name r chip, env.pem (cstr chain) = c :: rest ∧ rest.length ≤ 1 ∧ env.chainOk (c :: rest) = true ∧
    c.ec = true ∧ c.key = some ak ∧ c.name = some name ∧ edgeVault <:+: name ∧ c.serial.map cstr = some serial ∧
    AttOk r ∧ att = attBytes r ∧ chip.length = 18 ∧ chip.take 4 = [0x04, 0x00, 0x50, 0x01] ∧
    (env.keyPoint key).length = 65 ∧ (env.keyPoint key).head? = some 4 ∧
    env.verify ak r.signature (attested env (env.keyPoint key) chip r.timestamp) = 1

end SV.Spec
