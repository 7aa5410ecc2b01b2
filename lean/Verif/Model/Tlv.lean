import Verif.Model.Bytes
/-!
TLV encoders, decoders, framing and tag search, `/repo/lib/src/signed_video_tlv.c`.
-/
namespace SV

/-! ### Tags -/

/-- One row of `tlv_tuples` / `vendor_tlv_tuples` (`signed_video_tlv.c` 125-171); the function
pointers are represented by the tag. -/
structure Tuple where
  tag : UInt8
  lenBytes : Nat
  alwaysPresent : Bool
deriving DecidableEq, Repr

def tagGeneral : UInt8 := 1
def tagPublicKey : UInt8 := 2
def tagProductInfo : UInt8 := 3
def tagHashList : UInt8 := 4
def tagSignature : UInt8 := 5
def tagArbitrary : UInt8 := 6
def tagCrypto : UInt8 := 7
def tagAxis : UInt8 := 129

/-- `get_tlv_tuple` (`signed_video_tlv.c` 196-210) with the tables of lines 125-171.
Tags unknown to the library give the row of `UNDEFINED_TAG`. -/
def getTuple (t : UInt8) : Tuple :=
  if t = 1 then ⟨1, 1, true⟩
  else if t = 2 then ⟨2, 2, false⟩
  else if t = 3 then ⟨3, 2, false⟩
  else if t = 4 then ⟨4, 2, true⟩
  else if t = 5 then ⟨5, 2, true⟩
  else if t = 6 then ⟨6, 2, true⟩
  else if t = 7 then ⟨7, 1, false⟩
  else if t = 129 then ⟨129, 2, false⟩
  else ⟨0, 0, true⟩

/-- `optional_tags` (`signed_video_tlv.c` 140-144). -/
def optionalTags : List UInt8 := [tagPublicKey, tagProductInfo, tagCrypto]
/-- `mandatory_tags` (`signed_video_tlv.c` 150-154). -/
def mandatoryTags : List UInt8 := [tagGeneral, tagHashList, tagArbitrary]

/-! ### Encoding -/

/-- `signed_video_product_info_t`: five C strings, `none` for a NULL pointer.  A string is the list of its
characters before the NUL. -/
structure ProductInfo where
  hardwareId : Option Bytes := none
  firmwareVersion : Option Bytes := none
  serialNumber : Option Bytes := none
  manufacturer : Option Bytes := none
  address : Option Bytes := none
deriving DecidableEq, Repr

/-- The members of `signed_video_t` read by the encoders (`signed_video_internal.h` 115-256).
Hash buffers hold exactly the `hashSize` bytes in use. -/
structure EncState where
  gopCounter : UInt32
  numNalus : UInt16
  codeVersion : UInt8 × UInt8 × UInt8
  timestamp : Option Int64          -- `has_timestamp`, `timestamp`
  hashSize : Nat
  linkedHash : Bytes                -- `linked_hashes[0 .. hash_size)`
  gopHash : Bytes                   -- `computed_gop_hash[0 .. hash_size)`
  product : ProductInfo
  arbitrary : Bytes                 -- empty if there is none
  publicKey : Option Bytes          -- `pem_public_key`
  addPublicKey : Bool               -- `add_public_key_to_sei`
  hashList : Option Bytes           -- `none` if `list_idx` is -1, else the first `list_idx` bytes
  frameLevel : Bool                 -- `authenticity_level == SV_AUTHENTICITY_LEVEL_FRAME`
  encodingStatus : UInt8
  hashType : UInt8                  -- `signature_hash_type`
  signature : Bytes                 -- `signature[0 .. signature_size)`
  maxSignature : Nat                -- `max_signature_size`
  oid : Bytes                       -- encoded OID of the hash algorithm
  recurrent : Bool                  -- `has_recurrent_data`
  axis : Bytes                      -- value written by the vendor encoder, see `Model/Axis.lean`
deriving DecidableEq, Repr

/-- `encode_general`, size computation (`signed_video_tlv.c` 216-246). -/
def sizeGeneral (e : EncState) : Nat :=
  1 + 4 + 2 + 3 + 1 + (if e.timestamp.isSome then 8 else 0) + e.hashSize * 2

/-- `encode_general`, bytes written (`signed_video_tlv.c` 258-297), before emulation prevention. -/
def valGeneral (e : EncState) : Bytes :=
  [3] ++ be32 (e.gopCounter + 1) ++ be16 e.numNalus
    ++ [e.codeVersion.1, e.codeVersion.2.1, e.codeVersion.2.2]
    ++ [if e.timestamp.isSome then 1 else 0]
    ++ (match e.timestamp with | some t => be64 t.toUInt64 | none => [])
    ++ e.linkedHash.take e.hashSize ++ e.gopHash.take e.hashSize

/-- Size byte of one product info string (`signed_video_tlv.c` 411-415 and the four repetitions):
`strlen + 1`, or 1 for NULL, saturated at 255. -/
def strSize (s : Option Bytes) : Nat :=
  let n := match s with | some x => x.length + 1 | none => 1
  if n > 255 then 255 else n

/-- One product info string as written (`signed_video_tlv.c` 457-467 and repetitions): the size byte, all
but the last character, and the last character, which is NUL if the string is too long or NULL and
otherwise `str[size - 1]`, the terminating NUL. -/
def valStr (s : Option Bytes) : Bytes :=
  UInt8.ofNat (strSize s) ::
    ((match s with | some x => x.take (strSize s - 1) | none => []) ++
      [match s with
       | some x => if x.length + 1 > 255 then 0 else (x ++ [0]).getD (strSize s - 1) 0
       | none => 0])

/-- `encode_product_info`, size (`signed_video_tlv.c` 407-449). -/
def sizeProduct (p : ProductInfo) : Nat :=
  1 + (1 + strSize p.hardwareId) + (1 + strSize p.firmwareVersion) + (1 + strSize p.serialNumber)
    + (1 + strSize p.manufacturer) + (1 + strSize p.address)

/-- `encode_product_info`, bytes (`signed_video_tlv.c` 451-512). -/
def valProduct (p : ProductInfo) : Bytes :=
  [1] ++ valStr p.hardwareId ++ valStr p.firmwareVersion ++ valStr p.serialNumber
    ++ valStr p.manufacturer ++ valStr p.address

/-- `encode_arbitrary_data` (`signed_video_tlv.c` 575-602). -/
def sizeArbitrary (e : EncState) : Nat := if e.arbitrary.length = 0 then 0 else 1 + e.arbitrary.length
def valArbitrary (e : EncState) : Bytes := if e.arbitrary.length = 0 then [] else 1 :: e.arbitrary

/-- `encode_public_key` (`signed_video_tlv.c` 644-688). -/
def sizePublicKey (e : EncState) : Nat :=
  match e.publicKey, e.addPublicKey with
  | some k, true => 1 + k.length
  | _, _ => 0
def valPublicKey (e : EncState) : Bytes :=
  match e.publicKey, e.addPublicKey with
  | some k, true => 2 :: k
  | _, _ => []

/-- `encode_hash_list` (`signed_video_tlv.c` 763-799): nothing if `list_idx <= 0` or GOP level. -/
def sizeHashList (e : EncState) : Nat :=
  match e.hashList with
  | some l => if l.length = 0 || !e.frameLevel then 0 else 1 + l.length
  | none => 0
def valHashList (e : EncState) : Bytes :=
  match e.hashList with
  | some l => if l.length = 0 || !e.frameLevel then [] else 1 :: l
  | none => []

/-- `encode_signature` (`signed_video_tlv.c` 839-891).  The C code truncates `signature_size` to 16 bits;
the loops then write `(uint16_t)signature_size` bytes of signature and pad with 1 up to
`max_signature_size`. -/
def sizeSignature (e : EncState) : Nat := 1 + 1 + 1 + 2 + e.maxSignature
def valSignature (e : EncState) : Bytes :=
  let n := UInt16.ofNat e.signature.length
  [1, e.encodingStatus, e.hashType] ++ be16 n ++ e.signature.take n.toNat
    ++ List.replicate (e.maxSignature - n.toNat) 1

/-- `encode_crypto_info` (`signed_video_tlv.c` 952-992). -/
def sizeCrypto (e : EncState) : Nat := if e.oid.length = 0 then 0 else 2 + e.oid.length
def valCrypto (e : EncState) : Bytes :=
  if e.oid.length = 0 then [] else 1 :: UInt8.ofNat e.oid.length :: e.oid

/-- `tlv.encoder(self, NULL)`: value size of a tag. -/
def valueSize (e : EncState) (t : UInt8) : Nat :=
  if t = tagGeneral then sizeGeneral e
  else if t = tagPublicKey then sizePublicKey e
  else if t = tagProductInfo then sizeProduct e.product
  else if t = tagHashList then sizeHashList e
  else if t = tagSignature then sizeSignature e
  else if t = tagArbitrary then sizeArbitrary e
  else if t = tagCrypto then sizeCrypto e
  else if t = tagAxis then e.axis.length
  else 0

/-- `tlv.encoder(self, data_ptr)`: value bytes of a tag, before emulation prevention. -/
def valueBytes (e : EncState) (t : UInt8) : Bytes :=
  if t = tagGeneral then valGeneral e
  else if t = tagPublicKey then valPublicKey e
  else if t = tagProductInfo then valProduct e.product
  else if t = tagHashList then valHashList e
  else if t = tagSignature then valSignature e
  else if t = tagArbitrary then valArbitrary e
  else if t = tagCrypto then valCrypto e
  else if t = tagAxis then e.axis
  else []

/-- State change of the encoders when they write: `encode_general` stores the incremented counter
(`signed_video_tlv.c` 299); `encode_hash_list` sets the hash type (796). -/
def afterWrite (e : EncState) (t : UInt8) : EncState :=
  if t = tagGeneral then { e with gopCounter := e.gopCounter + 1 }
  else if t = tagHashList && sizeHashList e != 0 then { e with hashType := 1 }
  else e

/-- The tag and length field written by `tlv_encode_or_get_size_generic` (`signed_video_tlv.c`
1104-1110) for a value of size `n`; the length is cut to one or two bytes. -/
def tlvHeader (tu : Tuple) (n : Nat) : Bytes :=
  tu.tag :: ((if tu.lenBytes = 2 then [UInt8.ofNat (n / 256)] else []) ++ [UInt8.ofNat n])

/-- `tlv_encode_or_get_size_generic` with `data == NULL` (`signed_video_tlv.c` 1086-1099). -/
def tlvSize (e : EncState) (tu : Tuple) : Nat :=
  let v := valueSize e tu.tag
  if v = 0 then 0 else 1 + tu.lenBytes + v

/-- `tlv_encode_or_get_size_generic` with `data != NULL` (`signed_video_tlv.c` 1101-1121).  Returns the
bytes stored, the register and the session.  The function returns 0 if fewer bytes than announced were
written; then nothing counts as written. -/
def tlvWrite (epb : Bool) (e : EncState) (s : L2) (tu : Tuple) : Bytes × L2 × EncState :=
  if valueSize e tu.tag = 0 then ([], s, e)
  else
    let (h, s1) := writeBytes epb s (tlvHeader tu (valueSize e tu.tag))
    let (v, s2) := writeBytes epb s1 (valueBytes e tu.tag)
    if v.length < valueSize e tu.tag then ([], s2, afterWrite e tu.tag)
    else (h ++ v, s2, afterWrite e tu.tag)

/-- Whether a tag of a list is encoded at all (`signed_video_tlv.c` 1136-1143). -/
def tagSelected (e : EncState) (t : UInt8) : Bool :=
  (getTuple t).tag == t && ((getTuple t).alwaysPresent || e.recurrent)

/-- `tlv_list_encode_or_get_size` with `data == NULL` (`signed_video_tlv.c` 1124-1151). -/
def tlvListSize (e : EncState) : List UInt8 → Nat
  | [] => 0
  | t :: ts => (if tagSelected e t then tlvSize e (getTuple t) else 0) + tlvListSize e ts

/-- `tlv_list_encode_or_get_size` with `data != NULL` (`signed_video_tlv.c` 1124-1151). -/
def tlvListWrite (epb : Bool) (e : EncState) (s : L2) : List UInt8 → Bytes × L2 × EncState
  | [] => ([], s, e)
  | t :: ts =>
    if tagSelected e t then
      let (o, s1, e1) := tlvWrite epb e s (getTuple t)
      let (os, s2, e2) := tlvListWrite epb e1 s1 ts
      (o ++ os, s2, e2)
    else tlvListWrite epb e s ts

/-! ### Decoding -/

/-- The OpenSSL functions used while decoding, taken as parameters:
`openssl_set_hash_algo_by_encoded_oid` followed by `openssl_get_hash_size`
(`signed_video_openssl.c` 430-505) and `openssl_public_key_malloc`. -/
structure CryptoEnv where
  oidHashSize : Bytes → Option Nat
  keyOk : Bytes → Bool

/-- The members of `signed_video_t` written by the decoders. -/
structure DecState where
  gopCounter : UInt32 := 0              -- `global_gop_counter`
  numSent : UInt16 := 0                 -- `num_sent_nalus`
  codeVersion : UInt8 × UInt8 × UInt8 := (0, 0, 0)
  hasTimestamp : Bool := false
  timestamp : Int64 := 0
  latestHasTimestamp : Bool := false    -- `latest_validation->has_timestamp`
  latestTimestamp : Int64 := 0
  linkedHash : Bytes := []              -- `received_linked_hash`, the bytes copied last
  gopHash : Bytes := []                 -- `received_gop_hash`
  product : ProductInfo := {}
  arbitrary : Bytes := []
  publicKey : Bytes := []               -- `pem_public_key`, empty if NULL
  hasPublicKey : Bool := false
  keyChanged : Bool := false            -- `latest_validation->public_key_has_changed`
  hashList : Bytes := []                -- `hash_list[0 .. list_idx)`
  signature : Bytes := []               -- `signature[0 .. signature_size)`
  maxSignature : Option Nat := none     -- `none` as long as no memory is allocated
  encodingStatus : UInt8 := 0
  hashType : UInt8 := 0
  oid : Bytes := []
  hashAlgoKnown : Bool := false
  hashSize : Nat := 32                  -- `verify_data->hash_size`
deriving DecidableEq, Repr

/-- `decode_general` (`signed_video_tlv.c` 305-382).  `received_linked_hash` and `received_gop_hash` have
64 bytes; copying more is a buffer overflow.  `data_size` smaller than what has been read wraps around
and copies beyond any buffer. -/
def decGeneral (d : DecState) (mem : Bytes) (size : Nat) : Out DecState := do
  let (version, m) ← rd8 mem
  if version < 1 || version > 3 then .err .incompatibleVersion else
  let (cnt, m) ← rd32 m
  let (num, m) ← rd16 m
  let (v0, m) ← rd8 m
  let (v1, m) ← rd8 m
  let (v2, m) ← rd8 m
  let d := { d with gopCounter := cnt, numSent := num, codeVersion := (v0, v1, v2) }
  let (d, m, read) ← (if version ≥ 2 then do
      let (flags, m) ← rd8 m
      if flags &&& 1 == 1 then
        let (ts, m) ← rd64 m
        let t := ts.toInt64
        .ok ({ d with hasTimestamp := true, timestamp := t, latestHasTimestamp := true,
                      latestTimestamp := t }, m, 19)
      else .ok ({ d with hasTimestamp := false, latestHasTimestamp := false }, m, 11)
    else .ok (d, m, 10) : Out (DecState × Bytes × Nat))
  if version ≥ 3 then
    if size < read then .ub .overread else
    let hs := (size - read) / 2
    let (lh, m) ← rdN hs m
    if hs > 64 then .ub .overflow else
    let (gh, _) ← rdN hs m
    let d := { d with linkedHash := lh, gopHash := gh }
    if read + 2 * hs = size then .ok d else .err .authenticationError
  else if read = size then .ok d else .err .authenticationError

/-- One string of `decode_product_info` (e.g. `signed_video_tlv.c` 531-533): the size byte, the C string at
that position, and a skip by the size. -/
def decStr (mem : Bytes) : Out (Bytes × Bytes × Nat) := do
  let (sz, m) ← rd8 mem
  let s ← rdStr m
  .ok (s, skipN sz.toNat m, 1 + sz.toNat)

/-- `decode_product_info` (`signed_video_tlv.c` 516-571).  The transfer to the report (line 553) copies the
same strings and is not represented. -/
def decProduct (d : DecState) (mem : Bytes) (size : Nat) : Out DecState := do
  let (version, m) ← rd8 mem
  if version = 0 then .err .incompatibleVersion else
  let (hw, m, n1) ← decStr m
  let (fw, m, n2) ← decStr m
  let (sn, m, n3) ← decStr m
  let (mf, m, n4) ← decStr m
  let (ad, _, n5) ← decStr m
  let d := { d with product := ⟨some hw, some fw, some sn, some mf, some ad⟩ }
  if 1 + n1 + n2 + n3 + n4 + n5 = size then .ok d else .err .authenticationError

/-- `decode_arbitrary_data` (`signed_video_tlv.c` 606-640); `arbdata_size = (uint16_t)(data_size - 1)`. -/
def decArbitrary (d : DecState) (mem : Bytes) (size : Nat) : Out DecState := do
  let (version, m) ← rd8 mem
  let n := (size + 65535) % 65536
  if version = 0 then .err .incompatibleVersion
  else if n = 0 then .err .authenticationError
  else
    let (a, _) ← rdN n m
    if 1 + n = size then .ok { d with arbitrary := a } else .err .authenticationError

/-- `decode_public_key` (`signed_video_tlv.c` 693-758) without vendor hook.  If the stored key has another
size it is replaced by zeros before the comparison (line 718-723). -/
def decPublicKey (env : CryptoEnv) (d : DecState) (mem : Bytes) (size : Nat) : Out DecState := do
  let (version, m) ← rd8 mem
  let old := version < 2
  let m := if old then skipN 1 m else m
  let n := if old then (size + 65534) % 65536 else (size + 65535) % 65536
  let skipped := if old then 2 else 1
  if version = 0 then .err .incompatibleVersion
  else if n = 0 then .err .authenticationError
  else
    let (k, _) ← rdN n m
    let cur := if d.publicKey.length = n then d.publicKey else List.replicate n 0
    let d := { d with
      keyChanged := d.keyChanged || (d.hasPublicKey && (k != cur)),
      publicKey := k, hasPublicKey := true }
    if !env.keyOk k then .err .externalError
    else if skipped + n = size then .ok d else .err .authenticationError

/-- `HASH_LIST_SIZE` = 64 * 300 (`signed_video_internal.h`). -/
def hashListCap : Nat := 64 * 300

/-- `decode_hash_list` (`signed_video_tlv.c` 803-835). A `data_size` of 0 wraps around to a value larger than
`HASH_LIST_SIZE`. -/
def decHashList (d : DecState) (mem : Bytes) (size : Nat) : Out DecState := do
  let (version, m) ← rd8 mem
  if version = 0 then .err .incompatibleVersion
  else if size = 0 || size - 1 > hashListCap then .err .memory
  else
    let (l, _) ← rdN (size - 1) m
    .ok { d with hashList := l }

/-- `decode_signature` (`signed_video_tlv.c` 895-948). A `data_size` below 5 wraps around; the allocation of that
size fails, or the size differs from the one allocated: `SV_MEMORY` in both cases. -/
def decSignature (d : DecState) (mem : Bytes) (size : Nat) : Out DecState := do
  let (version, m) ← rd8 mem
  let (status, m) ← rd8 m
  let (ht, m) ← rd8 m
  let (sz, m) ← rd16 m
  if version = 0 then .err .incompatibleVersion
  else if ht ≥ 2 then .err .authenticationError
  else if size < 5 then .err .memory
  else
    let mx := size - 5
    if mx < sz.toNat then .err .authenticationError
    else if d.maxSignature.getD mx ≠ mx then .err .memory
    else
      let (sg, _) ← rdN mx m
      .ok { d with maxSignature := some mx, signature := sg.take sz.toNat,
                   encodingStatus := status, hashType := ht }

/-- `decode_crypto_info` (`signed_video_tlv.c` 996-1034); the printable name made in lines 1003-1005 is not represented,
and so its read of the identifier is left out for version 0. -/
def decCrypto (env : CryptoEnv) (d : DecState) (mem : Bytes) (size : Nat) : Out DecState := do
  let (version, m) ← rd8 mem
  let (n, m) ← rd8 m
  if version = 0 then .err .incompatibleVersion
  else if n = 0 then .err .authenticationError
  else
    let (oid, _) ← rdN n.toNat m
    match env.oidHashSize oid with
    | none => .err .externalError
    | some hs =>
      let d := { d with oid := oid, hashAlgoKnown := true, hashSize := hs }
      if 2 + n.toNat = size then .ok d else .err .authenticationError

/-- `get_decoder(tag)(self, data, length)` (`signed_video_tlv.c` 183-194, 1199-1200).  The decoder of
`UNDEFINED_TAG` is a NULL pointer.  Tag 129 is the vendor tag; this model follows a build without vendors
(`signed_video_tlv.c` 1065-1072), the vendor record is modelled in `Model/Axis.lean`. -/
def decValue (env : CryptoEnv) (t : UInt8) (d : DecState) (mem : Bytes) (size : Nat) : Out DecState :=
  if t = 1 then decGeneral d mem size
  else if t = 2 then decPublicKey env d mem size
  else if t = 3 then decProduct d mem size
  else if t = 4 then decHashList d mem size
  else if t = 5 then decSignature d mem size
  else if t = 6 then decArbitrary d mem size
  else if t = 7 then decCrypto env d mem size
  else if t = 129 then .err .notSupported
  else .ub .nullCall

/-- `decode_tlv_header` (`signed_video_tlv.c` 1153-1178): tag, length, number of bytes read.  Tag 0 passes the
check because `get_tlv_tuple` returns the row of `UNDEFINED_TAG` for it. -/
def decHeader (mem : Bytes) : Out (UInt8 × Nat × Nat) := do
  let (t, m) ← rd8 mem
  if (getTuple t).tag ≠ t then .err .invalidParameter
  else if (getTuple t).lenBytes = 2 then do
    let (n, _) ← rd16 m
    .ok (t, n.toNat, 3)
  else do
    let (n, _) ← rd8 m
    .ok (t, n.toNat, 2)

/-- The loop of `tlv_decode` (`signed_video_tlv.c` 1188-1206); `size` is the distance from the pointer to
`data + data_size` (0 if it is past it), `mem` the readable memory from the pointer on. -/
def tlvLoop (env : CryptoEnv) : (fuel : Nat) → DecState → Bytes → Nat → Out DecState
  | 0, d, _, _ => .ok d
  | fuel + 1, d, mem, size =>
    if size = 0 then .ok d else do
      let (t, n, h) ← decHeader mem
      let d' ← decValue env t d (mem.drop h) n
      tlvLoop env fuel d' ((mem.drop h).drop n) (size - h - n)

/-- `tlv_decode` (`signed_video_tlv.c` 1180-1209).  Every round consumes at least two bytes, so `size` rounds
are enough (`tlvLoop_fuel` in `Proofs/Tlv.lean`). -/
def tlvDecode (env : CryptoEnv) (d : DecState) (mem : Bytes) (size : Nat) : Out DecState :=
  if size = 0 then .err .invalidParameter else tlvLoop env size d mem size

/-- The loop of `tlv_find_tag` (`signed_video_tlv.c` 1220-1239).  `off` is the distance of the pointer from
`tlv_data`; the result is the offset of the tag.  `none` inside `ok` is "not found". -/
def findTagLoop (epb : Bool) (tag : UInt8) (size : Nat) :
    (fuel : Nat) → L2 → Bytes → Nat → Out (Option Nat)
  | 0, _, _, _ => .ok none
  | fuel + 1, s, mem, off =>
    if off ≥ size then .ok none else
    match readByte epb s mem with
    | none => .ub .overread
    | some (t, s1, m1) =>
      if t = tag then .ok (some off) else
      match readByte epb s1 m1 with
      | none => .ub .overread
      | some (l0, s2, m2) =>
        if (getTuple t).lenBytes = 2 then
          match readByte epb s2 m2 with
          | none => .ub .overread
          | some (l1, s3, m3) =>
            match readMany epb s3 (l0.toNat * 256 + l1.toNat) m3 with
            | none => .ub .overread
            | some (_, s4, m4) =>
              findTagLoop epb tag size fuel s4 m4 (off + (mem.length - m4.length))
        else
          match readMany epb s2 l0.toNat m2 with
          | none => .ub .overread
          | some (_, s4, m4) =>
            findTagLoop epb tag size fuel s4 m4 (off + (mem.length - m4.length))

/-- `tlv_find_tag` (`signed_video_tlv.c` 1211-1243). -/
def findTag (mem : Bytes) (size : Nat) (tag : UInt8) (epb : Bool) : Out (Option Nat) :=
  if size = 0 then .ok none else findTagLoop epb tag size size L2.init mem 0

/-- The loop of `tlv_find_and_decode_optional_tags` (`signed_video_tlv.c` 1256-1276).  For the vendor tag the
table `tlv_tuples` is indexed with 129, which is outside of it (line 1266).  Returns whether an optional tag
was decoded and the session; an error ends the loop but keeps what has been decoded. -/
def optLoop (env : CryptoEnv) : (fuel : Nat) → DecState → Bool → Bytes → Nat → Out (Bool × DecState)
  | 0, d, f, _, _ => .ok (f, d)
  | fuel + 1, d, f, mem, size =>
    if size = 0 then .ok (f, d) else
    match decHeader mem with
    | .ub u => .ub u
    | .err _ => .ok (f, d)
    | .ok (t, n, h) =>
      if t ≥ 9 then .ub .oobIndex
      else if (getTuple t).alwaysPresent then
        optLoop env fuel d f ((mem.drop h).drop n) (size - h - n)
      else
        match decValue env t d (mem.drop h) n with
        | .ub u => .ub u
        | .err _ => .ok (f, d)
        | .ok d' => optLoop env fuel d' true ((mem.drop h).drop n) (size - h - n)

/-- `tlv_find_and_decode_optional_tags` (`signed_video_tlv.c` 1245-1279).  Simplification: an optional tag whose
decoder fails may already have changed members; the model keeps the state from before that tag. -/
def findOptional (env : CryptoEnv) (d : DecState) (mem : Bytes) (size : Nat) : Out (Bool × DecState) :=
  if size = 0 then .ok (false, d) else optLoop env size d false mem size

end SV
