import Verif.Model.Auth
/-!
The vendor code of Axis: `/repo/lib/vendors/axis-communications/sv_vendor_axis_communications.c` (called `axis.c` below),
and what a build with `SV_VENDOR_AXIS_COMMUNICATIONS` adds to the validating session.

OpenSSL is a parameter: reading PEM certificates, verifying a chain, the members of a certificate, SHA-256, verifying a
signature, and the type and the encoded point of a public key.  Allocations succeed.
-/
namespace SV

/-- What the code reads of an X.509 certificate: the common name and the serial number of the subject in UTF-8, empty if
it cannot be converted, and the public key. -/
structure AxCert where
  name : Option Bytes
  serial : Option Bytes
  key : Option Bytes
  ec : Bool                 -- the public key is of type `EVP_PKEY_EC`
deriving DecidableEq, Repr

/-- What the vendor code depends on. -/
structure AxEnv where
  auth : AuthEnv
  /-- The certificates that `PEM_read_bio_X509` reads from a string, up to the first failure. -/
  pem : Bytes → List AxCert
  /-- `verify_certificate_chain` (`axis.c` 144-180) accepts the certificates with the root certificate of Axis. -/
  chainOk : List AxCert → Bool
  /-- `sscanf(pos, "%2hhx", …)`. -/
  scan : Bytes → Option UInt8
  sha256 : Bytes → Bytes
  /-- `EVP_DigestVerify` with the key of the certificate, a signature and data: 1 for success, 0 for failure, negative for
  an error. -/
  verify : Bytes → Bytes → Bytes → Int32
  /-- The public key (PEM) is of type `EVP_PKEY_EC`. -/
  keyEc : Bytes → Bool
  /-- `EVP_PKEY_get_group_name`. -/
  keyGroup : Bytes → Option Bytes
  /-- `EVP_PKEY_get1_encoded_public_key`, empty if it fails. -/
  keyPoint : Bytes → Bytes

/-- `struct attestation_report` (`axis.c` 88-107); the signature is the first `signature_size` bytes of its buffer. -/
structure AttReport where
  header : Bytes := [0, 0]
  version : Bytes := [0, 0]
  objectId : Bytes := [0, 0, 0, 0]
  listLength : Nat := 0
  timestamp : Bytes := List.replicate 12 0
  signature : Bytes := []
deriving DecidableEq, Repr

/-- `SERIAL_NUMBER_UNKNOWN` (`axis.c` 46). -/
def serialUnknown : Bytes := [0x55, 0x6e, 0x6b, 0x6e, 0x6f, 0x77, 0x6e]

/-- `sv_vendor_axis_communications_t` (`axis.c` 110-128) after `sv_vendor_axis_communications_setup` (476-505).  The
certificate chain is the allocated memory without the terminating NUL. -/
structure Axis where
  attestation : Option Bytes := none
  chain : Option Bytes := none
  md : Option Bytes := none                -- `md_ctx`: the key of the certificate
  chip : Bytes := List.replicate 18 0      -- `chip_id`
  report : AttReport := {}
  pub : Option Nat := none                 -- `public_key`: the address of a key context
  validation : Int32 := -1                 -- `public_key_validation`
  serial : Bytes := serialUnknown          -- `serial_number`
deriving DecidableEq, Repr

/-- A C string in a buffer. -/
def cstr (b : Bytes) : Bytes := b.takeWhile (· ≠ 0)

/-- `strstr`: the string from the first occurrence on. -/
def strstr (pat : Bytes) : Bytes → Option Bytes
  | [] => if pat = [] then some [] else none
  | b :: r => if pat.isPrefixOf (b :: r) then some (b :: r) else strstr pat r

/-- "Axis Edge Vault Attestation " (`axis.c` 45). -/
def chipMarker : Bytes :=
  [0x41, 0x78, 0x69, 0x73, 0x20, 0x45, 0x64, 0x67, 0x65, 0x20, 0x56, 0x61, 0x75, 0x6c, 0x74, 0x20, 0x41, 0x74, 0x74, 0x65,
    0x73, 0x74, 0x61, 0x74, 0x69, 0x6f, 0x6e, 0x20]

/-- "-----BEGIN CERTIFICATE-----" (`axis.c` 541). -/
def beginCert : Bytes :=
  [0x2d, 0x2d, 0x2d, 0x2d, 0x2d, 0x42, 0x45, 0x47, 0x49, 0x4e, 0x20, 0x43, 0x45, 0x52, 0x54, 0x49, 0x46, 0x49, 0x43, 0x41,
    0x54, 0x45, 0x2d, 0x2d, 0x2d, 0x2d, 0x2d]

/-- `kAttributes` (`axis.c` 69-72). -/
def attributes : Bytes :=
  [0x7b, 0x00, 0x02, 0x01, 0x29, 0x01, 0x00, 0x00, 0x7b, 0x00, 0x00, 0x03, 0x00, 0x00, 0x08, 0x7b, 0x00, 0x00, 0x03, 0x1f,
    0x3c, 0x00, 0x00, 0x08, 0x00, 0x00, 0x00, 0x00, 0x00, 0x20, 0x00, 0x00, 0x02, 0x00, 0x00, 0x00, 0x00]

/-- `kFreshness` (`axis.c` 75-76). -/
def freshness : Bytes :=
  [0x92, 0xbb, 0xed, 0xfb, 0x98, 0x82, 0xac, 0x16, 0xc7, 0xf0, 0x1a, 0xe4, 0x59, 0x05, 0x96, 0x04]

/-- "Axis Communications AB" (`signed_video_h26x_auth.c` 810, `signed_video_tlv.c` 736). -/
def axisName : Bytes :=
  [0x41, 0x78, 0x69, 0x73, 0x20, 0x43, 0x6f, 0x6d, 0x6d, 0x75, 0x6e, 0x69, 0x63, 0x61, 0x74, 0x69, 0x6f, 0x6e, 0x73, 0x20,
    0x41, 0x42]

/-- "prime256v1", `SN_X9_62_prime256v1`. -/
def p256Name : Bytes := [0x70, 0x72, 0x69, 0x6d, 0x65, 0x32, 0x35, 0x36, 0x76, 0x31]

namespace Axis

/-- The loop that reads the chip ID (`axis.c` 254-256): a byte that cannot be converted is kept. -/
def scanChip (env : AxEnv) (pos chip : Bytes) : Bytes :=
  (List.range 18).map fun i => (env.scan (pos.drop (2 * i))).getD (chip.getD i 0)

/-- The checks of `verify_and_parse_certificate_chain` (`axis.c` 213-287): the handle with chip ID and serial number, and
the public key of the attestation certificate.  `strcpy` of the serial number writes to 20 bytes. -/
def readChain (env : AxEnv) (a : Axis) (chain : Bytes) : Res Axis Bytes :=
  let certs := (env.pem (cstr chain)).take 3
  if certs.length > 2 then .err a .vendorError
  else if !env.chainOk certs then .err a .vendorError
  else match certs with
    | [] => .ub .nullDeref
    | c :: _ =>
      match c.name with
      | none => .err a .vendorError
      | some cn =>
        if cn = [] then .err a .externalError
        else match strstr chipMarker (cstr cn) with
          | none => .err a .vendorError
          | some p =>
            let pos := p.drop chipMarker.length
            if pos.length ≠ 36 then .err a .vendorError
            else
              let a := { a with chip := scanChip env pos a.chip }
              if a.chip.take 4 ≠ [0x04, 0x00, 0x50, 0x01] then .err a .vendorError
              else match c.serial with
                | none => .err a .vendorError
                | some sn =>
                  if sn = [] then .err a .externalError
                  else if cstr sn ≠ a.serial ∧ (cstr sn).length ≥ 20 then .ub .overflow
                  else
                    let a := { a with serial := cstr sn }
                    match c.key with
                    | none => .err a .externalError
                    | some k => if c.ec then .ok a k else .err a .vendorError

/-- `verify_and_parse_certificate_chain` (`axis.c` 190-298). -/
def verifyChain (env : AxEnv) (a : Axis) : Res Axis Unit :=
  match a.chain with
  | none => .err a .invalidParameter
  | some chain =>
    match a.readChain env chain with
    | .ok a k => .ok { a with md := some k } ()
    | .err a e => .err { a with md := none, serial := serialUnknown } e
    | .ub u => .ub u

/-- `deserialize_attestation` (`axis.c` 310-356).  The buffer of the signature has 512 bytes. -/
def deserialize (a : Axis) : Res Axis Unit :=
  match a.attestation with
  | none => .err a .vendorError
  | some m =>
    if m.length < 24 then .err a .vendorError
    else if m.getD 8 0 ≠ 1 then .err a .vendorError
    else
      let n := (m.getD 21 0).toNat * 256 + (m.getD 22 0).toNat
      let a := { a with report := { a.report with
        header := m.take 2, version := (m.drop 2).take 2, objectId := (m.drop 4).take 4, listLength := (m.getD 8 0).toNat
        timestamp := (m.drop 9).take 12 } }
      if 23 + n ≠ m.length then .err a .vendorError
      else if n > 512 then .ub .overflow
      else .ok { a with report := { a.report with signature := (m.drop 23).take n } } ()

/-- `binary_raw_data` (`axis.c` 399-406). -/
def rawData : Bytes :=
  [0x80, 0x22, 0x00, 0x00, 0x00, 0x00, 0x21, 0x41, 0x04] ++ attributes.take 4 ++
  [0x45, 0x04, 0xf0, 0x00, 0x00, 0x12, 0x46, 0x01, 0x21, 0x47, 0x10] ++ freshness

/-- `signed_data` (`axis.c` 411-454) for a public key, a chip ID and a timestamp. -/
def signedData (env : AxEnv) (point chip timestamp : Bytes) : Bytes :=
  env.sha256 rawData ++ [0x41, 0x82, 0x00, 0x41] ++ point ++ [0x42, 0x82, 0x00, 0x12] ++ chip ++
  [0x43, 0x82, 0x00, 0x25] ++ attributes ++ [0x44, 0x82, 0x00, 0x02, 0x00, 0x20, 0x4f, 0x82, 0x00, 0x0c] ++ timestamp

/-- `verify_axis_communications_public_key` (`axis.c` 371-472).  `live` is the key context that exists at present, with
its address and the key; any other address is one of a context that has been freed. -/
def verifyKey (env : AxEnv) (a : Axis) (live : Option (Nat × Bytes)) : Res Axis Unit :=
  match a.md with
  | none => .err a .vendorError
  | some k =>
    match a.pub with
    | none => .err a .notSupported
    | some p =>
      match live with
      | none => .ub .useAfterFree
      | some (q, key) =>
        if p ≠ q then .ub .useAfterFree
        else if (env.keyPoint key).length ≠ 65 then .err a .vendorError
        else if (env.keyPoint key).head? ≠ some 4 then .err a .vendorError
        else
          let v := env.verify k a.report.signature (signedData env (env.keyPoint key) a.chip a.report.timestamp)
          if v < 0 then .err a .externalError
          else .ok { a with validation := a.validation &&& v } ()

/-- `get_axis_communications_supplemental_authenticity` (`axis.c` 724-755). -/
def supplemental (env : AxEnv) (a : Axis) (live : Option (Nat × Bytes)) : Res Axis Unit :=
  match (a.verifyChain env).andThen fun a _ => a.deserialize.andThen fun a _ => a.verifyKey env live with
  | .err a .vendorError => .ok { a with validation := 0, serial := serialUnknown } ()
  | r => r

/-- `set_axis_communications_public_key` (`axis.c` 671-722) with the key context just created. -/
def setKey (env : AxEnv) (a : Axis) (addr : Nat) (key : Bytes) (changed : Bool) : Res Axis Unit :=
  if a.validation = 0 then .ok a ()
  else
    let a := if changed && a.pub.isSome then { a with validation := 0 } else a
    if !env.keyEc key then .ok { a with pub := some addr, validation := 0 } ()
    else match env.keyGroup key with
      | none => .err { a with pub := none, validation := 0 } .externalError
      | some g =>
        if g = p256Name then .ok { a with pub := some addr } ()
        else .err { a with pub := none, validation := 0 } .vendorError

/-- The search for the last certificate (`axis.c` 540-544); `left` markers are still to be found. -/
def findCert : (left : Nat) → Bytes → Option Bytes
  | 0, p => some p
  | 1, p => strstr beginCert p
  | left + 2, p =>
    match strstr beginCert p with
    | none => none
    | some q => findCert (left + 1) (q.drop 1)

/-- `get_untrusted_certificates_size` (`axis.c` 530-553). -/
def untrustedSize (chain : Bytes) : Nat :=
  match findCert 3 (cstr chain) with
  | none => 0
  | some q => (cstr chain).length - q.length

/-- The value written by `encode_axis_communications_handle` (`axis.c` 555-600), before emulation prevention. -/
def encode (a : Axis) : Bytes :=
  match a.attestation, a.chain with
  | some m, some c => [1, UInt8.ofNat m.length] ++ m ++ c.take (untrustedSize c)
  | _, _ => []

/-- `decode_axis_communications_handle` (`axis.c` 603-669).  `mem` is the readable memory from the value on.  `memcmp`
requires that both areas have the given length (C17 7.24.4.1); the stored chain ends with a NUL. -/
def decode (a : Axis) (mem : Bytes) (size : Nat) : Res Axis Unit :=
  match rd8 mem with
  | .ub u => .ub u
  | .err e => .err a e
  | .ok (version, m) =>
    if version ≠ 1 then .err a .incompatibleVersion
    else match rd8 m with
      | .ub u => .ub u
      | .err e => .err a e
      | .ok (n, m) =>
        if n = 0 then .err a .notSupported
        else
          let r : Res Axis Unit :=
            match a.attestation with
            | some b =>
              if b.length ≠ n.toNat then .err a .notSupported
              else match rdN n.toNat m with
                | .ub u => .ub u
                | .err e => .err a e
                | .ok (x, _) => if x = b then .ok a () else .err a .notSupported
            | none =>
              match rdN n.toNat m with
              | .ub u => .ub u
              | .err e => .err a e
              | .ok (x, _) => .ok { a with attestation := some x } ()
          r.andThen fun a _ =>
            if size ≤ n.toNat + 2 then .err a .authenticationError
            else match rdN (size - n.toNat - 2) (m.drop n.toNat) with
              | .ub u => .ub u
              | .err e => .err a e
              | .ok (c, _) =>
                match a.chain with
                | none => .ok { a with chain := some c } ()
                | some d =>
                  if c.length > d.length + 1 then .ub .overread
                  else if (d ++ [0]).take c.length = c then .ok a () else .err a .notSupported

/-- `sv_vendor_axis_communications_set_attestation_report` (`axis.c` 759-830); `attestation` is the readable memory at the
given pointer and `chain` a C string.  Error codes are given only for the state they leave. -/
def setAttestation (a : Axis) (attestation : Option Bytes) (size : UInt8) (chain : Option Bytes) : Res Axis Unit :=
  if attestation = none ∧ chain = none then .err a .invalidParameter
  else if (attestation ≠ none ∧ size = 0) ∨ (attestation = none ∧ size > 0) then .err a .invalidParameter
  else
    let old := a
    let r : Res Axis Unit :=
      match attestation with
      | none => .ok a ()
      | some m =>
        if a.attestation ≠ none then .err a .notSupported
        else match rdN size.toNat m with
          | .ub u => .ub u
          | .err e => .err a e
          | .ok (x, _) => .ok { a with attestation := some x } ()
    r.andThen fun a _ =>
      match chain with
      | none => .ok a ()
      | some c =>
        if a.chain ≠ none then .err a .notSupported
        else if cstr c = [] then .err old .memory
        else
          let c := cstr c
          .ok { a with chain := some (if c.getLast? = some 10 then c else c ++ [10]) } ()

end Axis

/-- A validating session of a build with the vendor: `v.key` is the key in the context `verify_data->key`, `addr` its
address, `brk` the next address. -/
structure AxSession where
  v : Validator
  ax : Axis := {}
  addr : Nat := 0
  brk : Nat := 1
deriving DecidableEq, Repr

/-- What the session does with the vendor. A SEI is decoded by a sequence of `value`; the order of the events is free, so
every history of a session is included. -/
inductive AxEvent
  | newSei                                              -- the SEI is decoded next (`signed_video_h26x_auth.c` 793)
  | value (tag : UInt8) (mem : Bytes) (size : Nat)      -- one decoder of `tlv_decode` or of the optional tags
  | userKey (k : Bytes)                                 -- `signed_video_set_public_key`
  | attestation (a : Option Bytes) (size : UInt8) (chain : Option Bytes)
  | check                                               -- the vendor part of `prepare_for_validation`
  | clear                                               -- `latest_validation_init`
deriving DecidableEq, Repr

namespace AxSession

/-- The live key context. -/
def live (s : AxSession) : Option (Nat × Bytes) := s.v.key.map fun k => (s.addr, k)

/-- `latest_validation->public_key_validation`. -/
def verdict (s : AxSession) : KeyVal := s.v.rep.latest.keyVal

/-- Set `latest_validation->public_key_validation`. -/
def setVerdict (s : AxSession) (k : KeyVal) : AxSession :=
  { s with v := { s.v with rep := { s.v.rep with latest := { s.v.rep.latest with keyVal := k } } } }

/-- The manufacturer is Axis. -/
def isAxis (s : AxSession) : Bool := s.v.d.product.manufacturer == some axisName

/-- `decode_product_info` (`signed_video_tlv.c` 516-571): the strings are stored before the length is checked. -/
def decProduct (s : AxSession) (mem : Bytes) (size : Nat) : Res AxSession Unit :=
  match rd8 mem with
  | .ub u => .ub u
  | .err e => .err s e
  | .ok (version, m) =>
    if version = 0 then .err s .incompatibleVersion
    else
      let strings : Out (ProductInfo × Nat) := do
        let (hw, m, n1) ← decStr m
        let (fw, m, n2) ← decStr m
        let (sn, m, n3) ← decStr m
        let (mf, m, n4) ← decStr m
        let (ad, _, n5) ← decStr m
        .ok (⟨some hw, some fw, some sn, some mf, some ad⟩, n1 + n2 + n3 + n4 + n5)
      match strings with
      | .ub u => .ub u
      | .err e => .err s e
      | .ok (p, n) =>
        let s := { s with v := { s.v with d := { s.v.d with product := p } } }
        if 1 + n = size then .ok s () else .err s .authenticationError

/-- `decode_public_key` (`signed_video_tlv.c` 693-758) with the vendor hook (732-741): a new context is created, the old
one is freed (`signed_video_openssl.c` 181-184), and the new one is given to the vendor if the manufacturer is Axis. -/
def decPublicKey (env : AxEnv) (s : AxSession) (mem : Bytes) (size : Nat) : Res AxSession Unit :=
  match s.v.decPublicKey env.auth mem size with
  | .ub u => .ub u
  | .err v e => .err { s with v := v } e
  | .ok v _ =>
    let s := { s with v := v, addr := s.brk, brk := s.brk + 1 }
    if s.isAxis then
      match s.ax.setKey env s.addr (v.key.getD []) v.rep.latest.keyChanged with
      | .ub u => .ub u
      | .err a e => .err { s with ax := a } e
      | .ok a _ => .ok { s with ax := a } ()
    else .ok s ()

/-- A decoder of the build with the vendor. -/
def decTag (env : AxEnv) (s : AxSession) (t : UInt8) (mem : Bytes) (size : Nat) : Res AxSession Unit :=
  if t = tagPublicKey then s.decPublicKey env mem size
  else if t = tagProductInfo then s.decProduct mem size
  else if t = tagAxis then
    match s.ax.decode mem size with
    | .ub u => .ub u
    | .err a e => .err { s with ax := a } e
    | .ok a _ => .ok { s with ax := a } ()
  else match s.v.decTag env.auth t mem size with
    | .ub u => .ub u
    | .err v e => .err { s with v := v } e
    | .ok v _ => .ok { s with v := v } ()

/-- The vendor part of `prepare_for_validation` (`signed_video_h26x_auth.c` 806-833). -/
def check (env : AxEnv) (s : AxSession) : Res AxSession Unit :=
  if !s.isAxis then .ok s ()
  else match s.ax.supplemental env s.live with
    | .ub u => .ub u
    | .err a e => .err { s with ax := a } e
    | .ok a _ =>
      match s.v.d.product.serialNumber with
      | none => .ub .nullDeref
      | some sn =>
        .ok (setVerdict { s with ax := a } (if sn ≠ a.serial then .notOk else if a.validation = 1 then .ok
          else if a.validation = 0 then .notOk else .notFeasible)) ()

/-- `signed_video_set_public_key` (`signed_video_h26x_auth.c` 1218-1240): the vendor is not told. -/
def userKey (env : AxEnv) (s : AxSession) (k : Bytes) : Res AxSession Unit :=
  match s.v.setPublicKey env.auth k with
  | .ub u => .ub u
  | .err v e => .err { s with v := v } e
  | .ok v _ => .ok { s with v := v, addr := s.brk, brk := s.brk + 1 } ()

/-- One event. -/
def event (env : AxEnv) (s : AxSession) : AxEvent → Res AxSession Unit
  | .newSei => .ok { s with v := { s.v with rep := { s.v.rep with latest := { s.v.rep.latest with keyChanged := false } } } } ()
  | .value t mem size => s.decTag env t mem size
  | .userKey k => s.userKey env k
  | .attestation m n c =>
    match s.ax.setAttestation m n c with
    | .ub u => .ub u
    | .err a e => .err { s with ax := a } e
    | .ok a _ => .ok { s with ax := a } ()
  | .check => s.check env
  | .clear => .ok { s with v := { s.v with rep := { s.v.rep with latest := latestInit } } } ()

/-- A history of events; an error is given to the caller, and the session goes on. -/
def run (env : AxEnv) : AxSession → List AxEvent → Out (AxSession × List (Option Rc))
  | s, [] => .ok (s, [])
  | s, e :: es =>
    match s.event env e with
    | .ub u => .ub u
    | .err s rc => do
      let (s, os) ← run env s es
      .ok (s, some rc :: os)
    | .ok s _ => do
      let (s, os) ← run env s es
      .ok (s, none :: os)

end AxSession
end SV
