import Verif.Model.Report
import Verif.Model.Sign
/-!
The validating session: `/repo/lib/src/signed_video_h26x_auth.c`, with the hash functions and session functions of
`/repo/lib/src/signed_video_h26x_common.c` that it uses.

The model follows a build without vendors (the vendor code is modelled in `Model/Axis.lean`) and a session that is used
for validation only.  Streams of the older format (`/repo/lib/src/legacy`) are recognised, after that the session does
nothing: the old validator is not modelled.  Allocations succeed, except for one of an impossible size in `copyLast`.
-/
namespace SV

/-- What the compiled program does when a signed addition overflows, which is undefined in C.  `strict` reports it,
`wrap` is two's complement, `exact` computes with unbounded integers, as a compiler does that moves a constant to the
other side of a comparison. -/
inductive Overflow | strict | wrap | exact
deriving DecidableEq, Repr

/-- Addition of two `int64_t`. -/
def add64 (o : Overflow) (a b : Int) : Out Int :=
  if -9223372036854775808 ≤ a + b ∧ a + b ≤ 9223372036854775807 then .ok (a + b)
  else match o with
    | .strict => .ub .intOverflow
    | .wrap => .ok ((a + b + 9223372036854775808) % 18446744073709551616 - 9223372036854775808)
    | .exact => .ok (a + b)

/-- What a validating session depends on: OpenSSL, the compiler, and a bound on the number of rounds of the validation
loop. -/
structure AuthEnv where
  /-- `EVP_Digest` with the digest of an encoded OID. -/
  H : Bytes → Bytes → Bytes
  /-- `oid_to_type` (`signed_video_openssl.c` 395-413): `none` if the OID cannot be decoded, otherwise `EVP_MD_size` of
  the digest.  For a well formed OID without a digest the type is NULL and the size becomes `(size_t)-1`; any size above
  `MAX_HASH_SIZE` stands for that. -/
  crypto : CryptoEnv
  /-- Encoded OID of "sha256". -/
  oid : Bytes
  /-- `EVP_PKEY_verify` with a key, a signature and a hash: 1 for success, 0 for failure, negative for an error. -/
  verify : Bytes → Bytes → Bytes → Int
  ov : Overflow
  /-- Rounds of the loop in `maybe_validate_gop`; running out of them stands for a loop that does not end. -/
  rounds : Nat

/-- `validation_flags_t` (`signed_video_internal.h` 79-92) without `hash_algo_known`, which is in the state of the
decoders. -/
structure VFlags where
  hasAuth : Bool := false        -- `has_auth_result`
  first : Bool := true           -- `is_first_validation`
  resetFirst : Bool := false     -- `reset_first_validation`
  signing : Bool := false        -- `signing_present`
  firstSei : Bool := false       -- `is_first_sei`
deriving DecidableEq, Repr

/-- `gop_state_t` (`signed_video_internal.h` 94-104). -/
structure GopState where
  hasSei : Bool := false         -- `has_sei`
  lost : Bool := false           -- `has_lost_sei`
  noEnd : Bool := false          -- `no_gop_end_before_sei`
  transLost : Bool := false      -- `gop_transition_is_lost`
  afterNext : Bool := false      -- `validate_after_next_nalu`
deriving DecidableEq, Repr

/-- The members of `signed_video_t` and `gop_info_t` used for validation (`signed_video_internal.h` 115-260).
`d.linkedHash` and `d.gopHash` are the buffers `received_linked_hash` and `received_gop_hash`, see `Validator.put`. -/
structure Validator where
  codec : Codec
  d : DecState := {}
  list : NList := []
  brk : Nat := 0                              -- next address of a list item
  typ : Bytes                                 -- OID of the digest `hash_algo.type`
  buddies : Bytes := List.replicate 128 0     -- `hash_buddies`
  hasRef : Bool := false                      -- `has_reference_hash`
  primary : Option Bytes := none              -- digest of the primary context, `none` if there is no context
  computed : Bytes := List.replicate 64 0     -- `computed_gop_hash`
  linked : Bytes := List.replicate 128 0      -- `linked_hashes`
  verified : Int := -1                        -- `verified_signature_hash`
  sigHash : Bytes := List.replicate 64 0      -- `verify_data->hash`
  key : Option Bytes := none                  -- `verify_data->key`
  latestGop : UInt32 := 0                     -- `latest_validated_gop`
  synced : Bool := false                      -- `global_gop_counter_is_synced`
  gop : GopState := {}
  flags : VFlags := {}
  rep : Report := reportCreate                -- `authenticity`, its initial value as long as there is none
  hasReport : Bool := false                   -- `authenticity` is not NULL
  started : Bool := false                     -- `authentication_started`
  legacy : Bool := false                      -- `legacy_sv` is not NULL
deriving DecidableEq, Repr

/-- `signed_video_create` (`signed_video_h26x_common.c` 1117-1194) for a validating session. -/
def newValidator (env : AuthEnv) (c : Codec) : Validator :=
  { codec := c, d := { oid := env.oid }, typ := env.oid }

/-- `memcpy` of `new` to the start of a buffer. -/
def ovl (new old : Bytes) : Bytes := new ++ old.drop new.length

/-- The first `n` bytes of a zero initialised buffer to which `b` has been written. -/
def buf (n : Nat) (b : Bytes) : Bytes := (b ++ List.replicate n 0).take n

/-- Write to the item at an address. -/
def NList.set (l : NList) (a : Nat) (f : Item → Item) : NList :=
  l.map fun x => if x.1 = a then (x.1, f x.2) else x

/-- `nalu->is_gop_sei` of an item with NAL unit. -/
def Item.isSei (i : Item) : Bool := match i.nalu with | some n => n.gopSei | none => false

/-- `nalu->is_first_nalu_in_gop` of an item with NAL unit. -/
def Item.isFirst (i : Item) : Bool := match i.nalu with | some n => n.firstInGop | none => false

namespace Validator

/-! ### Decoding -/

/-- The state of the decoders; three of its members are members of the report. -/
def dec (s : Validator) : DecState :=
  { s.d with
    keyChanged := s.rep.latest.keyChanged
    latestHasTimestamp := s.rep.latest.hasTs
    latestTimestamp := Int64.ofInt s.rep.latest.ts }

/-- Store the state of the decoders. The hashes decoded by `decode_general` are copied to the start of the buffers
`received_linked_hash` and `received_gop_hash` (`signed_video_tlv.c` 348-354). -/
def put (s : Validator) (d : DecState) : Validator :=
  { s with
    d := { d with linkedHash := ovl d.linkedHash s.d.linkedHash, gopHash := ovl d.gopHash s.d.gopHash }
    rep := { s.rep with latest := { s.rep.latest with
      keyChanged := d.keyChanged, hasTs := d.latestHasTimestamp, ts := d.latestTimestamp.toInt } } }

/-- The version string of the report written by `decode_general` (`signed_video_tlv.c` 328-334). -/
def putVersion (s : Validator) : Validator :=
  { s with
    rep := { s.rep with
      versionOnSigningSide :=
        versionStr s.d.codeVersion.1.toNat s.d.codeVersion.2.1.toNat s.d.codeVersion.2.2.toNat } }

/-- `decode_general` (`signed_video_tlv.c` 305-382). If the announced length is not the length that was read, all
members have been written before the error. -/
def decGeneral (s : Validator) (mem : Bytes) (size : Nat) : Res Validator Unit :=
  match SV.decGeneral s.dec mem size with
  | .ok d => .ok (s.put d).putVersion ()
  | .ub u => .ub u
  | .err .authenticationError =>
    -- the same reads with the length that would have been accepted
    match (if size = 0 then none else some size), mem.head? with
    | some n, some v =>
      if v ≥ 3 then
        match SV.decGeneral s.dec mem (n - 1) with
        | .ok d => .err (s.put d).putVersion .authenticationError
        | _ => .err s .authenticationError
      else
        match SV.decGeneral s.dec mem (if v = 1 then 10 else if (mem.getD 10 0) &&& 1 == 1 then 19 else 11) with
        | .ok d => .err (s.put d).putVersion .authenticationError
        | _ => .err s .authenticationError
    | _, _ => .err s .authenticationError
  | .err e => .err s e

/-- `decode_public_key` (`signed_video_tlv.c` 693-758) with `openssl_public_key_malloc` (`signed_video_openssl.c`
151-193): the key is stored before it is turned into a context, and the context before the length is checked. -/
def decPublicKey (env : AuthEnv) (s : Validator) (mem : Bytes) (size : Nat) : Res Validator Unit :=
  match SV.decPublicKey { env.crypto with keyOk := fun _ => true } s.dec mem size with
  | .ok d =>
    if env.crypto.keyOk d.publicKey then .ok { s.put d with key := some d.publicKey } ()
    else .err (s.put d) .externalError
  | .err e => .err s e      -- version 0 or no key; the announced length is always the one read, as it fits 16 bits
  | .ub u => .ub u

/-- `decode_crypto_info` (`signed_video_tlv.c` 996-1034) with `openssl_set_hash_algo_by_encoded_oid`
(`signed_video_openssl.c` 475-505): nothing is done if the OID is the one stored; an OID that cannot be decoded is stored
although the digest is kept. -/
def decCrypto (env : AuthEnv) (s : Validator) (mem : Bytes) (size : Nat) : Res Validator Unit :=
  match rd8 mem with
  | .ok (version, m) =>
    match rd8 m with
    | .ok (n, m) =>
      if version = 0 then .err s .incompatibleVersion
      else if n = 0 then .err s .authenticationError
      else
        match rdN n.toNat m with
        | .ok (oid, _) =>
          let r : Res Validator Unit :=
            if oid = s.d.oid then .ok s ()
            else match env.crypto.oidHashSize oid with
              | none => .err { s with d := { s.d with oid := oid } } .externalError
              | some hs => .ok { s with d := { s.d with oid := oid, hashSize := hs }, typ := oid } ()
          r.andThen fun s _ =>
            let s := { s with d := { s.d with hashAlgoKnown := true } }
            if 2 + n.toNat = size then .ok s () else .err s .authenticationError
        | .err e => .err s e
        | .ub u => .ub u
    | .err e => .err s e
    | .ub u => .ub u
  | .err e => .err s e
  | .ub u => .ub u

/-- The strings that `decode_product_info` (`signed_video_tlv.c` 528-555) stores, and hands over to the report, before it
looks at the length: none if the version is 0. -/
def productAt (mem : Bytes) : Option ProductInfo :=
  match rd8 mem with
  | .ok (version, m) =>
    if version = 0 then none else
    match (do
      let (hw, m, _) ← decStr m
      let (fw, m, _) ← decStr m
      let (sn, m, _) ← decStr m
      let (mf, m, _) ← decStr m
      let (ad, _, _) ← decStr m
      .ok ⟨some hw, some fw, some sn, some mf, some ad⟩ : Out ProductInfo) with
    | .ok p => some p
    | _ => none
  | _ => none

/-- What a decoder that fails has changed: `decode_arbitrary_data` forgets the data (`signed_video_tlv.c` 633-637), and
`decode_product_info` has stored the strings (528-555). -/
def failed (s : Validator) (t : UInt8) (mem : Bytes) : Validator :=
  if t = tagArbitrary then { s with d := { s.d with arbitrary := [] } }
  else if t = tagProductInfo then
    match productAt mem with
    | some p => { s with d := { s.d with product := p } }
    | none => s
  else s

/-- A decoder (`signed_video_tlv.c` 183-194 and 125-171). -/
def decTag (env : AuthEnv) (s : Validator) (t : UInt8) (mem : Bytes) (size : Nat) : Res Validator Unit :=
  if t = tagGeneral then s.decGeneral mem size
  else if t = tagPublicKey then s.decPublicKey env mem size
  else if t = tagCrypto then s.decCrypto env mem size
  else match decValue env.crypto t s.dec mem size with
    | .ok d => .ok { s with d := { d with keyChanged := s.d.keyChanged, latestHasTimestamp := s.d.latestHasTimestamp,
                                           latestTimestamp := s.d.latestTimestamp } } ()
    | .err e => .err (s.failed t mem) e
    | .ub u => .ub u

/-- The loop of `tlv_decode` (`signed_video_tlv.c` 1188-1206). -/
def tlvLoop (env : AuthEnv) : (fuel : Nat) → Validator → Bytes → Nat → Res Validator Unit
  | 0, s, _, _ => .ok s ()
  | fuel + 1, s, mem, size =>
    if size = 0 then .ok s () else
    match decHeader mem with
    | .ub u => .ub u
    | .err e => .err s e
    | .ok (t, n, h) =>
      (s.decTag env t (mem.drop h) n).andThen fun s _ =>
        tlvLoop env fuel s ((mem.drop h).drop n) (size - h - n)

/-- `tlv_decode` (`signed_video_tlv.c` 1180-1209). -/
def tlvDecode (env : AuthEnv) (s : Validator) (mem : Bytes) (size : Nat) : Res Validator Unit :=
  if size = 0 then .err s .invalidParameter else tlvLoop env size s mem size

/-- The loop of `tlv_find_and_decode_optional_tags` (`signed_video_tlv.c` 1256-1276). -/
def optLoop (env : AuthEnv) : (fuel : Nat) → Validator → Bool → Bytes → Nat → Res Validator Bool
  | 0, s, f, _, _ => .ok s f
  | fuel + 1, s, f, mem, size =>
    if size = 0 then .ok s f else
    match decHeader mem with
    | .ub u => .ub u
    | .err _ => .ok s f
    | .ok (t, n, h) =>
      if t ≥ 9 then .ub .oobIndex
      else if (getTuple t).alwaysPresent then optLoop env fuel s f ((mem.drop h).drop n) (size - h - n)
      else
        match s.decTag env t (mem.drop h) n with
        | .ub u => .ub u
        | .err s _ => .ok s f
        | .ok s _ => optLoop env fuel s true ((mem.drop h).drop n) (size - h - n)

/-- `tlv_find_and_decode_optional_tags` (`signed_video_tlv.c` 1245-1279). -/
def findOptional (env : AuthEnv) (s : Validator) (mem : Bytes) (size : Nat) : Res Validator Bool :=
  if size = 0 then .ok s false else optLoop env size s false mem size

/-- `detect_lost_sei` (`signed_video_h26x_auth.c` 102-123). -/
def detectLost (env : AuthEnv) (s : Validator) : Res Validator Unit :=
  let diff : Int := (s.d.gopCounter.toNat : Int) - ((s.latestGop + 1).toNat : Int)
  let max : Int := 9223372036854775807
  match add64 env.ov diff max with
  | .ub u => .ub u
  | .err e => .err s e
  | .ok sum =>
    match (if sum < max / 2 then add64 env.ov diff max else .ok diff : Out Int) with
    | .ub u => .ub u
    | .err e => .err s e
    | .ok diff => .ok { s with gop := { s.gop with lost := decide (diff > 0) && s.synced } } ()

/-- `decode_sei_data` (`signed_video_h26x_auth.c` 77-98). -/
def decodeSei (env : AuthEnv) (s : Validator) (mem : Bytes) (size : Nat) : Res Validator Unit :=
  if size = 0 then .ub .assertFail else
  (s.tlvDecode env mem size).andThen fun s _ =>
    (s.detectLost env).andThen fun s _ =>
      .ok (if s.gop.noEnd && s.gop.lost then { s with gop := { s.gop with transLost := true } } else s) ()

/-! ### Hashing -/

/-- `openssl_hash_data` (`signed_video_openssl.c` 317-328). -/
def digest (env : AuthEnv) (s : Validator) (data : Bytes) : Out Bytes :=
  if s.d.hashSize > 64 then .err .invalidParameter else hashData (env.H s.typ) data

/-- `get_hash_wrapper` and the wrappers for complete NAL units (`signed_video_h26x_common.c` 885-1011). Simplification:
the hash is written without regard to the size of the digest; the digest in use has the size `hash_size`. -/
def hashNalu (env : AuthEnv) (s : Validator) (n : Nalu) : Out (Validator × Bytes) := do
  let h ← s.digest env n.hashable
  if n.gopSei then .ok (s, h)
  else if n.firstInGop && !s.hasRef then
    .ok ({ s with buddies := ovl (buf s.d.hashSize h) s.buddies, hasRef := true }, h)
  else do
    let b := s.buddies.take s.d.hashSize ++ ovl h (s.buddies.drop s.d.hashSize)
    let hh ← s.digest env (b.take (2 * s.d.hashSize))
    .ok ({ s with buddies := b }, hh)

/-- `hash_and_add_for_auth` (`signed_video_h26x_common.c` 1056-1114) on the item at an address. -/
def hashItem (env : AuthEnv) (s : Validator) (x : Nat × Item) : Res Validator Unit :=
  match x.2.nalu with
  | none => .err s .invalidParameter
  | some n =>
    if !n.isHashable || !s.d.hashAlgoKnown then .ok s ()
    else match s.hashNalu env n with
      | .ub u => .ub u
      | .err e => .err s e
      | .ok (s, h) =>
        let s := { s with list := s.list.set x.1 fun i => { i with hash := ovl h i.hash } }
        if n.firstInGop || (s.gop.afterNext && !n.gopSei) then
          match hashNalu env { s with hasRef := false } n with
          | .ub u => .ub u
          | .err e => .err { s with hasRef := false } e
          | .ok (s, h) => .ok { s with list := s.list.set x.1 fun i => { i with second := some h } } ()
        else .ok s ()

/-- `remove_used_in_gop_hash` (`signed_video_h26x_auth.c` 724-736). -/
def clearUsed (l : NList) : NList := l.map fun x => (x.1, { x.2 with used := false })

/-- The loop of `prepare_for_link_and_gop_hash_verification` (`signed_video_h26x_auth.c` 205-234): the list with the
items used in the GOP hash marked, and what is hashed. -/
def gopLoop (hs : Nat) (sei : Nat) : NList → (numI num : Nat) → Bytes → Out (NList × Bytes)
  | [], _, _, acc => .ok ([], acc)
  | x :: r, numI, num, acc =>
    if x.2.status ≠ .P then do
      let (r, acc) ← gopLoop hs sei r numI num acc
      .ok (x :: r, acc)
    else match x.2.nalu with
      | none => .ub .nullDeref
      | some n =>
        let numI := numI + (if n.firstInGop then 1 else 0)
        if numI > 1 ∨ (n.firstInGop ∧ num > 0) ∨ x.1 = sei then .ok (x :: r, acc)
        else match (if n.firstInGop then x.2.second else some x.2.hash) with
          | none => .err .invalidParameter
          | some h =>
            if hs = 0 then .err .invalidParameter
            else if hs > 64 then .ub .overread
            else do
              let (r, acc) ← gopLoop hs sei r numI (num + 1) (acc ++ buf hs h)
              .ok ((x.1, { x.2 with used := true }) :: r, acc)

/-- `prepare_for_link_and_gop_hash_verification` (`signed_video_h26x_auth.c` 183-250) with `openssl_init_hash`
(`signed_video_openssl.c` 332-351), which keeps the digest of an existing context. -/
def prepareGopHash (env : AuthEnv) (s : Validator) (sei : Nat) : Res Validator Unit :=
  let fail (s : Validator) : Validator := { s with list := clearUsed s.list }
  if s.primary = none ∧ s.d.hashSize > 64 then .err (fail s) .invalidParameter
  else
    let p := s.primary.getD s.typ
    let s := { s with primary := some p }
    match gopLoop s.d.hashSize sei s.list 0 0 [] with
    | .ub u => .ub u
    | .err e => .err (fail s) e
    | .ok (l, acc) => .ok { s with list := l, computed := ovl (env.H p acc) s.computed } ()

/-- `update_linked_hash` (`signed_video_h26x_common.c` 863-882). -/
def updateLinked (hs : Nat) (l h : Bytes) : Bytes :=
  ((l.drop hs).take hs ++ h).take (2 * hs) ++ l.drop (2 * hs)

/-- `update_link_hash_for_auth` (`signed_video_h26x_auth.c` 160-175). -/
def updateLinkLoop (s : Validator) : NList → Out Validator
  | [] => .ok s
  | x :: r =>
    if !x.2.used then updateLinkLoop s r
    else match x.2.nalu with
      | none => .ub .nullDeref
      | some n =>
        if !n.firstInGop then updateLinkLoop s r
        else if x.2.linked then .ok s
        else
          let linked := match x.2.second with
            | none => s.linked
            | some h => updateLinked s.d.hashSize s.linked (buf s.d.hashSize h)
          .ok { s with linked := linked, list := s.list.set x.1 fun i => { i with linked := true } }

/-! ### Verification -/

/-- `verify_linked_hash` (`signed_video_h26x_auth.c` 129-141). -/
def linkedOk (s : Validator) : Bool :=
  let hs := s.d.hashSize
  buf hs s.linked = List.replicate hs 0 || buf hs s.linked = buf hs s.d.linkedHash

/-- `verify_gop_hash` (`signed_video_h26x_auth.c` 147-154). -/
def gopHashOk (s : Validator) : Bool :=
  buf s.d.hashSize s.computed = buf s.d.hashSize s.d.gopHash

/-- The loop of `verify_hashes_without_sei` (`signed_video_h26x_auth.c` 562-583): the list, the number of marked items
and `found_next_gop`. -/
def markLoop : NList → Out (NList × Nat × Bool)
  | [] => .ok ([], 0, false)
  | x :: r =>
    if x.2.status ≠ .P then do
      let (l, k, f) ← markLoop r
      .ok (x :: l, k, f)
    else match x.2.nalu with
      | none => .ub .nullDeref
      | some n =>
        if n.gopSei then .ok (x :: r, 0, false)
        else
          let x := (x.1, { x.2 with status := .N })
          match r with
          | [] => .ok ([x], 1, false)
          | y :: t =>
            match y.2.nalu with
            | none => .ub .nullDeref
            | some m =>
              if m.firstInGop && !y.2.linked then .ok (x :: y :: t, 1, true)
              else do
                let (l, k, f) ← markLoop (y :: t)
                .ok (x :: l, k + 1, f)

/-- `verify_hashes_without_sei` (`signed_video_h26x_auth.c` 549-590). -/
def withoutSei (s : Validator) : Res Validator Bool :=
  match markLoop s.list with
  | .ub u => .ub u
  | .err e => .err s e
  | .ok (l, k, f) =>
    .ok { s with list := l,
                 latestGop := if s.flags.signing && decide (k > 0) then s.latestGop + 1 else s.latestGop } f

/-- `h26x_nalu_list_add_missing` (`signed_video_h26x_nalu_list.c` 370-403) next to the item at an address. -/
def addMissing (s : Validator) (n : Int) (app : Bool) (item : Nat) : Validator :=
  if n < 0 then s
  else { s with list := insertMissing s.list missingItem s.brk n.toNat app item, brk := s.brk + n.toNat }

/-- Loop variables of `verify_hashes_with_hash_list` (`signed_video_h26x_auth.c` 309-321). -/
structure Match where
  invalid : Nat := 0             -- `num_invalid_nalus_since_latest_match`
  count : Nat := 0               -- `num_verified_hashes`
  latest : Int := -1             -- `latest_match_idx`
  compare : Int := 0             -- `compare_idx`
  lastUsed : Option Nat := none  -- `last_used_item`
  orderOk : Bool
  brk : Nat
deriving DecidableEq, Repr

/-- The inner loop of `verify_hashes_with_hash_list` (`signed_video_h26x_auth.c` 352-377): the index of the first hash
from `i` on that equals `h`, or the number of hashes. -/
def searchFrom (h : Bytes) (hashes : List Bytes) (i : Nat) : Nat :=
  i + ((hashes.drop i).takeWhile fun e => e ≠ h).length

/-- `hash_list[0 .. list_idx)` cut into `list_idx / hash_size` hashes (`signed_video_h26x_auth.c` 273-276). -/
def chunk (hs : Nat) (l : Bytes) : List Bytes :=
  (List.range (l.length / hs)).map fun i => (l.drop (i * hs)).take hs

/-- The outer loop of `verify_hashes_with_hash_list` (`signed_video_h26x_auth.c` 324-389); `prev` is the address of the
previous item.  Missing items are put before the item they are detected at. -/
def hashListLoop (hs : Nat) (hashes : List Bytes) (sei : Nat) : NList → (prev : Option Nat) → Match → Out (NList × Match)
  | [], _, m => .ok ([], m)
  | x :: r, prev, m =>
    if x.2.status ≠ .P ∨ x.2.used = false then do
      let (l, m) ← hashListLoop hs hashes sei r (some x.1) m
      .ok (x :: l, m)
    else match x.2.nalu with
      | none => .ub .assertFail
      | some n =>
        let afterSei := prev = some sei
        let nextGop := n.firstInGop && !x.2.linked
        let m := { m with lastUsed := some x.1 }
        if n.gopSei || nextGop then .ok (x :: r, m)
        else match (if n.firstInGop then x.2.second else some x.2.hash) with
          | none => .ub .nullDeref
          | some h =>
            let start := (m.latest + 1).toNat
            let i := searchFrom (buf hs h) hashes start
            let found := i < hashes.length
            let miss : Int := (i - m.latest) - 1 - m.invalid
            let k := if found then miss.toNat else 0
            let x := (x.1, { x.2 with status := if found ∧ m.orderOk then .ok else .N })
            let new := (List.range' m.brk k).map fun a => (a, missingItem)
            let m := if found then
                { m with count := m.count + 1, latest := i, compare := i, invalid := 0, orderOk := true, brk := m.brk + k }
              else { m with count := m.count + 1, compare := i, invalid := m.invalid + 1 }
            if afterSei then .ok (new ++ x :: r, m)
            else do
              let (l, m) ← hashListLoop hs hashes sei r (some x.1) m
              .ok (new ++ x :: l, m)

/-- `verify_hashes_with_hash_list` (`signed_video_h26x_auth.c` 265-428) for a verified signature (it is only called
then): success, expected and received. -/
def withHashList (s : Validator) (orderOk : Bool) : Res Validator (Bool × Int × Int) :=
  if s.d.hashSize = 0 then .ub .assertFail else
  match nextSei s.list with
  | none => .ok s (false, -1, -1)
  | some sei =>
    let hashes := chunk s.d.hashSize s.d.hashList
    match hashListLoop s.d.hashSize hashes sei.1 s.list none { orderOk := orderOk, brk := s.brk } with
    | .ub u => .ub u
    | .err e => .err s e
    | .ok (l, m) =>
      let s := { s with list := l, brk := m.brk }
      let s := if m.latest = -1 then
          match s.list with
          | [] => s
          | f :: _ => s.addMissing (hashes.length - m.invalid) f.2.second.isSome f.1
        else s
      let s := if m.latest ≠ m.compare then s
        else match m.lastUsed with
          | none => s
          | some a => s.addMissing (hashes.length - 1 - m.latest) true a
      .ok { s with list := s.list.set sei.1 fun i => { i with status := .ok } } (true, hashes.length, m.count)

/-- The loop of `set_validation_status_of_pending_items_used_in_gop_hash` (`signed_video_h26x_auth.c` 445-453): the
list and the number of marked items other than SEIs. -/
def setStatusLoop (st : Status) : NList → Out (NList × Nat)
  | [] => .ok ([], 0)
  | x :: r =>
    if x.2.used && decide (x.2.status = .P) then
      match x.2.nalu with
      | none => .ub .nullDeref
      | some n => do
        let (l, k) ← setStatusLoop st r
        .ok ((x.1, { x.2 with status := st }) :: l, if n.gopSei then k else k + 1)
    else do
      let (l, k) ← setStatusLoop st r
      .ok (x :: l, k)

/-- The status of the item at an address, if there is one. -/
def statusAt (l : NList) (a : Nat) : Option Status := (l.find? fun x => x.1 = a).map fun x => x.2.status

/-- `set_validation_status_of_pending_items_used_in_gop_hash` (`signed_video_h26x_auth.c` 433-462). -/
def setStatus (s : Validator) (st : Status) (sei : Option Nat) : Res Validator Int :=
  match sei with
  | none => .ok s (-1)
  | some a =>
    match setStatusLoop st s.list with
    | .ub u => .ub u
    | .err e => .err s e
    | .ok (l, k) =>
      if statusAt l a = some .P then
        if s.verified = 1 then .ok { s with list := l.set a fun i => { i with status := .ok } } k
        else .ub .assertFail
      else .ok { s with list := l } k

/-- The second half of `verify_hashes_with_sei` (`signed_video_h26x_auth.c` 518-540). The function returns
`status == SV_OK` with a `status` that is never set, hence false. -/
def withSeiRest (s : Validator) (st : Status) (sei : Option Nat) (expected : Int) : Res Validator (Bool × Int × Int) :=
  let f := s.list.find? fun x => x.2.used
  (s.setStatus st sei).andThen fun s received =>
    match f with
    | none => .ok s (false, expected, received)
    | some x =>
      if s.flags.first then .ok s (false, expected, received)
      else match x.2.nalu with
        | none => .ub .nullDeref
        | some n => .ok (s.addMissing (expected - received) n.firstInGop x.1) (false, expected, received)

/-- `verify_hashes_with_sei` (`signed_video_h26x_auth.c` 483-541): success, expected and received. -/
def withSei (s : Validator) : Res Validator (Bool × Int × Int) :=
  let sei := (nextSei s.list).map (·.1)
  if s.verified = 1 then
    let ok := s.gopHashOk && s.linkedOk
    if !ok && decide (s.d.hashList.length > 0) then s.withHashList s.linkedOk
    else s.withSeiRest (if ok then .ok else .N) sei s.d.numSent.toNat
  else
    match sei with
    | none => .ub .nullDeref
    | some a =>
      if s.verified = 0 then
        withSeiRest { s with list := s.list.set a fun i => { i with status := .N } } .N sei (-1)
      else
        (withoutSei { s with list := clearUsed (s.list.set a fun i => { i with status := .E }) }).andThen fun s ok =>
          .ok s (ok, -1, -1)

/-- The verdict of one GOP from the statistics of the list (`signed_video_h26x_auth.c` 655-690), before the first
validation is handled. -/
def judge (st : Stats) (first : Bool) (expected : Int) (success : Bool) : Auth :=
  let v := if st.invalid > 0 then Auth.notOk else .ok
  let v := if !first && decide (v = .ok) && decide (expected > 1) && decide ((st.missing : Int) ≥ expected)
    then .notOk else v
  if v = .ok ∧ st.missing > 0 ∧ success = true then .okWithMissing else v

/-- How a verdict enters the latest validation (`signed_video_h26x_auth.c` 705-714). -/
def worse (old new : Auth) : Auth :=
  if old.val ≤ Auth.signaturePresent.val then new else if new.val < old.val then new else old

/-- The verdict of one GOP with the first validation taken into account (`signed_video_h26x_auth.c` 655-690). -/
def verdict (st : Stats) (first : Bool) (p : Bool × Int × Int) : Auth :=
  let v := judge st first p.2.1 p.1
  if first ∧ v = .ok ∧ st.hasValid = false then .signaturePresent else v

/-- The members of the latest validation written at the end of `validate_authenticity` (`signed_video_h26x_auth.c`
700-721). -/
def concludeLatest (l : Latest) (lost : Bool) (v : Auth) (expected received : Int) : Latest :=
  let v := if l.keyChanged then .notOk else v
  { l with
    auth := worse l.auth v
    received := l.received + received
    expected := if lost then -1 else if l.expected ≠ -1 then l.expected + expected else l.expected }

/-- The choice of the verification (`signed_video_h26x_auth.c` 631-643): success, expected and received. -/
def verifyGop (s : Validator) : Res Validator (Bool × Int × Int) :=
  if s.gop.lost && !s.gop.transLost then s.withoutSei.andThen fun s ok => .ok s (ok, -1, -1)
  else s.withSei.andThen fun s p => .ok { s with latestGop := s.d.gopCounter } p

/-- The part of `validate_authenticity` after the verification (`signed_video_h26x_auth.c` 645-721). If the first
validation is not OK, it is taken back. -/
def conclude (s : Validator) (p : Bool × Int × Int) : Validator :=
  let st := getStats s.list
  let v := verdict st s.flags.first p
  let retry := s.flags.first && decide (v ≠ .ok)
  { s with
    list := if retry then removeMissing (clearUsed s.list) else clearUsed s.list
    synced := if s.flags.first then decide (v = .ok) else true
    flags := if retry then { s.flags with resetFirst := decide (s.d.numSent = 1) } else s.flags
    rep := { s.rep with
      latest := concludeLatest s.rep.latest s.gop.lost (if retry then .signaturePresent else v)
        (if retry then -1 else p.2.1) (if retry then -1 else p.2.2) } }

/-- `validate_authenticity` (`signed_video_h26x_auth.c` 614-722). The counters of the report are `int`; their overflow
is not modelled. -/
def validate (s : Validator) : Res Validator Unit :=
  s.verifyGop.andThen fun s p => .ok (s.conclude p) ()

/-! ### When to validate -/

/-- `openssl_verify_hash` (`signed_video_openssl.c` 284-313). -/
def verifyHash (env : AuthEnv) (s : Validator) : Res Validator Unit :=
  if s.d.maxSignature = none ∨ s.d.signature = [] then .err { s with verified := -1 } .invalidParameter
  else match s.key with
    | none => .err { s with verified := -1 } .invalidParameter
    | some k => .ok { s with verified := env.verify k s.d.signature (buf s.d.hashSize s.sigHash) } ()

/-- The part of `prepare_for_validation` that decodes the oldest pending SEI (`signed_video_h26x_auth.c` 789-801). -/
def decodeNext (env : AuthEnv) (s : Validator) (x : Nat × Item) : Res Validator Unit :=
  if x.2.decoded then .ok s ()
  else
    let hs := s.d.hashSize
    let s := { s with rep := { s.rep with latest := { s.rep.latest with keyChanged := false } } }
    match x.2.nalu with
    | none => .ub .nullDeref
    | some n =>
      (s.decodeSei env n.tlvMem n.tlvSize).andThen fun s _ =>
        let s := { s with list := s.list.set x.1 fun i => { i with decoded := true } }
        if hs > 64 then .ub .overflow
        else .ok { s with sigHash := ovl (buf hs x.2.hash) s.sigHash } ()

/-- `prepare_for_validation` (`signed_video_h26x_auth.c` 776-844) without vendors. -/
def prepare (env : AuthEnv) (s : Validator) : Res Validator Unit :=
  let r : Res Validator Unit :=
    match nextSei s.list with
    | none => .ok s ()
    | some x =>
      (s.decodeNext env x).andThen fun s _ =>
        (s.detectLost env).andThen fun s _ => s.prepareGopHash env x.1
  r.andThen fun s _ =>
    if s.flags.signing && !s.d.hasPublicKey then .err s .notSupported
    else if s.gop.hasSei then s.verifyHash env
    else .ok s ()

/-- `prepare_golden_sei` (`signed_video_h26x_auth.c` 741-765) on the last item of the list. -/
def prepareGolden (env : AuthEnv) (s : Validator) (a : Nat) (n : Nalu) : Res Validator Unit :=
  (s.decodeSei env n.tlvMem n.tlvSize).andThen fun s _ =>
    let s := { s with list := s.list.set a fun i => { i with decoded := true } }
    match s.list.find? fun x => x.1 = a with
    | none => .ub .nullDeref
    | some x =>
      (s.hashItem env x).andThen fun s _ =>
        match s.list.find? fun x => x.1 = a with
        | none => .ub .nullDeref
        | some x =>
          if s.d.hashSize > 64 then .ub .overflow
          else
            let s := { s with sigHash := ovl (buf s.d.hashSize x.2.hash) s.sigHash, gop := { s.gop with hasSei := true } }
            s.prepare env

/-- The loop of `is_recurrent_data_decoded` (`signed_video_h26x_auth.c` 856-864). -/
def recurrentLoop (env : AuthEnv) : NList → Validator → Res Validator Bool
  | [], s => .ok s false
  | x :: r, s =>
    match x.2.nalu with
    | some n =>
      if n.gopSei && decide (x.2.status = .P) then
        (s.findOptional env n.tlvMem n.tlvSize).andThen fun s f =>
          if f then .ok s true else recurrentLoop env r s
      else recurrentLoop env r s
    | none => recurrentLoop env r s

/-- `is_recurrent_data_decoded` (`signed_video_h26x_auth.c` 847-867). -/
def recurrentDecoded (env : AuthEnv) (s : Validator) : Res Validator Bool :=
  if s.d.hasPublicKey || !s.flags.signing then .ok s true else recurrentLoop env s.list s

/-- Loop variables of `has_pending_gop` (`signed_video_h26x_auth.c` 875-882). -/
structure Scan where
  hasSei : Bool := false        -- `gop_state->has_sei`
  last : Option Bool := none    -- `last_hashable_item`: NULL or its `is_gop_sei`
  ends : Nat := 0               -- `num_pending_gop_ends`
  sei : Bool := false           -- `found_pending_gop_sei`
  after : Bool := false         -- `found_pending_nalu_after_gop_sei`
  found : Bool := false         -- `found_pending_gop`
deriving DecidableEq, Repr

/-- The body of the loop of `has_pending_gop` (`signed_video_h26x_auth.c` 888-907) with `gop_state_update`
(`signed_video_h26x_common.c` 788-796). -/
def scanStep (signing : Bool) (c : Scan) (i : Item) : Scan :=
  let c := match i.nalu with
    | none => c
    | some n =>
      let c := if n.valid ≤ 0 ∨ n.isHashable = false then c else { c with hasSei := c.hasSei || n.gopSei }
      if i.status = Status.P ∧ n.isHashable = true then
        { c with
          ends := c.ends + (if n.firstInGop then 1 else 0)
          sei := c.sei || n.gopSei
          after := c.after || c.last.getD false
          last := some n.gopSei }
      else c
  { c with found := c.found || (if signing then decide (c.ends > 0) && c.sei else decide (c.ends ≥ 2)) || c.after }

/-- The loop of `has_pending_gop` (`signed_video_h26x_auth.c` 887-908). -/
def scan (signing : Bool) : NList → Scan → Scan
  | [], c => c
  | x :: r, c => if c.found then c else scan signing r (scanStep signing c x.2)

/-- `has_pending_gop` (`signed_video_h26x_auth.c` 870-915). -/
def hasPending (s : Validator) : Validator × Bool :=
  let c := scan s.flags.signing s.list {}
  ({ s with gop := { hasSei := c.hasSei, afterNext := !c.found && c.last.getD false,
                     noEnd := c.after && decide (c.ends < 2) } }, c.found)

/-- `validation_is_feasible` (`signed_video_h26x_auth.c` 924-938). -/
def feasible (i : Item) : Bool :=
  match i.nalu with
  | none => false
  | some n => !n.golden && n.isHashable && decide (i.status = .P) && (n.gopSei || n.firstInGop)

/-- The latest validation is initialised by the first round (`signed_video_h26x_auth.c` 1003-1011). -/
def begin (s : Validator) : Validator :=
  if s.flags.hasAuth then s
  else { s with rep := { s.rep with latest := { s.rep.latest with
    auth := .signaturePresent, expected := 0, received := 0, pending := -1 } } }

/-- The end of a round (`signed_video_h26x_auth.c` 1026-1035). -/
def finish (s : Validator) : Validator :=
  { s with
    verified := -1
    flags := { s.flags with first := !s.flags.signing, hasAuth := true }
    rep := { s.rep with latest := { s.rep.latest with pending := numPending s.list } } }

/-- The validation in a round (`signed_video_h26x_auth.c` 1018-1025). -/
def conduct (s : Validator) : Res Validator Unit :=
  if s.flags.signing then s.validate
  else .ok { s with rep := { s.rep with latest := { s.rep.latest with auth := .notSigned } } } ()

/-- One round of the loop of `maybe_validate_gop` (`signed_video_h26x_auth.c` 1002-1036), after `has_pending_gop`. -/
def round (env : AuthEnv) (s : Validator) : Res Validator Unit :=
  (s.begin.prepare env).andThen fun s _ =>
    match updateLinkLoop s s.list with
    | .ub u => .ub u
    | .err e => .err s e
    | .ok s => s.conduct.andThen fun s _ => .ok s.finish ()

/-- The loop of `maybe_validate_gop` (`signed_video_h26x_auth.c` 1000-1036). Without signing a forced stop follows the
first round; `has_pending_gop` is called once more before the flag is looked at. -/
def rounds (env : AuthEnv) : Nat → Validator → Res Validator Unit
  | 0, _ => .ub .diverge
  | k + 1, s =>
    if s.hasPending.2 then
      (s.hasPending.1.round env).andThen fun s _ =>
        if s.flags.signing then rounds env k s else .ok s.hasPending.1 ()
    else .ok s.hasPending.1 ()

/-- The part of `maybe_validate_gop` for a first SEI that cannot be validated yet (`signed_video_h26x_auth.c`
963-993). -/
def firstSei (s : Validator) (n : Nalu) (last : Nat) : Validator :=
  let s :=
    if n.golden then
      let st : Status := if s.verified = 1 then .ok else if s.verified = 0 then .N else .E
      let s := { s with list := s.list.set last fun i => { i with status := st } }
      if s.verified = 1 then
        { s with rep := { s.rep with latest := { s.rep.latest with auth := .signaturePresent } } }
      else
        { s with rep := { s.rep with latest := { s.rep.latest with auth := .notOk } }, d := { s.d with hasPublicKey := false } }
    else
      { s with rep := { s.rep with latest := { s.rep.latest with auth := .signaturePresent, keyChanged := false } } }
  { s with
    rep := { s.rep with latest := { s.rep.latest with expected := -1, received := -1, pending := numPending s.list } }
    flags := { s.flags with hasAuth := true } }

/-- `maybe_validate_gop` (`signed_video_h26x_auth.c` 942-1042). -/
def maybeValidate (env : AuthEnv) (s : Validator) (n : Nalu) : Res Validator Unit :=
  if s.legacy then .ok s ()
  else match s.list.getLast? with
    | none => .ub .nullDeref
    | some x =>
      (s.recurrentDecoded env).andThen fun s ok =>
        if !(feasible x.2 && ok) then
          .ok (if s.flags.firstSei then s.firstSei n x.1 else s) ()
        else s.rounds env env.rounds

/-! ### Adding NAL units -/

/-- `register_nalu` (`signed_video_h26x_auth.c` 1068-1078) on the last item. -/
def register (env : AuthEnv) (s : Validator) (a : Nat) (n : Nalu) : Res Validator Unit :=
  if n.valid < 0 then .ub .assertFail
  else if n.valid = 0 then .ok s ()
  else match updateHashable n with
    | .ub u => .ub u
    | .err e => .err s e
    | .ok n =>
      let s := { s with list := s.list.set a fun i => { i with nalu := some n } }
      match s.list.find? fun x => x.1 = a with
      | none => .ub .nullDeref
      | some x => s.hashItem env x

/-- `reregister_nalus` (`signed_video_h26x_auth.c` 1081-1118) without legacy validation; `st` is the status returned if
there is nothing to hash. The loop runs over the list as it is when the function is called; hashing does not change the
items still to come. -/
def reregister (env : AuthEnv) : NList → Validator → Option Rc → Res Validator Unit
  | [], s, none => .ok s ()
  | [], s, some e => .err s e
  | x :: r, s, st =>
    match x.2.nalu with
    | none => .ub .nullDeref
    | some n =>
      if n.valid ≤ 0 then reregister env r s st
      else (s.hashItem env x).andThen fun s _ => reregister env r s none

/-- The part of `signed_video_add_h26x_nalu` for the first SEI with recurrent data (`signed_video_h26x_auth.c`
1149-1168). -/
def hashAlgoBlock (env : AuthEnv) (s : Validator) (a : Nat) (n : Nalu) : Res Validator Unit :=
  if s.d.hashAlgoKnown || !s.flags.signing then .ok s ()
  else (s.recurrentDecoded env).andThen fun s ok =>
    if !ok then .ok s ()
    else
      let s := { s with d := { s.d with hashAlgoKnown := true } }
      let r : Res Validator Unit := if n.golden then s.prepareGolden env a n else .ok s ()
      r.andThen fun s _ =>
        if n.reserved &&& 0x30 == 0 && !n.golden then
          .ok { s with legacy := true, rep := { s.rep with acc := accumulatedInit } } ()
        else reregister env s.list s (some .unknownFailure)

/-- `h26x_nalu_list_copy_last_item` (`signed_video_h26x_nalu_list.c` 306-367) on the last item with a NAL unit. The
bytes to hash are kept if the hash algorithm is not known; the offset computed for them in line 324 is between different
allocations if emulation prevention bytes were removed from a SEI, and what it leads to is read later. -/
def copyNalu (known : Bool) (n : Nalu) : Out (Option Nalu) :=
  if n.tlvSize ≥ 2 ^ 63 then .ok none
  else if n.tlvSize > n.tlvMem.length then .ub .overread
  else if !known && n.isHashable && n.gopSei && decide (n.epbs > 0) && !n.withEpb then .ub .overread
  else .ok (some { n with
    hashable := if !known && n.isHashable then n.hashable else []
    tlvMem := n.tlvMem.take n.tlvSize, tlvStart := [] })

/-- `h26x_nalu_list_copy_last_item` (`signed_video_h26x_nalu_list.c` 306-367): the status. -/
def copyLast (s : Validator) : Res Validator (Option Rc) :=
  match (s.list.reverse.find? fun x => x.2.nalu.isSome) with
  | none => .ub .nullDeref
  | some x =>
    match x.2.nalu with
    | none => .ub .nullDeref
    | some n =>
      match copyNalu s.d.hashAlgoKnown n with
      | .ub u => .ub u
      | .err e => .err s e
      | .ok c =>
        .ok { s with list := s.list.set x.1 fun i => { i with nalu := c, taken := true } }
          (if c.isSome then none else some .memory)

/-- The body of `signed_video_add_h26x_nalu` between `SV_TRY` and `SV_CATCH` (`signed_video_h26x_auth.c` 1140-1171)
without the first check. -/
def addBody (env : AuthEnv) (s : Validator) (n : Nalu) : Res Validator Unit :=
  let a := s.brk
  let s := { s with list := s.list.append a (newItem (some n)), brk := a + 1 }
  if n.valid < 0 then .err s .unknownFailure
  else
    let s := { s with flags := { s.flags with
      firstSei := !s.flags.signing && n.gopSei, signing := s.flags.signing || n.gopSei } }
    (s.register env a n).andThen fun s _ =>
      (s.hashAlgoBlock env a n).andThen fun s _ => s.maybeValidate env n

/-- Give the last item the status 'E' (`signed_video_h26x_auth.c` 1180). -/
def markLast (s : Validator) : Validator :=
  match s.list.getLast? with
  | none => s
  | some x => { s with list := s.list.set x.1 fun i => { i with status := .E } }

/-- The end of `signed_video_add_h26x_nalu` (`signed_video_h26x_auth.c` 1174-1184). -/
def addEnd (s : Validator) (e : Option Rc) : Res Validator Unit :=
  s.copyLast.andThen fun s e2 =>
    match (match e with | some e => some e | none => e2) with
    | none => .ok s ()
    | some e => .err s.markLast e

/-- `signed_video_add_h26x_nalu` (`signed_video_h26x_auth.c` 1125-1185). -/
def addH26x (env : AuthEnv) (s : Validator) (data : Bytes) : Res Validator Unit :=
  if data = [] then .err s .invalidParameter
  else if s.legacy then .ok s ()
  else match parseNalu data s.codec true true with
    | .ub u => .ub u
    | .err e => .err s e
    | .ok n =>
      let s := { s with
        flags := { s.flags with hasAuth := false }
        rep := { s.rep with acc := { s.rep.acc with received := s.rep.acc.received + 1 } } }
      match s.addBody env n with
      | .ub u => .ub u
      | .err s e => s.addEnd (some e)
      | .ok s _ => s.addEnd none

/-- The report of `signed_video_add_nalu_and_authenticate` (`signed_video_h26x_auth.c` 1204-1209). -/
def report (s : Validator) : Res Validator (Option Report) :=
  if s.flags.hasAuth then
    match updateReport s.rep s.list with
    | .ub u => .ub u
    | .err e => .err s e
    | .ok (r, l) =>
      let p := getReport r l.length
      .ok { s with rep := { p.1 with latest := { p.1.latest with hasTs := false } }, list := l } (some p.2)
  else .ok s none

/-- `signed_video_add_nalu_and_authenticate` (`signed_video_h26x_auth.c` 1187-1216), with a report requested.  The call
of the legacy validator is left out; without it `legacy_sv_add_nalu_and_authenticate` does nothing. -/
def add (env : AuthEnv) (s : Validator) (data : Bytes) : Res Validator (Option Report) :=
  if data = [] then .err s .invalidParameter
  else
    let s := { s with started := true, hasReport := true }
    (s.addH26x env data).andThen fun s _ => if s.legacy then .ok s none else s.report

/-- `signed_video_set_public_key` (`signed_video_h26x_auth.c` 1218-1240). -/
def setPublicKey (env : AuthEnv) (s : Validator) (k : Bytes) : Res Validator Unit :=
  if k = [] then .err s .invalidParameter
  else if s.d.publicKey ≠ [] then .err s .notSupported
  else if s.started then .err s .notSupported
  else
    let s := { s with d := { s.d with publicKey := k } }
    if env.crypto.keyOk k then .ok { s with key := some k, d := { s.d with hasPublicKey := true } } ()
    else .err s .externalError

/-- `signed_video_reset` (`signed_video_h26x_common.c` 1196-1227) with `gop_info_reset` (255-262), as far as a validating
session is concerned; the context initialised at the end is not used by it. -/
def reset (s : Validator) : Validator :=
  { s with
    verified := -1, d := { s.d with hashList := [], hashAlgoKnown := false }, hasRef := false, synced := false
    gop := {}, flags := {}, rep := { s.rep with latest := latestInit, acc := accumulatedInit }, list := []
    linked := List.replicate 128 0 }

end Validator

/-- A call made by the user of a validating session. -/
inductive AuthCall
  | nalu (data : Bytes)     -- `signed_video_add_nalu_and_authenticate`
  | reset                   -- `signed_video_reset`
  | publicKey (k : Bytes)   -- `signed_video_set_public_key`
deriving DecidableEq, Repr

/-- The effect of one call. -/
def authCall (env : AuthEnv) (s : Validator) : AuthCall → Res Validator (Option Report)
  | .nalu d => s.add env d
  | .reset => .ok s.reset none
  | .publicKey k => (s.setPublicKey env k).andThen fun s _ => .ok s none

/-- What the user sees of a call: the return code (`none` is `SV_OK`) and the report. -/
structure AObs where
  rc : Option Rc := none
  report : Option Report := none
deriving DecidableEq, Repr

/-- One call with its observation. -/
def authStep (env : AuthEnv) (s : Validator) (c : AuthCall) : Out (Validator × AObs) :=
  match authCall env s c with
  | .ok s r => .ok (s, ⟨none, r⟩)
  | .err s e => .ok (s, ⟨some e, none⟩)
  | .ub u => .ub u

/-- A sequence of calls. -/
def authRun (env : AuthEnv) : Validator → List AuthCall → Out (Validator × List AObs)
  | s, [] => .ok (s, [])
  | s, c :: cs => do
    let (s, o) ← authStep env s c
    let (s, os) ← authRun env s cs
    .ok (s, o :: os)

end SV
