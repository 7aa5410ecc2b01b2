import Verif.Model.SeiBytes
import Verif.Model.Res
/-!
The signing session: `/repo/lib/src/signed_video_h26x_sign.c`, with the hash functions of
`/repo/lib/src/signed_video_h26x_common.c` 786-1054.

The signing plugin is not part of this model: what `sv_signing_plugin_sign` returns and what
`sv_signing_plugin_get_signature` delivers are inputs of the calls, so that every statement is about every plugin; the
plugins of the repository are modelled in `Model/Unthreaded.lean` and `Model/Threaded.lean`.
Allocations are assumed to succeed.
-/
namespace SV

/-- Hash functions, by the encoded OID of the algorithm (OpenSSL, a parameter of the model). -/
structure Hashing where
  /-- `EVP_Digest` -/
  H : Bytes → Bytes → Bytes
  /-- `openssl_set_hash_algo` (`signed_video_openssl.c` 444-472) followed by `openssl_get_hash_size`: OID and hash size of
  a name (`none` for a NULL pointer), if it is known. -/
  algo : Option Bytes → Option (Bytes × Nat)

/-- A message digest context (`EVP_MD_CTX *`): NULL, in use with the bytes hashed so far, or finalized.  A finalized
context has to be initialized again before it is updated or finalized (manual page EVP_DigestInit(3)); OpenSSL 3 refuses
both and so does the model. -/
inductive Ctx | null | open (b : Bytes) | done
deriving DecidableEq, Repr

/-- `openssl_update_hash` (`signed_video_openssl.c` 354-367). -/
def Ctx.update (c : Ctx) (data : Bytes) : Out Ctx :=
  if data = [] then .err .invalidParameter
  else match c with
    | .open b => .ok (.open (b ++ data))
    | _ => .err .externalError

/-- `openssl_finalize_hash` (`signed_video_openssl.c` 370-391): the new context and the hash. -/
def Ctx.final (H : Bytes → Bytes) (c : Ctx) : Out (Ctx × Bytes) :=
  match c with
  | .open b => .ok (.done, H b)
  | _ => .err .externalError

/-- `openssl_hash_data` (`signed_video_openssl.c` 317-328). -/
def hashData (H : Bytes → Bytes) (data : Bytes) : Out Bytes :=
  if data = [] then .err .invalidParameter else .ok (H data)

/-- The pointer `sei_data_t.sei`: NULL, freed memory that is still pointed to, or memory of `alloc` bytes of which the
first `bytes.length` are written (`write_position` points behind them). -/
inductive SeiPtr | null | freed | live (alloc : Nat) (bytes : Bytes)
deriving DecidableEq, Repr

/-- `sei_data_t` (`signed_video_internal.h` 106-111). -/
structure SeiSlot where
  ptr : SeiPtr := .null
  reg : L2 := L2.init          -- `last_two_bytes`
  size : Nat := 0              -- `completed_sei_size`
deriving DecidableEq, Repr

/-- `MAX_SEI_DATA_BUFFER` (`signed_video_internal.h` 69). -/
def maxSeis : Nat := 60

/-- Record of a generated SEI whose hash was accepted by the plugin: the options and the state it was written from, and
the hash.  Not part of the C code: only the hash is visible outside of the library, the rest is recorded to be able to
refer to it in specifications. -/
structure Gen where
  o : SeiOpts
  e : EncState
  h : Bytes
deriving DecidableEq, Repr

/-- The members of `signed_video_t` and `gop_info_t` used for signing (`signed_video_internal.h` 113-260).  `e` holds
those that the encoders read; its `hashList` is `hash_list[0 .. list_idx)`, `none` for `list_idx = -1`, its `linkedHash`
and `gopHash` are the first slot of `linked_hashes` and `computed_gop_hash`.  All hash buffers hold exactly the hash
size in use; a change of the hash algorithm sets them to zeros (in the C code a stale value may remain in
`computed_gop_hash` and `hash_buddies`). -/
structure Signer where
  codec : Codec
  e : EncState
  linkedNew : Bytes               -- second slot of `linked_hashes`
  ref : Bytes                     -- `hash_buddies[0 .. hash_size)`
  hasRef : Bool := false          -- `has_reference_hash`
  naluHash : Bytes := []          -- `nalu_hash`
  primary : Ctx := .null
  secondary : Ctx := .open []
  listCap : Nat := hashListCap    -- `hash_list_size`
  epb : Bool := true              -- `sei_epb`
  golden : Bool := false          -- `is_golden_sei`
  usingGolden : Bool := false     -- `using_golden_sei`
  gopHashOff : Bool := false
  vendor : Bool := false          -- there are vendor encoders
  maxPayload : Nat := 0           -- `max_sei_payload_size`
  recurrence : Nat := 1           -- at least 1, below 2^32
  frameCount : Nat := 0           -- `frame_count`, an `int` that is never negative
  seiEnabled : Bool := false      -- `sei_generation_enabled`
  started : Bool := false         -- `signing_started`
  avoidCheck : Bool := false      -- `avoid_checking_available_seis`
  plugin : Bool := false          -- `plugin_handle` is not NULL
  lastNalu : Nalu := {}           -- `last_nalu` without pointers
  lastIsLast : Bool := true       -- `last_nalu->is_last_nalu_part`
  buf : List SeiSlot := List.replicate maxSeis {}   -- `sei_data_buffer`
  idx : Nat := 0                  -- `sei_data_buffer_idx`
  completed : Nat := 0            -- `num_of_completed_seis`
  signed : Option Gen := none     -- the SEI whose hash was accepted by the plugin during the current call, an observation
  got : List Bytes := []          -- the signatures delivered by the plugin during the current call, an observation
deriving Repr

/-! ### Hashing of NAL units -/

/-- `update_hash` (`signed_video_h26x_common.c` 912-923). -/
def updateHash (s : Signer) (data : Bytes) : Res Signer Unit :=
  match s.secondary.update data with
  | .ok c => .ok { s with secondary := c } ()
  | .err e => .err s e
  | .ub u => .ub u

/-- `simply_hash` (`signed_video_h26x_common.c` 928-949). -/
def simplyHash (hs : Hashing) (s : Signer) (data : Bytes) (first : Bool) : Res Signer Bytes :=
  if first then Res.ofOut s (hashData (hs.H s.e.oid) data)
  else (updateHash s data).andThen fun s _ =>
    match s.secondary.final (hs.H s.e.oid) with
    | .ok (c, h) => .ok { s with secondary := c } h
    | .err e => .err s e
    | .ub u => .ub u

/-- `hash_and_copy_to_ref` (`signed_video_h26x_common.c` 958-979). -/
def hashAndCopyToRef (hs : Hashing) (s : Signer) (data : Bytes) (first : Bool) : Res Signer Bytes :=
  (simplyHash hs s data first).andThen fun s h => .ok { s with ref := h, hasRef := true } h

/-- `hash_with_reference` (`signed_video_h26x_common.c` 991-1011). -/
def hashWithReference (hs : Hashing) (s : Signer) (data : Bytes) (first : Bool) : Res Signer Bytes :=
  (simplyHash hs s data first).andThen fun s h => Res.ofOut s (hashData (hs.H s.e.oid) (s.ref ++ h))

/-- `check_and_copy_hash_to_hash_list` (`signed_video_h26x_common.c` 831-856): the context of the GOP hash is initialized
when the list is empty, the hash is put into the list if there is room and the context is updated in any case (a failure
of the update is ignored).  With `list_idx = -1` the comparison of line 846 cannot change anything. -/
def checkAndCopy (s : Signer) (h : Bytes) : Signer :=
  let p := if s.e.hashList = some [] then .open [] else s.primary
  { s with
    e := { s.e with hashList :=
      match s.e.hashList with
      | some l => if l.length + s.e.hashSize > s.listCap then none else some (l ++ h)
      | none => none }
    primary := match p.update h with
      | .ok c => c
      | _ => p }

/-- `hash_and_add` (`signed_video_h26x_common.c` 1013-1054) with `get_hash_wrapper` (885-905) and
`update_num_nalus_in_gop_hash` (814-826). -/
def hashAndAdd (hs : Hashing) (s : Signer) (n : Nalu) (first last : Bool) : Res Signer Unit :=
  if !n.isHashable then .ok s ()
  else
    let s := if first && !last then { s with secondary := .open [] } else s
    let r : Res Signer Unit :=
      if !last then updateHash s n.hashable
      else
        ((if n.gopSei then simplyHash hs s n.hashable first
          else if n.firstInGop && !s.hasRef then hashAndCopyToRef hs s n.hashable first
          else hashWithReference hs s n.hashable first).andThen fun s h =>
            let s := checkAndCopy { s with naluHash := h } h
            .ok (if n.gopSei then s else { s with e := { s.e with numNalus := s.e.numNalus + 1 } }) ())
    r.onErr fun s => { s with e := { s.e with hashList := none } }

/-! ### Generating SEIs -/

/-- The options of the next SEI. -/
def Signer.opts (s : Signer) : SeiOpts :=
  ⟨s.codec, s.epb, s.golden, s.usingGolden, s.gopHashOff, s.vendor, s.maxPayload⟩

/-- The state from which `generate_sei_nalu` encodes: the hash type is set first (`signed_video_h26x_sign.c` 216). -/
def Signer.encNow (s : Signer) : EncState := { s.e with hashType := 1 }

/-- `generate_sei_nalu` (`signed_video_h26x_sign.c` 183-355) with an empty `*payload`.  `rc` is what
`sv_signing_plugin_sign` returns.  The value returned is the memory of the SEI and `last_two_bytes`; upon failure after
line 262 the memory is freed. -/
def generateSei (hs : Hashing) (s0 : Signer) (rc : Option Rc) : Res Signer SeiSlot :=
  if maxSeis ≤ s0.idx then .err s0 .notSupported
  else
    let e0 := s0.encNow
    let st := (seiStart s0.opts e0).1
    let e1 := (seiStart s0.opts e0).2
    let alloc := allocSize s0.codec (payloadSizeRaw s0.opts (applyFallback s0.opts e0))
    let s := { s0 with e := e1 }
    if alloc < 4 + st.bytes.length then .ub .overflow
    else
      match parseNalu (startCode4 ++ st.bytes) s.codec false true with
      | .ub u => .ub u
      | .err e => .err s e
      | .ok fake =>
        (hashAndAdd hs s fake true true).andThen fun s _ =>
          let h := s.naluHash
          let s := { s with
            e := { s.e with numNalus := 0, hashList := some [], timestamp := none }
            hasRef := false }
          match rc with
          | some e => .err s e
          | none => .ok { s with signed := some ⟨s0.opts, e0, h⟩ } { ptr := .live alloc (startCode4 ++ st.bytes), reg := st.reg, size := 0 }

/-- `add_payload_to_buffer` (`signed_video_h26x_sign.c` 86-102). -/
def addPayload (s : Signer) (p : SeiSlot) : Res Signer Unit :=
  if maxSeis ≤ s.idx then .ok s ()
  else if s.idx < s.buf.length then .ok { s with buf := s.buf.set s.idx p, idx := s.idx + 1 } ()
  else .ub .oobIndex

/-- `complete_sei_nalu_and_add_to_prepend` (`signed_video_h26x_sign.c` 108-155) with
`get_sign_and_complete_sei_nalu` (358-394).  The slot is indexed by the number of completed SEIs. -/
def completeSei (s : Signer) : Res Signer Unit :=
  if s.idx < 1 then .err s .notSupported
  else if maxSeis < s.idx then .ub .assertFail
  else
    match s.buf[s.completed]? with
    | none => .ub .oobIndex
    | some slot =>
      if s.e.signature.length = 0 then
        match slot.ptr with
        | .null => .ok s ()
        | .freed => .ub .useAfterFree
        | .live _ _ => .ok { s with buf := s.buf.set s.completed { slot with ptr := .freed } } ()
      else
        match slot.ptr with
        | .null => .ok s ()
        | .freed => .ub .useAfterFree
        | .live a b =>
          let b' := seiComplete s.opts s.e ⟨b, slot.reg⟩
          if a < b'.length then .ub .overflow
          else .ok { s with
              buf := s.buf.set s.completed { slot with ptr := .live a b', size := b'.length }
              completed := s.completed + 1
              e := { s.e with recurrent := false } } ()

/-- What one call of `sv_signing_plugin_get_signature` that returns true delivers: an error or a signature. -/
abbrev SigAnswer := Except Rc Bytes

/-- `get_signature_complete_sei_and_add_to_prepend` (`signed_video_h26x_sign.c` 561-600, also the loop of 735-739).
`sigs` are the answers of the plugin until it returns false (those after an error are not asked for).  A signature that
does not fit in `max_signature_size` would be written outside of the memory given to the plugin. -/
def completeSeis (s : Signer) : List SigAnswer → Res Signer Unit
  | [] => .ok s ()
  | .error e :: _ => .err s e
  | .ok sig :: sigs =>
    if s.e.maxSignature < sig.length then .ub .overflow
    else (completeSei { s with e := { s.e with signature := sig }, got := s.got ++ [sig] }).andThen fun s _ => completeSeis s sigs

/-- `prepare_for_nalus_to_prepend` (`signed_video_h26x_sign.c` 396-425). -/
def prepare (s : Signer) : Res Signer Unit :=
  if !s.plugin then .err s .notSupported
  else
    let s := { s with started := true }
    if !s.avoidCheck && s.completed > 0 then .err s .notSupported else .ok s ()

/-- `update_linked_hash` (`signed_video_h26x_common.c` 863-882) with the signing hash size. -/
def updateLinked (s : Signer) (h : Bytes) : Signer :=
  { s with e := { s.e with linkedHash := s.linkedNew }, linkedNew := h }

/-- First half of `signed_video_add_nalu_part_for_signing_with_timestamp` (`signed_video_h26x_sign.c` 485-505): the NAL
unit and whether this is its first part. -/
def nextPart (s : Signer) (data : Bytes) (last : Bool) : Res Signer (Nalu × Bool) :=
  if s.lastIsLast then
    match parseNalu data s.codec last false with
    | .ok n => .ok { s with lastNalu := n, lastIsLast := last } (n, true)
    | .err e => .err s e
    | .ub u => .ub u
  else
    match (if last then trimmedLen data else .ok data.length) with
    | .ok k => .ok { s with lastIsLast := last } ({ s.lastNalu with hashable := data.take k }, false)
    | .err e => .err s e
    | .ub u => .ub u

/-- What is visible of a call: the return code (`none` is `SV_OK`), the SEI handed out, the number of pending SEIs and,
at the interface to the signing plugin, the hash that was accepted by it (with the record of the SEI) and the signatures
that were taken from it. -/
structure Obs where
  rc : Option Rc := none
  sei : Option Bytes := none
  pending : Nat := 0
  signed : Option Gen := none
  got : List Bytes := []
deriving DecidableEq, Repr

/-- The observation at the end of a call. -/
def observe (r : Res Signer (Option Bytes)) : Out (Signer × Obs) :=
  match r with
  | .ok s b => .ok (s, ⟨none, b, s.idx, s.signed, s.got⟩)
  | .err s e => .ok (s, ⟨some e, none, s.idx, s.signed, s.got⟩)
  | .ub u => .ub u

/-- No SEI is handed out. -/
def plain (r : Res Signer Unit) : Res Signer (Option Bytes) := r.andThen fun s _ => .ok s none

/-- `frame_count` and `has_recurrent_data` (`signed_video_h26x_sign.c` 515-520); the counter is an `int`. -/
def countFrame (s : Signer) (n : Nalu) (last : Bool) : Res Signer Unit :=
  if n.primary && last then
    let s := if s.frameCount % s.recurrence = 0 then { s with e := { s.e with recurrent := true } } else s
    if s.frameCount = 2 ^ 31 - 1 then .ub .intOverflow else .ok { s with frameCount := s.frameCount + 1 } ()
  else .ok s ()

/-- The timestamp of the SEI (`signed_video_h26x_sign.c` 523-526); without one `has_timestamp` is not touched. -/
def stamp (s : Signer) : Option Int64 → Signer
  | some t => { s with e := { s.e with timestamp := some t } }
  | none => s

/-- Generation of the SEI at the end of a GOP (`signed_video_h26x_sign.c` 523-546). -/
def endOfGop (hs : Hashing) (s : Signer) (ts : Option Int64) (rc : Option Rc) : Res Signer Unit :=
  if s.seiEnabled then
    let s := stamp s ts
    match s.primary.final (hs.H s.e.oid) with
    | .err e => .err s e
    | .ub u => .ub u
    | .ok (c, h) =>
      (generateSei hs { s with primary := c, e := { s.e with gopHash := h } } rc).andThen fun s p =>
        (addPayload s p).andThen fun s _ => .ok { s with seiEnabled := true } ()
  else .ok { s with seiEnabled := true } ()

/-- Second half of `signed_video_add_nalu_part_for_signing_with_timestamp` (`signed_video_h26x_sign.c` 508-551). -/
def addParsed (hs : Hashing) (s : Signer) (n : Nalu) (first last : Bool) (ts : Option Int64) (rc : Option Rc) :
    Res Signer Unit :=
  (prepare s).andThen fun s _ =>
  if n.valid < 0 then .err s .invalidParameter else
  (countFrame s n last).andThen fun s _ =>
  (if n.firstInGop && last then endOfGop hs s ts rc else .ok s ()).andThen fun s _ =>
  (hashAndAdd hs s n first last).andThen fun s _ =>
  .ok (if n.firstInGop && last then updateLinked s s.naluHash else s) ()

/-- `signed_video_add_nalu_part_for_signing_with_timestamp` (`signed_video_h26x_sign.c` 474-553). -/
def addNalu (hs : Hashing) (s : Signer) (data : Bytes) (ts : Option Int64) (last : Bool) (rc : Option Rc) :
    Res Signer Unit :=
  if data = [] then .err s .invalidParameter
  else ((nextPart s data last).andThen fun s p => addParsed hs s p.1 p.2 last ts rc)

/-! ### Fetching SEIs -/

/-- `shift_sei_buffer_at_index` (`signed_video_h26x_sign.c` 160-172). -/
def shiftBuf (s : Signer) (i : Nat) : Res Signer Unit :=
  if s.idx = 0 then .ub .oobIndex
  else if s.buf.length < s.idx then .ub .oobIndex
  else .ok { s with
      buf := (s.buf.take s.idx).eraseIdx i ++ {} :: s.buf.drop s.idx
      idx := s.idx - 1 } ()

/-- Handing out the completed SEI number `i` (`signed_video_h26x_sign.c` 662-671 and 613-623): `memcpy`, `free`, shift. -/
def handOut (s : Signer) (i : Nat) (copy : Bool) : Res Signer (Option Bytes) :=
  match s.buf[i]? with
  | none => .ub .oobIndex
  | some slot =>
    if !copy then .ok s none
    else match slot.ptr with
      | .null => if slot.size = 0 then (shiftBuf { s with completed := s.completed - 1 } i).andThen fun s _ => .ok s none
          else .ub .nullDeref
      | .freed => .ub .useAfterFree
      | .live _ b =>
        if b.length < slot.size then .ub .overread
        else (shiftBuf { s with completed := s.completed - 1 } i).andThen fun s _ => .ok s (some (b.take slot.size))

/-- Whether a SEI may precede the peeked NAL unit (`signed_video_h26x_sign.c` 651-660). -/
def peekAllows (n : Nalu) : Bool := (n.ntype == .i || n.ntype == .p) && n.primary

/-- `signed_video_get_sei` (`signed_video_h26x_sign.c` 627-691).  `copy` is `sei != NULL`; `peek` the peeked NAL unit, if
any.  For `payload_offset` see `Model/Payload.lean`. -/
def getSei (s : Signer) (copy : Bool) (peek : Option Bytes) (sigs : List SigAnswer) : Res Signer (Option Bytes) :=
  (completeSeis s sigs).andThen fun s _ =>
  if s.completed < 1 then .ok s none
  else
    match peek with
    | some (b :: bs) =>
      match parseNalu (b :: bs) s.codec false false with
      | .ub u => .ub u
      | .err e => .err s e
      | .ok n => if peekAllows n then handOut s 0 copy else .ok { s with avoidCheck := true } none
    | _ => handOut s 0 copy

/-- The value of `*sei_size` when `signed_video_get_sei` is called with `sei == NULL` (`signed_video_h26x_sign.c` 637 and
644-671).  The records of what is observed are reset as in `signStep`. -/
def seiSize (s : Signer) (peek : Option Bytes) (sigs : List SigAnswer) : Nat :=
  match completeSeis { s with signed := none, got := [] } sigs with
  | .ok s _ =>
    if s.completed < 1 then 0
    else
      let n := match s.buf[0]? with | some slot => slot.size | none => 0
      match peek with
      | some (b :: bs) =>
        match parseNalu (b :: bs) s.codec false false with
        | .ok nalu => if peekAllows nalu then n else 0
        | _ => 0
      | _ => n
  | _ => 0

/-- `get_latest_sei` (`signed_video_h26x_sign.c` 602-625) with a non-NULL `sei`. -/
def getLatest (s : Signer) (copy : Bool) (sigs : List SigAnswer) : Res Signer (Option Bytes) :=
  (completeSeis s sigs).andThen fun s _ =>
  if s.completed < 1 then .ok s none else handOut s (s.completed - 1) copy

/-- A SEI copied to memory of `n` bytes (`memcpy` in `signed_video_h26x_sign.c` 618). -/
def intoRoom (n : Nat) : Res Signer (Option Bytes) → Res Signer (Option Bytes)
  | .ok s (some b) => if n < b.length then .ub .overflow else .ok s (some b)
  | r => r

/-- `signed_video_get_nalu_to_prepend` (`signed_video_h26x_sign.c` 693-713): two calls of `get_latest_sei`, the first one
to get the size of the memory that is then allocated (which is assumed to succeed).  The second one asks the plugin for
signatures again, so the SEI that is copied is not always the one of which the size was taken. -/
def getPrepend (s : Signer) (sigs sigs2 : List SigAnswer) : Res Signer (Option Bytes) :=
  (completeSeis s sigs).andThen fun s _ =>
  if s.completed < 1 then .ok s none
  else
    match s.buf[s.completed - 1]? with
    | none => .ub .oobIndex
    | some slot => if slot.size = 0 then .ok s none else intoRoom slot.size (getLatest s true sigs2)

/-! ### Other calls -/

/-- `signed_video_set_end_of_stream` (`signed_video_h26x_sign.c` 721-746). -/
def endOfStream (hs : Hashing) (s : Signer) (rc : Option Rc) (sigs : List SigAnswer) : Res Signer Unit :=
  (prepare s).andThen fun s _ =>
  (generateSei hs s rc).andThen fun s p =>
  (addPayload s p).andThen fun s _ => completeSeis s sigs

/-- `signed_video_generate_golden_sei` (`signed_video_h26x_sign.c` 748-773). -/
def goldenSei (hs : Hashing) (s : Signer) (rc : Option Rc) : Res Signer Unit :=
  let s := { s with golden := true, e := { s.e with recurrent := true, frameLevel := true } }
  let r := (prepare s).andThen fun s _ =>
    (generateSei hs s rc).andThen fun s p => addPayload s p
  match r with
  | .ok s h => .ok { s with golden := false } h
  | .err s e => .err { s with golden := false } e
  | .ub u => .ub u

/-- The setters (`signed_video_h26x_sign.c` 775-925). -/
inductive Setting
  /-- `signed_video_set_product_info` (775-807) -/
  | product (p : ProductInfo)
  /-- `signed_video_set_private_key_new` (809-832): what OpenSSL makes of the key (the public key and the signature
  size) and whether the plugin can be set up. -/
  | privateKey (key : Option (Bytes × Nat)) (plugin : Bool)
  /-- `signed_video_add_public_key_to_sei` (845-853) -/
  | addPublicKey (b : Bool)
  /-- `signed_video_set_authenticity_level` (855-873) -/
  | level (l : Int)
  /-- `signed_video_set_recurrence_interval_frames` (875-885) -/
  | recurrence (r : Nat)
  /-- `signed_video_set_sei_epb` (887-893) -/
  | seiEpb (b : Bool)
  /-- `signed_video_set_using_golden_sei` (895-903) -/
  | usingGolden (b : Bool)
  /-- `signed_video_set_max_sei_payload_size` (905-912) -/
  | maxPayload (n : Nat)
  /-- `signed_video_set_hash_algo` (914-938) -/
  | hashAlgo (name : Option Bytes)
  /-- `set_hash_list_size` (`signed_video_h26x_common.c` 264-272), internal -/
  | listSize (n : Nat)
deriving DecidableEq, Repr

/-- Each setter on a session. -/
def applySetting (hs : Hashing) (s : Signer) : Setting → Res Signer Unit
  | .product p => .ok { s with e := { s.e with product := p } } ()
  | .privateKey key plugin =>
    match key with
    | none => .err s .externalError
    | some (pub, mx) =>
      let s := { s with e := { s.e with publicKey := some pub, maxSignature := mx, signature := [] }, plugin := plugin }
      if plugin then .ok s () else .err s .externalError
  | .addPublicKey b => .ok { s with e := { s.e with addPublicKey := b } } ()
  | .level l =>
    if l ≥ 2 then .err s .notSupported
    else if l < 0 then .err s .notSupported
    else .ok { s with e := { s.e with frameLevel := l == 1 } } ()
  | .recurrence r => if r < 1 then .err s .notSupported else .ok { s with recurrence := r } ()
  | .seiEpb b => .ok { s with epb := b } ()
  | .usingGolden b => if s.started then .err s .notSupported else .ok { s with usingGolden := b } ()
  | .maxPayload n => .ok { s with maxPayload := n } ()
  | .hashAlgo name =>
    if s.started then .err s .notSupported
    else match hs.algo name with
      | none => .err s .invalidParameter
      | some (oid, n) =>
        if n = 0 ∨ n > 64 then .err { s with primary := .null, secondary := .open [], e := { s.e with oid := oid } } .notSupported
        else .ok { s with
            primary := .null, secondary := .open []
            e := { s.e with oid := oid, hashSize := n, linkedHash := List.replicate n 0, gopHash := List.replicate n 0 }
            linkedNew := List.replicate n 0, ref := List.replicate n 0 } ()
  | .listSize n => if n > hashListCap then .err s .notSupported else .ok { s with listCap := n } ()

/-- `signed_video_reset` (`signed_video_h26x_common.c` 1196-1227) on the members used for signing. -/
def resetSigner (s : Signer) : Signer :=
  { s with
    started := false, seiEnabled := false, hasRef := false
    e := { s.e with hashList := some [], numNalus := 0, linkedHash := List.replicate s.e.hashSize 0 }
    linkedNew := List.replicate s.e.hashSize 0
    lastNalu := {}, lastIsLast := true, secondary := .open [] }

/-- A call of the signing API, with the answers of the plugin. -/
inductive SCall
  | nalu (data : Bytes) (ts : Option Int64) (last : Bool) (rc : Option Rc)
  | getSei (copy : Bool) (peek : Option Bytes) (sigs : List SigAnswer)
  | prepend (sigs sigs2 : List SigAnswer)
  | endOfStream (rc : Option Rc) (sigs : List SigAnswer)
  | golden (rc : Option Rc)
  | set (x : Setting)
  | reset

/-- The effect of one call. -/
def signCall (hs : Hashing) (s : Signer) : SCall → Res Signer (Option Bytes)
  | .nalu d ts l rc => plain (addNalu hs s d ts l rc)
  | .getSei c p sigs => getSei s c p sigs
  | .prepend a b => getPrepend s a b
  | .endOfStream rc sigs => plain (endOfStream hs s rc sigs)
  | .golden rc => plain (goldenSei hs s rc)
  | .set x => plain (applySetting hs s x)
  | .reset => .ok (resetSigner s) none

/-- One call with its observation. -/
def signStep (hs : Hashing) (s : Signer) (c : SCall) : Out (Signer × Obs) :=
  observe (signCall hs { s with signed := none, got := [] } c)

/-- A sequence of calls. -/
def signRun (hs : Hashing) : Signer → List SCall → Out (Signer × List Obs)
  | s, [] => .ok (s, [])
  | s, c :: cs => do
    let (s, o) ← signStep hs s c
    let (s, os) ← signRun hs s cs
    .ok (s, o :: os)

/-- `signed_video_create` (`signed_video_h26x_common.c` 1117-1194) with the default hash algorithm `oid` (hash size 32)
and the version of the library. -/
def newSigner (codec : Codec) (oid : Bytes) (version : UInt8 × UInt8 × UInt8) : Signer where
  codec := codec
  e := {
    gopCounter := 0, numNalus := 0, codeVersion := version, timestamp := none, hashSize := 32
    linkedHash := List.replicate 32 0, gopHash := List.replicate 32 0, product := {}, arbitrary := []
    publicKey := none, addPublicKey := true, hashList := some [], frameLevel := true, encodingStatus := 0
    hashType := 0, signature := [], maxSignature := 0, oid := oid, recurrent := false, axis := [] }
  linkedNew := List.replicate 32 0
  ref := List.replicate 32 0

end SV
