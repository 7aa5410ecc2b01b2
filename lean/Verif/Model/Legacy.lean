import Verif.Model.Auth
/-!
The validating session for streams of the older format: `/repo/lib/src/legacy`.

A session that finds such a stream (`signed_video_h26x_auth.c` 1160-1164) creates a second one inside it and hands it all
NAL units.  The structs of the older code have the members of the newer ones, therefore the state `v` of the newer session
is used for them; its list and what belongs to linked hashes is not used.  The members borrowed from the outer session
(`legacy_internal.h` 110-151) are the ones of `v` from then on, since the outer session no longer uses them.

Functions that are copies of newer ones are not repeated: `legacy_parse_nalu_info` (`legacy_h26x_common.c` 174-551) is
`parseNalu`, the hash wrappers (646-791) are `hashNalu`, `legacy_update_hashable_data` is `updateHashable`, and the decoders
in `legacy_tlv.c` are those of `Model/Tlv.lean` except for the version of the general tag.
-/
namespace SV

/-- `legacy_h26x_nalu_list_item_t` (`legacy_h26x_nalu_list.h` 36-65) without the links.  `dead` says that `nalu` points to
the NAL unit of a call that has returned, see `Legacy.addEnd`. -/
structure LItem where
  nalu : Option Nalu := none
  status : Status := .nul
  hash : Bytes := []
  second : Option Bytes := none
  need : Bool := false       -- `need_second_verification`
  bad : Bool := false        -- `first_verification_not_authentic`
  decoded : Bool := false    -- `has_been_decoded`
  used : Bool := false       -- `used_in_gop_hash`
  dead : Bool := false
deriving DecidableEq, Repr

/-- The items in order, each with its address. -/
abbrev LList := List (Nat × LItem)

/-- Write to the item at an address. -/
def LList.set (l : LList) (a : Nat) (f : LItem → LItem) : LList :=
  l.map fun x => if x.1 = a then (x.1, f x.2) else x

/-- `legacy_h26x_nalu_list_item_create` (`legacy_h26x_nalu_list.c` 34-73) with a NAL unit. -/
def LItem.new (n : Nalu) : LItem := { nalu := some n, status := statusOf (some n) }

/-- The item created in `legacy_h26x_nalu_list_add_missing` (`legacy_h26x_nalu_list.c` 286-289). -/
def LItem.missing : LItem := { status := .M }

/-- `nalu->is_gop_sei` of an item with NAL unit. -/
def LItem.isSei (i : LItem) : Bool := match i.nalu with | some n => n.gopSei | none => false

/-- `nalu->is_first_nalu_in_gop` of an item with NAL unit. -/
def LItem.isFirst (i : LItem) : Bool := match i.nalu with | some n => n.firstInGop | none => false

/-- The state of `legacy_sv_t` (`legacy_internal.h` 110-151). -/
structure Legacy where
  v : Validator
  list : LList := []
  brk : Nat := 0                             -- next address of a list item
  hashes : Bytes := List.replicate 128 0     -- `gop_info->hashes`: `gop_hash` at 0, `nalu_hash` at 32
deriving DecidableEq, Repr

namespace Legacy

/-! ### The list (`legacy_h26x_nalu_list.c`) -/

/-- `legacy_h26x_nalu_list_get_next_sei_item` (`legacy_h26x_nalu_list.c` 344-355). -/
def nextSei (l : LList) : Option (Nat × LItem) := l.find? fun x => x.2.isSei && decide (x.2.status = .P)

/-- `legacy_h26x_nalu_list_num_pending_items` (`legacy_h26x_nalu_list.c` 400-413). -/
def numPending (l : LList) : Nat := (l.filter fun x => x.2.status = .P).length

/-- `legacy_h26x_nalu_list_add_missing` (`legacy_h26x_nalu_list.c` 270-305) next to the item at an address. -/
def addMissing (s : Legacy) (n : Int) (app : Bool) (item : Nat) : Legacy :=
  if n < 0 then s
  else { s with list := insertMissing s.list LItem.missing s.brk n.toNat app item, brk := s.brk + n.toNat }

/-- `legacy_h26x_nalu_list_remove_missing_items` (`legacy_h26x_nalu_list.c` 310-341) from an item on; `isFirst` is
`item == list->first_item`, `pend` is `found_first_pending_nalu` and `dec` is `found_decoded_sei`. -/
def removeMissingFrom : LList → (isFirst pend dec : Bool) → LList
  | [], _, _, _ => []
  | x :: r, isFirst, pend, dec =>
    if pend && dec then x :: r
    else
      let i := { x.2 with bad := x.2.bad && pend }
      if i.status = .M ∧ isFirst then removeMissingFrom r true pend dec
      else
        let hit := i.decoded && decide (i.status ≠ .U)
        let i := if hit then { i with status := .U } else i
        (x.1, i) :: removeMissingFrom r false (pend || decide (i.status = .P)) (dec || hit)

/-- `legacy_h26x_nalu_list_remove_missing_items` (`legacy_h26x_nalu_list.c` 310-341). -/
def removeMissing (l : LList) : LList := removeMissingFrom l true false false

/-- `legacy_h26x_nalu_list_get_stats` (`legacy_h26x_nalu_list.c` 361-397). -/
def getStats (l : LList) : Stats where
  invalid := (l.filter fun x => x.2.status = .N || x.2.status = .E).length
  missing := (l.filter fun x => x.2.status = .M).length
  hasValid := l.any fun x =>
    (decide (x.2.status = .ok) && !x.2.isSei) || (decide (x.2.status = .P) && x.2.need && !x.2.bad)

/-- Is the item removed by `legacy_h26x_nalu_list_clean_up`? -/
def settled (i : LItem) : Bool := decide (i.status ≠ .P) && !i.need

/-- The list after `legacy_h26x_nalu_list_clean_up` (`legacy_h26x_nalu_list.c` 453-470). -/
def cleanUp (l : LList) : LList := l.dropWhile fun x => settled x.2

/-- The value returned by `legacy_h26x_nalu_list_clean_up`. -/
def cleanUpCount (l : LList) : Nat := ((l.takeWhile fun x => settled x.2).filter fun x => x.2.status ≠ .M).length

/-- `legacy_nalu_type_to_char` (`legacy_h26x_common.c` 89-113): as the newer function, which has a character of its own
for a golden SEI. -/
def typeChar : Option Nalu → Char
  | none => ' '
  | some n => SV.typeChar (some { n with golden := false })

/-! ### Decoding (`legacy_tlv.c`) -/

/-- A decoder (`legacy_tlv.c` 143-153 and 174-555). `legacy_decode_general` (174-236) accepts the versions 1 and 2 only and is
the same as the newer function for them.  `legacy_decode_crypto_info` (500-537) does not set the flag `hash_algo_known`
that the newer function sets; the older session has no such flag. -/
def decTag (env : AuthEnv) (v : Validator) (t : UInt8) (mem : Bytes) (size : Nat) : Res Validator Unit :=
  if t = tagGeneral then
    match rd8 mem with
    | .ok (version, _) => if version > 2 then .err v .incompatibleVersion else v.decGeneral mem size
    | .err e => .err v e
    | .ub u => .ub u
  else v.decTag env t mem size

/-- The loop of `legacy_tlv_decode` (`legacy_tlv.c` 595-613). -/
def tlvLoop (env : AuthEnv) : (fuel : Nat) → Validator → Bytes → Nat → Res Validator Unit
  | 0, v, _, _ => .ok v ()
  | fuel + 1, v, mem, size =>
    if size = 0 then .ok v () else
    match decHeader mem with
    | .ub u => .ub u
    | .err e => .err v e
    | .ok (t, n, h) =>
      (decTag env v t (mem.drop h) n).andThen fun v _ =>
        tlvLoop env fuel v ((mem.drop h).drop n) (size - h - n)

/-- `legacy_tlv_decode` (`legacy_tlv.c` 588-616). -/
def tlvDecode (env : AuthEnv) (v : Validator) (mem : Bytes) (size : Nat) : Res Validator Unit :=
  if size = 0 then .err v .invalidParameter else tlvLoop env size v mem size

/-- The loop of `legacy_tlv_find_and_decode_optional_tags` (`legacy_tlv.c` 629-649). -/
def optLoop (env : AuthEnv) : (fuel : Nat) → Validator → Bool → Bytes → Nat → Res Validator Bool
  | 0, v, f, _, _ => .ok v f
  | fuel + 1, v, f, mem, size =>
    if size = 0 then .ok v f else
    match decHeader mem with
    | .ub u => .ub u
    | .err _ => .ok v f
    | .ok (t, n, h) =>
      if t ≥ 9 then .ub .oobIndex
      else if (getTuple t).alwaysPresent then optLoop env fuel v f ((mem.drop h).drop n) (size - h - n)
      else
        match decTag env v t (mem.drop h) n with
        | .ub u => .ub u
        | .err v _ => .ok v f
        | .ok v _ => optLoop env fuel v true ((mem.drop h).drop n) (size - h - n)

/-- `legacy_tlv_find_and_decode_optional_tags` (`legacy_tlv.c` 618-652). -/
def findOptional (env : AuthEnv) (v : Validator) (mem : Bytes) (size : Nat) : Res Validator Bool :=
  if size = 0 then .ok v false else optLoop env size v false mem size

/-- Do something with the members in `v`. -/
def onV {α : Type} (s : Legacy) : Res Validator α → Res Legacy α
  | .ok v a => .ok { s with v := v } a
  | .err v e => .err { s with v := v } e
  | .ub u => .ub u

/-- `legacy_decode_sei_data` (`legacy_h26x_auth.c` 55-93). The difference of the counters is at least `-2^32`, hence the
addition of `INT64_MAX` to a negative one does not overflow. -/
def decodeSei (env : AuthEnv) (s : Legacy) (mem : Bytes) (size : Nat) : Res Legacy Unit :=
  if size = 0 then .ub .assertFail else
  let exp : UInt32 := s.v.d.gopCounter + 1
  (s.onV (tlvDecode env s.v mem size)).andThen fun s _ =>
    let diff : Int := (s.v.d.gopCounter.toNat : Int) - (exp.toNat : Int)
    let diff := if diff < 0 then diff + 9223372036854775807 else diff
    let lost := decide (diff > 0) && s.v.synced
    .ok { s with v := { s.v with gop := { s.v.gop with
      lost := lost, transLost := s.v.gop.transLost || (s.v.gop.noEnd && lost) } } } ()

/-! ### Hashing -/

/-- `legacy_hash_and_add_for_auth` (`legacy_h26x_common.c` 794-838) on the item at an address. -/
def hashItem (env : AuthEnv) (s : Legacy) (a : Nat) (n : Nalu) : Res Legacy Unit :=
  if !n.isHashable then .ok s ()
  else match s.v.hashNalu env n with
    | .ub u => .ub u
    | .err e => .err s e
    | .ok (v, h) =>
      let s := { s with v := v, list := s.list.set a fun i => { i with hash := ovl h i.hash } }
      if n.firstInGop || (s.v.gop.afterNext && !n.gopSei) then
        match Validator.hashNalu env { s.v with hasRef := false } n with
        | .ub u => .ub u
        | .err e => .err { s with v := { s.v with hasRef := false } } e
        | .ok (v, h) => .ok { s with v := v, list := s.list.set a fun i => { i with second := some h } } ()
      else .ok s ()

/-- `legacy_remove_used_in_gop_hash` (`legacy_h26x_auth.c` 591-602). -/
def clearUsed (l : LList) : LList := l.map fun x => (x.1, { x.2 with used := false })

/-- Copy to `nalu_hash`, which is at the offset 32 of `hashes` whatever the size of a hash is, and
`legacy_update_gop_hash` (`legacy_h26x_common.c` 616-641). -/
def gopStep (env : AuthEnv) (v : Validator) (hashes h : Bytes) : Out Bytes := do
  let hs := v.d.hashSize
  let b := hashes.take 32 ++ ovl (buf hs h) (hashes.drop 32)
  let g ← v.digest env (b.take (2 * hs))
  .ok (ovl g b)

/-- The loop of `legacy_compute_gop_hash` (`legacy_h26x_auth.c` 639-668): the list with the items used in the GOP hash
marked, and the memory of the hash.  `prev` is the address of the previous item. -/
def gopLoop (env : AuthEnv) (v : Validator) (sei : Nat) : LList → (prev : Option Nat) → Bytes → Out (LList × Bytes)
  | [], _, b => .ok ([], b)
  | x :: r, prev, b =>
    if x.2.status ≠ .P then do
      let (l, b) ← gopLoop env v sei r (some x.1) b
      .ok (x :: l, b)
    else match x.2.nalu with
      | none => .ub .assertFail
      | some n =>
        let stop := decide (prev = some sei) || (n.firstInGop && !x.2.need)
        if n.gopSei then
          if stop then .ok (x :: r, b)
          else do
            let (l, b) ← gopLoop env v sei r (some x.1) b
            .ok (x :: l, b)
        else match (if x.2.need then x.2.second else some x.2.hash) with
          | none => .ub .nullDeref
          | some h => do
            let b ← gopStep env v b h
            let x := (x.1, { x.2 with used := true })
            if stop then .ok (x :: r, b)
            else do
              let (l, b) ← gopLoop env v sei r (some x.1) b
              .ok (x :: l, b)

/-- `legacy_reset_gop_hash` (`legacy_h26x_common.c` 162-171); `GOP_HASH_SALT` is 1 (33). -/
def resetGopHash (env : AuthEnv) (v : Validator) (hashes : Bytes) : Out Bytes := do
  let h ← v.digest env [1]
  .ok (ovl h hashes)

/-- `legacy_compute_gop_hash` (`legacy_h26x_auth.c` 606-680) for a decoded SEI. -/
def computeGop (env : AuthEnv) (s : Legacy) (sei : Nat × LItem) : Res Legacy Unit :=
  let r : Out (LList × Bytes) := do
    let b ← resetGopHash env s.v s.hashes
    let (l, b) ← gopLoop env s.v sei.1 s.list none b
    let b ← gopStep env s.v b sei.2.hash
    .ok (l, b)
  match r with
  | .ub u => .ub u
  | .err e => .err { s with list := clearUsed s.list } e
  | .ok (l, b) => .ok { s with list := l.set sei.1 fun i => { i with used := true }, hashes := b } ()

/-! ### Verification -/

/-- The loop of `legacy_verify_hashes_without_sei` (`legacy_h26x_auth.c` 422-447): the list, the number of marked items and
`found_next_gop`. -/
def markLoop : LList → Out (LList × Nat × Bool)
  | [] => .ok ([], 0, false)
  | x :: r =>
    if x.2.status ≠ .P then do
      let (l, k, f) ← markLoop r
      .ok (x :: l, k, f)
    else match x.2.nalu with
      | none => .ub .nullDeref
      | some n =>
        if n.firstInGop && !x.2.need then .ok ((x.1, { x.2 with need := true, bad := true }) :: r, 0, true)
        else do
          let (l, k, f) ← markLoop r
          .ok ((x.1, { x.2 with need := false, status := .N }) :: l, k + 1, f)

/-- `legacy_verify_hashes_without_sei` (`legacy_h26x_auth.c` 408-455). -/
def withoutSei (s : Legacy) : Res Legacy Bool :=
  match markLoop s.list with
  | .ub u => .ub u
  | .err e => .err s e
  | .ok (l, k, f) =>
    .ok { s with list := l,
                 v := if s.v.flags.signing && decide (k > 0) then { s.v with d := { s.v.d with gopCounter := s.v.d.gopCounter + 1 } }
                   else s.v } f

/-- Loop variables of `legacy_verify_hashes_with_hash_list` (`legacy_h26x_auth.c` 163-172). -/
structure Match where
  invalid : Nat := 0             -- `num_invalid_nalus_since_latest_match`
  count : Nat := 0               -- `num_verified_hashes`
  latest : Int := -1             -- `latest_match_idx`
  compare : Int := 0             -- `compare_idx`
  lastUsed : Option Nat := none  -- `last_used_item`
  brk : Nat
deriving DecidableEq, Repr

/-- What becomes of an item whose hash is in the list (`legacy_h26x_auth.c` 211-222). -/
def matched (i : LItem) (first : Bool) : LItem :=
  if i.second.isSome && !i.need && first then { i with need := true }
  else { i with status := if i.bad then .N else .ok, need := false }

/-- What becomes of an item whose hash is not in the list (`legacy_h26x_auth.c` 243-252). -/
def unmatched (i : LItem) : LItem :=
  if i.second.isSome && !i.need then { i with need := true, bad := true }
  else { i with need := false, status := .N }

/-- The outer loop of `legacy_verify_hashes_with_hash_list` (`legacy_h26x_auth.c` 176-258); `prev` is the address of the
previous item.  Missing items are put before the item they are detected at. -/
def hashListLoop (hs : Nat) (hashes : List Bytes) (sei : Nat) : LList → (prev : Option Nat) → Match → Out (LList × Match)
  | [], _, m => .ok ([], m)
  | x :: r, prev, m =>
    if x.2.status ≠ .P then do
      let (l, m) ← hashListLoop hs hashes sei r (some x.1) m
      .ok (x :: l, m)
    else match x.2.nalu with
      | none => .ub .assertFail
      | some n =>
        let stop := decide (prev = some sei) || (n.firstInGop && !x.2.need)
        if n.gopSei then
          if stop then .ok (x :: r, m)
          else do
            let (l, m) ← hashListLoop hs hashes sei r (some x.1) m
            .ok (x :: l, m)
        else match (if x.2.need then x.2.second else some x.2.hash) with
          | none => .ub .nullDeref
          | some h =>
            let i := Validator.searchFrom (buf hs h) hashes (m.latest + 1).toNat
            let found := decide (i < hashes.length)
            let miss : Int := (i - m.latest) - 1 - m.invalid
            let k := if found then miss.toNat else 0
            let x := (x.1, if found then matched x.2 n.firstInGop else unmatched x.2)
            let new := (List.range' m.brk k).map fun a => (a, LItem.missing)
            let m := { m with
              lastUsed := some x.1, count := m.count + 1, compare := i, brk := m.brk + k
              latest := if found then (i : Int) else m.latest
              invalid := if found then 0 else m.invalid + 1 }
            if stop then .ok (new ++ x :: r, m)
            else do
              let (l, m) ← hashListLoop hs hashes sei r (some x.1) m
              .ok (new ++ x :: l, m)

/-- The part of `legacy_verify_hashes_with_hash_list` after the loop (`legacy_h26x_auth.c` 260-299); `n` is the number of
hashes. -/
def hashListEnd (s : Legacy) (m : Match) (n : Int) (sei : Nat) : Legacy × Bool × Int × Int :=
  let s := if m.latest = -1 then
      match s.list with
      | [] => s
      | f :: _ => s.addMissing (n - m.invalid) (f.2.second.isSome && !f.2.need) f.1
    else s
  let p : Legacy × Int := match m.lastUsed with
    | none => (s, m.count)
    | some a =>
      if m.latest ≠ m.compare then ({ s with list := s.list.set a fun i => { i with bad := true, need := true } }, m.count)
      else
        let unused : Int := n - 1 - m.latest - 1
        (s.addMissing unused true a, if unused ≥ 0 then m.count + 1 else m.count)
  ({ p.1 with list := p.1.list.set sei fun i => { i with status := .ok } }, true, n, p.2)

/-- `legacy_verify_hashes_with_hash_list` (`legacy_h26x_auth.c` 112-300): success, expected and received. -/
def withHashList (s : Legacy) : Res Legacy (Bool × Int × Int) :=
  if s.v.d.hashSize = 0 then .ub .assertFail else
  match nextSei s.list with
  | none => .ok s (false, -1, -1)
  | some sei =>
    if s.v.verified = -1 ∨ s.v.verified = 0 then
      (withoutSei { s with list := s.list.set sei.1 fun i =>
        { i with status := if s.v.verified = 0 then .N else .E } }).andThen fun s ok => .ok s (ok, -1, -1)
    else if s.v.verified ≠ 1 then .ub .assertFail
    else
      let hashes := Validator.chunk s.v.d.hashSize s.v.d.hashList
      match hashListLoop s.v.d.hashSize hashes sei.1 s.list none { brk := s.brk } with
      | .ub u => .ub u
      | .err e => .err s e
      | .ok (l, m) =>
        let r := hashListEnd { s with list := l, brk := m.brk } m hashes.length sei.1
        .ok r.1 r.2

/-- What becomes of an item that is used in the GOP hash (`legacy_h26x_auth.c` 317-328). -/
def settle (st : Status) (i : LItem) : LItem :=
  if i.second.isSome && !i.need then { i with need := true, bad := decide (st ≠ .ok) }
  else { i with status := if i.bad then .N else st, need := false }

/-- `legacy_set_validation_status_of_items_used_in_gop_hash` (`legacy_h26x_auth.c` 302-335): the list. -/
def setStatus (st : Status) (l : LList) : LList :=
  l.map fun x => (x.1, { (if x.2.used then settle st x.2 else x.2) with used := false })

/-- The value returned by `legacy_set_validation_status_of_items_used_in_gop_hash`. -/
def setStatusCount (l : LList) : Nat := (l.filter fun x => x.2.used && !(x.2.second.isSome && !x.2.need)).length

/-- `legacy_verify_hashes_with_gop_hash` (`legacy_h26x_auth.c` 348-400): success, expected and received. -/
def withGopHash (s : Legacy) : Res Legacy (Bool × Int × Int) :=
  if s.v.verified = 1 ∨ s.v.verified = 0 then
    let expected : Int := s.v.d.numSent.toNat
    let received : Int := setStatusCount s.list
    let t := { s with list := setStatus (if s.v.verified = 1 then .ok else .N) s.list }
    match s.list.find? fun x => x.2.used with
    | none => .ok t (true, expected, received)
    | some x =>
      if t.v.flags.first then .ok t (true, expected, received)
      else match x.2.nalu with
        | none => .ub .nullDeref
        | some n => .ok (t.addMissing (expected - received) n.firstInGop x.1) (true, expected, received)
  else s.withoutSei.andThen fun s ok => .ok s (ok, -1, -1)

/-- The choice of the verification (`legacy_h26x_auth.c` 494-508): success, expected and received. -/
def verifyGop (s : Legacy) : Res Legacy (Bool × Int × Int) :=
  if s.v.gop.lost && !s.v.gop.transLost then
    (withoutSei { s with list := clearUsed s.list }).andThen fun s ok => .ok s (ok, -1, -1)
  else if s.v.d.hashType = 1 then s.withHashList
  else s.withGopHash

/-- The verdict of one GOP from the statistics of the list (`legacy_h26x_auth.c` 517-541), before the first validation is
handled. -/
def judge (st : Stats) (first : Bool) (expected : Int) (success : Bool) : Auth :=
  let v := if st.invalid > 0 then Auth.notOk else .ok
  let v := if !first && decide (v = .ok) && decide (expected > 1) && decide ((st.missing : Int) ≥ expected - 1)
    then .notOk else v
  if v = .ok ∧ st.missing > 0 ∧ success = true then .okWithMissing else v

/-- The verdict with the first validation taken into account (`legacy_h26x_auth.c` 547-552). -/
def verdict (st : Stats) (first : Bool) (p : Bool × Int × Int) : Auth :=
  let v := judge st first p.2.1 p.1
  if first ∧ v = .ok ∧ st.hasValid = false then .signaturePresent else v

/-- The part of `legacy_validate_authenticity` after the verification (`legacy_h26x_auth.c` 510-587). If the first validation
is not OK, it is taken back. -/
def conclude (s : Legacy) (p : Bool × Int × Int) : Legacy :=
  let st := getStats s.list
  let v := verdict st s.v.flags.first p
  let retry := s.v.flags.first && decide (v ≠ .ok)
  { s with
    list := if retry then removeMissing s.list else s.list
    v := { s.v with
      synced := if s.v.flags.first then decide (v = .ok) else true
      flags := if retry then { s.v.flags with resetFirst := decide (s.v.d.numSent = 1) } else s.v.flags
      rep := { s.v.rep with latest := { s.v.rep.latest with
        auth := if s.v.rep.latest.keyChanged then .notOk else if retry then .signaturePresent else v
        expected := if retry then -1 else p.2.1
        received := if retry then -1 else p.2.2 } } } }

/-- `legacy_validate_authenticity` (`legacy_h26x_auth.c` 478-588). -/
def validate (s : Legacy) : Res Legacy Unit :=
  s.verifyGop.andThen fun s p => .ok (s.conclude p) ()

/-! ### When to validate -/

/-- The part of `legacy_prepare_for_validation` that decodes a SEI (`legacy_h26x_auth.c` 703-715). The size of the hash is
read before. -/
def decodeNext (env : AuthEnv) (s : Legacy) (x : Nat × LItem) : Res Legacy Unit :=
  if x.2.decoded then .ok s ()
  else
    let hs := s.v.d.hashSize
    match x.2.nalu with
    | none => .ub .nullDeref
    | some n =>
      (s.decodeSei env n.tlvMem n.tlvSize).andThen fun s _ =>
        let s := { s with list := s.list.set x.1 fun i => { i with decoded := true } }
        if s.v.d.hashType = 1 then
          if hs > 64 then .ub .overflow
          else .ok { s with v := { s.v with sigHash := ovl (buf hs x.2.hash) s.v.sigHash } } ()
        else .ok s ()

/-- The part of `legacy_prepare_for_validation` that computes the GOP hash (`legacy_h26x_auth.c` 716-722); `hs` is the size of
the hash before the SEI was decoded. -/
def hashNext (env : AuthEnv) (s : Legacy) (x : Nat × LItem) (hs : Nat) : Res Legacy Unit :=
  if !x.2.used && decide (s.v.d.hashType = 0) then
    (s.computeGop env x).andThen fun s _ =>
      if hs > 64 then .ub .overflow
      else .ok { s with v := { s.v with sigHash := ovl (buf hs s.hashes) s.v.sigHash } } ()
  else .ok s ()

/-- `openssl_verify_hash` (`signed_video_openssl.c` 284-313) on the members in `v`. -/
def verifyHash (env : AuthEnv) (s : Legacy) : Res Legacy Unit := s.onV (s.v.verifyHash env)

/-- `legacy_prepare_for_validation` (`legacy_h26x_auth.c` 692-770) without vendors. -/
def prepare (env : AuthEnv) (s : Legacy) : Res Legacy Unit :=
  let hs := s.v.d.hashSize
  let r : Res Legacy Unit :=
    match nextSei s.list with
    | none => .ok s ()
    | some x => (s.decodeNext env x).andThen fun s _ => s.hashNext env x hs
  r.andThen fun s _ =>
    if s.v.flags.signing && !s.v.d.hasPublicKey then .err s .notSupported
    else if s.v.gop.hasSei then s.verifyHash env
    else match s.list with
      | [] => .ub .nullDeref
      | f :: _ =>
        match f.2.nalu with
        | none => .ub .nullDeref
        | some n => if n.golden then s.verifyHash env else .ok s ()

/-- The loop of `legacy_is_recurrent_data_decoded` (`legacy_h26x_auth.c` 783-791). -/
def recurrentLoop (env : AuthEnv) : LList → Validator → Res Validator Bool
  | [], v => .ok v false
  | x :: r, v =>
    if x.2.dead then .ub .useAfterFree
    else match x.2.nalu with
      | some n =>
        if n.gopSei && decide (x.2.status = .P) then
          (findOptional env v n.tlvMem n.tlvSize).andThen fun v f =>
            if f then .ok v true else recurrentLoop env r v
        else recurrentLoop env r v
      | none => recurrentLoop env r v

/-- `legacy_is_recurrent_data_decoded` (`legacy_h26x_auth.c` 773-795). -/
def recurrentDecoded (env : AuthEnv) (s : Legacy) : Res Legacy Bool :=
  if s.v.d.hasPublicKey || !s.v.flags.signing then .ok s true else s.onV (recurrentLoop env s.list s.v)

/-- The body of the loop of `legacy_has_pending_gop` (`legacy_h26x_auth.c` 814-834) with `legacy_gop_state_update`
(`legacy_h26x_common.c` 592-600). -/
def scanStep (signing : Bool) (c : Validator.Scan) (i : LItem) : Validator.Scan :=
  let c := match i.nalu with
    | none => c
    | some n =>
      let c := if n.valid ≤ 0 ∨ n.isHashable = false then c else { c with hasSei := c.hasSei || n.gopSei }
      if i.status = Status.P ∧ n.isHashable = true then
        { c with
          ends := c.ends + (if n.firstInGop && !i.need then 1 else 0)
          sei := c.sei || n.gopSei
          after := c.after || c.last.getD false
          last := some n.gopSei }
      else c
  { c with found := c.found || (if signing then decide (c.ends > 0) && c.sei else decide (c.ends ≥ 2)) || c.after }

/-- The loop of `legacy_has_pending_gop` (`legacy_h26x_auth.c` 813-835). -/
def scan (signing : Bool) : LList → Validator.Scan → Validator.Scan
  | [], c => c
  | x :: r, c => if c.found then c else scan signing r (scanStep signing c x.2)

/-- `legacy_has_pending_gop` (`legacy_h26x_auth.c` 798-845). -/
def hasPending (s : Legacy) : Legacy × Bool :=
  let c := scan s.v.flags.signing s.list {}
  ({ s with v := { s.v with gop := { hasSei := c.hasSei, afterNext := !c.found && c.last.getD false,
                                      noEnd := c.after && decide (c.ends < 2) } } }, c.found)

/-- The search for the previous hashable item in `legacy_validation_is_feasible` (`legacy_h26x_auth.c` 871-879), on the
items before the last one in reverse order. -/
def afterSei : LList → Out Bool
  | [] => .ok false
  | x :: r =>
    if x.2.dead then .ub .useAfterFree
    else match x.2.nalu with
      | none => afterSei r
      | some n => if n.isHashable then .ok (n.gopSei && decide (x.2.status = .P)) else afterSei r

/-- `legacy_validation_is_feasible` (`legacy_h26x_auth.c` 855-882) on the last item. -/
def feasible (l : LList) : Out Bool :=
  match l.reverse with
  | [] => .ub .nullDeref
  | x :: r =>
    match x.2.nalu with
    | none => .ok false
    | some n =>
      if !n.isHashable || decide (x.2.status ≠ .P) then .ok false
      else if n.gopSei || (n.firstInGop && !x.2.need) then .ok true
      else afterSei r

/-- The latest validation is initialised by each round (`legacy_h26x_auth.c` 923-928). -/
def begin (s : Legacy) : Legacy :=
  { s with v := { s.v with rep := { s.v.rep with latest := { s.v.rep.latest with
    auth := .notOk, expected := -1, received := -1, pending := -1, keyChanged := false } } } }

/-- The first item with the first NAL unit of a GOP is as if it had not been verified yet (`legacy_h26x_auth.c`
944-953). -/
def renew : LList → LList
  | [] => []
  | x :: r => if x.2.isFirst then (x.1, { x.2 with need := false, bad := false }) :: r else x :: renew r

/-- The end of a round (`legacy_h26x_auth.c` 939-960). -/
def finish (s : Legacy) : Legacy :=
  let l := if s.v.flags.resetFirst then renew s.list else s.list
  { s with
    list := l
    v := { s.v with
      verified := -1
      flags := { s.v.flags with first := s.v.flags.resetFirst || !s.v.flags.signing, hasAuth := true }
      rep := { s.v.rep with latest := { s.v.rep.latest with pending := numPending l } } } }

/-- The validation in a round (`legacy_h26x_auth.c` 930-937). -/
def conduct (s : Legacy) : Res Legacy Unit :=
  if s.v.flags.signing then s.validate
  else .ok { s with v := { s.v with rep := { s.v.rep with latest := { s.v.rep.latest with auth := .notSigned } } } } ()

/-- One round of the loop of `legacy_maybe_validate_gop` (`legacy_h26x_auth.c` 922-965), after
`legacy_has_pending_gop`. -/
def round (env : AuthEnv) (s : Legacy) : Res Legacy Unit :=
  (s.begin.prepare env).andThen fun s _ => s.conduct.andThen fun s _ => .ok s.finish ()

/-- The loop of `legacy_maybe_validate_gop` (`legacy_h26x_auth.c` 921-966). -/
def rounds (env : AuthEnv) : Nat → Legacy → Res Legacy Unit
  | 0, _ => .ub .diverge
  | k + 1, s =>
    if s.hasPending.2 then
      (s.hasPending.1.round env).andThen fun s _ =>
        if s.v.flags.signing then rounds env k s else .ok s.hasPending.1 ()
    else .ok s.hasPending.1 ()

/-- The part of `legacy_maybe_validate_gop` for a first SEI that cannot be validated yet (`legacy_h26x_auth.c`
905-914). -/
def firstSei (s : Legacy) : Legacy :=
  { s with v := { s.v with
    rep := { s.v.rep with latest := { s.v.rep.latest with
      auth := .signaturePresent, expected := -1, received := -1, pending := numPending s.list, keyChanged := false } }
    flags := { s.v.flags with hasAuth := true } } }

/-- `legacy_maybe_validate_gop` (`legacy_h26x_auth.c` 886-970). An item with a dangling pointer is read by the loop of
`legacy_has_pending_gop`: no GOP was pending at the end of the call that left it, hence none is found before it.  (If that
call failed in a later round, the loop may stop before the item; this is not distinguished.) -/
def maybeValidate (env : AuthEnv) (s : Legacy) : Res Legacy Unit :=
  match feasible s.list with
  | .ub u => .ub u
  | .err e => .err s e
  | .ok f =>
    (s.recurrentDecoded env).andThen fun s ok =>
      if !(f && ok) then .ok (if s.v.flags.firstSei then s.firstSei else s) ()
      else if s.list.any fun x => x.2.dead then .ub .useAfterFree
      else s.rounds env env.rounds

/-! ### Adding NAL units -/

/-- `legacy_register_nalu` (`legacy_h26x_auth.c` 1001-1010) on the last item. -/
def register (env : AuthEnv) (s : Legacy) (a : Nat) (n : Nalu) : Res Legacy Unit :=
  if n.valid < 0 then .ub .assertFail
  else if n.valid = 0 then .ok s ()
  else match updateHashable n with
    | .ub u => .ub u
    | .err e => .err s e
    | .ok n => hashItem env { s with list := s.list.set a fun i => { i with nalu := some n } } a n

/-- The body of `legacy_sv_add_h26x_nalu` between `SV_TRY` and `SV_CATCH` (`legacy_h26x_auth.c` 1033-1040). -/
def addBody (env : AuthEnv) (s : Legacy) (n : Nalu) : Res Legacy Unit :=
  let a := s.brk
  let s := { s with list := s.list ++ [(a, LItem.new n)], brk := a + 1 }
  if n.valid < 0 then .err s .unknownFailure
  else
    let s := { s with v := { s.v with flags := { s.v.flags with
      firstSei := !s.v.flags.signing && n.gopSei, signing := s.v.flags.signing || n.gopSei } } }
    (s.register env a n).andThen fun s _ => s.maybeValidate env

/-- `legacy_h26x_nalu_list_copy_last_item` (`legacy_h26x_nalu_list.c` 223-267): the status. Unlike the newer function it does
not look for the last item with a NAL unit. -/
def copyLast (s : Legacy) : Res Legacy (Option Rc) :=
  match s.list.getLast? with
  | none => .ub .nullDeref
  | some x =>
    match x.2.nalu with
    | none => .ok s (some .unknownFailure)
    | some n =>
      match Validator.copyNalu true n with
      | .ub u => .ub u
      | .err e => .err s e
      | .ok c => .ok { s with list := s.list.set x.1 fun i => { i with nalu := c } } (if c.isSome then none else some .memory)

/-- Give the last item the status 'E' (`legacy_h26x_auth.c` 1048). -/
def markLast (s : Legacy) : Legacy :=
  match s.list.getLast? with
  | none => s
  | some x => { s with list := s.list.set x.1 fun i => { i with status := .E } }

/-- The item of this call, if it is not the last one, has a pointer to a local variable of `legacy_sv_add_h26x_nalu`
(`legacy_h26x_auth.c` 1024), of which no copy was made. -/
def bury (s : Legacy) (a : Nat) : Legacy :=
  if (s.list.getLast?.map fun x => x.1) = some a then s
  else { s with list := s.list.set a fun i => { i with dead := true } }

/-- The end of `legacy_sv_add_h26x_nalu` (`legacy_h26x_auth.c` 1042-1055); `a` is the address of the item of the call. -/
def addEnd (s : Legacy) (a : Nat) (e : Option Rc) : Res Legacy Unit :=
  s.copyLast.andThen fun s e2 =>
    match (match e with | some e => some e | none => e2) with
    | none => .ok (s.bury a) ()
    | some e => .err (s.markLast.bury a) e

/-- `legacy_sv_add_h26x_nalu` (`legacy_h26x_auth.c` 1018-1055). -/
def addH26x (env : AuthEnv) (s : Legacy) (data : Bytes) : Res Legacy Unit :=
  if data = [] then .err s .invalidParameter
  else match parseNalu data s.v.codec true true with
    | .ub u => .ub u
    | .err e => .err s e
    | .ok n =>
      let s := { s with v := { s.v with
        flags := { s.v.flags with hasAuth := false }
        rep := { s.v.rep with acc := { s.v.rep.acc with received := s.v.rep.acc.received + 1 } } } }
      match s.addBody env n with
      | .ub u => .ub u
      | .err t e => t.addEnd s.brk (some e)
      | .ok t _ => t.addEnd s.brk none

/-- `legacy_update_authenticity_report` (`legacy_h26x_auth.c` 1092-1111). -/
def updateReport (r : Report) (l : LList) : Out (Report × LList) := do
  let types := l.map fun (x : Nat × LItem) => typeChar x.2.nalu
  let statuses := l.map fun (x : Nat × LItem) => x.2.status.char
  let r := { r with latest := { r.latest with naluStr := some types, validationStr := some statuses } }
  let c ← compareVersions (some r.thisVersion) (some r.versionOnSigningSide)
  let r := if c = 2 then { r with latest := { r.latest with auth := .versionMismatch } } else r
  let n := cleanUpCount l
  let r := { r with acc := updateAccumulated r.latest r.acc }
  let r := if r.acc.auth ≠ .notSigned then { r with acc := { r.acc with validated := r.acc.validated + n } } else r
  pure (r, cleanUp l)

/-- The report of `legacy_sv_add_nalu_and_authenticate` (`legacy_h26x_auth.c` 1074-1079). -/
def report (s : Legacy) : Res Legacy (Option Report) :=
  if s.v.flags.hasAuth then
    if s.list.any fun x => x.2.dead then .ub .useAfterFree
    else match updateReport s.v.rep s.list with
    | .ub u => .ub u
    | .err e => .err s e
    | .ok (r, l) =>
      let p := getReport r l.length
      .ok { s with v := { s.v with rep := { p.1 with latest := { p.1.latest with hasTs := false } } }, list := l } (some p.2)
  else .ok s none

/-- `legacy_sv_add_nalu_and_authenticate` (`legacy_h26x_auth.c` 1057-1083) with a report requested.  If none is requested, the
only difference is that the number of pending NAL units in the local report is not written; it is written whenever a
report is handed out. -/
def add (env : AuthEnv) (s : Legacy) (data : Bytes) : Res Legacy (Option Report) :=
  if data = [] then .err s .invalidParameter
  else (s.addH26x env data).andThen fun s _ => s.report

/-- `legacy_sv_reset` (`legacy_h26x_common.c` 910-935) with `legacy_gop_info_reset` (151-159). -/
def reset (env : AuthEnv) (s : Legacy) : Res Legacy Unit :=
  let v := { s.v with
    verified := -1, d := { s.v.d with hashList := [] }, hasRef := false, synced := false
    gop := {}, flags := {}, rep := { s.v.rep with latest := latestInit, acc := accumulatedInit } }
  match resetGopHash env v s.hashes with
  | .ub u => .ub u
  | .err e => .err { s with v := v, list := [] } e
  | .ok b => .ok { s with v := v, list := [], hashes := b } ()

/-- `legacy_sv_create` (`legacy_h26x_common.c` 843-908) from the outer session. -/
def create (env : AuthEnv) (p : Validator) : Out Legacy := do
  let v : Validator := { p with
    list := [], brk := 0
    d := { p.d with
      gopCounter := 0, numSent := 0, hasTimestamp := false, timestamp := 0, hashList := [], encodingStatus := 0
      hashType := 0, arbitrary := []
      publicKey := if p.d.hasPublicKey then p.d.publicKey else []
      hasPublicKey := p.d.hasPublicKey && decide (p.d.publicKey ≠ []) }
    buddies := List.replicate 128 0, hasRef := false, verified := -1, synced := false, gop := {}, flags := {} }
  let b ← resetGopHash env v (List.replicate 128 0)
  .ok { v := v, hashes := b }

end Legacy

/-! ### The two sessions together -/

/-- A validating session with the one for the older format inside it.  `raw` are the NAL units handed to the session by the
address of their items, latest first; they are kept in the items as long as the hash algorithm is not known
(`signed_video_h26x_nalu_list.c` 336-342). -/
structure Session where
  v : Validator
  raw : List (Nat × Bytes) := []
  leg : Option Legacy := none

namespace Session

/-- The loop of `reregister_nalus` (`signed_video_h26x_auth.c` 1089-1103) that passes the NAL units to the new session. -/
def replay (env : AuthEnv) (raw : List (Nat × Bytes)) : NList → Legacy → Res Legacy Unit
  | [], s => .ok s ()
  | x :: r, s =>
    match x.2.nalu with
    | none => .ub .nullDeref
    | some _ =>
      match raw.find? fun y => y.1 = x.1 with
      | none => .ub .nullDeref
      | some y => (s.add env y.2).andThen fun s _ => replay env raw r s

/-- `signed_video_add_nalu_and_authenticate` (`signed_video_h26x_auth.c` 1187-1216) with a report requested.  The call in which
the older format is found creates the session for it and passes it all NAL units so far; that no digest is known to hash
with then is an error. -/
def add (env : AuthEnv) (s : Session) (data : Bytes) : Res Session (Option Report) :=
  match s.leg with
  | some l =>
    match l.add env data with
    | .ok l r => .ok { s with leg := some l } r
    | .err l e => .err { s with leg := some l } e
    | .ub u => .ub u
  | none =>
    let raw := (s.v.brk, data) :: s.raw
    let start (v : Validator) (k : Legacy → Res Legacy (Option Report)) : Res Session (Option Report) :=
      match Legacy.create env v with
      | .ub u => .ub u
      | .err _ => .err { s with v := { v.markLast with legacy := false }, raw := raw } .memory
      | .ok l =>
        match (replay env raw v.list.dropLast l).andThen fun l _ => k l with
        | .ok l r => .ok { s with v := v, raw := raw, leg := some l } r
        | .err l e => .err { s with v := v, raw := raw, leg := some l } e
        | .ub u => .ub u
    match s.v.add env data with
    | .ub u => .ub u
    | .ok v r => if v.legacy then start v fun l => l.add env data else .ok { s with v := v, raw := raw } r
    | .err v e => if v.legacy then start v fun l => .err l e else .err { s with v := v, raw := raw } e

/-- The effect of one call. -/
def call (env : AuthEnv) (s : Session) : AuthCall → Res Session (Option Report)
  | .nalu d => s.add env d
  | .reset =>
    match s.leg with
    | none => .ok { s with v := s.v.reset } none
    | some l =>
      match l.reset env with
      | .ok l _ => .ok { s with v := s.v.reset, leg := some l } none
      | .err l e => .err { s with leg := some l } e
      | .ub u => .ub u
  | .publicKey k =>
    match s.v.setPublicKey env k with
    | .ok v _ => .ok { s with v := v } none
    | .err v e => .err { s with v := v } e
    | .ub u => .ub u

/-- One call with its observation. -/
def step (env : AuthEnv) (s : Session) (c : AuthCall) : Out (Session × AObs) :=
  match s.call env c with
  | .ok s r => .ok (s, ⟨none, r⟩)
  | .err s e => .ok (s, ⟨some e, none⟩)
  | .ub u => .ub u

/-- A sequence of calls. -/
def run (env : AuthEnv) : Session → List AuthCall → Out (Session × List AObs)
  | s, [] => .ok (s, [])
  | s, c :: cs => do
    let (s, o) ← s.step env c
    let (s, os) ← run env s cs
    .ok (s, o :: os)

end Session

/-- A new session. -/
def newSession (env : AuthEnv) (c : Codec) : Session := { v := newValidator env c }

end SV
