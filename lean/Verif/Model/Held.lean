import Verif.Model.Keys
/-!
Memory of a validating session for what it copies from SEIs: the public key, the signature and arbitrary data
(`signed_video_tlv.c`, `signed_video_h26x_auth.c`, `signed_video_openssl.c`).  Each call that can fail has its result as a
parameter.  Only memory is modelled: pointers are blocks of `Keys.Blocks`, and the sizes in the records are parameters instead of
the bytes of a SEI; what is read from a SEI is the subject of `Model/Tlv`.  The functions of `legacy_tlv.c` (298-401 and 442-495) are
the same for an older session; its `legacy_sv_free` (`legacy_h26x_common.c` 938-949) does not free arbitrary data either.
-/
namespace SV
namespace Held
open Keys (Blocks)

/-- The members of `signed_video_t` (`signed_video_internal.h`) and of its `verify_data` for what is copied: blocks come with their
allocated size. -/
structure Sess where
  key : Option (Nat × Nat) := none    -- `pem_public_key.key`
  keySize : Nat := 0                  -- `pem_public_key.key_size`
  ctx : Option Nat := none            -- `verify_data->key`
  sig : Option (Nat × Nat) := none    -- `verify_data->signature`
  maxSig : Nat := 0                   -- `verify_data->max_signature_size`
  arb : Option (Nat × Nat) := none    -- `arbitrary_data`
  arbSize : Nat := 0                  -- `arbitrary_data_size`
  started : Bool := false             -- `authentication_started`
deriving DecidableEq, Repr

/-- Results of the calls in `openssl_public_key_malloc`. -/
structure Pem where
  read : Bool          -- `PEM_read_bio_PUBKEY`
  ctx : Bool           -- `EVP_PKEY_CTX_new`
  init : Bool          -- `EVP_PKEY_verify_init` and the settings for RSA
deriving DecidableEq, Repr

/-- The address of a block. -/
def addr (p : Option (Nat × Nat)) : Option Nat := p.map Prod.fst

/-- `memcpy` (and `memcmp`) of `n` bytes to a block. -/
def write (p : Option (Nat × Nat)) (n : Nat) : Out Unit :=
  match p with
  | none => .ub .nullDeref
  | some (_, c) => if n ≤ c then .ok () else .ub .overflow

/-- `openssl_public_key_malloc` (`signed_video_openssl.c` 150-195) with a text that is not empty; the `BIO` is allocated and freed inside
(166-168). -/
def keyMalloc (b : Blocks) (old : Option Nat) (c : Pem) : Out (Blocks × Option Nat × Bool) :=
  if !c.read then .ok (b, old, false)
  else
    let pkey := b.next
    let b := b.alloc
    if !c.ctx then b.free (some pkey) >>= fun b => .ok (b, old, false)
    else
      let ctx := b.next
      let b := b.alloc
      if !c.init then b.free (some ctx) >>= fun b => b.free (some pkey) >>= fun b => .ok (b, old, false)
      else b.free old >>= fun b => b.free (some pkey) >>= fun b => .ok (b, some ctx, true)

/-- `decode_public_key` (`signed_video_tlv.c` 695-757) without vendors: version, `data_size`, the result of `calloc`. -/
def decKey (b : Blocks) (s : Sess) (version size : Nat) (alloc : Bool) (c : Pem) : Out (Blocks × Sess × Bool) :=
  let n := if version < 2 then (size + 65534) % 65536 else (size + 65535) % 65536
  if version = 0 then .ok (b, s, false)
  else if n = 0 then .ok (b, s, false)
  else
    (if s.keySize ≠ n then
      b.free (addr s.key) >>= fun b =>
        if alloc then .ok (b.alloc, { s with key := some (b.next, n), keySize := n }, true)
        else .ok (b, { s with key := none }, false)
     else .ok (b, s, true)) >>= fun (r : Blocks × Sess × Bool) =>
    if !r.2.2 then .ok (r.1, r.2.1, false)
    else
      write r.2.1.key n >>= fun _ =>
      keyMalloc r.1 r.2.1.ctx c >>= fun (q : Blocks × Option Nat × Bool) =>
      .ok (q.1, { r.2.1 with ctx := q.2.1 }, q.2.2 && decide (n + (if version < 2 then 2 else 1) = size))

/-- `SV_CATCH` of `decode_arbitrary_data` (`signed_video_tlv.c` 632-636). -/
def arbFailed (b : Blocks) (s : Sess) : Out (Blocks × Sess × Bool) :=
  b.free (addr s.arb) >>= fun b => .ok (b, { s with arb := none, arbSize := 0 }, false)

/-- `decode_arbitrary_data` (`signed_video_tlv.c` 607-640): version, `data_size`, the result of `realloc`. -/
def decArb (b : Blocks) (s : Sess) (version size : Nat) (alloc : Bool) : Out (Blocks × Sess × Bool) :=
  let n := (size + 65535) % 65536
  if version = 0 then arbFailed b s
  else if n = 0 then arbFailed b s
  else if !alloc then arbFailed b s
  else
    b.free (addr s.arb) >>= fun b =>
    let p := some (b.next, n)
    let b := b.alloc
    write p n >>= fun _ =>
    let s := { s with arb := p, arbSize := n }
    if n + 1 ≠ size then arbFailed b s else .ok (b, s, true)

/-- `decode_signature` (`signed_video_tlv.c` 895-948): version and type of hash are accepted or not, `data_size`, size of the signature,
the result of `malloc`. A `data_size` below 5 wraps around, and memory of that size cannot be allocated. -/
def decSig (b : Blocks) (s : Sess) (accepted : Bool) (size sz : Nat) (alloc : Bool) : Out (Blocks × Sess × Bool) :=
  if !accepted then .ok (b, s, false)
  else
    let mx := (size + (2 ^ 64 - 5)) % 2 ^ 64
    if mx < sz then .ok (b, s, false)
    else
      let r : Blocks × Sess × Bool :=
        match s.sig with
        | some _ => (b, s, true)
        | none =>
          if alloc && decide (5 ≤ size) then (b.alloc, { s with sig := some (b.next, mx), maxSig := mx }, true)
          else (b, { s with maxSig := 0 }, false)
      if !r.2.2 then .ok (r.1, r.2.1, false)
      else if r.2.1.maxSig ≠ mx then .ok (r.1, r.2.1, false)
      else write r.2.1.sig mx >>= fun _ => .ok (r.1, r.2.1, true)

/-- `signed_video_set_public_key` (`signed_video_h26x_auth.c` 1218-1240): the size of the key, the result of `malloc`. -/
def setKey (b : Blocks) (s : Sess) (size : Nat) (alloc : Bool) (c : Pem) : Out (Blocks × Sess × Bool) :=
  if size = 0 then .ok (b, s, false)
  else if s.key.isSome then .ok (b, s, false)
  else if s.started then .ok (b, s, false)
  else if !alloc then .ok (b, { s with key := none }, false)
  else
    let s := { s with key := some (b.next, size) }
    let b := b.alloc
    write s.key size >>= fun _ =>
    let s := { s with keySize := size }
    keyMalloc b s.ctx c >>= fun (q : Blocks × Option Nat × Bool) => .ok (q.1, { s with ctx := q.2.1 }, q.2.2)

/-- What happens to these members while a session is used: records of SEIs are decoded, in any order, and the user sets a key. -/
inductive Op
  | key (version size : Nat) (alloc : Bool) (c : Pem)
  | arb (version size : Nat) (alloc : Bool)
  | sig (accepted : Bool) (size sz : Nat) (alloc : Bool)
  | setKey (size : Nat) (alloc : Bool) (c : Pem)
deriving DecidableEq, Repr

/-- One of these. Records are decoded in `signed_video_add_nalu_and_authenticate`, which sets `authentication_started`
(`signed_video_h26x_auth.c` 1195). -/
def op (b : Blocks) (s : Sess) : Op → Out (Blocks × Sess × Bool)
  | .key v n a c => decKey b { s with started := true } v n a c
  | .arb v n a => decArb b { s with started := true } v n a
  | .sig ok n sz a => decSig b { s with started := true } ok n sz a
  | .setKey n a c => setKey b s n a c

/-- A history of these. -/
def ops (b : Blocks) (s : Sess) : List Op → Out (Blocks × Sess)
  | [] => .ok (b, s)
  | o :: os => op b s o >>= fun (r : Blocks × Sess × Bool) => ops r.1 r.2.1 os

/-- `signed_video_free` (`signed_video_h26x_common.c` 1230-1263) with `sign_or_verify_data_free` (156-165) for these members. -/
def close (b : Blocks) (s : Sess) : Out Blocks :=
  b.free s.ctx >>= fun b => b.free (addr s.sig) >>= fun b => b.free (addr s.key)

end Held
end SV
