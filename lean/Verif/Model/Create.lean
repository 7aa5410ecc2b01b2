import Verif.Model.Keys
/-!
Making and freeing a session, and what the crypto handle allocates in between (`signed_video_h26x_common.c`,
`signed_video_openssl.c`, `sv_vendor_axis_communications.c`, `signed_video_h26x_nalu_list.c`).  Each call that can fail has its
result as a parameter.  Only memory is modelled: pointers are blocks of `Keys.Blocks`, values of other members are left out.
Members that are NULL from `signed_video_create` to `signed_video_free` here (`legacy_sv`, `plugin_handle`, `sei_data_buffer`,
`authenticity`, product information, `pem_public_key`, keys and signatures) are left out; the functions that free them do
nothing for NULL.
-/
namespace SV
namespace Create
open Keys (Blocks)

/-- `openssl_crypto_t` (`signed_video_openssl.c` 63-67): the handle, its two contexts and the encoded OID. -/
structure Handle where
  block : Nat
  primary : Option Nat := none
  secondary : Option Nat := none
  oid : Option Nat := none
deriving DecidableEq, Repr

/-- Results of the calls in `openssl_set_hash_algo`. -/
structure Try where
  /-- `OBJ_txt2obj`: no object, or an object and if it had to be allocated (`true`, for text that is not a name) -/
  obj : Option Bool
  digest : Bool        -- `EVP_get_digestbyobj`
  oid : Bool           -- `i2d_ASN1_OBJECT`
  ctx : Bool           -- `EVP_MD_CTX_new`
  init : Bool          -- `EVP_DigestInit_ex`
deriving DecidableEq, Repr

/-- `openssl_init_hash` (`signed_video_openssl.c` 331-350); `ctx` also stands for a `type` that is not NULL (342). -/
def initHash (b : Blocks) (h : Handle) (primary ctx init : Bool) : Blocks × Handle × Bool :=
  let old := if primary then h.primary else h.secondary
  match old with
  | some _ => (b, h, init)
  | none =>
    if ctx then
      let h := if primary then { h with primary := some b.next } else { h with secondary := some b.next }
      (b.alloc, h, init)
    else (b, h, false)

/-- `openssl_set_hash_algo` (`signed_video_openssl.c` 443-472) with `obj_to_oid_and_type` (415-441).  The object of
`OBJ_txt2obj` is not freed. -/
def setAlgo (b : Blocks) (h : Handle) (t : Try) : Out (Blocks × Handle × Bool) :=
  match t.obj with
  | none => .ok (b, h, false)
  | some new =>
    let b := if new then b.alloc else b
    if !t.digest then .ok (b, h, false)
    else if !t.oid then .ok (b, h, false)
    else
      let p := b.next
      let b := b.alloc
      b.free h.oid >>= fun b =>
      b.free h.primary >>= fun b =>
      b.free h.secondary >>= fun b =>
      .ok (initHash b { h with oid := some p, primary := none, secondary := none } false t.ctx t.init)

/-- `openssl_set_hash_algo_by_encoded_oid` (`signed_video_openssl.c` 474-504) with `oid_to_type` (390-412), which frees its
object: the OID is the one in use, `malloc` succeeds, the OID can be decoded. -/
def setByOid (b : Blocks) (h : Handle) (same malloc decoded : Bool) : Out (Blocks × Handle × Bool) :=
  if same then .ok (b, h, true)
  else
    b.free h.oid >>= fun b =>
    if malloc then .ok (b.alloc, { h with oid := some b.next }, decoded)
    else .ok (b, { h with oid := none }, false)

/-- `openssl_free_handle` (`signed_video_openssl.c` 563-572). -/
def freeHandle (b : Blocks) : Option Handle → Out Blocks
  | none => .ok b
  | some h =>
    b.free h.primary >>= fun b =>
    b.free h.secondary >>= fun b =>
    b.free h.oid >>= fun b =>
    b.free (some h.block)

/-- The parts of the Axis vendor handle (`sv_vendor_axis_communications.c` 107-124) that are there after set up. -/
structure Vendor where
  block : Nat
  ca : Option Nat
deriving DecidableEq, Repr

/-- `sign_or_verify_data_t` (`signed_video_openssl.h` 71-78) without key and signature. -/
structure Data where
  block : Nat
  hash : Nat
deriving DecidableEq, Repr

/-- `signed_video_t` (`signed_video_internal.h`), the members that are allocated. -/
structure Sess where
  block : Nat
  product : Option Nat := none
  handle : Option Handle := none
  gop : Option Nat := none
  vendor : Option Vendor := none
  sign : Option Data := none
  last : Option Nat := none
  list : Option Nat := none
  verify : Option Data := none
deriving DecidableEq, Repr

/-- Results of the calls in `signed_video_create`. -/
structure Can where
  axis : Bool          -- built with `SV_VENDOR_AXIS_COMMUNICATIONS`
  codec : Bool         -- the codec is in range
  self : Bool
  product : Bool
  handle : Bool
  known : Bool         -- `OBJ_txt2obj` of the default algorithm, a name
  digest : Bool
  oid : Bool
  ctx : Bool
  init : Bool
  size : Nat           -- `EVP_MD_size`
  gop : Bool
  vendor : Bool
  bio : Bool
  puts : Bool
  ca : Bool
  sign : Bool
  signHash : Bool
  last : Bool
  list : Bool
  verify : Bool
  verifyHash : Bool
deriving DecidableEq, Repr

/-- `openssl_create_handle` (`signed_video_openssl.c` 547-560). -/
def createHandle (b : Blocks) (c : Can) : Out (Blocks × Option Handle) :=
  if !c.handle then .ok (b, none)
  else
    let h : Handle := { block := b.next }
    setAlgo b.alloc h
      { obj := if c.known then some false else none, digest := c.digest, oid := c.oid, ctx := c.ctx, init := c.init }
      >>= fun (b, h, ok) =>
    if ok then .ok (b, some h)
    else freeHandle b (some h) >>= fun b => .ok (b, none)

/-- `sv_vendor_axis_communications_teardown` (`sv_vendor_axis_communications.c` 506-517). -/
def vendorTeardown (b : Blocks) : Option Vendor → Out Blocks
  | none => .ok b
  | some v => b.free v.ca >>= fun b => b.free (some v.block)

/-- `sv_vendor_axis_communications_setup` (`sv_vendor_axis_communications.c` 476-504). -/
def vendorSetup (b : Blocks) (c : Can) : Out (Blocks × Option Vendor) :=
  if !c.vendor then .ok (b, none)
  else
    let v := b.next
    let b := b.alloc
    (if c.bio then
      let bio := b.next
      let b := b.alloc
      let ca := if c.puts && c.ca then some b.next else none
      let b := if c.puts && c.ca then b.alloc else b
      b.free (some bio) >>= fun b => Out.ok (b, ca)
    else .ok (b, none)) >>= fun (b, ca) =>
    match ca with
    | some p => .ok (b, some { block := v, ca := some p })
    | none => vendorTeardown b (some { block := v, ca := none }) >>= fun b => .ok (b, none)

/-- `sign_or_verify_data_create` (`signed_video_h26x_common.c` 140-154). -/
def dataCreate (b : Blocks) (self hash : Bool) : Out (Blocks × Option Data) :=
  if !self then .ok (b, none)
  else
    let p := b.next
    let b := b.alloc
    if hash then .ok (b.alloc, some { block := p, hash := b.next })
    else b.free (some p) >>= fun b => .ok (b, none)

/-- `sign_or_verify_data_free` (`signed_video_h26x_common.c` 156-165). -/
def dataFree (b : Blocks) : Option Data → Out Blocks
  | none => .ok b
  | some d => b.free (some d.hash) >>= fun b => b.free (some d.block)

/-- `signed_video_free` (`signed_video_h26x_common.c` 1229-1263). -/
def free (b : Blocks) : Option Sess → Out Blocks
  | none => .ok b
  | some s =>
    vendorTeardown b s.vendor >>= fun b =>
    freeHandle b s.handle >>= fun b =>
    b.free s.last >>= fun b =>
    b.free s.list >>= fun b =>
    b.free s.product >>= fun b =>
    b.free s.gop >>= fun b =>
    dataFree b s.sign >>= fun b =>
    dataFree b s.verify >>= fun b =>
    b.free (some s.block)

/-- `SV_CATCH` in `signed_video_create` (`signed_video_h26x_common.c` 1185-1189). -/
def failed (b : Blocks) (s : Option Sess) : Out (Blocks × Option Sess) := free b s >>= fun b => .ok (b, none)

/-- `signed_video_create` (`signed_video_h26x_common.c` 1156-1194), from the members for signing on. -/
def createData (b : Blocks) (c : Can) (s : Sess) : Out (Blocks × Option Sess) :=
  dataCreate b c.sign c.signHash >>= fun (b, d) =>
  match d with
  | none => .ub .nullDeref
  | some d =>
    let s := { s with sign := some d }
    if c.size ≠ 32 then failed b (some s)
    else if !c.last then failed b (some s)
    else
      let s := { s with last := some b.next }
      let b := b.alloc
      let s := { s with list := if c.list then some b.next else none }
      let b := if c.list then b.alloc else b
      dataCreate b c.verify c.verifyHash >>= fun (b, d) =>
      match d with
      | none => .ub .nullDeref
      | some d => .ok (b, some { s with verify := some d })

/-- `signed_video_create` (`signed_video_h26x_common.c` 1117-1194). -/
def create (b : Blocks) (c : Can) : Out (Blocks × Option Sess) :=
  if !c.codec then failed b none
  else if !c.self then failed b none
  else
    let s : Sess := { block := b.next }
    let b := b.alloc
    if !c.product then failed b (some s)
    else
      let s := { s with product := some b.next }
      let b := b.alloc
      createHandle b c >>= fun (b, h) =>
      match h with
      | none => failed b (some s)
      | some h =>
        let s := { s with handle := some h }
        if !c.gop then failed b (some s)
        else
          let s := { s with gop := some b.next }
          let b := b.alloc
          if c.axis then
            vendorSetup b c >>= fun (b, v) =>
            match v with
            | none => failed b (some s)
            | some v => createData b c { s with vendor := some v }
          else createData b c s

/-- What a session does with its crypto handle. -/
inductive Op
  /-- `signed_video_set_hash_algo` -/
  | algo (t : Try)
  /-- the TLV with the algorithm in a SEI (`signed_video_tlv.c` 1011) -/
  | oid (same malloc decoded : Bool)
  /-- `openssl_init_hash` -/
  | hash (primary ctx init : Bool)
deriving DecidableEq, Repr

/-- A call with the crypto handle of the session. -/
def opHandle (b : Blocks) (h : Handle) : Op → Out (Blocks × Handle × Bool)
  | .algo t => setAlgo b h t
  | .oid same malloc decoded => setByOid b h same malloc decoded
  | .hash primary ctx init => .ok (initHash b h primary ctx init)

/-- One call; functions given no handle return (`signed_video_openssl.c` 334, 447, 480). -/
def op (b : Blocks) (s : Sess) (o : Op) : Out (Blocks × Sess) :=
  match s.handle with
  | none => .ok (b, s)
  | some h => opHandle b h o >>= fun (b, h, _) => .ok (b, { s with handle := some h })

/-- A history of calls, whatever they return. -/
def ops (b : Blocks) (s : Sess) : List Op → Out (Blocks × Sess)
  | [] => .ok (b, s)
  | o :: l => op b s o >>= fun (b, s) => ops b s l

end Create
end SV
