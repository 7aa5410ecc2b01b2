import Verif.Model.Out
import Verif.Model.Bytes
/-!
The cryptographic handle with its two hash contexts (`signed_video_openssl.c` 52-67 and 315-560).
-/
namespace SV
namespace Digest

/-- OpenSSL, a parameter of the model.  A digest (`EVP_MD`) is known by a number. -/
structure MdEnv where
  /-- `OBJ_txt2obj`, `EVP_get_digestbyobj` and `i2d_ASN1_OBJECT` on a name or OID: not an object, or an object with its encoded
  OID and its digest, if it has one -/
  byName : Bytes → Option (Bytes × Option Nat)
  /-- `d2i_ASN1_OBJECT` and `EVP_get_digestbyobj` on an encoded OID -/
  byOid : Bytes → Option (Option Nat)
  /-- `EVP_MD_size` -/
  size : Nat → Nat
  /-- `EVP_Digest` -/
  H : Nat → Bytes → Bytes
  /-- "sha256" -/
  default : Bytes

/-- A context (`EVP_MD_CTX`): the digest that it was created with and the bytes so far, or `none` after `EVP_DigestFinal_ex`. -/
structure MdCtx where
  type : Nat
  data : Option Bytes
deriving DecidableEq, Repr

/-- `openssl_crypto_t` (`signed_video_openssl.c` 63-67) with `message_digest_t` (52-58). -/
structure Handle where
  primary : Option MdCtx := none
  secondary : Option MdCtx := none
  oid : Bytes := []
  size : Nat := 0
  type : Option Nat := none
deriving DecidableEq, Repr

/-- The context that is used. -/
def Handle.ctx (s : Handle) (primary : Bool) : Option MdCtx := if primary then s.primary else s.secondary

/-- Set a context. -/
def Handle.setCtx (s : Handle) (primary : Bool) (c : MdCtx) : Handle :=
  if primary then { s with primary := some c } else { s with secondary := some c }

/-- `openssl_init_hash` (`signed_video_openssl.c` 331-350). -/
def initHash (s : Handle) (primary : Bool) : Handle × Option Rc :=
  match s.ctx primary with
  | some c => (s.setCtx primary { c with data := some [] }, none)
  | none =>
    match s.type with
    | none => (s, some .invalidParameter)
    | some t => (s.setCtx primary ⟨t, some []⟩, none)

/-- `openssl_update_hash` (`signed_video_openssl.c` 353-366). A finalized context is refused by OpenSSL 3. -/
def updateHash (s : Handle) (data : Bytes) (primary : Bool) : Handle × Option Rc :=
  if data = [] then (s, some .invalidParameter)
  else match s.ctx primary with
    | none => (s, some .externalError)
    | some c =>
      match c.data with
      | none => (s, some .externalError)
      | some b => (s.setCtx primary { c with data := some (b ++ data) }, none)

/-- `openssl_finalize_hash` (`signed_video_openssl.c` 369-388): the hash, if it was written. -/
def finalizeHash (env : MdEnv) (s : Handle) (primary : Bool) : Handle × Option Rc × Option Bytes :=
  match s.ctx primary with
  | none => (s, some .externalError, none)
  | some c =>
    match c.data with
    | none => (s, some .externalError, none)
    | some b =>
      let h := env.H c.type b
      (s.setCtx primary { c with data := none }, if h.length ≤ 64 then none else some .externalError, some h)

/-- `openssl_hash_data` (`signed_video_openssl.c` 316-328). -/
def hashData (env : MdEnv) (s : Handle) (data : Bytes) : Option Rc × Option Bytes :=
  if data = [] then (some .invalidParameter, none)
  else match s.type with
    | none => (some .invalidParameter, none)
    | some t => (if (env.H t data).length = s.size then none else some .externalError, some (env.H t data))

/-- `openssl_set_hash_algo` (`signed_video_openssl.c` 443-472) with `obj_to_oid_and_type` (416-441); `none` is a NULL pointer. -/
def setAlgo (env : MdEnv) (s : Handle) (name : Option Bytes) : Handle × Option Rc :=
  match env.byName (name.getD env.default) with
  | none => (s, some .invalidParameter)
  | some (_, none) => (s, some .externalError)
  | some (oid, some t) =>
    initHash { primary := none, secondary := none, oid := oid, size := env.size t, type := some t } false

/-- `openssl_set_hash_algo_by_encoded_oid` (`signed_video_openssl.c` 474-505) with `oid_to_type` (392-412).  The size of no digest is
`(size_t)-1`. -/
def setOid (env : MdEnv) (s : Handle) (oid : Bytes) : Handle × Option Rc :=
  if oid = [] then (s, some .invalidParameter)
  else if oid = s.oid then (s, none)
  else match env.byOid oid with
    | none => ({ s with oid := oid }, some .externalError)
    | some none => ({ s with oid := oid, type := none, size := 18446744073709551615 }, none)
    | some (some t) => ({ s with oid := oid, type := some t, size := env.size t }, none)

/-- `openssl_create_handle` (`signed_video_openssl.c` 548-560). -/
def create (env : MdEnv) : Option Handle :=
  match setAlgo env {} (some env.default) with
  | (s, none) => some s
  | _ => none

/-- A call on the handle. -/
inductive Call
  | init (primary : Bool)
  | update (data : Bytes) (primary : Bool)
  | finalize (primary : Bool)
  | hash (data : Bytes)
  | algo (name : Option Bytes)
  | oid (oid : Bytes)
deriving DecidableEq, Repr

/-- What is seen of a call: the return code, and the hash if one was written. -/
structure Ev where
  call : Call
  rc : Option Rc
  hash : Option Bytes := none
deriving DecidableEq, Repr

/-- One call. -/
def step (env : MdEnv) (s : Handle) (c : Call) : Handle × Ev :=
  match c with
  | .init p => ((initHash s p).1, ⟨c, (initHash s p).2, none⟩)
  | .update d p => ((updateHash s d p).1, ⟨c, (updateHash s d p).2, none⟩)
  | .finalize p => ((finalizeHash env s p).1, ⟨c, (finalizeHash env s p).2.1, (finalizeHash env s p).2.2⟩)
  | .hash d => (s, ⟨c, (hashData env s d).1, (hashData env s d).2⟩)
  | .algo n => ((setAlgo env s n).1, ⟨c, (setAlgo env s n).2, none⟩)
  | .oid o => ((setOid env s o).1, ⟨c, (setOid env s o).2, none⟩)

/-- A sequence of calls. -/
def run (env : MdEnv) : Handle → List Call → Handle × List Ev
  | s, [] => (s, [])
  | s, c :: cs => let p := step env s c; ((run env p.1 cs).1, p.2 :: (run env p.1 cs).2)

end Digest
end SV
