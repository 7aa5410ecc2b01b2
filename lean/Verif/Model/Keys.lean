import Verif.Model.Unthreaded
/-!
Private keys of a signing session: the key of the session and the unthreaded plugin (`signed_video_openssl.c`,
`signed_video_h26x_sign.c`, `plugin.c` of the unthreaded plugin), with the blocks of memory that belong to them.  Keys are
known by their PEM text.  Memory allocation is assumed to succeed.
-/
namespace SV
namespace Keys

/-- Blocks of memory, OpenSSL objects included: addresses below `next` have been allocated, those in `live` have not been
freed. -/
structure Blocks where
  next : Nat := 0
  live : List Nat := []
deriving DecidableEq, Repr

/-- `malloc`, `calloc`, `EVP_PKEY_CTX_new`. -/
def Blocks.alloc (b : Blocks) : Blocks := { next := b.next + 1, live := b.next :: b.live }

/-- `free`, `EVP_PKEY_CTX_free`. -/
def Blocks.free (b : Blocks) : Option Nat → Out Blocks
  | none => .ok b
  | some p => if p ∈ b.live then .ok { b with live := b.live.erase p } else .ub .useAfterFree

/-- A private key that could be read (`EVP_PKEY`). -/
structure Pkey where
  size : Nat           -- `EVP_PKEY_size`
  usable : Bool        -- a context can be created and set up for signing
  pub : Option Bytes   -- `PEM_write_bio_PUBKEY`
deriving DecidableEq, Repr

/-- OpenSSL, a parameter of the model. -/
structure KeyEnv where
  /-- `PEM_read_bio_PrivateKey` -/
  read : Bytes → Option Pkey
  /-- `EVP_PKEY_sign` with a key, randomness and a hash -/
  sign : Bytes → Nat → Bytes → Option Bytes

/-- `sign_or_verify_data_t` (`signed_video_openssl.h` 71-78) without the hash: the block for the signature with its allocated
size, `max_signature_size`, and the context of the key with the PEM text that it comes from. -/
structure SignData where
  signature : Option (Nat × Nat) := none
  max : Nat := 0
  key : Option (Nat × Bytes) := none
deriving DecidableEq, Repr

/-- The part of `openssl_private_key_malloc` for a failure (`signed_video_openssl.c` 134-140): the block of the signature is
freed, whether or not it is the one that was allocated before the failure. `ctx` is the context if there is one. -/
def keyFailed (b : Blocks) (d : SignData) (ctx : Option Nat) : Out (Blocks × SignData × Option Rc) := do
  let b ← b.free (d.signature.map Prod.fst)
  let b ← b.free ctx
  .ok (b, { d with signature := none }, some .externalError)

/-- `openssl_private_key_malloc` (`signed_video_openssl.c` 95-146). The `EVP_PKEY` is freed in any case and left out. -/
def privateKeyMalloc (env : KeyEnv) (b : Blocks) (d : SignData) (pem : Bytes) : Out (Blocks × SignData × Option Rc) :=
  if pem = [] then .ok (b, d, some .invalidParameter)
  else match env.read pem with
    | none => keyFailed b d none
    | some k =>
      if k.size = 0 then keyFailed b d none
      else
        let d := { d with signature := some (b.next, k.size) }
        let ctx := b.alloc.next
        let b := b.alloc.alloc
        if !k.usable then keyFailed b d (some ctx)
        else .ok (b, { d with max := k.size, key := some (ctx, pem) }, none)

/-- The handle of the unthreaded plugin (`plugin.c` 51-55): its block, its own sign data and its buffer of signatures.  The
memory of the buffer is in `Unthreaded.St`. -/
structure Plug where
  block : Nat
  d : SignData
  st : Unthreaded.St

/-- `sv_signing_plugin_session_teardown` (`plugin.c` 192-202). -/
def teardown (b : Blocks) : Option Plug → Out Blocks
  | none => .ok b
  | some p => do
    let b ← b.free (p.d.key.map Prod.fst)
    let b ← b.free (p.d.signature.map Prod.fst)
    b.free (some p.block)

/-- `sv_signing_plugin_session_setup` (`plugin.c` 168-182). -/
def setup (env : KeyEnv) (b : Blocks) (pem : Bytes) : Out (Blocks × Option Plug) := do
  if pem = [] then .ok (b, none) else
  let p := b.next
  let (b, d, rc) ← privateKeyMalloc env b.alloc {} pem
  match rc with
  | some _ => do
    let b ← teardown b (some ⟨p, d, Unthreaded.init d.max⟩)
    .ok (b, none)
  | none => .ok (b, some ⟨p, d, Unthreaded.init d.max⟩)

/-- The members of a session that belong to its key (`signed_video_internal.h`): `sign_data`, `pem_public_key` with its block,
and the plugin. -/
structure Sess where
  b : Blocks := {}
  d : SignData := {}
  pub : Option (Nat × Bytes) := none
  plug : Option Plug := none

/-- `openssl_read_pubkey_from_private_key` (`signed_video_openssl.c` 198-240). -/
def readPub (env : KeyEnv) (s : Sess) : Out (Sess × Option Rc) :=
  match s.d.key with
  | none => do
    let b ← s.b.free (s.pub.map Prod.fst)
    .ok ({ s with b := b, pub := none }, some .invalidParameter)
  | some (_, pem) =>
    match (env.read pem).bind Pkey.pub with
    | none => do
      let b ← s.b.free (s.pub.map Prod.fst)
      .ok ({ s with b := b, pub := none }, some .externalError)
    | some [] => do
      let b ← s.b.free (s.pub.map Prod.fst)
      .ok ({ s with b := b, pub := none }, some .externalError)
    | some (x :: xs) => do
      let n := s.b.next
      let b ← s.b.alloc.free (s.pub.map Prod.fst)
      .ok ({ s with b := b, pub := some (n, x :: xs) }, none)

/-- The end of `signed_video_set_private_key_new` (`signed_video_h26x_sign.c` 821-825). -/
def dropKey (s : Sess) (rc : Option Rc) : Out (Sess × Option Rc) := do
  let b ← s.b.free (s.d.key.map Prod.fst)
  .ok ({ s with b := b, d := { s.d with key := none } }, rc)

/-- `signed_video_set_private_key_new` (`signed_video_h26x_sign.c` 803-826). The handle of the plugin is overwritten. -/
def setKey (env : KeyEnv) (s : Sess) (pem : Bytes) : Out (Sess × Option Rc) := do
  if pem = [] then .ok (s, some .invalidParameter) else
  let (b, d, rc) ← privateKeyMalloc env s.b s.d pem
  let s := { s with b := b, d := d }
  match rc with
  | some e => dropKey s (some e)
  | none => do
    let (s, rc) ← readPub env s
    match rc with
    | some e => dropKey s (some e)
    | none => do
      let (b, p) ← setup env s.b pem
      dropKey { s with b := b, plug := p } (if p.isSome then none else some .externalError)

/-- `sv_signing_plugin_sign` (`plugin.c` 130-136) for the plugin of the session. -/
def submit (env : KeyEnv) (s : Sess) (hash : Bytes) (r : Nat) : Out (Sess × Option Rc) :=
  match s.plug with
  | none => .ok (s, some .invalidParameter)
  | some p =>
    match p.d.key with
    | none => .ok (s, some .invalidParameter)
    | some (_, pem) => do
      let (st, rc) ← Unthreaded.submit (env.sign pem) p.st (some hash) r true
      .ok ({ s with plug := some { p with st := st } }, rc)

/-- `sv_signing_plugin_get_signature` (`plugin.c` 140-166) with the memory that the session has for the signature
(`signed_video_h26x_sign.c` 568-569). -/
def fetch (s : Sess) : Out (Sess × Option Bytes) :=
  match s.plug with
  | none => .ok (s, none)
  | some p =>
    match s.d.signature with
    | none => .ok (s, none)
    | some (_, n) => do
      let (st, sig) ← Unthreaded.fetch p.st s.d.max
      match sig with
      | none => .ok ({ s with plug := some { p with st := st } }, none)
      | some x =>
        if x.length > n then .ub .overflow
        else .ok ({ s with plug := some { p with st := st } }, some x)

/-- `signed_video_free` (`signed_video_h26x_common.c` 1229-1261) with `sign_or_verify_data_free` (156-165) on these members. -/
def close (s : Sess) : Out Blocks := do
  let b ← teardown s.b s.plug
  let b ← b.free (s.d.key.map Prod.fst)
  let b ← b.free (s.d.signature.map Prod.fst)
  b.free (s.pub.map Prod.fst)

/-- A call. -/
inductive Call
  | key (pem : Bytes)
  | submit (hash : Bytes) (r : Nat)
  | fetch
deriving DecidableEq, Repr

/-- What is seen of a call. -/
inductive Ev
  | key (pem : Bytes) (rc : Option Rc)
  | submit (hash : Bytes) (rc : Option Rc)
  | fetch (sig : Option Bytes)
deriving DecidableEq, Repr

/-- One call. -/
def step (env : KeyEnv) (s : Sess) : Call → Out (Sess × Ev)
  | .key pem => do let (s, rc) ← setKey env s pem; .ok (s, .key pem rc)
  | .submit h r => do let (s, rc) ← submit env s h r; .ok (s, .submit h rc)
  | .fetch => do let (s, x) ← fetch s; .ok (s, .fetch x)

/-- A sequence of calls. -/
def run (env : KeyEnv) : Sess → List Call → Out (Sess × List Ev)
  | s, [] => .ok (s, [])
  | s, c :: cs => do
    let (s, e) ← step env s c
    let (s, es) ← run env s cs
    .ok (s, e :: es)

/-! ### Generated keys -/

/-- `get_path_to_key` (`signed_video_openssl.c` 680-694) with a zero terminated string without its zero. The memory has room for
both strings, a slash and the terminating zero. -/
def pathToKey (dir file : Bytes) : Out Bytes :=
  let room := dir.length + file.length + 2
  let put (s : Bytes) : Out Bytes := if s.length + 1 > room then .ub .overflow else .ok s
  do
  let s ← put dir
  match dir.getLast? with
  | none => .ub .overread  -- `dir_to_key[-1]`
  | some c => do
    let s ← if c ≠ 47 then put (s ++ [47]) else .ok s
    put (s ++ file)

end Keys
end SV
