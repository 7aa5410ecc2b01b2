import Verif.Model.Keys
/-!
Generation of private keys (`signed_video_openssl.c` 574-766), with the files and the blocks of memory involved.  Here memory allocation, OpenSSL and the
file system may fail.
-/
namespace SV
namespace KeyGen
open Keys

/-- `sign_algo_t` (`signed_video_openssl.h` 44) as far as a key can be generated. -/
inductive Algo
  | rsa | ecdsa
deriving DecidableEq, Repr

/-- What lies outside of the code, a parameter of the model. -/
structure GenEnv where
  /-- `EVP_RSA_gen`, `EVP_EC_gen`: the PEM text of the new key -/
  gen : Algo → Option Bytes
  /-- `calloc` of the path succeeds -/
  pathMem : Bool
  /-- `fopen` succeeds -/
  opens : Bytes → Bool
  /-- `PEM_write_PrivateKey` succeeds -/
  writes : Bool
  /-- what is in a file after `fclose` if this text was written to it; a buffer may be written only now -/
  stored : Bytes → Bytes → Bytes
  /-- `BIO_new` succeeds -/
  bio : Bool
  /-- `PEM_write_bio_PrivateKey` succeeds -/
  bioWrites : Bool
  /-- `malloc` of the key succeeds -/
  keyMem : Bool

/-- The files, known by their path, and the blocks of memory (a `FILE`, `BIO` or `EVP_PKEY` is a block). -/
structure World where
  files : Bytes → Option Bytes
  blocks : Blocks

/-- A file gets a content or is removed. -/
def World.setFile (w : World) (p : Bytes) (c : Option Bytes) : World := { w with files := fun q => if q = p then c else w.files q }

/-- `free` and the like. -/
def World.free (w : World) (p : Option Nat) : Out World := do
  let b ← w.blocks.free p
  .ok { w with blocks := b }

/-- `malloc` and the like. -/
def World.alloc (w : World) : World := { w with blocks := w.blocks.alloc }

/-- `write_private_key_to_file` (`signed_video_openssl.c` 576-599). Opening the file empties it. The result of `fclose` is not looked at. -/
def writeFile (env : GenEnv) (w : World) (path : Option Bytes) (pem : Bytes) : Out (World × Option Rc) :=
  match path with
  | none => .ok (w, none)
  | some p =>
    if !env.opens p then .ok (w, some .externalError)
    else
      let f := w.blocks.next
      let w := (w.setFile p (some [])).alloc
      if !env.writes then do
        let w ← (w.setFile p none).free (some f)
        .ok (w, some .externalError)
      else do
        let w ← (w.setFile p (some (env.stored p pem))).free (some f)
        .ok (w, none)

/-- `write_private_key_to_buffer` (`signed_video_openssl.c` 601-632). The second argument is never NULL in the calls that exist. -/
def writeBuffer (env : GenEnv) (w : World) (pem : Bytes) : Out (World × Option (Nat × Bytes) × Option Rc) :=
  if !env.bio then .ok (w, none, some .externalError)
  else
    let b := w.blocks.next
    let w := w.alloc
    if !env.bioWrites || pem.isEmpty then do
      let w ← w.free (some b)
      .ok (w, none, some .externalError)
    else if !env.keyMem then do
      let w ← w.free (some b)
      .ok (w, none, some .memory)
    else do
      let p := w.blocks.next
      let w ← w.alloc.free (some b)
      .ok (w, some (p, pem), none)

/-- `create_rsa_private_key` (`signed_video_openssl.c` 634-654) and `create_ecdsa_private_key` (656-676). -/
def createKey (env : GenEnv) (w : World) (a : Algo) (path : Option Bytes) : Out (World × Option (Nat × Bytes) × Option Rc) :=
  match env.gen a with
  | none => .ok (w, none, some .externalError)
  | some pem =>
    let k := w.blocks.next
    do
    let (w, e) ← writeFile env w.alloc path pem
    match e with
    | some e => do
      let w ← w.free (some k)
      .ok (w, none, some e)
    | none => do
      let (w, m, e) ← writeBuffer env w pem
      let w ← w.free (some k)
      .ok (w, m, e)

/-- A zero terminated string without its zero. -/
def ascii (s : String) : Bytes := s.toList.map fun c => UInt8.ofNat c.toNat

/-- `PRIVATE_RSA_KEY_FILE` and `PRIVATE_ECDSA_KEY_FILE` (`signed_video_openssl.c` 80-81). -/
def fileName : Algo → Bytes
  | .rsa => ascii "private_rsa_key.pem"
  | .ecdsa => ascii "private_ecdsa_key.pem"

/-- The path in `signed_video_generate_ecdsa_private_key` (`signed_video_openssl.c` 703-707) and its block, with `get_path_to_key` (680-694). -/
def makePath (env : GenEnv) (w : World) (a : Algo) : Option Bytes → Out (World × Option (Nat × Bytes))
  | none => .ok (w, none)
  | some d =>
    if !env.pathMem then .ok (w, none)
    else do
      let p ← pathToKey d (fileName a)
      .ok (w.alloc, some (w.blocks.next, p))

/-- `signed_video_generate_ecdsa_private_key` (`signed_video_openssl.c` 696-720) and `signed_video_generate_rsa_private_key` (722-746). `key` and `size` tell whether
these arguments are given.  The result has what is written to them: nothing, or a pointer (maybe NULL) to a key of the size given. -/
def generate (env : GenEnv) (w : World) (a : Algo) (dir : Option Bytes) (key size : Bool) : Out (World × Option (Option (Nat × Bytes)) × Option Rc) :=
  if dir.isNone && (!key || !size) then .ok (w, none, some .invalidParameter)
  else do
    let (w, path) ← makePath env w a dir
    let (w, m, e) ← createKey env w a (path.map Prod.snd)
    let w ← w.free (path.map Prod.fst)
    if key && size then .ok (w, some m, e)
    else do
      let w ← w.free (m.map Prod.fst)
      .ok (w, none, e)

/-- `signed_video_generate_private_key` (`signed_video_openssl.c` 748-766) with a number for the algorithm. -/
def generateAny (env : GenEnv) (w : World) (algo : Nat) (dir : Option Bytes) (key size : Bool) : Out (World × Option (Option (Nat × Bytes)) × Option Rc) :=
  if dir.isNone && (!key || !size) then .ok (w, none, some .invalidParameter)
  else match algo with
    | 0 => generate env w .rsa dir key size
    | 1 => generate env w .ecdsa dir key size
    | _ => .ok (w, none, some .notSupported)

end KeyGen
end SV
