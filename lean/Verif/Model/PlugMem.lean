import Verif.Model.Keys
/-!
The memory of the threaded signing plugin (`/repo/lib/plugins/threaded-signing/plugin.c`), with a
central thread as well as with one thread per session.

Only what is allocated and freed is kept: the content of the buffers is in
`Verif/Model/Threaded.lean`, the threads are in `Verif/Model/Life.lean`.  Critical sections are steps.
Memory allocated inside `openssl_private_key_malloc` is assumed to be available, every other
allocation may fail.
-/
namespace SV.PlugMem
open SV.Keys (Blocks KeyEnv SignData privateKeyMalloc)

/-- `sign_or_verify_data_t` as used by the plugin: its own block, the key and the signature, and the
block of the hash. -/
structure SData where
  block : Nat
  d : SignData
  hash : Option Nat
deriving DecidableEq, Repr

/-- `sign_data_free` (`plugin.c:117-126`). -/
def signDataFree (b : Blocks) : Option SData → Out Blocks
  | none => .ok b
  | some s => do
    let b ← b.free (s.d.key.map Prod.fst)
    let b ← b.free (s.d.signature.map Prod.fst)
    let b ← b.free s.hash
    b.free (some s.block)

/-- `sign_data_create` (`plugin.c:167-184`).  `al` tells if the allocation succeeds. -/
def signDataCreate (env : KeyEnv) (b : Blocks) (pem : Bytes) (al : Bool) : Out (Blocks × Option SData) :=
  if !al then .ok (b, none) else do
  let block := b.next
  let (b, d, rc) ← privateKeyMalloc env b.alloc {} pem
  if rc.isNone then .ok (b, some ⟨block, d, none⟩) else do
  let b ← signDataFree b (some ⟨block, d, none⟩)
  .ok (b, none)

/-- `threaded_data_t` (`plugin.c:67-85`): `is_running`, `sign_data`, and the blocks of the slots of the
two buffers. -/
structure Data where
  running : Bool
  sd : Option SData
  inn : List (Option Nat)
  out : List (Option Nat)
deriving DecidableEq, Repr

/-- All zero. -/
def Data.zero : Data := ⟨false, none, List.replicate maxBuffer none, List.replicate maxBuffer none⟩

/-- The loop of `free_buffers` (`plugin.c:187-196`). -/
def freeSlots : Blocks → List (Option Nat) → List (Option Nat) → Out Blocks
  | b, o :: out, i :: inn => do
    let b ← b.free o
    let b ← b.free i
    freeSlots b out inn
  | b, _, _ => .ok b

/-- `free_buffers` (`plugin.c:187-196`). -/
def freeBuffers (b : Blocks) (t : Data) : Out (Blocks × Data) := do
  let b ← freeSlots b t.out t.inn
  .ok (b, { t with inn := t.inn.map fun _ => none, out := t.out.map fun _ => none })

/-- `free_plugin` (`plugin.c:200-207`). -/
def freePlugin (b : Blocks) (t : Data) : Out (Blocks × Data) := do
  let b ← signDataFree b t.sd
  freeBuffers b { t with sd := none }

/-- What `sign_hash` (`plugin.c:214-278`) allocates if the hash goes to slot `idx`. -/
def signHash (b : Blocks) (t : Data) (idx : Nat) (al1 al2 : Bool) : Out (Blocks × Data) :=
  if maxBuffer ≤ idx then .ok (b, t) else
  if !t.running then .ok (b, t) else
  match t.sd with
  | none => .ub .nullDeref
  | some sd =>
    if sd.hash.isNone && !al1 then .ok (b, t) else
    let sd' : SData := if sd.hash.isNone then { sd with hash := some b.next } else sd
    let b := if sd.hash.isNone then b.alloc else b
    let t : Data := { t with sd := some sd' }
    match t.inn[idx]? with
    | none => .ub .oobIndex
    | some (some _) => .ok (b, t)
    | some none =>
      if !al2 then .ok (b, t) else .ok (b.alloc, { t with inn := t.inn.set idx (some b.next) })

/-- What the worker allocates for a signature that goes to slot `idx` of `out`
(`plugin.c:481-506`, `630-651`).  If that fails, or if the buffer of a session with its own thread is
full, the worker stops; with a central thread `sign_data` is kept.  The worker uses `sign_data` without
a test.  A worker that was told to stop may still do this before it is joined, after which everything
is freed; that is left out. -/
def put (b : Blocks) (t : Data) (central : Bool) (idx : Nat) (al : Bool) : Out (Blocks × Data) :=
  if !t.running then .ok (b, t) else
  if t.sd.isNone then .ub .nullDeref else
  if maxBuffer ≤ idx then
    if central then .ok (b, t) else freePlugin b { t with running := false }
  else match t.out[idx]? with
    | none => .ub .oobIndex
    | some (some _) => .ok (b, t)
    | some none =>
      if al then .ok (b.alloc, { t with out := t.out.set idx (some b.next) })
      else if central then freeBuffers b { t with running := false }
      else freePlugin b { t with running := false }

/-- Moving a slot from `i` to `j ≥ i` with those in between moving forward (`plugin.c:326-335`,
`398-406`, `456-464`, `612-619`).  The block moves along. -/
def moveSlot (a : List (Option Nat)) (i j : Nat) : List (Option Nat) :=
  (a.take i) ++ ((a.drop (i + 1)).take (j - i) ++ ((a.drop i).take 1 ++ a.drop (i + 1 + (j - i))))

/-- A session handle (`plugin.c:88-96`): with its own thread (blocks of `sv_threaded_plugin_t` and
`threaded_data_t`), or using the central one (blocks of `sv_threaded_plugin_t` and
`central_threaded_data_t`). -/
inductive Sess
  | own (handle block : Nat) (t : Data)
  | central (handle block : Nat)
deriving DecidableEq, Repr

/-- The plugin: the static members (`plugin.c:105-110`) and the sessions (`none` once torn down).
`up` tells if `central.thread` is set; `head` is the head of `id_list`; `nodes` are its other nodes
with the number of the session. -/
structure Plugin where
  b : Blocks
  data : Data
  up : Bool
  head : Option Nat
  nodes : List (Nat × Nat)
  sess : List (Option Sess)
deriving DecidableEq, Repr

/-- The plugin when the program starts. -/
def Plugin.zero : Plugin := ⟨{}, .zero, false, none, [], []⟩

/-- `sv_signing_plugin_init` (`plugin.c:841-877`); `sv_signing_plugin_init_new` (`plugin.c:885-927`)
does the same.  `thr` tells if the thread could be created.  The mutex and the condition variable are
left out. -/
def init (env : KeyEnv) (s : Plugin) (pem : Bytes) (al1 al2 thr : Bool) : Out Plugin :=
  if s.up || s.head.isSome || s.data.sd.isSome then .ok s else
  if !al1 then do
    let b ← signDataFree s.b s.data.sd
    .ok { s with b, data := { s.data with sd := none } }
  else do
  let head := s.b.next
  let (b, sd) ← signDataCreate env s.b.alloc pem al2
  if sd.isNone || !thr then do
    let b ← signDataFree b sd
    let b ← b.free (some head)
    .ok { s with b, data := { s.data with sd := none } }
  else .ok { s with b, head := some head, up := true, data := { s.data with sd, running := true } }

/-- The loop of `sv_signing_plugin_exit` that frees `id_list` (`plugin.c:942-950`). -/
def freeNodes : Blocks → List (Nat × Nat) → Out Blocks
  | b, [] => .ok b
  | b, n :: ns => do
    let b ← b.free (some n.2)
    freeNodes b ns

/-- `sv_signing_plugin_exit` (`plugin.c:934-953`) with `local_teardown_locked` (`plugin.c:716-744`). -/
def exit (s : Plugin) : Out Plugin := do
  let b ← s.b.free s.head
  let b ← freeNodes b s.nodes
  let (b, data) ← freePlugin b { s.data with running := false }
  .ok { s with b, data, head := none, nodes := [], up := false }

/-- `local_setup` (`plugin.c:677-714`).  On failure `free_plugin` is called, the block itself is not
freed.  `al1`, `al2` tell if the allocations succeed. -/
def localSetup (env : KeyEnv) (b : Blocks) (pem : Bytes) (al1 al2 thr : Bool) :
    Out (Blocks × Option (Nat × Data)) :=
  if !al1 then .ok (b, none) else
  let block := b.next
  let b := b.alloc
  if !al2 then do
    let (b, _) ← freePlugin b .zero
    .ok (b, none)
  else do
  let sdb := b.next
  let (b, d, rc) ← privateKeyMalloc env b.alloc {} pem
  let t : Data := { Data.zero with sd := some ⟨sdb, d, none⟩ }
  if rc.isSome || !thr then do
    let (b, _) ← freePlugin b t
    .ok (b, none)
  else .ok (b, some (block, { t with running := true }))

/-- `sv_signing_plugin_session_setup` (`plugin.c:789-813`) with `central_setup` (`plugin.c:532-574`).
`ready` tells if the central thread is running and there is an id left. -/
def setup (env : KeyEnv) (s : Plugin) (pem : Bytes) (al1 al2 al3 thr ready : Bool) : Out Plugin :=
  let none' : Plugin := { s with sess := s.sess ++ [none] }
  if !al1 then .ok none' else
  let handle := s.b.next
  let b := s.b.alloc
  if s.up then
    if !al2 then do
      let b ← b.free (some handle)
      .ok { none' with b }
    else
    let block := b.next
    let b := b.alloc
    if !ready || !al3 then do
      let b ← b.free (some block)
      let b ← b.free (some handle)
      .ok { none' with b }
    else
      .ok { s with b := b.alloc, nodes := s.nodes ++ [(s.sess.length, b.next)]
                   sess := s.sess ++ [some (.central handle block)] }
  else if pem = [] then do
    let b ← b.free (some handle)
    .ok { none' with b }
  else do
    let (b, l) ← localSetup env b pem al2 al3 thr
    match l with
    | none => do
      let b ← b.free (some handle)
      .ok { none' with b }
    | some (block, t) => .ok { s with b, sess := s.sess ++ [some (.own handle block t)] }

/-- `sv_signing_plugin_session_teardown` (`plugin.c:815-832`) with `local_teardown_locked`,
`central_teardown` and `delete_item` (`plugin.c:716-744`, `576-585`, `378-388`). -/
def teardown (s : Plugin) (k : Nat) : Out Plugin :=
  match s.sess[k]? with
  | some (some (.own handle block t)) => do
    let (b, _) ← freePlugin s.b { t with running := false }
    let b ← b.free (some block)
    let b ← b.free (some handle)
    .ok { s with b, sess := s.sess.set k none }
  | some (some (.central handle block)) => do
    let b ← s.b.free ((s.nodes.find? (·.1 == k)).map Prod.snd)
    let b ← b.free (some block)
    let b ← b.free (some handle)
    .ok { s with b, nodes := s.nodes.eraseP (·.1 == k), sess := s.sess.set k none }
  | _ => .ub .useAfterFree

/-- Something that is done with the buffers. -/
inductive Op
  | sign (idx : Nat) (al1 al2 : Bool)
  | put (idx : Nat) (al : Bool)
  | moveIn (i j : Nat)
  | moveOut (i j : Nat)
deriving DecidableEq, Repr

/-- The operation on `threaded_data_t`. -/
def op (b : Blocks) (t : Data) (central : Bool) : Op → Out (Blocks × Data)
  | .sign idx a1 a2 => signHash b t idx a1 a2
  | .put idx a => put b t central idx a
  | .moveIn i j => .ok (b, { t with inn := moveSlot t.inn i j })
  | .moveOut i j => .ok (b, { t with out := moveSlot t.out i j })

/-- Calls of the program and steps of the workers.  `data none` is the central data, `data (some k)`
that of session `k`. -/
inductive Step
  | init (pem : Bytes) (al1 al2 thr : Bool)
  | exit
  | setup (pem : Bytes) (al1 al2 al3 thr ready : Bool)
  | teardown (k : Nat)
  | data (k : Option Nat) (o : Op)
deriving DecidableEq, Repr

/-- One step. -/
def step (env : KeyEnv) (s : Plugin) : Step → Out Plugin
  | .init pem a1 a2 thr => init env s pem a1 a2 thr
  | .exit => exit s
  | .setup pem a1 a2 a3 thr ready => setup env s pem a1 a2 a3 thr ready
  | .teardown k => teardown s k
  | .data none o => do
    let (b, data) ← op s.b s.data true o
    .ok { s with b, data }
  | .data (some k) o =>
    match s.sess[k]? with
    | some (some (.own handle block t)) => do
      let (b, t) ← op s.b t false o
      .ok { s with b, sess := s.sess.set k (some (.own handle block t)) }
    | _ => .ok s

/-- A history. -/
def run (env : KeyEnv) : Plugin → List Step → Out Plugin
  | s, [] => .ok s
  | s, x :: xs => do
    let s ← step env s x
    run env s xs

end SV.PlugMem
