import Verif.Model.Threaded
/-!
The life of the threaded signing plugin with a central thread
(`/repo/lib/plugins/threaded-signing/plugin.c`): starting it, stopping it, the worker thread with its
mutex and condition variable, and sessions that may outlive it.

`Verif/Model/Threaded.lean` has the buffers with their memory while the plugin is running.  Here the
buffers are sequences, and what is looked at is who sleeps, who is woken, and which memory
(`sign_data`, `id_list`) exists.  A critical section is one step; everything that happens between two
critical sections of a thread can be interleaved with steps of other threads.

Simplifications: the parts of `sv_signing_plugin_init` and `sv_signing_plugin_session_setup` in front
of the lock (`plugin.c:846-860`, `796-797`) are one step together with what precedes the next lock; a
signature is represented by the key and the hash it was made of; sessions with a thread of their own
(used if there is no central thread) are left out.
-/
namespace SV.Life
open SV.Threaded (pickId isActive deleteItem)

/-- Where the worker is in `central_worker_thread` (`plugin.c:434-527`): there is no thread; created
but not yet holding the lock; in `g_cond_wait` (`plugin.c:517`); woken, waiting for the lock; in
`openssl_sign_hash` (`plugin.c:471`); returned. -/
inductive Worker
  | none | start | asleep | woken | signing | done
deriving DecidableEq, Repr

/-- Where a call waiting for the worker is: in `g_cond_wait` or `g_cond_wait_until`; about to take the
lock; in `g_thread_join`. -/
inductive Caller
  | asleep | ready | join
deriving DecidableEq, Repr

/-- The session dependent handle (`sv_threaded_plugin_t` with its `central_threaded_data_t`,
`plugin.c:88-96`).  `live` tells if it is allocated. -/
structure Handle where
  id : UInt32
  live : Bool
deriving DecidableEq, Repr

/-- An element of the output buffer (`signature_data_t`, `plugin.c:57-62`).  `ok` is the negation of
`signing_error`. -/
structure Sig where
  id : UInt32
  key : Nat
  hash : Bytes
  ok : Bool
deriving DecidableEq, Repr

/-- The static members (`plugin.c:105-110`) and the calls in progress.

`thread` tells if `central.thread` is set, `worker` is the thread itself.  `cur` is `id_in_signing`
with the content of `sign_data->hash`.  `idList` is `id_list` with its head of id zero (`none` is
NULL).  `signData` is `central.sign_data` with the key in it (`none` is NULL); keys are numbered by
the calls of init that read them, `keys` is how many there were.  `init` and `exits` are calls of init
and exit that have not returned. -/
structure State where
  thread : Bool
  worker : Worker
  running : Bool
  inSigning : Bool
  inn : List (UInt32 × Bytes)
  out : List Sig
  cur : UInt32 × Bytes
  idList : Option (List UInt32)
  signData : Option Nat
  keys : Nat
  last : UInt32
  handles : List Handle
  init : Option Caller
  exits : List Caller
deriving DecidableEq, Repr

/-- The plugin when the program starts (`plugin.c:106-110`, static memory is zero). -/
def State.zero : State :=
  ⟨false, .none, false, false, [], [], (0, []), none, none, 0, 0, [], none, []⟩

/-- Those waiting on the condition variable: the worker, the call of init, the calls of exit. -/
inductive Who
  | worker | init | exit (i : Nat)
deriving DecidableEq, Repr

/-- All threads in `g_cond_wait`. -/
def sleepers (s : State) : List Who :=
  (if s.worker = .asleep then [.worker] else []) ++ (if s.init = some .asleep then [.init] else []) ++
    (List.range s.exits.length).filterMap fun i => if s.exits[i]? = some .asleep then some (.exit i) else none

/-- A thread returns from `g_cond_wait` once it has the lock again. -/
def wake (s : State) : Who → State
  | .worker => { s with worker := if s.worker = .asleep then .woken else s.worker }
  | .init => { s with init := if s.init = some .asleep then some .ready else s.init }
  | .exit i => { s with exits := if s.exits[i]? = some .asleep then s.exits.set i .ready else s.exits }

/-- `g_cond_signal`: wakes one of the threads that wait, if there is any.  Which one is not specified;
`pick` is the choice. -/
def signal (s : State) (pick : Nat) : State :=
  match (sleepers s)[pick % (sleepers s).length]? with
  | some w => wake s w
  | none => s

/-- `free_buffers` (`plugin.c:187-196`). -/
def freeBuffers (s : State) : State := { s with inn := [], out := [] }

/-- `free_plugin` (`plugin.c:200-207`) with `sign_data_free` (`plugin.c:117-126`).  Freeing `sign_data`
while the worker signs with it is undefined. -/
def freePlugin (s : State) : Out State :=
  if s.worker = .signing && s.signData.isSome then .ub .useAfterFree
  else .ok (freeBuffers { s with signData := none })

/-- `buffer_reset` (`plugin.c:391-431`). -/
def bufferReset (s : State) (id : UInt32) : State :=
  { s with out := s.out.filter (·.id != id), inn := s.inn.filter (·.1 != id) }

/-- `is_active` (`plugin.c:351-363`). -/
def active (s : State) (id : UInt32) : Bool :=
  match s.idList with
  | none => false
  | some ids => isActive ids id

/-- The loop of `central_worker_thread` with the lock held (`plugin.c:446-470`, `515-526`), up to where
the lock is released. -/
def workerLoop (s : State) (pick : Nat) : Out State :=
  if !s.running then .ok (signal { s with worker := .done } pick) else
  match s.inn with
  | [] => .ok { s with worker := .asleep }
  | w :: inn =>
    match s.signData with
    | none => .ub .nullDeref
    | some _ => .ok { s with inn, cur := w, inSigning := true, worker := .signing }

/-- After `openssl_sign_hash` (`plugin.c:471-514`): `good` tells if it succeeded, `al` if memory for
the signature can be allocated in case it is needed. -/
def workerPut (s : State) (good al : Bool) : Out State :=
  match s.signData with
  | none => .ub .useAfterFree
  | some key =>
    let s : State := { s with inSigning := false }
    if !active s s.cur.1 then .ok s else
    if maxBuffer ≤ s.out.length then .ok (bufferReset s s.cur.1) else
    if !al then .ok (freeBuffers { s with running := false }) else
    .ok { s with out := s.out ++ [⟨s.cur.1, key, s.cur.2, good⟩] }

/-- The worker runs until it releases the lock (`plugin.c:434-527`).  If it sleeps, has returned or
does not exist nothing happens. -/
def workerStep (s : State) (good al : Bool) (p1 p2 : Nat) : Out State :=
  match s.worker with
  | .start =>
    if s.running then .ok (signal { s with worker := .done } p1)
    else workerLoop (signal { s with running := true } p1) p2
  | .woken => workerLoop s p2
  | .signing => do
    let s ← workerPut s good al
    workerLoop s p2
  | _ => .ok s

/-- `sv_signing_plugin_init` and `sv_signing_plugin_init_new` (`plugin.c:841-877`, `885-927`) up to the
lock, with `sign_data_create` (`plugin.c:167-184`).  `al1`, `al2` are the allocations, `key` tells if
the private key can be read, `thr` if the thread can be created.  The second component tells if a
thread was started; if not the call returns -1.  The model has room for one thread: starting one
while there is another is left undefined. -/
def initCall (s : State) (al1 al2 key thr : Bool) : Out (State × Bool) :=
  if s.thread || s.idList.isSome || s.signData.isSome then .ok (s, false) else
  if !al1 then .ok ({ s with idList := none, signData := none }, false) else
  let s : State := { s with idList := some [0] }
  if !al2 || !key then .ok ({ s with idList := none, signData := none }, false) else
  let s : State := { s with signData := some s.keys, keys := s.keys + 1 }
  if !thr then .ok ({ s with idList := none, signData := none }, false) else
  if s.worker ≠ .none then .ub .useAfterFree else
  .ok ({ s with thread := true, worker := .start, init := some .ready }, true)

/-- The waiting in init (`plugin.c:864-869`, `914-919`), once the caller has the lock. -/
def initWait (s : State) : State :=
  match s.init with
  | some .ready => { s with init := if s.running then none else some .asleep }
  | _ => s

/-- `sv_signing_plugin_exit` (`plugin.c:934-953`) with `local_teardown_locked` (`plugin.c:716-744`) up
to where the lock is released. -/
def exitCall (s : State) (pick : Nat) : Out State :=
  let s : State := { s with idList := none }
  if !s.thread then freePlugin s else
  let s : State := { s with running := false, thread := false }
  if s.inSigning then .ok { s with exits := s.exits ++ [.asleep] }
  else
    let s := signal s pick
    .ok { s with exits := s.exits ++ [.join] }

/-- The waiting in `local_teardown_locked` (`plugin.c:729-738`), once the `i`-th call of exit in
progress has the lock.  `timeout` tells if the two seconds have passed. -/
def exitWait (s : State) (i : Nat) (timeout : Bool) (pick : Nat) : State :=
  if s.exits[i]? = some .ready || (s.exits[i]? = some .asleep && timeout) then
    if s.inSigning && !timeout then { s with exits := s.exits.set i .asleep }
    else
      let s : State := { s with exits := s.exits.set i .join }
      signal s pick
  else s

/-- `g_thread_join` returns if the worker has, and all memory is freed (`plugin.c:740-744`). -/
def exitJoin (s : State) (i : Nat) : Out State :=
  if s.exits[i]? = some .join && s.worker = .done then
    freePlugin { s with worker := .none, exits := s.exits.eraseIdx i }
  else .ok s

/-- `sv_signing_plugin_session_setup` with `central_setup` and `append_item`
(`plugin.c:789-813`, `532-574`, `367-374`).  The second component is the number of the session if one
was set up. -/
def setup (s : State) (al1 al2 al3 : Bool) : Out (State × Option Nat) :=
  if !al1 then .ok (s, none) else
  if !s.thread then .ok (s, none) else
  if s.idList.isNone then .ub .assertFail else
  if !al2 then .ok (s, none) else
  if !s.running then .ok (s, none) else
  match s.idList with
  | none => .ub .nullDeref
  | some ids => do
    let id ← pickId ids s.last (2 ^ 32) (if s.last + 1 = 0 then 1 else s.last + 1)
    if id = s.last then .ok (s, none) else
    let s : State := { s with last := id }
    if !al3 then .ok (s, none) else
    .ok ({ s with idList := some (ids ++ [id]), handles := s.handles ++ [⟨id, true⟩] },
      some s.handles.length)

/-- The handle of session `k`; using one that does not exist or was torn down is undefined. -/
def handle (s : State) (k : Nat) : Out UInt32 :=
  match s.handles[k]? with
  | some ⟨id, true⟩ => .ok id
  | _ => .ub .useAfterFree

/-- `sv_signing_plugin_session_teardown` with `central_teardown` (`plugin.c:815-832`, `576-585`). -/
def teardown (s : State) (k : Nat) : Out State := do
  let id ← handle s k
  let s := bufferReset s id
  let hs := s.handles.set k ⟨id, false⟩
  match s.idList with
  | none => .ok { s with handles := hs }
  | some ids => do
    let ids ← deleteItem ids id
    .ok { s with idList := some ids, handles := hs }

/-- `sv_signing_plugin_sign` with `sign_hash` (`plugin.c:750-764`, `214-278`).  `al` tells if the
allocations succeed.  Simplification: all hashes have the same size. -/
def submit (s : State) (k : Nat) (h : Bytes) (al : Bool) (pick : Nat) : Out (State × Option Rc) := do
  let id ← handle s k
  if h.length = 0 then .ok (s, some .invalidParameter) else
  if maxBuffer ≤ s.inn.length then .ok (signal s pick, some .notSupported) else
  if !s.running then .ok (signal s pick, some .externalError) else
  if s.signData.isNone then .ub .nullDeref else
  if !al then .ok (signal s pick, some .memory) else
  .ok (signal { s with inn := s.inn ++ [(id, h)] } pick, none)

/-- `sv_signing_plugin_get_signature` with `get_signature` (`plugin.c:766-787`, `285-343`).  `fits`
tells if the signature fits in the memory of the caller. -/
def fetch (s : State) (k : Nat) (fits : Bool) : Out (State × Option (Nat × Bytes) × Option Rc) := do
  let id ← handle s k
  if !s.running then .ok (s, none, some .externalError) else
  match s.out with
  | [] => .ok (s, none, none)
  | o :: out =>
    if o.id ≠ id then .ok (s, none, none) else
    let s : State := { s with out }
    if !o.ok then .ok (s, none, some .externalError) else
    if !fits then .ok (s, none, some .invalidParameter) else
    .ok (s, some (o.key, o.hash), none)

/-- Steps of a schedule.  `wake` is a thread that returns from waiting without a signal. -/
inductive Step
  | init (al1 al2 key thr : Bool)
  | initWait
  | exit (pick : Nat)
  | exitWait (i : Nat) (timeout : Bool) (pick : Nat)
  | exitJoin (i : Nat)
  | worker (good al : Bool) (p1 p2 : Nat)
  | wake (w : Who)
  | setup (al1 al2 al3 : Bool)
  | teardown (k : Nat)
  | submit (k : Nat) (h : Bytes) (al : Bool) (pick : Nat)
  | fetch (k : Nat) (fits : Bool)
deriving DecidableEq, Repr

/-- What the program sees.  `init (some key)` is a call of init that started a thread, which signs with the key of that
number.  `signed h good` is a call of `openssl_sign_hash` with the hash `h`, with success or not (`plugin.c:470-472`). -/
inductive Ev
  | init (key : Option Nat)
  | exit
  | setup (k : Option Nat)
  | teardown (k : Nat)
  | submit (k : Nat) (h : Bytes) (rc : Option Rc)
  | fetch (k : Nat) (sig : Option (Nat × Bytes)) (rc : Option Rc)
  | signed (h : Bytes) (good : Bool)
  | internal
deriving DecidableEq, Repr

/-- One step (functions above). -/
def step (s : State) : Step → Out (State × Ev)
  | .init a1 a2 key thr => do
    let (s', b) ← initCall s a1 a2 key thr
    .ok (s', .init (if b then some s.keys else none))
  | .initWait => .ok (initWait s, .internal)
  | .exit p => do
    let s ← exitCall s p
    .ok (s, .exit)
  | .exitWait i t p => .ok (exitWait s i t p, .internal)
  | .exitJoin i => do
    let s ← exitJoin s i
    .ok (s, .internal)
  | .worker g a p1 p2 => do
    let s' ← workerStep s g a p1 p2
    .ok (s', if s.worker = .signing then .signed s.cur.2 g else .internal)
  | .wake w => .ok (wake s w, .internal)
  | .setup a1 a2 a3 => do
    let (s, k) ← setup s a1 a2 a3
    .ok (s, .setup k)
  | .teardown k => do
    let s ← teardown s k
    .ok (s, .teardown k)
  | .submit k h a p => do
    let (s, rc) ← submit s k h a p
    .ok (s, .submit k h rc)
  | .fetch k f => do
    let (s, sig, rc) ← fetch s k f
    .ok (s, .fetch k sig rc)

/-- A schedule. -/
def run : State → List Step → Out (State × List Ev)
  | s, [] => .ok (s, [])
  | s, x :: xs => do
    let (s, e) ← step s x
    let (s, es) ← run s xs
    .ok (s, e :: es)

end SV.Life
