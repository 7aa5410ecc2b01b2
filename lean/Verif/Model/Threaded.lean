import Verif.Model.Unthreaded
/-!
The threaded signing plugin (`/repo/lib/plugins/threaded-signing/plugin.c`).

All shared data is accessed with the mutex held, except that the worker signs outside of the lock
using `sign_data`, which nobody else writes meanwhile.  A critical section is therefore one atomic
step; the worker's loop body is two steps (`take`, `put`) with the signing operation in between.
-/
namespace SV.Threaded

/-- `threaded_data_t` (`plugin.c:67-86`).  `sdHash` is the block `sign_data->hash` (`none` is NULL),
`sdHashSize` is `sign_data->hash_size` and `maxSig` is `sign_data->max_signature_size`.
Simplification: the thread, mutex and condition variable are left out. -/
structure TData where
  running : Bool
  inSigning : Bool
  inn : List Slot
  inIdx : Nat
  out : List Slot
  outIdx : Nat
  sdHash : Option Bytes
  sdHashSize : Nat
  maxSig : Nat
  heap : Heap

/-- State after `sv_signing_plugin_init` (`plugin.c:841-877`) or `local_setup` (`plugin.c:674-714`)
with the worker thread waiting. -/
def TData.init (maxSig : Nat) : TData :=
  { running := true, inSigning := false
    inn := List.replicate maxBuffer Slot.zero, inIdx := 0
    out := List.replicate maxBuffer Slot.zero, outIdx := 0
    sdHash := none, sdHashSize := 0, maxSig, heap := ⟨fun _ => [], 0⟩ }

/-- `reset_signature_buffer` (`plugin.c:136-141`). -/
def resetSig (s : Slot) : Slot := { s with size := 0, id := 0, err := false }

/-- `reset_hash_buffer` (`plugin.c:129-132`). -/
def resetHash (s : Slot) : Slot := { s with id := 0 }

/-- `free_buffers` (`plugin.c:187-196`, with `free_hash_buffer` and `free_signature_buffer`,
`plugin.c:145-160`). -/
def freeBuffers (t : TData) : TData :=
  { t with inn := t.inn.map fun _ => Slot.zero, out := t.out.map fun _ => Slot.zero
           inIdx := 0, outIdx := 0 }

/-- `sign_hash` (`plugin.c:214-278`): new state and return code (`none` is `SV_OK`).  `al1`, `al2`
tell if the two allocations succeed. -/
def signHash (t : TData) (id : UInt32) (h : Bytes) (al1 al2 : Bool) : Out (TData × Option Rc) :=
  if maxBuffer ≤ t.inIdx then .ok (t, some .notSupported) else
  if !t.running then .ok (t, some .externalError) else
  if t.sdHash.isNone && !al1 then .ok (t, some .memory) else do
  let t1 : TData :=
    if t.sdHash.isNone then
      { t with sdHash := some (List.replicate h.length 0), sdHashSize := h.length }
    else t
  let s ← rd t1.inn t1.inIdx
  if s.ptr.isNone && !al2 then .ok (t1, some .memory) else
  let H := if s.ptr.isNone then (t1.heap.alloc h.length).1 else t1.heap
  let s1 : Slot := if s.ptr.isNone then { s with ptr := some t1.heap.brk, size := h.length } else s
  let a ← wr t1.inn t1.inIdx s1
  let t2 : TData := { t1 with inn := a, heap := H }
  if s1.size ≠ h.length then .ok (t2, some .notSupported) else
  match s1.ptr with
  | none => .ub .nullDeref
  | some p => do
    let H ← t2.heap.store p h
    let a ← wr t2.inn t2.inIdx { s1 with id := id }
    .ok ({ t2 with inn := a, heap := H, inIdx := t2.inIdx + 1 }, none)

/-- `get_signature` (`plugin.c:285-343`): new state, the signature if true is returned, and the
status (`none` is `SV_OK`). -/
def getSignature (t : TData) (id : UInt32) (max : Nat) :
    Out (TData × Option Bytes × Option Rc) :=
  if !t.running then .ok (t, none, some .externalError) else
  if t.outIdx = 0 then .ok (t, none, none) else do
  let o ← rd t.out 0
  if o.id ≠ id then .ok (t, none, none) else
  let (sig, rc) ← (if o.err then .ok (none, some Rc.externalError)
    else if max < o.size then .ok (none, some Rc.invalidParameter)
    else match o.ptr with
      | none => .ub .nullDeref
      | some p => do
        let b ← t.heap.load p o.size
        .ok (some b, none) : Out (Option Bytes × Option Rc))
  let (a, _) ← shiftLoop maxBuffer (maxBuffer + 1) t.out 1
  let a ← wr a (maxBuffer - 1) (resetSig o)
  .ok ({ t with out := a, outIdx := t.outIdx - 1 }, sig, rc)

/-- One of the two loops of `buffer_reset` (`plugin.c:394-411` and `413-430`): the array and the
number of used slots.  `fuel` bounds the iterations of the outer loop. -/
def resetLoop (id : UInt32) (reset : Slot → Slot) : Nat → List Slot → Nat → Nat →
    Out (List Slot × Nat)
  | 0, _, _, _ => .ub .diverge
  | f + 1, a, n, i =>
    if i < maxBuffer then do
      let s ← rd a i
      if s.id = id then do
        let (a, j) ← shiftLoop maxBuffer (maxBuffer + 1) a (i + 1)
        let a ← wr a (j - 1) (reset s)
        resetLoop id reset f a (if i < n then n - 1 else n) i
      else resetLoop id reset f a n (i + 1)
    else .ok (a, n)

/-- `buffer_reset` (`plugin.c:391-431`). -/
def bufferReset (t : TData) (id : UInt32) : Out TData := do
  let (o, n) ← resetLoop id resetSig (2 * maxBuffer + 1) t.out t.outIdx 0
  let (i, m) ← resetLoop id resetHash (2 * maxBuffer + 1) t.inn t.inIdx 0
  .ok { t with out := o, outIdx := n, inn := i, inIdx := m }

/-- Beginning of the loop body of `central_worker_thread` up to the unlock (`plugin.c:446-470`).
Returns the id and the hash being signed; `none` when there is nothing to sign (the thread waits).
The `assert`s on the hash size guard a `memcpy` into `sign_data->hash`. -/
def centralTake (t : TData) : Out (TData × Option (UInt32 × Bytes)) :=
  if !t.running || t.inSigning then .ok (t, none) else
  if t.inIdx = 0 then .ok (t, none) else do
  let s ← rd t.inn 0
  if s.size ≠ t.sdHashSize then .ub .assertFail else
  if t.sdHash.isNone then .ub .assertFail else
  match s.ptr with
  | none => .ub .nullDeref
  | some p => do
    let h ← t.heap.load p s.size
    let (a, _) ← shiftLoop maxBuffer (maxBuffer + 1) t.inn 1
    let a ← wr a (maxBuffer - 1) (resetHash s)
    .ok ({ t with inn := a, inIdx := t.inIdx - 1, sdHash := some h, inSigning := true },
      some (s.id, h))

/-- `is_active` (`plugin.c:351-363`); `ids` is the list of active sessions including its head,
which has id zero.  Simplification: the doubly linked list is a sequence. -/
def isActive (ids : List UInt32) (id : UInt32) : Bool := ids.contains id

/-- Rest of the loop body, from the lock after `openssl_sign_hash` (`plugin.c:471-514`).  `res` is
what the signing operation returned.  `hash` is `sign_data->hash`, `id` is `id_in_signing`. -/
def centralPut (t : TData) (ids : List UInt32) (id : UInt32) (res : Out Bytes) (al : Bool) :
    Out TData := do
  let t : TData := { t with inSigning := false }
  if !isActive ids id then .ok t else
  if maxBuffer ≤ t.outIdx then bufferReset t id else
  let o ← rd t.out t.outIdx
  let bad : Bool := match res with
    | .ok _ => false
    | _ => true
  let o : Slot := { o with err := bad, id := id }
  if o.ptr.isNone && !al then .ok (freeBuffers { t with running := false }) else
  let H := if o.ptr.isNone then (t.heap.alloc t.maxSig).1 else t.heap
  let o : Slot := if o.ptr.isNone then { o with ptr := some t.heap.brk } else o
  match res, o.ptr with
  | .ok sig, some p => do
    let H ← H.store p sig
    let a ← wr t.out t.outIdx { o with size := sig.length }
    .ok { t with out := a, heap := H, outIdx := t.outIdx + 1 }
  | .ok _, none => .ub .nullDeref
  | _, _ => do
    let a ← wr t.out t.outIdx o
    .ok { t with out := a, heap := H, outIdx := t.outIdx + 1 }

/-- The search for an id in `central_setup` (`plugin.c:547-553`). -/
def pickId (ids : List UInt32) (last : UInt32) : Nat → UInt32 → Out UInt32
  | 0, _ => .ub .diverge
  | f + 1, id =>
    if isActive ids id && id != last then
      let id := id + 1
      pickId ids last f (if id = 0 then id + 1 else id)
    else .ok id

/-- The plugin with a central thread: the shared data, the globals `id_in_signing`,
`last_added_id` and `id_list` (`plugin.c:106-111`), the hash being signed (part of `sign_data`), and
the handles held by the sessions (`none` once torn down; `k`-th successful set up is at index
`k`). -/
structure Central where
  td : TData
  signing : Option (UInt32 × Bytes)
  last : UInt32
  ids : List UInt32
  handles : List (Option UInt32)

/-- State after `sv_signing_plugin_init` (`plugin.c:841-877`). -/
def Central.init (maxSig : Nat) : Central := ⟨TData.init maxSig, none, 0, [0], []⟩

/-- `central_setup` (`plugin.c:532-574`); `al1`, `al2` tell if the allocations succeed. -/
def centralSetup (c : Central) (al1 al2 : Bool) : Out (Central × Bool) :=
  if !al1 then .ok (c, false) else
  if !c.td.running then .ok (c, false) else do
  let id ← pickId c.ids c.last (2 ^ 32) (if c.last + 1 = 0 then 1 else c.last + 1)
  if id = c.last then .ok (c, false) else
  let c : Central := { c with last := id }
  if !al2 then .ok (c, false) else
  .ok ({ c with ids := c.ids ++ [id], handles := c.handles ++ [some id] }, true)

/-- `delete_item` (`plugin.c:378-388`).  Deleting the head would follow its NULL `prev`. -/
def deleteItem (ids : List UInt32) (id : UInt32) : Out (List UInt32) :=
  match ids with
  | [] => .ok []
  | x :: xs => if x = id then .ub .nullDeref else .ok (x :: xs.erase id)

/-- Steps of a schedule. -/
inductive Step
  | setup (al1 al2 : Bool)
  | teardown (k : Nat)
  | submit (k : Nat) (h : Bytes) (al1 al2 : Bool)
  | fetch (k : Nat) (max : Nat)
  | take
  | put (r : Nat) (al : Bool)
deriving DecidableEq, Repr

/-- What the sessions see. -/
inductive Ev
  | setup (k : Nat) (ok : Bool)
  | teardown (k : Nat)
  | submit (k : Nat) (h : Bytes) (rc : Option Rc)
  | fetch (k : Nat) (sig : Option Bytes) (rc : Option Rc)
  | worker
deriving DecidableEq, Repr

/-- The handle of session `k`; using a handle that does not exist or is torn down is undefined. -/
def handle (c : Central) (k : Nat) : Out UInt32 :=
  match c.handles[k]? with
  | some (some id) => .ok id
  | _ => .ub .useAfterFree

/-- One atomic step: `sv_signing_plugin_session_setup`, `sv_signing_plugin_session_teardown`
(`central_teardown`, `plugin.c:576-585`), `sv_signing_plugin_sign`,
`sv_signing_plugin_get_signature` (`plugin.c:750-835`) of a session, or a step of the worker. -/
def step (sign : Nat → Bytes → Option Bytes) (c : Central) : Step → Out (Central × Ev)
  | .setup a1 a2 => do
    let (c', ok) ← centralSetup c a1 a2
    .ok (c', .setup c.handles.length ok)
  | .teardown k => do
    let id ← handle c k
    let td ← bufferReset c.td id
    let ids ← deleteItem c.ids id
    .ok ({ c with td, ids, handles := c.handles.set k none }, .teardown k)
  | .submit k h a1 a2 => do
    let id ← handle c k
    if h.length = 0 then .ok (c, .submit k h (some .invalidParameter)) else
    let (td, rc) ← signHash c.td id h a1 a2
    .ok ({ c with td }, .submit k h rc)
  | .fetch k max => do
    let id ← handle c k
    let (td, sig, rc) ← getSignature c.td id max
    .ok ({ c with td }, .fetch k sig rc)
  | .take => do
    let (td, w) ← centralTake c.td
    match w with
    | none => .ok ({ c with td }, .worker)
    | some w => .ok ({ c with td, signing := some w }, .worker)
  | .put r al =>
    match c.signing with
    | none => .ok (c, .worker)
    | some (id, h) => do
      let td ← centralPut c.td c.ids id (opensslSign sign c.td.maxSig r h) al
      .ok ({ c with td, signing := none }, .worker)

/-- A schedule. -/
def run (sign : Nat → Bytes → Option Bytes) : Central → List Step → Out (Central × List Ev)
  | c, [] => .ok (c, [])
  | c, x :: xs => do
    let (c, e) ← step sign c x
    let (c, es) ← run sign c xs
    .ok (c, e :: es)

/-! ### The per session thread -/

/-- The loop moving the input buffer in `local_worker_thread` (`plugin.c:611-614`).  The condition
reads `in[j + 1]` before comparing `j`. -/
def localShift : Nat → List Slot → Nat → Out (List Slot × Nat)
  | 0, _, _ => .ub .diverge
  | f + 1, a, j => do
    let s ← rd a (j + 1)
    if s.ptr.isSome && j < maxBuffer - 1 then do
      let a ← wr a j s
      localShift f a (j + 1)
    else .ok (a, j)

/-- First half of the loop body of `local_worker_thread` (`plugin.c:603-621`). -/
def localTake (t : TData) : Out (TData × Option Bytes) :=
  if !t.running || t.inSigning then .ok (t, none) else
  if t.inIdx = 0 then .ok (t, none) else do
  let s ← rd t.inn 0
  if s.size ≠ t.sdHashSize then .ub .assertFail else
  if t.sdHash.isNone then .ub .assertFail else
  match s.ptr with
  | none => .ub .nullDeref
  | some p => do
    let h ← t.heap.load p s.size
    let (a, j) ← localShift (maxBuffer + 1) t.inn 0
    let a ← wr a j s
    .ok ({ t with inn := a, inIdx := t.inIdx - 1, sdHash := some h, inSigning := true }, some h)

/-- `free_plugin` (`plugin.c:200-207`). -/
def freePlugin (t : TData) : TData := freeBuffers { t with sdHash := none, sdHashSize := 0 }

/-- Second half (`plugin.c:622-660`). -/
def localPut (t : TData) (res : Out Bytes) (al : Bool) : Out TData := do
  let t : TData := { t with inSigning := false }
  if maxBuffer ≤ t.outIdx then .ok (freePlugin { t with running := false }) else
  let o ← rd t.out t.outIdx
  let bad : Bool := match res with
    | .ok _ => false
    | _ => true
  let o : Slot := { o with err := bad }
  if o.ptr.isNone && !al then .ok (freePlugin { t with running := false }) else
  let H := if o.ptr.isNone then (t.heap.alloc t.maxSig).1 else t.heap
  let o : Slot := if o.ptr.isNone then { o with ptr := some t.heap.brk } else o
  match res, o.ptr with
  | .ok sig, some p => do
    let H ← H.store p sig
    let a ← wr t.out t.outIdx { o with size := sig.length }
    .ok { t with out := a, heap := H, outIdx := t.outIdx + 1 }
  | .ok _, none => .ub .nullDeref
  | _, _ => do
    let a ← wr t.out t.outIdx o
    .ok { t with out := a, heap := H, outIdx := t.outIdx + 1 }

/-- A session with its own thread: shared data and the hash being signed. -/
structure Local where
  td : TData
  signing : Option Bytes

/-- Steps of the session and of its worker. -/
inductive LStep
  | submit (h : Bytes) (al1 al2 : Bool)
  | fetch (max : Nat)
  | take
  | put (r : Nat) (al : Bool)
deriving DecidableEq, Repr

/-- What the session sees. -/
inductive LEv
  | submit (h : Bytes) (rc : Option Rc)
  | fetch (sig : Option Bytes) (rc : Option Rc)
  | worker
deriving DecidableEq, Repr

/-- One atomic step of a session with its own thread; the session id is zero (`plugin.c:757`). -/
def lstep (sign : Nat → Bytes → Option Bytes) (c : Local) : LStep → Out (Local × LEv)
  | .submit h a1 a2 =>
    if h.length = 0 then .ok (c, .submit h (some .invalidParameter)) else do
    let (td, rc) ← signHash c.td 0 h a1 a2
    .ok ({ c with td }, .submit h rc)
  | .fetch max => do
    let (td, sig, rc) ← getSignature c.td 0 max
    .ok ({ c with td }, .fetch sig rc)
  | .take => do
    let (td, w) ← localTake c.td
    match w with
    | none => .ok ({ c with td }, .worker)
    | some h => .ok (⟨td, some h⟩, .worker)
  | .put r al =>
    match c.signing with
    | none => .ok (c, .worker)
    | some h => do
      let td ← localPut c.td (opensslSign sign c.td.maxSig r h) al
      .ok (⟨td, none⟩, .worker)

/-- A schedule of one session with its own thread. -/
def lrun (sign : Nat → Bytes → Option Bytes) : Local → List LStep → Out (Local × List LEv)
  | c, [] => .ok (c, [])
  | c, x :: xs => do
    let (c, e) ← lstep sign c x
    let (c, es) ← lrun sign c xs
    .ok (c, e :: es)

end SV.Threaded
