import Verif.Model.Slots
/-!
The unthreaded signing plugin (`/repo/lib/plugins/unthreaded-signing/plugin.c`).
-/
namespace SV

/-- `openssl_sign_hash` (`/repo/lib/src/signed_video_openssl.c:244-280`): the signature that was
written, or the error.  `sign r h` is the outcome of `EVP_PKEY_sign` with randomness `r`.  A
signature longer than the allocated memory is an error. -/
def opensslSign (sign : Nat → Bytes → Option Bytes) (maxSig : Nat) (r : Nat) (h : Bytes) :
    Out Bytes :=
  match sign r h with
  | none => .err .externalError
  | some s => if maxSig < s.length then .err .memory else .ok s

namespace Unthreaded

/-- `sv_unthreaded_plugin_t` (`plugin.c:51-55`); `maxSig` is `sign_data.max_signature_size`. -/
structure St where
  out : List Slot
  idx : Nat
  heap : Heap
  maxSig : Nat

/-- State after `sv_signing_plugin_session_setup` (`plugin.c:168-182`). -/
def init (maxSig : Nat) : St :=
  ⟨List.replicate maxBuffer Slot.zero, 0, ⟨fun _ => [], 0⟩, maxSig⟩

/-- `shift_out_buffer` (`plugin.c:60-76`).  The loop `for j = 0; j < idx - 1` is the same as
`shiftLoop` started at 1.  `idx - 1` with `idx = 0` would be the index `-1`. -/
def shift (s : St) : Out St := do
  if maxBuffer < s.idx then .ub .assertFail else
  let o ← rd s.out 0
  let (a, _) ← shiftLoop s.idx (maxBuffer + 1) s.out 1
  if s.idx = 0 then .ub .oobIndex else
  let l ← rd a (s.idx - 1)
  let a ← wr a (s.idx - 1) { l with ptr := o.ptr, size := 0 }
  .ok { s with out := a, idx := s.idx - 1 }

/-- `sv_signing_plugin_sign` and `unthreaded_openssl_sign_hash` (`plugin.c:81-136`): new state and
return code (`none` is `SV_OK`).  `hash = none` is a NULL pointer; `alloc` tells if `calloc`
succeeds. -/
def submit (sign : Nat → Bytes → Option Bytes) (s : St) (hash : Option Bytes) (r : Nat)
    (alloc : Bool) : Out (St × Option Rc) :=
  match hash with
  | none => .ok (s, some .invalidParameter)
  | some h =>
    if h.length = 0 then .ok (s, some .invalidParameter) else
    if maxBuffer ≤ s.idx then .ok (s, some .notSupported) else
    match opensslSign sign s.maxSig r h with
    | .err e => .ok (s, some e)
    | .ub u => .ub u
    | .ok sig =>
      if sig.length = 0 then .ok (s, some .notSupported) else do
      let o ← rd s.out s.idx
      match o.ptr, alloc with
      | none, false => .ok (s, some .memory)
      | none, true =>
        let H := (s.heap.alloc s.maxSig).1
        let p := (s.heap.alloc s.maxSig).2
        let H ← H.store p sig
        let a ← wr s.out s.idx { o with ptr := some p, size := sig.length }
        .ok ({ s with out := a, heap := H, idx := s.idx + 1 }, none)
      | some p, _ =>
        let H ← s.heap.store p sig
        let a ← wr s.out s.idx { o with size := sig.length }
        .ok ({ s with out := a, heap := H, idx := s.idx + 1 }, none)

/-- `sv_signing_plugin_get_signature` (`plugin.c:140-166`) with non-NULL arguments: new state and
the signature, if the function returns true. -/
def fetch (s : St) (max : Nat) : Out (St × Option Bytes) :=
  if 0 < s.idx then do
    let o ← rd s.out 0
    if max < o.size then
      let s' ← shift s
      .ok (s', none)
    else
      match o.ptr with
      | none => .ub .nullDeref
      | some p =>
        let sig ← s.heap.load p o.size
        let s' ← shift s
        .ok (s', some sig)
  else .ok (s, none)

/-- A call of the plugin interface. -/
inductive Call
  | submit (hash : Option Bytes) (r : Nat) (alloc : Bool)
  | fetch (max : Nat)
deriving DecidableEq, Repr

/-- What the caller sees of a call. -/
inductive Ev
  | submit (hash : Option Bytes) (rc : Option Rc)
  | fetch (max : Nat) (sig : Option Bytes)
deriving DecidableEq, Repr

/-- One call. -/
def step (sign : Nat → Bytes → Option Bytes) (s : St) : Call → Out (St × Ev)
  | .submit h r al => do
    let (s, rc) ← submit sign s h r al
    .ok (s, .submit h rc)
  | .fetch m => do
    let (s, sig) ← fetch s m
    .ok (s, .fetch m sig)

/-- A sequence of calls, with everything the caller sees. -/
def run (sign : Nat → Bytes → Option Bytes) : St → List Call → Out (St × List Ev)
  | s, [] => .ok (s, [])
  | s, c :: cs => do
    let (s, e) ← step sign s c
    let (s, es) ← run sign s cs
    .ok (s, e :: es)

end Unthreaded
end SV
