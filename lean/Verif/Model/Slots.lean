import Verif.Model.Bytes
/-!
Arrays of buffer slots used by the two signing plugins, with an explicit heap for the memory that
the slots point at.
-/
namespace SV

/-- `MAX_BUFFER_LENGTH` (`/repo/lib/plugins/unthreaded-signing/plugin.c:32`,
`/repo/lib/plugins/threaded-signing/plugin.c:47`). -/
def maxBuffer : Nat := 60

/-- Heap of the plugin: every address below `brk` is an allocated block whose length is the
allocated size.  `calloc` never returns an address twice.  Simplification: freed blocks are not
tracked, the plugins only free when they drop the pointer at the same time. -/
structure Heap where
  cell : Nat → Bytes
  brk : Nat

/-- `calloc(1, n)` when it succeeds. -/
def Heap.alloc (H : Heap) (n : Nat) : Heap × Nat :=
  ({ cell := fun a => if a = H.brk then List.replicate n 0 else H.cell a, brk := H.brk + 1 }, H.brk)

/-- `memcpy` into the start of block `p`; writing more than the block holds is undefined. -/
def Heap.store (H : Heap) (p : Nat) (bs : Bytes) : Out Heap :=
  if bs.length ≤ (H.cell p).length then
    .ok { H with cell := fun a => if a = p then bs ++ (H.cell p).drop bs.length else H.cell a }
  else .ub .overflow

/-- `memcpy` of `n` bytes from the start of block `p`. -/
def Heap.load (H : Heap) (p : Nat) (n : Nat) : Out Bytes :=
  if n ≤ (H.cell p).length then .ok ((H.cell p).take n) else .ub .overread

/-- `hash_data_t` and `signature_data_t`
(`/repo/lib/plugins/threaded-signing/plugin.c:50-62`,
`/repo/lib/plugins/unthreaded-signing/plugin.c:45-48`).  Simplification: one record for all of them,
`err` (the `signing_error` flag) is unused for hashes, and `id`, `err` are unused in the unthreaded
plugin. -/
structure Slot where
  ptr : Option Nat
  size : Nat
  id : UInt32
  err : Bool
deriving DecidableEq, Repr

/-- A slot after `calloc` of the plugin handle (all zero). -/
def Slot.zero : Slot := ⟨none, 0, 0, false⟩

/-- Reads `a[i]`. -/
def rd (a : List Slot) (i : Nat) : Out Slot :=
  match a[i]? with
  | some s => .ok s
  | none => .ub .oobIndex

/-- Writes `a[i] = s`. -/
def wr (a : List Slot) (i : Nat) (s : Slot) : Out (List Slot) :=
  if i < a.length then .ok (a.set i s) else .ub .oobIndex

/-- The loop `while (j < n) { a[j - 1] = a[j]; j++; }`
(`/repo/lib/plugins/threaded-signing/plugin.c:331-334`, `401-404`, `420-423`, `460-463`;
`/repo/lib/plugins/unthreaded-signing/plugin.c:69-71` with `n = idx`, counting from 1). -/
def shiftLoop (n : Nat) : Nat → List Slot → Nat → Out (List Slot × Nat)
  | 0, _, _ => .ub .diverge
  | f + 1, a, j =>
    if j < n then do
      let s ← rd a j
      let a ← wr a (j - 1) s
      shiftLoop n f a (j + 1)
    else .ok (a, j)

end SV
