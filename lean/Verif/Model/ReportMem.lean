import Verif.Model.Bytes
import Verif.Model.Out
import Verif.Model.Version
/-!
Memory of authenticity reports, `/repo/lib/src/signed_video_authenticity.c`, with allocations that may fail: the local report
of a session, the product information, and the reports handed out to the user.

Simplifications: a block that `realloc` resizes gets a new address, even when it could stay where it is; the members of a
report other than strings are one value `rest` that is copied as a whole; the struct `product_info` of a session, allocated
with the session and freed with it, is not a block.
-/
namespace SV.RepMem

/-- A C string stored in a block: the characters before the first NUL. -/
def cstr (b : Bytes) : Bytes := b.takeWhile (· ≠ 0)

/-- The heap: the blocks by address, the next unused address, and whether the coming calls of `malloc`, `calloc` and
`realloc` succeed (those behind the end of the list do). -/
structure Heap where
  mem : Nat → Option Bytes
  brk : Nat
  orc : List Bool

/-- Change of one block. -/
def Heap.set (h : Heap) (a : Nat) (b : Option Bytes) : Heap :=
  { h with mem := fun x => if x = a then b else h.mem x }

/-- `malloc` or `calloc` followed by filling in `b`; the address is `none` (NULL) if it fails. -/
def Heap.alloc (h : Heap) (b : Bytes) : Heap × Option Nat :=
  if h.orc.headD true then
    ({ h.set h.brk (some b) with brk := h.brk + 1, orc := h.orc.tail }, some h.brk)
  else ({ h with orc := h.orc.tail }, none)

/-- `free`. -/
def Heap.free (h : Heap) : Option Nat → Out Heap
  | none => .ok h
  | some a => if (h.mem a).isSome then .ok (h.set a none) else .ub .useAfterFree

/-- Reading the string at an address, as `strlen` and `strcpy` do. -/
def Heap.str (h : Heap) (a : Nat) : Out Bytes :=
  match h.mem a with
  | none => .ub .useAfterFree
  | some b => if (0 : UInt8) ∈ b then .ok (cstr b) else .ub .overread

/-- `strcpy` of a string `s` to the block at `dst`. -/
def Heap.strcpy (h : Heap) (dst : Option Nat) (s : Bytes) : Out Heap :=
  match dst with
  | none => .ub .nullDeref
  | some a =>
    match h.mem a with
    | none => .ub .useAfterFree
    | some b =>
      if b.length < s.length + 1 then .ub .overflow
      else .ok (h.set a (some (s ++ 0 :: b.drop (s.length + 1))))

/-- Source of a copy: a pointer of the library, or a string from elsewhere (the user or a SEI), NULL or the bytes from the
pointer on. -/
inductive Src
  | ptr (p : Option Nat)
  | text (b : Option Bytes)

/-- The source string; NULL is taken as the empty string (`signed_video_authenticity.c` 57-58). A text from elsewhere ends at
its first NUL or, by assumption on the caller, with its last byte. -/
def Src.read (h : Heap) : Src → Out Bytes
  | .ptr none => .ok []
  | .ptr (some a) => h.str a
  | .text none => .ok []
  | .text (some b) => .ok (cstr b)

/-- `dst_size` (`signed_video_authenticity.c` 60). -/
def dstSize (h : Heap) : Option Nat → Out Nat
  | none => pure 0
  | some a => do pure ((← h.str a).length + 1)

/-- `allocate_memory_and_copy_string` (`signed_video_authenticity.c` 53-79): the new value of `*dst_str`, and whether `SV_OK`
rather than `SV_MEMORY` is returned. -/
def copyStr (h : Heap) (dst : Option Nat) (src : Src) : Out (Heap × Option Nat × Bool) := do
  let s ← src.read h
  let size ← dstSize h dst
  if s.length + 1 ≠ size then do
    let r := h.alloc (s ++ [0])
    let h ← r.1.free dst
    pure (h, r.2, r.2.isSome)
  else do
    let h ← h.strcpy dst s
    pure (h, dst, true)

/-- A sequence of copies that stops at the first failure (`SV_THROW`). -/
def copyAll (h : Heap) : List (Option Nat) → List Src → Out (Heap × List (Option Nat) × Bool)
  | d :: ds, s :: ss => do
    let r ← copyStr h d s
    if r.2.2 then do
      let q ← copyAll r.1 ds ss
      pure (q.1, r.2.1 :: q.2.1, q.2.2)
    else pure (r.1, r.2.1 :: ds, false)
  | ds, _ => pure (h, ds, true)

/-- A sequence of calls of `free`. -/
def freeAll (h : Heap) : List (Option Nat) → Out Heap
  | [] => pure h
  | p :: ps => do
    let h ← h.free p
    freeAll h ps

/-- `signed_video_authenticity_t` (`signed_video_auth.h`): the address of the struct, the pointers of its product
information (hardware id, firmware version, serial number, manufacturer, address) and the other strings, and all the other
members. -/
structure Rep where
  self : Nat
  product : List (Option Nat)
  version : Option Nat
  thisVersion : Option Nat
  nalu : Option Nat
  validation : Option Nat
  rest : Nat
deriving DecidableEq, Repr

/-- Value of the other members after `latest_validation_init` and `accumulated_validation_init`. -/
def restInit : Nat := 0

/-- `SV_VERSION_MAX_STRLEN` (`signed_video_internal.h` 56). -/
def versionMax : Nat := 13

/-- `SIGNED_VIDEO_VERSION` (`signed_video_internal.h` 55), "v1.1.29". -/
def thisVersion : Bytes := [0x76, 0x31, 0x2e, 0x31, 0x2e, 0x32, 0x39]

/-- `signed_video_authenticity_report_create` (`signed_video_authenticity.c` 376-386) with `authenticity_report_init`
(208-219), which does not check the two allocations. -/
def create (h : Heap) : Heap × Option Rep :=
  let a := h.alloc []
  match a.2 with
  | none => (a.1, none)
  | some p =>
    let v := a.1.alloc (List.replicate versionMax 0)
    let t := v.1.alloc (List.replicate versionMax 0)
    (t.1, some { self := p, product := List.replicate 5 none, version := v.2, thisVersion := t.2, nalu := none,
                 validation := none, rest := restInit })

/-- `signed_video_authenticity_report_free` (`signed_video_authenticity.c` 388-403) with `product_info_free_members`
(`signed_video_h26x_common.c` 173-188). -/
def freeRep (h : Heap) : Option Rep → Out Heap
  | none => pure h
  | some r => freeAll h (r.product ++ [r.version, r.thisVersion, r.nalu, r.validation, some r.self])

/-- `strcpy` from a pointer, which must not be NULL. -/
def strcpyFrom (h : Heap) (dst src : Option Nat) : Out Heap :=
  match src with
  | none => .ub .nullDeref
  | some a => do
    let s ← h.str a
    h.strcpy dst s

/-- `transfer_authenticity` (`signed_video_authenticity.c` 145-163) with `transfer_product_info` (85-103),
`transfer_latest_validation` (105-127) and `transfer_accumulated_validation` (129-143). -/
def transfer (h : Heap) (dst src : Rep) : Out (Heap × Rep × Bool) := do
  let h ← strcpyFrom h dst.version src.version
  let h ← h.strcpy dst.thisVersion thisVersion
  let r ← copyAll h dst.product (src.product.map .ptr)
  let dst := { dst with product := r.2.1 }
  if r.2.2 then do
    let q ← copyStr r.1 dst.nalu (.ptr src.nalu)
    let dst := { dst with nalu := q.2.1 }
    if q.2.2 then do
      let t ← copyStr q.1 dst.validation (.ptr src.validation)
      let dst := { dst with validation := t.2.1 }
      if t.2.2 then pure (t.1, { dst with rest := src.rest }, true)
      else pure (t.1, dst, false)
    else pure (q.1, dst, false)
  else pure (r.1, dst, false)

/-- A session as far as reports go: the strings of `self->product_info`, the local report `self->authenticity`, and the
reports handed out to the user, in order, without those freed since. -/
structure Sess where
  heap : Heap
  product : List (Option Nat)
  loc : Option Rep
  out : List (Option Rep)

/-- A session created: no strings, no report. -/
def Sess.init : Sess := ⟨⟨fun _ => none, 0, []⟩, List.replicate 5 none, none, []⟩

/-- What happens to a session. -/
inductive Op
  /-- `create_local_authenticity_report_if_needed` -/
  | createLocal
  /-- `signed_video_set_product_info` -/
  | setProduct (l : List (Option Bytes))
  /-- `decode_product_info`, with the bytes from each string on -/
  | decodeProduct (l : List Bytes)
  /-- `decode_general`: the version of the signing side -/
  | version (a b c : UInt8)
  /-- `update_authenticity_report`: the two strings and the other members afterwards -/
  | update (nalu validation : Bytes) (rest : Nat)
  /-- `signed_video_reset` -/
  | reset
  /-- `signed_video_get_authenticity_report`, with the other members after the number of pending NAL units is updated -/
  | get (rest : Nat)
  /-- `signed_video_authenticity_report_free` by the user, of the report handed out as number `k` -/
  | free (k : Nat)

/-- `create_local_authenticity_report_if_needed` (`signed_video_authenticity.c` 348-374). -/
def Sess.createLocal (s : Sess) : Out Sess :=
  match s.loc with
  | some _ => pure s
  | none =>
    let c := create s.heap
    match c.2 with
    | none => pure { s with heap := c.1 }
    | some r => do
      let q ← copyAll c.1 r.product (s.product.map .ptr)
      let r := { r with product := q.2.1 }
      if q.2.2 then pure { s with heap := q.1, loc := some r }
      else do
        let h ← freeRep q.1 (some r)
        pure { s with heap := h }

/-- `signed_video_set_product_info` (`signed_video_h26x_sign.c` 775-802). -/
def Sess.setProduct (s : Sess) (l : List (Option Bytes)) : Out Sess := do
  let q ← copyAll s.heap s.product (l.map .text)
  if q.2.2 then pure { s with heap := q.1, product := q.2.1 }
  else do
    let h ← freeAll q.1 q.2.1
    pure { s with heap := h, product := List.replicate 5 none }

/-- `decode_product_info` (`signed_video_tlv.c` 517-571): the copies to `self->product_info` and on to the local report.
Whether the sizes add up is checked after that, so that it does not matter here. -/
def Sess.decodeProduct (s : Sess) (l : List Bytes) : Out Sess := do
  let q ← copyAll s.heap s.product (l.map fun b => .text (some b))
  let s := { s with heap := q.1, product := q.2.1 }
  if q.2.2 then
    match s.loc with
    | none => pure s
    | some r => do
      let q ← copyAll s.heap r.product (s.product.map .ptr)
      pure { s with heap := q.1, loc := some { r with product := q.2.1 } }
  else pure s

/-- The text printed by `bytes_to_version_str` (`signed_video_h26x_common.c` 202-208). -/
def versionText (a b c : UInt8) : Bytes :=
  (versionStr a.toNat b.toNat c.toNat).map fun x => UInt8.ofNat x.toNat

/-- The string written by `decode_general` (`signed_video_tlv.c` 330-333): to the local report if there is one; nothing is
done if its string is NULL. -/
def Sess.version (s : Sess) (a b c : UInt8) : Out Sess :=
  match s.loc with
  | none => pure s
  | some r =>
    match r.version with
    | none => pure s
    | some p => do
      let h ← s.heap.strcpy (some p) (versionText a b c)
      pure { s with heap := h }

/-- The strings in `update_authenticity_report` (`signed_video_authenticity.c` 248-268), with those made by
`h26x_nalu_list_get_str` (`signed_video_h26x_nalu_list.c` 517-544). The function is called with a local report only
(`assert`). -/
def Sess.update (s : Sess) (n v : Bytes) (rest : Nat) : Out Sess :=
  match s.loc with
  | none => pure s
  | some r => do
    let a := s.heap.alloc (cstr n ++ [0])
    let b := a.1.alloc (cstr v ++ [0])
    let h ← b.1.free r.nalu
    let h ← h.free r.validation
    pure { s with heap := h, loc := some { r with nalu := a.2, validation := b.2, rest := rest } }

/-- `latest_validation_init` and `accumulated_validation_init` in `signed_video_reset` (`signed_video_authenticity.c`
169-206, `signed_video_h26x_common.c` 1212-1213). -/
def Sess.reset (s : Sess) : Out Sess :=
  match s.loc with
  | none => pure s
  | some r => do
    let h ← s.heap.free r.nalu
    let h ← h.free r.validation
    pure { s with heap := h, loc := some { r with nalu := none, validation := none, rest := restInit } }

/-- `signed_video_get_authenticity_report` (`signed_video_authenticity.c` 303-342). A report handed out is added to the list;
nothing is added if NULL is returned. -/
def Sess.get (s : Sess) (rest : Nat) : Out Sess :=
  match s.loc with
  | none => pure s
  | some l =>
    let c := create s.heap
    match c.2 with
    | none => pure { s with heap := c.1 }
    | some r => do
      let l := { l with rest := rest }
      let q ← transfer c.1 r l
      if q.2.2 then pure { s with heap := q.1, loc := some l, out := s.out ++ [some q.2.1] }
      else do
        let h ← freeRep q.1 (some q.2.1)
        pure { s with heap := h, loc := some l }

/-- The user frees report number `k`; done at most once for each report (a second call is not made). -/
def Sess.free (s : Sess) (k : Nat) : Out Sess :=
  match s.out[k]? with
  | some (some r) => do
    let h ← freeRep s.heap (some r)
    pure { s with heap := h, out := s.out.set k none }
  | _ => pure s

/-- One operation. -/
def Sess.apply (s : Sess) : Op → Out Sess
  | .createLocal => s.createLocal
  | .setProduct l => s.setProduct l
  | .decodeProduct l => s.decodeProduct l
  | .version a b c => s.version a b c
  | .update n v r => s.update n v r
  | .reset => s.reset
  | .get r => s.get r
  | .free k => s.free k

/-- One operation, with the outcomes of its allocations. -/
def Sess.step (s : Sess) (o : Op × List Bool) : Out Sess :=
  { s with heap := { s.heap with orc := o.2 } }.apply o.1

/-- A sequence of operations. -/
def Sess.run (s : Sess) : List (Op × List Bool) → Out Sess
  | [] => pure s
  | o :: os => do
    let s ← s.step o
    s.run os

/-- The part of `signed_video_free` (`signed_video_h26x_common.c` 1253-1254) for reports and product information. -/
def Sess.close (s : Sess) : Out Heap := do
  let h ← freeRep s.heap s.loc
  freeAll h s.product

end SV.RepMem
