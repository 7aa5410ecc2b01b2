import Verif.Model.Nalu
/-!
The list of NAL units under validation, `/repo/lib/src/signed_video_h26x_nalu_list.c`.

The list is modelled twice.  `PList` is the doubly linked list as it is in memory: a heap of nodes with `prev` and `next`
pointers, and the struct with `first_item`, `last_item` and `num_items`.  `NList` is the sequence of items, each with its
address, which is what the rest of the model works on.  `Props/NaluList.lean` relates the two.
-/
namespace SV

/-- Values of `validation_status` (`signed_video_h26x_internal.h` 77-89). `nul` is the `'\0'` given to an item without
NAL unit (`signed_video_h26x_nalu_list.c` 61). -/
inductive Status | P | U | ignored | ok | N | M | E | nul
deriving DecidableEq, Repr

/-- The character of a status. -/
def Status.char : Status → Char
  | P => 'P'
  | U => 'U'
  | ignored => '_'
  | ok => '.'
  | N => 'N'
  | M => 'M'
  | E => 'E'
  | nul => '\x00'

/-- `h26x_nalu_list_item_t` (`signed_video_h26x_internal.h` 75-110) without the links. `hash` and `second` are the first
`hash_size` bytes of `hash` and of `second_hash` (`none` for NULL). -/
structure Item where
  nalu : Option Nalu := none
  status : Status := .nul
  hash : Bytes := []
  second : Option Bytes := none
  taken : Bool := false
  decoded : Bool := false
  used : Bool := false
  linked : Bool := false
deriving DecidableEq, Repr

/-- `get_validation_status_from_nalu` (`signed_video_h26x_nalu_list.c` 58-77). -/
def statusOf : Option Nalu → Status
  | none => .nul
  | some n => if n.valid < 0 then .E else if n.valid = 0 then .U else if n.isHashable then .P else .ignored

/-- `h26x_nalu_list_item_create` (`signed_video_h26x_nalu_list.c` 85-97). -/
def newItem (n : Option Nalu) : Item := { nalu := n, status := statusOf n }

/-- The item created in `h26x_nalu_list_add_missing` (`signed_video_h26x_nalu_list.c` 385-389). -/
def missingItem : Item := { newItem none with status := .M, used := true }

/-- `nalu_type_to_char` (`signed_video_h26x_common.c` 110-133). -/
def typeChar : Option Nalu → Char
  | none => ' '
  | some n =>
    match n.ntype with
    | .sei => if n.gopSei then (if n.golden then 'G' else 'S') else 'z'
    | .i => if n.primary then 'I' else 'i'
    | .p => if n.primary then 'P' else 'p'
    | .ps => 'v'
    | .aud => '_'
    | .other => 'o'
    | .undefined => 'U'

/-! ### In memory -/

/-- A node: the item and its links. -/
structure Node (α : Type) where
  val : α
  prev : Option Nat
  next : Option Nat

/-- Memory and the struct `h26x_nalu_list_t` (`signed_video_h26x_internal.h` 63-69). `brk` is the next address handed
out by `calloc`; addresses are not reused, so that a use after free is always visible. `num_items` is an `int`, its
overflow is not modelled. -/
structure PList (α : Type) where
  heap : Nat → Option (Node α)
  first : Option Nat
  last : Option Nat
  num : Int
  brk : Nat

variable {α : Type}

/-- `h26x_nalu_list_create` (`signed_video_h26x_nalu_list.c` 253-257). -/
def PList.empty : PList α := { heap := fun _ => none, first := none, last := none, num := 0, brk := 0 }

/-- Read a node. -/
def load (h : Nat → Option (Node α)) (a : Nat) : Out (Node α) :=
  match h a with
  | some n => .ok n
  | none => .ub .useAfterFree

/-- Write memory. -/
def upd (h : Nat → Option (Node α)) (a : Nat) (n : Option (Node α)) : Nat → Option (Node α) :=
  fun b => if b = a then n else h b

/-- `a->prev = p`. -/
def setPrev (h : Nat → Option (Node α)) (a : Nat) (p : Option Nat) : Out (Nat → Option (Node α)) := do
  let n ← load h a
  pure (upd h a (some { n with prev := p }))

/-- `a->next = p`. -/
def setNext (h : Nat → Option (Node α)) (a : Nat) (p : Option Nat) : Out (Nat → Option (Node α)) := do
  let n ← load h a
  pure (upd h a (some { n with next := p }))

/-- `a->prev = p` through a pointer that may be NULL, guarded by `if (a)`. -/
def setPrevIf (h : Nat → Option (Node α)) : Option Nat → Option Nat → Out (Nat → Option (Node α))
  | none, _ => .ok h
  | some a, p => setPrev h a p

/-- `a->next = p` through a pointer that may be NULL, guarded by `if (a)`. -/
def setNextIf (h : Nat → Option (Node α)) : Option Nat → Option Nat → Out (Nat → Option (Node α))
  | none, _ => .ok h
  | some a, p => setNext h a p

/-- `h26x_nalu_list_item_append_item` (`signed_video_h26x_nalu_list.c` 118-131). -/
def appendItem (h : Nat → Option (Node α)) (item new : Nat) : Out (Nat → Option (Node α)) := do
  let n ← load h item
  let h ← match n.next with
    | none => pure h
    | some nx => do
      let h ← setPrev h nx (some new)
      setNext h new (some nx)
  let h ← setPrev h new (some item)
  setNext h item (some new)

/-- `h26x_nalu_list_item_prepend_item` (`signed_video_h26x_nalu_list.c` 134-147). -/
def prependItem (h : Nat → Option (Node α)) (item new : Nat) : Out (Nat → Option (Node α)) := do
  let n ← load h item
  let h ← match n.prev with
    | none => pure h
    | some pv => do
      let h ← setPrev h new (some pv)
      setNext h pv (some new)
  let h ← setPrev h item (some new)
  setNext h new (some item)

/-- First loop of `h26x_nalu_list_refresh` (`signed_video_h26x_nalu_list.c` 219-221). The first argument bounds the
number of iterations; running out of it stands for a loop that does not end. -/
def rewind (h : Nat → Option (Node α)) : Nat → Option Nat → Out (Option Nat)
  | _, none => .ok none
  | 0, some _ => .ub .diverge
  | k + 1, some a => do
    let n ← load h a
    match n.prev with
    | none => pure (some a)
    | some p => rewind h k (some p)

/-- Second loop of `h26x_nalu_list_refresh` (`signed_video_h26x_nalu_list.c` 223-230): number of items and last one. -/
def countItems (h : Nat → Option (Node α)) : Nat → Option Nat → Int → Out (Int × Option Nat)
  | _, none, c => .ok (c, none)
  | 0, some _, _ => .ub .diverge
  | k + 1, some a, c => do
    let n ← load h a
    match n.next with
    | none => pure (c + 1, some a)
    | some b => countItems h k (some b) (c + 1)

/-- `h26x_nalu_list_refresh` (`signed_video_h26x_nalu_list.c` 212-232). -/
def refresh (s : PList α) : Out (PList α) := do
  let f ← rewind s.heap (s.brk + 1) s.first
  let (c, l) ← countItems s.heap (s.brk + 1) f 0
  pure { s with first := f, last := l, num := c }

/-- The search loops of `h26x_nalu_list_remove_and_free_item` (`signed_video_h26x_nalu_list.c` 190-191) and of
`is_in_list` (234-247). -/
def findItem (h : Nat → Option (Node α)) (a : Nat) : Nat → Option Nat → Out (Option Nat)
  | _, none => .ok none
  | 0, some _ => .ub .diverge
  | k + 1, some b =>
    if b = a then .ok (some b)
    else do
      let n ← load h b
      findItem h a k n.next

/-- `h26x_nalu_list_remove_and_free_item` (`signed_video_h26x_nalu_list.c` 185-207). -/
def removeAndFree (s : PList α) (a : Nat) : Out (PList α) := do
  let f ← findItem s.heap a (s.brk + 1) s.first
  match f with
  | none => pure s
  | some i => do
    let n ← load s.heap i
    let h ← setNextIf s.heap n.prev n.next
    let n ← load h i
    let h ← setPrevIf h n.next n.prev
    let n ← load h i
    let first := if s.first = some i then n.next else s.first
    let last := if s.last = some i then n.prev else s.last
    let s ← refresh { s with heap := h, first := first, last := last }
    pure { s with heap := upd s.heap i none }

/-- `h26x_nalu_list_free_items` (`signed_video_h26x_nalu_list.c` 269-277). -/
def freeItems : Nat → PList α → Out (PList α)
  | 0, s => match s.first with
    | none => .ok s
    | some _ => .ub .diverge
  | k + 1, s => match s.first with
    | none => .ok s
    | some a => do
      let s ← removeAndFree s a
      freeItems k s

/-- `h26x_nalu_list_append` (`signed_video_h26x_nalu_list.c` 283-299) with the created item `v`; allocation succeeds. -/
def appendP (s : PList α) (v : α) : Out (PList α) := do
  let new := s.brk
  let s : PList α := { s with heap := upd s.heap new (some ⟨v, none, none⟩), brk := s.brk + 1 }
  let s : PList α := if s.first = none then { s with first := some new } else s
  let s ← match s.last with
    | none => pure s
    | some l => do
      let h ← appendItem s.heap l new
      pure { s with heap := h }
  refresh s

/-- Loop of `h26x_nalu_list_add_missing` (`signed_video_h26x_nalu_list.c` 384-397); allocations succeed. -/
def addMissingLoop (v : α) (app : Bool) (item : Nat) : Nat → PList α → Out (PList α)
  | 0, s => .ok s
  | k + 1, s => do
    let new := s.brk
    let h := upd s.heap new (some ⟨v, none, none⟩)
    let h ← if app then appendItem h item new else prependItem h item new
    let s ← refresh { s with heap := h, brk := s.brk + 1 }
    addMissingLoop v app item k s

/-- `h26x_nalu_list_add_missing` (`signed_video_h26x_nalu_list.c` 370-403) with the created item `v`: return code
(`none` for `SV_OK`) and list. -/
def addMissingP (s : PList α) (v : α) (n : Int) (app : Bool) (item : Nat) : Out (Option Rc × PList α) := do
  let f ← findItem s.heap item (s.brk + 1) s.first
  if f = none ∨ n < 0 then pure (some .invalidParameter, s)
  else do
    let s ← addMissingLoop v app item n.toNat s
    pure (none, s)

/-- Write to the fields of an item other than the links. -/
def setItem (s : PList α) (a : Nat) (f : α → α) : Out (PList α) := do
  let n ← load s.heap a
  pure { s with heap := upd s.heap a (some { n with val := f n.val }) }

/-- `h26x_nalu_list_clean_up` (`signed_video_h26x_nalu_list.c` 547-564): number of removed items that are not missing
ones, and the list. -/
def cleanUpP : Nat → PList Item → Nat → Out (Nat × PList Item)
  | 0, s, c => match s.first with
    | none => .ok (c, s)
    | some _ => .ub .diverge
  | k + 1, s, c => match s.first with
    | none => .ok (c, s)
    | some a => do
      let n ← load s.heap a
      if n.val.status = .P then pure (c, s)
      else do
        let s ← removeAndFree s a
        cleanUpP k s (if n.val.status = .M then c else c + 1)

/-- Effect on an item that is not removed in one iteration of `h26x_nalu_list_remove_missing_items`
(`signed_video_h26x_nalu_list.c` 424-436). -/
def resetStatus (i : Item) : Item :=
  let i := if i.decoded ∧ i.status ≠ .U then { i with status := .U } else i
  if i.status = .N then { i with status := .P } else i

/-- `h26x_nalu_list_remove_missing_items` (`signed_video_h26x_nalu_list.c` 408-441), from `item` on. `pend` is
`found_first_pending_nalu`, `dec` is `found_decoded_sei`. -/
def removeMissingP : Nat → PList Item → Option Nat → Bool → Bool → Out (PList Item)
  | _, s, none, _, _ => .ok s
  | 0, s, some _, pend, dec => if pend && dec then .ok s else .ub .diverge
  | k + 1, s, some a, pend, dec =>
    if pend && dec then .ok s
    else do
      let n ← load s.heap a
      if n.val.status = .M ∧ s.first = some a then do
        let s ← removeAndFree s a
        removeMissingP k s n.next pend dec
      else do
        let dec := dec || (n.val.decoded && decide (n.val.status ≠ .U))
        let s ← setItem s a resetStatus
        match n.next with
        | none => pure s
        | some b => do
          let m ← load s.heap b
          removeMissingP k s (some b) (pend || decide (m.val.status = .P)) dec

/-- Loop of `h26x_nalu_list_get_str` (`signed_video_h26x_nalu_list.c` 525-541): `dst` has room for `num_items + 1`
characters, of which `cap` are left. -/
def getStrLoop (h : Nat → Option (Node α)) (f : α → Char) : Nat → Option Nat → Int → List Char → Out (List Char)
  | _, none, _, dst => .ok dst
  | 0, some _, _, _ => .ub .diverge
  | k + 1, some a, cap, dst => do
    let n ← load h a
    if cap ≤ 0 then .ub .overflow
    else getStrLoop h f k n.next (cap - 1) (dst ++ [f n.val])

/-- `h26x_nalu_list_get_str` (`signed_video_h26x_nalu_list.c` 517-544). `f` is the character of an item. -/
def getStrP (s : PList α) (f : α → Char) : Out (List Char) :=
  getStrLoop s.heap f (s.brk + 1) s.first (s.num + 1) []

/-! ### As a sequence -/

/-- The items in order, each with its address. -/
abbrev NList := List (Nat × Item)

/-- `h26x_nalu_list_append` (`signed_video_h26x_nalu_list.c` 283-299). -/
def NList.append (l : NList) (a : Nat) (i : Item) : NList := l ++ [(a, i)]

/-- `h26x_nalu_list_add_missing` (`signed_video_h26x_nalu_list.c` 370-403) next to the item at address `item`, with new
addresses from `brk` on. Items added after `item` end up in reverse order of creation. -/
def insertMissing {α : Type} (l : List (Nat × α)) (v : α) (brk n : Nat) (app : Bool) (item : Nat) : List (Nat × α) :=
  let new := (List.range' brk n).map fun a => (a, v)
  l.flatMap fun x => if x.1 = item then (if app then x :: new.reverse else new ++ [x]) else [x]

/-- The list after `h26x_nalu_list_clean_up` (`signed_video_h26x_nalu_list.c` 547-564). -/
def cleanUp (l : NList) : NList := l.dropWhile fun x => x.2.status ≠ .P

/-- The value returned by `h26x_nalu_list_clean_up`. -/
def cleanUpCount (l : NList) : Nat :=
  ((l.takeWhile fun x => x.2.status ≠ .P).filter fun x => x.2.status ≠ .M).length

/-- `h26x_nalu_list_remove_missing_items` (`signed_video_h26x_nalu_list.c` 408-441) from an item on; `isFirst` is
`item == list->first_item`. -/
def removeMissingFrom : NList → Bool → Bool → Bool → NList
  | [], _, _, _ => []
  | x :: r, isFirst, pend, dec =>
    if pend && dec then x :: r
    else if x.2.status = .M ∧ isFirst then removeMissingFrom r true pend dec
    else
      let dec := dec || (x.2.decoded && decide (x.2.status ≠ .U))
      let pend := pend || (match r with | [] => false | y :: _ => decide (y.2.status = .P))
      (x.1, resetStatus x.2) :: removeMissingFrom r false pend dec

/-- `h26x_nalu_list_remove_missing_items` (`signed_video_h26x_nalu_list.c` 408-441). -/
def removeMissing (l : NList) : NList := removeMissingFrom l true false false

/-- `h26x_nalu_list_get_next_sei_item` (`signed_video_h26x_nalu_list.c` 444-455). -/
def nextSei (l : NList) : Option (Nat × Item) :=
  l.find? fun x => (match x.2.nalu with | some n => n.gopSei | none => false) && decide (x.2.status = .P)

/-- `h26x_nalu_list_num_pending_items` (`signed_video_h26x_nalu_list.c` 499-512). -/
def numPending (l : NList) : Nat := (l.filter fun x => x.2.status = .P).length

/-- `h26x_nalu_list_get_str` (`signed_video_h26x_nalu_list.c` 517-544) with `VALIDATION_STR`. -/
def validationStr (l : NList) : List Char := l.map fun x => x.2.status.char

/-- `h26x_nalu_list_get_str` (`signed_video_h26x_nalu_list.c` 517-544) with `NALU_STR`. -/
def naluStr (l : NList) : List Char := l.map fun x => typeChar x.2.nalu

/-- Result of `h26x_nalu_list_get_stats` (`signed_video_h26x_nalu_list.c` 462-496). -/
structure Stats where
  invalid : Nat
  missing : Nat
  hasValid : Bool
deriving DecidableEq, Repr

/-- `h26x_nalu_list_get_stats` (`signed_video_h26x_nalu_list.c` 462-496). -/
def getStats (l : NList) : Stats where
  invalid := (l.filter fun x => x.2.used && (x.2.status = .N || x.2.status = .E)).length
  missing := (l.filter fun x => x.2.used && x.2.status = .M).length
  hasValid := l.any fun x =>
    x.2.used && x.2.status = .ok && !(match x.2.nalu with | some n => n.gopSei | none => false)

end SV
