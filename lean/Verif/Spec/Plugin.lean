import Verif.Model.Unthreaded
/-!
Specification of a signing plugin: a queue of hashes waiting to be fetched as signatures.
Only the types of calls and observations are taken from the model.
-/
namespace SV.Spec

/-- `sig` is a signature of `h` that fits in the signature memory. -/
def IsSig (sign : Nat → Bytes → Option Bytes) (h sig : Bytes) : Prop := ∃ r, sign r h = some sig

/-- One observation, from a queue of accepted hashes to the next. -/
inductive FifoStep (sign : Nat → Bytes → Option Bytes) (maxSig : Nat) :
    List Bytes → Unthreaded.Call → Unthreaded.Ev → List Bytes → Prop
  /-- An accepted hash is queued last; it can only be accepted when there is room. -/
  | accepted {q : List Bytes} {h : Bytes} {r : Nat} {al : Bool} : q.length < 60 →
      FifoStep sign maxSig q (.submit (some h) r al) (.submit (some h) none) (q ++ [h])
  /-- A refused hash changes nothing; refusal needs a reason: no or empty hash, a full queue, a
  failing signing operation, memory that cannot be allocated, or a signature longer than the key
  allows (`maxSig`). -/
  | refused {q : List Bytes} {h : Option Bytes} {r : Nat} {al : Bool} {rc : Rc} :
      (h = none ∨ h = some [] ∨ q.length = 60 ∨
        (∃ x, h = some x ∧ (sign r x = none ∨ sign r x = some [] ∨ al = false ∨
          ∃ s, sign r x = some s ∧ maxSig < s.length))) →
      FifoStep sign maxSig q (.submit h r al) (.submit h (some rc)) q
  /-- The oldest hash is delivered as a signature of that hash, within the size limit. -/
  | delivered {q : List Bytes} {h sig : Bytes} {m : Nat} : IsSig sign h sig → sig.length ≤ m →
      FifoStep sign maxSig (h :: q) (.fetch m) (.fetch m (some sig)) q
  /-- The signature of the oldest hash did not fit where the caller wanted it. -/
  | tooLarge {q : List Bytes} {h sig : Bytes} {m : Nat} : IsSig sign h sig → m < sig.length →
      FifoStep sign maxSig (h :: q) (.fetch m) (.fetch m none) q
  /-- Nothing to deliver. -/
  | empty {m : Nat} : FifoStep sign maxSig [] (.fetch m) (.fetch m none) []

/-- A whole history. -/
inductive FifoRun (sign : Nat → Bytes → Option Bytes) (maxSig : Nat) :
    List Bytes → List Unthreaded.Call → List Unthreaded.Ev → List Bytes → Prop
  | nil {q : List Bytes} : FifoRun sign maxSig q [] [] q
  | cons {q q' q'' : List Bytes} {c : Unthreaded.Call} {cs : List Unthreaded.Call}
      {e : Unthreaded.Ev} {es : List Unthreaded.Ev} :
      FifoStep sign maxSig q c e q' → FifoRun sign maxSig q' cs es q'' → FifoRun sign maxSig q (c :: cs) (e :: es) q''

/-- Hashes whose submission was answered by `SV_OK`. -/
def acceptedHashes : List Unthreaded.Ev → List Bytes
  | [] => []
  | .submit (some h) none :: es => h :: acceptedHashes es
  | _ :: es => acceptedHashes es

/-- Signatures handed out. -/
def deliveredSigs : List Unthreaded.Ev → List Bytes
  | [] => []
  | .fetch _ (some s) :: es => s :: deliveredSigs es
  | _ :: es => deliveredSigs es

end SV.Spec
