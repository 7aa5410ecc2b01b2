import Verif.Spec.Plugin
import Verif.Model.Threaded
/-!
What a session may expect of the threaded plugin, in terms of the calls it makes and the answers it
gets.  Only the types of steps and observations are taken from the model.
-/
namespace SV.Spec
open SV.Threaded

/-- Hashes of session `k` that were accepted, in order. -/
def acceptedBy (k : Nat) (es : List Ev) : List Bytes :=
  es.filterMap fun
    | .submit j h none => if j = k then some h else none
    | _ => none

/-- Signatures handed to session `k`, in order. -/
def deliveredTo (k : Nat) (es : List Ev) : List Bytes :=
  es.filterMap fun
    | .fetch j (some s) _ => if j = k then some s else none
    | _ => none

/-- `ds` are signatures of `hs`, one by one. -/
def SigsOf (sign : Nat → Bytes → Option Bytes) : List Bytes → List Bytes → Prop
  | [], [] => True
  | h :: hs, d :: ds => IsSig sign h d ∧ SigsOf sign hs ds
  | _, _ => False

/-- Number of set ups in a schedule. -/
def setups (xs : List Step) : Nat :=
  (xs.filter fun
    | .setup _ _ => true
    | _ => false).length

/-- All hashes submitted in a schedule have `n` bytes. -/
def SameSize (n : Nat) (xs : List Step) : Prop :=
  ∀ x ∈ xs, ∀ k h a1 a2, x = .submit k h a1 a2 → h.length = n

/-- According to what it was told, the session with number `k` is set up and not torn down. -/
def SessionLive (k : Nat) (es : List Ev) : Prop := .setup k true ∈ es ∧ .teardown k ∉ es

/-- The session that makes a call. -/
def caller : Step → Option Nat
  | .teardown k => some k
  | .submit k _ _ _ => some k
  | .fetch k _ => some k
  | _ => none

end SV.Spec
