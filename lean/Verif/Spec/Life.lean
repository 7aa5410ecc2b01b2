import Verif.Model.Life
/-!
How a program may use the threaded plugin, and what it may expect.  Apart from the types of steps and
observations only the calls in progress (`init`, `exits`), the handles, and who is asleep are taken
from the model.
-/
namespace SV.Spec
open SV.Life

/-- A call the program may make: init and exit are not called while a call of exit has not returned,
exit and the set up of sessions wait for init to return, and handles are used until they are torn
down.  Sessions may outlive the plugin. -/
def MayCall (s : State) : Step → Prop
  | .init _ _ _ _ => s.exits = []
  | .exit _ => s.exits = [] ∧ s.init = none
  | .setup _ _ _ => s.init = none
  | .teardown k => ∃ id, s.handles[k]? = some ⟨id, true⟩
  | .submit k _ _ _ => ∃ id, s.handles[k]? = some ⟨id, true⟩
  | .fetch k _ => ∃ id, s.handles[k]? = some ⟨id, true⟩
  | _ => True

/-- All steps of a schedule are ones that `P` allows. -/
def Respects (P : State → Step → Prop) : State → List Step → Prop
  | _, [] => True
  | s, x :: xs => P s x ∧ ∀ s' e, step s x = .ok (s', e) → Respects P s' xs

/-- All calls in a schedule are ones the program may make. -/
abbrev Orderly : State → List Step → Prop := Respects MayCall

/-- What happened since the plugin was last started, with the key given then; `none` if it was
stopped afterwards. -/
def current : List Ev → Option (Nat × List Ev) → Option (Nat × List Ev)
  | [], c => c
  | .init (some key) :: es, _ => current es (some (key, []))
  | .exit :: es, _ => current es none
  | e :: es, c => current es (c.map fun (k, l) => (k, l ++ [e]))

/-- Number of sessions set up in a schedule, successfully or not. -/
def setUps (xs : List Life.Step) : Nat :=
  (xs.filter fun
    | .setup _ _ _ => true
    | _ => false).length

/-- Nobody sleeps who has something to do: the worker sleeps only while the plugin is running and
there is nothing to sign, init sleeps only as long as the worker has not run, and exit sleeps only
while the worker is signing. -/
structure NobodyOversleeps (s : State) : Prop where
  worker : s.worker = .asleep → s.running = true ∧ s.inn = []
  init : s.init = some .asleep → s.worker = .start ∧ s.running = false
  exit : .asleep ∈ s.exits → s.worker = .signing

/-- Nothing is left of the plugin: no thread, no memory, no data. -/
structure NothingLeft (s : State) : Prop where
  worker : s.worker = .none
  idList : s.idList = none
  signData : s.signData = none
  inn : s.inn = []
  out : s.out = []

/-- The worker, the call of exit waiting for it, and that call joining it get to run, in this order
(other steps may come in between). -/
inductive Scheduled : List Step → Prop
  | intro (xs ys zs us : List Step) (g a : Bool) (p1 p2 p : Nat) (t : Bool) :
    Scheduled (xs ++ .worker g a p1 p2 :: ys ++ .exitWait 0 t p :: zs ++ .exitJoin 0 :: us)

end SV.Spec
