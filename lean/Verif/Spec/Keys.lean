import Verif.Model.Keys
/-!
What signatures a session hands out, told from the calls only.  Only the types of calls and observations, and the parameters, are
taken from the model.
-/
namespace SV.Spec
open SV.Keys

/-- The hashes that were accepted, each with the key that was the last accepted one then. -/
def signedHashes : Option Bytes → List Ev → List (Option Bytes × Bytes)
  | _, [] => []
  | _, .key pem none :: es => signedHashes (some pem) es
  | k, .submit h none :: es => (k, h) :: signedHashes k es
  | k, _ :: es => signedHashes k es

/-- The last key that was accepted. -/
def lastKey : Option Bytes → List Ev → Option Bytes
  | k, [] => k
  | _, .key pem none :: es => lastKey (some pem) es
  | k, _ :: es => lastKey k es

/-- The signatures that were handed out. -/
def handedOut : List Ev → List Bytes
  | [] => []
  | .fetch (some x) :: es => x :: handedOut es
  | _ :: es => handedOut es

/-- `x` is a signature of the hash with the key. -/
def SignedBy (env : KeyEnv) (p : Option Bytes × Bytes) (x : Bytes) : Prop :=
  ∃ pem r, p.1 = some pem ∧ env.sign pem r p.2 = some x

/-- One by one, the second are signatures of the first, of which there may be more. -/
def InOrder (env : KeyEnv) : List (Option Bytes × Bytes) → List Bytes → Prop
  | _, [] => True
  | [], _ :: _ => False
  | p :: ps, x :: xs => SignedBy env p x ∧ InOrder env ps xs

/-- Whenever a key is accepted, all accepted hashes have been handed out as signatures. -/
def NoneWaiting (es : List Ev) : Prop :=
  ∀ es1 pem es2, es = es1 ++ .key pem none :: es2 → (signedHashes none es1).length = (handedOut es1).length

end SV.Spec
