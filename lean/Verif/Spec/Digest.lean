import Verif.Model.Digest
/-!
What a cryptographic handle should hash, told from the calls only.  Only the types of calls and observations, and the parameters, are
taken from the model.
-/
namespace SV.Spec
open SV.Digest

/-- The algorithm in force, and the bytes put into each of the two incremental hashes since they were begun. -/
structure Seen where
  algo : Option Nat
  primary : Option Bytes := none
  secondary : Option Bytes := none
deriving DecidableEq, Repr

/-- The bytes of an incremental hash. -/
def Seen.data (k : Seen) : Bool → Option Bytes
  | true => k.primary
  | false => k.secondary

/-- Other bytes. -/
def Seen.set (k : Seen) (p : Bool) (d : Option Bytes) : Seen :=
  match p with
  | true => { k with primary := d }
  | false => { k with secondary := d }

/-- What an observation tells. -/
def Seen.next (env : MdEnv) (k : Seen) (e : Ev) : Seen :=
  match e.call, e.rc with
  | .init p, none => k.set p (some [])
  | .update d p, none => k.set p ((k.data p).map (· ++ d))
  | .finalize p, _ => if e.hash.isSome then k.set p none else k
  | .algo n, none => { algo := (env.byName (n.getD env.default)).bind Prod.snd, secondary := some [] }
  | .oid o, none => { k with algo := (env.byOid o).bind id }
  | _, _ => k

/-- What an observation should be: a hash, if it is one, is that of the data with the algorithm in force, and there is one whenever
there can be one. -/
def Seen.Right (env : MdEnv) (k : Seen) (e : Ev) : Prop :=
  match e.call with
  | .finalize p => e.hash = (k.data p).bind fun d => k.algo.map fun t => env.H t d
  | .hash d => e.hash = if d = [] then none else k.algo.map fun t => env.H t d
  | _ => True

/-- All observations are what they should be. -/
def AllRight (env : MdEnv) : Seen → List Ev → Prop
  | _, [] => True
  | k, e :: es => k.Right env e ∧ AllRight env (k.next env e) es

/-- Each encoded OID that is set belongs to the algorithm in force. -/
def OidsKnown (env : MdEnv) : Seen → List Ev → Prop
  | _, [] => True
  | k, e :: es => (∀ o, e.call = .oid o → (env.byOid o).bind id = k.algo ∧ k.algo ≠ none) ∧ OidsKnown env (k.next env e) es

end SV.Spec
