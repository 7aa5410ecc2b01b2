import Verif.Model.PlugMem
/-!
What the memory of the threaded signing plugin is expected to look like (C82).
-/
namespace SV.Spec
open SV.PlugMem (SData Data Sess Plugin Step)
open SV.Keys (KeyEnv)

/-- Blocks of a list of slots. -/
def slotsL (a : List (Option Nat)) : List Nat := a.flatMap Option.toList

/-- Blocks of the key data. -/
def sdL : Option SData → List Nat
  | none => []
  | some s => (s.d.key.map Prod.fst).toList ++ ((s.d.signature.map Prod.fst).toList ++ (s.hash.toList ++ [s.block]))

/-- Blocks that `threaded_data_t` refers to. -/
def dataL (t : Data) : List Nat := sdL t.sd ++ (slotsL t.out ++ slotsL t.inn)

/-- Blocks that a session refers to. -/
def sessL : Option Sess → List Nat
  | none => []
  | some (.own h b t) => h :: b :: dataL t
  | some (.central h b) => [h, b]

/-- All blocks that can be reached from the static members and from the sessions that are set up. -/
def refs (s : Plugin) : List Nat :=
  dataL s.data ++ (s.head.toList ++ (s.nodes.map Prod.snd ++ s.sess.flatMap sessL))

/-- Not started, and no session is set up. -/
def Idle (s : Plugin) : Prop := s.up = false ∧ ∀ x ∈ s.sess, x = none

/-- A session with its own thread could not be set up although there was memory for the session: no
memory for the key data, a key that cannot be used, or no thread. -/
def Fails (env : KeyEnv) (s : Plugin) : Step → Bool
  | .setup pem a1 a2 a3 thr _ =>
    !s.up && a1 && a2 && !pem.isEmpty &&
      !(a3 && thr && match env.read pem with | some key => key.size != 0 && key.usable | none => false)
  | _ => false

/-- How often that happens in a history. -/
def failures (env : KeyEnv) : Plugin → List Step → Nat
  | _, [] => 0
  | s, x :: xs =>
    (if Fails env s x then 1 else 0) + match PlugMem.step env s x with | .ok s' => failures env s' xs | _ => 0

/-- Only sessions that are set up are torn down. -/
def MayStep (s : Plugin) : Step → Prop
  | .teardown k => ∃ x, s.sess[k]? = some (some x)
  | _ => True

/-- The program does so throughout. -/
def Obeys (env : KeyEnv) : Plugin → List Step → Prop
  | _, [] => True
  | s, x :: xs => MayStep s x ∧ ∀ s', PlugMem.step env s x = .ok s' → Obeys env s' xs

end SV.Spec
