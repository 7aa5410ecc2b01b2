/-!
Outcomes of a C function: a value, a library error code, or undefined behaviour.
-/
namespace SV

/-- Library return codes other than `SV_OK` (`/repo/lib/src/includes/signed_video_common.h`,
`SignedVideoReturnCode`). -/
inductive Rc
  | memory | invalidParameter | notSupported | incompatibleVersion | externalError | vendorError
  | authenticationError | unknownFailure
deriving DecidableEq, Repr

/-- Kinds of undefined behaviour that are kept apart in the model. -/
inductive Ub
  | overread      -- read outside of the memory given to the function
  | overflow      -- write outside of a buffer
  | nullCall      -- call through a NULL function pointer
  | nullDeref     -- dereference of a NULL pointer
  | oobIndex      -- index outside of a static table
  | intOverflow   -- signed integer overflow
  | useAfterFree  -- access to freed memory
  | diverge       -- a loop that never ends
  | assertFail    -- `assert` fails (abort in debug builds, continues in release builds)
deriving DecidableEq, Repr

/-- Outcome of a function. -/
inductive Out (α : Type)
  | ok (a : α)
  | err (e : Rc)
  | ub (u : Ub)
deriving DecidableEq, Repr

namespace Out

/-- Sequencing; an error or undefined behaviour ends the computation
(`SV_THROW`, `/repo/lib/src/includes/../signed_video_defines.h`). -/
def bind {α β : Type} : Out α → (α → Out β) → Out β
  | ok a, f => f a
  | err e, _ => err e
  | ub u, _ => ub u

instance : Monad Out where
  pure := ok
  bind := bind

@[simp] theorem bind_ok {α β : Type} (a : α) (f : α → Out β) : (ok a >>= f) = f a := rfl
@[simp] theorem bind_err {α β : Type} (e : Rc) (f : α → Out β) : ((err e : Out α) >>= f) = err e := rfl
@[simp] theorem bind_ub {α β : Type} (e : Ub) (f : α → Out β) : ((ub e : Out α) >>= f) = ub e := rfl
@[simp] theorem pure_eq {α : Type} (a : α) : (pure a : Out α) = ok a := rfl

end Out
end SV
