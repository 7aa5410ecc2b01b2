import Verif.Model.Out
/-!
Outcomes of a C function that changes a session: unlike `Out`, the session is kept when an error is thrown.
-/
namespace SV

/-- The session and a value, the session and an error code, or undefined behaviour. -/
inductive Res (σ α : Type)
  | ok (s : σ) (a : α)
  | err (s : σ) (e : Rc)
  | ub (u : Ub)
deriving Repr

namespace Res
variable {σ α β : Type}

/-- Sequencing, `SV_THROW` (`/repo/lib/src/signed_video_defines.h` 107-150). -/
def andThen : Res σ α → (σ → α → Res σ β) → Res σ β
  | ok s a, f => f s a
  | err s e, _ => err s e
  | ub u, _ => ub u

/-- Lift a function without effect on the session. -/
def ofOut (s : σ) : Out α → Res σ α
  | .ok a => ok s a
  | .err e => err s e
  | .ub u => ub u

/-- The `SV_CATCH` block of a function, if it only changes the session. -/
def onErr (f : σ → σ) : Res σ α → Res σ α
  | err s e => err (f s) e
  | r => r

@[simp] theorem andThen_ok (s : σ) (a : α) (f : σ → α → Res σ β) : (ok s a).andThen f = f s a := rfl
@[simp] theorem andThen_err (s : σ) (e : Rc) (f : σ → α → Res σ β) : (err s e : Res σ α).andThen f = err s e := rfl
@[simp] theorem andThen_ub (u : Ub) (f : σ → α → Res σ β) : (ub u : Res σ α).andThen f = ub u := rfl
@[simp] theorem ofOut_ok (s : σ) (a : α) : ofOut s (.ok a) = ok s a := rfl
@[simp] theorem onErr_ok (f : σ → σ) (s : σ) (a : α) : (ok s a).onErr f = ok s a := rfl
@[simp] theorem onErr_ub (f : σ → σ) (u : Ub) : (ub u : Res σ α).onErr f = ub u := rfl
@[simp] theorem onErr_err (f : σ → σ) (s : σ) (e : Rc) : (err s e : Res σ α).onErr f = err (f s) e := rfl

theorem andThen_eq_ok {r : Res σ α} {f : σ → α → Res σ β} {s : σ} {b : β} (h : r.andThen f = ok s b) :
    ∃ s1 a, r = ok s1 a ∧ f s1 a = ok s b := by
  cases r with
  | ok s1 a => exact ⟨s1, a, rfl, h⟩
  | err s1 e => cases h
  | ub u => cases h

theorem onErr_eq_ok {r : Res σ α} {f : σ → σ} {s : σ} {a : α} : r.onErr f = ok s a ↔ r = ok s a := by
  cases r <;> simp

end Res
end SV
