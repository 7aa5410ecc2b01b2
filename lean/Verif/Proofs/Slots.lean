import Verif.Model.Slots
namespace SV

theorem rd_app (p : List Slot) (x : Slot) (q : List Slot) (i : Nat) (h : i = p.length) :
    rd (p ++ x :: q) i = .ok x := by subst h; simp [rd]

theorem wr_app (p : List Slot) (x y : Slot) (q : List Slot) (i : Nat) (h : i = p.length) :
    wr (p ++ x :: q) i y = .ok (p ++ y :: q) := by subst h; simp [wr]

/-- Shifting from position `p.length + 1` up to `n`: the slot at `p.length` is overwritten and the
block up to `n` moves down by one; the last slot of the block is left behind as a copy. -/
theorem shiftLoop_eq (n : Nat) : ∀ (q p : List Slot) (x : Slot) (t : List Slot) (f : Nat),
    n = p.length + 1 + q.length → q.length < f →
    ∃ z, shiftLoop n f (p ++ x :: (q ++ t)) (p.length + 1) = .ok (p ++ q ++ z :: t, n) := by
  intro q
  induction q with
  | nil =>
    intro p x t f hn hf
    obtain ⟨f, rfl⟩ : ∃ g, f = g + 1 := ⟨f - 1, by simp at hf; omega⟩
    refine ⟨x, ?_⟩
    simp only [List.length_nil, Nat.add_zero] at hn
    subst hn
    simp [shiftLoop]
  | cons y q ih =>
    intro p x t f hn hf
    obtain ⟨f, rfl⟩ : ∃ g, f = g + 1 := ⟨f - 1, by simp at hf; omega⟩
    simp only [List.length_cons] at hn hf
    have hlt : p.length + 1 < n := by omega
    obtain ⟨z, hz⟩ := ih (p ++ [y]) y t f (by simp; omega) (by omega)
    refine ⟨z, ?_⟩
    have h1 : rd (p ++ x :: (y :: q ++ t)) (p.length + 1) = .ok y := by
      have := rd_app (p ++ [x]) y (q ++ t) (p.length + 1) (by simp)
      simpa using this
    have h2 : wr (p ++ x :: (y :: q ++ t)) (p.length + 1 - 1) y = .ok (p ++ y :: (y :: q ++ t)) :=
      wr_app p x y _ _ (by simp)
    simp only [shiftLoop, hlt, if_true, h1, h2, Out.bind_ok]
    simpa using hz

/-- `shiftLoop` over a whole array followed by a store in the last slot rotates the array. -/
theorem shift_store (p q : List Slot) (x y : Slot) (n f : Nat) (hn : n = p.length + 1 + q.length)
    (hf : q.length < f) :
    (shiftLoop n f (p ++ x :: q) (p.length + 1) >>= fun r => wr r.1 (n - 1) y)
      = .ok (p ++ q ++ [y]) := by
  obtain ⟨z, hz⟩ := shiftLoop_eq n q p x [] f hn hf
  simp only [List.append_nil] at hz
  rw [hz, Out.bind_ok]
  exact wr_app (p ++ q) z y [] _ (by simp; omega)

end SV
