import Verif.Model.Epb
/-! Lemmas about emulation prevention. -/
namespace SV

theorem low_iff (b : UInt8) : (b &&& 0xFC == 0) = true ↔ b ≤ 3 := by
  have h : ∀ n : Fin 256, ((UInt8.ofNat n.val &&& 0xFC == 0) = true ↔ UInt8.ofNat n.val ≤ 3) := by
    decide +kernel
  have := h ⟨b.toNat, b.toNat_lt⟩
  simpa using this

/-- Two registers that the writer and the reader cannot tell apart. -/
def L2.Sim (s t : L2) : Prop := (s.isZero = t.isZero) ∧ ((s.lo = 0) ↔ (t.lo = 0))

theorem L2.Sim.refl (s : L2) : s.Sim s := ⟨rfl, Iff.rfl⟩

theorem L2.Sim.push {s t : L2} (h : s.Sim t) (b : UInt8) : (s.push b).Sim (t.push b) := by
  obtain ⟨_, h2⟩ := h
  constructor
  · simp only [L2.isZero, L2.push]
    by_cases hs : s.lo = 0
    · simp [hs, h2.mp hs]
    · have : ¬ t.lo = 0 := fun h => hs (h2.mpr h)
      rw [beq_false_of_ne hs, beq_false_of_ne this]
  · simp [L2.push]

@[simp] theorem writeBytes_nil (e s) : writeBytes e s [] = ([], s) := rfl

theorem writeBytes_cons (e s b bs) : writeBytes e s (b :: bs) =
    ((writeByte e s b).1 ++ (writeBytes e (writeByte e s b).2 bs).1,
      (writeBytes e (writeByte e s b).2 bs).2) := rfl

theorem writeBytes_append (e : Bool) (s : L2) (xs ys : Bytes) :
    writeBytes e s (xs ++ ys) =
      ((writeBytes e s xs).1 ++ (writeBytes e (writeBytes e s xs).2 ys).1,
        (writeBytes e (writeBytes e s xs).2 ys).2) := by
  induction xs generalizing s with
  | nil => simp
  | cons b xs ih => simp [writeBytes_cons, ih]

theorem writeBytes_false (s : L2) (xs : Bytes) : (writeBytes false s xs).1 = xs := by
  induction xs generalizing s with
  | nil => rfl
  | cons b xs ih => simp [writeBytes_cons, ih, writeByte]

theorem readByte_writeByte (e : Bool) {s t : L2} (h : s.Sim t) (b : UInt8) (rest : Bytes) :
    ∃ t', readByte e t ((writeByte e s b).1 ++ rest) = some (b, t', rest) ∧
      (writeByte e s b).2.Sim t' := by
  obtain ⟨h1, h2⟩ := id h
  unfold writeByte
  split
  · rename_i hc
    simp only [Bool.and_eq_true] at hc
    refine ⟨(t.push 3).push b, ?_, (h.push 3).push b⟩
    simp [readByte, hc.1.1, ← h1, hc.2]
  · rename_i hc
    refine ⟨t.push b, ?_, h.push b⟩
    simp only [List.cons_append, List.nil_append, readByte]
    split
    · rename_i hr
      exfalso; apply hc
      simp only [Bool.and_eq_true, beq_iff_eq] at hr ⊢
      obtain ⟨⟨he, hb⟩, hz⟩ := hr
      refine ⟨⟨he, ?_⟩, ?_⟩
      · subst hb; decide
      · rw [h1]; exact hz
    · rfl

theorem readMany_writeBytes (e : Bool) {s t : L2} (h : s.Sim t) (bs rest : Bytes) :
    ∃ t', readMany e t bs.length ((writeBytes e s bs).1 ++ rest) = some (bs, t', rest) ∧
      (writeBytes e s bs).2.Sim t' := by
  induction bs generalizing s t with
  | nil => exact ⟨t, rfl, h⟩
  | cons b bs ih =>
    obtain ⟨t1, hr, hs⟩ := readByte_writeByte e h b ((writeBytes e (writeByte e s b).2 bs).1 ++ rest)
    obtain ⟨t2, hr2, hs2⟩ := ih hs
    refine ⟨t2, ?_, ?_⟩
    · simp only [writeBytes_cons, List.length_cons, List.append_assoc, readMany, hr, hr2]
    · simpa [writeBytes_cons] using hs2

/-- The register after pushing all bytes of a string. -/
def L2.pushAll (s : L2) (bs : Bytes) : L2 := bs.foldl L2.push s

@[simp] theorem L2.pushAll_nil (s : L2) : s.pushAll [] = s := rfl
@[simp] theorem L2.pushAll_cons (s : L2) (b : UInt8) (bs : Bytes) :
    s.pushAll (b :: bs) = (s.push b).pushAll bs := rfl
theorem L2.pushAll_append (s : L2) (xs ys : Bytes) :
    s.pushAll (xs ++ ys) = (s.pushAll xs).pushAll ys := by
  simp [L2.pushAll]

theorem writeByte_snd (e : Bool) (s : L2) (b : UInt8) :
    (writeByte e s b).2 = s.pushAll (writeByte e s b).1 := by
  unfold writeByte; split <;> rfl

theorem writeBytes_snd (e : Bool) (s : L2) (bs : Bytes) :
    (writeBytes e s bs).2 = s.pushAll (writeBytes e s bs).1 := by
  induction bs generalizing s with
  | nil => rfl
  | cons b bs ih => simp only [writeBytes_cons, L2.pushAll_append, ih, writeByte_snd]

/-- No byte below 3 follows two zeros, when the two bytes before the string are those in `s`. -/
def Clean : L2 → Bytes → Prop
  | _, [] => True
  | s, b :: bs => ¬ (s.isZero = true ∧ b ≤ 2) ∧ Clean (s.push b) bs

theorem Clean_append (s : L2) (xs ys : Bytes) :
    Clean s (xs ++ ys) ↔ Clean s xs ∧ Clean (s.pushAll xs) ys := by
  induction xs generalizing s with
  | nil => simp [Clean]
  | cons b xs ih => simp [Clean, ih, and_assoc]

theorem Clean.sim {s t : L2} (h : s.Sim t) {bs : Bytes} (hc : Clean s bs) : Clean t bs := by
  induction bs generalizing s t with
  | nil => trivial
  | cons b bs ih =>
    refine ⟨?_, ih (h.push b) hc.2⟩
    rw [← h.1]; exact hc.1

theorem le3_of_le2 {b : UInt8} (h : b ≤ 2) : b ≤ 3 := by
  have h1 : b.toNat ≤ 2 := by simpa [UInt8.le_iff_toNat_le] using h
  rw [UInt8.le_iff_toNat_le]
  have : (3 : UInt8).toNat = 3 := rfl
  omega

theorem writeByte_clean (s : L2) (b : UInt8) : Clean s (writeByte true s b).1 := by
  unfold writeByte
  split
  · refine ⟨?_, ?_, trivial⟩
    · rintro ⟨_, h⟩; revert h; decide
    · rintro ⟨h, _⟩; simp [L2.push, L2.isZero] at h
  · rename_i hc
    refine ⟨?_, trivial⟩
    rintro ⟨hz, hb⟩
    apply hc
    simp only [Bool.true_and, Bool.and_eq_true]
    exact ⟨(low_iff b).mpr (le3_of_le2 hb), hz⟩

theorem writeBytes_clean (s : L2) (bs : Bytes) : Clean s (writeBytes true s bs).1 := by
  induction bs generalizing s with
  | nil => trivial
  | cons b bs ih =>
    rw [writeBytes_cons, Clean_append]
    refine ⟨writeByte_clean s b, ?_⟩
    rw [← writeByte_snd]; exact ih _

/-- `Clean` from a register excludes every emulating window. -/
theorem Clean.window {s : L2} {pre post : Bytes} {c : UInt8}
    (h : Clean s (pre ++ 0 :: 0 :: c :: post)) : ¬ c ≤ 2 := by
  rw [Clean_append] at h
  have h3 := h.2.2.2.1
  intro hc
  exact h3 ⟨by simp [L2.isZero, L2.push], hc⟩

theorem writeByte_length (e : Bool) (s : L2) (b : UInt8) :
    (writeByte e s b).1.length = 1 + (if e && (b &&& 0xFC == 0) && s.isZero then 1 else 0) := by
  unfold writeByte; split <;> rfl

theorem writeBytes_length_ge (e : Bool) (s : L2) (bs : Bytes) :
    bs.length ≤ (writeBytes e s bs).1.length := by
  induction bs generalizing s with
  | nil => simp
  | cons b bs ih =>
    have := ih (writeByte e s b).2
    simp only [writeBytes_cons, List.length_append, List.length_cons, writeByte_length]
    omega

/-- Potential used for the expansion bound: how far the register is from forcing a byte. -/
def L2.pot (s : L2) : Nat := if s.isZero then 2 else if s.lo == 0 then 1 else 0

theorem writeBytes_length_le (e : Bool) (s : L2) (bs : Bytes) :
    2 * (writeBytes e s bs).1.length ≤ 3 * bs.length + s.pot := by
  induction bs generalizing s with
  | nil => simp
  | cons b bs ih =>
    have := ih (writeByte e s b).2
    simp only [writeBytes_cons, List.length_append, List.length_cons]
    suffices h : 2 * (writeByte e s b).1.length + (writeByte e s b).2.pot ≤ 3 + s.pot by omega
    unfold writeByte
    split
    · rename_i hc
      simp only [Bool.and_eq_true] at hc
      have h0 : s.pot = 2 := by simp [L2.pot, hc.2]
      rw [h0]
      have h3 : ((3 : UInt8) == 0) = false := rfl
      simp only [L2.push, L2.pot, L2.isZero, List.length_cons, List.length_nil, h3, Bool.false_and]
      by_cases hb : b = 0 <;> simp [hb]
    · simp only [L2.push, L2.pot, L2.isZero, List.length_cons, List.length_nil]
      by_cases h1 : s.lo = 0 <;> by_cases h2 : b = 0 <;> by_cases h3 : s.hi = 0 <;> simp [h1, h2, h3]

end SV
