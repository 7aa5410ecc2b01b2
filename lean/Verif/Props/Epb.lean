import Verif.Spec.Epb
import Verif.Proofs.Epb
import Verif.Proofs.Bytes
/-! Properties of emulation prevention and integer fields: C01, C04 (and the byte level part of C02, C03). -/
namespace SV
open Spec

theorem strip_writeBytes (s : L2) (bs rest : Bytes) :
    strip s.pot ((writeBytes true s bs).1 ++ rest) = bs ++ strip ((writeBytes true s bs).2.pot) rest := by
  induction bs generalizing s with
  | nil => simp [writeBytes]
  | cons b bs ih =>
    rw [writeBytes_cons]
    simp only [List.append_assoc]
    by_cases hz : s.isZero = true
    · have hpot : s.pot = 2 := by simp [L2.pot, hz]
      by_cases hl : b ≤ 3
      · have hl' := (low_iff b).2 hl
        have hw : writeByte true s b = ([3, b], (s.push 3).push b) := by
          simp [writeByte, hz, hl']
        have h3 : ((s.push 3).push b).pot = if b = 0 then 1 else 0 := by
          simp [L2.pot, L2.push, L2.isZero]
        rw [hw, hpot]
        have := ih ((s.push 3).push b)
        rw [h3] at this
        simp [strip, this]
      · have hl' : ¬ (b &&& 0xFC == 0) = true := fun h => hl ((low_iff b).1 h)
        have hw : writeByte true s b = ([b], s.push b) := by simp [writeByte, hl']
        have h0 : b ≠ 0 := by rintro rfl; simp at hl
        have h3 : b ≠ 3 := by rintro rfl; simp at hl
        have hp : (s.push b).pot = 0 := by simp [L2.pot, L2.push, L2.isZero, h0]
        have := ih (s.push b)
        rw [hp] at this
        rw [hw]
        simp [strip, h0, h3, this]
    · have hw : writeByte true s b = ([b], s.push b) := by simp [writeByte, hz]
      have hlt : ¬ 2 ≤ s.pot := by
        simp only [L2.pot, hz]; simp; split <;> omega
      have hp : (s.push b).pot = if b = 0 then s.pot + 1 else 0 := by
        have : ¬ (s.hi = 0 ∧ s.lo = 0) := by simpa [L2.isZero] using hz
        by_cases h0 : b = 0
        · by_cases hlo : s.lo = 0
          · have hhi : s.hi ≠ 0 := fun h => this ⟨h, hlo⟩
            simp [L2.pot, L2.push, L2.isZero, h0, hlo, hhi]
          · simp [L2.pot, L2.push, L2.isZero, h0, hlo]
        · simp [L2.pot, L2.push, L2.isZero, h0]
      have := ih (s.push b)
      rw [hp] at this
      rw [hw]
      simp [strip, hlt, this]

theorem trailingZeros_pot (s : L2) : trailingZeros [s.hi, s.lo] = s.pot := by
  simp only [trailingZeros, L2.pot, L2.isZero, List.reverse_cons, List.reverse_nil, List.nil_append,
    List.cons_append, List.takeWhile_cons]
  by_cases h1 : s.lo = 0 <;> by_cases h2 : s.hi = 0 <;> simp [h1, h2]

/-- **C01**, standard decoder: what is written with emulation prevention on, and with any two bytes before it, is
recovered by a decoder that follows the standards. -/
theorem C01_standard_decoder (s : L2) (bs : Bytes) :
    strip (trailingZeros [s.hi, s.lo]) (writeBytes true s bs).1 = bs := by
  rw [trailingZeros_pot]
  simpa [strip] using strip_writeBytes s bs []

/-- **C01**, resumption: writing is interrupted after `xs` (the signed part of a SEI) and resumed later with the
saved register (the signature `ys`); the concatenation still decodes to `xs ++ ys`. -/
theorem C01_resume (s : L2) (xs ys : Bytes) :
    strip (trailingZeros [s.hi, s.lo]) ((writeBytes true s xs).1 ++ (writeBytes true (writeBytes true s xs).2 ys).1) = xs ++ ys := by
  rw [trailingZeros_pot, strip_writeBytes, ← trailingZeros_pot, C01_standard_decoder]

/-- **C01**, the library's own reader: reading as many bytes as were written gives them back and stops exactly
behind the bytes that were produced, whatever follows. -/
theorem C01_library_reader (epb : Bool) (s : L2) (bs rest : Bytes) :
    ∃ t, readMany epb s bs.length ((writeBytes epb s bs).1 ++ rest) = some (bs, t, rest) := by
  obtain ⟨t, h, _⟩ := readMany_writeBytes epb (L2.Sim.refl s) bs rest
  exact ⟨t, h⟩

/-- A non-trivial instance: three zeros, a 3 and a 1, resumed after two zeros. -/
example : (writeBytes true ⟨0, 0⟩ [0, 0, 0, 3, 1]).1 = [3, 0, 0, 3, 0, 3, 1] ∧
    strip 2 [3, 0, 0, 3, 0, 3, 1] = [0, 0, 0, 3, 1] := by decide

/-- Byte level part of **C02**: the bytes written with emulation prevention never contain 00 00 00, 00 00 01 or
00 00 02, also not across the border to the two bytes before (`s`). -/
theorem C02_written_bytes (s : L2) (bs : Bytes) :
    ¬ Emulates (s.hi :: s.lo :: (writeBytes true s bs).1) := by
  rintro ⟨pre, c, post, h, hc⟩
  have hcl := writeBytes_clean s bs
  match pre, h with
  | [], h =>
    simp only [List.nil_append, List.cons.injEq] at h
    obtain ⟨h1, h2, h3⟩ := h
    rw [h3] at hcl
    exact hcl.1 ⟨by simp [L2.isZero, h1, h2], hc⟩
  | [x], h =>
    simp only [List.cons_append, List.nil_append, List.cons.injEq] at h
    obtain ⟨h1, h2, h3⟩ := h
    rw [h3] at hcl
    exact hcl.2.1 ⟨by simp [L2.isZero, L2.push, h2], hc⟩
  | x :: y :: pre, h =>
    simp only [List.cons_append, List.cons.injEq] at h
    obtain ⟨h1, h2, h3⟩ := h
    rw [h3] at hcl
    exact hcl.window hc

/-- Expansion bound used by **C03** and **C05**: with emulation prevention on, `n` bytes become at least `n` and at
most `(3 n + p) / 2` bytes, where `p ≤ 2` depends on the two bytes before. -/
theorem C05_expansion (epb : Bool) (s : L2) (bs : Bytes) :
    bs.length ≤ (writeBytes epb s bs).1.length ∧
    2 * (writeBytes epb s bs).1.length ≤ 3 * bs.length + s.pot :=
  ⟨writeBytes_length_ge epb s bs, by have := writeBytes_length_le epb s bs; omega⟩

/-- **C04**: 16, 32 and 64 bit values are written most significant byte first. -/
theorem C04_big_endian :
    (∀ v : UInt16, beVal (be16 v) = v.toNat ∧ (be16 v).length = 2) ∧
    (∀ v : UInt32, beVal (be32 v) = v.toNat ∧ (be32 v).length = 4) ∧
    (∀ v : UInt64, beVal (be64 v) = v.toNat ∧ (be64 v).length = 8) :=
  ⟨fun v => ⟨beVal_be16 v, rfl⟩, fun v => ⟨beVal_be32 v, rfl⟩, fun v => ⟨beVal_be64 v, rfl⟩⟩

/-- **C04**: reading gives the value that was written; signed timestamps keep their sign. -/
theorem C04_round_trip :
    (∀ (v : UInt16) (m : Bytes), rd16 (be16 v ++ m) = .ok (v, m)) ∧
    (∀ (v : UInt32) m, rd32 (be32 v ++ m) = .ok (v, m)) ∧
    (∀ (v : UInt64) m, rd64 (be64 v ++ m) = .ok (v, m)) ∧
    (∀ (t : Int64) m, ∃ u, rd64 (be64 t.toUInt64 ++ m) = .ok (u, m) ∧ u.toInt64 = t ∧
      u.toInt64.toInt = t.toInt) :=
  ⟨rd16_be16, rd32_be32, rd64_be64, fun t m => ⟨_, rd64_be64 _ m, by simp, by simp⟩⟩

/-- **C04**, through emulation prevention: the standard decoder followed by the reads gives the values back. -/
theorem C04_through_epb (s : L2) (a : UInt16) (b : UInt32) (c : UInt64) :
    ∃ m, strip (trailingZeros [s.hi, s.lo]) (writeBytes true s (be16 a ++ be32 b ++ be64 c)).1 = m ∧
      ∃ m1 m2, rd16 m = .ok (a, m1) ∧ rd32 m1 = .ok (b, m2) ∧ rd64 m2 = .ok (c, []) := by
  refine ⟨_, rfl, be32 b ++ be64 c, be64 c, ?_, rd32_be32 b _, by simpa using rd64_be64 c []⟩
  rw [C01_standard_decoder, List.append_assoc]
  exact rd16_be16 a _

example : ((-2 : Int64).toUInt64, be64 (-2 : Int64).toUInt64) =
    (0xFFFFFFFFFFFFFFFE, [255, 255, 255, 255, 255, 255, 255, 254]) := by decide

end SV
