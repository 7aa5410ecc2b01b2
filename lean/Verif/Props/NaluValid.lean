import Verif.Props.Nalu
import Verif.Model.NaluList
/-! Validity of NAL unit headers (C16). -/
namespace SV
open Spec

theorem h264Valid_fin : ∀ x : Fin 256, (h264Type (UInt8.ofNat x.val)).2 = true ↔
    (x.val < 128 ∧ ((1 ≤ x.val % 32 ∧ x.val % 32 ≤ 13) ∨ x.val % 32 = 15) ∧
      (x.val % 32 ∈ [5, 7, 8, 13, 15] → x.val / 32 % 4 ≠ 0) ∧ (x.val % 32 ∈ [6, 10, 11, 12] → x.val / 32 % 4 = 0)) := by
  decide +kernel

theorem bits0_fin : ∀ x : Fin 256, ((UInt8.ofNat x.val &&& 0x7E) >>> 1).toNat = x.val / 2 % 64 ∧
    ((UInt8.ofNat x.val &&& 0x80 == 0) = true ↔ x.val < 128) ∧
    ((UInt8.ofNat x.val &&& 0x01) <<< 5 = 0 ↔ x.val % 2 = 0) := by decide +kernel

theorem bits1_fin : ∀ x : Fin 256, (UInt8.ofNat x.val &&& 0x07).toNat = x.val % 8 ∧
    ((UInt8.ofNat x.val &&& 0xF8) >>> 3 = 0 ↔ x.val / 8 = 0) ∧
    (UInt8.ofNat x.val &&& 0x07 ≠ 0 → ((UInt8.ofNat x.val &&& 0x07) - 1).toNat = x.val % 8 - 1) := by decide +kernel

/-- The layer and the temporal identifier only matter by being zero or not. -/
theorem h265Table_class (t layer tid : UInt8) : h265Table t layer tid =
    h265Table t (if decide (layer = 0) then 0 else 1) (if decide (tid = 0) then 0 else 1) := by
  by_cases hl : layer = 0 <;> by_cases ht : tid = 0 <;> simp [h265Table, hl, ht]

set_option synthInstance.maxSize 2000 in
set_option synthInstance.maxHeartbeats 200000 in
theorem h265Valid_fin : ∀ (t : Fin 256) (l z : Bool),
    (h265Table (UInt8.ofNat t.val) (if l then 0 else 1) (if z then 0 else 1)).2 = true ↔
    ((t.val ≤ 9 ∨ (16 ≤ t.val ∧ t.val ≤ 21) ∨ (32 ≤ t.val ∧ t.val ≤ 40)) ∧
      ((16 ≤ t.val ∧ t.val ≤ 21) ∨ t.val = 32 ∨ t.val = 33 ∨ t.val = 36 ∨ t.val = 37 → z = true) ∧
      (t.val = 36 ∨ t.val = 37 → l = true) ∧
      (t.val = 2 ∨ t.val = 3 ∨ (6 ≤ t.val ∧ t.val ≤ 9) → ¬ z = true) ∧
      (t.val = 4 ∨ t.val = 5 → l = true → ¬ z = true)) := by decide +kernel

theorem h265Table_valid (t layer tid : UInt8) : (h265Table t layer tid).2 = true ↔
    ((t.toNat ≤ 9 ∨ (16 ≤ t.toNat ∧ t.toNat ≤ 21) ∨ (32 ≤ t.toNat ∧ t.toNat ≤ 40)) ∧
      ((16 ≤ t.toNat ∧ t.toNat ≤ 21) ∨ t.toNat = 32 ∨ t.toNat = 33 ∨ t.toNat = 36 ∨ t.toNat = 37 → tid.toNat = 0) ∧
      (t.toNat = 36 ∨ t.toNat = 37 → layer = 0) ∧
      (t.toNat = 2 ∨ t.toNat = 3 ∨ (6 ≤ t.toNat ∧ t.toNat ≤ 9) → tid.toNat ≠ 0) ∧
      (t.toNat = 4 ∨ t.toNat = 5 → layer = 0 → tid.toNat ≠ 0)) := by
  rw [h265Table_class]
  have h := h265Valid_fin ⟨t.toNat, t.toNat_lt⟩ (decide (layer = 0)) (decide (tid = 0))
  simp only [UInt8.ofNat_toNat] at h
  rw [h, decide_eq_true_eq, decide_eq_true_eq, ← UInt8.toNat_inj (a := tid)]
  exact Iff.rfl

theorem parseHeader_legal (c : Codec) (b0 b1 : UInt8) (m : Bytes) (t : NType) (v prim : Bool)
    (h : parseHeader c (b0 :: b1 :: m) = .ok (t, v, prim)) : v = true ↔ LegalHeader c b0 b1 := by
  cases c with
  | h264 =>
    simp only [parseHeader, Out.ok.injEq, Prod.mk.injEq] at h
    rw [← h.2.1]
    have := h264Valid_fin ⟨b0.toNat, b0.toNat_lt⟩
    simp only [UInt8.ofNat_toNat] at this
    exact this
  | h265 =>
    have z0 := bits0_fin ⟨b0.toNat, b0.toNat_lt⟩
    have z1 := bits1_fin ⟨b1.toNat, b1.toNat_lt⟩
    simp only [UInt8.ofNat_toNat] at z0 z1
    obtain ⟨p1, p2, p3⟩ := z0
    obtain ⟨q1, q2, q3⟩ := z1
    simp only [parseHeader] at h
    by_cases ht : b1 &&& 0x07 = 0
    · have hn : h265Type b0 b1 = none := by simp [h265Type, ht]
      rw [hn] at h
      simp only [Out.ok.injEq, Prod.mk.injEq] at h
      rw [ht] at q1
      rw [← h.2.1]
      simp only [LegalHeader]
      have : b1.toNat % 8 = 0 := q1.symm
      simp [this]
    · have hs : h265Type b0 b1 = some _ := if_neg ht
      rw [hs] at h
      have hv : v = ((h265Table ((b0 &&& 0x7E) >>> 1) (((b0 &&& 0x01) <<< 5) ||| ((b1 &&& 0xF8) >>> 3)) ((b1 &&& 0x07) - 1)).2
          && (b0 &&& 0x80 == 0)) := by
        match m, h with
        | [], h => simp at h
        | b2 :: m, h =>
          simp only [Out.ok.injEq, Prod.mk.injEq] at h
          exact h.2.1.symm
      have hz : b1.toNat % 8 ≠ 0 := fun hz => ht (by rw [← UInt8.toNat_inj, q1, hz]; rfl)
      have hl : (((b0 &&& 0x01) <<< 5) ||| ((b1 &&& 0xF8) >>> 3) = 0) ↔ (b0.toNat % 2 = 0 ∧ b1.toNat / 8 = 0) := by
        rw [UInt8.or_eq_zero_iff, p3, q2]
      rw [hv, Bool.and_eq_true, h265Table_valid, p2, p1, q3 ht, hl]
      simp only [LegalHeader, h265NalType]
      constructor
      · rintro ⟨⟨a, b⟩, d⟩; exact ⟨d, hz, a, b⟩
      · rintro ⟨d, _, a, b⟩; exact ⟨⟨a, b⟩, d⟩

/-- **C16**, validity: a NAL unit that can be parsed is marked as valid exactly when its header follows the rules. -/
theorem C16_legal (data : Bytes) (c : Codec) (ct auth : Bool) (r : Nalu) (hne : data ≠ [])
    (h : parseNalu data c ct auth = .ok r) :
    r.valid = 1 ↔ LegalHeader c (headerOf data).1 (headerOf data).2 := by
  obtain ⟨t, v, prim, ⟨m, hm⟩, _, _, _, hv, _⟩ := parseNalu_header data c ct auth r hne h
  rw [← parseHeader_legal c _ _ m t v prim hm, hv]
  cases v <;> simp

/-- **C16**: what is signed and what is validated differ for headers that break the rules.  Such a protected NAL unit is
hashed by the signer, but marked as invalid (status `U`) by the validator. -/
theorem C16_illegal_headers : ∀ c : Codec, ∃ data r r', parseNalu data c true false = .ok r ∧ r.isHashable = true ∧
    parseNalu data c false true = .ok r' ∧ statusOf (some r') = .U := by
  intro c
  cases c with
  | h264 => exact ⟨[0, 0, 0, 1, 0x05, 0x80, 0x80], _, _, rfl, by decide, rfl, by decide⟩
  | h265 => exact ⟨[0, 0, 0, 1, 0x26, 0x02, 0x80, 0x80], _, _, rfl, by decide, rfl, by decide⟩

example : LegalHeader .h264 0x65 0x80 ∧ ¬ LegalHeader .h264 0x05 0x80 ∧ LegalHeader .h265 0x26 0x01 ∧
    ¬ LegalHeader .h265 0x26 0x02 ∧ ¬ LegalHeader .h265 0xA6 0x01 := by
  refine ⟨?_, ?_, ?_, ?_, ?_⟩ <;> simp [LegalHeader, h264NalType, h265NalType]

end SV
