import Verif.Model.Bytes
import Verif.Proofs.Epb
/-! Lemmas on integer fields and bounds-checked reads. -/
namespace SV

theorem rd16_be16 (v : UInt16) (m : Bytes) : rd16 (be16 v ++ m) = .ok (v, m) := by
  simp only [be16, rd16, List.cons_append, List.nil_append, Out.ok.injEq, Prod.mk.injEq, and_true]
  apply UInt16.toNat_inj.1
  have := v.toNat_lt
  simp [UInt16.toNat_add, UInt16.toNat_shiftLeft, UInt16.toNat_shiftRight, Nat.shiftLeft_eq,
    Nat.shiftRight_eq_div_pow]
  omega

theorem rd32_be32 (v : UInt32) (m : Bytes) : rd32 (be32 v ++ m) = .ok (v, m) := by
  simp only [be32, rd32, List.cons_append, List.nil_append, Out.ok.injEq, Prod.mk.injEq, and_true]
  apply UInt32.toNat_inj.1
  have := v.toNat_lt
  simp [UInt32.toNat_add, UInt32.toNat_shiftLeft, UInt32.toNat_shiftRight, Nat.shiftLeft_eq,
    Nat.shiftRight_eq_div_pow]
  omega

theorem rd64_be64 (v : UInt64) (m : Bytes) : rd64 (be64 v ++ m) = .ok (v, m) := by
  simp only [be64, rd64, List.cons_append, List.nil_append, Out.ok.injEq, Prod.mk.injEq, and_true]
  apply UInt64.toNat_inj.1
  have := v.toNat_lt
  simp [UInt64.toNat_add, UInt64.toNat_shiftLeft, UInt64.toNat_shiftRight, Nat.shiftLeft_eq,
    Nat.shiftRight_eq_div_pow]
  omega

@[simp] theorem rd8_cons (b : UInt8) (m : Bytes) : rd8 (b :: m) = .ok (b, m) := rfl

theorem rdN_append (a m : Bytes) : rdN a.length (a ++ m) = .ok (a, m) := by
  simp [rdN]

theorem rdN_append' {n : Nat} {a : Bytes} (h : a.length = n) (m : Bytes) :
    rdN n (a ++ m) = .ok (a, m) := by subst h; exact rdN_append a m

theorem rdStr_append (s m : Bytes) (h : ∀ b ∈ s, b ≠ 0) : rdStr (s ++ 0 :: m) = .ok s := by
  induction s with
  | nil => simp [rdStr]
  | cons b s ih =>
    have hb : b ≠ 0 := h b (by simp)
    have := ih (fun c hc => h c (by simp [hc]))
    simp [rdStr, hb, this, Out.bind]

@[simp] theorem be16_length (v : UInt16) : (be16 v).length = 2 := rfl
@[simp] theorem be32_length (v : UInt32) : (be32 v).length = 4 := rfl
@[simp] theorem be64_length (v : UInt64) : (be64 v).length = 8 := rfl

/-- Base 256 value of a list of bytes, most significant first. -/
def beVal (l : Bytes) : Nat := l.foldl (fun a b => a * 256 + b.toNat) 0

theorem beVal_be16 (v : UInt16) : beVal (be16 v) = v.toNat := by
  have := v.toNat_lt
  simp [beVal, be16, UInt16.toNat_shiftRight, Nat.shiftRight_eq_div_pow]; omega
theorem beVal_be32 (v : UInt32) : beVal (be32 v) = v.toNat := by
  have := v.toNat_lt
  simp [beVal, be32, UInt32.toNat_shiftRight, Nat.shiftRight_eq_div_pow]; omega
theorem beVal_be64 (v : UInt64) : beVal (be64 v) = v.toNat := by
  have := v.toNat_lt
  simp [beVal, be64, UInt64.toNat_shiftRight, Nat.shiftRight_eq_div_pow]; omega

end SV
