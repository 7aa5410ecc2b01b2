import Verif.Model.Nalu
import Verif.Model.Tlv
/-! Specification of where product information is found in a SEI (C73). -/
namespace SV
namespace Spec

/-- The records of TLV data, found by walking over tag, length and value: the tag and the memory from the value on. One byte of length
for the tags 0, 1 and 7, two for others. -/
def records : Nat → Bytes → Nat → List (UInt8 × Bytes)
  | 0, _, _ => []
  | k + 1, mem, size =>
    if size = 0 then []
    else match mem with
      | t :: a :: m =>
        if t = 0 ∨ t = 1 ∨ t = 7 then (t, m) :: records k (m.drop a.toNat) (size - 2 - a.toNat)
        else match m with
          | b :: m => (t, m) :: records k (m.drop (a.toNat * 256 + b.toNat)) (size - 3 - (a.toNat * 256 + b.toNat))
          | [] => []
      | _ => []

/-- Texts that are read one after the other: a size, and a text that ends with NUL. The next one is found by the size. -/
def Texts : List Bytes → Bytes → Prop
  | [], _ => True
  | s :: l, m => ∃ sz m', m = sz :: m' ∧ 0 ∉ s ∧ s ++ [0] <+: m' ∧ Texts l (m'.drop sz.toNat)

/-- The value of a record of product information: a version other than 0 and five texts. -/
def IsProduct (value : Bytes) (p : ProductInfo) : Prop :=
  ∃ ver m hw fw sn mf ad, value = ver :: m ∧ ver ≠ 0 ∧ Texts [hw, fw, sn, mf, ad] m ∧
    p = ⟨some hw, some fw, some sn, some mf, some ad⟩

/-- A NAL unit is a SEI of the framework with product information. -/
def HasProduct (codec : Codec) (data : Bytes) (p : ProductInfo) : Prop :=
  ∃ n, parseNalu data codec true true = .ok n ∧ n.gopSei = true ∧
    ∃ v, (3, v) ∈ records n.tlvSize n.tlvMem n.tlvSize ∧ IsProduct v p

end Spec
end SV
