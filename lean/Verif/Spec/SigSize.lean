import Verif.Model.Nalu
/-! Specification of the room for the signature in a SEI (C87). -/
namespace SV
namespace Spec

/-- The number of bytes set aside for the signature in each signature record of TLV data: the value without version, status, type of
hash and the two bytes that tell how many of the bytes are used. One byte of length for the tags 0, 1 and 7, two for others. -/
def sigRooms : Nat → Bytes → Nat → List Nat
  | 0, _, _ => []
  | k + 1, mem, size =>
    if size = 0 then []
    else match mem with
      | t :: a :: m =>
        if t = 0 ∨ t = 1 ∨ t = 7 then sigRooms k (m.drop a.toNat) (size - 2 - a.toNat)
        else match m with
          | b :: m =>
            let n := a.toNat * 256 + b.toNat
            (if t = 5 then [n - 5] else []) ++ sigRooms k (m.drop n) (size - 3 - n)
          | [] => []
      | _ => []

/-- A NAL unit has a signature record with room for another number of bytes than `n`. Only the bytes that belong to the TLV data are
looked at. -/
def OtherRoom (x : Nalu) (n : Nat) : Prop := ∃ m ∈ sigRooms x.tlvSize (x.tlvMem.take x.tlvSize) x.tlvSize, m ≠ n

end Spec
end SV
