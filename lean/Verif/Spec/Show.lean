import Verif.Spec.Product
/-! What `signed_video_parse_sei` should print, stated without the decoders. -/
namespace SV
namespace Spec

/-- The records of TLV data, found by walking over tag, length and value. One byte of length for the tags 0, 1 and 7, two for
others. -/
def fields : Nat → Bytes → Nat → List (UInt8 × Bytes)
  | 0, _, _ => []
  | k + 1, mem, size =>
    if size = 0 then []
    else match mem with
      | t :: a :: m =>
        if t = 0 ∨ t = 1 ∨ t = 7 then (t, m.take a.toNat) :: fields k (m.drop a.toNat) (size - 2 - a.toNat)
        else match m with
          | b :: m =>
            (t, m.take (a.toNat * 256 + b.toNat)) ::
              fields k (m.drop (a.toNat * 256 + b.toNat)) (size - 3 - (a.toNat * 256 + b.toNat))
          | [] => []
      | _ => []

/-- "Axis Communications AB" in ASCII. -/
def axisText : Bytes :=
  [0x41, 0x78, 0x69, 0x73, 0x20, 0x43, 0x6f, 0x6d, 0x6d, 0x75, 0x6e, 0x69, 0x63, 0x61, 0x74, 0x69, 0x6f, 0x6e, 0x73, 0x20, 0x41,
    0x42]

/-- A record of product information that names Axis as manufacturer. -/
def SaysAxis (r : UInt8 × Bytes) : Prop := r.1 = 3 ∧ ∃ p, IsProduct r.2 p ∧ p.manufacturer = some axisText

/-- No key comes after product information that names Axis. -/
def KeyFirst (l : List (UInt8 × Bytes)) : Prop := l.Pairwise fun a b => SaysAxis a → b.1 ≠ 2

/-- Lines that show a list of hashes: each has the size of a hash, together they start with the list, and no line shows only
bytes that are not of the list. -/
structure Lists (size : Nat) (list : Bytes) (lines : List Bytes) : Prop where
  each : ∀ l ∈ lines, l.length = size
  all : list <+: lines.flatten
  tight : lines.flatten.length < list.length + size

/-- All hashes have between 1 and 64 bytes, and whole hashes fill the 300 * 64 bytes kept for a list. -/
def SizesFit (sizeOf : Bytes → Option Nat) : Prop := ∀ o n, sizeOf o = some n → 0 < n ∧ n ≤ 64 ∧ n ∣ 64 * 300

/-- What is printed for records: a list of hashes is shown with the hash size that is in force, which a record about the hash
algorithm sets, a version and a size and an OID. -/
def Shown (sizeOf : Bytes → Option Nat) : Nat → List (UInt8 × Bytes × List Bytes) → Prop
  | _, [] => True
  | hs, (t, v, ls) :: rest =>
    (if t = 4 then Lists hs (v.drop 1) ls else ls = []) ∧ Shown sizeOf (if t = 7 then (sizeOf (v.drop 2)).getD hs else hs) rest

end Spec
end SV
