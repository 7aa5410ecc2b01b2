import Verif.Model.Held
/-! When memory for what is copied from SEIs is missing or left over (C88). -/
namespace SV.Spec
open SV.Held

/-- The length of the key in a record: one byte for the version, and one for the algorithm before version 2. Computed with 16 bits. -/
def keyLen (version size : Nat) : Nat := if version < 2 then (size + 65534) % 65536 else (size + 65535) % 65536

/-- No record of a public key meets a failing allocation. -/
def KeyMemory (os : List Op) : Prop := ∀ v n a c, Op.key v n a c ∈ os → a = true

/-- Whether there is arbitrary data in the end: those of the last such record, if it could be decoded. -/
def arbKept (os : List Op) : Bool :=
  os.foldl (fun k o => match o with
    | .arb v n a => decide (v ≠ 0) && decide (2 ≤ n) && decide (n ≤ 65536) && a
    | _ => k) false

end SV.Spec
