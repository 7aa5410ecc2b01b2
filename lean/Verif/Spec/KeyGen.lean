import Verif.Model.KeyGen
/-! What is expected of the generation of a private key. -/
namespace SV
namespace KeyGen

/-- The file of a key in a directory. -/
def keyPath (dir : Bytes) (a : Algo) : Bytes :=
  dir ++ (if dir.getLast? = some 47 then ([] : Bytes) else [47]) ++
    ascii (match a with | .rsa => "private_rsa_key.pem" | .ecdsa => "private_ecdsa_key.pem")

/-- All files but the one of the key are as before. -/
def OthersKept (w w' : World) (a : Algo) (dir : Option Bytes) : Prop := ∀ q, (∀ d, dir = some d → q ≠ keyPath d a) → w'.files q = w.files q

/-- The key is where it was asked for: in the file, if there is a directory, and in memory that is handed out, if there is a place for the pointer and the size. -/
structure Delivered (w : World) (handed : Option (Option (Nat × Bytes))) (a : Algo) (dir : Option Bytes) (asked : Bool) (pem : Bytes) : Prop where
  file : ∀ d, dir = some d → w.files (keyPath d a) = some pem
  memory : if asked then ∃ p, handed = some (some (p, pem)) else handed = none

/-- The block that now belongs to the caller. -/
def handedBlock : Option (Option (Nat × Bytes)) → List Nat
  | some (some (p, _)) => [p]
  | _ => []

end KeyGen
end SV
