import Verif.Model.Sign
/-! The GOP hash of the older format. -/
namespace SV

/-- The hash of the salt, and then, for each hash, the hash of what there is so far and this one. -/
def gopHashOf (H : Bytes → Bytes) (hashes : List Bytes) : Bytes := hashes.foldl (fun g h => H (g ++ h)) (H [1])

end SV
