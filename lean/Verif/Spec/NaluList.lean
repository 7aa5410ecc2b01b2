import Verif.Model.NaluList
/-! Specification of the list of NAL units. -/
namespace SV.Spec

variable {α : Type}

/-- The memory and struct `s` hold exactly the items `xs` (address and content), in this order: item `i` is linked
backwards to item `i - 1` and forwards to item `i + 1`, the struct points to the two ends, the count is right, no two
items share an address, and nothing else is allocated. -/
structure Linked (s : PList α) (xs : List (Nat × α)) : Prop where
  node : ∀ (i a : Nat) (v : α), xs[i]? = some (a, v) →
    s.heap a = some ⟨v, if i = 0 then none else (xs[i - 1]?).map Prod.fst, (xs[i + 1]?).map Prod.fst⟩
  distinct : ∀ (i j a : Nat) (v w : α), xs[i]? = some (a, v) → xs[j]? = some (a, w) → i = j
  only : ∀ (a : Nat) (n : Node α), s.heap a = some n → ∃ (i : Nat) (v : α), xs[i]? = some (a, v)
  first : s.first = (xs[0]?).map Prod.fst
  last : s.last = (xs.getLast?).map Prod.fst
  num : s.num = xs.length

/-- Operations on the list. Items are named by address; any number can be given, also the address of an item that is
already gone. -/
inductive Op
  | append (v : Item)
  | addMissing (n : Int) (after : Bool) (item : Nat)
  | remove (item : Nat)
  | removeMissing
  | cleanUp
  | freeAll

/-- What the list should hold after an operation, where `brk` is the next fresh address. For the removal of missing
items this is the function on sequences that the rest of the model uses. -/
def effect (brk : Nat) (xs : List (Nat × Item)) : Op → List (Nat × Item)
  | .append v => xs ++ [(brk, v)]
  | .addMissing n after item =>
    let before := xs.takeWhile fun x => x.1 ≠ item
    match xs.dropWhile fun x => x.1 ≠ item with
    | [] => xs
    | x :: rest =>
      let new := (List.range n.toNat).map fun k => (brk + k, missingItem)
      if after then before ++ [x] ++ new.reverse ++ rest else before ++ new ++ [x] ++ rest
  | .remove item => xs.filter fun x => x.1 ≠ item
  | .removeMissing => SV.removeMissing xs
  | .cleanUp => xs.dropWhile fun x => x.2.status ≠ .P
  | .freeAll => []

end SV.Spec
