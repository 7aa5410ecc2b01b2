import Verif.Model.NaluList
/-! Specification of the comparison of received hashes with a list of signed hashes. -/
namespace SV.Spec

/-- `Matches signed k received os`: each received hash is looked up in the signed ones from position `k` on, the first
occurrence counts, and the next one is looked up behind it. A hash that does not occur there has no position. -/
inductive Matches {α : Type} (signed : List α) : Nat → List α → List (Option Nat) → Prop
  | nil (k : Nat) : Matches signed k [] []
  | hit {k i : Nat} {h : α} {hs : List α} {os : List (Option Nat)} : k ≤ i → signed[i]? = some h →
      (∀ j, k ≤ j → j < i → signed[j]? ≠ some h) → Matches signed (i + 1) hs os → Matches signed k (h :: hs) (some i :: os)
  | miss {k : Nat} {h : α} {hs : List α} {os : List (Option Nat)} : (∀ j, k ≤ j → signed[j]? ≠ some h) →
      Matches signed k hs os → Matches signed k (h :: hs) (none :: os)

/-- The received hashes that have a position. -/
def matched {α : Type} : List α → List (Option Nat) → List α
  | h :: hs, some _ :: os => h :: matched hs os
  | _ :: hs, none :: os => matched hs os
  | _, _ => []

/-- For each received hash the number of missing NAL units to be reported before it and its status. `next` is the position
after the latest match, `inv` the number of NAL units without a position since then, which are taken for modified ones in
the place of signed ones. If the link to the previous GOP is broken (`good = false`), the first match is not trusted. -/
def gaps (next inv : Nat) (good : Bool) : List (Option Nat) → List (Nat × Status)
  | [] => []
  | some i :: os => (i - next - inv, if good then .ok else .N) :: gaps (i + 1) 0 true os
  | none :: os => (0, .N) :: gaps next (inv + 1) good os

/-- The position after the latest match and the number of received hashes without a position since then, at the end. -/
def final (next inv : Nat) : List (Option Nat) → Nat × Nat
  | [] => (next, inv)
  | some i :: os => final (i + 1) 0 os
  | none :: os => final next (inv + 1) os

/-- `Woven c l l' ss`: the list `l'` is `l` in which the items with `c` have got the statuses of `ss`, each with some missing
items put before it. All else is as in `l`. -/
inductive Woven (c : Nat × Item → Bool) : NList → NList → List (Nat × Status) → Prop
  | nil : Woven c [] [] []
  | skip {x : Nat × Item} {l l' : NList} {ss : List (Nat × Status)} : c x = false → Woven c l l' ss → Woven c (x :: l) (x :: l') ss
  | item {x : Nat × Item} {new l l' : NList} {st : Status} {ss : List (Nat × Status)} : c x = true →
      (∀ y ∈ new, y.2 = missingItem) → Woven c l l' ss →
      Woven c (x :: l) (new ++ (x.1, { x.2 with status := st }) :: l') ((new.length, st) :: ss)

end SV.Spec
