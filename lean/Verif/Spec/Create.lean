import Verif.Model.Create
/-! When a session can be made, and what may be left of it. -/
namespace SV.Spec
open SV.Create

/-- All that is needed before the data for signing are made. -/
def Starts (c : Can) : Prop :=
  c.codec = true ∧ c.self = true ∧ c.product = true ∧ c.handle = true ∧ c.known = true ∧ c.digest = true ∧ c.oid = true ∧
  c.ctx = true ∧ c.init = true ∧ c.gop = true ∧
  (c.axis = true → c.vendor = true ∧ c.bio = true ∧ c.puts = true ∧ c.ca = true)

/-- Everything succeeds; there may be no list of NAL units. -/
def Made (c : Can) : Prop :=
  Starts c ∧ (c.sign = true ∧ c.signHash = true) ∧ c.size = 32 ∧ c.last = true ∧ (c.verify = true ∧ c.verifyHash = true)

/-- Only the data for signing or verification lack memory, and they are needed. -/
def DataMissing (c : Can) : Prop :=
  Starts c ∧ (¬ (c.sign = true ∧ c.signHash = true) ∨
    (c.size = 32 ∧ c.last = true ∧ ¬ (c.verify = true ∧ c.verifyHash = true)))

/-- Calls in which a hash algorithm is given as text for which an object is allocated. -/
def textOids (l : List Op) : Nat :=
  l.countP fun o => match o with
    | .algo t => t.obj == some true
    | _ => false

/-- Memory: no block twice, and new blocks are new. -/
def HeapOk (b : Keys.Blocks) : Prop := b.live.Nodup ∧ ∀ p ∈ b.live, p < b.next

end SV.Spec
