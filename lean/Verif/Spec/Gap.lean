import Verif.Spec.Damage
/-! What is expected of a validator that receives a signed stream in which SEIs are lost. -/
namespace SV.Spec

/-- A signed stream of which only the SEIs with the numbers `nums` (the first one is number 0) are received. The first SEI is among them, and comes before a third GOP
starts. From then on, each intra picture comes directly after another protected NAL unit. -/
structure Gapped (codec : Codec) (cs : List SCall) (os : List Obs) (nums : List Nat) (st : List StreamItem) : Prop where
  nalus : st.filterMap (StreamItem.piece codec) <+: pieces codec cs
  seis : (st.filterMap StreamItem.sei?).map some = nums.map fun j => (delivered os)[j]?
  order : nums.Pairwise (· < ·)
  first : ∀ j, nums.head? = some j → j = 0
  after : ∀ a b c, st = a ++ .sei b :: c → ∀ j, nums[(a.filterMap StreamItem.sei?).length]? = some j →
    ((gops (pieces codec cs)).1.take (j + 1)).flatten.length ≤ (a.filterMap (StreamItem.piece codec)).length
  prompt : ∀ a b c, st = a ++ .sei b :: c → a.filterMap StreamItem.sei? = [] → ((a.filterMap (StreamItem.piece codec)).filter (·.first)).length ≤ 2
  close : ∀ a x y c, st = a ++ x :: y :: c → (a ++ [x]).filterMap StreamItem.sei? ≠ [] → ∀ p, y.piece codec = some p → p.first = true → (x.piece codec).isSome = true

/-- The report given with the first SEI that is received after `lost` ones were not. The GOPs without a SEI have `bad` NAL units altogether, the GOP of the SEI has `gop` of
them, and `rest` later ones have been received. The NAL units without a SEI are marked as invalid, those of the GOP as valid. -/
structure SkippedNow (lost bad gop rest : Nat) (r : Report) : Prop where
  latest : r.latest.auth = .notOk
  expected : r.latest.expected = -1
  received : r.latest.received = (gop : Int) - lost
  marks : ∃ str, r.latest.validationStr = some str ∧ (∀ c ∈ str, c ≠ 'M' ∧ c ≠ 'E') ∧ (str.filter (· = 'N')).length = bad ∧
    (str.filter (· = 'P')).length = rest ∧ gop + 1 ≤ (str.filter (· = '.')).length

/-- What is observed while the items are received, after `n` protected NAL units; `gs` are the GOPs, `k` is the number of the SEI that would come next, and `nums` are the
numbers of those that come. Every call succeeds, and each SEI gives a report: a good one if its number is `k`, and else one that blames the NAL units of the
GOPs without a SEI, and no others. Nothing is reported otherwise, except that the stream is not signed as long as no SEI has come. -/
def Skipping (codec : Codec) (gs : List (List Piece)) : Nat → Nat → List Nat → List StreamItem → List AObs → Prop
  | _, _, _, [], [] => True
  | n, k, nums, .nalu d ts :: st, o :: os =>
    o.rc = none ∧ (∀ r, o.report = some r → k = 0 ∧ r.latest.auth = .notSigned ∧ r.acc.auth = .notSigned) ∧
      Skipping codec gs (n + ((StreamItem.nalu d ts).piece codec).toList.length) k nums st os
  | n, k, j :: nums, .sei _ :: st, o :: os =>
    o.rc = none ∧ (∃ gop r, gs[j]? = some gop ∧ o.report = some r ∧ r.latest.keyChanged = false ∧ r.latest.pending = (n - (gs.take (j + 1)).flatten.length : Nat) ∧
      (j = k → GoodNow gop.length (n - (gs.take (j + 1)).flatten.length) r) ∧
      (k < j → SkippedNow (j - k) ((gs.take j).drop k).flatten.length gop.length (n - (gs.take (j + 1)).flatten.length) r)) ∧
      Skipping codec gs n (j + 1) nums st os
  | _, _, _, _, _ => False

end SV.Spec
