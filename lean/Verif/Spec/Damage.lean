import Verif.Spec.Flow
/-! What is expected of a validator that receives a signed stream in which NAL units have been changed, removed, added or moved. -/
namespace SV.Spec

/-- The same NAL units, apart from the timestamps, which are not transmitted. -/
def Alike (a b : List Piece) : Prop := a.map (fun p => (p.first, p.bytes)) = b.map (fun p => (p.first, p.bytes))

/-- The GOPs of what is received, the last of which may go on. -/
def receivedGops (codec : Codec) (st : List StreamItem) : List (List Piece) :=
  let g := gops (st.filterMap (StreamItem.piece codec))
  g.1 ++ if g.2 = [] then [] else [g.2]

/-- A stream that is received instead of a signed one. It starts with an intra picture, the SEIs come unchanged and in order, and between two intra pictures
anything may be different. SEI number `k` comes after GOP number `k` of what is received. The first GOP, if its SEI has come, is as it was signed. -/
structure Altered (codec : Codec) (cs : List SCall) (os : List Obs) (st : List StreamItem) : Prop where
  start : ∀ p l, st.filterMap (StreamItem.piece codec) = p :: l → p.first = true
  seis : st.filterMap StreamItem.sei? <+: delivered os
  after : ∀ a b c, st = a ++ .sei b :: c → (a.filterMap StreamItem.sei?).length < (receivedGops codec st).length ∧
    ((receivedGops codec st).take ((a.filterMap StreamItem.sei?).length + 1)).flatten.length ≤ (a.filterMap (StreamItem.piece codec)).length
  first : st.filterMap StreamItem.sei? ≠ [] → ∃ g h, (gops (pieces codec cs)).1[0]? = some g ∧ (receivedGops codec st)[0]? = some h ∧ Alike h g

/-- The authenticity level is set to GOP before anything is signed, and stays so: no lists of hashes are sent. -/
def AtGopLevel (setup : List Setting) (cs : List SCall) : Prop :=
  ∃ a b, setup = a ++ Setting.level 0 :: b ∧ ∀ c ∈ b.map SCall.set ++ cs, c ≠ .set (.level 1)

/-- The bytes of the first NAL unit of the GOP before number `k`. -/
def linkBytes (gs : List (List Piece)) (k : Nat) : Option Bytes := (gs[k - 1]?.bind List.head?).map Piece.bytes

/-- GOP number `k` has come as it was signed, and so has the intra picture that its SEI refers to. -/
def Intact (gs rs : List (List Piece)) (k : Nat) : Prop :=
  (∃ g h, gs[k]? = some g ∧ rs[k]? = some h ∧ Alike h g) ∧ (k ≠ 0 → linkBytes rs k = linkBytes gs k)

/-- The report on a GOP with `gop` NAL units when `rest` later ones have been received. -/
structure GoodNow (gop rest : Nat) (r : Report) : Prop where
  latest : r.latest.auth = .ok
  expected : r.latest.expected = (gop % 65536 : Nat)
  received : r.latest.received = gop
  marks : ∃ str, r.latest.validationStr = some str ∧ (∀ c ∈ str, c ≠ 'N' ∧ c ≠ 'M' ∧ c ≠ 'E') ∧
    (str.filter (· = 'P')).length = rest ∧ gop + 1 ≤ (str.filter (· = '.')).length

/-- The report on a GOP of which `got` of the `sent` NAL units have come, when `rest` later ones have been received. -/
structure LostNow (sent got rest : Nat) (r : Report) : Prop where
  latest : r.latest.auth = .okWithMissing
  expected : r.latest.expected = sent
  received : r.latest.received = got
  marks : ∃ str, r.latest.validationStr = some str ∧ (∀ c ∈ str, c ≠ 'N' ∧ c ≠ 'E') ∧ (str.filter (· = 'M')).length = sent - got ∧
    (str.filter (· = 'P')).length = rest ∧ got + 1 ≤ (str.filter (· = '.')).length

/-- What is observed while the items are received, after `n` protected NAL units and `k` SEIs; `gs` are the GOPs signed and `rs`
those received. Every call succeeds, and each SEI gives a report: a good one if its GOP is intact, and in any case one that `R` holds for,
given the number of the GOP, the number of NAL units of later ones, and what was received. Nothing is reported otherwise,
except that the stream is not signed as long as no SEI has come. -/
def Reported (R : Nat → Nat → List Piece → Report → Prop) (codec : Codec) (gs rs : List (List Piece)) : Nat → Nat → List StreamItem → List AObs → Prop
  | _, _, [], [] => True
  | n, k, .nalu d ts :: st, o :: os =>
    o.rc = none ∧ (∀ r, o.report = some r → k = 0 ∧ r.latest.auth = .notSigned ∧ r.acc.auth = .notSigned) ∧
      Reported R codec gs rs (n + ((StreamItem.nalu d ts).piece codec).toList.length) k st os
  | n, k, .sei _ :: st, o :: os =>
    o.rc = none ∧ (∃ gop r, rs[k]? = some gop ∧ o.report = some r ∧ r.latest.keyChanged = false ∧
      r.latest.pending = (n - (rs.take (k + 1)).flatten.length : Nat) ∧ (Intact gs rs k → GoodNow gop.length (n - (rs.take (k + 1)).flatten.length) r) ∧
      R k (n - (rs.take (k + 1)).flatten.length) gop r) ∧
      Reported R codec gs rs n (k + 1) st os
  | _, _, _, _ => False

/-- With `strict`, a report on a GOP that is not intact says NOT OK. -/
def Contained (strict : Bool) (codec : Codec) (gs rs : List (List Piece)) : Nat → Nat → List StreamItem → List AObs → Prop :=
  Reported (fun k _ _ r => strict = true → ¬ Intact gs rs k → r.latest.auth = .notOk) codec gs rs

/-- Some NAL units of a GOP are missing in what was received, and the others are as they were, in their order. -/
def Thinned (h g : List Piece) : Prop :=
  (h.map fun p => (p.first, p.bytes)).Sublist (g.map fun p => (p.first, p.bytes)) ∧ h.length < g.length

/-- What the reports say if lists of hashes are sent, of which each has at most `cap` bytes, with hashes of `size` bytes. If the list of a GOP has room for all its
hashes, the report says exactly what has happened to the GOP. If NAL units are missing and nothing else is wrong, it says how many. If anything
else is different, or the intra picture before is, it is NOT OK. -/
def Diagnosed (size cap : Nat) (codec : Codec) (gs rs : List (List Piece)) : Nat → Nat → List StreamItem → List AObs → Prop :=
  Reported (fun k rest got r => ∀ g, gs[k]? = some g → g.length * size ≤ cap →
    (linkBytes rs k = linkBytes gs k → Thinned got g → LostNow g.length got.length rest r) ∧
    (¬ Intact gs rs k → ¬ (linkBytes rs k = linkBytes gs k ∧ Thinned got g) → r.latest.auth = .notOk)) codec gs rs

/-- What is hashed for a GOP: the NAL units, all but the first one together with the reference, and the hashes of all of them. -/
def hashInputs (H : Bytes → Bytes) : List Piece → List Bytes
  | [] => []
  | p :: t => p.bytes :: (t.map Piece.bytes ++ t.map (fun q => H p.bytes ++ H q.bytes) ++
      [(H p.bytes :: t.map fun q => H (H p.bytes ++ H q.bytes)).flatten])

/-- No two of these inputs collide, and none of them has a hash with zeros only. -/
def NoClash (H : Bytes → Bytes) (l : List Bytes) : Prop :=
  (∀ x ∈ l, ∀ y ∈ l, H x = H y → x = y) ∧ ∀ x ∈ l, ∃ b ∈ H x, b ≠ 0

/-- No received GOP starts with a NAL unit that consists of just the two hashes that are hashed for a later NAL unit of the signed GOP. -/
def NoMasks (H : Bytes → Bytes) (gs rs : List (List Piece)) : Prop :=
  ∀ (k : Nat) (q : Piece) (u : List Piece) (p : Piece) (t : List Piece), gs[k]? = some (q :: u) → rs[k]? = some (p :: t) → ∀ w ∈ u, p.bytes ≠ H q.bytes ++ H w.bytes

end SV.Spec
