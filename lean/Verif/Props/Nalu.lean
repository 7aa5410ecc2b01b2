import Verif.Spec.Nalu
import Verif.Proofs.SeiParse
/-! Properties of NAL unit parsing: C14, C15, C16, C17. -/
namespace SV
open Spec

/-! ### C14 -/

/-- `parse_nalu_info` after the start code. -/
def parseBody (sc : UInt32) (b : Bytes) (c : Codec) (ct auth : Bool) : Out Nalu := do
  let (t, v, prim) ← parseHeader c b
  let size ← (if ct then trimmedLen b else .ok b.length)
  let n : Nalu := {
    startCode := sc
    valid := if v then 1 else 0
    ntype := t
    primary := prim
    isHashable := t == .i || t == .p
    firstInGop := t == .i && prim
    hashable := b.take size }
  if t = .sei then parseSei c auth n b (b.getD (size - 1) 0)
  else .ok n

theorem dropWhile_zeros (x y : Bytes) (h : ∃ z ∈ x, z ≠ 0) :
    ((x ++ y).dropWhile (· == 0)) = x.dropWhile (· == 0) ++ y := by
  induction x with
  | nil => simp at h
  | cons a x ih =>
    by_cases ha : a = 0
    · subst ha
      simp only [List.cons_append, List.dropWhile_cons, beq_self_eq_true, if_true]
      apply ih
      obtain ⟨z, hz, hne⟩ := h
      rcases List.mem_cons.1 hz with rfl | hz
      · exact absurd rfl hne
      · exact ⟨z, hz, hne⟩
    · simp [ha]

theorem dropWhile_pos (x : Bytes) (h : ∃ z ∈ x, z ≠ 0) : 0 < (x.dropWhile (· == 0)).length := by
  induction x with
  | nil => simp at h
  | cons a x ih =>
    by_cases ha : a = 0
    · subst ha
      simp only [List.dropWhile_cons, beq_self_eq_true, if_true]
      apply ih
      obtain ⟨z, hz, hne⟩ := h
      rcases List.mem_cons.1 hz with rfl | hz
      · exact absurd rfl hne
      · exact ⟨z, hz, hne⟩
    · simp [ha]

/-- Length without trailing zeros of a body with a prefix. -/
theorem trimmedLen_prefix (p b : Bytes) (h : ∃ z ∈ b, z ≠ 0) :
    ∃ k, 0 < k ∧ k ≤ b.length ∧ trimmedLen b = .ok k ∧ trimmedLen (p ++ b) = .ok (p.length + k) := by
  have h' : ∃ z ∈ b.reverse, z ≠ 0 := by simpa using h
  have h1 := dropWhile_pos _ h'
  refine ⟨(b.reverse.dropWhile (· == 0)).length, h1, ?_, ?_, ?_⟩
  · have := List.IsSuffix.length_le (List.dropWhile_suffix (· == 0) (l := b.reverse)); simpa using this
  · unfold trimmedLen; simp only; rw [if_neg (by omega)]
  · unfold trimmedLen
    simp only [List.reverse_append, dropWhile_zeros _ _ h', List.length_append, List.length_reverse]
    rw [if_neg (by omega), Nat.add_comm]

theorem parseNalu_body (p b : Bytes) (hp : Prefix p) (hb : 4 ≤ b.length) (hs : NoStartCode b)
    (hz : ∃ z ∈ b, z ≠ 0) (c : Codec) (ct auth : Bool) :
    parseNalu (p ++ b) c ct auth = parseBody (if p = [] then 0 else 1) b c ct auth := by
  obtain ⟨k, hk, hk2, ht1, ht2⟩ := trimmedLen_prefix p b hz
  obtain ⟨a0, a1, a2, a3, b', rfl⟩ : ∃ a0 a1 a2 a3 b', b = a0 :: a1 :: a2 :: a3 :: b' := by
    match b, hb with
    | a0 :: a1 :: a2 :: a3 :: b', _ => exact ⟨a0, a1, a2, a3, b', rfl⟩
  have hsize : (if ct then trimmedLen (p ++ a0 :: a1 :: a2 :: a3 :: b') else
      Out.ok (p ++ a0 :: a1 :: a2 :: a3 :: b').length) =
      Out.ok (p.length + if ct then k else (a0 :: a1 :: a2 :: a3 :: b').length) := by
    cases ct
    · simp only [List.length_append]; rfl
    · rw [if_pos rfl, ht2, if_pos rfl]
  have hsize' : (if ct then trimmedLen (a0 :: a1 :: a2 :: a3 :: b') else
      Out.ok (a0 :: a1 :: a2 :: a3 :: b').length) =
      Out.ok (if ct then k else (a0 :: a1 :: a2 :: a3 :: b').length) := by
    cases ct
    · rfl
    · rw [if_pos rfl, ht1, if_pos rfl]
  generalize hq : (if ct then k else (a0 :: a1 :: a2 :: a3 :: b').length) = q at *
  have hq1 : 1 ≤ q := by
    rw [← hq]; split
    · omega
    · simp
  have hsc : startCode a0 a1 a2 a3 = (0, 0) := by
    unfold startCode
    rw [if_neg, if_neg]
    · rintro ⟨rfl, rfl, rfl⟩; exact hs.2 ⟨_, rfl⟩
    · rintro ⟨rfl, rfl, rfl, rfl⟩; exact hs.1 ⟨_, rfl⟩
  unfold parseBody
  rw [hsize']
  cases hp with
  | four =>
    have h1 : 4 + q - 1 = 4 + (q - 1) := by omega
    simp only [List.length_cons, List.length_nil, Nat.zero_add] at hsize
    simp only [List.cons_append, List.nil_append] at hsize ⊢
    have hs4 : startCode 0 0 0 1 = (4, 1) := rfl
    simp only [parseNalu, hsize, hs4, Out.bind_ok]
    have hg : ∀ i, (0 :: 0 :: 0 :: 1 :: a0 :: a1 :: a2 :: a3 :: b' : Bytes).getD (4 + q - 1) i =
        (a0 :: a1 :: a2 :: a3 :: b').getD (q - 1) i := by
      intro i; rw [h1, Nat.add_comm]; rfl
    rw [hg]
    have : (4 + q - 4) = q := by omega
    simp only [this]
    rfl
  | three =>
    have h1 : 3 + q - 1 = 3 + (q - 1) := by omega
    simp only [List.length_cons, List.length_nil, Nat.zero_add] at hsize
    simp only [List.cons_append, List.nil_append] at hsize ⊢
    have hs4 : startCode 0 0 1 a0 = (3, 1) := by simp [startCode]
    simp only [parseNalu, hsize, hs4, Out.bind_ok]
    have hg : ∀ i, (0 :: 0 :: 1 :: a0 :: a1 :: a2 :: a3 :: b' : Bytes).getD (3 + q - 1) i =
        (a0 :: a1 :: a2 :: a3 :: b').getD (q - 1) i := by
      intro i; rw [h1, Nat.add_comm]; rfl
    rw [hg]
    have : (3 + q - 3) = q := by omega
    simp only [this]
    rfl
  | none =>
    simp only [List.length_nil, Nat.zero_add] at hsize
    simp only [List.nil_append] at hsize ⊢
    simp only [parseNalu, hsize, hsc, Out.bind_ok]
    rfl

/-- What `parse_nalu_info` finds, without the start code. -/
def dropStartCode : Out Nalu → Out Nalu
  | .ok n => .ok { n with startCode := 0 }
  | .err e => .err e
  | .ub u => .ub u

theorem removeEpb_sc (n : Nalu) (m : Bytes) (off : Nat) (s : UInt32) :
    dropStartCode (removeEpb { n with startCode := s } m off) = dropStartCode (removeEpb n m off) := by
  unfold removeEpb
  simp only
  split
  · rfl
  · split
    · rfl
    · split
      · rfl
      · split
        · rfl
        · split <;> rfl

theorem parseSei_sc (c : Codec) (auth : Bool) (n : Nalu) (m : Bytes) (last : UInt8) (s : UInt32) :
    dropStartCode (parseSei c auth { n with startCode := s } m last) = dropStartCode (parseSei c auth n m last) := by
  simp only [parseSei]
  cases h1 : rd8 (m.drop (headerLen c)) with
  | err e => rfl
  | ub u => rfl
  | ok p =>
    obtain ⟨ud, m1⟩ := p
    simp only [Out.bind_ok]
    by_cases hud : ud = 5
    · simp only [hud, if_true]
      cases h2 : payloadSizeField m1 with
      | err e => rfl
      | ub u => rfl
      | ok q =>
        obtain ⟨ps, k⟩ := q
        simp only [Out.bind_ok]
        cases h3 : rdN 16 (m.drop (headerLen c + 1 + k)) with
        | err e => rfl
        | ub u => rfl
        | ok w =>
          obtain ⟨u, m2⟩ := w
          simp only [Out.bind_ok]
          exact removeEpb_sc { n with
            payloadSize := ps,
            epbs := (n.hashable.length : Int) - ((headerLen c + 1 + k : Nat) : Int) - ps - (if last = 0x80 then 1 else 0),
            gopSei := u == uuid, isHashable := (u == uuid) && auth } m (headerLen c + 1 + k) s
    · simp only [hud, if_false]
      rfl

/-- **C14**: a NAL unit is parsed to the same information (type, validity, flags, hashable bytes, TLVs) whether it is
given with a four byte start code, with a three byte start code or without. -/
theorem C14_start_code (b : Bytes) (hb : 4 ≤ b.length) (hs : NoStartCode b) (hz : ∃ z ∈ b, z ≠ 0)
    (p q : Bytes) (hp : Prefix p) (hq : Prefix q) (c : Codec) (ct auth : Bool) :
    dropStartCode (parseNalu (p ++ b) c ct auth) = dropStartCode (parseNalu (q ++ b) c ct auth) := by
  have key : ∀ s, dropStartCode (parseBody s b c ct auth) = dropStartCode (parseBody 0 b c ct auth) := by
    intro s
    unfold parseBody
    cases parseHeader c b with
    | err e => rfl
    | ub u => rfl
    | ok x =>
      obtain ⟨t, v, prim⟩ := x
      simp only [Out.bind_ok]
      generalize (if ct then trimmedLen b else Out.ok b.length) = sz
      cases sz with
      | err e => rfl
      | ub u => rfl
      | ok k =>
        simp only [Out.bind_ok]
        split
        · let n : Nalu := {
            startCode := 0
            valid := if v then 1 else 0
            ntype := t
            primary := prim
            isHashable := t == .i || t == .p
            firstInGop := t == .i && prim
            hashable := b.take k }
          exact parseSei_sc c auth n b _ s
        · rfl
  rw [parseNalu_body p b hp hb hs hz, parseNalu_body q b hq hb hs hz, key, key (if q = [] then 0 else 1)]

/-- **C14** needs a body of at least four bytes: a shorter NAL unit without start code is read beyond its end. -/
theorem C14_short_body : ∃ b : Bytes, b.length = 3 ∧ NoStartCode b ∧
    parseNalu b .h264 true true = .ub .overread ∧ (∃ n, parseNalu ([0, 0, 0, 1] ++ b) .h264 true true = .ok n) := by
  refine ⟨[0x65, 0x88, 0x80], rfl, by unfold NoStartCode; decide, rfl, _, rfl⟩

example : (4 ≤ [0x65, 0x88, 0x84, 0x00, 0x80].length) ∧ NoStartCode [0x65, 0x88, 0x84, 0x00, 0x80] := by
  unfold NoStartCode; decide

/-! ### C15 -/

theorem readMany_more (e : Bool) (s : L2) (n : Nat) (m z : Bytes) (d : Bytes) (s' : L2) (rest : Bytes)
    (h : readMany e s n m = some (d, s', rest)) : readMany e s n (m ++ z) = some (d, s', rest ++ z) := by
  induction n generalizing s m d with
  | zero => simp only [readMany, Option.some.injEq, Prod.mk.injEq] at h ⊢; simp [h]
  | succ n ih =>
    have hrb : ∀ b t m1, readByte e s m = some (b, t, m1) → readByte e s (m ++ z) = some (b, t, m1 ++ z) := by
      intro b t m1 hb
      match m, hb with
      | [], hb => simp [readByte] at hb
      | c :: m, hb =>
        simp only [readByte, List.cons_append] at hb ⊢
        split at hb
        · rename_i hc
          rw [if_pos hc]
          match m, hb with
          | [], hb => simp at hb
          | x :: m, hb =>
            simp only [Option.some.injEq, Prod.mk.injEq, List.cons_append] at hb ⊢
            obtain ⟨h1, h2, h3⟩ := hb
            exact ⟨h1, h2, by rw [h3]⟩
        · rename_i hc
          rw [if_neg hc]
          simp only [Option.some.injEq, Prod.mk.injEq] at hb ⊢
          obtain ⟨h1, h2, h3⟩ := hb
          exact ⟨h1, h2, by rw [h3]⟩
    rw [readMany_append_one] at h ⊢
    cases hb : readByte e s m with
    | none => rw [hb] at h; simp at h
    | some x =>
      obtain ⟨b, t, m1⟩ := x
      rw [hb] at h
      rw [hrb b t m1 hb]
      simp only at h ⊢
      cases hr : readMany e t n m1 with
      | none => rw [hr] at h; simp at h
      | some y =>
        obtain ⟨bs, t2, m2⟩ := y
        rw [hr] at h
        simp only [Option.some.injEq, Prod.mk.injEq] at h
        obtain ⟨h1, h2, h3⟩ := h
        have := ih t m1 bs (by rw [hr, h2, h3])
        rw [this]
        simp only [h1]

/-- Two parse results that differ at most in how much memory is readable behind the TLVs. -/
structure SameInfo (a b : Nalu) : Prop where
  rest : { a with tlvMem := [], tlvStart := [] } = { b with tlvMem := [], tlvStart := [] }
  mem : a.tlvMem <+: b.tlvMem
  start : a.tlvStart <+: b.tlvStart

theorem removeEpb_more (n r : Nalu) (m z : Bytes) (off : Nat) (h : removeEpb n m off = .ok r) :
    ∃ r', removeEpb n (m ++ z) off = .ok r' ∧ SameInfo r r' := by
  unfold removeEpb at h ⊢
  split at h
  · rename_i hc
    rw [if_pos hc]
    cases h
    exact ⟨_, rfl, rfl, List.prefix_refl _, List.prefix_refl _⟩
  · rename_i hc
    rw [if_neg hc]
    cases hm : m.drop (off + 16) with
    | nil => rw [hm] at h; simp at h
    | cons x tlv =>
      have hle : off + 16 ≤ m.length := by
        have := congrArg List.length hm
        simp only [List.length_drop, List.length_cons] at this; omega
      have hm' : (m ++ z).drop (off + 16) = x :: (tlv ++ z) := by
        rw [List.drop_append_of_le_length hle, hm]; rfl
      rw [hm] at h
      rw [hm']
      simp only at h ⊢
      split at h
      · rename_i he
        rw [if_pos he]
        cases h
        exact ⟨_, rfl, rfl, List.prefix_append _ _, List.prefix_append _ _⟩
      · rename_i he
        rw [if_neg he]
        cases hr : readMany true L2.init (off + n.payloadSize + 1) m with
        | none => rw [hr] at h; simp at h
        | some y =>
          obtain ⟨d, s', rest⟩ := y
          rw [hr] at h
          rw [readMany_more true L2.init _ m z d s' rest hr]
          simp only at h ⊢
          split at h
          · rename_i hw
            rw [if_pos hw]
            cases h
            exact ⟨_, rfl, rfl, List.prefix_refl _, List.prefix_append _ _⟩
          · rename_i hw
            rw [if_neg hw]
            cases h
            exact ⟨_, rfl, rfl, List.prefix_refl _, List.prefix_refl _⟩

theorem payloadSizeField_more (m z : Bytes) (p : Nat × Nat) (h : payloadSizeField m = .ok p) :
    payloadSizeField (m ++ z) = .ok p := by
  induction m generalizing p with
  | nil => simp [payloadSizeField] at h
  | cons b m ih =>
    rw [List.cons_append, payloadSizeField] at *
    split at h
    · rename_i hb
      rw [if_pos hb]
      cases hq : payloadSizeField m with
      | err e => rw [hq] at h; simp [Out.bind] at h
      | ub u => rw [hq] at h; simp [Out.bind] at h
      | ok q => rw [hq] at h; rw [ih q hq]; exact h
    · rename_i hb
      rw [if_neg hb]; exact h

theorem rd8_more (m z : Bytes) (x : UInt8) (r : Bytes) (h : rd8 m = .ok (x, r)) : rd8 (m ++ z) = .ok (x, r ++ z) := by
  cases m with
  | nil => simp [rd8] at h
  | cons a m => simp only [rd8_cons, Out.ok.injEq, Prod.mk.injEq, List.cons_append] at h ⊢; simp [h]

theorem rdN_more (n : Nat) (m z x r : Bytes) (h : rdN n m = .ok (x, r)) : rdN n (m ++ z) = .ok (x, r ++ z) := by
  unfold rdN at h ⊢
  split at h
  · rename_i hl
    simp only [Out.ok.injEq, Prod.mk.injEq] at h
    rw [if_pos (by simp; omega), List.take_append_of_le_length (by omega), List.drop_append_of_le_length (by omega), h.1, h.2]
  · simp at h

theorem parseSei_more (c : Codec) (auth : Bool) (n r : Nalu) (m z : Bytes) (last : UInt8)
    (h : parseSei c auth n m last = .ok r) :
    ∃ r', parseSei c auth n (m ++ z) last = .ok r' ∧ SameInfo r r' := by
  simp only [parseSei] at h ⊢
  cases h1 : rd8 (m.drop (headerLen c)) with
  | err e => rw [h1] at h; simp at h
  | ub u => rw [h1] at h; simp at h
  | ok p =>
    obtain ⟨ud, m1⟩ := p
    have hle : headerLen c ≤ m.length := by
      by_cases hx : headerLen c ≤ m.length
      · exact hx
      · rw [List.drop_of_length_le (by omega)] at h1; simp [rd8] at h1
    rw [List.drop_append_of_le_length hle, rd8_more _ z _ _ h1]
    rw [h1] at h
    simp only [Out.bind_ok] at h ⊢
    by_cases hud : ud = 5
    · simp only [hud, if_true] at h ⊢
      cases h2 : payloadSizeField m1 with
      | err e => rw [h2] at h; simp at h
      | ub u => rw [h2] at h; simp at h
      | ok q =>
        obtain ⟨ps, k⟩ := q
        rw [payloadSizeField_more m1 z _ h2]
        rw [h2] at h
        simp only [Out.bind_ok] at h ⊢
        cases h3 : rdN 16 (m.drop (headerLen c + 1 + k)) with
        | err e => rw [h3] at h; simp at h
        | ub u => rw [h3] at h; simp at h
        | ok w =>
          obtain ⟨u, m2⟩ := w
          have hle2 : headerLen c + 1 + k ≤ m.length := by
            by_cases hx : headerLen c + 1 + k ≤ m.length
            · exact hx
            · rw [List.drop_of_length_le (by omega)] at h3; simp [rdN] at h3
          rw [List.drop_append_of_le_length hle2, rdN_more 16 _ z _ _ h3]
          rw [h3] at h
          simp only [Out.bind_ok] at h ⊢
          exact removeEpb_more _ r m z _ h
    · simp only [hud, if_false] at h ⊢
      cases h
      exact ⟨_, rfl, rfl, List.prefix_refl _, List.prefix_refl _⟩

theorem parseHeader_more (c : Codec) (m z : Bytes) (x) (h : parseHeader c m = .ok x) : parseHeader c (m ++ z) = .ok x := by
  cases c with
  | h264 =>
    match m, h with
    | b0 :: b1 :: m, h => exact h
    | [_], h => simp [parseHeader] at h
    | [], h => simp [parseHeader] at h
  | h265 =>
    match m, h with
    | b0 :: b1 :: b2 :: m, h => exact h
    | [b0, b1], h =>
      simp only [parseHeader, List.cons_append, List.nil_append] at h ⊢
      cases ht : h265Type b0 b1 with
      | none => rw [ht] at h; exact h
      | some p => rw [ht] at h; simp at h
    | [_], h => simp [parseHeader] at h
    | [], h => simp [parseHeader] at h

theorem trimmedLen_zeros (data : Bytes) (k : Nat) : trimmedLen (data ++ List.replicate k 0) = trimmedLen data := by
  have : (data ++ List.replicate k (0 : UInt8)).reverse.dropWhile (· == 0) = data.reverse.dropWhile (· == 0) := by
    rw [List.reverse_append, List.reverse_replicate]
    induction k with
    | zero => rfl
    | succ k ih => simp
  simp only [trimmedLen, this]

/-- **C15**: zeros appended to a NAL unit change neither its classification nor its hashable bytes; the TLVs of a SEI
are found at the same place with the same size. -/
theorem C15_trailing_zeros (data : Bytes) (k : Nat) (c : Codec) (auth : Bool) (r : Nalu) (hne : data ≠ [])
    (h : parseNalu data c true auth = .ok r) :
    ∃ r', parseNalu (data ++ List.replicate k 0) c true auth = .ok r' ∧ SameInfo r r' := by
  match data, h with
  | [], _ => exact absurd rfl hne
  | [_], h => simp [parseNalu] at h
  | [_, _], h => simp [parseNalu] at h
  | [_, _, _], h => simp [parseNalu] at h
  | a :: b :: x :: d :: rest, h =>
    have ht := trimmedLen_zeros (a :: b :: x :: d :: rest) k
    have hr : (startCode a b x d).1 ≤ 4 := by
      unfold startCode; split
      · decide
      · split <;> decide
    have hd : (a :: b :: x :: d :: rest ++ List.replicate k (0 : UInt8)).drop (startCode a b x d).1 =
        (a :: b :: x :: d :: rest).drop (startCode a b x d).1 ++ List.replicate k 0 := by
      rw [List.drop_append_of_le_length (by simp; omega)]
    simp only [List.cons_append] at ht hd ⊢
    simp only [parseNalu] at h ⊢
    rw [hd]
    generalize hm : (a :: b :: x :: d :: rest).drop (startCode a b x d).1 = m at *
    cases hp : parseHeader c m with
    | err e => rw [hp] at h; simp at h
    | ub u => rw [hp] at h; simp at h
    | ok y =>
      obtain ⟨t, v, prim⟩ := y
      rw [parseHeader_more c m _ _ hp]
      rw [hp] at h
      simp only [Out.bind_ok, if_true] at h ⊢
      rw [ht]
      cases hs : trimmedLen (a :: b :: x :: d :: rest) with
      | err e => rw [hs] at h; simp at h
      | ub u => rw [hs] at h; simp at h
      | ok size =>
        rw [hs] at h
        simp only [Out.bind_ok] at h ⊢
        have hsz : size ≤ (a :: b :: x :: d :: rest).length ∧ 0 < size := by
          unfold trimmedLen at hs
          simp only at hs
          split at hs
          · simp at hs
          · have := List.IsSuffix.length_le (List.dropWhile_suffix (· == (0:UInt8)) (l := (a :: b :: x :: d :: rest).reverse))
            simp only [Out.ok.injEq] at hs
            rw [List.length_reverse] at this
            omega
        have htake : (m ++ List.replicate k 0).take (size - (startCode a b x d).1) = m.take (size - (startCode a b x d).1) := by
          apply List.take_append_of_le_length
          rw [← hm, List.length_drop]; omega
        have hlast : (a :: b :: x :: d :: (rest ++ List.replicate k 0)).getD (size - 1) 0 =
            (a :: b :: x :: d :: rest).getD (size - 1) 0 := by
          have : a :: b :: x :: d :: (rest ++ List.replicate k (0 : UInt8)) =
            (a :: b :: x :: d :: rest) ++ List.replicate k 0 := rfl
          rw [this, List.getD_eq_getElem?_getD, List.getElem?_append_left (by omega), ← List.getD_eq_getElem?_getD]
        rw [htake, hlast]
        split at h
        · rename_i hts
          rw [if_pos hts]
          exact parseSei_more c auth _ r m _ _ h
        · rename_i hts
          rw [if_neg hts]
          cases h
          exact ⟨_, rfl, rfl, List.prefix_refl _, List.prefix_refl _⟩

theorem readByte_more (e : Bool) (s : L2) (m z : Bytes) (b : UInt8) (t : L2) (m1 : Bytes)
    (h : readByte e s m = some (b, t, m1)) : readByte e s (m ++ z) = some (b, t, m1 ++ z) := by
  have h1 : readMany e s 1 m = some ([b], t, m1) := by simp [readMany, h]
  have h2 := readMany_more e s 1 m z _ _ _ h1
  cases hb : readByte e s (m ++ z) with
  | none => simp [readMany, hb] at h2
  | some x =>
    obtain ⟨b', t', m'⟩ := x
    simp only [readMany, hb, Option.some.injEq, Prod.mk.injEq, List.cons.injEq, and_true] at h2
    rw [h2.1, h2.2.1, h2.2.2]

theorem findTagLoop_more (epb : Bool) (tag : UInt8) (size fuel : Nat) (s : L2) (mem z : Bytes) (off : Nat) (x : Option Nat)
    (h : findTagLoop epb tag size fuel s mem off = .ok x) :
    findTagLoop epb tag size fuel s (mem ++ z) off = .ok x := by
  induction fuel generalizing s mem off with
  | zero => exact h
  | succ fuel ih =>
    unfold findTagLoop at h ⊢
    split at h
    · rename_i hs; rw [if_pos hs]; exact h
    · rename_i hs
      rw [if_neg hs]
      cases h1 : readByte epb s mem with
      | none => rw [h1] at h; simp at h
      | some p1 =>
        obtain ⟨t, s1, m1⟩ := p1
        rw [readByte_more _ _ _ z _ _ _ h1]
        rw [h1] at h
        simp only at h ⊢
        split at h
        · rename_i hc; rw [if_pos hc]; exact h
        · rename_i hc
          rw [if_neg hc]
          cases h2 : readByte epb s1 m1 with
          | none => rw [h2] at h; simp at h
          | some p2 =>
            obtain ⟨l, s2, m2⟩ := p2
            rw [readByte_more _ _ _ z _ _ _ h2]
            rw [h2] at h
            simp only at h ⊢
            have hlen : ∀ m4 : Bytes, (mem ++ z).length - (m4 ++ z).length = mem.length - m4.length := by
              intro m4; simp only [List.length_append]; omega
            split at h
            · rename_i hl
              rw [if_pos hl]
              cases h3 : readByte epb s2 m2 with
              | none => rw [h3] at h; simp at h
              | some p3 =>
                obtain ⟨l1, s3, m3⟩ := p3
                rw [readByte_more _ _ _ z _ _ _ h3]
                rw [h3] at h
                simp only at h ⊢
                cases h4 : readMany epb s3 (l.toNat * 256 + l1.toNat) m3 with
                | none => rw [h4] at h; simp at h
                | some p4 =>
                  obtain ⟨d, s4, m4⟩ := p4
                  rw [readMany_more _ _ _ _ z _ _ _ h4]
                  rw [h4] at h
                  simp only at h ⊢
                  rw [hlen]
                  exact ih _ _ _ h
            · rename_i hl
              rw [if_neg hl]
              cases h4 : readMany epb s2 l.toNat m2 with
              | none => rw [h4] at h; simp at h
              | some p4 =>
                obtain ⟨d, s4, m4⟩ := p4
                rw [readMany_more _ _ _ _ z _ _ _ h4]
                rw [h4] at h
                simp only at h ⊢
                rw [hlen]
                exact ih _ _ _ h

theorem updateHashable_more (a b r : Nalu) (hs : SameInfo a b) (h : updateHashable a = .ok r) :
    ∃ r', updateHashable b = .ok r' ∧ r'.hashable = r.hashable := by
  have hr := hs.rest
  have h1 : a.isHashable = b.isHashable := by have := congrArg Nalu.isHashable hr; exact this
  have h2 : a.gopSei = b.gopSei := by have := congrArg Nalu.gopSei hr; exact this
  have h3 : a.tlvSize = b.tlvSize := by have := congrArg Nalu.tlvSize hr; exact this
  have h4 : a.withEpb = b.withEpb := by have := congrArg Nalu.withEpb hr; exact this
  have h5 : a.hashable = b.hashable := by have := congrArg Nalu.hashable hr; exact this
  have h6 : a.tlvOff = b.tlvOff := by have := congrArg Nalu.tlvOff hr; exact this
  obtain ⟨z, hz⟩ := hs.start
  unfold updateHashable at h ⊢
  rw [← h1, ← h2]
  split at h
  · rename_i hc
    rw [if_pos hc]
    cases h
    exact ⟨_, rfl, h5.symm⟩
  · rename_i hc
    rw [if_neg hc]
    have hf : ∀ x, findTag a.tlvStart a.tlvSize tagSignature a.withEpb = .ok x →
        findTag b.tlvStart b.tlvSize tagSignature b.withEpb = .ok x := by
      intro x hx
      rw [← h3, ← h4, ← hz]
      unfold findTag at hx ⊢
      split at hx
      · rename_i h0; rw [if_pos h0]; exact hx
      · rename_i h0; rw [if_neg h0]; exact findTagLoop_more _ _ _ _ _ _ _ _ _ hx
    cases hx : findTag a.tlvStart a.tlvSize tagSignature a.withEpb with
    | err e => rw [hx] at h; simp at h
    | ub u => rw [hx] at h; simp at h
    | ok x =>
      rw [hf x hx]
      rw [hx] at h
      simp only [Out.bind_ok] at h ⊢
      cases x with
      | none => cases h; exact ⟨_, rfl, h5.symm⟩
      | some k => cases h; exact ⟨_, rfl, by simp only [h5, h6]⟩

/-- **C15**, hashing: the bytes that the validator hashes are not changed by appended zeros. -/
theorem C15_hashed_bytes (data : Bytes) (k : Nat) (c : Codec) (auth : Bool) (r u : Nalu) (hne : data ≠ [])
    (h : parseNalu data c true auth = .ok r) (hu : updateHashable r = .ok u) :
    ∃ r' u', parseNalu (data ++ List.replicate k 0) c true auth = .ok r' ∧ updateHashable r' = .ok u' ∧
      u'.hashable = u.hashable ∧ r'.ntype = r.ntype ∧ r'.valid = r.valid ∧ r'.firstInGop = r.firstInGop := by
  obtain ⟨r', h1, hs⟩ := C15_trailing_zeros data k c auth r hne h
  obtain ⟨u', h2, h3⟩ := updateHashable_more r r' u hs hu
  have e1 := congrArg Nalu.ntype hs.rest
  have e2 := congrArg Nalu.valid hs.rest
  have e3 := congrArg Nalu.firstInGop hs.rest
  exact ⟨r', u', h1, h2, h3, e1.symm, e2.symm, e3.symm⟩

/-- A non-trivial instance: an IDR slice. -/
example : ∃ r, parseNalu [0, 0, 0, 1, 0x65, 0x88, 0, 0, 0x80] .h264 true true = .ok r ∧
    r.hashable = [0x65, 0x88, 0, 0, 0x80] ∧ r.firstInGop = true := ⟨_, rfl, by decide, by decide⟩

/-! ### C16 -/

/-- The header bytes of a NAL unit given with or without start code. -/
def headerOf (data : Bytes) : UInt8 × UInt8 :=
  match data with
  | 0 :: 0 :: 0 :: 1 :: b0 :: b1 :: _ => (b0, b1)
  | 0 :: 0 :: 1 :: b0 :: b1 :: _ => (b0, b1)
  | b0 :: b1 :: _ => (b0, b1)
  | _ => (0, 0)

theorem h264Type_fin : ∀ x : Fin 256, (((h264Type (UInt8.ofNat x.val)).1 = .i ∨ (h264Type (UInt8.ofNat x.val)).1 = .p) ↔
      (x.val % 32 = 1 ∨ x.val % 32 = 5)) ∧
    ((h264Type (UInt8.ofNat x.val)).1 = .sei ↔ x.val % 32 = 6) := by decide +kernel

theorem h264Type_table (b : UInt8) : (((h264Type b).1 = .i ∨ (h264Type b).1 = .p) ↔
      (b.toNat % 32 = 1 ∨ b.toNat % 32 = 5)) ∧ ((h264Type b).1 = .sei ↔ b.toNat % 32 = 6) := by
  have := h264Type_fin ⟨b.toNat, b.toNat_lt⟩
  simpa using this

theorem h265Table_layer (t l tid l' tid' : UInt8) : (h265Table t l tid).1 = (h265Table t l' tid').1 := by
  simp only [h265Table, apply_ite Prod.fst]

theorem h265Type_fin : ∀ x : Fin 256,
    (((h265Table ((UInt8.ofNat x.val &&& 0x7E) >>> 1) 0 0).1 = .i ∨
      (h265Table ((UInt8.ofNat x.val &&& 0x7E) >>> 1) 0 0).1 = .p) ↔
      (x.val / 2 % 64 = 0 ∨ x.val / 2 % 64 = 1 ∨ (16 ≤ x.val / 2 % 64 ∧ x.val / 2 % 64 ≤ 21))) ∧
    ((h265Table ((UInt8.ofNat x.val &&& 0x7E) >>> 1) 0 0).1 = .sei ↔ (x.val / 2 % 64 = 39 ∨ x.val / 2 % 64 = 40)) := by
  decide +kernel

theorem tid_fin : ∀ x : Fin 256, (UInt8.ofNat x.val &&& 0x07 = 0) ↔ x.val % 8 = 0 := by decide +kernel

theorem h265Type_table (b0 b1 : UInt8) :
    ((∃ p, h265Type b0 b1 = some p ∧ (p.1 = .i ∨ p.1 = .p)) ↔ Protected .h265 b0 b1) ∧
    ((∃ p, h265Type b0 b1 = some p ∧ p.1 = .sei) ↔ SeiType .h265 b0 b1) := by
  have h1 := h265Type_fin ⟨b0.toNat, b0.toNat_lt⟩
  have h2 := tid_fin ⟨b1.toNat, b1.toNat_lt⟩
  simp only [UInt8.ofNat_toNat] at h1 h2
  by_cases ht : b1 &&& 0x07 = 0
  · have hn : h265Type b0 b1 = none := by simp [h265Type, ht]
    have h8 := h2.1 ht
    simp [hn, Protected, SeiType, h8]
  · have hs : h265Type b0 b1 = some _ := if_neg ht
    have h8 : b1.toNat % 8 ≠ 0 := fun h => ht (h2.2 h)
    simp only [hs, Option.some.injEq, Protected, SeiType, h265NalType, h8, ne_eq, not_false_eq_true, true_and]
    rw [← h1.1, ← h1.2]
    constructor
    · constructor
      · rintro ⟨p, rfl, hp⟩
        rwa [h265Table_layer _ 0 0] 
      · intro hp
        refine ⟨_, rfl, ?_⟩
        rwa [h265Table_layer _ _ _ 0 0]
    · constructor
      · rintro ⟨p, rfl, hp⟩
        rwa [h265Table_layer _ 0 0]
      · intro hp
        refine ⟨_, rfl, ?_⟩
        rwa [h265Table_layer _ _ _ 0 0]

theorem parseHeader_spec (c : Codec) (b0 b1 : UInt8) (m : Bytes) (t : NType) (v prim : Bool)
    (h : parseHeader c (b0 :: b1 :: m) = .ok (t, v, prim)) :
    ((t = .i ∨ t = .p) ↔ Protected c b0 b1) ∧ (t = .sei ↔ SeiType c b0 b1) := by
  cases c with
  | h264 =>
    simp only [parseHeader, Out.ok.injEq, Prod.mk.injEq] at h
    rw [← h.1]
    exact h264Type_table b0
  | h265 =>
    have ht := h265Type_table b0 b1
    rw [← ht.1, ← ht.2]
    simp only [parseHeader] at h
    cases hq : h265Type b0 b1 with
    | none =>
      rw [hq] at h
      simp only [Out.ok.injEq, Prod.mk.injEq] at h
      rw [← h.1]; simp
    | some p =>
      obtain ⟨t', v'⟩ := p
      rw [hq] at h
      match m, h with
      | [], h => simp at h
      | b2 :: m, h =>
        simp only [Out.ok.injEq, Prod.mk.injEq] at h
        rw [← h.1]; simp

theorem removeEpb_ntype (n r : Nalu) (m : Bytes) (off : Nat) (h : removeEpb n m off = .ok r) :
    r.ntype = n.ntype ∧ r.isHashable = n.isHashable ∧ r.gopSei = n.gopSei ∧ r.valid = n.valid ∧
      r.firstInGop = n.firstInGop ∧ r.primary = n.primary := by
  unfold removeEpb at h
  split at h
  · cases h; exact ⟨rfl, rfl, rfl, rfl, rfl, rfl⟩
  · split at h
    · simp at h
    · simp only at h
      split at h
      · cases h; exact ⟨rfl, rfl, rfl, rfl, rfl, rfl⟩
      · split at h
        · simp at h
        · split at h <;> cases h <;> exact ⟨rfl, rfl, rfl, rfl, rfl, rfl⟩

theorem parseSei_ntype (c : Codec) (auth : Bool) (n r : Nalu) (m : Bytes) (last : UInt8)
    (h : parseSei c auth n m last = .ok r) :
    r.ntype = n.ntype ∧ (r.isHashable = true ↔ r.gopSei = true ∧ auth = true) ∧ r.valid = n.valid ∧
      r.firstInGop = n.firstInGop ∧ r.primary = n.primary := by
  simp only [parseSei] at h
  cases h1 : rd8 (m.drop (headerLen c)) with
  | err e => rw [h1] at h; simp at h
  | ub u => rw [h1] at h; simp at h
  | ok p =>
    obtain ⟨ud, m1⟩ := p
    rw [h1] at h
    simp only [Out.bind_ok] at h
    by_cases hud : ud = 5
    · simp only [hud, if_true] at h
      cases h2 : payloadSizeField m1 with
      | err e => rw [h2] at h; simp at h
      | ub u => rw [h2] at h; simp at h
      | ok q =>
        obtain ⟨ps, k⟩ := q
        rw [h2] at h
        simp only [Out.bind_ok] at h
        cases h3 : rdN 16 (m.drop (headerLen c + 1 + k)) with
        | err e => rw [h3] at h; simp at h
        | ub u => rw [h3] at h; simp at h
        | ok w =>
          obtain ⟨u, m2⟩ := w
          rw [h3] at h
          simp only [Out.bind_ok] at h
          obtain ⟨g1, g2, g3, g4, g5, g6⟩ := removeEpb_ntype _ r m _ h
          rw [g1, g2, g3, g4, g5, g6]
          simp
    · simp only [hud, if_false] at h
      cases h; simp

theorem parseNalu_header (data : Bytes) (c : Codec) (ct auth : Bool) (r : Nalu) (hne : data ≠ [])
    (h : parseNalu data c ct auth = .ok r) :
    ∃ t v prim, (∃ m, parseHeader c ((headerOf data).1 :: (headerOf data).2 :: m) = .ok (t, v, prim)) ∧ r.ntype = t ∧
      (t ≠ .sei → (r.isHashable = true ↔ (t = .i ∨ t = .p))) ∧
      (t = .sei → (r.isHashable = true ↔ r.gopSei = true ∧ auth = true)) ∧ r.valid = (if v then 1 else 0) ∧
      r.firstInGop = (t == .i && prim) ∧ r.primary = prim := by
  match data, h with
  | [], _ => exact absurd rfl hne
  | [_], h => simp [parseNalu] at h
  | [_, _], h => simp [parseNalu] at h
  | [_, _, _], h => simp [parseNalu] at h
  | a :: b :: x :: d :: rest, h =>
    have hh : ∀ y, parseHeader c ((a :: b :: x :: d :: rest).drop (startCode a b x d).1) = .ok y →
        ∃ m, parseHeader c ((headerOf (a :: b :: x :: d :: rest)).1 :: (headerOf (a :: b :: x :: d :: rest)).2 :: m) = .ok y := by
      intro y hy
      unfold startCode at hy
      split at hy
      · rename_i hc
        obtain ⟨rfl, rfl, rfl, rfl⟩ := hc
        match rest, hy with
        | b0 :: b1 :: m, hy => exact ⟨m, hy⟩
        | [_], hy => cases c <;> simp [parseHeader] at hy
        | [], hy => cases c <;> simp [parseHeader] at hy
      · rename_i hn4
        split at hy
        · rename_i hc
          obtain ⟨rfl, rfl, rfl⟩ := hc
          match rest, hy with
          | b1 :: m, hy =>
            refine ⟨m, ?_⟩
            have : headerOf (0 :: 0 :: 1 :: d :: b1 :: m) = (d, b1) := rfl
            rw [this]; exact hy
          | [], hy => cases c <;> simp [parseHeader] at hy
        · rename_i hn3
          refine ⟨x :: d :: rest, ?_⟩
          have : headerOf (a :: b :: x :: d :: rest) = (a, b) := by
            unfold headerOf
            split
            · rename_i heq; simp only [List.cons.injEq] at heq; exact absurd ⟨heq.1, heq.2.1, heq.2.2.1, heq.2.2.2.1⟩ hn4
            · rename_i heq; simp only [List.cons.injEq] at heq; exact absurd ⟨heq.1, heq.2.1, heq.2.2.1⟩ hn3
            · rename_i heq; simp only [List.cons.injEq] at heq; rw [heq.1, heq.2.1]
            · rename_i h3 h2 h1; exact absurd rfl (h1 _ _ _)
          rw [this]; exact hy
    simp only [parseNalu] at h
    cases hp : parseHeader c ((a :: b :: x :: d :: rest).drop (startCode a b x d).1) with
    | err e => rw [hp] at h; simp at h
    | ub u => rw [hp] at h; simp at h
    | ok y =>
      obtain ⟨t, v, prim⟩ := y
      refine ⟨t, v, prim, hh _ hp, ?_⟩
      rw [hp] at h
      simp only [Out.bind_ok] at h
      generalize (if ct then trimmedLen (a :: b :: x :: d :: rest) else .ok (a :: b :: x :: d :: rest).length) = sz at h
      cases sz with
      | err e => simp at h
      | ub u => simp at h
      | ok size =>
        simp only [Out.bind_ok] at h
        split at h
        · rename_i hts
          obtain ⟨g1, g2, g3, g4, g5⟩ := parseSei_ntype c auth _ r _ _ h
          exact ⟨g1, fun hx => absurd hts hx, fun _ => g2, g3, g4, g5⟩
        · rename_i hts
          cases h
          exact ⟨rfl, fun _ => by simp, fun hx => absurd hx hts, rfl, rfl, rfl⟩

/-- **C16**: on the signing side a NAL unit that can be parsed is hashed exactly when its header announces a protected
type (whatever its other bits are). -/
theorem C16_signed_types (data : Bytes) (c : Codec) (ct : Bool) (r : Nalu) (hne : data ≠ [])
    (h : parseNalu data c ct false = .ok r) :
    r.isHashable = true ↔ Protected c (headerOf data).1 (headerOf data).2 := by
  obtain ⟨t, v, prim, ⟨m, hm⟩, _, h2, h3, _⟩ := parseNalu_header data c ct false r hne h
  obtain ⟨s1, s2⟩ := parseHeader_spec c _ _ m t v prim hm
  by_cases ht : t = .sei
  · rw [h3 ht, ← s1, ht]; simp
  · rw [h2 ht, s1]

/-- **C16**, validation: a NAL unit is hashed exactly when its type is protected or it is a SEI of Signed Video. -/
theorem C16_validated_types (data : Bytes) (c : Codec) (ct : Bool) (r : Nalu) (hne : data ≠ [])
    (h : parseNalu data c ct true = .ok r) :
    r.isHashable = true ↔ (Protected c (headerOf data).1 (headerOf data).2 ∨
      (SeiType c (headerOf data).1 (headerOf data).2 ∧ r.gopSei = true)) := by
  obtain ⟨t, v, prim, ⟨m, hm⟩, _, h2, h3, _⟩ := parseNalu_header data c ct true r hne h
  obtain ⟨s1, s2⟩ := parseHeader_spec c _ _ m t v prim hm
  by_cases ht : t = .sei
  · rw [h3 ht, ← s1, ← s2, ht]; simp
  · rw [h2 ht, s1, ← s2]; simp [ht]

/-- **C16**: not every coded slice is protected, in either codec: H.264 data partitions and H.265 types 2 to 9 are given
to the library without any effect. -/
theorem C16_unprotected_slices : ∀ c : Codec, ∃ data r, parseNalu data c true false = .ok r ∧ r.valid = 1 ∧
    CodedSlice c (headerOf data).1 ∧ r.isHashable = false := by
  intro c
  cases c with
  | h264 => exact ⟨[0, 0, 0, 1, 0x22, 0x80, 0x80], _, rfl, by decide, by unfold CodedSlice; decide, by decide⟩
  | h265 => exact ⟨[0, 0, 0, 1, 0x10, 0x02, 0x80, 0x80], _, rfl, by decide, by unfold CodedSlice; decide, by decide⟩

/-! ### C17 -/

/-- The full claim of C17. -/
def C17_statement : Prop := ∀ (data : Bytes) (c : Codec) (ct auth : Bool), data ≠ [] →
  ∃ r, parseNalu data c ct auth = .ok r

/-- Reads outside the buffer: a NAL unit of one byte, one of only zeros, a SEI cut in its size field, a SEI cut in its
UUID, a SEI with less emulation prevention than announced. -/
theorem C17_overreads :
    parseNalu [0x65] .h264 true true = .ub .overread ∧
    parseNalu [0, 0, 0, 0, 0] .h264 true true = .ub .overread ∧
    parseNalu [0, 0, 0, 1, 0x06, 0x05, 0xFF, 0xFF] .h264 true true = .ub .overread ∧
    parseNalu [0, 0, 0, 1, 0x06, 0x05, 0x20, 0x53, 0x80] .h264 true true = .ub .overread ∧
    parseNalu ([0, 0, 0, 1, 0x06, 0x05, 25] ++ uuid ++ [0x80, 0, 0, 3, 0, 0, 3, 0, 0, 3]) .h264 true true
      = .ub .overread := by
  refine ⟨rfl, by decide, rfl, by decide, by decide +kernel⟩

theorem C17_statement_false : ¬ C17_statement := by
  intro h
  obtain ⟨r, hr⟩ := h [0x65] .h264 true true (by simp)
  rw [C17_overreads.1] at hr; cases hr

theorem readMany_shorter (e : Bool) (s : L2) (n k : Nat) (m : Bytes) (hk : k ≤ n) (h : (readMany e s n m).isSome) :
    (readMany e s k m).isSome := by
  induction n generalizing s m k with
  | zero => obtain rfl : k = 0 := by omega
            exact h
  | succ n ih =>
    cases k with
    | zero => rfl
    | succ k =>
      rw [readMany_append_one] at h ⊢
      cases hb : readByte e s m with
      | none => rw [hb] at h; simp at h
      | some x =>
        obtain ⟨b, t, m1⟩ := x
        rw [hb] at h
        simp only at h ⊢
        have h' : (readMany e t n m1).isSome := by
          cases hr : readMany e t n m1 with
          | none => rw [hr] at h; simp at h
          | some y => rfl
        have := ih t k m1 (by omega) h'
        cases hr : readMany e t k m1 with
        | none => rw [hr] at this; simp at this
        | some y => rfl

theorem removeEpb_defined (n : Nalu) (m : Bytes) (off : Nat) (h : off + 17 ≤ m.length)
    (hr : (readMany true L2.init (off + n.payloadSize + 1) m).isSome) : ∃ r, removeEpb n m off = .ok r := by
  unfold removeEpb
  split
  · exact ⟨_, rfl⟩
  · cases hd : m.drop (off + 16) with
    | nil =>
      have := congrArg List.length hd
      simp only [List.length_drop, List.length_nil] at this; omega
    | cons x tlv =>
      simp only
      split
      · exact ⟨_, rfl⟩
      · cases hm : readMany true L2.init (off + n.payloadSize + 1) m with
        | none => rw [hm] at hr; simp at hr
        | some y =>
          simp only
          split <;> exact ⟨_, rfl⟩

theorem parseSei_defined (c : Codec) (auth : Bool) (n : Nalu) (m : Bytes) (last : UInt8) (h : SeiRoom c m) :
    ∃ r, parseSei c auth n m last = .ok r := by
  have hh : hdr c = headerLen c := by cases c <;> rfl
  rcases h with ⟨h, x, rest, hl, rfl, hx⟩ | ⟨h, j, x, rest, L, tail, hl, hx, hm, hr, hL, hlen⟩
  · have : (h ++ x :: rest).drop (headerLen c) = x :: rest := by rw [← hh, ← hl, List.drop_left]
    simp only [parseSei, this, rd8_cons, Out.bind_ok, hx, if_false]
    exact ⟨_, rfl⟩
  · have h1 : m.drop (headerLen c) = 5 :: (List.replicate j 0xFF ++ x :: rest) := by
      rw [hm, ← hh, ← hl, List.drop_left]
    have h2 : payloadSizeField (List.replicate j 0xFF ++ x :: rest) = .ok (255 * j + x.toNat, j + 1) := by
      exact payloadSizeField_replicate j _ (x.toNat, 1) (by rw [payloadSizeField, if_neg hx])
    have h3 : m.drop (headerLen c + 1 + (j + 1)) = rest := by
      rw [Nat.add_assoc, ← List.drop_drop, h1, ← List.drop_drop, List.drop_one, List.tail_cons]
      have : List.replicate j (0xFF : UInt8) ++ x :: rest = (List.replicate j 0xFF ++ [x]) ++ rest := by simp
      rw [this]
      have h4 : (List.replicate j (0xFF : UInt8) ++ [x]).length = j + 1 := by simp
      rw [← h4, List.drop_left]
    have h4 : rdN 16 rest = .ok (rest.take 16, rest.drop 16) := by
      unfold rdN; rw [if_pos (by omega)]
    have h5 : m.length = headerLen c + 1 + (j + 1) + rest.length := by
      have := congrArg List.length h3
      simp only [List.length_drop] at this; omega
    simp only [parseSei, h1, rd8_cons, Out.bind_ok, if_true, h2, h3, h4]
    apply removeEpb_defined
    · omega
    · obtain ⟨t, ht, _⟩ := readMany_writeBytes true (L2.Sim.refl L2.init) L tail
      rw [← hL] at ht
      apply readMany_shorter true L2.init L.length _ m _ (by rw [ht]; rfl)
      show headerLen c + 1 + (j + 1) + (255 * j + x.toNat) + 1 ≤ _
      omega

/-- **C17**, the part that holds: parsing reads only inside the buffer if there are at least four bytes, three bytes
after the start code, a byte that is not zero, and, for SEIs, if the SEI is as long as it announces.  Missing: every
other content, for which it is false (`C17_overreads`). -/
theorem C17_long_enough_partial (data : Bytes) (c : Codec) (ct auth : Bool) (hz : ∃ z ∈ data, z ≠ 0)
    (p b : Bytes) (hp : Prefix p) (hd : data = p ++ b) (hs : NoStartCode b) (h4 : 4 ≤ data.length) (h3 : 3 ≤ b.length)
    (hsei : ∀ b0 b1 m, b = b0 :: b1 :: m → SeiType c b0 b1 → SeiRoom c b) :
    ∃ r, parseNalu data c ct auth = .ok r := by
  obtain ⟨a0, a1, a2, b', rfl⟩ : ∃ a0 a1 a2 b', b = a0 :: a1 :: a2 :: b' := by
    match b, h3 with
    | a0 :: a1 :: a2 :: b', _ => exact ⟨a0, a1, a2, b', rfl⟩
  obtain ⟨d0, d1, d2, d3, d', hdd⟩ : ∃ d0 d1 d2 d3 d', data = d0 :: d1 :: d2 :: d3 :: d' := by
    match data, h4 with
    | d0 :: d1 :: d2 :: d3 :: d', _ => exact ⟨d0, d1, d2, d3, d', rfl⟩
  have hdrop : data.drop (startCode d0 d1 d2 d3).1 = a0 :: a1 :: a2 :: b' := by
    cases hp with
    | four =>
      rw [hd] at hdd
      simp only [List.cons_append, List.nil_append, List.cons.injEq] at hdd
      obtain ⟨rfl, rfl, rfl, rfl, _⟩ := hdd
      rw [hd]; rfl
    | three =>
      rw [hd] at hdd
      simp only [List.cons_append, List.nil_append, List.cons.injEq] at hdd
      obtain ⟨rfl, rfl, rfl, rfl, _⟩ := hdd
      have : startCode 0 0 1 a0 = (3, 1) := by simp [startCode]
      rw [hd, this]; rfl
    | none =>
      have hsc : startCode d0 d1 d2 d3 = (0, 0) := by
        rw [hd, List.nil_append] at hdd
        rw [hdd] at hs
        unfold startCode
        rw [if_neg, if_neg]
        · rintro ⟨rfl, rfl, rfl⟩; exact hs.2 ⟨_, rfl⟩
        · rintro ⟨rfl, rfl, rfl, rfl⟩; exact hs.1 ⟨_, rfl⟩
      rw [hsc, hd]; rfl
  have hhead : ∃ y, parseHeader c (a0 :: a1 :: a2 :: b') = .ok y := by
    cases c with
    | h264 => exact ⟨_, rfl⟩
    | h265 =>
      simp only [parseHeader]
      cases h265Type a0 a1 with
      | none => exact ⟨_, rfl⟩
      | some q => exact ⟨_, rfl⟩
  obtain ⟨⟨t, v, prim⟩, hy⟩ := hhead
  have hspec := (parseHeader_spec c a0 a1 _ t v prim hy).2
  have hsize : ∃ size, (if ct then trimmedLen data else .ok data.length) = .ok size := by
    cases ct with
    | false => exact ⟨_, rfl⟩
    | true => 
      obtain ⟨k, _, _, hk, _⟩ := trimmedLen_prefix [] data hz
      exact ⟨k, by rw [if_pos rfl, hk]⟩
  obtain ⟨size, hsz⟩ := hsize
  rw [hdd] at hsz hdrop ⊢
  simp only [parseNalu, hdrop, hy, Out.bind_ok, hsz]
  split
  · rename_i ht
    exact parseSei_defined c auth _ _ _ (hsei a0 a1 _ rfl (hspec.1 ht))
  · exact ⟨_, rfl⟩

/-- A non-trivial instance: a SEI of the library's format with two emulation prevention bytes. -/
example : SeiRoom .h264 ([0x06, 0x05, 26] ++ uuid ++ [0x80, 0, 0, 3, 0, 0, 3, 0, 5, 1, 1, 1, 0x80]) :=
  Or.inr ⟨[0x06], 0, 26, uuid ++ [0x80, 0, 0, 3, 0, 0, 3, 0, 5, 1, 1, 1, 0x80],
    [0x06, 0x05, 26] ++ uuid ++ [0x80, 0, 0, 0, 0, 0, 5, 1, 1, 1, 0x80], [], rfl, by decide, by decide, by decide, by decide, by decide⟩

end SV
