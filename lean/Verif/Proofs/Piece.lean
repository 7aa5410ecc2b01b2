import Verif.Spec.SignHist
import Verif.Props.NaluValid
import Verif.Props.SignQueue
/-! Parsing of a NAL unit and the specification of protected pieces. -/
namespace SV
open Spec

theorem body_drop (a b x d : UInt8) (rest : Bytes) :
    (a :: b :: x :: d :: rest).drop (startCode a b x d).1 = body (a :: b :: x :: d :: rest) := by
  unfold startCode body
  split
  · next hc => obtain ⟨rfl, rfl, rfl, rfl⟩ := hc; rfl
  · next h4 =>
    split
    · next hc => obtain ⟨rfl, rfl, rfl⟩ := hc; rfl
    · next h3 =>
      split
      · next heq => simp only [List.cons.injEq] at heq; exact absurd ⟨heq.1, heq.2.1, heq.2.2.1, heq.2.2.2.1⟩ h4
      · next heq => simp only [List.cons.injEq] at heq; exact absurd ⟨heq.1, heq.2.1, heq.2.2.1⟩ h3
      · rfl

/-- Length of the start code. -/
def scLen (data : Bytes) : Nat := data.length - (body data).length

theorem body_suffix (data : Bytes) : ∃ p, data = p ++ body data := by
  unfold body
  split
  · exact ⟨[0, 0, 0, 1], rfl⟩
  · exact ⟨[0, 0, 1], rfl⟩
  · exact ⟨[], rfl⟩

/-- What `parse_nalu_info` makes of anything but a SEI. -/
theorem parse_shape (data : Bytes) (c : Codec) (ct auth : Bool) (r : Nalu) (hne : data ≠ [])
    (h : parseNalu data c ct auth = .ok r) :
    ∃ t v prim size, parseHeader c (body data) = .ok (t, v, prim) ∧
      (if ct then trimmedLen data else .ok data.length) = .ok size ∧ r.ntype = t ∧
      (t ≠ .sei → ∃ sc, r = {
        startCode := sc, valid := if v then 1 else 0, ntype := t, primary := prim
        isHashable := t == .i || t == .p, firstInGop := t == .i && prim
        hashable := (body data).take (size - scLen data) }) := by
  match data, h with
  | [], _ => exact absurd rfl hne
  | [_], h => simp [parseNalu] at h
  | [_, _], h => simp [parseNalu] at h
  | [_, _, _], h => simp [parseNalu] at h
  | a :: b :: x :: d :: rest, h =>
    have hsc : (startCode a b x d).1 = scLen (a :: b :: x :: d :: rest) := by
      unfold scLen
      rw [← body_drop, List.length_drop]
      have : (startCode a b x d).1 ≤ 4 := by unfold startCode; repeat' split
                                             all_goals simp
      simp only [List.length_cons]; omega
    simp only [parseNalu, body_drop] at h
    rw [hsc] at h
    cases hp : parseHeader c (body (a :: b :: x :: d :: rest)) with
    | err e => rw [hp] at h; simp at h
    | ub u => rw [hp] at h; simp at h
    | ok y =>
      obtain ⟨t, v, prim⟩ := y
      rw [hp] at h
      simp only [Out.bind_ok] at h
      cases hsz : (if ct then trimmedLen (a :: b :: x :: d :: rest) else .ok (a :: b :: x :: d :: rest).length) with
      | err e => rw [hsz] at h; simp at h
      | ub u => rw [hsz] at h; simp at h
      | ok size =>
        rw [hsz] at h
        simp only [Out.bind_ok] at h
        refine ⟨t, v, prim, size, rfl, rfl, ?_, ?_⟩
        · split at h
          · next hts => exact (parseSei_ntype c auth _ r _ _ h).1
          · cases h; rfl
        · intro hts
          rw [if_neg hts] at h
          cases h
          exact ⟨_, rfl⟩

theorem trimZeros_take (b : Bytes) : trimZeros b = b.take (b.reverse.dropWhile (· == 0)).length := by
  have h : trimZeros b <+: b := by
    have := List.dropWhile_suffix (· == 0) (l := b.reverse)
    have := List.reverse_prefix.2 this
    rwa [List.reverse_reverse] at this
  have := List.prefix_iff_eq_take.1 h
  rw [this]
  simp [trimZeros]

theorem intra264_fin : ∀ x : Fin 256, ((h264Type (UInt8.ofNat x.val)).1 = .i ↔ x.val % 32 = 5) := by decide +kernel
theorem intra265_fin : ∀ x : Fin 256, (h265Table ((UInt8.ofNat x.val &&& 0x7E) >>> 1) 0 0).1 = .i ↔
    (16 ≤ x.val / 2 % 64 ∧ x.val / 2 % 64 ≤ 21) := by decide +kernel

/-- The header of a parsed NAL unit, in terms of the specification. -/
theorem header_spec (c : Codec) (m : Bytes) (t : NType) (v prim : Bool) (h : parseHeader c m = .ok (t, v, prim)) :
    2 ≤ m.length ∧ ((t = .i ∨ t = .p) ↔ Protected c (m.getD 0 0) (m.getD 1 0)) ∧
    (t = .sei ↔ SeiType c (m.getD 0 0) (m.getD 1 0)) ∧ (t = .i ↔ IntraType c (m.getD 0 0) (m.getD 1 0)) ∧
    (v = true ↔ LegalHeader c (m.getD 0 0) (m.getD 1 0)) ∧
    ((t = .i ∨ t = .p) → (prim = true ↔ 128 ≤ (m.getD (hdr c) 0).toNat)) := by
  match m, h with
  | [], h => cases c <;> simp [parseHeader] at h
  | [_], h => cases c <;> simp [parseHeader] at h
  | b0 :: b1 :: m, h =>
    obtain ⟨s1, s2⟩ := parseHeader_spec c b0 b1 m t v prim h
    refine ⟨by simp, s1, s2, ?_, parseHeader_legal c b0 b1 m t v prim h, ?_⟩
    · cases c with
      | h264 =>
        simp only [parseHeader, Out.ok.injEq, Prod.mk.injEq] at h
        have := intra264_fin ⟨b0.toNat, b0.toNat_lt⟩
        simp only [UInt8.ofNat_toNat] at this
        rw [← h.1]; exact this
      | h265 =>
        have i1 := intra265_fin ⟨b0.toNat, b0.toNat_lt⟩
        have i2 := tid_fin ⟨b1.toNat, b1.toNat_lt⟩
        simp only [UInt8.ofNat_toNat] at i1 i2
        simp only [parseHeader] at h
        by_cases ht : b1 &&& 0x07 = 0
        · have hn : h265Type b0 b1 = none := by simp [h265Type, ht]
          rw [hn] at h
          simp only [Out.ok.injEq, Prod.mk.injEq] at h
          have h8 := i2.1 ht
          rw [← h.1]
          simp [IntraType, h8]
        · have hs : h265Type b0 b1 = some _ := if_neg ht
          have h8 : b1.toNat % 8 ≠ 0 := fun h => ht (i2.2 h)
          rw [hs] at h
          match m, h with
          | [], h => cases h
          | b2 :: m, h =>
            simp only [Out.ok.injEq, Prod.mk.injEq] at h
            rw [← h.1, h265Table_layer _ _ _ 0 0, i1]
            simp [IntraType, h8, h265NalType]
    · intro hip
      have hbit : ∀ z : UInt8, (z &&& 0x80 != 0) = true ↔ 128 ≤ z.toNat := by
        intro z
        have hfin : ∀ x : Fin 256, (UInt8.ofNat x.val &&& 0x80 != 0) = true ↔ 128 ≤ x.val := by decide +kernel
        have := hfin ⟨z.toNat, z.toNat_lt⟩
        simpa using this
      cases c with
      | h264 =>
        simp only [parseHeader, Out.ok.injEq, Prod.mk.injEq] at h
        rw [← h.2.2]; exact hbit b1
      | h265 =>
        simp only [parseHeader] at h
        split at h
        · simp only [Out.ok.injEq, Prod.mk.injEq] at h
          rcases hip with ht | ht <;> rw [ht] at h <;> simp at h
        · match m, h with
          | [], h => cases h
          | b2 :: m, h =>
            simp only [Out.ok.injEq, Prod.mk.injEq] at h
            rw [← h.2.2]; exact hbit b2

theorem sliceByte_body (c : Codec) (d : Bytes) : sliceByte c d = (body d).getD (hdr c) 0 := rfl

theorem protected_nonzero (c : Codec) (m : Bytes) (h : Protected c (m.getD 0 0) (m.getD 1 0)) : ∃ z ∈ m, z ≠ 0 := by
  match m, h with
  | [], h => cases c <;> simp [Protected, h264NalType, h265NalType] at h
  | [b0], h =>
    cases c with
    | h264 => refine ⟨b0, by simp, ?_⟩; rintro rfl; simp [Protected, h264NalType] at h
    | h265 => simp [Protected] at h
  | b0 :: b1 :: m, h =>
    cases c with
    | h264 => refine ⟨b0, by simp, ?_⟩; rintro rfl; simp [Protected, h264NalType] at h
    | h265 => refine ⟨b1, by simp, ?_⟩; rintro rfl; simp [Protected] at h

theorem scLen_prefix {data p : Bytes} (hp : data = p ++ body data) : scLen data = p.length := by
  unfold scLen
  have := congrArg List.length hp
  rw [List.length_append] at this
  omega

/-- The parsed NAL unit is the piece of the specification; trailing zeros are removed if asked for. -/
theorem parse_piece (data : Bytes) (c : Codec) (auth : Bool) (r : Nalu) (hne : data ≠ [])
    (h : parseNalu data c true auth = .ok r) :
    (Protected c ((body data).getD 0 0) ((body data).getD 1 0) →
      r.isHashable = true ∧ r.gopSei = false ∧ r.hashable = trimZeros (body data) ∧
      r.firstInGop = decide (IntraType c ((body data).getD 0 0) ((body data).getD 1 0) ∧ 128 ≤ (sliceByte c data).toNat) ∧
      (r.valid = 1 ∧ LegalHeader c ((body data).getD 0 0) ((body data).getD 1 0) ∨
        r.valid = 0 ∧ ¬ LegalHeader c ((body data).getD 0 0) ((body data).getD 1 0))) ∧
    (¬ Protected c ((body data).getD 0 0) ((body data).getD 1 0) →
      (r.isHashable = true → auth = true ∧ r.gopSei = true) ∧ r.firstInGop = false) := by
  obtain ⟨t, v, prim, size, h1, h2, h3, h4⟩ := parse_shape data c true auth r hne h
  obtain ⟨s0, s1, s2, s3, s4, s5⟩ := header_spec c _ t v prim h1
  constructor
  · intro hP
    have hip := s1.2 hP
    have hns : t ≠ .sei := by rcases hip with h | h <;> rw [h] <;> decide
    obtain ⟨sc, hr⟩ := h4 hns
    have hz := protected_nonzero c _ hP
    obtain ⟨p, hp⟩ := body_suffix data
    obtain ⟨k, k1, k2, k3, k4⟩ := trimmedLen_prefix p (body data) hz
    rw [← hp] at k4
    rw [if_pos rfl, k4] at h2
    have hsz : size = p.length + k := by cases h2; rfl
    rw [hr]
    refine ⟨by rcases hip with h | h <;> simp [h], rfl, ?_, ?_, ?_⟩
    · show (body data).take (size - scLen data) = _
      rw [hsz, scLen_prefix hp, Nat.add_sub_cancel_left, trimZeros_take]
      unfold trimmedLen at k3
      simp only at k3
      split at k3
      · cases k3
      · cases k3; rfl
    · show (t == .i && prim) = _
      rw [sliceByte_body]
      have e1 : (t == .i) = decide (IntraType c ((body data).getD 0 0) ((body data).getD 1 0)) := by
        rw [Bool.eq_iff_iff]; simp [s3]
      have e2 : prim = decide (128 ≤ ((body data).getD (hdr c) 0).toNat) := by
        rw [Bool.eq_iff_iff]; simp [s5 hip]
      rw [e1, e2, Bool.decide_and]
    · show (if v then (1 : Int) else 0) = 1 ∧ _ ∨ (if v then (1 : Int) else 0) = 0 ∧ _
      by_cases hv : v = true
      · exact .inl ⟨by rw [if_pos hv], s4.1 hv⟩
      · exact .inr ⟨by rw [if_neg hv], fun hx => hv (s4.2 hx)⟩
  · intro hP
    have hnip : ¬ (t = .i ∨ t = .p) := fun hx => hP (s1.1 hx)
    by_cases hts : t = .sei
    · obtain ⟨t', v', prim', _, g1, _, g3, _, g5, _⟩ := parseNalu_header data c true auth r hne h
      have ht' : t' = .sei := by rw [← g1, h3, hts]
      refine ⟨fun hh => ?_, by rw [g5, ht']; rfl⟩
      have := (g3 ht').1 hh
      exact ⟨this.2, this.1⟩
    · obtain ⟨sc, hr⟩ := h4 hts
      rw [hr]
      have n1 : (t == .i) = false := by simpa using fun hx => hnip (.inl hx)
      have n2 : (t == .p) = false := by simpa using fun hx => hnip (.inr hx)
      simp [n1, n2]

end SV
