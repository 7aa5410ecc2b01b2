import Verif.Proofs.SeiParse
import Verif.Props.Epb
import Verif.Props.Tlv
/-! Properties of the SEIs as byte strings: C02, C03, C12, C13. -/
namespace SV
open Spec

/-! ### Auxiliary facts -/

theorem items_length (e : EncState) (ts : List UInt8) : (items e ts).length ≤ ts.length := by
  induction ts generalizing e with
  | nil => simp [items]
  | cons t ts ih =>
    unfold items; split
    · have := ih (afterWrite e t); simp; omega
    · have := ih e; simp; omega

theorem frames_bound (l : List (UInt8 × Bytes)) (h : ∀ p ∈ l, Known p.1 ∧ p.2.length ≤ maxLen p.1) :
    (frames l).length ≤ 65538 * l.length := by
  induction l with
  | nil => simp [frames]
  | cons p l ih =>
    obtain ⟨h1, h2⟩ := h p (by simp)
    have h3 := frame_length h1 p.2
    have h4 := ih (fun q hq => h q (by simp [hq]))
    have h5 : (getTuple p.1).lenBytes ≤ 2 := by rw [(getTuple_lib h1).2]; split <;> decide
    have h6 : maxLen p.1 ≤ 65535 := by unfold maxLen; split <;> decide
    rw [frames_cons, List.length_append, List.length_cons]; omega

theorem seiItems_bound {e0 : EncState} (h : Fits e0) (o : SeiOpts) :
    ∀ p ∈ seiItems o e0, Known p.1 ∧ p.2.length ≤ maxLen p.1 := by
  have hf := fits_fallback h o
  have hf1 := fits_afterWrites hf (optTags o)
  have hf2 := fits_afterWrites hf1 (mandTags o)
  intro p hp
  simp only [seiItems, List.mem_append] at hp
  rcases hp with hp | hp | hp
  · exact items_bound hf (optTags_known o) p hp
  · exact items_bound hf1 (mandTags_known o) p hp
  · exact items_bound hf2 (vendorTags_known o) p hp

theorem seiItems_length (o : SeiOpts) (e0 : EncState) : (seiItems o e0).length ≤ 7 := by
  have h1 := items_length (applyFallback o e0) (optTags o)
  have h2 := items_length (afterWrites (applyFallback o e0) (optTags o)) (mandTags o)
  have h3 := items_length (afterWrites (afterWrites (applyFallback o e0) (optTags o)) (mandTags o)) (vendorTags o)
  have h4 : (optTags o).length ≤ 3 := by unfold optTags; split <;> decide
  have h5 : (mandTags o).length ≤ 3 := by unfold mandTags; split <;> decide
  have h6 : (vendorTags o).length ≤ 1 := by unfold vendorTags; split <;> decide
  simp only [seiItems, List.length_append]; omega

/-- All TLVs of a complete SEI. -/
def seiTlv (o : SeiOpts) (e0 e1 : EncState) : Bytes := frames (seiItems o e0) ++ sigFrame e1

theorem seiTlv_bound {e0 e1 : EncState} (h : Fits e0) (h1 : Fits e1) (o : SeiOpts) :
    (seiTlv o e0 e1).length + 17 < 2 ^ 64 := by
  have h2 := frames_bound _ (seiItems_bound h o)
  have h3 := seiItems_length o e0
  have h4 := sigFrame_length h1
  have h5 := h1.maxSig
  simp only [seiTlv, List.length_append]; omega

theorem payload_tlv {e0 e1 : EncState} (h : Fits e0) (h1 : Fits e1) (o : SeiOpts)
    (hm : e1.maxSignature = e0.maxSignature) :
    payloadSizeRaw o (applyFallback o e0) = 17 + (seiTlv o e0 e1).length := by
  rw [payloadSize_eq h h1 o hm, seiTlv, List.length_append]; omega

theorem seiBytes_eq {e0 e1 : EncState} (h : Fits e0) (h1 : Fits e1) (o : SeiOpts)
    (hm : e1.maxSignature = e0.maxSignature) :
    seiBytes o e0 e1 = startCode4 ++ (seiHead o (17 + (seiTlv o e0 e1).length) ++
      ((writeBytes o.epb ⟨0x2e, 0x30⟩ (seiTlv o e0 e1)).1 ++ [0x80])) := by
  rw [seiBytes, seiComplete_eq h h1, writeBytes_body, payload_tlv h h1 o hm, List.append_assoc]; rfl

/-! ### C02 -/

/-- **C02**: in a SEI produced with emulation prevention, the patterns 00 00 00, 00 00 01 and 00 00 02 occur only inside
the start code the SEI begins with. -/
theorem C02_sei {e0 e1 : EncState} (h : Fits e0) (h1 : Fits e1) (o : SeiOpts) (ho : o.epb = true)
    (pre post : Bytes) (c : UInt8) (hc : c ≤ 2) (hs : seiBytes o e0 e1 = pre ++ 0 :: 0 :: c :: post) :
    pre.length ≤ 1 := by
  rw [seiBytes, seiComplete_eq h h1, ho] at hs
  have hcl : ¬ Emulates (1 :: 1 :: (writeBytes true L2.init (seiBody o e0 e1)).1) :=
    C02_written_bytes L2.init (seiBody o e0 e1)
  by_cases hp : pre.length ≤ 1
  · exact hp
  · exfalso
    apply hcl
    match pre, hs with
    | [a, b], hs => simp [startCode4] at hs
    | [a, b, d], hs => simp [startCode4] at hs
    | a :: b :: d :: f :: pre, hs =>
      simp only [startCode4, List.cons_append, List.nil_append, List.cons.injEq] at hs
      exact ⟨1 :: 1 :: pre, c, post, by rw [hs.2.2.2.2]; rfl, hc⟩
    | [], _ => simp at hp
    | [_], _ => simp at hp

/-- A non-trivial instance: the example session has runs of zeros (its linked hash), an H.265 SEI with emulation
prevention. -/
def exampleOpts : SeiOpts := ⟨.h265, true, false, false, false, false, 0⟩

example : (seiBytes exampleOpts exampleSession exampleSession).length = 777 ∧
    (seiBytes { exampleOpts with epb := false } exampleSession exampleSession).length = 729 := by decide +kernel

/-- Without emulation prevention the claim of C02 fails (which is why it is only claimed for SEIs with it). -/
theorem C02_needs_epb : ∃ pre c post, c ≤ 2 ∧ 1 < pre.length ∧
    seiBytes { exampleOpts with epb := false } exampleSession exampleSession = pre ++ 0 :: 0 :: c :: post := by
  refine ⟨(seiBytes { exampleOpts with epb := false } exampleSession exampleSession).take 585, 0,
    (seiBytes { exampleOpts with epb := false } exampleSession exampleSession).drop 588, by decide, ?_, ?_⟩ <;>
  decide +kernel

/-! ### C03 -/

/-- The full claim of C03: what is written fits what is allocated. -/
def C03_statement : Prop := ∀ (o : SeiOpts) (e0 e1 : EncState), Fits e0 → Fits e1 →
  e1.maxSignature = e0.maxSignature →
  (seiBytes o e0 e1).length ≤ allocSize o.codec (payloadSizeRaw o (applyFallback o e0))

theorem writeBytes_zeros (e : Bool) (s : L2) (bs : Bytes) :
    2 * (writeBytes e s bs).1.length ≤ 2 * bs.length + bs.count 0 + s.pot := by
  induction bs generalizing s with
  | nil => simp [writeBytes]
  | cons b bs ih =>
    have h := ih (writeByte e s b).2
    simp only [writeBytes_cons, List.length_append, List.length_cons, List.count_cons]
    suffices h2 : 2 * (writeByte e s b).1.length + (writeByte e s b).2.pot ≤ 2 + (if b == 0 then 1 else 0) + s.pot by
      omega
    unfold writeByte
    split
    · rename_i hc
      simp only [Bool.and_eq_true] at hc
      have hp : s.pot = 2 := by simp [L2.pot, hc.2]
      have h3 : ((s.push 3).push b).pot = if b = 0 then 1 else 0 := by simp [L2.pot, L2.push, L2.isZero]
      rw [hp, h3]
      simp only [List.length_cons, List.length_nil, beq_iff_eq]
      split <;> omega
    · simp only [List.length_singleton, beq_iff_eq]
      have : (s.push b).pot ≤ (if b = 0 then 1 else 0) + s.pot := by
        simp only [L2.pot, L2.push, L2.isZero, Bool.and_eq_true, beq_iff_eq]
        by_cases hb : b = 0 <;> by_cases hl : s.lo = 0 <;> by_cases hh : s.hi = 0 <;> simp [hb, hl, hh]
      omega

/-- **C03**, the part that holds: the allocation is sufficient without emulation prevention, and with it whenever at
most three fifths of the TLV bytes are zero.  Missing: contents with more zeros, for which it is false (next
theorem): emulation prevention can add one byte per two bytes, not one per three as the code assumes. -/
theorem C03_partial {e0 e1 : EncState} (h : Fits e0) (h1 : Fits e1) (o : SeiOpts)
    (hm : e1.maxSignature = e0.maxSignature)
    (hz : o.epb = false ∨ 5 * (seiTlv o e0 e1).count 0 ≤ 3 * (seiTlv o e0 e1).length) :
    (seiBytes o e0 e1).length ≤ allocSize o.codec (payloadSizeRaw o (applyFallback o e0)) := by
  have hlen : 10 * (writeBytes o.epb ⟨0x2e, 0x30⟩ (seiTlv o e0 e1)).1.length ≤ 13 * (seiTlv o e0 e1).length := by
    rcases hz with hz | hz
    · rw [hz, writeBytes_false]; omega
    · have h2 := writeBytes_zeros o.epb ⟨0x2e, 0x30⟩ (seiTlv o e0 e1)
      have h3 : (⟨0x2e, 0x30⟩ : L2).pot = 0 := by decide
      omega
  have hh := seiHead_length o (17 + (seiTlv o e0 e1).length)
  rw [seiBytes_eq h h1 o hm, payload_tlv h h1 o hm]
  simp only [List.length_append, hh, allocSize]
  cases o.codec <;> simp only [headerLen, startCode4, List.length_cons, List.length_nil] <;> omega

/-- A session whose user data are 2000 zeros. -/
def zeroSession : EncState := { exampleSession with arbitrary := List.replicate 2000 0 }

theorem zeroSession_fits : Fits zeroSession where
  hashSize := exampleSession_fits.hashSize
  linked := exampleSession_fits.linked
  gop := exampleSession_fits.gop
  hw := exampleSession_fits.hw
  fw := exampleSession_fits.fw
  sn := exampleSession_fits.sn
  mf := exampleSession_fits.mf
  ad := exampleSession_fits.ad
  arbitrary := by decide +kernel
  key := exampleSession_fits.key
  hashList := exampleSession_fits.hashList
  oid := exampleSession_fits.oid
  sig := exampleSession_fits.sig
  maxSig := exampleSession_fits.maxSig
  hashType := exampleSession_fits.hashType
  axis := exampleSession_fits.axis

/-- **C03** is false: with 2000 zero bytes of user data the SEI is written beyond its allocation. -/
theorem C03_overflow :
    allocSize exampleOpts.codec (payloadSizeRaw exampleOpts (applyFallback exampleOpts zeroSession)) <
      (seiBytes exampleOpts zeroSession zeroSession).length := by decide +kernel

theorem C03_statement_false : ¬ C03_statement := by
  intro h
  have := h exampleOpts zeroSession zeroSession zeroSession_fits zeroSession_fits rfl
  have h2 := C03_overflow
  omega

/-- A non-trivial instance of `C03_partial`. -/
example : 5 * (seiTlv exampleOpts exampleSession exampleSession).count 0 ≤
    3 * (seiTlv exampleOpts exampleSession exampleSession).length ∧
    (seiTlv exampleOpts exampleSession exampleSession).count 0 = 115 := by decide +kernel

/-! ### C13 -/

/-- **C13**: a complete SEI is recognised by the validator, with the flags it was generated with and with the TLVs that
were written; this holds as well for a SEI generated without emulation prevention that got it on the way (`esc`). -/
theorem C13_parsed {e0 e1 : EncState} (h : Fits e0) (h1 : Fits e1) (o : SeiOpts)
    (hm : e1.maxSignature = e0.maxSignature) :
    ∃ r, parseNalu (seiBytes o e0 e1) o.codec true true = .ok r ∧ r.valid = 1 ∧ r.ntype = .sei ∧ r.gopSei = true ∧
      r.isHashable = true ∧ r.golden = o.golden ∧ r.withEpb = o.epb ∧
      r.tlvMem.take r.tlvSize = encodeAll (seiItems o e0 ++ [(5, valSignature e1)]) ∧
      r.tlvSize = (encodeAll (seiItems o e0 ++ [(5, valSignature e1)])).length := by
  obtain ⟨r, hr, hv, ht, hg, hh, hgo, he, _, hs, hmem, _⟩ :=
    parse_complete o (seiTlv o e0 e1) o.epb (fun x => x) (seiTlv_bound h h1 o)
  have hT : seiTlv o e0 e1 = encodeAll (seiItems o e0 ++ [(5, valSignature e1)]) := by
    rw [← frames_encodeAll, frames_append]; simp [seiTlv, sigFrame, frames]
  refine ⟨r, ?_, hv, ht, hg, hh, hgo, he, ?_, by rw [hs, hT]⟩
  · rw [seiBytes_eq h h1 o hm]; exact hr
  · rw [hmem, hs, List.take_left, hT]

/-- **C13**, SEIs that get emulation prevention on the way. -/
theorem C13_escaped {e0 e1 : EncState} (h : Fits e0) (h1 : Fits e1) (o : SeiOpts) (ho : o.epb = false)
    (hm : e1.maxSignature = e0.maxSignature) :
    ∃ r, parseNalu (startCode4 ++ (writeBytes true L2.init (seiComplete o e1 (seiStart o e0).1)).1) o.codec true true
        = .ok r ∧ r.valid = 1 ∧ r.ntype = .sei ∧ r.gopSei = true ∧
      r.isHashable = true ∧ r.golden = o.golden ∧ r.withEpb = false ∧
      r.tlvMem.take r.tlvSize = encodeAll (seiItems o e0 ++ [(5, valSignature e1)]) ∧
      r.tlvSize = (encodeAll (seiItems o e0 ++ [(5, valSignature e1)])).length := by
  obtain ⟨r, hr, hv, ht, hg, hh, hgo, he, _, hs, hmem, _⟩ :=
    parse_complete o (seiTlv o e0 e1) true (fun _ => rfl) (seiTlv_bound h h1 o)
  have hT : seiTlv o e0 e1 = encodeAll (seiItems o e0 ++ [(5, valSignature e1)]) := by
    rw [← frames_encodeAll, frames_append]; simp [seiTlv, sigFrame, frames]
  refine ⟨r, ?_, hv, ht, hg, hh, hgo, by rw [he, ho], ?_, by rw [hs, hT]⟩
  · rw [seiComplete_eq h h1, ho, writeBytes_false, writeBytes_body, payload_tlv h h1 o hm, List.append_assoc]
    exact hr
  · rw [hmem, hs, List.take_left, hT]

/-- What a SEI of a session without golden SEI and vendor data contains: the session when it was generated, without the
hash list if the SEI would have become too large, and the signature at completion. -/
def sent (o : SeiOpts) (e0 e1 : EncState) : EncState :=
  { e0 with
    hashList := if o.maxPayload > 0 ∧ payloadSizeRaw o e0 > o.maxPayload then none else e0.hashList
    signature := e1.signature, encodingStatus := e1.encodingStatus }

theorem items_sent (e : EncState) (s : Bytes) (x : UInt8) (ts : List UInt8) (hts : ∀ t ∈ ts, t ≠ 5) :
    items { e with signature := s, encodingStatus := x } ts = items e ts ∧
    afterWrites { e with signature := s, encodingStatus := x } ts =
      { afterWrites e ts with signature := s, encodingStatus := x } := by
  induction ts generalizing e with
  | nil => exact ⟨rfl, rfl⟩
  | cons t ts ih =>
    have ht : t ≠ 5 := hts t (by simp)
    have ih' := fun e => ih e (fun u hu => hts u (by simp [hu]))
    have hv : valueBytes { e with signature := s, encodingStatus := x } t = valueBytes e t := by
      unfold valueBytes
      rw [if_neg (show ¬ t = tagSignature from ht), if_neg (show ¬ t = tagSignature from ht)]
      rfl
    have ha : afterWrite { e with signature := s, encodingStatus := x } t =
        { afterWrite e t with signature := s, encodingStatus := x } := by
      unfold afterWrite; repeat' split
      all_goals first | rfl | (simp_all [sizeHashList])
    have hsel : tagSelected { e with signature := s, encodingStatus := x } t = tagSelected e t := rfl
    unfold items afterWrites
    rw [hv, ha, hsel]
    split
    · exact ⟨by rw [(ih' _).1], (ih' _).2⟩
    · exact ih' e

theorem afterWrites_hashType (e : EncState) (ts : List UInt8) (h : e.hashType = 1) : (afterWrites e ts).hashType = 1 := by
  induction ts generalizing e with
  | nil => exact h
  | cons t ts ih =>
    unfold afterWrites
    split
    · apply ih; unfold afterWrite; repeat' split
      all_goals first | exact h | rfl
    · exact ih e h

/-- **C13**, content: for a session without golden SEI and without vendor data, the validator decodes the SEI to what
the signing session put into it: everything as of when the SEI was generated, the signature as of when it was
completed.  (`generate_sei_nalu` sets the hash type to 1 before writing.) -/
theorem C13_content {e0 e1 : EncState} (h : Fits e0) (h1 : Fits e1) (o : SeiOpts)
    (hm : e1.maxSignature = e0.maxSignature) (hg : o.golden = false) (hu : o.usingGolden = false)
    (hv : o.vendor = false) (ht0 : e0.hashType = 1) (ht1 : e1.hashType = 1)
    {env : CryptoEnv} (hc : CryptoOk env e0) (d : DecState)
    (hd : d.maxSignature = none ∨ d.maxSignature = some e0.maxSignature) :
    ∃ r d', parseNalu (seiBytes o e0 e1) o.codec true true = .ok r ∧
      tlvDecode env d r.tlvMem r.tlvSize = .ok d' ∧ Carries (sent o e0 e1) e0.recurrent d d' := by
  obtain ⟨r, hr, _, _, _, _, _, _, _, hs, hmem, _⟩ :=
    parse_complete o (seiTlv o e0 e1) o.epb (fun x => x) (seiTlv_bound h h1 o)
  have hfall : sent o e0 e1 = { applyFallback o e0 with signature := e1.signature, encodingStatus := e1.encodingStatus } := by
    have hpos : tlvListSize e0 (mandTags o) > 0 := by
      rw [tlvListSize_eq h (mandTags_known o)]
      have h1 : tagSelected e0 1 = true := rfl
      have h2 : valueBytes e0 1 ≠ [] := by
        show valGeneral e0 ≠ []
        simp [valGeneral]
      have h3 : ∃ l, items e0 (mandTags o) = (1, valueBytes e0 1) :: l := by
        simp only [mandTags, hg, mandatoryTags, tagGeneral, items, h1, h2]
        exact ⟨_, rfl⟩
      obtain ⟨l, hl⟩ := h3
      rw [hl, frames_cons, List.length_append, frame_length (by simp [Known])]
      omega
    unfold sent applyFallback
    by_cases hp : o.maxPayload > 0 ∧ payloadSizeRaw o e0 > o.maxPayload
    · rw [if_pos hp, if_pos ⟨hp.1, hp.2, hpos⟩]
    · rw [if_neg hp, if_neg (fun hx => hp ⟨hx.1, hx.2.1⟩)]
  have hfit : Fits (sent o e0 e1) := by
    rw [hfall]
    have hf := fits_fallback h o
    refine ⟨hf.1, hf.2, hf.3, hf.4, hf.5, hf.6, hf.7, hf.8, hf.9, hf.10, hf.11, hf.12, ?_, hf.14, hf.15, hf.16⟩
    show e1.signature.length ≤ (applyFallback o e0).maxSignature
    have : (applyFallback o e0).maxSignature = e0.maxSignature := by unfold applyFallback; split <;> rfl
    rw [this, ← hm]; exact h1.sig
  have hcr : CryptoOk env (sent o e0 e1) := ⟨hc.1, hc.2⟩
  have hopt : optTags o = optionalTags := by simp [optTags, hu]
  have hman : mandTags o = mandatoryTags := by simp [mandTags, hg]
  have hven : vendorTags o = [] := by simp [vendorTags, hv]
  have hitems : ∀ (e : EncState) (a b : List UInt8), items e (a ++ b) = items e a ++ items (afterWrites e a) b ∧
      afterWrites e (a ++ b) = afterWrites (afterWrites e a) b := by
    intro e a b
    induction a generalizing e with
    | nil => exact ⟨rfl, rfl⟩
    | cons t a ih =>
      rw [List.cons_append, items, items, afterWrites, afterWrites]
      split
      · exact ⟨by rw [(ih _).1, List.cons_append], (ih _).2⟩
      · exact ih e
  have hseq : seiItems o e0 = items (applyFallback o e0) seiTags := by
    simp only [seiItems, hopt, hman, hven, seiTags, (hitems _ _ _).1, items, List.append_nil]
  obtain ⟨hi, ha⟩ := items_sent (applyFallback o e0) e1.signature e1.encodingStatus seiTags
    (by simp only [seiTags, optionalTags, mandatoryTags]; decide)
  rw [← hfall] at hi ha
  have hsig : valSignature (afterWrites (sent o e0 e1) seiTags) = valSignature e1 := by
    have hk : (afterWrites (applyFallback o e0) seiTags).hashType = 1 :=
      afterWrites_hashType _ _ (by unfold applyFallback; split <;> exact ht0)
    have hx : (afterWrites (applyFallback o e0) seiTags).maxSignature = e1.maxSignature := by
      obtain ⟨c, k, hq⟩ := afterWrites_eq (applyFallback o e0) seiTags
      rw [hq, hm]
      show (applyFallback o e0).maxSignature = _
      unfold applyFallback; split <;> rfl
    rw [ha]
    simp only [valSignature, hk, hx, ht1]
  obtain ⟨d', hdec, hcar⟩ := C10_sei_content hfit hcr d hd L2.init [0x80]
  have hlib : ∀ t ∈ [tagSignature], Known t := by simp only [Known]; decide
  refine ⟨r, d', by rw [seiBytes_eq h h1 o hm]; exact hr, ?_, hcar⟩
  rw [hmem, hs]
  have htlv : seiTlv o e0 e1 = (tlvListWrite false (sent o e0 e1) L2.init seiTags).1 ++
      (tlvListWrite false (tlvListWrite false (sent o e0 e1) L2.init seiTags).2.2
        (tlvListWrite false (sent o e0 e1) L2.init seiTags).2.1 [tagSignature]).1 := by
    rw [tlvListWrite_eq hfit seiTags_known]
    simp only
    rw [tlvListWrite_eq (fits_afterWrites hfit seiTags) hlib, items_sig, hsig, hi]
    simp only [writeBytes_false, seiTlv, hseq, sigFrame]
    simp [frames]
  rw [htlv]
  exact hdec

/-- A non-trivial instance: an H.265 SEI with emulation prevention, completed with another signature. -/
example : ∃ r d', parseNalu (seiBytes exampleOpts exampleSession { exampleSession with signature := [0, 0, 1] }) .h265
      true true = .ok r ∧ tlvDecode exampleEnv {} r.tlvMem r.tlvSize = .ok d' ∧ d'.signature = [0, 0, 1] ∧
      d'.linkedHash = List.replicate 32 0 := by
  have hf : Fits { exampleSession with signature := [0, 0, 1] } := by
    have h := exampleSession_fits
    exact ⟨h.1, h.2, h.3, h.4, h.5, h.6, h.7, h.8, h.9, h.10, h.11, h.12, by decide, h.14, h.15, h.16⟩
  obtain ⟨r, d', h1, h2, h3⟩ := C13_content exampleSession_fits hf exampleOpts rfl rfl rfl rfl rfl rfl
    exampleSession_crypto {} (Or.inl rfl)
  exact ⟨r, d', h1, h2, h3.signature.1, h3.linkedHash⟩

/-! ### C12 -/

/-- Number of emulation prevention bytes before the signature. -/
def epbsBefore (o : SeiOpts) (e0 : EncState) : Nat :=
  (seiStart o e0).1.bytes.length - (seiStart { o with epb := false } e0).1.bytes.length

theorem seiItems_no_sig (o : SeiOpts) (e0 : EncState) : ∀ p ∈ seiItems o e0, p.1 ≠ 5 := by
  have hi : ∀ (ts : List UInt8) (e : EncState), (∀ t ∈ ts, t ≠ 5) → ∀ p ∈ items e ts, p.1 ≠ 5 := by
    intro ts
    induction ts with
    | nil => intro e _ p hp; simp [items] at hp
    | cons t ts ih =>
      intro e ht p hp
      unfold items at hp
      split at hp
      · rcases List.mem_cons.1 hp with rfl | hp
        · exact ht t (by simp)
        · exact ih _ (fun x hx => ht x (by simp [hx])) p hp
      · exact ih _ (fun x hx => ht x (by simp [hx])) p hp
  intro p hp
  simp only [seiItems, List.mem_append] at hp
  rcases hp with hp | hp | hp
  · exact hi _ _ (by unfold optTags; split <;> decide) p hp
  · exact hi _ _ (by unfold mandTags; split <;> decide) p hp
  · exact hi _ _ (by unfold vendorTags; split <;> decide) p hp

theorem epbsBefore_eq {e0 : EncState} (h : Fits e0) (o : SeiOpts) :
    (writeBytes o.epb ⟨0x2e, 0x30⟩ (frames (seiItems o e0))).1.length =
      (frames (seiItems o e0)).length + epbsBefore o e0 := by
  have h1 := (seiStart_eq h o).1
  have h2 := (seiStart_eq h { o with epb := false }).1
  have h3 : (seiHead { o with epb := false } (payloadSizeRaw { o with epb := false }
      (applyFallback { o with epb := false } e0))).length =
      (seiHead o (payloadSizeRaw o (applyFallback o e0))).length := by
    rw [seiHead_length, seiHead_length]; rfl
  have h4 : seiItems { o with epb := false } e0 = seiItems o e0 := rfl
  have h5 := writeBytes_length_ge o.epb ⟨0x2e, 0x30⟩ (frames (seiItems o e0))
  simp only [epbsBefore, h1, h2, h4, writeBytes_false, List.length_append, h3]
  omega

/-- The search for the signature in a parsed SEI. -/
theorem updateHashable_eq {e0 e1 : EncState} (h : Fits e0) (h1 : Fits e1) (o : SeiOpts)
    (hm : e1.maxSignature = e0.maxSignature) (r : Nalu) (hg : r.gopSei = true) (hh : r.isHashable = true)
    (he : r.withEpb = o.epb) (hs : r.tlvSize = (seiTlv o e0 e1).length)
    (ho : r.tlvOff = (seiHead o (17 + (seiTlv o e0 e1).length)).length)
    (ht : r.tlvStart = (writeBytes o.epb ⟨0x2e, 0x30⟩ (seiTlv o e0 e1)).1 ++ [0x80])
    (hd : r.hashable = seiHead o (17 + (seiTlv o e0 e1).length) ++ r.tlvStart) :
    ∃ r', updateHashable r = .ok r' ∧
      r'.hashable = if epbsBefore o e0 < 8 + e1.maxSignature then (seiStart o e0).1.bytes else r.hashable := by
  have hst := (seiStart_eq h o).1
  rw [payload_tlv h h1 o hm] at hst
  have hlen := epbsBefore_eq h o
  have hsl := sigFrame_length h1
  have hT : (seiTlv o e0 e1).length = (frames (seiItems o e0)).length + (8 + e1.maxSignature) := by
    rw [seiTlv, List.length_append, hsl]
  have hf := findTagLoop_frames o.epb (s := ⟨0x2e, 0x30⟩) (r := L2.init) ⟨rfl, by decide⟩ 5 (seiItems o e0)
    (fun p hp => ⟨(seiItems_bound h o p hp).1, (seiItems_bound h o p hp).2, seiItems_no_sig o e0 p hp⟩)
    (valSignature e1) [0x80] (seiTlv o e0 e1).length (seiTlv o e0 e1).length 0 (by omega)
  simp only [Nat.zero_add, hlen] at hf
  unfold updateHashable
  simp only [hg, hh, he, hs, ht, findTag, tagSignature]
  rw [if_neg (by decide), if_neg (by omega)]
  have ht' : seiTlv o e0 e1 = frames (seiItems o e0) ++ frame 5 (valSignature e1) := rfl
  conv in (writeBytes o.epb ⟨0x2e, 0x30⟩ (seiTlv o e0 e1)).1 ++ [0x80] => rw [ht']
  rw [hf]
  by_cases hE : epbsBefore o e0 < 8 + e1.maxSignature
  · rw [if_pos (by omega)]
    refine ⟨_, rfl, ?_⟩
    rw [if_pos hE]
    simp only [hd, ht, ho]
    rw [hst, ← hlen]
    generalize seiHead o (17 + (seiTlv o e0 e1).length) = hd
    rw [ht', writeBytes_append, List.append_assoc, ← List.append_assoc hd, ← List.length_append, List.take_left]
  · rw [if_neg (by omega)]
    refine ⟨_, rfl, ?_⟩
    rw [if_neg hE]

/-- The full claim of C12: the validator hashes exactly the bytes the signer hashed. -/
def C12_statement : Prop := ∀ (o : SeiOpts) (e0 e1 : EncState), Fits e0 → Fits e1 →
  e1.maxSignature = e0.maxSignature →
  ∃ r r', parseNalu (seiBytes o e0 e1) o.codec true true = .ok r ∧ updateHashable r = .ok r' ∧
    r'.hashable = (seiStart o e0).1.bytes

/-- What the validator hashes: the bytes before the signature if the number of emulation prevention bytes before the
signature is smaller than the signature TLV, otherwise the whole SEI. -/
theorem C12_validator {e0 e1 : EncState} (h : Fits e0) (h1 : Fits e1) (o : SeiOpts)
    (hm : e1.maxSignature = e0.maxSignature) :
    ∃ r r', parseNalu (seiBytes o e0 e1) o.codec true true = .ok r ∧ updateHashable r = .ok r' ∧
      r'.hashable = if epbsBefore o e0 < 8 + e1.maxSignature then (seiStart o e0).1.bytes
        else (seiBytes o e0 e1).drop 4 := by
  obtain ⟨r, hr, _, _, hg, hh, _, he, _, hs, _, ho, ht, hd⟩ :=
    parse_complete o (seiTlv o e0 e1) o.epb (fun x => x) (seiTlv_bound h h1 o)
  obtain ⟨r', h2, h3⟩ := updateHashable_eq h h1 o hm r hg hh he hs ho ht hd
  have hb := seiBytes_eq h h1 o hm
  refine ⟨r, r', by rw [hb]; exact hr, h2, ?_⟩
  rw [h3, hd, ht, hb]
  rfl

/-- **C12**, the part that holds: when there are fewer emulation prevention bytes before the signature than the size of
the signature TLV (in particular always without emulation prevention), the bytes the signer hashes (`f`, from the
unfinished SEI) and the bytes the validator hashes (`r'`, from the complete SEI) are the same: everything up to the
signature.  Missing: SEIs with more emulation prevention bytes, where it is false (`C12_statement_false`). -/
theorem C12_same_bytes_partial {e0 e1 : EncState} (h : Fits e0) (h1 : Fits e1) (o : SeiOpts)
    (hm : e1.maxSignature = e0.maxSignature) (hE : o.epb = false ∨ epbsBefore o e0 < 8 + e1.maxSignature) :
    ∃ f r r', parseNalu (startCode4 ++ (seiStart o e0).1.bytes) o.codec false true = .ok f ∧
      parseNalu (seiBytes o e0 e1) o.codec true true = .ok r ∧ updateHashable r = .ok r' ∧
      f.hashable = (seiStart o e0).1.bytes ∧ r'.hashable = f.hashable ∧ f.gopSei = true ∧ f.isHashable = true := by
  have hE' : epbsBefore o e0 < 8 + e1.maxSignature := by
    rcases hE with hE | hE
    · have : epbsBefore o e0 = 0 := by
        have : { o with epb := false } = o := by cases o; simp_all
        rw [epbsBefore, this]; omega
      omega
    · exact hE
  obtain ⟨r, r', hr, hu, hh⟩ := C12_validator h h1 o hm
  rw [if_pos hE'] at hh
  have hst := (seiStart_eq h o).1
  have hlen := epbsBefore_eq h o
  have hp := payloadSize_eq h h1 o hm
  have hsl := sigFrame_length h1
  generalize hn : payloadSizeRaw o (applyFallback o e0) = n at *
  have hl := seiHead_length o n
  have hf := parseNalu_sei o n (writeBytes o.epb ⟨0x2e, 0x30⟩ (frames (seiItems o e0))).1 false (by simp)
  rw [← hst] at hf
  generalize hlast : (startCode4 ++ (seiStart o e0).1.bytes).getD
    ((startCode4 ++ (seiStart o e0).1.bytes).length - 1) 0 = last at *
  rw [hst] at hf
  have hdrop : (seiHead o n ++ (writeBytes o.epb ⟨0x2e, 0x30⟩ (frames (seiItems o e0))).1).drop
      (headerLen o.codec + 1 + (n / 255 + 1) + 16) =
      reservedByte o :: (writeBytes o.epb ⟨0x2e, 0x30⟩ (frames (seiItems o e0))).1 := by
    have : headerLen o.codec + 1 + (n / 255 + 1) + 16 = (seiHeader o.codec ++ sizeField n ++ uuid).length := by
      have h2 : (seiHead o n).length = (seiHeader o.codec ++ sizeField n ++ uuid).length + 1 := by
        simp only [seiHead, List.length_append, List.length_singleton]
      omega
    rw [this, seiHead, List.append_assoc (_ ++ uuid), List.drop_left, List.singleton_append]
  unfold removeEpb at hf
  rw [hdrop] at hf
  have hi : (!(seiInfo o n (writeBytes o.epb ⟨0x2e, 0x30⟩ (frames (seiItems o e0))).1 last).isHashable ||
      !(seiInfo o n (writeBytes o.epb ⟨0x2e, 0x30⟩ (frames (seiItems o e0))).1 last).gopSei ||
      decide ((seiInfo o n (writeBytes o.epb ⟨0x2e, 0x30⟩ (frames (seiItems o e0))).1 last).valid ≤ 0)) = false := rfl
  rw [hi, if_neg (by decide)] at hf
  have hepb : (seiInfo o n (writeBytes o.epb ⟨0x2e, 0x30⟩ (frames (seiItems o e0))).1 last).epbs ≤ 0 := by
    simp only [seiInfo, List.length_append, hl, hlen]
    split <;> omega
  simp only [hepb, if_true] at hf
  refine ⟨_, r, r', by rw [hst]; exact hf, hr, hu, ?_, ?_, rfl, rfl⟩
  · rw [hst]; rfl
  · rw [hh, hst]; rfl

/-- **C12** for a SEI generated without emulation prevention that got it on the way: the validator still hashes the
signer's bytes. -/
theorem C12_escaped {e0 e1 : EncState} (h : Fits e0) (h1 : Fits e1) (o : SeiOpts) (ho : o.epb = false)
    (hm : e1.maxSignature = e0.maxSignature) :
    ∃ r r', parseNalu (startCode4 ++ (writeBytes true L2.init (seiComplete o e1 (seiStart o e0).1)).1) o.codec true true
        = .ok r ∧ updateHashable r = .ok r' ∧ r'.hashable = (seiStart o e0).1.bytes := by
  obtain ⟨r, hr, _, _, hg, hh, _, he, _, hs, _, hof, ht, hd⟩ :=
    parse_complete o (seiTlv o e0 e1) true (fun _ => rfl) (seiTlv_bound h h1 o)
  obtain ⟨r', h2, h3⟩ := updateHashable_eq h h1 o hm r hg hh he hs hof ht hd
  have hE : epbsBefore o e0 < 8 + e1.maxSignature := by
    have : { o with epb := false } = o := by cases o; simp_all
    rw [epbsBefore, this]; omega
  rw [if_pos hE] at h3
  refine ⟨r, r', ?_, h2, h3⟩
  rw [seiComplete_eq h h1, ho, writeBytes_false, writeBytes_body, payload_tlv h h1 o hm, List.append_assoc]
  exact hr

/-- A session with 300 zeros of user data, followed by 600 other bytes. -/
def manyZeros : EncState := { exampleSession with arbitrary := List.replicate 300 0 ++ List.replicate 600 9 }

theorem manyZeros_fits : Fits manyZeros where
  hashSize := exampleSession_fits.hashSize
  linked := exampleSession_fits.linked
  gop := exampleSession_fits.gop
  hw := exampleSession_fits.hw
  fw := exampleSession_fits.fw
  sn := exampleSession_fits.sn
  mf := exampleSession_fits.mf
  ad := exampleSession_fits.ad
  arbitrary := by decide +kernel
  key := exampleSession_fits.key
  hashList := exampleSession_fits.hashList
  oid := exampleSession_fits.oid
  sig := exampleSession_fits.sig
  maxSig := exampleSession_fits.maxSig
  hashType := exampleSession_fits.hashType
  axis := exampleSession_fits.axis

/-- **C12** is false: the search for the signature is bounded by the size without emulation prevention.  With 300 zeros
of user data (the SEI fits its allocation) the validator hashes the whole SEI including the signature. -/
theorem C12_statement_false : ¬ C12_statement := by
  intro h
  obtain ⟨r, r', h1, h2, h3⟩ := h exampleOpts manyZeros manyZeros manyZeros_fits manyZeros_fits rfl
  obtain ⟨q, q', g1, g2, g3⟩ := C12_validator manyZeros_fits manyZeros_fits exampleOpts rfl
  rw [h1] at g1; cases g1
  rw [h2] at g2; cases g2
  rw [h3] at g3
  revert g3
  decide +kernel

/-- The witness is not an artefact of an overflow. -/
example : (seiBytes exampleOpts manyZeros manyZeros).length ≤
    allocSize exampleOpts.codec (payloadSizeRaw exampleOpts (applyFallback exampleOpts manyZeros)) := by decide +kernel

/-- A non-trivial instance of `C12_same_bytes_partial`: 48 emulation prevention bytes before the signature. -/
example : epbsBefore exampleOpts exampleSession = 48 ∧ epbsBefore exampleOpts exampleSession < 8 + 72 := by
  decide +kernel

end SV
