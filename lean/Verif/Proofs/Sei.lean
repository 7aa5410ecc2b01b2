import Verif.Model.SeiBytes
import Verif.Proofs.Tlv
/-! Lemmas on the bytes of a SEI and on the search for the signature tag. -/
namespace SV
open Spec

theorem writeByte_sim (e : Bool) {s t : L2} (h : s.Sim t) (b : UInt8) :
    (writeByte e s b).1 = (writeByte e t b).1 ∧ (writeByte e s b).2.Sim (writeByte e t b).2 := by
  unfold writeByte
  rw [h.1]
  split
  · exact ⟨rfl, (h.push _).push _⟩
  · exact ⟨rfl, h.push _⟩

theorem writeBytes_sim (e : Bool) {s t : L2} (h : s.Sim t) (bs : Bytes) :
    (writeBytes e s bs).1 = (writeBytes e t bs).1 ∧ (writeBytes e s bs).2.Sim (writeBytes e t bs).2 := by
  induction bs generalizing s t with
  | nil => exact ⟨rfl, h⟩
  | cons b bs ih =>
    obtain ⟨h1, h2⟩ := writeByte_sim e h b
    obtain ⟨h3, h4⟩ := ih h2
    simp only [writeBytes_cons, h1, h3]
    exact ⟨trivial, h4⟩

/-- No two adjacent zeros (the byte before the string being `p`). -/
def NoZZ : UInt8 → Bytes → Prop
  | _, [] => True
  | p, b :: bs => ¬ (p = 0 ∧ b = 0) ∧ NoZZ b bs

theorem writeBytes_noZZ (e : Bool) (s : L2) (hs : s.isZero = false) (bs : Bytes) (h : NoZZ s.lo bs) :
    (writeBytes e s bs).1 = bs ∧ (writeBytes e s bs).2 = s.pushAll bs := by
  induction bs generalizing s with
  | nil => exact ⟨rfl, rfl⟩
  | cons b bs ih =>
    have hw : writeByte e s b = ([b], s.push b) := by simp [writeByte, hs]
    have hz : (s.push b).isZero = false := by
      have := h.1
      simp only [L2.isZero, L2.push]
      by_cases h1 : s.lo = 0
      · have : b ≠ 0 := fun hb => this ⟨h1, hb⟩
        simp [this]
      · simp [h1]
    obtain ⟨h1, h2⟩ := ih (s.push b) hz h.2
    simp only [writeBytes_cons, hw, h1, h2]
    exact ⟨rfl, rfl⟩

theorem NoZZ_append (p : UInt8) (xs ys : Bytes) :
    NoZZ p (xs ++ ys) ↔ NoZZ p xs ∧ NoZZ (xs.getLastD p) ys := by
  induction xs generalizing p with
  | nil => simp [NoZZ]
  | cons b xs ih =>
    have : (b :: xs).getLastD p = xs.getLastD b := by
      rw [List.getLastD_eq_getLast?, List.getLastD_eq_getLast?, List.getLast?_cons]; rfl
    rw [this, List.cons_append, NoZZ, NoZZ, ih, and_assoc]

theorem NoZZ_replicate (p : UInt8) (n : Nat) : NoZZ p (List.replicate n 0xFF) := by
  induction n generalizing p with
  | zero => trivial
  | succ n ih => exact ⟨by simp, ih _⟩

/-- Everything before the TLVs. -/
def seiHead (o : SeiOpts) (n : Nat) : Bytes :=
  seiHeader o.codec ++ sizeField n ++ uuid ++ [reservedByte o]

theorem NoZZ_of_pos (p : UInt8) (bs : Bytes) (h : ∀ b ∈ bs, b ≠ 0) : NoZZ p bs := by
  induction bs generalizing p with
  | nil => trivial
  | cons b bs ih => exact ⟨fun hc => h b (by simp) hc.2, ih b (fun c hc => h c (by simp [hc]))⟩

theorem getLastD_concat (p a : UInt8) (l : Bytes) : (l ++ [a]).getLastD p = a := by
  rw [List.getLastD_eq_getLast?]; simp

theorem NoZZ_header (c : Codec) (n : Nat) (p : UInt8) : NoZZ p (seiHeader c ++ sizeField n) := by
  rw [NoZZ_append]
  have hh : ∀ b ∈ seiHeader c, b ≠ 0 := by cases c <;> decide
  refine ⟨NoZZ_of_pos _ _ hh, ?_⟩
  unfold sizeField
  rw [NoZZ_append]
  refine ⟨NoZZ_replicate _ _, ?_, trivial⟩
  have hl : (seiHeader c).getLastD p = 5 := by cases c <;> rfl
  rw [hl]
  cases n / 255 with
  | zero => simp
  | succ k =>
    have : (List.replicate (k + 1) (0xFF : UInt8)).getLastD 5 = 0xFF := by
      rw [List.replicate_succ', getLastD_concat]
    rw [this]; simp

theorem header_reg (c : Codec) (n : Nat) : ((L2.init.pushAll (seiHeader c ++ sizeField n)).isZero = false) := by
  unfold sizeField
  rw [← List.append_assoc, L2.pushAll_append]
  generalize UInt8.ofNat (n % 255) = x
  have : (L2.init.pushAll (seiHeader c ++ List.replicate (n / 255) 0xFF)).lo ≠ 0 := by
    cases n / 255 with
    | zero => cases c <;> decide
    | succ k =>
      rw [List.replicate_succ', ← List.append_assoc, L2.pushAll_append]
      simp [L2.pushAll, L2.push]
  generalize hg : L2.init.pushAll (seiHeader c ++ List.replicate (n / 255) 0xFF) = g at this ⊢
  simp [L2.pushAll, L2.push, L2.isZero, this]

theorem reserved_ne (o : SeiOpts) : reservedByte o ≠ 0 := by
  unfold reservedByte
  cases o.epb <;> cases o.golden <;> cases o.gopHashOff <;> decide

/-- Bits of the reserved byte. -/
theorem reserved_bits (o : SeiOpts) : (reservedByte o &&& 0x80 != 0) = o.epb ∧
    (reservedByte o &&& 0x40 != 0) = o.golden := by
  unfold reservedByte
  cases o.epb <;> cases o.golden <;> cases o.gopHashOff <;> decide

theorem pushAll_uuid (s : L2) : s.pushAll uuid = ⟨0x2e, 0x30⟩ := rfl

/-- The TLV part (without signature) of a started SEI. -/
def seiItems (o : SeiOpts) (e0 : EncState) : List (UInt8 × Bytes) :=
  let e := applyFallback o e0
  items e (optTags o) ++ (items (afterWrites e (optTags o)) (mandTags o) ++
    items (afterWrites (afterWrites e (optTags o)) (mandTags o)) (vendorTags o))

/-- The session after `seiStart`. -/
def seiAfter (o : SeiOpts) (e0 : EncState) : EncState :=
  afterWrites (afterWrites (afterWrites (applyFallback o e0) (optTags o)) (mandTags o)) (vendorTags o)

theorem fits_fallback {e : EncState} (h : Fits e) (o : SeiOpts) : Fits (applyFallback o e) := by
  unfold applyFallback
  split
  · exact ⟨h.1, h.2, h.3, h.4, h.5, h.6, h.7, h.8, h.9, h.10, by simp, h.12, h.13, h.14, h.15, h.16⟩
  · exact h

theorem fits_afterWrites' {e : EncState} (h : Fits e) (ts : List UInt8) : Fits (afterWrites e ts) := by
  induction ts generalizing e with
  | nil => exact h
  | cons t ts ih =>
    unfold afterWrites; split
    · exact ih (fits_afterWrite h t)
    · exact ih h

theorem optTags_known (o : SeiOpts) : ∀ t ∈ optTags o, Known t := by
  unfold optTags; split <;> simp only [Known] <;> decide
theorem mandTags_known (o : SeiOpts) : ∀ t ∈ mandTags o, Known t := by
  unfold mandTags; split <;> simp only [Known] <;> decide
theorem vendorTags_known (o : SeiOpts) : ∀ t ∈ vendorTags o, Known t := by
  unfold vendorTags; split <;> simp only [Known] <;> decide

theorem sim_uuid (o : SeiOpts) : (⟨0x2e, 0x30⟩ : L2).Sim ((⟨0x2e, 0x30⟩ : L2).push (reservedByte o)) := by
  have := reserved_ne o
  refine ⟨rfl, ?_⟩
  simp [L2.push, this]

/-- The bytes of a started SEI: head and TLVs, with emulation prevention if it is on. -/
theorem seiStart_eq {e0 : EncState} (h : Fits e0) (o : SeiOpts) :
    (seiStart o e0).1.bytes =
      seiHead o (payloadSizeRaw o (applyFallback o e0)) ++ (writeBytes o.epb ⟨0x2e, 0x30⟩ (frames (seiItems o e0))).1 ∧
    (seiStart o e0).1.reg = (writeBytes o.epb ⟨0x2e, 0x30⟩ (frames (seiItems o e0))).2 ∧
    (seiStart o e0).2 = seiAfter o e0 := by
  have hf := fits_fallback h o
  have hf1 := fits_afterWrites' hf (optTags o)
  have hf2 := fits_afterWrites' hf1 (mandTags o)
  have hz := header_reg o.codec (payloadSizeRaw o (applyFallback o e0))
  have hw : writeBytes false L2.init (seiHeader o.codec ++ sizeField (payloadSizeRaw o (applyFallback o e0))) =
      (seiHeader o.codec ++ sizeField (payloadSizeRaw o (applyFallback o e0)),
       L2.init.pushAll (seiHeader o.codec ++ sizeField (payloadSizeRaw o (applyFallback o e0)))) := by
    obtain ⟨h1, h2⟩ := writeBytes_noZZ false L2.init rfl _ (NoZZ_header o.codec
      (payloadSizeRaw o (applyFallback o e0)) _)
    exact Prod.ext h1 h2
  have hu : ∀ s : L2, s.isZero = false → writeBytes true s uuid = (uuid, ⟨0x2e, 0x30⟩) := by
    intro s hs
    obtain ⟨h1, h2⟩ := writeBytes_noZZ true s hs uuid (NoZZ_of_pos _ _ (by decide))
    exact Prod.ext h1 (h2.trans (pushAll_uuid s))
  simp only [seiStart, hw, hu _ hz, tlvListWrite_eq hf (optTags_known o), tlvListWrite_eq hf1 (mandTags_known o),
    tlvListWrite_eq hf2 (vendorTags_known o), seiItems, seiAfter, seiHead, frames_append, writeBytes_append]
  refine ⟨?_, trivial, trivial⟩
  simp only [List.append_assoc]

theorem tlvListSize_afterWrites (e : EncState) (ts us : List UInt8) :
    tlvListSize (afterWrites e ts) us = tlvListSize e us := by
  induction ts generalizing e with
  | nil => rfl
  | cons t ts ih =>
    unfold afterWrites
    split
    · rw [ih, tlvListSize_afterWrite]
    · exact ih e

theorem items_sig (e : EncState) : items e [tagSignature] = [(5, valSignature e)] := by
  have h1 : tagSelected e 5 = true := rfl
  have h2 : valueBytes e 5 = valSignature e := rfl
  have h3 : valSignature e ≠ [] := by simp [valSignature]
  simp [items, tagSignature, h1, h2, h3]

/-- The signature TLV. -/
def sigFrame (e : EncState) : Bytes := frame 5 (valSignature e)

theorem sigFrame_length {e : EncState} (h : Fits e) : (sigFrame e).length = 8 + e.maxSignature := by
  rw [sigFrame, frame_length (by simp [Known]), ← sizeSignature_eq h]
  simp [sizeSignature, getTuple]; omega

/-- The payload size announced in a SEI is the size of UUID, reserved byte and TLVs before emulation prevention. -/
theorem payloadSize_eq {e0 e1 : EncState} (h : Fits e0) (h1 : Fits e1) (o : SeiOpts)
    (hm : e1.maxSignature = e0.maxSignature) :
    payloadSizeRaw o (applyFallback o e0) = 17 + (frames (seiItems o e0)).length + (sigFrame e1).length := by
  have hf := fits_fallback h o
  have hf1 := fits_afterWrites' hf (optTags o)
  have hf2 := fits_afterWrites' hf1 (mandTags o)
  have hs : tlvListSize (applyFallback o e0) [tagSignature] = (sigFrame e1).length := by
    rw [tlvListSize_eq hf (by simp [Known, tagSignature]), items_sig]
    have hm' : (applyFallback o e0).maxSignature = e0.maxSignature := by
      unfold applyFallback; split <;> rfl
    have := sigFrame_length hf
    rw [sigFrame] at this
    simp only [frames, List.flatMap_cons, List.flatMap_nil, List.append_nil]
    rw [this, sigFrame_length h1, hm, hm']
  have hmand := tlvListSize_eq hf1 (mandTags_known o)
  have hven := tlvListSize_eq hf2 (vendorTags_known o)
  rw [tlvListSize_afterWrites] at hmand
  rw [tlvListSize_afterWrites, tlvListSize_afterWrites] at hven
  simp only [payloadSizeRaw, hs, tlvListSize_eq hf (optTags_known o), hmand, hven, seiItems, frames_append,
    List.length_append]
  omega

/-- The complete SEI (after the start code) before emulation prevention. -/
def seiBody (o : SeiOpts) (e0 e1 : EncState) : Bytes :=
  seiHead o (payloadSizeRaw o (applyFallback o e0)) ++ (frames (seiItems o e0) ++ (sigFrame e1 ++ [0x80]))

theorem NoZZ_head (o : SeiOpts) (n : Nat) (p : UInt8) : NoZZ p (seiHead o n) := by
  unfold seiHead
  rw [List.append_assoc, NoZZ_append]
  refine ⟨NoZZ_header o.codec n p, NoZZ_of_pos _ _ ?_⟩
  intro b hb
  rcases List.mem_append.1 hb with hb | hb
  · exact (by decide : ∀ b ∈ uuid, b ≠ 0) b hb
  · have := List.mem_singleton.1 hb; subst this; exact reserved_ne o

theorem writeByte_stop (e : Bool) (s : L2) : (writeByte e s 0x80).1 = [0x80] := by
  have : ((0x80 : UInt8) &&& 0xFC == 0) = false := by decide
  simp [writeByte, this]

theorem head_reg (o : SeiOpts) (n : Nat) (s : L2) :
    s.pushAll (seiHead o n) = (⟨0x2e, 0x30⟩ : L2).push (reservedByte o) := by
  unfold seiHead
  rw [L2.pushAll_append, L2.pushAll_append, pushAll_uuid]; rfl

theorem writeBytes_body {e0 e1 : EncState} (o : SeiOpts) (e : Bool) :
    (writeBytes e L2.init (seiBody o e0 e1)).1 = seiHead o (payloadSizeRaw o (applyFallback o e0)) ++
      (writeBytes e ⟨0x2e, 0x30⟩ (frames (seiItems o e0) ++ sigFrame e1)).1 ++ [0x80] := by
  obtain ⟨h1, h2⟩ := writeBytes_noZZ e L2.init rfl (seiHead o (payloadSizeRaw o (applyFallback o e0)))
    (NoZZ_head o _ _)
  have hs := writeBytes_sim e (sim_uuid o) (frames (seiItems o e0) ++ sigFrame e1)
  rw [seiBody, writeBytes_append, ← List.append_assoc (frames _)]
  simp only [h1, h2, head_reg, writeBytes_append e _ (frames (seiItems o e0) ++ sigFrame e1) [0x80]]
  rw [hs.1, List.append_assoc]
  have : ∀ s, (writeBytes e s [0x80]).1 = [0x80] := by
    intro s; simp [writeByte_stop, writeBytes]
  rw [this]

/-- The bytes of a complete SEI after the start code: the body, with emulation prevention over everything if it is
on. -/
theorem seiComplete_eq {e0 e1 : EncState} (h : Fits e0) (h1 : Fits e1) (o : SeiOpts) :
    seiComplete o e1 (seiStart o e0).1 = (writeBytes o.epb L2.init (seiBody o e0 e1)).1 := by
  obtain ⟨hb, hr, _⟩ := seiStart_eq h o
  rw [writeBytes_body, writeBytes_append]
  simp only [seiComplete, hr, hb, tlvListWrite_eq h1 (show ∀ t ∈ [tagSignature], Known t by simp [Known, tagSignature]),
    items_sig]
  have : ∀ s, (writeBytes false s [0x80]).1 = [0x80] := fun s => writeBytes_false s _
  rw [this]
  simp [frames, sigFrame]

/-! ### Searching the signature tag -/

theorem readMany_append_one (e : Bool) (t : L2) (n : Nat) (mem : Bytes) :
    readMany e t (n + 1) mem = (match readByte e t mem with
      | none => none
      | some (b, t1, m1) => match readMany e t1 n m1 with
        | none => none
        | some (bs, t2, m2) => some (b :: bs, t2, m2)) := rfl

/-- One round of the search on a frame with another tag. -/
theorem findTag_step (epb : Bool) {s r : L2} (hs : s.Sim r) (tag t : UInt8) (v rest : Bytes) (ht : Known t)
    (hv : v.length ≤ maxLen t) (hne : t ≠ tag) (size fuel off : Nat) (ho : off < size) :
    ∃ r', (writeBytes epb s (frame t v)).2.Sim r' ∧
      findTagLoop epb tag size (fuel + 1) r ((writeBytes epb s (frame t v)).1 ++ rest) off =
        findTagLoop epb tag size fuel r' rest (off + (writeBytes epb s (frame t v)).1.length) := by
  obtain ⟨_, h2⟩ := getTuple_lib ht
  by_cases hc : t = 1 ∨ t = 7
  · have hlen : (UInt8.ofNat v.length).toNat = v.length := by
      unfold maxLen at hv; rw [if_pos hc] at hv
      rw [UInt8.toNat_ofNat']; apply Nat.mod_eq_of_lt; omega
    have hfr : frame t v = t :: UInt8.ofNat v.length :: v := by rw [frame, if_pos hc]
    rw [hfr]
    simp only [writeBytes_cons, List.append_assoc]
    generalize hw1 : writeByte epb s t = p1
    generalize hw2 : writeByte epb p1.2 (UInt8.ofNat v.length) = p2
    generalize hw3 : writeBytes epb p2.2 v = p3
    obtain ⟨r1, e1, s1⟩ := readByte_writeByte epb hs t (p2.1 ++ (p3.1 ++ rest))
    rw [hw1] at e1 s1
    obtain ⟨r2, e2, s2⟩ := readByte_writeByte epb s1 (UInt8.ofNat v.length) (p3.1 ++ rest)
    rw [hw2] at e2 s2
    obtain ⟨r3, e3, s3⟩ := readMany_writeBytes epb s2 v rest
    rw [hw3] at e3 s3
    refine ⟨r3, s3, ?_⟩
    have hl : (getTuple t).lenBytes ≠ 2 := by rw [h2, if_pos hc]; decide
    conv => lhs; unfold findTagLoop
    rw [if_neg (by omega)]
    simp only [e1, hne, if_false, e2, hl, hlen, e3]
    congr 1
    simp only [List.length_append]; omega
  · have hfr : frame t v = t :: UInt8.ofNat (v.length / 256) :: UInt8.ofNat (v.length % 256) :: v := by
      rw [frame, if_neg hc]
    have hlen : (UInt8.ofNat (v.length / 256)).toNat * 256 + (UInt8.ofNat (v.length % 256)).toNat = v.length := by
      unfold maxLen at hv; rw [if_neg hc] at hv
      rw [UInt8.toNat_ofNat', UInt8.toNat_ofNat']; omega
    rw [hfr]
    simp only [writeBytes_cons, List.append_assoc]
    generalize hw1 : writeByte epb s t = p1
    generalize hw2 : writeByte epb p1.2 (UInt8.ofNat (v.length / 256)) = p2
    generalize hw2' : writeByte epb p2.2 (UInt8.ofNat (v.length % 256)) = p2'
    generalize hw3 : writeBytes epb p2'.2 v = p3
    obtain ⟨r1, e1, s1⟩ := readByte_writeByte epb hs t (p2.1 ++ (p2'.1 ++ (p3.1 ++ rest)))
    rw [hw1] at e1 s1
    obtain ⟨r2, e2, s2⟩ := readByte_writeByte epb s1 (UInt8.ofNat (v.length / 256)) (p2'.1 ++ (p3.1 ++ rest))
    rw [hw2] at e2 s2
    obtain ⟨r2', e2', s2'⟩ := readByte_writeByte epb s2 (UInt8.ofNat (v.length % 256)) (p3.1 ++ rest)
    rw [hw2'] at e2' s2'
    obtain ⟨r3, e3, s3⟩ := readMany_writeBytes epb s2' v rest
    rw [hw3] at e3 s3
    refine ⟨r3, s3, ?_⟩
    have hl : (getTuple t).lenBytes = 2 := by rw [h2, if_neg hc]
    conv => lhs; unfold findTagLoop
    rw [if_neg (by omega)]
    simp only [e1, hne, if_false, e2, hl, if_true, e2', hlen, e3]
    congr 1
    simp only [List.length_append]; omega

/-- The search finds the first frame with the tag exactly when that frame begins (in raw bytes) before the bound. -/
theorem findTagLoop_frames (epb : Bool) {s r : L2} (hs : s.Sim r) (tag : UInt8) (l : List (UInt8 × Bytes))
    (hl : ∀ p ∈ l, Known p.1 ∧ p.2.length ≤ maxLen p.1 ∧ p.1 ≠ tag) (v rest : Bytes)
    (size fuel off : Nat) (hf : size ≤ off + fuel) :
    findTagLoop epb tag size fuel r ((writeBytes epb s (frames l ++ frame tag v)).1 ++ rest) off =
      if off + (writeBytes epb s (frames l)).1.length < size then
        .ok (some (off + (writeBytes epb s (frames l)).1.length)) else .ok none := by
  induction l generalizing s r fuel off with
  | nil =>
    simp only [frames, List.flatMap_nil, List.nil_append, writeBytes, List.length_nil, Nat.add_zero]
    cases fuel with
    | zero => rw [if_neg (by omega)]; rfl
    | succ fuel =>
      unfold findTagLoop
      by_cases ho : off < size
      · rw [if_neg (by omega), if_pos ho]
        have hfr : ∃ w, frame tag v = tag :: w := by unfold frame; split <;> exact ⟨_, rfl⟩
        obtain ⟨w, hw⟩ := hfr
        rw [hw]
        simp only [writeBytes_cons, List.append_assoc]
        obtain ⟨r1, e1, _⟩ := readByte_writeByte epb hs tag ((writeBytes epb (writeByte epb s tag).2 w).1 ++ rest)
        simp only [e1, if_true]
      · rw [if_pos (by omega), if_neg (by omega)]
  | cons p l ih =>
    obtain ⟨t, w⟩ := p
    obtain ⟨hk, hw, hne⟩ : Known t ∧ w.length ≤ maxLen t ∧ t ≠ tag := hl (t, w) (by simp)
    have hpos : 2 ≤ (writeBytes epb s (frame t w)).1.length := by
      have := writeBytes_length_ge epb s (frame t w)
      have h3 := frame_length hk w
      have := (getTuple_lib hk).2
      have : 1 ≤ (getTuple t).lenBytes := by rw [this]; split <;> decide
      omega
    rw [frames_cons, List.append_assoc, writeBytes_append epb s (frame t w) (frames l ++ frame tag v),
      writeBytes_append epb s (frame t w) (frames l)]
    simp only [List.append_assoc, List.length_append]
    by_cases ho : off < size
    · obtain ⟨fuel, rfl⟩ : ∃ f, fuel = f + 1 := ⟨fuel - 1, by omega⟩
      obtain ⟨r', hs', he⟩ := findTag_step epb hs tag t w
        ((writeBytes epb (writeBytes epb s (frame t w)).2 (frames l ++ frame tag v)).1 ++ rest) hk hw hne size fuel off ho
      rw [he, ih hs' (fun p hp => hl p (by simp [hp])) fuel _ (by omega), Nat.add_assoc]
    · rw [if_neg (by omega)]
      cases fuel with
      | zero => rfl
      | succ fuel => unfold findTagLoop; rw [if_pos (by omega)]

end SV
