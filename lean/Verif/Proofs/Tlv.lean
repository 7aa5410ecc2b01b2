import Verif.Spec.Tlv
import Verif.Proofs.Bytes
/-! Lemmas on the TLV encoders and decoders. -/
namespace SV
open Spec

theorem strSize_eq (s : Option Bytes) : strSize s = (reported s).length + 1 := by
  cases s with
  | none => rfl
  | some x =>
    simp only [strSize, reported, Option.getD_some, List.length_take]
    split <;> omega

theorem strSize_le (s : Option Bytes) : strSize s ≤ 255 := by
  rw [strSize_eq]; simp only [reported, List.length_take]; omega

theorem valStr_eq (s : Option Bytes) :
    valStr s = UInt8.ofNat (strSize s) :: (reported s ++ [0]) := by
  cases s with
  | none => rfl
  | some x =>
    have h1 : strSize (some x) - 1 = min 254 x.length := by
      rw [strSize_eq]; simp [reported]
    simp only [valStr, h1, reported, Option.getD_some, List.cons.injEq, true_and]
    congr 1
    · by_cases h : x.length ≤ 254
      · rw [Nat.min_eq_right h, List.take_length, List.take_of_length_le h]
      · rw [Nat.min_eq_left (by omega)]
    · by_cases h : x.length ≤ 254
      · rw [if_neg (by omega), Nat.min_eq_right h]; simp [List.getD]
      · rw [if_pos (by omega)]

theorem valStr_length (s : Option Bytes) : (valStr s).length = 1 + strSize s := by
  rw [valStr_eq, strSize_eq]; simp; omega

theorem sizeProduct_eq (p : ProductInfo) : sizeProduct p = (valProduct p).length := by
  simp [sizeProduct, valProduct, valStr_length]; omega

theorem sizeGeneral_eq {e : EncState} (h : Fits e) : sizeGeneral e = (valGeneral e).length := by
  simp only [sizeGeneral, valGeneral, List.length_append, be32_length, be16_length, List.length_cons,
    List.length_nil, List.length_take, h.linked, h.gop]
  cases e.timestamp <;> simp <;> omega

theorem sig_toNat {e : EncState} (h : Fits e) :
    (UInt16.ofNat e.signature.length).toNat = e.signature.length := by
  have := h.sig; have := h.maxSig
  rw [UInt16.toNat_ofNat']; apply Nat.mod_eq_of_lt; omega

theorem valSignature_eq {e : EncState} (h : Fits e) :
    valSignature e = [1, e.encodingStatus, e.hashType] ++ be16 (UInt16.ofNat e.signature.length) ++ e.signature
      ++ List.replicate (e.maxSignature - e.signature.length) 1 := by
  simp only [valSignature, sig_toNat h, List.take_length]

theorem sizeSignature_eq {e : EncState} (h : Fits e) : sizeSignature e = (valSignature e).length := by
  have := h.sig
  rw [valSignature_eq h]; simp [sizeSignature]; omega

/-- The size path and the writing path agree on values. -/
theorem valueSize_eq {e : EncState} (h : Fits e) (t : UInt8) : valueSize e t = (valueBytes e t).length := by
  unfold valueSize valueBytes
  split; · exact sizeGeneral_eq h
  split
  · unfold sizePublicKey valPublicKey; split <;> simp; omega
  split; · exact sizeProduct_eq _
  split
  · unfold sizeHashList valHashList; split
    · split <;> simp; omega
    · simp
  split; · exact sizeSignature_eq h
  split
  · unfold sizeArbitrary valArbitrary; split <;> simp; omega
  split
  · unfold sizeCrypto valCrypto; split <;> simp; omega
  split <;> simp

theorem getTuple_lib {t : UInt8} (h : Known t) :
    (getTuple t).tag = t ∧ (getTuple t).lenBytes = (if t = 1 ∨ t = 7 then 1 else 2) := by
  simp only [Known, List.mem_cons, List.not_mem_nil, or_false] at h
  rcases h with h | h | h | h | h | h | h | h <;> subst h <;> decide

theorem lib_known {t : UInt8} (h : Lib t) : Known t := by
  simp only [Lib, Known, List.mem_cons, List.not_mem_nil, or_false] at *
  rcases h with h | h | h | h | h | h | h <;> simp [h]

/-- `maxLen` and `frame` against the header of the code. -/
theorem tlvHeader_frame {t : UInt8} (h : Known t) (v : Bytes) :
    tlvHeader (getTuple t) v.length ++ v = frame t v := by
  obtain ⟨h1, h2⟩ := getTuple_lib h
  simp only [tlvHeader, frame, h1, h2]
  by_cases h3 : t = 1 ∨ t = 7
  · simp [h3]
  · have : UInt8.ofNat (v.length % 256) = UInt8.ofNat v.length := by
      apply UInt8.toNat_inj.1; simp [UInt8.toNat_ofNat']
    simp [h3, this]

theorem maxLen_ok {e : EncState} (h : Fits e) {t : UInt8} (ht : Known t) :
    (valueBytes e t).length ≤ maxLen t := by
  rw [← valueSize_eq h]
  simp only [Known, List.mem_cons, List.not_mem_nil, or_false] at ht
  rcases ht with ht | ht | ht | ht | ht | ht | ht | ht <;> subst ht
  · have := h.hashSize
    show sizeGeneral e ≤ 255
    unfold sizeGeneral; split <;> omega
  · show sizePublicKey e ≤ 65535
    unfold sizePublicKey; split
    · rename_i k hk _; have := h.key _ hk; omega
    · omega
  · show sizeProduct e.product ≤ 65535
    have := strSize_le e.product.hardwareId
    have := strSize_le e.product.firmwareVersion
    have := strSize_le e.product.serialNumber
    have := strSize_le e.product.manufacturer
    have := strSize_le e.product.address
    unfold sizeProduct; omega
  · show sizeHashList e ≤ 65535
    unfold sizeHashList; split
    · rename_i l hl; have := h.hashList _ hl; split <;> omega
    · omega
  · show sizeSignature e ≤ 65535
    have := h.maxSig; unfold sizeSignature; omega
  · show sizeArbitrary e ≤ 65535
    have := h.arbitrary; unfold sizeArbitrary; split <;> omega
  · show sizeCrypto e ≤ 255
    have := h.oid; unfold sizeCrypto; split <;> omega
  · show e.axis.length ≤ 65535
    exact h.axis

/-! ### Decoding of values -/

theorem decStr_valStr {s : Option Bytes} (h : NoNul s) (m : Bytes) :
    decStr (valStr s ++ m) = .ok (reported s, m, 1 + strSize s) := by
  have hz : ∀ b ∈ reported s, b ≠ 0 := fun b hb => h b (List.mem_of_mem_take hb)
  have hn : (UInt8.ofNat (strSize s)).toNat = strSize s := by
    have := strSize_le s
    rw [UInt8.toNat_ofNat']; apply Nat.mod_eq_of_lt; omega
  have hd : (reported s ++ 0 :: m).drop (strSize s) = m := by
    rw [strSize_eq]; simp
  simp only [valStr_eq, decStr, List.cons_append, rd8_cons, Out.bind_ok, List.append_assoc, hn, List.nil_append,
    rdStr_append _ m hz, skipN, hd]

theorem decProduct_ok {e : EncState} (h : Fits e) (d : DecState) (m : Bytes) :
    decProduct d (valProduct e.product ++ m) (sizeProduct e.product)
      = .ok { d with product := reportedProduct e.product } := by
  simp only [decProduct, valProduct, List.cons_append, List.nil_append, List.append_assoc, rd8_cons,
    Out.bind_ok, decStr_valStr h.hw, decStr_valStr h.fw, decStr_valStr h.sn, decStr_valStr h.mf,
    decStr_valStr h.ad]
  simp only [sizeProduct, if_true, reportedProduct]
  rfl

theorem toInt64_toUInt64 (t : Int64) : t.toUInt64.toInt64 = t := by simp

/-- The session after decoding the general tag. -/
def afterGeneral (e : EncState) (d : DecState) : DecState :=
  { d with
    gopCounter := e.gopCounter + 1, numSent := e.numNalus, codeVersion := e.codeVersion,
    hasTimestamp := e.timestamp.isSome, timestamp := e.timestamp.getD d.timestamp,
    latestHasTimestamp := e.timestamp.isSome, latestTimestamp := e.timestamp.getD d.latestTimestamp,
    linkedHash := e.linkedHash, gopHash := e.gopHash }

theorem decGeneral_ok {e : EncState} (h : Fits e) (d : DecState) (m : Bytes) :
    decGeneral d (valGeneral e ++ m) (sizeGeneral e) = .ok (afterGeneral e d) := by
  have hl : e.linkedHash.take e.hashSize = e.linkedHash := by rw [← h.linked]; simp
  have hg : e.gopHash.take e.hashSize = e.gopHash := by rw [← h.gop]; simp
  have hs := h.hashSize
  cases ht : e.timestamp with
  | none =>
    have hdiv : (1 + 4 + 2 + 3 + 1 + 0 + e.hashSize * 2 - 11) / 2 = e.hashSize := by omega
    have e1 : ((3 : UInt8) < 1) = False := by decide
    have e2 : ((3 : UInt8) > 3) = False := by decide
    have e3 : ((3 : UInt8) ≥ 2) = True := by decide
    have e4 : ((3 : UInt8) ≥ 3) = True := by decide
    have e5 : ((0 : UInt8) &&& 1 == 1) = false := by decide
    simp only [decGeneral, valGeneral, hl, hg, ht, List.cons_append, List.nil_append, List.append_assoc, rd8_cons,
      Out.bind_ok, rd32_be32, rd16_be16, e1, e2, e3, e4, e5, sizeGeneral, Option.isSome_none]
    simp only [decide_false, Bool.or_self, Bool.false_eq_true, if_false, if_true, rd8_cons, Out.bind_ok, e5, hdiv,
      rdN_append' h.linked, rdN_append' h.gop]
    rw [if_neg (by omega), if_neg (by omega), if_pos (by omega)]
    simp [afterGeneral, ht]
  | some t =>
    have hdiv : (1 + 4 + 2 + 3 + 1 + 8 + e.hashSize * 2 - 19) / 2 = e.hashSize := by omega
    have e1 : ((3 : UInt8) < 1) = False := by decide
    have e2 : ((3 : UInt8) > 3) = False := by decide
    have e3 : ((3 : UInt8) ≥ 2) = True := by decide
    have e4 : ((3 : UInt8) ≥ 3) = True := by decide
    have e5 : ((1 : UInt8) &&& 1 == 1) = true := by decide
    simp only [decGeneral, valGeneral, hl, hg, ht, List.cons_append, List.nil_append, List.append_assoc, rd8_cons,
      Out.bind_ok, rd32_be32, rd16_be16, e1, e2, e3, e4, sizeGeneral, Option.isSome_some]
    simp only [decide_false, Bool.or_self, Bool.false_eq_true, if_false, if_true, rd8_cons, Out.bind_ok, e5, hdiv,
      rdN_append' h.linked, rdN_append' h.gop, rd64_be64, toInt64_toUInt64]
    rw [if_neg (by omega), if_neg (by omega), if_pos (by omega)]
    simp [afterGeneral, ht]

theorem decArbitrary_ok {e : EncState} (h : Fits e) (hne : e.arbitrary ≠ []) (d : DecState) (m : Bytes) :
    decArbitrary d (valArbitrary e ++ m) (sizeArbitrary e) = .ok { d with arbitrary := e.arbitrary } := by
  have hp : e.arbitrary.length ≠ 0 := by simpa using hne
  have := h.arbitrary
  have hn : (1 + e.arbitrary.length + 65535) % 65536 = e.arbitrary.length := by omega
  have e1 : ((1 : UInt8) = 0) = False := by decide
  simp only [decArbitrary, valArbitrary, sizeArbitrary, hp, if_false, List.cons_append, rd8_cons, Out.bind_ok, hn,
    rdN_append, e1, if_true]

/-- The session after decoding a public key. -/
def afterKey (k : Bytes) (d : DecState) : DecState :=
  { d with
    keyChanged := d.keyChanged || (d.hasPublicKey &&
      (k != if d.publicKey.length = k.length then d.publicKey else List.replicate k.length 0)),
    publicKey := k, hasPublicKey := true }

theorem decPublicKey_ok {e : EncState} (env : CryptoEnv) (h : Fits e) {k : Bytes} (hk : e.publicKey = some k)
    (ha : e.addPublicKey = true) (hok : env.keyOk k = true) (d : DecState) (m : Bytes) :
    decPublicKey env d (valPublicKey e ++ m) (sizePublicKey e) = .ok (afterKey k d) := by
  obtain ⟨h1, h2⟩ := h.key k hk
  have hn : (1 + k.length + 65535) % 65536 = k.length := by omega
  have e1 : ((2 : UInt8) < 2) = False := by decide
  have e2 : ((2 : UInt8) = 0) = False := by decide
  have e3 : (k.length = 0) = False := by simp; rintro rfl; simp at h1
  simp only [decPublicKey, valPublicKey, sizePublicKey, hk, ha, List.cons_append, rd8_cons, Out.bind_ok, hn,
    e1, e2, e3, if_false, rdN_append, hok, Bool.not_true, Bool.false_eq_true, if_true, afterKey]

theorem decHashList_ok {e : EncState} (h : Fits e) {l : Bytes} (hl : e.hashList = some l) (hne : l ≠ [])
    (hf : e.frameLevel = true) (d : DecState) (m : Bytes) :
    decHashList d (valHashList e ++ m) (sizeHashList e) = .ok { d with hashList := l } := by
  have hp : (l.length = 0) = False := by simpa using hne
  have hc := h.hashList l hl
  have e1 : ((1 : UInt8) = 0) = False := by decide
  have e2 : 1 + l.length - 1 = l.length := by omega
  have e3 : ¬ (l.length > hashListCap) := by unfold hashListCap; omega
  simp [decHashList, valHashList, sizeHashList, hl, hp, hf, rdN_append, e2, e3]

theorem decSignature_ok {e : EncState} (h : Fits e) (d : DecState)
    (hm : d.maxSignature = none ∨ d.maxSignature = some e.maxSignature) (m : Bytes) :
    decSignature d (valSignature e ++ m) (sizeSignature e) =
      .ok { d with maxSignature := some e.maxSignature, signature := e.signature,
                   encodingStatus := e.encodingStatus, hashType := e.hashType } := by
  have hs := h.sig
  have e1 : ((1 : UInt8) = 0) = False := by decide
  have e2 : ¬ e.hashType ≥ 2 := by have := h.hashType; simpa using this
  have e3 : 1 + 1 + 1 + 2 + e.maxSignature - 5 = e.maxSignature := by omega
  have e4 : d.maxSignature.getD e.maxSignature = e.maxSignature := by rcases hm with hm | hm <;> simp [hm]
  have e5 : (e.signature ++ List.replicate (e.maxSignature - e.signature.length) (1 : UInt8)).length =
      e.maxSignature := by simp; omega
  rw [valSignature_eq h]
  simp only [decSignature, List.cons_append, List.nil_append, List.append_assoc, rd8_cons, Out.bind_ok, rd16_be16,
    e1, e2, if_false, sizeSignature, e3, sig_toNat h, e4, ne_eq, not_true_eq_false]
  rw [if_neg (by omega), if_neg (by omega), ← List.append_assoc, rdN_append' e5]
  simp

theorem decCrypto_ok {e : EncState} (env : CryptoEnv) (h : Fits e) (hne : e.oid ≠ []) {hs : Nat}
    (hok : env.oidHashSize e.oid = some hs) (d : DecState) (m : Bytes) :
    decCrypto env d (valCrypto e ++ m) (sizeCrypto e) =
      .ok { d with oid := e.oid, hashAlgoKnown := true, hashSize := hs } := by
  have hp : e.oid.length ≠ 0 := by simpa using hne
  have := h.oid
  have hn : (UInt8.ofNat e.oid.length).toNat = e.oid.length := by
    rw [UInt8.toNat_ofNat']; apply Nat.mod_eq_of_lt; omega
  have h0 : UInt8.ofNat e.oid.length ≠ 0 := by
    intro hc; rw [hc] at hn; exact hp hn.symm
  have e1 : ((1 : UInt8) = 0) = False := by decide
  simp only [decCrypto, valCrypto, sizeCrypto, hp, if_false, List.cons_append, rd8_cons, Out.bind_ok, e1, h0, hn,
    rdN_append, hok, if_true]

/-! ### Framing -/

theorem fits_afterWrite {e : EncState} (h : Fits e) (t : UInt8) : Fits (afterWrite e t) := by
  unfold SV.afterWrite
  split
  · exact ⟨h.1, h.2, h.3, h.4, h.5, h.6, h.7, h.8, h.9, h.10, h.11, h.12, h.13, h.14, h.15, h.16⟩
  · split
    · exact ⟨h.1, h.2, h.3, h.4, h.5, h.6, h.7, h.8, h.9, h.10, h.11, h.12, h.13, h.14, by show (1 : UInt8) < 2; decide, h.16⟩
    · exact h

theorem tlvWrite_eq {e : EncState} (h : Fits e) {t : UInt8} (ht : Known t) (epb : Bool) (s : L2) :
    tlvWrite epb e s (getTuple t) =
      if valueBytes e t = [] then ([], s, e)
      else ((writeBytes epb s (frame t (valueBytes e t))).1, (writeBytes epb s (frame t (valueBytes e t))).2,
        afterWrite e t) := by
  obtain ⟨h1, h2⟩ := getTuple_lib ht
  unfold tlvWrite
  rw [h1, valueSize_eq h]
  by_cases hv : valueBytes e t = []
  · simp [hv]
  · have hl : (valueBytes e t).length ≠ 0 := by simpa using hv
    simp only [hl, hv, if_false]
    rw [← tlvHeader_frame ht, writeBytes_append]
    generalize writeBytes epb s (tlvHeader (getTuple t) (valueBytes e t).length) = p
    obtain ⟨o, s1⟩ := p
    have := writeBytes_length_ge epb s1 (valueBytes e t)
    simp only
    rw [if_neg (by omega)]

/-- The tags and values that a list of tags contributes; the session changes while encoding. -/
def items (e : EncState) : List UInt8 → List (UInt8 × Bytes)
  | [] => []
  | t :: ts =>
    if tagSelected e t = true ∧ valueBytes e t ≠ [] then (t, valueBytes e t) :: items (afterWrite e t) ts
    else items e ts

/-- The session after encoding a list of tags. -/
def afterWrites (e : EncState) : List UInt8 → EncState
  | [] => e
  | t :: ts =>
    if tagSelected e t = true ∧ valueBytes e t ≠ [] then afterWrites (afterWrite e t) ts
    else afterWrites e ts

/-- Tags and values back to back. -/
def frames (l : List (UInt8 × Bytes)) : Bytes := l.flatMap fun p => frame p.1 p.2

theorem frames_cons (p : UInt8 × Bytes) (l) : frames (p :: l) = frame p.1 p.2 ++ frames l := rfl
theorem frames_append (l k) : frames (l ++ k) = frames l ++ frames k := by simp [frames]

theorem tlvListWrite_eq {e : EncState} (h : Fits e) {ts : List UInt8} (ht : ∀ t ∈ ts, Known t) (epb : Bool)
    (s : L2) :
    tlvListWrite epb e s ts = ((writeBytes epb s (frames (items e ts))).1,
      (writeBytes epb s (frames (items e ts))).2, afterWrites e ts) := by
  induction ts generalizing e s with
  | nil => rfl
  | cons t ts ih =>
    have hk := ht t (by simp)
    have ht' : ∀ t ∈ ts, Known t := fun x hx => ht x (by simp [hx])
    unfold tlvListWrite items afterWrites
    by_cases hsel : tagSelected e t = true
    · simp only [hsel, if_true, true_and, tlvWrite_eq h hk]
      by_cases hv : valueBytes e t = []
      · simp only [hv, if_true, ne_eq, not_true_eq_false, if_false, ih h ht', List.nil_append]
      · simp only [hv, if_false, ne_eq, not_false_eq_true, if_true, ih (fits_afterWrite h t) ht', frames_cons,
          writeBytes_append]
    · simp only [hsel, if_false, false_and, ih h ht', Bool.false_eq_true]

theorem frame_length {t : UInt8} (h : Known t) (v : Bytes) :
    (frame t v).length = 1 + (getTuple t).lenBytes + v.length := by
  rw [(getTuple_lib h).2]; unfold frame
  split <;> simp_all <;> omega

theorem valueSize_afterWrite (e : EncState) (t u : UInt8) : valueSize (afterWrite e t) u = valueSize e u := by
  unfold afterWrite
  split
  · rfl
  · split <;> rfl

theorem tagSelected_afterWrite (e : EncState) (t u : UInt8) :
    tagSelected (afterWrite e t) u = tagSelected e u := by
  unfold afterWrite
  split
  · rfl
  · split <;> rfl

theorem tlvListSize_afterWrite (e : EncState) (t : UInt8) (us : List UInt8) :
    tlvListSize (afterWrite e t) us = tlvListSize e us := by
  induction us with
  | nil => rfl
  | cons u us ih => simp only [tlvListSize, tagSelected_afterWrite, tlvSize, valueSize_afterWrite, ih]

theorem tlvListSize_eq {e : EncState} (h : Fits e) {ts : List UInt8} (ht : ∀ t ∈ ts, Known t) :
    tlvListSize e ts = (frames (items e ts)).length := by
  induction ts generalizing e with
  | nil => rfl
  | cons t ts ih =>
    have hk := ht t (by simp)
    have ht' : ∀ t ∈ ts, Known t := fun x hx => ht x (by simp [hx])
    unfold tlvListSize items
    by_cases hsel : tagSelected e t = true
    · simp only [hsel, if_true, true_and, tlvSize, (getTuple_lib hk).1, valueSize_eq h]
      by_cases hv : valueBytes e t = []
      · simp only [hv, List.length_nil, if_true, ne_eq, not_true_eq_false, if_false, ih h ht', Nat.zero_add]
      · have hl : (valueBytes e t).length ≠ 0 := by simpa using hv
        simp only [hl, hv, if_false, ne_eq, not_false_eq_true, if_true, frames_cons, List.length_append,
          frame_length hk, ← ih (fits_afterWrite h t) ht', tlvListSize_afterWrite]
    · simp only [hsel, if_false, false_and, ih h ht', Bool.false_eq_true, Nat.zero_add]

/-- Header of a frame. -/
theorem decHeader_frame {t : UInt8} (h : Known t) {v : Bytes} (hv : v.length ≤ maxLen t) (m : Bytes) :
    decHeader (frame t v ++ m) = .ok (t, v.length, 1 + (getTuple t).lenBytes) ∧
    (frame t v ++ m).drop (1 + (getTuple t).lenBytes) = v ++ m := by
  obtain ⟨h1, h2⟩ := getTuple_lib h
  rw [h2]
  by_cases hc : t = 1 ∨ t = 7
  · have hl : (UInt8.ofNat v.length).toNat = v.length := by
      unfold maxLen at hv; rw [if_pos hc] at hv
      rw [UInt8.toNat_ofNat']; apply Nat.mod_eq_of_lt; omega
    simp [decHeader, frame, hc, h1, h2, hl]
  · unfold maxLen at hv; rw [if_neg hc] at hv
    have hl : ((UInt8.ofNat (v.length / 256)).toUInt16 <<< 8 + (UInt8.ofNat (v.length % 256)).toUInt16).toNat =
        v.length := by
      simp [UInt16.toNat_add, UInt16.toNat_shiftLeft, Nat.shiftLeft_eq]; omega
    simp only [decHeader, frame, hc, h1, h2, if_false, List.cons_append, rd8_cons, Out.bind_ok, ne_eq,
      not_true_eq_false, if_true, rd16, hl]
    exact ⟨trivial, rfl⟩

/-- Decoders applied one after the other to exactly the given values. -/
def applyAll (env : CryptoEnv) (d : DecState) (rest : Bytes) : List (UInt8 × Bytes) → Out DecState
  | [] => .ok d
  | (t, v) :: l => do
    let d' ← decValue env t d (v ++ (frames l ++ rest)) v.length
    applyAll env d' rest l

theorem tlvLoop_frames (env : CryptoEnv) (d : DecState) (rest : Bytes) (l : List (UInt8 × Bytes))
    (hl : ∀ p ∈ l, Known p.1 ∧ p.2.length ≤ maxLen p.1) (fuel : Nat) (hf : (frames l).length ≤ fuel) :
    tlvLoop env fuel d (frames l ++ rest) (frames l).length = applyAll env d rest l := by
  induction l generalizing d fuel with
  | nil => cases fuel <;> simp [tlvLoop, applyAll, frames]
  | cons p l ih =>
    obtain ⟨t, v⟩ := p
    obtain ⟨hk, hv⟩ : Known t ∧ v.length ≤ maxLen t := hl (t, v) (by simp)
    have hlen := frame_length hk v
    simp only [frames_cons, List.length_append] at hf ⊢
    obtain ⟨fuel, rfl⟩ : ∃ f, fuel = f + 1 := ⟨fuel - 1, by omega⟩
    obtain ⟨e1, e2⟩ := decHeader_frame hk hv (frames l ++ rest)
    rw [List.append_assoc]
    simp only [tlvLoop, applyAll]
    rw [if_neg (by omega), e1]
    simp only [Out.bind_ok, e2]
    congr 1
    funext d'
    rw [List.drop_left]
    have hsz : (frame t v).length + (frames l).length - (1 + (getTuple t).lenBytes) - v.length =
        (frames l).length := by omega
    rw [hsz]
    exact ih d' (fun p hp => hl p (by simp [hp])) fuel (by omega)

/-- More rounds than bytes change nothing: the fuel of `tlvDecode` is enough. -/
theorem tlvLoop_fuel (env : CryptoEnv) (fuel fuel' : Nat) (d : DecState) (mem : Bytes) (size : Nat)
    (h : size ≤ fuel) (h' : fuel ≤ fuel') : tlvLoop env fuel' d mem size = tlvLoop env fuel d mem size := by
  induction fuel generalizing fuel' d mem size with
  | zero =>
    have : size = 0 := by omega
    subst this
    cases fuel' <;> simp [tlvLoop]
  | succ n ih =>
    obtain ⟨k, rfl⟩ : ∃ k, fuel' = k + 1 := ⟨fuel' - 1, by omega⟩
    simp only [tlvLoop]
    split
    · rfl
    · have hh : ∀ t n h, decHeader mem = .ok (t, n, h) → 1 ≤ h := by
        intro t n h hd
        unfold decHeader at hd
        cases mem with
        | nil => simp [rd8] at hd
        | cons b m =>
          simp only [rd8_cons, Out.bind_ok] at hd
          split at hd
          · simp at hd
          · split at hd
            · cases hm : rd16 m with
              | ok a => rw [hm] at hd; simp at hd; omega
              | err e => rw [hm] at hd; simp at hd
              | ub u => rw [hm] at hd; simp at hd
            · cases hm : rd8 m with
              | ok a => rw [hm] at hd; simp at hd; omega
              | err e => rw [hm] at hd; simp at hd
              | ub u => rw [hm] at hd; simp at hd
      cases hd : decHeader mem with
      | err e => simp
      | ub u => simp
      | ok p =>
        obtain ⟨t, n', hb⟩ := p
        have := hh t n' hb hd
        simp only [Out.bind_ok]
        cases decValue env t d (mem.drop hb) n' with
        | err e => simp
        | ub u => simp
        | ok d' => simp only [Out.bind_ok]; exact ih _ _ _ _ (by omega) (by omega)

end SV
