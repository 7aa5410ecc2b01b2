import Verif.Proofs.Tlv
import Verif.Spec.Epb
import Verif.Props.Epb
/-! Properties of the TLV coding: C05 to C10. -/
namespace SV
open Spec

/-- A signing session with non-trivial content; used to show that hypotheses can be met. -/
def exampleSession : EncState where
  gopCounter := 41
  numNalus := 7
  codeVersion := (2, 0, 1)
  timestamp := some (-5)
  hashSize := 32
  linkedHash := List.replicate 32 0
  gopHash := List.replicate 32 9
  product := { hardwareId := some [72, 87], manufacturer := some (List.replicate 300 65) }
  arbitrary := [0, 0, 0, 1, 5]
  publicKey := some (List.replicate 178 45)
  addPublicKey := true
  hashList := some (List.replicate 64 0)
  frameLevel := true
  encodingStatus := 0
  hashType := 1
  signature := List.replicate 71 3
  maxSignature := 72
  oid := [6, 9, 96]
  recurrent := true
  axis := []

def exampleEnv : CryptoEnv := ⟨fun _ => some 32, fun _ => true⟩

theorem exampleSession_fits : Fits exampleSession where
  hashSize := by decide
  linked := by decide
  gop := by decide
  hw := by unfold NoNul; decide
  fw := by unfold NoNul; decide
  sn := by unfold NoNul; decide
  mf := by
    intro b hb
    have : b = 65 := List.eq_of_mem_replicate (n := 300) hb
    subst this; decide
  ad := by unfold NoNul; decide
  arbitrary := by decide
  key := by intro k hk; cases hk; decide +kernel
  hashList := by intro l hl; cases hl; decide +kernel
  oid := by decide
  sig := by decide
  maxSig := by decide
  hashType := by decide
  axis := by decide

theorem exampleSession_crypto : CryptoOk exampleEnv exampleSession := ⟨fun _ _ => rfl, rfl⟩

/-! ### C05 -/

/-- **C05**: the size computed for a list of tags is the number of bytes written when emulation prevention is off. -/
theorem C05_size_exact {e : EncState} (h : Fits e) {ts : List UInt8} (ht : ∀ t ∈ ts, Known t) (s : L2) :
    (tlvListWrite false e s ts).1.length = tlvListSize e ts := by
  rw [tlvListWrite_eq h ht, tlvListSize_eq h ht, writeBytes_false]

/-- **C05**: with emulation prevention on, at least the computed size and at most half as much again (plus one) is
written, and removing the emulation prevention bytes leaves exactly the computed size. -/
theorem C05_size_epb {e : EncState} (h : Fits e) {ts : List UInt8} (ht : ∀ t ∈ ts, Known t) (s : L2) :
    tlvListSize e ts ≤ (tlvListWrite true e s ts).1.length ∧
    2 * (tlvListWrite true e s ts).1.length ≤ 3 * tlvListSize e ts + 2 ∧
    (strip (trailingZeros [s.hi, s.lo]) (tlvListWrite true e s ts).1).length = tlvListSize e ts := by
  rw [tlvListWrite_eq h ht, tlvListSize_eq h ht, C01_standard_decoder]
  have h1 := C05_expansion true s (frames (items e ts))
  have h2 : s.pot ≤ 2 := by unfold L2.pot; repeat' split
                            all_goals omega
  exact ⟨h1.1, by dsimp only; omega, rfl⟩

/-- **C05**: both size paths of the session are insensitive to what the encoders change while writing, so the size
computed before a list is written is also right for the part of the list that is still to be written. -/
theorem C05_size_stable (e : EncState) (t : UInt8) (ts : List UInt8) :
    tlvListSize (afterWrite e t) ts = tlvListSize e ts := tlvListSize_afterWrite e t ts

example : tlvListSize exampleSession (optionalTags ++ mandatoryTags) = 621 ∧
    (tlvListWrite true exampleSession L2.init (optionalTags ++ mandatoryTags)).1.length = 669 := by
  decide +kernel

/-! ### C06 to C09 -/

/-- **C06**: the general tag. -/
theorem C06_general {e : EncState} (h : Fits e) (env : CryptoEnv) (d : DecState) (m : Bytes) :
    ∃ d', decValue env 1 d (valueBytes e 1 ++ m) (valueSize e 1) = .ok d' ∧
      d'.gopCounter = e.gopCounter + 1 ∧ d'.numSent = e.numNalus ∧ d'.codeVersion = e.codeVersion ∧
      d'.hasTimestamp = e.timestamp.isSome ∧ (∀ t, e.timestamp = some t → d'.timestamp = t) ∧
      d'.latestHasTimestamp = e.timestamp.isSome ∧ (∀ t, e.timestamp = some t → d'.latestTimestamp = t) ∧
      d'.linkedHash = e.linkedHash ∧ d'.gopHash = e.gopHash ∧
      d'.publicKey = d.publicKey ∧ d'.hashList = d.hashList ∧ d'.signature = d.signature := by
  refine ⟨_, decGeneral_ok h d m, rfl, rfl, rfl, rfl, ?_, rfl, ?_, rfl, rfl, rfl, rfl, rfl⟩ <;>
  · intro t ht; simp [afterGeneral, ht]

/-- **C07**: the product info. -/
theorem C07_product {e : EncState} (h : Fits e) (env : CryptoEnv) (d : DecState) (m : Bytes) :
    decValue env 3 d (valueBytes e 3 ++ m) (valueSize e 3) = .ok { d with product := reportedProduct e.product } :=
  decProduct_ok h d m

/-- **C07**: strings of up to 254 characters are reported unchanged, longer ones are cut to 254 characters. -/
theorem C07_reported (x : Bytes) :
    (x.length ≤ 254 → reported (some x) = x) ∧ (254 ≤ x.length → (reported (some x)).length = 254) ∧
    reported (some x) <+: x ∧ reported none = [] := by
  refine ⟨fun h => ?_, fun h => ?_, List.take_prefix _ _, rfl⟩
  · simpa [reported] using List.take_of_length_le h
  · simp [reported]; omega

/-- **C08**: arbitrary data that is not empty and at most 65534 bytes long. -/
theorem C08_arbitrary_partial {e : EncState} (h : Fits e) (hne : e.arbitrary ≠ []) (env : CryptoEnv)
    (d : DecState) (m : Bytes) :
    decValue env 6 d (valueBytes e 6 ++ m) (valueSize e 6) = .ok { d with arbitrary := e.arbitrary } :=
  decArbitrary_ok h hne d m

/-- **C09**: public key. -/
theorem C09_public_key {e : EncState} (h : Fits e) {env : CryptoEnv} (hc : CryptoOk env e) {k : Bytes}
    (hk : e.publicKey = some k) (ha : e.addPublicKey = true) (d : DecState) (m : Bytes) :
    ∃ d', decValue env 2 d (valueBytes e 2 ++ m) (valueSize e 2) = .ok d' ∧
      d'.publicKey = k ∧ d'.hasPublicKey = true := by
  refine ⟨_, decPublicKey_ok env h hk ha (hc.key k hk) d m, rfl, rfl⟩

/-- **C09**: hash list. -/
theorem C09_hash_list {e : EncState} (h : Fits e) {l : Bytes} (hl : e.hashList = some l) (hne : l ≠ [])
    (hf : e.frameLevel = true) (env : CryptoEnv) (d : DecState) (m : Bytes) :
    decValue env 4 d (valueBytes e 4 ++ m) (valueSize e 4) = .ok { d with hashList := l } :=
  decHashList_ok h hl hne hf d m

/-- **C09**: signature, for the first signature of a session and for later ones with the same maximal size. -/
theorem C09_signature {e : EncState} (h : Fits e) (env : CryptoEnv) (d : DecState)
    (hm : d.maxSignature = none ∨ d.maxSignature = some e.maxSignature) (m : Bytes) :
    decValue env 5 d (valueBytes e 5 ++ m) (valueSize e 5) =
      .ok { d with maxSignature := some e.maxSignature, signature := e.signature,
                   encodingStatus := e.encodingStatus, hashType := e.hashType } :=
  decSignature_ok h d hm m

/-- **C09**: hash algorithm. -/
theorem C09_crypto_info {e : EncState} (h : Fits e) {env : CryptoEnv} (hc : CryptoOk env e) (hne : e.oid ≠ [])
    (d : DecState) (m : Bytes) :
    decValue env 7 d (valueBytes e 7 ++ m) (valueSize e 7) =
      .ok { d with oid := e.oid, hashAlgoKnown := true, hashSize := e.hashSize } :=
  decCrypto_ok env h hne hc.oid d m

example : ∃ d', decValue exampleEnv 1 {} (valueBytes exampleSession 1) (valueSize exampleSession 1) = .ok d' ∧
    d'.gopCounter = 42 ∧ d'.timestamp = -5 := by
  obtain ⟨d', h, h1, _, _, _, h2, _⟩ := C06_general exampleSession_fits exampleEnv {} []
  exact ⟨d', by simpa using h, by rw [h1]; rfl, h2 _ rfl⟩

/-- The general case of **C08** is false: arbitrary data of 65535 bytes has a value of 65536 bytes, so the two length
bytes are zero, and the validating side rejects the SEI. -/
theorem C08_too_long_fails (e : EncState) (ha : e.arbitrary.length = 65535) (s : L2) (env : CryptoEnv) (d : DecState)
    (rest : Bytes) (n : Nat) (hn : n ≠ 0) :
    (tlvWrite false e s (getTuple tagArbitrary)).1 = [6, 0, 0, 1] ++ e.arbitrary ∧
    tlvDecode env d ((tlvWrite false e s (getTuple tagArbitrary)).1 ++ rest) n = .err .authenticationError := by
  have hsz : valueSize e 6 = 65536 := by
    show sizeArbitrary e = 65536
    simp [sizeArbitrary, ha]
  have hvb : valueBytes e 6 = 1 :: e.arbitrary := by
    show valArbitrary e = _
    simp [valArbitrary, ha]
  have ht : (getTuple tagArbitrary).tag = 6 := rfl
  have hw : (tlvWrite false e s (getTuple tagArbitrary)).1 = [6, 0, 0, 1] ++ e.arbitrary := by
    have hh : tlvHeader (getTuple tagArbitrary) 65536 = [6, 0, 0] := by decide
    simp only [tlvWrite, ht, hsz, hvb, hh]
    have hl : ¬ (writeBytes false (writeBytes false s [6, 0, 0]).2 (1 :: e.arbitrary)).1.length < 65536 := by
      rw [writeBytes_false, List.length_cons, ha]; decide
    rw [if_neg (by decide), if_neg hl, writeBytes_false, writeBytes_false]; rfl
  refine ⟨hw, ?_⟩
  rw [hw, tlvDecode, if_neg hn]
  obtain ⟨k, rfl⟩ := Nat.exists_eq_succ_of_ne_zero hn
  have hd : decArbitrary d (1 :: (e.arbitrary ++ rest)) 0 = .err .authenticationError := by
    simp only [decArbitrary, rd8_cons, Out.bind_ok, Nat.zero_add]
    rw [if_neg (by decide), if_neg (by decide), rdN_append' (by rw [ha])]
    simp
  have hh : decHeader ([6, 0, 0, 1] ++ e.arbitrary ++ rest) = .ok (6, 0, 3) := rfl
  simp only [tlvLoop, hh, Out.bind_ok, if_neg (Nat.succ_ne_zero k)]
  have : decValue env 6 d (List.drop 3 ([6, 0, 0, 1] ++ e.arbitrary ++ rest)) 0 = .err .authenticationError := hd
  rw [this]; rfl

/-! ### C10 -/

theorem frames_encodeAll (l : List (UInt8 × Bytes)) : frames l = encodeAll l := by
  simp [frames, encodeAll, List.flatMap]

/-- **C10**: a sequence of tags and values, encoded back to back, is given to the decoders value by value in the same
order, each with its exact length and its own bytes.  `applyAll` runs the decoder of each tag on its value. -/
theorem C10_sequence (env : CryptoEnv) (d : DecState) (l : List (UInt8 × Bytes)) (hne : l ≠ [])
    (hl : ∀ p ∈ l, Known p.1 ∧ p.2.length ≤ maxLen p.1) (rest : Bytes) :
    tlvDecode env d (encodeAll l ++ rest) (encodeAll l).length = applyAll env d rest l := by
  rw [← frames_encodeAll]
  have hpos : (frames l).length ≠ 0 := by
    cases l with
    | nil => exact absurd rfl hne
    | cons p l =>
      have := frame_length (hl p (by simp)).1 p.2
      rw [frames_cons, List.length_append]; omega
  rw [tlvDecode, if_neg hpos]
  exact tlvLoop_frames env d rest l hl _ (Nat.le_refl _)

/-- **C10**: the encoder writes, for each selected tag that has content, its frame, in order. -/
theorem C10_encoder {e : EncState} (h : Fits e) {ts : List UInt8} (ht : ∀ t ∈ ts, Known t) (epb : Bool) (s : L2) :
    (tlvListWrite epb e s ts).1 = (writeBytes epb s (encodeAll (items e ts))).1 := by
  rw [tlvListWrite_eq h ht, frames_encodeAll]

/-! The content of a whole SEI. -/

/-- Effect of one tag of the session `e` on a validating session. -/
def learn (e : EncState) (t : UInt8) (d : DecState) : DecState :=
  if t = 1 then afterGeneral e d
  else if t = 2 then (match e.publicKey, e.addPublicKey with | some k, true => afterKey k d | _, _ => d)
  else if t = 3 then { d with product := reportedProduct e.product }
  else if t = 4 then
    (match e.hashList with
     | some l => if l ≠ [] ∧ e.frameLevel = true then { d with hashList := l } else d
     | none => d)
  else if t = 5 then
    { d with maxSignature := some e.maxSignature, signature := e.signature,
             encodingStatus := e.encodingStatus, hashType := e.hashType }
  else if t = 6 then (if e.arbitrary = [] then d else { d with arbitrary := e.arbitrary })
  else (if e.oid = [] then d else { d with oid := e.oid, hashAlgoKnown := true, hashSize := e.hashSize })

theorem decValue_learn {e : EncState} (h : Fits e) {env : CryptoEnv} (hc : CryptoOk env e) {t : UInt8}
    (ht : Lib t) (hv : valueBytes e t ≠ []) (d : DecState)
    (hm : d.maxSignature = none ∨ d.maxSignature = some e.maxSignature) (m : Bytes) :
    decValue env t d (valueBytes e t ++ m) (valueBytes e t).length = .ok (learn e t d) := by
  rw [← valueSize_eq h]
  simp only [Lib, List.mem_cons, List.not_mem_nil, or_false] at ht
  rcases ht with ht | ht | ht | ht | ht | ht | ht <;> subst ht
  · exact decGeneral_ok h d m
  · change valPublicKey e ≠ [] at hv
    cases hk : e.publicKey with
    | none => simp [valPublicKey, hk] at hv
    | some k =>
      cases ha : e.addPublicKey with
      | false => simp [valPublicKey, hk, ha] at hv
      | true =>
        have := decPublicKey_ok env h hk ha (hc.key k hk) d m
        refine Eq.trans this ?_; simp [learn, hk, ha]
  · exact decProduct_ok h d m
  · change valHashList e ≠ [] at hv
    cases hl : e.hashList with
    | none => simp [valHashList, hl] at hv
    | some l =>
      by_cases hne : l = []
      · simp [valHashList, hl, hne] at hv
      · cases hf : e.frameLevel with
        | false => simp [valHashList, hl, hf] at hv
        | true =>
          have := decHashList_ok h hl hne hf d m
          refine Eq.trans this ?_; simp [learn, hl, hne, hf]
  · exact decSignature_ok h d hm m
  · change valArbitrary e ≠ [] at hv
    by_cases ha : e.arbitrary = []
    · simp [valArbitrary, ha] at hv
    · have := decArbitrary_ok h ha d m
      refine Eq.trans this ?_; simp [learn, ha]
  · change valCrypto e ≠ [] at hv
    by_cases ha : e.oid = []
    · simp [valCrypto, ha] at hv
    · have := decCrypto_ok env h ha hc.oid d m
      refine Eq.trans this ?_; simp [learn, ha]

theorem learn_of_empty {e : EncState} {t : UInt8} (ht : Lib t) (hv : valueBytes e t = []) (d : DecState) :
    learn e t d = d := by
  simp only [Lib, List.mem_cons, List.not_mem_nil, or_false] at ht
  rcases ht with ht | ht | ht | ht | ht | ht | ht <;> subst ht
  · simp [valueBytes, tagGeneral, valGeneral] at hv
  · change valPublicKey e = [] at hv
    simp only [learn]; simp only [valPublicKey] at hv
    split at hv
    · simp at hv
    · rename_i hh
      simp only [show ((2 : UInt8) = 1) = False by decide, if_false, if_true]
  · simp [valueBytes, tagGeneral, tagPublicKey, tagProductInfo, valProduct] at hv
  · change valHashList e = [] at hv
    simp only [valHashList] at hv
    cases hl : e.hashList with
    | none => simp [learn, hl]
    | some l =>
      rw [hl] at hv
      by_cases hne : l = []
      · simp [learn, hl, hne]
      · cases hf : e.frameLevel with
        | false => simp [learn, hl, hf]
        | true => simp [hne, hf] at hv
  · change valSignature e = [] at hv
    simp [valSignature] at hv
  · change valArbitrary e = [] at hv
    by_cases ha : e.arbitrary = []
    · simp [learn, ha]
    · simp [valArbitrary, ha] at hv
  · change valCrypto e = [] at hv
    by_cases ha : e.oid = []
    · simp [learn, ha]
    · simp [valCrypto, ha] at hv

/-- Effect of a list of tags. -/
def learnAll (e : EncState) : List UInt8 → DecState → DecState
  | [], d => d
  | t :: ts, d =>
    if tagSelected e t = true then learnAll (afterWrites e [t]) ts (learn e t d) else learnAll e ts d

theorem learn_maxSig {e : EncState} {t : UInt8} {d : DecState}
    (hm : d.maxSignature = none ∨ d.maxSignature = some e.maxSignature) :
    (learn e t d).maxSignature = none ∨ (learn e t d).maxSignature = some e.maxSignature := by
  unfold learn afterGeneral afterKey
  repeat' split
  all_goals first | exact hm | exact Or.inr rfl

theorem afterWrite_max (e : EncState) (t : UInt8) : (afterWrite e t).maxSignature = e.maxSignature := by
  unfold afterWrite; repeat' split
  all_goals rfl

theorem crypto_afterWrite {e : EncState} {env : CryptoEnv} (hc : CryptoOk env e) (t : UInt8) :
    CryptoOk env (afterWrite e t) := by
  unfold afterWrite; repeat' split
  · exact ⟨hc.1, hc.2⟩
  · exact ⟨hc.1, hc.2⟩
  · exact hc

theorem applyAll_items {e : EncState} (h : Fits e) {env : CryptoEnv} (hc : CryptoOk env e) {ts : List UInt8}
    (ht : ∀ t ∈ ts, Lib t) (d : DecState)
    (hm : d.maxSignature = none ∨ d.maxSignature = some e.maxSignature) (l : List (UInt8 × Bytes)) (rest : Bytes) :
    applyAll env d rest (items e ts ++ l) = applyAll env (learnAll e ts d) rest l := by
  induction ts generalizing e d with
  | nil => rfl
  | cons t ts ih =>
    have hk := ht t (by simp)
    have ht' : ∀ t ∈ ts, Lib t := fun x hx => ht x (by simp [hx])
    unfold items learnAll
    by_cases hsel : tagSelected e t = true
    · by_cases hv : valueBytes e t = []
      · simp only [hsel, hv, ne_eq, not_true_eq_false, and_false, if_false, if_true, learn_of_empty hk hv]
        have : afterWrites e [t] = e := by simp [afterWrites, hv]
        rw [this]
        exact ih h hc ht' d hm
      · have : afterWrites e [t] = afterWrite e t := by simp [afterWrites, hv, hsel]
        simp only [hsel, hv, ne_eq, not_false_eq_true, and_self, if_true, List.cons_append, applyAll, this]
        rw [decValue_learn h hc hk hv d hm]
        simp only [Out.bind_ok]
        refine ih (fits_afterWrite h t) (crypto_afterWrite hc t) ht' _ ?_
        rw [afterWrite_max]
        exact learn_maxSig hm
    · simp only [hsel, false_and, if_false]
      exact ih h hc ht' d hm

theorem items_bound {e : EncState} (h : Fits e) {ts : List UInt8} (ht : ∀ t ∈ ts, Known t) :
    ∀ p ∈ items e ts, Known p.1 ∧ p.2.length ≤ maxLen p.1 := by
  induction ts generalizing e with
  | nil => simp [items]
  | cons t ts ih =>
    have ht' : ∀ t ∈ ts, Known t := fun x hx => ht x (by simp [hx])
    unfold items
    split
    · intro p hp
      rcases List.mem_cons.1 hp with rfl | hp
      · exact ⟨ht t (by simp), maxLen_ok h (ht t (by simp))⟩
      · exact ih (fits_afterWrite h t) ht' p hp
    · exact ih h ht'

theorem fits_afterWrites {e : EncState} (h : Fits e) (ts : List UInt8) : Fits (afterWrites e ts) := by
  induction ts generalizing e with
  | nil => exact h
  | cons t ts ih => 
    unfold afterWrites; split
    · exact ih (fits_afterWrite h t)
    · exact ih h

theorem crypto_afterWrites {e : EncState} {env : CryptoEnv} (h : CryptoOk env e) (ts : List UInt8) :
    CryptoOk env (afterWrites e ts) := by
  induction ts generalizing e with
  | nil => exact h
  | cons t ts ih => 
    unfold afterWrites; split
    · exact ih (crypto_afterWrite h t)
    · exact ih h

theorem afterWrites_eq (e : EncState) (ts : List UInt8) :
    ∃ c k, afterWrites e ts = { e with gopCounter := c, hashType := k } := by
  induction ts generalizing e with
  | nil => exact ⟨e.gopCounter, e.hashType, rfl⟩
  | cons t ts ih =>
    unfold afterWrites
    split
    · obtain ⟨c, k, h⟩ := ih (afterWrite e t)
      rw [h]
      unfold afterWrite
      repeat' split
      · exact ⟨c, k, rfl⟩
      · exact ⟨c, k, rfl⟩
      · exact ⟨c, k, rfl⟩
    · exact ih e

/-- The tags of a SEI in the order of `generate_sei_nalu` without the signature. -/
def seiTags : List UInt8 := optionalTags ++ mandatoryTags

theorem seiTags_lib : ∀ t ∈ seiTags, Lib t := by
  simp only [seiTags, optionalTags, mandatoryTags, Lib]; decide

theorem seiTags_known : ∀ t ∈ seiTags, Known t := fun t h => lib_known (seiTags_lib t h)

theorem learn_list (e : EncState) (d : DecState) : learn e 4 d = { d with hashList :=
    match e.hashList with
    | some l => if l ≠ [] ∧ e.frameLevel = true then l else d.hashList
    | none => d.hashList } := by
  show (match e.hashList with
     | some l => if l ≠ [] ∧ e.frameLevel = true then { d with hashList := l } else d
     | none => d) = _
  cases e.hashList with
  | none => rfl
  | some l => simp only; split <;> rfl

theorem learn_arb (e : EncState) (d : DecState) :
    learn e 6 d = { d with arbitrary := if e.arbitrary = [] then d.arbitrary else e.arbitrary } := by
  show (if e.arbitrary = [] then d else { d with arbitrary := e.arbitrary }) = _
  split <;> rfl

theorem learn_oid (e : EncState) (d : DecState) :
    learn e 7 d = { d with oid := if e.oid = [] then d.oid else e.oid,
                           hashAlgoKnown := if e.oid = [] then d.hashAlgoKnown else true,
                           hashSize := if e.oid = [] then d.hashSize else e.hashSize } := by
  show (if e.oid = [] then d else { d with oid := e.oid, hashAlgoKnown := true, hashSize := e.hashSize }) = _
  split <;> rfl

theorem learn_key (e : EncState) (d : DecState) :
    ∃ pk hp kc, learn e 2 d = { d with publicKey := pk, hasPublicKey := hp, keyChanged := kc } ∧
      (∀ k, e.publicKey = some k → e.addPublicKey = true → pk = k ∧ hp = true) ∧
      ((e.publicKey = none ∨ e.addPublicKey = false) →
        pk = d.publicKey ∧ hp = d.hasPublicKey ∧ kc = d.keyChanged) := by
  have hshow : learn e 2 d = (match e.publicKey, e.addPublicKey with
    | some k, true => afterKey k d | _, _ => d) := rfl
  cases hk : e.publicKey with
  | none =>
    rw [hshow, hk]
    exact ⟨d.publicKey, d.hasPublicKey, d.keyChanged, rfl, by simp, fun _ => ⟨rfl, rfl, rfl⟩⟩
  | some k =>
    cases ha : e.addPublicKey with
    | false =>
      rw [hshow, hk, ha]
      exact ⟨d.publicKey, d.hasPublicKey, d.keyChanged, rfl, by simp, fun _ => ⟨rfl, rfl, rfl⟩⟩
    | true =>
      rw [hshow, hk, ha]
      refine ⟨k, true, _, rfl, ?_, by simp⟩
      intro k' hk' _
      exact ⟨(Option.some.inj hk'), rfl⟩

theorem carries_mandatory (e : EncState) (c1 c2 c3 : UInt32) (k1 k2 k3 : UInt8) (d : DecState) :
    let d' := learn { e with gopCounter := c3, hashType := k3 } 5
        (learn { e with gopCounter := c2, hashType := k2 } 6
          (learn { e with gopCounter := c1, hashType := k1 } 4 (learn e 1 d)))
    Carries e false d d' ∧ d'.publicKey = d.publicKey ∧ d'.hasPublicKey = d.hasPublicKey ∧
      d'.keyChanged = d.keyChanged ∧ d'.product = d.product ∧ d'.oid = d.oid ∧ d'.hashSize = d.hashSize ∧
      d'.hashAlgoKnown = d.hashAlgoKnown := by
  intro d'
  have hd' : d' = learn { e with gopCounter := c3, hashType := k3 } 5
        (learn { e with gopCounter := c2, hashType := k2 } 6
          (learn { e with gopCounter := c1, hashType := k1 } 4 (learn e 1 d))) := rfl
  rw [learn_list, learn_arb] at hd'
  have h1 : learn e 1 d = afterGeneral e d := rfl
  rw [h1] at hd'
  clear_value d'
  subst hd'
  refine ⟨⟨rfl, rfl, rfl, ⟨rfl, rfl⟩, ?_, rfl, rfl, ?_, ?_, ⟨rfl, rfl⟩, ?_, ?_, ?_, fun _ => ⟨rfl, rfl, rfl⟩,
    fun _ => ⟨rfl, rfl, rfl⟩, ?_, ?_⟩, rfl, rfl, rfl, rfl, rfl, rfl, rfl⟩
  · intro t ht
    show e.timestamp.getD d.timestamp = t ∧ e.timestamp.getD d.latestTimestamp = t
    simp [ht]
  · intro l hl hne hf
    show (match e.hashList with
      | some l => if l ≠ [] ∧ e.frameLevel = true then l else d.hashList
      | none => d.hashList) = l
    simp [hl, hne, hf]
  · intro ha
    show (if e.arbitrary = [] then d.arbitrary else e.arbitrary) = e.arbitrary
    simp [ha]
  · intro k h; cases h
  · intro h; cases h
  · intro h; cases h
  · intro hl
    show (match e.hashList with
      | some l => if l ≠ [] ∧ e.frameLevel = true then l else d.hashList
      | none => d.hashList) = d.hashList
    rcases hl with h | h | h <;> simp [h]
    split <;> rfl
  · intro ha
    show (if e.arbitrary = [] then d.arbitrary else e.arbitrary) = d.arbitrary
    simp [ha]

theorem carries_learn (e : EncState) (r : Bool) (c1 c2 c3 : UInt32) (k1 k2 k3 : UInt8) (d : DecState) :
    Carries e r d (learn { e with gopCounter := c3, hashType := k3 } 5
        (learn { e with gopCounter := c2, hashType := k2 } 6
          (learn { e with gopCounter := c1, hashType := k1 } 4 (learn e 1
            (if r = true then learn e 7 (learn e 3 (learn e 2 d)) else d))))) := by
  cases r with
  | false => exact (carries_mandatory e c1 c2 c3 k1 k2 k3 d).1
  | true =>
    rw [if_pos rfl]
    obtain ⟨pk, hp, kc, h2, h2a, h2b⟩ := learn_key e d
    obtain ⟨hc, g1, g2, g3, g4, g5, g6, g7⟩ := carries_mandatory e c1 c2 c3 k1 k2 k3
      (learn e 7 (learn e 3 (learn e 2 d)))
    generalize hL : learn { e with gopCounter := c3, hashType := k3 } 5
        (learn { e with gopCounter := c2, hashType := k2 } 6
          (learn { e with gopCounter := c1, hashType := k1 } 4 (learn e 1
            (learn e 7 (learn e 3 (learn e 2 d)))))) = d' at hc g1 g2 g3 g4 g5 g6 g7 ⊢
    rw [learn_oid, h2] at g1 g2 g3 g4 g5 g6 g7
    refine ⟨hc.1, hc.2, hc.3, hc.4, hc.5, hc.6, hc.7, hc.8, hc.9, hc.10, ?_, ?_, ?_, ?_, ?_, ?_, ?_⟩
    · intro k _ hk ha
      rw [g1, g2]; exact h2a k hk ha
    · intro _; rw [g4]; rfl
    · intro _ ho
      rw [g5, g6, g7]; simp [ho]
    · rintro (h | h)
      · cases h
      · rw [g1, g2, g3]; exact h2b h
    · intro h; cases h
    · intro hl
      rw [hc.noList hl, learn_oid, h2]; rfl
    · intro hl
      rw [hc.noArbitrary hl, learn_oid, h2]; rfl

/-- **C10**, whole SEI: decoding the TLV data of a SEI (optional and mandatory tags followed by the signature) succeeds
and gives the validating session what the signing session put into it. -/
theorem C10_sei_content {e : EncState} (h : Fits e) {env : CryptoEnv} (hc : CryptoOk env e) (d : DecState)
    (hm : d.maxSignature = none ∨ d.maxSignature = some e.maxSignature) (s : L2) (rest : Bytes) :
    let part1 := tlvListWrite false e s seiTags
    let part2 := tlvListWrite false part1.2.2 part1.2.1 [tagSignature]
    let tlv := part1.1 ++ part2.1
    ∃ d', tlvDecode env d (tlv ++ rest) tlv.length = .ok d' ∧ Carries e e.recurrent d d' := by
  intro part1 part2 tlv
  have h1 : part1 = _ := tlvListWrite_eq h seiTags_known false s
  have hsig : ∀ t ∈ [tagSignature], Known t := by simp only [Known]; decide
  have hsigL : ∀ t ∈ [tagSignature], Lib t := by simp only [Lib]; decide
  have hf2 := fits_afterWrites h seiTags
  have h2 : part2 = tlvListWrite false (afterWrites e seiTags) part1.2.1 [tagSignature] := by
    simp only [part2, h1]
  rw [tlvListWrite_eq hf2 hsig] at h2
  have htlv : tlv = encodeAll (items e seiTags ++ items (afterWrites e seiTags) [tagSignature]) := by
    simp only [tlv, h1, h2, writeBytes_false, ← frames_encodeAll, frames_append]
  rw [htlv]
  have hne : items e seiTags ++ items (afterWrites e seiTags) [tagSignature] ≠ [] := by
    have hs : tagSelected (afterWrites e seiTags) 5 = true := by
      simp [tagSelected, getTuple]
    have hv : valueBytes (afterWrites e seiTags) 5 ≠ [] := by
      show valSignature _ ≠ []
      simp [valSignature]
    simp [items, tagSignature, hs, hv]
  have hcr := crypto_afterWrites hc seiTags
  have hmax : (afterWrites e seiTags).maxSignature = e.maxSignature := by
    have : ∀ (e : EncState) ts, (afterWrites e ts).maxSignature = e.maxSignature := by
      intro e ts
      induction ts generalizing e with
      | nil => rfl
      | cons t ts ih => unfold afterWrites; split <;> rw [ih]; exact afterWrite_max e t
    exact this e seiTags
  have hmL : ∀ (ts : List UInt8) (e : EncState) (d : DecState),
      (d.maxSignature = none ∨ d.maxSignature = some e.maxSignature) →
      (learnAll e ts d).maxSignature = none ∨ (learnAll e ts d).maxSignature = some e.maxSignature := by
    intro ts
    induction ts with
    | nil => intro e d h; exact h
    | cons t ts ih =>
      intro e d h
      unfold learnAll
      split
      · have he : (afterWrites e [t]).maxSignature = e.maxSignature := by
          simp only [afterWrites]; split <;> simp [afterWrite_max]
        have := ih (afterWrites e [t]) (learn e t d) (by rw [he]; exact learn_maxSig h)
        rwa [he] at this
      · exact ih e d h
  refine ⟨learnAll (afterWrites e seiTags) [tagSignature] (learnAll e seiTags d), ?_, ?_⟩
  · rw [C10_sequence env d _ hne]
    · rw [applyAll_items h hc seiTags_lib d hm]
      have := applyAll_items hf2 hcr hsigL (learnAll e seiTags d)
        (by rw [hmax]; exact hmL _ _ _ hm) [] rest
      simpa [applyAll] using this
    · intro p hp
      rcases List.mem_append.1 hp with hp | hp
      · exact items_bound h seiTags_known p hp
      · exact items_bound hf2 hsig p hp
  · have hsel : ∀ t ∈ [1, 4, 5, 6], ∀ e : EncState, tagSelected e t = true := by
      intro t ht e
      simp only [List.mem_cons, List.not_mem_nil, or_false] at ht
      rcases ht with h | h | h | h <;> subst h <;> rfl
    have hselr : ∀ t ∈ [2, 3, 7], ∀ e : EncState, tagSelected e t = e.recurrent := by
      intro t ht e
      simp only [List.mem_cons, List.not_mem_nil, or_false] at ht
      rcases ht with h | h | h <;> subst h <;> rfl
    have hl : learnAll e seiTags d = learnAll e mandatoryTags
        (if e.recurrent = true then learn e 7 (learn e 3 (learn e 2 d)) else d) := by
      have ha : ∀ t ∈ [2, 3, 7], afterWrites e [t] = e := by
        intro t ht
        simp only [List.mem_cons, List.not_mem_nil, or_false] at ht
        rcases ht with h | h | h <;> subst h <;> simp [afterWrites, afterWrite, tagGeneral, tagHashList]
      simp only [seiTags, optionalTags, tagPublicKey, tagProductInfo, tagCrypto, List.cons_append,
        List.nil_append, learnAll, hselr 2 (by simp), hselr 3 (by simp), hselr 7 (by simp),
        ha 2 (by simp), ha 3 (by simp), ha 7 (by simp)]
      split <;> rfl
    obtain ⟨c1, k1, h1'⟩ := afterWrites_eq e [1]
    obtain ⟨c2, k2, h2'⟩ := afterWrites_eq { e with gopCounter := c1, hashType := k1 } [4]
    obtain ⟨c3, k3, h3'⟩ := afterWrites_eq e seiTags
    rw [hl, h3']
    simp only [mandatoryTags, tagGeneral, tagHashList, tagArbitrary, tagSignature, learnAll,
      hsel 1 (by simp), hsel 4 (by simp), hsel 5 (by simp), hsel 6 (by simp), if_true, h1', h2']
    generalize hd1 : (if e.recurrent = true then learn e 7 (learn e 3 (learn e 2 d)) else d) = d1
    subst hd1
    exact carries_learn e e.recurrent c1 c2 c3 k1 k2 k3 d

example : ∃ d', tlvDecode exampleEnv {} ((tlvListWrite false exampleSession L2.init seiTags).1 ++
      (tlvListWrite false (tlvListWrite false exampleSession L2.init seiTags).2.2
        (tlvListWrite false exampleSession L2.init seiTags).2.1 [tagSignature]).1) 701 = .ok d' ∧
    d'.arbitrary = [0, 0, 0, 1, 5] := by
  obtain ⟨d', h, hc⟩ := C10_sei_content exampleSession_fits exampleSession_crypto {} (Or.inl rfl) L2.init []
  have hl : ((tlvListWrite false exampleSession L2.init seiTags).1 ++
      (tlvListWrite false (tlvListWrite false exampleSession L2.init seiTags).2.2
        (tlvListWrite false exampleSession L2.init seiTags).2.1 [tagSignature]).1).length = 701 := by
    decide +kernel
  rw [List.append_nil, hl] at h
  exact ⟨d', h, hc.arbitrary (by decide)⟩

end SV
