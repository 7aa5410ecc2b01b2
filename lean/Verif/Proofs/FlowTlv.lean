import Verif.Proofs.FlowEarly
import Verif.Props.Sei
/-! Validation of an undisturbed stream: what the TLVs of a SEI tell. -/
namespace SV
open Spec
namespace Validator

/-- A tag and its value as written by a session with the key and the algorithm of the stream. -/
structure Speaks (Γ : Scene) (i : SeiInfo) (p : UInt8 × Bytes) : Prop where
  lib : Lib p.1
  ne : p.2 ≠ []
  noList : Γ.lists = false → p.1 ≠ 4
  from_ : ∃ e : EncState, Fits e ∧ p.2 = valueBytes e p.1 ∧
    (p.1 = 1 → e.gopCounter + 1 = i.counter ∧ e.numNalus = i.num ∧ e.linkedHash = i.linked ∧ e.gopHash = i.gopHash ∧ e.hashSize = Γ.size) ∧
    (p.1 = 2 → e.publicKey = some Γ.key ∧ e.addPublicKey = true) ∧
    (p.1 = 5 → e.signature = i.signature ∧ e.maxSignature = Γ.maxSig) ∧
    (p.1 = 7 → e.oid = Γ.oid) ∧
    (p.1 = 4 → e.hashList = some i.list)

/-- What the environment has to do for the SEIs of the stream to be understood. -/
structure Scene.Reads (Γ : Scene) : Prop where
  key : Γ.env.crypto.keyOk Γ.key = true
  oid : Γ.env.crypto.oidHashSize Γ.oid = some Γ.size
  default : Γ.oid = Γ.env.oid → Γ.size = 32

/-- Members that only the general tag and the signature write. -/
structure Kept (d d' : DecState) : Prop where
  counter : d'.gopCounter = d.gopCounter
  num : d'.numSent = d.numSent
  linked : d'.linkedHash = d.linkedHash
  gopHash : d'.gopHash = d.gopHash

variable {Γ : Scene} {i : SeiInfo}

theorem ovl_self (a b : Bytes) (h : a = b) : ovl a b = b := by
  subst h
  unfold ovl
  rw [List.drop_length, List.append_nil]

theorem ovl_of_length {a b : Bytes} {n : Nat} (h : a.length = n) : buf n (ovl a b) = a := by
  unfold buf ovl
  rw [List.append_assoc, List.take_append_of_le_length (by omega), List.take_of_length_le (by omega)]

/-- Tag 1. -/
theorem decTag_general (s : Validator) {e : EncState} (h : Fits e) (m : Bytes) :
    s.decTag Γ.env 1 (valueBytes e 1 ++ m) (valueBytes e 1).length = .ok (s.put (afterGeneral e s.dec)).putVersion () := by
  have : SV.decGeneral s.dec (valueBytes e 1 ++ m) (valueBytes e 1).length = .ok (afterGeneral e s.dec) := by
    rw [← valueSize_eq h]; exact decGeneral_ok h s.dec m
  unfold decTag
  rw [if_pos (by decide)]
  unfold decGeneral
  rw [this]

/-- Tag 2. -/
theorem decTag_tellsKey (s : Validator) {e : EncState} (h : Fits e) {k : Bytes} (hk : e.publicKey = some k) (ha : e.addPublicKey = true)
    (ho : Γ.env.crypto.keyOk k = true) (m : Bytes) :
    s.decTag Γ.env 2 (valueBytes e 2 ++ m) (valueBytes e 2).length = .ok { s.put (afterKey k s.dec) with key := some k } () := by
  have : SV.decPublicKey { Γ.env.crypto with keyOk := fun _ => true } s.dec (valueBytes e 2 ++ m) (valueBytes e 2).length = .ok (afterKey k s.dec) := by
    rw [← valueSize_eq h]; exact SV.decPublicKey_ok _ h hk ha rfl s.dec m
  unfold decTag
  rw [if_neg (by decide), if_pos (by decide)]
  unfold decPublicKey
  rw [this]
  show (if Γ.env.crypto.keyOk k = true then _ else _) = _
  rw [if_pos ho]
  rfl

/-- Tag 7. -/
theorem decTag_crypto (s : Validator) {e : EncState} (h : Fits e) (hne : e.oid ≠ []) {n : Nat} (ho : Γ.env.crypto.oidHashSize e.oid = some n) (m : Bytes) :
    s.decTag Γ.env 7 (valueBytes e 7 ++ m) (valueBytes e 7).length =
      .ok (if e.oid = s.d.oid then { s with d := { s.d with hashAlgoKnown := true } }
        else { s with d := { s.d with oid := e.oid, hashSize := n, hashAlgoKnown := true }, typ := e.oid }) () := by
  have hp : e.oid.length ≠ 0 := by simpa using hne
  have hl := h.oid
  have hn : (UInt8.ofNat e.oid.length).toNat = e.oid.length := by
    rw [UInt8.toNat_ofNat']; apply Nat.mod_eq_of_lt; omega
  have hz : ¬ (UInt8.ofNat e.oid.length) = 0 := by
    intro hc
    have := congrArg UInt8.toNat hc
    rw [hn] at this
    exact hp this
  have hv : valueBytes e 7 = 1 :: UInt8.ofNat e.oid.length :: e.oid := by
    show valCrypto e = _
    simp [valCrypto, hne]
  rw [hv]
  unfold decTag
  rw [if_neg (by decide), if_neg (by decide), if_pos (by decide)]
  unfold decCrypto
  simp only [List.cons_append, rd8_cons]
  rw [if_neg (by decide), if_neg hz, hn, rdN_append]
  dsimp only
  by_cases he : e.oid = s.d.oid
  · rw [if_pos he, if_pos he, Res.andThen_ok, if_pos (by simp; omega)]
  · rw [if_neg he, if_neg he, ho]
    dsimp only
    rw [Res.andThen_ok, if_pos (by simp; omega)]

/-- The other tags. -/
theorem decTag_other (s : Validator) {t : UInt8} {e : EncState} (h : Fits e) (ht : t = 3 ∨ t = 4 ∨ t = 5 ∨ t = 6) (hv : valueBytes e t ≠ [])
    (hm : t = 5 → s.d.maxSignature = none ∨ s.d.maxSignature = some e.maxSignature) (m : Bytes) :
    ∃ d', s.decTag Γ.env t (valueBytes e t ++ m) (valueBytes e t).length = .ok { s with d := d' } () ∧ Kept s.d d' ∧
      d'.hashAlgoKnown = s.d.hashAlgoKnown ∧ d'.hashSize = s.d.hashSize ∧ d'.oid = s.d.oid ∧ d'.hasPublicKey = s.d.hasPublicKey ∧
      d'.publicKey = s.d.publicKey ∧ (t ≠ 5 → d'.maxSignature = s.d.maxSignature ∧ d'.signature = s.d.signature) ∧
      (t = 5 → d'.maxSignature = some e.maxSignature ∧ d'.signature = e.signature) ∧ (t ≠ 4 → d'.hashList = s.d.hashList) ∧ (t = 4 → e.hashList = some d'.hashList) ∧
      (t ≠ 5 → d'.hashType = s.d.hashType) ∧ (t = 5 → d'.hashType = e.hashType) := by
  have hd : ∃ d, decValue Γ.env.crypto t s.dec (valueBytes e t ++ m) (valueBytes e t).length = .ok d ∧ Kept s.dec d ∧
      d.hashAlgoKnown = s.d.hashAlgoKnown ∧ d.hashSize = s.d.hashSize ∧ d.oid = s.d.oid ∧ d.hasPublicKey = s.d.hasPublicKey ∧
      d.publicKey = s.d.publicKey ∧ (t ≠ 5 → d.maxSignature = s.d.maxSignature ∧ d.signature = s.d.signature) ∧
      (t = 5 → d.maxSignature = some e.maxSignature ∧ d.signature = e.signature) ∧ (t ≠ 4 → d.hashList = s.d.hashList) ∧ (t = 4 → e.hashList = some d.hashList) ∧
      (t ≠ 5 → d.hashType = s.d.hashType) ∧ (t = 5 → d.hashType = e.hashType) := by
    rw [← valueSize_eq h]
    rcases ht with rfl | rfl | rfl | rfl
    · exact ⟨_, decProduct_ok h s.dec m, ⟨rfl, rfl, rfl, rfl⟩, rfl, rfl, rfl, rfl, rfl, fun _ => ⟨rfl, rfl⟩, fun h => absurd h (by decide), fun _ => rfl, fun h => absurd h (by decide), fun _ => rfl, fun h => absurd h (by decide)⟩
    · change valHashList e ≠ [] at hv
      cases hl : e.hashList with
      | none => simp [valHashList, hl] at hv
      | some l =>
        by_cases hne : l = []
        · simp [valHashList, hl, hne] at hv
        · cases hf : e.frameLevel with
          | false => simp [valHashList, hl, hf] at hv
          | true => exact ⟨_, decHashList_ok h hl hne hf s.dec m, ⟨rfl, rfl, rfl, rfl⟩, rfl, rfl, rfl, rfl, rfl, fun _ => ⟨rfl, rfl⟩, fun h => absurd h (by decide), fun h => absurd rfl h, fun _ => rfl, fun _ => rfl, fun h => absurd h (by decide)⟩
    · exact ⟨_, decSignature_ok h s.dec (hm rfl) m, ⟨rfl, rfl, rfl, rfl⟩, rfl, rfl, rfl, rfl, rfl, fun h => absurd rfl h, fun _ => ⟨rfl, rfl⟩, fun _ => rfl, fun h => absurd h (by decide), fun h => absurd rfl h, fun _ => rfl⟩
    · change valArbitrary e ≠ [] at hv
      by_cases ha : e.arbitrary = []
      · simp [valArbitrary, ha] at hv
      · exact ⟨_, decArbitrary_ok h ha s.dec m, ⟨rfl, rfl, rfl, rfl⟩, rfl, rfl, rfl, rfl, rfl, fun _ => ⟨rfl, rfl⟩, fun h => absurd h (by decide), fun _ => rfl, fun h => absurd h (by decide), fun _ => rfl, fun h => absurd h (by decide)⟩
  obtain ⟨d, h1, h2, h3, h4, h5, h6, h7, h8, h9, h10, h11, h12⟩ := hd
  refine ⟨{ d with keyChanged := s.d.keyChanged, latestHasTimestamp := s.d.latestHasTimestamp, latestTimestamp := s.d.latestTimestamp }, ?_,
    ⟨h2.counter, h2.num, h2.linked, h2.gopHash⟩, h3, h4, h5, h6, h7, h8, h9, h10, h11, h12⟩
  · unfold decTag
    rw [if_neg (by rcases ht with rfl | rfl | rfl | rfl <;> decide), if_neg (by rcases ht with rfl | rfl | rfl | rfl <;> decide),
      if_neg (by rcases ht with rfl | rfl | rfl | rfl <;> decide), h1]

/-- The part of a SEI that the general tag tells. -/
structure ToldGeneral (Γ : Scene) (i : SeiInfo) (d : DecState) : Prop where
  counter : d.gopCounter = i.counter
  num : d.numSent = i.num
  linked : buf Γ.size d.linkedHash = i.linked
  gopHash : buf Γ.size d.gopHash = i.gopHash

/-- The part of a SEI that the signature tells. -/
structure ToldSignature (i : SeiInfo) (d : DecState) : Prop where
  signature : d.signature = i.signature
  max : d.maxSignature ≠ none

/-- The part of a SEI that the list of hashes tells. -/
def ToldList (i : SeiInfo) (d : DecState) : Prop := d.hashList = i.list

theorem ToldGeneral.kept {d d' : DecState} (h : ToldGeneral Γ i d) (k : Kept d d') : ToldGeneral Γ i d' :=
  ⟨k.counter.trans h.counter, k.num.trans h.num, k.linked ▸ h.linked, k.gopHash ▸ h.gopHash⟩

/-- One tag, for a validator that knows algorithm and key. -/
theorem knows_step (hR : Γ.Reads) {s : Validator} (h : Knows Γ s) {t : UInt8} {v : Bytes} (hp : Speaks Γ i (t, v)) (m : Bytes) :
    ∃ s', s.decTag Γ.env t (v ++ m) v.length = .ok s' () ∧ Knows Γ s' ∧ (t = 1 ∨ ToldGeneral Γ i s.d → ToldGeneral Γ i s'.d) ∧
      (t = 5 ∨ ToldSignature i s.d → ToldSignature i s'.d) ∧ (t = 4 ∨ ToldList i s.d → ToldList i s'.d) := by
  obtain ⟨hlib, hne, hnl, e, hf, hv, h1, h2, h5, h7, h4⟩ := hp
  dsimp only at hlib hne hnl hv h1 h2 h5 h7 h4
  subst hv
  simp only [Lib, List.mem_cons, List.not_mem_nil, or_false] at hlib
  have other : (t = 3 ∨ t = 4 ∨ t = 5 ∨ t = 6) → _ := fun ht => decTag_other (Γ := Γ) s hf ht hne (fun h => by rw [(h5 h).2]; exact ‹Knows Γ s›.max) m
  by_cases ht : t = 3 ∨ t = 4 ∨ t = 5 ∨ t = 6
  · obtain ⟨d', g0, g1, g2, g3, g4, g5, g6, g7, g8, g9, g10, -⟩ := other ht
    refine ⟨_, g0, ⟨g2.trans h.known, g3.trans h.size, h.typ, g4.trans h.oid, g5.trans h.has, g6.trans h.pub, h.key, h.same, ?_, fun hx => (g9 (hnl hx)).trans (h.noList hx)⟩, ?_, ?_, ?_⟩
    · show d'.maxSignature = none ∨ d'.maxSignature = some Γ.maxSig
      by_cases h' : t = 5
      · rw [(g8 h').1, (h5 h').2]; exact .inr rfl
      · rw [(g7 h').1]; exact h.max
    · rintro (rfl | hx)
      · simp at ht
      · exact hx.kept g1
    · rintro (h' | hx)
      · exact ⟨(g8 h').2.trans (h5 h').1, by show d'.maxSignature ≠ none; rw [(g8 h').1]; simp⟩
      · by_cases h' : t = 5
        · exact ⟨(g8 h').2.trans (h5 h').1, by show d'.maxSignature ≠ none; rw [(g8 h').1]; simp⟩
        · exact ⟨(g7 h').2.trans hx.signature, by show d'.maxSignature ≠ none; rw [(g7 h').1]; exact hx.max⟩
    · intro hx
      show d'.hashList = i.list
      by_cases h' : t = 4
      · exact Option.some.inj ((g10 h').symm.trans (h4 h'))
      · rw [g9 h']; exact hx.resolve_left h'
  · have ht' : t = 1 ∨ t = 2 ∨ t = 7 := by
      rcases hlib with h | h | h | h | h | h | h <;> simp [h] at ht ⊢
    rcases ht' with rfl | rfl | rfl
    · obtain ⟨a1, a2, a3, a4, a5⟩ := h1 rfl
      refine ⟨_, decTag_general s hf m, ⟨h.known, h.size, h.typ, h.oid, h.has, h.pub, h.key, h.same, h.max, h.noList⟩, fun _ => ⟨a1, a2, ?_, ?_⟩, ?_, fun hx => hx.resolve_left (by decide)⟩
      · show buf Γ.size (ovl e.linkedHash s.d.linkedHash) = i.linked
        rw [ovl_of_length (hf.linked.trans a5), a3]
      · show buf Γ.size (ovl e.gopHash s.d.gopHash) = i.gopHash
        rw [ovl_of_length (hf.gop.trans a5), a4]
      · rintro (hx | hx)
        · cases hx
        · exact ⟨hx.signature, hx.max⟩
    · obtain ⟨a1, a2⟩ := h2 rfl
      refine ⟨_, decTag_tellsKey s hf a1 a2 hR.key m, ⟨h.known, h.size, h.typ, h.oid, rfl, rfl, rfl, ?_, h.max, h.noList⟩, ?_, ?_, fun hx => hx.resolve_left (by decide)⟩
      · show (s.rep.latest.keyChanged || (s.d.hasPublicKey && (Γ.key != if s.d.publicKey.length = Γ.key.length then s.d.publicKey else List.replicate Γ.key.length 0))) = false
        rw [h.same, h.has, h.pub, if_pos rfl]
        simp
      · rintro (hx | hx)
        · cases hx
        · refine ⟨hx.counter, hx.num, ?_, ?_⟩
          · show buf Γ.size (ovl s.d.linkedHash s.d.linkedHash) = i.linked
            rw [ovl_self _ _ rfl]; exact hx.linked
          · show buf Γ.size (ovl s.d.gopHash s.d.gopHash) = i.gopHash
            rw [ovl_self _ _ rfl]; exact hx.gopHash
      · rintro (hx | hx)
        · cases hx
        · exact ⟨hx.signature, hx.max⟩
    · have a1 := h7 rfl
      have hn : e.oid ≠ [] := by
        intro hc
        apply hne
        show valCrypto e = []
        simp [valCrypto, hc]
      have := decTag_crypto (Γ := Γ) s hf hn (by rw [a1]; exact hR.oid) m
      rw [if_pos (by rw [a1, h.oid])] at this
      refine ⟨_, this, ⟨rfl, h.size, h.typ, h.oid, h.has, h.pub, h.key, h.same, h.max, h.noList⟩, ?_, ?_, fun hx => hx.resolve_left (by decide)⟩
      · rintro (hx | hx)
        · cases hx
        · exact ⟨hx.counter, hx.num, hx.linked, hx.gopHash⟩
      · rintro (hx | hx)
        · cases hx
        · exact ⟨hx.signature, hx.max⟩

theorem Speaks.len {p : UInt8 × Bytes} (h : Speaks Γ i p) : Known p.1 ∧ p.2.length ≤ maxLen p.1 := by
  obtain ⟨hl, -, -, e, hf, hv, -⟩ := h
  exact ⟨lib_known hl, hv ▸ maxLen_ok hf (lib_known hl)⟩

/-- All tags. -/
theorem knows_all (hR : Γ.Reads) (rest : Bytes) (l : List (UInt8 × Bytes)) (hl : ∀ p ∈ l, Speaks Γ i p) : ∀ (s : Validator) (fuel : Nat), (frames l).length ≤ fuel →
    Knows Γ s → ∃ s', tlvLoop Γ.env fuel s (frames l ++ rest) (frames l).length = .ok s' () ∧ Knows Γ s' ∧
      ((∃ p ∈ l, p.1 = 1) ∨ ToldGeneral Γ i s.d → ToldGeneral Γ i s'.d) ∧ ((∃ p ∈ l, p.1 = 5) ∨ ToldSignature i s.d → ToldSignature i s'.d) ∧
      ((∃ p ∈ l, p.1 = 4) ∨ ToldList i s.d → ToldList i s'.d) := by
  induction l with
  | nil =>
    intro s fuel _ h
    refine ⟨s, ?_, h, ?_, ?_, ?_⟩
    · cases fuel <;> simp [tlvLoop, frames]
    · rintro (⟨p, hp, -⟩ | h)
      · cases hp
      · exact h
    · rintro (⟨p, hp, -⟩ | h)
      · cases hp
      · exact h
    · rintro (⟨p, hp, -⟩ | h)
      · cases hp
      · exact h
  | cons p l ih =>
    intro s fuel hfu h
    obtain ⟨t, v⟩ := p
    have hp := hl (t, v) (List.mem_cons_self ..)
    obtain ⟨hk, hv⟩ : Known t ∧ v.length ≤ maxLen t := hp.len
    have hlen := frame_length hk v
    simp only [frames_cons, List.length_append] at hfu ⊢
    obtain ⟨fuel, rfl⟩ : ∃ f, fuel = f + 1 := ⟨fuel - 1, by omega⟩
    obtain ⟨e1, e2⟩ := decHeader_frame hk hv (frames l ++ rest)
    obtain ⟨s1, a1, a2, a3, a4, a5⟩ := knows_step hR h hp (frames l ++ rest)
    obtain ⟨s2, b1, b2, b3, b4, b5⟩ := ih (fun q hq => hl q (List.mem_cons_of_mem _ hq)) s1 fuel (by omega) a2
    refine ⟨s2, ?_, b2, ?_, ?_, ?_⟩
    · rw [List.append_assoc]
      unfold tlvLoop
      rw [if_neg (by omega), e1]
      dsimp only
      rw [e2, a1, Res.andThen_ok, List.drop_left]
      have hsz : (frame t v).length + (frames l).length - (1 + (getTuple t).lenBytes) - v.length =
          (frames l).length := by omega
      rw [hsz]
      exact b1
    · rintro (⟨q, hq, e⟩ | hg)
      · rcases List.mem_cons.1 hq with rfl | hq
        · exact b3 (.inr (a3 (.inl e)))
        · exact b3 (.inl ⟨q, hq, e⟩)
      · exact b3 (.inr (a3 (.inr hg)))
    · rintro (⟨q, hq, e⟩ | hg)
      · rcases List.mem_cons.1 hq with rfl | hq
        · exact b4 (.inr (a4 (.inl e)))
        · exact b4 (.inl ⟨q, hq, e⟩)
      · exact b4 (.inr (a4 (.inr hg)))
    · rintro (⟨q, hq, e⟩ | hg)
      · rcases List.mem_cons.1 hq with rfl | hq
        · exact b5 (.inr (a5 (.inl e)))
        · exact b5 (.inl ⟨q, hq, e⟩)
      · exact b5 (.inr (a5 (.inr hg)))

theorem frames_ne {l : List (UInt8 × Bytes)} (hl : ∀ p ∈ l, Speaks Γ i p) (hne : l ≠ []) : (frames l).length ≠ 0 := by
  cases l with
  | nil => exact absurd rfl hne
  | cons p l =>
    have := frame_length (hl p (List.mem_cons_self ..)).len.1 p.2
    rw [frames_cons, List.length_append]; omega

/-- A SEI tells its contents. -/
theorem tells_of (hR : Γ.Reads) (rest : Bytes) (l : List (UInt8 × Bytes)) (hl : ∀ p ∈ l, Speaks Γ i p) (h1 : ∃ p ∈ l, p.1 = 1) (h5 : ∃ p ∈ l, p.1 = 5)
    (h4 : i.list ≠ [] → ∃ p ∈ l, p.1 = 4) : Tells Γ i (frames l ++ rest) (frames l).length := by
  intro s h
  obtain ⟨s', a1, a2, a3, a4, a5⟩ := knows_all hR rest l hl s _ (Nat.le_refl _) h
  have g := a3 (.inl h1)
  have k := a4 (.inl h5)
  refine ⟨s', ?_, a2, g.counter, g.num, g.linked, g.gopHash, k.signature, k.max, fun hx => a5 (.inl (h4 hx))⟩
  unfold tlvDecode
  rw [if_neg (frames_ne hl (by obtain ⟨p, hp, -⟩ := h1; exact List.ne_nil_of_mem hp)), a1]

/-! ### The first SEI -/

/-- The validator may know the key and the algorithm of the stream. -/
structure Half (Γ : Scene) (s : Validator) : Prop where
  noList : Γ.lists = false → s.d.hashList = []
  same : s.rep.latest.keyChanged = false
  max : s.d.maxSignature = none ∨ s.d.maxSignature = some Γ.maxSig
  key : s.d.hasPublicKey = false ∨ s.d.hasPublicKey = true ∧ s.d.publicKey = Γ.key ∧ s.key = some Γ.key
  alg : s.d.oid = Γ.env.oid ∧ s.typ = Γ.env.oid ∧ s.d.hashSize = 32 ∨ s.d.oid = Γ.oid ∧ s.typ = Γ.oid ∧ s.d.hashSize = Γ.size

def HasKey (Γ : Scene) (s : Validator) : Prop := s.d.hasPublicKey = true ∧ s.d.publicKey = Γ.key ∧ s.key = some Γ.key
def HasAlg (Γ : Scene) (s : Validator) : Prop := s.d.oid = Γ.oid ∧ s.typ = Γ.oid ∧ s.d.hashSize = Γ.size

/-- One optional tag. -/
theorem half_step (hR : Γ.Reads) {s : Validator} (h : Half Γ s) {t : UInt8} {v : Bytes} (hp : Speaks Γ i (t, v)) (ht : t = 2 ∨ t = 3 ∨ t = 7) (m : Bytes) :
    ∃ s', s.decTag Γ.env t (v ++ m) v.length = .ok s' () ∧ Half Γ s' ∧ (t = 2 ∨ HasKey Γ s → HasKey Γ s') ∧ (t = 7 ∨ HasAlg Γ s → HasAlg Γ s') := by
  obtain ⟨hlib, hne, hnl, e, hf, hv, h1, h2, h5, h7, h4⟩ := hp
  dsimp only at hlib hne hnl hv h1 h2 h5 h7 h4
  subst hv
  rcases ht with rfl | rfl | rfl
  · obtain ⟨a1, a2⟩ := h2 rfl
    refine ⟨_, decTag_tellsKey s hf a1 a2 hR.key m, ⟨h.noList, ?_, h.max, .inr ⟨rfl, rfl, rfl⟩, h.alg⟩, fun _ => ⟨rfl, rfl, rfl⟩, ?_⟩
    · show (s.rep.latest.keyChanged || (s.d.hasPublicKey && (Γ.key != if s.d.publicKey.length = Γ.key.length then s.d.publicKey else List.replicate Γ.key.length 0))) = false
      rw [h.same]
      rcases h.key with hk | ⟨-, hk, -⟩
      · rw [hk]; rfl
      · rw [hk, if_pos rfl]; simp
    · rintro (hx | hx)
      · cases hx
      · exact hx
  · obtain ⟨d', g0, g1, g2, g3, g4, g5, g6, g7, g8, g9, -⟩ := decTag_other (Γ := Γ) s hf (.inl rfl) hne (fun h => absurd h (by decide)) m
    refine ⟨_, g0, ⟨fun hx => (g9 (by decide)).trans (h.noList hx), h.same, (by show d'.maxSignature = none ∨ _; rw [(g7 (by decide)).1]; exact h.max), ?_, ?_⟩, ?_, ?_⟩
    · show d'.hasPublicKey = false ∨ d'.hasPublicKey = true ∧ d'.publicKey = Γ.key ∧ s.key = some Γ.key
      rw [g5, g6]; exact h.key
    · show d'.oid = Γ.env.oid ∧ s.typ = Γ.env.oid ∧ d'.hashSize = 32 ∨ d'.oid = Γ.oid ∧ s.typ = Γ.oid ∧ d'.hashSize = Γ.size
      rw [g4, g3]; exact h.alg
    · rintro (hx | hx)
      · cases hx
      · exact ⟨g5.trans hx.1, g6.trans hx.2.1, hx.2.2⟩
    · rintro (hx | hx)
      · cases hx
      · exact ⟨g4.trans hx.1, hx.2.1, g3.trans hx.2.2⟩
  · have a1 := h7 rfl
    have hn : e.oid ≠ [] := by
      intro hc
      apply hne
      show valCrypto e = []
      simp [valCrypto, hc]
    have hd := decTag_crypto (Γ := Γ) s hf hn (by rw [a1]; exact hR.oid) m
    by_cases hc : e.oid = s.d.oid
    · rw [if_pos hc] at hd
      have halg : HasAlg Γ s := by
        rcases h.alg with ⟨b1, b2, b3⟩ | hx
        · have : Γ.oid = Γ.env.oid := by rw [← a1, hc, b1]
          exact ⟨b1.trans this.symm, b2.trans this.symm, b3.trans (hR.default this).symm⟩
        · exact hx
      refine ⟨_, hd, ⟨h.noList, h.same, h.max, h.key, .inr halg⟩, ?_, fun _ => halg⟩
      rintro (hx | hx)
      · cases hx
      · exact hx
    · rw [if_neg hc] at hd
      refine ⟨_, hd, ⟨h.noList, h.same, h.max, h.key, .inr ⟨a1, a1, rfl⟩⟩, ?_, fun _ => ⟨a1, a1, rfl⟩⟩
      rintro (hx | hx)
      · cases hx
      · exact hx

/-- All tags of the first SEI. -/
theorem half_all (hR : Γ.Reads) (rest : Bytes) (l : List (UInt8 × Bytes)) (hl : ∀ p ∈ l, Speaks Γ i p) : ∀ (s : Validator) (fuel : Nat) (f : Bool), (frames l).length ≤ fuel →
    Half Γ s → ∃ s' f', optLoop Γ.env fuel s f (frames l ++ rest) (frames l).length = .ok s' f' ∧ Half Γ s' ∧
      ((∃ p ∈ l, p.1 = 2) ∨ HasKey Γ s → HasKey Γ s') ∧ ((∃ p ∈ l, p.1 = 7) ∨ HasAlg Γ s → HasAlg Γ s') ∧ ((∃ p ∈ l, p.1 = 2) ∨ f = true → f' = true) := by
  induction l with
  | nil =>
    intro s fuel f _ h
    refine ⟨s, f, ?_, h, ?_, ?_, ?_⟩
    · cases fuel <;> simp [optLoop, frames]
    all_goals
      rintro (⟨p, hp, -⟩ | h)
      · cases hp
      · exact h
  | cons p l ih =>
    intro s fuel f hfu h
    obtain ⟨t, v⟩ := p
    have hp := hl (t, v) (List.mem_cons_self ..)
    obtain ⟨hk, hv⟩ : Known t ∧ v.length ≤ maxLen t := hp.len
    have hlen := frame_length hk v
    simp only [frames_cons, List.length_append] at hfu ⊢
    obtain ⟨fuel, rfl⟩ : ∃ f, fuel = f + 1 := ⟨fuel - 1, by omega⟩
    obtain ⟨e1, e2⟩ := decHeader_frame hk hv (frames l ++ rest)
    have hsz : (frame t v).length + (frames l).length - (1 + (getTuple t).lenBytes) - v.length = (frames l).length := by omega
    have hlib := hp.lib
    simp only [Lib, List.mem_cons, List.not_mem_nil, or_false] at hlib
    have h9 : ¬ t ≥ 9 := by rcases hlib with h | h | h | h | h | h | h <;> (rw [h]; decide)
    have go : optLoop Γ.env (fuel + 1) s f (frame t v ++ frames l ++ rest) ((frame t v).length + (frames l).length) =
        if (getTuple t).alwaysPresent then optLoop Γ.env fuel s f (frames l ++ rest) (frames l).length
        else match s.decTag Γ.env t (v ++ (frames l ++ rest)) v.length with
          | .ub u => .ub u
          | .err s _ => .ok s f
          | .ok s _ => optLoop Γ.env fuel s true (frames l ++ rest) (frames l).length := by
      rw [List.append_assoc]
      conv => lhs; unfold optLoop
      rw [if_neg (by omega), e1]
      dsimp only
      rw [if_neg h9, e2, List.drop_left, hsz]
      rfl
    rw [go]
    by_cases ha : (getTuple t).alwaysPresent = true
    · rw [if_pos ha]
      have hn : t ≠ 2 ∧ t ≠ 7 := ⟨by rintro rfl; simp [getTuple] at ha, by rintro rfl; simp [getTuple] at ha⟩
      obtain ⟨s2, f2, b1, b2, b3, b4, b5⟩ := ih (fun q hq => hl q (List.mem_cons_of_mem _ hq)) s fuel f (by omega) h
      refine ⟨s2, f2, b1, b2, ?_, ?_, ?_⟩
      · rintro (⟨q, hq, e⟩ | hg)
        · rcases List.mem_cons.1 hq with rfl | hq
          · exact absurd e hn.1
          · exact b3 (.inl ⟨q, hq, e⟩)
        · exact b3 (.inr hg)
      · rintro (⟨q, hq, e⟩ | hg)
        · rcases List.mem_cons.1 hq with rfl | hq
          · exact absurd e hn.2
          · exact b4 (.inl ⟨q, hq, e⟩)
        · exact b4 (.inr hg)
      · rintro (⟨q, hq, e⟩ | hg)
        · rcases List.mem_cons.1 hq with rfl | hq
          · exact absurd e hn.1
          · exact b5 (.inl ⟨q, hq, e⟩)
        · exact b5 (.inr hg)
    · rw [if_neg ha]
      have ht : t = 2 ∨ t = 3 ∨ t = 7 := by
        rcases hlib with h | h | h | h | h | h | h <;> simp [h, getTuple] at ha ⊢
      obtain ⟨s1, a1, a2, a3, a4⟩ := half_step hR h hp ht (frames l ++ rest)
      obtain ⟨s2, f2, b1, b2, b3, b4, b5⟩ := ih (fun q hq => hl q (List.mem_cons_of_mem _ hq)) s1 fuel true (by omega) a2
      rw [a1]
      refine ⟨s2, f2, b1, b2, ?_, ?_, fun _ => b5 (.inr rfl)⟩
      · rintro (⟨q, hq, e⟩ | hg)
        · rcases List.mem_cons.1 hq with rfl | hq
          · exact b3 (.inr (a3 (.inl e)))
          · exact b3 (.inl ⟨q, hq, e⟩)
        · exact b3 (.inr (a3 (.inr hg)))
      · rintro (⟨q, hq, e⟩ | hg)
        · rcases List.mem_cons.1 hq with rfl | hq
          · exact b4 (.inr (a4 (.inl e)))
          · exact b4 (.inl ⟨q, hq, e⟩)
        · exact b4 (.inr (a4 (.inr hg)))

/-- A SEI with public key and algorithm tells them. -/
theorem tellsFirst_of (hR : Γ.Reads) (rest : Bytes) (l : List (UInt8 × Bytes)) (hl : ∀ p ∈ l, Speaks Γ i p) (h2 : ∃ p ∈ l, p.1 = 2) (h7 : ∃ p ∈ l, p.1 = 7) :
    TellsFirst Γ (frames l ++ rest) (frames l).length := by
  intro s h hk
  have hh : Half Γ s := ⟨h.noList, h.same, h.max, .inl hk, by
    rcases h.left with ⟨-, ha⟩ | ⟨⟨hc, -, -⟩, -⟩
    · exact ha
    · rw [hk] at hc; cases hc⟩
  obtain ⟨s', f', a1, a2, a3, a4, a5⟩ := half_all hR rest l hl s _ false (Nat.le_refl _) hh
  obtain ⟨k1, k2, k3⟩ := a3 (.inl h2)
  obtain ⟨g1, g2, g3⟩ := a4 (.inl h7)
  refine ⟨s', ?_, ⟨rfl, g3, g2, g1, k1, k2, k3, a2.same, a2.max, a2.noList⟩⟩
  unfold findOptional
  rw [if_neg (frames_ne hl (by obtain ⟨p, hp, -⟩ := h2; exact List.ne_nil_of_mem hp)), a1, a5 (.inl h2)]

end Validator
end SV
