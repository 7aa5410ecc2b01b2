import Verif.Proofs.FlowTlv
/-! Validation of an undisturbed stream: the SEIs of the signer. -/
namespace SV
open Spec

/-- Where the values of the tags come from. -/
theorem items_from {ts : List UInt8} : ∀ {e : EncState}, Fits e → ts.Nodup → ∀ p ∈ items e ts, p.2 ≠ [] ∧ p.1 ∈ ts ∧
    ∃ e', Fits e' ∧ p.2 = valueBytes e' p.1 ∧ (∃ c k, e' = { e with gopCounter := c, hashType := k }) ∧ (p.1 = 1 → e'.gopCounter = e.gopCounter) := by
  induction ts with
  | nil => intro e _ _ p hp; cases hp
  | cons t ts ih =>
    intro e hf hn p hp
    obtain ⟨n1, n2⟩ := List.nodup_cons.1 hn
    unfold items at hp
    split at hp
    · next hc =>
      rcases List.mem_cons.1 hp with rfl | hp
      · exact ⟨hc.2, List.mem_cons_self .., e, hf, rfl, ⟨_, _, rfl⟩, fun _ => rfl⟩
      · obtain ⟨h1, h2, e', h3, h4, ⟨c, k, h5⟩, h6⟩ := ih (fits_afterWrite hf t) n2 p hp
        have haw : ∃ c k, afterWrite e t = { e with gopCounter := c, hashType := k } := by
          have := afterWrites_eq e [t]
          unfold afterWrites afterWrites at this
          rw [if_pos hc] at this
          exact this
        obtain ⟨c', k', haw⟩ := haw
        refine ⟨h1, List.mem_cons_of_mem _ h2, e', h3, h4, ⟨c, k, by rw [h5, haw]⟩, fun hp1 => ?_⟩
        rw [h6 hp1]
        have : t ≠ 1 := fun e => n1 (e ▸ hp1 ▸ h2)
        unfold afterWrite
        rw [if_neg (show ¬ t = tagGeneral from this)]
        split <;> rfl
    · obtain ⟨h1, h2, h3⟩ := ih hf n2 p hp
      exact ⟨h1, List.mem_cons_of_mem _ h2, h3⟩

/-- Which tags are written. -/
theorem items_has {ts : List UInt8} {t : UInt8} : ∀ {e : EncState}, Fits e → t ∈ ts → tagSelected e t = true → valueBytes e t ≠ [] → ∃ p ∈ items e ts, p.1 = t := by
  induction ts with
  | nil => intro e _ h; cases h
  | cons u ts ih =>
    intro e hf ht hs hv
    unfold items
    by_cases hu : u = t
    · subst hu
      rw [if_pos ⟨hs, hv⟩]
      exact ⟨_, List.mem_cons_self .., rfl⟩
    · have ht' : t ∈ ts := by
        rcases List.mem_cons.1 ht with h | h
        · exact absurd h.symm hu
        · exact h
      split
      · have hv' : valueBytes (afterWrite e u) t ≠ [] := by
          intro hc
          apply hv
          have h1 := valueSize_eq (fits_afterWrite hf u) t
          rw [hc, valueSize_afterWrite, valueSize_eq hf] at h1
          exact List.eq_nil_of_length_eq_zero h1
        obtain ⟨p, hp, e1⟩ := ih (fits_afterWrite hf u) ht' (by rw [tagSelected_afterWrite]; exact hs) hv'
        exact ⟨p, List.mem_cons_of_mem _ hp, e1⟩
      · exact ih hf ht' hs hv

theorem items_append (e : EncState) (a b : List UInt8) : items e (a ++ b) = items e a ++ items (afterWrites e a) b := by
  induction a generalizing e with
  | nil => rfl
  | cons t a ih =>
    rw [List.cons_append, items, items, afterWrites]
    split
    · rw [ih, List.cons_append]
    · exact ih e

/-- A SEI is never the first NAL unit of a GOP. -/
theorem parse_sei_first {data : Bytes} {c : Codec} {ct : Bool} {n : Nalu} (h : parseNalu data c ct true = .ok n) (hs : n.ntype = .sei) : n.firstInGop = false := by
  unfold parseNalu at h
  split at h
  · cases h; rfl
  · obtain ⟨⟨t, v, prim⟩, -, h⟩ := Out.bind_eq_ok h
    obtain ⟨size, -, h⟩ := Out.bind_eq_ok h
    dsimp only at h
    by_cases ht : t = .sei
    · subst ht
      rw [if_pos rfl] at h
      unfold parseSei at h
      obtain ⟨⟨ud, m1⟩, -, h⟩ := Out.bind_eq_ok h
      dsimp only at h
      split at h
      · obtain ⟨⟨ps, k⟩, -, h⟩ := Out.bind_eq_ok h
        dsimp only at h
        obtain ⟨⟨u, m2⟩, -, h⟩ := Out.bind_eq_ok h
        dsimp only at h
        rw [(removeEpb_ntype _ _ _ _ h).2.2.2.2.1]
        rfl
      · cases h; rfl
    · rw [if_neg ht] at h
      cases h
      exact absurd hs ht
  · cases h

/-- Only the bytes that are hashed change. -/
theorem updateHashable_only {n m : Nalu} (h : updateHashable n = .ok m) : m = { n with hashable := m.hashable } := by
  unfold updateHashable at h
  split at h
  · cases h; rfl
  · obtain ⟨k, -, h⟩ := Out.bind_eq_ok h
    split at h <;> (cases h; rfl)

namespace Validator

variable {Γ : Scene}

/-- What a SEI of the signer says. -/
def infoOf (o : SeiOpts) (e0 e1 : EncState) : SeiInfo :=
  ⟨e0.gopCounter + 1, e0.numNalus, e0.linkedHash, e0.gopHash, e1.signature, (seiStart o e0).1.bytes,
    if e0.frameLevel then ((applyFallback o e0).hashList.getD []) else []⟩

/-- The session that generates a SEI has the key and the algorithm of the stream. -/
structure FromSigner (Γ : Scene) (o : SeiOpts) (e0 e1 : EncState) : Prop where
  fits : Fits e0
  fits1 : Fits e1
  codec : o.codec = Γ.codec
  golden : o.golden = false
  usingGolden : o.usingGolden = false
  vendor : o.vendor = false
  max0 : e0.maxSignature = Γ.maxSig
  max1 : e1.maxSignature = Γ.maxSig
  key : e0.publicKey = some Γ.key
  oid : e0.oid = Γ.oid
  size : e0.hashSize = Γ.size
  noList : Γ.lists = false → e0.frameLevel = false

variable {o : SeiOpts} {e0 e1 : EncState}

theorem FromSigner.items (h : FromSigner Γ o e0 e1) : seiItems o e0 = items (applyFallback o e0) seiTags := by
  have hopt : optTags o = optionalTags := by simp [optTags, h.usingGolden]
  have hman : mandTags o = mandatoryTags := by simp [mandTags, h.golden]
  have hven : vendorTags o = [] := by simp [vendorTags, h.vendor]
  simp only [seiItems, hopt, hman, hven, seiTags, items_append, SV.items, List.append_nil]

theorem fallback_eq (o : SeiOpts) (e : EncState) : ∃ l, applyFallback o e = { e with hashList := l } := by
  unfold applyFallback
  split
  · exact ⟨none, rfl⟩
  · exact ⟨e.hashList, rfl⟩

theorem FromSigner.speaks (h : FromSigner Γ o e0 e1) : ∀ p ∈ seiItems o e0 ++ [(5, valSignature e1)], Speaks Γ (infoOf o e0 e1) p := by
  intro p hp
  rcases List.mem_append.1 hp with hp | hp
  · rw [h.items] at hp
    obtain ⟨h1, h2, e', h3, h4, ⟨c, k, h5⟩, h6⟩ := items_from (fits_fallback h.fits o) (by simp only [seiTags, optionalTags, mandatoryTags]; decide) p hp
    obtain ⟨l, hl⟩ := fallback_eq o e0
    rw [hl] at h5 h6
    refine ⟨seiTags_lib _ h2, h1, ?_, e', h3, h4, ?_, ?_, ?_, ?_, ?_⟩
    · intro hx hp4
      apply h1
      rw [h4, hp4]
      show valHashList e' = []
      have : e'.frameLevel = false := by rw [h5]; exact h.noList hx
      unfold valHashList
      rw [this]
      cases e'.hashList <;> simp
    · intro hp1
      refine ⟨?_, ?_, ?_, ?_, ?_⟩
      · rw [h6 hp1]; rfl
      all_goals rw [h5]
      · rfl
      · rfl
      · rfl
      · exact h.size
    · intro hp2
      have hk : e'.publicKey = some Γ.key := by rw [h5]; exact h.key
      refine ⟨hk, ?_⟩
      rw [hp2] at h4
      cases ha : e'.addPublicKey with
      | true => rfl
      | false =>
        exfalso
        apply h1
        rw [h4]
        show valPublicKey e' = []
        simp [valPublicKey, ha]
    · intro hp5
      rw [hp5] at h2
      exact absurd h2 (by simp only [seiTags, optionalTags, mandatoryTags]; decide)
    · intro _
      rw [h5]; exact h.oid
    · intro hp4
      have hv : valHashList e' ≠ [] := by
        intro hc
        apply h1
        rw [h4, hp4]; exact hc
      have e1 : e'.hashList = l := by rw [h5]
      have e2 : e'.frameLevel = e0.frameLevel := by rw [h5]
      show e'.hashList = some (if e0.frameLevel = true then (applyFallback o e0).hashList.getD [] else [])
      rw [hl, ← e1, ← e2]
      unfold valHashList at hv
      cases hh : e'.hashList with
      | none => rw [hh] at hv; exact absurd rfl hv
      | some k =>
        cases hg : e'.frameLevel with
        | true => rfl
        | false => rw [hh, hg] at hv; exact absurd (by simp) hv
  · rw [List.mem_singleton] at hp
    subst hp
    refine ⟨by simp [Lib], by simp [valSignature], fun _ => by simp, e1, h.fits1, rfl, fun h => absurd h (by simp), fun h => absurd h (by simp), fun _ => ⟨rfl, h.max1⟩,
      fun h => absurd h (by simp), fun h => absurd h (by simp)⟩

theorem seiTlv_eq (o : SeiOpts) (e0 e1 : EncState) : seiTlv o e0 e1 = frames (seiItems o e0 ++ [(5, valSignature e1)]) := by
  rw [frames_append]; simp [seiTlv, sigFrame, frames]

theorem seiStart_ne (h : Fits e0) : (seiStart o e0).1.bytes ≠ [] := by
  rw [(seiStart_eq h o).1]
  intro hc
  have := congrArg List.length hc
  rw [List.length_append, seiHead_length] at this
  simp at this

/-- A SEI of the signer. -/
theorem isSei_of (hR : Γ.Reads) (h : FromSigner Γ o e0 e1) (hepb : epbsBefore o e0 < 8 + Γ.maxSig) (hsig : e1.signature ≠ [])
    (hver : Γ.env.verify Γ.key e1.signature (Γ.H (seiStart o e0).1.bytes) = 1) :
    ∃ n m, parseNalu (seiBytes o e0 e1) Γ.codec true true = .ok n ∧ IsSei Γ (infoOf o e0 e1) n m ∧ n.reserved &&& 0x30 ≠ 0 ∧
      (e0.recurrent = true → e0.addPublicKey = true → Γ.oid ≠ [] → TellsFirst Γ n.tlvMem n.tlvSize) := by
  have hm : e1.maxSignature = e0.maxSignature := h.max1.trans h.max0.symm
  obtain ⟨r, hr, hv, ht, hg, hh, hgo, he, hre, hs, hmem, ho, hst, hd⟩ := parse_complete o (seiTlv o e0 e1) o.epb (fun x => x) (seiTlv_bound h.fits h.fits1 o)
  obtain ⟨r', h2, h3⟩ := updateHashable_eq h.fits h.fits1 o hm r hg hh he hs ho hst hd
  rw [h.max1, if_pos hepb] at h3
  have hsp := h.speaks
  have hT := seiTlv_eq o e0 e1
  have hne : (seiTlv o e0 e1).length ≠ 0 := by
    rw [hT]; exact frames_ne hsp (by simp)
  have hf := fits_fallback h.fits o
  obtain ⟨l, hl⟩ := fallback_eq o e0
  refine ⟨r, r', ?_, ⟨hg, hh, by rw [hv]; decide, hgo.trans h.golden, parse_sei_first hr ht, by rw [hs]; exact hne, ?_, ?_, ?_, h2, ?_, seiStart_ne h.fits, hsig, hver⟩, ?_, ?_⟩
  · rw [seiBytes_eq h.fits h.fits1 o hm, ← h.codec]; exact hr
  · rw [hs, hmem, List.length_append]; omega
  · have b1 := frames_bound _ (seiItems_bound h.fits o)
    have b2 := seiItems_length o e0
    have b3 := sigFrame_length h.fits1
    have b4 := h.fits1.maxSig
    rw [hs]
    simp only [seiTlv, List.length_append]; omega
  · rw [hmem, hs, hT]
    refine tells_of hR [0x80] _ hsp ?_ ⟨(5, valSignature e1), by simp, rfl⟩ fun hx => ?_
    have : ∃ p ∈ seiItems o e0, p.1 = 1 := by
      rw [h.items]
      exact items_has hf (by simp only [seiTags, optionalTags, mandatoryTags]; decide) rfl (by show valGeneral _ ≠ []; simp [valGeneral])
    · obtain ⟨p, hp, e⟩ := this
      exact ⟨p, List.mem_append_left _ hp, e⟩
    · have hq : (if e0.frameLevel = true then (applyFallback o e0).hashList.getD [] else []) ≠ [] := hx
      have : ∃ p ∈ seiItems o e0, p.1 = 4 := by
        rw [h.items]
        refine items_has hf (by simp only [seiTags, optionalTags, mandatoryTags]; decide) ?_ ?_
        · simp [tagSelected, getTuple]
        · show valHashList _ ≠ []
          have hfl : (applyFallback o e0).frameLevel = e0.frameLevel := by rw [hl]
          unfold valHashList
          cases hg : e0.frameLevel with
          | false => rw [hg] at hq; exact absurd rfl hq
          | true =>
            rw [hg, if_pos rfl] at hq
            cases hh : (applyFallback o e0).hashList with
            | none => rw [hh] at hq; exact absurd rfl hq
            | some k =>
              rw [hh] at hq
              dsimp only
              rw [hfl, hg, if_neg]
              · simp
              · simp at hq ⊢; exact hq
      obtain ⟨p, hp, e⟩ := this
      exact ⟨p, List.mem_append_left _ hp, e⟩
  · rw [updateHashable_only h2, h3]; rfl
  · rw [hre]
    unfold reservedByte
    cases o.epb <;> cases o.golden <;> cases o.gopHashOff <;> decide
  · intro hrec hadd hoid
    rw [hmem, hs, hT]
    have h2 : ∃ p ∈ seiItems o e0, p.1 = 2 := by
      rw [h.items]
      refine items_has hf (by simp only [seiTags, optionalTags, mandatoryTags]; decide) ?_ ?_
      · rw [hl]; simp [tagSelected, getTuple, hrec]
      · show valPublicKey _ ≠ []
        rw [hl]
        simp [valPublicKey, h.key, hadd]
    have h7 : ∃ p ∈ seiItems o e0, p.1 = 7 := by
      rw [h.items]
      refine items_has hf (by simp only [seiTags, optionalTags, mandatoryTags]; decide) ?_ ?_
      · rw [hl]; simp [tagSelected, getTuple, hrec]
      · show valCrypto _ ≠ []
        rw [hl]
        simp [valCrypto, h.oid, hoid]
    obtain ⟨p, hp, e⟩ := h2
    obtain ⟨p', hp', e'⟩ := h7
    exact tellsFirst_of hR [0x80] _ hsp ⟨p, List.mem_append_left _ hp, e⟩ ⟨p', List.mem_append_left _ hp', e'⟩

end Validator
end SV
