import Verif.Proofs.ShowOwn
import Verif.Props.Show
/-! C89 for SEIs of the library. -/
namespace SV.Props
open Spec Validator

/-- **C89 for SEIs made by the library**, with any settings, golden or not, but without vendor record: all of the TLV data is printed,
whatever the build and the manufacturer. Hash sizes have to fill the hash list, and key and algorithm have to be understood. -/
theorem C89_own_partial (env : AuthEnv) (vendor : Bool) (o : SeiOpts) (e0 e1 : EncState) (hz : SizesFit env.crypto.oidHashSize)
    (known : env.crypto.oidHashSize env.oid = some 32) (h0 : Fits e0) (h1 : Fits e1) (hm : e1.maxSignature = e0.maxSignature)
    (hv : o.vendor = false) (hc : CryptoOk env.crypto e0) :
    ∃ n rs, parseNalu (seiBytes o e0 e1) o.codec true true = .ok n ∧ showSei env vendor o.codec (seiBytes o e0 e1) = .ok rs ∧
      (rs.flatMap fun r => frame r.tag r.value) = n.tlvMem.take n.tlvSize ∧
      Shown env.crypto.oidHashSize 32 (rs.map fun r => (r.tag, r.value, r.lines)) := by
  obtain ⟨n, hr, -, -, hg, -, -, -, -, hs, hme, -⟩ := parse_complete o (seiTlv o e0 e1) o.epb (fun x => x) (seiTlv_bound h0 h1 o)
  rw [← seiBytes_eq h0 h1 o hm] at hr
  have hb : ∀ p ∈ seiItems o e0 ++ [(5, valSignature e1)], Known p.1 ∧ p.2.length ≤ maxLen p.1 := by
    intro q hq
    rcases List.mem_append.1 hq with hq | hq
    · exact seiItems_bound h0 o q hq
    · cases List.mem_singleton.1 hq
      exact ⟨by simp [Known], maxLen_ok (t := 5) h1 (by simp [Known])⟩
  have hl : ∀ p ∈ seiItems o e0, Clear env p := by
    intro p hp
    rw [sei_items_any _ hv] at hp
    have hnd : (optTags o ++ mandTags o).Nodup := List.Nodup.sublist (tags_sub o) (by decide)
    obtain ⟨f1, f2, e', f3, f4, ⟨c, k, f5⟩, -⟩ := items_from (fits_fallback h0 o) hnd p hp
    obtain ⟨l, f6⟩ := fallback_eq o e0
    have f7 := (tags_sub o).subset f2
    refine ⟨?_, ?_, f1, e', f3, f4, ?_, e0.hashSize, ?_⟩
    · simp only [Lib]
      revert f7
      simp only [List.mem_cons, List.not_mem_nil, or_false]
      rintro (h | h | h | h | h | h) <;> simp [h]
    · intro h; rw [h] at f7; revert f7; decide
    · intro k' hk'; rw [f5, f6] at hk'; exact hc.key k' hk'
    · rw [f5, f6]; exact hc.oid
  rw [seiTlv_eq] at hs hme
  obtain ⟨g1, g2⟩ := fields_frames [0x80] _ hb _ (Nat.le_refl _)
  have htags : ((seiItems o e0 ++ [(5, valSignature e1)]).map Prod.fst).Sublist [2, 3, 7, 1, 4, 6, 5] := by
    rw [List.map_append, sei_items_any _ hv]
    exact List.Sublist.append ((items_tags _ _).trans (tags_sub o)) (List.Sublist.refl [5])
  have key : vendor = true → KeyFirst (records n.tlvSize n.tlvMem n.tlvSize) ∧ ∀ r ∈ records n.tlvSize n.tlvMem n.tlvSize, r.1 ≠ 129 := by
    intro _
    rw [hs, hme]
    constructor
    · have : ((records (frames (seiItems o e0 ++ [(5, valSignature e1)])).length (frames (seiItems o e0 ++ [(5, valSignature e1)]) ++ [0x80])
          (frames (seiItems o e0 ++ [(5, valSignature e1)])).length).map Prod.fst).Pairwise fun a b => a = 3 → b ≠ 2 := by
        rw [g2]
        exact List.Pairwise.sublist htags (by decide)
      exact (List.pairwise_map.1 this).imp fun h ⟨h3, _⟩ => h h3
    · intro r hr' h
      have := List.mem_map_of_mem (f := Prod.fst) hr'
      rw [g2] at this
      have := htags.subset this
      rw [h] at this
      revert this
      decide
  have hp := C89_partial env vendor o.codec (seiBytes o e0 e1) n hz known hr hg key
  obtain ⟨s', hd⟩ := clear_all [0x80] h1 (seiItems o e0) hl (newValidator env o.codec) _ rfl (Nat.le_refl _)
  have hne : n.tlvSize ≠ 0 := by
    rw [hs, frames_append, List.length_append]
    have := frame_length (t := 5) (by simp [Known]) (valSignature e1)
    simp only [frames_cons, List.length_append]
    omega
  have hd' : Validator.tlvDecode env (newValidator env o.codec) n.tlvMem n.tlvSize = .ok s' () := by
    unfold Validator.tlvDecode
    rw [if_neg hne, hme, hs]
    exact hd
  rw [hd'] at hp
  obtain ⟨rs, r1, r2, r3⟩ := hp
  refine ⟨n, rs, hr, r1, ?_, r3⟩
  rw [hme, hs, List.take_left]
  rw [hme, hs, g1] at r2
  rw [← r2]
  simp [frames, List.flatMap_map]

/-- A session of a camera of Axis. -/
def axisSession : EncState := { exampleSession with product := { exampleSession.product with manufacturer := some axisText } }

theorem axisSession_fits : Fits axisSession :=
  { exampleSession_fits with mf := by unfold NoNul; decide }

/-- The hypotheses of `C89_own_partial` are met by a SEI with key, product information that names Axis and a hash list. -/
example : SizesFit exampleEnv.oidHashSize ∧ CryptoOk exampleEnv axisSession ∧
    ∃ n rs, parseNalu (seiBytes ⟨.h265, true, false, false, false, false, 0⟩ axisSession axisSession) .h265 true true = .ok n ∧
      showSei { toyEnv with crypto := exampleEnv } true .h265 (seiBytes ⟨.h265, true, false, false, false, false, 0⟩ axisSession axisSession) = .ok rs ∧
      (rs.flatMap fun r => frame r.tag r.value) = n.tlvMem.take n.tlvSize := by
  have hz : SizesFit exampleEnv.oidHashSize := by
    intro o n h
    cases h
    decide
  have hc : CryptoOk exampleEnv axisSession := ⟨fun _ _ => rfl, rfl⟩
  obtain ⟨n, rs, h1, h2, h3, -⟩ := C89_own_partial { toyEnv with crypto := exampleEnv } true ⟨.h265, true, false, false, false, false, 0⟩
    axisSession axisSession hz rfl axisSession_fits axisSession_fits rfl rfl hc
  exact ⟨hz, hc, n, rs, h1, h2, h3⟩

end SV.Props
