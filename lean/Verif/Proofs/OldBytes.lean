import Verif.Proofs.OldTlv
import Verif.Proofs.SeiParse
import Verif.Proofs.FlowSigner
/-! Validation of an undisturbed stream of the older format: parsing a SEI. -/
namespace SV
open Spec
namespace Old

/-- A SEI up to its TLVs. -/
def head (c : Codec) (n : Nat) : Bytes := seiHeader c ++ sizeField n ++ uuid ++ [0]

theorem head_length (c : Codec) (n : Nat) : (head c n).length = headerLen c + 1 + (n / 255 + 1) + 17 := by
  cases c <;> simp [head, seiHeader, sizeField_length, uuid, headerLen] <;> omega

theorem NoZZ_old (c : Codec) (n : Nat) (p : UInt8) : NoZZ p (head c n) := by
  unfold head
  rw [List.append_assoc, NoZZ_append]
  refine ⟨NoZZ_header c n p, ?_⟩
  rw [NoZZ_append]
  exact ⟨NoZZ_of_pos _ _ (by decide), fun hc => absurd hc.1 (by show (0x30 : UInt8) ≠ 0; decide), trivial⟩

theorem old_reg (c : Codec) (n : Nat) (s : L2) : s.pushAll (head c n) = ⟨0x30, 0⟩ := by
  unfold head
  rw [L2.pushAll_append, L2.pushAll_append, pushAll_uuid]; rfl

/-- What `parse_nalu_info` knows about the SEI before looking at emulation prevention. -/
def info (c : Codec) (n : Nat) (Y : Bytes) (last : UInt8) : Nalu :=
  { startCode := 1, valid := 1, ntype := .sei, hashable := head c n ++ Y, isHashable := true, gopSei := true,
    payloadSize := n,
    epbs := ((head c n ++ Y).length : Int) - ((headerLen c + 1 + (n / 255 + 1) : Nat) : Int) - n -
      (if last = 0x80 then 1 else 0) }

theorem parseSei_old (c : Codec) (n : Nat) (Y : Bytes) (last : UInt8) (i : Nalu)
    (hi : i = { startCode := 1, valid := 1, ntype := .sei, hashable := head c n ++ Y }) :
    parseSei c true i (head c n ++ Y) last = removeEpb (info c n Y last) (head c n ++ Y) (headerLen c + 1 + (n / 255 + 1)) := by
  have hd : (head c n ++ Y).drop (headerLen c) = 5 :: (sizeField n ++ (uuid ++ ([0] ++ Y))) := by
    cases c <;> simp [head, seiHeader, headerLen]
  have hd2 : (head c n ++ Y).drop (headerLen c + 1 + (n / 255 + 1)) = uuid ++ ([0] ++ Y) := by
    rw [Nat.add_assoc, ← List.drop_drop, hd, ← List.drop_drop, List.drop_one, List.tail_cons, ← sizeField_length]
    simp
  have hu : rdN 16 (uuid ++ ([0] ++ Y)) = .ok (uuid, [0] ++ Y) := rdN_append uuid _
  subst hi
  unfold parseSei
  simp only [hd, rd8_cons, Out.bind_ok, if_true, payloadSizeField_eq, hd2, hu, beq_self_eq_true, Bool.and_self]
  rfl

theorem parseNalu_old (c : Codec) (n : Nat) (Y : Bytes) :
    parseNalu (startCode4 ++ (head c n ++ (Y ++ [0x80]))) c true true =
      removeEpb (info c n (Y ++ [0x80]) 0x80) (head c n ++ (Y ++ [0x80])) (headerLen c + 1 + (n / 255 + 1)) := by
  have hsize : trimmedLen (startCode4 ++ (head c n ++ (Y ++ [0x80]))) = Out.ok (startCode4 ++ (head c n ++ (Y ++ [0x80]))).length := by
    rw [← List.append_assoc (head c n), ← List.append_assoc startCode4, trimmedLen_eq _ _ (by decide)]
    simp only [List.length_append, List.length_singleton]
  have hhead : parseHeader c (head c n ++ (Y ++ [0x80])) = .ok (.sei, true, false) := by
    cases c <;> simp only [head, seiHeader, List.cons_append] <;> rfl
  have hlast : (startCode4 ++ (head c n ++ (Y ++ [0x80]))).getD ((startCode4 ++ (head c n ++ (Y ++ [0x80]))).length - 1) 0 = 0x80 := by
    rw [← List.append_assoc (head c n), ← List.append_assoc startCode4]
    generalize startCode4 ++ (head c n ++ Y) = q
    simp
  have hdrop : (startCode4 ++ (head c n ++ (Y ++ [0x80]))).drop 4 = head c n ++ (Y ++ [0x80]) := rfl
  have htake : (head c n ++ (Y ++ [0x80])).take ((startCode4 ++ (head c n ++ (Y ++ [0x80]))).length - 4) = head c n ++ (Y ++ [0x80]) := by
    apply List.take_of_length_le; simp [startCode4]
  have hs : startCode 0 0 0 1 = (4, 1) := rfl
  generalize hm : head c n ++ (Y ++ [0x80]) = m at *
  have he : startCode4 ++ m = 0 :: 0 :: 0 :: 1 :: m := rfl
  rw [he] at hsize hdrop htake hlast ⊢
  simp only [parseNalu, hs, hdrop, hhead, Out.bind_ok, hsize, htake, if_true, hlast]
  rw [← hm]
  exact parseSei_old c n _ _ _ (by subst hm; rfl)

/-- The result of parsing a SEI with TLVs `T`. -/
theorem parse_old (c : Codec) (T : Bytes) (hT : T.length + 17 < 2 ^ 64) :
    ∃ r, parseNalu (startCode4 ++ ((writeBytes true L2.init (head c (17 + T.length) ++ T)).1 ++ [0x80])) c true true = .ok r ∧
      r.valid = 1 ∧ r.ntype = .sei ∧ r.gopSei = true ∧ r.isHashable = true ∧ r.golden = false ∧
      r.withEpb = false ∧ r.reserved = 0 ∧ r.tlvSize = T.length ∧ r.tlvMem = T ++ [0x80] ∧
      r.tlvOff = (head c (17 + T.length)).length ∧ r.tlvStart = T ++ [0x80] ∧
      r.hashable = head c (17 + T.length) ++ r.tlvStart := by
  have hlen := head_length c (17 + T.length)
  obtain ⟨h1, h2⟩ := writeBytes_noZZ true L2.init rfl (head c (17 + T.length)) (NoZZ_old c _ _)
  rw [old_reg] at h2
  have hsplit : (writeBytes true L2.init (head c (17 + T.length) ++ T)).1 = head c (17 + T.length) ++ (writeBytes true ⟨0x30, 0⟩ T).1 := by
    rw [writeBytes_append]
    simp only [h1, h2]
  have hread : ∃ t, readMany true L2.init ((head c (17 + T.length)).length + (T.length + 1))
      (head c (17 + T.length) ++ ((writeBytes true ⟨0x30, 0⟩ T).1 ++ [0x80])) =
      some (head c (17 + T.length) ++ (T ++ [0x80]), t, []) := by
    have hw : (writeBytes true L2.init (head c (17 + T.length) ++ (T ++ [0x80]))).1 =
        head c (17 + T.length) ++ ((writeBytes true ⟨0x30, 0⟩ T).1 ++ [0x80]) := by
      rw [writeBytes_append, writeBytes_append]
      simp only [h1, h2]
      simp [writeBytes, writeByte_stop]
    obtain ⟨t, ht, _⟩ := readMany_writeBytes true (L2.Sim.refl L2.init) (head c (17 + T.length) ++ (T ++ [0x80])) []
    rw [List.append_nil, hw] at ht
    simp only [List.length_append, List.length_singleton] at ht
    exact ⟨t, ht⟩
  obtain ⟨tr, hread⟩ := hread
  rw [hsplit, List.append_assoc, parseNalu_old]
  have hdrop : (head c (17 + T.length) ++ ((writeBytes true ⟨0x30, 0⟩ T).1 ++ [0x80])).drop
      (headerLen c + 1 + ((17 + T.length) / 255 + 1) + 16) = 0 :: ((writeBytes true ⟨0x30, 0⟩ T).1 ++ [0x80]) := by
    have : headerLen c + 1 + ((17 + T.length) / 255 + 1) + 16 = (seiHeader c ++ sizeField (17 + T.length) ++ uuid).length := by
      have h2 : (head c (17 + T.length)).length = (seiHeader c ++ sizeField (17 + T.length) ++ uuid).length + 1 := by
        simp only [head, List.length_append, List.length_singleton]
      omega
    rw [this, head, List.append_assoc (_ ++ uuid), List.drop_left, List.singleton_append]
  unfold removeEpb
  have hi : (!(info c (17 + T.length) ((writeBytes true ⟨0x30, 0⟩ T).1 ++ [0x80]) 0x80).isHashable ||
      !(info c (17 + T.length) ((writeBytes true ⟨0x30, 0⟩ T).1 ++ [0x80]) 0x80).gopSei ||
      decide ((info c (17 + T.length) ((writeBytes true ⟨0x30, 0⟩ T).1 ++ [0x80]) 0x80).valid ≤ 0)) = false := rfl
  rw [hi, if_neg (by decide), hdrop]
  have hsz : (17 + T.length + (2 ^ 64 - 17)) % 2 ^ 64 = T.length := by omega
  have hge := writeBytes_length_ge true ⟨0x30, 0⟩ T
  have hepb : (info c (17 + T.length) ((writeBytes true ⟨0x30, 0⟩ T).1 ++ [0x80]) 0x80).epbs =
      ((writeBytes true ⟨0x30, 0⟩ T).1.length : Int) - T.length := by
    simp only [info, List.length_append, hlen, List.length_singleton, if_true]
    omega
  have hb1 : ((0 : UInt8) &&& 0x80 != 0) = false := by decide
  have hb2 : ((0 : UInt8) &&& 0x40 != 0) = false := by decide
  by_cases hE : (writeBytes true ⟨0x30, 0⟩ T).1.length = T.length
  · have heq := writeBytes_length_eq _ _ _ hE
    simp only [hepb, hE, Int.sub_self, Int.le_refl, if_true]
    refine ⟨_, rfl, rfl, rfl, rfl, rfl, hb2, hb1, rfl, hsz, ?_, ?_, ?_, rfl⟩
    · simp only [heq]
    · simp only; omega
    · simp only [heq]
  · have hpos : ¬ ((writeBytes true ⟨0x30, 0⟩ T).1.length : Int) - T.length ≤ 0 := by omega
    have hds : headerLen c + 1 + ((17 + T.length) / 255 + 1) +
        (info c (17 + T.length) ((writeBytes true ⟨0x30, 0⟩ T).1 ++ [0x80]) 0x80).payloadSize + 1 =
        (head c (17 + T.length)).length + (T.length + 1) := by
      rw [hlen]; simp only [info]; omega
    have hdl : ∀ Z : Bytes, (head c (17 + T.length) ++ Z).drop
        (headerLen c + 1 + ((17 + T.length) / 255 + 1) + 17) = Z := by
      intro Z; rw [← hlen, List.drop_left]
    simp only [hepb, hpos, if_false, hds]
    rw [hread]
    simp only [hdl, hb1]
    refine ⟨_, rfl, rfl, rfl, rfl, rfl, hb2, rfl, rfl, hsz, rfl, ?_, rfl, rfl⟩
    simp only; omega

/-! ### The SEIs of a stream -/
open Validator (Scene)

variable {Γ : Scene}

/-- The contents of a SEI. -/
def infoOf (s : OldSei) : Info := ⟨s.e.gopCounter, s.e.numNalus, s.e.hashType, s.e.hashList.getD [], s.e.signature⟩

theorem tlvs_eq (l : List (UInt8 × Bytes)) : tlvs l = frames l := by
  unfold tlvs frames
  rw [List.flatMap_def]

theorem says_signed (hl : Γ.lists = true) (ho : Γ.oid = Γ.env.oid) {s : OldSei} (h : s.Proper Γ.env Γ.key Γ.maxSig) {p : UInt8 × Bytes} (hp : p ∈ s.signed) : Says Γ (infoOf s) p ∧ p.1 ≠ 5 := by
  obtain ⟨t, ht, rfl⟩ := List.mem_map.1 hp
  have h1 := h.tags t ht
  have h2 := h.values t ht
  simp only [List.mem_cons, List.not_mem_nil, or_false] at h1
  refine ⟨⟨?_, h2, (by intro hc; rw [hl] at hc; cases hc), ?_, ?_⟩, ?_⟩
  · rcases h1 with rfl | rfl | rfl | rfl | rfl | rfl <;> simp [Lib]
  · intro e
    change t = 1 at e
    refine ⟨s, ?_, rfl, rfl⟩
    show s.value t = _
    unfold OldSei.value
    rw [if_pos e]
  · intro e
    change t ≠ 1 at e
    have hv : s.value t = valueBytes s.e t := by unfold OldSei.value; rw [if_neg e]
    rw [hv] at h2
    refine ⟨s.e, h.fits, hv, ?_, ?_, ?_, ?_⟩
    · rintro rfl
      refine ⟨h.key ht, ?_⟩
      change valPublicKey s.e ≠ [] at h2
      cases ha : s.e.addPublicKey with
      | true => rfl
      | false => exact absurd (by simp [valPublicKey, h.key ht, ha]) h2
    · rintro rfl; rcases h1 with h | h | h | h | h | h <;> cases h
    · rintro rfl; exact (h.oid ht).trans ho.symm
    · rintro rfl
      change valHashList s.e ≠ [] at h2
      cases hx : s.e.hashList with
      | none => exact absurd (by simp [valHashList, hx]) h2
      | some l => show some l = some (s.e.hashList.getD []); rw [hx]; rfl
  · rintro e
    change t = 5 at e
    subst e
    rcases h1 with h | h | h | h | h | h <;> cases h

theorem says_last (hl : Γ.lists = true) {s : OldSei} (h : s.Proper Γ.env Γ.key Γ.maxSig) : Says Γ (infoOf s) (5, valueBytes s.e 5) := by
  refine ⟨by simp [Lib], ?_, (by intro hc; rw [hl] at hc; cases hc), (by intro e; cases e), fun _ => ⟨s.e, h.fits, rfl, (by intro e; cases e), fun _ => ⟨rfl, h.max, rfl⟩, (by intro e; cases e), (by intro e; cases e)⟩⟩
  show valSignature s.e ≠ []
  rw [valSignature_eq h.fits]
  simp

theorem bytes_eq (s : OldSei) (c : Codec) :
    s.bytes c = startCode4 ++ ((writeBytes true L2.init (head c (17 + (frames (s.signed ++ [(5, valueBytes s.e 5)])).length) ++ frames (s.signed ++ [(5, valueBytes s.e 5)]))).1 ++ [0x80]) ∧
    s.doc c = head c (17 + (frames (s.signed ++ [(5, valueBytes s.e 5)])).length) ++ frames s.signed := by
  have e : frames (s.signed ++ [(5, valueBytes s.e 5)]) = tlvs s.signed ++ s.last := by
    rw [tlvs_eq, frames, List.flatMap_append]
    congr 1
    simp [OldSei.last]
  have e2 : s.doc c = head c (17 + (frames (s.signed ++ [(5, valueBytes s.e 5)])).length) ++ frames s.signed := by
    rw [e, List.length_append, ← Nat.add_assoc, ← tlvs_eq]; rfl
  refine ⟨?_, e2⟩
  unfold OldSei.bytes
  rw [e2, List.append_assoc, List.append_assoc, e, tlvs_eq]

/-- A SEI of the stream. -/
theorem isOld (hR : Γ.Reads) (hl : Γ.lists = true) (ho : Γ.oid = Γ.env.oid) {s : OldSei} (h : s.Proper Γ.env Γ.key Γ.maxSig) (h4 : s.e.hashType = 1 → 4 ∈ s.tags) :
    ∃ n m, parseNalu (s.bytes Γ.codec) Γ.codec true true = .ok n ∧ IsOld Γ (infoOf s) (s.doc Γ.codec) n m ∧ n.reserved = 0 ∧
      (2 ∈ s.tags → Validator.TellsFirst Γ n.tlvMem n.tlvSize) := by
  obtain ⟨L, hL⟩ : ∃ L, L = s.signed ++ [(5, valueBytes s.e 5)] := ⟨_, rfl⟩
  obtain ⟨e1, e2⟩ := bytes_eq s Γ.codec
  rw [← hL] at e1 e2
  have hsay : ∀ p ∈ L, Says Γ (infoOf s) p := by
    intro p hp
    rw [hL] at hp
    rcases List.mem_append.1 hp with hp | hp
    · exact (says_signed hl ho h hp).1
    · rw [List.mem_singleton.1 hp]; exact says_last hl h
  have hlast : (frame 5 (valueBytes s.e 5)).length = 8 + Γ.maxSig := by
    have := sigFrame_length h.fits
    rw [h.max] at this
    exact this
  have hLf : frames L = frames s.signed ++ frame 5 (valueBytes s.e 5) := by
    rw [hL, frames, List.flatMap_append]
    congr 1
    simp
  have hmax : Γ.maxSig ≤ 65530 := by rw [← h.max]; exact h.fits.maxSig
  have hsm := h.small
  rw [tlvs_eq] at hsm
  have hLl : (frames L).length = (frames s.signed).length + (8 + Γ.maxSig) := by rw [hLf, List.length_append, hlast]
  obtain ⟨n, g1, g2, g3, g4, g5, g6, g7, g8, g9, g10, g11, g12, g13⟩ := parse_old Γ.codec (frames L) (by omega)
  have htags : ∀ t ∈ s.tags, ∃ p ∈ L, p.1 = t := by
    intro t ht
    refine ⟨(t, s.value t), ?_, rfl⟩
    rw [hL, List.mem_append]
    exact .inl (List.mem_map_of_mem ht)
  have h5 : ∃ p ∈ L, p.1 = 5 := ⟨(5, valueBytes s.e 5), by rw [hL]; simp, rfl⟩
  have hup : updateHashable n = .ok { n with hashable := s.doc Γ.codec } := by
    unfold updateHashable
    have hf := findTagLoop_frames false (s := L2.init) (r := L2.init) (L2.Sim.refl L2.init) 5 s.signed
      (fun p hp => ⟨(says_signed hl ho h hp).1.len.1, (says_signed hl ho h hp).1.len.2, (says_signed hl ho h hp).2⟩)
      (valueBytes s.e 5) [0x80] (frames L).length (frames L).length 0 (by omega)
    simp only [writeBytes_false, Nat.zero_add] at hf
    rw [← hLf, if_pos (by omega)] at hf
    have hfind : findTag n.tlvStart n.tlvSize tagSignature n.withEpb = .ok (some (frames s.signed).length) := by
      unfold findTag
      rw [g9, g12, g7, if_neg (by omega)]
      exact hf
    have hcut : n.hashable.take (n.tlvOff + (frames s.signed).length) = s.doc Γ.codec := by
      rw [g11, g13, g12, e2]
      conv => lhs; arg 2; arg 2; rw [hLf]
      rw [List.append_assoc, ← List.append_assoc (head _ _), ← List.length_append, List.take_left]
    rw [if_neg (by rw [g5, g4]; decide), hfind]
    simp only [Out.bind_ok, hcut]
  refine ⟨n, _, by rw [e1]; exact g1, ⟨g4, g5, by rw [g2]; decide, g6, parse_sei_first g1 g3, by rw [g9]; omega, by rw [g9, g10]; simp, by rw [g9]; omega, ?_, hup, rfl, ?_⟩, g8, ?_⟩
  · rw [g9, g10, List.take_left]
    exact tells_of hR L hsay (htags 1 h.general) h5 fun hx => htags 4 (h4 hx)
  · rw [e2]
    cases hc : Γ.codec <;> simp [head, seiHeader]
  · intro h2
    rw [g9, g10]
    exact tellsFirst_of hR ho _ L hsay (htags 2 h2)

end Old
end SV
