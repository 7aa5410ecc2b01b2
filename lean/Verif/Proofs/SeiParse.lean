import Verif.Proofs.Sei
import Verif.Proofs.Bytes
/-! Lemmas on parsing the SEIs written by the library. -/
namespace SV
open Spec

theorem payloadSizeField_replicate (k : Nat) (m : Bytes) (p : Nat × Nat) (h : payloadSizeField m = .ok p) :
    payloadSizeField (List.replicate k 0xFF ++ m) = .ok (255 * k + p.1, k + p.2) := by
  induction k with
  | zero => simpa using h
  | succ k ih =>
    rw [List.replicate_succ, List.cons_append, payloadSizeField, if_pos rfl, ih]
    simp only [Out.bind]
    congr 2 <;> omega

theorem payloadSizeField_eq (n : Nat) (m : Bytes) :
    payloadSizeField (sizeField n ++ m) = .ok (n, n / 255 + 1) := by
  have hlt : n % 255 < 255 := Nat.mod_lt _ (by decide)
  have hne : ¬ (UInt8.ofNat (n % 255)) = 0xFF := by
    intro h
    have := congrArg UInt8.toNat h
    rw [UInt8.toNat_ofNat'] at this
    have h2 : (0xFF : UInt8).toNat = 255 := rfl
    omega
  have h1 : payloadSizeField (UInt8.ofNat (n % 255) :: m) = .ok (n % 255, 1) := by
    rw [payloadSizeField, if_neg hne]
    congr 2
    rw [UInt8.toNat_ofNat']; omega
  unfold sizeField
  rw [List.append_assoc]
  have := payloadSizeField_replicate (n / 255) _ _ h1
  rw [List.singleton_append, this]
  congr 2
  omega

theorem sizeField_length (n : Nat) : (sizeField n).length = n / 255 + 1 := by simp [sizeField]

theorem seiHead_length (o : SeiOpts) (n : Nat) :
    (seiHead o n).length = headerLen o.codec + 1 + (n / 255 + 1) + 17 := by
  cases hc : o.codec <;> simp [seiHead, seiHeader, sizeField_length, uuid, headerLen, hc] <;> omega

theorem trimmedLen_eq (data : Bytes) (b : UInt8) (hb : b ≠ 0) : trimmedLen (data ++ [b]) = .ok (data.length + 1) := by
  simp [trimmedLen, hb]

/-- What `parse_nalu_info` knows about a SEI of the library before looking at emulation prevention. -/
def seiInfo (o : SeiOpts) (n : Nat) (Y : Bytes) (last : UInt8) : Nalu :=
  { startCode := 1, valid := 1, ntype := .sei, hashable := seiHead o n ++ Y, isHashable := true, gopSei := true,
    payloadSize := n,
    epbs := ((seiHead o n ++ Y).length : Int) - ((headerLen o.codec + 1 + (n / 255 + 1) : Nat) : Int) - n -
      (if last = 0x80 then 1 else 0) }

theorem parseSei_head (o : SeiOpts) (n : Nat) (Y : Bytes) (last : UInt8) (i : Nalu)
    (hi : i = { startCode := 1, valid := 1, ntype := .sei, hashable := seiHead o n ++ Y }) :
    parseSei o.codec true i (seiHead o n ++ Y) last =
      removeEpb (seiInfo o n Y last) (seiHead o n ++ Y) (headerLen o.codec + 1 + (n / 255 + 1)) := by
  have hd : (seiHead o n ++ Y).drop (headerLen o.codec) = 5 :: (sizeField n ++ (uuid ++ ([reservedByte o] ++ Y))) := by
    cases hc : o.codec <;> simp [seiHead, seiHeader, headerLen, hc]
  have hd2 : (seiHead o n ++ Y).drop (headerLen o.codec + 1 + (n / 255 + 1)) = uuid ++ ([reservedByte o] ++ Y) := by
    rw [Nat.add_assoc, ← List.drop_drop, hd, ← List.drop_drop, List.drop_one, List.tail_cons, ← sizeField_length]
    simp
  have hu : rdN 16 (uuid ++ ([reservedByte o] ++ Y)) = .ok (uuid, [reservedByte o] ++ Y) := rdN_append uuid _
  subst hi
  unfold parseSei
  simp only [hd, rd8_cons, Out.bind_ok, if_true, payloadSizeField_eq, hd2, hu, beq_self_eq_true, Bool.and_self]
  rfl

theorem parseNalu_sei (o : SeiOpts) (n : Nat) (Y : Bytes) (ct : Bool)
    (hct : ct = true → ∃ Y' b, Y = Y' ++ [b] ∧ b ≠ 0) :
    parseNalu (startCode4 ++ (seiHead o n ++ Y)) o.codec ct true =
      removeEpb (seiInfo o n Y ((startCode4 ++ (seiHead o n ++ Y)).getD
        ((startCode4 ++ (seiHead o n ++ Y)).length - 1) 0)) (seiHead o n ++ Y)
        (headerLen o.codec + 1 + (n / 255 + 1)) := by
  have hsize : (if ct then trimmedLen (startCode4 ++ (seiHead o n ++ Y)) else
      Out.ok (startCode4 ++ (seiHead o n ++ Y)).length) = Out.ok (startCode4 ++ (seiHead o n ++ Y)).length := by
    cases ct with
    | false => rfl
    | true =>
      obtain ⟨Y', b, rfl, hb⟩ := hct rfl
      rw [if_pos rfl, ← List.append_assoc (seiHead o n), ← List.append_assoc startCode4, trimmedLen_eq _ _ hb]
      simp only [List.length_append, List.length_singleton]
  have hhead : parseHeader o.codec (seiHead o n ++ Y) = .ok (.sei, true, false) := by
    cases hc : o.codec <;> simp only [seiHead, hc, seiHeader, List.cons_append] <;> rfl
  have hdrop : (startCode4 ++ (seiHead o n ++ Y)).drop 4 = seiHead o n ++ Y := rfl
  have htake : (seiHead o n ++ Y).take ((startCode4 ++ (seiHead o n ++ Y)).length - 4) = seiHead o n ++ Y := by
    apply List.take_of_length_le; simp [startCode4]
  have hs : startCode 0 0 0 1 = (4, 1) := rfl
  generalize hm : seiHead o n ++ Y = m at *
  have he : startCode4 ++ m = 0 :: 0 :: 0 :: 1 :: m := rfl
  rw [he] at hsize hdrop htake ⊢
  simp only [parseNalu, hs, hdrop, hhead, Out.bind_ok, hsize, htake, if_true]
  rw [← hm]
  exact parseSei_head o n Y _ _ (by subst hm; rfl)

theorem writeBytes_length_eq (e : Bool) (s : L2) (bs : Bytes) (h : (writeBytes e s bs).1.length = bs.length) :
    (writeBytes e s bs).1 = bs := by
  induction bs generalizing s with
  | nil => rfl
  | cons b bs ih =>
    have h2 := writeBytes_length_ge e (writeByte e s b).2 bs
    rw [writeBytes_cons] at h ⊢
    simp only [List.length_append, List.length_cons] at h
    have h1 := writeByte_length e s b
    have h3 : (writeBytes e (writeByte e s b).2 bs).1.length = bs.length := by
      split at h1 <;> omega
    have h4 : (writeByte e s b).1 = [b] := by
      by_cases hc : (e && (b &&& 0xFC == 0) && s.isZero) = true
      · rw [if_pos hc] at h1; omega
      · unfold writeByte; rw [if_neg hc]
    simp only [ih _ h3, h4]
    rfl

/-- The result of parsing a complete SEI with TLVs `T`; `esc` tells if the transmitted bytes have emulation
prevention. -/
theorem parse_complete (o : SeiOpts) (T : Bytes) (esc : Bool) (hesc : o.epb = true → esc = true)
    (hT : T.length + 17 < 2 ^ 64) :
    ∃ r, parseNalu (startCode4 ++ (seiHead o (17 + T.length) ++
        ((writeBytes esc ⟨0x2e, 0x30⟩ T).1 ++ [0x80]))) o.codec true true = .ok r ∧
      r.valid = 1 ∧ r.ntype = .sei ∧ r.gopSei = true ∧ r.isHashable = true ∧ r.golden = o.golden ∧
      r.withEpb = o.epb ∧ r.reserved = reservedByte o ∧ r.tlvSize = T.length ∧ r.tlvMem = T ++ [0x80] ∧
      r.tlvOff = (seiHead o (17 + T.length)).length ∧
      r.tlvStart = (writeBytes o.epb ⟨0x2e, 0x30⟩ T).1 ++ [0x80] ∧
      r.hashable = seiHead o (17 + T.length) ++ r.tlvStart := by
  have hlen := seiHead_length o (17 + T.length)
  have hread : ∃ t, readMany true L2.init ((seiHead o (17 + T.length)).length + (T.length + 1))
      (seiHead o (17 + T.length) ++ ((writeBytes true ⟨0x2e, 0x30⟩ T).1 ++ [0x80])) =
      some (seiHead o (17 + T.length) ++ (T ++ [0x80]), t, []) := by
    have hw : (writeBytes true L2.init (seiHead o (17 + T.length) ++ (T ++ [0x80]))).1 =
        seiHead o (17 + T.length) ++ ((writeBytes true ⟨0x2e, 0x30⟩ T).1 ++ [0x80]) := by
      obtain ⟨h1, h2⟩ := writeBytes_noZZ true L2.init rfl (seiHead o (17 + T.length)) (NoZZ_head o _ _)
      have hs := writeBytes_sim true (sim_uuid o) T
      rw [writeBytes_append, writeBytes_append]
      simp only [h1, h2, head_reg]
      rw [hs.1]
      simp [writeBytes, writeByte_stop]
    obtain ⟨t, ht, _⟩ := readMany_writeBytes true (L2.Sim.refl L2.init)
      (seiHead o (17 + T.length) ++ (T ++ [0x80])) []
    rw [List.append_nil, hw] at ht
    simp only [List.length_append, List.length_singleton] at ht
    exact ⟨t, ht⟩
  obtain ⟨tr, hread⟩ := hread
  have hbits := reserved_bits o
  rw [parseNalu_sei o _ _ true (fun _ => ⟨_, 0x80, rfl, by decide⟩)]
  have hlast : (startCode4 ++ (seiHead o (17 + T.length) ++ ((writeBytes esc ⟨0x2e, 0x30⟩ T).1 ++ [0x80]))).getD
      ((startCode4 ++ (seiHead o (17 + T.length) ++ ((writeBytes esc ⟨0x2e, 0x30⟩ T).1 ++ [0x80]))).length - 1) 0
      = 0x80 := by
    rw [← List.append_assoc (seiHead _ _), ← List.append_assoc startCode4]
    generalize startCode4 ++ (seiHead o (17 + T.length) ++ (writeBytes esc ⟨0x2e, 0x30⟩ T).1) = q
    simp
  rw [hlast]
  have hdrop : (seiHead o (17 + T.length) ++ ((writeBytes esc ⟨0x2e, 0x30⟩ T).1 ++ [0x80])).drop
      (headerLen o.codec + 1 + ((17 + T.length) / 255 + 1) + 16) =
      reservedByte o :: ((writeBytes esc ⟨0x2e, 0x30⟩ T).1 ++ [0x80]) := by
    have : headerLen o.codec + 1 + ((17 + T.length) / 255 + 1) + 16 =
      (seiHeader o.codec ++ sizeField (17 + T.length) ++ uuid).length := by
      have h2 : (seiHead o (17 + T.length)).length = (seiHeader o.codec ++ sizeField (17 + T.length) ++ uuid).length + 1 := by
        simp only [seiHead, List.length_append, List.length_singleton]
      omega
    rw [this, seiHead, List.append_assoc (_ ++ uuid), List.drop_left, List.singleton_append]
  unfold removeEpb
  have hi : (!(seiInfo o (17 + T.length) ((writeBytes esc ⟨0x2e, 0x30⟩ T).1 ++ [0x80]) 0x80).isHashable ||
      !(seiInfo o (17 + T.length) ((writeBytes esc ⟨0x2e, 0x30⟩ T).1 ++ [0x80]) 0x80).gopSei ||
      decide ((seiInfo o (17 + T.length) ((writeBytes esc ⟨0x2e, 0x30⟩ T).1 ++ [0x80]) 0x80).valid ≤ 0)) = false := rfl
  rw [hi, if_neg (by decide), hdrop]
  have hsz : (17 + T.length + (2 ^ 64 - 17)) % 2 ^ 64 = T.length := by omega
  have hge := writeBytes_length_ge esc ⟨0x2e, 0x30⟩ T
  have hepb : (seiInfo o (17 + T.length) ((writeBytes esc ⟨0x2e, 0x30⟩ T).1 ++ [0x80]) 0x80).epbs =
      ((writeBytes esc ⟨0x2e, 0x30⟩ T).1.length : Int) - T.length := by
    simp only [seiInfo, List.length_append, hlen, List.length_singleton, if_true]
    omega
  by_cases hE : (writeBytes esc ⟨0x2e, 0x30⟩ T).1.length = T.length
  · have heq := writeBytes_length_eq _ _ _ hE
    have hstart : (writeBytes o.epb ⟨0x2e, 0x30⟩ T).1 = T := by
      cases ho : o.epb with
      | false => exact writeBytes_false _ _
      | true => rw [hesc ho] at heq; exact heq
    simp only [hepb, hE, Int.sub_self, Int.le_refl, if_true]
    refine ⟨_, rfl, rfl, rfl, rfl, rfl, hbits.2, hbits.1, rfl, hsz, ?_, ?_, ?_, rfl⟩
    · simp only [heq]
    · simp only; omega
    · simp only [heq, hstart]
  · have hesc' : esc = true := by
      cases esc with
      | true => rfl
      | false => rw [writeBytes_false] at hE; exact absurd rfl hE
    subst hesc'
    have hpos : ¬ ((writeBytes true ⟨0x2e, 0x30⟩ T).1.length : Int) - T.length ≤ 0 := by omega
    have hds : headerLen o.codec + 1 + ((17 + T.length) / 255 + 1) +
        (seiInfo o (17 + T.length) ((writeBytes true ⟨0x2e, 0x30⟩ T).1 ++ [0x80]) 0x80).payloadSize + 1 =
        (seiHead o (17 + T.length)).length + (T.length + 1) := by
      rw [hlen]; simp only [seiInfo]; omega
    have hdl : ∀ Z : Bytes, (seiHead o (17 + T.length) ++ Z).drop
        (headerLen o.codec + 1 + ((17 + T.length) / 255 + 1) + 17) = Z := by
      intro Z; rw [← hlen, List.drop_left]
    simp only [hepb, hpos, if_false, hds]
    rw [hread]
    simp only [hdl, hbits.1]
    cases ho : o.epb with
    | true =>
      simp only [if_true]
      refine ⟨_, rfl, rfl, rfl, rfl, rfl, hbits.2, rfl, rfl, hsz, rfl, ?_, rfl, rfl⟩
      simp only; omega
    | false =>
      refine ⟨_, rfl, rfl, rfl, rfl, rfl, hbits.2, rfl, rfl, hsz, rfl, ?_, ?_, ?_⟩
      · simp only; omega
      · simp only [writeBytes_false]
      · rfl

end SV
