import Verif.Model.Golden
import Verif.Props.Sei
import Verif.Proofs.AuthCall
import Verif.Spec.Golden
/-! C71: golden SEIs are told from others. -/
namespace SV
open SV.Spec

/-- Anything can follow the head of a SEI: the flag is the one of the head, unless bytes behind the end are read. -/
theorem isGolden_head (o : SeiOpts) (n : Nat) (Y : Bytes) :
    isGolden o.codec (startCode4 ++ (seiHead o n ++ Y)) =
      if ((seiInfo o n Y ((startCode4 ++ (seiHead o n ++ Y)).getD ((startCode4 ++ (seiHead o n ++ Y)).length - 1) 0)).epbs ≤ 0 ∨
        (readMany true L2.init (headerLen o.codec + 1 + (n / 255 + 1) + n + 1) (seiHead o n ++ Y)).isSome)
      then .ok o.golden else .ub .overread := by
  unfold isGolden
  rw [if_neg (by simp [startCode4]), parseNalu_sei o n Y false (fun h => by cases h)]
  generalize (startCode4 ++ (seiHead o n ++ Y)).getD ((startCode4 ++ (seiHead o n ++ Y)).length - 1) 0 = last
  have hdrop : (seiHead o n ++ Y).drop (headerLen o.codec + 1 + (n / 255 + 1) + 16) = reservedByte o :: Y := by
    have hlen := seiHead_length o n
    have : headerLen o.codec + 1 + (n / 255 + 1) + 16 = (seiHeader o.codec ++ sizeField n ++ uuid).length := by
      have h2 : (seiHead o n).length = (seiHeader o.codec ++ sizeField n ++ uuid).length + 1 := by
        simp only [seiHead, List.length_append, List.length_singleton]
      omega
    rw [this, seiHead, List.append_assoc (_ ++ uuid), List.drop_left, List.singleton_append]
  have hbits := reserved_bits o
  unfold removeEpb
  have hi : (!(seiInfo o n Y last).isHashable || !(seiInfo o n Y last).gopSei || decide ((seiInfo o n Y last).valid ≤ 0)) = false := rfl
  rw [hi, if_neg (by decide), hdrop]
  dsimp only
  have hp : (seiInfo o n Y last).payloadSize = n := rfl
  rw [hp]
  generalize hr : readMany true L2.init (headerLen o.codec + 1 + (n / 255 + 1) + n + 1) (seiHead o n ++ Y) = x
  by_cases he : (seiInfo o n Y last).epbs ≤ 0
  · rw [if_pos he, if_pos (.inl he)]
    show Out.ok _ = _
    rw [hbits.2]
  · rw [if_neg he]
    cases x with
    | none => rw [if_neg (by simp [he])]; rfl
    | some p =>
      rw [if_pos (.inr rfl)]
      obtain ⟨d, t, r⟩ := p
      dsimp only
      split <;> (show Out.ok _ = _; rw [hbits.2])

/-- A SEI with the TLVs `T` as it is sent, with `esc` for emulation prevention, and with zero bytes after it. -/
theorem isGolden_sent (o : SeiOpts) (T : Bytes) (esc : Bool) (z : Nat) (h : esc = true ∨ z = 0) :
    isGolden o.codec (startCode4 ++ (seiHead o (17 + T.length) ++ ((writeBytes esc ⟨0x2e, 0x30⟩ T).1 ++ [0x80] ++ List.replicate z 0))) =
      .ok o.golden := by
  rw [isGolden_head o, if_pos]
  have hlen := seiHead_length o (17 + T.length)
  cases esc with
  | true =>
    right
    have hw : (writeBytes true L2.init (seiHead o (17 + T.length) ++ (T ++ [0x80]))).1 =
        seiHead o (17 + T.length) ++ ((writeBytes true ⟨0x2e, 0x30⟩ T).1 ++ [0x80]) := by
      obtain ⟨h1, h2⟩ := writeBytes_noZZ true L2.init rfl (seiHead o (17 + T.length)) (NoZZ_head o _ _)
      have hs := writeBytes_sim true (sim_uuid o) T
      rw [writeBytes_append, writeBytes_append]
      simp only [h1, h2, head_reg]
      rw [hs.1]
      simp [writeBytes, writeByte_stop]
    obtain ⟨t, ht, _⟩ := readMany_writeBytes true (L2.Sim.refl L2.init) (seiHead o (17 + T.length) ++ (T ++ [0x80])) (List.replicate z 0)
    rw [hw] at ht
    simp only [List.length_append, List.length_singleton, List.append_assoc] at ht
    rw [show headerLen o.codec + 1 + ((17 + T.length) / 255 + 1) + (17 + T.length) + 1 =
      (seiHead o (17 + T.length)).length + (T.length + 1) from by omega]
    simp only [List.append_assoc]
    rw [ht]
    rfl
  | false =>
    left
    rcases h with h | rfl
    · cases h
    · have hlast : ∀ q : Bytes, (q ++ [0x80]).getD ((q ++ [0x80]).length - 1) 0 = (0x80 : UInt8) := by intro q; simp
      rw [List.replicate_zero, List.append_nil, ← List.append_assoc (seiHead _ _), ← List.append_assoc startCode4, hlast]
      simp only [seiInfo, writeBytes_false, List.length_append, hlen, List.length_singleton, if_true]
      omega

/-- **C71**, generated SEIs: a SEI that the library generates is said to be golden exactly if it was generated as a golden SEI,
with and without emulation prevention. -/
theorem C71_generated {e0 e1 : EncState} (h : Fits e0) (h1 : Fits e1) (o : SeiOpts) (hm : e1.maxSignature = e0.maxSignature) :
    isGolden o.codec (seiBytes o e0 e1) = .ok o.golden := by
  have := isGolden_sent o (seiTlv o e0 e1) o.epb 0 (.inr rfl)
  rw [List.replicate_zero, List.append_nil] at this
  rw [seiBytes_eq h h1 o hm]
  exact this

/-- **C71**, SEIs that get emulation prevention on the way, or zero bytes after the SEI. -/
theorem C71_escaped {e0 e1 : EncState} (h : Fits e0) (h1 : Fits e1) (o : SeiOpts) (hm : e1.maxSignature = e0.maxSignature)
    (ho : o.epb = false) (z : Nat) :
    isGolden o.codec (startCode4 ++ (writeBytes true L2.init (seiComplete o e1 (seiStart o e0).1)).1 ++ List.replicate z 0) =
      .ok o.golden := by
  have := isGolden_sent o (seiTlv o e0 e1) true z (.inl rfl)
  rw [seiComplete_eq h h1, ho, writeBytes_false, writeBytes_body, payload_tlv h h1 o hm]
  simp only [seiTlv] at this
  simpa only [seiTlv, List.append_assoc] using this

/-- **C71**, zero bytes after the SEI, as claimed: they do not matter. -/
def C71_zeros_statement : Prop :=
  ∀ (e0 e1 : EncState) (o : SeiOpts) (z : Nat), Fits e0 → Fits e1 → e1.maxSignature = e0.maxSignature →
    isGolden o.codec (seiBytes o e0 e1 ++ List.replicate z 0) = .ok o.golden

/-- **C71**, zero bytes after the SEI: they do not matter for a SEI with emulation prevention.  Missing are SEIs without it,
see `C71_zeros_statement_false`. -/
theorem C71_zeros_partial {e0 e1 : EncState} (h : Fits e0) (h1 : Fits e1) (o : SeiOpts) (hm : e1.maxSignature = e0.maxSignature)
    (ho : o.epb = true) (z : Nat) : isGolden o.codec (seiBytes o e0 e1 ++ List.replicate z 0) = .ok o.golden := by
  have := isGolden_sent o (seiTlv o e0 e1) true z (.inl rfl)
  rw [seiBytes_eq h h1 o hm, ho]
  simpa only [List.append_assoc] using this

/-- A session with user data that look like emulation prevention. -/
def escapedSession : EncState := { exampleSession with arbitrary := [0, 0, 3, 0, 0, 3, 0, 0, 3] }

theorem escapedSession_fits : Fits escapedSession where
  hashSize := exampleSession_fits.hashSize
  linked := exampleSession_fits.linked
  gop := exampleSession_fits.gop
  hw := exampleSession_fits.hw
  fw := exampleSession_fits.fw
  sn := exampleSession_fits.sn
  mf := exampleSession_fits.mf
  ad := exampleSession_fits.ad
  arbitrary := by decide +kernel
  key := exampleSession_fits.key
  hashList := exampleSession_fits.hashList
  oid := exampleSession_fits.oid
  sig := exampleSession_fits.sig
  maxSig := exampleSession_fits.maxSig
  hashType := exampleSession_fits.hashType
  axis := exampleSession_fits.axis

/-- The claim is false: with a zero byte after a SEI without emulation prevention, the payload is taken for one with emulation
prevention, and memory behind the NAL unit is read. -/
theorem C71_zeros_statement_false : ¬ C71_zeros_statement := by
  intro h
  have := h escapedSession escapedSession { exampleOpts with epb := false } 1 escapedSession_fits escapedSession_fits rfl
  exact absurd this (by decide +kernel)

theorem golden_removeEpb {n r : Nalu} {m : Bytes} {off : Nat} (hn : n.golden = false) (h : removeEpb n m off = .ok r)
    (hg : r.golden = true) : n.gopSei = true ∧ ∃ flags rest, m.drop (off + 16) = flags :: rest ∧ flags &&& 0x40 ≠ 0 := by
  unfold removeEpb at h
  split at h
  · cases h; rw [hn] at hg; cases hg
  · rename_i hc
    refine ⟨by cases e : n.gopSei <;> simp [e] at hc ⊢, ?_⟩
    split at h
    · cases h
    · rename_i flags tlv ht
      refine ⟨flags, tlv, ht, ?_⟩
      have hf : r.golden = (flags &&& 0x40 != 0) := by
        dsimp only at h
        split at h
        · cases h; rfl
        · split at h
          · cases h
          · split at h <;> (cases h; rfl)
      rw [hg] at hf; simpa using hf.symm

theorem golden_sei {c : Codec} {n r : Nalu} {m : Bytes} {last : UInt8} (hn : n.golden = false) (h : parseSei c true n m last = .ok r)
    (hg : r.golden = true) : ∃ k b flags rest, m.drop (headerLen c) = 5 :: (List.replicate k 0xff ++ b :: (uuid ++ flags :: rest)) ∧
      b ≠ 0xff ∧ flags &&& 0x40 ≠ 0 := by
  have size : ∀ (m : Bytes) (p : Nat × Nat), payloadSizeField m = .ok p →
      ∃ k b rest, m = List.replicate k 0xff ++ b :: rest ∧ b ≠ 0xff ∧ p.2 = k + 1 := by
    intro m
    induction m with
    | nil => intro p hp; cases hp
    | cons x m ih =>
      intro p hp
      unfold payloadSizeField at hp
      split at hp
      · rename_i hx
        obtain ⟨q, hq, hp2⟩ := Out.bind_eq_ok hp
        clear hp
        obtain ⟨k, b, rest, rfl, hb, hk⟩ := ih q hq
        cases hp2
        exact ⟨k + 1, b, rest, by rw [hx]; rfl, hb, by dsimp only; omega⟩
      · rename_i hx
        cases hp
        exact ⟨0, x, m, rfl, hx, rfl⟩
  simp only [parseSei] at h
  obtain ⟨⟨ud, m1⟩, h0, g⟩ := Out.bind_eq_ok h
  clear h
  have h := g
  clear g
  dsimp only at h
  split at h
  · rename_i hud
    obtain ⟨⟨ps, k⟩, h1, g⟩ := Out.bind_eq_ok h
    clear h
    obtain ⟨⟨u, m2⟩, h2, h⟩ := Out.bind_eq_ok g
    clear g
    dsimp only at h
    have hm : m.drop (headerLen c) = 5 :: m1 := by
      cases e : m.drop (headerLen c) with
      | nil => rw [e] at h0; cases h0
      | cons x y => rw [e] at h0; cases h0; rw [hud]
    obtain ⟨k', b, rest, rfl, hb, hk⟩ := size _ _ h1
    dsimp only at hk
    subst hk
    have hoff : m.drop (headerLen c + 1 + (k' + 1)) = rest := by
      rw [Nat.add_assoc, ← List.drop_drop, hm, show 1 + (k' + 1) = (k' + 1) + 1 by omega, List.drop_succ_cons]
      have : k' + 1 = (List.replicate k' (0xff : UInt8) ++ [b]).length := by simp
      rw [show List.replicate k' (0xff : UInt8) ++ b :: rest = (List.replicate k' 0xff ++ [b]) ++ rest by simp, this, List.drop_left]
    rw [hoff] at h2
    unfold rdN at h2
    split at h2
    · cases h2
      obtain ⟨hu, flags, tlv, ht, hf⟩ := golden_removeEpb (by exact hn) h hg
      have hu : rest.take 16 = uuid := eq_of_beq hu
      rw [← List.drop_drop, hoff] at ht
      refine ⟨k', b, flags, tlv, ?_, hb, hf⟩
      rw [hm, ← hu, ← ht, List.take_append_drop]
    · cases h2
  · cases h; rw [hn] at hg; cases hg

theorem h264Type_sei (b : UInt8) (h : (h264Type b).1 = .sei) : b &&& 0x1f = 6 := by
  unfold h264Type at h
  dsimp only at h
  generalize b &&& 0x1f = t at h ⊢
  by_cases ht : t = 6
  · exact ht
  · exfalso
    revert h
    rw [if_neg ht]
    repeat' split
    all_goals intro h; cases h

theorem h265Table_sei (t layer tid : UInt8) (h : (h265Table t layer tid).1 = .sei) : t = 39 ∨ t = 40 := by
  by_cases ht : t = 39 ∨ t = 40
  · exact ht
  · exfalso
    unfold h265Table at h
    rw [if_neg ht] at h
    by_cases h1 : t = 0 ∨ t = 1
    · rw [if_pos h1] at h; cases h
    rw [if_neg h1] at h
    by_cases h1 : t = 2 ∨ t = 3
    · rw [if_pos h1] at h; cases h
    rw [if_neg h1] at h
    by_cases h1 : t = 4 ∨ t = 5
    · rw [if_pos h1] at h; cases h
    rw [if_neg h1] at h
    by_cases h1 : t = 6 ∨ t = 7 ∨ t = 8 ∨ t = 9
    · rw [if_pos h1] at h; cases h
    rw [if_neg h1] at h
    by_cases h1 : 16 ≤ t ∧ t ≤ 21
    · rw [if_pos h1] at h; cases h
    rw [if_neg h1] at h
    by_cases h1 : t = 32 ∨ t = 33
    · rw [if_pos h1] at h; cases h
    rw [if_neg h1] at h
    by_cases h1 : t = 34
    · rw [if_pos h1] at h; cases h
    rw [if_neg h1] at h
    by_cases h1 : t = 35
    · rw [if_pos h1] at h; cases h
    rw [if_neg h1] at h
    by_cases h1 : t = 36 ∨ t = 37
    · rw [if_pos h1] at h; cases h
    rw [if_neg h1] at h
    by_cases h1 : t = 38
    · rw [if_pos h1] at h; cases h
    rw [if_neg h1] at h
    cases h

theorem videoId_eq : videoId = uuid := by decide

/-- **C71**, other NAL units: whatever is said to be a golden SEI looks like one. -/
theorem C71_only {c : Codec} {data : Bytes} (h : isGolden c data = .ok true) : Spec.GoldenSei c data := by
  unfold isGolden at h
  split at h
  · cases h
  obtain ⟨n, hn, h⟩ := Out.bind_eq_ok h
  have hg : n.golden = true := by injection h
  match data, hn with
  | [], hn => exact absurd rfl ‹¬ _›
  | [_], hn => simp [parseNalu] at hn
  | [_, _], hn => simp [parseNalu] at hn
  | [_, _, _], hn => simp [parseNalu] at hn
  | a :: b :: x :: y :: rest, hn =>
    simp only [parseNalu] at hn
    obtain ⟨⟨t, v, prim⟩, hh, hn⟩ := Out.bind_eq_ok hn
    obtain ⟨sz, _, hn⟩ := Out.bind_eq_ok hn
    dsimp only at hn
    split at hn
    · rename_i ht
      obtain ⟨k, b', flags, tl, hm, hb, hf⟩ := golden_sei rfl hn hg
      refine ⟨(a :: b :: x :: y :: rest).take (startCode a b x y).1, ((a :: b :: x :: y :: rest).drop (startCode a b x y).1).take (headerLen c),
        k, b', flags, tl, ?_, ?_, ?_, hb, hf⟩
      · rw [videoId_eq, ← hm, List.take_append_drop, List.take_append_drop]
      · unfold startCode
        split
        · rename_i he; obtain ⟨rfl, rfl, rfl, rfl⟩ := he; simp
        · split
          · rename_i he; obtain ⟨rfl, rfl, rfl⟩ := he; simp
          · simp
      · generalize (a :: b :: x :: y :: rest).drop (startCode a b x y).1 = m at hh
        subst ht
        cases c with
        | h264 =>
          match m, hh with
          | [], hh => cases hh
          | [_], hh => cases hh
          | b0 :: b1 :: m2, hh =>
            have : (h264Type b0).1 = .sei := by
              unfold parseHeader at hh; injection hh with hh; injection hh
            show b0 &&& 0x1f = 6
            exact h264Type_sei _ this
        | h265 =>
          match m, hh with
          | [], hh => cases hh
          | [_], hh => cases hh
          | b0 :: b1 :: m2, hh =>
            show (b0 &&& 0x7e) >>> 1 = 39 ∨ (b0 &&& 0x7e) >>> 1 = 40
            unfold parseHeader at hh
            dsimp only at hh
            have key : ∀ t v, h265Type b0 b1 = some (t, v) → t = .sei → (b0 &&& 0x7e) >>> 1 = 39 ∨ (b0 &&& 0x7e) >>> 1 = 40 := by
              intro t v h1 h2
              unfold h265Type at h1
              dsimp only at h1
              split at h1
              · cases h1
              · injection h1 with h1; injection h1 with h1 h3
                exact h265Table_sei _ _ _ (h1.trans h2)
            split at hh
            · cases hh
            · rename_i t v he
              split at hh
              · injection hh with hh; injection hh with hh _
                exact key t v he hh
              · cases hh
    · cases hn; cases hg

/-! Examples: golden and other SEIs of a session, and a slice. -/

example : isGolden exampleOpts.codec (seiBytes { exampleOpts with golden := true } exampleSession exampleSession) = .ok true :=
  C71_generated exampleSession_fits exampleSession_fits { exampleOpts with golden := true } rfl
example : isGolden exampleOpts.codec (seiBytes { exampleOpts with golden := false } exampleSession exampleSession) = .ok false :=
  C71_generated exampleSession_fits exampleSession_fits { exampleOpts with golden := false } rfl
example : isGolden exampleOpts.codec (seiBytes { exampleOpts with golden := true, epb := true } escapedSession escapedSession ++
    List.replicate 7 0) = .ok true :=
  C71_zeros_partial escapedSession_fits escapedSession_fits { exampleOpts with golden := true, epb := true } rfl rfl 7
example : Spec.GoldenSei exampleOpts.codec (seiBytes { exampleOpts with golden := true } exampleSession exampleSession) :=
  C71_only (C71_generated exampleSession_fits exampleSession_fits { exampleOpts with golden := true } rfl)
example : isGolden .h264 [0, 0, 0, 1, 0x65, 0x80, 1, 2, 3] = .ok false := by decide +kernel

end SV
