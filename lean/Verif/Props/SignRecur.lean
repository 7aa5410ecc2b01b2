import Verif.Proofs.SignRecur
import Verif.Props.SignHist
/-! Data that is sent now and then: C39. -/
namespace SV
open Spec

theorem _root_.SV.Spec.Regular.plainly {c : SCall} (h : Regular c) : Plainly c := by
  cases c with
  | set x => trivial
  | nalu d ts l rc => exact h
  | getSei _ _ _ => trivial
  | prepend _ _ => trivial
  | endOfStream _ _ => cases h
  | golden _ => cases h
  | reset => cases h

theorem _root_.SV.Spec.Undisturbed.plainly {hs : Hashing} {codec : Codec} {oid : Bytes} {v : UInt8 × UInt8 × UInt8} {setup : List Setting}
    {cs : List SCall} {s : Signer} {os : List Obs} (h : Undisturbed hs codec oid v setup cs s os) :
    ∀ c ∈ setup.map SCall.set ++ cs, Plainly c := by
  intro c hc
  rcases List.mem_append.1 hc with hc | hc
  · obtain ⟨x, -, rfl⟩ := List.mem_map.1 hc
    trivial
  · exact (h.regular c hc).plainly

/-- **C39**: for each SEI that is handed out let `r` tell whether, counted with the interval set at the time, a frame with a
number that is a multiple of the interval has come before the SEI was generated, and since a SEI was last completed.  Then
the receiver reads the public key (unless switched off), the product information and the hash algorithm from the SEI if `r`
holds, and keeps what it knew about these if `r` does not hold.  `r` holds for the first SEI. -/
theorem C39_recurrent_partial {hs : Hashing} {codec : Codec} {oid : Bytes} {v : UInt8 × UInt8 × UInt8} {setup : List Setting}
    {cs : List SCall} {s : Signer} {os : List Obs} (h : Undisturbed hs codec oid v setup cs s os)
    (env : CryptoEnv) (hc : CryptoOk env s.e) (k : Nat) (b : Bytes) (hk : (delivered os)[k]? = some b) :
    ∃ (r : Bool) (g : Gen) (e : EncState), (os.filterMap Obs.signed)[k]? = some g ∧
      (Recur.dues (countsAsFrame codec) { interval := 1 } (setup.map SCall.set ++ cs) os)[k]? = some r ∧ (k = 0 → r = true) ∧
      ∀ d : DecState, (d.maxSignature = none ∨ d.maxSignature = some s.e.maxSignature) →
        ∃ d', Decoded env codec b d d' ∧ Carries (sent g.o g.e e) r d d' := by
  obtain ⟨s0, h1, h2, h3, h4, h5⟩ := h.says (L := False) (fun hx => hx.elim) env hc
  obtain ⟨g, e, prev, gop, nxt, a1, a2, a3, a4, a5, a6⟩ := h5 k b hk
  have hq := newSigner_q codec oid v
  have hd := run_recur _ hq (r := { interval := 1 }) h.honest h.plainly rfl ⟨rfl, rfl, rfl⟩ h.run h.accepted
  have hr : (Recur.dues (countsAsFrame codec) { interval := 1 } (setup.map SCall.set ++ cs) os)[k]? = some g.e.recurrent := by
    rw [show countsAsFrame codec = countsAsFrame (newSigner codec oid v).codec from rfl, ← hd, List.getElem?_map, a5]; rfl
  refine ⟨g.e.recurrent, g, e, a5, hr, ?_, a6⟩
  rintro rfl
  exact first_recur _ hq rfl h.honest h.plainly rfl ⟨rfl, rfl, rfl⟩ (fun hx => by simp at hx) h.run h.accepted _ hr

/-- The session of `histSession` with an interval of 3 frames. -/
def recurSetup : List Setting := [.privateKey (some ([9, 9, 9], 72)) true, .recurrence 3]

/-- Frames 0 to 4 are intra pictures of one slice; before number 2 there is a picture parameter set. -/
def recurCalls : List SCall :=
  [.nalu [0, 0, 0, 1, 0x65, 0x88, 0x84, 0x80] none true none,
   .nalu [0, 0, 0, 1, 0x65, 0x88, 0x85, 0x80] none true none,
   .getSei true none [.ok [1, 2, 3, 4]],
   .nalu [0, 0, 0, 1, 0x68, 0xee, 0x3c, 0x80] none true none,
   .nalu [0, 0, 0, 1, 0x65, 0x88, 0x86, 0x80] none true none,
   .getSei true none [.ok [1, 2, 3, 5]],
   .nalu [0, 0, 0, 1, 0x65, 0x88, 0x87, 0x80] none true none,
   .getSei true none [.ok [1, 2, 3, 6]],
   .nalu [0, 0, 0, 1, 0x65, 0x88, 0x88, 0x80] none true none,
   .getSei true none [.ok [1, 2, 3, 7]]]

theorem recurSession : ∃ s os, Undisturbed toyHashing .h264 [0x60, 0x86] (2, 2, 0) recurSetup recurCalls s os ∧
    CryptoOk histEnv s.e ∧ (delivered os).length = 4 ∧
    Recur.dues (countsAsFrame .h264) { interval := 1 } (recurSetup.map SCall.set ++ recurCalls) os = [true, true, false, false] ∧
    Recur.dues (isFirstSlice .h264) { interval := 1 } (recurSetup.map SCall.set ++ recurCalls) os = [true, false, true, false] := by
  obtain ⟨s, os, h1, h2⟩ := runCheck2 toyHashing (newSigner .h264 [0x60, 0x86] (2, 2, 0)) (recurSetup.map SCall.set ++ recurCalls)
    (fun s os => acceptedB (recurSetup.map SCall.set ++ recurCalls) os && decide (s.e.hashSize = 32) && decide ((delivered os).length = 4) &&
      decide (Recur.dues (countsAsFrame .h264) { interval := 1 } (recurSetup.map SCall.set ++ recurCalls) os = [true, true, false, false]) &&
      decide (Recur.dues (isFirstSlice .h264) { interval := 1 } (recurSetup.map SCall.set ++ recurCalls) os = [true, false, true, false]))
    (by decide +kernel)
  simp only [Bool.and_eq_true, decide_eq_true_eq] at h2
  obtain ⟨⟨⟨⟨c1, c2⟩, c3⟩, c4⟩, c5⟩ := h2
  refine ⟨s, os, ⟨by decide, ?_, ?_, ?_, ?_, honest_of_check _ _ _ _ (by decide +kernel), h1, accepted_of_check _ _ c1⟩,
    ⟨fun _ _ => rfl, ?_⟩, c3, c4, c5⟩
  · intro x; simp [toyHashing, toyHash]
  · intro x hx
    simp only [recurSetup, List.mem_cons, List.not_mem_nil, or_false] at hx
    rcases hx with rfl | rfl <;> simp [Setup]
  · intro c hc
    simp only [recurCalls, List.mem_cons, List.not_mem_nil, or_false] at hc
    rcases hc with rfl | rfl | rfl | rfl | rfl | rfl | rfl | rfl | rfl | rfl <;> simp [Regular]
  · intro c hc
    simp only [recurCalls, List.mem_cons, List.not_mem_nil, or_false] at hc
    rcases hc with rfl | rfl | rfl | rfl | rfl | rfl | rfl | rfl | rfl | rfl <;> simp [NotPrepend]
  · rw [c2]; rfl

/-- The third SEI of this session does not carry the data. -/
example : ∃ b d', Decoded histEnv .h264 b {} d' ∧ d'.publicKey = ({} : DecState).publicKey := by
  obtain ⟨s, os, h1, h2, h3, h4, -⟩ := recurSession
  have hk : (delivered os)[2]? = some (delivered os)[2] := List.getElem?_eq_getElem (by omega)
  obtain ⟨r, g, e, -, a2, -, a4⟩ := C39_recurrent_partial h1 histEnv h2 2 _ hk
  obtain ⟨d', b1, b2⟩ := a4 {} (.inl rfl)
  rw [h4] at a2
  cases a2
  exact ⟨_, d', b1, (b2.noKey (.inl rfl)).1⟩

/-- The statement is **false** of frames in the usual sense: the library counts any NAL unit with the first bit after the
header set, whatever its type (`signed_video_h26x_common.c` 353 and 424, `signed_video_h26x_sign.c` 514), for instance a picture
parameter set.  Here is a session with one, in which the SEI generated at frame 3 should carry the recurrent data with an
interval of 3, but does not. -/
theorem C39_statement_false : ∃ s os, Undisturbed toyHashing .h264 [0x60, 0x86] (2, 2, 0) recurSetup recurCalls s os ∧
    (Recur.dues (isFirstSlice .h264) { interval := 1 } (recurSetup.map SCall.set ++ recurCalls) os)[2]? = some true ∧
    (os.filterMap Obs.signed)[2]?.map (·.e.recurrent) = some false := by
  obtain ⟨s, os, h1, h2, h3, h4, h5⟩ := recurSession
  refine ⟨s, os, h1, by rw [h5]; rfl, ?_⟩
  have hd := run_recur _ (newSigner_q .h264 [0x60, 0x86] (2, 2, 0)) (r := { interval := 1 }) h1.honest h1.plainly rfl
    ⟨rfl, rfl, rfl⟩ h1.run h1.accepted
  rw [← List.getElem?_map, hd, show (newSigner .h264 [0x60, 0x86] (2, 2, 0)).codec = .h264 from rfl, h4]; rfl

end SV
