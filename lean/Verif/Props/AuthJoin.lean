import Verif.Props.AuthForge
import Verif.Props.AuthFlow
/-! Joining a stream that is under way: C57. -/
namespace SV
open Spec
open Validator

/-- Five GOPs, with a list of hashes in the SEIs or without. -/
def underWay (lists : Bool) : List Bytes := polyStream (polySigner 33 (if lists then [] else [.level 0])) (polyNalus "IPPIPPIPPIPPIPPI")

/-- The reports of a validator that joins a stream after `k` NAL units. -/
def joined (st : List Bytes) (k : Nat) : Option (List (String × String × Auth)) :=
  match authRun polyEnv (newValidator polyEnv .h264) ((st.drop k).map .nalu) with
  | .ok (_, os) => some (toyReports os)
  | _ => none

/-- **C57 does not hold in general.** If the first NAL unit that a validator receives is not the first one of a GOP, then the rest of
this GOP stays pending after the first SEI, and from then on each SEI is compared with the GOP before the one that it signs: all reports say
NOT OK, although nothing was changed. If the first NAL unit is the first one of a GOP, all reports but the first one say OK. -/
theorem C57_midway_false (lists : Bool) :
    joined (underWay lists) 2 = some [("PIS", "PPU", .signaturePresent), ("  PISPPIS", "MMNPUPPP.", .notOk), ("ISPPISPPIS", "NUNNP.PPP.", .notOk),
      ("ISPPISPPIS", "N.NNP.PPP.", .notOk), ("ISPPISPPIS", "N.NNP.PPP.", .notOk)] ∧
    (joined (underWay lists) 3).map (·.map (·.2.2)) = some [.signaturePresent, .ok, .ok, .ok, .ok] := by
  cases lists <;> refine ⟨?_, ?_⟩ <;> decide +kernel

variable {hs : Hashing} {codec : Codec} {oid : Bytes} {v : UInt8 × UInt8 × UInt8} {setup : List Setting} {cs : List SCall} {s : Signer} {os : List Obs}
  {env : AuthEnv} {key : Bytes} {c : Nat}

/-- **C57**: a validator that receives an untouched stream from the beginning of any of its GOPs on, with the SEIs of this GOP and the later ones, finds
each GOP good from the first SEI on, as if the stream started there (C44), if this SEI is one of those that carry the public key. It does not need
the hash of the GOP before, nor to know how many GOPs there were.

What is missing: SEIs of earlier GOPs that come late, the first of which gets the report SIGNATURE PRESENT, and all that is missing in C44. It is false for a validator that
joins within a GOP (`C57_midway_false`). Signed overflow must not be undefined, since the counter in the first SEI is ahead of the one expected (C54). -/
theorem C57_whole_partial (hk : SendsKey setup cs) (h : Undisturbed hs codec oid v setup cs s os) (t : Trusting hs env key s os) (ho : env.ov ≠ .strict)
    (due : (Recur.dues (countsAsFrame codec) { interval := 1 } (setup.map SCall.set ++ cs) os)[c]? = some true)
    (start : ∀ p l, pieces codec cs = p :: l → p.first = true) {st : List StreamItem} (ht : Later codec cs os c st)
    (hord : ∀ d ts, StreamItem.nalu d ts ∈ st → Ordinary codec d) :
    ∃ v' rs, authRun env (newValidator env codec) (st.map fun x => .nalu x.bytes) = .ok (v', rs) ∧
      Confirmed codec ((gops (pieces codec cs)).1.drop c) 0 0 st rs := by
  obtain ⟨v', rs, h1, -, h2⟩ := confirmed_later (sent := true) h t (.inr ho) (fun _ => ⟨hk, fun r hr => by rw [due] at hr; cases hr; rfl⟩)
    (early_new (scene_ok h t (.inr ho)).1 rfl) start ht hord
  exact ⟨v', rs, h1, h2⟩

/-- The last GOP of a stream of three, with an unprotected NAL unit in front and its SEI, and the start of the next GOP. -/
def flowLate (b : Bytes) : List StreamItem :=
  (([[0, 0, 0, 1, 0x09, 0xf0], [0, 0, 0, 1, 0x65, 0x88, 0x86, 0x80], [0, 0, 0, 1, 0x41, 0x9a, 0x81]] : List Bytes).map fun d => .nalu d none) ++
    [.sei b, .nalu [0, 0, 0, 1, 0x65, 0x88, 0x87, 0x80] none]

example : ∃ st v' rs, authRun toyEnv (newValidator toyEnv .h264) (st.map fun x : StreamItem => AuthCall.nalu x.bytes) = .ok (v', rs) ∧
    (st.filterMap StreamItem.sei?).length = 1 ∧ Confirmed .h264 ((gops (pieces .h264 flowCalls)).1.drop 2) 0 0 st rs := by
  obtain ⟨s, os, h1, h2, hk, h3, -, h4⟩ := flowSession
  obtain ⟨b0, b1, b2, hb⟩ : ∃ b0 b1 b2, delivered os = [b0, b1, b2] := by
    match hd : delivered os, h3 with
    | [b0, b1, b2], _ => exact ⟨b0, b1, b2, rfl⟩
  have hdue : (Recur.dues (countsAsFrame .h264) { interval := 1 } (flowSetup.map SCall.set ++ flowCalls) os)[2]? = some true := by
    obtain ⟨s', os', e, hp⟩ := runCheck2 toyHashing (newSigner .h264 [0x60, 0x86] (2, 2, 0)) (flowSetup.map SCall.set ++ flowCalls)
      (fun _ os => decide ((Recur.dues (countsAsFrame .h264) { interval := 1 } (flowSetup.map SCall.set ++ flowCalls) os)[2]? = some true)) (by decide +kernel)
    have := h1.run.symm.trans e
    cases this
    simpa using hp
  have ht : Later .h264 flowCalls os 2 (flowLate b2) := by
    refine ⟨?_, by rw [hb]; exact List.prefix_refl _, fun a b c h => ?_⟩
    · have e : (flowLate b2).filterMap (StreamItem.piece .h264) = (flowLate []).filterMap (StreamItem.piece .h264) := rfl
      rw [e]; decide +kernel
    · have hc : afterB .h264 ((gops (pieces .h264 flowCalls)).1.drop 2) 0 0 (flowLate b2) = true := by
        have e : ∀ gs, afterB .h264 gs 0 0 (flowLate b2) = afterB .h264 gs 0 0 (flowLate []) := fun _ => rfl
        rw [e]; decide +kernel
      have := after_of_check .h264 _ _ 0 0 hc a b c h
      simpa using this
  obtain ⟨v', rs, g1, g2⟩ := C57_whole_partial hk h1 h2 (by decide) hdue flow_start ht (fun d ts hd => by
    refine flow_ordinary ?_
    simp only [flowLate, List.map_cons, List.map_nil, List.cons_append, List.nil_append, List.mem_cons, List.not_mem_nil, or_false, reduceCtorEq, false_or,
      StreamItem.nalu.injEq] at hd
    rcases hd with ⟨rfl, -⟩ | ⟨rfl, -⟩ | ⟨rfl, -⟩ | ⟨rfl, -⟩ <;> simp [flowScript])
  exact ⟨_, v', rs, g1, rfl, g2⟩

end SV
