import Verif.Proofs.FlowLost
import Verif.Props.AuthDamage
/-! A stream in which SEIs are lost: C80. -/
namespace SV
open Spec
open Validator

/-- Five GOPs and the start of a sixth one, with a list of hashes in the SEIs or without. The SEIs have the numbers 4, 8, 12, 16 and 20 in the list. -/
def fiveGops (lists : Bool) : List Bytes := polyStream (polySigner 33 (if lists then [] else [.level 0])) (polyNalus "IPPIPPIPPIPPIPPI")

/-- An access unit delimiter is put before each intra picture. -/
def withDelimiters (l : List Bytes) : List Bytes := l.flatMap fun b => match parseNalu b .h264 true true with
  | .ok n => if n.firstInGop then [[0, 0, 0, 1, 0x09, 0xf0], b] else [b]
  | _ => [b]

/-- The reports of a validator, with the numbers of expected and received NAL units. -/
def gapRun (l : List Bytes) : Option (List (String × String × Auth) × List (Int × Int)) :=
  match authRun polyEnv (newValidator polyEnv .h264) (l.map .nalu) with
  | .ok (_, os) => some (toyReports os, os.filterMap fun o => o.report.map fun r => (r.latest.expected, r.latest.received))
  | _ => none

/-- **C80 does not hold in general.** The stream is untouched, except that the SEI of the second GOP is lost. If the intra pictures come directly after other protected NAL units,
one report blames the second GOP, and everything else is OK. If there is an access unit delimiter before each of them (as most
encoders write them, and without consequences as long as nothing is lost), then the validator does not see where the second GOP ends, and blames the third one, which has a valid SEI,
as well, and the first NAL unit of the fourth. From then on it is out of step. -/
theorem C80_delimiter_false :
    (gapRun ((fiveGops true).eraseIdx 8)).map Prod.fst = some [("IPPI", "PPPP", .notSigned), ("IPPIS", "...P.", .ok), ("ISPPIPPIS", "N.NN...P.", .notOk), ("ISPPIS", "....P.", .ok),
      ("ISPPIS", "....P.", .ok)] ∧
    (gapRun (withDelimiters (fiveGops true))).map (fun p => p.1.map (·.2.2)) = some [.notSigned, .ok, .ok, .ok, .ok, .ok] ∧
    (gapRun (withDelimiters ((fiveGops true).eraseIdx 8))).map Prod.fst = some [("_IPP_I", "_PPP_P", .notSigned), ("IPP_IS", "..._P.", .ok), ("ISPP_IPP_IS", "N.NN_NNN_NP", .notOk),
      ("   SPP_I", "MMM.PP_P", .notOk), (" PP_IS", "MN._P.", .notOk), ("ISPP_IS", "N..._P.", .notOk)] := by
  refine ⟨?_, ?_, ?_⟩ <;> decide +kernel

/-- The same at authenticity level GOP. Here one of the reports says OK although it is about no NAL units at all: three were expected and none was received. -/
theorem C80_nothing_ok_false :
    gapRun (withDelimiters ((fiveGops false).eraseIdx 8)) = some ([("_IPP_I", "_PPP_P", .notSigned), ("IPP_IS", "..._P.", .ok), ("ISPP_IPP_IS", "N.NN_NNN_NP", .notOk),
      ("SPP_I", ".PP_P", .ok), (" PP_IS", "MNN_P.", .notOk), ("ISPP_IS", "N.NN_P.", .notOk)], [(0, 0), (3, 3), (-1, -1), (3, 0), (3, 2), (3, 3)]) := by
  decide +kernel

/-- If the SEI of the first GOP is lost, the validator does not get into step: the list of pending NAL units grows, and no report says OK. -/
theorem C80_first_false (lists : Bool) :
    (gapRun ((fiveGops lists).eraseIdx 4)).map Prod.fst = some [("IPPI", "PPPP", .notSigned), ("IPPIPPI", "PPPPPPP", .notSigned), ("IPPIPPIS", "PPPPPPPU", .signaturePresent),
      ("IPPIPPISPPIS", "NNNPPPPUPPP.", .notOk), ("IPPISPPISPPIS", "NNNPUPPP.PPP.", .notOk), ("ISPPISPPISPPIS", "NUNNP.PPP.PPP.", .notOk)] := by
  cases lists <;> decide +kernel

variable {hs : Hashing} {codec : Codec} {oid : Bytes} {v : UInt8 × UInt8 × UInt8} {setup : List Setting} {cs : List SCall} {s : Signer} {os : List Obs}
  {env : AuthEnv} {key : Bytes} {st : List StreamItem} {nums : List Nat}

/-- **C80**: let a session sign a stream without golden SEI, and let a validator that is able to verify the signatures receive all of it, except that any number of SEIs are lost,
but not the first one. Then no call fails and nothing is out of bounds. Each SEI whose predecessor has come as well gives the report OK. With the first SEI after a loss comes
the report NOT OK, in which exactly as many NAL units are marked as invalid as there are in the GOPs without a SEI, all those of the GOP of this SEI are marked as valid, and
none as missing; from the next GOP on, everything is OK again.

What is missing: the first SEI must not be lost (`C80_first_false`) and must come before the third GOP starts, and then each intra picture must come directly after another
protected NAL unit (`C80_delimiter_false`). Golden SEIs, SEIs out of order or more than once, and damage to the NAL units at the same time are not treated.
The number of expected NAL units is reported as -1, and of those received as the number for the GOP of the SEI less one for each SEI lost, which is what the code computes and
not what the report should say. -/
theorem C80_lost_seis_partial (hk : SendsKey setup cs) (h : Undisturbed hs codec oid v setup cs s os) (t : Trusting hs env key s os) (ho : env.ov = .exact)
    (hbig : (gops (pieces codec cs)).1.length < 2 ^ 32) (hr : (gops (pieces codec cs)).1.length + 1 ≤ env.rounds)
    (start : ∀ p l, pieces codec cs = p :: l → p.first = true) (ht : Gapped codec cs os nums st) (hord : ∀ d ts, StreamItem.nalu d ts ∈ st → Ordinary codec d) :
    ∃ v' rs, authRun env (newValidator env codec) (st.map fun x => .nalu x.bytes) = .ok (v', rs) ∧ Skipping codec (gops (pieces codec cs)).1 0 0 nums st rs := by
  obtain ⟨hok, -⟩ := scene_ok (sent := true) (lists := true) (full := none) h t (.inl rfl)
  obtain ⟨g1, g2⟩ := gops_started start
  obtain ⟨p1, -⟩ := gops_partition (pieces codec cs)
  have hlen : (st.filterMap StreamItem.sei?).length = nums.length := by
    have := congrArg List.length ht.seis
    simpa using this
  refine gap_run hok ho (Γ := sceneOf env codec s key true 0 true none) (cur := (gops (pieces codec cs)).2) g1 g2 (by simpa [sceneOf] using hbig) hr st [] nums 0 _
    (.of_early (early_new hok rfl) _ _) (fun hc => absurd rfl hc) (fun _ => ⟨rfl, ht.first⟩) hord hlen ?_ ht.order (fun _ _ => Nat.zero_le _) ?_ ?_ ht.prompt ht.close
  · intro x b j hb hj
    refine seis_of (c := 0) (lists := true) (full := none) h t (fun hx => by cases hx) (.inl rfl) (fun _ => ⟨hk, first_due h⟩) (fun _ hx => by cases hx) start j b ?_
    have := congrArg (·[x]?) ht.seis
    simp only [List.getElem?_map, hb, hj, Option.map_some, Option.some.injEq] at this
    rw [Nat.zero_add]; exact this.symm
  · rw [List.nil_append, p1]; exact ht.nalus
  · intro x b c j e hj
    exact ht.after x b c e j hj

/-! ### A session that meets the hypotheses -/

/-- The stream of `damageSession`, without the second one of its three SEIs. -/
def gapStream (bs : List Bytes) : List StreamItem :=
  [.nalu [0, 0, 0, 1, 0x65, 0x88, 0x84, 0x80] none, .nalu [0, 0, 0, 1, 0x41, 0x9a, 0x80] none, .nalu [0, 0, 0, 1, 0x65, 0x88, 0x85, 0x80] none,
   .sei (bs.getD 0 []), .nalu [0, 0, 0, 1, 0x41, 0x9a, 0x81] none, .nalu [0, 0, 0, 1, 0x65, 0x88, 0x86, 0x80] none,
   .nalu [0, 0, 0, 1, 0x41, 0x9a, 0x82] none, .nalu [0, 0, 0, 1, 0x65, 0x88, 0x87, 0x80] none, .sei (bs.getD 2 [])]

theorem gapStream_split {bs : List Bytes} {a c : List StreamItem} {x : StreamItem} (e : gapStream bs = a ++ x :: c) :
    (gapStream bs)[a.length]? = some x ∧ a = (gapStream bs).take a.length ∧ a.length < 9 := by
  refine ⟨by rw [e]; simp, by rw [e]; simp, ?_⟩
  have := congrArg List.length e
  rw [List.length_append, List.length_cons] at this
  have h9 : (gapStream bs).length = 9 := rfl
  omega

theorem gapStream_gapped {os : List Obs} (h : (delivered os).length = 3) : Gapped .h264 damageCalls os [0, 2] (gapStream (delivered os)) := by
  obtain ⟨b0, b1, b2, hb⟩ : ∃ b0 b1 b2, delivered os = [b0, b1, b2] := by
    match delivered os, h with
    | [b0, b1, b2], _ => exact ⟨b0, b1, b2, rfl⟩
  have hcases : ∀ n : Nat, n < 9 → n = 0 ∨ n = 1 ∨ n = 2 ∨ n = 3 ∨ n = 4 ∨ n = 5 ∨ n = 6 ∨ n = 7 ∨ n = 8 := by omega
  refine ⟨⟨[], ?_⟩, ?_, by decide, by simp, ?_, ?_, ?_⟩
  · show (gapStream []).filterMap (StreamItem.piece .h264) ++ [] = _
    decide +kernel
  · rw [hb]; rfl
  · intro a b c e j hj
    obtain ⟨h1, h2, h3⟩ := gapStream_split e
    have g1 : ((gops (pieces .h264 damageCalls)).1.take 1).flatten.length ≤ 3 := by decide +kernel
    have g2 : ((gops (pieces .h264 damageCalls)).1.take 3).flatten.length ≤ 7 := by decide +kernel
    generalize a.length = n at h1 h2 h3
    subst h2
    rcases hcases n h3 with rfl | rfl | rfl | rfl | rfl | rfl | rfl | rfl | rfl <;> cases h1
    · cases hj; exact g1
    · cases hj; exact g2
  · intro a b c e hn
    obtain ⟨h1, h2, h3⟩ := gapStream_split e
    have g1 : ((((gapStream []).take 3).filterMap (StreamItem.piece .h264)).filter (·.first)).length ≤ 2 := by decide +kernel
    generalize a.length = n at h1 h2 h3
    subst h2
    rcases hcases n h3 with rfl | rfl | rfl | rfl | rfl | rfl | rfl | rfl | rfl <;> cases h1
    · exact g1
    · cases hn
  · intro a x y c e hn p hp hf
    obtain ⟨h1, h2, h3⟩ := gapStream_split e
    obtain ⟨h4, -, h5⟩ := gapStream_split (a := a ++ [x]) (x := y) (c := c) (by rw [e]; simp)
    rw [List.length_append, List.length_singleton] at h4 h5
    have key : ∀ i : Nat, i < 9 → 4 ≤ i → (match (gapStream [])[i - 1]?, (gapStream [])[i]? with
      | some x, some y => (match y.piece .h264 with | some p => !p.first || (x.piece .h264).isSome | none => true) | _, _ => true) = true := by decide +kernel
    have hx : ∀ i : Nat, ((gapStream (delivered os))[i]?).map (StreamItem.piece .h264) = ((gapStream [])[i]?).map (StreamItem.piece .h264) := by
      intro i
      rw [← List.getElem?_map, ← List.getElem?_map]; rfl
    have h4n : 4 ≤ a.length + 1 := by
      rcases Nat.lt_or_ge a.length 3 with hlt | hge
      · exfalso
        apply hn
        have : a ++ [x] = (gapStream (delivered os)).take (a.length + 1) := by
          rw [e, show a ++ x :: y :: c = (a ++ [x]) ++ y :: c by simp, show a.length + 1 = (a ++ [x]).length by simp, List.take_left]
        rw [this]
        rcases hcases a.length (by omega) with e | e | e | e | e | e | e | e | e <;> first | omega | (rw [e]; rfl)
      · omega
    have hk := key (a.length + 1) h5 h4n
    have hxa := hx a.length
    have hya := hx (a.length + 1)
    rw [h1] at hxa
    rw [h4] at hya
    rw [Nat.add_sub_cancel] at hk
    cases ha : (gapStream [])[a.length]? with
    | none => rw [ha] at hxa; cases hxa
    | some x' =>
      cases hb' : (gapStream [])[a.length + 1]? with
      | none => rw [hb'] at hya; cases hya
      | some y' =>
        rw [ha] at hxa hk
        rw [hb'] at hya hk
        simp only [Option.map_some, Option.some.injEq] at hxa hya
        dsimp only at hk
        rw [← hxa, ← hya, hp] at hk
        dsimp only at hk
        rw [hf] at hk
        simpa using hk

theorem gapStream_ordinary {bs : List Bytes} {d : Bytes} {ts : Option Int64} (h : StreamItem.nalu d ts ∈ gapStream bs) : Ordinary .h264 d := by
  have key : ∀ d : Bytes, d ≠ [] → (match parseNalu d .h264 true true with | .ok n => !n.gopSei | _ => false) = true →
      (Protected .h264 ((body d).getD 0 0) ((body d).getD 1 0) → LegalHeader .h264 ((body d).getD 0 0) ((body d).getD 1 0)) → Ordinary .h264 d := by
    intro d h1 h2 h3
    refine ⟨h1, ?_, h3⟩
    split at h2
    · next n hn => exact ⟨n, hn, by simpa using h2⟩
    · cases h2
  simp only [gapStream, List.mem_cons, List.not_mem_nil, or_false, StreamItem.nalu.injEq, reduceCtorEq, false_or] at h
  rcases h with ⟨rfl, -⟩ | ⟨rfl, -⟩ | ⟨rfl, -⟩ | ⟨rfl, -⟩ | ⟨rfl, -⟩ | ⟨rfl, -⟩ | ⟨rfl, -⟩
  all_goals exact key _ (by simp) (by decide +kernel) (by unfold Protected LegalHeader; decide)

/-- Two of three SEIs are received. -/
example : ∃ (st : List StreamItem) (v' : Validator) (rs : List AObs), authRun polyEnv (newValidator polyEnv .h264) (st.map fun x : StreamItem => AuthCall.nalu x.bytes) = .ok (v', rs) ∧
    (st.filterMap StreamItem.sei?).length = 2 ∧ Skipping .h264 (gops (pieces .h264 damageCalls)).1 0 0 [0, 2] st rs := by
  obtain ⟨s, os, h1, h2, hk, -, h3⟩ := damageSession
  have hg : (gops (pieces .h264 damageCalls)).1.length = 3 := by decide +kernel
  obtain ⟨v', rs, g1, g2⟩ := C80_lost_seis_partial hk h1 h2 rfl (by rw [hg]; decide) (by rw [hg]; decide) damage_start (gapStream_gapped h3) (fun d ts => gapStream_ordinary)
  exact ⟨_, v', rs, g1, rfl, g2⟩

end SV
