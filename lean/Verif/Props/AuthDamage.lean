import Verif.Proofs.FlowAny
import Verif.Props.AuthFlow
import Verif.Props.AuthForge
/-! Damage to a stream is contained: C74. -/
namespace SV
open Spec
open Validator

variable {hs : Hashing} {codec : Codec} {oid : Bytes} {v : UInt8 × UInt8 × UInt8} {setup : List Setting} {cs : List SCall} {s : Signer} {os : List Obs}
  {env : AuthEnv} {key : Bytes} {st : List StreamItem}

theorem keepsGopLevel_of {c : SCall} (h : c ≠ .set (.level 1)) : KeepsGopLevel c := by
  cases c with
  | set x =>
    cases x with
    | level l => intro hl; exact h (by rw [hl])
    | _ => trivial
  | _ => trivial

theorem gopLevel_signed (h : Undisturbed hs codec oid v setup cs s os) (hl : AtGopLevel setup cs) :
    ∀ g ∈ os.filterMap Obs.signed, g.e.frameLevel = false := by
  obtain ⟨a, b, rfl, h2⟩ := hl
  exact run_gopLevel a b cs h.plainly (fun c hc => keepsGopLevel_of (h2 c hc)) h.run

/-- What is received consists of GOPs. -/
theorem receivedGops_ok (h : ∀ p l, st.filterMap (StreamItem.piece codec) = p :: l → p.first = true) :
    (receivedGops codec st).flatten = st.filterMap (StreamItem.piece codec) ∧ ∀ g ∈ receivedGops codec st, Started g := by
  obtain ⟨h1, h2⟩ := gops_started h
  obtain ⟨p1, -⟩ := gops_partition (st.filterMap (StreamItem.piece codec))
  unfold receivedGops
  dsimp only
  split
  · next hc =>
    rw [hc, List.append_nil] at p1
    rw [List.append_nil]
    exact ⟨p1, h1⟩
  · next hc =>
    refine ⟨by rw [List.flatten_append]; simpa using p1, fun g hg => ?_⟩
    rcases List.mem_append.1 hg with hg | hg
    · exact h1 g hg
    · rcases List.mem_singleton.1 hg with rfl
      exact h2.resolve_left hc

theorem reported_of {R : Nat → Nat → List Piece → Report → Prop} {lists : Bool} {full : Option Nat} (hk : SendsKey setup cs) (h : Undisturbed hs codec oid v setup cs s os)
    (t : Trusting hs env key s os) (start : ∀ p l, pieces codec cs = p :: l → p.first = true) (ht : Altered codec cs os st)
    (hord : ∀ d ts, StreamItem.nalu d ts ∈ st → Ordinary codec d) (hnl : lists = false → ∀ g ∈ os.filterMap Obs.signed, g.e.frameLevel = false)
    (hfull : ∀ cap, full = some cap → (∀ c ∈ cs, KeepsLevel c) ∧ s.e.frameLevel = true ∧ s.maxPayload = 0 ∧ cap = s.listCap)
    (hno : Judges R (sceneOf env codec s key true 0 lists full) (gops (pieces codec cs)).1 (receivedGops codec st)) :
    ∃ v' rs, authRun env (newValidator env codec) (st.map fun x => .nalu x.bytes) = .ok (v', rs) ∧
      Reported R codec (gops (pieces codec cs)).1 (receivedGops codec st) 0 0 st rs := by
  obtain ⟨hok, hR⟩ := scene_ok (sent := true) (lists := lists) (full := full) h t (.inl rfl)
  obtain ⟨r1, r2⟩ := receivedGops_ok ht.start
  refine any_run hok (Γ := sceneOf env codec s key true 0 lists full) hno (cur := []) r2 (.inl rfl) (P := st.filterMap StreamItem.sei? ≠ [])
    (fun hp => ?_) st [] _ (fun hp => hp) (.of_early (early_new hok rfl) _ _) hord ?_ ?_ ?_
  · exact ⟨ht.first hp, fun h0 => absurd rfl h0⟩
  · intro j b hb
    refine seis_of (c := 0) (lists := lists) (full := full) h t hnl (.inl rfl) (fun _ => ⟨hk, first_due h⟩) hfull start j b ?_
    obtain ⟨w, hw⟩ := ht.seis
    rw [List.nil_append] at hb
    rw [Nat.zero_add, ← hw, List.getElem?_append_left (List.getElem?_eq_some_iff.1 hb).1]
    exact hb
  · rw [List.append_nil, r1]
    exact List.prefix_refl _
  · exact ht.after

/-- **C74**: let a session sign a stream without golden SEI, and let a validator that is able to verify the signatures receive another stream
instead: the SEIs are the same, and from the second GOP on the NAL units between the intra pictures may have been changed, removed, added
and reordered in any way, and so may the intra pictures themselves as long as they are recognised as such. Then no call fails, nothing
is out of bounds, and each GOP that has come as it was signed, together with the intra picture before that its SEI refers to, is
reported as OK with none of its NAL units marked as invalid, missing or erroneous, whatever has happened to the GOPs before and after it. The damage does not spread.

What is missing: lost or additional intra pictures and lost SEIs, after which the GOPs are counted differently; damage to the first GOP; golden SEIs.
That a damaged GOP is not reported as OK is part of `C74_exact_partial` and, with lists of hashes, a matter of C42. -/
theorem C74_contained_partial (hk : SendsKey setup cs) (h : Undisturbed hs codec oid v setup cs s os) (t : Trusting hs env key s os)
    (start : ∀ p l, pieces codec cs = p :: l → p.first = true) (ht : Altered codec cs os st)
    (hord : ∀ d ts, StreamItem.nalu d ts ∈ st → Ordinary codec d) :
    ∃ v' rs, authRun env (newValidator env codec) (st.map fun x => .nalu x.bytes) = .ok (v', rs) ∧
      Contained false codec (gops (pieces codec cs)).1 (receivedGops codec st) 0 0 st rs :=
  reported_of (lists := true) (full := none) hk h t start ht hord (fun hx => by cases hx) (fun _ hx => by cases hx) (judges_any _ _)

/-- The same at authenticity level GOP, if no two of the inputs that are hashed collide: the reports say exactly which GOPs are damaged. The
GOPs that have come as they were signed, with the intra picture before, are OK, and all others are NOT OK. -/
theorem C74_exact_partial (hk : SendsKey setup cs) (hl : AtGopLevel setup cs) (h : Undisturbed hs codec oid v setup cs s os) (t : Trusting hs env key s os)
    (start : ∀ p l, pieces codec cs = p :: l → p.first = true) (ht : Altered codec cs os st)
    (hord : ∀ d ts, StreamItem.nalu d ts ∈ st → Ordinary codec d)
    (hno : NoClash (env.H s.e.oid) (((gops (pieces codec cs)).1 ++ receivedGops codec st).flatMap (hashInputs (env.H s.e.oid)))) :
    ∃ v' rs, authRun env (newValidator env codec) (st.map fun x => .nalu x.bytes) = .ok (v', rs) ∧
      Contained true codec (gops (pieces codec cs)).1 (receivedGops codec st) 0 0 st rs :=
  reported_of (lists := false) (full := none) hk h t start ht hord (fun _ => gopLevel_signed h hl) (fun _ hx => by cases hx)
    (judges_gop (scene_ok h t (.inl rfl)).1 rfl (receivedGops_ok ht.start).2 (gops_started start).1 hno)

/-! ### A session that meets the hypotheses -/

/-- Three GOPs with two NAL units each, and the start of a fourth one. -/
def damageScript : List (Option Bytes) :=
  [some [0, 0, 0, 1, 0x65, 0x88, 0x84, 0x80], some [0, 0, 0, 1, 0x41, 0x9a, 0x80], some [0, 0, 0, 1, 0x65, 0x88, 0x85, 0x80], none,
   some [0, 0, 0, 1, 0x41, 0x9a, 0x81], some [0, 0, 0, 1, 0x65, 0x88, 0x86, 0x80], none, some [0, 0, 0, 1, 0x41, 0x9a, 0x82],
   some [0, 0, 0, 1, 0x65, 0x88, 0x87, 0x80], none]

def damageSetup : List Setting := [.level 0, .privateKey (some ([9, 9, 9], 40)) true]

def damageSigner : Signer :=
  match signRun polyHashing toySigner (damageSetup.map SCall.set) with
  | .ok p => p.1
  | _ => toySigner

def damageCalls : List SCall := flowMake polyHashing damageSigner [] damageScript

/-- What is received: in the second GOP, the P-frame has been replaced by two others. -/
def damaged (bs : List Bytes) : List StreamItem :=
  [.nalu [0, 0, 0, 1, 0x65, 0x88, 0x84, 0x80] none, .nalu [0, 0, 0, 1, 0x41, 0x9a, 0x80] none, .nalu [0, 0, 0, 1, 0x65, 0x88, 0x85, 0x80] none,
   .sei (bs.getD 0 []), .nalu [0, 0, 0, 1, 0x41, 0x9b, 0x81] none, .nalu [0, 0, 0, 1, 0x41, 0x9c, 0x81] none, .nalu [0, 0, 0, 1, 0x65, 0x88, 0x86, 0x80] none,
   .sei (bs.getD 1 []), .nalu [0, 0, 0, 1, 0x41, 0x9a, 0x82] none, .nalu [0, 0, 0, 1, 0x65, 0x88, 0x87, 0x80] none, .sei (bs.getD 2 [])]

theorem damageSession : ∃ s os, Undisturbed polyHashing .h264 [0x60, 0x86] (2, 2, 0) damageSetup damageCalls s os ∧
    Trusting polyHashing polyEnv [9, 9, 9] s os ∧ SendsKey damageSetup damageCalls ∧ AtGopLevel damageSetup damageCalls ∧ (delivered os).length = 3 := by
  obtain ⟨s, os, h1, h2⟩ := runCheck2 polyHashing (newSigner .h264 [0x60, 0x86] (2, 2, 0)) (damageSetup.map SCall.set ++ damageCalls)
    (fun s os => acceptedB (damageSetup.map SCall.set ++ damageCalls) os && decide (s.e.hashSize = 32) && decide ((delivered os).length = 3) &&
      decide (s.e.oid = [0x60, 0x86]) && decide (s.e.publicKey = some [9, 9, 9]) && decide (s.e.maxSignature = 40) && verifiesB polyEnv [9, 9, 9] (os.filterMap Obs.signed) (taken os) &&
      (os.filterMap Obs.signed).all fun g => decide ((seiStart g.o g.e).1.bytes.length - (seiStart { g.o with epb := false } g.e).1.bytes.length < 8 + s.e.maxSignature))
    (by decide +kernel)
  simp only [Bool.and_eq_true, decide_eq_true_eq] at h2
  obtain ⟨⟨⟨⟨⟨⟨⟨c1, c2⟩, c3⟩, c4⟩, c5⟩, c8⟩, c6⟩, c7⟩ := h2
  have hreg := flowMake_regular polyHashing damageScript damageSigner []
  have hlev : ∀ c ∈ damageCalls, ∀ x, c ≠ .set x := by
    have : ∀ c ∈ damageCalls, (match c with | .set _ => false | _ => true) = true := by decide +kernel
    intro c hc x hx
    have := this c hc
    rw [hx] at this
    cases this
  refine ⟨s, os, ⟨by decide, ?_, ?_, fun c hc => (hreg c hc).1, fun c hc => (hreg c hc).2.1, honest_of_check _ _ _ _ (by decide +kernel), h1, accepted_of_check _ _ c1⟩,
    ⟨c5, by decide, fun _ => rfl, ?_, by rw [c4]; decide, fun _ => c2, by decide, verifies_of_check c6, ?_⟩, ?_, ⟨[], _, rfl, ?_⟩, c3⟩
  · intro x; simp [polyHashing, polyHash]
  · intro x hx
    simp only [damageSetup, List.mem_cons, List.not_mem_nil, or_false] at hx
    rcases hx with rfl | rfl <;> simp [Setup]
  · rw [c4, c2]; rfl
  · intro g hg
    have := List.all_eq_true.1 c7 g hg
    simpa using this
  · intro c hc
    rcases List.mem_append.1 hc with hc | hc
    · simp only [damageSetup, List.map_cons, List.map_nil, List.mem_cons, List.not_mem_nil, or_false] at hc
      rcases hc with rfl | rfl <;> simp
    · exact (hreg c hc).2.2.1
  · intro c hc
    rcases List.mem_append.1 hc with hc | hc
    · simp only [List.map_cons, List.map_nil, List.mem_cons, List.not_mem_nil, or_false] at hc
      rw [hc]; simp
    · exact hlev c hc _

theorem damage_start : ∀ p l, pieces .h264 damageCalls = p :: l → p.first = true := by
  intro p l e
  have : (pieces .h264 damageCalls).head?.map (·.first) = some true := by decide +kernel
  rw [e] at this
  simpa using this

theorem damage_ordinary {bs : List Bytes} {d : Bytes} {ts : Option Int64} (h : StreamItem.nalu d ts ∈ damaged bs) : Ordinary .h264 d := by
  have key : ∀ d : Bytes, d ≠ [] → (match parseNalu d .h264 true true with | .ok n => !n.gopSei | _ => false) = true →
      (Protected .h264 ((body d).getD 0 0) ((body d).getD 1 0) → LegalHeader .h264 ((body d).getD 0 0) ((body d).getD 1 0)) → Ordinary .h264 d := by
    intro d h1 h2 h3
    refine ⟨h1, ?_, h3⟩
    split at h2
    · next n hn => exact ⟨n, hn, by simpa using h2⟩
    · cases h2
  simp only [damaged, List.mem_cons, List.not_mem_nil, or_false, StreamItem.nalu.injEq, reduceCtorEq, false_or] at h
  rcases h with ⟨rfl, -⟩ | ⟨rfl, -⟩ | ⟨rfl, -⟩ | ⟨rfl, -⟩ | ⟨rfl, -⟩ | ⟨rfl, -⟩ | ⟨rfl, -⟩ | ⟨rfl, -⟩
  all_goals exact key _ (by simp) (by decide +kernel) (by unfold Protected LegalHeader; decide)

/-- The GOPs received do not depend on the SEIs. -/
theorem damaged_gops (bs : List Bytes) : receivedGops .h264 (damaged bs) = receivedGops .h264 (damaged []) := rfl

theorem damaged_altered {os : List Obs} (h : (delivered os).length = 3) : Altered .h264 damageCalls os (damaged (delivered os)) := by
  refine ⟨?_, ?_, fun a b c e => ?_, fun _ => ?_⟩
  · intro p l e
    have : ((damaged (delivered os)).filterMap (StreamItem.piece .h264)).head?.map (·.first) = some true := by
      show ((damaged []).filterMap (StreamItem.piece .h264)).head?.map (·.first) = some true
      decide +kernel
    rw [e] at this
    simpa using this
  · obtain ⟨b0, b1, b2, hb⟩ : ∃ b0 b1 b2, delivered os = [b0, b1, b2] := by
      match delivered os, h with
      | [b0, b1, b2], _ => exact ⟨b0, b1, b2, rfl⟩
    rw [hb]
    exact List.prefix_refl _
  · have hlt : (a.filterMap StreamItem.sei?).length < 4 := by
      have : ((damaged (delivered os)).filterMap StreamItem.sei?).length = 3 := rfl
      rw [e, List.filterMap_append, List.length_append] at this
      omega
    rw [damaged_gops]
    refine ⟨by rw [show (receivedGops .h264 (damaged [])).length = 4 by decide +kernel]; exact hlt, ?_⟩
    have hc : afterB .h264 (receivedGops .h264 (damaged [])) 0 0 (damaged (delivered os)) = true := by
      show afterB .h264 (receivedGops .h264 (damaged [])) 0 0 (damaged []) = true
      decide +kernel
    have := after_of_check .h264 _ _ 0 0 hc a b c e
    simpa using this
  · refine ⟨_, _, show _ = some ((gops (pieces .h264 damageCalls)).1.getD 0 []) by decide +kernel,
      show _ = some ((receivedGops .h264 (damaged [])).getD 0 []) by rw [damaged_gops]; decide +kernel, ?_⟩
    unfold Alike
    decide +kernel

/-- Three SEIs, of which the second belongs to a damaged GOP. -/
example : ∃ (st : List StreamItem) (v' : Validator) (rs : List AObs), authRun polyEnv (newValidator polyEnv .h264) (st.map fun x : StreamItem => AuthCall.nalu x.bytes) = .ok (v', rs) ∧
    (st.filterMap StreamItem.sei?).length = 3 ∧ Contained false .h264 (gops (pieces .h264 damageCalls)).1 (receivedGops .h264 st) 0 0 st rs := by
  obtain ⟨s, os, h1, h2, hk, -, h3⟩ := damageSession
  obtain ⟨v', rs, g1, g2⟩ := C74_contained_partial hk h1 h2 damage_start (damaged_altered h3) (fun d ts => damage_ordinary)
  exact ⟨_, v', rs, g1, rfl, g2⟩

theorem damage_poly : NoClash polyHash (((gops (pieces .h264 damageCalls)).1 ++ receivedGops .h264 (damaged [])).flatMap (hashInputs polyHash)) := by
  unfold NoClash
  decide +kernel

/-- The GOPs numbers 0 and 2 are intact, number 1 is not. -/
theorem damage_intact (bs : List Bytes) : Intact (gops (pieces .h264 damageCalls)).1 (receivedGops .h264 (damaged bs)) 0 ∧
    Intact (gops (pieces .h264 damageCalls)).1 (receivedGops .h264 (damaged bs)) 2 ∧
    ¬ Intact (gops (pieces .h264 damageCalls)).1 (receivedGops .h264 (damaged bs)) 1 := by
  rw [damaged_gops]
  have h2 : ∀ k, k = 0 ∨ k = 2 → (gops (pieces .h264 damageCalls)).1[k]? = some ((gops (pieces .h264 damageCalls)).1.getD k []) ∧
      (receivedGops .h264 (damaged []))[k]? = some ((receivedGops .h264 (damaged [])).getD k []) ∧
      Alike ((receivedGops .h264 (damaged [])).getD k []) ((gops (pieces .h264 damageCalls)).1.getD k []) := by
    unfold Alike
    rintro k (rfl | rfl) <;> decide +kernel
  refine ⟨⟨⟨_, _, h2 0 (.inl rfl)⟩, fun h => absurd rfl h⟩, ⟨⟨_, _, h2 2 (.inr rfl)⟩, fun _ => by decide +kernel⟩, ?_⟩
  rintro ⟨⟨g, h, e1, e2, e3⟩, -⟩
  have := congrArg List.length e3
  rw [List.length_map, List.length_map] at this
  have f1 : ((gops (pieces .h264 damageCalls)).1[1]?).map List.length = some 2 := by decide +kernel
  have f2 : ((receivedGops .h264 (damaged []))[1]?).map List.length = some 3 := by decide +kernel
  rw [e1] at f1
  rw [e2] at f2
  simp at f1 f2
  omega

/-- What `Reported` says of the report given with a SEI. -/
theorem Spec.Reported.verdict {R : Nat → Nat → List Piece → Report → Prop} {codec : Codec} {gs rs : List (List Piece)} : ∀ {st : List StreamItem} {os : List AObs} {n k : Nat},
    Reported R codec gs rs n k st os → ∀ a b c, st = a ++ .sei b :: c → ∃ o r got rest, os[a.length]? = some o ∧ o.report = some r ∧
      rs[k + (a.filterMap StreamItem.sei?).length]? = some got ∧ (Intact gs rs (k + (a.filterMap StreamItem.sei?).length) → r.latest.auth = .ok) ∧
      R (k + (a.filterMap StreamItem.sei?).length) rest got r := by
  intro st
  induction st with
  | nil => intro os n k _ a b c h; exact absurd h (by simp)
  | cons x st ih =>
    intro os n k hc a b c h
    cases os with
    | nil => cases x <;> cases hc
    | cons o os =>
      cases a with
      | nil =>
        cases h
        obtain ⟨-, ⟨got, r, h1, h2, -, -, h3, h4⟩, -⟩ := hc
        exact ⟨o, r, got, _, rfl, h2, h1, fun hi => (h3 hi).latest, h4⟩
      | cons y a =>
        cases h
        cases x with
        | nalu d ts => exact ih hc.2.2 a b c rfl
        | sei b' =>
          have := ih hc.2.2 a b c rfl
          have e : ((StreamItem.sei b' :: a).filterMap StreamItem.sei?).length = (a.filterMap StreamItem.sei?).length + 1 := by simp [StreamItem.sei?]
          rw [e, show k + ((a.filterMap StreamItem.sei?).length + 1) = k + 1 + (a.filterMap StreamItem.sei?).length by omega]
          exact this

/-- What `Contained` says of the verdict given with a SEI. -/
theorem Spec.Contained.verdict {strict : Bool} {codec : Codec} {gs rs : List (List Piece)} {st : List StreamItem} {os : List AObs} {n k : Nat}
    (h : Contained strict codec gs rs n k st os) (a : List StreamItem) (b : Bytes) (c : List StreamItem) (e : st = a ++ .sei b :: c) :
    ∃ o r, os[a.length]? = some o ∧ o.report = some r ∧
      (Intact gs rs (k + (a.filterMap StreamItem.sei?).length) → r.latest.auth = .ok) ∧
      (strict = true → ¬ Intact gs rs (k + (a.filterMap StreamItem.sei?).length) → r.latest.auth = .notOk) := by
  obtain ⟨o, r, _, _, h1, h2, -, h3, h4⟩ := Spec.Reported.verdict h a b c e
  exact ⟨o, r, h1, h2, h3, h4⟩

/-- The verdicts on them. -/
example : ∃ (st : List StreamItem) (v' : Validator) (rs : List AObs), authRun polyEnv (newValidator polyEnv .h264) (st.map fun x : StreamItem => AuthCall.nalu x.bytes) = .ok (v', rs) ∧
    ([3, 7, 10].map fun k => rs[k]?.bind fun o : AObs => o.report.map fun r => r.latest.auth) = [some .ok, some .notOk, some .ok] := by
  obtain ⟨s, os, h1, h2, hk, hl, h3⟩ := damageSession
  obtain ⟨v', rs, g1, g2⟩ := C74_exact_partial hk hl h1 h2 damage_start (damaged_altered h3) (fun d ts => damage_ordinary) damage_poly
  refine ⟨_, v', rs, g1, ?_⟩
  obtain ⟨i0, i2, i1⟩ := damage_intact (delivered os)
  obtain ⟨o3, r3, p3, q3, k3, -⟩ := g2.verdict ((damaged (delivered os)).take 3) _ ((damaged (delivered os)).drop 4) rfl
  obtain ⟨o7, r7, p7, q7, -, k7⟩ := g2.verdict ((damaged (delivered os)).take 7) _ ((damaged (delivered os)).drop 8) rfl
  obtain ⟨o10, r10, p10, q10, k10, -⟩ := g2.verdict ((damaged (delivered os)).take 10) _ [] rfl
  have p3 : rs[3]? = some o3 := p3
  have p7 : rs[7]? = some o7 := p7
  have p10 : rs[10]? = some o10 := p10
  simp [p3, p7, p10, q3, q7, q10, k3 i0, k7 rfl i1, k10 i2]

end SV
