import Verif.Props.AuthDamage
/-! With lists of hashes, the reports say what has happened to each GOP: C75. -/
namespace SV
open Spec
open Validator

variable {hs : Hashing} {codec : Codec} {oid : Bytes} {v : UInt8 × UInt8 × UInt8} {setup : List Setting} {cs : List SCall} {s : Signer} {os : List Obs}
  {env : AuthEnv} {key : Bytes} {st : List StreamItem}

/-- **C75**: let a session sign a stream at authenticity level frame, without limit on the payload and without golden SEI, and let a validator that is able to verify
the signatures receive another stream instead: the SEIs are the same, and from the second GOP on the NAL units between the intra pictures may have
been changed, removed, added and reordered in any way, and so may the intra pictures themselves as long as they are recognised as such. Assume that no two of the
inputs that are hashed collide, and that no intra picture consists of two hashes. Then the report on each GOP whose list of hashes is complete tells what has happened.
It is OK if the GOP is as it was signed, and so is the intra picture before. It is OK with missing information if NAL units are missing and nothing else is wrong,
and then it says how many were sent and how many have come, and marks as many items as missing and none as invalid. Otherwise it is NOT OK.

What is missing: lost or additional intra pictures and lost SEIs, after which the GOPs are counted differently; damage to the first GOP; golden SEIs; which items are marked as missing.
The assumption on intra pictures cannot be left out (`C75_mask_false`). -/
theorem C75_diagnosed_partial (hk : SendsKey setup cs) (h : Undisturbed hs codec oid v setup cs s os) (t : Trusting hs env key s os)
    (hl : ∀ c ∈ cs, KeepsLevel c) (hf : s.e.frameLevel = true) (hp : s.maxPayload = 0)
    (start : ∀ p l, pieces codec cs = p :: l → p.first = true) (ht : Altered codec cs os st)
    (hord : ∀ d ts, StreamItem.nalu d ts ∈ st → Ordinary codec d)
    (hno : NoClash (env.H s.e.oid) (((gops (pieces codec cs)).1 ++ receivedGops codec st).flatMap (hashInputs (env.H s.e.oid))))
    (hm : NoMasks (env.H s.e.oid) (gops (pieces codec cs)).1 (receivedGops codec st)) :
    ∃ v' rs, authRun env (newValidator env codec) (st.map fun x => .nalu x.bytes) = .ok (v', rs) ∧
      Diagnosed s.e.hashSize s.listCap codec (gops (pieces codec cs)).1 (receivedGops codec st) 0 0 st rs :=
  reported_of (lists := true) (full := some s.listCap) hk h t start ht hord (fun hx => by cases hx) (fun _ hx => by cases hx; exact ⟨hl, hf, hp, rfl⟩)
    (judges_list (scene_ok h t (.inl rfl)).1 rfl (receivedGops_ok ht.start).2 (gops_started start).1 hno hm)

/-! ### A session that meets the hypotheses -/

/-- Three GOPs with two, three and two NAL units, and the start of a fourth one. -/
def lossScript : List (Option Bytes) :=
  [some [0, 0, 0, 1, 0x65, 0x88, 0x84, 0x80], some [0, 0, 0, 1, 0x41, 0x9a, 0x80], some [0, 0, 0, 1, 0x65, 0x88, 0x85, 0x80], none,
   some [0, 0, 0, 1, 0x41, 0x9a, 0x81], some [0, 0, 0, 1, 0x41, 0x9b, 0x81], some [0, 0, 0, 1, 0x65, 0x88, 0x86, 0x80], none, some [0, 0, 0, 1, 0x41, 0x9a, 0x82],
   some [0, 0, 0, 1, 0x65, 0x88, 0x87, 0x80], none]

def lossSetup : List Setting := [.privateKey (some ([9, 9, 9], 40)) true]

def lossSigner : Signer :=
  match signRun polyHashing toySigner (lossSetup.map SCall.set) with
  | .ok p => p.1
  | _ => toySigner

def lossCalls : List SCall := flowMake polyHashing lossSigner [] lossScript

/-- What is received: the first P-frame of the second GOP has been lost, and that of the third one has been altered. -/
def thinned (bs : List Bytes) : List StreamItem :=
  [.nalu [0, 0, 0, 1, 0x65, 0x88, 0x84, 0x80] none, .nalu [0, 0, 0, 1, 0x41, 0x9a, 0x80] none, .nalu [0, 0, 0, 1, 0x65, 0x88, 0x85, 0x80] none,
   .sei (bs.getD 0 []), .nalu [0, 0, 0, 1, 0x41, 0x9b, 0x81] none, .nalu [0, 0, 0, 1, 0x65, 0x88, 0x86, 0x80] none,
   .sei (bs.getD 1 []), .nalu [0, 0, 0, 1, 0x41, 0x9c, 0x82] none, .nalu [0, 0, 0, 1, 0x65, 0x88, 0x87, 0x80] none, .sei (bs.getD 2 [])]

theorem lossSession : ∃ s os, Undisturbed polyHashing .h264 [0x60, 0x86] (2, 2, 0) lossSetup lossCalls s os ∧
    Trusting polyHashing polyEnv [9, 9, 9] s os ∧ SendsKey lossSetup lossCalls ∧ (∀ c ∈ lossCalls, KeepsLevel c) ∧
    s.e.frameLevel = true ∧ s.maxPayload = 0 ∧ s.e.hashSize = 32 ∧ s.listCap = 19200 ∧ s.e.oid = [0x60, 0x86] ∧ (delivered os).length = 3 := by
  obtain ⟨s, os, h1, h2⟩ := runCheck2 polyHashing (newSigner .h264 [0x60, 0x86] (2, 2, 0)) (lossSetup.map SCall.set ++ lossCalls)
    (fun s os => acceptedB (lossSetup.map SCall.set ++ lossCalls) os && decide (s.e.hashSize = 32) && decide ((delivered os).length = 3) &&
      decide (s.e.oid = [0x60, 0x86]) && decide (s.e.publicKey = some [9, 9, 9]) && decide (s.e.maxSignature = 40) && verifiesB polyEnv [9, 9, 9] (os.filterMap Obs.signed) (taken os) &&
      s.e.frameLevel && decide (s.maxPayload = 0) && decide (s.listCap = 19200) &&
      (os.filterMap Obs.signed).all fun g => decide ((seiStart g.o g.e).1.bytes.length - (seiStart { g.o with epb := false } g.e).1.bytes.length < 8 + s.e.maxSignature))
    (by decide +kernel)
  simp only [Bool.and_eq_true, decide_eq_true_eq] at h2
  obtain ⟨⟨⟨⟨⟨⟨⟨⟨⟨⟨c1, c2⟩, c3⟩, c4⟩, c5⟩, c8⟩, c6⟩, c9⟩, c10⟩, c11⟩, c7⟩ := h2
  have hreg := flowMake_regular polyHashing lossScript lossSigner []
  refine ⟨s, os, ⟨by decide, ?_, ?_, fun c hc => (hreg c hc).1, fun c hc => (hreg c hc).2.1, honest_of_check _ _ _ _ (by decide +kernel), h1, accepted_of_check _ _ c1⟩,
    ⟨c5, by decide, fun _ => rfl, ?_, by rw [c4]; decide, fun _ => c2, by decide, verifies_of_check c6, ?_⟩, ?_, ?_, c9, c10, c2, c11, c4, c3⟩
  · intro x; simp [polyHashing, polyHash]
  · intro x hx
    simp only [lossSetup, List.mem_cons, List.not_mem_nil, or_false] at hx
    rcases hx with rfl; simp [Setup]
  · rw [c4, c2]; rfl
  · intro g hg
    have := List.all_eq_true.1 c7 g hg
    simpa using this
  · intro c hc
    rcases List.mem_append.1 hc with hc | hc
    · simp only [lossSetup, List.map_cons, List.map_nil, List.mem_cons, List.not_mem_nil, or_false] at hc
      rcases hc with rfl; simp
    · exact (hreg c hc).2.2.1
  · have : ∀ c ∈ lossCalls, (match c with | .set _ => false | _ => true) = true := by decide +kernel
    intro c hc
    have h := this c hc
    cases c with
    | set x => exact absurd h (by simp)
    | _ => exact True.intro

theorem loss_start : ∀ p l, pieces .h264 lossCalls = p :: l → p.first = true := by
  intro p l e
  have : (pieces .h264 lossCalls).head?.map (·.first) = some true := by decide +kernel
  rw [e] at this
  simpa using this

theorem ordinary_of_check : ∀ d : Bytes, d ≠ [] → (match parseNalu d .h264 true true with | .ok n => !n.gopSei | _ => false) = true →
    (Protected .h264 ((body d).getD 0 0) ((body d).getD 1 0) → LegalHeader .h264 ((body d).getD 0 0) ((body d).getD 1 0)) → Ordinary .h264 d := by
  intro d h1 h2 h3
  refine ⟨h1, ?_, h3⟩
  split at h2
  · next n hn => exact ⟨n, hn, by simpa using h2⟩
  · cases h2

theorem loss_ordinary {bs : List Bytes} {d : Bytes} {ts : Option Int64} (h : StreamItem.nalu d ts ∈ thinned bs) : Ordinary .h264 d := by
  simp only [thinned, List.mem_cons, List.not_mem_nil, or_false, StreamItem.nalu.injEq, reduceCtorEq, false_or] at h
  rcases h with ⟨rfl, -⟩ | ⟨rfl, -⟩ | ⟨rfl, -⟩ | ⟨rfl, -⟩ | ⟨rfl, -⟩ | ⟨rfl, -⟩ | ⟨rfl, -⟩
  all_goals exact ordinary_of_check _ (by simp) (by decide +kernel) (by unfold Protected LegalHeader; decide)

/-- The GOPs received do not depend on the SEIs. -/
theorem thinned_gops (bs : List Bytes) : receivedGops .h264 (thinned bs) = receivedGops .h264 (thinned []) := rfl

theorem thinned_altered {os : List Obs} (h : (delivered os).length = 3) : Altered .h264 lossCalls os (thinned (delivered os)) := by
  refine ⟨?_, ?_, fun a b c e => ?_, fun _ => ?_⟩
  · intro p l e
    have : ((thinned (delivered os)).filterMap (StreamItem.piece .h264)).head?.map (·.first) = some true := by
      show ((thinned []).filterMap (StreamItem.piece .h264)).head?.map (·.first) = some true
      decide +kernel
    rw [e] at this
    simpa using this
  · obtain ⟨b0, b1, b2, hb⟩ : ∃ b0 b1 b2, delivered os = [b0, b1, b2] := by
      match delivered os, h with
      | [b0, b1, b2], _ => exact ⟨b0, b1, b2, rfl⟩
    rw [hb]
    exact List.prefix_refl _
  · have hlt : (a.filterMap StreamItem.sei?).length < 4 := by
      have : ((thinned (delivered os)).filterMap StreamItem.sei?).length = 3 := rfl
      rw [e, List.filterMap_append, List.length_append] at this
      omega
    rw [thinned_gops]
    refine ⟨by rw [show (receivedGops .h264 (thinned [])).length = 4 by decide +kernel]; exact hlt, ?_⟩
    have hc : afterB .h264 (receivedGops .h264 (thinned [])) 0 0 (thinned (delivered os)) = true := by
      show afterB .h264 (receivedGops .h264 (thinned [])) 0 0 (thinned []) = true
      decide +kernel
    have := after_of_check .h264 _ _ 0 0 hc a b c e
    simpa using this
  · refine ⟨_, _, show _ = some ((gops (pieces .h264 lossCalls)).1.getD 0 []) by decide +kernel,
      show _ = some ((receivedGops .h264 (thinned [])).getD 0 []) by rw [thinned_gops]; decide +kernel, ?_⟩
    unfold Alike
    decide +kernel

theorem loss_poly : NoClash polyHash (((gops (pieces .h264 lossCalls)).1 ++ receivedGops .h264 (thinned [])).flatMap (hashInputs polyHash)) := by
  unfold NoClash
  decide +kernel

/-- Too short a NAL unit does not consist of two hashes. -/
theorem noMasks_of_short {H : Bytes → Bytes} {N : Nat} (hN : ∀ x, (H x).length = N) {gs rs : List (List Piece)} (h : ∀ g ∈ rs, ∀ p ∈ g, p.bytes.length < 2 * N) : NoMasks H gs rs := by
  intro k q u p t _ h2 w _ hc
  have h1 := h _ (List.mem_of_getElem? h2) p (by simp)
  rw [hc, List.length_append, hN, hN] at h1
  omega

theorem loss_masks (bs : List Bytes) : NoMasks polyHash (gops (pieces .h264 lossCalls)).1 (receivedGops .h264 (thinned bs)) := by
  rw [thinned_gops]
  exact noMasks_of_short (N := 32) (fun x => by simp [polyHash]) (by decide +kernel)

theorem loss_thinned (bs : List Bytes) : Intact (gops (pieces .h264 lossCalls)).1 (receivedGops .h264 (thinned bs)) 0 ∧
    (∃ g h, (gops (pieces .h264 lossCalls)).1[1]? = some g ∧ (receivedGops .h264 (thinned bs))[1]? = some h ∧ g.length = 3 ∧ h.length = 2 ∧ Thinned h g ∧
      linkBytes (receivedGops .h264 (thinned bs)) 1 = linkBytes (gops (pieces .h264 lossCalls)).1 1) ∧
    (∃ g h, (gops (pieces .h264 lossCalls)).1[2]? = some g ∧ (receivedGops .h264 (thinned bs))[2]? = some h ∧ g.length = 2 ∧ h.length = 2 ∧ ¬ Alike h g) := by
  rw [thinned_gops]
  refine ⟨⟨⟨_, _, show _ = some ((gops (pieces .h264 lossCalls)).1.getD 0 []) by decide +kernel, show _ = some ((receivedGops .h264 (thinned [])).getD 0 []) by decide +kernel, ?_⟩, fun h => absurd rfl h⟩,
    ⟨_, _, show _ = some ((gops (pieces .h264 lossCalls)).1.getD 1 []) by decide +kernel, show _ = some ((receivedGops .h264 (thinned [])).getD 1 []) by decide +kernel,
      by decide +kernel, by decide +kernel, ?_, by decide +kernel⟩,
    ⟨_, _, show _ = some ((gops (pieces .h264 lossCalls)).1.getD 2 []) by decide +kernel, show _ = some ((receivedGops .h264 (thinned [])).getD 2 []) by decide +kernel,
      by decide +kernel, by decide +kernel, ?_⟩⟩
  · unfold Alike; decide +kernel
  · unfold Thinned; decide +kernel
  · unfold Alike; decide +kernel

/-- The verdicts on the three GOPs: OK; OK with two of three NAL units received; NOT OK. -/
example : ∃ (st : List StreamItem) (v' : Validator) (rs : List AObs), authRun polyEnv (newValidator polyEnv .h264) (st.map fun x : StreamItem => AuthCall.nalu x.bytes) = .ok (v', rs) ∧
    ([3, 6, 9].map fun k => rs[k]?.bind fun o : AObs => o.report.map fun r => r.latest.auth) = [some .ok, some .okWithMissing, some .notOk] ∧
    (rs[6]?.bind fun o : AObs => o.report.map fun r => (r.latest.expected, r.latest.received)) = some (3, 2) := by
  obtain ⟨s, os, h1, h2, hk, hl, hf, hp, hsz, hcap, hoid, h3⟩ := lossSession
  obtain ⟨v', rs, g1, g2⟩ := C75_diagnosed_partial hk h1 h2 hl hf hp loss_start (thinned_altered h3) (fun d ts => loss_ordinary) loss_poly (loss_masks _)
  refine ⟨_, v', rs, g1, ?_⟩
  obtain ⟨i0, ⟨ga, ha, i1, i2, i3, i4, i5, i6⟩, ⟨gb, hb, j1, j2, j3, j4, j5⟩⟩ := loss_thinned (delivered os)
  obtain ⟨o3, r3, t3, w3, p3, q3, u3, k3, -⟩ := Spec.Reported.verdict g2 ((thinned (delivered os)).take 3) _ ((thinned (delivered os)).drop 4) rfl
  obtain ⟨o6, r6, t6, w6, p6, q6, u6, -, k6⟩ := Spec.Reported.verdict g2 ((thinned (delivered os)).take 6) _ ((thinned (delivered os)).drop 7) rfl
  obtain ⟨o9, r9, t9, w9, p9, q9, u9, -, k9⟩ := Spec.Reported.verdict g2 ((thinned (delivered os)).take 9) _ [] rfl
  have p3 : rs[3]? = some o3 := p3
  have p6 : rs[6]? = some o6 := p6
  have p9 : rs[9]? = some o9 := p9
  have e6 : t6 = ha := Option.some.inj (u6.symm.trans i2)
  have e9 : t9 = hb := Option.some.inj (u9.symm.trans j2)
  have l6 := (k6 ga i1 (by rw [i3, hsz, hcap]; decide)).1 i6 (e6 ▸ i5)
  have l9 := (k9 gb j1 (by rw [j3, hsz, hcap]; decide)).2
    (fun ⟨⟨g, h, f1, f2, f3⟩, _⟩ => j5 (by
      have e1 : g = gb := Option.some.inj (f1.symm.trans j1)
      have e2 : h = hb := Option.some.inj (f2.symm.trans j2)
      rw [← e1, ← e2]; exact f3))
    (fun ⟨_, hc⟩ => by have := hc.2; rw [e9, j3, j4] at this; omega)
  have a6 := l6.latest
  have b6 := l6.expected
  have c6 := l6.received
  rw [e6] at c6
  simp [p3, p6, p9, q3, q6, q9, k3 i0, a6, b6, c6, l9, i3, i4]

/-! ### An intra picture that consists of two hashes -/

/-- A toy hash of 32 bytes that looks like an intra picture. -/
def maskHash (b : Bytes) : Bytes := [0x65, 0x88] ++ (polyHash b).take 29 ++ [0x80]

def maskHashing : Hashing := ⟨fun _ b => maskHash b, fun _ => some ([0x60, 0x86], 32)⟩

def maskEnv : AuthEnv := { polyEnv with H := fun _ b => maskHash b }

/-- Sign NAL units; each SEI is put into the stream as soon as it is available. -/
def maskStream (s : Signer) : List Bytes → List Bytes
  | [] => []
  | n :: ns =>
    match signStep maskHashing s (.nalu n none true none) with
    | .ok (s, o) =>
      match o.signed with
      | none => n :: maskStream s ns
      | some g =>
        match signStep maskHashing s (.getSei true none [.ok (toySig g.h)]) with
        | .ok (s, o) => n :: (o.sei.toList ++ maskStream s ns)
        | _ => []
    | _ => []

/-- The stream signed: three GOPs of three NAL units, each SEI after the intra picture that follows the GOP. -/
def unmasked : List Bytes := maskStream (polySigner 33 []) (polyNalus "IPPIPPIPPI")

/-- An intra picture that consists of the hashes of the intra picture and of the first P-frame of the second GOP. -/
def mask : Bytes := [0, 0, 0, 1] ++ maskHash ((unmasked.getD 3 []).drop 4) ++ maskHash ((unmasked.getD 5 []).drop 4)

/-- The GOPs of a list of NAL units without SEIs. -/
def plainGops (l : List Bytes) : List (List Piece) := receivedGops .h264 (l.map fun b => .nalu b none)

/-- **C75 does not hold without `NoMasks`.** The hash of a NAL unit other than the intra picture is that of two hashes, the one of the intra picture and its own, and the hash of an intra picture is
that of its bytes: the two are not kept apart. If the hash of an intra picture starts like an intra picture, the whole GOP can be replaced by one NAL unit that consists of
two hashes. It has never been signed, and it is marked as valid; the verdict is OK with missing information, although no two inputs collide. Only the report on the next GOP is NOT OK. -/
theorem C75_mask_false :
    (∀ b, (maskHash b).length = 32) ∧ unmasked[3]? = some (toyNalu 'I' 4) ∧ (unmasked.drop 5).take 2 = [toyNalu 'P' 5, toyNalu 'P' 6] ∧ mask ∉ unmasked ∧
    NoClash maskHash ((plainGops (polyNalus "IPPIPPI") ++ plainGops ((polyNalus "IPP") ++ [mask, toyNalu 'I' 7])).flatMap (hashInputs maskHash)) ∧
    (∃ s os, authRun maskEnv (newValidator maskEnv .h264) (unmasked.map .nalu) = .ok (s, os) ∧ lastReport os = some ("ISPPIS", "....P.", .ok)) ∧
    ∃ s os, authRun maskEnv (newValidator maskEnv .h264) ((unmasked.take 3 ++ [mask, unmasked.getD 4 []] ++ (unmasked.drop 7).take 2).map .nalu) = .ok (s, os) ∧
      lastReport os = some (" I SIS", "M.M.P.", .okWithMissing) := by
  refine ⟨fun b => by simp [maskHash, polyHash], by decide +kernel, by decide +kernel, by decide +kernel, ?_, endsWith_run (by decide +kernel), endsWith_run (by decide +kernel)⟩
  unfold NoClash
  decide +kernel

end SV
