import Verif.Proofs.FlowStream
import Verif.Proofs.SignAdds
import Verif.Proofs.FlowOrder
import Verif.Props.SignRecur
import Verif.Props.AuthDemo
/-! An untouched stream is found authentic: C44. -/
namespace SV
open Spec
open Validator

/-- The stream as the validator is to see it from GOP number `c` on. -/
def sceneOf (env : AuthEnv) (codec : Codec) (s : Signer) (key : Bytes) (sent : Bool) (c : Nat := 0) (lists : Bool := true) (full : Option Nat := none) : Scene :=
  ⟨env, codec, s.e.oid, s.e.hashSize, key, s.e.maxSignature, sent, c, lists, full⟩

theorem keepsKey_of {c : SCall} (h : c ≠ .set (.addPublicKey false)) : KeepsKey c := by
  cases c with
  | set x =>
    cases x with
    | addPublicKey b => cases b <;> simp_all [KeepsKey]
    | _ => trivial
  | _ => trivial

variable {hs : Hashing} {codec : Codec} {oid : Bytes} {v : UInt8 × UInt8 × UInt8} {setup : List Setting} {cs : List SCall} {s : Signer} {os : List Obs}
  {env : AuthEnv} {key : Bytes} {sent lists : Bool} {c : Nat} {full : Option Nat}

theorem scene_ok (h : Undisturbed hs codec oid v setup cs s os) (t : Trusting hs env key s os) (ho : c = 0 ∨ env.ov ≠ .strict) :
    (sceneOf env codec s key sent c lists full).Ok ∧ (sceneOf env codec s key sent c lists full).Reads := by
  obtain ⟨s0, h1, -, h3, -⟩ := h.told (L := False) (fun hx => hx.elim)
  have hsm := h3.cur.part.same
  have hpos := h1.fresh.pos
  have hle := h1.fresh.fits.hashSize
  refine ⟨⟨?_, ?_, ?_, t.rounds, ho⟩, ⟨t.keyOk, t.size, t.default⟩⟩
  · show 1 ≤ s.e.hashSize
    rw [hsm.hashSize]; exact hpos
  · show s.e.hashSize ≤ 64
    rw [hsm.hashSize]; exact hle
  · intro x
    show (env.H s.e.oid x).length = s.e.hashSize
    rw [t.hash, hsm.oid, hsm.hashSize]
    exact h1.fresh.len x

/-- The first SEI carries what it takes to validate. -/
theorem first_due (h : Undisturbed hs codec oid v setup cs s os) :
    ∀ r, (Recur.dues (countsAsFrame codec) { interval := 1 } (setup.map SCall.set ++ cs) os)[0]? = some r → r = true :=
  first_recur _ (newSigner_q codec oid v) rfl h.honest h.plainly rfl ⟨rfl, rfl, rfl⟩ (fun hx => by simp at hx) h.run h.accepted

/-- The SEIs of an undisturbed session. -/
theorem seis_of (h : Undisturbed hs codec oid v setup cs s os) (t : Trusting hs env key s os) (hnl : lists = false → ∀ g ∈ os.filterMap Obs.signed, g.e.frameLevel = false) (ho : c = 0 ∨ env.ov ≠ .strict)
    (hsent : sent = true → SendsKey setup cs ∧
      ∀ r, (Recur.dues (countsAsFrame codec) { interval := 1 } (setup.map SCall.set ++ cs) os)[c]? = some r → r = true)
    (hfull : ∀ cap, full = some cap → (∀ c ∈ cs, KeepsLevel c) ∧ s.e.frameLevel = true ∧ s.maxPayload = 0 ∧ cap = s.listCap)
    (start : ∀ p l, pieces codec cs = p :: l → p.first = true) (j : Nat) (b : Bytes) (hk : (delivered os)[c + j]? = some b) :
    SeiOf (sceneOf env codec s key sent c lists full) ((gops (pieces codec cs)).1.drop c) j b := by
  obtain ⟨hok, hR⟩ := scene_ok (sent := sent) (lists := lists) (full := full) h t ho
  obtain ⟨k, hkc⟩ : ∃ k, k = c + j := ⟨_, rfl⟩
  rw [← hkc] at hk
  obtain ⟨s0, h1, -, h3, h4⟩ := h.told (L := ∃ cap, full = some cap) (fun ⟨cap, hx⟩ => (hfull cap hx).1)
  have hsm := h3.cur.part.same
  obtain ⟨g, d, g1, rfl, g3, g4, g5, g6⟩ := h4 k b hk
  obtain ⟨gop, nxt, a1, a2, a3, a4⟩ := h3.gens k g g1
  obtain ⟨v1, v2⟩ := t.verifies k g d.signature g1 g6
  have hmem := List.mem_of_getElem? g1
  have hH : ∀ x, hs.H s0.e.oid x = (sceneOf env codec s key sent c lists full).H x := by
    intro x
    show _ = env.H s.e.oid x
    rw [t.hash, hsm.oid]
  have hHf : hs.H s0.e.oid = (sceneOf env codec s key sent c lists full).H := funext hH
  have hfs : FromSigner (sceneOf env codec s key sent c lists full) g.o g.e d := by
    refine ⟨a4.fits, g3, a4.codec.trans h1.codec, a4.golden, a4.usingGolden.trans h1.usingGolden, a4.vendor.trans h1.vendor, ?_, ?_, ?_, ?_, ?_, fun hx => hnl hx g hmem⟩
    · exact a4.maxSig.trans hsm.maxSig.symm
    · exact g4.trans hsm.maxSig.symm
    · rw [a4.key, ← hsm.key]; exact t.keyed
    · exact a4.oid.trans hsm.oid.symm
    · exact a4.hashSize.trans hsm.hashSize.symm
  have hver : (sceneOf env codec s key sent c lists full).env.verify (sceneOf env codec s key sent c lists full).key d.signature ((sceneOf env codec s key sent c lists full).H (seiStart g.o g.e).1.bytes) = 1 := by
    rw [← hH]
    have := a3.doc
    unfold Gen.doc at this
    rw [← this]; exact v2
  obtain ⟨n, m, n1, n2, n3, n4⟩ := isSei_of hR hfs (t.room g hmem) v1 hver
  have hne : seiBytes g.o g.e d ≠ [] := by
    intro hc
    rw [hc] at n1
    have := n2.sei
    cases n1
    cases this
  obtain ⟨st1, -⟩ := gops_started start
  refine ⟨hne, _, n, m, gop, n1, n2, by rw [List.getElem?_drop, ← hkc]; exact a1, ?_, ?_, ?_, a3.num, ?_⟩
  · show g.e.gopCounter + 1 = UInt32.ofNat (c + j + 1)
    rw [a3.counter, h1.counter, ← hkc]; simp
  · intro hj
    show g.e.linkedHash = _
    rw [a3.linked]
    by_cases h0 : k = 0
    · omega
    · rw [if_neg h0]
      have hlt : k - 1 < (gops (pieces codec cs)).1.length := by
        have := (List.getElem?_eq_some_iff.1 a1).1
        omega
      obtain ⟨prev, hp⟩ : ∃ prev, (gops (pieces codec cs)).1[k - 1]? = some prev := ⟨_, List.getElem?_eq_getElem hlt⟩
      obtain ⟨p, l, rfl, hpf, hl⟩ := st1 prev (List.mem_of_getElem? hp)
      unfold firstHash
      rw [List.getElem?_drop, show c + (j - 1) = k - 1 by omega, hp]
      show refAfter _ _ (p :: l) = (sceneOf env codec s key sent c lists full).H p.bytes
      rw [← hH]
      show refAfter _ (if p.first then _ else _) l = _
      rw [if_pos hpf, refAfter_none _ _ (by rw [List.any_eq_false]; intro x hx; rw [hl x hx]; decide)]
  · refine ⟨s0.ref, by rw [← hHf]; exact a3.gopHash, fun cap hcap hle => ?_⟩
    obtain ⟨-, f2, f3, rfl⟩ := hfull cap hcap
    obtain ⟨l1, l2⟩ := a4.lvl ⟨_, hcap⟩
    obtain ⟨l3, l4⟩ := hsm.lvl ⟨_, hcap⟩
    show (if g.e.frameLevel then ((applyFallback g.o g.e).hashList.getD []) else []) = _
    have hfb : applyFallback g.o g.e = g.e := by
      unfold applyFallback
      rw [if_neg (by rw [l2, ← l4, f3]; omega)]
    have hle' : gop.length * s0.e.hashSize ≤ s0.listCap := by
      rw [← hsm.hashSize, ← hsm.listCap]; exact hle
    rw [l1, ← l3, f2, if_pos rfl, hfb, a3.list, if_pos hle', hHf]
    rfl
  · rintro rfl
    have hq := newSigner_q codec oid v
    have hd := run_recur _ hq (r := { interval := 1 }) h.honest h.plainly rfl ⟨rfl, rfl, rfl⟩ h.run h.accepted
    rw [hkc, Nat.add_zero] at g1
    have hr : (Recur.dues (countsAsFrame codec) { interval := 1 } (setup.map SCall.set ++ cs) os)[c]? = some g.e.recurrent := by
      rw [show countsAsFrame codec = countsAsFrame (newSigner codec oid v).codec from rfl, ← hd, List.getElem?_map, g1]; rfl
    exact ⟨fun hs => n4 ((hsent hs).2 _ hr) (run_adds _ h.plainly (fun c hc => keepsKey_of ((hsent hs).1 c hc)) rfl h.run g hmem) t.named, n3⟩

/-- From a state in which the validator knows as much as it has to. -/
theorem confirmed_later (h : Undisturbed hs codec oid v setup cs s os) (t : Trusting hs env key s os) (ho : c = 0 ∨ env.ov ≠ .strict)
    (hk : sent = true → SendsKey setup cs ∧
      ∀ r, (Recur.dues (countsAsFrame codec) { interval := 1 } (setup.map SCall.set ++ cs) os)[c]? = some r → r = true)
    {u : Validator} (hu : Early (sceneOf env codec s key sent c) [] u)
    (start : ∀ p l, pieces codec cs = p :: l → p.first = true) {st : List StreamItem} (ht : Later codec cs os c st)
    (hord : ∀ d ts, StreamItem.nalu d ts ∈ st → Ordinary codec d) :
    ∃ v' rs, authRun env u (st.map fun x => .nalu x.bytes) = .ok (v', rs) ∧
      At (sceneOf env codec s key sent c) true ((gops (pieces codec cs)).1.drop c) (st.filterMap (StreamItem.piece codec)) (st.filterMap StreamItem.sei?).length v' ∧
      Confirmed codec ((gops (pieces codec cs)).1.drop c) 0 0 st rs := by
  obtain ⟨hok, hR⟩ := scene_ok (sent := sent) (lists := true) (full := none) h t ho
  obtain ⟨st1, st2⟩ := gops_started start
  refine flow_run hok (Γ := sceneOf env codec s key sent c) (fun g hg => st1 g (List.mem_of_mem_drop hg)) st2 st [] _ (.of_early hu _ _) hord ?_ ?_ ?_
  · intro j b hb
    refine seis_of (lists := true) (full := none) h t (fun hx => by cases hx) ho hk (fun _ hx => by cases hx) start j b ?_
    obtain ⟨w, hw⟩ := ht.seis
    rw [List.nil_append] at hb
    rw [← List.getElem?_drop, ← hw, List.getElem?_append_left (List.getElem?_eq_some_iff.1 hb).1]
    exact hb
  · have key : ∀ (gs : List (List Piece)) (cur ps : List Piece), gs.flatten ++ cur = ps → ps.drop (gs.take c).flatten.length = (gs.drop c).flatten ++ cur := by
      rintro gs cur _ rfl
      conv => lhs; arg 2; rw [← List.take_append_drop c gs, List.flatten_append, List.append_assoc]
      rw [List.drop_left]
    rw [← key _ _ _ (gops_partition (pieces codec cs)).1]
    exact ht.nalus
  · intro x b c hx
    exact ht.after x b c hx

theorem confirmed_from (h : Undisturbed hs codec oid v setup cs s os) (t : Trusting hs env key s os) (hk : sent = true → SendsKey setup cs)
    {u : Validator} (hu : Early (sceneOf env codec s key sent) [] u)
    (start : ∀ p l, pieces codec cs = p :: l → p.first = true) {st : List StreamItem} (ht : Transmits codec cs os st)
    (hord : ∀ d ts, StreamItem.nalu d ts ∈ st → Ordinary codec d) :
    ∃ v' rs, authRun env u (st.map fun x => .nalu x.bytes) = .ok (v', rs) ∧
      At (sceneOf env codec s key sent) true (gops (pieces codec cs)).1 (st.filterMap (StreamItem.piece codec)) (st.filterMap StreamItem.sei?).length v' ∧
      Confirmed codec (gops (pieces codec cs)).1 0 0 st rs := confirmed_later (c := 0) h t (.inl rfl) (fun hs => ⟨hk hs, first_due h⟩) hu start ⟨ht.nalus, ht.seis, ht.after⟩ hord

/-- **C44**: let a session sign a stream without golden SEI, and let a validator of which `Trusting` says that it is able to
verify the signatures receive any beginning of the stream, with the SEIs in order and each of them anywhere after its GOP. Then
no call fails, nothing is out of bounds, and the report given with each SEI says that its GOP is OK: there are as many NAL
units as there should be (the number sent is modulo 2^16), none of them is marked as invalid, missing or erroneous, and the
NAL units of later GOPs that have come are pending. No other report is given, except NOT SIGNED before the first SEI. This
holds for all GOP lengths, any number of GOPs, any slices per picture, any delay of the signatures, with or without lists of
hashes, and whatever unprotected NAL units are added or left out on the way.

What is missing: golden SEIs; a stream that starts with something else than the first slice of an intra picture; protected NAL units with illegal headers, which are signed but not validated; an overrun of the
search for the signature because of emulation prevention bytes (C12). -/
theorem C44_confirmed_partial (hk : SendsKey setup cs) (h : Undisturbed hs codec oid v setup cs s os) (t : Trusting hs env key s os)
    (start : ∀ p l, pieces codec cs = p :: l → p.first = true) {st : List StreamItem} (ht : Transmits codec cs os st)
    (hord : ∀ d ts, StreamItem.nalu d ts ∈ st → Ordinary codec d) :
    ∃ v' rs, authRun env (newValidator env codec) (st.map fun x => .nalu x.bytes) = .ok (v', rs) ∧
      Confirmed codec (gops (pieces codec cs)).1 0 0 st rs := by
  obtain ⟨v', rs, h1, -, h2⟩ := confirmed_from (sent := true) h t (fun _ => hk) (early_new (scene_ok h t (.inl rfl)).1 rfl) start ht hord
  exact ⟨v', rs, h1, h2⟩

/-- The same if the user has set the public key, which then need not be in the SEIs. The algorithm has to be the one that a new
session starts with, since the SEIs are not asked for it once there is a key. -/
theorem C44_preset_partial (h : Undisturbed hs codec oid v setup cs s os) (t : Trusting hs env key s os) (hne : key ≠ []) (halg : s.e.oid = env.oid)
    (start : ∀ p l, pieces codec cs = p :: l → p.first = true) {st : List StreamItem} (ht : Transmits codec cs os st)
    (hord : ∀ d ts, StreamItem.nalu d ts ∈ st → Ordinary codec d) :
    ∃ v' rs, authRun env (newValidator env codec) (.publicKey key :: st.map fun x => .nalu x.bytes) = .ok (v', ⟨none, none⟩ :: rs) ∧
      Confirmed codec (gops (pieces codec cs)).1 0 0 st rs := by
  have hok := (scene_ok (sent := true) (lists := true) (full := none) h t (.inl rfl)).1
  have hn := early_new hok rfl
  obtain ⟨u, hu⟩ : ∃ u, u = { newValidator env codec with key := some key, d := { (newValidator env codec).d with publicKey := key, hasPublicKey := true } } := ⟨_, rfl⟩
  have hs : authStep env (newValidator env codec) (.publicKey key) = .ok (u, ⟨none, none⟩) := by
    simp only [authStep, authCall, setPublicKey, if_neg hne]
    rw [if_neg (by show ¬ (([] : Bytes) ≠ []); simp), if_neg (by show ¬ (false = true); simp), if_pos t.keyOk, hu]
    rfl
  have he : Early (sceneOf env codec s key false) [] u := by
    rw [hu]
    refine ⟨rfl, rfl, rfl, rfl, ⟨rfl, rfl, .inl rfl, fun _ => rfl, .inr ⟨⟨rfl, rfl, rfl⟩, halg.symm, halg.symm, (t.default halg).symm⟩⟩, hn.wf, hn.raws, hn.quiet, hn.idle, hn.bud,
      hn.sync, hn.count, hn.linked, .inl rfl, rfl, rfl⟩
  obtain ⟨v', rs, h1, -, h2⟩ := confirmed_from (sent := false) h t (fun hc => nomatch hc) he start ht hord
  refine ⟨v', rs, ?_, h2⟩
  unfold authRun
  rw [hs]
  simp only [Out.bind_ok]
  rw [h1]
  rfl

/-- The same for the stream in which the SEIs are written as soon as they have been fetched. -/
theorem C44_in_order_partial (hk : SendsKey setup cs) (h : Undisturbed hs codec oid v setup cs s os) (t : Trusting hs env key s os)
    (start : ∀ p l, pieces codec cs = p :: l → p.first = true)
    (hord : ∀ d ts l rc, SCall.nalu d ts l rc ∈ cs → Ordinary codec d) :
    ∃ v' rs, authRun env (newValidator env codec) ((inOrder cs (os.drop setup.length)).map fun x => .nalu x.bytes) = .ok (v', rs) ∧
      Confirmed codec (gops (pieces codec cs)).1 0 0 (inOrder cs (os.drop setup.length)) rs := by
  have ht := (transmits_inOrder h).1
  refine C44_confirmed_partial hk h t start ht fun d ts hd => ?_
  obtain ⟨l, rc, hc⟩ := mem_inOrder h hd
  exact hord d ts l rc hc

/-! ### A session that meets the hypotheses -/

/-- Give a NAL unit for signing, or fetch a SEI with the signature of the oldest hash that has none yet. -/
def flowMake (hs : Hashing) (s : Signer) (hashes : List Bytes) : List (Option Bytes) → List SCall
  | [] => []
  | some d :: xs =>
    .nalu d none true none :: match signStep hs s (.nalu d none true none) with
      | .ok (s, o) => flowMake hs s (hashes ++ o.signed.toList.map Gen.h) xs
      | _ => []
  | none :: xs =>
    let c := SCall.getSei true none ((hashes.take 1).map fun h => .ok (toySig h))
    c :: match signStep hs s c with
      | .ok (s, _) => flowMake hs s (hashes.drop 1) xs
      | _ => []

theorem flowMake_regular (hs : Hashing) (xs : List (Option Bytes)) : ∀ (s : Signer) (hashes : List Bytes), ∀ c ∈ flowMake hs s hashes xs,
    Regular c ∧ NotPrepend c ∧ c ≠ .set (.addPublicKey false) ∧ ∀ d ts l rc, c = .nalu d ts l rc → some d ∈ xs := by
  induction xs with
  | nil => intro s hashes c hc; cases hc
  | cons x xs ih =>
    intro s hashes c hc
    cases x with
    | none =>
      simp only [flowMake] at hc
      rcases List.mem_cons.1 hc with rfl | hc
      · exact ⟨trivial, trivial, by simp, by simp⟩
      · split at hc
        · obtain ⟨h1, h2, h3, h4⟩ := ih _ _ c hc
          exact ⟨h1, h2, h3, fun d ts l rc e => List.mem_cons_of_mem _ (h4 d ts l rc e)⟩
        · cases hc
    | some d =>
      simp only [flowMake] at hc
      rcases List.mem_cons.1 hc with rfl | hc
      · exact ⟨rfl, trivial, by simp, by rintro d ts l rc ⟨⟩; exact List.mem_cons_self⟩
      · split at hc
        · obtain ⟨h1, h2, h3, h4⟩ := ih _ _ c hc
          exact ⟨h1, h2, h3, fun d ts l rc e => List.mem_cons_of_mem _ (h4 d ts l rc e)⟩
        · cases hc

/-- Three GOPs, the first with a picture of two slices and parameter sets before and a P-frame after it; the SEIs of the first two GOPs are fetched
after the start of the third one, and that of the third one at once. -/
def flowScript : List (Option Bytes) :=
  [some [0, 0, 0, 1, 0x67, 0x42, 0x80], some [0, 0, 0, 1, 0x65, 0x88, 0x84, 0x80], some [0, 0, 0, 1, 0x65, 0x48, 0x84, 0x80],
   some [0, 0, 0, 1, 0x41, 0x9a, 0x80], some [0, 0, 1, 0x65, 0x88, 0x85, 0x80, 0, 0], some [0, 0, 0, 1, 0x09, 0xf0], some [0, 0, 0, 1, 0x65, 0x88, 0x86, 0x80],
   none, none, some [0, 0, 0, 1, 0x41, 0x9a, 0x81], some [0, 0, 0, 1, 0x65, 0x88, 0x87, 0x80], none]

def flowSetup : List Setting := [.privateKey (some ([9, 9, 9], 40)) true]

def flowCalls : List SCall := flowMake toyHashing (toyKeyed []) [] flowScript

def verifiesB (env : AuthEnv) (key : Bytes) (gs : List Gen) (sigs : List Bytes) : Bool :=
  (gs.zip sigs).all fun p => decide (p.2 ≠ []) && decide (env.verify key p.2 p.1.h = 1)

theorem verifies_of_check {env : AuthEnv} {key : Bytes} {gs : List Gen} {sigs : List Bytes} (h : verifiesB env key gs sigs = true) :
    ∀ (k : Nat) g sig, gs[k]? = some g → sigs[k]? = some sig → sig ≠ [] ∧ env.verify key sig g.h = 1 := by
  intro k g sig h1 h2
  have hm : (g, sig) ∈ gs.zip sigs := by
    refine List.mem_of_getElem? (i := k) ?_
    rw [List.getElem?_zip_eq_some]
    exact ⟨h1, h2⟩
  have := List.all_eq_true.1 h _ hm
  simpa using this

/-- The NAL units of the session. -/
theorem flow_ordinary {d : Bytes} (h : some d ∈ flowScript) : Ordinary .h264 d := by
  have key : ∀ d : Bytes, d ≠ [] → (match parseNalu d .h264 true true with | .ok n => !n.gopSei | _ => false) = true →
      (Protected .h264 ((body d).getD 0 0) ((body d).getD 1 0) → LegalHeader .h264 ((body d).getD 0 0) ((body d).getD 1 0)) → Ordinary .h264 d := by
    intro d h1 h2 h3
    refine ⟨h1, ?_, h3⟩
    split at h2
    · next n hn => exact ⟨n, hn, by simpa using h2⟩
    · cases h2
  simp only [flowScript, List.mem_cons, List.not_mem_nil, or_false, Option.some.injEq, reduceCtorEq, false_or] at h
  rcases h with rfl | rfl | rfl | rfl | rfl | rfl | rfl | rfl | rfl
  all_goals exact key _ (by simp) (by decide +kernel) (by unfold Protected LegalHeader; decide)

theorem flowSession : ∃ s os, Undisturbed toyHashing .h264 [0x60, 0x86] (2, 2, 0) flowSetup flowCalls s os ∧
    Trusting toyHashing toyEnv [9, 9, 9] s os ∧ SendsKey flowSetup flowCalls ∧ (delivered os).length = 3 ∧
    (s.e.oid = [0x60, 0x86] ∧ s.e.hashSize = 32 ∧ s.e.maxSignature = 40) ∧ (gops (pieces .h264 flowCalls)).1.map List.length = [3, 1, 2] := by
  obtain ⟨s, os, h1, h2⟩ := runCheck2 toyHashing (newSigner .h264 [0x60, 0x86] (2, 2, 0)) (flowSetup.map SCall.set ++ flowCalls)
    (fun s os => acceptedB (flowSetup.map SCall.set ++ flowCalls) os && decide (s.e.hashSize = 32) && decide ((delivered os).length = 3) &&
      decide (s.e.oid = [0x60, 0x86]) && decide (s.e.publicKey = some [9, 9, 9]) && decide (s.e.maxSignature = 40) && verifiesB toyEnv [9, 9, 9] (os.filterMap Obs.signed) (taken os) &&
      (os.filterMap Obs.signed).all fun g => decide ((seiStart g.o g.e).1.bytes.length - (seiStart { g.o with epb := false } g.e).1.bytes.length < 8 + s.e.maxSignature))
    (by decide +kernel)
  simp only [Bool.and_eq_true, decide_eq_true_eq] at h2
  obtain ⟨⟨⟨⟨⟨⟨⟨c1, c2⟩, c3⟩, c4⟩, c5⟩, c8⟩, c6⟩, c7⟩ := h2
  have hreg := flowMake_regular toyHashing flowScript (toyKeyed []) []
  refine ⟨s, os, ⟨by decide, ?_, ?_, fun c hc => (hreg c hc).1, fun c hc => (hreg c hc).2.1, honest_of_check _ _ _ _ (by decide +kernel), h1, accepted_of_check _ _ c1⟩,
    ⟨c5, by decide, fun _ => rfl, ?_, by rw [c4]; decide, fun _ => c2, by decide, verifies_of_check c6, ?_⟩, ?_, c3, ⟨c4, c2, c8⟩, by decide +kernel⟩
  · intro x; simp [toyHashing, toyHash]
  · intro x hx
    simp only [flowSetup, List.mem_cons, List.not_mem_nil, or_false] at hx
    rw [hx]; simp [Setup]
  · rw [c4, c2]; rfl
  · intro g hg
    have := List.all_eq_true.1 c7 g hg
    simpa using this
  · intro c hc
    rcases List.mem_append.1 hc with hc | hc
    · simp only [flowSetup, List.map_cons, List.map_nil, List.mem_cons, List.not_mem_nil, or_false] at hc
      rw [hc]; simp
    · exact (hreg c hc).2.2.1

theorem flow_start : ∀ p l, pieces .h264 flowCalls = p :: l → p.first = true := by
  intro p l e
  have : (pieces .h264 flowCalls).head?.map (·.first) = some true := by decide +kernel
  rw [e] at this
  simpa using this

theorem flow_calls {d : Bytes} {ts : Option Int64} {l : Bool} {rc : Option Rc} (h : SCall.nalu d ts l rc ∈ flowCalls) : Ordinary .h264 d :=
  flow_ordinary ((flowMake_regular toyHashing flowScript (toyKeyed []) [] _ h).2.2.2 d ts l rc rfl)

/-- The three SEIs of this session are found good by a validator. -/
example : ∃ st v' rs, authRun toyEnv (newValidator toyEnv .h264) (st.map fun x : StreamItem => AuthCall.nalu x.bytes) = .ok (v', rs) ∧
    (st.filterMap StreamItem.sei?).length = 3 ∧ Confirmed .h264 (gops (pieces .h264 flowCalls)).1 0 0 st rs := by
  obtain ⟨s, os, h1, h2, hk, h3, -, h4⟩ := flowSession
  obtain ⟨v', rs, g1, g2⟩ := C44_in_order_partial hk h1 h2 flow_start (fun d ts l rc hd => flow_calls hd)
  exact ⟨_, v', rs, g1, by rw [(transmits_inOrder h1).2]; exact h3, g2⟩

/-- And also if the public key is known before. -/
example : ∃ st v' rs, authRun toyEnv (newValidator toyEnv .h264) (.publicKey [9, 9, 9] :: st.map fun x : StreamItem => AuthCall.nalu x.bytes) = .ok (v', ⟨none, none⟩ :: rs) ∧
    (st.filterMap StreamItem.sei?).length = 3 ∧ Confirmed .h264 (gops (pieces .h264 flowCalls)).1 0 0 st rs := by
  obtain ⟨s, os, h1, h2, -, h3, ⟨ho, -⟩, h4⟩ := flowSession
  obtain ⟨v', rs, g1, g2⟩ := C44_preset_partial h1 h2 (by simp) ho flow_start (transmits_inOrder h1).1 (fun d ts hd => by
    obtain ⟨l, rc, hc⟩ := mem_inOrder h1 hd
    exact flow_calls hc)
  exact ⟨_, v', rs, g1, by rw [(transmits_inOrder h1).2]; exact h3, g2⟩

/-- Whether each SEI comes after its GOP. -/
def afterB (codec : Codec) (gs : List (List Piece)) : Nat → Nat → List StreamItem → Bool
  | _, _, [] => true
  | n, k, .nalu d ts :: st => afterB codec gs (n + ((StreamItem.nalu d ts).piece codec).toList.length) k st
  | n, k, .sei _ :: st => decide ((gs.take (k + 1)).flatten.length ≤ n) && afterB codec gs n (k + 1) st

theorem after_of_check (codec : Codec) (gs : List (List Piece)) : ∀ (st : List StreamItem) (n k : Nat), afterB codec gs n k st = true →
    ∀ a b c, st = a ++ .sei b :: c → (gs.take (k + (a.filterMap StreamItem.sei?).length + 1)).flatten.length ≤ n + (a.filterMap (StreamItem.piece codec)).length := by
  intro st
  induction st with
  | nil => intro n k _ a b c h; exact absurd h (by simp)
  | cons x st ih =>
    intro n k hc a b c h
    cases a with
    | nil =>
      cases h
      simp only [afterB, Bool.and_eq_true, decide_eq_true_eq] at hc
      simpa using hc.1
    | cons y a =>
      cases h
      cases x with
      | nalu d ts =>
        have := ih _ _ hc a b c rfl
        have e : ((StreamItem.nalu d ts :: a).filterMap (StreamItem.piece codec)).length =
            ((StreamItem.nalu d ts).piece codec).toList.length + (a.filterMap (StreamItem.piece codec)).length := by
          rw [List.filterMap_cons]
          cases (StreamItem.nalu d ts).piece codec <;> simp <;> omega
        have e2 : (StreamItem.nalu d ts :: a).filterMap StreamItem.sei? = a.filterMap StreamItem.sei? := rfl
        rw [e, e2]; omega
      | sei b' =>
        simp only [afterB, Bool.and_eq_true] at hc
        have := ih _ _ hc.2 a b c rfl
        have e : (StreamItem.sei b' :: a).filterMap (StreamItem.piece codec) = a.filterMap (StreamItem.piece codec) := rfl
        have e2 : ((StreamItem.sei b' :: a).filterMap StreamItem.sei?).length = (a.filterMap StreamItem.sei?).length + 1 := by simp [StreamItem.sei?]
        rw [e, e2, show k + ((a.filterMap StreamItem.sei?).length + 1) + 1 = k + 1 + (a.filterMap StreamItem.sei?).length + 1 by omega]
        exact this

/-- The stream with each SEI at the end of its GOP. -/
def flowTight (bs : List Bytes) : List StreamItem :=
  match flowScript.filterMap (fun x => x.map fun d => StreamItem.nalu d none), bs with
  | n0 :: n1 :: n2 :: n3 :: n4 :: n5 :: ns, [b0, b1, b2] => [n0, n1, n2, n3, .sei b0, n4, n5, .sei b1] ++ ns.take 2 ++ [.sei b2] ++ ns.drop 2
  | _, _ => []

/-- The SEIs can also be put before the NAL unit that ended the GOP, as `signed_video_get_sei` is meant to be used. -/
example : ∃ st v' rs, authRun toyEnv (newValidator toyEnv .h264) (st.map fun x : StreamItem => AuthCall.nalu x.bytes) = .ok (v', rs) ∧
    st.length = 12 ∧ Confirmed .h264 (gops (pieces .h264 flowCalls)).1 0 0 st rs := by
  obtain ⟨s, os, h1, h2, hk, h3, -, h4⟩ := flowSession
  obtain ⟨b0, b1, b2, hb⟩ : ∃ b0 b1 b2, delivered os = [b0, b1, b2] := by
    match hd : delivered os, h3 with
    | [b0, b1, b2], _ => exact ⟨b0, b1, b2, rfl⟩
  have hg : (flowTight [b0, b1, b2]).filterMap StreamItem.given <+: flowCalls.filterMap givenNalu := by
    have : (flowTight [b0, b1, b2]).filterMap StreamItem.given = flowCalls.filterMap givenNalu := by
      have e : flowCalls.filterMap givenNalu = flowScript.filterMap (fun x => x.map fun d => (d, none)) := by decide +kernel
      rw [e]; rfl
    rw [this]; exact List.prefix_refl _
  have ht : Transmits .h264 flowCalls os (flowTight [b0, b1, b2]) := by
    refine ⟨stream_pieces _ hg, ?_, fun a b c h => ?_⟩
    · rw [hb]; exact List.prefix_refl _
    · have hc : afterB .h264 (gops (pieces .h264 flowCalls)).1 0 0 (flowTight [b0, b1, b2]) = true := by
        have e : ∀ gs, afterB .h264 gs 0 0 (flowTight [b0, b1, b2]) = afterB .h264 gs 0 0 (flowTight [[], [], []]) := fun _ => rfl
        rw [e]; decide +kernel
      have := after_of_check .h264 _ _ 0 0 hc a b c h
      simpa using this
  obtain ⟨v', rs, g1, g2⟩ := C44_confirmed_partial hk h1 h2 flow_start ht (fun d ts hd => by
    obtain ⟨l, rc, hc⟩ := given_of hg hd
    exact flow_calls hc)
  exact ⟨_, v', rs, g1, rfl, g2⟩

end SV
