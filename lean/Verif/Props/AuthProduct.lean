import Verif.Proofs.ProductInv
import Verif.Props.AuthSigned
import Verif.Props.AuthForge
/-!
C73: where the product information of the reports stems from.
-/
namespace SV
open Spec

namespace Spec

/-- The value of a record with a signature: version, two members, the size of the signature in two bytes, and the signature. -/
def IsSignature (value sig : Bytes) : Prop :=
  ∃ a b c hi lo m, value = a :: b :: c :: hi :: lo :: m ∧ sig = m.take (hi.toNat * 256 + lo.toNat)

/-- A NAL unit is a SEI of the framework, and what precedes its signature is signed with some key. -/
def Vouched (env : AuthEnv) (codec : Codec) (data : Bytes) : Prop :=
  ∃ n v sig key alg, parseNalu data codec true true = .ok n ∧ (5, v) ∈ records n.tlvSize n.tlvMem n.tlvSize ∧ IsSignature v sig ∧
    env.verify key sig (env.H alg (hashedBytes codec data)) = 1

end Spec

open Validator

theorem authLog_calls {env : AuthEnv} {cs : List AuthCall} : ∀ {s : Validator} {L : Log}, ∀ q ∈ authLog env s L cs,
    q ∈ L ∨ AuthCall.nalu q.2 ∈ cs := by
  induction cs with
  | nil => exact fun q hq => .inl hq
  | cons c cs ih =>
    intro s L q hq
    unfold authLog at hq
    split at hq
    · rcases ih q hq with h | h
      · cases c with
        | nalu d =>
          rw [logStep_nalu] at h
          split at h
          · exact .inl h
          · split at h
            · rcases List.mem_cons.1 h with rfl | h
              · exact .inr List.mem_cons_self
              · exact .inl h
            · exact .inl h
        | reset => exact .inl h
        | publicKey k => exact .inl h
      · exact .inr (List.mem_cons_of_mem _ h)
    · exact .inl hq

theorem origin_new (env : AuthEnv) (codec : Codec) : Origin codec [] (newValidator env codec) :=
  ⟨⟨List.nodup_nil, fun _ h => by cases h⟩, rfl, fun _ h => (by cases h), .inl rfl⟩

/-- **C73 in part.** After any calls of a validating session, whatever they return: the product information is that of a new
session, or all of it was read from a single record of a SEI that was handed to the session, and it is there as text that ends with
NUL. Nothing is mixed from several SEIs, and nothing is made up.

What is missing is what is not true (`C73_statement_false`): that the signature of this SEI holds. -/
theorem C73_from_sei_partial {env : AuthEnv} {codec : Codec} {calls : List AuthCall} {s : Validator} {os : List AObs}
    (h : authRun env (newValidator env codec) calls = .ok (s, os)) :
    s.d.product = {} ∨ ∃ data, AuthCall.nalu data ∈ calls ∧ HasProduct codec data s.d.product := by
  have := (origin_inv env codec).run (origin_new env codec) h
  rcases this.product with e | ⟨q, hq, hp⟩
  · exact .inl e
  · rcases authLog_calls q hq with h | h
    · cases h
    · exact .inr ⟨_, h, hp⟩

/-! ### Sessions that sign -/

theorem nulEnd_inj {s t m : Bytes} (hs : 0 ∉ s) (ht : 0 ∉ t) (h1 : s ++ [0] <+: m) (h2 : t ++ [0] <+: m) : s = t := by
  induction s generalizing t m with
  | nil =>
    cases t with
    | nil => rfl
    | cons b t =>
      obtain ⟨z, rfl⟩ := h1
      obtain ⟨y, hy⟩ := h2
      injection hy with e _
      exact absurd (e ▸ List.mem_cons_self) ht
  | cons a s ih =>
    cases t with
    | nil =>
      obtain ⟨z, rfl⟩ := h1
      obtain ⟨y, hy⟩ := h2
      injection hy with e _
      exact absurd (e ▸ List.mem_cons_self) hs
    | cons b t =>
      obtain ⟨z, rfl⟩ := h1
      obtain ⟨y, hy⟩ := h2
      injection hy with e hy
      rw [e, ih (fun h => hs (List.mem_cons_of_mem _ h)) (fun h => ht (List.mem_cons_of_mem _ h)) ⟨z, rfl⟩ ⟨y, hy⟩]

theorem Texts.valStr {x : Option Bytes} {s r : Bytes} {l : List Bytes} (hx : NoNul x) (h : Texts (s :: l) (valStr x ++ r)) :
    s = reported x ∧ Texts l r := by
  obtain ⟨sz, m, h1, h2, h3, h4⟩ := h
  obtain ⟨sz', m', g1, g2, g3, g4⟩ := decStr_ok (decStr_valStr hx r)
  rw [h1] at g1
  injection g1 with e1 e2
  subst e1 e2
  exact ⟨nulEnd_inj h2 g2 h3 g3, by rw [g4]; exact h4⟩

theorem IsProduct.valProduct {e : EncState} {m : Bytes} {p : ProductInfo} (hf : Fits e) (h : IsProduct (valProduct e.product ++ m) p) :
    p = reportedProduct e.product := by
  obtain ⟨ver, r, hw, fw, sn, mf, ad, h1, -, h3, rfl⟩ := h
  unfold SV.valProduct at h1
  simp only [List.cons_append, List.nil_append, List.append_assoc] at h1
  injection h1 with _ h1
  subst h1
  obtain ⟨e1, h4⟩ := Texts.valStr hf.hw h3
  obtain ⟨e2, h5⟩ := Texts.valStr hf.fw h4
  obtain ⟨e3, h6⟩ := Texts.valStr hf.sn h5
  obtain ⟨e4, h7⟩ := Texts.valStr hf.mf h6
  obtain ⟨e5, -⟩ := Texts.valStr hf.ad h7
  rw [e1, e2, e3, e4, e5]
  rfl

theorem records_frames (rest : Bytes) (l : List (UInt8 × Bytes)) : (∀ p ∈ l, Known p.1 ∧ p.2.length ≤ maxLen p.1) → ∀ k,
    ∀ q ∈ records k (frames l ++ rest) (frames l).length, ∃ p ∈ l, p.1 = q.1 ∧ p.2 <+: q.2 := by
  induction l with
  | nil =>
    intro _ k q hq
    cases k with
    | zero => cases hq
    | succ k => simp [records, frames] at hq
  | cons p l ih =>
    intro hl k q hq
    cases k with
    | zero => cases hq
    | succ k =>
      obtain ⟨hk, hb⟩ := hl p List.mem_cons_self
      have hlen := frame_length hk p.2
      obtain ⟨d1, d2⟩ := decHeader_frame hk hb (frames l ++ rest)
      rw [frames_cons, List.append_assoc, List.length_append] at hq
      rw [records_walk (List.prefix_refl _) d1 k _ (by omega), d2] at hq
      rcases List.mem_cons.1 hq with rfl | hq
      · exact ⟨p, List.mem_cons_self, rfl, List.prefix_append _ _⟩
      · rw [List.drop_left, show (frame p.1 p.2).length + (frames l).length - (1 + (getTuple p.1).lenBytes) - p.2.length = (frames l).length by omega] at hq
        obtain ⟨p', hp', e⟩ := ih (fun x hx => hl x (List.mem_cons_of_mem _ hx)) k q hq
        exact ⟨p', List.mem_cons_of_mem _ hp', e⟩

/-- The product information in a SEI of a session that signs. -/
theorem hasProduct_genuine {c : Codec} {g : Gen} {d : EncState} {p : ProductInfo} (hf : Fits g.e) (hd : Fits d) (hc : g.o.codec = c)
    (hg : g.o.golden = false) (hu : g.o.usingGolden = false) (hv : g.o.vendor = false) (hm : d.maxSignature = g.e.maxSignature) (h : HasProduct c (seiBytes g.o g.e d) p) : p = reportedProduct g.e.product := by
  obtain ⟨r, hr, -, -, -, -, -, -, -, hs, hme, -⟩ := parse_complete g.o (seiTlv g.o g.e d) g.o.epb (fun x => x) (seiTlv_bound hf hd g.o)
  rw [← seiBytes_eq hf hd g.o hm, hc] at hr
  obtain ⟨n, hn, -, v, hw, hp⟩ := h
  have : r = n := by rw [hr] at hn; cases hn; rfl
  subst this
  rw [hs, hme, seiTlv_eq] at hw
  obtain ⟨q, hq, e1, e2⟩ := records_frames _ _ (fun q hq => by
    rcases List.mem_append.1 hq with hq | hq
    · exact seiItems_bound hf g.o q hq
    · cases List.mem_singleton.1 hq
      exact ⟨by simp [Known], maxLen_ok (t := 5) hd (by simp [Known])⟩) _ _ hw
  rcases List.mem_append.1 hq with hq | hq
  · rw [sei_items _ hg hu hv] at hq
    obtain ⟨-, -, e', h3, h4, ⟨c', k, h5⟩, -⟩ := items_from (fits_fallback hf g.o) (by simp only [seiTags, optionalTags, mandatoryTags]; decide) q hq
    obtain ⟨l, hl⟩ := fallback_eq g.o g.e
    have hpr : e'.product = g.e.product := by rw [h5, hl]
    rw [e1] at h4
    obtain ⟨z, rfl⟩ := e2
    rw [h4] at hp
    rw [← hpr]
    exact IsProduct.valProduct h3 hp
  · cases List.mem_singleton.1 hq
    exact absurd (show (5 : UInt8) = 3 from e1) (by decide)

/-- **C73 in part.** A session signs a stream, without golden SEI and undisturbed. A validator gets NAL units: any, in any order, and
any number of times, except that the SEIs of the framework are those of the session, with any signature. Then its product information
is that of a new session, or that of one of these SEIs: what was set at the signing side, of each text at most 254 characters. -/
theorem C73_camera_partial {hs : Hashing} {codec : Codec} {oid : Bytes} {ver : UInt8 × UInt8 × UInt8} {setup : List Setting} {cs : List SCall}
    {signer : Signer} {sos : List Obs} (hsign : Undisturbed hs codec oid ver setup cs signer sos)
    {env : AuthEnv} {calls : List AuthCall} {s : Validator} {os : List AObs}
    (h : authRun env (newValidator env codec) calls = .ok (s, os))
    (hr : ∀ data n, AuthCall.nalu data ∈ calls → parseNalu data codec true true = .ok n → n.gopSei = true →
      Genuine (sos.filterMap Obs.signed) data) :
    s.d.product = {} ∨ ∃ g ∈ sos.filterMap Obs.signed, s.d.product = reportedProduct g.e.product := by
  rcases C73_from_sei_partial h with e | ⟨data, hd, hp⟩
  · exact .inl e
  · right
    obtain ⟨n, hn, hg, -⟩ := id hp
    obtain ⟨g, hm, d, f1, f2, rfl⟩ := hr data n hd hn hg
    obtain ⟨s0, h1, -, h3, -⟩ := hsign.told (L := False) (fun hx => hx.elim)
    obtain ⟨j, hj⟩ := List.getElem?_of_mem hm
    obtain ⟨gop, nxt, -, -, -, f⟩ := h3.gens j g hj
    exact ⟨g, hm, hasProduct_genuine f.fits f1 (f.codec.trans h1.codec) f.golden (f.usingGolden.trans h1.usingGolden)
      (f.vendor.trans h1.vendor) f2 hp⟩

/-! ### An example -/

/-- Product information. -/
def someProduct : ProductInfo := ⟨some [65], some [66], some [67], some [68], none⟩

def productSetup : List Setting := [.privateKey (some ([9, 9, 9], 40)) true, .product someProduct]

def productCalls : List SCall := flowMake toyHashing (toyKeyed [.product someProduct]) [] flowScript

/-- What is received: the stream, and at the end its SEIs once more. -/
def productReceived : List AuthCall :=
  match signRun toyHashing (newSigner .h264 [0x60, 0x86] (2, 2, 0)) (productSetup.map SCall.set ++ productCalls) with
  | .ok (_, os) => (flowScript.filterMap id ++ delivered os).map AuthCall.nalu
  | _ => []

/-- The hypotheses are met, and the product information is that of a SEI. -/
example : ∃ signer sos s os, Undisturbed toyHashing .h264 [0x60, 0x86] (2, 2, 0) productSetup productCalls signer sos ∧
    authRun toyEnv (newValidator toyEnv .h264) productReceived = .ok (s, os) ∧
    (∀ data n, AuthCall.nalu data ∈ productReceived → parseNalu data .h264 true true = .ok n → n.gopSei = true →
      Genuine (sos.filterMap Obs.signed) data) ∧
    s.d.product = ⟨some [65], some [66], some [67], some [68], some []⟩ := by
  obtain ⟨signer, sos, h1, h2⟩ := runCheck2 toyHashing (newSigner .h264 [0x60, 0x86] (2, 2, 0)) (productSetup.map SCall.set ++ productCalls)
    (fun _ sos => acceptedB (productSetup.map SCall.set ++ productCalls) sos && productReceived.all fun
      | .nalu d => (delivered sos).contains d || noSei d
      | _ => true) (by decide +kernel)
  obtain ⟨s, os, h3, h4⟩ := authCheck toyEnv (newValidator toyEnv .h264) productReceived
    (fun s _ => s.d.product == ⟨some [65], some [66], some [67], some [68], some []⟩) (by decide +kernel)
  simp only [Bool.and_eq_true, List.all_eq_true] at h2
  have hreg := flowMake_regular toyHashing flowScript (toyKeyed [.product someProduct]) []
  have hU : Undisturbed toyHashing .h264 [0x60, 0x86] (2, 2, 0) productSetup productCalls signer sos := by
    refine ⟨by decide, ?_, ?_, fun c hc => (hreg c hc).1, fun c hc => (hreg c hc).2.1, honest_of_check _ _ _ _ (by decide +kernel), h1,
      accepted_of_check _ _ h2.1⟩
    · intro x; simp [toyHashing, toyHash]
    · intro x hx
      simp only [productSetup, List.mem_cons, List.not_mem_nil, or_false] at hx
      rcases hx with rfl | rfl
      · simp [Setup]
      · simp [Setup, NoNul, someProduct]
  refine ⟨signer, sos, s, os, hU, h3, ?_, by simpa using h4⟩
  intro data n hd hn hg
  obtain ⟨s0, r1, -, r3, r4⟩ := hU.told (L := False) (fun hx => hx.elim)
  rcases Bool.or_eq_true_iff.1 (h2.2 _ hd) with h | h
  · have hm : data ∈ delivered sos := by simpa using h
    obtain ⟨j, hj⟩ := List.getElem?_of_mem hm
    obtain ⟨g, d, g1, g2, g3, g4, -⟩ := r4 j _ hj
    obtain ⟨_, _, -, -, -, f⟩ := r3.gens j g g1
    exact ⟨g, List.mem_of_getElem? g1, d, g3, g4.trans f.maxSig.symm, g2⟩
  · unfold noSei at h
    rw [hn] at h
    dsimp only at h
    rw [hg] at h; cases h

/-! ### Product information that nobody signed -/

/-- **C73.** If all reports say OK or SIGNATURE PRESENT, and the summary of the session says OK, the product information was read
from a SEI with a signature that holds. -/
def C73_statement : Prop :=
  ∀ (env : AuthEnv) (codec : Codec) (calls : List AuthCall) (s : Validator) (os : List AObs),
    authRun env (newValidator env codec) calls = .ok (s, os) →
    (∀ o ∈ os, ∀ r, o.report = some r → r.latest.auth = .signaturePresent ∨ r.latest.auth = .ok) → s.rep.acc.auth = .ok →
    s.d.product = {} ∨ ∃ data, AuthCall.nalu data ∈ calls ∧ HasProduct codec data s.d.product ∧ Vouched env codec data

/-- A stream with product information in its first SEI only. -/
def infoStream : List Bytes :=
  polyStream (polySigner 33 [.recurrence 100, .product ⟨some [65], some [66], some [67], some [68], some [69]⟩]) (polyNalus "IPPIPPIPPIPPIPPI")

/-- Another serial number. -/
def otherSerial : Bytes → Bytes
  | 67 :: 0 :: r => 99 :: 0 :: r
  | a :: r => a :: otherSerial r
  | [] => []

/-- The stream without its first GOP; in the SEI of this GOP, which follows the first NAL unit of the next one, the serial number has
been changed. -/
def infoForged : List Bytes := infoStream.getD 3 [] :: otherSerial (infoStream.getD 4 []) :: infoStream.drop 5

/-- A NAL unit without product information, or without a signature that holds. -/
def unvouched (data : Bytes) : Bool :=
  match parseNalu data .h264 true true with
  | .ok n =>
    let l := records n.tlvSize n.tlvMem n.tlvSize
    l.all (fun p => p.1 != 3) || l.all fun p => p.1 != 5 ||
      match p.2 with
      | _ :: _ :: _ :: hi :: lo :: m => m.take (hi.toNat * 256 + lo.toNat) != toySig (polyHash (hashedBytes .h264 data))
      | _ => true
  | _ => true

theorem unvouched_spec {data : Bytes} {p : ProductInfo} (h : unvouched data = true) (hp : HasProduct .h264 data p)
    (hv : Vouched polyEnv .h264 data) : False := by
  obtain ⟨n, h1, -, v, h2, -⟩ := hp
  obtain ⟨n', w, sig, key, alg, g1, g2, ⟨a, b, c, hi, lo, m, rfl, rfl⟩, g4⟩ := hv
  have : n = n' := by rw [h1] at g1; cases g1; rfl
  subst this
  unfold unvouched at h
  rw [h1] at h
  simp only [Bool.or_eq_true, List.all_eq_true] at h
  rcases h with h | h
  · exact absurd (h _ h2) (by simp)
  · have h5 := h _ g2
    simp only [bne_self_eq_false, Bool.false_eq_true, false_or] at h5
    have h6 : m.take (hi.toNat * 256 + lo.toNat) ≠ toySig (polyHash (hashedBytes .h264 data)) := by simpa using h5
    have g5 : (if m.take (hi.toNat * 256 + lo.toNat) = toySig (polyHash (hashedBytes .h264 data)) then (1 : Int) else
      if (m.take (hi.toNat * 256 + lo.toNat)).head? = some 0x51 then 0 else -1) = 1 := g4
    rw [if_neg h6] at g5
    split at g5 <;> cases g5

/-- **C73 does not hold.** A recording starts in the middle of a stream, and has the SEI of the GOP before it; only this SEI
has product information, and its serial number has been changed. The first validation is not OK, and is therefore taken back, but not
the product information. All following reports, and the summary, say that the recording is authentic, and show the changed serial
number. -/
theorem C73_statement_false : ¬ C73_statement := by
  intro hC
  obtain ⟨s, os, h, hp⟩ := authCheck polyEnv (newValidator polyEnv .h264) (infoForged.map .nalu)
    (fun s os => s.d.product == ⟨some [65], some [66], some [99], some [68], some [69]⟩ && s.rep.acc.auth == .ok &&
      os.all (fun o => match o.report with
        | some r => r.latest.auth == .signaturePresent || r.latest.auth == .ok
        | none => true) && infoForged.all unvouched) (by decide +kernel)
  simp only [Bool.and_eq_true, beq_iff_eq, List.all_eq_true] at hp
  obtain ⟨⟨⟨h1, h2⟩, h3⟩, h4⟩ := hp
  rcases hC polyEnv .h264 _ s os h (fun o ho r hr => by
    have := h3 o ho
    rw [hr] at this
    simpa using this) h2 with e | ⟨data, hd, hp, hv⟩
  · rw [h1] at e; cases e
  · obtain ⟨d, hd', e⟩ := List.mem_map.1 hd
    cases e
    exact unvouched_spec (h4 _ hd') hp hv

end SV
