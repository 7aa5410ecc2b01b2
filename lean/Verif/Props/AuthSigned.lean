import Verif.Props.AuthSame
import Verif.Props.AuthFlow
import Verif.Proofs.AuthTrace
/-!
C42: a good verdict means that the NAL units are those that were signed, from the signature to the bytes.
-/
namespace SV
open Spec

namespace Spec

/-- The list of hashes that is sent with a SEI, if any: not at the level of GOPs, and not if the SEI would be too large. -/
def _root_.SV.Gen.sentList (g : Gen) : Option Bytes :=
  if g.e.frameLevel = true ∧ g.e.hashList ≠ some [] ∧ ¬ (g.o.maxPayload > 0 ∧ payloadSizeRaw g.o g.e > g.o.maxPayload) then g.e.hashList else none

/-- A SEI of a session for signing, except that it may have any signature. -/
def Genuine (gens : List Gen) (b : Bytes) : Prop :=
  ∃ g ∈ gens, ∃ d, Fits d ∧ d.maxSignature = g.e.maxSignature ∧ b = seiBytes g.o g.e d

/-- What may be received: NAL units of any kind, and SEIs that are not golden. These are SEIs of the session with any signature, or
SEIs with something else than what was signed in the session before the signature; they have no list of hashes. -/
def Fair (codec : Codec) (gens : List Gen) (data : Bytes) : Prop :=
  ∀ n, parseNalu data codec true true = .ok n → n.gopSei = true → n.golden = false ∧
    (Genuine gens data ∨ (∀ g ∈ gens, hashedBytes codec data ≠ g.doc) ∧ NoList n.tlvMem n.tlvSize)

end Spec

open Validator

/-- What a SEI of a session is decoded to. -/
def srcOf (g : Gen) : Src := ⟨g.e.gopHash, g.sentList, g.doc⟩

theorem sentList_fallback (g : Gen) (hf : Fits g.e) (hg : g.o.golden = false) : (match (applyFallback g.o g.e).hashList with
    | some l => if l = [] ∨ g.e.frameLevel = false then none else some l
    | none => none) = g.sentList := by
  have hm : tlvListSize g.e (mandTags g.o) > 0 := by
    rw [tlvListSize_eq hf (mandTags_known g.o)]
    have h3 : ∃ l, items g.e (mandTags g.o) = (1, valueBytes g.e 1) :: l := by
      have h2 : valueBytes g.e 1 ≠ [] := by
        show valGeneral g.e ≠ []
        simp [valGeneral]
      have h1 : tagSelected g.e 1 = true := rfl
      simp only [mandTags, hg, mandatoryTags, tagGeneral, items, h1, h2]
      exact ⟨_, rfl⟩
    obtain ⟨l, hl⟩ := h3
    rw [hl, frames_cons, List.length_append, frame_length (by simp [Known])]
    omega
  unfold applyFallback Gen.sentList
  by_cases hc : g.o.maxPayload > 0 ∧ payloadSizeRaw g.o g.e > g.o.maxPayload
  · rw [if_pos ⟨hc.1, hc.2, hm⟩, if_neg (fun h => h.2.2 hc)]
  · rw [if_neg (fun h => hc ⟨h.1, h.2.1⟩)]
    cases hl : g.e.hashList with
    | none => dsimp only; split <;> rfl
    | some l =>
      dsimp only
      cases hf : g.e.frameLevel with
      | false => rw [if_pos (.inr rfl), if_neg (fun h => by cases h.1)]
      | true =>
        by_cases hn : l = []
        · rw [if_pos (.inl hn), if_neg (fun h => h.2.1 (by rw [hn]))]
        · rw [if_neg (by simp [hn]), if_pos ⟨rfl, by simp [hn], hc⟩]

theorem sei_items {o : SeiOpts} (e : EncState) (hg : o.golden = false) (hu : o.usingGolden = false)
    (hv : o.vendor = false) : seiItems o e = items (applyFallback o e) seiTags := by
  have hopt : optTags o = optionalTags := by simp [optTags, hu]
  have hman : mandTags o = mandatoryTags := by simp [mandTags, hg]
  have hven : vendorTags o = [] := by simp [vendorTags, hv]
  simp only [seiItems, hopt, hman, hven, seiTags, items_append, SV.items, List.append_nil]

/-- The tags of a SEI of the session. -/
theorem says_of {g : Gen} {d : EncState} (hf : Fits g.e) (hd : Fits d) (hg : g.o.golden = false) (hu : g.o.usingGolden = false)
    (hv : g.o.vendor = false) : ∀ p ∈ seiItems g.o g.e ++ [(5, valSignature d)], Says g.e.hashSize (srcOf g) p := by
  intro p hp
  rcases List.mem_append.1 hp with hp | hp
  · obtain ⟨b1, b2⟩ := seiItems_bound hf g.o p hp
    rw [sei_items _ hg hu hv] at hp
    obtain ⟨h1, h2, e', h3, h4, ⟨c, k, h5⟩, h6⟩ := items_from (fits_fallback hf g.o) (by simp only [seiTags, optionalTags, mandatoryTags]; decide) p hp
    obtain ⟨l, hl⟩ := fallback_eq g.o g.e
    refine ⟨b1, b2, fun hp1 => ?_, fun hp4 => ?_⟩
    · refine ⟨e', h3, by rw [h4, hp1], ?_, ?_⟩
      · rw [h5, hl]; rfl
      · rw [h5, hl]
    · rw [hp4] at h4
      have hlist : e'.hashList = (applyFallback g.o g.e).hashList := by rw [h5]
      have hlev : e'.frameLevel = g.e.frameLevel := by rw [h5, hl]
      have hs := sentList_fallback g hf hg
      cases hq : e'.hashList with
      | none =>
        exfalso; apply h1
        rw [h4]
        show valHashList e' = []
        unfold valHashList; rw [hq]
      | some l' =>
        rw [← hlist, hq] at hs
        dsimp only at hs
        have hne : ¬ (l' = [] ∨ g.e.frameLevel = false) := by
          intro hc
          apply h1
          rw [h4]
          show valHashList e' = []
          unfold valHashList; rw [hq, hlev]
          dsimp only
          rw [if_pos]
          rcases hc with hc | hc
          · rw [hc]; rfl
          · rw [hc]; simp
        rw [if_neg hne] at hs
        rw [not_or] at hne
        exact ⟨e', l', h3, h4, hq, hne.1, by rw [hlev]; simpa using hne.2, hs.symm⟩
  · rw [List.mem_singleton] at hp
    subst hp
    exact ⟨by simp [Known], maxLen_ok (t := 5) hd (by simp [Known]), fun h => absurd h (by simp), fun h => absurd h (by simp)⟩

/-- A SEI of the session. -/
theorem sound_genuine {env : AuthEnv} {c : Codec} {gens : List Gen} {g : Gen} {d : EncState} (hmem : g ∈ gens) (hf : Fits g.e) (hd : Fits d)
    (hc : g.o.codec = c) (hg : g.o.golden = false) (hu : g.o.usingGolden = false) (hv : g.o.vendor = false)
    (hm : d.maxSignature = g.e.maxSignature) (room : epbsBefore g.o g.e < 8 + g.e.maxSignature) :
    Sound env g.e.hashSize c (fun x => ∃ g ∈ gens, x = srcOf g) (seiBytes g.o g.e d) := by
  obtain ⟨r, hr, hval, ht, hgs, hh, hgo, he, hre, hs, hme, ho, hst, hd'⟩ := parse_complete g.o (seiTlv g.o g.e d) g.o.epb (fun x => x) (seiTlv_bound hf hd g.o)
  obtain ⟨r', h2, h3⟩ := updateHashable_eq hf hd g.o hm r hgs hh he hs ho hst hd'
  rw [hm, if_pos room] at h3
  rw [← seiBytes_eq hf hd g.o hm, hc] at hr
  intro n hn
  have : r = n := by rw [hr] at hn; cases hn; rfl
  subst this
  refine ⟨hgo.trans hg, fun _ => .inl ⟨srcOf g, ⟨g, hmem, rfl⟩, ?_, ?_, ?_⟩⟩
  · rw [hashedBytes_high hr (by rw [hval]; decide) h2, h3]; rfl
  all_goals
    have hsay := says_of hf hd hg hu hv
    have h1 : ∃ p ∈ seiItems g.o g.e ++ [(5, valSignature d)], p.1 = 1 := by
      obtain ⟨p, hp, e⟩ := items_has (t := 1) (ts := seiTags) (fits_fallback hf g.o) (by simp only [seiTags, optionalTags, mandatoryTags]; decide) rfl
        (by show valGeneral _ ≠ []; simp [valGeneral])
      exact ⟨p, List.mem_append_left _ (by rw [sei_items _ hg hu hv]; exact hp), e⟩
    have h4 : (srcOf g).list ≠ none → ∃ p ∈ seiItems g.o g.e ++ [(5, valSignature d)], p.1 = 4 := by
      intro hne
      have hs := sentList_fallback g hf hg
      have hne : g.sentList ≠ none := hne
      obtain ⟨p, hp, e⟩ := items_has (t := 4) (ts := seiTags) (fits_fallback hf g.o) (by simp only [seiTags, optionalTags, mandatoryTags]; decide) rfl
        (by
          show valHashList _ ≠ []
          obtain ⟨l', hl'⟩ := fallback_eq g.o g.e
          have hlev : (applyFallback g.o g.e).frameLevel = g.e.frameLevel := by rw [hl']
          unfold valHashList
          cases hq : (applyFallback g.o g.e).hashList with
          | none => rw [hq] at hs; exact absurd hs.symm hne
          | some l =>
            rw [hq] at hs
            dsimp only at hs ⊢
            split at hs
            · exact absurd hs.symm hne
            · rename_i hc
              rw [not_or] at hc
              rw [hlev, if_neg (by simp [hc.1, hc.2])]
              simp)
      exact ⟨p, List.mem_append_left _ (by rw [sei_items _ hg hu hv]; exact hp), e⟩
  · have := behaves_of (env := env) [0x80] hsay h1 h4
    rw [← seiTlv_eq] at this
    rw [hme, hs]; exact this
  · have := behaves_of (env := env) [] hsay h1 h4
    rw [← seiTlv_eq, List.append_nil] at this
    rw [hme, hs, List.take_left]; exact this

theorem parseNalu_goldenSei {data : Bytes} {c : Codec} {b d : Bool} {n : Nalu} (h : parseNalu data c b d = .ok n) :
    n.golden = true → n.gopSei = true := by
  unfold parseNalu at h
  split at h
  · cases h; intro hg; cases hg
  · rename_i d0 b0 x0 e0 _
    obtain ⟨⟨t, v, prim⟩, -, h⟩ := Out.bind_eq_ok h
    obtain ⟨size, -, h⟩ := Out.bind_eq_ok h
    dsimp only at h
    split at h
    · unfold parseSei at h
      obtain ⟨⟨ud, m1⟩, -, h⟩ := Out.bind_eq_ok h
      dsimp only at h
      split at h
      · obtain ⟨⟨ps, k⟩, -, h⟩ := Out.bind_eq_ok h
        obtain ⟨⟨u, _⟩, -, h⟩ := Out.bind_eq_ok h
        dsimp only at h
        generalize hm : (({ startCode := _, valid := _, ntype := _, hashable := _, isHashable := _, primary := _, firstInGop := _, gopSei := _, payloadSize := _, epbs := _ : Nalu}) : Nalu) = m at h
        have hmg : m.golden = false := by rw [← hm]
        clear hm
        unfold removeEpb at h
        split at h
        · cases h; rw [hmg]; intro hg; cases hg
        · rename_i hh
          have hh' : m.gopSei = true := by
            simp only [Bool.or_eq_true, Bool.not_eq_true', decide_eq_true_eq] at hh
            cases hi : m.gopSei with
            | true => rfl
            | false => exact absurd (.inl (.inr hi)) hh
          split at h
          · cases h
          · dsimp only at h
            split at h
            · cases h; exact fun _ => hh'
            · split at h
              · cases h
              · split at h
                · cases h; exact fun _ => hh'
                · cases h; exact fun _ => hh'
      · cases h; intro hg; cases hg
    · cases h; intro hg; cases hg
  · cases h

/-- What is known of what a session has generated. -/
structure FromSession (c : Codec) (N : Nat) (g : Gen) : Prop where
  fits : Fits g.e
  codec : g.o.codec = c
  golden : g.o.golden = false
  usingGolden : g.o.usingGolden = false
  vendor : g.o.vendor = false
  size : g.e.hashSize = N
  room : epbsBefore g.o g.e < 8 + g.e.maxSignature

theorem Spec.Fair.sound {env : AuthEnv} {c : Codec} {N : Nat} {gens : List Gen} (hg : ∀ g ∈ gens, FromSession c N g) {data : Bytes}
    (h : Fair c gens data) : Sound env N c (fun x => ∃ g ∈ gens, x = srcOf g) data := by
  intro n hn
  have hgold : n.golden = false := by
    cases hq : n.golden with
    | false => rfl
    | true => exact absurd (h n hn (parseNalu_goldenSei hn hq)).1 (by rw [hq]; decide)
  refine ⟨hgold, fun hs => ?_⟩
  rcases (h n hn hs).2 with ⟨g, hm, d, hd, hmax, rfl⟩ | ⟨h1, h2⟩
  · have f := hg g hm
    have := sound_genuine (env := env) hm f.fits hd f.codec f.golden f.usingGolden f.vendor hmax f.room
    rw [f.size] at this
    exact (this n hn).2 hs
  · right
    refine ⟨?_, quiet_of h2 (List.prefix_refl _), quiet_of h2 (List.take_prefix _ _)⟩
    rintro _ ⟨g, hm, rfl⟩
    exact h1 g hm

/-- After a validation the decoded data are those of a received SEI. -/
theorem round_from {env : AuthEnv} {T : List Bytes} {N : Nat} {c : Codec} {S : Src → Prop} {L : Log} {s b : Validator}
    (g : Good s) (hC : Content env T N c L s) (hS : ∀ p ∈ L, Sound env N c S p.2) (h : Trace env T N c S L s)
    (hs : s.flags.signing = true) (hp : s.hasPending.2 = true) (hr : s.hasPending.1.round env = .ok b ()) :
    ∃ a, DecodedFrom env T N c S L b a := by
  obtain ⟨u, v, t, p, h1, h2, h3, h4⟩ := round_ok (s := s.hasPending.1) hs hr
  obtain ⟨x, hx⟩ := hasPending_sei (s := s) hs hp
  have hbl : s.hasPending.1.begin.list = s.list := begin_list _
  have hbd : s.hasPending.1.begin.d = s.d ∧ s.hasPending.1.begin.sigHash = s.sigHash := by unfold begin; split <;> exact ⟨rfl, rfl⟩
  have hb : Trace env T N c S L s.hasPending.1.begin := h.keep hbl (by rw [hbd.1]) (by rw [hbd.1]) hbd.2
  have wb : WFs s.hasPending.1.begin := by unfold WFs; rw [begin_list, begin_brk]; exact g.wf
  have cb : Content env T N c L s.hasPending.1.begin := by
    have : s.hasPending.1.begin = { s.hasPending.1 with rep := s.hasPending.1.begin.rep } := by unfold begin; split <;> rfl
    refine hC.same wb ?_ ?_ ?_ ?_ ?_ ?_ ?_
    all_goals first | (rw [this]; done) | (rw [this]; exact .refl _) | (rw [this]; rfl)
  have hu : Trace env T N c S L u := (prepare_trace wb cb hS hb).of_ok h1
  have hpr := (prepare_prep env s.hasPending.1.begin).of_ok h1
  have e := Validator.Grow.nextSei hpr.list
  rw [hbl, hx] at e
  cases hy : nextSei u.list with
  | none => rw [hy] at e; cases e
  | some y =>
    obtain ⟨r, hw⟩ := nextSei_waiting hy
    have hd := prepare_first wb h1 y hy
    have hf := hu.from_ (y.1, y.2.decoded) (by rw [hw]; exact List.mem_cons_self) hd
    obtain ⟨l1, l2, l3⟩ := updateLinkLoop_prep h2
    have hl := (verifyGop_listed v).of_ok h3
    have hd : t.d = u.d ∧ t.sigHash = u.sigHash := by rw [hl, l3]; exact ⟨rfl, rfl⟩
    refine ⟨y.1, hf.same ?_ ?_ ?_⟩
    · rw [h4]; exact congrArg DecState.hashList hd.1
    · rw [h4]; exact congrArg DecState.gopHash hd.1
    · rw [h4]; exact hd.2

theorem Steps.trace {env : AuthEnv} {T : List Bytes} {N : Nat} (he : Algs env T N) {c : Codec} {S : Src → Prop} {L : Log} {k : Nat}
    {s t : Validator} (g : (Good s ∧ Content env T N c L s) ∧ ((∀ p ∈ L, Sound env N c S p.2) → Trace env T N c S L s)) (h : Steps env k s t) :
    (Good t ∧ Content env T N c L t) ∧ ((∀ p ∈ L, Sound env N c S p.2) → Trace env T N c S L t) := by
  induction h with
  | zero s => exact g
  | @succ k s t u hp h1 hs _ ih =>
    exact ih (((trace_step he c S).round L _ ((trace_step he c S).pending g)).of_ok h1)

/-- Hashes that are those of a GOP, or of some NAL units of a GOP, stand for these NAL units. -/
theorem match_gop {env : AuthEnv} {T : List Bytes} {c : Codec} {L : Log} {t0 r0 : Bytes} {gop : List Piece} {a : Validator}
    (he : Algs env T 32) (ga : Good a) (hC : Content env T 32 c L a) (hn : ∀ x ∈ segment a.list, x.2.nalu.isSome = true)
    (ht0 : t0 ∈ T) (hr0 : r0.length = 32) (nc : NoCollision env T 32 c L ((segment a.list).map (hashOf 32)) t0 r0 gop)
    (h : ((segment a.list).map (hashOf 32)).Sublist (pieceHashes (env.H t0) r0 gop)) :
    ∃ ds : List Bytes, ds.map some = (segment a.list).map (fun x => L.lookup x.1) ∧
      (ds.map (received c)).Sublist (gop.map fun p => some p.content) ∧
      ((segment a.list).map (hashOf 32) = pieceHashes (env.H t0) r0 gop → ds.map (received c) = gop.map fun p => some p.content) := by
  have one : ∀ x ∈ segment a.list, ∀ q ∈ withRef (env.H t0) r0 gop,
      hashOf 32 x = (if q.2.first then env.H t0 q.2.bytes else env.H t0 (q.1 ++ env.H t0 q.2.bytes)) →
      ∃ data, L.lookup x.1 = some data ∧ received c data = some q.2.content := by
    intro x hx q hq e
    obtain ⟨g1, g2, g3⟩ := segment_sub hx
    cases hnx : x.2.nalu with
    | none => have := hn x hx; rw [hnx] at this; cases this
    | some n =>
      have hs : n.gopSei = false := by unfold Item.isSei at g3; rw [hnx] at g3; exact g3
      exact match_one he hC g1 hnx hs ((ga.kinds x g1 n hnx).pending (.inl g2)).2 ht0 hr0 nc hq e
  rw [pieceHashes_withRef] at h ⊢
  obtain ⟨qs, q1, q2⟩ := List.sublist_map_iff.1 h
  obtain ⟨ds, d1, d2⟩ := match_all q2 fun x hx q hq => one x hx q (q1.subset hq)
  refine ⟨ds, d1, ?_, fun e => ?_⟩
  · rw [d2]
    have := q1.map Prod.snd
    rw [withRef_snd] at this
    exact this.map _
  · have hlen : qs.length = (withRef (env.H t0) r0 gop).length := by
      have := congrArg List.length (q2.symm.trans e)
      rwa [List.length_map, List.length_map] at this
    rw [d2, q1.eq_of_length hlen, withRef_snd]

/-- **C42 in part.** A session signs a stream, without golden SEI and undisturbed. A validator gets NAL units: any, in any order,
except that a SEI has to be one of the session with any signature, or one with something else than the session has signed before the
signature, and then without list of hashes. If a call gives a report that says OK or OK WITH MISSING INFO, then for each validation
in this call, unless it was the first one and was taken back, the NAL units compared with the SEI are NAL units of one GOP of the signed
stream: they have the same bytes and start a GOP if those do, and they are in the same order. If the report says OK they are all
NAL units of this GOP. A signature of the session was found to hold, and it is that of this GOP, or the SEI has no list of
hashes.

Taken for granted: `EVP_PKEY_verify` does not fail, and says "valid" only for what was signed in the session; digests have 32 bytes, and no
two inputs of hash functions collide; the emulation prevention bytes of a SEI are fewer than the bytes that are ignored at its end
(`Trusting.room`). What is missing is what is not true: more data may follow the signature (`C42_unsigned_tail_false`), a list of hashes
may come from a SEI without valid signature (`C42_injected_list_false`), and from an old SEI of the session (`C42_replay_false`).
Golden SEIs are left out. -/
theorem C42_signed_partial {hs : Hashing} {codec : Codec} {oid : Bytes} {ver : UInt8 × UInt8 × UInt8} {setup : List Setting} {cs : List SCall}
    {signer : Signer} {sos : List Obs} (hsign : Undisturbed hs codec oid ver setup cs signer sos)
    {env : AuthEnv} {T : List Bytes} (he : Algs env T 32) (hoid : signer.e.oid ∈ T) (hsize : signer.e.hashSize = 32)
    (hsame : ∀ b, env.H signer.e.oid b = hs.H signer.e.oid b)
    (room : ∀ g ∈ sos.filterMap Obs.signed, epbsBefore g.o g.e < 8 + signer.e.maxSignature)
    {calls : List AuthCall} {s t v : Validator} {os : List AObs} {data : Bytes} {r : Report}
    (hist : authRun env (newValidator env codec) calls = .ok (s, os)) (hl : atLoop env s data = some v)
    (h : s.add env data = .ok t (some r)) (hgood : r.latest.auth = .ok ∨ r.latest.auth = .okWithMissing)
    (hv : ∀ k sig h, env.verify k sig h = 0 ∨ env.verify k sig h = 1) {k : Nat} {a b : Validator} (hk : Steps env k v a)
    (hp : a.hasPending.2 = true) (hr : a.hasPending.1.round env = .ok b ())
    {L : Log} (hL : L = logStep s (authLog env (newValidator env codec) [] calls) (.nalu data))
    (fair : ∀ p ∈ L, Fair codec (sos.filterMap Obs.signed) p.2)
    (sound : ∀ key, b.key = some key → env.verify key b.d.signature (buf 32 b.sigHash) = 1 → ∃ g ∈ sos.filterMap Obs.signed, buf 32 b.sigHash = g.h)
    (docs : ∀ g ∈ sos.filterMap Obs.signed, g.h ≠ List.replicate 32 0 ∧
      ∀ p ∈ L, ∀ t ∈ T, env.H t (hashedBytes codec p.2) = g.h → hashedBytes codec p.2 = g.doc)
    (nc : ∀ gop ∈ (gops (pieces codec cs)).1,
      NoCollision env T 32 codec L ((segment a.list).map (hashOf 32)) signer.e.oid (List.replicate 32 0) gop) :
    (k = 0 ∧ a.flags.first = true ∧ b.rep.latest.auth = .signaturePresent) ∨
    ∃ key ds, b.key = some key ∧ ds.map some = (segment a.list).map (fun x => L.lookup x.1) ∧
      (ds ≠ [] → ∃ (j : Nat) (g : Gen) (gop : List Piece), (sos.filterMap Obs.signed)[j]? = some g ∧ (gops (pieces codec cs)).1[j]? = some gop ∧
        env.verify key b.d.signature g.h = 1 ∧
        (ds.map (received codec) = gop.map (fun p => some p.content) ∨
         ∃ gop' ∈ (gops (pieces codec cs)).1, (gop' = gop ∨ g.sentList = none) ∧
          (ds.map (received codec)).Sublist (gop'.map fun p => some p.content) ∧
          (r.latest.auth = .ok → ds.map (received codec) = gop'.map fun p => some p.content))) := by
  -- the signing session
  obtain ⟨s0, h1, -, h3, h4⟩ := hsign.told (L := False) (fun hx => hx.elim)
  have hsm := h3.cur.part.same
  have hz : s0.ref = List.replicate 32 0 := by rw [h1.ref, ← hsm.hashSize, hsize]
  have hgen : ∀ g ∈ sos.filterMap Obs.signed, FromSession codec 32 g := by
    intro g hg
    obtain ⟨j, hj⟩ := List.getElem?_of_mem hg
    obtain ⟨gop, nxt, -, -, -, f⟩ := h3.gens j g hj
    exact ⟨f.fits, f.codec.trans h1.codec, f.golden, f.usingGolden.trans h1.usingGolden, f.vendor.trans h1.vendor,
      by rw [f.hashSize, ← hsm.hashSize, hsize], by rw [f.maxSig, ← hsm.maxSig]; exact room g hg⟩
  have hlist : ∀ (j : Nat) (g : Gen), (sos.filterMap Obs.signed)[j]? = some g → ∃ gop, (gops (pieces codec cs)).1[j]? = some gop ∧
      g.e.gopHash = env.H signer.e.oid (pieceHashes (env.H signer.e.oid) (List.replicate 32 0) gop).flatten ∧
      ∀ l, g.sentList = some l → l = (pieceHashes (env.H signer.e.oid) (List.replicate 32 0) gop).flatten := by
    intro j g hj
    obtain ⟨gop, nxt, hgop, -, d, f⟩ := h3.gens j g hj
    have hfun : hs.H s0.e.oid = env.H signer.e.oid := by
      rw [← hsm.oid]; funext x; exact (hsame x).symm
    refine ⟨gop, hgop, by rw [d.gopHash, hz, hfun], fun l hl => ?_⟩
    unfold Gen.sentList at hl
    split at hl
    · rw [d.list, hz, hfun] at hl
      split at hl
      · exact (Option.some.inj hl).symm
      · cases hl
    · cases hl
  -- the validator
  let S : Src → Prop := fun x => ∃ g ∈ sos.filterMap Obs.signed, x = srcOf g
  have hS : ∀ p ∈ L, Sound env 32 codec S p.2 := fun p hp => (fair p hp).sound hgen
  have cs0 := (trace_step he codec S).run ⟨⟨good_new env codec, content_new he rfl codec⟩, fun _ => trace_new codec S⟩ hist
  have cv : (Good v ∧ Content env T 32 codec L v) ∧ ((∀ p ∈ L, Sound env 32 codec S p.2) → Trace env T 32 codec S L v) := by
    rw [hL]; exact (trace_step he codec S).atLoop cs0 hl
  obtain ⟨ca, ta⟩ := Steps.trace he cv hk
  obtain ⟨cb, tb⟩ := ((trace_step he codec S).round L _ ((trace_step he codec S).pending ⟨ca, ta⟩)).of_ok hr
  have hbs : b.d.hashSize = 32 := cb.2.core.alg.size
  rcases backed_signing hist hl h hgood hv hk hp hr with h0 | ⟨sa, key, k1, k2, k3, k4⟩
  · exact .inl h0
  · right
    by_cases hne : segment a.list = []
    · exact ⟨key, [], k1, by rw [hne]; rfl, fun e => absurd rfl e⟩
    · have bk := k3 hne
      rw [hbs] at bk
      have hsig : env.verify key b.d.signature (buf 32 b.sigHash) = 1 := hbs ▸ bk.signed
      obtain ⟨g, hg, hgh⟩ := sound key k1 hsig
      obtain ⟨x, dat, x1, x2, x3⟩ := round_from ca.1 ca.2 hS (ta hS) sa hp hr
      have hdoc : hashedBytes codec dat = g.doc := by
        rcases x2 with e | ⟨t, ht, e⟩
        · exact absurd (hgh.symm.trans e) (docs g hg).1
        · exact (docs g hg).2 _ (lookup_mem x1) t ht (e.symm.trans hgh)
      rcases x3 with ⟨_, ⟨g', hg', rfl⟩, y1, y2, y3⟩ | x3
      · -- the SEI with the data that are used
        have hsigned : env.verify key b.d.signature g'.h = 1 := by
          obtain ⟨j, hj⟩ := List.getElem?_of_mem hg
          obtain ⟨j', hj'⟩ := List.getElem?_of_mem hg'
          obtain ⟨_, _, -, -, d, -⟩ := h3.gens j g hj
          obtain ⟨_, _, -, -, d', -⟩ := h3.gens j' g' hj'
          have e : g.doc = g'.doc := hdoc.symm.trans y1
          rw [d'.doc, ← e, ← d.doc, ← hgh]; exact hsig
        obtain ⟨j, hj⟩ := List.getElem?_of_mem hg'
        obtain ⟨gop, hgop, z1, z2⟩ := hlist j g' hj
        have hseg : ∀ y ∈ (segment a.list).map (hashOf 32), y.length = 32 := by
          intro y hy
          obtain ⟨x, -, rfl⟩ := List.mem_map.1 hy
          unfold hashOf buf; simp
        have hH : ∀ y, (env.H signer.e.oid y).length = 32 := he.len _ hoid
        have hHash : ∀ gop, ∀ y ∈ pieceHashes (env.H signer.e.oid) (List.replicate 32 0) gop, y.length = 32 := by
          intro gop y hy
          rw [pieceHashes_withRef] at hy
          obtain ⟨q, -, rfl⟩ := List.mem_map.1 hy
          split
          · exact hH _
          · exact hH _
        rcases bk.content with ⟨⟨t, old, c1, c2⟩, -⟩ | ⟨c1, c2⟩
        · have ht : t ∈ T := cb.2.core.alg.prim t c1
          have y2 : buf 32 b.d.gopHash = g'.e.gopHash := y2
          rw [hbs, buf_ovl (he.len t ht _), y2, z1] at c2
          have nc' := nc gop (List.mem_of_getElem? hgop)
          have c3 := nc'.inj t ht _ .gop _ (List.mem_append_right _ (List.mem_singleton.2 rfl)) c2
          have c4 := congrArg (chunk 32) c3
          rw [chunk_flatten (by decide) hseg, chunk_flatten (by decide) (hHash gop)] at c4
          obtain ⟨ds, d1, -, d3⟩ := match_gop he ca.1 ca.2 (fun x hx => (k4 x hx).1) hoid (by simp) nc' (by rw [c4]; exact List.Sublist.refl _)
          exact ⟨key, ds, k1, d1, fun _ => ⟨j, g', gop, hj, hgop, hsigned, .inl (d3 c4)⟩⟩
        · rw [hbs] at c1 c2
          -- the list is one of the session
          have hl' : ∃ gop' ∈ (gops (pieces codec cs)).1, (gop' = gop ∨ g'.sentList = none) ∧
              b.d.hashList = (pieceHashes (env.H signer.e.oid) (List.replicate 32 0) gop').flatten := by
            cases hq : g'.sentList with
            | some l => exact ⟨gop, List.mem_of_getElem? hgop, .inl rfl, (y3 l hq).trans (z2 l hq)⟩
            | none =>
              rcases (tb hS).list with e | ⟨_, ⟨g2, hg2, rfl⟩, e⟩
              · rw [e] at c1
                exact absurd (List.map_eq_nil_iff.1 (List.sublist_nil.1 c1)) hne
              · obtain ⟨j2, hj2⟩ := List.getElem?_of_mem hg2
                obtain ⟨gop2, hgop2, -, z3⟩ := hlist j2 g2 hj2
                exact ⟨gop2, List.mem_of_getElem? hgop2, .inr rfl, z3 _ e⟩
          obtain ⟨gop', hm, hw, e⟩ := hl'
          rw [e, chunk_flatten (by decide) (hHash gop')] at c1 c2
          obtain ⟨ds, d1, d2, d3⟩ := match_gop he ca.1 ca.2 (fun x hx => (k4 x hx).1) hoid (by simp) (nc gop' hm) c1
          exact ⟨key, ds, k1, d1, fun _ => ⟨j, g', gop, hj, hgop, hsigned, .inr ⟨gop', hm, hw, d2, fun hok => d3 (c2 (k2 hok))⟩⟩⟩
      · exact absurd hdoc (x3 _ ⟨g, hg, rfl⟩)

/-! ### An example -/

/-- Two GOPs of three NAL units each and the start of a third one. -/
def wideScript : List (Option Bytes) :=
  [some (toyNalu 'I' 1), some (toyNalu 'P' 2), some (toyNalu 'P' 3), some (toyNalu 'I' 4), none, some (toyNalu 'P' 5), some (toyNalu 'P' 6),
   some (toyNalu 'I' 7), none]

def wideCalls : List SCall := flowMake wideHashing (toyKeyed []) [] wideScript

def wideSeis : List Bytes :=
  match signRun wideHashing (newSigner .h264 [0x60, 0x86] (2, 2, 0)) (flowSetup.map SCall.set ++ wideCalls) with
  | .ok (_, os) => delivered os
  | _ => []

/-- What is received: one of the NAL units of the second GOP is lost. -/
def wideReceived : List Bytes :=
  [toyNalu 'I' 1, toyNalu 'P' 2, toyNalu 'P' 3, toyNalu 'I' 4] ++ wideSeis.take 1 ++ [toyNalu 'P' 6, toyNalu 'I' 7]

def noSei (data : Bytes) : Bool :=
  match parseNalu data .h264 true true with
  | .ok n => !n.gopSei
  | _ => true

def signedCheck (signer : Signer) (sos : List Obs) : Bool :=
  let calls := wideReceived.map AuthCall.nalu
  let data := (wideSeis.drop 1).headD []
  let gens := sos.filterMap Obs.signed
  match authRun wideEnv (newValidator wideEnv .h264) calls with
  | .ok (s, _) =>
    match atLoop wideEnv s data, s.add wideEnv data with
    | some v, .ok _ (some r) =>
      match v.hasPending.1.round wideEnv with
      | .ok b _ =>
        let L := logStep s (authLog wideEnv (newValidator wideEnv .h264) [] calls) (.nalu data)
        let ys := gens.map fun g => (g.h, g.doc)
        acceptedB (flowSetup.map SCall.set ++ wideCalls) sos && decide (signer.e.hashSize = 32) && decide (signer.e.oid = [0x60, 0x86]) &&
        gens.all (fun g => decide (epbsBefore g.o g.e < 8 + signer.e.maxSignature)) &&
        decide (r.latest.auth = .okWithMissing) && v.hasPending.2 && !v.flags.first && decide ((segment v.list).length = 2) &&
        L.all (fun p => (delivered sos).contains p.2 || noSei p.2) &&
        ys.any (fun y => decide (buf 32 b.sigHash = y.1)) &&
        ys.all (fun y => decide (y.1 ≠ List.replicate 32 0) && L.all fun p =>
          let x := hashedBytes .h264 p.2
          !decide (wideHash x = y.1) || decide (x = y.2)) &&
        (gops (pieces .h264 wideCalls)).1.all fun gop =>
          noCollision wideEnv 32 .h264 L ((segment v.list).map (hashOf 32)) [0x60, 0x86] (List.replicate 32 0) gop
      | _ => false
    | _, _ => false
  | _ => false

/-- The hypotheses are met: a NAL unit is lost, the second SEI gives a report that says OK WITH MISSING INFO, and two NAL units are compared
with it in the only validation of the call, which is not the first one of the session. -/
example : ∃ signer sos s os data v t r b L, Undisturbed wideHashing .h264 [0x60, 0x86] (2, 2, 0) flowSetup wideCalls signer sos ∧
    Algs wideEnv [[0x60, 0x86]] 32 ∧ signer.e.oid ∈ [[0x60, 0x86]] ∧ signer.e.hashSize = 32 ∧
    (∀ b, wideEnv.H signer.e.oid b = wideHashing.H signer.e.oid b) ∧
    (∀ g ∈ sos.filterMap Obs.signed, epbsBefore g.o g.e < 8 + signer.e.maxSignature) ∧
    authRun wideEnv (newValidator wideEnv .h264) (wideReceived.map AuthCall.nalu) = .ok (s, os) ∧
    atLoop wideEnv s data = some v ∧ s.add wideEnv data = .ok t (some r) ∧ r.latest.auth = .okWithMissing ∧
    Steps wideEnv 0 v v ∧ v.hasPending.2 = true ∧ v.hasPending.1.round wideEnv = .ok b () ∧
    v.flags.first = false ∧ (segment v.list).length = 2 ∧
    L = logStep s (authLog wideEnv (newValidator wideEnv .h264) [] (wideReceived.map AuthCall.nalu)) (.nalu data) ∧
    (∀ p ∈ L, Fair .h264 (sos.filterMap Obs.signed) p.2) ∧
    (∃ g ∈ sos.filterMap Obs.signed, buf 32 b.sigHash = g.h) ∧
    (∀ g ∈ sos.filterMap Obs.signed, g.h ≠ List.replicate 32 0 ∧
      ∀ p ∈ L, ∀ t ∈ [[0x60, 0x86]], wideEnv.H t (hashedBytes .h264 p.2) = g.h → hashedBytes .h264 p.2 = g.doc) ∧
    ∀ gop ∈ (gops (pieces .h264 wideCalls)).1,
      NoCollision wideEnv [[0x60, 0x86]] 32 .h264 L ((segment v.list).map (hashOf 32)) signer.e.oid (List.replicate 32 0) gop := by
  obtain ⟨signer, sos, h1, h2⟩ := runCheck2 wideHashing (newSigner .h264 [0x60, 0x86] (2, 2, 0)) (flowSetup.map SCall.set ++ wideCalls)
    signedCheck (by decide +kernel)
  unfold signedCheck at h2
  generalize (wideSeis.drop 1).headD [] = data at h2
  dsimp only at h2
  split at h2
  · rename_i s os hs
    split at h2
    · rename_i v t r hv ht
      split at h2
      · rename_i b _ hb
        simp only [Bool.and_eq_true, decide_eq_true_eq, Bool.not_eq_true', List.all_eq_true, List.any_eq_true] at h2
        obtain ⟨⟨⟨⟨⟨⟨⟨⟨⟨⟨⟨c1, c2⟩, c3⟩, c4⟩, c5⟩, c6⟩, c7⟩, c8⟩, c9⟩, c10⟩, c11⟩, c12⟩ := h2
        have hreg := flowMake_regular wideHashing wideScript (toyKeyed []) []
        have hU : Undisturbed wideHashing .h264 [0x60, 0x86] (2, 2, 0) flowSetup wideCalls signer sos := by
          refine ⟨by decide, ?_, ?_, fun c hc => (hreg c hc).1, fun c hc => (hreg c hc).2.1, honest_of_check _ _ _ _ (by decide +kernel), h1,
            accepted_of_check _ _ c1⟩
          · intro x; simp [wideHashing, wideHash]
          · intro x hx
            simp only [flowSetup, List.mem_cons, List.not_mem_nil, or_false] at hx
            rw [hx]; simp [Setup]
        obtain ⟨s0, r1, -, r3, r4⟩ := hU.told (L := False) (fun hx => hx.elim)
        refine ⟨signer, sos, s, os, data, v, t, r, b, _, hU, wide_algs, by rw [c3]; decide, c2, fun _ => rfl, c4, hs, hv, ht, c5, .zero v, c6, hb,
          c7, c8, rfl, ?_, ?_, ?_, ?_⟩
        · intro p hp n hn hsei
          rcases Bool.or_eq_true_iff.1 (c9 p hp) with h | h
          · have hm : p.2 ∈ delivered sos := by simpa using h
            obtain ⟨j, hj⟩ := List.getElem?_of_mem hm
            obtain ⟨g, d, g1, g2, g3, g4, -⟩ := r4 j _ hj
            obtain ⟨_, _, -, -, -, f⟩ := r3.gens j g g1
            have gen : Genuine (sos.filterMap Obs.signed) p.2 :=
              ⟨g, List.mem_of_getElem? g1, d, g3, g4.trans f.maxSig.symm, g2⟩
            refine ⟨?_, .inl gen⟩
            have hroom := c4 g (List.mem_of_getElem? g1)
            have := sound_genuine (env := wideEnv) (List.mem_of_getElem? g1) f.fits g3 (f.codec.trans r1.codec) f.golden
              (f.usingGolden.trans r1.usingGolden) (f.vendor.trans r1.vendor) (g4.trans f.maxSig.symm)
              (by rw [f.maxSig, ← r3.cur.part.same.maxSig]; exact hroom)
            rw [← g2] at this
            exact (this n hn).1
          · unfold noSei at h
            rw [hn] at h
            dsimp only at h
            rw [hsei] at h; cases h
        · obtain ⟨y, hy, e⟩ := c10
          obtain ⟨g, hg, rfl⟩ := List.mem_map.1 hy
          exact ⟨g, hg, e⟩
        · intro g hg
          obtain ⟨z1, z2⟩ := c11 (g.h, g.doc) (List.mem_map.2 ⟨g, hg, rfl⟩)
          refine ⟨z1, fun p hp t _ e => ?_⟩
          rcases Bool.or_eq_true_iff.1 (z2 p hp) with h | h
          · exact absurd (show wideHash _ = g.h from e) (by simpa using h)
          · simpa using h
        · intro gop hg
          rw [c3]
          exact NoCollision.of_check (c12 gop hg)
      · cases h2
    · cases h2
  · cases h2

end SV
