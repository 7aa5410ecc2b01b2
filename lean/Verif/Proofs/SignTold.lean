import Verif.Proofs.SignHist
import Verif.Props.Sei
import Verif.Props.SignQueue
/-! From the history of a session to the SEIs that are handed out. -/
namespace SV
open Spec

theorem signRun_append {hs : Hashing} (a b : List SCall) : ∀ {s s' : Signer} {os : List Obs},
    signRun hs s (a ++ b) = .ok (s', os) →
    ∃ t x y, signRun hs s a = .ok (t, x) ∧ signRun hs t b = .ok (s', y) ∧ os = x ++ y ∧ x.length = a.length := by
  induction a with
  | nil => intro s s' os h; exact ⟨s, [], os, rfl, h, rfl, rfl⟩
  | cons c a ih =>
    intro s s' os h
    obtain ⟨t, o, os', h1, h2, rfl⟩ := signRun_cons h
    obtain ⟨t', x, y, h3, h4, rfl, h6⟩ := ih h2
    refine ⟨t', o :: x, y, ?_, h4, rfl, by simp [h6]⟩
    rw [signRun_ok h1, h3]

theorem accepted_append : ∀ (a b : List SCall) (x y : List Obs), x.length = a.length → Accepted (a ++ b) (x ++ y) →
    Accepted a x ∧ Accepted b y := by
  intro a
  induction a with
  | nil =>
    intro b x y hl h
    have : x = [] := List.eq_nil_of_length_eq_zero hl
    subst this
    exact ⟨trivial, h⟩
  | cons c a ih =>
    intro b x y hl h
    cases x with
    | nil => cases hl
    | cons o x =>
      have hl' : x.length = a.length := by simpa using hl
      cases c with
      | nalu d ts l rc =>
        obtain ⟨h1, h2⟩ := h
        obtain ⟨h3, h4⟩ := ih b x y hl' h2
        exact ⟨⟨h1, h3⟩, h4⟩
      | _ =>
        obtain ⟨h3, h4⟩ := ih b x y hl' h
        exact ⟨h3, h4⟩

theorem honest_append {hs : Hashing} (a b : List SCall) : ∀ {s t : Signer} {x : List Obs} (n : Nat),
    Honest hs s n (a ++ b) → signRun hs s a = .ok (t, x) → (∀ o ∈ x, o.signed = none ∧ o.got = []) → Honest hs t n b := by
  induction a with
  | nil => intro s t x n h hr _; unfold signRun at hr; cases hr; exact h
  | cons c a ih =>
    intro s t x n h hr hx
    obtain ⟨t', o, os', h1, h2, rfl⟩ := signRun_cons hr
    obtain ⟨_, _, h3⟩ := h
    have h4 := h3 t' o h1
    have := hx o (List.mem_cons_self ..)
    rw [this.1, this.2] at h4
    exact ih n (by simpa using h4) h2 (fun y hy => hx y (List.mem_cons_of_mem _ hy))

/-- The session before the first NAL unit. -/
structure Ready (hs : Hashing) (codec : Codec) (s : Signer) : Prop where
  fresh : Fresh hs s
  queue : QAbs s ⟨[], []⟩
  codec : s.codec = codec
  usingGolden : s.usingGolden = false
  vendor : s.vendor = false
  ref : s.ref = List.replicate s.e.hashSize 0
  counter : s.e.gopCounter = 0
  hashType : s.e.hashType < 2

theorem newSigner_ready {hs : Hashing} (codec : Codec) (oid : Bytes) (v : UInt8 × UInt8 × UInt8) (h1 : oid.length ≤ 253)
    (h2 : ∀ x, (hs.H oid x).length = 32) : Ready hs codec (newSigner codec oid v) where
  fresh := {
    list := rfl, num := rfl, hasRef := rfl, enabled := rfl, linked := rfl, linkedNew := rfl, ts := rfl, last := rfl
    golden := rfl, cap := Nat.le_refl _, pos := by simp [newSigner], len := h2, ref := by simp [newSigner]
    fits := {
      hashSize := by simp [newSigner], linked := by simp [newSigner], gop := by simp [newSigner]
      hw := by simp [newSigner, NoNul], fw := by simp [newSigner, NoNul], sn := by simp [newSigner, NoNul]
      mf := by simp [newSigner, NoNul], ad := by simp [newSigner, NoNul], arbitrary := by simp [newSigner]
      key := by simp [newSigner], hashList := by simp [newSigner], oid := h1, sig := by simp [newSigner]
      maxSig := by simp [newSigner], hashType := by show (1 : UInt8) < 2; decide, axis := by simp [newSigner] } }
  queue := newSigner_q codec oid v
  codec := rfl
  usingGolden := rfl
  vendor := rfl
  ref := rfl
  counter := rfl
  hashType := by simp [newSigner]

theorem setting_ready {hs : Hashing} {codec : Codec} {s : Signer} (h : Ready hs codec s) (x : Setting) (hx : Setup hs x) :
    (applySetting hs s x).All (fun t => Ready hs codec t ∧ t.signed = s.signed ∧ t.got = s.got) := by
  have hf := h.fresh
  have f := hf.fits
  have hq := h.queue
  cases x with
  | product p =>
    obtain ⟨h1, h2, h3, h4, h5⟩ := hx
    exact ⟨⟨⟨hf.list, hf.num, hf.hasRef, hf.enabled, hf.linked, hf.linkedNew, hf.ts, hf.last, hf.golden,
      ⟨f.hashSize, f.linked, f.gop, h1, h2, h3, h4, h5, f.arbitrary, f.key, f.hashList, f.oid, f.sig, f.maxSig, f.hashType, f.axis⟩,
      hf.cap, hf.pos, hf.len, hf.ref⟩, ⟨hq.buf, hq.le, hq.idx, hq.completed⟩, h.codec, h.usingGolden, h.vendor, h.ref, h.counter, h.hashType⟩, rfl, rfl⟩
  | privateKey key plugin =>
    cases key with
    | none => exact ⟨h, rfl, rfl⟩
    | some km =>
      obtain ⟨k, m⟩ := km
      obtain ⟨h1, h2, h3⟩ := hx
      have : Ready hs codec { s with e := { s.e with publicKey := some k, maxSignature := m, signature := [] }, plugin := plugin } :=
        ⟨⟨hf.list, hf.num, hf.hasRef, hf.enabled, hf.linked, hf.linkedNew, hf.ts, hf.last, hf.golden,
          ⟨f.hashSize, f.linked, f.gop, f.hw, f.fw, f.sn, f.mf, f.ad, f.arbitrary, by intro k' hk; cases hk; exact ⟨h1, h2⟩, f.hashList, f.oid,
            Nat.zero_le _, h3, f.hashType, f.axis⟩,
          hf.cap, hf.pos, hf.len, hf.ref⟩, ⟨hq.buf, hq.le, hq.idx, hq.completed⟩, h.codec, h.usingGolden, h.vendor, h.ref, h.counter, h.hashType⟩
      unfold applySetting
      dsimp only
      split <;> exact ⟨this, rfl, rfl⟩
  | usingGolden b =>
    subst hx
    unfold applySetting
    dsimp only
    split
    · exact ⟨h, rfl, rfl⟩
    · exact ⟨⟨⟨hf.list, hf.num, hf.hasRef, hf.enabled, hf.linked, hf.linkedNew, hf.ts, hf.last, hf.golden, f,
        hf.cap, hf.pos, hf.len, hf.ref⟩, ⟨hq.buf, hq.le, hq.idx, hq.completed⟩, h.codec, rfl, h.vendor, h.ref, h.counter, h.hashType⟩, rfl, rfl⟩
  | hashAlgo name =>
    unfold applySetting
    dsimp only
    split
    · exact ⟨h, rfl, rfl⟩
    · split
      · exact ⟨h, rfl, rfl⟩
      · next oid n hn =>
        obtain ⟨h1, h2, h3, h4⟩ := hx oid n hn
        rw [if_neg (by omega)]
        exact ⟨⟨⟨hf.list, hf.num, hf.hasRef, hf.enabled, rfl, rfl, hf.ts, hf.last, hf.golden,
          ⟨h2, List.length_replicate, List.length_replicate, f.hw, f.fw, f.sn, f.mf, f.ad, f.arbitrary, f.key, f.hashList, h3, f.sig, f.maxSig, f.hashType, f.axis⟩,
          hf.cap, h1, h4, List.length_replicate⟩, ⟨hq.buf, hq.le, hq.idx, hq.completed⟩, h.codec, h.usingGolden, h.vendor, rfl, h.counter, h.hashType⟩, rfl, rfl⟩
  | listSize n =>
    unfold applySetting
    dsimp only
    split
    · exact ⟨h, rfl, rfl⟩
    · next hn =>
      exact ⟨⟨⟨hf.list, hf.num, hf.hasRef, hf.enabled, hf.linked, hf.linkedNew, hf.ts, hf.last, hf.golden, f,
        by show n ≤ 19200; unfold hashListCap at hn; omega, hf.pos, hf.len, hf.ref⟩, ⟨hq.buf, hq.le, hq.idx, hq.completed⟩, h.codec, h.usingGolden, h.vendor, h.ref, h.counter, h.hashType⟩, rfl, rfl⟩
  | level l =>
    unfold applySetting
    dsimp only
    repeat' split
    all_goals exact ⟨⟨⟨hf.list, hf.num, hf.hasRef, hf.enabled, hf.linked, hf.linkedNew, hf.ts, hf.last, hf.golden,
      ⟨f.hashSize, f.linked, f.gop, f.hw, f.fw, f.sn, f.mf, f.ad, f.arbitrary, f.key, f.hashList, f.oid, f.sig, f.maxSig, f.hashType, f.axis⟩,
      hf.cap, hf.pos, hf.len, hf.ref⟩, ⟨hq.buf, hq.le, hq.idx, hq.completed⟩, h.codec, h.usingGolden, h.vendor, h.ref, h.counter, h.hashType⟩, rfl, rfl⟩
  | addPublicKey b =>
    exact ⟨⟨⟨hf.list, hf.num, hf.hasRef, hf.enabled, hf.linked, hf.linkedNew, hf.ts, hf.last, hf.golden,
      ⟨f.hashSize, f.linked, f.gop, f.hw, f.fw, f.sn, f.mf, f.ad, f.arbitrary, f.key, f.hashList, f.oid, f.sig, f.maxSig, f.hashType, f.axis⟩,
      hf.cap, hf.pos, hf.len, hf.ref⟩, ⟨hq.buf, hq.le, hq.idx, hq.completed⟩, h.codec, h.usingGolden, h.vendor, h.ref, h.counter, h.hashType⟩, rfl, rfl⟩
  | recurrence r =>
    unfold applySetting
    dsimp only
    split
    all_goals exact ⟨⟨⟨hf.list, hf.num, hf.hasRef, hf.enabled, hf.linked, hf.linkedNew, hf.ts, hf.last, hf.golden, f,
      hf.cap, hf.pos, hf.len, hf.ref⟩, ⟨hq.buf, hq.le, hq.idx, hq.completed⟩, h.codec, h.usingGolden, h.vendor, h.ref, h.counter, h.hashType⟩, rfl, rfl⟩
  | seiEpb b =>
    exact ⟨⟨⟨hf.list, hf.num, hf.hasRef, hf.enabled, hf.linked, hf.linkedNew, hf.ts, hf.last, hf.golden, f,
      hf.cap, hf.pos, hf.len, hf.ref⟩, ⟨hq.buf, hq.le, hq.idx, hq.completed⟩, h.codec, h.usingGolden, h.vendor, h.ref, h.counter, h.hashType⟩, rfl, rfl⟩
  | maxPayload n =>
    exact ⟨⟨⟨hf.list, hf.num, hf.hasRef, hf.enabled, hf.linked, hf.linkedNew, hf.ts, hf.last, hf.golden, f,
      hf.cap, hf.pos, hf.len, hf.ref⟩, ⟨hq.buf, hq.le, hq.idx, hq.completed⟩, h.codec, h.usingGolden, h.vendor, h.ref, h.counter, h.hashType⟩, rfl, rfl⟩

theorem Ready.clear {hs : Hashing} {codec : Codec} {s : Signer} (h : Ready hs codec s) :
    Ready hs codec { s with signed := none, got := [] } :=
  have hf := h.fresh
  have hq := h.queue
  ⟨⟨hf.list, hf.num, hf.hasRef, hf.enabled, hf.linked, hf.linkedNew, hf.ts, hf.last, hf.golden, hf.fits,
      hf.cap, hf.pos, hf.len, hf.ref⟩, ⟨hq.buf, hq.le, hq.idx, hq.completed⟩, h.codec, h.usingGolden, h.vendor, h.ref, h.counter, h.hashType⟩

theorem setup_ready {hs : Hashing} {codec : Codec} (xs : List Setting) : ∀ {s s' : Signer} {os : List Obs},
    Ready hs codec s → (∀ x ∈ xs, Setup hs x) → signRun hs s (xs.map SCall.set) = .ok (s', os) →
    Ready hs codec s' ∧ ∀ o ∈ os, o.signed = none ∧ o.got = [] ∧ o.sei = none := by
  induction xs with
  | nil => intro s s' os h _ hr; unfold signRun at hr; cases hr; exact ⟨h, by simp⟩
  | cons x xs ih =>
    intro s s' os h hx hr
    obtain ⟨t, o, os', h1, h2, rfl⟩ := signRun_cons hr
    unfold signStep at h1
    have h3 := setting_ready h.clear x (hx x (List.mem_cons_self ..))
    have h4 : Ready hs codec t ∧ o.signed = none ∧ o.got = [] ∧ o.sei = none := by
      simp only [signCall, plain] at h1
      cases ha : applySetting hs { s with signed := none, got := [] } x with
      | ok u a =>
        rw [ha] at h1 h3
        simp only [Res.andThen_ok, observe] at h1
        cases h1
        exact ⟨h3.1, h3.2.1, h3.2.2, rfl⟩
      | err u a =>
        rw [ha] at h1 h3
        simp only [Res.andThen_err, observe] at h1
        cases h1
        exact ⟨h3.1, h3.2.1, h3.2.2, rfl⟩
      | ub u =>
        rw [ha] at h1
        simp only [Res.andThen_ub, observe] at h1
        cases h1
    obtain ⟨h5, h6⟩ := ih h4.1 (fun y hy => hx y (List.mem_cons_of_mem _ hy)) h2
    refine ⟨h5, fun y hy => ?_⟩
    rcases List.mem_cons.1 hy with rfl | hy
    · exact h4.2
    · exact h6 y hy

/-- What all SEIs of an undisturbed session come from. -/
theorem _root_.SV.Spec.Undisturbed.told {L : Prop} {hs : Hashing} {codec : Codec} {oid : Bytes} {v : UInt8 × UInt8 × UInt8} {setup : List Setting}
    {cs : List SCall} {s : Signer} {os : List Obs} (h : Undisturbed hs codec oid v setup cs s os)
    (hl : L → ∀ c ∈ cs, KeepsLevel c) :
    ∃ s0, Ready hs codec s0 ∧ (∃ x, signRun hs (newSigner codec oid v) (setup.map SCall.set) = .ok (s0, x)) ∧
      Hist L hs s0 (pieces codec cs) (os.filterMap Obs.signed) s ∧
      ∀ (k : Nat) b, (delivered os)[k]? = some b → ∃ (g : Gen) (d : EncState), (os.filterMap Obs.signed)[k]? = some g ∧ b = seiBytes g.o g.e d ∧ Fits d ∧
        d.maxSignature = s0.e.maxSignature ∧ d.hashType = 1 ∧ (taken os)[k]? = some d.signature := by
  obtain ⟨s0, x, y, r1, r2, rfl, r4⟩ := signRun_append _ _ h.run
  obtain ⟨q1, q2⟩ := setup_ready setup (newSigner_ready codec oid v h.oidLen h.hashLen) h.setupOk r1
  obtain ⟨a1, a2⟩ := accepted_append _ _ _ _ r4 h.accepted
  have hon : Honest hs s0 0 cs := honest_append _ _ 0 h.honest r1 (fun o ho => ⟨(q2 o ho).1, (q2 o ho).2.1⟩)
  have hcod : s0.codec = codec := q1.codec
  have e1 : (x ++ y).filterMap Obs.signed = y.filterMap Obs.signed := by
    rw [List.filterMap_append, List.filterMap_eq_nil_iff.2 (fun o ho => (q2 o ho).1), List.nil_append]
  have e2 : delivered (x ++ y) = delivered y := by
    unfold delivered
    rw [List.filterMap_append, List.filterMap_eq_nil_iff.2 (fun o ho => (q2 o ho).2.2), List.nil_append]
  have e3 : taken (x ++ y) = taken y := by
    unfold taken
    rw [List.flatMap_append, List.flatMap_eq_nil_iff.2 (fun o ho => (q2 o ho).2.1), List.nil_append]
  have hrun : ∀ pre si oi, pre <+: cs → signRun hs s0 pre = .ok (si, oi) →
      Hist L hs s0 (pieces codec pre) (oi.filterMap Obs.signed) si := by
    intro pre si oi hp hr
    obtain ⟨post, rfl⟩ := hp
    obtain ⟨t', x', y', g1, g2, rfl, g4⟩ := signRun_append _ _ r2
    rw [hr] at g1; cases g1
    have hacc := (accepted_append _ _ _ _ g4 a2).1
    have := hist_run (L := L) q1.fresh pre (Fresh.hist q1.fresh) (fun c hc => h.regular c (by simp [hc]))
      (fun hL c hc => hl hL c (by simp [hc])) hr hacc
    rw [hcod] at this
    simpa using this
  refine ⟨s0, q1, ⟨x, r1⟩, ?_, ?_⟩
  · rw [e1]; exact hrun cs s y (List.prefix_refl _) r2
  · intro k b hk
    rw [e2] at hk
    rw [e1, e3]
    have hq := signRun_q hs cs s0 ⟨[], []⟩ 0 q1.queue rfl hon
    rw [r2] at hq
    obtain ⟨q', gs, ds, xs, w1, w2⟩ := hq
    have hpend : gs = ds.map Done.g ++ q'.P := w2.pend
    have hord : xs ++ q'.C = ds := w2.order h.notPrepend
    rw [w2.delivered] at hk
    obtain ⟨d, hd, rfl⟩ := Option.map_eq_some_iff.1 ((List.getElem?_map ..).symm.trans hk)
    have hds : ds[k]? = some d := by
      rw [← hord, List.getElem?_append_left (List.getElem?_eq_some_iff.1 hd).1]; exact hd
    have hklt : k < ds.length := (List.getElem?_eq_some_iff.1 hds).1
    have hgs : gs[k]? = some d.g := by
      rw [hpend, List.getElem?_append_left (by simpa using hklt), List.getElem?_map, hds]; rfl
    have hg := (hrun cs s y (List.prefix_refl _) r2).gens k d.g (by rw [w2.generated]; exact hgs)
    obtain ⟨_, _, _, _, _, gf⟩ := hg
    obtain ⟨pre, c, si, oi, p1, p2, p3⟩ := w2.doneAt d (List.mem_of_getElem? hds)
    have hpre : pre <+: cs := (List.prefix_append pre [c]).trans p1
    have hcm : c ∈ cs := p1.subset (by simp)
    have heos : NotEos c := by
      have := h.regular c hcm
      cases c <;> first | trivial | (simp [Regular] at this)
    obtain ⟨⟨d1, d2, d3⟩, d4⟩ := p3 heos
    have hi := hrun pre si oi hpre p2
    have hht : si.e.hashType = 1 := hi.typed (by simpa using d4)
    have hsm := hi.cur.part.same
    have hfi : Fits si.encNow := hi.cur.part.fits
    refine ⟨d.g, d.e, by rw [w2.generated]; exact hgs, ?_, ?_, ?_, ?_, ?_⟩
    · unfold Done.bytes seiBytes seiComplete
      have : d.o.epb = d.g.o.epb := by
        rw [d1, gf.epb]; exact hsm.epb
      rw [this]; rfl
    · rw [d2]
      exact hfi.change rfl hfi.linked hfi.gop rfl rfl rfl hfi.hashList rfl d3 rfl (by show si.e.hashType < 2; rw [hht]; decide) rfl
    · rw [d2]; exact hsm.maxSig
    · rw [d2]; exact hht
    · rw [w2.taken, List.getElem?_map, hds]; rfl

end SV
