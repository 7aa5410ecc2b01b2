import Verif.Proofs.SignTold
/-! What the SEIs of a signing session say about the NAL units: C34, C35, C36, C38. -/
namespace SV
open Spec

/-- All SEIs that are handed out, as seen by a receiver. -/
theorem _root_.SV.Spec.Undisturbed.says {L : Prop} {hs : Hashing} {codec : Codec} {oid : Bytes} {v : UInt8 × UInt8 × UInt8} {setup : List Setting}
    {cs : List SCall} {s : Signer} {os : List Obs} (h : Undisturbed hs codec oid v setup cs s os)
    (hl : L → ∀ c ∈ cs, KeepsLevel c) (env : CryptoEnv) (hc : CryptoOk env s.e) :
    ∃ s0, Ready hs codec s0 ∧ Same L s0 s ∧
      (∃ x, signRun hs (newSigner codec oid v) (setup.map SCall.set) = .ok (s0, x)) ∧
      (os.filterMap Obs.signed).length = (gops (pieces codec cs)).1.length ∧
      ∀ (k : Nat) b, (delivered os)[k]? = some b → ∃ (g : Gen) (e : EncState) (prev : Option (List Piece)) (gop : List Piece) (nxt : Piece),
        Place (pieces codec cs) k prev gop nxt ∧ Describes hs s0 k prev gop nxt g ∧ GenFrom L s0 g ∧
        (taken os)[k]? = some e.signature ∧ (os.filterMap Obs.signed)[k]? = some g ∧
        ∀ d : DecState, (d.maxSignature = none ∨ d.maxSignature = some s.e.maxSignature) →
          ∃ d', Decoded env codec b d d' ∧ Carries (sent g.o g.e e) g.e.recurrent d d' := by
  obtain ⟨s0, h1, h2, h3, h4⟩ := h.told hl
  refine ⟨s0, h1, h3.cur.part.same, h2, h3.count, ?_⟩
  intro k b hk
  obtain ⟨g, e, a1, a2, a3, a4, a5, a6⟩ := h4 k b hk
  obtain ⟨gop, nxt, b1, b2, b3, b4⟩ := h3.gens k g a1
  refine ⟨g, e, _, gop, nxt, ⟨b1, rfl, b2⟩, b3, b4, a6, a1, ?_⟩
  intro d hd
  have hsm := h3.cur.part.same
  have hcg : CryptoOk env g.e := by
    refine ⟨?_, ?_⟩
    · rw [b4.key, ← hsm.key]; exact hc.key
    · rw [b4.oid, b4.hashSize, ← hsm.oid, ← hsm.hashSize]; exact hc.oid
  obtain ⟨r, d', c1, c2, c3⟩ := C13_content b4.fits a3 g.o (a4.trans b4.maxSig.symm) b4.golden
    (b4.usingGolden.trans h1.usingGolden) (b4.vendor.trans h1.vendor) b4.hashType a5 hcg d (by
      rw [b4.maxSig, ← hsm.maxSig]; exact hd)
  have hco : g.o.codec = codec := b4.codec.trans h1.codec
  rw [hco] at c1
  refine ⟨d', ⟨r, ?_, c2⟩, c3⟩
  rw [a2]; exact c1

/-! ### The specification makes sense -/

/-- The GOPs contain all protected NAL units in order; every finished GOP has exactly one first slice of an intra picture,
and all but the first start with it. -/
theorem gops_partition (ps : List Piece) :
    (gops ps).1.flatten ++ (gops ps).2 = ps ∧ (∀ g ∈ (gops ps).1, (g.filter (·.first)).length = 1) ∧
    ((gops ps).2.filter (·.first)).length ≤ 1 ∧
    (∀ k, 1 ≤ k → ∀ g, ((gops ps).1 ++ [(gops ps).2])[k]? = some g → ∃ p l, g = p :: l ∧ p.first = true) := by
  rw [← List.reverse_reverse ps]
  induction ps.reverse with
  | nil =>
    refine ⟨rfl, by simp [gops], by simp [gops], ?_⟩
    intro k hk g hg
    cases k with
    | zero => omega
    | succ k => simp [gops] at hg
  | cons p l ih =>
    rw [List.reverse_cons, gops_snoc]
    obtain ⟨i1, i2, i3, i4⟩ := ih
    generalize gops l.reverse = g at i1 i2 i3 i4
    unfold addPiece
    by_cases hc : (p.first && g.2.any (·.first)) = true
    · rw [if_pos hc]
      simp only [Bool.and_eq_true] at hc
      refine ⟨by simp [i1], ?_, by simp [List.filter, hc.1], ?_⟩
      · intro x hx
        rcases List.mem_append.1 hx with hx | hx
        · exact i2 x hx
        · rw [List.mem_singleton] at hx
          subst hx
          have : (g.2.filter (·.first)).length ≠ 0 := by
            intro h0
            have h0 := List.eq_nil_of_length_eq_zero h0
            rw [List.filter_eq_nil_iff] at h0
            obtain ⟨y, hy, hy2⟩ := List.any_eq_true.1 hc.2
            exact h0 y hy hy2
          omega
      · intro k hk x hx
        dsimp only at hx
        by_cases hlt : k < (g.1 ++ [g.2]).length
        · rw [List.getElem?_append_left hlt] at hx
          exact i4 k hk x hx
        · rw [List.getElem?_append_right (by omega)] at hx
          have : k - (g.1 ++ [g.2]).length = 0 := by
            have := (List.getElem?_eq_some_iff.1 hx).1
            simp at this ⊢; omega
          rw [this] at hx
          simp at hx
          exact ⟨p, [], hx.symm, hc.1⟩
    · rw [if_neg hc]
      refine ⟨by rw [← List.append_assoc, i1], i2, ?_, ?_⟩
      · dsimp only
        rw [List.filter_append, List.length_append]
        cases hp : p.first with
        | false => simp [List.filter, hp, i3]
        | true =>
          rw [hp] at hc
          have hn : g.2.any (·.first) = false := by simpa using hc
          have : g.2.filter (·.first) = [] := by
            rw [List.filter_eq_nil_iff]
            intro y hy hy2
            have : g.2.any (·.first) = true := List.any_eq_true.2 ⟨y, hy, hy2⟩
            rw [hn] at this; cases this
          simp [this, List.filter, hp]
      · intro k hk x hx
        dsimp only at hx
        by_cases hlt : k < g.1.length
        · rw [List.getElem?_append_left hlt] at hx
          exact i4 k hk x (by rw [List.getElem?_append_left hlt]; exact hx)
        · rw [List.getElem?_append_right (by omega)] at hx
          have hk0 : k - g.1.length = 0 := by
            have := (List.getElem?_eq_some_iff.1 hx).1
            simp at this ⊢; omega
          rw [hk0] at hx
          simp at hx
          obtain ⟨p', l', h1, h2⟩ := i4 k hk g.2 (by rw [List.getElem?_append_right (by omega), hk0]; rfl)
          exact ⟨p', l' ++ [p], by rw [← hx, h1]; rfl, h2⟩

theorem refAfter_find (H : Bytes → Bytes) (r : Bytes) (q : List Piece) (h : (q.filter (·.first)).length = 1) :
    ∃ p, q.find? (·.first) = some p ∧ refAfter H r q = H p.bytes := by
  induction q generalizing r with
  | nil => cases h
  | cons a q ih =>
    cases ha : a.first with
    | true =>
      refine ⟨a, by simp [List.find?, ha], ?_⟩
      rw [List.filter_cons_of_pos ha, List.length_cons] at h
      have h0 : q.filter (·.first) = [] := List.eq_nil_of_length_eq_zero (by simpa using h)
      rw [List.filter_eq_nil_iff] at h0
      simp only [refAfter, ha, if_true]
      apply refAfter_none
      rw [List.any_eq_false]; exact h0
    | false =>
      rw [List.filter_cons_of_neg (by simp [ha])] at h
      obtain ⟨p, h1, h2⟩ := ih r h
      refine ⟨p, by simp [List.find?, ha, h1], ?_⟩
      simp only [refAfter, ha, Bool.false_eq_true, if_false]
      exact h2

/-! ### A concrete session -/

/-- A key with signatures of up to 72 bytes and a hash list for two NAL units. -/
def histSetup : List Setting := [.privateKey (some ([9, 9, 9], 72)) true, .listSize 64]

/-- Three GOPs of three, one and two NAL units; the first two SEIs are fetched. -/
def histCalls : List SCall :=
  [.nalu [0, 0, 0, 1, 0x65, 0x88, 0x84, 0x80] none true none,
   .nalu [0, 0, 0, 1, 0x41, 0x9a, 0x80] none true none,
   .nalu [0, 0, 0, 1, 0x67, 0x42, 0x80] none true none,
   .nalu [0, 0, 0, 1, 0x41, 0x9a, 0x81] none true none,
   .nalu [0, 0, 0, 1, 0x65, 0x88, 0x85, 0x80] (some 77) true none,
   .getSei true none [.ok [1, 2, 3, 4]],
   .set (.addPublicKey false),
   .nalu [0, 0, 1, 0x65, 0x88, 0x86, 0x80, 0, 0] none true none,
   .getSei true none [.ok [5, 6]],
   .nalu [0, 0, 1, 0x41, 0x88, 0x86, 0x80] none true none]

def acceptedB : List SCall → List Obs → Bool
  | .nalu _ _ _ _ :: cs, o :: os => o.rc.isNone && acceptedB cs os
  | _ :: cs, _ :: os => acceptedB cs os
  | _, _ => true

theorem accepted_of_check : ∀ (cs : List SCall) (os : List Obs), acceptedB cs os = true → Accepted cs os := by
  intro cs
  induction cs with
  | nil => intro os _; trivial
  | cons c cs ih =>
    intro os h
    cases os with
    | nil => cases c <;> trivial
    | cons o os =>
      cases c with
      | nalu d ts l rc =>
        simp only [acceptedB, Bool.and_eq_true, Option.isNone_iff_eq_none] at h
        exact ⟨h.1, ih os h.2⟩
      | _ => exact ih os h

/-- An executable check of a run and the session in the end. -/
theorem runCheck2 (hs : Hashing) (s : Signer) (cs : List SCall) (P : Signer → List Obs → Bool)
    (h : (match signRun hs s cs with | .ok p => P p.1 p.2 | _ => false) = true) :
    ∃ s' os, signRun hs s cs = .ok (s', os) ∧ P s' os = true := by
  cases hr : signRun hs s cs with
  | ok p => rw [hr] at h; exact ⟨p.1, p.2, rfl, h⟩
  | err e => rw [hr] at h; cases h
  | ub u => rw [hr] at h; cases h

def histEnv : CryptoEnv := ⟨fun _ => some 32, fun _ => true⟩

/-- The hypotheses of the theorems below hold for this session. -/
theorem histSession : ∃ s os, Undisturbed toyHashing .h264 [0x60, 0x86] (2, 2, 0) histSetup histCalls s os ∧
    CryptoOk histEnv s.e ∧ (∀ c ∈ histCalls, KeepsLevel c) ∧ s.e.frameLevel = true ∧ s.maxPayload = 0 ∧ s.listCap = 64 ∧
    (delivered os).length = 2 ∧ (gops (pieces .h264 histCalls)).1.map List.length = [3, 1] := by
  obtain ⟨s, os, h1, h2⟩ := runCheck2 toyHashing (newSigner .h264 [0x60, 0x86] (2, 2, 0)) (histSetup.map SCall.set ++ histCalls)
    (fun s os => acceptedB (histSetup.map SCall.set ++ histCalls) os && decide (s.e.hashSize = 32) && s.e.frameLevel &&
      decide (s.maxPayload = 0) && decide (s.listCap = 64) && decide ((delivered os).length = 2)) (by decide +kernel)
  simp only [Bool.and_eq_true, decide_eq_true_eq] at h2
  obtain ⟨⟨⟨⟨⟨c1, c2⟩, c3⟩, c4⟩, c5⟩, c6⟩ := h2
  refine ⟨s, os, ⟨by decide, ?_, ?_, ?_, ?_, honest_of_check _ _ _ _ (by decide +kernel), h1, accepted_of_check _ _ c1⟩,
    ⟨fun _ _ => rfl, ?_⟩, ?_, c3, c4, c5, c6, by decide +kernel⟩
  · intro x; simp [toyHashing, toyHash]
  · intro x hx
    simp only [histSetup, List.mem_cons, List.not_mem_nil, or_false] at hx
    rcases hx with rfl | rfl <;> simp [Setup]
  · intro c hc
    simp only [histCalls, List.mem_cons, List.not_mem_nil, or_false] at hc
    rcases hc with rfl | rfl | rfl | rfl | rfl | rfl | rfl | rfl | rfl | rfl <;> simp [Regular]
  · intro c hc
    simp only [histCalls, List.mem_cons, List.not_mem_nil, or_false] at hc
    rcases hc with rfl | rfl | rfl | rfl | rfl | rfl | rfl | rfl | rfl | rfl <;> simp [NotPrepend]
  · rw [c2]; rfl
  · intro c hc
    simp only [histCalls, List.mem_cons, List.not_mem_nil, or_false] at hc
    rcases hc with rfl | rfl | rfl | rfl | rfl | rfl | rfl | rfl | rfl | rfl <;> simp [KeepsLevel]

/-! ### C34 -/

/-- **C34**: in an undisturbed session one SEI is generated per finished GOP, and a receiver of the SEI number `k` reads the
hash of the concatenated hashes of exactly the protected NAL units of GOP number `k`, in order, and their number modulo
2^16; for every length of the GOP and every size of the hash list. -/
theorem C34_gop_hash {hs : Hashing} {codec : Codec} {oid : Bytes} {v : UInt8 × UInt8 × UInt8} {setup : List Setting}
    {cs : List SCall} {s : Signer} {os : List Obs} (h : Undisturbed hs codec oid v setup cs s os)
    (env : CryptoEnv) (hc : CryptoOk env s.e) :
    (generated os).length = (gops (pieces codec cs)).1.length ∧
    ∀ (k : Nat) b, (delivered os)[k]? = some b → ∀ d : DecState,
      (d.maxSignature = none ∨ d.maxSignature = some s.e.maxSignature) →
      ∃ d' gop, Decoded env codec b d d' ∧ (gops (pieces codec cs)).1[k]? = some gop ∧
        d'.gopHash = hs.H s.e.oid (pieceHashes (hs.H s.e.oid) (List.replicate s.e.hashSize 0) gop).flatten ∧
        d'.numSent = UInt16.ofNat gop.length := by
  obtain ⟨s0, h1, h2, h3, h4, h5⟩ := h.says (L := False) (fun hx => hx.elim) env hc
  refine ⟨by unfold generated; rw [List.length_map]; exact h4, ?_⟩
  intro k b hk d hd
  obtain ⟨g, e, prev, gop, nxt, a1, a2, a3, a4, a5, a6⟩ := h5 k b hk
  obtain ⟨d', b1, b2⟩ := a6 d hd
  refine ⟨d', gop, b1, a1.isGop, ?_, ?_⟩
  · rw [b2.gopHash, h2.oid, h2.hashSize, ← h1.ref]; exact a2.gopHash
  · rw [b2.numNalus]; exact a2.num

/-- The second SEI of the session above is about a GOP of one NAL unit. -/
example : ∃ b d', Decoded histEnv .h264 b {} d' ∧ d'.numSent = 1 ∧
    d'.gopHash = toyHash (toyHash [0x65, 0x88, 0x85, 0x80]) := by
  obtain ⟨s, os, h1, h2, -, -, -, -, h7, -⟩ := histSession
  obtain ⟨-, h⟩ := C34_gop_hash h1 histEnv h2
  have hk : (delivered os)[1]? = some (delivered os)[1] := List.getElem?_eq_getElem (by omega)
  obtain ⟨d', gop, a1, a2, a3, a4⟩ := h 1 _ hk {} (.inl rfl)
  have hg : (gops (pieces .h264 histCalls)).1[1]? = some [⟨true, [0x65, 0x88, 0x85, 0x80], some 77⟩] := by decide +kernel
  rw [hg] at a2
  cases a2
  refine ⟨_, d', a1, a4, ?_⟩
  rw [a3]; rfl

/-! ### C35 -/

/-- **C35**: a receiver of the SEI number `k` reads as linked hash the hash of the first slice of the intra picture of the
GOP before the one the SEI belongs to, and zeros if that is the first one. -/
theorem C35_linked {hs : Hashing} {codec : Codec} {oid : Bytes} {v : UInt8 × UInt8 × UInt8} {setup : List Setting}
    {cs : List SCall} {s : Signer} {os : List Obs} (h : Undisturbed hs codec oid v setup cs s os)
    (env : CryptoEnv) (hc : CryptoOk env s.e) (k : Nat) (b : Bytes) (hk : (delivered os)[k]? = some b) (d : DecState)
    (hd : d.maxSignature = none ∨ d.maxSignature = some s.e.maxSignature) :
    ∃ d', Decoded env codec b d d' ∧
      match k with
      | 0 => d'.linkedHash = List.replicate s.e.hashSize 0
      | j + 1 => ∃ prev p, (gops (pieces codec cs)).1[j]? = some prev ∧ prev.find? (·.first) = some p ∧
          d'.linkedHash = hs.H s.e.oid p.bytes := by
  obtain ⟨s0, h1, h2, h3, h4, h5⟩ := h.says (L := False) (fun hx => hx.elim) env hc
  obtain ⟨g, e, prev, gop, nxt, a1, a2, a3, a4, a5, a6⟩ := h5 k b hk
  obtain ⟨d', b1, b2⟩ := a6 d hd
  refine ⟨d', b1, ?_⟩
  have hl := b2.linkedHash.trans a2.linked
  have hp := a1.isPrev
  cases k with
  | zero =>
    rw [if_pos rfl] at hp
    subst hp
    rw [h2.hashSize]; exact hl
  | succ j =>
    rw [if_neg (by omega), Nat.add_sub_cancel] at hp
    have hj : j < (gops (pieces codec cs)).1.length := by
      have := (List.getElem?_eq_some_iff.1 a1.isGop).1; omega
    rw [List.getElem?_eq_getElem hj] at hp
    subst hp
    obtain ⟨-, g2, -, -⟩ := gops_partition (pieces codec cs)
    have hone := g2 _ (List.getElem_mem hj)
    obtain ⟨p, p1, p2⟩ := refAfter_find (hs.H s0.e.oid) s0.ref _ hone
    refine ⟨_, p, List.getElem?_eq_getElem hj, p1, ?_⟩
    rw [h2.oid, ← p2]; exact hl

example : ∃ b d', Decoded histEnv .h264 b {} d' ∧ d'.linkedHash = toyHash [0x65, 0x88, 0x84, 0x80] := by
  obtain ⟨s, os, h1, h2, -, -, -, -, h7, -⟩ := histSession
  have hk : (delivered os)[1]? = some (delivered os)[1] := List.getElem?_eq_getElem (by omega)
  obtain ⟨d', a1, prev, p, a2, a3, a4⟩ := C35_linked h1 histEnv h2 1 _ hk {} (.inl rfl)
  refine ⟨_, d', a1, ?_⟩
  have hg : (gops (pieces .h264 histCalls)).1[0]?.bind (List.find? (·.first)) = some ⟨true, [0x65, 0x88, 0x84, 0x80], none⟩ := by
    decide +kernel
  rw [a2, Option.bind_some, a3] at hg
  cases hg
  rw [a4]; rfl

/-! ### C36 -/

/-- **C36**: without golden SEIs, a receiver of the SEI number `k` (from 0) reads the GOP counter `k + 1` modulo 2^32: the
counters of consecutive SEIs are consecutive.  For golden SEIs see `C36_any_history_partial`. -/
theorem C36_counter {hs : Hashing} {codec : Codec} {oid : Bytes} {v : UInt8 × UInt8 × UInt8} {setup : List Setting}
    {cs : List SCall} {s : Signer} {os : List Obs} (h : Undisturbed hs codec oid v setup cs s os)
    (env : CryptoEnv) (hc : CryptoOk env s.e) (k : Nat) (b : Bytes) (hk : (delivered os)[k]? = some b) (d : DecState)
    (hd : d.maxSignature = none ∨ d.maxSignature = some s.e.maxSignature) :
    ∃ d', Decoded env codec b d d' ∧ d'.gopCounter = UInt32.ofNat (k + 1) := by
  obtain ⟨s0, h1, h2, h3, h4, h5⟩ := h.says (L := False) (fun hx => hx.elim) env hc
  obtain ⟨g, e, prev, gop, nxt, a1, a2, a3, a4, a5, a6⟩ := h5 k b hk
  obtain ⟨d', b1, b2⟩ := a6 d hd
  refine ⟨d', b1, ?_⟩
  rw [b2.counter]
  show g.e.gopCounter + 1 = _
  rw [a2.counter, h1.counter, UInt32.ofNat_add, UInt32.zero_add]; rfl

/-- The timestamp of a SEI is the one given with the NAL unit after the GOP. -/
theorem C36_timestamp {hs : Hashing} {codec : Codec} {oid : Bytes} {v : UInt8 × UInt8 × UInt8} {setup : List Setting}
    {cs : List SCall} {s : Signer} {os : List Obs} (h : Undisturbed hs codec oid v setup cs s os)
    (env : CryptoEnv) (hc : CryptoOk env s.e) (k : Nat) (b : Bytes) (hk : (delivered os)[k]? = some b) (d : DecState)
    (hd : d.maxSignature = none ∨ d.maxSignature = some s.e.maxSignature) :
    ∃ d' prev gop nxt, Decoded env codec b d d' ∧ Place (pieces codec cs) k prev gop nxt ∧
      d'.hasTimestamp = nxt.ts.isSome ∧ ∀ t, nxt.ts = some t → d'.timestamp = t := by
  obtain ⟨s0, h1, h2, h3, h4, h5⟩ := h.says (L := False) (fun hx => hx.elim) env hc
  obtain ⟨g, e, prev, gop, nxt, a1, a2, a3, a4, a5, a6⟩ := h5 k b hk
  obtain ⟨d', b1, b2⟩ := a6 d hd
  refine ⟨d', prev, gop, nxt, b1, a1, ?_, ?_⟩
  · rw [b2.hasTimestamp.1]
    show g.e.timestamp.isSome = _
    rw [a2.ts]
  · intro t ht
    exact (b2.timestamp t (a2.ts.trans ht)).1

/-! ### C38 -/

/-- **C38**: a receiver of the SEI number `k` reads either the complete list of the hashes of the NAL units of GOP number
`k` (and of no other GOP), or no list at all; no list if it would be longer than configured. -/
theorem C38_all_or_nothing {hs : Hashing} {codec : Codec} {oid : Bytes} {v : UInt8 × UInt8 × UInt8} {setup : List Setting}
    {cs : List SCall} {s : Signer} {os : List Obs} (h : Undisturbed hs codec oid v setup cs s os)
    (env : CryptoEnv) (hc : CryptoOk env s.e) (k : Nat) (b : Bytes) (hk : (delivered os)[k]? = some b) (d : DecState)
    (hd : d.maxSignature = none ∨ d.maxSignature = some s.e.maxSignature) :
    ∃ d' gop, Decoded env codec b d d' ∧ (gops (pieces codec cs)).1[k]? = some gop ∧
      (d'.hashList = (pieceHashes (hs.H s.e.oid) (List.replicate s.e.hashSize 0) gop).flatten ∧
        gop.length * s.e.hashSize ≤ s.listCap ∨ d'.hashList = d.hashList) := by
  obtain ⟨s0, h1, h2, h3, h4, h5⟩ := h.says (L := False) (fun hx => hx.elim) env hc
  obtain ⟨g, e, prev, gop, nxt, a1, a2, a3, a4, a5, a6⟩ := h5 k b hk
  obtain ⟨d', b1, b2⟩ := a6 d hd
  refine ⟨d', gop, b1, a1.isGop, ?_⟩
  rw [h2.oid, h2.hashSize, h2.listCap, ← h1.ref]
  have hl := a2.list
  cases hx : (sent g.o g.e e).hashList with
  | none => exact .inr (b2.noList (.inl hx))
  | some l =>
    by_cases hne : l = []
    · subst hne; exact .inr (b2.noList (.inr (.inl hx)))
    · cases hf : (sent g.o g.e e).frameLevel with
      | false => exact .inr (b2.noList (.inr (.inr hf)))
      | true =>
        left
        rw [b2.hashList l hx hne hf]
        have : g.e.hashList = some l := by
          unfold sent at hx
          dsimp only at hx
          split at hx
          · cases hx
          · exact hx
        rw [this] at hl
        split at hl
        · next hle => exact ⟨by cases hl; rfl, hle⟩
        · cases hl

/-- **C38**: with the default level and without a limit on the size of SEIs, the list is present if it fits into the
configured size. -/
theorem C38_present {hs : Hashing} {codec : Codec} {oid : Bytes} {v : UInt8 × UInt8 × UInt8} {setup : List Setting}
    {cs : List SCall} {s : Signer} {os : List Obs} (h : Undisturbed hs codec oid v setup cs s os)
    (hl : ∀ c ∈ cs, KeepsLevel c) (hlv : s.e.frameLevel = true) (hmp : s.maxPayload = 0)
    (env : CryptoEnv) (hc : CryptoOk env s.e) (k : Nat) (b : Bytes) (hk : (delivered os)[k]? = some b) (d : DecState)
    (hd : d.maxSignature = none ∨ d.maxSignature = some s.e.maxSignature) :
    ∃ d' gop, Decoded env codec b d d' ∧ (gops (pieces codec cs)).1[k]? = some gop ∧
      (gop.length * s.e.hashSize ≤ s.listCap →
        d'.hashList = (pieceHashes (hs.H s.e.oid) (List.replicate s.e.hashSize 0) gop).flatten) ∧
      (s.listCap < gop.length * s.e.hashSize → d'.hashList = d.hashList) := by
  obtain ⟨s0, h1, h2, h3, h4, h5⟩ := h.says (L := True) (fun _ => hl) env hc
  obtain ⟨g, e, prev, gop, nxt, a1, a2, a3, a4, a5, a6⟩ := h5 k b hk
  obtain ⟨d', b1, b2⟩ := a6 d hd
  refine ⟨d', gop, b1, a1.isGop, ?_, ?_⟩
  · intro hle
    rw [h2.oid, h2.hashSize, ← h1.ref]
    rw [h2.hashSize, h2.listCap] at hle
    have hg := a2.list
    rw [if_pos hle] at hg
    have hm : g.o.maxPayload = 0 := by rw [(a3.lvl trivial).2, ← (h2.lvl trivial).2, hmp]
    refine b2.hashList _ ?_ ?_ ?_
    · unfold sent
      dsimp only
      rw [if_neg (by rw [hm]; omega)]
      exact hg
    · intro h0
      have hlen := congrArg List.length h0
      rw [pieceHashes_flatten h1.fresh.len] at hlen
      have hpos := h1.fresh.pos
      have hgl : 1 ≤ gop.length := by
        obtain ⟨-, g2, -, -⟩ := gops_partition (pieces codec cs)
        have := g2 gop (List.mem_of_getElem? a1.isGop)
        have := List.length_filter_le (fun p : Piece => p.first) gop
        omega
      have := Nat.mul_le_mul hgl hpos
      simp at hlen; omega
    · show g.e.frameLevel = true
      rw [(a3.lvl trivial).1, ← (h2.lvl trivial).1, hlv]
  · intro hlt
    rw [h2.hashSize, h2.listCap] at hlt
    refine b2.noList (.inl ?_)
    have hg := a2.list
    rw [if_neg (by omega)] at hg
    unfold sent
    dsimp only
    split
    · rfl
    · exact hg

/-- In the session above the first GOP has three NAL units, too many for the list, the second one has one. -/
example : ∃ b0 b1 d0 d1, Decoded histEnv .h264 b0 { hashList := [7] } d0 ∧ Decoded histEnv .h264 b1 { hashList := [7] } d1 ∧
    d0.hashList = [7] ∧ d1.hashList = toyHash [0x65, 0x88, 0x85, 0x80] := by
  obtain ⟨s, os, h1, h2, h3, h4, h5, h6, h7, h8⟩ := histSession
  have hs : s.e.hashSize = 32 := by have := h2.oid; simpa [histEnv] using this.symm
  have hk0 : (delivered os)[0]? = some (delivered os)[0] := List.getElem?_eq_getElem (by omega)
  have hk1 : (delivered os)[1]? = some (delivered os)[1] := List.getElem?_eq_getElem (by omega)
  obtain ⟨d0, g0, a1, a2, a3, a4⟩ := C38_present h1 h3 h4 h5 histEnv h2 0 _ hk0 { hashList := [7] } (.inl rfl)
  obtain ⟨d1, g1, b1, b2, b3, b4⟩ := C38_present h1 h3 h4 h5 histEnv h2 1 _ hk1 { hashList := [7] } (.inl rfl)
  have hg0 : (gops (pieces .h264 histCalls)).1[0]?.map List.length = some 3 := by decide +kernel
  have hg1 : (gops (pieces .h264 histCalls)).1[1]? = some [⟨true, [0x65, 0x88, 0x85, 0x80], some 77⟩] := by decide +kernel
  rw [a2] at hg0
  simp only [Option.map_some, Option.some.injEq] at hg0
  rw [hg1] at b2
  cases b2
  refine ⟨_, _, d0, d1, a1, b1, a4 (by rw [h6, hs, hg0]; decide), ?_⟩
  rw [b3 (by rw [h6, hs]; decide)]; rfl

end SV
