import Verif.Proofs.LegacyTie
/-! Rounds and calls of a session for the older format keep what is verified tied to what is marked. -/
namespace SV
namespace Legacy
open Validator (Decoded Alg Algs)

variable {env : AuthEnv} {T : List Bytes}

/-- What decoding a SEI leads to. -/
structure Parsed (env : AuthEnv) (T : List Bytes) (s t : Legacy) (x : Nat × LItem) : Prop where
  next : ∃ x' k, nextSei t.list = some x' ∧ keyOf x' = some k ∧ x'.1 = x.1 ∧ x'.2.hash = x.2.hash ∧ k.decoded = true ∧ Read env t.v k ∧
    queue t.list = k :: (queue s.list).tail ∧ k.valid > 0
  clear : Clear t.list
  cnts : ∀ a, cnt t.list a = cnt s.list a
  brk : t.brk = s.brk
  alg : Alg T 32 false t.v
  type : t.v.d.hashType < 2
  verified : t.v.verified = -1
  flags : t.v.flags = s.v.flags
  hasSei : t.v.gop.hasSei = s.v.gop.hasSei

theorem nextSei_head {l1 l2 : LList} {x : Nat × LItem} (h1 : queue l1 = []) (hx : keyOf x ≠ none) : nextSei (l1 ++ x :: l2) = some x := by
  unfold nextSei
  rw [List.find?_append]
  have h : l1.find? (fun x => x.2.isSei && decide (x.2.status = .P)) = none := by
    rw [List.find?_eq_none]
    intro y hy
    rw [← keyOf_isSome]
    unfold queue at h1
    rw [List.filterMap_eq_nil_iff] at h1
    rw [h1 y hy]
    simp
  rw [h, Option.none_or, List.find?_cons_of_pos]
  rw [← keyOf_isSome]
  cases hk : keyOf x with
  | none => exact absurd hk hx
  | some k => rfl

theorem keyOf_some {x : Nat × LItem} {k : Key} (h : keyOf x = some k) : ∃ n, x.2.nalu = some n ∧ n.gopSei = true ∧ x.2.status = .P ∧
    k = ⟨x.1, x.2.decoded, x.2.hash, n.valid, n.tlvSize, n.tlvMem.take n.tlvSize⟩ := by
  unfold keyOf at h
  split at h
  · cases h
  · rename_i n hn
    split at h
    · rename_i hc; cases h; exact ⟨n, hn, hc.1, hc.2, rfl⟩
    · cases h

theorem decodeNext_parsed (he : Algs env T 32) {s : Legacy} (hs : Calm env T s) {x : Nat × LItem} (hx : nextSei s.list = some x) :
    (∀ t, s.decodeNext env x = .ok t () → Parsed env T s t x) ∧
    (∀ t e, s.decodeNext env x = .err t e → Calm env T t) := by
  obtain ⟨l1, l2, k, hl, hq1, hk, hq⟩ := nextSei_split hx
  obtain ⟨n, hn, hg, hst, rfl⟩ := keyOf_some hk
  have hkq : (⟨x.1, x.2.decoded, x.2.hash, n.valid, n.tlvSize, n.tlvMem.take n.tlvSize⟩ : Key) ∈ queue s.list := by
    rw [hq]; exact List.mem_cons_self ..
  have hkh : (⟨x.1, x.2.decoded, x.2.hash, n.valid, n.tlvSize, n.tlvMem.take n.tlvSize⟩ : Key) ∈ (queue s.list).head? := by rw [hq]; rfl
  unfold decodeNext
  split
  · rename_i hd
    constructor
    · intro t ht
      cases ht
      exact ⟨⟨x, _, hx, hk, rfl, rfl, hd, (hs.held _ hkh hd).2, by rw [hq]; rfl, hs.valid _ hkq⟩, hs.clear, fun _ => rfl, rfl, hs.alg, hs.type,
        hs.verified, rfl, rfl⟩
    · intro t e ht; cases ht
  · rename_i hd
    dsimp only
    rw [hn]
    dsimp only
    unfold decodeSei
    split
    · exact ⟨fun t h => (by cases h), fun t e h => (by cases h)⟩
    · dsimp only
      have h1 := tlvDecode_decoded env s.v n.tlvMem n.tlvSize
      have h2 := tlvDecode_ends (decTag_good he) (s := s.v) ⟨hs.alg, hs.type⟩ n.tlvMem n.tlvSize
      cases h3 : tlvDecode env s.v n.tlvMem n.tlvSize with
      | ub u => exact ⟨fun t h => (by cases h), fun t e h => (by cases h)⟩
      | err w e =>
        rw [h3] at h1 h2
        refine ⟨fun t h => (by cases h), fun t e h => ?_⟩
        cases h
        refine ⟨⟨hs.wf, h2.1, h2.2, hs.valid, hs.fresh, ?_, ?_⟩, hs.clear, h1.verified.trans hs.verified⟩
        · intro k' hk' hd'
          have hh : k' ∈ (queue s.list).head? := hk'
          rw [hq] at hh
          cases hh
          exact absurd hd' hd
        · intro e
          exact hs.quiet ((congrArg VFlags.signing h1.flags).symm.trans e)
      | ok w _ =>
        rw [h3] at h1 h2
        have hset : s.list.set x.1 (fun i => { i with decoded := true }) = l1 ++ (x.1, { x.2 with decoded := true }) :: l2 := by
          have w := hs.wf
          rw [hl] at w ⊢
          exact set_middle w _
        have hk' : keyOf (x.1, { x.2 with decoded := true }) = some ⟨x.1, true, x.2.hash, n.valid, n.tlvSize, n.tlvMem.take n.tlvSize⟩ := by
          unfold keyOf
          dsimp only
          rw [hn]
          dsimp only
          rw [if_pos ⟨hg, hst⟩]
        have hp : ∀ g sh, (w.d.hashType = 1 → buf 32 sh = buf 32 x.2.hash) → g.hasSei = s.v.gop.hasSei →
            Parsed env T s { s with v := { w with sigHash := sh, gop := g }, list := s.list.set x.1 fun i => { i with decoded := true } } x := by
          intro g sh hsh hgs
          refine ⟨⟨(x.1, { x.2 with decoded := true }), _, ?_, hk', rfl, rfl, rfl, ⟨⟨n.tlvMem, s.v, w, rfl, h3, rfl, rfl, rfl⟩, hsh⟩, ?_, ?_⟩, ?_, ?_, rfl,
            h2.1.same rfl rfl rfl rfl, h2.2, h1.verified.trans hs.verified, h1.flags, hgs⟩
          · dsimp only
            rw [hset]
            exact nextSei_head hq1 (by rw [hk']; exact nofun)
          · dsimp only
            rw [hset, queue_append, hq1, queue_cons, hk', hq]; rfl
          · exact hs.valid (⟨x.1, x.2.decoded, x.2.hash, n.valid, n.tlvSize, n.tlvMem.take n.tlvSize⟩ : Key) hkq
          · intro y hy
            dsimp only at hy
            obtain ⟨z, hz, rfl⟩ := List.mem_map.1 hy
            have := hs.clear z hz
            split
            · exact this
            · exact this
          · intro a; dsimp only; rw [cnt_set]
        constructor
        · intro t h
          have hgop : w.gop.hasSei = s.v.gop.hasSei := by rw [h1.gop]
          by_cases ht : w.d.hashType = 1
          · have hz : ¬ s.v.d.hashSize > 64 := by rw [hs.alg.size]; omega
            simp only [onV, Res.andThen, ht, if_true, if_neg hz] at h
            cases h
            refine hp _ _ (fun _ => ?_) hgop
            rw [hs.alg.size, buf_ovl _ _ (buf_length _ _)]
          · simp only [onV, Res.andThen, ht, if_false] at h
            cases h
            exact hp _ _ (fun e => absurd e ht) hgop
        · intro t e h
          simp only [onV, Res.andThen] at h
          split at h
          · split at h
            · cases h
            · cases h
          · cases h

/-- The state after decoding and hashing. -/
structure Readied (env : AuthEnv) (T : List Bytes) (s t : Legacy) : Prop where
  tied : Tied env t
  head : ∃ k q, queue t.list = k :: q ∧ k.decoded = true ∧ Read env t.v k
  wf : WFL t.list t.brk
  alg : Alg T 32 false t.v
  type : t.v.d.hashType < 2
  valid : ∀ k ∈ queue t.list, k.valid > 0
  fresh : ∀ k ∈ (queue t.list).tail, k.decoded = false
  clear : t.v.d.hashType = 1 → Clear t.list
  verified : t.v.verified = -1
  flags : t.v.flags = s.v.flags
  hasSei : t.v.gop.hasSei = s.v.gop.hasSei

theorem nextSei_queue {l m : LList} (hq : queue m = queue l) {x : Nat × LItem} (h : nextSei l = some x) :
    ∃ y, nextSei m = some y ∧ keyOf y = keyOf x := by
  obtain ⟨_, _, k, -, -, hk, h1⟩ := nextSei_split h
  cases hm : nextSei m with
  | none => rw [nextSei_none hm] at hq; rw [h1] at hq; cases hq
  | some y =>
    obtain ⟨_, _, k', -, -, hk', h2⟩ := nextSei_split hm
    rw [h1, h2] at hq
    injection hq with hq _
    exact ⟨y, rfl, by rw [hk, hk', hq]⟩

theorem readNext_readied (he : Algs env T 32) {s : Legacy} (hs : Calm env T s) {x : Nat × LItem} (hx : nextSei s.list = some x) :
    (∀ t, s.readNext env = .ok t () → Readied env T s t) ∧ (∀ t e, s.readNext env = .err t e → Calm env T t) := by
  obtain ⟨hd1, hd2⟩ := decodeNext_parsed he hs hx
  have hxu : x.2.used = false := hs.clear x (nextSei_mem hx)
  unfold readNext
  rw [hx]
  dsimp only
  cases hd : s.decodeNext env x with
  | ub u => exact ⟨fun t h => (by cases h), fun t e h => (by cases h)⟩
  | err t e => exact ⟨fun t h => (by cases h), fun t e h => (by cases h; exact hd2 _ _ hd)⟩
  | ok t _ =>
    have hp := hd1 t hd
    obtain ⟨x', k, n1, n2, n3, n4, n5, n6, n7, n8⟩ := hp.next
    have hval : ∀ k' ∈ queue t.list, k'.valid > 0 := by
      intro k' hk'
      rw [n7] at hk'
      rcases List.mem_cons.1 hk' with rfl | hk'
      · exact n8
      · exact hs.valid k' (List.mem_of_mem_tail hk')
    have hfr : ∀ k' ∈ (queue t.list).tail, k'.decoded = false := by
      intro k' hk'
      rw [n7] at hk'
      exact hs.fresh k' hk'
    have hwf : WFL t.list t.brk := by intro a; rw [hp.cnts, hp.brk]; exact hs.wf a
    rw [Res.andThen_ok]
    unfold hashNext
    rw [hxu]
    by_cases ht : t.v.d.hashType = 0
    · have hc : (!false && decide (t.v.d.hashType = 0)) = true := by rw [ht]; rfl
      rw [if_pos hc]
      cases hg : t.computeGop env x with
      | ub u => exact ⟨fun t h => (by cases h), fun t e h => (by cases h)⟩
      | err w e => exact (computeGop_err he hp.alg hg).elim
      | ok w _ =>
        rw [Res.andThen_ok]
        obtain ⟨c1, c2, c3, c4, c5⟩ := computeGop_chain he hp.alg hp.clear hg
        have hz : ¬ s.v.d.hashSize > 64 := by rw [hs.alg.size]; omega
        rw [if_neg hz]
        refine ⟨fun u h => ?_, fun u e h => (by cases h)⟩
        cases h
        have hne : w.v.d.hashType ≠ 1 := by rw [c1, ht]; decide
        have hr : Read env { w.v with sigHash := ovl (buf s.v.d.hashSize w.hashes) w.v.sigHash } k := by
          refine ⟨?_, fun e => absurd e hne⟩
          dsimp only
          rw [c1]; exact n6.1
        obtain ⟨y, y1, y2⟩ := nextSei_queue c3 n1
        have ya : y.1 = x.1 ∧ y.2.hash = x.2.hash := by
          rw [n2] at y2
          obtain ⟨_, -, -, -, e1⟩ := keyOf_some y2
          obtain ⟨_, -, -, -, e2⟩ := keyOf_some n2
          rw [e1] at e2
          injection e2 with a1 _ a3
          exact ⟨a1.trans n3, a3.trans n4⟩
        have hch := c5 w.v.sigHash
        refine ⟨⟨y, k, y1, y2.trans n2, hr, fun _ => ?_⟩, ⟨k, (queue s.list).tail, c3.trans n7, n5, hr⟩, ?_, ?_, ?_, ?_, ?_, ?_, ?_, ?_, ?_⟩
        · rw [hs.alg.size]
          obtain ⟨hashed, a1, a2, a3, a4⟩ := hch
          exact ⟨hashed, a1, a2, fun z hz hu => (a3 z hz hu).imp_left (·.trans ya.1.symm), by rw [ya.2]; exact a4⟩
        · intro a; dsimp only; rw [c4, c2]; exact hwf a
        · exact hp.alg.same (show w.v.d.hashSize = _ by rw [c1]) (show w.v.typ = _ by rw [c1]) (show w.v.primary = _ by rw [c1])
            (show w.v.d.hashAlgoKnown = _ by rw [c1])
        · show w.v.d.hashType < 2
          rw [c1]; exact hp.type
        · dsimp only; rw [c3]; exact hval
        · dsimp only; rw [c3]; exact hfr
        · exact fun e => absurd e hne
        · show w.v.verified = -1
          rw [c1]; exact hp.verified
        · show w.v.flags = _
          rw [c1]; exact hp.flags
        · show w.v.gop.hasSei = _
          rw [c1]; exact hp.hasSei
    · have h1 : t.v.d.hashType = 1 := by
        have := hp.type
        have h0 := ht
        revert this h0
        generalize t.v.d.hashType = y
        intro h0 h1
        apply UInt8.toNat_inj.1
        have h2 : y.toNat < 2 := h0
        have h3 : y.toNat ≠ 0 := fun e => h1 (UInt8.toNat_inj.1 e)
        show y.toNat = 1
        omega
      have hc : ¬ (!false && decide (t.v.d.hashType = 0)) = true := by rw [h1]; decide
      rw [if_neg hc]
      refine ⟨fun u h => ?_, fun u e h => (by cases h)⟩
      cases h
      exact ⟨⟨x', k, n1, n2, n6, fun e => absurd h1 e⟩, ⟨k, _, n7, n5, n6⟩, hwf, hp.alg, hp.type, hval, hfr, fun _ => hp.clear,
        hp.verified, hp.flags, hp.hasSei⟩

/-! ### The verification -/

theorem withoutSei_moves {s t : Legacy} {b : Bool} (h : s.withoutSei = .ok t b) : Moves s.list s.brk t.list t.brk ∧ Stays s.v t.v := by
  unfold withoutSei at h
  split at h
  · cases h
  · cases h
  · rename_i l k f hl
    cases h
    refine ⟨markLoop_moves hl _, ?_⟩
    dsimp only
    split
    · exact ⟨rfl, rfl, rfl, rfl, rfl, rfl, rfl, rfl, rfl, rfl⟩
    · exact Stays.refl _

theorem addMissing_v (s : Legacy) (n : Int) (app : Bool) (item : Nat) : (s.addMissing n app item).v = s.v := by
  unfold addMissing
  split <;> rfl

theorem hashListEnd_v (s : Legacy) (m : Match) (n : Int) (sei : Nat) : (hashListEnd s m n sei).1.v = s.v := by
  unfold hashListEnd
  dsimp only
  have h : ∀ t : Legacy, t.v = s.v → (match m.lastUsed with
      | none => ((t, m.count) : Legacy × Int)
      | some a =>
        if m.latest ≠ m.compare then ({ t with list := t.list.set a fun i => { i with bad := true, need := true } }, m.count)
        else (t.addMissing (n - 1 - m.latest - 1) true a, if n - 1 - m.latest - 1 ≥ 0 then m.count + 1 else m.count)).1.v = s.v := by
    intro t ht
    split
    · exact ht
    · split
      · exact ht
      · exact (addMissing_v ..).trans ht
  apply h
  split
  · split
    · rfl
    · exact addMissing_v ..
  · rfl

theorem withHashList_moves {s t : Legacy} {p : Bool × Int × Int} (w : WFL s.list s.brk) (h : s.withHashList = .ok t p) :
    Moves s.list s.brk t.list t.brk ∧ Stays s.v t.v := by
  unfold withHashList at h
  split at h
  · cases h
  · split at h
    · cases h; exact ⟨Moves.refl _ _, Stays.refl _⟩
    · rename_i sei _
      split at h
      · obtain ⟨x, b, h1, h2⟩ := Res.andThen_eq_ok h
        cases h2
        obtain ⟨g1, g2⟩ := withoutSei_moves h1
        refine ⟨Moves.trans (Moves.set (f := fun i => { i with status := if s.v.verified = 0 then .N else .E }) (fun i => ⟨rfl, rfl, rfl, ?_, id⟩) _) g1, g2⟩
        dsimp only
        split <;> exact nofun
      · split at h
        · cases h
        · dsimp only at h
          split at h
          · cases h
          · cases h
          · rename_i l m hl
            cases h
            have h1 := hashListLoop_moves hl
            refine ⟨h1.trans (hashListEnd_moves { s with list := l, brk := m.brk } m _ sei.1 (h1.wf w)), ?_⟩
            rw [hashListEnd_v]
            exact Stays.refl _

theorem withGopHash_moves {s t : Legacy} {p : Bool × Int × Int} (w : WFL s.list s.brk) (hv : s.v.verified = 0 ∨ s.v.verified = 1)
    (h : s.withGopHash = .ok t p) : Moves s.list s.brk t.list t.brk ∧ Stays s.v t.v ∧ Clear t.list := by
  unfold withGopHash at h
  rw [if_pos hv.symm] at h
  have hm : Moves s.list s.brk (setStatus (if s.v.verified = 1 then .ok else .N) s.list) s.brk := by
    refine setStatus_moves _ ?_ _ _
    split <;> exact nofun
  dsimp only at h
  split at h
  · cases h; exact ⟨hm, Stays.refl _, setStatus_clear _ _⟩
  · split at h
    · cases h; exact ⟨hm, Stays.refl _, setStatus_clear _ _⟩
    · split at h
      · cases h
      · cases h
        have h2 := addMissing_moves { s with list := setStatus (if s.v.verified = 1 then .ok else .N) s.list } (s.v.d.numSent.toNat - (setStatusCount s.list : Nat))
          (by assumption : Nalu).firstInGop (by assumption : Nat × LItem).1 (hm.wf w)
        refine ⟨hm.trans h2, ?_, h2.ages.clear (setStatus_clear _ _)⟩
        rw [addMissing_v]; exact Stays.refl _

theorem verifyGop_moves {s t : Legacy} {p : Bool × Int × Int} (w : WFL s.list s.brk) (hv : s.v.verified = 0 ∨ s.v.verified = 1)
    (hc : s.v.d.hashType = 1 → Clear s.list) (h : s.verifyGop = .ok t p) : Moves s.list s.brk t.list t.brk ∧ Stays s.v t.v ∧ Clear t.list := by
  unfold verifyGop at h
  split at h
  · obtain ⟨x, b, h1, h2⟩ := Res.andThen_eq_ok h
    cases h2
    obtain ⟨g1, g2⟩ := withoutSei_moves h1
    exact ⟨(clearUsed_moves _ _).trans g1, g2, g1.ages.clear (clearUsed_clear _)⟩
  · split at h
    · rename_i ht
      obtain ⟨g1, g2⟩ := withHashList_moves w h
      exact ⟨g1, g2, g1.ages.clear (hc ht)⟩
    · exact withGopHash_moves w hv h

theorem conclude_moves (s : Legacy) (p : Bool × Int × Int) :
    Moves s.list s.brk (s.conclude p).list (s.conclude p).brk ∧ Stays s.v (s.conclude p).v := by
  unfold conclude
  dsimp only
  constructor
  · split
    · exact removeMissingFrom_moves _ _ _ _ _
    · exact Moves.refl _ _
  · refine ⟨rfl, rfl, rfl, rfl, rfl, rfl, rfl, rfl, rfl, ?_⟩
    dsimp only
    split <;> rfl

theorem finish_moves (s : Legacy) : Moves s.list s.brk s.finish.list s.finish.brk ∧ Stays s.v s.finish.v ∧ s.finish.v.verified = -1 := by
  unfold finish
  dsimp only
  refine ⟨?_, ⟨rfl, rfl, rfl, rfl, rfl, rfl, rfl, rfl, rfl, rfl⟩, rfl⟩
  split
  · exact renew_moves _ _
  · exact Moves.refl _ _

/-! ### Pending GOPs -/

theorem scan_hasSei {m : LList} (hv : ∀ k ∈ queue m, k.valid > 0) (l : LList) (c : Validator.Scan) (hl : ∀ x ∈ l, x ∈ m)
    (hc : c.sei = true ∨ c.after = true ∨ c.last = some true ∨ c.found = true → c.hasSei = true ∧ queue m ≠ []) :
    (scan true l c).found = true → (scan true l c).hasSei = true ∧ queue m ≠ [] := by
  induction l generalizing c with
  | nil => exact fun h => hc (.inr (.inr (.inr h)))
  | cons x r ih =>
    unfold scan
    split
    · exact fun h => hc (.inr (.inr (.inr h)))
    · rename_i hf
      refine ih _ (fun y hy => hl y (List.mem_cons_of_mem _ hy)) ?_
      have hf : c.found = false := by simpa using hf
      unfold scanStep
      cases hn : x.2.nalu with
      | none =>
        dsimp only
        simp only [hf, if_true, Bool.false_or, Bool.or_eq_true, Bool.and_eq_true]
        rintro (h | h | h | ⟨-, h⟩ | h)
        · exact hc (.inl h)
        · exact hc (.inr (.inl h))
        · exact hc (.inr (.inr (.inl h)))
        · exact hc (.inl h)
        · exact hc (.inr (.inl h))
      | some n =>
        dsimp only
        by_cases hp : x.2.status = Status.P ∧ n.isHashable = true
        · rw [if_pos hp]
          have key : n.gopSei = true → n.valid > 0 ∧ queue m ≠ [] := by
            intro hg
            have hk : keyOf x = some ⟨x.1, x.2.decoded, x.2.hash, n.valid, n.tlvSize, n.tlvMem.take n.tlvSize⟩ := by
              unfold keyOf
              rw [hn]
              dsimp only
              rw [if_pos ⟨hg, hp.1⟩]
            have hm : (⟨x.1, x.2.decoded, x.2.hash, n.valid, n.tlvSize, n.tlvMem.take n.tlvSize⟩ : Key) ∈ queue m :=
              List.mem_filterMap.2 ⟨x, hl x (List.mem_cons_self ..), hk⟩
            exact ⟨hv _ hm, List.ne_nil_of_mem hm⟩
          by_cases hi : n.valid ≤ 0 ∨ n.isHashable = false
          · have hg : n.gopSei = false := by
              cases e : n.gopSei with
              | false => rfl
              | true =>
                have := (key e).1
                rcases hi with hi | hi
                · omega
                · rw [hp.2] at hi; cases hi
            rw [if_pos hi]
            simp only [hf, hg, if_true, Bool.false_or, Bool.or_false, Bool.or_eq_true, Bool.and_eq_true, Option.some.injEq]
            have ha : c.last.getD false = true → c.last = some true := by
              cases c.last with
              | none => exact nofun
              | some b => intro h; exact congrArg some h
            rintro (h | (h | h) | h | ⟨-, h⟩ | h | h)
            · exact hc (.inl h)
            · exact hc (.inr (.inl h))
            · exact hc (.inr (.inr (.inl (ha h))))
            · cases h
            · exact hc (.inl h)
            · exact hc (.inr (.inl h))
            · exact hc (.inr (.inr (.inl (ha h))))
          · rw [if_neg hi]
            simp only [hf, if_true, Bool.false_or, Bool.or_eq_true, Bool.and_eq_true, Option.some.injEq]
            have ha : c.last.getD false = true → c.last = some true := by
              cases c.last with
              | none => exact nofun
              | some b => intro h; exact congrArg some h
            have hc' : c.sei = true ∨ c.after = true ∨ c.last = some true ∨ c.found = true →
              (c.hasSei = true ∨ n.gopSei = true) ∧ queue m ≠ [] := fun h => ⟨.inl (hc h).1, (hc h).2⟩
            have hg : n.gopSei = true → (c.hasSei = true ∨ n.gopSei = true) ∧ queue m ≠ [] := fun h => ⟨.inr h, (key h).2⟩
            rintro ((h | h) | (h | h) | h | ⟨-, h | h⟩ | h | h)
            · exact hc' (.inl h)
            · exact hg h
            · exact hc' (.inr (.inl h))
            · exact hc' (.inr (.inr (.inl (ha h))))
            · exact hg h
            · exact hc' (.inl h)
            · exact hg h
            · exact hc' (.inr (.inl h))
            · exact hc' (.inr (.inr (.inl (ha h))))
        · rw [if_neg hp]
          have hc' : c.sei = true ∨ c.after = true ∨ c.last = some true ∨ c.found = true →
              (if n.valid ≤ 0 ∨ n.isHashable = false then c else { c with hasSei := c.hasSei || n.gopSei }).hasSei = true ∧ queue m ≠ [] := by
            intro h
            refine ⟨?_, (hc h).2⟩
            split
            · exact (hc h).1
            · dsimp only; rw [(hc h).1]; rfl
          generalize hd : (if n.valid ≤ 0 ∨ n.isHashable = false then c else { c with hasSei := c.hasSei || n.gopSei }) = d at hc'
          have e1 : d.sei = c.sei := by rw [← hd]; split <;> rfl
          have e2 : d.after = c.after := by rw [← hd]; split <;> rfl
          have e3 : d.last = c.last := by rw [← hd]; split <;> rfl
          have e4 : d.found = c.found := by rw [← hd]; split <;> rfl
          simp only [e1, e2, e3, e4, hf, if_true, Bool.false_or, Bool.or_eq_true, Bool.and_eq_true]
          rintro (h | h | h | ⟨-, h⟩ | h)
          · exact hc' (.inl h)
          · exact hc' (.inr (.inl h))
          · exact hc' (.inr (.inr (.inl h)))
          · exact hc' (.inl h)
          · exact hc' (.inr (.inl h))

/-! ### Rounds -/

/-- `P` holds afterwards, unless there is an error of one of two kinds. -/
def Fine {α : Type} (P : Legacy → Prop) : Res Legacy α → Prop
  | .ok t _ => P t
  | .err t e => e ≠ .notSupported → e ≠ .invalidParameter → P t
  | .ub _ => True

theorem Fine.of_ends {α : Type} {P : Legacy → Prop} {r : Res Legacy α} (h : r.Ends P) : Fine P r := by
  cases r with
  | ok t a => exact h
  | err t e => exact fun _ _ => h
  | ub u => trivial

theorem Fine.mono {α : Type} {P Q : Legacy → Prop} {r : Res Legacy α} (h : Fine P r) (g : ∀ t, P t → Q t) : Fine Q r := by
  cases r with
  | ok t a => exact g t h
  | err t e => exact fun h1 h2 => g t (h h1 h2)
  | ub u => trivial

theorem Fine.andThen {α β : Type} {P Q : Legacy → Prop} {r : Res Legacy α} {f : Legacy → α → Res Legacy β} (h : Fine P r)
    (hq : ∀ t, P t → Q t) (g : ∀ t a, r = .ok t a → P t → Fine Q (f t a)) : Fine Q (r.andThen f) := by
  cases r with
  | ok t a => exact g t a rfl h
  | err t e => exact fun h1 h2 => hq t (h h1 h2)
  | ub u => trivial

theorem ends_ok {σ α : Type} {P : σ → Prop} {t : σ} {a : α} (h : P t) : (Res.ok t a).Ends P := h

theorem ends_err {σ α : Type} {P : σ → Prop} {t : σ} {e : Rc} (h : P t) : (Res.err t e : Res σ α).Ends P := h

variable (hverify : ∀ k sig h, env.verify k sig h = 0 ∨ env.verify k sig h = 1)

theorem hasPending_calm {s : Legacy} (hs : Calm env T s) : Calm env T s.hasPending.1 :=
  hs.moves (t := s.hasPending.1) (Moves.refl _ _) ⟨rfl, rfl, rfl, rfl, rfl, rfl, rfl, rfl, rfl, rfl⟩ hs.verified

theorem begin_calm {s : Legacy} (hs : Calm env T s) : Calm env T s.begin :=
  hs.moves (t := s.begin) (Moves.refl _ _) ⟨rfl, rfl, rfl, rfl, rfl, rfl, rfl, rfl, rfl, rfl⟩ hs.verified

include hverify in
theorem checkNext_ok {s t : Legacy} (h : s.checkNext env = .ok t ()) (hs : s.v.flags.signing = true) (hg : s.v.gop.hasSei = true) :
    s.v.d.hasPublicKey = true ∧ ∃ b, (b = 0 ∨ b = 1) ∧ t = { s with v := { s.v with verified := b } } := by
  unfold checkNext at h
  rw [hs, hg] at h
  cases hk : s.v.d.hasPublicKey with
  | false => rw [hk] at h; cases h
  | true =>
    rw [hk] at h
    refine ⟨rfl, ?_⟩
    simp only [Bool.not_true, Bool.and_false, Bool.false_eq_true, if_false, if_true] at h
    unfold verifyHash Validator.verifyHash at h
    split at h
    · cases h
    · split at h
      · cases h
      · rename_i k _
        cases h
        exact ⟨_, hverify k _ _, rfl⟩

theorem checkNext_errs {s t : Legacy} {e : Rc} (h : s.checkNext env = .err t e) : e = .notSupported ∨ e = .invalidParameter := by
  have hv : ∀ {t e}, s.verifyHash env = .err t e → e = .invalidParameter := by
    intro t e h
    unfold verifyHash Validator.verifyHash at h
    split at h
    · cases h; rfl
    · split at h
      · cases h; rfl
      · cases h
  unfold checkNext at h
  split at h
  · cases h; exact .inl rfl
  · split at h
    · exact .inr (hv h)
    · split at h
      · cases h
      · split at h
        · cases h
        · split at h
          · exact .inr (hv h)
          · cases h

include hverify in
theorem prepare_signing (he : Algs env T 32) {s : Legacy} (hs : Calm env T s) (hsig : s.v.flags.signing = true) (hg : s.v.gop.hasSei = true)
    (hq : queue s.list ≠ []) :
    (∀ t e, s.prepare env = .err t e → e ≠ .notSupported → e ≠ .invalidParameter → Calm env T t) ∧
    ∀ u, s.prepare env = .ok u () → Tied env u ∧ Base env T u ∧ u.v.flags.signing = true ∧ (u.v.verified = 0 ∨ u.v.verified = 1) ∧
      (u.v.d.hashType = 1 → Clear u.list) := by
  cases hx : nextSei s.list with
  | none => exact absurd (nextSei_none hx) hq
  | some x =>
    obtain ⟨r1, r2⟩ := readNext_readied he hs hx
    rw [prepare_eq]
    cases hr : s.readNext env with
    | ub u => exact ⟨fun t e h => (by cases h), fun t h => (by cases h)⟩
    | err w e =>
      refine ⟨fun t e h _ _ => ?_, fun t h => (by cases h)⟩
      cases h; exact r2 _ _ hr
    | ok w _ =>
      have hw := r1 w hr
      rw [Res.andThen_ok]
      constructor
      · intro t e hc h1 h2
        rcases checkNext_errs hc with h | h
        · exact absurd h h1
        · exact absurd h h2
      · intro u hc
        have hsg : w.v.flags.signing = true := by rw [hw.flags]; exact hsig
        obtain ⟨hk, b, hb, rfl⟩ := checkNext_ok hverify hc hsg (by rw [hw.hasSei]; exact hg)
        refine ⟨hw.tied, ⟨hw.wf, hw.alg.same rfl rfl rfl rfl, hw.type, hw.valid, hw.fresh, ?_, ?_⟩, hsg, hb, hw.clear⟩
        · intro k hk' hd
          obtain ⟨k', q, q1, q2, q3⟩ := hw.head
          have hh : k ∈ (queue w.list).head? := hk'
          rw [q1] at hh
          cases hh
          exact ⟨hk, q3⟩
        · intro e
          exact absurd (hsg.symm.trans e) nofun

include hverify in
/-- A round of a session with signatures. -/
theorem round_signing (he : Algs env T 32) {s : Legacy} (hs : Calm env T s) (hsig : s.v.flags.signing = true) (hg : s.v.gop.hasSei = true)
    (hq : queue s.list ≠ []) :
    Fine (Calm env T) (s.round env) ∧ ∀ u, s.begin.prepare env = .ok u () → Tied env u ∧ Base env T u := by
  obtain ⟨p1, p2⟩ := prepare_signing hverify he (begin_calm hs) hsig hg hq
  refine ⟨?_, fun u hu => ⟨(p2 u hu).1, (p2 u hu).2.1⟩⟩
  cases h : s.round env with
  | ub u => trivial
  | err t e => exact p1 t e (round_err h)
  | ok t _ =>
    unfold round at h
    obtain ⟨u, _, h1, h⟩ := Res.andThen_eq_ok h
    obtain ⟨-, hu, hsg, hver, hcl⟩ := p2 u h1
    obtain ⟨w, _, h2, h⟩ := Res.andThen_eq_ok h
    cases h
    unfold conduct at h2
    rw [hsg, if_pos rfl] at h2
    unfold validate at h2
    obtain ⟨a, p, hvg, h2⟩ := Res.andThen_eq_ok h2
    cases h2
    obtain ⟨g1, g2, g3⟩ := verifyGop_moves hu.wf hver hcl hvg
    obtain ⟨c1, c2⟩ := conclude_moves a p
    obtain ⟨f1, f2, f3⟩ := finish_moves (a.conclude p)
    exact ⟨hu.moves (g1.trans (c1.trans f1)) (g2.trans (c2.trans f2)), f1.ages.clear (c1.ages.clear g3), f3⟩

/-- A round of a session without signatures. -/
theorem round_unsigned {s : Legacy} (hs : Calm env T s) (hsig : s.v.flags.signing = false) :
    Fine (Calm env T) (s.round env) ∧ ∀ t, s.round env = .ok t () → Quiet s.list t.list := by
  have hb := begin_calm hs
  have hx : nextSei s.begin.list = none := by
    cases h : nextSei s.begin.list with
    | none => rfl
    | some x =>
      obtain ⟨_, _, k, -, -, -, h1⟩ := nextSei_split h
      rw [show queue s.begin.list = [] from hs.quiet hsig] at h1
      cases h1
  have hr : s.begin.prepare env = s.begin.checkNext env := by
    rw [prepare_eq]
    unfold readNext
    rw [hx]; rfl
  have hok : ∀ t, s.round env = .ok t () → Calm env T t ∧ Quiet s.list t.list := by
    intro t h
    unfold round at h
    obtain ⟨u, _, h1, h⟩ := Res.andThen_eq_ok h
    obtain ⟨w, _, h2, h⟩ := Res.andThen_eq_ok h
    cases h
    rw [hr] at h1
    have hu : u.list = s.begin.list ∧ u.brk = s.begin.brk ∧ Stays s.begin.v u.v := by
      rcases checkNext_verified h1 with rfl | ⟨k, -, rfl⟩
      · exact ⟨rfl, rfl, Stays.refl _⟩
      · exact ⟨rfl, rfl, ⟨rfl, rfl, rfl, rfl, rfl, rfl, rfl, rfl, rfl, rfl⟩⟩
    unfold conduct at h2
    have : u.v.flags.signing = false := hu.2.2.signing.trans hsig
    rw [this] at h2
    have hw : w.list = u.list ∧ w.brk = u.brk ∧ Stays u.v w.v := by
      cases h2
      exact ⟨rfl, rfl, ⟨rfl, rfl, rfl, rfl, rfl, rfl, rfl, rfl, rfl, rfl⟩⟩
    obtain ⟨f1, f2, f3⟩ := finish_moves w
    have hl := hw.1.trans hu.1
    rw [hl, hw.2.1.trans hu.2.1] at f1
    refine ⟨hb.moves f1 (hu.2.2.trans (hw.2.2.trans f2)) f3, ?_⟩
    have := finish_quiet w
    rw [hl] at this
    exact this
  refine ⟨?_, fun t ht => (hok t ht).2⟩
  cases h : s.round env with
  | ub u => trivial
  | err t e =>
    have := round_err h
    rw [hr] at this
    rcases checkNext_errs this with h | h
    · exact fun h1 => absurd h h1
    · exact fun _ h1 => absurd h h1
  | ok t _ => exact (hok t h).1

/-- The item at an address is marked in a round because of a signature on the hash of the SEI or on the GOP hash. -/
def Covered (env : AuthEnv) (T : List Bytes) (u : Legacy) (a : Nat) : Prop := Signed env u a ∧ Tied env u ∧ Base env T u

include hverify in
theorem round_covered (he : Algs env T 32) {s : Legacy} (hs : Calm env T s) (hp : s.hasPending.2 = true) :
    Fine (Calm env T) (s.hasPending.1.round env) ∧
    ∀ t, s.hasPending.1.round env = .ok t () → ∃ u, s.hasPending.1.begin.prepare env = .ok u () ∧ Made (Covered env T u) s.list t.list := by
  have hc := hasPending_calm hs
  cases hsig : s.v.flags.signing with
  | true =>
    have hf : (scan true s.list {}).found = true := by
      have := hp
      unfold hasPending at this
      rw [hsig] at this
      exact this
    have hsc := scan_hasSei hs.valid s.list {} (fun _ h => h) (fun h => by simp at h) hf
    obtain ⟨r1, r2⟩ := round_signing hverify he hc hsig (by
      show (scan s.v.flags.signing s.list {}).hasSei = true
      rw [hsig]; exact hsc.1) hsc.2
    refine ⟨r1, fun t ht => ?_⟩
    obtain ⟨u, g1, g2, -⟩ := round_made (s := s.hasPending.1) (by rw [hc.verified]; decide) ht
    exact ⟨u, g1, g2.mono fun a h => ⟨h, r2 u g1⟩⟩
  | false =>
    obtain ⟨r1, r2⟩ := round_unsigned hc hsig
    refine ⟨r1, fun t ht => ?_⟩
    obtain ⟨u, g1, -, -⟩ := round_made (s := s.hasPending.1) (by rw [hc.verified]; decide) ht
    exact ⟨u, g1, Made.of_quiet (r2 t ht)⟩

include hverify in
theorem rounds_covered (he : Algs env T 32) (k : Nat) {s : Legacy} (hs : Calm env T s) :
    Fine (Calm env T) (s.rounds env k) ∧
    (s.rounds env k).Ends fun t => Made (fun a => ∃ u, Visits env s u ∧ Covered env T u a) s.list t.list := by
  induction k generalizing s with
  | zero => exact ⟨trivial, trivial⟩
  | succ k ih =>
    unfold rounds
    split
    · rename_i hp
      obtain ⟨r1, r2⟩ := round_covered hverify he hs hp
      cases h1 : s.hasPending.1.round env with
      | ub u => exact ⟨trivial, trivial⟩
      | err t e =>
        rw [h1] at r1
        exact ⟨r1, ends_err (Made.of_quiet ((prepare_quiet env s.hasPending.1.begin).of_err (round_err h1)))⟩
      | ok t _ =>
        rw [h1] at r1
        obtain ⟨u, g1, g2⟩ := r2 t h1
        have g5 : Made (fun a => ∃ u, Visits env s u ∧ Covered env T u a) s.list t.list :=
          g2.mono fun a h => ⟨u, .here hp g1, h⟩
        have hc : Calm env T t := r1
        rw [Res.andThen_ok]
        split
        · obtain ⟨i1, i2⟩ := ih hc
          exact ⟨i1, i2.mono fun w hw => g5.trans (hw.mono fun a ⟨u, h, g⟩ => ⟨u, .next hp h1 h, g⟩)⟩
        · exact ⟨hasPending_calm hc, g5⟩
    · exact ⟨hasPending_calm hs, ends_ok (Made.refl _ _)⟩

/-! ### Calls -/

include hverify in
theorem maybeValidate_covered (he : Algs env T 32) {s : Legacy} (hs : Calm env T s) :
    Fine (Calm env T) (s.maybeValidate env) ∧
    (s.maybeValidate env).Ends fun t => Made (fun a => ∃ f v u, feasible s.list = .ok f ∧ s.recurrentDecoded env = .ok v true ∧
      f = true ∧ v.list.any (fun x => x.2.dead) = false ∧ Visits env v u ∧ Covered env T u a) s.list t.list := by
  unfold maybeValidate
  split
  · exact ⟨trivial, trivial⟩
  · exact ⟨fun _ _ => hs, ends_err (Made.refl _ _)⟩
  · rename_i f hf
    have hr := recurrentDecoded_frame env s
    have hr2 : (s.recurrentDecoded env).Ends (Calm env T) := by
      have hfr := hr
      unfold recurrentDecoded at hfr ⊢
      split at hfr
      · rename_i h; rw [if_pos h]; exact hs
      · rename_i h
        rw [if_neg h]
        have hk : s.v.d.hasPublicKey = false := by
          cases e : s.v.d.hasPublicKey with
          | false => rfl
          | true => rw [e] at h; exact absurd rfl h
        have hg := onV_ends s (recurrentLoop_ends (decTag_good he) s.list (s := s.v) ⟨hs.alg, hs.type⟩)
        refine (hfr.and hg).mono fun t ⟨⟨h1, h2⟩, h3, h4⟩ => ?_
        rw [h1]
        refine ⟨⟨hs.wf, h4.1, h4.2, hs.valid, hs.fresh, ?_, ?_⟩, hs.clear, h2.verified.trans hs.verified⟩
        · intro k hk' hd
          have := (hs.held k hk' hd).1
          rw [hk] at this; cases this
        · intro e
          exact hs.quiet ((congrArg VFlags.signing h2.flags).symm.trans e)
    cases h1 : s.recurrentDecoded env with
    | ub u => exact ⟨trivial, trivial⟩
    | err t e =>
      rw [h1] at hr hr2
      have hl : t.list = s.list := by rw [hr.1]
      exact ⟨fun _ _ => hr2, ends_err (Made.of_quiet (hl ▸ Dots.refl _ _))⟩
    | ok t ok =>
      rw [h1] at hr hr2
      have hl : t.list = s.list := by rw [hr.1]
      have hc : Calm env T t := hr2
      rw [Res.andThen_ok]
      split
      · split
        · exact ⟨hc.moves (t := t.firstSei) (Moves.refl _ _) ⟨rfl, rfl, rfl, rfl, rfl, rfl, rfl, rfl, rfl, rfl⟩ hc.verified,
            ends_ok (Made.of_quiet (hl ▸ Dots.refl _ _))⟩
        · exact ⟨hc, ends_ok (Made.of_quiet (hl ▸ Dots.refl _ _))⟩
      · rename_i hfo
        split
        · exact ⟨trivial, trivial⟩
        · rename_i hd
          have hfo' : f = true ∧ ok = true := by
            cases f <;> cases ok <;> simp at hfo ⊢
          obtain ⟨rfl, rfl⟩ := hfo'
          obtain ⟨i1, i2⟩ := rounds_covered hverify he env.rounds hc
          refine ⟨i1, i2.mono fun w hw => ?_⟩
          have hm : Made _ t.list w.list := hw
          rw [hl] at hm
          exact hm.mono fun a ⟨u, g1, g2⟩ => ⟨true, t, u, hf, rfl, rfl, by simpa using hd, g1, g2⟩

theorem Base.sub {s t : Legacy} (h : Base env T s) (hq : (queue t.list).Sublist (queue s.list)) (hw : WFL t.list t.brk) (g : Stays s.v t.v) :
    Base env T t := by
  refine ⟨hw, g.alg h.alg, g.hashType ▸ h.type, fun k hk => h.valid k (hq.subset hk),
    fun k hk => h.fresh k (tail_sub hq hk), fun k hk hd => ?_, fun e => ?_⟩
  · rcases head_sub hq hk with h1 | h1
    · have := h.held k h1 hd
      exact ⟨g.hasKey.trans this.1, g.read this.2⟩
    · rw [h.fresh k h1] at hd; cases hd
  · have := h.quiet (g.signing ▸ e)
    rw [this] at hq
    exact List.sublist_nil.1 hq

/-- A new item at the end. -/
theorem Calm.append {s t : Legacy} (h : Calm env T s) {j : LItem} (hl : t.list = s.list ++ [(s.brk, j)]) (hb : t.brk = s.brk + 1)
    (g : Stays { s.v with flags := t.v.flags } t.v) (hv : t.v.verified = s.v.verified)
    (hsig : t.v.flags.signing = false → s.v.flags.signing = false) (hu : j.used = false)
    (hk : ∀ k, keyOf (s.brk, j) = some k → k.valid > 0 ∧ k.decoded = false ∧ t.v.flags.signing = true) : Calm env T t := by
  have hq : queue t.list = queue s.list ++ (keyOf (s.brk, j)).toList := by rw [hl, queue_append, queue_cons]; simp [queue]
  have hw : WFL t.list t.brk := by
    intro a
    rw [hl, hb, cnt_append, cnt_cons]
    have := h.wf a
    have hn : cnt ([] : LList) a = 0 := rfl
    rw [hn]
    dsimp only
    split at this <;> split <;> split <;> omega
  have alg : Alg T 32 false t.v := h.alg.same g.hashSize g.typ g.primary g.known
  have hr : ∀ k, Read env s.v k → Read env t.v k := fun k r => g.read (show Read env { s.v with flags := t.v.flags } k from r)
  refine ⟨⟨hw, alg, (g.hashType.trans rfl : t.v.d.hashType = s.v.d.hashType) ▸ h.type, ?_, ?_, ?_, ?_⟩, ?_, hv.trans h.verified⟩
  · intro k hk'
    rw [hq] at hk'
    rcases List.mem_append.1 hk' with hk' | hk'
    · exact h.valid k hk'
    · exact (hk k (Option.mem_toList.1 hk')).1
  · intro k hk'
    rw [hq] at hk'
    cases hs : queue s.list with
    | nil =>
      rw [hs] at hk'
      cases hj : keyOf (s.brk, j) with
      | none => rw [hj] at hk'; cases hk'
      | some k' => rw [hj] at hk'; cases hk'
    | cons a r =>
      rw [hs] at hk'
      rcases List.mem_append.1 (show k ∈ r ++ (keyOf (s.brk, j)).toList from hk') with hk' | hk'
      · exact h.fresh k (by rw [hs]; exact hk')
      · exact (hk k (Option.mem_toList.1 hk')).2.1
  · intro k hk' hd
    rw [hq] at hk'
    cases hs : queue s.list with
    | nil =>
      rw [hs] at hk'
      cases hj : keyOf (s.brk, j) with
      | none => rw [hj] at hk'; cases hk'
      | some k' =>
        rw [hj] at hk'
        cases hk'
        rw [(hk _ hj).2.1] at hd; cases hd
    | cons a r =>
      rw [hs] at hk'
      have := h.held k (by rw [hs]; exact hk') hd
      exact ⟨g.hasKey.trans this.1, hr k this.2⟩
  · intro e
    rw [hq, h.quiet (hsig e)]
    cases hj : keyOf (s.brk, j) with
    | none => rfl
    | some k => rw [(hk k hj).2.2] at e; cases e
  · intro x hx
    rw [hl] at hx
    rcases List.mem_append.1 hx with hx | hx
    · exact h.clear x hx
    · rw [List.mem_singleton] at hx; subst hx; exact hu

theorem statusOf_P {n : Nalu} (h : statusOf (some n) = .P) : n.valid > 0 := by
  simp only [statusOf] at h
  split at h
  · cases h
  · split at h
    · cases h
    · omega

theorem set_end {l : LList} {b : Nat} (w : WFL l b) (i : LItem) (f : LItem → LItem) : LList.set (l ++ [(b, i)]) b f = l ++ [(b, f i)] := by
  unfold LList.set
  rw [List.map_append, List.map_congr_left (g := id)]
  · simp
  · intro y hy
    have := w.lt hy
    rw [if_neg (by omega)]; rfl

theorem updateHashable_same {n m : Nalu} (h : updateHashable n = .ok m) : m.gopSei = n.gopSei ∧ m.valid = n.valid := by
  unfold updateHashable at h
  split at h
  · cases h; exact ⟨rfl, rfl⟩
  · obtain ⟨o, _, h⟩ := Out.bind_eq_ok h
    cases o with
    | none => cases h; exact ⟨rfl, rfl⟩
    | some k => cases h; exact ⟨rfl, rfl⟩

/-- The state in which the NAL unit is registered. -/
def opened (s : Legacy) (n : Nalu) : Legacy :=
  { s with
    list := s.list ++ [(s.brk, LItem.new n)], brk := s.brk + 1
    v := { s.v with flags := { s.v.flags with
      firstSei := !s.v.flags.signing && n.gopSei, signing := s.v.flags.signing || n.gopSei } } }

theorem register_calm {s : Legacy} (hs : Calm env T s) (n : Nalu) : ((s.opened n).register env s.brk n).Ends (Calm env T) := by
  have key : ∀ {m : Nalu} {h : Bytes} {g : Option Bytes} {k : Key}, m.gopSei = n.gopSei → m.valid = n.valid →
      keyOf (s.brk, { LItem.new n with nalu := some m, hash := h, second := g }) = some k →
      k.valid > 0 ∧ k.decoded = false ∧ (s.v.flags.signing || n.gopSei) = true := by
    intro m h g k e1 e2 hk
    obtain ⟨m', h1, h2, h3, rfl⟩ := keyOf_some hk
    cases h1
    refine ⟨?_, rfl, by rw [← e1, h2]; simp⟩
    show m.valid > 0
    rw [e2]; exact statusOf_P h3
  have hsig : (s.v.flags.signing || n.gopSei) = false → s.v.flags.signing = false := by
    intro e; exact (Bool.or_eq_false_iff.1 e).1
  have hst : Stays { s.v with flags := (s.opened n).v.flags } (s.opened n).v := ⟨rfl, rfl, rfl, rfl, rfl, rfl, rfl, rfl, rfl, rfl⟩
  have ho : Calm env T (s.opened n) := hs.append (j := LItem.new n) rfl rfl hst rfl hsig rfl fun k hk =>
    key (m := n) (h := []) (g := none) rfl rfl hk
  unfold register
  split
  · trivial
  · split
    · exact ho
    · split
      · trivial
      · exact ho
      · rename_i m hm
        obtain ⟨e1, e2⟩ := updateHashable_same hm
        refine (hashItem_frame env _ s.brk m).mono fun t ht => ?_
        obtain ⟨b, r, f, rfl, hf⟩ := ht
        obtain ⟨h, g, e⟩ := hf { LItem.new n with nalu := some m }
        refine hs.append (j := f { LItem.new n with nalu := some m }) ?_ rfl ⟨rfl, rfl, rfl, rfl, rfl, rfl, rfl, rfl, rfl, rfl⟩ rfl hsig ?_ ?_
        · dsimp only [opened]
          rw [set_end hs.wf, set_end hs.wf]
        · rw [e]; rfl
        · intro k hk
          rw [e] at hk
          exact key e1 e2 hk

theorem entry_calm {s : Legacy} (hs : Calm env T s) : Calm env T s.entry :=
  hs.moves (t := s.entry) (Moves.refl _ _) ⟨rfl, rfl, rfl, rfl, rfl, rfl, rfl, rfl, rfl, rfl⟩ hs.verified

/-- The item at an address is marked in a call because of a signature on the hash of the SEI or on the GOP hash. -/
def MarksOf (env : AuthEnv) (T : List Bytes) (s : Legacy) (data : Bytes) (a : Nat) : Prop :=
  ∃ v u, s.atLoop env data = some v ∧ Visits env v u ∧ Covered env T u a

include hverify in
theorem addBody_covered (he : Algs env T 32) {s : Legacy} {data : Bytes} {n : Nalu} (hd : data ≠ [])
    (hp : parseNalu data s.v.codec true true = .ok n) (hs : Calm env T s) :
    Fine (Calm env T) (s.entry.addBody env n) ∧ (s.entry.addBody env n).Ends fun t => Made (MarksOf env T s data) s.list t.list := by
  have h0 : Made (MarksOf env T s data) s.list (s.list ++ [(s.brk, LItem.new n)]) := Made.of_quiet (append_quiet _ _ _)
  unfold addBody
  dsimp only
  split
  · rename_i hn
    refine ⟨fun _ _ => ?_, ends_err h0⟩
    refine (entry_calm hs).append (j := LItem.new n) rfl rfl ⟨rfl, rfl, rfl, rfl, rfl, rfl, rfl, rfl, rfl, rfl⟩ rfl id rfl fun k hk => ?_
    obtain ⟨m, h1, h2, h3, rfl⟩ := keyOf_some hk
    have := statusOf_P (n := n) h3
    omega
  · rename_i hn
    have hr := register_quiet env (s.entry.opened n) s.brk n
    have hc := register_calm (env := env) (entry_calm hs) n
    change Fine _ (((s.entry.opened n).register env s.brk n).andThen _) ∧ Res.Ends _ (((s.entry.opened n).register env s.brk n).andThen _)
    have hc : ((s.entry.opened n).register env s.brk n).Ends (Calm env T) := hc
    cases ht : (s.entry.opened n).register env s.brk n with
    | ub u => exact ⟨trivial, trivial⟩
    | err t e =>
      rw [ht] at hr hc
      exact ⟨fun _ _ => hc, ends_err (h0.trans (Made.of_quiet hr.1))⟩
    | ok t _ =>
      rw [ht] at hr hc
      obtain ⟨i1, i2⟩ := maybeValidate_covered hverify he (s := t) hc
      refine ⟨i1, i2.mono fun w hw => ?_⟩
      refine (h0.trans (Made.of_quiet hr.1)).trans (hw.mono ?_)
      rintro a ⟨f, v, u, g1, g2, g3, g4, g5, g6⟩
      refine ⟨v, u, ?_, g5, g6⟩
      unfold atLoop
      rw [if_neg hd, hp]
      dsimp only
      rw [if_neg hn]
      have ht' := ht
      unfold opened entry at ht'
      dsimp only at ht'
      rw [ht']
      dsimp only
      rw [g1, g2]
      dsimp only
      rw [g3, if_pos ⟨rfl, g4⟩]

theorem queue_map {l : LList} {f : Nat × LItem → Nat × LItem} (h : ∀ y ∈ l, keyOf (f y) = keyOf y ∨ keyOf (f y) = none) :
    (queue (l.map f)).Sublist (queue l) := by
  induction l with
  | nil => exact .refl _
  | cons x l ih =>
    rw [List.map_cons, queue_cons, queue_cons]
    refine List.Sublist.append ?_ (ih fun y hy => h y (List.mem_cons_of_mem _ hy))
    rcases h x (List.mem_cons_self ..) with h | h
    · rw [h]; exact .refl _
    · rw [h]; exact List.nil_sublist _

theorem copyLast_calm {s : Legacy} (hs : Calm env T s) : (∀ t e, s.copyLast = .ok t e → Calm env T t) ∧ ∀ t e, s.copyLast ≠ .err t e := by
  unfold copyLast
  split
  · exact ⟨fun t e h => (by cases h), fun t e h => (by cases h)⟩
  · rename_i x hx
    split
    · exact ⟨fun t e h => (by cases h; exact hs), fun t e h => (by cases h)⟩
    · rename_i n hn
      split
      · exact ⟨fun t e h => (by cases h), fun t e h => (by cases h)⟩
      · rename_i e he
        exfalso
        unfold Validator.copyNalu at he
        split at he
        · cases he
        · split at he
          · cases he
          · split at he
            · cases he
            · cases he
      · rename_i c hc
        refine ⟨fun t e h => ?_, fun t e h => (by cases h)⟩
        cases h
        have hk : keyOf (x.1, { x.2 with nalu := c }) = keyOf x ∨ keyOf (x.1, { x.2 with nalu := c }) = none := by
          unfold Validator.copyNalu at hc
          split at hc
          · cases hc; exact .inr rfl
          · split at hc
            · cases hc
            · split at hc
              · cases hc
              · cases hc
                left
                unfold keyOf
                dsimp only
                rw [hn]
                dsimp only
                rw [List.take_take, Nat.min_self]
        have hm : x ∈ s.list := List.mem_of_getLast? hx
        refine ⟨hs.toBase.sub (t := { s with list := _ }) ?_ ?_ (Stays.refl _), ?_, hs.verified⟩
        · refine queue_map fun y hy => ?_
          dsimp only
          split
          · rename_i e
            have : y = x := hs.wf.unique hy hm e
            subst this
            exact hk
          · exact .inl rfl
        · intro a
          dsimp only
          rw [cnt_set]; exact hs.wf a
        · intro y hy
          obtain ⟨z, hz, rfl⟩ := List.mem_map.1 hy
          have := hs.clear z hz
          dsimp only
          split
          · exact this
          · exact this

theorem markLast_calm {s : Legacy} (hs : Calm env T s) : Calm env T s.markLast := by
  unfold markLast
  split
  · exact hs
  · exact hs.moves (t := { s with list := _ }) (Moves.set (f := fun i => { i with status := .E }) (fun i => ⟨rfl, rfl, rfl, nofun, id⟩) _)
      (Stays.refl _) hs.verified

theorem bury_calm {s : Legacy} (hs : Calm env T s) (a : Nat) : Calm env T (s.bury a) := by
  unfold bury
  split
  · exact hs
  · exact hs.moves (t := { s with list := _ }) (Moves.set (f := fun i => { i with dead := true }) (fun i => ⟨rfl, rfl, rfl, id, id⟩) _)
      (Stays.refl _) hs.verified

theorem addEnd_calm {s : Legacy} (hs : Calm env T s) (a : Nat) (e : Option Rc) : (s.addEnd a e).Ends (Calm env T) := by
  obtain ⟨h1, h2⟩ := copyLast_calm hs
  unfold addEnd
  cases hc : s.copyLast with
  | ub u => trivial
  | err t e' => exact absurd hc (h2 _ _)
  | ok t e' =>
    have ht := h1 t e' hc
    rw [Res.andThen_ok]
    split
    · exact bury_calm ht a
    · exact bury_calm (markLast_calm ht) a

theorem copyLast_no_err (s : Legacy) (t : Legacy) (e : Rc) : s.copyLast ≠ .err t e := by
  intro h
  unfold copyLast at h
  split at h
  · cases h
  · split at h
    · cases h
    · split at h
      · cases h
      · rename_i he
        unfold Validator.copyNalu at he
        split at he
        · cases he
        · split at he
          · cases he
          · split at he
            · cases he
            · cases he
      · cases h

theorem addEnd_rc {s : Legacy} {a : Nat} {e : Rc} : (∀ t x, s.addEnd a (some e) ≠ .ok t x) ∧ ∀ t e', s.addEnd a (some e) = .err t e' → e' = e := by
  unfold addEnd
  cases hc : s.copyLast with
  | ub u => exact ⟨fun t x h => (by cases h), fun t x h => (by cases h)⟩
  | err t e' => exact absurd hc (copyLast_no_err _ _ _)
  | ok t e' =>
    rw [Res.andThen_ok]
    exact ⟨fun t x h => (by cases h), fun t x h => (by cases h; rfl)⟩

include hverify in
theorem addH26x_covered (he : Algs env T 32) {s : Legacy} (hs : Calm env T s) (data : Bytes) :
    Fine (Calm env T) (s.addH26x env data) ∧ (s.addH26x env data).Ends fun t => Made (MarksOf env T s data) s.list t.list := by
  unfold addH26x
  split
  · exact ⟨fun _ _ => hs, ends_err (Made.refl _ _)⟩
  · rename_i hd
    split
    · exact ⟨trivial, trivial⟩
    · exact ⟨fun _ _ => hs, ends_err (Made.refl _ _)⟩
    · rename_i n hp
      obtain ⟨hb1, hb2⟩ := addBody_covered hverify he hd hp hs
      unfold entry at hb1 hb2
      dsimp only
      split
      · exact ⟨trivial, trivial⟩
      · rename_i t e ht
        rw [ht] at hb1 hb2
        have hq : (t.addEnd s.brk (some e)).Ends fun w => Made (MarksOf env T s data) s.list w.list :=
          (addEnd_quiet t _ _).mono fun w h => Made.trans hb2 (Made.of_quiet h.1)
        refine ⟨?_, hq⟩
        by_cases hx : e ≠ .notSupported ∧ e ≠ .invalidParameter
        · exact Fine.of_ends (addEnd_calm (hb1 hx.1 hx.2) _ _)
        · cases hr : t.addEnd s.brk (some e) with
          | ub u => trivial
          | ok w x => exact absurd hr (addEnd_rc.1 _ _)
          | err w e' =>
            have := addEnd_rc.2 _ _ hr
            subst this
            exact fun h1 h2 => absurd ⟨h1, h2⟩ hx
      · rename_i t x ht
        rw [ht] at hb1 hb2
        exact ⟨Fine.of_ends (addEnd_calm hb1 _ _), (addEnd_quiet t _ _).mono fun w h => Made.trans hb2 (Made.of_quiet h.1)⟩

theorem report_calm {s : Legacy} (hs : Calm env T s) : s.report.Ends (Calm env T) := by
  cases h : s.report with
  | ub u => trivial
  | err t e => rw [report_err h]; exact hs
  | ok t r =>
    obtain ⟨h1, ⟨k, h2⟩, -⟩ := report_ok h
    have h3 : t.brk = s.brk ∧ Stays s.v t.v := by
      unfold report at h
      split at h
      · split at h
        · cases h
        · split at h
          · cases h
          · cases h
          · cases h; exact ⟨rfl, ⟨rfl, rfl, rfl, rfl, rfl, rfl, rfl, rfl, rfl, rfl⟩⟩
      · cases h; exact ⟨rfl, Stays.refl _⟩
    exact hs.moves (t := t) (by rw [h2, h3.1]; exact Moves.drops _ _ _) h3.2 (h1.trans hs.verified)

include hverify in
/-- A call of a session for the older format. -/
theorem add_covered (he : Algs env T 32) {s : Legacy} (hs : Calm env T s) (data : Bytes) :
    Fine (Calm env T) (s.add env data) ∧ (s.add env data).Ends (fun t => Made (MarksOf env T s data) s.list t.list) ∧
    ∀ t r, s.add env data = .ok t (some r) → ∃ L : LList, r.latest.validationStr = some (L.map fun (x : Nat × LItem) => x.2.status.char) ∧
      Made (MarksOf env T s data) s.list L := by
  unfold add
  split
  · exact ⟨fun _ _ => hs, ends_err (Made.refl _ _), fun _ _ h => by cases h⟩
  · obtain ⟨h1, h1'⟩ := addH26x_covered hverify he hs data
    cases h2 : s.addH26x env data with
    | ub u => exact ⟨trivial, trivial, fun _ _ h => by cases h⟩
    | err t e => rw [h2] at h1 h1'; exact ⟨h1, h1', fun _ _ h => by cases h⟩
    | ok t x =>
      rw [h2] at h1 h1'
      rw [Res.andThen_ok]
      refine ⟨Fine.of_ends (report_calm h1), ?_, ?_⟩
      · cases h3 : t.report with
        | ub u => trivial
        | err w e => rw [report_err h3]; exact h1'
        | ok w r =>
          obtain ⟨g1, ⟨k, g2⟩, -⟩ := report_ok h3
          refine ends_ok (Made.trans h1' (Made.of_quiet (Quiet.of_subset fun y hy => ?_)))
          rw [g2] at hy
          exact List.mem_of_mem_drop hy
      · intro w r h3
        obtain ⟨-, g2, g3⟩ := report_ok h3
        exact ⟨t.list, g3 r rfl, h1'⟩

theorem empty_calm {s : Legacy} (hl : s.list = []) (ha : Alg T 32 false s.v) (ht : s.v.d.hashType < 2) (hv : s.v.verified = -1) : Calm env T s := by
  refine ⟨⟨?_, ha, ht, ?_, ?_, ?_, ?_⟩, ?_, hv⟩
  · intro a; rw [hl]; exact Nat.zero_le _
  · rw [hl]; exact fun k hk => absurd hk List.not_mem_nil
  · rw [hl]; exact fun k hk => absurd hk List.not_mem_nil
  · rw [hl]; exact fun k hk => absurd hk nofun
  · rw [hl]; exact fun _ => rfl
  · rw [hl]; exact fun k hk => absurd hk List.not_mem_nil

theorem reset_calm {s : Legacy} (hs : Calm env T s) : (s.reset env).Ends (Calm env T) := by
  unfold reset
  dsimp only
  split
  · trivial
  · exact empty_calm rfl (hs.alg.same rfl rfl rfl rfl) hs.type rfl
  · exact empty_calm rfl (hs.alg.same rfl rfl rfl rfl) hs.type rfl

theorem create_calm {p : Validator} {t : Legacy} (ha : Alg T 32 false p) (h : create env p = .ok t) : Calm env T t := by
  unfold create at h
  dsimp only at h
  generalize resetGopHash env _ _ = r at h
  cases r with
  | ub u => cases h
  | err e => cases h
  | ok b => cases h; exact empty_calm rfl (ha.same rfl rfl rfl rfl) (show (0 : UInt8) < 2 by decide) rfl

end Legacy
end SV
