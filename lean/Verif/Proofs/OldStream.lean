import Verif.Proofs.OldStep
import Verif.Props.Report
import Verif.Spec.Old
/-! Validation of an undisturbed stream of the older format: GOP by GOP. -/
namespace SV
open Spec
namespace Old
open Legacy
open Validator (Scene Knows IsPiece Skips copyNalu_small updateHashable_plain)

variable {Γ : Scene}

/-- The overall verdict so far: `w` tells that nothing was wrong. -/
def Overall (w : Bool) (a : Auth) : Prop := if w then a = .ok ∨ a.val ≤ Auth.signaturePresent.val else a = .notOk

/-- What holds between two calls. -/
structure Base (Γ : Scene) (w : Bool) (ref : Option Bytes) (s : Legacy) : Prop where
  knows : Knows Γ s.v
  codec : s.v.codec = Γ.codec
  reset : s.v.flags.resetFirst = false
  ref : HasRef Γ ref s.v
  bud : 2 * Γ.size ≤ s.v.buddies.length
  hashes : 64 ≤ s.hashes.length
  addr : Addr s.list s.brk
  acc : Overall w s.v.rep.acc.auth
  version : s.v.rep.thisVersion = []

/-- Between two calls when there is no SEI that waits: `hs` are the hashes of the GOP so far, `c` is the number of the last SEI,
`q` is the number of NAL units that have failed already. -/
structure Ready (Γ : Scene) (w : Bool) (q : Nat) (ref : Option Bytes) (hs : List Bytes) (c : UInt32) (s : Legacy) : Prop extends Base Γ w ref s where
  after : s.v.gop.afterNext = false
  rows : Holds Γ hs s.list
  sizes : ∀ b ∈ hs, b.length = Γ.size
  counter : s.v.synced = true → s.v.d.gopCounter = c
  spoilt : Old.spoilt s.list = q
  first : s.v.flags.first = hs.isEmpty

/-- Between two calls when there is a SEI that waits for the first NAL unit of the next GOP. -/
structure Due (Γ : Scene) (w : Bool) (q : Nat) (ref : Option Bytes) (hs : List Bytes) (i : Info) (doc : Bytes) (s : Legacy) : Prop extends Base Γ w ref s where
  sizes : ∀ b ∈ hs, b.length = Γ.size
  counter : s.v.synced = true → i.counter = s.v.d.gopCounter + 1
  signing : s.v.flags.signing = true
  rows : ∃ pre xs post, s.list = pre ++ xs :: post ∧ Holds Γ hs pre ∧ Msg Γ i doc xs ∧ (∀ x ∈ post, Rests x) ∧ Old.spoilt pre = q
  first : s.v.flags.first = hs.isEmpty

variable {w : Bool} {q : Nat} {ref : Option Bytes} {hs : List Bytes} {c : UInt32} {s : Legacy} {i : Info} {doc d : Bytes} {n m : Nalu} {p : Piece}

theorem HasRef.same {v w : Validator} (h : HasRef Γ ref v) (e1 : w.hasRef = v.hasRef) (e2 : w.buddies = v.buddies) : HasRef Γ ref w := by
  unfold HasRef at *
  cases ref with
  | none => exact e1.trans h
  | some r => exact ⟨e1.trans h.1, by rw [e2]; exact h.2⟩

theorem Base.passed (h : Base Γ w ref s) (it : LItem) : Base Γ w ref (passed s s.v it) :=
  ⟨h.knows.same_of rfl rfl rfl h.knows.same, h.codec, h.reset, h.ref.same rfl rfl, h.bud, h.hashes, h.addr.append it, h.acc, h.version⟩

theorem spoilt_append (l m : LList) : spoilt (l ++ m) = spoilt l + spoilt m := List.countP_append

theorem spoilt_rests {x : Nat × LItem} (h : Rests x) : spoilt [x] = 0 := by
  rw [spoilt_cons, if_neg fun hc => h.not hc.1]; rfl

theorem spoilt_fair {x : Nat × LItem} (h : x.2.bad = false) : spoilt [x] = 0 := by
  rw [spoilt_cons, if_neg fun hc => by rw [h] at hc; cases hc.2]; rfl

/-- A NAL unit that is not protected, no SEI waits. -/
theorem ready_skip (h : Ready Γ w q ref hs c s) (hd : d ≠ []) (hp : parseNalu d Γ.codec true true = .ok n) (hn : Skips n) :
    ∃ s', s.add Γ.env d = .ok s' none ∧ Ready Γ w q ref hs c s' := by
  obtain ⟨it, e, hr⟩ := add_skip (Γ := Γ) hd (by rw [h.codec]; exact hp) hn h.knows.has h.addr
  refine ⟨_, e, ⟨h.toBase.passed it, h.after, ?_, h.sizes, h.counter, by show spoilt (s.list ++ [(s.brk, it)]) = q; rw [spoilt_append, spoilt_rests hr]; exact h.spoilt, h.first⟩⟩
  show Holds Γ hs (s.list ++ [(s.brk, it)])
  have := h.rows.append (Holds.rests (Γ := Γ) (l := [(s.brk, it)]) (by intro x hx; rw [List.mem_singleton.1 hx]; exact hr))
  rwa [List.append_nil] at this

/-- A NAL unit that is not protected, a SEI waits. -/
theorem due_skip (h : Due Γ w q ref hs i doc s) (hd : d ≠ []) (hp : parseNalu d Γ.codec true true = .ok n) (hn : Skips n) :
    ∃ s', s.add Γ.env d = .ok s' none ∧ Due Γ w q ref hs i doc s' := by
  obtain ⟨it, e, hr⟩ := add_skip (Γ := Γ) hd (by rw [h.codec]; exact hp) hn h.knows.has h.addr
  refine ⟨_, e, ⟨h.toBase.passed it, h.sizes, h.counter, h.signing, ?_, h.first⟩⟩
  obtain ⟨pre, xs, post, e1, e2, e3, e4, e5⟩ := h.rows
  refine ⟨pre, xs, post ++ [(s.brk, it)], ?_, e2, e3, ?_, e5⟩
  · show s.list ++ _ = _
    rw [e1]; simp
  · intro x hx
    rcases List.mem_append.1 hx with hx | hx
    · exact e4 x hx
    · rw [List.mem_singleton.1 hx]; exact hr

/-- A NAL unit that is not the first of its GOP. -/
theorem ready_other (hΓ : Γ.Ok) {r : Bytes} (h : Ready Γ w q (some r) hs c s) (hd : d ≠ []) (hp : parseNalu d Γ.codec true true = .ok n) (hn : IsPiece p n)
    (hb : n.hashable = p.bytes) (hne : p.bytes ≠ []) (hf : p.first = false) (hne2 : hs ≠ []) :
    ∃ s', s.add Γ.env d = .ok s' none ∧ Ready Γ w q (some r) (hs ++ [Γ.H (r ++ Γ.H p.bytes)]) c s' := by
  obtain ⟨b, it, e, ⟨e1, e4⟩, e2, e3⟩ := add_other hΓ hd (by rw [h.codec]; exact hp) hn hb hne hf h.knows h.addr h.rows h.after h.bud h.ref.2
  refine ⟨_, e, ⟨⟨h.knows.same_of rfl rfl rfl h.knows.same, h.codec, h.reset, ⟨h.ref.1, e3⟩, e2, h.hashes, h.addr.append it, h.acc, h.version⟩, h.after, ?_, ?_, h.counter,
    by show spoilt (s.list ++ [(s.brk, it)]) = q; rw [spoilt_append, spoilt_fair e4]; exact h.spoilt, by
      show s.v.flags.first = _
      rw [h.first]
      cases hs with
      | nil => exact absurd rfl hne2
      | cons a l => rfl⟩⟩
  · show Holds Γ _ (s.list ++ [(s.brk, it)])
    exact h.rows.append (.inr ⟨_, [], rfl, e1, rfl⟩)
  · intro x hx
    rcases List.mem_append.1 hx with hx | hx
    · exact h.sizes x hx
    · rw [List.mem_singleton.1 hx]; exact hΓ.len _

/-- A SEI. -/
theorem ready_sei (hΓ : Γ.Ok) (h : Ready Γ w q ref hs c s) (hd : d ≠ []) (hp : parseNalu d Γ.codec true true = .ok n) (hn : IsOld Γ i doc n m) (hc : i.counter = c + 1) :
    ∃ s', s.add Γ.env d = .ok s' none ∧ Due Γ w q ref hs i doc s' := by
  obtain ⟨it, e, hm⟩ := add_sei hΓ hd (by rw [h.codec]; exact hp) hn h.knows h.addr h.rows
  refine ⟨_, e, ⟨⟨h.knows.same_of rfl rfl rfl h.knows.same, h.codec, h.reset, h.ref.same rfl rfl, h.bud, h.hashes, h.addr.append it, h.acc, h.version⟩, h.sizes, ?_, rfl, ?_, h.first⟩⟩
  · intro hy
    show i.counter = s.v.d.gopCounter + 1
    rw [h.counter hy, hc]
  · exact ⟨s.list, _, [], rfl, h.rows, hm, (by intro x hx; cases hx), h.spoilt⟩

theorem cleanUp_good {l : LList} {x : Nat × LItem} (h : ∀ y ∈ l, settled y.2 = true) (hx : settled x.2 = false) : Legacy.cleanUp (l ++ [x]) = [x] := by
  unfold Legacy.cleanUp
  induction l with
  | nil => rw [List.nil_append, List.dropWhile_cons, if_neg (by rw [hx]; decide)]
  | cons y l ih =>
    rw [List.cons_append, List.dropWhile_cons, if_pos (h y List.mem_cons_self)]
    exact ih fun z hz => h z (List.mem_cons_of_mem _ hz)

theorem overall_next {w : Bool} {x : Nat} {l : Latest} {a : Accumulated} (h : Overall w a.auth) (hl : l.auth = grade x) :
    (updateAccumulated l a).auth = (if (w && decide (x = 0)) = true then .ok else .notOk) := by
  rw [upd_auth, hl]
  unfold Overall at h
  unfold grade
  cases w with
  | true =>
    rw [if_pos rfl] at h
    by_cases hx : x = 0
    · rcases h with h | h
      · rw [h, hx]; rfl
      · rw [if_pos (show a.auth.val ≤ 1 from h), hx]; rfl
    · rcases h with h | h
      · rw [h]; simp [hx]; decide
      · rw [if_pos (show a.auth.val ≤ 1 from h)]; simp [hx]
  | false =>
    rw [if_neg (by decide)] at h
    rw [h]
    by_cases hx : x = 0 <;> simp [hx] <;> decide

theorem overall_of {w : Bool} {a : Auth} (h : a = if w = true then .ok else .notOk) : Overall w a := by
  unfold Overall
  cases w
  · exact h
  · exact .inl h

theorem report_any {s : Legacy} {l : LList} {y : Nat × LItem} {w : Bool} {n k x : Nat} (ha : s.v.flags.hasAuth = true) (hl : s.list = l ++ [y]) (hy : y.2.status = .P) (hyd : y.2.dead = false)
    (hend : Ended k x (n - k) l) (hv : s.v.rep.thisVersion = []) (hok : s.v.rep.latest.auth = grade x) (hacc : Overall w s.v.rep.acc.auth) (hkc : s.v.rep.latest.keyChanged = false)
    (he : s.v.rep.latest.expected = n) (hr : s.v.rep.latest.received = k) (hp : s.v.rep.latest.pending = 1) :
    ∃ rep r, s.report = .ok { s with v := { s.v with rep := rep }, list := [y] } (some r) ∧ OldClaim.Said ⟨n, k, x, w && decide (x = 0)⟩ r ∧
      Overall (w && decide (x = 0)) rep.acc.auth ∧ rep.thisVersion = [] ∧ rep.latest.keyChanged = false := by
  obtain ⟨r0, q0⟩ : ∃ r0 : Report, r0 = { s.v.rep with latest := { s.v.rep.latest with naluStr := some (s.list.map fun y => Legacy.typeChar y.2.nalu), validationStr := some (s.list.map fun y => y.2.status.char) } } := ⟨_, rfl⟩
  have hacc' : (updateAccumulated r0.latest r0.acc).auth = (if (w && decide (x = 0)) = true then .ok else .notOk) :=
    overall_next (by rw [q0]; exact hacc) (by rw [q0]; exact hok)
  have hset : ∀ z ∈ l, settled z.2 = true := by
    intro z hz
    obtain ⟨a, b, -⟩ := hend.mem z hz
    unfold settled
    rw [b]
    rcases a with a | a | a | a | a <;> rw [a] <;> rfl
  have hns : (updateAccumulated r0.latest r0.acc).auth ≠ .notSigned := by rw [hacc']; split <;> decide
  have hup : Legacy.updateReport s.v.rep s.list = .ok ({ r0 with acc := { updateAccumulated r0.latest r0.acc with validated := (updateAccumulated r0.latest r0.acc).validated + Legacy.cleanUpCount s.list } }, [y]) := by
    have hc : compareVersions (some s.v.rep.thisVersion) (some s.v.rep.versionOnSigningSide) = .ok (-1) := by rw [hv]; rfl
    have he : Legacy.updateReport s.v.rep s.list = (compareVersions (some s.v.rep.thisVersion) (some s.v.rep.versionOnSigningSide)).bind fun c =>
        let r := if c = 2 then { r0 with latest := { r0.latest with auth := .versionMismatch } } else r0
        let r := { r with acc := updateAccumulated r.latest r.acc }
        .ok (if r.acc.auth ≠ .notSigned then { r with acc := { r.acc with validated := r.acc.validated + Legacy.cleanUpCount s.list } } else r, Legacy.cleanUp s.list) := by rw [q0]; rfl
    rw [he, hc]
    dsimp only [Out.bind]
    have h2 : (if (-1 : Int) = 2 then { r0 with latest := { r0.latest with auth := .versionMismatch } } else r0) = r0 := if_neg (by decide)
    rw [h2, if_pos hns, hl, cleanUp_good hset (by unfold settled; rw [hy]; rfl)]
  have hinj : ∀ a b : Status, a.char = b.char → a = b := by intro a b; cases a <;> cases b <;> decide
  have hcount : ∀ st : Status, (s.list.map fun z => z.2.status.char).count st.char = tally st l + if st = .P then 1 else 0 := by
    intro st
    have : (s.list.map fun z => z.2.status.char).count st.char = tally st s.list := by
      unfold tally List.count
      rw [List.countP_map]
      refine List.countP_congr fun z _ => ?_
      simp only [Function.comp, beq_iff_eq, decide_eq_true_eq]
      exact ⟨fun h => hinj _ _ h, fun h => by rw [h]⟩
    rw [this, hl, tally_append, tally_cons, hy]
    simp [tally, eq_comm]
  unfold Legacy.report
  rw [if_pos ha, if_neg (by
    rw [List.any_eq_true]
    rintro ⟨z, hz, e⟩
    rw [hl, List.mem_append, List.mem_singleton] at hz
    rcases hz with hz | rfl
    · rw [(hend.mem z hz).2.2] at e; cases e
    · rw [hyd] at e; cases e), hup]
  refine ⟨_, _, rfl, ⟨?_, hacc', ?_, ?_, ?_, ?_, ⟨s.list.map fun z => z.2.status.char, ?_, ?_, ?_, ?_, ?_, ?_⟩⟩, overall_of hacc', ?_, ?_⟩
  · show r0.latest.auth = _; rw [q0]; exact hok
  · show r0.latest.keyChanged = _; rw [q0]; exact hkc
  · show r0.latest.expected = _; rw [q0]; exact he
  · show r0.latest.received = _; rw [q0]; exact hr
  · show r0.latest.pending = _; rw [q0]; exact hp
  · show some (r0.latest.validationStr.getD []) = _; rw [q0]; rfl
  · exact (hcount .ok).trans (by rw [hend.good]; rfl)
  · exact (hcount .N).trans (by rw [hend.wrong]; rfl)
  · exact (hcount .M).trans (by rw [hend.miss]; rfl)
  · exact (hcount .P).trans (by rw [tally_zero fun z hz => by rcases (hend.mem z hz).1 with e | e | e | e | e <;> rw [e] <;> decide]; rfl)
  · intro ch hch
    obtain ⟨z, hz, rfl⟩ := List.mem_map.1 hch
    rw [hl, List.mem_append, List.mem_singleton] at hz
    rcases hz with hz | rfl
    · rcases (hend.mem z hz).1 with e | e | e | e | e <;> rw [e]
      · exact .inl rfl
      · exact .inr (.inl rfl)
      · exact .inr (.inr (.inl rfl))
      · exact .inr (.inr (.inr (.inr (.inl rfl))))
      · exact .inr (.inr (.inr (.inr (.inr rfl))))
    · rw [hy]; exact .inr (.inr (.inr (.inl rfl)))
  · show r0.thisVersion = _; rw [q0]; exact hv
  · show r0.latest.keyChanged = _; rw [q0]; exact hkc

/-- The first NAL unit of the next GOP: the GOP before is reported. -/
theorem due_first (hΓ : Γ.Ok) (h : Due Γ w q ref hs i doc s) (hd : d ≠ []) (hp : parseNalu d Γ.codec true true = .ok n) (hn : IsPiece p n)
    (hb : n.hashable = p.bytes) (hne : p.bytes ≠ []) (hf : p.first = true) {b : Bool} (hsn : Signs Γ b hs (transHash Γ ref p.bytes) doc i) (hbad : b = false ∨ q ≠ 0 → hs ≠ []) :
    ∃ s' r, s.add Γ.env d = .ok s' (some r) ∧ OldClaim.Said ⟨i.num.toNat, hs.length + 1, wrongs b q (hs.length + 1), w && decide (wrongs b q (hs.length + 1) = 0)⟩ r ∧
      Ready Γ (w && decide (wrongs b q (hs.length + 1) = 0)) (if b then 0 else 1) (some (Γ.H p.bytes)) [Γ.H p.bytes] i.counter s' := by
  have hfr : s.brk ∉ s.list.map Prod.fst := h.addr.fresh
  obtain ⟨pre, xs, post, hl, hpre, hm, hpost, hsp⟩ := h.rows
  have hk0 : Knows Γ (entered (opened s) n).v := h.knows.same_of rfl rfl rfl h.knows.same
  obtain ⟨bf, e1, e2, e3⟩ := hashItem_first (s := entered (opened s) n) (l := s.list) (a := s.brk) hΓ rfl hfr hn hb hne hf hk0 h.bud (h.ref.same (w := (entered (opened s) n).v) rfl rfl)
  obtain ⟨it, hit⟩ : ∃ it : LItem, it = { LItem.new n with hash := transHash Γ ref p.bytes, second := some (Γ.H p.bytes) } := ⟨_, rfl⟩
  obtain ⟨u, hu⟩ : ∃ u : Validator, u = { (entered (opened s) n).v with buddies := bf, hasRef := true } := ⟨_, rfl⟩
  have hreg : (entered (opened s) n).register Γ.env s.brk n = .ok (staged s n u it) () := by
    unfold Legacy.register
    rw [if_neg (by rw [hn.valid]; decide), if_neg (by rw [hn.valid]; decide), updateHashable_plain hn.sei]
    dsimp only
    have hset : (entered (opened s) n).list.set s.brk (fun i => { i with nalu := some n }) = (entered (opened s) n).list := by
      show LList.set (s.list ++ [(s.brk, LItem.new n)]) _ _ = _
      rw [set_last hfr]; rfl
    rw [hset, show ({ entered (opened s) n with list := (entered (opened s) n).list } : Legacy) = entered (opened s) n from rfl, e1, hu, hit]
    rfl
  have hst := piece_status hn
  have hnx : IsNext Γ (transHash Γ ref p.bytes) (Γ.H p.bytes) (s.brk, it) := by
    rw [hit]
    refine ⟨hst, ⟨n, rfl, hn.valid, hn.hashable, hn.sei, hn.golden, by rw [hn.first, hf], hn.tlv⟩, ?_, ⟨_, rfl, Validator.buf_of_length (hΓ.len _)⟩, rfl, rfl, rfl, rfl, rfl⟩
    exact Validator.buf_of_length (by unfold transHash; cases ref <;> exact hΓ.len _)
  have hfull : Full Γ hs (transHash Γ ref p.bytes) (Γ.H p.bytes) doc i pre xs post (s.brk, it) := by
    refine ⟨hpre, hm, hpost, hnx, ?_, ?_⟩
    · have := (h.addr.append it).nodup
      rw [hl] at this
      simpa using this
    · intro x hx
      rcases List.mem_append.1 hx with hx | hx
      · exact h.sizes x hx
      · rw [List.mem_singleton.1 hx]; unfold transHash; cases ref <;> exact hΓ.len _
  have hlist : (staged s n u it).list = pre ++ xs :: (post ++ [(s.brk, it)]) := by
    show s.list ++ [(s.brk, it)] = _
    rw [hl]; simp
  have hdead : ∀ x ∈ s.list, x.2.dead = false := by
    rw [hl]
    intro x hx
    rw [List.mem_append, List.mem_cons] at hx
    rcases hx with hx | rfl | hx
    · exact hpre.dead hx
    · exact hm.dead
    · exact (hpost x hx).dead
  have hfe : feasible (staged s n u it).list = .ok true := by
    show feasible (s.list ++ [(s.brk, it)]) = _
    unfold feasible
    rw [List.reverse_append]
    simp only [List.reverse_cons, List.reverse_nil, List.nil_append, List.cons_append]
    rw [show it.nalu = some n by rw [hit]; rfl]
    dsimp only
    rw [if_neg (by rw [hn.hashable, hnx.status]; decide), if_pos (by rw [hn.first, hf, hnx.need]; simp)]
  have hflags : u.flags = { s.v.flags with hasAuth := false, firstSei := false } := by rw [hu]; exact entered_flags hn.sei
  have hkw : Knows Γ u := by rw [hu]; exact hk0.same_of rfl rfl rfl hk0.same
  have hfirst : wrongs b q (hs.length + 1) ≠ 0 → s.v.flags.first = false := by
    intro hx
    rw [h.first, List.isEmpty_eq_false_iff]
    refine hbad ?_
    cases b with
    | false => exact .inl rfl
    | true => exact .inr hx
  obtain ⟨t, l, g1, g2, g3', g5, g6, g4⟩ := rounds_any (s := staged s n u it) (k := Γ.env.rounds) hΓ hkw hfull hsn hlist (by rw [show (staged s n u it).v = u from rfl, hu]; exact h.counter) h.hashes
    (by rw [show (staged s n u it).v = u from rfl, hflags]; exact h.reset) (by rw [show (staged s n u it).v = u from rfl, hflags]; exact h.signing)
    (by rw [show (staged s n u it).v = u from rfl, hflags, hsp]; exact hfirst) (Nat.lt_succ_self _) hΓ.rounds
  rw [hsp] at g2 g5
  have hbody : (opened s).addBody Γ.env n = .ok t () := by
    rw [addBody_entered (by rw [hn.valid]; decide), show (opened s).brk = s.brk from rfl, hreg, Res.andThen_ok, maybeValidate_go hfe hkw.has (by
      intro x hx
      rcases List.mem_append.1 hx with hx | hx
      · exact hdead x hx
      · rw [List.mem_singleton.1 hx]; exact hnx.dead), g1]
  obtain ⟨c, hc⟩ : ∃ c : Nalu, c = { n with hashable := if !true && n.isHashable then n.hashable else [], tlvMem := n.tlvMem.take n.tlvSize, tlvStart := [] } := ⟨_, rfl⟩
  have hcopy := copyLast_last (s := t) (l := l) (a := s.brk) (it := { it with need := true, bad := !b }) (n := n) g3' g6 (by rw [hit]; rfl) (copyNalu_small true hn.sei hn.tlv)
  rw [← hc] at hcopy
  obtain ⟨x, hx⟩ : ∃ x : Nat × LItem, x = (s.brk, { it with need := true, bad := !b, nalu := some c }) := ⟨_, rfl⟩
  have hxw : Waits Γ (Γ.H p.bytes) x := by
    rw [hx]
    obtain ⟨bs, b1, b2⟩ := hnx.second
    exact ⟨hnx.status, ⟨c, rfl, by rw [hc]; exact hn.valid, by rw [hc]; exact hn.hashable, by rw [hc]; exact hn.sei, fun _ => rfl⟩, .inl ⟨rfl, bs, b1, b2⟩, hnx.used, hnx.dead⟩
  obtain ⟨rep, r, f1, f2, f3, f4, f5⟩ := report_any (s := { t with list := l ++ [x] }) (l := l) (y := x) (w := w) (by rw [g2.flags]) rfl hxw.status hxw.dead g5
    (by show t.v.rep.thisVersion = []; rw [g2.thisVersion, show (staged s n u it).v = u from rfl, hu]; exact h.version) g2.auth
    (by show Overall w t.v.rep.acc.auth; rw [g2.acc, show (staged s n u it).v = u from rfl, hu]; exact h.acc) g2.knows.same g2.expected g2.received g2.pending
  refine ⟨{ t with v := { t.v with rep := rep }, list := [x] }, r, ?_, f2, ⟨⟨?_, ?_, ?_, ⟨?_, ?_⟩, ?_, g2.hashes, ⟨?_, ?_⟩, f3, f4⟩, g4, ?_, ?_, fun _ => g2.counter, ?_, ?_⟩⟩
  · subst hx
    exact (add_ok hd (by rw [h.codec]; exact hp) hbody hcopy (by simp)).trans f1
  · exact g2.knows.same_of rfl rfl rfl f5
  · show t.v.codec = _
    rw [g2.codec, show (staged s n u it).v = u from rfl, hu]; exact h.codec
  · show t.v.flags.resetFirst = _
    rw [g2.flags, show (staged s n u it).v = u from rfl, hflags]; exact h.reset
  · show t.v.hasRef = true
    rw [g2.hasRef, show (staged s n u it).v = u from rfl, hu]
  · show t.v.buddies.take Γ.size = _
    rw [g2.buddies, show (staged s n u it).v = u from rfl, hu]; exact e3
  · show 2 * Γ.size ≤ t.v.buddies.length
    rw [g2.buddies, show (staged s n u it).v = u from rfl, hu]; exact e2
  · simp
  · intro a ha
    show a < t.brk
    rw [List.map_singleton, List.mem_singleton, hx] at ha
    rw [ha]
    exact g2.brk
  · exact .inr ⟨_, [], rfl, hxw, rfl⟩
  · intro y hy
    rw [List.mem_singleton.1 hy]; exact hΓ.len _
  · show spoilt [x] = _
    have hxb : x.2.bad = !b := by rw [hx]
    rw [spoilt_cons, hxb]
    cases b with
    | false => rw [if_pos ⟨hxw.status, rfl⟩]; rfl
    | true => rw [if_neg (fun hc => by cases hc.2)]; rfl
  · show t.v.flags.first = false
    rw [g2.flags]

end Old
end SV
