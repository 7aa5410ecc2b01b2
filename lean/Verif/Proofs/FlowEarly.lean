import Verif.Proofs.FlowSei
import Verif.Props.AuthUnsigned
/-! Validation of an undisturbed stream: before the first SEI. -/
namespace SV
open Spec
namespace Validator

/-- Nothing has been decoded, or what is left from before a reset is what the stream will tell: either there is no key,
it will be in the SEIs, and the algorithm is the default one or that of the stream, or both the key and the algorithm are those of the stream. -/
structure Blank (Γ : Scene) (s : Validator) : Prop where
  known : s.d.hashAlgoKnown = false
  same : s.rep.latest.keyChanged = false
  max : s.d.maxSignature = none ∨ s.d.maxSignature = some Γ.maxSig
  noList : Γ.lists = false → s.d.hashList = []
  left : (Γ.sent = true ∧ s.d.hasPublicKey = false) ∧
      (s.d.oid = Γ.env.oid ∧ s.typ = Γ.env.oid ∧ s.d.hashSize = 32 ∨ s.d.oid = Γ.oid ∧ s.typ = Γ.oid ∧ s.d.hashSize = Γ.size) ∨
    (s.d.hasPublicKey = true ∧ s.d.publicKey = Γ.key ∧ s.key = some Γ.key) ∧ s.d.oid = Γ.oid ∧ s.typ = Γ.oid ∧ s.d.hashSize = Γ.size

theorem Blank.same_of {Γ : Scene} {s t : Validator} (h : Blank Γ s) (e1 : t.d = s.d) (e2 : t.typ = s.typ) (e3 : t.key = s.key)
    (e4 : t.rep.latest.keyChanged = false) : Blank Γ t :=
  ⟨e1 ▸ h.known, e4, e1 ▸ h.max, e1 ▸ h.noList, by rw [e1, e2, e3]; exact h.left⟩

/-- The TLVs of a SEI tell the algorithm and the key. -/
def TellsFirst (Γ : Scene) (mem : Bytes) (size : Nat) : Prop :=
  ∀ s, Blank Γ s → s.d.hasPublicKey = false → ∃ s', s.findOptional Γ.env mem size = .ok s' true ∧ Knows Γ { s' with d := { s'.d with hashAlgoKnown := true } }

/-- A list item that is not pending. -/
def Idle (i : Item) : Prop :=
  (i.status = .U ∨ i.status = .ignored) ∧ ∃ n, i.nalu = some n ∧ (n.valid ≤ 0 ∨ n.isHashable = false) ∧ n.firstInGop = false

/-- Between two calls, before the first SEI: `q` are the NAL units received. -/
structure Early (Γ : Scene) (q : List Piece) (s : Validator) : Prop where
  codec : s.codec = Γ.codec
  legacy : s.legacy = false
  signing : s.flags.signing = false
  afterNext : s.gop.afterNext = false
  blank : Blank Γ s
  wf : WF s.list s.brk
  raws : Raws q (pending s.list)
  quiet : ∀ x ∈ s.list, Quiet x.2
  idle : ∀ x ∈ s.list, x.2.status ≠ .P → Idle x.2
  bud : 2 * Γ.size ≤ s.buddies.length
  sync : s.synced = false
  count : s.latestGop ≠ 4294967295
  linked : s.linked = List.replicate 128 0
  primary : s.primary = none ∨ s.primary = some Γ.oid
  version : s.rep.thisVersion = []
  acc : s.rep.acc.auth = .notSigned

variable {Γ : Scene} {q : List Piece} {s : Validator}

theorem Early.opened (h : Early Γ q s) : Early Γ q s.opened :=
  ⟨h.codec, h.legacy, h.signing, h.afterNext, h.blank.same_of rfl rfl rfl h.blank.same, h.wf, h.raws, h.quiet, h.idle, h.bud, h.sync, h.count, h.linked,
    h.primary, h.version, h.acc⟩

/-- A new session. -/
theorem early_new (hΓ : Γ.Ok) (hsent : Γ.sent = true) : Early Γ [] (newValidator Γ.env Γ.codec) := by
  refine ⟨rfl, rfl, rfl, rfl, ⟨rfl, rfl, .inl rfl, fun _ => rfl, .inl ⟨⟨hsent, rfl⟩, .inl ⟨rfl, rfl, rfl⟩⟩⟩, ⟨List.nodup_nil, (by intro x hx; cases hx)⟩, trivial, (by intro x hx; cases hx),
    (by intro x hx; cases hx), ?_, rfl, (by show (0 : UInt32) ≠ 4294967295; decide), rfl, .inl rfl, rfl, rfl⟩
  show 2 * Γ.size ≤ (List.replicate 128 (0 : UInt8)).length
  have := hΓ.le
  rw [List.length_replicate]; omega

theorem scan_last {b : Bool} {l : NList} {c : Scan} (h : ∀ x ∈ l, x.2.isSei = false) (hc : c.last.getD false = false) : (scan b l c).last.getD false = false := by
  induction l generalizing c with
  | nil => exact hc
  | cons x r ih =>
    unfold scan
    split
    · exact hc
    · refine ih (fun y hy => h y (List.mem_cons_of_mem _ hy)) ?_
      have hx := h x List.mem_cons_self
      cases hn : x.2.nalu with
      | none => rw [scanStep_none hn]; exact hc
      | some n =>
        rw [scanStep_some hn]
        show (scanItem (scanSei c n) x.2 n).last.getD false = false
        unfold Item.isSei at hx
        rw [hn] at hx
        unfold scanItem
        split
        · exact hx
        · unfold scanSei
          split <;> exact hc

theorem Quiet.sei {i : Item} (h : Quiet i) : i.isSei = false := by
  obtain ⟨n, hn, hg, -⟩ := h.nalu
  unfold Item.isSei
  rw [hn]; exact hg

/-- A round without signing. -/
theorem rounds_early (env : AuthEnv) (k : Nat) {s : Validator} (hs : s.flags.signing = false) (ha : s.flags.hasAuth = false) (h : ∀ x ∈ s.list, Quiet x.2) :
    ∃ g fl vf lat, s.rounds env (k + 1) = .ok { s with gop := g, flags := fl, verified := vf, rep := { s.rep with latest := lat } } () ∧
      g.afterNext = false ∧ fl.signing = false ∧ lat.keyChanged = s.rep.latest.keyChanged ∧ (fl.hasAuth = true → lat.auth = .notSigned) := by
  have hsei : ∀ x ∈ s.list, x.2.isSei = false := fun x hx => Quiet.sei (h x hx)
  have hgop : ∀ t : Validator, t.list = s.list → t.hasPending.1.gop.afterNext = false := by
    intro t e
    show (!(scan t.flags.signing t.list {}).found && (scan t.flags.signing t.list {}).last.getD false) = false
    rw [scan_last (by rw [e]; exact hsei) rfl, Bool.and_false]
  have hsc := (scan_quiet h {} ⟨rfl, rfl, rfl⟩ rfl).1
  unfold rounds
  cases hp : s.hasPending.2 with
  | false =>
    rw [if_neg (by decide)]
    refine ⟨s.hasPending.1.gop, s.flags, s.verified, s.rep.latest, rfl, hgop s rfl, hs, rfl, ?_⟩
    rw [ha]; intro hc; cases hc
  | true =>
    rw [if_pos rfl]
    have hb : s.hasPending.1.begin = { s with gop := s.hasPending.1.gop, rep := { s.rep with latest := { s.rep.latest with auth := .signaturePresent, expected := 0, received := 0, pending := -1 } } } := by
      unfold begin
      rw [if_neg (by show ¬ s.flags.hasAuth = true; rw [ha]; decide)]
      rfl
    obtain ⟨b, hbb⟩ : ∃ b, b = s.hasPending.1.begin := ⟨_, rfl⟩
    have e1 : b.list = s.list := by rw [hbb, hb]
    have e2 : b.flags = s.flags := by rw [hbb, hb]
    have e3 : b.gop.hasSei = false := by
      rw [hbb, hb]
      show (scan s.flags.signing s.list {}).hasSei = false
      rw [hs]; exact hsc
    have hprep : b.prepare env = .ok b () := by
      unfold prepare
      rw [e1, nextSei_quiet h]
      dsimp only
      rw [Res.andThen_ok, e2, hs, e3]
      rfl
    have hround : s.hasPending.1.round env = .ok (finish { b with rep := { b.rep with latest := { b.rep.latest with auth := .notSigned } } }) () := by
      unfold round
      rw [← hbb, hprep, Res.andThen_ok, updateLinkLoop_unused b b.list (by rw [e1]; exact fun x hx => (h x hx).unused)]
      dsimp only
      unfold conduct
      rw [e2, hs, if_neg (by simp), Res.andThen_ok]
    obtain ⟨f, hf⟩ : ∃ f, f = finish { b with rep := { b.rep with latest := { b.rep.latest with auth := .notSigned } } } := ⟨_, rfl⟩
    have hff : f.flags = { s.flags with first := true, hasAuth := true } := by
      rw [hf]
      show ({ b.flags with first := !b.flags.signing, hasAuth := true } : VFlags) = _
      rw [e2, hs]; rfl
    have hfl : f.list = s.list := by rw [hf]; exact e1
    rw [hround, ← hf, Res.andThen_ok, if_neg (by rw [hff]; show ¬ s.flags.signing = true; rw [hs]; decide)]
    refine ⟨f.hasPending.1.gop, f.flags, -1, f.rep.latest, ?_, hgop f hfl, by rw [hff]; exact hs, ?_, fun _ => ?_⟩
    · rw [hf, hbb, hb]; rfl
    · rw [hf, hbb, hb]; rfl
    · rw [hf]; rfl

/-- Validation before the first SEI. -/
theorem maybeValidate_early (env : AuthEnv) (hr : 1 ≤ env.rounds) {u : Validator} {n : Nalu} {l : NList} {x : Nat × Item} (e : u.list = l ++ [x]) (hl : u.legacy = false)
    (hs : u.flags.signing = false) (hf : u.flags.firstSei = false) (ha : u.flags.hasAuth = false) (h : ∀ x ∈ u.list, Quiet x.2) :
    ∃ g fl vf lat, u.maybeValidate env n = .ok { u with gop := g, flags := fl, verified := vf, rep := { u.rep with latest := lat } } () ∧
      (u.gop.afterNext = false → g.afterNext = false) ∧ fl.signing = false ∧ lat.keyChanged = u.rep.latest.keyChanged ∧ (fl.hasAuth = true → lat.auth = .notSigned) := by
  unfold maybeValidate
  have hg : u.list.getLast? = some x := by rw [e]; simp
  rw [if_neg (by rw [hl]; decide), hg]
  dsimp only
  have hrec : u.recurrentDecoded env = .ok u true := by
    unfold recurrentDecoded
    rw [if_pos (by rw [hs]; simp)]
  rw [hrec, Res.andThen_ok]
  cases hfe : feasible x.2 with
  | false =>
    rw [if_pos (by decide), if_neg (by rw [hf]; decide)]
    exact ⟨u.gop, u.flags, u.verified, u.rep.latest, rfl, id, hs, rfl, by rw [ha]; intro hc; cases hc⟩
  | true =>
    rw [if_neg (by decide)]
    obtain ⟨k, hk⟩ : ∃ k, env.rounds = k + 1 := ⟨env.rounds - 1, by omega⟩
    rw [hk]
    obtain ⟨g, fl, vf, lat, q1, q2, q3, q4, q5⟩ := rounds_early env k hs ha h
    exact ⟨g, fl, vf, lat, q1, fun _ => q2, q3, q4, q5⟩

/-- What the user sees of a call before the first SEI. -/
def NoVerdict (r : Option Report) : Prop := ∀ p, r = some p → p.latest.auth = .notSigned ∧ p.acc.auth = .notSigned

theorem Quiet.copy {n : Nalu} (hs : n.gopSei = false) (ht : n.tlvSize = 0) (hg : n.golden = false) (b m t : Bytes) {i : Item} (hu : i.used = false)
    (hst : i.status = .P ∨ i.status = .U ∨ i.status = .ignored) :
    Quiet { i with nalu := some { n with hashable := b, tlvMem := m, tlvStart := t }, taken := true } :=
  ⟨⟨_, rfl, hs, ht, hg⟩, hu, hst⟩

theorem Raws.plain {ps : List Piece} {xs : NList} (h : Raws ps xs) {x : Nat × Item} (hx : x ∈ xs) : ∃ p ∈ ps, Raw p x := by
  induction ps generalizing xs with
  | nil =>
    cases xs with
    | nil => cases hx
    | cons y ys => exact h.elim
  | cons p ps ih =>
    cases xs with
    | nil => exact h.elim
    | cons y ys =>
      rcases List.mem_cons.1 hx with rfl | hx
      · exact ⟨p, List.mem_cons_self, h.1⟩
      · obtain ⟨w, hw, e⟩ := ih h.2 hx
        exact ⟨w, List.mem_cons_of_mem _ hw, e⟩

/-- Any NAL unit that is not a SEI of Signed Video. -/
theorem early_add (hΓ : Γ.Ok) (h0 : Early Γ q s) {d : Bytes} {n : Nalu} (hd : d ≠ []) (hp : parseNalu d Γ.codec true true = .ok n) (hv : 0 ≤ n.valid)
    (hs : n.gopSei = false) (ht : n.tlvSize = 0) (hg : n.golden = false)
    (hst : (newItem (some n)).status = .P ∨ (newItem (some n)).status = .U ∨ (newItem (some n)).status = .ignored)
    (hidle : (newItem (some n)).status ≠ .P → (n.valid ≤ 0 ∨ n.isHashable = false) ∧ n.firstInGop = false) {q' : List Piece}
    (hraws : Raws q' (pending (s.opened.list ++ [(s.opened.brk, { newItem (some n) with nalu := some { n with hashable := if n.isHashable then n.hashable else [], tlvMem := n.tlvMem.take n.tlvSize, tlvStart := [] }, taken := true })]))) :
    ∃ s' r, s.add Γ.env d = .ok s' r ∧ Early Γ q' s' ∧ NoVerdict r ∧ s'.brk = s.brk + 1 ∧ ∀ x ∈ s'.list, x ∈ s.list ∨ x.1 = s.brk := by
  have h := h0.opened
  have hfr := fresh_last h.wf
  have hsig : (s.opened.entered n).flags.signing = false := by
    show (s.flags.signing || n.gopSei) = false
    rw [h0.signing, hs]; rfl
  have hfs : (s.opened.entered n).flags.firstSei = false := by
    show (!s.flags.signing && n.gopSei) = false
    rw [hs, Bool.and_false]
  have hkn : s.opened.d.hashAlgoKnown = false := h.blank.known
  have hq1 : ∀ x ∈ (s.opened.entered n).list, Quiet x.2 := by
    intro x hx
    rcases List.mem_append.1 hx with hx | hx
    · exact h.quiet x hx
    · rw [List.mem_singleton.1 hx]
      exact ⟨⟨n, rfl, hs, ht, hg⟩, rfl, hst⟩
  have hreg : (s.opened.entered n).register Γ.env s.opened.brk n = .ok (s.opened.entered n) () := by
    unfold register
    rw [if_neg (by omega)]
    by_cases hz : n.valid = 0
    · rw [if_pos hz]
    · rw [if_neg hz, updateHashable_plain hs]
      dsimp only
      have hset : (s.opened.entered n).list.set s.opened.brk (fun i => { i with nalu := some n }) = (s.opened.entered n).list := by
        show NList.set (s.opened.list ++ [(s.opened.brk, newItem (some n))]) _ _ = _
        rw [set_end hfr]; rfl
      rw [hset]
      have hf : (s.opened.entered n).list.find? (fun x => decide (x.1 = s.opened.brk)) = some (s.opened.brk, newItem (some n)) := find_end hfr _
      rw [hf]
      show hashItem Γ.env (s.opened.entered n) (s.opened.brk, newItem (some n)) = _
      unfold hashItem newItem
      dsimp only
      rw [if_pos (by show (!n.isHashable || !s.opened.d.hashAlgoKnown) = true; rw [hkn]; simp)]
  have halgo : (s.opened.entered n).hashAlgoBlock Γ.env s.opened.brk n = .ok (s.opened.entered n) () := by
    unfold hashAlgoBlock
    rw [if_pos (by rw [hsig]; simp)]
  have hr1 : 1 ≤ Γ.env.rounds := by have := hΓ.rounds; omega
  obtain ⟨g, fl, vf, lat, hm, m1, m2, m3, m4⟩ := maybeValidate_early Γ.env hr1 (u := s.opened.entered n) (n := n) (l := s.opened.list) rfl h.legacy hsig hfs rfl hq1
  have hbody : s.opened.addBody Γ.env n = .ok { s.opened.entered n with gop := g, flags := fl, verified := vf, rep := { s.opened.rep with latest := lat } } () := by
    rw [addBody_entered hv, hreg, Res.andThen_ok, halgo, Res.andThen_ok, hm]
    rfl
  obtain ⟨c, hc⟩ : ∃ c : Nalu, c = { n with hashable := if n.isHashable then n.hashable else [], tlvMem := n.tlvMem.take n.tlvSize, tlvStart := [] } := ⟨_, rfl⟩
  rw [← hc] at hraws
  have hcopy := copyLast_last (s := { s.opened.entered n with gop := g, flags := fl, verified := vf, rep := { s.opened.rep with latest := lat } })
    (l := s.opened.list) (a := s.opened.brk) (i := newItem (some n)) (n := n) (c := c) rfl hfr rfl (by
      show copyNalu s.opened.d.hashAlgoKnown n = _
      rw [hkn, copyNalu_small _ hs ht, hc]; rfl)
  obtain ⟨L, hL⟩ : ∃ L, L = s.opened.list ++ [(s.opened.brk, { newItem (some n) with nalu := some c, taken := true })] := ⟨_, rfl⟩
  rw [← hL] at hraws hcopy
  have hadd := add_ok hd h0.legacy (by rw [h0.codec]; exact hp) hbody hcopy h.legacy
  have hLw : WF L (s.opened.brk + 1) := by rw [hL]; exact WF.append h.wf _
  have hLq : ∀ x ∈ L, Quiet x.2 := by
    intro x hx
    rw [hL] at hx
    rcases List.mem_append.1 hx with hx | hx
    · exact h.quiet x hx
    · rw [List.mem_singleton.1 hx, hc]
      exact Quiet.copy hs ht hg _ _ _ rfl hst
  have hLi : ∀ x ∈ L, x.2.status ≠ .P → Idle x.2 := by
    intro x hx hxp
    rw [hL] at hx
    rcases List.mem_append.1 hx with hx | hx
    · exact h.idle x hx hxp
    · rw [List.mem_singleton.1 hx] at hxp ⊢
      have hxp' : (newItem (some n)).status ≠ .P := hxp
      refine ⟨?_, c, rfl, by rw [hc]; exact hidle hxp'⟩
      exact hst.resolve_left hxp'
  have hLm : ∀ x ∈ L, x ∈ s.list ∨ x.1 = s.brk := by
    intro x hx
    rw [hL] at hx
    rcases List.mem_append.1 hx with hx | hx
    · exact .inl hx
    · rw [List.mem_singleton.1 hx]; exact .inr rfl
  rw [hadd]
  cases hfa : fl.hasAuth with
  | false =>
    refine ⟨_, _, report_idle hfa, ?_, (fun p hp => nomatch hp), rfl, hLm⟩
    exact ⟨h.codec, h.legacy, m2, m1 h.afterNext, h.blank.same_of rfl rfl rfl (m3.trans h.blank.same), hLw, hraws, hLq, hLi, h.bud, h.sync, h.count, h.linked,
      h.primary, h.version, h.acc⟩
  | true =>
    obtain ⟨r', e1, e2, e3, -, -, -, -, e4, -⟩ := updateReport_notSigned (r := { s.opened.rep with latest := lat }) (l := L) h.version (m4 hfa) h.acc
    have hkc : r'.latest.keyChanged = lat.keyChanged := by
      unfold updateReport at e1
      dsimp only at e1
      obtain ⟨cv, -, e1⟩ := Out.bind_eq_ok e1
      have e1 := (Prod.mk.inj (Out.ok.inj e1)).1
      rw [← e1]
      split <;> split <;> rfl
    refine ⟨_, _, report_eq (s := { s.opened.entered n with gop := g, flags := fl, verified := vf, rep := { s.opened.rep with latest := lat }, list := L }) hfa e1, ?_, ?_, rfl, fun x hx => hLm x ((cleanUp_sublist L).subset hx)⟩
    · refine ⟨h.codec, h.legacy, m2, m1 h.afterNext, h.blank.same_of rfl rfl rfl ?_, WF.sublist hLw (cleanUp_sublist L), ?_, fun x hx => hLq x ((cleanUp_sublist L).subset hx),
        fun x hx => hLi x ((cleanUp_sublist L).subset hx), h.bud, h.sync, h.count, h.linked, h.primary, ?_, e3⟩
      · exact hkc.trans (m3.trans h.blank.same)
      · show Raws q' (pending (cleanUp L))
        rw [pending_cleanUp]; exact hraws
      · exact e4.trans h.version
    · intro p hp
      cases hp
      exact ⟨e2, e3⟩

/-- A NAL unit that is not protected. -/
theorem early_skip_at (hΓ : Γ.Ok) (h0 : Early Γ q s) {d : Bytes} {n : Nalu} (hd : d ≠ []) (hp : parseNalu d Γ.codec true true = .ok n) (hn : Skips n)
    (hg : n.golden = false) : ∃ s' r, s.add Γ.env d = .ok s' r ∧ Early Γ q s' ∧ NoVerdict r ∧ s'.brk = s.brk + 1 ∧ ∀ x ∈ s'.list, x ∈ s.list ∨ x.1 = s.brk := by
  have hst := skip_status hn
  refine early_add hΓ h0 hd hp hn.valid hn.sei hn.tlv hg (.inr hst) (fun _ => ?_) ?_
  · refine ⟨?_, hn.first⟩
    rcases hn.not with e | e
    · left; omega
    · right; exact e
  · rw [skip_pending (i := { newItem (some n) with nalu := _, taken := true }) hst]
    exact h0.raws

theorem early_skip (hΓ : Γ.Ok) (h0 : Early Γ q s) {d : Bytes} {n : Nalu} (hd : d ≠ []) (hp : parseNalu d Γ.codec true true = .ok n) (hn : Skips n)
    (hg : n.golden = false) : ∃ s' r, s.add Γ.env d = .ok s' r ∧ Early Γ q s' ∧ NoVerdict r := by
  obtain ⟨s', r, h1, h2, h3, -⟩ := early_skip_at hΓ h0 hd hp hn hg
  exact ⟨s', r, h1, h2, h3⟩

/-- A protected NAL unit is kept. -/
theorem early_piece (hΓ : Γ.Ok) (h0 : Early Γ q s) {d : Bytes} {n : Nalu} {p : Piece} (hd : d ≠ []) (hp : parseNalu d Γ.codec true true = .ok n)
    (hn : IsPiece p n) (hb : n.hashable = p.bytes) (hne : p.bytes ≠ []) : ∃ s' r, s.add Γ.env d = .ok s' r ∧ Early Γ (q ++ [p]) s' ∧ NoVerdict r := by
  have hst := piece_status hn
  suffices h : ∃ s' r, s.add Γ.env d = .ok s' r ∧ Early Γ (q ++ [p]) s' ∧ NoVerdict r ∧ s'.brk = s.brk + 1 ∧ ∀ x ∈ s'.list, x ∈ s.list ∨ x.1 = s.brk by
    obtain ⟨s', r, h1, h2, h3, -⟩ := h
    exact ⟨s', r, h1, h2, h3⟩
  refine early_add hΓ h0 hd hp (by rw [hn.valid]; decide) hn.sei hn.tlv hn.golden (.inl hst) (fun hc => absurd hst hc) ?_
  rw [pending_append, pending_cons, if_pos (by exact hst)]
  refine h0.raws.append ⟨⟨⟨_, rfl, hn.copy _ _, ?_⟩, rfl, hne⟩, trivial⟩
  dsimp only
  rw [hn.hashable, if_pos rfl]; exact hb

/-! ### The first SEI -/

theorem set_mid {l r : NList} {x : Nat × Item} (h : ((l ++ x :: r).map Prod.fst).Nodup) (f : Item → Item) :
    NList.set (l ++ x :: r) x.1 f = l ++ (x.1, f x.2) :: r := by
  rw [List.map_append, List.nodup_append, List.map_cons, List.nodup_cons] at h
  unfold NList.set
  rw [List.map_append, List.map_cons, if_pos rfl]
  congr 1
  · conv => rhs; rw [← List.map_id l]
    refine List.map_congr_left fun y hy => if_neg fun e => ?_
    exact h.2.2 _ (List.mem_map_of_mem hy) _ List.mem_cons_self e
  · congr 1
    conv => rhs; rw [← List.map_id r]
    refine List.map_congr_left fun y hy => if_neg fun e => ?_
    exact h.2.1.1 (e ▸ List.mem_map_of_mem (f := Prod.fst) hy)

theorem reregister_cons {env : AuthEnv} {x : Nat × Item} {r : NList} {u : Validator} {st : Option Rc} {n : Nalu} (hn : x.2.nalu = some n) (hv : ¬ n.valid ≤ 0) :
    reregister env (x :: r) u st = (u.hashItem env x).andThen fun s _ => reregister env r s none := by
  conv => lhs; unfold reregister
  rw [hn]
  exact if_neg hv

/-- The kept NAL units are hashed. -/
theorem reregister_rows (hΓ : Γ.Ok) {tail : NList} (r : NList) : ∀ (l : NList) (ps : List Piece) (u : Validator) (st : Option Rc), u.list = l ++ (r ++ tail) →
    ((u.list).map Prod.fst).Nodup → Alg1 Γ u → u.gop.afterNext = false → 2 * Γ.size ≤ u.buddies.length → Raws ps (pending r) →
    (∀ x ∈ r, x.2.status ≠ .P → Idle x.2) → (∀ x ∈ r, x.2.used = false) →
    ∃ r' b hr st', reregister Γ.env (r ++ tail) u st = reregister Γ.env tail { u with list := l ++ (r' ++ tail), buddies := b, hasRef := hr } st' ∧
      r'.map Prod.fst = r.map Prod.fst ∧ 2 * Γ.size ≤ b.length ∧ Rows Γ (u.buddies.take Γ.size) ps (pending r') ∧
      refAfter Γ.H (u.buddies.take Γ.size) ps = b.take Γ.size ∧ (∀ x ∈ r', x.2.used = false) ∧
      (∀ x ∈ r', x.2.status ≠ .P → Idle x.2) := by
  induction r with
  | nil =>
    intro l ps u st e _ _ _ hb hr hi hu
    cases ps with
    | cons p ps => exact hr.elim
    | nil =>
      refine ⟨[], u.buddies, u.hasRef, st, ?_, rfl, hb, trivial, rfl, hu, hi⟩
      rw [← e]
      rfl
  | cons x r ih =>
    intro l ps u st e hn ha hg hb hr hi hu
    have hi' : ∀ y ∈ r, y.2.status ≠ .P → Idle y.2 := fun y hy => hi y (List.mem_cons_of_mem _ hy)
    have hu' : ∀ y ∈ r, y.2.used = false := fun y hy => hu y (List.mem_cons_of_mem _ hy)
    have e' : u.list = (l ++ [x]) ++ (r ++ tail) := by rw [e]; simp
    by_cases hp : x.2.status = .P
    · rw [pending_cons, if_pos hp] at hr
      cases ps with
      | nil => exact hr.elim
      | cons p ps =>
      obtain ⟨b, rf, h1, h2, q1, q2, q3, q4⟩ := hashItem_piece hΓ ha hg hb hr.1
      obtain ⟨n, hxn, hpn, hbn⟩ := hr.1.nalu
      have hset : u.list.set x.1 (stamp h1 h2) = (l ++ [(x.1, stamp h1 h2 x.2)]) ++ (r ++ tail) := by
        rw [e] at hn ⊢
        rw [List.cons_append] at hn ⊢
        rw [set_mid hn]; simp
      have hn2 : ((u.list.set x.1 (stamp h1 h2)).map Prod.fst).Nodup := by rw [set_addr]; exact hn
      obtain ⟨r', b', hr', st', z1, z2, z3, z4, z5, z6, z7⟩ := ih (l ++ [(x.1, stamp h1 h2 x.2)]) ps { u with list := u.list.set x.1 (stamp h1 h2), buddies := b, hasRef := rf } none hset hn2
        ⟨ha.known, ha.size, ha.typ⟩ hg q2 hr.2 hi' hu'
      refine ⟨(x.1, stamp h1 h2 x.2) :: r', b', hr', st', ?_, ?_, z3, ?_, ?_, ?_, ?_⟩
      · rw [List.cons_append, reregister_cons hxn (by rw [hpn.valid]; decide), q1, Res.andThen_ok, z1]
        simp
      · rw [List.map_cons, List.map_cons, z2]
      · have hpp : (stamp h1 h2 x.2).status = .P := hp
        rw [pending_cons, if_pos hpp]
        refine ⟨q4 x.2 rfl hr.1.linked, ?_⟩
        dsimp only at z4
        rw [q3] at z4; exact z4
      · dsimp only at z5
        rw [q3] at z5; exact z5
      · intro y hy
        rcases List.mem_cons.1 hy with rfl | hy
        · exact hu x List.mem_cons_self
        · exact z6 y hy
      · intro y hy hyp
        rcases List.mem_cons.1 hy with rfl | hy
        · exact absurd hp hyp
        · exact z7 y hy hyp
    · rw [pending_cons, if_neg hp] at hr
      obtain ⟨n, hxn, hnn, -⟩ := (hi x List.mem_cons_self hp).2
      have key : ∃ st1, reregister Γ.env (x :: r ++ tail) u st = reregister Γ.env (r ++ tail) u st1 := by
        rw [List.cons_append]
        conv => enter [1, st1, 1]; unfold reregister
        rw [hxn]
        dsimp only
        by_cases hv : n.valid ≤ 0
        · exact ⟨st, if_pos hv⟩
        · refine ⟨none, ?_⟩
          rw [if_neg hv]
          unfold hashItem
          rw [hxn]
          dsimp only
          rw [if_pos (by rw [hnn.resolve_left hv]; rfl)]
          rfl
      obtain ⟨st1, hk⟩ := key
      obtain ⟨r', b', hr', st', z1, z2, z3, z4, z5, z6, z7⟩ := ih (l ++ [x]) ps u st1 e' hn ha hg hb hr hi' hu'
      refine ⟨x :: r', b', hr', st', ?_, ?_, z3, ?_, z5, ?_, ?_⟩
      · rw [hk, z1]; simp
      · rw [List.map_cons, List.map_cons, z2]
      · rw [pending_cons, if_neg hp]; exact z4
      · intro y hy
        rcases List.mem_cons.1 hy with rfl | hy
        · exact hu y List.mem_cons_self
        · exact z6 y hy
      · intro y hy hyp
        rcases List.mem_cons.1 hy with rfl | hy
        · exact hi y List.mem_cons_self hyp
        · exact z7 y hy hyp

variable {i : SeiInfo} {p : Piece} {ps rest : List Piece} {n m : Nalu}

/-- The SEI is hashed. -/
theorem hashItem_sei (hΓ : Γ.Ok) (hn : IsSei Γ i n m) {u : Validator} {l : NList} {a : Nat} {it : Item} (e : u.list = l ++ [(a, it)]) (hfr : ∀ x ∈ l, x.1 ≠ a)
    (ha : Alg1 Γ u) (hit : it.nalu = some m) :
    u.hashItem Γ.env (a, it) = .ok { u with list := l ++ [(a, { it with hash := ovl (Γ.H i.doc) it.hash })] } () := by
  unfold hashItem
  dsimp only
  rw [hit]
  dsimp only
  have hm : m.isHashable = true ∧ m.gopSei = true ∧ m.firstInGop = false ∧ m.hashable = i.doc := by
    rw [hn.same]; exact ⟨hn.hashable, hn.sei, hn.first, rfl⟩
  rw [if_neg (by rw [hm.1, ha.known]; decide)]
  have hh : hashNalu Γ.env u m = .ok (u, Γ.H i.doc) := by
    unfold hashNalu
    rw [hm.2.2.2, digest_eq hΓ ha hn.doc]
    simp only [Out.bind_ok, hm.2.1, if_true]
  rw [hh]
  dsimp only
  rw [if_neg (by rw [hm.2.2.1, hm.2.1]; simp), e, set_end hfr, hit]

/-- The list up to the SEI has no SEIs. -/
theorem recurrentLoop_end {env : AuthEnv} {l : NList} {a : Nat} {it : Item} {s s' : Validator} (hl : ∀ x ∈ l, Quiet x.2) (hit : it.nalu = some m) (hm : m.gopSei = true)
    (hst : it.status = .P) (hf : s.findOptional env m.tlvMem m.tlvSize = .ok s' true) : recurrentLoop env (l ++ [(a, it)]) s = .ok s' true := by
  induction l with
  | nil =>
    show recurrentLoop env [(a, it)] s = _
    unfold recurrentLoop
    dsimp only
    rw [hit]
    dsimp only
    rw [if_pos (by rw [hm, hst]; rfl), hf]
    rfl
  | cons x r ih =>
    obtain ⟨k, hk, hg, -⟩ := (hl x List.mem_cons_self).nalu
    rw [List.cons_append]
    unfold recurrentLoop
    rw [hk]
    dsimp only
    rw [if_neg (by rw [hg]; simp)]
    exact ih fun y hy => hl y (List.mem_cons_of_mem _ hy)

/-- The first SEI. -/
theorem early_sei (hΓ : Γ.Ok) {s : Validator} (h0 : Early Γ (p :: ps ++ rest) s) {d : Bytes} (hd : d ≠ []) (hp : parseNalu d Γ.codec true true = .ok n)
    (hn : IsSei Γ i n m) (hfirst : Γ.sent = true → TellsFirst Γ n.tlvMem n.tlvSize) (hres : n.reserved &&& 0x30 ≠ 0)
    (first : p.first = true) (others : ∀ q ∈ ps, q.first = false) (next : ∀ q t, rest = q :: t → q.first = true)
    (counter : i.counter = 1 ∨ Γ.env.ov ≠ .strict) (gopHash : ∃ r0, i.gopHash = Γ.H (pieceHashes Γ.H r0 (p :: ps)).flatten)
    (num : i.num.toNat ≤ ps.length + 1) :
    ∃ s' r, s.add Γ.env d = .ok s' (some r) ∧ InSync Γ true rest i.counter (Γ.H p.bytes) s' ∧ GoodReport true i (ps.length + 1) rest.length r := by
  have h := h0.opened
  have hfr := fresh_last h.wf
  have hv := hn.valid
  have hkn : s.opened.d.hashAlgoKnown = false := h.blank.known
  -- registration
  obtain ⟨it, hit⟩ : ∃ it, it = ({ newItem (some n) with nalu := some m } : Item) := ⟨_, rfl⟩
  obtain ⟨u, hu⟩ : ∃ u, u = { s.opened.entered n with list := s.opened.list ++ [(s.opened.brk, it)] } := ⟨_, rfl⟩
  have hul : u.list = s.opened.list ++ [(s.opened.brk, it)] := by rw [hu]
  have hitn : it.nalu = some m := by rw [hit]
  have hits : it.status = .P := by rw [hit]; exact sei_status hn
  have mz : m.gopSei = true ∧ m.tlvMem = n.tlvMem ∧ m.tlvSize = n.tlvSize ∧ m.isHashable = true := by rw [hn.same]; exact ⟨hn.sei, rfl, rfl, hn.hashable⟩
  have hreg : (s.opened.entered n).register Γ.env s.opened.brk n = .ok u () := by
    unfold register
    rw [if_neg (by omega), if_neg (by omega), hn.update]
    dsimp only
    have hset : (s.opened.entered n).list.set s.opened.brk (fun i => { i with nalu := some m }) = s.opened.list ++ [(s.opened.brk, it)] := by
      show NList.set (s.opened.list ++ [(s.opened.brk, newItem (some n))]) _ _ = _
      rw [set_end hfr, hit]
    rw [hset, find_end hfr]
    dsimp only
    unfold hashItem
    dsimp only
    rw [hitn]
    dsimp only
    rw [if_pos (by show (!m.isHashable || !s.opened.d.hashAlgoKnown) = true; rw [hkn]; simp), hu]
  -- the algorithm and the key
  have hub : Blank Γ u := by rw [hu]; exact h.blank.same_of rfl rfl rfl h.blank.same
  have hus : u.flags.signing = true := by
    rw [hu]
    show (s.flags.signing || n.gopSei) = true
    rw [hn.sei, Bool.or_true]
  obtain ⟨t, hrec, hdec, kt⟩ : ∃ t, u.recurrentDecoded Γ.env = .ok t true ∧ Decoded u t ∧ Knows Γ { t with d := { t.d with hashAlgoKnown := true } } := by
    rcases hub.left with ⟨⟨hsent, hk⟩, -⟩ | ⟨⟨k1, k2, k3⟩, k4, k5, k6⟩
    · obtain ⟨t, ht, kt⟩ := hfirst hsent u hub hk
      have hdec := findOptional_decoded Γ.env u n.tlvMem n.tlvSize
      rw [ht] at hdec
      refine ⟨t, ?_, hdec, kt⟩
      unfold recurrentDecoded
      rw [if_neg (by rw [hus, hk]; simp), hul]
      exact recurrentLoop_end h.quiet hitn mz.1 hits (by rw [mz.2.1, mz.2.2.1]; exact ht)
    · refine ⟨u, ?_, ⟨rfl, rfl, rfl, rfl, rfl, rfl, rfl, rfl, rfl, rfl, rfl, rfl, rfl, rfl, rfl, rfl, rfl, rfl, rfl, _, _, _, rfl⟩, rfl, k6, k5, k4, k1, k2, k3, hub.same, hub.max, hub.noList⟩
      unfold recurrentDecoded
      rw [if_pos (by rw [k1]; rfl)]
  obtain ⟨v, hvv⟩ : ∃ v, v = { t with d := { t.d with hashAlgoKnown := true } } := ⟨_, rfl⟩
  rw [← hvv] at kt
  have vl : v.list = s.opened.list ++ [(s.opened.brk, it)] := by rw [hvv]; exact hdec.list.trans hul
  have vb : v.buddies = s.opened.buddies := by rw [hvv]; refine hdec.buddies.trans ?_; rw [hu]; rfl
  have vg : v.gop = s.opened.gop := by rw [hvv]; refine hdec.gop.trans ?_; rw [hu]; rfl
  have hnod : (v.list.map Prod.fst).Nodup := by
    rw [vl]
    exact (WF.append h.wf it).nodup
  have hba : 2 * Γ.size ≤ v.buddies.length := by rw [vb]; exact h.bud
  obtain ⟨l', b, hr, st', z1, z2, z3, z4, z5, z6, z7⟩ := reregister_rows hΓ (tail := [(s.opened.brk, it)]) s.opened.list [] (p :: ps ++ rest) v (some .unknownFailure) (by rw [vl]; rfl) hnod kt.alg
    (by rw [vg]; exact h.afterNext) hba h.raws h.idle (fun x hx => (h.quiet x hx).unused)
  have hfr' : ∀ x ∈ l', x.1 ≠ s.opened.brk := by
    intro x hx
    have : x.1 ∈ s.opened.list.map Prod.fst := by rw [← z2]; exact List.mem_map_of_mem hx
    obtain ⟨y, hy, e⟩ := List.mem_map.1 this
    rw [← e]; exact hfr y hy
  obtain ⟨w0, hw0⟩ : ∃ w0, w0 = { v with list := [] ++ (l' ++ [(s.opened.brk, it)]), buddies := b, hasRef := hr } := ⟨_, rfl⟩
  rw [← hw0] at z1
  have hw0l : w0.list = l' ++ [(s.opened.brk, it)] := by rw [hw0]; rfl
  have hhs := hashItem_sei hΓ hn hw0l hfr' (by rw [hw0]; exact ⟨kt.known, kt.size, kt.typ⟩) hitn
  have hrr : reregister Γ.env v.list v (some .unknownFailure) = .ok { w0 with list := l' ++ [(s.opened.brk, { it with hash := ovl (Γ.H i.doc) it.hash })] } () := by
    rw [vl, z1, reregister_cons (n := m) hitn (by rw [hn.same]; show ¬ n.valid ≤ 0; omega), hhs, Res.andThen_ok]
    rfl
  obtain ⟨w, hw⟩ : ∃ w, w = { w0 with list := l' ++ [(s.opened.brk, { it with hash := ovl (Γ.H i.doc) it.hash })] } := ⟨_, rfl⟩
  rw [← hw] at hrr
  have halgo : u.hashAlgoBlock Γ.env s.opened.brk n = .ok w () := by
    unfold hashAlgoBlock
    rw [if_neg (by rw [hus, hub.known]; simp), hrec, Res.andThen_ok, if_neg (by decide)]
    dsimp only
    rw [if_neg (by rw [hn.golden]; decide), Res.andThen_ok, if_neg (by
      intro hc
      rw [Bool.and_eq_true, beq_iff_eq] at hc
      exact hres hc.1), ← hvv, hrr]
  -- validation
  have fv : Decoded u { v with d := v.d } := by
    rw [hvv]
    exact ⟨hdec.codec, hdec.list, hdec.brk, hdec.buddies, hdec.hasRef, hdec.primary, hdec.computed, hdec.linked, hdec.verified, hdec.sigHash, hdec.latestGop, hdec.synced,
      hdec.gop, hdec.flags, hdec.hasReport, hdec.started, hdec.legacy, hdec.acc, hdec.thisVersion, hdec.latest⟩
  have hvw : ∀ {α : Type} (f : Validator → α), (∀ x l b r, f { x with list := l, buddies := b, hasRef := r } = f x) → f w = f v := by
    intro α f hf
    rw [hw, hw0]
    exact hf v _ b hr
  have hmet : Met Γ true i p ps rest (List.replicate Γ.size 0) l' (s.opened.brk, { it with hash := ovl (Γ.H i.doc) it.hash }) m w := by
    have hlw : w.list = l' ++ [(s.opened.brk, { it with hash := ovl (Γ.H i.doc) it.hash })] := by rw [hw]
    refine ⟨⟨?_, ?_, ?_, ?_, ?_, ?_, hlw, ?_, ?_, ?_, ?_, ?_, ?_, ?_, ?_, ?_, first, others, next, hits, by rw [hit]; rfl, hitn, ?_, ?_, ?_⟩, .inr rfl, gopHash, num⟩
    · rw [hvw (·.codec) fun _ _ _ _ => rfl]; refine fv.codec.trans ?_; rw [hu]; exact h.codec
    · rw [hvw (·.legacy) fun _ _ _ _ => rfl]; refine fv.legacy.trans ?_; rw [hu]; exact h.legacy
    · rw [hvw (·.flags) fun _ _ _ _ => rfl]; rw [show v.flags = u.flags from fv.flags]; exact hus
    · rw [hvw (·.flags) fun _ _ _ _ => rfl]; rw [show v.flags = u.flags from fv.flags, hu]; rfl
    · refine kt.same_of (hvw (·.d) fun _ _ _ _ => rfl) (hvw (·.typ) fun _ _ _ _ => rfl) (hvw (·.key) fun _ _ _ _ => rfl) ?_
      rw [hvw (·.rep) fun _ _ _ _ => rfl]; exact kt.same
    · rw [hvw (·.brk) fun _ _ _ _ => rfl, show v.brk = u.brk from fv.brk, hlw, hu]
      refine WF.of_addr (WF.append h.wf it) ?_
      unfold NList.append
      rw [List.map_append, List.map_append, z2]; rfl
    · refine ⟨v.buddies.take Γ.size, z4, ?_⟩
      rw [hw, hw0]; exact z5
    · intro x hx
      rw [hlw] at hx
      rcases List.mem_append.1 hx with hx | hx
      · exact z6 x hx
      · rw [List.mem_singleton.1 hx, hit]; rfl
    · intro x hx
      rw [hlw] at hx
      rcases List.mem_append.1 hx with hx | hx
      · by_cases hxp : x.2.status = .P
        · rw [hxp]; decide
        · rcases (z7 x hx hxp).1 with e | e <;> (rw [e]; decide)
      · rw [List.mem_singleton.1 hx]
        show it.status ≠ .N ∧ it.status ≠ .M ∧ it.status ≠ .E
        rw [hits]; decide
    · rw [hw, hw0]; exact z3
    · rw [hvw (·.linked) fun _ _ _ _ => rfl]
      rw [show v.linked = u.linked from fv.linked, hu]
      show s.opened.linked.length = 128
      rw [h.linked]; exact List.length_replicate
    · rw [hvw (·.linked) fun _ _ _ _ => rfl]
      rw [show v.linked = u.linked from fv.linked, hu]
      show (s.opened.linked.drop Γ.size).take Γ.size = _
      have := hΓ.le
      rw [h.linked, List.drop_replicate, List.take_replicate, Nat.min_eq_left (by omega)]
    · rw [hvw (·.primary) fun _ _ _ _ => rfl, show v.primary = u.primary from fv.primary, hu]; exact h.primary
    · rw [hvw (·.rep) fun _ _ _ _ => rfl]; refine fv.thisVersion.trans ?_; rw [hu]; exact h.version
    · intro _
      left
      rw [hvw (·.rep) fun _ _ _ _ => rfl, show v.rep.acc = u.rep.acc from fv.acc, hu]; exact h.acc
    · show buf Γ.size (ovl (Γ.H i.doc) it.hash) = _
      exact buf_ovl (hΓ.len _)
    · right
      rw [hvw (·.synced) fun _ _ _ _ => rfl, show v.synced = u.synced from fv.synced, hvw (·.latestGop) fun _ _ _ _ => rfl, show v.latestGop = u.latestGop from fv.latestGop, hu]
      refine ⟨h.sync, counter.imp_left fun counter => ?_⟩
      rw [counter]
      show 1 ≤ (s.opened.latestGop + 1).toNat
      have h1 := h.count
      have h2 : s.opened.latestGop.toNat ≠ 4294967295 := fun hc => h1 (UInt32.toNat_inj.1 hc)
      have h3 := s.opened.latestGop.toNat_lt
      rw [UInt32.toNat_add]
      have : (1 : UInt32).toNat = 1 := rfl
      omega
    · intro x hx
      by_cases hxp : x.2.status = .P
      · obtain ⟨-, m, hm, -⟩ := Rows.plain z4 (mem_pending.2 ⟨hx, hxp⟩)
        exact ⟨m, hm, fun hc => absurd hxp hc⟩
      · obtain ⟨-, m, hm, -, hf⟩ := z7 x hx hxp
        exact ⟨m, hm, fun _ hc => by rw [hf] at hc; cases hc⟩
  obtain ⟨s3, s4, s', r, q1, q2, q3, q4, q5, q6⟩ := met_reports hΓ hn hmet
  have hbody : s.opened.addBody Γ.env n = .ok s3 () := by
    rw [addBody_entered (by omega), hreg, Res.andThen_ok, halgo, Res.andThen_ok, q1]
  exact ⟨s', r, (add_ok hd h0.legacy (by rw [h0.codec]; exact hp) hbody q2 q3).trans q4, q5, q6⟩

end Validator
end SV
