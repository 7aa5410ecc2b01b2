import Verif.Proofs.FlowScan
/-! Validation of an undisturbed stream: the validator is in step with the signer. -/
namespace SV
open Spec
namespace Validator

/-- An item with a NAL unit; if it is the first one of a GOP and no longer pending, the linked hash has been updated with it. -/
def Passed (x : Nat × Item) : Prop := ∃ n, x.2.nalu = some n ∧ (x.2.status ≠ .P → n.firstInGop = true → x.2.linked = true)

/-- Between two calls, in step with the signer: `q` are the NAL units that are not validated yet, `cnt` is the number of
the last SEI and `link` the hash of the first NAL unit of the last validated GOP. If `b` is set, everything so far was found good. -/
structure InSync (Γ : Scene) (b : Bool) (q : List Piece) (cnt : UInt32) (link : Bytes) (s : Validator) : Prop where
  codec : s.codec = Γ.codec
  legacy : s.legacy = false
  signing : s.flags.signing = true
  afterNext : s.gop.afterNext = false
  knows : Knows Γ s
  wf : WF s.list s.brk
  rows : ∃ r, Rows Γ r q (pending s.list) ∧ refAfter Γ.H r q = s.buddies.take Γ.size
  unused : ∀ x ∈ s.list, x.2.used = false
  good : ∀ x ∈ s.list, x.2.status ≠ .N ∧ x.2.status ≠ .M ∧ x.2.status ≠ .E
  budLen : 2 * Γ.size ≤ s.buddies.length
  count : s.latestGop = cnt
  linkLen : s.linked.length = 128
  link : (s.linked.drop Γ.size).take Γ.size = link
  primary : s.primary = none ∨ s.primary = some Γ.oid
  version : s.rep.thisVersion = []
  acc : b = true → s.rep.acc.auth = .notSigned ∨ s.rep.acc.auth = .ok
  notFirst : s.flags.first = false
  synced : s.synced = true
  seen : ∀ x ∈ s.list, Passed x

variable {Γ : Scene} {b : Bool} {q : List Piece} {cnt : UInt32} {link : Bytes} {s : Validator}

theorem Rows.plain {r : Bytes} {ps : List Piece} {xs : NList} (h : Rows Γ r ps xs) {x : Nat × Item} (hx : x ∈ xs) :
    x.2.isSei = false ∧ ∃ n, x.2.nalu = some n ∧ n.isHashable = true ∧ n.valid > 0 ∧ (n.firstInGop = true → x.2.second.isSome = true) := by
  obtain ⟨p, -, b, hb⟩ := h.mem hx
  obtain ⟨n, hn, hp⟩ := hb.nalu
  refine ⟨?_, n, hn, hp.hashable, by rw [hp.valid]; decide, ?_⟩
  · unfold Item.isSei; rw [hn]; exact hp.sei
  · intro hf; exact hb.second (hp.first ▸ hf)

theorem InSync.plain (h : InSync Γ b q cnt link s) : ∀ x ∈ s.list, x.2.status = .P → x.2.isSei = false := by
  intro x hx hp
  obtain ⟨r, hr, -⟩ := h.rows
  exact (Rows.plain hr (mem_pending.2 ⟨hx, hp⟩)).1

/-! ### The list with a new item -/

theorem fresh_last {l : NList} {b : Nat} (w : WF l b) : ∀ x ∈ l, x.1 ≠ b := fun x hx e => by
  have := w.lt x hx; omega

theorem set_end {l : NList} {a : Nat} (h : ∀ x ∈ l, x.1 ≠ a) (i : Item) (f : Item → Item) :
    NList.set (l ++ [(a, i)]) a f = l ++ [(a, f i)] := by
  unfold NList.set
  rw [List.map_append, List.map_singleton, if_pos rfl]
  congr 1
  conv => rhs; rw [← List.map_id l]
  exact List.map_congr_left fun x hx => if_neg (h x hx)

theorem find_end {l : NList} {a : Nat} (h : ∀ x ∈ l, x.1 ≠ a) (i : Item) :
    (l ++ [(a, i)]).find? (fun x => decide (x.1 = a)) = some (a, i) := by
  rw [List.find?_append, List.find?_eq_none.2 (fun x hx => by simpa using h x hx)]
  simp

theorem copyLast_last {s : Validator} {l : NList} {a : Nat} {i : Item} {n c : Nalu} (e : s.list = l ++ [(a, i)]) (h : ∀ x ∈ l, x.1 ≠ a)
    (hn : i.nalu = some n) (hc : copyNalu s.d.hashAlgoKnown n = .ok (some c)) :
    s.copyLast = .ok { s with list := l ++ [(a, { i with nalu := some c, taken := true })] } none := by
  unfold copyLast
  rw [e, List.reverse_append]
  simp only [List.reverse_singleton, List.singleton_append, List.find?_cons, hn, Option.isSome_some]
  rw [hc]
  dsimp only
  rw [set_end h]
  rfl

/-- The session at the beginning of a call. -/
def opened (s : Validator) : Validator :=
  { s with started := true, hasReport := true, flags := { s.flags with hasAuth := false }, rep := { s.rep with acc := { s.rep.acc with received := s.rep.acc.received + 1 } } }

/-- The session with a new item. -/
def entered (s : Validator) (n : Nalu) : Validator :=
  { s with list := s.list ++ [(s.brk, newItem (some n))], brk := s.brk + 1, flags := { s.flags with firstSei := !s.flags.signing && n.gopSei, signing := s.flags.signing || n.gopSei } }

theorem addBody_entered {env : AuthEnv} {s : Validator} {n : Nalu} (hv : 0 ≤ n.valid) :
    s.addBody env n = ((s.entered n).register env s.brk n).andThen fun u _ => (u.hashAlgoBlock env s.brk n).andThen fun u _ => u.maybeValidate env n := by
  unfold addBody
  dsimp only
  rw [if_neg (by omega)]
  rfl

theorem hashAlgoBlock_known {env : AuthEnv} {u : Validator} {a : Nat} {n : Nalu} (h : u.d.hashAlgoKnown = true) : u.hashAlgoBlock env a n = .ok u () := by
  unfold hashAlgoBlock
  rw [h]; rfl

theorem recurrent_known {env : AuthEnv} {s : Validator} (h : s.d.hasPublicKey = true) : s.recurrentDecoded env = .ok s true := by
  unfold recurrentDecoded
  rw [h]; rfl

theorem maybeValidate_skip {env : AuthEnv} {u : Validator} {n : Nalu} {l : NList} {x : Nat × Item} (hl : u.legacy = false) (e : u.list = l ++ [x])
    (hk : u.d.hasPublicKey = true) (hf : feasible x.2 = false) (hs : u.flags.firstSei = false) : u.maybeValidate env n = .ok u () := by
  unfold maybeValidate
  rw [hl, e]
  simp only [Bool.false_eq_true, if_false, List.getLast?_append, List.getLast?_singleton, Option.some_or]
  rw [recurrent_known hk]
  simp [hf, hs]

theorem maybeValidate_rounds {env : AuthEnv} {u : Validator} {n : Nalu} {l : NList} {x : Nat × Item} (hl : u.legacy = false) (e : u.list = l ++ [x])
    (hk : u.d.hasPublicKey = true) (hf : feasible x.2 = true) : u.maybeValidate env n = u.rounds env env.rounds := by
  unfold maybeValidate
  rw [hl, e]
  simp only [Bool.false_eq_true, if_false, List.getLast?_append, List.getLast?_singleton, Option.some_or]
  rw [recurrent_known hk]
  simp [hf]

/-- A call in terms of its parts. -/
theorem add_ok {env : AuthEnv} {s s2 s3 : Validator} {d : Bytes} {n : Nalu} (hd : d ≠ []) (hl : s.legacy = false)
    (hp : parseNalu d s.codec true true = .ok n) (hb : s.opened.addBody env n = .ok s2 ())
    (hc : s2.copyLast = .ok s3 none) (hl3 : s3.legacy = false) : s.add env d = s3.report := by
  unfold add addH26x
  rw [if_neg hd]
  dsimp only
  rw [if_neg hd, if_neg (by rw [hl]; decide), hp]
  dsimp only
  unfold opened at hb
  dsimp only at hb
  rw [hb]
  dsimp only
  unfold addEnd
  rw [hc]
  simp only [Res.andThen_ok]
  rw [hl3]
  simp

/-- NAL units that are not protected. -/
structure Skips (n : Nalu) : Prop where
  valid : 0 ≤ n.valid
  not : n.valid = 0 ∨ n.isHashable = false
  sei : n.gopSei = false
  tlv : n.tlvSize = 0
  first : n.firstInGop = false

theorem copyNalu_small {n : Nalu} (k : Bool) (hs : n.gopSei = false) (ht : n.tlvSize = 0) :
    copyNalu k n = .ok (some { n with hashable := if !k && n.isHashable then n.hashable else [], tlvMem := n.tlvMem.take n.tlvSize, tlvStart := [] }) := by
  unfold copyNalu
  rw [ht, hs]
  simp

theorem updateHashable_plain {n : Nalu} (h : n.gopSei = false) : updateHashable n = .ok n := by
  unfold updateHashable
  rw [h]; simp

/-- Registering a NAL unit that is not hashed. -/
theorem register_skip {env : AuthEnv} {s : Validator} {l : NList} {a : Nat} {n : Nalu} (e : s.list = l ++ [(a, newItem (some n))]) (h : ∀ x ∈ l, x.1 ≠ a)
    (hn : Skips n) : s.register env a n = .ok s () := by
  unfold register
  rw [if_neg (by have := hn.valid; omega)]
  by_cases hv : n.valid = 0
  · rw [if_pos hv]
  · rw [if_neg hv, updateHashable_plain hn.sei]
    have hs : s.list.set a (fun i => { i with nalu := some n }) = s.list := by
      rw [e, set_end h]; rfl
    dsimp only
    rw [hs]
    have : ∀ t : Validator, t.list = s.list → (match t.list.find? fun x => decide (x.1 = a) with
      | none => Res.ub .nullDeref
      | some x => t.hashItem env x) = Res.ok t () := by
      intro t ht
      rw [ht, e, find_end h]
      dsimp only
      unfold hashItem newItem
      dsimp only
      rw [hn.not.resolve_left hv]
      rfl
    exact this s rfl

theorem skip_status {n : Nalu} (hn : Skips n) : (newItem (some n)).status = .U ∨ (newItem (some n)).status = .ignored := by
  unfold newItem statusOf
  dsimp only
  rw [if_neg (by have := hn.valid; omega)]
  by_cases hv : n.valid = 0
  · rw [if_pos hv]; exact .inl rfl
  · rw [if_neg hv, hn.not.resolve_left hv]; exact .inr rfl

theorem skip_pending {l : NList} {a : Nat} {i : Item} (h : i.status = .U ∨ i.status = .ignored) : pending (l ++ [(a, i)]) = pending l := by
  rw [pending_append, pending_cons, if_neg (by rcases h with e | e <;> simp [e])]
  simp [pending]

theorem InSync.opened (h : InSync Γ b q cnt link s) : InSync Γ b q cnt link s.opened :=
  ⟨h.codec, h.legacy, h.signing, h.afterNext, h.knows.same_of rfl rfl rfl h.knows.same, h.wf, h.rows, h.unused, h.good, h.budLen, h.count, h.linkLen,
    h.link, h.primary, h.version, h.acc, h.notFirst, h.synced, h.seen⟩

theorem report_idle {s : Validator} (h : s.flags.hasAuth = false) : s.report = .ok s none := by
  unfold report
  rw [h]; rfl

/-- A NAL unit that is not protected changes nothing. -/
theorem sync_skip_list (h0 : InSync Γ b q cnt link s) {d : Bytes} {n : Nalu} (hd : d ≠ []) (hp : parseNalu d Γ.codec true true = .ok n)
    (hn : Skips n) : ∃ s', s.add Γ.env d = .ok s' none ∧ InSync Γ b q cnt link s' ∧ ∃ y, s'.list = s.list ++ [y] ∧ y.2.status ≠ .P := by
  have h := h0.opened
  have hfr := fresh_last h.wf
  have hst := skip_status hn
  have hf : feasible (newItem (some n)) = false := by
    unfold feasible newItem
    dsimp only
    have : decide (statusOf (some n) = Status.P) = false := by
      apply decide_eq_false
      rcases hst with e | e <;> (unfold newItem at e; dsimp only at e; rw [e]; decide)
    rw [this]
    simp
  have hbody : s.opened.addBody Γ.env n = .ok (s.opened.entered n) () := by
    rw [addBody_entered hn.valid, register_skip (l := s.opened.list) rfl hfr hn, Res.andThen_ok, hashAlgoBlock_known (u := s.opened.entered n) h.knows.known, Res.andThen_ok,
      maybeValidate_skip (u := s.opened.entered n) (l := s.opened.list) h.legacy rfl h.knows.has hf]
    show (!s.flags.signing && n.gopSei) = false
    rw [hn.sei, Bool.and_false]
  have hcopy := copyLast_last (s := s.opened.entered n) (l := s.opened.list) (a := s.opened.brk) (i := newItem (some n)) (n := n) rfl hfr rfl (copyNalu_small _ hn.sei hn.tlv)
  refine ⟨_, (add_ok hd h0.legacy (by rw [h0.codec]; exact hp) hbody hcopy h.legacy).trans (report_idle rfl), ?_, _, rfl, (by
    show (newItem (some n)).status ≠ .P
    rcases hst with e | e <;> (rw [e]; decide))⟩
  obtain ⟨r, hr, hr2⟩ := h.rows
  refine ⟨h.codec, h.legacy, ?_, h.afterNext, h.knows.same_of rfl rfl rfl h.knows.same, WF.append h.wf _, ⟨r, ?_, hr2⟩, ?_, ?_, h.budLen, h.count, h.linkLen,
    h.link, h.primary, h.version, h.acc, h.notFirst, h.synced, ?_⟩
  · show (s.flags.signing || n.gopSei) = true
    rw [h0.signing]; rfl
  · dsimp only
    rw [skip_pending (i := { newItem (some n) with nalu := _, taken := true }) hst]
    exact hr
  · intro x hx
    rcases List.mem_append.1 hx with hx | hx
    · exact h.unused x hx
    · rw [List.mem_singleton.1 hx]; rfl
  · intro x hx
    rcases List.mem_append.1 hx with hx | hx
    · exact h.good x hx
    · rw [List.mem_singleton.1 hx]
      dsimp only
      rcases hst with e | e <;> (rw [e]; decide)
  · intro x hx
    rcases List.mem_append.1 hx with hx | hx
    · exact h.seen x hx
    · rw [List.mem_singleton.1 hx]
      exact ⟨_, rfl, fun _ hc => absurd hc (by rw [hn.first]; decide)⟩

theorem sync_skip (h0 : InSync Γ b q cnt link s) {d : Bytes} {n : Nalu} (hd : d ≠ []) (hp : parseNalu d Γ.codec true true = .ok n)
    (hn : Skips n) : ∃ s', s.add Γ.env d = .ok s' none ∧ InSync Γ b q cnt link s' := by
  obtain ⟨s', h1, h2, -⟩ := sync_skip_list h0 hd hp hn
  exact ⟨s', h1, h2⟩

/-! ### Protected NAL units -/

theorem Row.isFirst {p : Piece} {b : Bytes} {x : Nat × Item} (h : Row Γ p b x) : x.2.isFirst = p.first := by
  obtain ⟨n, hn, hp⟩ := h.nalu
  unfold Item.isFirst
  rw [hn]; exact hp.first

theorem Row.renalu {p : Piece} {b : Bytes} {a : Nat} {i : Item} {c : Nalu} (h : Row Γ p b (a, i)) (hc : IsPiece p c) :
    Row Γ p b (a, { i with nalu := some c, taken := true }) := by
  refine ⟨⟨c, rfl, hc⟩, ?_, h.second, h.linked⟩
  have h1 := h.isFirst
  have h2 := h.hash
  unfold hashOf at h2 ⊢
  dsimp only at h1 h2 ⊢
  have h3 : Item.isFirst { i with nalu := some c, taken := true } = p.first := by
    unfold Item.isFirst; exact hc.first
  rw [h3, ← h1]
  exact h2

theorem IsPiece.copy {p : Piece} {n : Nalu} (h : IsPiece p n) (b m : Bytes) : IsPiece p { n with hashable := b, tlvMem := m, tlvStart := [] } :=
  ⟨h.valid, h.hashable, h.sei, h.golden, h.first, h.tlv⟩

theorem piece_status {p : Piece} {n : Nalu} (h : IsPiece p n) : (newItem (some n)).status = .P := by
  unfold newItem statusOf
  dsimp only
  rw [h.valid, h.hashable]
  rfl

theorem register_piece (hΓ : Γ.Ok) {u : Validator} {l : NList} {a : Nat} {p : Piece} {n : Nalu} (e : u.list = l ++ [(a, newItem (some n))])
    (hfr : ∀ x ∈ l, x.1 ≠ a) (hn : IsPiece p n) (hb : n.hashable = p.bytes) (hne : p.bytes ≠ []) (ha : Alg1 Γ u) (hg : u.gop.afterNext = false)
    (hl : 2 * Γ.size ≤ u.buddies.length) :
    ∃ b hr h1 h2, u.register Γ.env a n = .ok { u with list := l ++ [(a, stamp h1 h2 (newItem (some n)))], buddies := b, hasRef := hr } () ∧
      2 * Γ.size ≤ b.length ∧ b.take Γ.size = Γ.ref (u.buddies.take Γ.size) p ∧
      Row Γ p (Γ.hash (u.buddies.take Γ.size) p) (a, stamp h1 h2 (newItem (some n))) := by
  have hset : u.list.set a (fun i => { i with nalu := some n }) = u.list := by
    rw [e, set_end hfr]; rfl
  obtain ⟨b, hr, h1, h2, q1, q2, q3, q4⟩ := hashItem_piece hΓ ha hg hl (p := p) (x := (a, newItem (some n))) ⟨⟨n, rfl, hn, hb⟩, rfl, hne⟩
  refine ⟨b, hr, h1, h2, ?_, q2, q3, q4 (newItem (some n)) rfl rfl⟩
  unfold register
  rw [if_neg (by rw [hn.valid]; decide), if_neg (by rw [hn.valid]; decide), updateHashable_plain hn.sei]
  dsimp only
  rw [hset]
  have hf : u.list.find? (fun x => decide (x.1 = a)) = some (a, newItem (some n)) := by rw [e]; exact find_end hfr _
  rw [hf]
  dsimp only
  refine Eq.trans q1 ?_
  dsimp only
  rw [e, set_end hfr]

theorem rounds_plain {env : AuthEnv} {u : Validator} {k : Nat} (hs : u.flags.signing = true) (hl : ∀ x ∈ u.list, x.2.status = .P → x.2.isSei = false) :
    ∃ g, u.rounds env (k + 1) = .ok { u with gop := g } () ∧ g.afterNext = false := by
  obtain ⟨h1, g, h2, h3⟩ := hasPending_plain hs hl
  refine ⟨g, ?_, h3⟩
  unfold rounds
  rw [h1, h2]
  rfl

/-- A protected NAL unit is hashed. -/
theorem sync_piece_list (hΓ : Γ.Ok) (h0 : InSync Γ b q cnt link s) {d : Bytes} {n : Nalu} {p : Piece} (hd : d ≠ []) (hp : parseNalu d Γ.codec true true = .ok n)
    (hn : IsPiece p n) (hb : n.hashable = p.bytes) (hne : p.bytes ≠ []) :
    ∃ s', s.add Γ.env d = .ok s' none ∧ InSync Γ b (q ++ [p]) cnt link s' ∧ ∃ y, s'.list = s.list ++ [y] ∧ y.2.status = .P := by
  have h := h0.opened
  have hfr := fresh_last h.wf
  obtain ⟨bd, hr, h1, h2, e1, q2, q3, q4⟩ := register_piece hΓ (u := s.opened.entered n) (l := s.opened.list) rfl hfr hn hb hne ⟨h.knows.known, h.knows.size, h.knows.typ⟩ h.afterNext h.budLen
  have hsig : (s.opened.entered n).flags.signing = true := by
    show (s.flags.signing || n.gopSei) = true
    rw [h0.signing]; rfl
  have hfs : (s.opened.entered n).flags.firstSei = false := by
    show (!s.flags.signing && n.gopSei) = false
    rw [hn.sei, Bool.and_false]
  have hpl : ∀ x ∈ s.opened.list ++ [(s.opened.brk, stamp h1 h2 (newItem (some n)))], x.2.status = .P → x.2.isSei = false := by
    intro x hx hxp
    rcases List.mem_append.1 hx with hx | hx
    · exact h.plain x hx hxp
    · rw [List.mem_singleton.1 hx]
      unfold Item.isSei stamp newItem
      exact hn.sei
  have hmv : ∃ g, maybeValidate Γ.env { s.opened.entered n with list := s.opened.list ++ [(s.opened.brk, stamp h1 h2 (newItem (some n)))], buddies := bd, hasRef := hr } n =
      .ok { s.opened.entered n with list := s.opened.list ++ [(s.opened.brk, stamp h1 h2 (newItem (some n)))], buddies := bd, hasRef := hr, gop := g } () ∧ g.afterNext = false := by
    cases hf : feasible (stamp h1 h2 (newItem (some n))) with
    | false => exact ⟨_, maybeValidate_skip (u := { s.opened.entered n with list := s.opened.list ++ [(s.opened.brk, stamp h1 h2 (newItem (some n)))], buddies := bd, hasRef := hr }) (l := s.opened.list) h.legacy rfl h.knows.has hf hfs, h.afterNext⟩
    | true =>
      obtain ⟨k, hk⟩ : ∃ k, Γ.env.rounds = k + 1 := ⟨Γ.env.rounds - 1, by have := hΓ.rounds; omega⟩
      obtain ⟨g, hg, hg2⟩ := rounds_plain (env := Γ.env) (k := k) (u := { s.opened.entered n with list := s.opened.list ++ [(s.opened.brk, stamp h1 h2 (newItem (some n)))], buddies := bd, hasRef := hr }) hsig hpl
      exact ⟨g, (maybeValidate_rounds (u := { s.opened.entered n with list := s.opened.list ++ [(s.opened.brk, stamp h1 h2 (newItem (some n)))], buddies := bd, hasRef := hr }) (l := s.opened.list) h.legacy rfl h.knows.has hf).trans (hk ▸ hg), hg2⟩
  obtain ⟨g, hm, hg⟩ := hmv
  have hbody : s.opened.addBody Γ.env n = .ok { s.opened.entered n with list := s.opened.list ++ [(s.opened.brk, stamp h1 h2 (newItem (some n)))], buddies := bd, hasRef := hr, gop := g } () := by
    rw [addBody_entered (by rw [hn.valid]; decide), e1, Res.andThen_ok, hashAlgoBlock_known (u := { s.opened.entered n with list := s.opened.list ++ [(s.opened.brk, stamp h1 h2 (newItem (some n)))], buddies := bd, hasRef := hr }) h.knows.known, Res.andThen_ok, hm]
  have hcopy := copyLast_last (s := { s.opened.entered n with list := s.opened.list ++ [(s.opened.brk, stamp h1 h2 (newItem (some n)))], buddies := bd, hasRef := hr, gop := g })
    (l := s.opened.list) (a := s.opened.brk) (i := stamp h1 h2 (newItem (some n))) (n := n) rfl hfr rfl (copyNalu_small _ hn.sei hn.tlv)
  refine ⟨_, (add_ok hd h0.legacy (by rw [h0.codec]; exact hp) hbody hcopy h.legacy).trans (report_idle rfl), ?_, _, rfl, piece_status hn⟩
  obtain ⟨r, hr1, hr2⟩ := h.rows
  refine ⟨h.codec, h.legacy, hsig, hg, h.knows.same_of rfl rfl rfl h.knows.same, WF.append h.wf _, ⟨r, ?_, ?_⟩, ?_, ?_, q2, h.count, h.linkLen,
    h.link, h.primary, h.version, h.acc, h.notFirst, h.synced, ?_⟩
  · dsimp only
    rw [pending_append, pending_cons, if_pos (by show (newItem (some n)).status = .P; exact piece_status hn)]
    refine hr1.append ?_
    rw [hr2]
    exact ⟨q4.renalu (hn.copy _ _), trivial⟩
  · dsimp only
    rw [q3]
    have : ∀ (ps : List Piece) (r : Bytes), refAfter Γ.H r (ps ++ [p]) = Γ.ref (refAfter Γ.H r ps) p := by
      intro ps
      induction ps with
      | nil => intro r; rfl
      | cons _ _ ih => intro r; exact ih _
    rw [this, hr2]
    rfl
  · intro x hx
    rcases List.mem_append.1 hx with hx | hx
    · exact h.unused x hx
    · rw [List.mem_singleton.1 hx]; rfl
  · intro x hx
    rcases List.mem_append.1 hx with hx | hx
    · exact h.good x hx
    · rw [List.mem_singleton.1 hx]
      show (newItem (some n)).status ≠ .N ∧ (newItem (some n)).status ≠ .M ∧ (newItem (some n)).status ≠ .E
      rw [piece_status hn]; decide
  · intro x hx
    rcases List.mem_append.1 hx with hx | hx
    · exact h.seen x hx
    · rw [List.mem_singleton.1 hx]
      exact ⟨_, rfl, fun hc => absurd (piece_status hn) hc⟩

theorem sync_piece (hΓ : Γ.Ok) (h0 : InSync Γ b q cnt link s) {d : Bytes} {n : Nalu} {p : Piece} (hd : d ≠ []) (hp : parseNalu d Γ.codec true true = .ok n)
    (hn : IsPiece p n) (hb : n.hashable = p.bytes) (hne : p.bytes ≠ []) : ∃ s', s.add Γ.env d = .ok s' none ∧ InSync Γ b (q ++ [p]) cnt link s' := by
  obtain ⟨s', h1, h2, -⟩ := sync_piece_list hΓ h0 hd hp hn hb hne
  exact ⟨s', h1, h2⟩

end Validator
end SV
