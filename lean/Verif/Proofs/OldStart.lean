import Verif.Proofs.OldBytes
/-! Validation of an undisturbed stream of the older format: from the start to the first SEI. -/
namespace SV
open Spec
namespace Old
open Validator (Scene Knows Skips Early NoVerdict Blank early_skip_at findOptional_decoded recurrentLoop_end Decoded fresh_last set_end find_end digest_eq)

variable {Γ : Scene}

/-- Before the first SEI. -/
structure Before (Γ : Scene) (s : Session) : Prop where
  leg : s.leg = none
  early : Early Γ [] s.v
  raw : ∀ x ∈ s.v.list, ∃ y n, s.raw.find? (fun y => decide (y.1 = x.1)) = some y ∧ y.2 ≠ [] ∧ parseNalu y.2 Γ.codec true true = .ok n ∧ Skips n

theorem before_new (hΓ : Γ.Ok) (hs : Γ.sent = true) : Before Γ (newSession Γ.env Γ.codec) :=
  ⟨rfl, Validator.early_new hΓ hs, by intro x hx; cases hx⟩

/-- A NAL unit that is not protected. -/
theorem before_skip (hΓ : Γ.Ok) {s : Session} (h : Before Γ s) {d : Bytes} {n : Nalu} (hd : d ≠ []) (hp : parseNalu d Γ.codec true true = .ok n) (hn : Skips n) (hg : n.golden = false) :
    ∃ s' r, s.add Γ.env d = .ok s' r ∧ Before Γ s' ∧ NoVerdict r := by
  obtain ⟨v, r, e1, e2, e3, e4, e5⟩ := early_skip_at hΓ h.early hd hp hn hg
  refine ⟨{ s with v := v, raw := (s.v.brk, d) :: s.raw }, r, ?_, ⟨h.leg, e2, ?_⟩, e3⟩
  · unfold Session.add
    rw [h.leg]
    dsimp only
    rw [e1]
    dsimp only
    rw [if_neg (by rw [e2.legacy]; decide)]
  · intro x hx
    show ∃ y n, List.find? _ ((s.v.brk, d) :: s.raw) = _ ∧ _
    rw [List.find?_cons]
    by_cases hb : x.1 = s.v.brk
    · rw [show decide ((s.v.brk, d).1 = x.1) = true by simp [hb]]
      exact ⟨_, n, rfl, hd, hp, hn⟩
    · rw [show decide ((s.v.brk, d).1 = x.1) = false by simp; exact fun hc => hb hc.symm]
      exact h.raw x ((e5 x hx).resolve_right hb)

/-- The new session. -/
theorem create_ready (hΓ : Γ.Ok) (hkey : Γ.key ≠ []) {p : Validator} (hk : Knows Γ p) (hc : p.codec = Γ.codec) (ha : p.rep.acc = accumulatedInit) (hv : p.rep.thisVersion = []) (c : UInt32) :
    ∃ l, Legacy.create Γ.env p = .ok l ∧ Ready Γ true 0 none [] c l := by
  obtain ⟨v, hvq⟩ : ∃ v : Validator, v = { p with
    list := [], brk := 0
    d := { p.d with
      gopCounter := 0, numSent := 0, hasTimestamp := false, timestamp := 0, hashList := [], encodingStatus := 0
      hashType := 0, arbitrary := []
      publicKey := if p.d.hasPublicKey then p.d.publicKey else []
      hasPublicKey := p.d.hasPublicKey && decide (p.d.publicKey ≠ []) }
    buddies := List.replicate 128 0, hasRef := false, verified := -1, synced := false, gop := {}, flags := {} } := ⟨_, rfl⟩
  have hkv : Knows Γ v := by
    rw [hvq]
    refine ⟨hk.known, hk.size, hk.typ, hk.oid, ?_, ?_, hk.key, hk.same, hk.max, fun _ => rfl⟩
    · show (p.d.hasPublicKey && decide (p.d.publicKey ≠ [])) = true
      rw [hk.has, hk.pub]; simp [hkey]
    · show (if p.d.hasPublicKey then p.d.publicKey else []) = _
      rw [hk.has, if_pos rfl]; exact hk.pub
  have hdg := digest_eq hΓ (s := v) ⟨hkv.known, hkv.size, hkv.typ⟩ (b := [1]) (by simp)
  have hres : Legacy.resetGopHash Γ.env v (List.replicate 128 0) = .ok (ovl (Γ.H [1]) (List.replicate 128 0)) := by
    unfold Legacy.resetGopHash
    rw [hdg, Out.bind_ok]
  refine ⟨{ v := v, hashes := ovl (Γ.H [1]) (List.replicate 128 0) }, ?_, ⟨⟨hkv, ?_, ?_, ?_, ?_, ?_, ⟨List.nodup_nil, (by intro a ha; cases ha)⟩, ?_, ?_⟩, ?_, rfl, (by intro b hb; cases hb), ?_, rfl, (by rw [hvq]; rfl)⟩⟩
  · unfold Legacy.create
    dsimp only
    rw [← hvq, hres, Out.bind_ok]
  · rw [hvq]; exact hc
  · rw [hvq]
  · show v.hasRef = false
    rw [hvq]
  · have := hΓ.le
    rw [hvq]
    show 2 * Γ.size ≤ (List.replicate 128 (0 : UInt8)).length
    rw [List.length_replicate]; omega
  · have := Validator.ovl_grows (Γ.H [1]) (List.replicate 128 0)
    rw [List.length_replicate] at this
    show 64 ≤ (ovl (Γ.H [1]) (List.replicate 128 0)).length
    omega
  · refine .inr ?_
    rw [hvq]
    show p.rep.acc.auth.val ≤ _
    rw [ha]; decide
  · rw [hvq]; exact hv
  · rw [hvq]
  · intro hx
    rw [hvq] at hx; cases hx

theorem replay_ready {raw : List (Nat × Bytes)} {c : UInt32} {l : NList} : ∀ {s : Legacy}, Ready Γ true 0 none [] c s →
    (∀ x ∈ l, x.2.nalu ≠ none ∧ ∃ y n, raw.find? (fun y => decide (y.1 = x.1)) = some y ∧ y.2 ≠ [] ∧ parseNalu y.2 Γ.codec true true = .ok n ∧ Skips n) →
    ∃ s', Session.replay Γ.env raw l s = .ok s' () ∧ Ready Γ true 0 none [] c s' := by
  induction l with
  | nil => intro s h _; exact ⟨s, rfl, h⟩
  | cons x l ih =>
    intro s h hx
    obtain ⟨h0, y, n, h1, h2, h3, h4⟩ := hx x List.mem_cons_self
    obtain ⟨s1, e1, e2⟩ := ready_skip h h2 h3 h4
    obtain ⟨s2, f1, f2⟩ := ih e2 fun z hz => hx z (List.mem_cons_of_mem _ hz)
    refine ⟨s2, ?_, f2⟩
    unfold Session.replay
    cases hn : x.2.nalu with
    | none => exact absurd hn h0
    | some k =>
      dsimp only
      rw [h1]
      dsimp only
      rw [e1, Res.andThen_ok, f1]

/-- The first SEI tells the older format. -/
theorem early_old (hΓ : Γ.Ok) {s : Validator} (h0 : Early Γ [] s) {i : Info} {doc d : Bytes} {n m : Nalu} (hd : d ≠ []) (hp : parseNalu d Γ.codec true true = .ok n)
    (hn : IsOld Γ i doc n m) (hfirst : Validator.TellsFirst Γ n.tlvMem n.tlvSize) (hres : n.reserved = 0) :
    ∃ s' it, s.add Γ.env d = .ok s' none ∧ s'.legacy = true ∧ Knows Γ s' ∧ s'.codec = Γ.codec ∧ s'.rep.acc = accumulatedInit ∧ s'.rep.thisVersion = [] ∧ s'.list = s.list ++ [(s.brk, it)] := by
  have h := h0.opened
  have hfr := fresh_last h.wf
  have hv := hn.valid
  have hkn : s.opened.d.hashAlgoKnown = false := h.blank.known
  obtain ⟨it, hit⟩ : ∃ it, it = ({ newItem (some n) with nalu := some m } : Item) := ⟨_, rfl⟩
  obtain ⟨u, hu⟩ : ∃ u, u = { s.opened.entered n with list := s.opened.list ++ [(s.opened.brk, it)] } := ⟨_, rfl⟩
  have hul : u.list = s.opened.list ++ [(s.opened.brk, it)] := by rw [hu]
  have hitn : it.nalu = some m := by rw [hit]
  have hits : it.status = .P := by
    rw [hit]
    show (newItem (some n)).status = .P
    unfold newItem statusOf
    dsimp only
    rw [if_neg (by omega), if_neg (by omega), hn.hashable]; rfl
  have mz : m.gopSei = true ∧ m.tlvMem = n.tlvMem ∧ m.tlvSize = n.tlvSize ∧ m.isHashable = true := by rw [hn.same]; exact ⟨hn.sei, rfl, rfl, hn.hashable⟩
  have hreg : (s.opened.entered n).register Γ.env s.opened.brk n = .ok u () := by
    unfold Validator.register
    rw [if_neg (by omega), if_neg (by omega), hn.update]
    dsimp only
    have hset : (s.opened.entered n).list.set s.opened.brk (fun i => { i with nalu := some m }) = s.opened.list ++ [(s.opened.brk, it)] := by
      show NList.set (s.opened.list ++ [(s.opened.brk, newItem (some n))]) _ _ = _
      rw [set_end hfr, hit]
    rw [hset, find_end hfr]
    dsimp only
    unfold Validator.hashItem
    dsimp only
    rw [hitn]
    dsimp only
    rw [if_pos (by show (!m.isHashable || !s.opened.d.hashAlgoKnown) = true; rw [hkn]; simp), hu]
  have hub : Blank Γ u := by rw [hu]; exact h.blank.same_of rfl rfl rfl h.blank.same
  have hus : u.flags.signing = true := by
    rw [hu]
    show (s.flags.signing || n.gopSei) = true
    rw [hn.sei, Bool.or_true]
  obtain ⟨t, hrec, hdec, kt⟩ : ∃ t, u.recurrentDecoded Γ.env = .ok t true ∧ Decoded u t ∧ Knows Γ { t with d := { t.d with hashAlgoKnown := true } } := by
    rcases hub.left with ⟨⟨-, hk⟩, -⟩ | ⟨⟨k1, k2, k3⟩, k4, k5, k6⟩
    · obtain ⟨t, ht, kt⟩ := hfirst u hub hk
      have hdec := findOptional_decoded Γ.env u n.tlvMem n.tlvSize
      rw [ht] at hdec
      refine ⟨t, ?_, hdec, kt⟩
      unfold Validator.recurrentDecoded
      rw [if_neg (by rw [hus, hk]; simp), hul]
      exact recurrentLoop_end h.quiet hitn mz.1 hits (by rw [mz.2.1, mz.2.2.1]; exact ht)
    · refine ⟨u, ?_, ⟨rfl, rfl, rfl, rfl, rfl, rfl, rfl, rfl, rfl, rfl, rfl, rfl, rfl, rfl, rfl, rfl, rfl, rfl, rfl, _, _, _, rfl⟩, rfl, k6, k5, k4, k1, k2, k3, hub.same, hub.max, hub.noList⟩
      unfold Validator.recurrentDecoded
      rw [if_pos (by rw [k1]; rfl)]
  obtain ⟨w, hw⟩ : ∃ w : Validator, w = { t with d := { t.d with hashAlgoKnown := true }, legacy := true, rep := { t.rep with acc := accumulatedInit } } := ⟨_, rfl⟩
  have hkw : Knows Γ w := by rw [hw]; exact kt.same_of rfl rfl rfl kt.same
  have halgo : u.hashAlgoBlock Γ.env s.opened.brk n = .ok w () := by
    unfold Validator.hashAlgoBlock
    rw [if_neg (by rw [hus, hub.known]; simp), hrec, Res.andThen_ok, if_neg (by decide)]
    dsimp only
    rw [if_neg (by rw [hn.golden]; decide), Res.andThen_ok, if_pos (by rw [hres, hn.golden]; decide), hw]
  have hmv : w.maybeValidate Γ.env n = .ok w () := by
    unfold Validator.maybeValidate
    rw [if_pos (by rw [hw])]
  have hbody : s.opened.addBody Γ.env n = .ok w () := by
    rw [Validator.addBody_entered (by omega), hreg, Res.andThen_ok, halgo, Res.andThen_ok, hmv]
  have wl : w.list = s.opened.list ++ [(s.opened.brk, it)] := by rw [hw]; exact hdec.list.trans hul
  have hcp : Validator.copyNalu w.d.hashAlgoKnown m = .ok (some { m with hashable := [], tlvMem := m.tlvMem.take m.tlvSize, tlvStart := [] }) := by
    rw [hkw.known]
    exact copyNalu_known (by rw [mz.2.1, mz.2.2.1]; exact hn.tlvLe) (by rw [mz.2.2.1]; exact hn.tlvSmall)
  have hcopy := Validator.copyLast_last (s := w) (l := s.opened.list) (a := s.opened.brk) (i := it) (n := m) wl hfr hitn hcp
  refine ⟨{ w with list := s.opened.list ++ [(s.opened.brk, { it with nalu := some { m with hashable := [], tlvMem := m.tlvMem.take m.tlvSize, tlvStart := [] }, taken := true })] }, _, ?_, ?_, ?_, ?_, ?_, ?_, rfl⟩
  · unfold Validator.add Validator.addH26x
    rw [if_neg hd]
    dsimp only
    rw [if_neg hd, if_neg (by rw [h0.legacy]; decide), h0.codec, hp]
    dsimp only
    unfold Validator.opened at hbody
    dsimp only at hbody
    rw [h0.codec] at hbody
    rw [hbody]
    dsimp only
    unfold Validator.addEnd
    rw [hcopy]
    simp only [Res.andThen_ok]
    rw [if_pos (by rw [hw])]
  · rw [hw]
  · exact hkw.same_of rfl rfl rfl hkw.same
  · show w.codec = _
    rw [hw]
    refine (hdec.codec : t.codec = u.codec).trans ?_
    rw [hu]; exact h.codec
  · rw [hw]
  · show w.rep.thisVersion = _
    rw [hw]
    refine (hdec.thisVersion : t.rep.thisVersion = u.rep.thisVersion).trans ?_
    rw [hu]; exact h.version

/-- The first SEI. -/
theorem before_sei (hΓ : Γ.Ok) (hkey : Γ.key ≠ []) {s : Session} (h : Before Γ s) {i : Info} {doc d : Bytes} {n m : Nalu} (hd : d ≠ [])
    (hp : parseNalu d Γ.codec true true = .ok n) (hn : IsOld Γ i doc n m) (hfirst : Validator.TellsFirst Γ n.tlvMem n.tlvSize) (hres : n.reserved = 0) :
    ∃ s' l, s.add Γ.env d = .ok s' none ∧ s'.leg = some l ∧ Due Γ true 0 none [] i doc l := by
  obtain ⟨v, it, e1, e2, e3, e4, e5, e6, e7⟩ := early_old hΓ h.early hd hp hn hfirst hres
  obtain ⟨l0, f1, f2⟩ := create_ready hΓ hkey e3 e4 e5 e6 (i.counter - 1)
  have hx : ∀ x ∈ s.v.list, x.2.nalu ≠ none ∧ ∃ y n, List.find? (fun y => decide (y.1 = x.1)) ((s.v.brk, d) :: s.raw) = some y ∧ y.2 ≠ [] ∧ parseNalu y.2 Γ.codec true true = .ok n ∧ Skips n := by
    intro x hx
    refine ⟨?_, ?_⟩
    · obtain ⟨k, hk, -⟩ := (h.early.quiet x hx).nalu
      rw [hk]; simp
    · have : x.1 ≠ s.v.brk := fresh_last h.early.wf x hx
      rw [List.find?_cons, show decide ((s.v.brk, d).1 = x.1) = false by simp; exact fun hc => this hc.symm]
      exact h.raw x hx
  obtain ⟨l1, g1, g2⟩ := replay_ready f2 hx
  obtain ⟨l2, k1, k2⟩ := ready_sei hΓ g2 hd hp hn (by rw [UInt32.sub_add_cancel])
  refine ⟨{ s with v := v, raw := (s.v.brk, d) :: s.raw, leg := some l2 }, l2, ?_, rfl, k2⟩
  unfold Session.add
  rw [h.leg]
  dsimp only
  rw [e1]
  dsimp only
  rw [if_pos e2, f1]
  dsimp only
  rw [e7, List.dropLast_concat, g1, Res.andThen_ok, k1]

end Old
end SV
