import Verif.Proofs.AuthLoop
import Verif.Proofs.AuthHang
/-! Progress of the validation loop: a round makes pending items validated, or ends in a stuck state. -/
namespace SV
namespace Validator

theorem detectLost_ok {env : AuthEnv} {a b : Validator} (h : a.detectLost env = .ok b ()) :
    b.d = a.d ∧ b.latestGop = a.latestGop ∧ b.synced = a.synced ∧ b.list = a.list ∧ b.brk = a.brk ∧
    (b.gop.lost = true → a.synced = true) ∧ (b.gop.lost = true → Ahead a) ∧ (env.ov ≠ .exact → b.gop.lost = false) := by
  by_cases ha : Ahead a
  · cases ho : env.ov with
    | strict => rw [C54_overflow env a ho ha] at h; cases h
    | wrap =>
      rw [C49_wrapping env a ho] at h
      cases h
      exact ⟨rfl, rfl, rfl, rfl, rfl, by simp, by simp, fun _ => rfl⟩
    | exact =>
      rw [C49_detect env a ho] at h
      cases h
      refine ⟨rfl, rfl, rfl, rfl, rfl, ?_, fun _ => ha, fun h => absurd rfl h⟩
      intro h
      simp only [Bool.and_eq_true] at h
      exact h.2
  · rw [C49_expected env a ha] at h
    cases h
    exact ⟨rfl, rfl, rfl, rfl, rfl, by simp, by simp, fun _ => rfl⟩

theorem prepareGopHash_ok {env : AuthEnv} {b c : Validator} {a : Nat} (h : b.prepareGopHash env a = .ok c ()) :
    c.d = b.d ∧ c.latestGop = b.latestGop ∧ c.synced = b.synced ∧ c.gop = b.gop ∧ c.flags = b.flags ∧ c.primary.isSome = true ∧
    c.key = b.key := by
  unfold prepareGopHash at h
  split at h
  · cases h
  · dsimp only at h
    split at h
    · cases h
    · cases h
    · cases h
      exact ⟨rfl, rfl, rfl, rfl, rfl, rfl, rfl⟩

theorem verifyHash_ok {env : AuthEnv} {c u : Validator} (h : c.verifyHash env = .ok u ()) :
    (∃ v, u = { c with verified := v }) ∧ c.d.maxSignature ≠ none ∧ c.d.signature ≠ [] ∧ c.key ≠ none := by
  unfold verifyHash at h
  split at h
  · cases h
  · rename_i hs
    split at h
    · cases h
    · rename_i k hk
      cases h
      refine ⟨⟨_, rfl⟩, fun hc => hs (.inl hc), fun hc => hs (.inr hc), ?_⟩
      rw [hk]; intro hc; cases hc

theorem prepared {env : AuthEnv} {s u : Validator} {x : Nat × Item} (w : WF s.list s.brk) (hx : nextSei s.list = some x)
    (h : s.prepare env = .ok u ()) : Prepared env s u x := by
  have hp := (prepare_prep env s).of_ok h
  obtain ⟨a, b, c, h1, h2, h3, h4, h5⟩ := prepare_ok hx h
  have hd := decodeNext_decoded w (nextSei_spec hx).1 h1
  have ha := (decodeNext_prep env s x).of_ok h1
  have wa : WF a.list a.brk := (ha.ev noStatus).wf w
  obtain ⟨b1, b2, b3, b4, b5, b6, b7, b8⟩ := detectLost_ok h2
  have hc := (prepareGopHash_prep env b x.1).of_ok h3
  obtain ⟨c1, c2, c3, c4, c5, c6, c7⟩ := prepareGopHash_ok h3
  have hcd : ∀ y ∈ c.list, y.1 = x.1 → y.2.decoded = true := by
    intro y hy e
    have wb : WF b.list b.brk := by rw [b4, b5]; exact wa
    have wc : WF c.list c.brk := (hc.ev noStatus).wf wb
    have hm : x.1 ∈ b.list.map Prod.fst := by
      rw [b4, ha.addr]; exact List.mem_map_of_mem (f := Prod.fst) (nextSei_spec hx).1
    obtain ⟨q, hq, hqe⟩ := List.mem_map.1 hm
    obtain ⟨z, hz, hze, hzk⟩ := hc.list.mem' hq
    have hqd : q.2.decoded = true := hd q (b4 ▸ hq) hqe
    rw [wc.unique hy hz (e.trans (hze.trans hqe).symm)]
    exact hzk.decoded hqd
  have hca : Ahead a → Ahead c := by
    unfold Ahead; rw [c1, c2, b1, b2]; exact id
  rcases h5 with ⟨h5, h6⟩ | ⟨h5, h6⟩
  · obtain ⟨⟨v, rfl⟩, v2⟩ := verifyHash_ok h6
    refine ⟨hp, hcd, c6, h4, fun _ => v2, ?_, ?_, ?_⟩
    · show c.gop.lost = true → c.synced = true
      rw [c4, c3, b3]; exact b6
    · show _ → c.gop.lost = true → Ahead c
      rw [c4]; exact fun _ h => hca (b7 h)
    · show _ → c.gop.lost = false
      rw [c4]; exact b8
  · subst h6
    refine ⟨hp, hcd, c6, h4, fun h => ?_, ?_, ?_, ?_⟩
    · rw [h5] at h; cases h
    · rw [c4, c3, b3]; exact b6
    · rw [c4]; exact fun _ h => hca (b7 h)
    · rw [c4]; exact b8

theorem verifyGop_ver {v t : Validator} {p : Bool × Int × Int} (w : WF v.list v.brk) (h : v.verifyGop = .ok t p) : Ver Valid v t := by
  unfold verifyGop at h
  split at h
  · obtain ⟨t', b, h1, h2⟩ := Res.andThen_eq_ok h
    cases h2
    exact ((withoutSei_ver v).of_ok h1).mono fun _ _ => Valid.of_plainN
  · obtain ⟨t', b, h1, h2⟩ := Res.andThen_eq_ok h
    cases h2
    have g := (withSei_ver w h1).1
    exact g.trans ⟨rfl, Ev.refl _ _⟩

/-- The list after a round that is not taken back. -/
theorem conclude_list {t : Validator} {p : Bool × Int × Int} (h : t.flags.first = false) :
    (t.conclude p).list = clearUsed t.list := by
  unfold conclude
  simp only [h, Bool.false_and, Bool.false_eq_true, if_false]

theorem conclude_flags {t : Validator} {p : Bool × Int × Int} (h : t.flags.first = false) :
    (t.conclude p).flags = t.flags := by
  unfold conclude
  simp only [h, Bool.false_and, Bool.false_eq_true, if_false]

theorem clearUsed_pend (l : NList) : pend (clearUsed l) = pend l := by
  unfold pend clearUsed
  induction l with
  | nil => rfl
  | cons x l ih =>
    rw [List.map_cons, List.filter_cons, List.filter_cons]
    dsimp only
    split
    · rw [List.map_cons, List.map_cons, ih]
    · exact ih

theorem updateLinkLoop_prep {s s' : Validator} {l : NList} (h : updateLinkLoop s l = .ok s') :
    Grow noStatus s.list s'.list ∧ s'.list.map Prod.fst = s.list.map Prod.fst ∧
    s' = { s with linked := s'.linked, list := s'.list } := by
  rcases updateLinkLoop_eq h with e | ⟨lk, a, e⟩
  · rw [e]; exact ⟨Grow.refl _ _, rfl, rfl⟩
  · rw [e]
    refine ⟨?_, ?_, rfl⟩
    · dsimp only
      exact Grow.set fun y _ _ => ⟨rfl, rfl, rfl, id, .inl rfl⟩
    · dsimp only
      exact set_addr _ _ _

theorem scanStep_congr {sg : Bool} {c : Scan} {x y : Item} (hn : x.nalu = y.nalu) (hs : x.status = y.status) :
    scanStep sg c x = scanStep sg c y := by
  unfold scanStep; rw [hn, hs]

theorem scan_congr {sg : Bool} {c : Scan} {l l' : NList}
    (h : l.map (fun x => (x.2.nalu, x.2.status)) = l'.map (fun x => (x.2.nalu, x.2.status))) : scan sg l c = scan sg l' c := by
  induction l generalizing l' c with
  | nil => cases l' with
    | nil => rfl
    | cons y r => cases h
  | cons x r ih =>
    cases l' with
    | nil => cases h
    | cons y r' =>
      simp only [List.map_cons, List.cons.injEq, Prod.mk.injEq] at h
      unfold scan
      rw [scanStep_congr h.1.1 h.1.2, ih h.2]

/-- A round of a signed stream, not the first validation: the number of pending items is reduced, or the session is stuck
as soon as a GOP is found pending again. -/
theorem round_progress {env : AuthEnv} {s s' : Validator} (w : WF s.list s.brk) (hs : s.flags.signing = true)
    (hf : s.flags.first = false) (hp : s.hasPending.2 = true) (h : s.hasPending.1.round env = .ok s' ()) :
    numPending s'.list < numPending s.list ∨ (env.ov = .exact ∧ (s'.hasPending.2 = true → Stuck s')) := by
  obtain ⟨x, hx⟩ := hasPending_sei hs hp
  have h0 : s.hasPending.1.flags = s.flags := rfl
  obtain ⟨u, v, t, p, h1, h2, h3, rfl⟩ := round_ok (s := s.hasPending.1) hs h
  have hx0 : nextSei s.hasPending.1.begin.list = some x := by rw [begin_list]; exact hx
  have w0 : WF s.hasPending.1.begin.list s.hasPending.1.begin.brk := by rw [begin_list, begin_brk]; exact w
  have hu := prepared w0 hx0 h1
  obtain ⟨v1, v2, v3⟩ := updateLinkLoop_prep h2
  have wu : WF u.list u.brk := (hu.prep.ev noStatus).wf w0
  have wv : WF v.list v.brk := by rw [v3]; exact (Evolves.same _ v1 v2).wf wu
  have hvp : pend v.list = pend s.list := by
    have e1 : pend u.list = pend s.list := by rw [hu.prep.pend, begin_list]; rfl
    rw [v1.pend_eq, e1]
  have hvx : (nextSei v.list).map Prod.fst = some x.1 := by
    rw [Grow.nextSei v1, Grow.nextSei hu.prep.list, hx0]; rfl
  obtain ⟨y, hy, hyx⟩ : ∃ y, nextSei v.list = some y ∧ y.1 = x.1 := by
    cases hn : nextSei v.list with
    | none => rw [hn] at hvx; cases hvx
    | some y => rw [hn] at hvx; exact ⟨y, rfl, by simpa using hvx⟩
  have hvf : v.flags = s.flags := by
    rw [v3]; exact hu.prep.flags.trans ((begin_flags _).trans h0)
  have ht := verifyGop_ver wv h3
  have htf : t.flags = s.flags := by rw [ht.eq]; exact hvf
  have hl : ((t.conclude p).finish).list = clearUsed t.list := conclude_list (htf ▸ hf)
  have hcf : (t.conclude p).flags = t.flags := conclude_flags (htf ▸ hf)
  have hnp : numPending ((t.conclude p).finish).list = numPending t.list := by
    rw [hl, ← pend_length, ← pend_length, clearUsed_pend]
  rw [hnp]
  unfold verifyGop at h3
  split at h3
  · rename_i hlost
    rw [Bool.and_eq_true] at hlost
    obtain ⟨t', b, h4, h5⟩ := Res.andThen_eq_ok h3
    cases h5
    unfold withoutSei at h4
    cases hm : markLoop v.list with
    | ub e => rw [hm] at h4; cases h4
    | err e => rw [hm] at h4; cases h4
    | ok q =>
      obtain ⟨q, k, f⟩ := q
      rw [hm] at h4
      cases h4
      have hc := markLoop_count hm
      have e : numPending v.list = numPending s.list := by rw [← pend_length, ← pend_length, hvp]
      by_cases hk : k = 0
      · subst hk
        have hgop : v.gop = u.gop := by rw [v3]
        have hul : u.gop.lost = true := hgop ▸ hlost.1
        have hex : env.ov = .exact := by
          cases ho : env.ov with
          | exact => rfl
          | strict => exact absurd hul (by rw [hu.wrap (by rw [ho]; decide)]; decide)
          | wrap => exact absurd hul (by rw [hu.wrap (by rw [ho]; decide)]; decide)
        refine .inr ⟨hex, fun hpend => ?_⟩
        obtain ⟨z1, z2⟩ := markLoop_zero hm
        subst z1
        have z3 : ∃ pre x rest n, v.list = pre ++ x :: rest ∧ (∀ y ∈ pre, y.2.status ≠ .P) ∧ x.2.status = .P ∧
            x.2.nalu = some n ∧ n.gopSei = true := by
          rcases z2 with z2 | z2
          · have : x.1 ∈ pend s.list := mem_pend.2 ⟨x, (nextSei_spec hx).1, rfl, (nextSei_spec hx).2.1⟩
            rw [← hvp, z2] at this
            cases this
          · exact z2
        obtain ⟨pre, z, rest, n, zl, zp, zs, zn, zg⟩ := z3
        have hz : z.2.decoded = true := by
          have e1 : nextSei v.list = some z := by rw [zl]; exact nextSei_at zp zs zn zg
          rw [e1] at hy
          cases hy
          have hzm : y ∈ v.list := (nextSei_spec e1).1
          have : x.1 ∈ u.list.map Prod.fst := by
            rw [← v2]; exact hyx ▸ List.mem_map_of_mem (f := Prod.fst) hzm
          obtain ⟨q, hq, hqe⟩ := List.mem_map.1 this
          obtain ⟨r, hr, hre, hrk⟩ := v1.mem' hq
          rw [wv.unique hzm hr ((hyx.trans hqe.symm).trans hre.symm)]
          exact hrk.decoded (hu.decoded q hq hqe)
        have hsig : v.flags.signing = true := by rw [hvf]; exact hs
        have hvs : (clearUsed v.list).map (fun x => (x.2.nalu, x.2.status)) = s.list.map (fun x => (x.2.nalu, x.2.status)) := by
          have e1 : s.hasPending.1.begin.list = s.list := begin_list _
          rw [← e1, (((hu.prep.list.trans v1).trans (clearUsed_grow noStatus v.list)).same_of_length ?_)]
          rw [← List.length_map (f := Prod.fst), ← List.length_map (f := Prod.fst), clearUsed_addr, v2, hu.prep.addr]
        constructor
        · change (conclude _ _).flags.signing = true
          rw [hcf]; exact hsig
        · change (!(conclude _ _).flags.signing) = false
          rw [hcf]
          change (!v.flags.signing) = false
          rw [hsig]; rfl
        · show (if v.flags.first = true then _ else true) = true
          rw [hvf, hf]; rfl
        · show v.d.gopCounter.toNat > ((if v.flags.signing && decide (0 > 0) then v.latestGop + 1 else v.latestGop) + 1).toNat
          have := hu.ahead hex hul
          simp only [gt_iff_lt, Nat.lt_irrefl, decide_false, Bool.and_false, Bool.false_eq_true, if_false]
          rw [v3]; exact this
        · intro hc
          have : v.primary = none := hc
          rw [v3] at this
          have := this ▸ hu.primary
          cases this
        · show v.d.hasPublicKey = true
          rw [v3]; exact hu.hasKey (by rw [hu.prep.flags, begin_flags]; exact hs)
        · show (scan true ((conclude _ _).finish).list {}).hasSei = true → v.d.maxSignature ≠ none ∧ v.d.signature ≠ [] ∧ v.key ≠ none
          rw [hl, scan_congr hvs, v3]
          intro hsei
          refine hu.sig ?_
          rw [hu.prep.hasSei, begin_gop]
          show (scan s.flags.signing s.list {}).hasSei = true
          rw [hs]; exact hsei
        · intro y hy
          rw [hl] at hy
          obtain ⟨z, -, rfl⟩ := List.mem_map.1 hy
          rfl
        · have hsg : (conclude _ _).finish.flags.signing = true := (congrArg VFlags.signing hcf).trans hsig
          change (scan (conclude _ _).finish.flags.signing _ {}).found = true at hpend
          rw [hsg] at hpend
          exact hpend
        · rw [hl]
          show ∃ pre x rest n, clearUsed v.list = _ ∧ _
          rw [zl]
          refine ⟨clearUsed pre, (z.1, { z.2 with used := false }), clearUsed rest, n, ?_, ?_, zs, zn, zg, hz⟩
          · unfold clearUsed; rw [List.map_append, List.map_cons]
          · intro y hy
            obtain ⟨w, hw, rfl⟩ := List.mem_map.1 hy
            exact zp w hw
      · left
        show numPending q < _
        omega
  · obtain ⟨t', b, h4, h5⟩ := Res.andThen_eq_ok h3
    cases h5
    left
    have g := withSei_ver wv h4
    show numPending t'.list < _
    rw [← pend_length, ← pend_length, ← hvp]
    refine sublist_lt (g.1.ev.grow.pend not_valid_P) ?_ (g.2 y hy)
    exact mem_pend.2 ⟨y, (nextSei_spec hy).1, rfl, (nextSei_spec hy).2.1⟩

end Validator
end SV
