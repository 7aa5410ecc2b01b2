import Verif.Props.LegacyGood
/-! C63: a SEI of the older format that cannot be decoded stops the validation. -/
namespace SV
namespace Legacy

/-- A TLV whose header cannot be read, or a general TLV with a version above 2, comes up among the TLVs. -/
def refused : (fuel : Nat) → Bytes → Nat → Bool
  | 0, _, _ => false
  | fuel + 1, mem, size =>
    decide (size ≠ 0) &&
    match decHeader mem with
    | .ok (t, n, h) =>
      (decide (t = tagGeneral) && (match rd8 (mem.drop h) with | .ok (v, _) => decide (v > 2) | _ => false)) ||
        refused fuel ((mem.drop h).drop n) (size - h - n)
    | _ => true

theorem refused_loop {env : AuthEnv} (fuel : Nat) {mem : Bytes} {size : Nat} (h : refused fuel mem size = true) {v w : Validator}
    (e : tlvLoop env fuel v mem size = .ok w ()) : False := by
  induction fuel generalizing v mem size with
  | zero => cases h
  | succ fuel ih =>
    unfold refused at h
    unfold tlvLoop at e
    rw [Bool.and_eq_true] at h
    rw [if_neg (by simpa using h.1)] at e
    have h2 := h.2
    generalize decHeader mem = d at h2 e
    cases d with
    | ub u => cases e
    | err e' => cases e
    | ok p =>
      obtain ⟨t, n, k⟩ := p
      dsimp only at h2 e
      obtain ⟨v', _, e1, e2⟩ := Res.andThen_eq_ok e
      rw [Bool.or_eq_true, Bool.and_eq_true] at h2
      rcases h2 with ⟨ht, hv⟩ | hr
      · unfold decTag at e1
        rw [if_pos (by simpa using ht)] at e1
        generalize rd8 (mem.drop k) = x at hv e1
        cases x with
        | ub u => cases hv
        | err _ => cases hv
        | ok y =>
          dsimp only at hv e1
          rw [if_pos (by simpa using hv)] at e1
          cases e1
      · exact ih hr e2

/-- The first pending SEI of a session is refused. -/
structure Blocked (s : Legacy) : Prop where
  below : ∀ y ∈ s.list, y.1 < s.brk
  signing : s.v.flags.signing = true
  sei : ∃ x n, nextSei s.list = some x ∧ x.2.nalu = some n ∧ x.2.decoded = false ∧ refused n.tlvSize n.tlvMem n.tlvSize = true

/-- What a call leaves of the list: the items before it, and its own one at the end; and, if `b`, that its NAL
unit is not taken for the first SEI. -/
def Grown (b : Bool) (s t : Legacy) : Prop :=
  ∃ i, t.list = s.list ++ [(s.brk, i)] ∧ t.brk = s.brk + 1 ∧ t.v.flags.signing = true ∧ (b = true → t.v.flags.firstSei = false) ∧ t.v.flags.hasAuth = false

theorem set_last {l : LList} {a : Nat} (h : ∀ y ∈ l, y.1 < a) (i : LItem) (f : LItem → LItem) : LList.set (l ++ [(a, i)]) a f = l ++ [(a, f i)] := by
  unfold LList.set
  rw [List.map_append, List.map_congr_left (g := id)]
  · simp
  · intro y hy
    have := h y hy
    rw [if_neg (by omega)]; rfl

theorem Grown.blocked {b : Bool} {s t : Legacy} (h : Blocked s) (g : Grown b s t) : Blocked t := by
  obtain ⟨i, g1, g2, g3, -, -⟩ := g
  refine ⟨?_, g3, ?_⟩
  · intro y hy
    rw [g1] at hy
    rw [g2]
    rcases List.mem_append.1 hy with hy | hy
    · have := h.below y hy; omega
    · rw [List.mem_singleton] at hy; rw [hy]; simp
  · obtain ⟨x, n, h1, h2⟩ := h.sei
    refine ⟨x, n, ?_, h2⟩
    unfold nextSei at h1 ⊢
    rw [g1, List.find?_append, h1]
    rfl

theorem Blocked.prepare_err {env : AuthEnv} {s : Legacy} (h : Blocked s) : (∃ u, s.prepare env = .ub u) ∨
    ∃ t e, s.prepare env = .err t e ∧ t.list = s.list ∧ t.brk = s.brk ∧ t.v.flags = s.v.flags := by
  obtain ⟨x, n, h1, h2, h3, h4⟩ := h.sei
  rw [prepare_eq]
  have hr : (∃ u, s.readNext env = .ub u) ∨
      ∃ t e, s.readNext env = .err t e ∧ t.list = s.list ∧ t.brk = s.brk ∧ t.v.flags = s.v.flags := by
    unfold readNext
    rw [h1]
    dsimp only
    unfold decodeNext
    rw [h3, h2]
    dsimp only
    rw [if_neg (by simp)]
    unfold decodeSei
    split
    · exact .inl ⟨_, rfl⟩
    · rename_i hz
      dsimp only
      have hd := tlvDecode_decoded env s.v n.tlvMem n.tlvSize
      have hn : ∀ w, tlvDecode env s.v n.tlvMem n.tlvSize ≠ .ok w () := by
        intro w e
        unfold tlvDecode at e
        rw [if_neg hz] at e
        exact refused_loop _ h4 e
      generalize tlvDecode env s.v n.tlvMem n.tlvSize = d at hd hn
      cases d with
      | ok w _ => exact absurd rfl (hn w)
      | err w e => exact .inr ⟨_, _, rfl, rfl, rfl, hd.flags⟩
      | ub u => exact .inl ⟨_, rfl⟩
  rcases hr with ⟨u, hr⟩ | ⟨t, e, hr, g⟩
  · rw [hr]; exact .inl ⟨_, rfl⟩
  · rw [hr]; exact .inr ⟨_, _, rfl, g⟩

theorem register_grown {env : AuthEnv} {s t : Legacy} {n : Nalu} (h : Blocked s) (g : Grown true s t) : (t.register env s.brk n).Ends (Grown true s) := by
  obtain ⟨i, g1, g2, g3, g4, g5⟩ := g
  unfold register
  split
  · trivial
  · split
    · exact ⟨i, g1, g2, g3, g4, g5⟩
    · split
      · trivial
      · exact ⟨i, g1, g2, g3, g4, g5⟩
      · rename_i m hm
        refine (hashItem_frame env _ s.brk m).mono fun w hw => ?_
        obtain ⟨b, r, f, rfl, hf⟩ := hw
        refine ⟨f { i with nalu := some m }, ?_, g2, g3, g4, g5⟩
        dsimp only
        rw [g1, set_last h.below, set_last h.below]

theorem recurrent_grown {env : AuthEnv} {s t : Legacy} (g : Grown true s t) : (t.recurrentDecoded env).Ends (Grown true s) := by
  obtain ⟨i, g1, g2, g3, g4, g5⟩ := g
  refine (recurrentDecoded_frame env t).mono fun w hw => ⟨i, ?_, ?_, ?_, ?_, ?_⟩
  · rw [hw.1]; exact g1
  · rw [hw.1]; exact g2
  · rw [hw.2.flags]; exact g3
  · intro _; rw [hw.2.flags]; exact g4 rfl
  · rw [hw.2.flags]; exact g5

theorem rounds_grown {env : AuthEnv} {s t : Legacy} (h : Blocked s) (g : Grown true s t) (k : Nat) : (t.rounds env k).Ends (Grown true s) := by
  have hb := g.blocked h
  cases k with
  | zero => trivial
  | succ k =>
    unfold rounds
    split
    · have hbb : Blocked t.hasPending.1.begin := ⟨hb.below, hb.signing, hb.sei⟩
      rcases hbb.prepare_err (env := env) with ⟨u, hu⟩ | ⟨w, e, hw, hf⟩
      · have : t.hasPending.1.round env = .ub u := by
          unfold round; rw [hu]; rfl
        rw [this]
        trivial
      · have : t.hasPending.1.round env = .err w e := by
          unfold round; rw [hw]; rfl
        rw [this]
        obtain ⟨i, g1, g2, g3, g4, g5⟩ := g
        refine ⟨i, hf.1.trans g1, hf.2.1.trans g2, ?_, ?_, ?_⟩
        · rw [hf.2.2]; exact g3
        · intro b; rw [hf.2.2]; exact g4 b
        · rw [hf.2.2]; exact g5
    · exact g

theorem maybeValidate_grown {env : AuthEnv} {s t : Legacy} (h : Blocked s) (g : Grown true s t) : (t.maybeValidate env).Ends (Grown true s) := by
  unfold maybeValidate
  split
  · trivial
  · exact g
  · refine Res.Ends.andThen' (recurrent_grown g) fun w ok _ hw => ?_
    have hf : w.v.flags.firstSei = false := by obtain ⟨_, -, -, -, e, -⟩ := hw; exact e rfl
    split
    · rw [hf]; exact hw
    · split
      · trivial
      · exact rounds_grown h hw _

theorem addEnd_grown {b : Bool} {s t : Legacy} (h : Blocked s) (g : Grown b s t) (e : Option Rc) : (t.addEnd s.brk e).Ends (Grown b s) := by
  have hc : ∀ {w : Legacy}, Grown b s w → w.copyLast.Ends (Grown b s) := by
    intro w hw
    unfold copyLast
    obtain ⟨i, g1, g2, g3⟩ := hw
    split
    · trivial
    · rename_i x hx
      rw [g1, List.getLast?_append] at hx
      simp at hx
      subst hx
      split
      · exact ⟨i, g1, g2, g3⟩
      · split
        · trivial
        · exact ⟨i, g1, g2, g3⟩
        · rename_i c hc
          refine ⟨{ i with nalu := c }, ?_, g2, g3⟩
          dsimp only
          rw [g1, set_last h.below]
  have hm : ∀ {w : Legacy}, Grown b s w → Grown b s w.markLast := by
    intro w hw
    unfold markLast
    obtain ⟨i, g1, g2, g3⟩ := hw
    split
    · exact ⟨i, g1, g2, g3⟩
    · rename_i x hx
      rw [g1, List.getLast?_append] at hx
      simp at hx
      subst hx
      refine ⟨{ i with status := .E }, ?_, g2, g3⟩
      dsimp only
      rw [g1, set_last h.below]
  have hb : ∀ {w : Legacy}, Grown b s w → Grown b s (w.bury s.brk) := by
    intro w hw
    unfold bury
    have hl : (w.list.getLast?.map fun x => x.1) = some s.brk := by
      obtain ⟨i, g1, -⟩ := hw
      rw [g1, List.getLast?_append]
      rfl
    rw [if_pos hl]
    exact hw
  unfold addEnd
  refine Res.Ends.andThen' (hc g) fun w e2 _ hw => ?_
  split
  · exact hb hw
  · exact hb (hm hw)

theorem addH26x_grown {env : AuthEnv} {s : Legacy} (h : Blocked s) (data : Bytes) :
    (∀ t r, s.addH26x env data = .ok t r → Grown false s t) ∧ (∀ t e, s.addH26x env data = .err t e → t = s ∨ Grown false s t) := by
  have ends : ∀ {r : Res Legacy Unit}, r.Ends (Grown false s) → (∀ t a, r = .ok t a → Grown false s t) ∧ (∀ t e, r = .err t e → t = s ∨ Grown false s t) :=
    fun hr => ⟨fun t a ht => by rw [ht] at hr; exact hr, fun t e ht => by rw [ht] at hr; exact .inr hr⟩
  have stay : ∀ {e : Rc}, (∀ t a, (.err s e : Res Legacy Unit) = .ok t a → Grown false s t) ∧ (∀ t e', (.err s e : Res Legacy Unit) = .err t e' → t = s ∨ Grown false s t) :=
    ⟨fun t a ht => (by cases ht), fun t e ht => (by cases ht; exact .inl rfl)⟩
  have bad : ∀ {u : Ub}, (∀ t a, (.ub u : Res Legacy Unit) = .ok t a → Grown false s t) ∧ (∀ t e', (.ub u : Res Legacy Unit) = .err t e' → t = s ∨ Grown false s t) :=
    ⟨fun t a ht => (by cases ht), fun t e ht => (by cases ht)⟩
  unfold addH26x
  split
  · exact stay
  · split
    · exact bad
    · exact stay
    · rename_i n hp
      have hb : (Legacy.addBody env { s with v := { s.v with
          flags := { s.v.flags with hasAuth := false }
          rep := { s.v.rep with acc := { s.v.rep.acc with received := s.v.rep.acc.received + 1 } } } } n).Ends (Grown false s) := by
        unfold addBody
        dsimp only
        split
        · exact ⟨_, rfl, rfl, h.signing, nofun, rfl⟩
        · have g0 : Grown true s { s with list := s.list ++ [(s.brk, LItem.new n)], brk := s.brk + 1, v := { s.v with
              flags := { s.v.flags with hasAuth := false, firstSei := !s.v.flags.signing && n.gopSei, signing := s.v.flags.signing || n.gopSei }
              rep := { s.v.rep with acc := { s.v.rep.acc with received := s.v.rep.acc.received + 1 } } } } :=
            ⟨_, rfl, rfl, by dsimp only; rw [h.signing]; rfl, by intro _; dsimp only; rw [h.signing]; rfl, rfl⟩
          refine (Res.Ends.andThen' (register_grown (n := n) h g0) fun w _ _ hw => maybeValidate_grown h hw).mono fun t ht => ?_
          obtain ⟨i, a, b, c, -, d⟩ := ht
          exact ⟨i, a, b, c, nofun, d⟩
      dsimp only
      split
      · exact bad
      · rename_i t e he
        rw [he] at hb
        exact ends (addEnd_grown h hb (some e))
      · rename_i t u he
        rw [he] at hb
        exact ends (addEnd_grown h hb none)

/-- No call hands out a report in such a session, and it stays as it is. -/
theorem add_blocked {env : AuthEnv} {s : Legacy} (h : Blocked s) (data : Bytes) :
    (∀ t r, s.add env data = .ok t r → Blocked t ∧ r = none) ∧ (∀ t e, s.add env data = .err t e → Blocked t) := by
  unfold add
  by_cases hd : data = []
  · rw [if_pos hd]
    exact ⟨fun t r he => (by cases he), fun t e he => (by cases he; exact h)⟩
  · rw [if_neg hd]
    have hg := addH26x_grown (env := env) h data
    generalize s.addH26x env data = x at hg
    cases x with
    | ub u => exact ⟨fun t r he => (by cases he), fun t e he => (by cases he)⟩
    | err w e =>
      refine ⟨fun t r he => (by cases he), fun t e he => ?_⟩
      cases he
      rcases hg.2 _ _ rfl with rfl | g
      · exact h
      · exact g.blocked h
    | ok w u =>
      have hw := hg.1 _ _ rfl
      have hr : w.report = .ok w none := by
        obtain ⟨_, -, -, -, -, e⟩ := hw
        unfold report
        rw [e]; rfl
      rw [Res.andThen_ok, hr]
      exact ⟨fun t r he => (by cases he; exact ⟨hw.blocked h, rfl⟩), fun t e he => (by cases he)⟩

end Legacy
open Legacy

theorem Session.call_blocked {env : AuthEnv} {s : Session} {l : Legacy} (hl : s.leg = some l) (h : Blocked l) {c : AuthCall} (hc : c ≠ .reset) :
    (∀ t r, s.call env c = .ok t r → (∃ l, t.leg = some l ∧ Blocked l) ∧ r = none) ∧
      (∀ t e, s.call env c = .err t e → ∃ l, t.leg = some l ∧ Blocked l) := by
  cases c with
  | reset => exact absurd rfl hc
  | publicKey k =>
    show (∀ t r, (match s.v.setPublicKey env k with
      | .ok v _ => .ok { s with v := v } none | .err v e => .err { s with v := v } e | .ub u => .ub u : Res Session (Option Report)) = _ → _) ∧
      (∀ t e, (match s.v.setPublicKey env k with
      | .ok v _ => .ok { s with v := v } none | .err v e => .err { s with v := v } e | .ub u => .ub u : Res Session (Option Report)) = _ → _)
    generalize s.v.setPublicKey env k = x
    cases x with
    | ok v _ => exact ⟨fun t r he => (by cases he; exact ⟨⟨l, hl, h⟩, rfl⟩), fun t e he => (by cases he)⟩
    | err v e => exact ⟨fun t r he => (by cases he), fun t e he => (by cases he; exact ⟨l, hl, h⟩)⟩
    | ub u => exact ⟨fun t r he => (by cases he), fun t e he => (by cases he)⟩
  | nalu d =>
    have hb := add_blocked (env := env) h d
    unfold Session.call Session.add
    rw [hl]
    dsimp only
    generalize l.add env d = x at hb
    cases x with
    | ok v _ => exact ⟨fun t r he => (by cases he; have := hb.1 _ _ rfl; exact ⟨⟨_, rfl, this.1⟩, this.2⟩), fun t e he => (by cases he)⟩
    | err v e => exact ⟨fun t r he => (by cases he), fun t e he => (by cases he; exact ⟨_, rfl, hb.2 _ _ rfl⟩)⟩
    | ub u => exact ⟨fun t r he => (by cases he), fun t e he => (by cases he)⟩

theorem Session.run_blocked {env : AuthEnv} {cs : List AuthCall} : ∀ {s s' : Session} {l : Legacy} {os : List AObs}, s.leg = some l → Blocked l →
    (∀ c ∈ cs, c ≠ .reset) → s.run env cs = .ok (s', os) → ∀ o ∈ os, o.report = none := by
  induction cs with
  | nil => intro s s' l os _ _ _ h; cases h; intro o ho; cases ho
  | cons c cs ih =>
    intro s s' l os hl hb hc h
    have h1 := s.call_blocked (env := env) hl hb (hc c (List.mem_cons_self ..))
    unfold Session.run Session.step at h
    generalize s.call env c = x at h1 h
    cases x with
    | ub u => cases h
    | ok t r =>
      obtain ⟨⟨l', g1, g2⟩, rfl⟩ := h1.1 _ _ rfl
      dsimp only [bind, Out.bind] at h
      split at h
      · rename_i p hp
        cases h
        intro o ho
        rcases List.mem_cons.1 ho with rfl | ho
        · rfl
        · exact ih g1 g2 (fun c hcc => hc c (List.mem_cons_of_mem _ hcc)) hp o ho
      · cases h
      · cases h
    | err t e =>
      obtain ⟨l', g1, g2⟩ := h1.2 _ _ rfl
      dsimp only [bind, Out.bind] at h
      split at h
      · rename_i p hp
        cases h
        intro o ho
        rcases List.mem_cons.1 ho with rfl | ho
        · rfl
        · exact ih g1 g2 (fun c hcc => hc c (List.mem_cons_of_mem _ hcc)) hp o ho
      · cases h
      · cases h

/-- Is the first pending SEI of a session refused?  As `Blocked`, to be evaluated. -/
def Legacy.blocked (s : Legacy) : Bool :=
  s.list.all (fun y => y.1 < s.brk) && s.v.flags.signing &&
  match nextSei s.list with
  | none => false
  | some x =>
    match x.2.nalu with
    | none => false
    | some n => !x.2.decoded && refused n.tlvSize n.tlvMem n.tlvSize

theorem Legacy.blocked_sound {s : Legacy} (h : s.blocked = true) : Blocked s := by
  unfold Legacy.blocked at h
  simp only [Bool.and_eq_true, List.all_eq_true, decide_eq_true_eq] at h
  obtain ⟨⟨h1, h2⟩, h3⟩ := h
  refine ⟨h1, h2, ?_⟩
  split at h3
  · cases h3
  · rename_i x hx
    split at h3
    · cases h3
    · rename_i n hn
      simp only [Bool.and_eq_true, Bool.not_eq_true'] at h3
      exact ⟨x, n, hx, hn, h3.1, h3.2⟩

/-- A signed stream of the older format in which one byte of the second SEI, the version of the general TLV, was changed. -/
def spoiltStream (rest : String) : List Bytes :=
  let l := legSigned true ("IPPI" ++ rest)
  let b := l.getD 4 []
  l.set 4 (b.take 26 ++ [9] ++ b.drop 27)

/-- **C63 does not hold.** One changed byte in one SEI of a stream of the older format stops the validation: whatever follows, no
later call hands out a report until the session is reset. -/
theorem C63_recovery_false :
    ∃ s os, Session.run polyEnv (newSession polyEnv .h264) (((spoiltStream "").take 5).map .nalu) = .ok (s, os) ∧
      toyReports os = [("SI", ".P", .ok)] ∧
      ∀ cs s' os', (∀ c ∈ cs, c ≠ .reset) → s.run polyEnv cs = .ok (s', os') → ∀ o ∈ os', o.report = none := by
  obtain ⟨s, os, h, hp⟩ := legCheck polyEnv (newSession polyEnv .h264) (((spoiltStream "").take 5).map .nalu)
    (fun s os => (match s.leg with | some l => l.blocked | none => false) && toyReports os == [("SI", ".P", .ok)]) (by decide +kernel)
  simp only [Bool.and_eq_true, beq_iff_eq] at hp
  refine ⟨s, os, h, hp.2, fun cs s' os' hc hr => ?_⟩
  have hb := hp.1
  cases hl : s.leg with
  | none => rw [hl] at hb; cases hb
  | some l =>
    rw [hl] at hb
    exact Session.run_blocked hl (Legacy.blocked_sound hb) hc hr

/-- The rest of that stream does run, without undefined behaviour; it has three untouched GOPs. -/
example : ∃ s os, Session.run polyEnv (newSession polyEnv .h264) ((spoiltStream "PPIPPIPPI").map .nalu) = .ok (s, os) ∧
    toyReports os = [("SI", ".P", .ok)] := by
  obtain ⟨s, os, h, hp⟩ := legCheck polyEnv (newSession polyEnv .h264) ((spoiltStream "PPIPPIPPI").map .nalu)
    (fun _ os => toyReports os == [("SI", ".P", .ok)]) (by decide +kernel)
  exact ⟨s, os, h, by simpa using hp⟩

end SV
