import Verif.Proofs.LegacyDots
/-! How NAL units get the status '.' in a call of the session for the older format. -/
namespace SV
namespace Legacy

/-- A round of the loop that starts in `s` verifies in the state `u`. -/
inductive Visits (env : AuthEnv) : Legacy → Legacy → Prop
  | here {s u : Legacy} : s.hasPending.2 = true → s.hasPending.1.begin.prepare env = .ok u () → Visits env s u
  | next {s t u : Legacy} : s.hasPending.2 = true → s.hasPending.1.round env = .ok t () → Visits env t u → Visits env s u

/-- The state in which a call for a NAL unit enters the loop of `legacy_maybe_validate_gop`, if it does. -/
def atLoop (env : AuthEnv) (s : Legacy) (data : Bytes) : Option Legacy :=
  if data = [] then none
  else match parseNalu data s.v.codec true true with
    | .ok n =>
      let s := { s with v := { s.v with
        flags := { s.v.flags with hasAuth := false }
        rep := { s.v.rep with acc := { s.v.rep.acc with received := s.v.rep.acc.received + 1 } } } }
      let a := s.brk
      let s := { s with list := s.list ++ [(a, LItem.new n)], brk := a + 1 }
      if n.valid < 0 then none
      else
        let s := { s with v := { s.v with flags := { s.v.flags with
          firstSei := !s.v.flags.signing && n.gopSei, signing := s.v.flags.signing || n.gopSei } } }
        match s.register env a n with
        | .ok s _ =>
          match feasible s.list with
          | .ok f =>
            match s.recurrentDecoded env with
            | .ok s ok => if (f && ok) = true ∧ s.list.any (fun x => x.2.dead) = false then some s else none
            | _ => none
          | _ => none
        | _ => none
    | _ => none

/-- The items that get the status '.' are at addresses with a property. -/
def Made (R : Nat → Prop) (l l' : LList) : Prop :=
  ∀ y ∈ l', y.2.status = .ok → (∃ x ∈ l, x.1 = y.1 ∧ x.2.status = .ok) ∨ R y.1

theorem Made.of_quiet {R : Nat → Prop} {l l' : LList} (h : Quiet l l') : Made R l l' := by
  intro y hy hs
  obtain ⟨x, hx, e, h1⟩ := h y hy hs
  rcases h1 with h1 | h1
  · exact .inl ⟨x, hx, e, h1⟩
  · exact h1.elim

theorem Made.refl (R : Nat → Prop) (l : LList) : Made R l l := Made.of_quiet (Dots.refl _ _)

theorem Made.trans {R : Nat → Prop} {l m n : LList} (h : Made R l m) (g : Made R m n) : Made R l n := by
  intro y hy hs
  rcases g y hy hs with ⟨x, hx, e, h1⟩ | h1
  · rw [← e]; exact h x hx h1
  · exact .inr h1

theorem Made.mono {R T : Nat → Prop} {l m : LList} (h : Made R l m) (hr : ∀ a, R a → T a) : Made T l m :=
  fun y hy hs => (h y hy hs).imp id (hr _)

theorem Made.of_dots {Q : Nat × LItem → Prop} {R : Nat → Prop} {l l' : LList} (h : Dots Q l l') (hr : ∀ x ∈ l, Q x → R x.1) : Made R l l' := by
  intro y hy hs
  obtain ⟨x, hx, e, h1⟩ := h y hy hs
  rcases h1 with h1 | h1
  · exact .inl ⟨x, hx, e, h1⟩
  · rw [← e]; exact .inr (hr x hx h1)

/-- The item at an address is vouched for in a verification, in the state `u`, of a SEI with a correct signature. -/
structure Signed (env : AuthEnv) (u : Legacy) (a : Nat) : Prop where
  item : ∃ x ∈ u.list, x.1 = a ∧ Vouched u x
  signature : ∃ k, u.v.key = some k ∧ env.verify k u.v.d.signature (buf u.v.d.hashSize u.v.sigHash) = 1

theorem round_made {env : AuthEnv} {s t : Legacy} (hv : s.v.verified ≠ 1) (h : s.round env = .ok t ()) :
    ∃ u, s.begin.prepare env = .ok u () ∧ Made (Signed env u) s.list t.list ∧ t.v.verified = -1 := by
  obtain ⟨u, h1, h2, h3⟩ := round_dots h
  refine ⟨u, h1, ?_, ?_⟩
  · refine (Made.of_quiet h2).trans (Made.of_dots h3 fun x hx g => ⟨⟨x, hx, rfl, g⟩, ?_⟩)
    rcases prepare_verified h1 g.verified with e | e
    · exact absurd e hv
    · exact e
  · unfold round at h
    obtain ⟨_, _, _, h⟩ := Res.andThen_eq_ok h
    obtain ⟨_, _, _, h⟩ := Res.andThen_eq_ok h
    cases h; rfl

theorem verifyHash_idle {env : AuthEnv} {s t : Legacy} {e : Rc} (h : s.verifyHash env = .err t e) : t.v.verified = -1 := by
  unfold verifyHash Validator.verifyHash at h
  split at h
  · cases h; rfl
  · split at h
    · cases h; rfl
    · cases h

theorem prepare_err {env : AuthEnv} {s t : Legacy} {e : Rc} (h : s.prepare env = .err t e) : t.v.verified = s.v.verified ∨ t.v.verified = -1 := by
  rw [prepare_eq] at h
  cases h1 : s.readNext env with
  | ub u => rw [h1] at h; cases h
  | err w e' => rw [h1] at h; cases h; exact .inl ((readNext_verified env s).of_err h1)
  | ok w _ =>
    rw [h1, Res.andThen_ok] at h
    have hw := (readNext_verified env s).of_ok h1
    unfold checkNext at h
    split at h
    · cases h; exact .inl hw
    · split at h
      · exact .inr (verifyHash_idle h)
      · split at h
        · cases h
        · split at h
          · cases h
          · split at h
            · exact .inr (verifyHash_idle h)
            · cases h

/-- No signature has been verified since the last validation. -/
def Idle (s : Legacy) : Prop := s.v.verified ≠ 1

theorem rounds_made {env : AuthEnv} (k : Nat) {s : Legacy} (hv : s.Idle) :
    (s.rounds env k).Ends fun t => Made (fun a => ∃ u, Visits env s u ∧ Signed env u a) s.list t.list ∧ t.Idle := by
  induction k generalizing s with
  | zero => trivial
  | succ k ih =>
    unfold rounds
    split
    · rename_i hp
      cases h1 : s.hasPending.1.round env with
      | ub u => trivial
      | err t e =>
        rw [Res.andThen]
        have h2 := round_err h1
        refine ⟨Made.of_quiet ((prepare_quiet env s.hasPending.1.begin).of_err h2), ?_⟩
        rcases prepare_err h2 with g | g
        · exact fun e => hv (g.symm.trans e)
        · intro e; rw [g] at e; cases e
      | ok t _ =>
        rw [Res.andThen_ok]
        obtain ⟨u, g1, g2, g3⟩ := round_made (s := s.hasPending.1) hv h1
        have g4 : t.Idle := by intro e; rw [g3] at e; cases e
        have g5 : Made (fun a => ∃ u, Visits env s u ∧ Signed env u a) s.list t.list :=
          Made.mono g2 fun a h => ⟨u, .here hp g1, h⟩
        split
        · refine (ih g4).mono fun w hw => ⟨g5.trans (hw.1.mono fun a ⟨u, h, g⟩ => ⟨u, .next hp h1 h, g⟩), hw.2⟩
        · exact ⟨g5, g4⟩
    · exact ⟨Made.refl _ _, hv⟩

theorem new_status (n : Nalu) : (LItem.new n).status ≠ .ok := by
  show statusOf (some n) ≠ .ok
  unfold statusOf
  repeat' split
  all_goals (intro h; cases h)

theorem append_quiet (l : LList) (a : Nat) (n : Nalu) : Quiet l (l ++ [(a, LItem.new n)]) := by
  intro y hy hs
  rcases List.mem_append.1 hy with h | h
  · exact ⟨y, h, rfl, .inl hs⟩
  · rw [List.mem_singleton] at h
    subst h
    exact absurd hs (new_status n)

theorem register_quiet (env : AuthEnv) (s : Legacy) (a : Nat) (n : Nalu) :
    (s.register env a n).Ends fun t => Quiet s.list t.list ∧ t.v.verified = s.v.verified := by
  unfold register
  split
  · trivial
  · split
    · exact ⟨Dots.refl _ _, rfl⟩
    · split
      · trivial
      · exact ⟨Dots.refl _ _, rfl⟩
      · rename_i m hm
        refine (hashItem_frame env _ a m).mono fun t h => ?_
        obtain ⟨b, r, f, rfl, hf⟩ := h
        refine ⟨Quiet.trans (Quiet.set (f := fun i => { i with nalu := some m }) fun i h => h) (Quiet.set fun i => ?_), rfl⟩
        obtain ⟨h, g, e⟩ := hf i
        rw [e]
        exact id

theorem maybeValidate_made {env : AuthEnv} {s : Legacy} (hv : s.Idle) :
    (s.maybeValidate env).Ends fun t => t.Idle ∧ Made (fun a => ∃ f v u, feasible s.list = .ok f ∧ s.recurrentDecoded env = .ok v true ∧
      f = true ∧ v.list.any (fun x => x.2.dead) = false ∧ Visits env v u ∧ Signed env u a) s.list t.list := by
  unfold maybeValidate
  split
  · trivial
  · exact ⟨hv, Made.refl _ _⟩
  · rename_i f hf
    have hr := recurrentDecoded_frame env s
    cases h1 : s.recurrentDecoded env with
    | ub u => trivial
    | err t e =>
      rw [h1] at hr
      have hl : t.list = s.list := by rw [hr.1]
      exact ⟨fun e => hv (hr.2.verified.symm.trans e), Made.of_quiet (hl ▸ Dots.refl _ _)⟩
    | ok t ok =>
      rw [h1] at hr
      have hl : t.list = s.list := by rw [hr.1]
      have hi : t.Idle := fun e => hv (hr.2.verified.symm.trans e)
      rw [Res.andThen_ok]
      split
      · split
        · exact ⟨hi, Made.of_quiet (hl ▸ Dots.refl _ _)⟩
        · exact ⟨hi, Made.of_quiet (hl ▸ Dots.refl _ _)⟩
      · rename_i hfo
        split
        · trivial
        · rename_i hd
          have hfo' : f = true ∧ ok = true := by
            cases f <;> cases ok <;> simp at hfo ⊢
          obtain ⟨rfl, rfl⟩ := hfo'
          refine (rounds_made env.rounds hi).mono fun w hw => ⟨hw.2, ?_⟩
          have hm : Made _ t.list w.list := hw.1
          rw [hl] at hm
          exact hm.mono fun a ⟨u, g1, g2⟩ => ⟨true, t, u, hf, rfl, rfl, by simpa using hd, g1, g2⟩

/-- The state in which `legacy_sv_add_h26x_nalu` calls its body. -/
def entry (s : Legacy) : Legacy :=
  { s with v := { s.v with
    flags := { s.v.flags with hasAuth := false }
    rep := { s.v.rep with acc := { s.v.rep.acc with received := s.v.rep.acc.received + 1 } } } }

/-- The item at an address is marked in a call because of a correct signature. -/
def Marks (env : AuthEnv) (s : Legacy) (data : Bytes) (a : Nat) : Prop :=
  ∃ v u, s.atLoop env data = some v ∧ Visits env v u ∧ Signed env u a

theorem addBody_made {env : AuthEnv} {s : Legacy} {data : Bytes} {n : Nalu} (hd : data ≠ []) (hp : parseNalu data s.v.codec true true = .ok n)
    (hv : s.Idle) : (s.entry.addBody env n).Ends fun t => t.Idle ∧ Made (Marks env s data) s.list t.list := by
  have h0 : Made (Marks env s data) s.list (s.list ++ [(s.brk, LItem.new n)]) := Made.of_quiet (append_quiet _ _ _)
  unfold addBody
  dsimp only
  split
  · exact ⟨hv, h0⟩
  · rename_i hn
    have hr := register_quiet env { s.entry with
        list := s.list ++ [(s.brk, LItem.new n)], brk := s.brk + 1
        v := { s.entry.v with flags := { s.entry.v.flags with
          firstSei := !s.entry.v.flags.signing && n.gopSei, signing := s.entry.v.flags.signing || n.gopSei } } } s.brk n
    refine Res.Ends.andThen hr ?_ ?_
    · intro t h
      exact ⟨fun e => hv (h.2.symm.trans e), h0.trans (Made.of_quiet h.1)⟩
    · intro t _ ht h
      refine (maybeValidate_made (env := env) (s := t) fun e => hv (h.2.symm.trans e)).mono fun w hw => ⟨hw.1, ?_⟩
      refine (h0.trans (Made.of_quiet h.1)).trans (hw.2.mono ?_)
      rintro a ⟨f, v, u, g1, g2, g3, g4, g5, g6⟩
      refine ⟨v, u, ?_, g5, g6⟩
      unfold atLoop
      rw [if_neg hd, hp]
      dsimp only
      rw [if_neg hn]
      have ht' := ht
      unfold entry at ht'
      dsimp only at ht'
      rw [ht', ]
      dsimp only
      rw [g1, g2]
      dsimp only
      rw [g3, if_pos ⟨rfl, g4⟩]

theorem copyLast_made (s : Legacy) : s.copyLast.Ends fun t => Quiet s.list t.list ∧ t.v = s.v := by
  unfold copyLast
  split
  · trivial
  · split
    · exact ⟨Dots.refl _ _, rfl⟩
    · split
      · trivial
      · exact ⟨Dots.refl _ _, rfl⟩
      · rename_i c _
        exact ⟨Quiet.set (f := fun i => { i with nalu := c }) fun i h => h, rfl⟩

theorem markLast_quiet (s : Legacy) : Quiet s.list s.markLast.list ∧ s.markLast.v = s.v := by
  unfold markLast
  split
  · exact ⟨Dots.refl _ _, rfl⟩
  · exact ⟨Quiet.set (f := fun i => { i with status := .E }) fun i h => (by cases h), rfl⟩

theorem bury_quiet (s : Legacy) (a : Nat) : Quiet s.list (s.bury a).list ∧ (s.bury a).v = s.v := by
  unfold bury
  split
  · exact ⟨Dots.refl _ _, rfl⟩
  · exact ⟨Quiet.set (f := fun i => { i with dead := true }) fun i h => h, rfl⟩

theorem addEnd_quiet (s : Legacy) (a : Nat) (e : Option Rc) : (s.addEnd a e).Ends fun t => Quiet s.list t.list ∧ t.v = s.v := by
  unfold addEnd
  refine Res.Ends.andThen' (copyLast_made s) fun t e2 _ h => ?_
  split
  · exact ⟨h.1.trans (bury_quiet t a).1, (bury_quiet t a).2.trans h.2⟩
  · exact ⟨h.1.trans ((markLast_quiet t).1.trans (bury_quiet _ a).1), (bury_quiet _ a).2.trans ((markLast_quiet t).2.trans h.2)⟩

theorem addH26x_made {env : AuthEnv} {s : Legacy} {data : Bytes} (hv : s.Idle) :
    (s.addH26x env data).Ends fun t => t.Idle ∧ Made (Marks env s data) s.list t.list := by
  unfold addH26x
  split
  · exact ⟨hv, Made.refl _ _⟩
  · rename_i hd
    split
    · trivial
    · exact ⟨hv, Made.refl _ _⟩
    · rename_i n hp
      have hb := addBody_made (env := env) hd hp hv
      unfold entry at hb
      dsimp only
      split
      · trivial
      · rename_i t e ht
        rw [ht] at hb
        exact (addEnd_quiet t _ _).mono fun w h => ⟨fun e => hb.1 (by rw [← h.2]; exact e), hb.2.trans (Made.of_quiet h.1)⟩
      · rename_i t x ht
        rw [ht] at hb
        exact (addEnd_quiet t _ _).mono fun w h => ⟨fun e => hb.1 (by rw [← h.2]; exact e), hb.2.trans (Made.of_quiet h.1)⟩

/-- What is in a report, and what is left in the list. -/
theorem report_ok {s t : Legacy} {r : Option Report} (h : s.report = .ok t r) :
    t.v.verified = s.v.verified ∧ (∃ k, t.list = s.list.drop k) ∧
      ∀ p, r = some p → p.latest.validationStr = some (s.list.map fun (x : Nat × LItem) => x.2.status.char) := by
  unfold report at h
  split at h
  · split at h
    · cases h
    · split at h
      · cases h
      · cases h
      · rename_i p l hu
        cases h
        unfold updateReport at hu
        dsimp only at hu
        generalize hc : compareVersions (some s.v.rep.thisVersion) (some s.v.rep.versionOnSigningSide) = c at hu
        cases c with
        | ub u => cases hu
        | err e => cases hu
        | ok c =>
          refine ⟨rfl, ?_, ?_⟩
          · cases hu
            obtain ⟨k, hk⟩ := List.dropWhile_suffix (l := s.list) (fun (x : Nat × LItem) => settled x.2)
            refine ⟨k.length, ?_⟩
            show cleanUp s.list = _
            conv => rhs; rw [← hk]
            rw [List.drop_left]
            rfl
          · intro q hq
            cases hq
            cases hu
            show some (Option.getD _ _) = _
            repeat' split
            all_goals rfl
  · cases h
    exact ⟨rfl, ⟨0, by simp⟩, fun p hp => by cases hp⟩

theorem report_err {s t : Legacy} {e : Rc} (h : s.report = .err t e) : t = s := by
  unfold report at h
  split at h
  · split at h
    · cases h
    · split at h
      · cases h
      · cases h; rfl
      · cases h
  · cases h

/-- A call that hands out a report. -/
theorem add_made {env : AuthEnv} {s : Legacy} {data : Bytes} (hv : s.Idle) :
    (s.add env data).Ends (fun t => t.Idle ∧ Made (Marks env s data) s.list t.list) ∧
    ∀ t r, s.add env data = .ok t (some r) → ∃ L : LList, r.latest.validationStr = some (L.map fun (x : Nat × LItem) => x.2.status.char) ∧
      Made (Marks env s data) s.list L ∧ ∃ k, t.list = L.drop k := by
  unfold add
  split
  · exact ⟨⟨hv, Made.refl _ _⟩, fun _ _ h => by cases h⟩
  · have h1 := addH26x_made (env := env) (data := data) hv
    cases h2 : s.addH26x env data with
    | ub u => exact ⟨trivial, fun _ _ h => by cases h⟩
    | err t e => rw [h2] at h1; exact ⟨h1, fun _ _ h => by cases h⟩
    | ok t x =>
      rw [h2] at h1
      rw [Res.andThen_ok]
      constructor
      · cases h3 : t.report with
        | ub u => trivial
        | err w e => rw [report_err h3]; exact h1
        | ok w r =>
          obtain ⟨g1, ⟨k, g2⟩, -⟩ := report_ok h3
          refine ⟨fun e => h1.1 (g1.symm.trans e), h1.2.trans (Made.of_quiet (Quiet.of_subset fun y hy => ?_))⟩
          rw [g2] at hy
          exact List.mem_of_mem_drop hy
      · intro w r h3
        obtain ⟨-, g2, g3⟩ := report_ok h3
        exact ⟨t.list, g3 r rfl, h1.2, g2⟩

theorem reset_idle (env : AuthEnv) (s : Legacy) : (s.reset env).Ends fun t => t.Idle ∧ t.list = [] := by
  unfold reset
  dsimp only
  split
  · trivial
  · exact ⟨(by intro h; cases h), rfl⟩
  · exact ⟨(by intro h; cases h), rfl⟩

theorem create_idle {env : AuthEnv} {p : Validator} {t : Legacy} (h : create env p = .ok t) : t.Idle ∧ t.list = [] := by
  unfold create at h
  dsimp only at h
  generalize resetGopHash env _ _ = r at h
  cases r with
  | ub u => cases h
  | err e => cases h
  | ok b => cases h; exact ⟨(by intro h; cases h), rfl⟩

end Legacy
end SV
