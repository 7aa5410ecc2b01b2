import Verif.Proofs.LegacyCall
import Verif.Props.LegacyDemo
/-! C58: in a session for the older format a NAL unit gets the status '.' only by a correct signature. -/
namespace SV
namespace Legacy

/-- The state in which a function ends, with or without error. -/
def LeadsTo {α : Type} (r : Res Legacy α) (t : Legacy) : Prop := (∃ a, r = .ok t a) ∨ ∃ e, r = .err t e

theorem LeadsTo.of_ends {α : Type} {r : Res Legacy α} {t : Legacy} {P : Legacy → Prop} (h : LeadsTo r t) (g : r.Ends P) : P t := by
  rcases h with ⟨a, h⟩ | ⟨e, h⟩
  · exact g.of_ok h
  · exact g.of_err h

/-- The state of a session for the older format, with the calls since it was created or reset, latest first: each with the
state before it and the NAL unit. -/
inductive Since (env : AuthEnv) : Legacy → List (Legacy × Bytes) → Prop
  | new {p : Validator} {l : Legacy} : create env p = .ok l → Since env l []
  | reset {l l' : Legacy} {h : List (Legacy × Bytes)} : Since env l h → LeadsTo (l.reset env) l' → Since env l' []
  | add {l l' : Legacy} {h : List (Legacy × Bytes)} {data : Bytes} : Since env l h → LeadsTo (l.add env data) l' →
      Since env l' ((l, data) :: h)

theorem Since.marked {env : AuthEnv} {l : Legacy} {h : List (Legacy × Bytes)} (hs : Since env l h) :
    l.Idle ∧ ∀ y ∈ l.list, y.2.status = .ok → ∃ c ∈ h, Marks env c.1 c.2 y.1 := by
  induction hs with
  | new hc => exact ⟨(create_idle hc).1, fun y hy => by rw [(create_idle hc).2] at hy; cases hy⟩
  | reset _ hr _ =>
    have := hr.of_ends (reset_idle env _)
    exact ⟨this.1, fun y hy => by rw [this.2] at hy; cases hy⟩
  | add _ ha ih =>
    have := ha.of_ends (add_made ih.1).1
    refine ⟨this.1, fun y hy hs => ?_⟩
    rcases this.2 y hy hs with ⟨x, hx, e, g⟩ | g
    · obtain ⟨c, hc, hm⟩ := ih.2 x hx g
      exact ⟨c, .tail _ hc, e ▸ hm⟩
    · exact ⟨_, .head _, g⟩

theorem replay_since {env : AuthEnv} {raw : List (Nat × Bytes)} (l : NList) {s : Legacy} {h : List (Legacy × Bytes)} (hs : Since env s h) :
    (Session.replay env raw l s).Ends fun t => ∃ h, Since env t h := by
  induction l generalizing s h with
  | nil => exact ⟨h, hs⟩
  | cons x r ih =>
    unfold Session.replay
    split
    · trivial
    · split
      · trivial
      · rename_i y _
        cases h1 : s.add env y.2 with
        | ub u => trivial
        | err t e => exact ⟨_, hs.add (.inr ⟨e, h1⟩)⟩
        | ok t a => exact ih (hs.add (.inl ⟨a, h1⟩))

end Legacy

open Legacy

/-- The session inside a session, if there is one, has a history. -/
def Session.Rooted (env : AuthEnv) (s : Session) : Prop := ∀ l, s.leg = some l → ∃ h, Since env l h

/-- What a call hands out when the session inside is there afterwards is its report. -/
theorem add_inner {env : AuthEnv} {s : Session} (hs : s.Rooted env) (data : Bytes) :
    (s.add env data).Ends (Session.Rooted env) ∧
    ∀ s' r, s.add env data = .ok s' (some r) → s'.leg ≠ none → ∃ l h l', Since env l h ∧ l.add env data = .ok l' (some r) := by
  unfold Session.add
  split
  · rename_i l hl
    obtain ⟨h, hh⟩ := hs l hl
    split
    · rename_i l' r h1
      refine ⟨fun l'' e => ?_, fun s' r' e _ => ?_⟩
      · cases e; exact ⟨_, hh.add (.inl ⟨_, h1⟩)⟩
      · cases e; exact ⟨l, h, l', hh, h1⟩
    · rename_i l' e h1
      refine ⟨fun l'' e => ?_, fun s' r' e _ => by cases e⟩
      cases e; exact ⟨_, hh.add (.inr ⟨_, h1⟩)⟩
    · exact ⟨trivial, fun s' r' e _ => by cases e⟩
  · rename_i hl
    dsimp only
    split
    · exact ⟨trivial, fun s' r' e _ => by cases e⟩
    · rename_i v r hv
      split
      · split
        · exact ⟨trivial, fun s' r' e _ => by cases e⟩
        · refine ⟨fun l' e => ?_, fun s' r' e _ => by cases e⟩
          rw [show s.leg = some l' from e] at hl; cases hl
        · rename_i l0 h0
          have hr := replay_since (env := env) (raw := (s.v.brk, data) :: s.raw) v.list.dropLast (Since.new h0)
          generalize hw : Session.replay env ((s.v.brk, data) :: s.raw) v.list.dropLast l0 = w at hr
          cases w with
          | ub u => exact ⟨trivial, fun s' r' e _ => by cases e⟩
          | err t e =>
            refine ⟨fun l' e => ?_, fun s' r' e _ => by cases e⟩
            cases e; exact hr
          | ok t a =>
            rw [Res.andThen_ok]
            obtain ⟨h, hh⟩ := hr
            split
            · rename_i l1 r1 h1
              refine ⟨fun l' e => ?_, fun s' r' e _ => ?_⟩
              · cases e; exact ⟨_, hh.add (.inl ⟨_, h1⟩)⟩
              · cases e; exact ⟨t, h, l1, hh, h1⟩
            · rename_i l1 e1 h1
              refine ⟨fun l' e => ?_, fun s' r' e _ => by cases e⟩
              cases e; exact ⟨_, hh.add (.inr ⟨_, h1⟩)⟩
            · exact ⟨trivial, fun s' r' e _ => by cases e⟩
      · refine ⟨fun l' e => ?_, fun s' r' e hne => ?_⟩
        · rw [show s.leg = some l' from e] at hl; cases hl
        · cases e; exact absurd hl hne
    · rename_i v e hv
      split
      · split
        · exact ⟨trivial, fun s' r' e _ => by cases e⟩
        · refine ⟨fun l' e => ?_, fun s' r' e _ => by cases e⟩
          rw [show s.leg = some l' from e] at hl; cases hl
        · rename_i l0 h0
          have hr := replay_since (env := env) (raw := (s.v.brk, data) :: s.raw) v.list.dropLast (Since.new h0)
          generalize hw : Session.replay env ((s.v.brk, data) :: s.raw) v.list.dropLast l0 = w at hr
          cases w with
          | ub u => exact ⟨trivial, fun s' r' e _ => by cases e⟩
          | err t e =>
            refine ⟨fun l' e => ?_, fun s' r' e _ => by cases e⟩
            cases e; exact hr
          | ok t a =>
            refine ⟨fun l' e => ?_, fun s' r' e _ => by cases e⟩
            cases e; exact hr
      · refine ⟨fun l' e => ?_, fun s' r' e _ => by cases e⟩
        rw [show s.leg = some l' from e] at hl; cases hl

theorem call_rooted {env : AuthEnv} {s : Session} (hs : s.Rooted env) (c : AuthCall) : (s.call env c).Ends (Session.Rooted env) := by
  cases c with
  | nalu d => exact (add_inner hs d).1
  | reset =>
    unfold Session.call
    dsimp only
    split
    · rename_i hl
      intro l e
      rw [show s.leg = some l from e] at hl; cases hl
    · rename_i l hl
      obtain ⟨h, hh⟩ := hs l hl
      split
      · rename_i l' _ h1
        intro l'' e; cases e
        exact ⟨_, hh.reset (.inl ⟨_, h1⟩)⟩
      · rename_i l' _ h1
        intro l'' e; cases e
        exact ⟨_, hh.reset (.inr ⟨_, h1⟩)⟩
      · trivial
  | publicKey k =>
    unfold Session.call
    dsimp only
    split
    · exact fun l e => hs l e
    · exact fun l e => hs l e
    · trivial

theorem run_rooted {env : AuthEnv} {s s' : Session} {cs : List AuthCall} {os : List AObs} (hs : s.Rooted env)
    (h : s.run env cs = .ok (s', os)) : s'.Rooted env := by
  induction cs generalizing s os with
  | nil => cases h; exact hs
  | cons c cs ih =>
    unfold Session.run Session.step at h
    have hc := call_rooted hs c
    cases h1 : s.call env c with
    | ub u => rw [h1] at h; cases h
    | ok t r =>
      rw [h1] at h hc
      cases h2 : t.run env cs with
      | ub u => simp only [bind, Out.bind, h2] at h; cases h
      | err e => simp only [bind, Out.bind, h2] at h; cases h
      | ok p => simp only [bind, Out.bind, h2] at h; cases h; exact ih hc h2
    | err t e =>
      rw [h1] at h hc
      cases h2 : t.run env cs with
      | ub u => simp only [bind, Out.bind, h2] at h; cases h
      | err e => simp only [bind, Out.bind, h2] at h; cases h
      | ok p => simp only [bind, Out.bind, h2] at h; cases h; exact ih hc h2

/-- **C58.** In whatever state a session for the older format is, a report shows '.' for a NAL unit only if, in this call or in
an earlier one since the last reset, a round of the validation accepted a SEI -- the verification returned 1 for the key,
the signature and the signed hash that the session had then -- and the NAL unit was covered by that SEI: its hash was in the
hash list, or it was used in the GOP hash, or it is the SEI (`Legacy.Vouched`). -/
theorem C58_marked_partial {env : AuthEnv} {codec : Codec} {calls : List AuthCall} {s s' : Session} {os : List AObs} {data : Bytes} {r : Report}
    (hist : Session.run env (newSession env codec) calls = .ok (s, os)) (h : s.add env data = .ok s' (some r)) (hold : s'.leg ≠ none) :
    ∃ l past, Since env l past ∧ ∃ items : LList,
      r.latest.validationStr = some (items.map fun (x : Nat × LItem) => x.2.status.char) ∧
      ∀ y ∈ items, y.2.status.char = '.' → ∃ c ∈ (l, data) :: past, Marks env c.1 c.2 y.1 := by
  have hr : s.Rooted env := run_rooted (fun l e => by cases e) hist
  obtain ⟨l, past, l', h1, h2⟩ := (add_inner hr data).2 s' r h hold
  obtain ⟨L, g1, g2, -⟩ := (add_made h1.marked.1).2 l' r h2
  refine ⟨l, past, h1, L, g1, fun y hy hc => ?_⟩
  have hs : y.2.status = .ok := by
    generalize y.2.status = st at hc
    cases st <;> first | rfl | (simp [Status.char] at hc)
  rcases g2 y hy hs with ⟨x, hx, e, g⟩ | g
  · obtain ⟨c, hc, hm⟩ := h1.marked.2 x hx g
    exact ⟨c, .tail _ hc, e ▸ hm⟩
  · exact ⟨_, .head _, g⟩

/-- **C58**, without reference to the inside of the session: if no signature is ever accepted, no report of a session for the
older format shows a '.'. -/
theorem C58_no_signature {env : AuthEnv} {codec : Codec} {calls : List AuthCall} {s s' : Session} {os : List AObs} {data : Bytes} {r : Report}
    (hv : ∀ k sig h, env.verify k sig h ≠ 1)
    (hist : Session.run env (newSession env codec) calls = .ok (s, os)) (h : s.add env data = .ok s' (some r)) (hold : s'.leg ≠ none) :
    ∃ str, r.latest.validationStr = some str ∧ '.' ∉ str := by
  obtain ⟨l, past, -, items, h1, h2⟩ := C58_marked_partial hist h hold
  refine ⟨_, h1, fun hm => ?_⟩
  obtain ⟨y, hy, e⟩ := List.mem_map.1 hm
  obtain ⟨c, -, v, u, -, -, g⟩ := h2 y hy e
  obtain ⟨k, -, g⟩ := g.signature
  exact hv _ _ _ g

end SV
