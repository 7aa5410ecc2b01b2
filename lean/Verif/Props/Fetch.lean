import Verif.Proofs.FetchStep
import Verif.Props.AuthDemo
/-! C70: the report that is fetched. -/
namespace SV
open Spec

namespace Session

/-- The accumulated validation in the local report sums up the reports `ls`. -/
def Sums (s : Session) (ls : List Latest) : Prop := shown s.rep.acc = total ls

/-- A session for the older format has a local report, and it is there as soon as the older format has been found. -/
structure Owns (s : Session) : Prop where
  has : s.leg ≠ none → s.v.hasReport = true
  young : s.leg = none → s.v.legacy = false

theorem rep_none {s : Session} (h : s.leg = none) : s.rep = s.v.rep := by
  unfold rep; rw [h]

theorem rep_some {s : Session} {l : Legacy} (h : s.leg = some l) : s.rep = l.v.rep := by
  unfold rep; rw [h]

theorem items_none {s : Session} (h : s.leg = none) : s.numItems = s.v.list.length := by
  unfold numItems; rw [h]

theorem items_some {s : Session} {l : Legacy} (h : s.leg = some l) : s.numItems = l.list.length := by
  unfold numItems; rw [h]

theorem Sums.next {s t : Session} {ls : List Latest} {r : Option Report} (h : s.Sums ls)
    (e : shown t.rep.acc = shown (accNext s.rep.acc r)) : t.Sums (ls ++ r.toList.map Report.latest) := by
  unfold Sums
  rw [e]
  cases r with
  | none => rw [show ls ++ (none : Option Report).toList.map Report.latest = ls from List.append_nil _]; exact h
  | some r => exact total_snoc r.latest h

/-- What one call does to the local report, if the session does not switch to the older format in it. -/
structure Told (s t : Session) (c : FCall) (o : AObs) : Prop where
  sums : ∀ ls, s.Sums ls → t.Sums (heard ls (c, o))
  says : ∀ r, o.report = some r → shown r.acc = shown t.rep.acc

/-- A report that is handed out is repeated by the local report. -/
def Echoes (t : Session) (o : AObs) : Prop := ∀ p, o.report = some p → t.v.hasReport = true ∧ Repeats t.rep t.numItems p

theorem Echoes.of_none {t : Session} {o : AObs} (h : o.report = none) : t.Echoes o := fun p hp => by rw [h] at hp; cases hp

theorem again_of {t : Session} {p : Report} (ho : t.v.hasReport = true) (h : Repeats t.rep t.numItems p) :
    t.fetch.2 = some { p with latest := { p.latest with hasTs := false } } := by
  unfold fetch
  rw [if_pos ho]
  exact congrArg some h

theorem echo_says {t : Session} {p : Report} (h : Repeats t.rep t.numItems p) : shown p.acc = shown t.rep.acc := by
  unfold Repeats at h
  have := congrArg (fun r : Report => shown r.acc) h
  exact this.symm

theorem setPublicKey_rep (env : AuthEnv) (v : Validator) (k : Bytes) :
    (v.setPublicKey env k).Ends fun w => w.rep = v.rep ∧ w.hasReport = v.hasReport ∧ w.legacy = v.legacy := by
  unfold Validator.setPublicKey
  split
  · exact ⟨rfl, rfl, rfl⟩
  split
  · exact ⟨rfl, rfl, rfl⟩
  split
  · exact ⟨rfl, rfl, rfl⟩
  dsimp only
  split <;> exact ⟨rfl, rfl, rfl⟩

theorem legReset_rep (env : AuthEnv) (l : Legacy) : (l.reset env).Ends fun w => w.v.rep.acc = accumulatedInit := by
  unfold Legacy.reset
  dsimp only
  split
  · trivial
  · exact rfl
  · exact rfl

/-- A property of the session after a call and of what the user sees of it. -/
def Gives (r : Res Session (Option Report)) (Q : Session → AObs → Prop) : Prop :=
  match r with
  | .ok t r => Q t ⟨none, r⟩
  | .err t e => Q t ⟨some e, none⟩
  | .ub _ => True

/-- The session does not switch to the older format, and does not fail to. -/
def Steady (s t : Session) (o : AObs) : Prop := s.leg ≠ none ∨ (t.leg = none ∧ o.rc ≠ some .memory)

theorem Told.of_none {s t : Session} {c : AuthCall} {o : AObs} (ho : o.report = none) (hc : c ≠ .reset)
    (h : shown t.rep.acc = shown s.rep.acc) : Told s t (.call c) o := by
  refine ⟨fun ls hs => ?_, fun r hr => ?_⟩
  · have : heard ls (.call c, o) = ls := by
      unfold heard
      rw [ho]
      cases c with
      | reset => exact absurd rfl hc
      | _ => exact List.append_nil _
    rw [this]
    exact h.trans hs
  · rw [ho] at hr; cases hr

theorem Told.of_nalu {s t : Session} {d : Bytes} {r : Option Report}
    (h : shown t.rep.acc = shown (accNext s.rep.acc r)) (hr : ∀ p, r = some p → Repeats t.rep t.numItems p) :
    Told s t (.call (.nalu d)) ⟨none, r⟩ :=
  ⟨fun _ hs => hs.next h, fun p hp => echo_says (hr p hp)⟩

theorem add_told (env : AuthEnv) (s : Session) (d : Bytes) (hs : s.Owns) :
    Gives (s.add env d) fun t o => t.Owns ∧ t.Echoes o ∧ (Steady s t o → Told s t (.call (.nalu d)) o) := by
  have some_ne : ∀ l : Legacy, (some l : Option Legacy) ≠ none := fun l h => by cases h
  obtain ⟨v0, raw0, leg0⟩ := s
  unfold add
  cases leg0 with
  | some l =>
    have ho : v0.hasReport = true := hs.has (some_ne l)
    dsimp only
    obtain ⟨h1, h2⟩ := Legacy.add_acc env l d
    generalize l.add env d = x at h1 h2
    cases x with
    | ub u => trivial
    | ok m r =>
      obtain ⟨h3, h4⟩ := h1 m r rfl
      exact ⟨⟨fun _ => ho, fun h => absurd h (some_ne m)⟩, fun p hp => ⟨ho, h4 p hp⟩, fun _ => Told.of_nalu h3 h4⟩
    | err m e =>
      exact ⟨⟨fun _ => ho, fun h => absurd h (some_ne m)⟩, .of_none rfl, fun _ => Told.of_none rfl (fun h => by cases h) (h2 m e rfl)⟩
  | none =>
    have hy : v0.legacy = false := hs.young rfl
    obtain ⟨h1, h2⟩ := Validator.add_acc env v0 d
    have start : ∀ (v : Validator) (k : Legacy → Res Legacy (Option Report)), v.hasReport = true →
        (∀ l m r, k l = .ok m r → ∀ p, r = some p → Repeats m.v.rep m.list.length p) →
        Gives (match Legacy.create env v with
          | .ub u => .ub u
          | .err _ => .err { v := { v.markLast with legacy := false }, raw := (v0.brk, d) :: raw0 } .memory
          | .ok l =>
            match (replay env ((v0.brk, d) :: raw0) v.list.dropLast l).andThen fun l _ => k l with
            | .ok l r => .ok { v := v, raw := (v0.brk, d) :: raw0, leg := some l } r
            | .err l e => .err { v := v, raw := (v0.brk, d) :: raw0, leg := some l } e
            | .ub u => .ub u) fun t o => t.Owns ∧ t.Echoes o ∧
              (Steady { v := v0, raw := raw0, leg := none } t o → Told { v := v0, raw := raw0, leg := none } t (.call (.nalu d)) o) := by
      intro v k hv hk
      split
      · trivial
      · refine ⟨⟨fun h => absurd rfl h, fun _ => rfl⟩, .of_none rfl, fun h => ?_⟩
        rcases h with h | h
        · exact absurd rfl h
        · exact absurd rfl h.2
      · split
        · rename_i m r hm
          refine ⟨⟨fun _ => hv, fun h => absurd h (some_ne m)⟩, fun p hp => ⟨hv, ?_⟩, fun h => ?_⟩
          · obtain ⟨l', _, _, hm⟩ := Res.andThen_eq_ok hm
            exact hk l' m r hm p hp
          · rcases h with h | h
            · exact absurd rfl h
            · exact absurd h.1 (some_ne m)
        · rename_i m _ _
          refine ⟨⟨fun _ => hv, fun h => absurd h (some_ne m)⟩, .of_none rfl, fun h => ?_⟩
          rcases h with h | h
          · exact absurd rfl h
          · exact absurd h.1 (some_ne m)
        · trivial
    dsimp only
    generalize v0.add env d = x at h1 h2
    cases x with
    | ub u => trivial
    | ok v r =>
      obtain ⟨h3, h4⟩ := h1 v r rfl
      dsimp only
      split
      · exact start v (fun l => l.add env d) h3 fun l m r h => ((Legacy.add_acc env l d).1 m r h).2
      · rename_i hg
        have hg : v.legacy = false := by simpa using hg
        obtain ⟨h5, h6⟩ := h4 hg
        exact ⟨⟨fun h => absurd rfl h, fun _ => hg⟩, fun p hp => ⟨h3, h6 p hp⟩, fun _ => Told.of_nalu h5 h6⟩
    | err v e =>
      obtain ⟨h3, h4, h5⟩ := h2 v e rfl
      dsimp only
      split
      · rename_i hg
        refine start v (fun l => .err l e) (h3 fun hd => ?_) fun l m r h => by cases h
        rw [h4 hd, hy] at hg
        cases hg
      · rename_i hg
        have hg : v.legacy = false := by simpa using hg
        exact ⟨⟨fun h => absurd rfl h, fun _ => hg⟩, .of_none rfl, fun _ => Told.of_none rfl (fun h => by cases h) (h5 hg)⟩

theorem Told.of_reset {s t : Session} {o : AObs} (ho : o.report = none) (h : t.rep.acc = accumulatedInit) :
    Told s t (.call .reset) o :=
  ⟨fun _ _ => by unfold Sums; rw [h]; rfl, fun r hr => by rw [ho] at hr; cases hr⟩

theorem call_told (env : AuthEnv) (s : Session) (c : AuthCall) (hs : s.Owns) :
    Gives (s.call env c) fun t o => t.Owns ∧ t.Echoes o ∧ (Steady s t o → Told s t (.call c) o) := by
  cases c with
  | nalu d => exact add_told env s d hs
  | reset =>
    obtain ⟨v0, raw0, leg0⟩ := s
    unfold call
    cases leg0 with
    | none => exact ⟨⟨fun h => absurd rfl h, fun _ => hs.young rfl⟩, .of_none rfl, fun _ => Told.of_reset rfl rfl⟩
    | some l =>
      have ho : v0.hasReport = true := hs.has fun h => by cases h
      dsimp only
      have hr := legReset_rep env l
      generalize l.reset env = x at hr
      cases x with
      | ub u => trivial
      | ok m r => exact ⟨⟨fun _ => ho, fun h => by cases h⟩, .of_none rfl, fun _ => Told.of_reset rfl hr⟩
      | err m e => exact ⟨⟨fun _ => ho, fun h => by cases h⟩, .of_none rfl, fun _ => Told.of_reset rfl hr⟩
  | publicKey k =>
    unfold call
    dsimp only
    have hp := setPublicKey_rep env s.v k
    generalize s.v.setPublicKey env k = x at hp
    have same : ∀ w : Validator, w.rep = s.v.rep → shown (rep { s with v := w }).acc = shown s.rep.acc := by
      intro w hw
      unfold rep
      dsimp only
      split
      · rw [hw]
      · rfl
    cases x with
    | ub u => trivial
    | ok w r =>
      exact ⟨⟨fun h => hp.2.1.trans (hs.has h), fun h => hp.2.2.trans (hs.young h)⟩, .of_none rfl,
        fun _ => Told.of_none rfl (fun h => by cases h) (same w hp.1)⟩
    | err w e =>
      exact ⟨⟨fun h => hp.2.1.trans (hs.has h), fun h => hp.2.2.trans (hs.young h)⟩, .of_none rfl,
        fun _ => Told.of_none rfl (fun h => by cases h) (same w hp.1)⟩

theorem withRep_leg (s : Session) (r : Report) : (s.withRep r).leg.isSome = s.leg.isSome ∧ (s.withRep r).rep = r ∧
    (s.withRep r).v.hasReport = s.v.hasReport ∧ (s.withRep r).v.legacy = s.v.legacy ∧ (s.withRep r).numItems = s.numItems := by
  unfold withRep
  split
  · rename_i h
    refine ⟨rfl, ?_, rfl, rfl, ?_⟩
    · rw [rep_none (by exact h)]
    · rw [items_none (by exact h), items_none h]
  · rename_i l h
    refine ⟨by rw [h]; rfl, rfl, rfl, rfl, ?_⟩
    rw [items_some h]; rfl

theorem fetch_told (s : Session) (hs : s.Owns) : s.fetch.1.Owns ∧ s.fetch.1.leg.isSome = s.leg.isSome ∧
    Told s s.fetch.1 .fetch ⟨none, s.fetch.2⟩ := by
  unfold fetch
  split
  · obtain ⟨h1, h2, h3, h4, -⟩ := withRep_leg s (getReport s.rep s.numItems).1
    dsimp only
    refine ⟨⟨fun h => h3.trans (hs.has fun g => h ?_), fun h => h4.trans (hs.young ?_)⟩, h1, fun ls hls => ?_, fun r hr => ?_⟩
    · rw [g] at h1; simpa using h1
    · rw [h] at h1; simpa using h1.symm
    · show shown _ = _
      rw [h2]; exact hls
    · rw [h2]; cases hr; rfl
  · exact ⟨hs, rfl, fun ls hls => hls, fun r hr => by cases hr⟩

theorem fstep_told {env : AuthEnv} {s t : Session} {c : FCall} {o : AObs} (h : s.fstep env c = .ok (t, o)) (hs : s.Owns) :
    t.Owns ∧ (s.leg ≠ none → t.leg ≠ none) ∧ (c ≠ .fetch → t.Echoes o) ∧ (Steady s t o → Told s t c o) := by
  cases c with
  | fetch =>
    unfold fstep at h
    cases h
    obtain ⟨h1, h2, h3⟩ := fetch_told s hs
    refine ⟨h1, fun g e => g ?_, fun h => absurd rfl h, fun _ => h3⟩
    rw [e] at h2; simpa using h2.symm
  | call c =>
    replace h : s.step env c = .ok (t, o) := h
    unfold step at h
    have hc := call_told env s c hs
    have hk : s.leg ≠ none → Gives (s.call env c) fun t _ => t.leg ≠ none := by
      intro hl
      obtain ⟨l, hl⟩ := Option.ne_none_iff_exists'.1 hl
      cases c with
      | nalu d =>
        show Gives (s.add env d) _
        unfold add
        rw [hl]
        dsimp only
        generalize l.add env d = x
        cases x with
        | ub u => trivial
        | _ => exact fun h => by cases h
      | reset =>
        unfold call
        rw [hl]
        dsimp only
        generalize l.reset env = x
        cases x with
        | ub u => trivial
        | _ => exact fun h => by cases h
      | publicKey k =>
        unfold call
        dsimp only
        generalize s.v.setPublicKey env k = x
        cases x with
        | ub u => trivial
        | _ => exact fun h => by dsimp only at h; rw [hl] at h; cases h
    cases hx : s.call env c with
    | ub u => rw [hx] at h; cases h
    | ok w r => rw [hx] at h hc hk; cases h; exact ⟨hc.1, hk, fun _ => hc.2.1, hc.2.2⟩
    | err w e => rw [hx] at h hc hk; cases h; exact ⟨hc.1, hk, fun _ => hc.2.1, hc.2.2⟩

theorem frun_cons {env : AuthEnv} {s t : Session} {c : FCall} {cs : List FCall} {os : List AObs}
    (h : s.frun env (c :: cs) = .ok (t, os)) : ∃ u o os', os = o :: os' ∧ s.fstep env c = .ok (u, o) ∧ u.frun env cs = .ok (t, os') := by
  obtain ⟨⟨u, o⟩, h1, h2⟩ := Out.bind_eq_ok h
  obtain ⟨⟨v, os'⟩, h3, h4⟩ := Out.bind_eq_ok h2
  cases h4
  exact ⟨u, o, os', rfl, h1, h3⟩

theorem frun_owns {env : AuthEnv} {cs : List FCall} {s t : Session} {os : List AObs} (h : s.frun env cs = .ok (t, os))
    (hs : s.Owns) : t.Owns ∧ (s.leg ≠ none → t.leg ≠ none) := by
  induction cs generalizing s os with
  | nil => cases h; exact ⟨hs, id⟩
  | cons c cs ih =>
    obtain ⟨u, o, os', rfl, h1, h2⟩ := frun_cons h
    obtain ⟨hu, hk, -, -⟩ := fstep_told h1 hs
    exact ⟨(ih h2 hu).1, fun g => (ih h2 hu).2 (hk g)⟩

/-- Along a sequence of calls in which the session does not switch. -/
theorem frun_sums {env : AuthEnv} {cs : List FCall} {s t : Session} {os : List AObs} {ls : List Latest}
    (h : s.frun env cs = .ok (t, os)) (hs : s.Owns) (hl : s.Sums ls)
    (hw : s.leg ≠ none ∨ (t.leg = none ∧ ∀ o ∈ os, o.rc ≠ some .memory)) : t.Sums (history ls (cs.zip os)) := by
  induction cs generalizing s os ls with
  | nil => cases h; exact hl
  | cons c cs ih =>
    obtain ⟨u, o, os', rfl, h1, h2⟩ := frun_cons h
    obtain ⟨hu, hk, -, ht⟩ := fstep_told h1 hs
    have hnone : t.leg = none → u.leg = none := by
      intro g
      apply Classical.byContradiction
      intro hn
      exact (frun_owns h2 hu).2 hn g
    have hst : Steady s u o := hw.imp id fun g => ⟨hnone g.1, g.2 o List.mem_cons_self⟩
    exact ih h2 hu ((ht hst).sums ls hl) (hw.imp hk fun g => ⟨g.1, fun o ho => g.2 o (List.mem_cons_of_mem _ ho)⟩)

theorem new_owns (env : AuthEnv) (c : Codec) : (newSession env c).Owns := ⟨fun h => absurd rfl h, fun _ => rfl⟩

theorem frun_append {env : AuthEnv} {cs ds : List FCall} {s t : Session} {os : List AObs}
    (h : s.frun env (cs ++ ds) = .ok (t, os)) :
    ∃ u os1 os2, os = os1 ++ os2 ∧ os1.length = cs.length ∧ s.frun env cs = .ok (u, os1) ∧ u.frun env ds = .ok (t, os2) := by
  induction cs generalizing s os with
  | nil => exact ⟨s, [], os, rfl, rfl, rfl, h⟩
  | cons c cs ih =>
    obtain ⟨u, o, os', rfl, h1, h2⟩ := frun_cons h
    obtain ⟨w, os1, os2, rfl, hl, h3, h4⟩ := ih h2
    refine ⟨w, o :: os1, os2, rfl, by simp [hl], ?_, h4⟩
    show (do
      let (s, o) ← s.fstep env c
      let (s, os) ← frun env s cs
      .ok (s, o :: os) : Out (Session × List AObs)) = _
    rw [h1]
    show (do
      let (s, os) ← frun env u cs
      .ok (s, o :: os) : Out (Session × List AObs)) = _
    rw [h3]
    rfl

end Session

open Session

/-- **C70**, newer format: whatever is done with a session, with or without errors, the total result in a report, whether it is
handed out or fetched, is that of the reports handed out since the last reset -- as long as the session is not one for the
older format and did not fail to become one for lack of memory. -/
theorem C70_total {env : AuthEnv} {codec : Codec} {cs : List FCall} {c : FCall} {t : Session} {os : List AObs} {o : AObs}
    {r : Report} (h : (newSession env codec).frun env (cs ++ [c]) = .ok (t, os ++ [o])) (hr : o.report = some r)
    (hl : t.leg = none) (hm : ∀ x ∈ os ++ [o], x.rc ≠ some .memory) :
    shown r.acc = total (history [] ((cs ++ [c]).zip (os ++ [o]))) := by
  have h1 := frun_sums h (new_owns env codec) (ls := []) rfl (.inr ⟨hl, hm⟩)
  obtain ⟨u, os1, os2, e, -, h2, h3⟩ := frun_append h
  obtain ⟨w, o', os', rfl, h4, h5⟩ := frun_cons h3
  cases h5
  obtain ⟨rfl, e2⟩ := List.append_inj' e rfl
  cases e2
  obtain ⟨hu, hk⟩ := frun_owns h2 (new_owns env codec)
  obtain ⟨-, hk2, -, ht⟩ := fstep_told h4 hu
  have hs : Steady u t o := .inr ⟨hl, hm o (by simp)⟩
  rw [(ht hs).says r hr]
  exact h1

/-- **C70**, older format: from some call on, at which the total result is that of some reports `ls`, the total result in a
report is that of these and the reports handed out since, or since the last reset. -/
theorem C70_older {env : AuthEnv} {cs : List FCall} {c : FCall} {s t : Session} {os : List AObs} {o : AObs} {r : Report}
    {ls : List Latest} (hs : s.Owns) (hl : s.leg ≠ none) (h0 : shown s.rep.acc = total ls)
    (h : s.frun env (cs ++ [c]) = .ok (t, os ++ [o])) (hr : o.report = some r) :
    shown r.acc = total (history ls ((cs ++ [c]).zip (os ++ [o]))) := by
  have h1 := frun_sums h hs h0 (.inl hl)
  obtain ⟨u, os1, os2, e, -, h2, h3⟩ := frun_append h
  obtain ⟨w, o', os', rfl, h4, h5⟩ := frun_cons h3
  cases h5
  obtain ⟨rfl, e2⟩ := List.append_inj' e rfl
  cases e2
  obtain ⟨hu, hk⟩ := frun_owns h2 hs
  obtain ⟨-, hk2, -, ht⟩ := fstep_told h4 hu
  rw [(ht (.inl (hk hl))).says r hr]
  exact h1

/-- **C70**: a report that is fetched right after one was handed out says the same, except that the time stamp of the latest
validation has been used. -/
theorem C70_again {env : AuthEnv} {codec : Codec} {cs : List FCall} {c : AuthCall} {t : Session} {os : List AObs} {o o' : AObs}
    {r : Report} (h : (newSession env codec).frun env (cs ++ [.call c, .fetch]) = .ok (t, os ++ [o, o']))
    (hr : o.report = some r) : o' = ⟨none, some { r with latest := { r.latest with hasTs := false } }⟩ := by
  obtain ⟨u, os1, os2, e, -, h2, h3⟩ := frun_append h
  obtain ⟨w, o1, os', rfl, h4, h5⟩ := frun_cons h3
  obtain ⟨x, o2, os'', rfl, h6, h7⟩ := frun_cons h5
  cases h7
  obtain ⟨rfl, e2⟩ := List.append_inj' e rfl
  cases e2
  obtain ⟨hu, -⟩ := frun_owns h2 (new_owns env codec)
  obtain ⟨-, -, he, -⟩ := fstep_told h4 hu
  obtain ⟨h8, h9⟩ := he (fun h => by cases h) r hr
  have := again_of h8 h9
  cases h6
  rw [this]

end SV
