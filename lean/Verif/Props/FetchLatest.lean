import Verif.Props.Fetch
import Verif.Proofs.FetchLatest
import Verif.Props.LegacyDemo
/-! C70: the latest validation in a report that is fetched, and examples. -/
namespace SV
open Spec Session

/-- What a report says about the latest validation; key change and time stamp are left out, since they are told by SEIs and
not by validations. -/
def Spec.finding (l : Latest) : Auth × Int × Int × Int × Option (List Char) × Option (List Char) × KeyVal :=
  (l.auth, l.expected, l.received, l.pending, l.validationStr, l.naluStr, l.keyVal)

/-- The full claim on the latest validation: a call with a NAL unit that hands out no report leaves it as it was. -/
def C70_latest_claim (env : AuthEnv) : Prop :=
  ∀ (codec : Codec) (cs : List FCall) (d : Bytes) (t : Session) (os : List AObs) (o : AObs) (r r' : Report),
    (newSession env codec).frun env (cs ++ [.fetch, .call (.nalu d), .fetch]) = .ok (t, os ++ [⟨none, some r⟩, o, ⟨none, some r'⟩]) →
    o.report = none → finding r'.latest = finding r.latest

theorem Session.finding_kept {l m : Latest} (h : Validator.LatestKept l m) : finding m = finding l := by
  obtain ⟨_, _, _, rfl⟩ := h
  rfl

theorem Session.fetched {s t : Session} {r r' : Report} (h : s.fetch.2 = some r) (h' : t.fetch.2 = some r')
    (hk : Validator.LatestKept s.rep.latest t.rep.latest) : finding r'.latest = finding r.latest := by
  unfold fetch at h h'
  split at h
  · split at h'
    · cases h; cases h'
      obtain ⟨_, _, _, e⟩ := hk
      unfold getReport finding
      dsimp only
      rw [e]
    · cases h'
  · cases h

theorem Session.fetch_latest (s : Session) : s.fetch.1.rep.latest = s.rep.latest := by
  unfold fetch
  split
  · dsimp only
    rw [(withRep_leg s _).2.1]; rfl
  · rfl

theorem Session.add_latest {env : AuthEnv} {s t : Session} {d : Bytes} (h : s.add env d = .ok t none) (hs : t.Owns)
    (hl : s.leg ≠ none ∨ t.leg = none) : Validator.LatestKept s.rep.latest t.rep.latest := by
  obtain ⟨v0, raw0, leg0⟩ := s
  unfold add at h
  cases leg0 with
  | some l =>
    dsimp only at h
    split at h
    · rename_i m r hm
      cases h
      exact Legacy.add_silent hm
    · cases h
    · cases h
  | none =>
    replace hl : t.leg = none := hl.resolve_left fun h => h rfl
    have hy := hs.young hl
    dsimp only at h
    split at h
    · cases h
    · rename_i v r hv
      split at h
      · exfalso
        split at h
        · cases h
        · cases h
        · split at h
          · cases h; cases hl
          · cases h
          · cases h
      · cases h
        exact Validator.add_silent hv hy
    · rename_i v e hv
      exfalso
      split at h
      · split at h
        · cases h
        · cases h
        · split at h
          · rename_i hm
            obtain ⟨_, _, _, hm⟩ := Res.andThen_eq_ok hm
            cases hm
          · cases h
          · cases h
      · cases h

/-- **C70**, the latest validation: a call with a NAL unit that returns SV_OK and hands out no report leaves the latest
validation of a fetched report as it was.  Missing are calls that return an error, see `C70_latest_false`, and the call in
which the session becomes one for the older format. -/
theorem C70_latest_partial {env : AuthEnv} {codec : Codec} {cs : List FCall} {d : Bytes} {s t : Session} {os os' : List AObs}
    {r r' : Report} (h0 : (newSession env codec).frun env cs = .ok (s, os))
    (h : s.frun env [.fetch, .call (.nalu d), .fetch] = .ok (t, [⟨none, some r⟩, ⟨none, none⟩, ⟨none, some r'⟩]))
    (hl : s.leg ≠ none ∨ t.leg = none) : finding r'.latest = finding r.latest := by
  have hs := (frun_owns h0 (new_owns env codec)).1
  obtain ⟨u, o1, os1, e1, h1, h2⟩ := frun_cons h
  obtain ⟨w, o2, os2, e2, h3, h4⟩ := frun_cons h2
  obtain ⟨x, o3, os3, e3, h5, h6⟩ := frun_cons h4
  cases h6
  cases e1; cases e2; cases e3
  have f1 : s.fetch.1 = u ∧ s.fetch.2 = some r := by
    have : (Out.ok (s.fetch.1, (⟨none, s.fetch.2⟩ : AObs)) : Out (Session × AObs)) = .ok (u, ⟨none, some r⟩) := h1
    injection this with this
    injection this with a b
    injection b with _ b
    exact ⟨a, b⟩
  have f3 : w.fetch.1 = t ∧ w.fetch.2 = some r' := by
    have : (Out.ok (w.fetch.1, (⟨none, w.fetch.2⟩ : AObs)) : Out (Session × AObs)) = .ok (t, ⟨none, some r'⟩) := h5
    injection this with this
    injection this with a b
    injection b with _ b
    exact ⟨a, b⟩
  obtain ⟨hu, hul, -⟩ := fetch_told s hs
  obtain ⟨hw, hwl, -⟩ := fstep_told h3 (f1.1 ▸ hu)
  obtain ⟨-, hxl, -⟩ := fetch_told w hw
  refine fetched f1.2 f3.2 ?_
  rw [← fetch_latest s, f1.1]
  have h3' : u.add env d = .ok w none := by
    replace h3 : u.step env (.nalu d) = .ok (w, ⟨none, none⟩) := h3
    unfold step call at h3
    split at h3
    · rename_i ha; cases h3; exact ha
    · cases h3
    · cases h3
  refine add_latest h3' hw (hl.imp (fun g => ?_) fun g => ?_)
  · intro e; apply g; rw [f1.1, e] at hul; simpa using hul.symm
  · rw [f3.1, g] at hxl; simpa using hxl.symm

/-- Evaluation of a sequence of calls. -/
theorem fetchCheck (env : AuthEnv) (s : Session) (cs : List FCall) (P : Session → List AObs → Bool)
    (h : (match s.frun env cs with | .ok p => P p.1 p.2 | _ => false) = true) :
    ∃ s' os, s.frun env cs = .ok (s', os) ∧ P s' os = true := by
  cases hr : s.frun env cs with
  | ok p => rw [hr] at h; exact ⟨p.1, p.2, rfl, h⟩
  | err e => rw [hr] at h; cases h
  | ub u => rw [hr] at h; cases h

/-- A stream with a NAL unit replaced, as far as the report on it. -/
def tornStart : List Bytes :=
  (((toySigned [] "IPPIPPIPPI").set 5 (toyNalu 'P' 77)).take 9) ++ ((toySigned [] "IPPIPPIPPI").drop 9).take 3

/-- The next SEI, spoilt so that decoding it fails. -/
def tornSei : Bytes := ((toySigned [] "IPPIPPIPPI").getD 12 []).set 32 0xf3

theorem split3 {os : List AObs} {a b c : AObs} (h : os.reverse.take 3 = [c, b, a]) : ∃ l, os = l ++ [a, b, c] := by
  refine ⟨(os.reverse.drop 3).reverse, ?_⟩
  have := List.take_append_drop 3 os.reverse
  rw [h] at this
  have := congrArg List.reverse this
  rw [List.reverse_reverse, List.reverse_append] at this
  exact this.symm

/-- The claim is false: if a call fails while it validates, the verdict of a fetched report is that of the validation that was
given up, and the strings are those of the one before. -/
theorem C70_latest_false : ¬ C70_latest_claim toyEnv := by
  intro h
  obtain ⟨t, os, hr, hp⟩ := fetchCheck toyEnv (newSession toyEnv .h264)
    (tornStart.map (fun d => .call (.nalu d)) ++ [.fetch, .call (.nalu tornSei), .fetch])
    (fun _ os => match os.reverse.take 3 with
      | [⟨none, some r'⟩, ⟨some .invalidParameter, none⟩, ⟨none, some r⟩] =>
        decide (r.latest.auth = .notOk) && decide (r'.latest.auth = .signaturePresent) &&
          decide (r.latest.validationStr = r'.latest.validationStr)
      | _ => false) (by decide +kernel)
  split at hp
  · rename_i r' r e
    obtain ⟨os, rfl⟩ := split3 e
    have := h .h264 _ _ t os _ r r' hr rfl
    simp only [Bool.and_eq_true, decide_eq_true_eq] at hp
    have := congrArg Prod.fst this
    have : r'.latest.auth = r.latest.auth := this
    rw [hp.1.1, hp.1.2] at this
    cases this
  · cases hp

/-! ### Examples -/

/-- A stream with a NAL unit replaced, and all of it. -/
def tornStream : List Bytes := tornStart ++ (toySigned [] "IPPIPPIPPI").drop 12

theorem split2 {os : List AObs} {a b : AObs} (h : os.reverse.take 2 = [b, a]) : ∃ l, os = l ++ [a, b] := by
  refine ⟨(os.reverse.drop 2).reverse, ?_⟩
  have := List.take_append_drop 2 os.reverse
  rw [h] at this
  have := congrArg List.reverse this
  rw [List.reverse_reverse, List.reverse_append] at this
  exact this.symm

/-- For `C70_total` and `C70_again`: a NAL unit was replaced in the GOP before the last one; the last report is good and the
total result stays bad. -/
example : ∃ t os r r', (newSession toyEnv .h264).frun toyEnv (tornStream.map (fun d => .call (.nalu d)) ++ [.fetch]) =
        .ok (t, os ++ [⟨none, some r⟩, ⟨none, some r'⟩]) ∧
    t.leg = none ∧ (∀ x ∈ os ++ [⟨none, some r⟩, ⟨none, some r'⟩], x.rc ≠ some .memory) ∧
    r.latest.auth = .ok ∧ r.acc.auth = .notOk ∧ r'.acc.auth = .notOk := by
  obtain ⟨t, os, hr, hp⟩ := fetchCheck toyEnv (newSession toyEnv .h264) (tornStream.map (fun d => .call (.nalu d)) ++ [.fetch])
    (fun t os => t.leg.isNone && (os.all fun x => decide (x.rc ≠ some .memory)) && match os.reverse.take 2 with
      | [⟨none, some r'⟩, ⟨none, some r⟩] =>
        decide (r.latest.auth = .ok) && decide (r.acc.auth = .notOk) && decide (r'.acc.auth = .notOk)
      | _ => false) (by decide +kernel)
  rw [Bool.and_eq_true, Bool.and_eq_true] at hp
  obtain ⟨⟨h1, h2⟩, hp⟩ := hp
  split at hp
  · rename_i r' r e
    obtain ⟨os, rfl⟩ := split2 e
    simp only [Bool.and_eq_true, decide_eq_true_eq] at hp
    refine ⟨t, os, r, r', hr, by simpa using h1, fun x hx => ?_, hp.1.1, hp.1.2, hp.2⟩
    have := List.all_eq_true.1 h2 x hx
    simpa using this
  · cases hp

/-- For `C70_older`: a session that has become one for the older format. -/
example : ∃ s os0, (newSession polyEnv .h264).frun polyEnv (((legSigned true "IPPIPPI").take 2).map fun d => .call (.nalu d)) = .ok (s, os0) ∧
    s.Owns ∧ s.leg ≠ none ∧ shown s.rep.acc = total [s.rep.latest] ∧
    ∃ t os r, s.frun polyEnv (((legSigned true "IPPIPPI").drop 2).map fun d => .call (.nalu d)) = .ok (t, os ++ [⟨none, some r⟩]) ∧
      r.acc.auth = .ok := by
  obtain ⟨s, os0, h0, hp⟩ := fetchCheck polyEnv (newSession polyEnv .h264) (((legSigned true "IPPIPPI").take 2).map fun d => .call (.nalu d))
    (fun s _ => s.leg.isSome && decide (shown s.rep.acc = total [s.rep.latest]) &&
      match s.frun polyEnv (((legSigned true "IPPIPPI").drop 2).map fun d => .call (.nalu d)) with
      | .ok (_, os) =>
        match os.reverse with
        | ⟨none, some r⟩ :: _ => decide (r.acc.auth = .ok)
        | _ => false
      | _ => false) (by decide +kernel)
  rw [Bool.and_eq_true, Bool.and_eq_true, decide_eq_true_eq] at hp
  obtain ⟨⟨h1, h2⟩, hp⟩ := hp
  refine ⟨s, os0, h0, (frun_owns h0 (new_owns _ _)).1, by simpa [Option.isSome_iff_ne_none] using h1, h2, ?_⟩
  split at hp
  · rename_i t os hr
    split at hp
    · rename_i r os' e
      refine ⟨t, os'.reverse, r, ?_, by simpa using hp⟩
      rw [hr]
      have := congrArg List.reverse e
      rw [List.reverse_reverse, List.reverse_cons] at this
      rw [this]
    · cases hp
  · cases hp

/-- For `C70_latest_partial`: the first NAL unit after a bad report. -/
example : ∃ s os t r r', (newSession toyEnv .h264).frun toyEnv ((tornStream.take 9).map fun d => .call (.nalu d)) = .ok (s, os) ∧
    s.frun toyEnv [.fetch, .call (.nalu (tornStream.getD 9 [])), .fetch] = .ok (t, [⟨none, some r⟩, ⟨none, none⟩, ⟨none, some r'⟩]) ∧
    t.leg = none ∧ r'.latest.auth = .notOk ∧ r.acc.pending ≠ r'.acc.pending := by
  obtain ⟨s, os, h0, hp⟩ := fetchCheck toyEnv (newSession toyEnv .h264) ((tornStream.take 9).map fun d => .call (.nalu d))
    (fun s _ => match s.frun toyEnv [.fetch, .call (.nalu (tornStream.getD 9 [])), .fetch] with
      | .ok (t, [⟨none, some r⟩, ⟨none, none⟩, ⟨none, some r'⟩]) =>
        t.leg.isNone && decide (r'.latest.auth = .notOk) && decide (r.acc.pending ≠ r'.acc.pending)
      | _ => false) (by decide +kernel)
  split at hp
  · rename_i t r r' hr
    simp only [Bool.and_eq_true, decide_eq_true_eq] at hp
    exact ⟨s, os, t, r, r', h0, hr, by simpa using hp.1.1, hp.1.2, hp.2⟩
  · cases hp

end SV
