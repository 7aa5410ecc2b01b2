import Verif.Props.AuthStrings
import Verif.Proofs.AuthRep
/-!
C20: the counters of the accumulated report.
-/
namespace SV

namespace Spec

/-- The columns of a report: letter and status. -/
def columns (r : Report) : List (Char × Char) :=
  match r.latest.naluStr, r.latest.validationStr with
  | some a, some b => a.zip b
  | _, _ => []

/-- The columns before the first pending one, which are in no later report. -/
def before (r : Report) : List (Char × Char) := (columns r).takeWhile fun p => p.2 ≠ 'P'

/-- The columns from the first pending one on. -/
def after (r : Report) : List (Char × Char) := (columns r).dropWhile fun p => p.2 ≠ 'P'

/-- The number of columns before the first pending one that do not say 'M'. -/
def newlyValidated (r : Report) : Nat := ((before r).filter fun p => p.2 ≠ 'M').length

/-- What the user of a session can count: NAL units added, NAL units that were in a report for the last time, and columns
validated according to the reports of a signed stream. -/
structure Counts where
  added : Nat := 0
  gone : Nat := 0
  validated : Nat := 0

/-- The counts after a call. -/
def countAfter (c : Codec) (k : Counts) : AuthCall → AObs → Counts
  | .nalu d, o =>
    let k := if accepted c d then { k with added := k.added + 1 } else k
    match o.report with
    | some r => { k with
        gone := k.gone + gone r
        validated := k.validated + if r.acc.auth = .notSigned then 0 else newlyValidated r }
    | none => k
  | .reset, _ => {}
  | .publicKey _, _ => k

/-- The counts after a sequence of calls. -/
def countBy (c : Codec) : Counts → List AuthCall → List AObs → Counts
  | k, x :: cs, o :: os => countBy c (countAfter c k x o) cs os
  | k, _, _ => k

end Spec

theorem updateAccumulated_counts (l : Latest) (a : Accumulated) :
    (updateAccumulated l a).received = a.received ∧ (updateAccumulated l a).validated = a.validated := by
  by_cases h1 : a.auth.val ≤ 1 <;> by_cases h2 : l.auth.val < a.auth.val <;> by_cases h3 : a.keyVal = .notOk <;>
    by_cases h4 : l.hasTs <;> by_cases h5 : a.hasTs <;>
    simp [updateAccumulated, show Auth.signaturePresent.val = 1 from rfl, h1, h2, h3, h4, h5]

namespace Validator

theorem before_eq {r : Report} {l : NList} (h1 : r.latest.naluStr = some (naluStr l)) (h2 : r.latest.validationStr = some (validationStr l)) :
    Spec.before r = (l.takeWhile fun x => x.2.status ≠ .P).map (fun x => (typeChar x.2.nalu, x.2.status.char)) ∧
    Spec.after r = (cleanUp l).map (fun x => (typeChar x.2.nalu, x.2.status.char)) := by
  unfold Spec.before Spec.after Spec.columns cleanUp
  rw [h1, h2]
  dsimp only
  clear h1 h2
  unfold naluStr validationStr
  induction l with
  | nil => exact ⟨rfl, rfl⟩
  | cons x l ih =>
    rw [List.map_cons, List.map_cons, List.zip_cons_cons, List.takeWhile_cons, List.takeWhile_cons, List.dropWhile_cons, List.dropWhile_cons]
    by_cases e : x.2.status = .P
    · rw [if_neg (by simp [(char_P _).2 e]), if_neg (by simp [e]), if_neg (by simp [(char_P _).2 e]), if_neg (by simp [e])]
      refine ⟨rfl, ?_⟩
      rw [List.map_cons]
      congr 1
      clear ih
      induction l with
      | nil => rfl
      | cons y l ih => rw [List.map_cons, List.map_cons, List.zip_cons_cons, ih]; rfl
    · have e1 : ¬ x.2.status.char = 'P' := fun h => e ((char_P _).1 h)
      rw [if_pos (by simpa using e1), if_pos (by simpa using e), if_pos (by simpa using e1), if_pos (by simpa using e), List.map_cons, ih.1, ih.2]
      exact ⟨rfl, rfl⟩

theorem newlyValidated_eq {r : Report} {l : NList} (h1 : r.latest.naluStr = some (naluStr l)) (h2 : r.latest.validationStr = some (validationStr l)) :
    Spec.newlyValidated r = cleanUpCount l := by
  unfold Spec.newlyValidated cleanUpCount
  rw [(before_eq h1 h2).1, List.filter_map, List.length_map]
  refine congrArg List.length (List.filter_congr fun x _ => ?_)
  show decide (x.2.status.char ≠ 'M') = decide (x.2.status ≠ .M)
  cases x.2.status <;> decide

/-- The counters in a report. -/
theorem report_counts {s t : Validator} {r : Report} (h : s.report = .ok t (some r)) :
    r.acc = t.rep.acc ∧ r.acc.received = s.rep.acc.received ∧
    r.acc.validated = s.rep.acc.validated + (if r.acc.auth = .notSigned then 0 else cleanUpCount s.list) ∧
    r.acc.pending = if r.acc.auth = .notSigned then r.acc.received else (cleanUp s.list).length := by
  unfold report at h
  split at h
  · cases hu : updateReport s.rep s.list with
    | ub u => rw [hu] at h; cases h
    | err e => rw [hu] at h; cases h
    | ok p =>
      obtain ⟨r', l⟩ := p
      rw [hu] at h
      cases h
      have hl := updateReport_list hu
      unfold updateReport at hu
      obtain ⟨c, -, hu⟩ := Out.bind_eq_ok hu
      injection hu with hu
      injection hu with hu1 hu2
      have e : ∃ lt, r'.acc = (if (updateAccumulated lt s.rep.acc).auth ≠ .notSigned then
          { updateAccumulated lt s.rep.acc with validated := (updateAccumulated lt s.rep.acc).validated + cleanUpCount s.list }
          else updateAccumulated lt s.rep.acc) := by
        rw [← hu1]
        by_cases hc : c = 2
        · refine ⟨{ s.rep.latest with naluStr := some (naluStr s.list), validationStr := some (validationStr s.list), auth := .versionMismatch }, ?_⟩
          simp only [hc, if_true]
          split <;> rfl
        · refine ⟨{ s.rep.latest with naluStr := some (naluStr s.list), validationStr := some (validationStr s.list) }, ?_⟩
          simp only [hc, if_false]
          split <;> rfl
      obtain ⟨lt, e⟩ := e
      obtain ⟨c1, c2⟩ := updateAccumulated_counts lt s.rep.acc
      generalize updateAccumulated lt s.rep.acc = a at e c1 c2
      refine ⟨rfl, ?_⟩
      show r'.acc.received = _ ∧ r'.acc.validated = _ + (if r'.acc.auth = _ then _ else _) ∧
        (if r'.acc.auth = _ then r'.acc.received else _) = if r'.acc.auth = _ then r'.acc.received else _
      rw [hl]
      refine ⟨?_, ?_, rfl⟩
      · rw [e]; split <;> exact c1
      · by_cases ha : a.auth = .notSigned
        · rw [e, if_neg (by simp [ha]), if_pos ha, c2]; rfl
        · rw [e, if_pos ha]
          dsimp only
          rw [if_neg ha, c2]
  · cases h

/-- The codec of a session does not change. -/
theorem codec_inv (env : AuthEnv) (c : Codec) : CallInv env fun _ s => s.codec = c where
  misc _ s s' hm h := by unfold Misc at hm; rw [hm]; exact h
  round _ s h := RoundInv.round (P := fun s => s.codec = c)
    { pending := fun _ h => h
      begin := fun s h => (begin_codec s).trans h
      prep := fun env s h => (prepare_prep env s).mono fun t ht => ht.codec.trans h
      link := fun u v h hl => by
        obtain ⟨-, -, v3⟩ := updateLinkLoop_prep hl
        rw [v3]; exact h
      verify := fun v t p h hv => by rw [(verifyGop_listed v).of_ok hv]; exact h
      conclude := fun _ _ h => h
      notSigned := fun _ h => h
      finish := fun _ h => h } env h
  recurrent _ s h := (recurrentDecoded_decoded env s).mono fun t ht => ht.codec.trans h
  known _ _ h := h
  golden _ s a n data h _ _ := by
    unfold prepareGolden
    refine Res.Ends.andThen' ((decodeSei_prep env s _ _).mono fun t ht => (show t.codec = c from ht.codec.trans h)) fun t _ _ ht => ?_
    dsimp only
    split
    · trivial
    · rename_i x _
      refine Res.Ends.andThen' (P := fun s : Validator => s.codec = c) ((hashItem_hashed env _ x).mono fun u hu => by rw [hu.eq]; exact ht) fun u _ _ hu => ?_
      split
      · trivial
      · split
        · trivial
        · exact (prepare_prep env _).mono fun t ht => ht.codec.trans hu
  hash _ s x h _ := (hashItem_hashed env s x).mono fun t ht => by rw [ht.eq]; exact h
  noKey _ _ h := h
  mark _ _ _ _ h _ _ := h
  append _ _ _ _ h _ := h
  update _ _ _ _ _ _ _ h _ _ _ _ _ := h
  copy _ _ _ _ _ h _ _ _ := h
  clean _ _ h := h
  reset _ _ h := h
  key _ s k h hk := by
    unfold setPublicKey
    rw [if_neg hk]
    split
    · exact h
    · split
      · exact h
      · dsimp only
        split <;> exact h

/-- The counters of the session are those of the user. -/
def Counted (k : Spec.Counts) (s : Validator) : Prop :=
  s.legacy = true ∨ s.rep.acc.received = k.added ∧ s.rep.acc.validated = k.validated

theorem addH26x_rep (env : AuthEnv) (s : Validator) (d : Bytes) (hl : s.legacy = false) :
    (s.addH26x env d).Ends fun t => t.legacy = false →
      t.rep.acc.received = s.rep.acc.received + (if Spec.accepted s.codec d then 1 else 0) ∧ t.rep.acc.validated = s.rep.acc.validated := by
  unfold addH26x Spec.accepted
  by_cases hd : d = []
  · rw [if_pos hd, hd]; exact fun _ => ⟨rfl, rfl⟩
  · rw [if_neg hd, if_neg (show ¬ s.legacy = true by rw [hl]; decide)]
    have hb : (d != []) = true := by simpa using hd
    rw [hb]
    cases hn : parseNalu d s.codec true true with
    | ub u => trivial
    | err e => exact fun _ => ⟨rfl, rfl⟩
    | ok n =>
      dsimp only
      have hb := addBody_rep env { s with
        flags := { s.flags with hasAuth := false }
        rep := { s.rep with acc := { s.rep.acc with received := s.rep.acc.received + 1 } } } n
      revert hb
      generalize addBody env _ n = res
      intro hb
      cases res with
      | ub u => trivial
      | err v er =>
        refine (addEnd_rep _ _).mono fun u hu hlu => ?_
        have := (hu.1.acc hlu).2.trans (hb.acc (hu.1.acc hlu).1).2
        rw [this]; exact ⟨rfl, rfl⟩
      | ok v _ =>
        refine (addEnd_rep _ _).mono fun u hu hlu => ?_
        have := (hu.1.acc hlu).2.trans (hb.acc (hu.1.acc hlu).1).2
        rw [this]; exact ⟨rfl, rfl⟩

theorem Counted.step {env : AuthEnv} {k : Spec.Counts} {s t : Validator} {o : AObs} {x : AuthCall} (h : Counted k s)
    (e : authStep env s x = .ok (t, o)) : Counted (Spec.countAfter s.codec k x o) t ∧
      ∀ r, o.report = some r → t.legacy = false ∧ r.acc = t.rep.acc ∧
        r.acc.pending = if r.acc.auth = .notSigned then r.acc.received else (Spec.after r).length := by
  by_cases hl : s.legacy = true
  · obtain ⟨h1, h2⟩ := legacy_step hl e
    exact ⟨.inl h1, fun r hr => by rw [h2] at hr; cases hr⟩
  rcases h with h | ⟨k1, k2⟩
  · exact absurd h hl
  replace hl : s.legacy = false := by simpa using hl
  cases x with
  | reset => cases e; exact ⟨.inr ⟨rfl, rfl⟩, fun r hr => by cases hr⟩
  | publicKey key =>
    have h1 : (s.setPublicKey env key).Ends fun t => t.rep = s.rep := by
      unfold Validator.setPublicKey
      split
      · rfl
      · split
        · rfl
        · split
          · rfl
          · dsimp only
            split <;> rfl
    unfold authStep authCall at e
    dsimp only at e
    generalize s.setPublicKey env key = r at h1 e
    cases r with
    | ub u => cases e
    | err u er => cases e; exact ⟨.inr (by rw [show t.rep = s.rep from h1]; exact ⟨k1, k2⟩), fun r hr => by cases hr⟩
    | ok u _ => cases e; exact ⟨.inr (by rw [show t.rep = s.rep from h1]; exact ⟨k1, k2⟩), fun r hr => by cases hr⟩
  | nalu d =>
    have ha : ∀ o : AObs, (Spec.countAfter s.codec k (.nalu d) o).added = k.added + (if Spec.accepted s.codec d then 1 else 0) ∧
        (Spec.countAfter s.codec k (.nalu d) o).validated = k.validated +
          match o.report with
          | some r => if r.acc.auth = .notSigned then 0 else Spec.newlyValidated r
          | none => 0 := by
      intro o
      unfold Spec.countAfter
      dsimp only
      split <;> split <;> exact ⟨rfl, rfl⟩
    unfold authStep authCall Validator.add at e
    dsimp only at e
    by_cases hd0 : d = []
    · rw [if_pos hd0] at e
      cases e
      refine ⟨.inr ?_, fun r hr => by cases hr⟩
      rw [(ha _).1, (ha _).2, hd0]
      exact ⟨k1, k2⟩
    · rw [if_neg hd0] at e
      have h2 := addH26x_rep env { s with started := true, hasReport := true } d hl
      generalize Validator.addH26x env { s with started := true, hasReport := true } d = res at e h2
      have hk : ∀ t : Validator, (t.legacy = false → t.rep.acc.received = s.rep.acc.received + (if Spec.accepted s.codec d then 1 else 0) ∧ t.rep.acc.validated = s.rep.acc.validated) →
          ∀ rc, Counted (Spec.countAfter s.codec k (.nalu d) ⟨rc, none⟩) t := by
        intro t ht rc
        by_cases htl : t.legacy = true
        · exact .inl htl
        · obtain ⟨t1, t2⟩ := ht (by simpa using htl)
          refine .inr ?_
          rw [(ha _).1, (ha _).2, t1, t2, k1, k2]
          exact ⟨rfl, rfl⟩
      cases res with
      | ub u => cases e
      | err u er => cases e; exact ⟨hk _ h2 _, fun r hr => by cases hr⟩
      | ok u _ =>
        rw [Res.andThen_ok] at e
        by_cases hu : u.legacy = true
        · rw [if_pos hu] at e
          cases e
          exact ⟨.inl hu, fun r hr => by cases hr⟩
        · rw [if_neg hu] at e
          cases hp : u.report with
          | ub x => rw [hp] at e; cases e
          | err v er =>
            rw [hp] at e
            cases e
            cases report_err hp
            exact ⟨hk _ h2 _, fun r hr => by cases hr⟩
          | ok v ro =>
            rw [hp] at e
            cases e
            cases ro with
            | none => cases report_none hp; exact ⟨hk _ h2 _, fun r hr => by cases hr⟩
            | some r =>
              obtain ⟨r1, r2, r3, r4, r5, r6⟩ := report_some hp
              obtain ⟨c1, c2, c3, c4⟩ := report_counts hp
              obtain ⟨u1, u2⟩ := h2 (by simpa using hu)
              refine ⟨.inr ?_, ?_⟩
              · rw [(ha _).1, (ha _).2, ← c1, c2, c3]
                dsimp only
                rw [newlyValidated_eq r5 r6]
                refine ⟨u1.trans ?_, ?_⟩
                · show s.rep.acc.received + _ = _
                  rw [k1]
                · rw [u2]
                  show s.rep.acc.validated + _ = _
                  rw [k2]
              · intro r' hr'
                cases hr'
                refine ⟨by rw [r4]; simpa using hu, c1, ?_⟩
                rw [c4, (before_eq r5 r6).2, List.length_map]

theorem Counted.run {env : AuthEnv} {c : Codec} {k : Spec.Counts} {s t : Validator} {cs : List AuthCall} {os : List AObs}
    (h : Counted k s) (hc : s.codec = c) (e : authRun env s cs = .ok (t, os)) : Counted (Spec.countBy c k cs os) t := by
  induction cs generalizing s os k with
  | nil => cases e; exact h
  | cons x cs ih =>
    unfold authRun at e
    obtain ⟨p, h1, e⟩ := Out.bind_eq_ok e
    obtain ⟨q, h2, e⟩ := Out.bind_eq_ok e
    cases e
    have := (h.step h1).1
    rw [hc] at this
    exact ih this ((codec_inv env c).step (L := []) hc h1) h2

end Validator

/-- The counters of the accumulated report are those that the user of the session can count: NAL units received are those
added, validated are the columns before the first pending one of the reports that are not NOT SIGNED, and pending are the
columns from the first pending one on, or everything received if the stream is not signed. -/
theorem C20_counters {env : AuthEnv} {c : Codec} {cs : List AuthCall} {s t : Validator} {os : List AObs} {data : Bytes} {r : Report}
    (h : authRun env (newValidator env c) cs = .ok (s, os)) (ha : s.add env data = .ok t (some r)) :
    let k := Spec.countAfter c (Spec.countBy c {} cs os) (.nalu data) ⟨none, some r⟩
    r.acc.received = k.added ∧ r.acc.validated = k.validated ∧
      r.acc.pending = if r.acc.auth = .notSigned then r.acc.received else (Spec.after r).length := by
  have e : authStep env s (.nalu data) = .ok (t, ⟨none, some r⟩) := by
    unfold authStep authCall
    dsimp only
    rw [ha]
  have h1 := Validator.Counted.run (k := {}) (.inr ⟨rfl, rfl⟩) rfl h
  have hc := (Validator.codec_inv env c).run (L := []) rfl h
  obtain ⟨h2, h3⟩ := h1.step e
  obtain ⟨hl, h4, h5⟩ := h3 r rfl
  rw [hc] at h2
  rcases h2 with h2 | ⟨h2, h6⟩
  · rw [hl] at h2; cases h2
  · rw [← h4] at h2 h6
    exact ⟨h2, h6, h5⟩

namespace Spec

/-- A report in which blank columns are those of missing NAL units, and which is the last one about a NAL unit only if the
stream is known to be signed. -/
def Plain (r : Report) : Prop :=
  (∀ p ∈ columns r, p.1 = ' ' ↔ p.2 = 'M') ∧ (r.acc.auth = .notSigned → gone r = 0)

theorem gone_before (r : Report) : gone r = ((before r).filter fun p => p.1 ≠ ' ').length := by
  unfold gone before columns
  cases r.latest.naluStr <;> cases r.latest.validationStr <;> rfl

theorem Plain.gone {r : Report} (h : Plain r) : Spec.gone r = if r.acc.auth = .notSigned then 0 else newlyValidated r := by
  by_cases e : r.acc.auth = .notSigned
  · rw [if_pos e, h.2 e]
  · rw [if_neg e, gone_before]
    unfold newlyValidated
    refine congrArg List.length (List.filter_congr fun p hp => ?_)
    have := h.1 p ((List.takeWhile_prefix _).subset hp)
    by_cases e : p.2 = 'M'
    · simp [this.2 e, e]
    · have e' : ¬ p.1 = ' ' := fun h => e (this.1 h)
      simp [e, e']

end Spec

theorem real_length_le (l m : NList) (h : l <+: m) : (real l).length ≤ (real m).length := by
  obtain ⟨t, rfl⟩ := h
  rw [real_append, List.length_append]
  exact Nat.le_add_right _ _

namespace Validator

/-- What was added is still to be reported or was in a report for the last time. -/
def Summed (k : Spec.Counts) (held : List Bytes) (s : Validator) : Prop := s.legacy = true ∨ k.added = k.gone + held.length

theorem Summed.step {env : AuthEnv} {c : Codec} {k : Spec.Counts} {held : List Bytes} {s t : Validator} {o : AObs} {x : AuthCall}
    (h : Summed k held s) (hh : Holding c held s) (hx : ∀ d, x = .nalu d → Spec.Sane c d) (e : authStep env s x = .ok (t, o)) :
    Summed (Spec.countAfter c k x o) (Spec.heldAfter c held x o) t := by
  by_cases hl : s.legacy = true
  · exact .inl (legacy_step hl e).1
  rcases h with h | h
  · exact absurd h hl
  rcases hh with hh | ⟨M, hh, hM, hm⟩
  · exact absurd hh hl
  cases x with
  | reset => exact .inr rfl
  | publicKey key => exact .inr h
  | nalu d =>
    obtain ⟨-, h2⟩ := hh.add hM (hx d rfl) (by simpa using hl) e
    refine .inr ?_
    have hk : (if Spec.accepted c d then held ++ [d] else held).length = held.length + if Spec.accepted c d then 1 else 0 := by
      cases Spec.accepted c d <;> simp
    have ka : (if Spec.accepted c d then { k with added := k.added + 1 } else k : Spec.Counts).added = k.added + (if Spec.accepted c d then 1 else 0) ∧
        (if Spec.accepted c d then { k with added := k.added + 1 } else k : Spec.Counts).gone = k.gone := by
      split <;> exact ⟨rfl, rfl⟩
    unfold Spec.countAfter Spec.heldAfter
    dsimp only
    cases hr : o.report with
    | none =>
      dsimp only
      rw [ka.1, ka.2, hk]
      omega
    | some r =>
      dsimp only
      obtain ⟨l, -, hr, e1, e2, hd, n, hn⟩ := h2 r hr
      rw [List.length_drop, hk, ka.1, ka.2]
      have ha : Spec.accepted c d = true := by
        unfold Spec.accepted
        rw [hn]
        simpa using hd
      rw [if_pos ha, gone_eq e1 e2]
      have h3 : goneCount l ≤ (SV.real l).length := real_length_le _ _ (List.takeWhile_prefix _)
      rw [hr, List.length_map, List.length_append, List.length_singleton, ← List.length_map (f := Prod.snd), hm] at h3
      omega

theorem Summed.run {env : AuthEnv} {c : Codec} {k : Spec.Counts} {held : List Bytes} {s t : Validator} {cs : List AuthCall}
    {os : List AObs} (h : Summed k held s) (hh : Holding c held s) (hx : ∀ d, AuthCall.nalu d ∈ cs → Spec.Sane c d)
    (e : authRun env s cs = .ok (t, os)) : Summed (Spec.countBy c k cs os) (Spec.heldBy c held cs os) t := by
  induction cs generalizing s os k held with
  | nil => cases e; exact h
  | cons x cs ih =>
    unfold authRun at e
    obtain ⟨p, h1, e⟩ := Out.bind_eq_ok e
    obtain ⟨q, h2, e⟩ := Out.bind_eq_ok e
    cases e
    have hx1 : ∀ d, x = .nalu d → Spec.Sane c d := fun d hd => hx d (hd ▸ List.mem_cons_self)
    exact ih (h.step hh hx1 h1) (hh.step hx1 h1) (fun d hd => hx d (List.mem_cons_of_mem _ hd)) h2

end Validator

/-- Every NAL unit received was in a report for the last time or is still to be reported. -/
theorem C20_held {env : AuthEnv} {c : Codec} {cs : List AuthCall} {s t : Validator} {os : List AObs} {data : Bytes} {r : Report}
    (h : authRun env (newValidator env c) cs = .ok (s, os)) (hsane : ∀ d, AuthCall.nalu d ∈ cs ++ [AuthCall.nalu data] → Spec.Sane c d)
    (ha : s.add env data = .ok t (some r)) :
    r.acc.received = (Spec.countBy c {} cs os).gone + Spec.gone r +
      (Spec.heldAfter c (Spec.heldBy c [] cs os) (.nalu data) ⟨none, some r⟩).length := by
  have e : authStep env s (.nalu data) = .ok (t, ⟨none, some r⟩) := by
    unfold authStep authCall
    dsimp only
    rw [ha]
  have hl : t.legacy = false := ((Validator.Counted.run (k := {}) (.inr ⟨rfl, rfl⟩) rfl h).step e).2 r rfl |>.1
  have hh := (Validator.newHolding env c).run (fun d hd => hsane d (List.mem_append_left _ hd)) h
  have h1 := (Validator.Summed.run (k := {}) (.inr rfl) (Validator.newHolding env c) (fun d hd => hsane d (List.mem_append_left _ hd)) h).step hh
    (fun d hd => by cases hd; exact hsane data (List.mem_append_right _ List.mem_cons_self)) e
  rcases h1 with h1 | h1
  · rw [hl] at h1; cases h1
  rw [(C20_counters h ha).1, h1]
  congr 1
  unfold Spec.countAfter
  dsimp only
  split <;> rfl

theorem countBy_plain {c : Codec} {cs : List AuthCall} {os : List AObs} {k : Spec.Counts} (hk : k.gone = k.validated)
    (h : ∀ o ∈ os, ∀ r, o.report = some r → Spec.Plain r) : (Spec.countBy c k cs os).gone = (Spec.countBy c k cs os).validated := by
  induction cs generalizing k os with
  | nil => unfold Spec.countBy; exact hk
  | cons x cs ih =>
    cases os with
    | nil => exact hk
    | cons o os =>
      unfold Spec.countBy
      refine ih ?_ fun o' ho => h o' (List.mem_cons_of_mem _ ho)
      cases x with
      | reset => rfl
      | publicKey _ => exact hk
      | nalu d =>
        unfold Spec.countAfter
        dsimp only
        have ka : (if Spec.accepted c d then { k with added := k.added + 1 } else k : Spec.Counts).validated = k.validated ∧
            (if Spec.accepted c d then { k with added := k.added + 1 } else k : Spec.Counts).gone = k.gone := by
          split <;> exact ⟨rfl, rfl⟩
        cases hr : o.report with
        | none => dsimp only; rw [ka.1, ka.2, hk]
        | some r => dsimp only; rw [ka.1, ka.2, hk, (h o List.mem_cons_self r hr).gone]

theorem add_accepted {env : AuthEnv} {s t : Validator} {data : Bytes} {r : Report} (h : s.add env data = .ok t (some r)) :
    Spec.accepted s.codec data = true := by
  unfold Validator.add at h
  split at h
  · cases h
  · rename_i hd
    obtain ⟨u, _, h1, h2⟩ := Res.andThen_eq_ok h
    unfold Validator.addH26x at h1
    rw [if_neg hd] at h1
    split at h1
    · rename_i hl
      cases h1
      rw [if_pos hl] at h2
      cases h2
    · unfold Spec.accepted
      have hb : (data != []) = true := by simpa using hd
      rw [hb]
      dsimp only at h1
      cases hn : parseNalu data s.codec true true with
      | ok n => rfl
      | err e => rw [hn] at h1; cases h1
      | ub u => rw [hn] at h1; cases h1

/-- Received NAL units are validated or pending, if no report of a stream not known to be signed was the last one about a NAL
unit and no missing NAL unit is among the pending ones. What is missing: C20 does not make these conditions; see
`C20_unsigned_start_false`. -/
theorem C20_conserved_partial {env : AuthEnv} {c : Codec} {cs : List AuthCall} {s t : Validator} {os : List AObs} {data : Bytes}
    {r : Report} (h : authRun env (newValidator env c) cs = .ok (s, os))
    (hsane : ∀ d, AuthCall.nalu d ∈ cs ++ [AuthCall.nalu data] → Spec.Sane c d) (ha : s.add env data = .ok t (some r))
    (hp : ∀ o ∈ os, ∀ r, o.report = some r → Spec.Plain r) (hpr : Spec.Plain r) (hm : ∀ p ∈ Spec.after r, p.2 ≠ 'M')
    (hs : r.acc.auth ≠ .notSigned) : r.acc.received = r.acc.validated + r.acc.pending := by
  obtain ⟨-, h2, h3⟩ := C20_counters h ha
  rw [if_neg hs] at h3
  have h4 := C20_held h hsane ha
  obtain ⟨cols, c1, c2, c3, c4⟩ := C18_strings h hsane ha
  have hg := countBy_plain (c := c) (cs := cs) (k := {}) rfl hp
  have hv : (Spec.countAfter c (Spec.countBy c {} cs os) (.nalu data) ⟨none, some r⟩).validated = (Spec.countBy c {} cs os).gone + Spec.gone r := by
    rw [hpr.gone, hg]
    unfold Spec.countAfter
    dsimp only
    split <;> rfl
  rw [h4, h2, hv, h3]
  congr 1
  have hcol : Spec.columns r = cols.map fun x => (x.letter c, x.status) := by
    unfold Spec.columns
    rw [c1, c2]
    dsimp only
    clear c1 c2 c3 c4
    induction cols with
    | nil => rfl
    | cons x cols ih => rw [List.map_cons, List.map_cons, List.zip_cons_cons, ih]; rfl
  have hblank : ∀ l : List (Char × Char), (∀ p ∈ l, p.2 ≠ 'M') → l ⊆ Spec.columns r → (l.filter fun p => p.1 ≠ ' ').length = l.length := by
    intro l hl hs
    rw [List.filter_eq_self.2]
    intro p hpl
    have := hpr.1 p (hs hpl)
    simpa using fun e => hl p hpl (this.1 e)
  have hlet : ∀ d : Bytes, Spec.letter c d ≠ ' ' := by
    intro d
    unfold Spec.letter
    split
    · exact typeChar_some _
    · decide
  have hn : ∀ cols : List Spec.Column, ((cols.map fun x => (x.letter c, x.status)).filter fun p => p.1 ≠ ' ').length = (cols.filterMap (·.nalu)).length := by
    intro cols
    induction cols with
    | nil => rfl
    | cons x cols ih =>
      rw [List.map_cons, List.filter_cons, List.filterMap_cons]
      cases hx : x.nalu with
      | none =>
        have : x.letter c = ' ' := by unfold Spec.Column.letter; rw [hx]
        rw [if_neg (by simp [this])]; exact ih
      | some d =>
        have : x.letter c ≠ ' ' := by unfold Spec.Column.letter; rw [hx]; exact hlet d
        rw [if_pos (by simpa using this), List.length_cons, List.length_cons, ih]
  have h5 := hn cols
  rw [← hcol, c3] at h5
  have h6 : Spec.columns r = Spec.before r ++ Spec.after r := (List.takeWhile_append_dropWhile).symm
  rw [h6, List.filter_append, List.length_append, ← Spec.gone_before,
    hblank (Spec.after r) hm (by rw [h6]; exact List.subset_append_right _ _)] at h5
  have h7 : (Spec.heldAfter c (Spec.heldBy c [] cs os) (.nalu data) ⟨none, some r⟩) = (Spec.heldBy c [] cs os ++ [data]).drop (Spec.gone r) := by
    unfold Spec.heldAfter
    have := add_accepted ha
    rw [(Validator.codec_inv env c).run (L := []) rfl h] at this
    dsimp only
    rw [if_pos this]
  rw [h7, List.length_drop]
  omega

/-- The hypotheses are met. -/
example : ∃ s os, authRun toyEnv (newValidator toyEnv .h264) (((toySigned [] "IPPIPPI").take 8).map AuthCall.nalu) = .ok (s, os) ∧
    (match s.add toyEnv (((toySigned [] "IPPIPPI").drop 8).headD []) with
     | .ok _ (some r) =>
       decide (r.acc.received = 9 ∧ r.acc.validated = 7 ∧ r.acc.pending = 2 ∧ r.acc.auth = .ok ∧
         (∀ p ∈ Spec.columns r, p.1 = ' ' ↔ p.2 = 'M') ∧ (∀ p ∈ Spec.after r, p.2 ≠ 'M')) &&
       os.all fun o => match o.report with
         | some r => decide ((∀ p ∈ Spec.columns r, p.1 = ' ' ↔ p.2 = 'M') ∧ (r.acc.auth = .notSigned → Spec.gone r = 0))
         | none => true
     | _ => false) = true :=
  authCheck toyEnv _ _ (fun s os =>
    (match s.add toyEnv (((toySigned [] "IPPIPPI").drop 8).headD []) with
     | .ok _ (some r) =>
       decide (r.acc.received = 9 ∧ r.acc.validated = 7 ∧ r.acc.pending = 2 ∧ r.acc.auth = .ok ∧
         (∀ p ∈ Spec.columns r, p.1 = ' ' ↔ p.2 = 'M') ∧ (∀ p ∈ Spec.after r, p.2 ≠ 'M')) &&
       os.all fun o => match o.report with
         | some r => decide ((∀ p ∈ Spec.columns r, p.1 = ' ' ↔ p.2 = 'M') ∧ (r.acc.auth = .notSigned → Spec.gone r = 0))
         | none => true
     | _ => false)) (by decide +kernel)

/-- C20 is false as it stands: an access unit delimiter at the start of the stream is removed with the first report, which is
NOT SIGNED, and is never counted as validated. Six NAL units are received, three validated and two pending. -/
theorem C20_unsigned_start_false : ∃ s os r, authRun toyEnv (newValidator toyEnv .h264) ((toySigned [] "VIPPI").map AuthCall.nalu) = .ok (s, os) ∧
    (os.getLast?.bind AObs.report) = some r ∧ r.acc.auth = .ok ∧ r.acc.received = 6 ∧ r.acc.validated = 3 ∧ r.acc.pending = 2 := by
  obtain ⟨s, os, h, h2⟩ := authCheck toyEnv (newValidator toyEnv .h264) ((toySigned [] "VIPPI").map AuthCall.nalu)
    (fun _ os => match os.getLast?.bind AObs.report with
      | some r => decide (r.acc.auth = .ok ∧ r.acc.received = 6 ∧ r.acc.validated = 3 ∧ r.acc.pending = 2)
      | none => false) (by decide +kernel)
  cases hr : os.getLast?.bind AObs.report with
  | none => rw [hr] at h2; cases h2
  | some r => rw [hr] at h2; exact ⟨s, os, r, h, hr, by simpa using h2⟩

end SV
