import Verif.Proofs.AuthReal
import Verif.Props.AuthForge
/-!
C18: the strings of a report.
-/
namespace SV

namespace Spec

/-- A column of the two strings of a report: a NAL unit that was added to the session, or none if one is missing, with its
status. -/
structure Column where
  nalu : Option Bytes
  status : Char

/-- The letter for a NAL unit. -/
def letter (c : Codec) (d : Bytes) : Char :=
  match parseNalu d c true true with
  | .ok n => typeChar (some n)
  | _ => '?'

/-- The letter of a column. -/
def Column.letter (c : Codec) (x : Column) : Char :=
  match x.nalu with
  | none => ' '
  | some d => Spec.letter c d

/-- The number of NAL units that a report is the last one about: columns before the first pending one that are not blank. -/
def gone (r : Report) : Nat :=
  match r.latest.naluStr, r.latest.validationStr with
  | some a, some b => (((a.zip b).takeWhile fun p => p.2 ≠ 'P').filter fun p => p.1 ≠ ' ').length
  | _, _ => 0

/-- A NAL unit is accepted. -/
def accepted (c : Codec) (d : Bytes) : Bool :=
  d != [] && match parseNalu d c true true with
    | .ok _ => true
    | _ => false

/-- The NAL units that are still to be reported after a call, given those before it. -/
def heldAfter (c : Codec) (held : List Bytes) : AuthCall → AObs → List Bytes
  | .nalu d, o =>
    let held := if accepted c d then held ++ [d] else held
    match o.report with
    | some r => held.drop (gone r)
    | none => held
  | .reset, _ => []
  | .publicKey _, _ => held

/-- The NAL units that are still to be reported after a sequence of calls. -/
def heldBy (c : Codec) : List Bytes → List AuthCall → List AObs → List Bytes
  | held, x :: cs, o :: os => heldBy c (heldAfter c held x o) cs os
  | held, _, _ => held

/-- No NAL unit is an SEI too short for its user data, the size of which would be negative. -/
def Sane (c : Codec) (d : Bytes) : Prop := ∀ n, parseNalu d c true true = .ok n → n.tlvSize < 2 ^ 63

end Spec

theorem typeChar_some (n : Nalu) : typeChar (some n) ≠ ' ' := by
  unfold typeChar
  dsimp only
  repeat' split
  all_goals decide

theorem char_P (s : Status) : s.char = 'P' ↔ s = .P := by cases s <;> decide

namespace Validator

theorem gone_eq {r : Report} {l : NList} (h1 : r.latest.naluStr = some (naluStr l)) (h2 : r.latest.validationStr = some (validationStr l)) :
    Spec.gone r = goneCount l := by
  unfold Spec.gone goneCount
  rw [h1, h2]
  dsimp only
  clear h1 h2
  unfold naluStr validationStr
  induction l with
  | nil => rfl
  | cons x l ih =>
    rw [List.map_cons, List.map_cons, List.zip_cons_cons, List.takeWhile_cons, List.takeWhile_cons]
    by_cases e : x.2.status = .P
    · rw [if_neg (by simp [(char_P _).2 e]), if_neg (by simp [e])]; rfl
    · rw [if_pos (by simpa using fun h => e ((char_P _).1 h)), if_pos (by simpa using e), real_cons, List.filter_cons]
      cases hn : x.2.nalu with
      | none => rw [if_neg (by simp [typeChar])]; exact ih
      | some n =>
        rw [if_pos (by simpa using typeChar_some n)]
        show _ + 1 = _
        rw [ih]
        simp

/-- The strings of a report are those of the list, which is then cleaned up. -/
theorem report_some {s t : Validator} {r : Report} (h : s.report = .ok t (some r)) :
    t.list = cleanUp s.list ∧ t.brk = s.brk ∧ t.codec = s.codec ∧ t.legacy = s.legacy ∧
    r.latest.naluStr = some (naluStr s.list) ∧ r.latest.validationStr = some (validationStr s.list) := by
  unfold report at h
  split at h
  · cases hu : updateReport s.rep s.list with
    | ub u => rw [hu] at h; cases h
    | err e => rw [hu] at h; cases h
    | ok p =>
      obtain ⟨r', l⟩ := p
      rw [hu] at h
      cases h
      have hl := updateReport_list hu
      unfold updateReport at hu
      obtain ⟨c, -, hu⟩ := Out.bind_eq_ok hu
      injection hu with hu
      injection hu with hu1 hu2
      refine ⟨hl, rfl, rfl, rfl, ?_⟩
      have e : r'.latest.naluStr = some (naluStr s.list) ∧ r'.latest.validationStr = some (validationStr s.list) := by
        rw [← hu1]
        by_cases hc : c = 2
        · simp only [hc, if_true]
          split <;> exact ⟨rfl, rfl⟩
        · simp only [hc, if_false]
          split <;> exact ⟨rfl, rfl⟩
      show some (r'.latest.naluStr.getD []) = _ ∧ some (r'.latest.validationStr.getD []) = _
      rw [e.1, e.2]
      exact ⟨rfl, rfl⟩
  · cases h

theorem report_none {s t : Validator} (h : s.report = .ok t none) : t = s := by
  unfold report at h
  split at h
  · cases hu : updateReport s.rep s.list with
    | ub u => rw [hu] at h; cases h
    | err e => rw [hu] at h; cases h
    | ok p => rw [hu] at h; cases h
  · cases h; rfl

theorem legacy_addH26x {env : AuthEnv} {s : Validator} (hl : s.legacy = true) (data : Bytes) :
    (s.addH26x env data).Ends fun t => t = s := by
  unfold addH26x
  split
  · rfl
  · rfl

/-- What is known after a call: either the session validates in legacy mode, or it holds the given NAL units. -/
def Holding (c : Codec) (held : List Bytes) (s : Validator) : Prop :=
  s.legacy = true ∨ ∃ M, Holds c M s ∧ SmallKeys c M ∧ M.map Prod.snd = held

theorem report_err {s t : Validator} {e : Rc} (h : s.report = .err t e) : t = s := by
  unfold report at h
  split at h
  · cases hu : updateReport s.rep s.list with
    | ub u => rw [hu] at h; cases h
    | err e => rw [hu] at h; cases h; rfl
    | ok p => rw [hu] at h; cases h
  · cases h

theorem smallKeys_of_sane {c : Codec} {d : Bytes} (h : Spec.Sane c d) (a : Nat) : SmallKeys c [(a, d)] := fun p hp => by
  cases List.mem_singleton.1 hp
  unfold realKey
  split
  · rename_i n hn
    exact h n hn
  · exact Nat.zero_lt_of_lt (Nat.lt_of_lt_of_le Nat.one_lt_two (Nat.le_of_lt (by decide)))

theorem SmallKeys.append {c : Codec} {M N : Log} (h : SmallKeys c M) (g : SmallKeys c N) : SmallKeys c (M ++ N) := fun p hp => by
  rcases List.mem_append.1 hp with hp | hp
  · exact h p hp
  · exact g p hp

theorem logStep_sane {c : Codec} {s : Validator} {d : Bytes} (h : Spec.Sane c d) : SmallKeys c (logStep s [] (.nalu d)) := by
  rw [logStep_nalu]
  split
  · exact fun _ h => by cases h
  · split
    · exact smallKeys_of_sane h _
    · exact fun _ h => by cases h

/-- The call that adds a NAL unit. -/
theorem Holds.add {env : AuthEnv} {c : Codec} {M : Log} {s : Validator} {d : Bytes} (h : Holds c M s) (hM : SmallKeys c M)
    (hd : Spec.Sane c d) (hl : s.legacy = false) {t : Validator} {o : AObs} (e : authStep env s (.nalu d) = .ok (t, o)) :
    Holding c (Spec.heldAfter c (M.map Prod.snd) (.nalu d) o) t ∧
      ∀ r, o.report = some r → ∃ l : NList, MissOk l ∧ SV.real l = (M ++ [(s.brk, d)]).map (realKey c) ∧
        r.latest.naluStr = some (naluStr l) ∧ r.latest.validationStr = some (validationStr l) ∧
        d ≠ [] ∧ ∃ n, parseNalu d c true true = .ok n := by
  have hk : (logStep s [] (.nalu d)).map Prod.snd = if Spec.accepted c d then [d] else [] := by
    rw [logStep_nalu, hl, h.codec]
    unfold Spec.accepted
    by_cases hd : d = []
    · rw [if_pos (.inl hd), hd]; rfl
    · have hb : (d != []) = true := by simpa using hd
      rw [if_neg (by rintro (e | e); exact hd e; cases e), hb]
      cases parseNalu d c true true <;> rfl
  have hh : Spec.heldAfter c (M.map Prod.snd) (.nalu d) o = match o.report with
      | some r => ((M ++ logStep s [] (.nalu d)).map Prod.snd).drop (Spec.gone r)
      | none => (M ++ logStep s [] (.nalu d)).map Prod.snd := by
    unfold Spec.heldAfter
    dsimp only
    rw [List.map_append, hk]
    cases Spec.accepted c d <;> simp
  rw [hh]
  have hs : SmallKeys c (M ++ logStep s [] (.nalu d)) := hM.append (logStep_sane hd)
  have h1 : Holds c M { s with started := true, hasReport := true } := h.misc rfl rfl rfl
  have h2 := h1.addH26x (env := env) (data := d) hM (smallKeys_of_sane hd _)
  have e0 : logStep { s with started := true, hasReport := true } [] (.nalu d) = logStep s [] (.nalu d) := rfl
  rw [e0] at h2
  unfold authStep authCall Validator.add at e
  dsimp only at e
  by_cases hd0 : d = []
  · rw [if_pos hd0] at e
    cases e
    refine ⟨.inr ⟨M ++ logStep s [] (.nalu d), ?_, hs, rfl⟩, fun r hr => by cases hr⟩
    rw [logStep_nalu, if_pos (.inl hd0), List.append_nil]
    exact h
  · rw [if_neg hd0] at e
    generalize hr : Validator.addH26x env { s with started := true, hasReport := true } d = res at e h2
    cases res with
    | ub u => cases e
    | err u er =>
      cases e
      exact ⟨.inr ⟨_, h2, hs, rfl⟩, fun r hr => by cases hr⟩
    | ok u _ =>
      rw [Res.andThen_ok] at e
      by_cases hu : u.legacy = true
      · rw [if_pos hu] at e
        cases e
        exact ⟨.inl hu, fun r hr => by cases hr⟩
      · rw [if_neg hu] at e
        have h3 : Holds c (M ++ logStep s [] (.nalu d)) u := h2
        cases hp : u.report with
        | ub x => rw [hp] at e; cases e
        | err v er =>
          rw [hp] at e
          cases e
          cases report_err hp
          exact ⟨.inr ⟨_, h2, hs, rfl⟩, fun r hr => by cases hr⟩
        | ok v ro =>
          rw [hp] at e
          cases e
          cases ro with
          | none =>
            cases report_none hp
            exact ⟨.inr ⟨_, h2, hs, rfl⟩, fun r hr => by cases hr⟩
          | some r =>
            obtain ⟨r1, r2, r3, r4, r5, r6⟩ := report_some hp
            refine ⟨.inr ⟨_, h3.clean.misc r1 r2 r3, fun p hp => hs p (List.drop_subset _ _ hp), ?_⟩, ?_⟩
            · rw [← gone_eq r5 r6, List.map_drop]
            · intro r' hr'
              cases hr'
              have hn : ∃ n, parseNalu d s.codec true true = .ok n := by
                cases hn : parseNalu d s.codec true true with
                | ok n => exact ⟨n, rfl⟩
                | ub x =>
                  unfold Validator.addH26x at hr
                  rw [if_neg hd0, if_neg (by rw [hl]; decide), hn] at hr
                  cases hr
                | err x =>
                  unfold Validator.addH26x at hr
                  rw [if_neg hd0, if_neg (by rw [hl]; decide), hn] at hr
                  cases hr
              refine ⟨u.list, h3.miss, ?_, r5, r6, hd0, by rw [← h.codec]; exact hn⟩
              rw [h3.real]
              obtain ⟨n, hn⟩ := hn
              rw [logStep_nalu, if_neg (by rintro (e | e); exact hd0 e; rw [hl] at e; cases e), hn]

end Validator

/-- The columns for a list. -/
theorem columns_of {c : Codec} {l : NList} {M : Log} (m : MissOk l) (h : real l = M.map (realKey c)) :
    ∃ cols : List Spec.Column, naluStr l = cols.map (·.letter c) ∧ validationStr l = cols.map (·.status) ∧
      cols.filterMap (·.nalu) = M.map Prod.snd ∧ ∀ x ∈ cols, x.status = 'M' → x.nalu = none := by
  induction l generalizing M with
  | nil =>
    cases M with
    | nil => exact ⟨[], rfl, rfl, rfl, fun _ h => by cases h⟩
    | cons p M => cases h
  | cons x l ih =>
    rw [real_cons] at h
    cases hn : x.2.nalu with
    | none =>
      rw [hn] at h
      obtain ⟨cols, h1, h2, h3, h4⟩ := ih m.tail h
      refine ⟨⟨none, x.2.status.char⟩ :: cols, ?_, ?_, h3, ?_⟩
      · show typeChar x.2.nalu :: naluStr l = _
        rw [hn, h1]; rfl
      · show _ :: validationStr l = _
        rw [h2]; rfl
      · intro y hy e
        rcases List.mem_cons.1 hy with rfl | hy
        · rfl
        · exact h4 y hy e
    | some n =>
      rw [hn] at h
      cases M with
      | nil => cases h
      | cons p M =>
        rw [List.map_cons] at h
        injection h with h0 h
        obtain ⟨cols, h1, h2, h3, h4⟩ := ih m.tail h
        have hl : typeChar (some n) = Spec.letter c p.2 := by
          unfold realKey at h0
          unfold Spec.letter
          cases hp : parseNalu p.2 c true true with
          | ok n' => rw [hp] at h0; injection h0 with _ h0; injection h0
          | err e => rw [hp] at h0; injection h0 with _ h0; injection h0
          | ub u => rw [hp] at h0; injection h0 with _ h0; injection h0
        refine ⟨⟨some p.2, x.2.status.char⟩ :: cols, ?_, ?_, ?_, ?_⟩
        · show typeChar x.2.nalu :: naluStr l = _
          rw [hn, h1, hl]; rfl
        · show _ :: validationStr l = _
          rw [h2]; rfl
        · show p.2 :: _ = _
          rw [h3]; rfl
        · intro y hy e
          rcases List.mem_cons.1 hy with rfl | hy
          · have hM : x.2.status = .M := by
              dsimp only at e
              revert e; cases x.2.status <;> decide
            rw [m x List.mem_cons_self hM] at hn
            cases hn
          · exact h4 y hy e

namespace Validator

theorem legacy_step {env : AuthEnv} {s t : Validator} {o : AObs} {x : AuthCall} (hl : s.legacy = true)
    (e : authStep env s x = .ok (t, o)) : t.legacy = true ∧ o.report = none := by
  unfold authStep authCall at e
  cases x with
  | nalu d =>
    dsimp only at e
    unfold Validator.add at e
    by_cases hd : d = []
    · rw [if_pos hd] at e; cases e; exact ⟨hl, rfl⟩
    · rw [if_neg hd] at e
      dsimp only at e
      have h2 := legacy_addH26x (env := env) (s := { s with started := true, hasReport := true }) hl d
      generalize Validator.addH26x env { s with started := true, hasReport := true } d = res at e h2
      cases res with
      | ub u => cases e
      | err u er => cases (show u = _ from h2); cases e; exact ⟨hl, rfl⟩
      | ok u _ =>
        cases (show u = _ from h2)
        rw [Res.andThen_ok, if_pos hl] at e
        cases e; exact ⟨hl, rfl⟩
  | reset => cases e; exact ⟨hl, rfl⟩
  | publicKey k =>
    dsimp only at e
    have h2 : (s.setPublicKey env k).Ends fun t => t.legacy = true := by
      unfold Validator.setPublicKey
      split
      · exact hl
      · split
        · exact hl
        · split
          · exact hl
          · dsimp only
            split <;> exact hl
    generalize s.setPublicKey env k = res at e h2
    cases res with
    | ub u => cases e
    | err u er => cases e; exact ⟨h2, rfl⟩
    | ok u _ => cases e; exact ⟨h2, rfl⟩

theorem Holding.step {env : AuthEnv} {c : Codec} {held : List Bytes} {s t : Validator} {o : AObs} {x : AuthCall} (h : Holding c held s)
    (hx : ∀ d, x = .nalu d → Spec.Sane c d) (e : authStep env s x = .ok (t, o)) :
    Holding c (Spec.heldAfter c held x o) t := by
  by_cases hl : s.legacy = true
  · exact .inl (legacy_step hl e).1
  · rcases h with h | ⟨M, hh, hM, rfl⟩
    · exact absurd h hl
    cases x with
    | nalu d => exact (hh.add hM (hx d rfl) (by simpa using hl) e).1
    | reset =>
      cases e
      exact .inr ⟨[], ⟨⟨List.nodup_nil, fun _ h => by cases h⟩, hh.codec, (fun _ h => by cases h), rfl⟩, (fun _ h => by cases h), rfl⟩
    | publicKey k =>
      have h1 := hh.setPublicKey (env := env) k
      unfold authStep authCall at e
      dsimp only at e
      generalize s.setPublicKey env k = r at h1 e
      cases r with
      | ub u => cases e
      | err u er => cases e; exact .inr ⟨M, h1, hM, rfl⟩
      | ok u _ => cases e; exact .inr ⟨M, h1, hM, rfl⟩

theorem Holding.run {env : AuthEnv} {c : Codec} {held : List Bytes} {s t : Validator} {cs : List AuthCall} {os : List AObs}
    (h : Holding c held s) (hx : ∀ d, AuthCall.nalu d ∈ cs → Spec.Sane c d) (e : authRun env s cs = .ok (t, os)) :
    Holding c (Spec.heldBy c held cs os) t := by
  induction cs generalizing s os held with
  | nil => cases e; exact h
  | cons x cs ih =>
    unfold authRun at e
    obtain ⟨p, h1, e⟩ := Out.bind_eq_ok e
    obtain ⟨q, h2, e⟩ := Out.bind_eq_ok e
    cases e
    exact ih (h.step (fun d hd => hx d (hd ▸ List.mem_cons_self)) h1) (fun d hd => hx d (List.mem_cons_of_mem _ hd)) h2

theorem newHolding (env : AuthEnv) (c : Codec) : Holding c [] (newValidator env c) :=
  .inr ⟨[], ⟨⟨List.nodup_nil, fun _ h => by cases h⟩, rfl, (fun _ h => by cases h), rfl⟩, (fun _ h => by cases h), rfl⟩

end Validator

/-- The two strings of a report describe the same NAL units, position by position: those that were not reported as
validated before, in the order in which they were added and with the one that was added by this call as the last one, and
in addition blank columns; a missing NAL unit is a blank column. -/
theorem C18_strings {env : AuthEnv} {c : Codec} {cs : List AuthCall} {s t : Validator} {os : List AObs} {data : Bytes} {r : Report}
    (h : authRun env (newValidator env c) cs = .ok (s, os)) (hsane : ∀ d, AuthCall.nalu d ∈ cs ++ [AuthCall.nalu data] → Spec.Sane c d)
    (ha : s.add env data = .ok t (some r)) :
    ∃ cols : List Spec.Column, r.latest.naluStr = some (cols.map (·.letter c)) ∧
      r.latest.validationStr = some (cols.map (·.status)) ∧
      cols.filterMap (·.nalu) = Spec.heldBy c [] cs os ++ [data] ∧
      ∀ x ∈ cols, x.status = 'M' → x.nalu = none := by
  have e : authStep env s (.nalu data) = .ok (t, ⟨none, some r⟩) := by
    unfold authStep authCall
    dsimp only
    rw [ha]
  have h1 := (Validator.newHolding env c).run (fun d hd => hsane d (List.mem_append_left _ hd)) h
  by_cases hl : s.legacy = true
  · cases (Validator.legacy_step hl e).2
  rcases h1 with h1 | ⟨M, hh, hM, hm⟩
  · exact absurd h1 hl
  obtain ⟨-, h2⟩ := hh.add hM (hsane data (List.mem_append_right _ List.mem_cons_self)) (by simpa using hl) e
  obtain ⟨l, m, hr, e1, e2, -⟩ := h2 r rfl
  obtain ⟨cols, c1, c2, c3, c4⟩ := columns_of m hr
  refine ⟨cols, by rw [e1, c1], by rw [e2, c2], ?_, c4⟩
  rw [c3, List.map_append, hm]
  rfl

/-- The hypotheses are met: a P-frame of the second GOP is lost. The columns of the report are the four NAL units that were
held and the SEI added last, and the blank one in their middle. -/
example : ∃ s os, authRun toyEnv (newValidator toyEnv .h264)
      ((((toySigned [] "IPPIPPIPPI").eraseIdx 5).take 7).map AuthCall.nalu) = .ok (s, os) ∧
    (let ns := (toySigned [] "IPPIPPIPPI").eraseIdx 5
     match s.add toyEnv ((ns.drop 7).headD []) with
     | .ok _ (some r) =>
       decide (r.latest.naluStr = some ['I', 'S', ' ', 'P', 'I', 'S'] ∧ r.latest.validationStr = some ['.', '.', 'M', '.', 'P', '.'] ∧
         Spec.heldBy .h264 [] ((ns.take 7).map AuthCall.nalu) os = (ns.drop 3).take 4) &&
       (ns.take 8).all fun d => match parseNalu d .h264 true true with
         | .ok n => decide (n.tlvSize < 2 ^ 63)
         | _ => true
     | _ => false) = true :=
  authCheck toyEnv _ _ (fun s os =>
    (let ns := (toySigned [] "IPPIPPIPPI").eraseIdx 5
     match s.add toyEnv ((ns.drop 7).headD []) with
     | .ok _ (some r) =>
       decide (r.latest.naluStr = some ['I', 'S', ' ', 'P', 'I', 'S'] ∧ r.latest.validationStr = some ['.', '.', 'M', '.', 'P', '.'] ∧
         Spec.heldBy .h264 [] ((ns.take 7).map AuthCall.nalu) os = (ns.drop 3).take 4) &&
       (ns.take 8).all fun d => match parseNalu d .h264 true true with
         | .ok n => decide (n.tlvSize < 2 ^ 63)
         | _ => true
     | _ => false)) (by decide +kernel)

end SV
