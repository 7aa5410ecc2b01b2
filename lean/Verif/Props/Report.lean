import Verif.Model.Report
import Verif.Props.Version
/-! Accumulated reports (C22, C23, C24) and the version mismatch (C25). -/
namespace SV

open Spec

/-- The accumulated report after a sequence of latest reports, in order, since the start or the last reset. -/
def accumulate (ls : List Latest) : Accumulated := ls.foldl (fun a l => updateAccumulated l a) accumulatedInit

theorem accumulate_snoc (ls : List Latest) (l : Latest) :
    accumulate (ls ++ [l]) = updateAccumulated l (accumulate ls) := by
  simp [accumulate, List.foldl_append]

theorem upd_auth (l : Latest) (a : Accumulated) :
    (updateAccumulated l a).auth =
      if a.auth.val ≤ 1 then l.auth else if l.auth.val < a.auth.val then l.auth else a.auth := by
  by_cases h1 : a.auth.val ≤ 1 <;> by_cases h2 : l.auth.val < a.auth.val <;> by_cases h3 : a.keyVal = .notOk <;>
    by_cases h4 : l.hasTs = true <;> by_cases h5 : a.hasTs = true <;>
    simp [updateAccumulated, show Auth.signaturePresent.val = 1 from rfl, h1, h2, h3, h4, h5]

theorem upd_keyChanged (l : Latest) (a : Accumulated) :
    (updateAccumulated l a).keyChanged = (a.keyChanged || l.keyChanged) := by
  by_cases h1 : a.auth.val ≤ 1 <;> by_cases h2 : l.auth.val < a.auth.val <;> by_cases h3 : a.keyVal = .notOk <;>
    by_cases h4 : l.hasTs = true <;> by_cases h5 : a.hasTs = true <;>
    simp [updateAccumulated, show Auth.signaturePresent.val = 1 from rfl, h1, h2, h3, h4, h5]

theorem upd_keyVal (l : Latest) (a : Accumulated) :
    (updateAccumulated l a).keyVal = if a.keyVal = .notOk then .notOk else l.keyVal := by
  by_cases h1 : a.auth.val ≤ 1 <;> by_cases h2 : l.auth.val < a.auth.val <;> by_cases h3 : a.keyVal = .notOk <;>
    by_cases h4 : l.hasTs = true <;> by_cases h5 : a.hasTs = true <;>
    simp [updateAccumulated, show Auth.signaturePresent.val = 1 from rfl, h1, h2, h3, h4, h5]

theorem upd_ts (l : Latest) (a : Accumulated) :
    (updateAccumulated l a).hasTs = (a.hasTs || l.hasTs) ∧
    (updateAccumulated l a).firstTs = (if l.hasTs ∧ ¬ a.hasTs then l.ts else a.firstTs) ∧
    (updateAccumulated l a).lastTs = (if l.hasTs then l.ts else a.lastTs) := by
  by_cases h1 : a.auth.val ≤ 1 <;> by_cases h2 : l.auth.val < a.auth.val <;> by_cases h3 : a.keyVal = .notOk <;>
    by_cases h4 : l.hasTs = true <;> by_cases h5 : a.hasTs = true <;>
    simp [updateAccumulated, show Auth.signaturePresent.val = 1 from rfl, h1, h2, h3, h4, h5]

theorem Auth.val_inj {a b : Auth} (h : a.val = b.val) : a = b := by
  cases a <;> cases b <;> first | rfl | cases h

/-- **C22**, as claimed: from the report of a GOP that is not authentic on, the accumulated verdict is not authentic. -/
def C22_statement : Prop :=
  ∀ (before : List Latest) (bad : Latest) (after : List Latest), bad.auth = .notOk →
    (accumulate (before ++ bad :: after)).auth = .notOk

/-- **C22** does not hold: a later report SIGNATURE PRESENT (which the validation gives, for example, when it starts
anew in the middle of a stream) followed by OK leaves an accumulated OK. -/
theorem C22_statement_false : ¬ C22_statement := by
  intro h
  have := h [] { auth := .notOk } [{ auth := .signaturePresent }, { auth := .ok }] rfl
  exact absurd this (by decide)

/-- **C22**, the part that holds: the accumulated verdict stays NOT OK as long as no later report is NOT SIGNED or
SIGNATURE PRESENT. -/
theorem C22_sticks_partial (before : List Latest) (bad : Latest) (after : List Latest) (hb : bad.auth = .notOk)
    (ha : ∀ l ∈ after, l.auth ≠ .notSigned ∧ l.auth ≠ .signaturePresent) :
    (accumulate (before ++ bad :: after)).auth = .notOk := by
  generalize hn : after.length = n
  induction n generalizing after with
  | zero =>
    have : after = [] := List.length_eq_zero_iff.1 hn
    subst this
    rw [accumulate_snoc, upd_auth, hb]
    generalize (accumulate before).auth = x
    cases x <;> decide
  | succ n ih =>
    rcases List.eq_nil_or_concat after with rfl | ⟨r, l, rfl⟩
    · simp at hn
    rw [List.concat_eq_append] at *
    have h1 := ih r (fun l hl => ha l (by simp [hl])) (by simpa using hn)
    have e : before ++ bad :: (r ++ [l]) = (before ++ bad :: r) ++ [l] := by simp
    rw [e, accumulate_snoc, upd_auth, h1]
    have := ha l (by simp)
    revert this
    cases l.auth <;> simp [Auth.val]

/-- **C22**, the part that holds: when reports before the first validation say NOT SIGNED or SIGNATURE PRESENT and all
later ones carry a verdict, the accumulated verdict is the worst one, that is, it is one of them and no verdict is worse. -/
theorem C22_worst_partial (before : List Latest) (first : Latest) (after : List Latest)
    (hb : ∀ l ∈ before, l.auth = .notSigned ∨ l.auth = .signaturePresent)
    (ha : ∀ l ∈ first :: after, l.auth ≠ .notSigned ∧ l.auth ≠ .signaturePresent) :
    (∃ l ∈ first :: after, (accumulate (before ++ first :: after)).auth = l.auth) ∧
    (∀ l ∈ first :: after, (accumulate (before ++ first :: after)).auth.val ≤ l.auth.val) := by
  have hpre : (accumulate before).auth = .notSigned ∨ (accumulate before).auth = .signaturePresent := by
    clear ha
    generalize hn : before.length = n
    induction n generalizing before with
    | zero =>
      have : before = [] := List.length_eq_zero_iff.1 hn
      subst this
      exact Or.inl rfl
    | succ n ih =>
      rcases List.eq_nil_or_concat before with rfl | ⟨r, l, rfl⟩
      · simp at hn
      rw [List.concat_eq_append] at *
      have h1 := ih r (fun l hl => hb l (by simp [hl])) (by simpa using hn)
      rw [accumulate_snoc, upd_auth]
      rcases h1 with h1 | h1 <;> rw [h1] <;> simpa [Auth.val] using hb l (by simp)
  generalize hn : after.length = n
  induction n generalizing after with
  | zero =>
    have : after = [] := List.length_eq_zero_iff.1 hn
    subst this
    have e : (accumulate (before ++ [first])).auth = first.auth := by
      rw [accumulate_snoc, upd_auth]
      rcases hpre with h | h <;> rw [h] <;> simp [Auth.val]
    exact ⟨⟨first, by simp, e⟩, by intro l hl; simp at hl; rw [hl, e]; exact Nat.le_refl _⟩
  | succ n ih =>
    rcases List.eq_nil_or_concat after with rfl | ⟨r, l, rfl⟩
    · simp at hn
    rw [List.concat_eq_append] at *
    have hr : ∀ x ∈ first :: r, x.auth ≠ .notSigned ∧ x.auth ≠ .signaturePresent := by
      intro x hx
      apply ha
      simp at hx ⊢
      rcases hx with hx | hx
      · exact Or.inl hx
      · exact Or.inr (Or.inl hx)
    obtain ⟨⟨w, hw, h1⟩, h2⟩ := ih r hr (by simpa using hn)
    have e : before ++ first :: (r ++ [l]) = (before ++ first :: r) ++ [l] := by simp
    have hwn := hr w hw
    have hgt : ¬ w.auth.val ≤ 1 := by
      revert hwn
      cases w.auth <;> simp [Auth.val]
    rw [e, accumulate_snoc, upd_auth, h1, if_neg hgt]
    rw [h1] at h2
    by_cases hlt : l.auth.val < w.auth.val
    · rw [if_pos hlt]
      refine ⟨⟨l, by simp, rfl⟩, ?_⟩
      intro x hx
      have hx' : x ∈ first :: r ∨ x = l := by simpa [or_assoc] using hx
      rcases hx' with hx' | rfl
      · exact Nat.le_trans (Nat.le_of_lt hlt) (h2 x hx')
      · exact Nat.le_refl _
    · rw [if_neg hlt]
      refine ⟨⟨w, ?_, rfl⟩, ?_⟩
      · have : w ∈ first :: r ∨ w = l := Or.inl hw
        simpa [or_assoc] using this
      intro x hx
      have hx' : x ∈ first :: r ∨ x = l := by simpa [or_assoc] using hx
      rcases hx' with hx' | rfl
      · exact h2 x hx'
      · omega

example : (accumulate [{ auth := .signaturePresent }, { auth := .ok }, { auth := .notOk }, { auth := .okWithMissing },
    { auth := .ok }]).auth = .notOk :=
  C22_sticks_partial [{ auth := .signaturePresent }, { auth := .ok }] { auth := .notOk }
    [{ auth := .okWithMissing }, { auth := .ok }] rfl (by simp)

/-- **C23.** The accumulated report flags a changed public key exactly if one of the reports did. -/
theorem C23_key_changed (ls : List Latest) :
    (accumulate ls).keyChanged = true ↔ ∃ l ∈ ls, l.keyChanged = true := by
  generalize hn : ls.length = n
  induction n generalizing ls with
  | zero =>
    have : ls = [] := List.length_eq_zero_iff.1 hn
    subst this
    simp [accumulate, accumulatedInit]
  | succ n ih =>
    rcases List.eq_nil_or_concat ls with rfl | ⟨r, l, rfl⟩
    · simp at hn
    rw [List.concat_eq_append] at *
    rw [accumulate_snoc, upd_keyChanged, Bool.or_eq_true, ih r (by simpa using hn)]
    constructor
    · rintro (⟨x, hx, h⟩ | h)
      · exact ⟨x, by simp [hx], h⟩
      · exact ⟨l, by simp, h⟩
    · rintro ⟨x, hx, h⟩
      simp at hx
      rcases hx with hx | rfl
      · exact Or.inl ⟨x, hx, h⟩
      · exact Or.inr h

/-- **C23.** The accumulated public key validation is NOT OK exactly if one of the reports says so. -/
theorem C23_key_not_ok (ls : List Latest) :
    (accumulate ls).keyVal = .notOk ↔ ∃ l ∈ ls, l.keyVal = .notOk := by
  generalize hn : ls.length = n
  induction n generalizing ls with
  | zero =>
    have : ls = [] := List.length_eq_zero_iff.1 hn
    subst this
    simp [accumulate, accumulatedInit]
  | succ n ih =>
    rcases List.eq_nil_or_concat ls with rfl | ⟨r, l, rfl⟩
    · simp at hn
    rw [List.concat_eq_append] at *
    have := ih r (by simpa using hn)
    rw [accumulate_snoc, upd_keyVal]
    by_cases hk : (accumulate r).keyVal = .notOk
    · rw [if_pos hk]
      obtain ⟨x, hx, h⟩ := this.1 hk
      exact ⟨fun _ => ⟨x, by simp [hx], h⟩, fun _ => rfl⟩
    · rw [if_neg hk]
      constructor
      · intro h; exact ⟨l, by simp, h⟩
      · rintro ⟨x, hx, h⟩
        simp at hx
        rcases hx with hx | rfl
        · exact absurd (this.2 ⟨x, hx, h⟩) hk
        · exact h

example : (accumulate [{}, { keyChanged := true }, { auth := .ok, keyVal := .ok }]).keyChanged = true :=
  (C23_key_changed _).2 ⟨{ keyChanged := true }, by simp, rfl⟩

/-- **C24.** The accumulated report has timestamps exactly if one of the reports carried one; then the first timestamp
is that of the first report carrying one and the last timestamp that of the last one. -/
theorem C24_timestamps (ls : List Latest) :
    let withTs := ls.filter (·.hasTs)
    ((accumulate ls).hasTs = true ↔ withTs ≠ []) ∧
    (∀ l, withTs.head? = some l → (accumulate ls).firstTs = l.ts) ∧
    (∀ l, withTs.getLast? = some l → (accumulate ls).lastTs = l.ts) := by
  generalize hn : ls.length = n
  induction n generalizing ls with
  | zero =>
    have : ls = [] := List.length_eq_zero_iff.1 hn
    subst this
    simp [accumulate, accumulatedInit]
  | succ n ih =>
    rcases List.eq_nil_or_concat ls with rfl | ⟨r, l, rfl⟩
    · simp at hn
    rw [List.concat_eq_append] at *
    obtain ⟨h1, h2, h3⟩ := ih r (by simpa using hn)
    obtain ⟨u1, u2, u3⟩ := upd_ts l (accumulate r)
    simp only [accumulate_snoc, u1, u2, u3]
    by_cases hl : l.hasTs = true
    · simp only [hl, List.filter_append, List.filter_cons, if_true, List.filter_nil, Bool.or_true, true_and]
      refine ⟨by simp, ?_, ?_⟩
      · intro x hx
        by_cases ha : (accumulate r).hasTs = true
        · simp only [ha, not_true, if_false]
          apply h2
          have hne := h1.1 ha
          cases hc : r.filter (·.hasTs) with
          | nil => exact absurd hc hne
          | cons y ys => rw [hc] at hx; simpa using hx
        · rw [if_pos ha]
          have he : r.filter (·.hasTs) = [] := by
            by_cases hc : r.filter (·.hasTs) = []
            · exact hc
            · exact absurd (h1.2 hc) ha
          rw [he] at hx
          simp at hx
          rw [hx]
      · intro x hx
        simp at hx
        rw [hx]
    · have hf : (r ++ [l]).filter (·.hasTs) = r.filter (·.hasTs) := by simp [List.filter_append, hl]
      simp only [hf]
      rw [show l.hasTs = false by simpa using hl]
      simp only [Bool.or_false, Bool.false_eq_true, false_and, if_false]
      exact ⟨h1, h2, h3⟩

example : (accumulate [{}, { hasTs := true, ts := 7 }, { ts := 100 }, { hasTs := true, ts := 3 }]).firstTs = 7 :=
  (C24_timestamps _).2.1 { hasTs := true, ts := 7 } rfl

/-- **C25**, last clause, as claimed: when the SEI says that the video is signed with a newer version than that of the
library (`signedVideoVersion`), the report says version mismatch. -/
def C25_mismatch_statement : Prop :=
  ∀ (r : Report) (l : NList) (x : Ver), x.small → (⟨1, 1, 29⟩ : Ver).lt x →
    (∃ (latest : Latest) (acc : Accumulated), r = { reportCreate with latest := latest, acc := acc }) →
    ∃ r' l', updateReport { r with versionOnSigningSide := x.str } l = .ok (r', l') ∧ r'.latest.auth = .versionMismatch

/-- **C25.** The version of the library is never put in the local report, which the signing version is compared with; so
whatever the version of the signer, the verdict of the report is the one already there. -/
theorem C25_never_mismatch (r : Report) (l : NList) (h : r.thisVersion = reportCreate.thisVersion) :
    ∃ r', updateReport r l = .ok (r', cleanUp l) ∧ r'.latest.auth = r.latest.auth ∧ r'.thisVersion = r.thisVersion := by
  have h0 : r.thisVersion = [] := h
  have hc : compareVersions (some []) (some r.versionOnSigningSide) = .ok (-1) := rfl
  refine ⟨_, by
    simp only [updateReport, h0, hc, Out.bind_ok, Out.pure_eq]
    rfl, ?_, ?_⟩
  · repeat' split
    all_goals first | rfl | (rename_i h1; exact absurd h1 (by decide)) | skip
    all_goals simp_all
  · repeat' split
    all_goals first | rfl | (rename_i h1; exact absurd h1 (by decide)) | skip
    all_goals simp_all

/-- **C25**, last clause, does not hold. -/
theorem C25_mismatch_statement_false : ¬ C25_mismatch_statement := by
  intro h
  obtain ⟨r', l', h1, h2⟩ := h reportCreate [] ⟨9, 0, 0⟩ (by simp [Ver.small]) (by simp [Ver.lt]) ⟨{}, {}, rfl⟩
  obtain ⟨r'', h3, h4, -⟩ := C25_never_mismatch { reportCreate with versionOnSigningSide := (⟨9, 0, 0⟩ : Ver).str } [] rfl
  rw [h1] at h3
  injection h3 with h3
  injection h3 with h3
  subst h3
  rw [h2] at h4
  cases h4

end SV
