import Verif.Proofs.FetchStep
/-! A call that returns without an error and without a report keeps the latest validation. -/
namespace SV
namespace Validator

theorem rounds_has {env : AuthEnv} {k : Nat} {s t : Validator} (h : s.rounds env k = .ok t ()) (hs : s.flags.hasAuth = true) :
    t.flags.hasAuth = true := by
  induction k generalizing s with
  | zero => cases h
  | succ k ih =>
    unfold rounds at h
    split at h
    · obtain ⟨u, _, h1, h2⟩ := Res.andThen_eq_ok h
      have hu : u.flags.hasAuth = true := by
        unfold round at h1
        obtain ⟨v, _, _, h3⟩ := Res.andThen_eq_ok h1
        split at h3
        · cases h3
        · cases h3
        · obtain ⟨w, _, _, h4⟩ := Res.andThen_eq_ok h3
          cases h4; rfl
      split at h2
      · exact ih h2 hu
      · cases h2; exact hu
    · cases h; exact hs

theorem rounds_silent {env : AuthEnv} {k : Nat} {s t : Validator} (h : s.rounds env k = .ok t ()) (ht : t.flags.hasAuth = false) :
    t.rep = s.rep := by
  cases k with
  | zero => cases h
  | succ k =>
    unfold rounds at h
    split at h
    · obtain ⟨u, _, h1, h2⟩ := Res.andThen_eq_ok h
      have hu : u.flags.hasAuth = true := by
        unfold round at h1
        obtain ⟨v, _, _, h3⟩ := Res.andThen_eq_ok h1
        split at h3
        · cases h3
        · cases h3
        · obtain ⟨w, _, _, h4⟩ := Res.andThen_eq_ok h3
          cases h4; rfl
      split at h2
      · rw [rounds_has h2 hu] at ht; cases ht
      · cases h2
        have : u.flags.hasAuth = false := ht
        rw [hu] at this; cases this
    · cases h; rfl

theorem maybeValidate_silent {env : AuthEnv} {s t : Validator} {n : Nalu} (h : s.maybeValidate env n = .ok t ())
    (ht : t.flags.hasAuth = false) : LatestKept s.rep.latest t.rep.latest := by
  unfold maybeValidate at h
  split at h
  · cases h; exact .refl _
  split at h
  · cases h
  · rename_i x _
    obtain ⟨u, ok, h1, h2⟩ := Res.andThen_eq_ok h
    have hu := (recurrentDecoded_before env s).of_ok h1
    split at h2
    · cases h2
      split
      · rename_i hf
        rw [if_pos hf] at ht
        have : (u.firstSei n x.1).flags.hasAuth = true := by unfold firstSei; rfl
        rw [this] at ht; cases ht
      · exact hu.latest
    · rw [rounds_silent h2 ht]; exact hu.latest

theorem addBody_silent {env : AuthEnv} {s t : Validator} {n : Nalu} (h : s.addBody env n = .ok t ()) (ht : t.flags.hasAuth = false) :
    LatestKept s.rep.latest t.rep.latest := by
  unfold addBody at h
  dsimp only at h
  split at h
  · cases h
  · obtain ⟨u, _, h1, h2⟩ := Res.andThen_eq_ok h
    obtain ⟨w, _, h3, h4⟩ := Res.andThen_eq_ok h2
    have hu := (register_before env _ _ n).of_ok h1
    have hw := (hashAlgoBlock_before env u _ n).of_ok h3
    exact (LatestKept.trans hu.latest hw.latest).trans (maybeValidate_silent h4 ht)

theorem add_silent {env : AuthEnv} {s t : Validator} {data : Bytes} (h : s.add env data = .ok t none) (hl : t.legacy = false) :
    LatestKept s.rep.latest t.rep.latest := by
  unfold add at h
  split at h
  · cases h
  dsimp only at h
  obtain ⟨u, _, h1, h2⟩ := Res.andThen_eq_ok h
  have hu : u = t ∧ (u.legacy = false → t.flags.hasAuth = false) := by
    split at h2
    · rename_i hg; cases h2; exact ⟨rfl, fun g => by rw [g] at hg; cases hg⟩
    · unfold report at h2
      split at h2
      · split at h2 <;> cases h2
      · rename_i hf
        cases h2; exact ⟨rfl, fun _ => by simpa using hf⟩
  obtain ⟨rfl, hu⟩ := hu
  have hu := hu hl
  unfold addH26x at h1
  split at h1
  · cases h1
  split at h1
  · rename_i hg; cases h1; rw [hl] at hg; cases hg
  split at h1
  · cases h1
  · cases h1
  · dsimp only at h1
    split at h1
    · cases h1
    · rename_i w e he
      exfalso
      unfold addEnd at h1
      obtain ⟨x, e2, _, h3⟩ := Res.andThen_eq_ok h1
      cases h3
    · rename_i w y hw
      have hb := (addEnd_rep w none).of_ok h1
      rw [hb.2.2]
      have := addBody_silent hw (by rw [← hb.2.1]; exact hu)
      exact this

end Validator

namespace Legacy
open Validator (LatestKept)

theorem rounds_has {env : AuthEnv} {k : Nat} {s t : Legacy} (h : s.rounds env k = .ok t ()) (hs : s.v.flags.hasAuth = true) :
    t.v.flags.hasAuth = true := by
  induction k generalizing s with
  | zero => cases h
  | succ k ih =>
    unfold rounds at h
    split at h
    · obtain ⟨u, _, h1, h2⟩ := Res.andThen_eq_ok h
      have hu : u.v.flags.hasAuth = true := by
        unfold round at h1
        obtain ⟨v, _, _, h3⟩ := Res.andThen_eq_ok h1
        obtain ⟨w, _, _, h4⟩ := Res.andThen_eq_ok h3
        cases h4; rfl
      split at h2
      · exact ih h2 hu
      · cases h2; exact hu
    · cases h; exact hs

theorem rounds_silent {env : AuthEnv} {k : Nat} {s t : Legacy} (h : s.rounds env k = .ok t ()) (ht : t.v.flags.hasAuth = false) :
    t.v.rep = s.v.rep := by
  cases k with
  | zero => cases h
  | succ k =>
    unfold rounds at h
    split at h
    · obtain ⟨u, _, h1, h2⟩ := Res.andThen_eq_ok h
      have hu : u.v.flags.hasAuth = true := by
        unfold round at h1
        obtain ⟨v, _, _, h3⟩ := Res.andThen_eq_ok h1
        obtain ⟨w, _, _, h4⟩ := Res.andThen_eq_ok h3
        cases h4; rfl
      split at h2
      · rw [rounds_has h2 hu] at ht; cases ht
      · cases h2
        have : u.v.flags.hasAuth = false := ht
        rw [hu] at this; cases this
    · cases h; rfl

theorem maybeValidate_silent {env : AuthEnv} {s t : Legacy} (h : s.maybeValidate env = .ok t ()) (ht : t.v.flags.hasAuth = false) :
    LatestKept s.v.rep.latest t.v.rep.latest := by
  unfold maybeValidate at h
  split at h
  · cases h
  · cases h
  · obtain ⟨u, ok, h1, h2⟩ := Res.andThen_eq_ok h
    have hu := ((recurrentDecoded_frame env s).of_ok h1).2.latest
    split at h2
    · cases h2
      split
      · rename_i hf
        rw [if_pos hf] at ht
        cases ht
      · exact hu
    · split at h2
      · cases h2
      · rw [rounds_silent h2 ht]; exact hu

theorem register_rep (env : AuthEnv) (s : Legacy) (a : Nat) (n : Nalu) : (s.register env a n).Ends fun t => t.v.rep = s.v.rep := by
  unfold register
  split
  · trivial
  · split
    · exact rfl
    · split
      · trivial
      · exact rfl
      · refine (hashItem_frame env _ a _).mono fun t h => ?_
        obtain ⟨b, r, f, rfl, hf⟩ := h
        exact rfl

theorem addBody_silent {env : AuthEnv} {s t : Legacy} {n : Nalu} (h : s.addBody env n = .ok t ()) (ht : t.v.flags.hasAuth = false) :
    LatestKept s.v.rep.latest t.v.rep.latest := by
  unfold addBody at h
  dsimp only at h
  split at h
  · cases h
  · obtain ⟨u, _, h1, h2⟩ := Res.andThen_eq_ok h
    have hu := (register_rep env _ _ n).of_ok h1
    have := maybeValidate_silent h2 ht
    rw [hu] at this
    exact this

theorem add_silent {env : AuthEnv} {s t : Legacy} {data : Bytes} (h : s.add env data = .ok t none) :
    LatestKept s.v.rep.latest t.v.rep.latest := by
  unfold add at h
  split at h
  · cases h
  obtain ⟨u, _, h1, h2⟩ := Res.andThen_eq_ok h
  have hu : u = t ∧ t.v.flags.hasAuth = false := by
    unfold report at h2
    split at h2
    · split at h2
      · cases h2
      · split at h2 <;> cases h2
    · rename_i hf
      cases h2; exact ⟨rfl, by simpa using hf⟩
  obtain ⟨rfl, hu⟩ := hu
  unfold addH26x at h1
  split at h1
  · cases h1
  split at h1
  · cases h1
  · cases h1
  · dsimp only at h1
    split at h1
    · cases h1
    · rename_i w e he
      exfalso
      have : ∀ x, w.addEnd s.brk (some e) ≠ .ok x () := by
        intro x hx
        unfold addEnd at hx
        obtain ⟨_, _, _, h3⟩ := Res.andThen_eq_ok hx
        cases h3
      exact this _ h1
    · rename_i w y hw
      have hb := (addEnd_quiet w _ none).of_ok h1
      rw [hb.2]
      have := addBody_silent hw (by rw [← hb.2]; exact hu)
      exact this

end Legacy
end SV
