import Verif.Proofs.AuthEnv
import Verif.Props.AuthCounter
/-! A state of a validating session in which the loop of `maybe_validate_gop` makes no progress. -/
namespace SV

/-- The oldest pending item is a SEI that has been decoded, its counter is ahead of the expected one, and a GOP is
pending; the session is in sync. -/
structure Stuck (s : Validator) : Prop where
  signing : s.flags.signing = true
  notFirst : s.flags.first = false
  synced : s.synced = true
  ahead : Ahead s
  size : s.primary = none → s.d.hashSize ≤ 64
  hasKey : s.d.hasPublicKey = true
  sig : (Validator.scan true s.list {}).hasSei = true → s.d.maxSignature ≠ none ∧ s.d.signature ≠ [] ∧ s.key ≠ none
  unused : ∀ x ∈ s.list, x.2.used = false
  pend : (Validator.scan true s.list {}).found = true
  oldest : ∃ pre x rest n, s.list = pre ++ x :: rest ∧ (∀ y ∈ pre, y.2.status ≠ .P) ∧ x.2.status = .P ∧
    x.2.nalu = some n ∧ n.gopSei = true ∧ x.2.decoded = true

namespace Validator

theorem nextSei_at {pre rest : NList} {x : Nat × Item} {n : Nalu} (hp : ∀ y ∈ pre, y.2.status ≠ .P)
    (hx : x.2.status = .P) (hn : x.2.nalu = some n) (hg : n.gopSei = true) : nextSei (pre ++ x :: rest) = some x := by
  unfold nextSei
  rw [List.find?_append, List.find?_eq_none.2, Option.none_or, List.find?_cons_of_pos]
  · simp [hn, hg, hx]
  · intro y hy
    simp [hp y hy]

theorem gopLoop_at (hs : Nat) {pre rest : NList} {x : Nat × Item} {n : Nalu} (hp : ∀ y ∈ pre, y.2.status ≠ .P)
    (hx : x.2.status = .P) (hn : x.2.nalu = some n) :
    gopLoop hs x.1 (pre ++ x :: rest) 0 0 [] = .ok (pre ++ x :: rest, []) := by
  induction pre with
  | nil => simp [gopLoop, hx, hn]
  | cons y pre ih =>
    rw [List.cons_append, gopLoop, if_pos (hp y (by simp)), ih (fun z hz => hp z (by simp [hz]))]
    rfl

theorem updateLinkLoop_unused (s : Validator) (l : NList) (h : ∀ x ∈ l, x.2.used = false) : updateLinkLoop s l = .ok s := by
  induction l with
  | nil => rfl
  | cons x r ih =>
    rw [updateLinkLoop, h x (by simp), Bool.not_false, if_pos rfl]
    exact ih fun y hy => h y (by simp [hy])

theorem markLoop_at {pre rest : NList} {x : Nat × Item} {n : Nalu} (hp : ∀ y ∈ pre, y.2.status ≠ .P)
    (hx : x.2.status = .P) (hn : x.2.nalu = some n) (hg : n.gopSei = true) :
    markLoop (pre ++ x :: rest) = .ok (pre ++ x :: rest, 0, false) := by
  induction pre with
  | nil => rw [List.nil_append]; unfold markLoop; simp [hx, hn, hg]
  | cons y pre ih =>
    have e := ih (fun z hz => hp z (by simp [hz]))
    rw [List.cons_append]
    unfold markLoop
    rw [if_pos (hp y (by simp)), e]
    rfl

theorem clearUsed_unused (l : NList) (h : ∀ x ∈ l, x.2.used = false) : clearUsed l = l := by
  unfold clearUsed
  conv => rhs; rw [← List.map_id l]
  refine List.map_congr_left fun x hx => ?_
  obtain ⟨a, i⟩ := x
  have := h _ hx
  cases i
  simp only [id] at *
  subst this; rfl

/-- A round from a stuck state ends in a stuck state. -/
theorem Stuck.round {env : AuthEnv} (he : env.ov = .exact) {s : Validator} (h : Stuck s) :
    ∃ s', s.hasPending.1.round env = .ok s' () ∧ Stuck s' := by
  obtain ⟨pre, x, rest, n, hl, hp, hx, hn, hg, hd⟩ := h.oldest
  -- the state after the first lines of the loop
  generalize ht : s.hasPending.1.begin = t
  have t1 : t.list = s.list := by rw [← ht]; unfold begin; split <;> rfl
  have t2 : t.d = s.d := by rw [← ht]; unfold begin; split <;> rfl
  have t3 : t.flags = s.flags := by rw [← ht]; unfold begin; split <;> rfl
  have t4 : t.synced = s.synced := by rw [← ht]; unfold begin; split <;> rfl
  have t5 : t.key = s.key := by rw [← ht]; unfold begin; split <;> rfl
  have t6 : t.latestGop = s.latestGop := by rw [← ht]; unfold begin; split <;> rfl
  have t8 : t.primary = s.primary := by rw [← ht]; unfold begin; split <;> rfl
  have t9 : t.gop.hasSei = (scan true s.list {}).hasSei := by rw [← ht]; unfold begin; split <;> (rw [← h.signing]; rfl)
  have t7 : t.gop.transLost = false := by rw [← ht]; unfold begin; split <;> rfl
  have ta : Ahead t := by unfold Ahead; rw [t2, t6]; exact h.ahead
  -- preparation
  have hprep : ∃ u, t.prepare env = .ok u () ∧ u.list = s.list ∧ u.d = s.d ∧ u.flags = s.flags ∧ u.synced = s.synced ∧
      u.key = s.key ∧ u.latestGop = s.latestGop ∧ u.gop.transLost = false ∧ u.gop.lost = true ∧ u.primary ≠ none := by
    have hlost : (decide (Ahead t) && t.synced) = true := by rw [t4, h.synced, decide_eq_true ta]; rfl
    have hsz : ¬ (t.primary = none ∧ t.d.hashSize > 64) := by
      intro hc; rw [t2, t8] at hc; have := h.size hc.1; omega
    have hpk : ¬ (t.flags.signing && !t.d.hasPublicKey) = true := by rw [t2, h.hasKey]; simp
    unfold Validator.prepare
    rw [t1, hl, nextSei_at hp hx hn hg]
    dsimp only
    unfold decodeNext
    rw [if_pos hd, Res.andThen_ok, C49_detect env t he, Res.andThen_ok]
    unfold prepareGopHash
    dsimp only
    rw [if_neg hsz, t1, hl, gopLoop_at _ hp hx hn]
    dsimp only
    rw [Res.andThen_ok, if_neg hpk]
    have hso : ∀ p : Bytes, some p ≠ none := fun _ h => by cases h
    split
    · rename_i hsei
      have hsig := h.sig (t9 ▸ hsei)
      have hms : ¬ (t.d.maxSignature = none ∨ t.d.signature = []) := by rw [t2]; exact fun hc => hc.elim hsig.1 hsig.2.1
      unfold verifyHash
      dsimp only
      rw [if_neg hms]
      cases hk : t.key with
      | none => exact absurd (t5 ▸ hk) hsig.2.2
      | some k => exact ⟨_, rfl, rfl, t2, t3, t4, by rw [← t5, hk], t6, t7, hlost, hso _⟩
    · exact ⟨_, rfl, rfl, t2, t3, t4, t5, t6, t7, hlost, hso _⟩
  obtain ⟨u, eu, u1, u2, u3, u4, u5, u6, u7, u8, u9⟩ := hprep
  -- validation
  have hval : ∃ v, u.validate = .ok v () ∧ v.list = s.list ∧ v.d = s.d ∧ v.flags = s.flags ∧ v.synced = true ∧
      v.key = s.key ∧ v.latestGop = s.latestGop ∧ v.primary ≠ none := by
    unfold validate verifyGop withoutSei
    rw [u8, u7, Bool.not_false, Bool.and_true, if_pos rfl, u1, hl, markLoop_at hp hx hn hg, ← hl]
    have hc : clearUsed s.list = s.list := clearUsed_unused _ h.unused
    have hf : u.flags.first = false := by rw [u3]; exact h.notFirst
    refine ⟨_, rfl, ?_, u2, ?_, ?_, u5, ?_, u9⟩
    · simp only [conclude, hf, Bool.false_and, Bool.false_eq_true, if_false, hc]
    · simp only [conclude, h.notFirst, Bool.false_and, Bool.false_eq_true, if_false, u3]
    · simp only [conclude, hf, Bool.false_eq_true, if_false]
    · simp [conclude, u6]
  obtain ⟨v, ev, v1, v2, v3, v4, v5, v6, v7⟩ := hval
  unfold Validator.round conduct
  rw [ht, eu, Res.andThen_ok, updateLinkLoop_unused u u.list (by rw [u1]; exact h.unused)]
  dsimp only
  rw [u3, h.signing, if_pos rfl, ev, Res.andThen_ok]
  refine ⟨_, rfl, ?_⟩
  constructor
  · show v.flags.signing = true; rw [v3]; exact h.signing
  · show (!v.flags.signing) = false; rw [v3, h.signing]; rfl
  · exact v4
  · show v.d.gopCounter.toNat > (v.latestGop + 1).toNat; rw [v2, v6]; exact h.ahead
  · exact fun hc => absurd hc v7
  · show v.d.hasPublicKey = true; rw [v2]; exact h.hasKey
  · show (scan true v.list {}).hasSei = true → v.d.maxSignature ≠ none ∧ v.d.signature ≠ [] ∧ v.key ≠ none
    rw [v1, v2, v5]; exact h.sig
  · show ∀ x ∈ v.list, _; rw [v1]; exact h.unused
  · show (scan true v.list {}).found = true; rw [v1]; exact h.pend
  · show ∃ pre x rest n, v.list = _ ∧ _; rw [v1]; exact h.oldest

/-- The loop does not end in a stuck state. -/
theorem Stuck.diverges {env : AuthEnv} (he : env.ov = .exact) (k : Nat) {s : Validator} (h : Stuck s) :
    s.rounds env k = .ub .diverge := by
  induction k generalizing s with
  | zero => rfl
  | succ k ih =>
    obtain ⟨s', e, h'⟩ := Stuck.round he h
    unfold rounds
    have hp : s.hasPending.2 = true := by
      show (scan s.flags.signing s.list {}).found = true
      rw [h.signing]; exact h.pend
    rw [if_pos hp, e, Res.andThen_ok, h'.signing, if_pos rfl]
    exact ih h'

/-- The state in which a call for a NAL unit enters the loop of `maybe_validate_gop`, if it does. -/
def atLoop (env : AuthEnv) (s : Validator) (data : Bytes) : Option Validator :=
  if data = [] ∨ s.legacy = true then none
  else match parseNalu data s.codec true true with
    | .ok n =>
      let s := { s with started := true, hasReport := true }
      let s := { s with
        flags := { s.flags with hasAuth := false }
        rep := { s.rep with acc := { s.rep.acc with received := s.rep.acc.received + 1 } } }
      let a := s.brk
      let s := { s with list := s.list.append a (newItem (some n)), brk := a + 1 }
      if n.valid < 0 then none
      else
        let s := { s with flags := { s.flags with
          firstSei := !s.flags.signing && n.gopSei, signing := s.flags.signing || n.gopSei } }
        match (s.register env a n).andThen fun s _ => s.hashAlgoBlock env a n with
        | .ok s _ =>
          if s.legacy then none
          else match s.list.getLast? with
            | none => none
            | some x =>
              match s.recurrentDecoded env with
              | .ok s ok => if feasible x.2 && ok then some s else none
              | _ => none
        | _ => none
    | _ => none

theorem atLoop_diverges (env : AuthEnv) (k : Nat) (s : Validator) (data : Bytes) (v : Validator)
    (h : atLoop env s data = some v) (hdiv : v.rounds env k = .ub .diverge) : s.add (env.withRounds k) data = .ub .diverge := by
  unfold atLoop at h
  unfold add addH26x
  by_cases hd : data = [] ∨ s.legacy = true
  · rw [if_pos hd] at h; cases h
  · rw [if_neg hd] at h
    have hd1 : ¬ data = [] := fun hc => hd (.inl hc)
    have hd2 : ¬ s.legacy = true := fun hc => hd (.inr hc)
    rw [if_neg hd1]
    dsimp only
    rw [if_neg hd1, if_neg hd2]
    cases hn : parseNalu data s.codec true true with
    | err e => rw [hn] at h; cases h
    | ub u => rw [hn] at h; cases h
    | ok n =>
      rw [hn] at h
      dsimp only at h ⊢
      by_cases hv : n.valid < 0
      · rw [if_pos hv] at h; cases h
      · rw [if_neg hv] at h
        unfold addBody
        dsimp only
        rw [if_neg hv, register_wr, hashAlgoBlock_wr]
        revert h
        generalize Validator.register env _ s.brk n = r
        cases r with
        | err s e => intro h; cases h
        | ub u => intro h; cases h
        | ok s a =>
          simp only [Res.andThen_ok]
          generalize Validator.hashAlgoBlock env s _ n = r
          cases r with
          | err s e => intro h; cases h
          | ub u => intro h; cases h
          | ok s a =>
            simp only [Res.andThen_ok]
            intro h
            unfold maybeValidate
            split at h
            · cases h
            · rename_i hl
              rw [if_neg hl]
              cases hx : s.list.getLast? with
              | none => rw [hx] at h; cases h
              | some x =>
                rw [hx] at h
                dsimp only at h ⊢
                rw [recurrentDecoded_wr, rounds_wr]
                cases hr : s.recurrentDecoded env with
                | err s e => rw [hr] at h; cases h
                | ub u => rw [hr] at h; cases h
                | ok s b =>
                  rw [hr] at h
                  dsimp only at h
                  rw [Res.andThen_ok]
                  by_cases hf : (feasible x.2 && b) = true
                  · rw [if_pos hf] at h
                    cases h
                    rw [hf]
                    simp only [Bool.not_true, Bool.false_eq_true, if_false]
                    show (match v.rounds env k with | .ub u => _ | .err s e => _ | .ok s _ => _ : Res Validator Unit).andThen _ = _
                    rw [hdiv]; rfl
                  · rw [if_neg hf] at h; cases h

end Validator
end SV
