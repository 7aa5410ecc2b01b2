import Verif.Spec.Total
import Verif.Proofs.AuthRep
import Verif.Proofs.LegacyCall
/-! The accumulated validation is kept by calls without a report and updated by the others. -/
namespace SV
open Spec

/-! ### The update of the accumulated validation -/

theorem shown_upd {a b : Accumulated} (l : Latest) (h : shown a = shown b) :
    shown (updateAccumulated l a) = shown (updateAccumulated l b) := by
  simp only [shown, Total.mk.injEq] at h
  obtain ⟨h1, h2, h3, h4, h5, h6⟩ := h
  simp only [shown, upd_auth, upd_keyChanged, upd_keyVal, upd_ts, h1, h2, h3, h4, h5, h6]

theorem decided_iff (l : Latest) : decided l = true ↔ ¬ l.auth.val ≤ 1 := by
  unfold decided
  cases l.auth <;> simp [Auth.val]

theorem worst_le (a : Auth) (r : List Auth) (h : ¬ a.val ≤ 1) (hr : ∀ b ∈ r, ¬ b.val ≤ 1) : ¬ (r.foldr worse a).val ≤ 1 := by
  induction r with
  | nil => exact h
  | cons b r ih =>
    have h1 := ih fun c hc => hr c (List.mem_cons_of_mem _ hc)
    have h2 := hr b List.mem_cons_self
    show ¬ (if b.val < (r.foldr worse a).val then b else r.foldr worse a).val ≤ 1
    split <;> assumption

theorem worst_swap (a b : Auth) (r : List Auth) : (r.foldr worse a).val = min a.val ((r.map Auth.val).foldr min a.val) ∧
    ((a :: r).foldr worse b).val = min b.val (r.foldr worse a).val := by
  have e : ∀ (r : List Auth) (a : Auth), (r.foldr worse a).val = (r.map Auth.val).foldr min a.val := by
    intro r a
    induction r with
    | nil => rfl
    | cons c r ih =>
      show (if c.val < (r.foldr worse a).val then c else r.foldr worse a).val = min c.val ((r.map Auth.val).foldr min a.val)
      rw [← ih]
      split
      · omega
      · omega
  have m : ∀ (r : List Nat) (a b : Nat), min b (r.foldr min a) = min a (r.foldr min b) := by
    intro r a b
    induction r with
    | nil => exact Nat.min_comm b a
    | cons c r ih => show min b (min c _) = min a (min c _); omega
  constructor
  · rw [e]
    have : ∀ (r : List Nat) (a : Nat), r.foldr min a = min a (r.foldr min a) := by
      intro r a
      induction r with
      | nil => exact (Nat.min_self a).symm
      | cons c r ih => show min c _ = min a (min c _); omega
    exact this _ _
  · rw [e, e]
    show min a.val ((r.map Auth.val).foldr min b.val) = _
    exact (m _ a.val b.val).symm

theorem total_auth (ls : List Latest) : (accumulate ls).auth = (total ls).auth := by
  generalize hn : ls.length = n
  induction n generalizing ls with
  | zero =>
    have : ls = [] := List.length_eq_zero_iff.1 hn
    subst this; rfl
  | succ n ih =>
    rcases List.eq_nil_or_concat ls with rfl | ⟨r, l, rfl⟩
    · cases hn
    rw [List.concat_eq_append] at *
    have h1 := ih r (by simpa using hn)
    rw [accumulate_snoc, upd_auth, h1]
    have e : (total (r ++ [l])).auth = if decided l then ((r.reverse.takeWhile decided).map Latest.auth).foldr worse l.auth else l.auth := by
      simp only [total, List.reverse_append, List.reverse_singleton, List.singleton_append, List.takeWhile_cons,
        List.getLast?_append, List.getLast?_singleton, Option.map_some, Option.getD_some, Option.some_or]
      cases hd : decided l <;> simp
    rw [e]
    have e2 : ∀ q, (r.reverse.takeWhile decided).map Latest.auth = q → (total r).auth = match q with
        | [] => (r.getLast?.map Latest.auth).getD .notSigned
        | a :: r => r.foldr worse a := by
      intro q hq; rw [← hq]; rfl
    generalize (total r).auth = z at *
    cases hd : decided l with
    | false =>
      simp only [Bool.false_eq_true, if_false]
      have : l.auth.val ≤ 1 := by
        apply Classical.byContradiction
        intro h
        rw [(decided_iff l).2 h] at hd; cases hd
      split
      · rfl
      · rename_i h2
        rw [if_pos (by omega)]
    | true =>
      have h2 : ¬ l.auth.val ≤ 1 := (decided_iff l).1 hd
      simp only [if_true]
      have e3 := e2 _ rfl
      generalize hr : (r.reverse.takeWhile decided).map Latest.auth = w at e3
      cases w with
      | nil =>
        simp only [List.foldr_nil]
        rcases List.eq_nil_or_concat r with rfl | ⟨q, k, rfl⟩
        · subst e3; rfl
        rw [List.concat_eq_append] at *
        have hk : decided k = false := by
          cases hk : decided k with
          | false => rfl
          | true => simp [hk] at hr
        have : k.auth.val ≤ 1 := by
          apply Classical.byContradiction
          intro h
          rw [(decided_iff k).2 h] at hk; cases hk
        simp at e3
        rw [e3, if_pos this]
      | cons a q =>
        have hq : ∀ b ∈ a :: q, ¬ b.val ≤ 1 := by
          intro b hb
          rw [← hr] at hb
          obtain ⟨x, hx, rfl⟩ := List.mem_map.1 hb
          have : ∀ (ys : List Latest), ∀ x ∈ ys.takeWhile decided, decided x = true := by
            intro ys
            induction ys with
            | nil => intro x hx; cases hx
            | cons y ys ih =>
              intro x hx
              rw [List.takeWhile_cons] at hx
              split at hx
              · rename_i hy
                rcases List.mem_cons.1 hx with rfl | hx
                · exact hy
                · exact ih x hx
              · cases hx
          exact (decided_iff x).1 (this _ x hx)
        dsimp only at e3
        rw [e3, if_neg (worst_le a q (hq a List.mem_cons_self) fun b hb => hq b (List.mem_cons_of_mem _ hb))]
        apply Auth.val_inj
        rw [(worst_swap a l.auth q).2]
        split <;> omega

/-- The total result of a list of reports is what the updates of the accumulated validation give. -/
theorem total_eq (ls : List Latest) : shown (accumulate ls) = total ls := by
  have ha := total_auth ls
  suffices h : (accumulate ls).keyChanged = (total ls).keyChanged ∧ (accumulate ls).keyVal = (total ls).keyVal ∧
      (accumulate ls).hasTs = (total ls).hasTs ∧ (accumulate ls).firstTs = (total ls).firstTs ∧
      (accumulate ls).lastTs = (total ls).lastTs by
    simp only [shown, ha, h.1, h.2.1, h.2.2.1, h.2.2.2.1, h.2.2.2.2]
  clear ha
  generalize hn : ls.length = n
  induction n generalizing ls with
  | zero =>
    have : ls = [] := List.length_eq_zero_iff.1 hn
    subst this; exact ⟨rfl, rfl, rfl, rfl, rfl⟩
  | succ n ih =>
    rcases List.eq_nil_or_concat ls with rfl | ⟨r, l, rfl⟩
    · cases hn
    rw [List.concat_eq_append] at *
    obtain ⟨h1, h2, h3, h4, h5⟩ := ih r (by simpa using hn)
    rw [accumulate_snoc]
    simp only [upd_keyChanged, upd_ts, h1, h3, h4, h5]
    rw [upd_keyVal, h2]
    have hl : (r ++ [l]).getLast? = some l := by simp
    refine ⟨by simp [total], ?_, by simp [total], ?_, ?_⟩
    · have e : (total (r ++ [l])).keyVal = if r.any (fun l => decide (l.keyVal = .notOk)) || decide (l.keyVal = .notOk) then .notOk else l.keyVal := by
        simp only [total, hl, List.any_append, List.any_cons, List.any_nil, Bool.or_false, Option.map_some, Option.getD_some]
      have e2 : ∀ b, r.any (fun l => decide (l.keyVal = .notOk)) = b → (total r).keyVal = if b then .notOk else (r.getLast?.map Latest.keyVal).getD .notFeasible := by
        intro b hb; rw [← hb]; rfl
      rw [e]
      generalize (total r).keyVal = z at *
      have e3 := e2 _ rfl
      generalize hr : r.any (fun l => decide (l.keyVal = .notOk)) = b at e3
      cases b with
      | true => simp [e3]
      | false =>
        have : z ≠ .notOk := by
          intro h
          rw [h] at e3
          rcases List.eq_nil_or_concat r with rfl | ⟨q, k, rfl⟩
          · cases e3
          · rw [List.concat_eq_append] at *
            simp at e3 hr
            exact hr.2 e3.symm
        rw [if_neg this]
        cases hk : l.keyVal <;> simp
    all_goals
      simp only [total, List.any_append, List.any_cons, List.any_nil, Bool.or_false,
        List.reverse_append, List.reverse_singleton, List.singleton_append, List.find?_cons, List.find?_append]
    · cases ht : l.hasTs with
      | false => simp
      | true =>
        cases hf : r.find? Latest.hasTs with
        | none =>
          have : r.any Latest.hasTs = false := by
            rw [List.any_eq_false]
            intro x hx
            exact List.find?_eq_none.1 hf x hx
          simp [this]
        | some y =>
          have : r.any Latest.hasTs = true := List.any_eq_true.2 ⟨y, List.mem_of_find?_eq_some hf, List.find?_some hf⟩
          simp [this]
    · cases ht : l.hasTs <;> simp

theorem total_snoc {a : Accumulated} {ls : List Latest} (l : Latest) (h : shown a = total ls) :
    shown (updateAccumulated l a) = total (ls ++ [l]) := by
  rw [← total_eq, accumulate_snoc]
  exact shown_upd l (h.trans (total_eq ls).symm)

/-! ### Reports -/

theorem getReport_shown (r : Report) (n : Nat) : shown (getReport r n).1.acc = shown r.acc ∧ shown (getReport r n).2.acc = shown r.acc :=
  ⟨rfl, rfl⟩

end SV
