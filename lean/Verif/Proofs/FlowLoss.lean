import Verif.Props.AuthMatch
/-! The comparison with a list of hashes, in numbers. -/
namespace SV
open Spec
namespace Validator

/-- Has the item this status? -/
def hasStatus (st : Status) (x : Nat × Item) : Bool := decide (x.2.status = st)

theorem matched_all {α : Type} {signed : List α} {k : Nat} {rs : List α} {os : List (Option Nat)} (h : Matches signed k rs os) (hn : none ∉ os) :
    matched rs os = rs := by
  induction h with
  | nil => rfl
  | hit _ _ _ _ ih => rw [matched, ih fun hc => hn (List.mem_cons_of_mem _ hc)]
  | miss => exact absurd List.mem_cons_self hn

theorem gaps_none {os : List (Option Nat)} {k inv : Nat} {good : Bool} (h : none ∈ os ∨ good = false ∧ os ≠ []) : ∃ n, (n, Status.N) ∈ gaps k inv good os := by
  induction os generalizing k inv good with
  | nil =>
    rcases h with h | h
    · cases h
    · exact absurd rfl h.2
  | cons o os ih =>
    cases o with
    | none => exact ⟨0, List.mem_cons_self⟩
    | some i =>
      cases good with
      | false => exact ⟨_, List.mem_cons_self⟩
      | true =>
        rcases h with h | h
        · obtain ⟨n, hn⟩ := ih (k := i + 1) (inv := 0) (good := true) (.inl (by simpa using h))
          exact ⟨n, List.mem_cons_of_mem _ hn⟩
        · cases h.1

theorem gaps_length (os : List (Option Nat)) (k inv : Nat) (good : Bool) : (gaps k inv good os).length = os.length := by
  induction os generalizing k inv good with
  | nil => rfl
  | cons o os ih => cases o <;> simp [gaps, ih]

theorem _root_.SV.Spec.Woven.marked {c : Nat × Item → Bool} {l l' : NList} {ss : List (Nat × Status)} (h : Woven c l l' ss) {n : Nat} {st : Status}
    (hs : (n, st) ∈ ss) : ∃ x ∈ l, c x = true ∧ (x.1, { x.2 with status := st }) ∈ l' := by
  induction h with
  | nil => cases hs
  | skip _ _ ih =>
    obtain ⟨x, h1, h2, h3⟩ := ih hs
    exact ⟨x, List.mem_cons_of_mem _ h1, h2, List.mem_cons_of_mem _ h3⟩
  | item hc _ _ ih =>
    rcases List.mem_cons.1 hs with e | hs
    · cases e
      exact ⟨_, List.mem_cons_self, hc, List.mem_append_right _ List.mem_cons_self⟩
    · obtain ⟨x, h1, h2, h3⟩ := ih hs
      exact ⟨x, List.mem_cons_of_mem _ h1, h2, List.mem_append_right _ (List.mem_cons_of_mem _ h3)⟩

theorem count_missing {new : NList} (h : ∀ y ∈ new, y.2 = missingItem) (st : Status) : new.countP (hasStatus st) = if st = .M then new.length else 0 := by
  split
  · next e =>
    rw [List.countP_eq_length]
    intro y hy
    unfold hasStatus
    rw [h y hy, e]; rfl
  · next e =>
    rw [List.countP_eq_zero]
    intro y hy
    unfold hasStatus
    rw [h y hy]
    simp only [decide_eq_true_eq]
    exact fun hc => e hc.symm

/-- The numbers of items with each status after the comparison, if all received hashes have a position. -/
theorem _root_.SV.Spec.Woven.count {l l' : NList} {ss : List (Nat × Status)} (h : Woven candidate l l' ss) (hs : ∀ x ∈ ss, x.2 = .ok) {st : Status} (hst : st ≠ .P) :
    l'.countP (hasStatus st) = l.countP (hasStatus st) + (if st = .M then (ss.map Prod.fst).sum else 0) + (if st = .ok then ss.length else 0) := by
  induction h with
  | nil => simp
  | skip _ _ ih =>
    rw [List.countP_cons, List.countP_cons, ih hs]
    omega
  | @item x new l l' st' ss hc hn _ ih =>
    have e : st' = .ok := hs (new.length, st') List.mem_cons_self
    have hx : x.2.status = .P := by
      unfold candidate at hc
      simp only [Bool.and_eq_true, decide_eq_true_eq] at hc
      exact hc.2
    rw [List.countP_append, count_missing hn, List.countP_cons, List.countP_cons, ih fun y hy => hs y (List.mem_cons_of_mem _ hy)]
    have h1 : hasStatus st x = false := by unfold hasStatus; rw [hx]; exact decide_eq_false fun hc => hst hc.symm
    have h2 : hasStatus st (x.1, { x.2 with status := st' }) = decide (st = .ok) := by
      unfold hasStatus; rw [e]
      show decide (Status.ok = st) = _
      by_cases hh : st = .ok
      · rw [hh]
      · rw [decide_eq_false hh, decide_eq_false fun hc => hh hc.symm]
    rw [h1, h2, List.map_cons, List.sum_cons, List.length_cons]
    by_cases h3 : st = .M
    · subst h3; simp; omega
    · by_cases h4 : st = .ok
      · subst h4; simp; omega
      · simp [h3, h4]

/-- What is reported as missing is in the GOP. -/
theorem _root_.SV.Spec.Woven.missing_used {l l' : NList} {ss : List (Nat × Status)} (h : Woven candidate l l' ss) (hs : ∀ x ∈ ss, x.2 = .ok) {y : Nat × Item}
    (hy : y ∈ l') (hm : y.2.status = .M) : y ∈ l ∨ y.2.used = true := by
  induction h with
  | nil => cases hy
  | skip _ _ ih =>
    rcases List.mem_cons.1 hy with rfl | hy
    · exact .inl List.mem_cons_self
    · exact (ih hs hy).imp_left (List.mem_cons_of_mem _)
  | @item x new l l' st' ss hc hn _ ih =>
    rcases List.mem_append.1 hy with hy | hy
    · right; rw [hn y hy]; rfl
    · rcases List.mem_cons.1 hy with rfl | hy
      · have e : st' = .ok := hs (new.length, st') List.mem_cons_self
        rw [e] at hm; cases hm
      · exact (ih (fun y hy => hs y (List.mem_cons_of_mem _ hy)) hy).imp_left (List.mem_cons_of_mem _)

theorem count_insert {l : NList} {brk : Nat} (w : WF l brk) (n : Nat) (app : Bool) {a : Nat} (ha : ∃ x ∈ l, x.1 = a) (st : Status) :
    (insertMissing l missingItem brk n app a).countP (hasStatus st) = l.countP (hasStatus st) + if st = .M then n else 0 := by
  obtain ⟨x, hx, rfl⟩ := ha
  obtain ⟨pre, post, rfl⟩ := List.append_of_mem hx
  have hnd := w.nodup
  rw [List.map_append, List.map_cons, List.nodup_append] at hnd
  have h1 : ∀ y ∈ pre, y.1 ≠ x.1 := fun y hy e => hnd.2.2 _ (List.mem_map_of_mem hy) _ List.mem_cons_self e
  have h2 : ∀ y ∈ post, y.1 ≠ x.1 := fun y hy e => by
    have := (List.nodup_cons.1 hnd.2.1).1
    exact this (e ▸ List.mem_map_of_mem hy)
  have f : ∀ q : NList, (∀ y ∈ q, y.1 ≠ x.1) → ∀ g : Nat × Item → NList, (q.flatMap fun y => if y.1 = x.1 then g y else [y]) = q := by
    intro q hq g
    induction q with
    | nil => rfl
    | cons y q ih =>
      rw [List.flatMap_cons, if_neg (hq y List.mem_cons_self), ih fun z hz => hq z (List.mem_cons_of_mem _ hz)]; rfl
  unfold insertMissing
  dsimp only
  rw [List.flatMap_append, List.flatMap_cons, f pre h1, f post h2, if_pos rfl]
  have hnew : ∀ y ∈ (List.range' brk n).map (fun a => (a, missingItem)), y.2 = missingItem := by
    intro y hy
    obtain ⟨b, -, rfl⟩ := List.mem_map.1 hy
    rfl
  have hc := count_missing hnew st
  rw [List.length_map, List.length_range'] at hc
  split
  · rw [List.countP_append, List.countP_append, List.countP_cons, List.countP_reverse, hc, List.countP_append, List.countP_cons]
    omega
  · rw [List.countP_append, List.countP_append, List.countP_append, hc, List.countP_append, List.countP_cons, List.countP_cons, List.countP_nil]
    omega

theorem mem_insert {l : NList} {brk n : Nat} {app : Bool} {a : Nat} {y : Nat × Item} (h : y ∈ insertMissing l missingItem brk n app a) : y ∈ l ∨ y.2 = missingItem := by
  unfold insertMissing at h
  obtain ⟨x, hx, hy⟩ := List.mem_flatMap.1 h
  have hnew : y ∈ (List.range' brk n).map (fun a => (a, missingItem)) → y.2 = missingItem := by
    intro hc
    obtain ⟨b, -, rfl⟩ := List.mem_map.1 hc
    rfl
  split at hy
  · split at hy
    · rcases List.mem_cons.1 hy with rfl | hy
      · exact .inl hx
      · exact .inr (hnew (List.mem_reverse.1 hy))
    · rcases List.mem_append.1 hy with hy | hy
      · exact .inr (hnew hy)
      · rcases List.mem_singleton.1 hy with rfl
        exact .inl hx
  · rcases List.mem_singleton.1 hy with rfl
    exact .inl hx

theorem count_set {l : NList} {a : Nat} (h : ∀ x ∈ l, x.1 = a → x.2.status = .P) {st : Status} (hst : st ≠ .P) :
    (l.set a fun i => { i with status := .ok }).countP (hasStatus st) = l.countP (hasStatus st) + if st = .ok then l.countP (fun x => decide (x.1 = a)) else 0 := by
  unfold NList.set
  induction l with
  | nil => simp
  | cons x l ih =>
    rw [List.map_cons, List.countP_cons, List.countP_cons, List.countP_cons, ih fun y hy => h y (List.mem_cons_of_mem _ hy)]
    by_cases hx : x.1 = a
    · have h0 := h x List.mem_cons_self hx
      rw [if_pos hx]
      have h1 : hasStatus st x = false := by unfold hasStatus; rw [h0]; exact decide_eq_false fun hc => hst hc.symm
      have h2 : hasStatus st (x.1, { x.2 with status := Status.ok }) = decide (st = .ok) := by
        unfold hasStatus
        show decide (Status.ok = st) = _
        by_cases hh : st = .ok
        · rw [hh]
        · rw [decide_eq_false hh, decide_eq_false fun hc => hh hc.symm]
      rw [h1, h2, decide_eq_true hx]
      by_cases hh : st = .ok
      · simp [hh]; omega
      · simp [hh]
    · rw [if_neg hx, decide_eq_false hx]
      split <;> simp <;> omega

end Validator
end SV
