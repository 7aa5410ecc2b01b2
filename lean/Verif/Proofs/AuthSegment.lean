import Verif.Proofs.AuthCall
import Verif.Props.AuthMatch
/-! The NAL units that one SEI is compared with. -/
namespace SV

namespace Spec

/-- The pending NAL units that are compared with the oldest pending SEI: those before the SEI and before the start of
another GOP. -/
def segment (l : NList) : NList :=
  match l.filter (fun x => x.2.status = .P) with
  | [] => []
  | x :: r => if x.2.isSei then [] else x :: r.takeWhile fun y => !y.2.isSei && !y.2.isFirst

end Spec

open Spec

/-- `segment` item by item. -/
def segFrom : Bool → NList → NList
  | _, [] => []
  | b, x :: r =>
    if x.2.status ≠ .P then segFrom b r
    else if x.2.isSei || (b && x.2.isFirst) then []
    else x :: segFrom true r

theorem segFrom_true (l : NList) :
    segFrom true l = (l.filter fun x => x.2.status = .P).takeWhile fun y => !y.2.isSei && !y.2.isFirst := by
  induction l with
  | nil => rfl
  | cons x r ih =>
    unfold segFrom
    by_cases h : x.2.status = .P
    · rw [if_neg (by simp [h]), List.filter_cons_of_pos (by simp [h]), List.takeWhile_cons, ih]
      cases x.2.isSei <;> cases x.2.isFirst <;> rfl
    · rw [if_pos h, List.filter_cons_of_neg (by simp [h]), ih]

theorem segment_eq (l : NList) : segment l = segFrom false l := by
  unfold segment
  induction l with
  | nil => rfl
  | cons x r ih =>
    unfold segFrom
    by_cases h : x.2.status = .P
    · rw [if_neg (by simp [h]), List.filter_cons_of_pos (by simp [h])]
      dsimp only
      rw [segFrom_true]
      cases x.2.isSei <;> rfl
    · rw [if_pos h, List.filter_cons_of_neg (by simp [h]), ih]

theorem segFrom_sub {b : Bool} {l : NList} {x : Nat × Item} (h : x ∈ segFrom b l) :
    x ∈ l ∧ x.2.status = .P ∧ x.2.isSei = false := by
  induction l generalizing b with
  | nil => cases h
  | cons y r ih =>
    unfold segFrom at h
    split at h
    · have := ih h; exact ⟨List.mem_cons_of_mem _ this.1, this.2⟩
    · rename_i hp
      split at h
      · cases h
      · rename_i hs
        rcases List.mem_cons.1 h with rfl | h
        · refine ⟨List.mem_cons_self, by simpa using hp, ?_⟩
          simp only [Bool.or_eq_true, not_or] at hs
          simpa using hs.1
        · have := ih h; exact ⟨List.mem_cons_of_mem _ this.1, this.2⟩

theorem segment_sub {l : NList} {x : Nat × Item} (h : x ∈ segment l) : x ∈ l ∧ x.2.status = .P ∧ x.2.isSei = false := by
  rw [segment_eq] at h; exact segFrom_sub h

/-- The segment is a sublist of the list. -/
theorem segFrom_sublist (b : Bool) (l : NList) : (segFrom b l).Sublist l := by
  induction l generalizing b with
  | nil => exact List.Sublist.slnil
  | cons y r ih =>
    unfold segFrom
    split
    · exact (ih b).cons _
    · split
      · exact List.nil_sublist _
      · exact (ih true).cons_cons _

/-- A list with the items of the segment marked as used. -/
def markFrom : Bool → NList → NList
  | _, [] => []
  | b, x :: r =>
    if x.2.status ≠ .P then x :: markFrom b r
    else if x.2.isSei || (b && x.2.isFirst) then x :: r
    else (x.1, { x.2 with used := true }) :: markFrom true r

namespace Validator

theorem nextSei_cons (x : Nat × Item) (r : NList) :
    nextSei (x :: r) = if x.2.isSei && decide (x.2.status = .P) then some x else nextSei r := by
  unfold nextSei
  rw [List.find?_cons]
  show (match x.2.isSei && decide (x.2.status = .P) with | true => some x | false => _) = _
  cases x.2.isSei && decide (x.2.status = .P) <;> rfl

theorem gopLoop_spec {hs sei : Nat} {l l' : NList} {numI num : Nat} {acc acc' : Bytes}
    (h1 : ∀ x ∈ l, x.2.status = .P → x.1 = sei → x.2.isSei = true)
    (h2 : ∀ y, nextSei l = some y → y.1 = sei) (hi : numI ≤ 1) (hn : numI ≤ num)
    (h : gopLoop hs sei l numI num acc = .ok (l', acc')) :
    l' = markFrom (decide (0 < num)) l ∧ acc' = acc ++ (segFrom (decide (0 < num)) l).flatMap (hashOf hs) ∧
    ∀ x ∈ segFrom (decide (0 < num)) l, x.2.nalu.isSome = true ∧ (x.2.isFirst = true → x.2.second.isSome) := by
  induction l generalizing l' numI num acc with
  | nil => cases h; exact ⟨rfl, by simp [segFrom], by simp [segFrom]⟩
  | cons x r ih =>
    unfold markFrom segFrom
    rw [gopLoop] at h
    by_cases hx : x.2.status ≠ .P
    · rw [if_pos hx] at h ⊢
      rw [if_pos hx]
      obtain ⟨p, e1, e2⟩ := Out.bind_eq_ok h
      cases e2
      have g := ih (fun y hy => h1 y (List.mem_cons_of_mem _ hy)) (fun y hy => h2 y (by
        rw [nextSei_cons, if_neg (by simp [hx]), hy])) hi hn e1
      exact ⟨by rw [g.1], g.2⟩
    · rw [if_neg hx] at h ⊢
      rw [if_neg hx]
      replace hx : x.2.status = .P := by simpa using hx
      cases hnalu : x.2.nalu with
      | none => rw [hnalu] at h; cases h
      | some n =>
        rw [hnalu] at h
        have ef : x.2.isFirst = n.firstInGop := by unfold Item.isFirst; rw [hnalu]
        have es : x.2.isSei = n.gopSei := by unfold Item.isSei; rw [hnalu]
        dsimp only at h
        by_cases hsei : x.2.isSei = true
        · have ha : x.1 = sei := h2 x (by rw [nextSei_cons, if_pos (by simp [hsei, hx])])
          rw [if_pos (.inr (.inr ha))] at h
          rw [hsei]
          cases h
          exact ⟨rfl, by simp, by simp⟩
        · have ha : ¬ x.1 = sei := fun e => hsei (h1 x List.mem_cons_self hx e)
          rw [Bool.not_eq_true] at hsei
          rw [hsei, Bool.false_or]
          by_cases hstop : (decide (0 < num) && x.2.isFirst) = true
          · rw [if_pos hstop, if_pos hstop]
            rw [Bool.and_eq_true, decide_eq_true_eq, ef] at hstop
            rw [if_pos (.inr (.inl ⟨hstop.2, hstop.1⟩))] at h
            cases h
            exact ⟨rfl, by simp, by simp⟩
          · rw [if_neg hstop, if_neg hstop]
            rw [Bool.and_eq_true, decide_eq_true_eq, ef] at hstop
            have hI : numI + (if n.firstInGop = true then 1 else 0) ≤ 1 ∧ numI + (if n.firstInGop = true then 1 else 0) ≤ num + 1 := by
              split
              · rename_i hf
                have : ¬ 0 < num := fun hc => hstop ⟨hc, hf⟩
                omega
              · omega
            rw [if_neg (by
              rintro (e | e | e)
              · omega
              · exact hstop ⟨e.2, e.1⟩
              · exact ha e)] at h
            cases hh : (if n.firstInGop = true then x.2.second else some x.2.hash) with
            | none => rw [hh] at h; cases h
            | some hv =>
              rw [hh] at h
              have hof : hashOf hs x = buf hs hv := by
                unfold hashOf
                rw [ef]
                cases hf : n.firstInGop with
                | false => rw [hf] at hh; simp at hh; simp [hh]
                | true => rw [hf] at hh; simp at hh; simp [hh]
              dsimp only at h
              split at h
              · cases h
              · split at h
                · cases h
                · obtain ⟨p, e1, e2⟩ := Out.bind_eq_ok h
                  cases e2
                  have g := ih (fun y hy => h1 y (List.mem_cons_of_mem _ hy)) (fun y hy => h2 y (by
                    rw [nextSei_cons, if_neg (by simp [hsei]), hy])) hI.1 hI.2 e1
                  rw [show decide (0 < num + 1) = true by simp] at g
                  refine ⟨by rw [g.1], by rw [g.2.1, List.flatMap_cons, hof, List.append_assoc], fun y hy => ?_⟩
                  rcases List.mem_cons.1 hy with rfl | hy
                  · refine ⟨by rw [hnalu]; rfl, fun hf => ?_⟩
                    rw [ef] at hf
                    rw [hf] at hh
                    simp at hh; rw [hh]; rfl
                  · exact g.2.2 y hy

end Validator
end SV
