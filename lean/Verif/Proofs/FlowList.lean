import Verif.Proofs.AuthSegment
/-! Validation of an undisturbed stream: the list of NAL units. -/
namespace SV
open Spec

/-- The pending items. -/
def pending (l : NList) : NList := l.filter fun x => x.2.status = .P

/-- Write to the items at some addresses. -/
def onA (A : List Nat) (f : Item → Item) (l : NList) : NList := l.map fun x => if x.1 ∈ A then (x.1, f x.2) else x

theorem set_eq_onA (l : NList) (a : Nat) (f : Item → Item) : l.set a f = onA [a] f l := by
  unfold NList.set onA
  refine List.map_congr_left fun x _ => ?_
  simp

theorem mem_pending {l : NList} {x : Nat × Item} : x ∈ pending l ↔ x ∈ l ∧ x.2.status = .P := by
  unfold pending
  rw [List.mem_filter]
  simp

theorem pending_append (l m : NList) : pending (l ++ m) = pending l ++ pending m := List.filter_append ..

theorem pending_cons (x : Nat × Item) (l : NList) : pending (x :: l) = if x.2.status = .P then x :: pending l else pending l := by
  unfold pending
  rw [List.filter_cons]
  by_cases h : x.2.status = .P <;> simp [h]

theorem pending_cleanUp (l : NList) : pending (cleanUp l) = pending l := by
  unfold cleanUp
  induction l with
  | nil => rfl
  | cons x r ih =>
    rw [List.dropWhile_cons, pending_cons]
    by_cases h : x.2.status = .P
    · rw [if_neg (by simp [h]), pending_cons]
    · rw [if_pos (by simp [h]), if_neg h, ih]

theorem cleanUp_sublist (l : NList) : (cleanUp l).Sublist l := List.dropWhile_sublist _

theorem segment_pending {l : NList} {x : Nat × Item} {xs ys : NList} (h : pending l = x :: xs ++ ys) (hx : x.2.isSei = false)
    (hxs : ∀ y ∈ xs, y.2.isSei = false ∧ y.2.isFirst = false)
    (hy : ∀ y t, ys = y :: t → y.2.isSei = true ∨ y.2.isFirst = true) : segFrom false l = x :: xs := by
  rw [← segment_eq]
  unfold segment
  unfold pending at h
  rw [h]
  dsimp only [List.cons_append]
  rw [hx, if_neg (by decide)]
  congr 1
  rw [List.takeWhile_append_of_pos (fun y hy => by simp [(hxs y hy).1, (hxs y hy).2])]
  cases ys with
  | nil => simp
  | cons y t =>
    rw [List.takeWhile_cons_of_neg (by rcases hy y t rfl with e | e <;> simp [e]), List.append_nil]

theorem markFrom_onA {b : Bool} {l : NList} (h : (l.map Prod.fst).Nodup) :
    markFrom b l = onA ((segFrom b l).map Prod.fst) (fun i => { i with used := true }) l := by
  induction l generalizing b with
  | nil => rfl
  | cons x r ih =>
    rw [List.map_cons, List.nodup_cons] at h
    have hx : ∀ c, x.1 ∉ (segFrom c r).map Prod.fst := by
      intro c hc
      obtain ⟨y, hy, e⟩ := List.mem_map.1 hc
      exact h.1 (List.mem_map.2 ⟨y, (segFrom_sub hy).1, e⟩)
    unfold markFrom segFrom
    split
    · rw [ih h.2]
      unfold onA
      rw [List.map_cons, if_neg (hx b)]
    · split
      · unfold onA
        simp
      · rw [ih h.2]
        unfold onA
        rw [List.map_cons, List.map_cons, if_pos List.mem_cons_self]
        congr 1
        refine List.map_congr_left fun y hy => ?_
        have : y.1 ≠ x.1 := fun e => h.1 (e ▸ List.mem_map_of_mem hy)
        by_cases hm : y.1 ∈ (segFrom true r).map Prod.fst
        · rw [if_pos hm, if_pos (List.mem_cons_of_mem _ hm)]
        · rw [if_neg hm, if_neg (fun hc => (List.mem_cons.1 hc).elim this hm)]

namespace Validator

theorem gopLoop_ok {hs sei : Nat} (hp : 1 ≤ hs) (hl : hs ≤ 64) {l : NList} (numI num : Nat) (acc : Bytes)
    (h : ∀ x ∈ l, x.2.status = .P → ∃ n, x.2.nalu = some n ∧ (n.firstInGop = true → x.2.second.isSome = true)) :
    ∃ r, gopLoop hs sei l numI num acc = .ok r := by
  induction l generalizing numI num acc with
  | nil => exact ⟨_, rfl⟩
  | cons x r ih =>
    have ih' := fun a b c => ih a b c (fun y hy => h y (List.mem_cons_of_mem _ hy))
    unfold gopLoop
    split
    · obtain ⟨q, e⟩ := ih' numI num acc
      rw [e]; exact ⟨_, rfl⟩
    · rename_i hx
      obtain ⟨n, hn, hf⟩ := h x List.mem_cons_self (by simpa using hx)
      simp only [hn]
      by_cases hc : numI + (if n.firstInGop = true then 1 else 0) > 1 ∨ n.firstInGop = true ∧ num > 0 ∨ x.1 = sei
      · rw [if_pos hc]; exact ⟨_, rfl⟩
      · rw [if_neg hc]
        have : ∃ b, (if n.firstInGop = true then x.2.second else some x.2.hash) = some b := by
          split
          · rename_i hq; exact Option.isSome_iff_exists.1 (hf hq)
          · exact ⟨_, rfl⟩
        obtain ⟨b, hb⟩ := this
        rw [hb]
        dsimp only
        rw [if_neg (by omega), if_neg (by omega)]
        obtain ⟨q, e⟩ := ih' (numI + if n.firstInGop = true then 1 else 0) (num + 1) (acc ++ buf hs b)
        rw [e]; exact ⟨_, rfl⟩

/-- Give a status to the used items that are pending. -/
def dyed (st : Status) (x : Nat × Item) : Nat × Item :=
  if x.2.used && decide (x.2.status = .P) then (x.1, { x.2 with status := st }) else x

theorem setStatusLoop_map (st : Status) {l : NList}
    (h : ∀ x ∈ l, x.2.used = true → x.2.status = .P → ∃ n, x.2.nalu = some n ∧ n.gopSei = false) :
    setStatusLoop st l = .ok (l.map (dyed st), (l.filter fun x => x.2.used && decide (x.2.status = .P)).length) := by
  induction l with
  | nil => rfl
  | cons x r ih =>
    have ih := ih fun y hy => h y (List.mem_cons_of_mem _ hy)
    unfold setStatusLoop
    rw [List.map_cons, List.filter_cons, ih]
    unfold dyed
    by_cases hx : (x.2.used && decide (x.2.status = .P)) = true
    · have h' := hx
      rw [Bool.and_eq_true, decide_eq_true_eq] at h'
      obtain ⟨n, hn, hg⟩ := h x List.mem_cons_self h'.1 h'.2
      rw [if_pos hx, if_pos hx, if_pos hx, hn]
      simp only [Out.bind_ok, hg, List.length_cons]
      rfl
    · rw [if_neg hx, if_neg hx, if_neg hx]
      rfl

theorem addMissing_le (s : Validator) {n : Int} (h : n ≤ 0) (app : Bool) (a : Nat) : s.addMissing n app a = s := by
  unfold addMissing
  split
  · rfl
  · have e : n = 0 := by omega
    subst e
    have : insertMissing s.list missingItem s.brk (Int.toNat 0) app a = s.list := by
      unfold insertMissing
      simp only [Int.toNat_zero, List.range'_zero, List.map_nil, List.reverse_nil, List.nil_append]
      have : ∀ l : NList, l.flatMap (fun x => if x.1 = a then if app = true then [x] else [x] else [x]) = l := by
        intro l
        induction l with
        | nil => rfl
        | cons x r ih => rw [List.flatMap_cons, ih]; split <;> (try split) <;> rfl
      exact this _
    rw [this]
    rfl

theorem nextSei_pending {l : NList} {xs : NList} {z : Nat × Item} (h : pending l = xs ++ [z]) (hx : ∀ x ∈ xs, x.2.isSei = false)
    (hz : z.2.isSei = true) : nextSei l = some z := by
  induction l generalizing xs with
  | nil => cases xs <;> cases h
  | cons x r ih =>
    rw [pending_cons] at h
    rw [nextSei_cons]
    by_cases hp : x.2.status = .P
    · rw [if_pos hp] at h
      cases xs with
      | nil =>
        have e := (List.cons.inj h).1
        rw [e] at hp ⊢
        rw [if_pos (by simp [hz, hp])]
      | cons y xs =>
        have e := List.cons.inj h
        rw [e.1, if_neg (by simp [hx y List.mem_cons_self])]
        exact ih e.2 fun q hq => hx q (List.mem_cons_of_mem _ hq)
    · rw [if_neg hp] at h
      rw [if_neg (by simp [hp])]
      exact ih h hx

theorem nextSei_none {l : NList} (h : ∀ x ∈ pending l, x.2.isSei = false) : nextSei l = none := by
  induction l with
  | nil => rfl
  | cons x r ih =>
    rw [pending_cons] at h
    rw [nextSei_cons]
    by_cases hp : x.2.status = .P
    · rw [if_pos hp] at h
      rw [if_neg (by simp [h x List.mem_cons_self])]
      exact ih fun q hq => h q (List.mem_cons_of_mem _ hq)
    · rw [if_neg hp] at h
      rw [if_neg (by simp [hp])]
      exact ih h

/-- Items that are not pending are unaffected by a change of pending ones. -/
theorem pending_map {l : NList} {f : Nat × Item → Nat × Item} (h : ∀ x ∈ l, x.2.status ≠ .P → (f x).2.status ≠ .P) :
    pending (l.map f) = pending ((pending l).map f) := by
  induction l with
  | nil => rfl
  | cons x r ih =>
    have ih := ih fun y hy => h y (List.mem_cons_of_mem _ hy)
    rw [List.map_cons, pending_cons, pending_cons, ih]
    by_cases hp : x.2.status = .P
    · rw [if_pos hp, List.map_cons, pending_cons]
    · rw [if_neg hp, if_neg (h x List.mem_cons_self hp)]

end Validator
end SV
