import Verif.Proofs.NaluList
import Verif.Spec.NaluList
/-! The linked list (C19) and clean up (C21). -/
namespace SV

open Spec

/-- One operation of the library on the list in memory. -/
def runOp (s : PList Item) : Op → Out (PList Item)
  | .append v => appendP s v
  | .addMissing n after item => do
    let r ← addMissingP s missingItem n after item
    pure r.2
  | .remove item => removeAndFree s item
  | .removeMissing => removeMissingP (s.brk + 1) s s.first false false
  | .cleanUp => do
    let r ← cleanUpP (s.brk + 1) s 0
    pure r.2
  | .freeAll => freeItems (s.brk + 1) s

/-- A sequence of operations. -/
def runOps (s : PList Item) : List Op → Out (PList Item)
  | [] => .ok s
  | o :: os => do
    let s ← runOp s o
    runOps s os

section
variable {α : Type}

theorem lstA_eq (p : Option Nat) (xs : List (Nat × α)) : lstA p xs = (xs.getLast?.map Prod.fst).or p := by
  induction xs generalizing p with
  | nil => rfl
  | cons x xs ih =>
    rw [lstA, ih, List.getLast?_cons]
    cases xs.getLast? <;> rfl

theorem hdA_eq (e : Option Nat) (xs : List (Nat × α)) : hdA xs e = ((xs[0]?).map Prod.fst).or e := by
  cases xs <;> rfl

theorem DL_index {h : Nat → Option (Node α)} {p e : Option Nat} {xs : List (Nat × α)} (hd : DL h p xs e)
    (i a : Nat) (v : α) (hi : xs[i]? = some (a, v)) :
    h a = some ⟨v, if i = 0 then p else (xs[i - 1]?).map Prod.fst, ((xs[i + 1]?).map Prod.fst).or e⟩ := by
  induction xs generalizing p i with
  | nil => simp at hi
  | cons x xs ih =>
    cases i with
    | zero =>
      simp at hi
      subst hi
      simpa [hdA_eq] using hd.1
    | succ i =>
      have := ih hd.2 i (by simpa using hi)
      rw [this]
      cases i <;> simp

theorem Linked_of_Rep {s : PList α} {xs : List (Nat × α)} (hr : Rep s xs) : Linked s xs where
  node i a v hi := by simpa using DL_index hr.dl i a v hi
  distinct i j a v w hi hj := by
    have hi' : (xs.map Prod.fst)[i]? = some a := by simp [hi]
    have hj' : (xs.map Prod.fst)[j]? = some a := by simp [hj]
    obtain ⟨h1, e1⟩ := List.getElem?_eq_some_iff.1 hi'
    obtain ⟨h2, e2⟩ := List.getElem?_eq_some_iff.1 hj'
    exact (List.getElem_inj hr.nodup).1 (e1.trans e2.symm)
  only a n hn := by
    by_cases ha : a ∈ xs.map Prod.fst
    · obtain ⟨⟨b, v⟩, hm, rfl⟩ := List.mem_map.1 ha
      obtain ⟨i, hi⟩ := List.mem_iff_getElem?.1 hm
      exact ⟨i, v, hi⟩
    · rw [hr.only a ha] at hn
      cases hn
  first := by simpa [hdA_eq] using hr.first
  last := by simpa [lstA_eq] using hr.last
  num := hr.num

theorem effect_missing (xs : NList) (nd : (xs.map Prod.fst).Nodup) (n : Int) (after : Bool) (a brk : Nat) :
    effect brk xs (.addMissing n after a) =
      if 0 ≤ n then insertMissing xs missingItem brk n.toNat after a else xs := by
  have hrange : ∀ m : Nat, (List.range m).map (fun k => (brk + k, missingItem)) =
      (List.range' brk m).map fun b => (b, missingItem) := by
    intro m
    rw [List.range'_eq_map_range, List.map_map]
    rfl
  by_cases ha : a ∈ xs.map Prod.fst
  · obtain ⟨l, v, r, rfl⟩ := mem_split ha
    have hsp := nodup_split nd
    have hspan : (l ++ (a, v) :: r).takeWhile (fun x => x.1 ≠ a) = l ∧
        (l ++ (a, v) :: r).dropWhile (fun x => x.1 ≠ a) = (a, v) :: r := by
      have h1 : ∀ x ∈ l, decide (x.1 ≠ a) = true := by
        intro x hx
        simp only [decide_eq_true_eq]
        intro he
        exact hsp.1 (List.mem_map.2 ⟨x, hx, he⟩)
      rw [List.takeWhile_append_of_pos h1, List.dropWhile_append_of_pos h1]
      simp
    simp only [effect, hspan.1, hspan.2, hrange]
    by_cases hn : 0 ≤ n
    · rw [if_pos hn, insertMissing_split _ _ _ nd]
      cases after <;> simp
    · have : n.toNat = 0 := by omega
      rw [if_neg hn, this]
      cases after <;> simp
  · have hspan : xs.dropWhile (fun x => x.1 ≠ a) = [] := by
      have h1 : ∀ x ∈ xs, decide (x.1 ≠ a) = true := by
        intro x hx
        simp only [decide_eq_true_eq]
        rintro rfl
        exact ha (List.mem_map_of_mem hx)
      have h3 := List.dropWhile_append_of_pos (l₂ := []) h1
      simpa using h3
    simp only [effect, hspan]
    rw [insertMissing_notin _ _ _ _ ha]
    simp

end

theorem runOp_rep {s : PList Item} {xs : NList} (hr : Rep s xs) (o : Op) :
    ∃ s', runOp s o = .ok s' ∧ Rep s' (effect s.brk xs o) := by
  cases o with
  | append v =>
    obtain ⟨s', h1, h2, -⟩ := appendP_rep hr v
    exact ⟨s', h1, h2⟩
  | addMissing n after a =>
    obtain ⟨s', h1, h2, -⟩ := addMissingP_rep hr missingItem n after a
    refine ⟨s', by simp [runOp, h1], ?_⟩
    rw [effect_missing _ hr.nodup]
    exact h2
  | remove a =>
    by_cases ha : a ∈ xs.map Prod.fst
    · obtain ⟨l, v, r, rfl⟩ := mem_split ha
      have hsp := nodup_split hr.nodup
      obtain ⟨s', h1, h2, -⟩ := removeAndFree_rep hr
      refine ⟨s', h1, ?_⟩
      have hl : l.filter (fun x => decide (x.1 ≠ a)) = l := by
        rw [List.filter_eq_self]
        intro x hx
        simp only [decide_eq_true_eq]
        intro he
        exact hsp.1 (List.mem_map.2 ⟨x, hx, he⟩)
      have hrr : r.filter (fun x => decide (x.1 ≠ a)) = r := by
        rw [List.filter_eq_self]
        intro x hx
        simp only [decide_eq_true_eq]
        intro he
        exact hsp.2.1 (List.mem_map.2 ⟨x, hx, he⟩)
      simp only [effect, List.filter_append, List.filter_cons, hl, hrr]
      simpa using h2
    · refine ⟨s, removeAndFree_notin hr ha, ?_⟩
      have : xs.filter (fun x => decide (x.1 ≠ a)) = xs := by
        rw [List.filter_eq_self]
        intro x hx
        simp only [decide_eq_true_eq]
        rintro rfl
        exact ha (List.mem_map_of_mem hx)
      simpa only [effect, this] using hr
  | removeMissing =>
    obtain ⟨s', h1, h2, -⟩ := removeMissingP_rep xs (l := []) hr (s.brk + 1) false false (Nat.le_succ_of_le hr.len)
    rw [← hr.first] at h1
    exact ⟨s', h1, h2⟩
  | cleanUp =>
    obtain ⟨s', h1, h2, -⟩ := cleanUpP_rep hr (s.brk + 1) 0 (Nat.le_succ_of_le hr.len)
    exact ⟨s', by simp [runOp, h1], h2⟩
  | freeAll =>
    obtain ⟨s', h1, h2, -⟩ := freeItems_rep hr (s.brk + 1) (Nat.le_succ_of_le hr.len)
    exact ⟨s', h1, h2⟩

theorem empty_rep : Rep (PList.empty : PList Item) [] :=
  ⟨trivial, by simp, fun _ _ => rfl, by simp, by simp, rfl, rfl, rfl⟩

theorem runOps_rep {s : PList Item} {xs : NList} (hr : Rep s xs) (os : List Op) :
    ∃ s' xs', runOps s os = .ok s' ∧ Rep s' xs' := by
  induction os generalizing s xs with
  | nil => exact ⟨s, xs, rfl, hr⟩
  | cons o os ih =>
    obtain ⟨s1, h1, h2⟩ := runOp_rep hr o
    obtain ⟨s', xs', h3, h4⟩ := ih h2
    exact ⟨s', xs', by simp [runOps, h1, h3], h4⟩

/-- **C19.** Whatever operations are performed on a new list, none of them touches freed memory, dereferences NULL or
loops for ever, and afterwards the links in both directions, the two end pointers and the count describe one and the same
sequence of items. -/
theorem C19_links (os : List Op) : ∃ s xs, runOps PList.empty os = .ok s ∧ Linked s xs := by
  obtain ⟨s, xs, h1, h2⟩ := runOps_rep empty_rep os
  exact ⟨s, xs, h1, Linked_of_Rep h2⟩

/-- **C19.** Every operation has the intended effect on the sequence held by a list reached by any operations. -/
theorem C19_effect (os : List Op) (o : Op) :
    ∃ s s' xs, runOps PList.empty os = .ok s ∧ runOp s o = .ok s' ∧ Linked s xs ∧ Linked s' (effect s.brk xs o) := by
  obtain ⟨s, xs, h1, h2⟩ := runOps_rep empty_rep os
  obtain ⟨s', h3, h4⟩ := runOp_rep h2 o
  exact ⟨s, s', xs, h1, h3, Linked_of_Rep h2, Linked_of_Rep h4⟩

/-- **C19.** A consistent list determines the sequence it holds: there is no other sequence it could be read as. -/
theorem C19_unique {s : PList Item} {xs ys : NList} (hx : Linked s xs) (hy : Linked s ys) : xs = ys := by
  have hlen : xs.length = ys.length := by
    have := hx.num.symm.trans hy.num
    omega
  have same : ∀ (i a b : Nat) (v w : Item), xs[i]? = some (a, v) → ys[i]? = some (b, w) → a = b →
      xs[i]? = ys[i]? := by
    intro i a b v w e1 e2 hab
    subst hab
    have n1 := hx.node i _ _ e1
    have n2 := hy.node i _ _ e2
    rw [n1] at n2
    injection n2 with n2
    injection n2 with n2
    rw [e1, e2, n2]
  have get : ∀ (zs : NList) (i : Nat), i < zs.length → ∃ a v, zs[i]? = some (a, v) :=
    fun zs i hi => ⟨_, _, List.getElem?_eq_getElem hi⟩
  have key : ∀ i, i < xs.length → xs[i]? = ys[i]? := by
    intro i
    induction i with
    | zero =>
      intro hi
      obtain ⟨a, v, e1⟩ := get xs 0 hi
      obtain ⟨b, w, e2⟩ := get ys 0 (hlen ▸ hi)
      refine same 0 a b v w e1 e2 ?_
      have h2 := hx.first.symm.trans hy.first
      rw [e1, e2] at h2
      simpa using h2
    | succ i ih =>
      intro hi
      have hi0 := ih (by omega)
      obtain ⟨c, u, e0⟩ := get xs i (by omega)
      obtain ⟨a, v, e1⟩ := get xs (i + 1) hi
      obtain ⟨b, w, e2⟩ := get ys (i + 1) (hlen ▸ hi)
      refine same (i + 1) a b v w e1 e2 ?_
      have n1 := hx.node i _ _ e0
      have n2 := hy.node i _ _ (hi0 ▸ e0)
      rw [n1] at n2
      injection n2 with n2
      injection n2 with _ _ n2
      rw [e1, e2] at n2
      simpa using n2
  apply List.ext_getElem? 
  intro i
  by_cases hi : i < xs.length
  · exact key i hi
  · rw [List.getElem?_eq_none (by omega), List.getElem?_eq_none (by omega)]

/-- Several operations, with an address that was never handed out and one that has been freed. -/
example : ∃ s xs, runOps PList.empty [.append (newItem (some {})), .append (newItem none), .addMissing 2 true 0,
    .addMissing 1 false 77, .remove 1, .addMissing 3 true 1, .cleanUp] = .ok s ∧ Linked s xs :=
  C19_links _

example : (effect 2 [(0, newItem none), (1, missingItem)] (.addMissing 2 false 1)).map Prod.fst = [0, 2, 3, 1] := by
  decide +kernel

example : (effect 2 [(0, newItem none), (1, missingItem)] (.addMissing 2 true 0)).map Prod.fst = [0, 3, 2, 1] := by
  decide +kernel

/-- **C21.** On any list in memory, the clean up after a report leaves a suffix of the list that is empty or starts with a
pending item; the removed items are the ones before it, none of them pending; and the number returned is the number of
removed items that stand for received NAL units. -/
theorem C21_clean_up {s : PList Item} {xs : NList} (hr : Rep s xs) :
    ∃ s' n removed kept, cleanUpP (s.brk + 1) s 0 = .ok (n, s') ∧ Linked s' kept ∧ xs = removed ++ kept ∧
      (∀ x ∈ removed, x.2.status ≠ .P) ∧ (kept = [] ∨ ∃ x r, kept = x :: r ∧ x.2.status = .P) ∧
      n = removed.countP (fun x => x.2.status ≠ .M) := by
  obtain ⟨s', h1, h2, -⟩ := cleanUpP_rep hr (s.brk + 1) 0 (Nat.le_succ_of_le hr.len)
  refine ⟨s', _, xs.takeWhile (fun x => x.2.status ≠ .P), cleanUp xs, h1, Linked_of_Rep h2, ?_, ?_, ?_, ?_⟩
  · exact (List.takeWhile_append_dropWhile).symm
  · intro x hx
    have := List.all_takeWhile (p := fun x : Nat × Item => decide (x.2.status ≠ .P)) (l := xs)
    rw [List.all_eq_true] at this
    simpa using this x hx
  · cases hc : cleanUp xs with
    | nil => exact Or.inl rfl
    | cons x r =>
      refine Or.inr ⟨x, r, rfl, ?_⟩
      have := List.head?_dropWhile_not (fun x : Nat × Item => decide (x.2.status ≠ .P)) xs
      simp only [cleanUp] at hc
      rw [hc] at this
      simpa using this
  · simp [cleanUpCount, List.countP_eq_length_filter]

/-- A list in memory with a settled, a missing and a pending item. -/
example : ∃ s xs, runOps PList.empty [.append { status := .ok }, .addMissing 1 true 0, .append { status := .P }] = .ok s ∧
    Rep s xs := runOps_rep empty_rep _

end SV
