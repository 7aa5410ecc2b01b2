import Verif.Proofs.AuthContent
/-! Pending SEIs while the list evolves. -/
namespace SV

/-- What may happen to an item outside decoding: a SEI that is pending was pending before, one with status N had it or was decoded. -/
structure StillAs (x y : Item) : Prop where
  nalu : y.nalu = x.nalu
  decoded : y.decoded = x.decoded
  pend : y.isSei = true → y.status = .P → x.status = .P
  bad : y.isSei = true → y.status = .N → x.status = .N ∨ x.decoded = true

theorem StillAs.sei {x y : Item} (h : StillAs x y) : y.isSei = x.isSei := by unfold Item.isSei; rw [h.nalu]

theorem StillAs.refl (x : Item) : StillAs x x := ⟨rfl, rfl, fun _ h => h, fun _ h => .inl h⟩

theorem StillAs.trans {x y z : Item} (h : StillAs x y) (g : StillAs y z) : StillAs x z := by
  refine ⟨g.nalu.trans h.nalu, g.decoded.trans h.decoded, fun a b => h.pend (g.sei ▸ a) (g.pend a b), fun a b => ?_⟩
  rcases g.bad a b with e | e
  · exact h.bad (g.sei ▸ a) e
  · exact .inr (h.decoded ▸ e)

theorem StillAs.of_status {x y : Item} (h1 : y.nalu = x.nalu) (h2 : y.decoded = x.decoded) (h3 : y.status = x.status) : StillAs x y :=
  ⟨h1, h2, fun _ h => h3 ▸ h, fun _ h => .inl (h3 ▸ h)⟩

theorem StillAs.of_plain {x y : Item} (h1 : y.nalu = x.nalu) (h2 : y.decoded = x.decoded) (h3 : x.isSei = false) : StillAs x y := by
  have : y.isSei = false := by unfold Item.isSei at h3 ⊢; rw [h1]; exact h3
  exact ⟨h1, h2, fun h _ => absurd h (by rw [this]; decide), fun h _ => absurd h (by rw [this]; decide)⟩

/-- Items kept in order, dropped, or inserted for missing NAL units. -/
inductive CalmList : NList → NList → Prop
  | nil : CalmList [] []
  | keep {a : Nat} {x y : Item} {l l' : NList} : StillAs x y → CalmList l l' → CalmList ((a, x) :: l) ((a, y) :: l')
  | miss {a : Nat} {y : Item} {l l' : NList} : y.nalu = none → CalmList l l' → CalmList l ((a, y) :: l')
  | drop {x : Nat × Item} {l l' : NList} : CalmList l l' → CalmList (x :: l) l'

theorem CalmList.refl (l : NList) : CalmList l l := by
  induction l with
  | nil => exact .nil
  | cons x l ih => exact .keep (StillAs.refl _) ih

theorem CalmList.trans {l l' l'' : NList} (h : CalmList l l') (g : CalmList l' l'') : CalmList l l'' := by
  induction h generalizing l'' with
  | nil => exact g
  | @keep a x y l l' k h ih =>
    generalize hm : (a, y) :: l' = m at g
    induction g with
    | nil => cases hm
    | keep k' g' _ => cases hm; exact .keep (k.trans k') (ih g')
    | miss m' _ ih' => exact .miss m' (ih' hm)
    | drop g' _ => cases hm; exact .drop (ih g')
  | @miss a y l l' hy h ih =>
    generalize hm : (a, y) :: l' = m at g
    induction g with
    | nil => cases hm
    | keep k' g' _ => cases hm; exact .miss (k'.nalu.trans hy) (ih g')
    | miss m' _ ih' => exact .miss m' (ih' hm)
    | drop g' _ => cases hm; exact ih g'
  | drop _ ih => exact .drop (ih g)

theorem CalmList.append {l l' m m' : NList} (h : CalmList l l') (g : CalmList m m') : CalmList (l ++ m) (l' ++ m') := by
  induction h with
  | nil => exact g
  | keep k _ ih => exact .keep k ih
  | miss m _ ih => exact .miss m ih
  | drop _ ih => exact .drop ih

theorem CalmList.map {l : NList} {f : Nat × Item → Nat × Item} (h : ∀ x ∈ l, (f x).1 = x.1 ∧ StillAs x.2 (f x).2) : CalmList l (l.map f) := by
  induction l with
  | nil => exact .nil
  | cons x l ih =>
    have hx := h x (by simp)
    have : f x = (x.1, (f x).2) := Prod.ext hx.1 rfl
    rw [List.map_cons, this]
    exact .keep hx.2 (ih fun y hy => h y (by simp [hy]))

theorem CalmList.set {l : NList} {a : Nat} {f : Item → Item} (h : ∀ x ∈ l, x.1 = a → StillAs x.2 (f x.2)) : CalmList l (l.set a f) := by
  refine CalmList.map fun x hx => ?_
  split
  · rename_i e; exact ⟨rfl, h x hx e⟩
  · exact ⟨rfl, StillAs.refl _⟩

theorem CalmList.inserted (new : NList) (h : ∀ x ∈ new, x.2.nalu = none) : CalmList [] new := by
  induction new with
  | nil => exact .nil
  | cons x l ih => exact .miss (h x (by simp)) (ih fun y hy => h y (by simp [hy]))

theorem CalmList.suffix {l l' : NList} (h : l' <:+ l) : CalmList l l' := by
  obtain ⟨z, rfl⟩ := h
  induction z with
  | nil => exact .refl _
  | cons x z ih => exact .drop ih

/-- An item with a NAL unit stems from an item of the original list. -/
theorem CalmList.mem {l l' : NList} (h : CalmList l l') {y : Nat × Item} (hy : y ∈ l') :
    y.2.nalu = none ∨ ∃ x ∈ l, x.1 = y.1 ∧ StillAs x.2 y.2 := by
  induction h with
  | nil => cases hy
  | keep k _ ih =>
    rcases List.mem_cons.1 hy with rfl | hy
    · exact .inr ⟨_, List.mem_cons_self, rfl, k⟩
    · rcases ih hy with m | ⟨x, hx, h1, h2⟩
      · exact .inl m
      · exact .inr ⟨x, List.mem_cons_of_mem _ hx, h1, h2⟩
  | miss m _ ih =>
    rcases List.mem_cons.1 hy with rfl | hy
    · exact .inl m
    · exact ih hy
  | drop _ ih =>
    rcases ih hy with m | ⟨x, hx, h1, h2⟩
    · exact .inl m
    · exact .inr ⟨x, List.mem_cons_of_mem _ hx, h1, h2⟩

/-- A pending SEI. -/
def isWaiting (x : Nat × Item) : Bool := x.2.isSei && decide (x.2.status = .P)

/-- The pending SEIs, and whether they are decoded. -/
def waiting (l : NList) : List (Nat × Bool) := (l.filter isWaiting).map fun x => (x.1, x.2.decoded)

theorem mem_waiting {l : NList} {p : Nat × Bool} : p ∈ waiting l ↔ ∃ x ∈ l, isWaiting x = true ∧ x.1 = p.1 ∧ x.2.decoded = p.2 := by
  unfold waiting
  rw [List.mem_map]
  constructor
  · rintro ⟨x, hx, rfl⟩
    rw [List.mem_filter] at hx
    exact ⟨x, hx.1, hx.2, rfl, rfl⟩
  · rintro ⟨x, hx, hw, h1, h2⟩
    exact ⟨x, List.mem_filter.2 ⟨hx, hw⟩, Prod.ext h1 h2⟩

theorem waiting_cons (x : Nat × Item) (l : NList) : waiting (x :: l) = if isWaiting x then (x.1, x.2.decoded) :: waiting l else waiting l := by
  unfold waiting
  rw [List.filter_cons]
  split <;> rfl

theorem CalmList.waiting {l l' : NList} (h : CalmList l l') : (SV.waiting l').Sublist (SV.waiting l) := by
  induction h with
  | nil => exact List.Sublist.refl _
  | @keep a x y l l' k _ ih =>
    rw [waiting_cons, waiting_cons]
    by_cases hy : isWaiting (a, y) = true
    · have hx : isWaiting (a, x) = true := by
        unfold isWaiting at hy ⊢
        rw [Bool.and_eq_true, decide_eq_true_eq] at hy ⊢
        exact ⟨k.sei ▸ hy.1, k.pend hy.1 hy.2⟩
      rw [if_pos hy, if_pos hx]
      dsimp only
      rw [k.decoded]
      exact ih.cons_cons _
    · rw [if_neg hy]
      split
      · exact ih.cons _
      · exact ih
  | @miss a y l l' m _ ih =>
    rw [waiting_cons, if_neg]
    · exact ih
    · unfold isWaiting Item.isSei; rw [m]; simp
  | drop _ ih =>
    rw [waiting_cons]
    split
    · exact ih.cons _
    · exact ih

theorem Sublist.tail_subset {α : Type} {l l' : List α} (h : l'.Sublist l) : ∀ p ∈ l'.tail, p ∈ l.tail := by
  cases h with
  | slnil => exact fun _ h => h
  | @cons l₁ l₂ a h' => exact fun p hp => h'.subset (List.mem_of_mem_tail hp)
  | cons_cons a h' => exact fun p hp => h'.subset hp

/-- SEIs with status N are decoded. -/
def BadDecoded (l : NList) : Prop := ∀ x ∈ l, x.2.isSei = true → x.2.status = .N → x.2.decoded = true

theorem CalmList.bad {l l' : NList} (h : CalmList l l') (hb : BadDecoded l) : BadDecoded l' := by
  intro y hy hs hn
  rcases h.mem hy with e | ⟨x, hx, -, k⟩
  · unfold Item.isSei at hs; rw [e] at hs; cases hs
  · rw [k.decoded]
    rcases k.bad hs hn with e | e
    · exact hb x hx (k.sei ▸ hs) e
    · exact e

namespace Validator

theorem CalmList.of_undo {l l' : NList} (h : Undo l l') (hb : BadDecoded l) : CalmList l l' := by
  induction h with
  | nil => exact .nil
  | same _ ih => exact .keep (StillAs.refl _) (ih fun x hx => hb x (List.mem_cons_of_mem _ hx))
  | @reset z l l' _ ih =>
    refine .keep ?_ (ih fun x hx => hb x (List.mem_cons_of_mem _ hx))
    have hz := hb z List.mem_cons_self
    refine ⟨?_, ?_, ?_, ?_⟩
    · rcases resetStatus_cases z.2 with e | e | ⟨-, e⟩ <;> rw [e]
    · rcases resetStatus_cases z.2 with e | e | ⟨-, e⟩ <;> rw [e]
    · intro hs hp
      have hs : z.2.isSei = true := by
        rcases resetStatus_cases z.2 with e | e | ⟨-, e⟩ <;> (rw [e] at hs; exact hs)
      unfold resetStatus at hp
      dsimp only at hp
      by_cases hd : z.2.decoded = true ∧ z.2.status ≠ .U
      · rw [if_pos hd] at hp; cases hp
      · rw [if_neg hd] at hp
        split at hp
        · rename_i hN
          exact absurd ⟨hz hs hN, by rw [hN]; decide⟩ hd
        · exact hp
    · intro hs hp
      unfold resetStatus at hp
      dsimp only at hp
      by_cases hd : z.2.decoded = true ∧ z.2.status ≠ .U
      · rw [if_pos hd] at hp; cases hp
      · rw [if_neg hd] at hp
        split at hp
        · cases hp
        · exact .inl hp
  | drop _ _ ih => exact .drop (ih fun x hx => hb x (List.mem_cons_of_mem _ hx))

theorem clearUsed_calm (l : NList) : CalmList l (clearUsed l) := CalmList.map fun _ _ => ⟨rfl, .of_status rfl rfl rfl⟩

theorem gopLoop_calm {hs sei : Nat} {l l' : NList} {numI num : Nat} {acc acc' : Bytes}
    (h : gopLoop hs sei l numI num acc = .ok (l', acc')) : CalmList l l' := by
  induction l generalizing l' numI num acc with
  | nil => cases h; exact .nil
  | cons x r ih =>
    unfold gopLoop at h
    split at h
    · cases hr : gopLoop hs sei r numI num acc with
      | err e => rw [hr] at h; cases h
      | ub u => rw [hr] at h; cases h
      | ok p =>
        rw [hr] at h
        cases h
        exact .keep (StillAs.refl _) (ih hr)
    · split at h
      · cases h
      · rename_i n _
        dsimp only at h
        generalize numI + (if n.firstInGop = true then 1 else 0) = numI' at h
        generalize (if n.firstInGop = true then x.2.second else some x.2.hash) = hh at h
        split at h
        · cases h; exact .refl _
        · split at h
          · cases h
          · split at h
            · cases h
            · split at h
              · cases h
              · generalize hr : gopLoop hs sei r _ _ _ = t at h
                cases t with
                | err e => cases h
                | ub u => cases h
                | ok p =>
                  cases h
                  exact .keep (.of_status rfl rfl rfl) (ih hr)

theorem notSei_of {x : Item} {n : Nalu} (h : x.nalu = some n) (hg : n.gopSei = false) : x.isSei = false := by unfold Item.isSei; rw [h]; exact hg

theorem markLoop_calm {l l' : NList} {k : Nat} {f : Bool} (h : markLoop l = .ok (l', k, f)) : CalmList l l' := by
  induction l generalizing l' k f with
  | nil => unfold markLoop at h; cases h; exact .nil
  | cons x r ih =>
    unfold markLoop at h
    split at h
    · cases hr : markLoop r with
      | err e => rw [hr] at h; cases h
      | ub u => rw [hr] at h; cases h
      | ok p =>
        rw [hr] at h
        cases h
        exact .keep (StillAs.refl _) (ih hr)
    · split at h
      · cases h
      · rename_i n hn
        split at h
        · cases h; exact .refl _
        · rename_i hg
          have hk : StillAs x.2 { x.2 with status := .N } := .of_plain rfl rfl (notSei_of hn (Bool.eq_false_iff.2 hg))
          dsimp only at h
          split at h
          · cases h; exact .keep hk .nil
          · split at h
            · cases h
            · split at h
              · cases h; exact .keep hk (.refl _)
              · generalize hr : markLoop _ = t at h
                cases t with
                | err e => cases h
                | ub u => cases h
                | ok p =>
                  cases h
                  exact .keep hk (ih hr)

/-- Used items that are pending are no SEIs. -/
def UsedPlain (l : NList) : Prop := ∀ x ∈ l, x.2.used = true → x.2.status = .P → x.2.isSei = false

theorem setStatusLoop_calm {st : Status} {l l' : NList} {k : Nat} (hu : UsedPlain l) (h : setStatusLoop st l = .ok (l', k)) : CalmList l l' := by
  induction l generalizing l' k with
  | nil => unfold setStatusLoop at h; cases h; exact .nil
  | cons x r ih =>
    have hr' : UsedPlain r := fun y hy => hu y (List.mem_cons_of_mem _ hy)
    unfold setStatusLoop at h
    split at h
    · rename_i hc
      simp only [Bool.and_eq_true, decide_eq_true_eq] at hc
      split at h
      · cases h
      · cases hr : setStatusLoop st r with
        | err e => rw [hr] at h; cases h
        | ub u => rw [hr] at h; cases h
        | ok p =>
          rw [hr] at h
          cases h
          exact .keep (.of_plain rfl rfl (hu x List.mem_cons_self hc.1 hc.2)) (ih hr' hr)
    · cases hr : setStatusLoop st r with
      | err e => rw [hr] at h; cases h
      | ub u => rw [hr] at h; cases h
      | ok p =>
        rw [hr] at h
        cases h
        exact .keep (StillAs.refl _) (ih hr' hr)

theorem insertMissing_calm (l : NList) (brk n : Nat) (app : Bool) (item : Nat) : CalmList l (insertMissing l missingItem brk n app item) := by
  unfold insertMissing
  generalize hnew : (List.range' brk n).map (fun a => (a, missingItem)) = new
  have hm : ∀ x ∈ new, x.2.nalu = none := by
    intro x hx
    rw [← hnew] at hx
    obtain ⟨a, -, rfl⟩ := List.mem_map.1 hx
    rfl
  dsimp only
  induction l with
  | nil => exact .nil
  | cons x l ih =>
    rw [List.flatMap_cons]
    by_cases hx : x.1 = item
    · rw [if_pos hx]
      by_cases ha : app = true
      · have h0 : CalmList l ((x :: new.reverse).tail ++ _) :=
          CalmList.append (l := []) (CalmList.inserted _ fun y hy => hm y (List.mem_reverse.1 hy)) ih
        rw [if_pos ha, List.cons_append]
        exact .keep (StillAs.refl _) h0
      · rw [if_neg ha]
        exact CalmList.append (l := [x]) (CalmList.append (l := []) (CalmList.inserted _ hm) (CalmList.refl [x])) ih
    · rw [if_neg hx]
      exact .keep (StillAs.refl _) ih

theorem addMissing_calm (s : Validator) (n : Int) (app : Bool) (item : Nat) : CalmList s.list (s.addMissing n app item).list := by
  unfold addMissing
  split
  · exact .refl _
  · exact insertMissing_calm _ _ _ _ _

theorem hashListLoop_calm {hs : Nat} {hashes : List Bytes} {sei : Nat} {l l' : NList} {prev : Option Nat} {m m' : Match}
    (h : hashListLoop hs hashes sei l prev m = .ok (l', m')) : CalmList l l' := by
  induction l generalizing l' prev m m' with
  | nil => cases h; exact .nil
  | cons x r ih =>
    unfold hashListLoop at h
    split at h
    · cases hr : hashListLoop hs hashes sei r (some x.1) m with
      | err e => rw [hr] at h; cases h
      | ub u => rw [hr] at h; cases h
      | ok p =>
        rw [hr] at h
        cases h
        exact .keep (StillAs.refl _) (ih hr)
    · split at h
      · cases h
      · rename_i n hn
        dsimp only at h
        split at h
        · cases h; exact .refl _
        · rename_i hg
          have hg : x.2.isSei = false := by
            refine notSei_of hn ?_
            cases hgs : n.gopSei
            · rfl
            · rw [hgs] at hg; exact absurd rfl hg
          split at h
          · cases h
          · rename_i hh _
            generalize hi : searchFrom (buf hs hh) hashes (m.latest + 1).toNat = i at h
            generalize hk : (if i < hashes.length then ((i : Int) - m.latest - 1 - m.invalid).toNat else 0) = k at h
            have hkeep : StillAs x.2 { x.2 with status := if i < hashes.length ∧ m.orderOk = true then Status.ok else Status.N } :=
              .of_plain rfl rfl hg
            have hmiss : ∀ y ∈ (List.range' m.brk k).map (fun a => (a, missingItem)), y.2.nalu = none := by
              intro y hy
              obtain ⟨a, -, rfl⟩ := List.mem_map.1 hy
              rfl
            generalize hm1 : (if i < hashes.length then
                { m with lastUsed := some x.1, count := m.count + 1, latest := i, compare := i, invalid := 0, orderOk := true, brk := m.brk + k }
              else { m with lastUsed := some x.1, count := m.count + 1, compare := i, invalid := m.invalid + 1 }) = m1 at h
            split at h
            · cases h
              exact CalmList.append (l := []) (CalmList.inserted _ hmiss) (.keep hkeep (CalmList.refl _))
            · cases hr : hashListLoop hs hashes sei r (some x.1) m1 with
              | err e => rw [hr] at h; cases h
              | ub u => rw [hr] at h; cases h
              | ok p =>
                rw [hr] at h
                cases h
                exact CalmList.append (l := []) (CalmList.inserted _ hmiss) (.keep hkeep (ih hr))

end Validator
end SV
