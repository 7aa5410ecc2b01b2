import Verif.Proofs.LegacyCall
import Verif.Proofs.AuthAlgo
/-! The pending SEIs of a session for the older format, and the addresses of its list. -/
namespace SV
namespace Legacy

/-- What matters of a pending SEI. -/
structure Key where
  addr : Nat
  decoded : Bool
  hash : Bytes
  valid : Int
  size : Nat
  tlv : Bytes

/-- An item as pending SEI. -/
def keyOf (x : Nat × LItem) : Option Key :=
  match x.2.nalu with
  | none => none
  | some n =>
    if n.gopSei = true ∧ x.2.status = .P then
      some ⟨x.1, x.2.decoded, x.2.hash, n.valid, n.tlvSize, n.tlvMem.take n.tlvSize⟩
    else none

/-- The pending SEIs. -/
def queue (l : LList) : List Key := l.filterMap keyOf

theorem queue_cons (x : Nat × LItem) (l : LList) : queue (x :: l) = (keyOf x).toList ++ queue l := by
  unfold queue
  rw [List.filterMap_cons]
  cases keyOf x <;> rfl

theorem queue_append (l m : LList) : queue (l ++ m) = queue l ++ queue m := by
  unfold queue; rw [List.filterMap_append]

/-- What happens to an item in a validation: it does not become a pending SEI and is not used in the GOP hash if it was not before. -/
structure Fades (i j : LItem) : Prop where
  nalu : j.nalu = i.nalu
  decoded : j.decoded = i.decoded
  hash : j.hash = i.hash
  pend : j.status = .P → i.status = .P
  used : j.used = true → i.used = true

theorem Fades.refl (i : LItem) : Fades i i := ⟨rfl, rfl, rfl, id, id⟩

theorem Fades.trans {i j k : LItem} (h : Fades i j) (g : Fades j k) : Fades i k :=
  ⟨g.nalu.trans h.nalu, g.decoded.trans h.decoded, g.hash.trans h.hash, fun e => h.pend (g.pend e), fun e => h.used (g.used e)⟩

theorem Fades.key {a : Nat} {i j : LItem} (h : Fades i j) : keyOf (a, j) = keyOf (a, i) ∨ keyOf (a, j) = none := by
  unfold keyOf
  dsimp only
  rw [h.nalu, h.decoded, h.hash]
  cases i.nalu with
  | none => exact .inl rfl
  | some n =>
    dsimp only
    by_cases hj : n.gopSei = true ∧ j.status = .P
    · rw [if_pos hj, if_pos ⟨hj.1, h.pend hj.2⟩]; exact .inl rfl
    · rw [if_neg hj]; exact .inr rfl

/-- What happens to the list in a validation: items fade, go, or are put in for missing NAL units. -/
inductive Ages : LList → LList → Prop
  | nil : Ages [] []
  | keep {x y : Nat × LItem} {l l' : LList} : Fades x.2 y.2 → y.1 = x.1 → Ages l l' → Ages (x :: l) (y :: l')
  | drop {x : Nat × LItem} {l l' : LList} : Ages l l' → Ages (x :: l) l'
  | new {y : Nat × LItem} {l l' : LList} : y.2.nalu = none → y.2.used = false → Ages l l' → Ages l (y :: l')

theorem Ages.refl : (l : LList) → Ages l l
  | [] => .nil
  | x :: l => .keep (Fades.refl _) rfl (Ages.refl l)

theorem Ages.trans {l m n : LList} (h : Ages l m) (g : Ages m n) : Ages l n := by
  induction g generalizing l with
  | nil => exact h
  | @keep x y m n hf he _ ih =>
    generalize hz : x :: m = z at h
    induction h with
    | nil => cases hz
    | @keep a b l l' hf' he' hl ih' => cases hz; exact .keep (hf'.trans hf) (he.trans he') (ih hl)
    | drop _ ih' => exact .drop (ih' hz)
    | @new b l l' hm hu hl ih' =>
      cases hz
      refine .new (hf.nalu.trans hm) ?_ (ih hl)
      cases e : y.2.used with
      | false => rfl
      | true => rw [hf.used e] at hu; cases hu
  | @drop x m n _ ih =>
    generalize hz : x :: m = z at h
    induction h with
    | nil => cases hz
    | keep _ _ hl _ => cases hz; exact .drop (ih hl)
    | drop _ ih' => exact .drop (ih' hz)
    | new _ _ hl _ => cases hz; exact ih hl
  | new hm hu _ ih => exact .new hm hu (ih h)

theorem Ages.append {l l' m m' : LList} (h : Ages l l') (g : Ages m m') : Ages (l ++ m) (l' ++ m') := by
  induction h with
  | nil => exact g
  | keep hf he _ ih => exact .keep hf he ih
  | drop _ ih => exact .drop ih
  | new hm hu _ ih => exact .new hm hu ih

theorem Ages.news {l l' new : LList} (hn : ∀ y ∈ new, y.2.nalu = none ∧ y.2.used = false) (h : Ages l l') : Ages l (new ++ l') := by
  induction new with
  | nil => exact h
  | cons y r ih => exact .new (hn y (List.mem_cons_self ..)).1 (hn y (List.mem_cons_self ..)).2 (ih fun z hz => hn z (List.mem_cons_of_mem _ hz))

theorem Ages.map {l : LList} {f : Nat × LItem → Nat × LItem} (h : ∀ x, Fades x.2 (f x).2 ∧ (f x).1 = x.1) : Ages l (l.map f) := by
  induction l with
  | nil => exact .nil
  | cons x l ih => exact .keep (h x).1 (h x).2 ih

theorem Ages.set {l : LList} {a : Nat} {f : LItem → LItem} (h : ∀ i, Fades i (f i)) : Ages l (l.set a f) := by
  refine Ages.map fun x => ?_
  split
  · exact ⟨h _, rfl⟩
  · exact ⟨Fades.refl _, rfl⟩

theorem Ages.gone : (l : LList) → Ages l []
  | [] => .nil
  | _ :: l => .drop (Ages.gone l)

theorem Ages.drops (l : LList) (k : Nat) : Ages l (l.drop k) := by
  conv => lhs; rw [← List.take_append_drop k l]
  exact Ages.append (l' := []) (Ages.gone _) (Ages.refl _)

theorem Ages.queue {l l' : LList} (h : Ages l l') : (queue l').Sublist (queue l) := by
  induction h with
  | nil => exact .refl _
  | @keep x y l l' hf he _ ih =>
    rw [queue_cons, queue_cons]
    refine List.Sublist.append ?_ ih
    have hk : keyOf y = keyOf (x.1, y.2) := by rw [← he]
    rcases hf.key (a := x.1) with h | h
    · rw [hk, h]; exact .refl _
    · rw [hk, h]; exact List.nil_sublist _
  | @drop x l l' _ ih =>
    rw [queue_cons]
    exact ih.trans (List.sublist_append_right _ _)
  | @new y l l' hm _ _ ih =>
    rw [queue_cons]
    have : keyOf y = none := by unfold keyOf; rw [hm]
    rw [this]
    exact ih

/-- No item is marked as used in the GOP hash. -/
def Clear (l : LList) : Prop := ∀ x ∈ l, x.2.used = false

theorem Ages.clear {l l' : LList} (h : Ages l l') (hc : Clear l) : Clear l' := by
  induction h with
  | nil => exact hc
  | @keep x y l l' hf _ _ ih =>
    intro z hz
    rcases List.mem_cons.1 hz with rfl | hz
    · cases e : z.2.used with
      | false => rfl
      | true => have := hc x (List.mem_cons_self ..); rw [hf.used e] at this; cases this
    · exact ih (fun w hw => hc w (List.mem_cons_of_mem _ hw)) z hz
  | drop _ ih => exact ih fun w hw => hc w (List.mem_cons_of_mem _ hw)
  | new _ hu _ ih =>
    intro z hz
    rcases List.mem_cons.1 hz with rfl | hz
    · exact hu
    · exact ih hc z hz

/-! ### Addresses -/

/-- How often an address occurs. -/
def cnt (l : LList) (a : Nat) : Nat := (l.map Prod.fst).count a

theorem cnt_cons (x : Nat × LItem) (l : LList) (a : Nat) : cnt (x :: l) a = cnt l a + if x.1 = a then 1 else 0 := by
  unfold cnt
  rw [List.map_cons, List.count_cons]
  simp

theorem cnt_append (l m : LList) (a : Nat) : cnt (l ++ m) a = cnt l a + cnt m a := by
  unfold cnt
  rw [List.map_append, List.count_append]

theorem cnt_map {f : Nat × LItem → Nat × LItem} (h : ∀ x, (f x).1 = x.1) (l : LList) (a : Nat) : cnt (l.map f) a = cnt l a := by
  unfold cnt
  rw [List.map_map]
  congr 1
  apply List.map_congr_left
  intro x _; exact h x

theorem cnt_set (l : LList) (b : Nat) (f : LItem → LItem) (a : Nat) : cnt (l.set b f) a = cnt l a := by
  refine cnt_map (fun x => ?_) l a
  split <;> rfl

theorem cnt_range (b n a : Nat) (v : LItem) : cnt ((List.range' b n).map fun c => (c, v)) a = if b ≤ a ∧ a < b + n then 1 else 0 := by
  unfold cnt
  rw [List.map_map]
  have : ((Prod.fst : Nat × LItem → Nat) ∘ fun c => (c, v)) = id := rfl
  rw [this, List.map_id]
  induction n generalizing b with
  | zero => rw [if_neg (by omega)]; rfl
  | succ n ih =>
    rw [List.range'_succ, List.count_cons, ih]
    by_cases h : b = a
    · subst h
      rw [if_neg (by omega), if_pos (by simp), if_pos (by omega)]
    · rw [if_neg (c := (b == a) = true) (by simpa using h)]
      by_cases h2 : b + 1 ≤ a ∧ a < b + 1 + n
      · rw [if_pos h2, if_pos (by omega)]
      · rw [if_neg h2, if_neg (by omega)]

/-- The addresses are distinct and in use. -/
def WFL (l : LList) (b : Nat) : Prop := ∀ a, cnt l a ≤ if a < b then 1 else 0

/-- What happens to the list and its addresses in a validation. -/
structure Moves (l : LList) (b : Nat) (l' : LList) (b' : Nat) : Prop where
  ages : Ages l l'
  le : b ≤ b'
  addr : ∀ a, cnt l' a ≤ cnt l a + if b ≤ a ∧ a < b' then 1 else 0

theorem Moves.of_ages {l l' : LList} (h : Ages l l') (hc : ∀ a, cnt l' a ≤ cnt l a) (b : Nat) : Moves l b l' b :=
  ⟨h, Nat.le_refl b, fun a => Nat.le_trans (hc a) (Nat.le_add_right ..)⟩

theorem Moves.refl (l : LList) (b : Nat) : Moves l b l b := Moves.of_ages (Ages.refl l) (fun _ => Nat.le_refl _) b

theorem Moves.trans {l m n : LList} {b c d : Nat} (h : Moves l b m c) (g : Moves m c n d) : Moves l b n d := by
  refine ⟨h.ages.trans g.ages, Nat.le_trans h.le g.le, fun a => ?_⟩
  have h1 := h.addr a
  have h2 := g.addr a
  have h3 := h.le
  have h4 := g.le
  split at h1 <;> split at h2 <;> split <;> omega

theorem Moves.wf {l l' : LList} {b b' : Nat} (h : Moves l b l' b') (w : WFL l b) : WFL l' b' := by
  intro a
  have h1 := h.addr a
  have h2 := w a
  have h3 := h.le
  split at h1 <;> split at h2 <;> split <;> omega

theorem Moves.map {l : LList} {f : Nat × LItem → Nat × LItem} (h : ∀ x, Fades x.2 (f x).2 ∧ (f x).1 = x.1) (b : Nat) : Moves l b (l.map f) b :=
  Moves.of_ages (Ages.map h) (fun a => Nat.le_of_eq (cnt_map (fun x => (h x).2) l a)) b

theorem Moves.set {l : LList} {a : Nat} {f : LItem → LItem} (h : ∀ i, Fades i (f i)) (b : Nat) : Moves l b (l.set a f) b :=
  Moves.of_ages (Ages.set h) (fun c => Nat.le_of_eq (cnt_set l a f c)) b

theorem Moves.drops (l : LList) (k b : Nat) : Moves l b (l.drop k) b := by
  refine Moves.of_ages (Ages.drops l k) (fun a => ?_) b
  conv => rhs; rw [← List.take_append_drop k l, cnt_append]
  omega

theorem WFL.unique {l : LList} {b : Nat} (w : WFL l b) {x y : Nat × LItem} (hx : x ∈ l) (hy : y ∈ l) (e : x.1 = y.1) : x = y := by
  have hw : ∀ a, cnt l a ≤ 1 := fun a => Nat.le_trans (w a) (by split <;> omega)
  clear w
  induction l with
  | nil => cases hx
  | cons z l ih =>
    have hz : ∀ y ∈ l, y.1 ≠ z.1 := by
      intro y hy e
      have := hw z.1
      rw [cnt_cons, if_pos rfl] at this
      have h0 : 0 < cnt l z.1 := by
        unfold cnt
        exact List.count_pos_iff.2 (e ▸ List.mem_map_of_mem (f := Prod.fst) hy)
      omega
    rcases List.mem_cons.1 hx with rfl | hx
    · rcases List.mem_cons.1 hy with rfl | hy
      · rfl
      · exact absurd e.symm (hz y hy)
    · rcases List.mem_cons.1 hy with e' | hy
      · exact absurd (e' ▸ e) (hz x hx)
      · exact ih hx hy fun a => by have := hw a; rw [cnt_cons] at this; omega

theorem WFL.lt {l : LList} {b : Nat} (w : WFL l b) {x : Nat × LItem} (hx : x ∈ l) : x.1 < b := by
  have h := w x.1
  have h0 : 0 < cnt l x.1 := by
    unfold cnt
    exact List.count_pos_iff.2 (List.mem_map_of_mem (f := Prod.fst) hx)
  split at h <;> omega

theorem WFL.tail {x : Nat × LItem} {l : LList} {b : Nat} (w : WFL (x :: l) b) : WFL l b := by
  intro a
  have := w a
  rw [cnt_cons] at this
  omega

/-! ### The functions of a validation -/

theorem missing_new {b k : Nat} : ∀ y ∈ (List.range' b k).map fun a => (a, LItem.missing), y.2.nalu = none ∧ y.2.used = false := by
  intro y hy
  obtain ⟨a, -, rfl⟩ := List.mem_map.1 hy
  exact ⟨rfl, rfl⟩

theorem addMissing_moves (s : Legacy) (n : Int) (app : Bool) (item : Nat) (w : WFL s.list s.brk) :
    Moves s.list s.brk (s.addMissing n app item).list (s.addMissing n app item).brk := by
  unfold addMissing
  split
  · exact Moves.refl _ _
  · dsimp only
    generalize n.toNat = n
    generalize hb : s.brk = b at w
    have hw : ∀ a, cnt s.list a ≤ 1 := fun a => Nat.le_trans (w a) (by split <;> omega)
    clear w
    generalize s.list = l at hw
    unfold insertMissing
    dsimp only
    generalize hnew : (List.range' b n).map (fun a => (a, LItem.missing)) = new
    have hn : ∀ y ∈ new, y.2.nalu = none ∧ y.2.used = false := by rw [← hnew]; exact missing_new
    have hc : ∀ a, cnt new a = if b ≤ a ∧ a < b + n then 1 else 0 := by rw [← hnew]; intro a; exact cnt_range b n a _
    have hr : ∀ a, cnt new.reverse a = cnt new a := by
      intro a; unfold cnt; rw [List.map_reverse, List.count_reverse]
    refine ⟨?_, by omega, fun a => ?_⟩
    · clear hw
      induction l with
      | nil => exact .nil
      | cons x l ih =>
        rw [List.flatMap_cons]
        by_cases hx : x.1 = item
        · rw [if_pos hx]
          cases app
          · rw [if_neg (by simp), List.append_assoc]
            exact Ages.news hn (.keep (Fades.refl _) rfl ih)
          · rw [if_pos rfl]
            exact .keep (Fades.refl _) rfl (Ages.news (fun y hy => hn y (List.mem_reverse.1 hy)) ih)
        · rw [if_neg hx]
          exact .keep (Fades.refl _) rfl ih
    · rw [← hc a]
      have hle : cnt (l.flatMap fun x => if x.1 = item then (if app then x :: new.reverse else new ++ [x]) else [x]) a = cnt l a + cnt l item * cnt new a := by
        clear hw
        induction l with
        | nil => simp [cnt]
        | cons x l ih =>
          rw [List.flatMap_cons, cnt_append, ih, cnt_cons, cnt_cons]
          by_cases hx : x.1 = item
          · rw [if_pos hx, if_pos hx, Nat.add_mul, Nat.one_mul]
            cases app
            · rw [if_neg (by simp), cnt_append, cnt_cons]
              simp only [cnt, List.map_nil, List.count_nil]; omega
            · rw [if_pos rfl, cnt_cons, hr]; omega
          · rw [if_neg hx, if_neg hx, cnt_cons, Nat.add_zero]
            simp only [cnt, List.map_nil, List.count_nil]; omega
      rw [hle]
      have h1 := hw item
      have : cnt l item * cnt new a ≤ 1 * cnt new a := Nat.mul_le_mul_right _ h1
      omega

theorem markLoop_moves {l : LList} {p : LList × Nat × Bool} (h : markLoop l = .ok p) (b : Nat) : Moves l b p.1 b := by
  suffices h : Ages l p.1 ∧ ∀ a, cnt p.1 a = cnt l a from Moves.of_ages h.1 (fun a => Nat.le_of_eq (h.2 a)) b
  induction l generalizing p with
  | nil => cases h; exact ⟨.nil, fun _ => rfl⟩
  | cons x r ih =>
    unfold markLoop at h
    split at h
    · obtain ⟨q, h1, h2⟩ := Out.bind_eq_ok h
      cases h2
      have := ih h1
      exact ⟨.keep (Fades.refl _) rfl this.1, fun a => by rw [cnt_cons, cnt_cons, this.2]⟩
    · split at h
      · cases h
      · split at h
        · cases h
          exact ⟨.keep ⟨rfl, rfl, rfl, id, id⟩ rfl (Ages.refl _), fun a => by rw [cnt_cons, cnt_cons]⟩
        · obtain ⟨q, h1, h2⟩ := Out.bind_eq_ok h
          cases h2
          have := ih h1
          exact ⟨.keep ⟨rfl, rfl, rfl, nofun, id⟩ rfl this.1, fun a => by rw [cnt_cons, cnt_cons, this.2]⟩

theorem matched_fades (i : LItem) (f : Bool) (hp : i.status = .P) : Fades i (matched i f) := by
  unfold matched
  split
  · exact ⟨rfl, rfl, rfl, id, id⟩
  · exact ⟨rfl, rfl, rfl, fun _ => hp, id⟩

theorem unmatched_fades (i : LItem) (hp : i.status = .P) : Fades i (unmatched i) := by
  unfold unmatched
  split
  · exact ⟨rfl, rfl, rfl, id, id⟩
  · exact ⟨rfl, rfl, rfl, fun _ => hp, id⟩

theorem Moves.cons {x y : Nat × LItem} {l l' : LList} {b b' : Nat} (hf : Fades x.2 y.2) (he : y.1 = x.1) (h : Moves l b l' b') :
    Moves (x :: l) b (y :: l') b' :=
  ⟨.keep hf he h.ages, h.le, fun a => by have := h.addr a; rw [cnt_cons, cnt_cons, he]; omega⟩

theorem Moves.range {l l' : LList} {b b' k : Nat} (h : Moves l (b + k) l' b') :
    Moves l b ((List.range' b k).map (fun a => (a, LItem.missing)) ++ l') b' := by
  refine ⟨Ages.news missing_new h.ages, by have := h.le; omega, fun a => ?_⟩
  rw [cnt_append, cnt_range]
  have h1 := h.addr a
  have h2 := h.le
  split at h1 <;> split <;> split <;> omega

theorem hashListLoop_moves {hs : Nat} {hashes : List Bytes} {sei : Nat} {l : LList} {prev : Option Nat} {m : Match} {p : LList × Match}
    (h : hashListLoop hs hashes sei l prev m = .ok p) : Moves l m.brk p.1 p.2.brk := by
  induction l generalizing prev m p with
  | nil => cases h; exact Moves.refl _ _
  | cons x r ih =>
    unfold hashListLoop at h
    split at h
    · obtain ⟨q, h1, h2⟩ := Out.bind_eq_ok h
      cases h2
      exact Moves.cons (Fades.refl _) rfl (ih h1)
    · rename_i hp
      have hp : x.2.status = .P := Decidable.not_not.1 hp
      split at h
      · cases h
      · rename_i n _
        dsimp only at h
        split at h
        · split at h
          · cases h; exact Moves.refl _ _
          · obtain ⟨q, h1, h2⟩ := Out.bind_eq_ok h
            cases h2
            exact Moves.cons (Fades.refl _) rfl (ih h1)
        · split at h
          · cases h
          · rename_i g _
            generalize hi : Validator.searchFrom (buf hs g) hashes (m.latest + 1).toNat = i at h
            have hf : Fades x.2 (if decide (i < hashes.length) = true then matched x.2 n.firstInGop else unmatched x.2) := by
              split
              · exact matched_fades _ _ hp
              · exact unmatched_fades _ hp
            split at h
            · cases h
              exact Moves.range (Moves.cons hf rfl (Moves.refl _ _))
            · obtain ⟨q, h1, h2⟩ := Out.bind_eq_ok h
              cases h2
              exact Moves.range (Moves.cons hf rfl (ih h1))

theorem hashListEnd_moves (s : Legacy) (m : Match) (n : Int) (sei : Nat) (w : WFL s.list s.brk) :
    Moves s.list s.brk (hashListEnd s m n sei).1.list (hashListEnd s m n sei).1.brk := by
  unfold hashListEnd
  dsimp only
  have h1 : Moves s.list s.brk (if m.latest = -1 then
      match s.list with
      | [] => s
      | f :: _ => s.addMissing (n - m.invalid) (f.2.second.isSome && !f.2.need) f.1
    else s).list (if m.latest = -1 then
      match s.list with
      | [] => s
      | f :: _ => s.addMissing (n - m.invalid) (f.2.second.isSome && !f.2.need) f.1
    else s).brk := by
    split
    · split
      · exact Moves.refl _ _
      · exact addMissing_moves s _ _ _ w
    · exact Moves.refl _ _
  generalize (if m.latest = -1 then
      match s.list with
      | [] => s
      | f :: _ => s.addMissing (n - m.invalid) (f.2.second.isSome && !f.2.need) f.1
    else s) = t at h1
  have ok : ∀ (u : Legacy), Moves u.list u.brk (u.list.set sei fun i => { i with status := .ok }) u.brk :=
    fun u => Moves.set (f := fun i => { i with status := .ok }) (fun i => ⟨rfl, rfl, rfl, nofun, id⟩) _
  split
  · exact h1.trans (ok t)
  · rename_i a _
    split
    · exact h1.trans ((Moves.set (a := a) (f := fun i => { i with bad := true, need := true }) (fun i => ⟨rfl, rfl, rfl, id, id⟩) _).trans
        (Moves.set (f := fun i => { i with status := .ok }) (fun i => ⟨rfl, rfl, rfl, nofun, id⟩) _))
    · exact h1.trans ((addMissing_moves t _ _ _ (h1.wf w)).trans (ok _))

theorem settle_fades (st : Status) (i : LItem) (h : st ≠ .P) : Fades i (settle st i) := by
  unfold settle
  split
  · exact ⟨rfl, rfl, rfl, id, id⟩
  · refine ⟨rfl, rfl, rfl, fun e => ?_, id⟩
    dsimp only at e
    split at e
    · cases e
    · exact absurd e h

theorem setStatus_moves (st : Status) (h : st ≠ .P) (l : LList) (b : Nat) : Moves l b (setStatus st l) b := by
  unfold setStatus
  refine Moves.map (f := fun x => (x.1, { (if x.2.used then settle st x.2 else x.2) with used := false })) (fun x => ⟨?_, rfl⟩) b
  dsimp only
  split
  · have := settle_fades st x.2 h
    exact ⟨this.nalu, this.decoded, this.hash, this.pend, nofun⟩
  · exact ⟨rfl, rfl, rfl, id, nofun⟩

theorem setStatus_clear (st : Status) (l : LList) : Clear (setStatus st l) := by
  intro x hx
  obtain ⟨y, -, rfl⟩ := List.mem_map.1 hx
  rfl

theorem clearUsed_moves (l : LList) (b : Nat) : Moves l b (clearUsed l) b :=
  Moves.map (f := fun x => (x.1, { x.2 with used := false })) (fun x => ⟨⟨rfl, rfl, rfl, id, nofun⟩, rfl⟩) b

theorem clearUsed_clear (l : LList) : Clear (clearUsed l) := by
  intro x hx
  obtain ⟨y, -, rfl⟩ := List.mem_map.1 hx
  rfl

theorem removeMissingFrom_moves (l : LList) (f p d : Bool) (b : Nat) : Moves l b (removeMissingFrom l f p d) b := by
  suffices h : Ages l (removeMissingFrom l f p d) ∧ ∀ a, cnt (removeMissingFrom l f p d) a ≤ cnt l a from Moves.of_ages h.1 h.2 b
  induction l generalizing f p d with
  | nil => exact ⟨.nil, fun _ => Nat.le_refl _⟩
  | cons x r ih =>
    unfold removeMissingFrom
    split
    · exact ⟨Ages.refl _, fun _ => Nat.le_refl _⟩
    · dsimp only
      split
      · exact ⟨.drop (ih _ _ _).1, fun a => by rw [cnt_cons]; have := (ih true p d).2 a; omega⟩
      · refine ⟨.keep ?_ rfl (ih _ _ _).1, fun a => by rw [cnt_cons, cnt_cons]; exact Nat.add_le_add_right ((ih _ _ _).2 a) _⟩
        dsimp only
        split
        · exact ⟨rfl, rfl, rfl, nofun, id⟩
        · exact ⟨rfl, rfl, rfl, id, id⟩

theorem renew_moves (l : LList) (b : Nat) : Moves l b (renew l) b := by
  suffices h : Ages l (renew l) ∧ ∀ a, cnt (renew l) a ≤ cnt l a from Moves.of_ages h.1 h.2 b
  induction l with
  | nil => exact ⟨.nil, fun _ => Nat.le_refl _⟩
  | cons x r ih =>
    unfold renew
    split
    · exact ⟨.keep ⟨rfl, rfl, rfl, id, id⟩ rfl (Ages.refl _), fun a => by rw [cnt_cons, cnt_cons]; exact Nat.le_refl _⟩
    · exact ⟨.keep (Fades.refl _) rfl ih.1, fun a => by rw [cnt_cons, cnt_cons]; exact Nat.add_le_add_right (ih.2 a) _⟩

end Legacy
end SV
