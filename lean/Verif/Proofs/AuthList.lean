import Verif.Proofs.AuthFrame
/-! How the list of NAL units evolves during validation: items are kept in order, a pending item may get a status, and
missing items are inserted. -/
namespace SV

/-- What validation may do to an item: a pending one may get one of the statuses `S`, which may depend on the NAL unit. -/
structure Keeps (S : Option Nalu → Status → Prop) (x y : Item) : Prop where
  nalu : y.nalu = x.nalu
  hash : y.hash = x.hash
  second : y.second = x.second
  decoded : x.decoded = true → y.decoded = true
  status : y.status = x.status ∨ (x.status = .P ∧ S x.nalu y.status)

/-- An item that stands for a missing NAL unit. -/
def IsMissing (y : Item) : Prop := y.nalu = none ∧ y.status = .M

/-- Items kept in order, and missing ones inserted. -/
inductive Grow (S : Option Nalu → Status → Prop) : NList → NList → Prop
  | nil : Grow S [] []
  | keep {a : Nat} {x y : Item} {l l' : NList} : Keeps S x y → Grow S l l' → Grow S ((a, x) :: l) ((a, y) :: l')
  | miss {a : Nat} {y : Item} {l l' : NList} : IsMissing y → Grow S l l' → Grow S l ((a, y) :: l')

theorem Keeps.refl (S : Option Nalu → Status → Prop) (x : Item) : Keeps S x x := ⟨rfl, rfl, rfl, id, .inl rfl⟩

theorem Keeps.trans {S : Option Nalu → Status → Prop} {x y z : Item} (h : Keeps S x y) (g : Keeps S y z) : Keeps S x z := by
  refine ⟨g.nalu.trans h.nalu, g.hash.trans h.hash, g.second.trans h.second, g.decoded ∘ h.decoded, ?_⟩
  rcases g.status with e | ⟨e, s⟩
  · rcases h.status with e' | ⟨e', s'⟩
    · exact .inl (e.trans e')
    · exact .inr ⟨e', e ▸ s'⟩
  · rw [h.nalu] at s
    rcases h.status with e' | ⟨e', s'⟩
    · exact .inr ⟨e' ▸ e, s⟩
    · exact .inr ⟨e', s⟩

theorem Keeps.mono {S T : Option Nalu → Status → Prop} (hst : ∀ n s, S n s → T n s) {x y : Item} (h : Keeps S x y) : Keeps T x y :=
  ⟨h.nalu, h.hash, h.second, h.decoded, h.status.imp id fun ⟨a, b⟩ => ⟨a, hst _ _ b⟩⟩

theorem Keeps.missing {S : Option Nalu → Status → Prop} {x y : Item} (h : Keeps S x y) (hx : IsMissing x) : IsMissing y := by
  refine ⟨h.nalu.trans hx.1, ?_⟩
  rcases h.status with e | ⟨e, -⟩
  · exact e.trans hx.2
  · rw [hx.2] at e; cases e

theorem Grow.refl (S : Option Nalu → Status → Prop) (l : NList) : Grow S l l := by
  induction l with
  | nil => exact .nil
  | cons x l ih => exact .keep (Keeps.refl S _) ih

theorem Grow.mono {S T : Option Nalu → Status → Prop} (hst : ∀ n s, S n s → T n s) {l l' : NList} (h : Grow S l l') : Grow T l l' := by
  induction h with
  | nil => exact .nil
  | keep k _ ih => exact .keep (k.mono hst) ih
  | miss m _ ih => exact .miss m ih

theorem Grow.trans {S : Option Nalu → Status → Prop} {l l' l'' : NList} (h : Grow S l l') (g : Grow S l' l'') : Grow S l l'' := by
  induction g generalizing l with
  | nil => exact h
  | keep k g ih =>
    cases h with
    | keep k' h' => exact .keep (k'.trans k) (ih h')
    | miss m h' => exact .miss (k.missing m) (ih h')
  | miss m _ ih => exact .miss m (ih h)

theorem Grow.append {S : Option Nalu → Status → Prop} {l l' m m' : NList} (h : Grow S l l') (g : Grow S m m') : Grow S (l ++ m) (l' ++ m') := by
  induction h with
  | nil => exact g
  | keep k _ ih => exact .keep k ih
  | miss m _ ih => exact .miss m ih

theorem Grow.map {S : Option Nalu → Status → Prop} {l : NList} {f : Nat × Item → Nat × Item} (h : ∀ x ∈ l, (f x).1 = x.1 ∧ Keeps S x.2 (f x).2) :
    Grow S l (l.map f) := by
  induction l with
  | nil => exact .nil
  | cons x l ih =>
    have hx := h x (by simp)
    have : f x = (x.1, (f x).2) := Prod.ext hx.1 rfl
    rw [List.map_cons, this]
    exact .keep hx.2 (ih fun y hy => h y (by simp [hy]))

theorem Grow.set {S : Option Nalu → Status → Prop} {l : NList} {a : Nat} {f : Item → Item} (h : ∀ x ∈ l, x.1 = a → Keeps S x.2 (f x.2)) :
    Grow S l (l.set a f) := by
  refine Grow.map fun x hx => ?_
  split
  · rename_i e; exact ⟨rfl, h x hx e⟩
  · exact ⟨rfl, Keeps.refl S _⟩

theorem Grow.missing {S : Option Nalu → Status → Prop} (new : NList) (h : ∀ x ∈ new, IsMissing x.2) : Grow S [] new := by
  induction new with
  | nil => exact .nil
  | cons x l ih =>
    exact .miss (h x (by simp)) (ih fun y hy => h y (by simp [hy]))

/-- An item of the grown list is a missing one or stems from an item of the original list. -/
theorem Grow.mem {S : Option Nalu → Status → Prop} {l l' : NList} (h : Grow S l l') {y : Nat × Item} (hy : y ∈ l') :
    IsMissing y.2 ∨ ∃ x ∈ l, x.1 = y.1 ∧ Keeps S x.2 y.2 := by
  induction h with
  | nil => cases hy
  | keep k _ ih =>
    rcases List.mem_cons.1 hy with rfl | hy
    · exact .inr ⟨_, List.mem_cons_self, rfl, k⟩
    · rcases ih hy with m | ⟨x, hx, h1, h2⟩
      · exact .inl m
      · exact .inr ⟨x, List.mem_cons_of_mem _ hx, h1, h2⟩
  | miss m _ ih =>
    rcases List.mem_cons.1 hy with rfl | hy
    · exact .inl m
    · exact ih hy

/-- Every item of the original list has its counterpart in the grown list. -/
theorem Grow.mem' {S : Option Nalu → Status → Prop} {l l' : NList} (h : Grow S l l') {x : Nat × Item} (hx : x ∈ l) :
    ∃ y ∈ l', y.1 = x.1 ∧ Keeps S x.2 y.2 := by
  induction h with
  | nil => cases hx
  | keep k _ ih =>
    rcases List.mem_cons.1 hx with rfl | hx
    · exact ⟨_, List.mem_cons_self, rfl, k⟩
    · obtain ⟨y, hy, h1, h2⟩ := ih hx
      exact ⟨y, List.mem_cons_of_mem _ hy, h1, h2⟩
  | miss m _ ih =>
    obtain ⟨y, hy, h1, h2⟩ := ih hx
    exact ⟨y, List.mem_cons_of_mem _ hy, h1, h2⟩

/-! ### Addresses -/

/-- The list grows, and the inserted items take addresses from `b` to `b'`. -/
structure Evolves (S : Option Nalu → Status → Prop) (l : NList) (b : Nat) (l' : NList) (b' : Nat) : Prop where
  grow : Grow S l l'
  le : b ≤ b'
  perm : ∃ ns : List Nat, ns.Nodup ∧ (∀ a ∈ ns, b ≤ a ∧ a < b') ∧ (l'.map Prod.fst).Perm (l.map Prod.fst ++ ns)

/-- Addresses are unique, and the next address is not in use. -/
structure WF (l : NList) (b : Nat) : Prop where
  nodup : (l.map Prod.fst).Nodup
  lt : ∀ x ∈ l, x.1 < b

theorem Evolves.refl (S : Option Nalu → Status → Prop) (l : NList) (b : Nat) : Evolves S l b l b :=
  ⟨Grow.refl S l, Nat.le_refl b, [], List.nodup_nil, by simp, by simp⟩

theorem Evolves.mono {S T : Option Nalu → Status → Prop} (hst : ∀ n s, S n s → T n s) {l l' : NList} {b b' : Nat}
    (h : Evolves S l b l' b') : Evolves T l b l' b' := ⟨h.grow.mono hst, h.le, h.perm⟩

theorem Evolves.trans {S : Option Nalu → Status → Prop} {l l' l'' : NList} {b b' b'' : Nat} (h : Evolves S l b l' b')
    (g : Evolves S l' b' l'' b'') : Evolves S l b l'' b'' := by
  refine ⟨h.grow.trans g.grow, Nat.le_trans h.le g.le, ?_⟩
  obtain ⟨ns, n1, n2, n3⟩ := h.perm
  obtain ⟨ms, m1, m2, m3⟩ := g.perm
  have h1 := h.le
  have h2 := g.le
  refine ⟨ns ++ ms, ?_, ?_, ?_⟩
  · rw [List.nodup_append]
    refine ⟨n1, m1, ?_⟩
    intro a ha c hc
    have := n2 a ha
    have := m2 c hc
    omega
  · intro a ha
    rcases List.mem_append.1 ha with ha | ha
    · have := n2 a ha; omega
    · have := m2 a ha; omega
  · rw [← List.append_assoc]
    exact m3.trans (n3.append_right _)

/-- Same addresses. -/
theorem Evolves.same {S : Option Nalu → Status → Prop} {l l' : NList} (b : Nat) (h : Grow S l l')
    (e : l'.map Prod.fst = l.map Prod.fst) : Evolves S l b l' b :=
  ⟨h, Nat.le_refl b, [], List.nodup_nil, by simp, by simp [e]⟩

theorem Evolves.wf {S : Option Nalu → Status → Prop} {l l' : NList} {b b' : Nat} (h : Evolves S l b l' b') (w : WF l b) :
    WF l' b' := by
  have hl := h.le
  obtain ⟨ns, n1, n2, n3⟩ := h.perm
  constructor
  · rw [n3.nodup_iff, List.nodup_append]
    refine ⟨w.nodup, n1, ?_⟩
    intro a ha c hc
    obtain ⟨x, hx, rfl⟩ := List.mem_map.1 ha
    have h1 := w.lt x hx
    have := n2 c hc
    omega
  · intro x hx
    have := n3.mem_iff.1 (List.mem_map_of_mem (f := Prod.fst) hx)
    rcases List.mem_append.1 this with h1 | h1
    · obtain ⟨y, hy, e⟩ := List.mem_map.1 h1
      have := w.lt y hy
      omega
    · exact (n2 _ h1).2

theorem WF.unique {l : NList} {b : Nat} (w : WF l b) {x y : Nat × Item} (hx : x ∈ l) (hy : y ∈ l) (e : x.1 = y.1) : x = y := by
  have hn := w.nodup
  clear w
  induction l with
  | nil => cases hx
  | cons z l ih =>
    rw [List.map_cons, List.nodup_cons] at hn
    rcases List.mem_cons.1 hx with ex | hx' <;> rcases List.mem_cons.1 hy with ey | hy'
    · exact ex.trans ey.symm
    · exact absurd (List.mem_map.2 ⟨y, hy', by rw [← e, ex]⟩) hn.1
    · exact absurd (List.mem_map.2 ⟨x, hx', by rw [e, ey]⟩) hn.1
    · exact ih hx' hy' hn.2

theorem set_addr (l : NList) (a : Nat) (f : Item → Item) : (l.set a f).map Prod.fst = l.map Prod.fst := by
  unfold NList.set
  rw [List.map_map]
  refine List.map_congr_left fun x _ => ?_
  show (if x.1 = a then (x.1, f x.2) else x).1 = x.1
  split <;> rfl

theorem Evolves.set {S : Option Nalu → Status → Prop} {l : NList} (b : Nat) {a : Nat} {f : Item → Item}
    (h : ∀ x ∈ l, x.1 = a → Keeps S x.2 (f x.2)) : Evolves S l b (l.set a f) b :=
  Evolves.same b (Grow.set h) (set_addr l a f)

theorem clearUsed_evolves (S : Option Nalu → Status → Prop) (l : NList) (b : Nat) : Evolves S l b (Validator.clearUsed l) b := by
  refine Evolves.same b (Grow.map fun x _ => ⟨rfl, rfl, rfl, rfl, id, .inl rfl⟩) ?_
  unfold Validator.clearUsed
  rw [List.map_map]; rfl

/-! ### Functions on the list -/

namespace Validator

theorem gopLoop_grow (S : Option Nalu → Status → Prop) (hs sei : Nat) {l l' : NList} {numI num : Nat} {acc acc' : Bytes}
    (h : gopLoop hs sei l numI num acc = .ok (l', acc')) : Grow S l l' ∧ l'.map Prod.fst = l.map Prod.fst := by
  induction l generalizing l' numI num acc with
  | nil => cases h; exact ⟨.nil, rfl⟩
  | cons x r ih =>
    have self : Grow S (x :: r) (x :: r) ∧ (x :: r).map Prod.fst = (x :: r).map Prod.fst := ⟨Grow.refl S _, rfl⟩
    unfold gopLoop at h
    split at h
    · cases hr : gopLoop hs sei r numI num acc with
      | err e => rw [hr] at h; cases h
      | ub u => rw [hr] at h; cases h
      | ok p =>
        rw [hr] at h
        cases h
        have := ih hr
        exact ⟨.keep (Keeps.refl S _) this.1, by simp [this.2]⟩
    · split at h
      · cases h
      · rename_i n _
        dsimp only at h
        generalize numI + (if n.firstInGop = true then 1 else 0) = numI' at h
        generalize (if n.firstInGop = true then x.2.second else some x.2.hash) = hh at h
        split at h
        · cases h; exact self
        · split at h
          · cases h
          · split at h
            · cases h
            · split at h
              · cases h
              · generalize hr : gopLoop hs sei r _ _ _ = t at h
                cases t with
                | err e => cases h
                | ub u => cases h
                | ok p =>
                  cases h
                  have := ih hr
                  exact ⟨.keep ⟨rfl, rfl, rfl, id, .inl rfl⟩ this.1, by simp [this.2]⟩

/-- The status given by `verify_hashes_without_sei`: N to an item that is not a SEI. -/
def PlainN (n : Option Nalu) (st : Status) : Prop := (∀ m, n = some m → m.gopSei = false) ∧ st = .N

theorem markLoop_grow {l l' : NList} {k : Nat} {f : Bool} (h : markLoop l = .ok (l', k, f)) :
    Grow PlainN l l' ∧ l'.map Prod.fst = l.map Prod.fst := by
  induction l generalizing l' k f with
  | nil => unfold markLoop at h; cases h; exact ⟨.nil, rfl⟩
  | cons x r ih =>
    unfold markLoop at h
    split at h
    · cases hr : markLoop r with
      | err e => rw [hr] at h; cases h
      | ub u => rw [hr] at h; cases h
      | ok p =>
        rw [hr] at h
        cases h
        have := ih hr
        exact ⟨.keep (Keeps.refl _ _) this.1, by simp [this.2]⟩
    · rename_i hp
      have hp : x.2.status = .P := Decidable.not_not.1 hp
      split at h
      · cases h
      · rename_i n hn
        split at h
        · cases h; exact ⟨Grow.refl _ _, rfl⟩
        · rename_i hg
          have hk : Keeps PlainN x.2 { x.2 with status := .N } := by
            refine ⟨rfl, rfl, rfl, id, .inr ⟨hp, fun m hm => ?_, rfl⟩⟩
            rw [hn] at hm; cases hm
            exact Bool.eq_false_iff.2 hg
          dsimp only at h
          split at h
          · cases h; exact ⟨.keep hk .nil, rfl⟩
          · split at h
            · cases h
            · split at h
              · cases h; exact ⟨.keep hk (Grow.refl _ _), rfl⟩
              · generalize hr : markLoop _ = t at h
                cases t with
                | err e => cases h
                | ub u => cases h
                | ok p =>
                  cases h
                  have := ih hr
                  exact ⟨.keep hk this.1, by simp [this.2]⟩

theorem setStatusLoop_grow (st : Status) {l l' : NList} {k : Nat} (h : setStatusLoop st l = .ok (l', k)) :
    Grow (fun _ s => s = st) l l' ∧ l'.map Prod.fst = l.map Prod.fst := by
  induction l generalizing l' k with
  | nil => unfold setStatusLoop at h; cases h; exact ⟨.nil, rfl⟩
  | cons x r ih =>
    unfold setStatusLoop at h
    split at h
    · rename_i hc
      simp only [Bool.and_eq_true, decide_eq_true_eq] at hc
      split at h
      · cases h
      · cases hr : setStatusLoop st r with
        | err e => rw [hr] at h; cases h
        | ub u => rw [hr] at h; cases h
        | ok p =>
          rw [hr] at h
          cases h
          have := ih hr
          exact ⟨.keep ⟨rfl, rfl, rfl, id, .inr ⟨hc.2, rfl⟩⟩ this.1, by simp [this.2]⟩
    · cases hr : setStatusLoop st r with
      | err e => rw [hr] at h; cases h
      | ub u => rw [hr] at h; cases h
      | ok p =>
        rw [hr] at h
        cases h
        have := ih hr
        exact ⟨.keep (Keeps.refl _ _) this.1, by simp [this.2]⟩

theorem missing_isMissing : IsMissing missingItem := ⟨rfl, rfl⟩

theorem insertMissing_grow (S : Option Nalu → Status → Prop) (l : NList) (brk n : Nat) (app : Bool) (item : Nat) :
    Grow S l (insertMissing l missingItem brk n app item) := by
  unfold insertMissing
  generalize hnew : (List.range' brk n).map (fun a => (a, missingItem)) = new
  have hm : ∀ x ∈ new, IsMissing x.2 := by
    intro x hx
    rw [← hnew] at hx
    obtain ⟨a, -, rfl⟩ := List.mem_map.1 hx
    exact missing_isMissing
  dsimp only
  induction l with
  | nil => exact .nil
  | cons x l ih =>
    rw [List.flatMap_cons]
    by_cases hx : x.1 = item
    · rw [if_pos hx]
      by_cases ha : app = true
      · have h0 : Grow S l ((x :: new.reverse).tail ++ _) :=
          Grow.append (l := []) (Grow.missing _ fun y hy => hm y (List.mem_reverse.1 hy)) ih
        rw [if_pos ha, List.cons_append]
        exact .keep (Keeps.refl S _) h0
      · rw [if_neg ha]
        exact Grow.append (l := [x]) (Grow.append (l := []) (Grow.missing _ hm) (Grow.refl S [x])) ih
    · rw [if_neg hx]
      exact .keep (Keeps.refl S _) ih

theorem flatMap_none {l : NList} {item : Nat} (f : Nat × Item → NList) (h : ∀ x ∈ l, x.1 ≠ item) :
    l.flatMap (fun x => if x.1 = item then f x else [x]) = l := by
  induction l with
  | nil => rfl
  | cons x l ih =>
    rw [List.flatMap_cons, if_neg (h x (by simp)), ih fun y hy => h y (by simp [hy])]; rfl

theorem insertMissing_perm {l : NList} {brk : Nat} (n : Nat) (app : Bool) {item : Nat} (w : WF l brk) (hi : ∃ x ∈ l, x.1 = item) :
    ((insertMissing l missingItem brk n app item).map Prod.fst).Perm (l.map Prod.fst ++ List.range' brk n) := by
  unfold insertMissing
  generalize hnew : (List.range' brk n).map (fun a => (a, missingItem)) = new
  have hf : new.map Prod.fst = List.range' brk n := by
    rw [← hnew, List.map_map]
    exact List.map_id _
  dsimp only
  have hn := w.nodup
  clear w
  induction l with
  | nil => obtain ⟨x, hx, -⟩ := hi; cases hx
  | cons x l ih =>
    rw [List.map_cons, List.nodup_cons] at hn
    rw [List.flatMap_cons]
    by_cases hx : x.1 = item
    · rw [if_pos hx, flatMap_none (f := fun x => if app then x :: new.reverse else new ++ [x])]
      · cases app
        · simp only [Bool.false_eq_true, if_false, List.map_append, List.map_cons, hf, List.append_assoc,
            List.cons_append, List.nil_append]
          exact List.perm_append_comm
        · simp only [if_true, List.map_append, List.map_cons, List.map_reverse, hf, List.cons_append]
          refine List.Perm.cons _ (List.perm_append_comm.trans ?_)
          exact List.Perm.append_left _ (List.reverse_perm _)
      · intro y hy e
        exact hn.1 (hx ▸ e ▸ List.mem_map_of_mem (f := Prod.fst) hy)
    · rw [if_neg hx]
      obtain ⟨y, hy, e⟩ := hi
      rcases List.mem_cons.1 hy with rfl | hy
      · exact absurd e hx
      · exact List.Perm.cons _ (ih ⟨y, hy, e⟩ hn.2)

theorem addMissing_evolves (S : Option Nalu → Status → Prop) (s : Validator) (n : Int) (app : Bool) (item : Nat)
    (w : WF s.list s.brk) : Evolves S s.list s.brk (s.addMissing n app item).list (s.addMissing n app item).brk := by
  unfold addMissing
  split
  · exact Evolves.refl S _ _
  · by_cases hi : ∃ x ∈ s.list, x.1 = item
    · refine ⟨insertMissing_grow S _ _ _ _ _, by simp, List.range' s.brk n.toNat, List.nodup_range', ?_, insertMissing_perm n.toNat app w hi⟩
      intro a ha
      rw [List.mem_range'_1] at ha
      exact ha
    · refine ⟨insertMissing_grow S _ _ _ _ _, by simp, [], List.nodup_nil, by simp, ?_⟩
      show ((insertMissing s.list missingItem s.brk n.toNat app item).map Prod.fst).Perm _
      unfold insertMissing
      rw [flatMap_none]
      · simp
      · intro x hx e; exact hi ⟨x, hx, e⟩

/-- The statuses given by the loop of `verify_hashes_with_hash_list`: ok or N to an item that is not a SEI. -/
def OkOrN (n : Option Nalu) (st : Status) : Prop := (∀ m, n = some m → m.gopSei = false) ∧ (st = .ok ∨ st = .N)

theorem hashListLoop_evolves (hs : Nat) (hashes : List Bytes) (sei : Nat) {l l' : NList} {prev : Option Nat} {m m' : Match}
    (h : hashListLoop hs hashes sei l prev m = .ok (l', m')) :
    Evolves OkOrN l m.brk l' m'.brk := by
  induction l generalizing l' prev m m' with
  | nil => cases h; exact Evolves.refl _ _ _
  | cons x r ih =>
    unfold hashListLoop at h
    split at h
    · cases hr : hashListLoop hs hashes sei r (some x.1) m with
      | err e => rw [hr] at h; cases h
      | ub u => rw [hr] at h; cases h
      | ok p =>
        rw [hr] at h
        cases h
        have e := ih hr
        obtain ⟨ns, n1, n2, n3⟩ := e.perm
        exact ⟨.keep (Keeps.refl _ _) e.grow, e.le, ns, n1, n2, List.Perm.cons _ n3⟩
    · rename_i hc
      have hp : x.2.status = .P := Decidable.not_not.1 fun hp => hc (.inl hp)
      split at h
      · cases h
      · rename_i n hn
        dsimp only at h
        split at h
        · cases h; exact Evolves.refl _ _ _
        · rename_i hg
          have hg : ∀ m, x.2.nalu = some m → m.gopSei = false := by
            intro m hm
            rw [hn] at hm; cases hm
            cases hgs : n.gopSei
            · rfl
            · rw [hgs] at hg; exact absurd rfl hg
          split at h
          · cases h
          · rename_i hh _
            generalize hi : searchFrom (buf hs hh) hashes (m.latest + 1).toNat = i at h
            generalize hk : (if i < hashes.length then ((i : Int) - m.latest - 1 - m.invalid).toNat else 0) = k at h
            have hkeep : Keeps OkOrN x.2 { x.2 with status := if i < hashes.length ∧ m.orderOk = true then Status.ok else Status.N } := by
              refine ⟨rfl, rfl, rfl, id, .inr ⟨hp, hg, ?_⟩⟩
              dsimp only
              split
              · exact .inl rfl
              · exact .inr rfl
            have hmiss : ∀ y ∈ (List.range' m.brk k).map (fun a => (a, missingItem)), IsMissing y.2 := by
              intro y hy
              obtain ⟨a, -, rfl⟩ := List.mem_map.1 hy
              exact missing_isMissing
            have haddr : ((List.range' m.brk k).map (fun a => (a, missingItem))).map Prod.fst = List.range' m.brk k := by
              rw [List.map_map]; exact List.map_id _
            generalize hm1 : (if i < hashes.length then
                { m with lastUsed := some x.1, count := m.count + 1, latest := i, compare := i, invalid := 0, orderOk := true, brk := m.brk + k }
              else { m with lastUsed := some x.1, count := m.count + 1, compare := i, invalid := m.invalid + 1 }) = m1 at h
            have hb : m1.brk = m.brk + k := by
              rw [← hm1]
              by_cases hf : i < hashes.length
              · rw [if_pos hf]
              · rw [if_neg hf, ← hk, if_neg hf]; rfl
            split at h
            · cases h
              refine ⟨Grow.append (Grow.missing _ hmiss) (.keep hkeep (Grow.refl _ _)), by omega, List.range' m.brk k,
                List.nodup_range', ?_, ?_⟩
              · intro a ha
                rw [List.mem_range'_1] at ha
                omega
              · rw [List.map_append, haddr]
                exact List.perm_append_comm
            · cases hr : hashListLoop hs hashes sei r (some x.1) m1 with
              | err e => rw [hr] at h; cases h
              | ub u => rw [hr] at h; cases h
              | ok p =>
                rw [hr] at h
                cases h
                have e := ih hr
                have hle := e.le
                obtain ⟨ns, n1, n2, n3⟩ := e.perm
                refine ⟨Grow.append (Grow.missing _ hmiss) (.keep hkeep e.grow), by omega, List.range' m.brk k ++ ns, ?_, ?_, ?_⟩
                · rw [List.nodup_append]
                  refine ⟨List.nodup_range', n1, ?_⟩
                  intro a ha c hc
                  rw [List.mem_range'_1] at ha
                  have := n2 c hc
                  omega
                · intro a ha
                  rcases List.mem_append.1 ha with ha | ha
                  · rw [List.mem_range'_1] at ha
                    omega
                  · have := n2 a ha
                    omega
                · rw [List.map_append, haddr, List.map_cons, List.map_cons]
                  refine List.perm_append_comm.trans ?_
                  rw [List.cons_append, List.cons_append]
                  refine List.Perm.cons _ ?_
                  refine (List.Perm.append_right _ n3).trans ?_
                  rw [List.append_assoc]
                  exact List.Perm.append_left _ List.perm_append_comm

end Validator
end SV
