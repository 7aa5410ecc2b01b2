import Verif.Model.Legacy
import Verif.Proofs.LegacyFrame
/-! How the status '.' comes into the list of a session for the older format. -/
namespace SV
namespace Legacy

/-- The items with the status '.' of `l'` have it in `l` already, or satisfy `Q` there. -/
def Dots (Q : Nat × LItem → Prop) (l l' : LList) : Prop :=
  ∀ y ∈ l', y.2.status = .ok → ∃ x ∈ l, x.1 = y.1 ∧ (x.2.status = .ok ∨ Q x)

/-- No item gets the status '.'. -/
abbrev Quiet (l l' : LList) : Prop := Dots (fun _ => False) l l'

theorem Dots.refl (Q : Nat × LItem → Prop) (l : LList) : Dots Q l l := fun y hy h => ⟨y, hy, rfl, .inl h⟩

theorem Dots.quiet {Q : Nat × LItem → Prop} {l m n : LList} (h : Dots Q l m) (g : Quiet m n) : Dots Q l n := by
  intro y hy hs
  obtain ⟨x, hx, e, hs' | f⟩ := g y hy hs
  · obtain ⟨z, hz, e', q⟩ := h x hx hs'
    exact ⟨z, hz, e'.trans e, q⟩
  · exact f.elim

theorem Quiet.trans {l m n : LList} (h : Quiet l m) (g : Quiet m n) : Quiet l n := Dots.quiet h g

theorem Quiet.dots {Q : Nat × LItem → Prop} {l m n : LList} (h : Quiet l m) (g : Dots Q m n)
    (hQ : ∀ x ∈ m, Q x → ∃ z ∈ l, z.1 = x.1 ∧ Q z) : Dots Q l n := by
  intro y hy hs
  obtain ⟨x, hx, e, hs' | q⟩ := g y hy hs
  · obtain ⟨z, hz, e', q | f⟩ := h x hx hs'
    · exact ⟨z, hz, e'.trans e, .inl q⟩
    · exact f.elim
  · obtain ⟨z, hz, e', q'⟩ := hQ x hx q
    exact ⟨z, hz, e'.trans e, .inr q'⟩

theorem Quiet.any {Q : Nat × LItem → Prop} {l m : LList} (h : Quiet l m) : Dots Q l m := by
  intro y hy hs
  obtain ⟨x, hx, e, q | f⟩ := h y hy hs
  · exact ⟨x, hx, e, .inl q⟩
  · exact f.elim

theorem Quiet.map {l : LList} {f : Nat × LItem → Nat × LItem} (h1 : ∀ x, (f x).1 = x.1)
    (h2 : ∀ x, (f x).2.status = .ok → x.2.status = .ok) : Quiet l (l.map f) := by
  intro y hy hs
  obtain ⟨x, hx, rfl⟩ := List.mem_map.mp hy
  exact ⟨x, hx, (h1 x).symm, .inl (h2 x hs)⟩

theorem Dots.map {Q : Nat × LItem → Prop} {l : LList} {f : Nat × LItem → Nat × LItem} (h1 : ∀ x, (f x).1 = x.1)
    (h2 : ∀ x ∈ l, (f x).2.status = .ok → x.2.status = .ok ∨ Q x) : Dots Q l (l.map f) := by
  intro y hy hs
  obtain ⟨x, hx, rfl⟩ := List.mem_map.mp hy
  exact ⟨x, hx, (h1 x).symm, h2 x hx hs⟩

theorem Quiet.set {l : LList} {a : Nat} {f : LItem → LItem} (h : ∀ i, (f i).status = .ok → i.status = .ok) :
    Quiet l (l.set a f) := by
  unfold LList.set
  refine Quiet.map (fun x => ?_) (fun x => ?_)
  · split <;> rfl
  · split
    · exact h x.2
    · exact id

theorem Quiet.of_subset {l l' : LList} (h : ∀ y ∈ l', y ∈ l) : Quiet l l' := fun y hy hs => ⟨y, h y hy, rfl, .inl hs⟩

/-- What is in a list with missing items added. -/
theorem mem_insertMissing {α : Type} {l : List (Nat × α)} {v : α} {brk n : Nat} {app : Bool} {item : Nat} {y : Nat × α}
    (h : y ∈ insertMissing l v brk n app item) : y ∈ l ∨ y.2 = v := by
  unfold insertMissing at h
  obtain ⟨x, hx, hy⟩ := List.mem_flatMap.mp h
  split at hy
  · split at hy
    · rcases List.mem_cons.mp hy with rfl | hy
      · exact .inl hx
      · obtain ⟨a, -, rfl⟩ := List.mem_map.mp (List.mem_reverse.mp hy); exact .inr rfl
    · rcases List.mem_append.mp hy with hy | hy
      · obtain ⟨a, -, rfl⟩ := List.mem_map.mp hy; exact .inr rfl
      · rw [List.mem_singleton.mp hy]; exact .inl hx
  · rw [List.mem_singleton.mp hy]; exact .inl hx

theorem addMissing_quiet (s : Legacy) (n : Int) (app : Bool) (item : Nat) : Quiet s.list (s.addMissing n app item).list := by
  unfold addMissing
  split
  · exact Dots.refl _ _
  · intro y hy hs
    rcases mem_insertMissing hy with h | h
    · exact ⟨y, h, rfl, .inl hs⟩
    · rw [h] at hs; cases hs

theorem removeMissingFrom_quiet (l : LList) (b p d : Bool) : Quiet l (removeMissingFrom l b p d) := by
  induction l generalizing b p d with
  | nil => exact Dots.refl _ _
  | cons x r ih =>
    have up : ∀ {m : LList}, Quiet r m → Quiet (x :: r) m := fun h y hy hs => by
      obtain ⟨z, hz, e⟩ := h y hy hs; exact ⟨z, .tail _ hz, e⟩
    unfold removeMissingFrom
    split
    · exact Dots.refl _ _
    · dsimp only
      split
      · exact up (ih _ _ _)
      · intro y hy hs
        rcases List.mem_cons.mp hy with rfl | hy
        · refine ⟨x, .head _, rfl, .inl ?_⟩
          revert hs
          dsimp only
          split
          · intro h; cases h
          · exact id
        · exact up (ih _ _ _) y hy hs

theorem removeMissing_quiet (l : LList) : Quiet l (removeMissing l) := removeMissingFrom_quiet l _ _ _

theorem clearUsed_quiet (l : LList) : Quiet l (clearUsed l) := Quiet.map (fun _ => rfl) (fun _ h => h)

theorem renew_quiet (l : LList) : Quiet l (renew l) := by
  induction l with
  | nil => exact Dots.refl _ _
  | cons x r ih =>
    unfold renew
    split
    · intro y hy hs
      rcases List.mem_cons.mp hy with rfl | hy
      · exact ⟨x, .head _, rfl, .inl hs⟩
      · exact ⟨y, .tail _ hy, rfl, .inl hs⟩
    · intro y hy hs
      rcases List.mem_cons.mp hy with rfl | hy
      · exact ⟨y, .head _, rfl, .inl hs⟩
      · obtain ⟨z, hz, e⟩ := ih y hy hs; exact ⟨z, .tail _ hz, e⟩

theorem Dots.cons {Q : Nat × LItem → Prop} {x x' : Nat × LItem} {l l' : LList} (h : Dots Q l l') (h1 : x'.1 = x.1)
    (h2 : x'.2.status = .ok → x.2.status = .ok ∨ Q x) : Dots Q (x :: l) (x' :: l') := by
  intro y hy hs
  rcases List.mem_cons.mp hy with rfl | hy
  · exact ⟨x, .head _, h1.symm, h2 hs⟩
  · obtain ⟨z, hz, e⟩ := h y hy hs; exact ⟨z, .tail _ hz, e⟩

theorem gopLoop_quiet {env : AuthEnv} {v : Validator} {sei : Nat} {l : LList} {prev : Option Nat} {b : Bytes} {p : LList × Bytes}
    (h : gopLoop env v sei l prev b = .ok p) : Quiet l p.1 := by
  induction l generalizing prev b p with
  | nil => unfold gopLoop at h; cases h; exact Dots.refl _ _
  | cons x r ih =>
    unfold gopLoop at h
    split at h
    · cases hr : gopLoop env v sei r (some x.1) b with
      | err e => rw [hr] at h; cases h
      | ub u => rw [hr] at h; cases h
      | ok q => rw [hr] at h; cases h; exact Dots.cons (ih hr) rfl .inl
    · split at h
      · cases h
      · dsimp only at h
        split at h
        · split at h
          · cases h; exact Dots.refl _ _
          · cases hr : gopLoop env v sei r (some x.1) b with
            | err e => rw [hr] at h; cases h
            | ub u => rw [hr] at h; cases h
            | ok q => rw [hr] at h; cases h; exact Dots.cons (ih hr) rfl .inl
        · split at h
          · cases h
          · rename_i h' _
            cases hg : gopStep env v b h' with
            | err e => rw [hg] at h; cases h
            | ub u => rw [hg] at h; cases h
            | ok g =>
              rw [hg] at h
              dsimp only [bind, Out.bind] at h
              split at h
              · cases h; exact Dots.cons (Dots.refl _ _) rfl .inl
              · generalize hr : gopLoop env v sei r (some x.1) g = t at h
                cases t with
                | err e => cases h
                | ub u => cases h
                | ok q => cases h; exact Dots.cons (ih hr) rfl .inl

theorem computeGop_quiet (env : AuthEnv) (s : Legacy) (sei : Nat × LItem) :
    (s.computeGop env sei).Ends fun t => Quiet s.list t.list := by
  unfold computeGop
  dsimp only
  split
  · trivial
  · exact clearUsed_quiet _
  · rename_i l b h
    cases h1 : resetGopHash env s.v s.hashes with
    | err e => rw [h1] at h; cases h
    | ub u => rw [h1] at h; cases h
    | ok b1 =>
      rw [h1] at h
      dsimp only [bind, Out.bind] at h
      cases h2 : gopLoop env s.v sei.1 s.list none b1 with
      | err e => rw [h2] at h; cases h
      | ub u => rw [h2] at h; cases h
      | ok q =>
        rw [h2] at h
        dsimp only [bind, Out.bind] at h
        cases h3 : gopStep env s.v q.2 sei.2.hash with
        | err e => rw [h3] at h; cases h
        | ub u => rw [h3] at h; cases h
        | ok b3 =>
          rw [h3] at h
          cases h
          exact (gopLoop_quiet h2).trans (Quiet.set (f := fun i => { i with used := true }) fun _ h => h)

/-! ### Verification -/

theorem markLoop_quiet {l : LList} {p : LList × Nat × Bool} (h : markLoop l = .ok p) : Quiet l p.1 := by
  induction l generalizing p with
  | nil => unfold markLoop at h; cases h; exact Dots.refl _ _
  | cons x r ih =>
    unfold markLoop at h
    split at h
    · cases hr : markLoop r with
      | err e => rw [hr] at h; cases h
      | ub u => rw [hr] at h; cases h
      | ok q => rw [hr] at h; cases h; exact Dots.cons (ih hr) rfl .inl
    · split at h
      · cases h
      · split at h
        · cases h; exact Dots.cons (Dots.refl _ _) rfl .inl
        · cases hr : markLoop r with
          | err e => rw [hr] at h; cases h
          | ub u => rw [hr] at h; cases h
          | ok q => rw [hr] at h; cases h; exact Dots.cons (ih hr) rfl (fun h => by cases h)

theorem withoutSei_quiet (s : Legacy) : s.withoutSei.Ends fun t => Quiet s.list t.list := by
  unfold withoutSei
  split
  · trivial
  · exact Dots.refl _ _
  · rename_i l k f h; exact markLoop_quiet (p := (l, k, f)) h

/-- The hash of an item that is looked up is in the hash list. -/
def Listed (u : Legacy) (x : Nat × LItem) : Prop :=
  x.2.status = .P ∧ x.2.bad = false ∧
    ∃ h, (if x.2.need then x.2.second else some x.2.hash) = some h ∧
      buf u.v.d.hashSize h ∈ Validator.chunk u.v.d.hashSize u.v.d.hashList

theorem searchFrom_mem {h : Bytes} {hashes : List Bytes} {i : Nat} (hl : Validator.searchFrom h hashes i < hashes.length) : h ∈ hashes := by
  unfold Validator.searchFrom at hl
  have hi : ((hashes.drop i).takeWhile fun e => e ≠ h).length < (hashes.drop i).length := by
    rw [List.length_drop]; omega
  have hd : ((hashes.drop i).dropWhile fun e => e ≠ h) ≠ [] := by
    intro hn
    have := congrArg List.length (List.takeWhile_append_dropWhile (p := fun e => decide (e ≠ h)) (l := hashes.drop i))
    rw [hn, List.append_nil] at this
    omega
  obtain ⟨y, r, hy⟩ := List.exists_cons_of_ne_nil hd
  have h1 := List.head_dropWhile_not (fun e => decide (e ≠ h)) (l := hashes.drop i) (by rw [hy]; exact List.cons_ne_nil _ _)
  have h2 : y = h := by
    simp only [hy, List.head_cons] at h1
    simpa using h1
  have h3 : y ∈ (hashes.drop i).dropWhile fun e => decide (e ≠ h) := by rw [hy]; exact .head _
  rw [← h2]
  exact List.mem_of_mem_drop ((List.dropWhile_sublist _).subset h3)

theorem matched_ok {i : LItem} {f : Bool} (hp : i.status = .P) (h : (matched i f).status = .ok) : i.bad = false := by
  unfold matched at h
  split at h
  · rw [show ({ i with need := true } : LItem).status = i.status from rfl, hp] at h; cases h
  · dsimp only at h; split at h
    · cases h
    · simp_all

theorem unmatched_ok {i : LItem} (hp : i.status = .P) : (unmatched i).status ≠ .ok := by
  unfold unmatched
  split
  · dsimp only; rw [hp]; intro h; cases h
  · intro h; cases h

theorem Dots.missing {Q : Nat × LItem → Prop} {l l' : LList} (h : Dots Q l l') (new : List Nat) :
    Dots Q l (new.map (fun a => (a, LItem.missing)) ++ l') := by
  intro y hy hs
  rcases List.mem_append.mp hy with hy | hy
  · obtain ⟨a, -, rfl⟩ := List.mem_map.mp hy; cases hs
  · exact h y hy hs

theorem hashListLoop_dots {u : Legacy} {sei : Nat} {l : LList} {prev : Option Nat} {m : Match} {p : LList × Match}
    (h : hashListLoop u.v.d.hashSize (Validator.chunk u.v.d.hashSize u.v.d.hashList) sei l prev m = .ok p) :
    Dots (Listed u) l p.1 := by
  induction l generalizing prev m p with
  | nil => unfold hashListLoop at h; cases h; exact Dots.refl _ _
  | cons x r ih =>
    unfold hashListLoop at h
    split at h
    · generalize hr : hashListLoop _ _ _ r _ _ = t at h
      cases t with
      | err e => cases h
      | ub u => cases h
      | ok q => cases h; exact Dots.cons (ih hr) rfl .inl
    · rename_i hP
      split at h
      · cases h
      · dsimp only at h
        split at h
        · split at h
          · cases h; exact Dots.refl _ _
          · generalize hr : hashListLoop _ _ _ r _ _ = t at h
            cases t with
            | err e => cases h
            | ub u => cases h
            | ok q => cases h; exact Dots.cons (ih hr) rfl .inl
        · split at h
          · cases h
          · rename_i hh hv
            have hP' : x.2.status = .P := Classical.byContradiction hP
            have key : ∀ (b : Bool) (f : Bool), (b = true → buf u.v.d.hashSize hh ∈ Validator.chunk u.v.d.hashSize u.v.d.hashList) →
                (if b = true then matched x.2 f else unmatched x.2).status = .ok → x.2.status = .ok ∨ Listed u x := by
              intro b f hb hs
              cases b with
              | false => exact absurd hs (unmatched_ok hP')
              | true => exact .inr ⟨hP', matched_ok hP' hs, hh, hv, hb rfl⟩
            have hfound : ∀ k, decide (Validator.searchFrom (buf u.v.d.hashSize hh) (Validator.chunk u.v.d.hashSize u.v.d.hashList) k <
                (Validator.chunk u.v.d.hashSize u.v.d.hashList).length) = true →
                buf u.v.d.hashSize hh ∈ Validator.chunk u.v.d.hashSize u.v.d.hashList :=
              fun k hk => searchFrom_mem (of_decide_eq_true hk)
            split at h
            · cases h
              refine Dots.missing ?_ _
              refine Dots.cons (x := x) (Dots.refl _ _) rfl ?_
              exact key _ _ (hfound _)
            · generalize hr : hashListLoop _ _ _ r _ _ = t at h
              cases t with
              | err e => cases h
              | ub u => cases h
              | ok q =>
                cases h
                refine Dots.missing ?_ _
                refine Dots.cons (x := x) (ih hr) rfl ?_
                exact key _ _ (hfound _)

theorem set_ok_dots (l : LList) (a : Nat) : Dots (fun y => y.1 = a) l (l.set a fun i => { i with status := .ok }) := by
  unfold LList.set
  refine Dots.map (fun x => ?_) (fun x _ => ?_)
  · split <;> rfl
  · split
    · rename_i h; exact fun _ => .inr h
    · exact .inl

/-- Why an item gets the status '.' in the verification that starts in the state `u`. -/
structure Vouched (u : Legacy) (x : Nat × LItem) : Prop where
  verified : u.v.verified = 1
  found : (u.v.gop.lost && !u.v.gop.transLost) = false
  how : if u.v.d.hashType = 1 then (∃ sei, nextSei u.list = some sei ∧ sei.1 = x.1) ∨ Listed u x
    else x.2.used = true ∧ x.2.bad = false

theorem Dots.weaken {Q R : Nat × LItem → Prop} {l m : LList} (h : Dots Q l m) (hq : ∀ x ∈ l, Q x → R x) : Dots R l m := by
  intro y hy hs
  obtain ⟨x, hx, e, q⟩ := h y hy hs
  exact ⟨x, hx, e, q.imp_right (hq x hx)⟩

theorem Dots.trans {Q R T : Nat × LItem → Prop} {l m n : LList} (h : Dots Q l m) (g : Dots R m n) (hq : ∀ x ∈ l, Q x → T x)
    (hr : ∀ x ∈ m, R x → ∃ z ∈ l, z.1 = x.1 ∧ T z) : Dots T l n := by
  intro y hy hs
  obtain ⟨x, hx, e, hs' | q⟩ := g y hy hs
  · obtain ⟨z, hz, e', q⟩ := h x hx hs'
    exact ⟨z, hz, e'.trans e, q.imp_right (hq z hz)⟩
  · obtain ⟨z, hz, e', q'⟩ := hr x hx q
    exact ⟨z, hz, e'.trans e, .inr q'⟩

theorem mem_set {l : LList} {a : Nat} {f : LItem → LItem} {y : Nat × LItem} (h : y ∈ l.set a f) : ∃ x ∈ l, x.1 = y.1 := by
  unfold LList.set at h
  obtain ⟨x, hx, rfl⟩ := List.mem_map.mp h
  refine ⟨x, hx, ?_⟩
  split <;> rfl

theorem nextSei_mem {l : LList} {x : Nat × LItem} (h : nextSei l = some x) : x ∈ l := List.mem_of_find?_eq_some h

theorem set_ok_cases {l : LList} {a : Nat} {y : Nat × LItem} (hy : y ∈ l.set a fun i => { i with status := .ok })
    (hs : y.2.status = .ok) : y.1 = a ∨ ∃ x ∈ l, x.1 = y.1 ∧ x.2.status = .ok := by
  unfold LList.set at hy
  obtain ⟨x, hx, rfl⟩ := List.mem_map.mp hy
  split at hs
  · rename_i h; exact .inl (by rw [if_pos h]; exact h)
  · rename_i h; exact .inr ⟨x, hx, by rw [if_neg h], hs⟩

theorem hashListEnd_dots (s : Legacy) (m : Match) (n : Int) (sei : Nat) :
    ∀ y ∈ (hashListEnd s m n sei).1.list, y.2.status = .ok → y.1 = sei ∨ ∃ x ∈ s.list, x.1 = y.1 ∧ x.2.status = .ok := by
  unfold hashListEnd
  dsimp only
  have h1 : Quiet s.list (if m.latest = -1 then
      match s.list with
      | [] => s
      | f :: _ => s.addMissing (n - m.invalid) (f.2.second.isSome && !f.2.need) f.1
    else s).list := by
    split
    · split
      · exact Dots.refl _ _
      · exact addMissing_quiet _ _ _ _
    · exact Dots.refl _ _
  generalize (if m.latest = -1 then
      match s.list with
      | [] => s
      | f :: _ => s.addMissing (n - m.invalid) (f.2.second.isSome && !f.2.need) f.1
    else s) = t at h1
  intro y hy hs
  rcases set_ok_cases hy hs with h | ⟨x, hx, e, hs'⟩
  · exact .inl h
  · right
    have h2 : Quiet t.list (match m.lastUsed with
        | none => ((t, m.count) : Legacy × Int)
        | some a =>
          if m.latest ≠ m.compare then ({ t with list := t.list.set a fun i => { i with bad := true, need := true } }, m.count)
          else (t.addMissing (n - 1 - m.latest - 1) true a, if n - 1 - m.latest - 1 ≥ 0 then m.count + 1 else m.count)).1.list := by
      split
      · exact Dots.refl _ _
      · split
        · exact Quiet.set (f := fun i => { i with bad := true, need := true }) fun _ h => h
        · exact addMissing_quiet _ _ _ _
    obtain ⟨z, hz, e', h | f⟩ := h1.trans h2 x hx hs'
    · exact ⟨z, hz, e'.trans e, h⟩
    · exact f.elim

theorem withHashList_dots (u : Legacy) : u.withHashList.Ends fun t =>
    Dots (fun x => u.v.verified = 1 ∧ ((∃ sei, nextSei u.list = some sei ∧ sei.1 = x.1) ∨ Listed u x)) u.list t.list := by
  unfold withHashList
  split
  · trivial
  · split
    · exact Dots.refl _ _
    · rename_i sei hsei
      split
      · refine Res.Ends.andThen (withoutSei_quiet _) (fun t h => ?_) (fun t b _ h => ?_)
        all_goals
          refine (Quiet.trans (l := u.list) (m := u.list.set sei.1 fun i => { i with status := if u.v.verified = 0 then .N else .E })
            (Quiet.set fun i => ?_) h).any
          dsimp only
          split <;> (intro h; cases h)
      · split
        · trivial
        · rename_i hv
          have hv1 : u.v.verified = 1 := Classical.byContradiction hv
          dsimp only
          split
          · trivial
          · exact Dots.refl _ _
          · rename_i l m hl
            intro y hy hs
            rcases hashListEnd_dots _ _ _ _ y hy hs with h | ⟨x, hx, e, hs'⟩
            · exact ⟨sei, nextSei_mem hsei, h.symm, .inr ⟨hv1, .inl ⟨sei, hsei, rfl⟩⟩⟩
            · obtain ⟨z, hz, e', q⟩ := hashListLoop_dots (p := (l, m)) hl x hx hs'
              exact ⟨z, hz, e'.trans e, q.imp_right fun q => ⟨hv1, .inr q⟩⟩

theorem setStatus_dots (st : Status) (l : LList) :
    Dots (fun x => st = .ok ∧ x.2.used = true ∧ x.2.bad = false) l (setStatus st l) := by
  unfold setStatus
  refine Dots.map (fun _ => rfl) (fun x _ hs => ?_)
  dsimp only at hs
  split at hs
  · rename_i hu
    unfold settle at hs
    split at hs
    · exact .inl hs
    · dsimp only at hs
      split at hs
      · cases hs
      · rename_i hb; exact .inr ⟨hs, hu, by simpa using hb⟩
  · exact .inl hs

theorem withGopHash_dots (u : Legacy) : u.withGopHash.Ends fun t =>
    Dots (fun x => u.v.verified = 1 ∧ x.2.used = true ∧ x.2.bad = false) u.list t.list := by
  unfold withGopHash
  split
  · have h : Dots (fun x => u.v.verified = 1 ∧ x.2.used = true ∧ x.2.bad = false) u.list
        (setStatus (if u.v.verified = 1 then .ok else .N) u.list) := by
      refine (setStatus_dots _ _).weaken fun x _ hx => ⟨?_, hx.2⟩
      apply Classical.byContradiction
      intro hv
      have := hx.1
      rw [if_neg hv] at this
      cases this
    dsimp only
    split
    · exact h
    · split
      · exact h
      · split
        · trivial
        · exact h.quiet (addMissing_quiet _ _ _ _)
  · exact Res.Ends.andThen (withoutSei_quiet u) (fun t h => h.any) (fun t b _ h => h.any)

theorem verifyGop_dots (u : Legacy) : u.verifyGop.Ends fun t => Dots (Vouched u) u.list t.list := by
  unfold verifyGop
  split
  · exact Res.Ends.andThen (withoutSei_quiet _) (fun t h => ((clearUsed_quiet _).trans h).any)
      (fun t b _ h => ((clearUsed_quiet _).trans h).any)
  · rename_i hl
    split
    · rename_i ht
      refine (withHashList_dots u).mono fun t h => h.weaken fun x _ q => ⟨q.1, by simpa using hl, ?_⟩
      rw [if_pos ht]; exact q.2
    · rename_i ht
      refine (withGopHash_dots u).mono fun t h => h.weaken fun x _ q => ⟨q.1, by simpa using hl, ?_⟩
      rw [if_neg ht]; exact q.2

theorem conclude_quiet (s : Legacy) (p : Bool × Int × Int) : Quiet s.list (s.conclude p).list := by
  unfold conclude
  dsimp only
  split
  · exact removeMissing_quiet _
  · exact Dots.refl _ _

theorem finish_quiet (s : Legacy) : Quiet s.list s.finish.list := by
  unfold finish
  dsimp only
  split
  · exact renew_quiet _
  · exact Dots.refl _ _

theorem onV_list {α : Type} (s : Legacy) (r : Res Validator α) : (s.onV r).Ends fun t => t.list = s.list := by
  cases r <;> trivial

theorem decodeSei_list (env : AuthEnv) (s : Legacy) (mem : Bytes) (size : Nat) : (s.decodeSei env mem size).Ends fun t => t.list = s.list := by
  unfold decodeSei
  split
  · trivial
  · exact Res.Ends.andThen (onV_list _ _) (fun _ h => h) (fun t _ _ h => h)

theorem decodeNext_quiet (env : AuthEnv) (s : Legacy) (x : Nat × LItem) : (s.decodeNext env x).Ends fun t => Quiet s.list t.list := by
  unfold decodeNext
  split
  · exact Dots.refl _ _
  · dsimp only
    split
    · trivial
    · refine Res.Ends.andThen (decodeSei_list env s _ _) (fun t h => h ▸ Dots.refl _ _) (fun t _ _ h => ?_)
      have hq : Quiet s.list (t.list.set x.1 fun i => { i with decoded := true }) :=
        h ▸ Quiet.set (f := fun i => { i with decoded := true }) fun _ h => h
      split
      · split
        · trivial
        · exact hq
      · exact hq

theorem hashNext_quiet (env : AuthEnv) (s : Legacy) (x : Nat × LItem) (hs : Nat) : (s.hashNext env x hs).Ends fun t => Quiet s.list t.list := by
  unfold hashNext
  split
  · refine Res.Ends.andThen' (computeGop_quiet env s x) (fun t _ _ h => ?_)
    split
    · trivial
    · exact h
  · exact Dots.refl _ _

theorem prepare_quiet (env : AuthEnv) (s : Legacy) : (s.prepare env).Ends fun t => Quiet s.list t.list := by
  rw [prepare_eq]
  refine Res.Ends.andThen' (P := fun t : Legacy => Quiet s.list t.list) ?_ (fun t _ _ h => ?_)
  · unfold readNext
    split
    · exact Dots.refl _ _
    · refine Res.Ends.andThen' (decodeNext_quiet env s _) (fun t _ _ h => ?_)
      exact (hashNext_quiet env t _ _).mono fun w g => h.trans g
  · have hv : (t.verifyHash env).Ends fun w => Quiet s.list w.list := by
      unfold verifyHash
      exact (onV_list _ _).mono fun w e => e ▸ h
    unfold checkNext
    split
    · exact h
    · split
      · exact hv
      · split
        · trivial
        · split
          · trivial
          · split
            · exact hv
            · exact h

/-- The items that get the status '.' in a round are vouched for when the verification starts. -/
theorem round_dots {env : AuthEnv} {s t : Legacy} (h : s.round env = .ok t ()) :
    ∃ u, s.begin.prepare env = .ok u () ∧ Quiet s.list u.list ∧ Dots (Vouched u) u.list t.list := by
  unfold round at h
  obtain ⟨u, _, h1, h2⟩ := Res.andThen_eq_ok h
  obtain ⟨w, _, h3, h4⟩ := Res.andThen_eq_ok h2
  refine ⟨u, h1, (prepare_quiet env s.begin).of_ok h1, ?_⟩
  cases h4
  unfold conduct at h3
  split at h3
  · unfold validate at h3
    obtain ⟨x, p, h5, h6⟩ := Res.andThen_eq_ok h3
    cases h6
    exact (((verifyGop_dots u).of_ok h5).quiet (conclude_quiet x p)).quiet (finish_quiet _)
  · cases h3
    exact (finish_quiet _).any

/-- A round that ends with an error does not mark any NAL unit. -/
theorem round_err {env : AuthEnv} {s t : Legacy} {e : Rc} (h : s.round env = .err t e) : s.begin.prepare env = .err t e := by
  unfold round at h
  cases h1 : s.begin.prepare env with
  | err u e' => rw [h1] at h; exact h
  | ub u => rw [h1] at h; cases h
  | ok u _ =>
    rw [h1, Res.andThen_ok] at h
    exfalso
    have hm : ∀ l e, markLoop l ≠ .err e := by
      intro l
      induction l with
      | nil => intro e h; unfold markLoop at h; cases h
      | cons x r ih =>
        intro e h
        unfold markLoop at h
        split at h
        · cases hr : markLoop r with
          | err e' => exact ih _ hr
          | ub u => rw [hr] at h; cases h
          | ok q => rw [hr] at h; cases h
        · split at h
          · cases h
          · split at h
            · cases h
            · cases hr : markLoop r with
              | err e' => exact ih _ hr
              | ub u => rw [hr] at h; cases h
              | ok q => rw [hr] at h; cases h
    have hw : ∀ x t e, withoutSei x ≠ .err t e := by
      intro x t e h
      unfold withoutSei at h
      split at h
      · cases h
      · rename_i e' he; exact hm _ _ he
      · cases h
    have hl : ∀ hs hashes sei l prev m e, hashListLoop hs hashes sei l prev m ≠ .err e := by
      intro hs hashes sei l
      induction l with
      | nil => intro prev m e h; cases h
      | cons x r ih =>
        intro prev m e h
        unfold hashListLoop at h
        split at h
        · generalize hr : hashListLoop _ _ _ r _ _ = y at h
          cases y with
          | err e' => exact ih _ _ _ hr
          | ub u => cases h
          | ok q => cases h
        · split at h
          · cases h
          · dsimp only at h
            split at h
            · split at h
              · cases h
              · generalize hr : hashListLoop _ _ _ r _ _ = y at h
                cases y with
                | err e' => exact ih _ _ _ hr
                | ub u => cases h
                | ok q => cases h
            · split at h
              · cases h
              · split at h
                · cases h
                · generalize hr : hashListLoop _ _ _ r _ _ = y at h
                  cases y with
                  | err e' => exact ih _ _ _ hr
                  | ub u => cases h
                  | ok q => cases h
    have hv : ∀ x t e, verifyGop x ≠ .err t e := by
      intro x t e h
      have hwt : ∀ (x : Legacy) {t e}, (x.withoutSei.andThen fun s ok => Res.ok s ((ok, -1, -1) : Bool × Int × Int)) ≠ .err t e := by
        intro x t e h
        cases hx : x.withoutSei with
        | err t' e' => exact hw _ _ _ hx
        | ub u => rw [hx] at h; cases h
        | ok a b => rw [hx] at h; cases h
      unfold verifyGop at h
      split at h
      · exact hwt _ h
      · split at h
        · unfold withHashList at h
          split at h
          · cases h
          · split at h
            · cases h
            · split at h
              · exact hwt _ h
              · split at h
                · cases h
                · dsimp only at h
                  split at h
                  · cases h
                  · rename_i he; exact hl _ _ _ _ _ _ _ he
                  · cases h
        · unfold withGopHash at h
          split at h
          · dsimp only at h
            split at h
            · cases h
            · split at h
              · cases h
              · split at h
                · cases h
                · cases h
          · exact hwt _ h
    unfold conduct at h
    split at h
    · unfold validate at h
      cases hx : u.verifyGop with
      | err t' e' => exact hv _ _ _ hx
      | ub u => rw [hx] at h; cases h
      | ok a b => rw [hx] at h; cases h
    · cases h

end Legacy
end SV
