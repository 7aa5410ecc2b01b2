import Verif.Model.NaluList
/-! Helper lemmas for the linked list. -/
namespace SV

variable {α : Type}

/-- Address of the head of `xs`, or `e`. -/
def hdA : List (Nat × α) → Option Nat → Option Nat
  | [], e => e
  | x :: _, _ => some x.1

/-- Address of the last of `xs`, or `p`. -/
def lstA : Option Nat → List (Nat × α) → Option Nat
  | p, [] => p
  | _, x :: xs => lstA (some x.1) xs

/-- A doubly linked segment from `p` to `e`. -/
def DL (h : Nat → Option (Node α)) : Option Nat → List (Nat × α) → Option Nat → Prop
  | _, [], _ => True
  | p, x :: xs, e => h x.1 = some ⟨x.2, p, hdA xs e⟩ ∧ DL h (some x.1) xs e

theorem hdA_append (xs ys : List (Nat × α)) (e : Option Nat) : hdA (xs ++ ys) e = hdA xs (hdA ys e) := by
  cases xs <;> rfl

theorem lstA_append (p : Option Nat) (xs ys : List (Nat × α)) : lstA p (xs ++ ys) = lstA (lstA p xs) ys := by
  induction xs generalizing p with
  | nil => rfl
  | cons x xs ih => exact ih _

theorem DL_append (h : Nat → Option (Node α)) (p : Option Nat) (xs ys : List (Nat × α)) (e : Option Nat) :
    DL h p (xs ++ ys) e ↔ DL h p xs (hdA ys e) ∧ DL h (lstA p xs) ys e := by
  induction xs generalizing p with
  | nil => simp [DL, lstA]
  | cons x xs ih =>
    simp only [List.cons_append, DL, lstA, hdA_append, ih, and_assoc]

theorem DL_frame (h : Nat → Option (Node α)) (a : Nat) (n : Option (Node α)) (p : Option Nat)
    (xs : List (Nat × α)) (e : Option Nat) (ha : a ∉ xs.map Prod.fst) (hd : DL h p xs e) : DL (upd h a n) p xs e := by
  induction xs generalizing p with
  | nil => trivial
  | cons x xs ih =>
    simp only [List.map_cons, List.mem_cons, not_or] at ha
    refine ⟨?_, ih _ ha.2 hd.2⟩
    simp only [upd, if_neg (Ne.symm ha.1)]
    exact hd.1

theorem load_of {h : Nat → Option (Node α)} {a : Nat} {n : Node α} (hn : h a = some n) : load h a = .ok n := by
  simp [load, hn]

theorem upd_same (h : Nat → Option (Node α)) (a : Nat) (n : Option (Node α)) : upd h a n a = n := by simp [upd]

theorem upd_other (h : Nat → Option (Node α)) {a b : Nat} (n : Option (Node α)) (hab : b ≠ a) : upd h a n b = h b := by
  simp [upd, hab]

theorem setPrev_of {h : Nat → Option (Node α)} {a : Nat} {n : Node α} (p : Option Nat) (hn : h a = some n) :
    setPrev h a p = .ok (upd h a (some { n with prev := p })) := by
  simp [setPrev, load_of hn]

theorem setNext_of {h : Nat → Option (Node α)} {a : Nat} {n : Node α} (p : Option Nat) (hn : h a = some n) :
    setNext h a p = .ok (upd h a (some { n with next := p })) := by
  simp [setNext, load_of hn]

/-- The last node of a segment can get a new successor. -/
theorem setNextIf_last (h : Nat → Option (Node α)) (xs : List (Nat × α)) (e e' : Option Nat)
    (hd : DL h none xs e) (nd : (xs.map Prod.fst).Nodup) :
    ∃ h', setNextIf h (lstA none xs) e' = .ok h' ∧ DL h' none xs e' ∧ (∀ b, b ∉ xs.map Prod.fst → h' b = h b) := by
  rcases List.eq_nil_or_concat xs with rfl | ⟨l, x, rfl⟩
  · exact ⟨h, rfl, trivial, fun _ _ => rfl⟩
  · rw [List.concat_eq_append] at hd nd ⊢
    rw [DL_append] at hd
    simp only [DL, hdA, and_true] at hd
    have hl : lstA none (l ++ [x]) = some x.1 := by rw [lstA_append]; rfl
    refine ⟨upd h x.1 (some ⟨x.2, lstA none l, e'⟩), ?_, ?_, ?_⟩
    · rw [hl]; simp [setNextIf, setNext_of _ hd.2]
    · rw [DL_append]
      refine ⟨DL_frame _ _ _ _ _ _ ?_ hd.1, ?_, trivial⟩
      · intro hm
        rw [List.map_append, List.nodup_append] at nd
        exact nd.2.2 _ hm x.1 (by simp) rfl
      · rw [upd_same]; rfl
    · intro b hb
      refine upd_other _ _ ?_
      rintro rfl
      exact hb (by simp)

/-- The first node of a segment can get a new predecessor. -/
theorem setPrevIf_head (h : Nat → Option (Node α)) (xs : List (Nat × α)) (p p' : Option Nat)
    (hd : DL h p xs none) (nd : (xs.map Prod.fst).Nodup) :
    ∃ h', setPrevIf h (hdA xs none) p' = .ok h' ∧ DL h' p' xs none ∧ (∀ b, b ∉ xs.map Prod.fst → h' b = h b) := by
  cases xs with
  | nil => exact ⟨h, rfl, trivial, fun _ _ => rfl⟩
  | cons x r =>
    refine ⟨upd h x.1 (some ⟨x.2, p', hdA r none⟩), ?_, ?_, ?_⟩
    · simp [hdA, setPrevIf, setPrev_of _ hd.1]
    · refine ⟨?_, DL_frame _ _ _ _ _ _ ?_ hd.2⟩
      · rw [upd_same]
      · simp only [List.map_cons, List.nodup_cons] at nd
        exact nd.1
    · intro b hb
      refine upd_other _ _ ?_
      rintro rfl
      exact hb (by simp)

theorem DL_congr {h h' : Nat → Option (Node α)} {p : Option Nat} {xs : List (Nat × α)} {e : Option Nat}
    (hh : ∀ b ∈ xs.map Prod.fst, h' b = h b) (hd : DL h p xs e) : DL h' p xs e := by
  induction xs generalizing p with
  | nil => trivial
  | cons x xs ih =>
    refine ⟨?_, ih (fun b hb => hh b (by simp at hb ⊢; exact Or.inr hb)) hd.2⟩
    rw [hh _ (by simp)]; exact hd.1

/-- The representation invariant. -/
structure Rep (s : PList α) (xs : List (Nat × α)) : Prop where
  dl : DL s.heap none xs none
  nodup : (xs.map Prod.fst).Nodup
  only : ∀ a, a ∉ xs.map Prod.fst → s.heap a = none
  below : ∀ a ∈ xs.map Prod.fst, a < s.brk
  len : xs.length ≤ s.brk
  first : s.first = hdA xs none
  last : s.last = lstA none xs
  num : s.num = xs.length

theorem findItem_none (h : Nat → Option (Node α)) (a : Nat) (xs : List (Nat × α)) (p : Option Nat) (k : Nat)
    (hd : DL h p xs none) (ha : a ∉ xs.map Prod.fst) (hk : xs.length ≤ k) :
    findItem h a k (hdA xs none) = .ok none := by
  induction xs generalizing p k with
  | nil => cases k <;> rfl
  | cons x xs ih =>
    simp only [List.map_cons, List.mem_cons, not_or] at ha
    cases k with
    | zero => simp at hk
    | succ k =>
      simp only [hdA, findItem, if_neg (Ne.symm ha.1), load_of hd.1, Out.bind_ok]
      exact ih _ _ hd.2 ha.2 (by simpa using hk)

theorem findItem_some (h : Nat → Option (Node α)) (a : Nat) (v : α) (l r : List (Nat × α)) (p e : Option Nat) (k : Nat)
    (hd : DL h p (l ++ (a, v) :: r) e) (ha : a ∉ l.map Prod.fst) (hk : l.length < k) :
    findItem h a k (hdA (l ++ (a, v) :: r) e) = .ok (some a) := by
  induction l generalizing p k with
  | nil =>
    cases k with
    | zero => simp at hk
    | succ k => simp [hdA, findItem]
  | cons x xs ih =>
    simp only [List.map_cons, List.mem_cons, not_or] at ha
    cases k with
    | zero => simp at hk
    | succ k =>
      simp only [List.cons_append, hdA, findItem, if_neg (Ne.symm ha.1), load_of hd.1, Out.bind_ok]
      exact ih _ _ hd.2 ha.2 (by simpa using hk)

theorem rewind_mem (h : Nat → Option (Node α)) (l : List (Nat × α)) (x : Nat × α) (r : List (Nat × α)) (e : Option Nat)
    (k : Nat) (hd : DL h none (l ++ x :: r) e) (hk : l.length < k) :
    rewind h k (some x.1) = .ok (hdA (l ++ x :: r) e) := by
  induction k generalizing l x r with
  | zero => simp at hk
  | succ k ih =>
    have hx := ((DL_append _ _ _ _ _).1 hd).2.1
    simp only [rewind, load_of hx, Out.bind_ok]
    rcases List.eq_nil_or_concat l with rfl | ⟨l', y, rfl⟩
    · simp [lstA, hdA]
    · rw [List.concat_eq_append, lstA_append] at *
      simp only [lstA, List.append_assoc, List.singleton_append] at hd ⊢
      exact ih l' y (x :: r) hd (by simp at hk; omega)

theorem countItems_eq (h : Nat → Option (Node α)) (xs : List (Nat × α)) (p : Option Nat) (k : Nat) (c : Int)
    (hd : DL h p xs none) (hk : xs.length ≤ k) :
    countItems h k (hdA xs none) c = .ok (c + xs.length, lstA none xs) := by
  induction xs generalizing p k c with
  | nil => cases k <;> simp [hdA, countItems, lstA]
  | cons x xs ih =>
    cases k with
    | zero => simp at hk
    | succ k =>
      simp only [hdA, countItems, load_of hd.1, Out.bind_ok]
      cases xs with
      | nil => simp [hdA, lstA]
      | cons y ys =>
        have := ih _ k (c + 1) hd.2 (by simpa using hk)
        simp only [hdA] at this ⊢
        rw [this]
        simp only [lstA, List.length_cons, Out.ok.injEq, Prod.mk.injEq, and_true]
        push_cast
        omega

/-- `refresh` restores the struct from the links, when `first` points to some item of the list. -/
theorem refresh_eq (s : PList α) (xs : List (Nat × α)) (hd : DL s.heap none xs none)
    (hk : xs.length ≤ s.brk) (hf : (xs = [] ∧ s.first = none) ∨ ∃ l x r, xs = l ++ x :: r ∧ s.first = some x.1) :
    refresh s = .ok { s with first := hdA xs none, last := lstA none xs, num := xs.length } := by
  have h1 : rewind s.heap (s.brk + 1) s.first = .ok (hdA xs none) := by
    rcases hf with ⟨rfl, hf⟩ | ⟨l, x, r, rfl, hf⟩
    · rw [hf]; rfl
    · rw [hf]; exact rewind_mem _ _ _ _ _ _ hd (by simp at hk; omega)
  simp only [refresh, h1, Out.bind_ok, countItems_eq _ _ _ _ _ hd (Nat.le_succ_of_le hk), Int.zero_add, Out.pure_eq]

theorem nodup_split {l : List (Nat × α)} {x : Nat × α} {r : List (Nat × α)}
    (nd : ((l ++ x :: r).map Prod.fst).Nodup) :
    x.1 ∉ l.map Prod.fst ∧ x.1 ∉ r.map Prod.fst ∧ (l.map Prod.fst).Nodup ∧ (r.map Prod.fst).Nodup ∧
      (∀ a ∈ l.map Prod.fst, a ∉ r.map Prod.fst) := by
  rw [List.map_append, List.map_cons, List.nodup_append, List.nodup_cons] at nd
  refine ⟨fun h => nd.2.2 _ h x.1 (by simp) rfl, nd.2.1.1, nd.1, nd.2.1.2, ?_⟩
  intro a ha hr
  exact nd.2.2 a ha a (by simp at hr ⊢; exact Or.inr hr) rfl

theorem appendItem_eq (h : Nat → Option (Node α)) (l r : List (Nat × α)) (a new : Nat) (v w : α)
    (hd : DL h none (l ++ (a, v) :: r) none) (nd : ((l ++ (a, v) :: r).map Prod.fst).Nodup)
    (hn : new ∉ (l ++ (a, v) :: r).map Prod.fst) :
    ∃ h', appendItem (upd h new (some ⟨w, none, none⟩)) a new = .ok h' ∧
      DL h' none (l ++ (a, v) :: (new, w) :: r) none ∧
      (∀ b, b ∉ (l ++ (a, v) :: (new, w) :: r).map Prod.fst → h' b = h b) := by
  have hsp := nodup_split nd
  simp only [List.map_append, List.map_cons, List.mem_append, List.mem_cons, not_or] at hn
  obtain ⟨hnl, hna, hnr⟩ := hn
  rw [DL_append] at hd
  obtain ⟨hdl, hda, hdr⟩ := hd
  simp only [hdA] at hdl
  have h0a : (upd h new (some ⟨w, none, none⟩)) a = some ⟨v, lstA none l, hdA r none⟩ := by
    rw [upd_other _ _ (Ne.symm hna)]; exact hda
  cases r with
  | nil =>
    refine ⟨upd (upd (upd h new (some ⟨w, none, none⟩)) new (some ⟨w, some a, none⟩)) a
      (some ⟨v, lstA none l, some new⟩), ?_, ?_, ?_⟩
    · simp only [appendItem, load_of h0a, Out.bind_ok, hdA, Out.pure_eq]
      rw [setPrev_of _ (upd_same _ _ _)]
      simp only [Out.bind_ok]
      rw [setNext_of (n := ⟨v, lstA none l, none⟩) _ (by rw [upd_other _ _ (Ne.symm hna)]; exact h0a)]
    · rw [DL_append]
      refine ⟨?_, ?_, ?_, trivial⟩
      · exact DL_frame _ _ _ _ _ _ hsp.1 (DL_frame _ _ _ _ _ _ hnl (DL_frame _ _ _ _ _ _ hnl hdl))
      · rw [upd_same]; rfl
      · rw [upd_other _ _ hna, upd_same]; rfl
    · intro b hb
      simp at hb
      rw [upd_other _ _ hb.2.1, upd_other _ _ hb.2.2, upd_other _ _ hb.2.2]
  | cons y ys =>
    simp only [List.map_cons, List.mem_cons, not_or] at hnr hsp
    have hyn : y.1 ≠ new := Ne.symm hnr.1
    have hya : y.1 ≠ a := Ne.symm hsp.2.1.1
    have hyl : y.1 ∉ l.map Prod.fst := fun hm => (hsp.2.2.2.2 _ hm).1 rfl
    simp only [List.nodup_cons] at hsp
    let H1 := upd (upd h new (some ⟨w, none, none⟩)) y.1 (some ⟨y.2, some new, hdA ys none⟩)
    let H2 := upd H1 new (some ⟨w, none, some y.1⟩)
    let H3 := upd H2 new (some ⟨w, some a, some y.1⟩)
    refine ⟨upd H3 a (some ⟨v, lstA none l, some new⟩), ?_, ?_, ?_⟩
    · simp only [appendItem, load_of h0a, Out.bind_ok, hdA]
      rw [setPrev_of (n := ⟨y.2, some a, hdA ys none⟩) _ (by rw [upd_other _ _ hyn]; exact hdr.1)]
      simp only [Out.bind_ok]
      rw [setNext_of (n := ⟨w, none, none⟩) _ (by rw [upd_other _ _ (Ne.symm hyn), upd_same])]
      simp only [Out.bind_ok]
      rw [setPrev_of _ (upd_same _ _ _)]
      simp only [Out.bind_ok]
      rw [setNext_of (n := ⟨v, lstA none l, some y.1⟩) _ (by
        rw [upd_other _ _ (Ne.symm hna), upd_other _ _ (Ne.symm hna), upd_other _ _ (Ne.symm hya)]; exact h0a)]
    · rw [DL_append]
      refine ⟨?_, ?_, ?_, ?_, ?_⟩
      · exact DL_frame _ _ _ _ _ _ hsp.1 (DL_frame _ _ _ _ _ _ hnl (DL_frame _ _ _ _ _ _ hnl
          (DL_frame _ _ _ _ _ _ hyl (DL_frame _ _ _ _ _ _ hnl hdl))))
      · rw [upd_same]; rfl
      · rw [upd_other _ _ hna]; exact upd_same _ _ _
      · rw [upd_other _ _ hya]
        show upd H2 _ _ _ = _
        rw [upd_other _ _ hyn]
        show upd H1 _ _ _ = _
        rw [upd_other _ _ hyn]
        exact upd_same _ _ _
      · refine DL_frame _ _ _ _ _ _ hsp.2.1.2 (DL_frame _ _ _ _ _ _ hnr.2 (DL_frame _ _ _ _ _ _ hnr.2
          (DL_frame _ _ _ _ _ _ hsp.2.2.2.1.1 (DL_frame _ _ _ _ _ _ hnr.2 hdr.2))))
    · intro b hb
      simp at hb
      rw [upd_other _ _ hb.2.1]
      show upd H2 _ _ _ = _
      rw [upd_other _ _ hb.2.2.1]
      show upd H1 _ _ _ = _
      rw [upd_other _ _ hb.2.2.1]
      show upd (upd h new _) _ _ _ = _
      rw [upd_other _ _ hb.2.2.2.1, upd_other _ _ hb.2.2.1]

theorem prependItem_eq (h : Nat → Option (Node α)) (l r : List (Nat × α)) (a new : Nat) (v w : α)
    (hd : DL h none (l ++ (a, v) :: r) none) (nd : ((l ++ (a, v) :: r).map Prod.fst).Nodup)
    (hn : new ∉ (l ++ (a, v) :: r).map Prod.fst) :
    ∃ h', prependItem (upd h new (some ⟨w, none, none⟩)) a new = .ok h' ∧
      DL h' none (l ++ (new, w) :: (a, v) :: r) none ∧
      (∀ b, b ∉ (l ++ (new, w) :: (a, v) :: r).map Prod.fst → h' b = h b) := by
  have hsp := nodup_split nd
  simp only [List.map_append, List.map_cons, List.mem_append, List.mem_cons, not_or] at hn
  obtain ⟨hnl, hna, hnr⟩ := hn
  rw [DL_append] at hd
  obtain ⟨hdl, hda, hdr⟩ := hd
  simp only [hdA] at hdl
  have h0a : (upd h new (some ⟨w, none, none⟩)) a = some ⟨v, lstA none l, hdA r none⟩ := by
    rw [upd_other _ _ (Ne.symm hna)]; exact hda
  rcases List.eq_nil_or_concat l with rfl | ⟨l', y, rfl⟩
  · refine ⟨upd (upd (upd h new (some ⟨w, none, none⟩)) a (some ⟨v, some new, hdA r none⟩)) new
      (some ⟨w, none, some a⟩), ?_, ?_, ?_⟩
    · simp only [prependItem, load_of h0a, Out.bind_ok, lstA, Out.pure_eq]
      rw [setPrev_of _ h0a]
      simp only [Out.bind_ok]
      rw [setNext_of (n := ⟨w, none, none⟩) _ (by rw [upd_other _ _ hna, upd_same])]
    · refine ⟨?_, ?_, ?_⟩
      · rw [upd_same]; rfl
      · rw [upd_other _ _ (Ne.symm hna), upd_same]
      · exact DL_frame _ _ _ _ _ _ hnr (DL_frame _ _ _ _ _ _ hsp.2.1 (DL_frame _ _ _ _ _ _ hnr hdr))
    · intro b hb
      simp at hb
      rw [upd_other _ _ hb.1, upd_other _ _ hb.2.1, upd_other _ _ hb.1]
  · rw [List.concat_eq_append] at *
    simp only [List.map_append, List.map_cons, List.map_nil, List.mem_append, List.mem_cons, List.not_mem_nil, or_false,
      not_or] at hnl hsp
    have hyn : y.1 ≠ new := Ne.symm hnl.2
    have hya : y.1 ≠ a := Ne.symm hsp.1.2
    have hyr : y.1 ∉ r.map Prod.fst := hsp.2.2.2.2 _ (Or.inr rfl)
    have hyl : y.1 ∉ l'.map Prod.fst := by
      have := hsp.2.2.1
      rw [List.nodup_append] at this
      intro hm
      exact this.2.2 _ hm y.1 (by simp) rfl
    rw [DL_append] at hdl
    obtain ⟨hdl, hdy, -⟩ := hdl
    have hlst : lstA none (l' ++ [y]) = some y.1 := by rw [lstA_append]; rfl
    rw [hlst] at h0a
    let H1 := upd (upd h new (some ⟨w, none, none⟩)) new (some ⟨w, some y.1, none⟩)
    let H2 := upd H1 y.1 (some ⟨y.2, lstA none l', some new⟩)
    let H3 := upd H2 a (some ⟨v, some new, hdA r none⟩)
    refine ⟨upd H3 new (some ⟨w, some y.1, some a⟩), ?_, ?_, ?_⟩
    · simp only [prependItem, load_of h0a, Out.bind_ok]
      rw [setPrev_of _ (upd_same _ _ _)]
      simp only [Out.bind_ok]
      rw [setNext_of (n := ⟨y.2, lstA none l', some a⟩) _ (by
        rw [upd_other _ _ hyn, upd_other _ _ hyn]; exact hdy)]
      simp only [Out.bind_ok]
      rw [setPrev_of (n := ⟨v, some y.1, hdA r none⟩) _ (by
        rw [upd_other _ _ (Ne.symm hya), upd_other _ _ (Ne.symm hna)]; exact h0a)]
      simp only [Out.bind_ok]
      rw [setNext_of (n := ⟨w, some y.1, none⟩) _ (by
        rw [upd_other _ _ hna, upd_other _ _ (Ne.symm hyn), upd_same])]
    · rw [DL_append, DL_append]
      refine ⟨⟨?_, ?_, trivial⟩, ?_, ?_, ?_⟩
      · exact DL_frame _ _ _ _ _ _ hnl.1 (DL_frame _ _ _ _ _ _ hsp.1.1 (DL_frame _ _ _ _ _ _ hyl
          (DL_frame _ _ _ _ _ _ hnl.1 (DL_frame _ _ _ _ _ _ hnl.1 hdl))))
      · rw [upd_other _ _ hyn]
        show upd H2 _ _ _ = _
        rw [upd_other _ _ hya]
        exact upd_same _ _ _
      · rw [upd_same, hlst]; rfl
      · rw [upd_other _ _ (Ne.symm hna)]
        exact upd_same _ _ _
      · exact DL_frame _ _ _ _ _ _ hnr (DL_frame _ _ _ _ _ _ hsp.2.1 (DL_frame _ _ _ _ _ _ hyr
          (DL_frame _ _ _ _ _ _ hnr (DL_frame _ _ _ _ _ _ hnr hdr))))
    · intro b hb
      simp at hb
      rw [upd_other _ _ hb.2.2.1]
      show upd H2 _ _ _ = _
      rw [upd_other _ _ hb.2.2.2.1]
      show upd H1 _ _ _ = _
      rw [upd_other _ _ hb.2.1]
      show upd (upd h new _) _ _ _ = _
      rw [upd_other _ _ hb.2.2.1, upd_other _ _ hb.2.2.1]

theorem mem_split {xs : List (Nat × α)} {a : Nat} (h : a ∈ xs.map Prod.fst) : ∃ l v r, xs = l ++ (a, v) :: r := by
  obtain ⟨⟨b, v⟩, hm, rfl⟩ := List.mem_map.1 h
  obtain ⟨l, r, rfl⟩ := List.append_of_mem hm
  exact ⟨l, v, r, rfl⟩

/-- An insertion followed by `refresh`, from a represented list. -/
theorem insert_refresh {s : PList α} {xs ys zs : List (Nat × α)} {w : α} (hr : Rep s (xs ++ ys))
    (h' : Nat → Option (Node α)) (hne : xs ++ ys ≠ [])
    (hd : DL h' none (xs ++ (s.brk, w) :: ys) none)
    (hfr : ∀ b, b ∉ (xs ++ (s.brk, w) :: ys).map Prod.fst → h' b = s.heap b)
    (hz : zs = xs ++ (s.brk, w) :: ys) :
    ∃ s', refresh { s with heap := h', brk := s.brk + 1 } = .ok s' ∧ Rep s' zs ∧ s'.brk = s.brk + 1 := by
  subst hz
  have hlen := hr.len
  have hbel := hr.below
  simp only [List.length_append, List.map_append, List.mem_append] at hlen hbel
  have hf : ∃ l x r, xs ++ (s.brk, w) :: ys = l ++ x :: r ∧ s.first = some x.1 := by
    rw [hr.first]
    cases xs with
    | nil =>
      cases ys with
      | nil => exact absurd rfl hne
      | cons y ys => exact ⟨[(s.brk, w)], y, ys, rfl, rfl⟩
    | cons x xs => exact ⟨[], x, _, rfl, rfl⟩
  refine ⟨_, refresh_eq _ _ hd (by simp; omega) (Or.inr hf), ?_, rfl⟩
  constructor
  · exact hd
  · have := hr.nodup
    rw [List.map_append, List.nodup_append] at this
    rw [List.map_append, List.map_cons, List.nodup_append, List.nodup_cons]
    refine ⟨this.1, ⟨fun hm => Nat.lt_irrefl _ (hbel _ (Or.inr hm)), this.2.1⟩, ?_⟩
    intro a ha b hb
    rcases List.mem_cons.1 hb with rfl | hb
    · exact Nat.ne_of_lt (hbel _ (Or.inl ha))
    · exact this.2.2 a ha b hb
  · intro a ha
    show h' a = none
    rw [hfr a ha]
    apply hr.only
    simp at ha ⊢
    exact ⟨ha.1, ha.2.2⟩
  · intro a ha
    simp only [List.map_append, List.map_cons, List.mem_append, List.mem_cons] at ha
    rcases ha with ha | rfl | ha
    · exact Nat.lt_succ_of_lt (hbel _ (Or.inl ha))
    · exact Nat.lt_succ_self _
    · exact Nat.lt_succ_of_lt (hbel _ (Or.inr ha))
  · simp; omega
  · rfl
  · rfl
  · rfl

theorem fresh {s : PList α} {xs : List (Nat × α)} (hr : Rep s xs) : s.brk ∉ xs.map Prod.fst :=
  fun hm => Nat.lt_irrefl _ (hr.below _ hm)

theorem appendP_rep {s : PList α} {xs : List (Nat × α)} (hr : Rep s xs) (v : α) :
    ∃ s', appendP s v = .ok s' ∧ Rep s' (xs ++ [(s.brk, v)]) ∧ s'.brk = s.brk + 1 := by
  rcases List.eq_nil_or_concat xs with rfl | ⟨l, x, rfl⟩
  · have h1 : s.first = none := hr.first
    have h2 : s.last = none := hr.last
    refine ⟨{ heap := upd s.heap s.brk (some ⟨v, none, none⟩), first := some s.brk, last := some s.brk, num := 1,
              brk := s.brk + 1 }, ?_, ?_, rfl⟩
    · simp only [appendP, h1, h2, if_true, Out.pure_eq, Out.bind_ok]
      rw [refresh_eq _ [(s.brk, v)] ⟨upd_same _ _ _, trivial⟩ (by simp) (Or.inr ⟨[], _, [], rfl, rfl⟩)]
      rfl
    · constructor
      · exact ⟨upd_same _ _ _, trivial⟩
      · simp
      · intro a ha
        simp at ha
        show upd _ _ _ _ = _
        rw [upd_other _ _ ha]
        exact hr.only a (by simp)
      · simp
      · simp
      · rfl
      · rfl
      · rfl
  · rw [List.concat_eq_append] at hr ⊢
    have hf := hr.first
    have h1 : s.first ≠ none := by rw [hf]; cases l <;> simp [hdA]
    have h2 : s.last = some x.1 := by rw [hr.last, lstA_append]; rfl
    obtain ⟨h', ha, hd, hfr⟩ := appendItem_eq s.heap l [] x.1 s.brk x.2 v hr.dl hr.nodup (fresh hr)
    obtain ⟨s', hs, hrep, hbrk⟩ := insert_refresh (ys := []) (zs := l ++ [x] ++ [(s.brk, v)]) (w := v)
      (by simpa using hr) h' (by simp) (by simpa using hd) (by simpa using hfr) rfl
    refine ⟨s', ?_, hrep, hbrk⟩
    simp only [appendP, h1, h2, if_false, Out.bind_ok, Out.pure_eq, ha]
    exact hs

theorem addMissingLoop_rep (v : α) (app : Bool) (a : Nat) (va : α) (n : Nat) {s : PList α} {l r : List (Nat × α)}
    (hr : Rep s (l ++ (a, va) :: r)) :
    ∃ s', addMissingLoop v app a n s = .ok s' ∧ s'.brk = s.brk + n ∧
      Rep s' (if app then l ++ (a, va) :: (((List.range' s.brk n).map fun b => (b, v)).reverse ++ r)
        else (l ++ ((List.range' s.brk n).map fun b => (b, v))) ++ (a, va) :: r) := by
  induction n generalizing s l r with
  | zero => exact ⟨s, rfl, rfl, by cases app <;> simpa using hr⟩
  | succ n ih =>
    cases app with
    | true =>
      obtain ⟨h', ha, hd, hfr⟩ := appendItem_eq s.heap l r a s.brk va v hr.dl hr.nodup (fresh hr)
      obtain ⟨s1, hs, hrep, hbrk⟩ := insert_refresh (xs := l ++ [(a, va)]) (ys := r)
        (zs := l ++ (a, va) :: (s.brk, v) :: r) (w := v) (by simpa using hr) h' (by simp) (by simpa using hd)
        (by simpa using hfr) (by simp)
      obtain ⟨s', h1, h2, h3⟩ := ih hrep
      refine ⟨s', ?_, by rw [h2, hbrk]; omega, ?_⟩
      · simp only [addMissingLoop, ha, if_true, Out.bind_ok, hs]
        exact h1
      · rw [hbrk] at h3
        simpa [List.range'_succ] using h3
    | false =>
      obtain ⟨h', ha, hd, hfr⟩ := prependItem_eq s.heap l r a s.brk va v hr.dl hr.nodup (fresh hr)
      obtain ⟨s1, hs, hrep, hbrk⟩ := insert_refresh (xs := l) (ys := (a, va) :: r)
        (zs := l ++ (s.brk, v) :: (a, va) :: r) (w := v) (by simpa using hr) h' (by simp) (by simpa using hd)
        (by simpa using hfr) (by simp)
      obtain ⟨s', h1, h2, h3⟩ := ih (l := l ++ [(s.brk, v)]) (r := r) (by simpa using hrep)
      refine ⟨s', ?_, by rw [h2, hbrk]; omega, ?_⟩
      · simp only [addMissingLoop, ha, Out.bind_ok, hs, Bool.false_eq_true, if_false]
        exact h1
      · rw [hbrk] at h3
        simpa [List.range'_succ] using h3

theorem flatMap_id_of {l : List (Nat × α)} {a : Nat} (h : a ∉ l.map Prod.fst) (f : Nat × α → List (Nat × α)) :
    (l.flatMap fun x => if x.1 = a then f x else [x]) = l := by
  induction l with
  | nil => rfl
  | cons x xs ih =>
    simp only [List.map_cons, List.mem_cons, not_or] at h
    simp [List.flatMap_cons, if_neg (Ne.symm h.1), ih h.2]

theorem insertMissing_split {l r : List (Nat × α)} {a : Nat} {va v : α} (brk n : Nat) (app : Bool)
    (nd : ((l ++ (a, va) :: r).map Prod.fst).Nodup) :
    insertMissing (l ++ (a, va) :: r) v brk n app a =
      if app then l ++ (a, va) :: (((List.range' brk n).map fun b => (b, v)).reverse ++ r)
      else (l ++ ((List.range' brk n).map fun b => (b, v))) ++ (a, va) :: r := by
  have hsp := nodup_split nd
  simp only [insertMissing, List.flatMap_append, List.flatMap_cons]
  rw [flatMap_id_of hsp.1, flatMap_id_of hsp.2.1]
  cases app <;> simp

theorem insertMissing_notin {l : List (Nat × α)} {a : Nat} (v : α) (brk n : Nat) (app : Bool)
    (h : a ∉ l.map Prod.fst) : insertMissing l v brk n app a = l := flatMap_id_of h _

theorem addMissingP_rep {s : PList α} {xs : List (Nat × α)} (hr : Rep s xs) (v : α) (n : Int) (app : Bool) (a : Nat) :
    ∃ s', addMissingP s v n app a =
        .ok (if a ∈ xs.map Prod.fst ∧ 0 ≤ n then none else some .invalidParameter, s') ∧
      Rep s' (if 0 ≤ n then insertMissing xs v s.brk n.toNat app a else xs) ∧
      s'.brk = (if a ∈ xs.map Prod.fst ∧ 0 ≤ n then s.brk + n.toNat else s.brk) := by
  by_cases ha : a ∈ xs.map Prod.fst
  · obtain ⟨l, va, r, rfl⟩ := mem_split ha
    have hsp := nodup_split hr.nodup
    have hlen := hr.len
    simp only [List.length_append, List.length_cons] at hlen
    have hf := findItem_some s.heap a va l r none none (s.brk + 1) hr.dl hsp.1 (by omega)
    rw [← hr.first] at hf
    by_cases hn : n < 0
    · refine ⟨s, ?_, ?_, ?_⟩
      · simp [addMissingP, hf, hn, Int.not_le.2 hn]
      · rw [if_neg (Int.not_le.2 hn)]; exact hr
      · simp [Int.not_le.2 hn]
    · obtain ⟨s', h1, h2, h3⟩ := addMissingLoop_rep v app a va n.toNat hr
      have hn' := Int.not_lt.1 hn
      refine ⟨s', ?_, ?_, ?_⟩
      · simp [addMissingP, hf, hn, h1, hn']
      · rw [if_pos hn', insertMissing_split _ _ _ hr.nodup]; exact h3
      · rw [if_pos ⟨ha, hn'⟩, h2]
  · have hf := findItem_none s.heap a xs none (s.brk + 1) hr.dl ha (Nat.le_succ_of_le hr.len)
    rw [← hr.first] at hf
    refine ⟨s, ?_, ?_, ?_⟩
    · simp only [addMissingP, hf, Out.bind_ok, true_or, if_true, Out.pure_eq]
      rw [if_neg (fun h => ha h.1)]
    · rw [insertMissing_notin v _ _ _ ha]; simpa using hr
    · rw [if_neg (fun h => ha h.1)]

theorem setItem_rep {s : PList α} {l r : List (Nat × α)} {a : Nat} {v : α} (hr : Rep s (l ++ (a, v) :: r)) (f : α → α) :
    ∃ s', setItem s a f = .ok s' ∧ Rep s' (l ++ (a, f v) :: r) ∧ s'.first = s.first ∧ s'.brk = s.brk := by
  have hsp := nodup_split hr.nodup
  have hd := (DL_append _ _ _ _ _).1 hr.dl
  refine ⟨{ s with heap := upd s.heap a (some ⟨f v, lstA none l, hdA r none⟩) }, ?_, ?_, rfl, rfl⟩
  · simp [setItem, load_of hd.2.1]
  · constructor
    · rw [DL_append]
      exact ⟨DL_frame _ _ _ _ _ _ hsp.1 hd.1, upd_same _ _ _, DL_frame _ _ _ _ _ _ hsp.2.1 hd.2.2⟩
    · simpa using hr.nodup
    · intro b hb
      show upd _ _ _ _ = _
      have hb' : b ∉ (l ++ (a, v) :: r).map Prod.fst := by simpa using hb
      rw [upd_other _ _ (by rintro rfl; exact hb (by simp))]
      exact hr.only b hb'
    · simpa using hr.below
    · simpa using hr.len
    · rw [show ({ s with heap := upd s.heap a (some ⟨f v, lstA none l, hdA r none⟩) } : PList α).first = s.first from rfl,
        hr.first, hdA_append, hdA_append]; rfl
    · rw [show ({ s with heap := upd s.heap a (some ⟨f v, lstA none l, hdA r none⟩) } : PList α).last = s.last from rfl,
        hr.last, lstA_append, lstA_append]; rfl
    · rw [show ({ s with heap := upd s.heap a (some ⟨f v, lstA none l, hdA r none⟩) } : PList α).num = s.num from rfl,
        hr.num]; simp

theorem removeAndFree_rep {s : PList α} {l r : List (Nat × α)} {a : Nat} {v : α} (hr : Rep s (l ++ (a, v) :: r)) :
    ∃ s', removeAndFree s a = .ok s' ∧ Rep s' (l ++ r) ∧ s'.brk = s.brk := by
  have hsp := nodup_split hr.nodup
  have hlen := hr.len
  simp only [List.length_append, List.length_cons] at hlen
  have hf := findItem_some s.heap a v l r none none (s.brk + 1) hr.dl hsp.1 (by omega)
  rw [← hr.first] at hf
  have hd := (DL_append _ _ _ _ _).1 hr.dl
  obtain ⟨h1, e1, d1, f1⟩ := setNextIf_last s.heap l _ (hdA r none) hd.1 hsp.2.2.1
  have ha1 : h1 a = some ⟨v, lstA none l, hdA r none⟩ := by rw [f1 a hsp.1]; exact hd.2.1
  have dr1 : DL h1 (some a) r none := DL_congr (fun b hb => f1 b (fun hl => hsp.2.2.2.2 b hl hb)) hd.2.2
  obtain ⟨h2, e2, d2, f2⟩ := setPrevIf_head h1 r (some a) (lstA none l) dr1 hsp.2.2.2.1
  have ha2 : h2 a = some ⟨v, lstA none l, hdA r none⟩ := by rw [f2 a hsp.2.1]; exact ha1
  have dl2 : DL h2 none l (hdA r none) := DL_congr (fun b hb => f2 b (hsp.2.2.2.2 b hb)) d1
  have dl : DL h2 none (l ++ r) none := (DL_append _ _ _ _ _).2 ⟨dl2, d2⟩
  have hfirst : (if s.first = some a then hdA r none else s.first) = hdA (l ++ r) none := by
    rw [hr.first, hdA_append, hdA_append]
    cases l with
    | nil => simp [hdA]
    | cons x l =>
      refine if_neg ?_
      intro hx
      injection hx with hx
      exact hsp.1 (by simp [hx])
  let s2 : PList α :=
    { s with heap := h2, first := hdA (l ++ r) none, last := if s.last = some a then lstA none l else s.last }
  have href := refresh_eq s2
      (l ++ r) dl (by show _ ≤ s.brk; simp; omega) (by
        have h0 : s2.first = hdA (l ++ r) none := rfl
        rw [h0]
        cases l ++ r with
        | nil => exact Or.inl ⟨rfl, rfl⟩
        | cons x xs => exact Or.inr ⟨[], x, xs, rfl, rfl⟩)
  refine ⟨⟨upd h2 a none, hdA (l ++ r) none, lstA none (l ++ r), (l ++ r).length, s.brk⟩, ?_, ?_, rfl⟩
  · simp only [removeAndFree, hf, Out.bind_ok, load_of hd.2.1, e1, load_of ha1, e2, load_of ha2, hfirst, Out.pure_eq]
    rw [href]
    rfl
  · constructor
    · refine DL_frame _ _ _ _ _ _ ?_ dl
      simp only [List.map_append, List.mem_append, not_or]
      exact ⟨hsp.1, hsp.2.1⟩
    · rw [List.map_append, List.nodup_append]
      exact ⟨hsp.2.2.1, hsp.2.2.2.1, fun x hx y hy hxy => hsp.2.2.2.2 x hx (hxy ▸ hy)⟩
    · intro b hb
      show upd _ _ _ _ = _
      simp only [List.map_append, List.mem_append, not_or] at hb
      by_cases hba : b = a
      · rw [hba, upd_same]
      · rw [upd_other _ _ hba, f2 b hb.2, f1 b hb.1]
        apply hr.only
        simp only [List.map_append, List.map_cons, List.mem_append, List.mem_cons, not_or]
        exact ⟨hb.1, hba, hb.2⟩
    · intro b hb
      apply hr.below
      simp at hb ⊢
      rcases hb with hb | hb
      · exact Or.inl hb
      · exact Or.inr (Or.inr hb)
    · simp; omega
    · rfl
    · rfl
    · rfl

theorem removeAndFree_notin {s : PList α} {xs : List (Nat × α)} {a : Nat} (hr : Rep s xs) (ha : a ∉ xs.map Prod.fst) :
    removeAndFree s a = .ok s := by
  have hf := findItem_none s.heap a xs none (s.brk + 1) hr.dl ha (Nat.le_succ_of_le hr.len)
  rw [← hr.first] at hf
  simp [removeAndFree, hf]

theorem freeItems_rep {s : PList α} {xs : List (Nat × α)} (hr : Rep s xs) (k : Nat) (hk : xs.length ≤ k) :
    ∃ s', freeItems k s = .ok s' ∧ Rep s' [] ∧ s'.brk = s.brk := by
  induction xs generalizing s k with
  | nil =>
    have hf : s.first = none := hr.first
    refine ⟨s, ?_, hr, rfl⟩
    cases k <;> simp [freeItems, hf]
  | cons x xs ih =>
    cases k with
    | zero => simp at hk
    | succ k =>
      have hf : s.first = some x.1 := hr.first
      obtain ⟨s1, h1, h2, h3⟩ := removeAndFree_rep (l := []) hr
      obtain ⟨s', h4, h5, h6⟩ := ih h2 k (by simpa using hk)
      exact ⟨s', by simp [freeItems, hf, h1, h4], h5, h6.trans h3⟩

theorem cleanUpP_rep {s : PList Item} {xs : NList} (hr : Rep s xs) (k c : Nat) (hk : xs.length ≤ k) :
    ∃ s', cleanUpP k s c = .ok (c + cleanUpCount xs, s') ∧ Rep s' (cleanUp xs) ∧ s'.brk = s.brk := by
  induction xs generalizing s k c with
  | nil =>
    have hf : s.first = none := hr.first
    refine ⟨s, ?_, hr, rfl⟩
    cases k <;> simp [cleanUpP, hf, cleanUpCount]
  | cons x xs ih =>
    cases k with
    | zero => simp at hk
    | succ k =>
      have hf : s.first = some x.1 := hr.first
      have hl := load_of hr.dl.1
      by_cases hP : x.2.status = .P
      · refine ⟨s, ?_, by simpa [cleanUp, hP] using hr, rfl⟩
        simp [cleanUpP, hf, hl, hP, cleanUpCount]
      · obtain ⟨s1, h1, h2, h3⟩ := removeAndFree_rep (l := []) hr
        obtain ⟨s', h4, h5, h6⟩ := ih h2 k (if x.2.status = .M then c else c + 1) (by simpa using hk)
        refine ⟨s', ?_, by simpa [cleanUp, hP] using h5, h6.trans h3⟩
        simp only [cleanUpP, hf, hl, Out.bind_ok, if_neg hP, h1, h4, Out.ok.injEq, Prod.mk.injEq, and_true]
        by_cases hM : x.2.status = .M <;> simp [cleanUpCount, hP, hM]
        omega

theorem removeMissingP_rep (r : NList) {s : PList Item} {l : NList} (hr : Rep s (l ++ r)) (k : Nat) (pend dec : Bool)
    (hk : r.length ≤ k) :
    ∃ s', removeMissingP k s (hdA r none) pend dec = .ok s' ∧
      Rep s' (l ++ removeMissingFrom r (decide (l = [])) pend dec) ∧ s'.brk = s.brk := by
  induction r generalizing s l k pend dec with
  | nil =>
    refine ⟨s, ?_, hr, rfl⟩
    cases k <;> simp [hdA, removeMissingP]
  | cons x r ih =>
    cases k with
    | zero => simp at hk
    | succ k =>
      by_cases hpd : (pend && dec) = true
      · refine ⟨s, ?_, ?_, rfl⟩
        · simp only [hdA, removeMissingP, if_pos hpd]
        · simpa only [removeMissingFrom, if_pos hpd] using hr
      · have hd := (DL_append _ _ _ _ _).1 hr.dl
        have hl := load_of hd.2.1
        simp only [hdA, removeMissingP, if_neg hpd, hl, Out.bind_ok, removeMissingFrom]
        have hfirst : (s.first = some x.1) ↔ l = [] := by
          rw [hr.first, hdA_append]
          cases l with
          | nil => simp [hdA]
          | cons y l =>
            simp only [hdA]
            have := (nodup_split hr.nodup).1
            simp only [Option.some.injEq, reduceCtorEq, iff_false]
            intro h
            exact this (by simp [h])
        by_cases hM : x.2.status = .M ∧ l = []
        · rw [if_pos ⟨hM.1, hfirst.2 hM.2⟩, if_pos ⟨hM.1, by simp [hM.2]⟩]
          obtain ⟨s1, h1, h2, h3⟩ := removeAndFree_rep hr
          obtain ⟨s', h4, h5, h6⟩ := ih h2 k pend dec (by simpa using hk)
          refine ⟨s', ?_, ?_, h6.trans h3⟩
          · rw [h1]; exact h4
          · simpa [hM.2] using h5
        · rw [if_neg (fun h => hM ⟨h.1, hfirst.1 h.2⟩), if_neg (fun h => hM ⟨h.1, by simpa using h.2⟩)]
          obtain ⟨s1, h1, h2, -, h3⟩ := setItem_rep hr resetStatus
          rw [h1]
          simp only [Out.bind_ok]
          cases r with
          | nil => exact ⟨s1, rfl, h2, h3⟩
          | cons y ys =>
            simp only [hdA]
            have hd1 := (DL_append _ _ _ _ _).1 h2.dl
            rw [load_of hd1.2.2.1]
            simp only [Out.bind_ok]
            obtain ⟨s', h4, h5, h6⟩ := ih (l := l ++ [(x.1, resetStatus x.2)]) (by simpa using h2) k
              (pend || decide (y.2.status = .P)) (dec || (x.2.decoded && decide (x.2.status ≠ .U))) (by simpa using hk)
            refine ⟨s', h4, ?_, h6.trans h3⟩
            simpa using h5

theorem getStrLoop_eq (h : Nat → Option (Node α)) (f : α → Char) (xs : List (Nat × α)) (p : Option Nat) (k : Nat) (c : Int)
    (dst : List Char) (hd : DL h p xs none) (hk : xs.length ≤ k) (hc : (xs.length : Int) ≤ c) :
    getStrLoop h f k (hdA xs none) c dst = .ok (dst ++ xs.map fun x => f x.2) := by
  induction xs generalizing p k c dst with
  | nil => cases k <;> simp [hdA, getStrLoop]
  | cons x xs ih =>
    cases k with
    | zero => simp at hk
    | succ k =>
      simp only [List.length_cons] at hk hc
      push_cast at hc
      simp only [hdA, getStrLoop, load_of hd.1, Out.bind_ok]
      rw [if_neg (by omega)]
      refine (ih _ k (c - 1) _ hd.2 (by omega) (by omega)).trans ?_
      simp

end SV
