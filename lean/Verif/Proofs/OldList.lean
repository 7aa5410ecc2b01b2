import Verif.Proofs.FlowHash
import Verif.Proofs.LegacyFrame
import Verif.Props.AuthSame
/-! Validation of an undisturbed stream of the older format: the list of NAL units. -/
namespace SV
open Spec
namespace Old
open Legacy
open Validator (Scene)

/-- An item of a NAL unit that is not protected. -/
structure Rests (x : Nat × LItem) : Prop where
  status : x.2.status = .U ∨ x.2.status = .ignored
  nalu : ∃ n, x.2.nalu = some n ∧ n.gopSei = false ∧ (n.valid = 0 ∨ n.isHashable = false)
  need : x.2.need = false
  used : x.2.used = false
  dead : x.2.dead = false
  second : x.2.second = none
  decoded : x.2.decoded = false
  bad : x.2.bad = false

/-- A pending item of a protected NAL unit that is going to be compared with the hash `h`. -/
structure Waits (Γ : Scene) (h : Bytes) (x : Nat × LItem) : Prop where
  status : x.2.status = .P
  nalu : ∃ n, x.2.nalu = some n ∧ n.valid = 1 ∧ n.isHashable = true ∧ n.gopSei = false ∧ (n.firstInGop = true → x.2.need = true)
  hash : x.2.need = true ∧ (∃ b, x.2.second = some b ∧ buf Γ.size b = h) ∨
    x.2.need = false ∧ x.2.second = none ∧ buf Γ.size x.2.hash = h
  used : x.2.used = false
  dead : x.2.dead = false

/-- The pending items have these hashes, and the others are not protected. -/
def Holds (Γ : Scene) : List Bytes → LList → Prop
  | hs, [] => hs = []
  | hs, x :: l => (Rests x ∧ Holds Γ hs l) ∨ ∃ h t, hs = h :: t ∧ Waits Γ h x ∧ Holds Γ t l

variable {Γ : Scene}

theorem Rests.not {x : Nat × LItem} (h : Rests x) : x.2.status ≠ .P := by
  rcases h.status with e | e <;> rw [e] <;> decide

theorem Holds.append {hs gs : List Bytes} {l m : LList} (h : Holds Γ hs l) (g : Holds Γ gs m) : Holds Γ (hs ++ gs) (l ++ m) := by
  induction l generalizing hs with
  | nil => cases h; exact g
  | cons x l ih =>
    rcases h with ⟨h1, h2⟩ | ⟨b, t, rfl, h1, h2⟩
    · exact .inl ⟨h1, ih h2⟩
    · exact .inr ⟨b, t ++ gs, rfl, h1, ih h2⟩

theorem Holds.rests {l : LList} (h : ∀ x ∈ l, Rests x) : Holds Γ [] l := by
  induction l with
  | nil => rfl
  | cons x l ih => exact .inl ⟨h x List.mem_cons_self, ih fun y hy => h y (List.mem_cons_of_mem _ hy)⟩

theorem Holds.mem {hs : List Bytes} {l : LList} (h : Holds Γ hs l) {x : Nat × LItem} (hx : x ∈ l) : Rests x ∨ ∃ b, Waits Γ b x := by
  induction l generalizing hs with
  | nil => cases hx
  | cons y l ih =>
    rcases h with ⟨h1, h2⟩ | ⟨b, t, rfl, h1, h2⟩
    · rcases List.mem_cons.1 hx with rfl | hx
      · exact .inl h1
      · exact ih h2 hx
    · rcases List.mem_cons.1 hx with rfl | hx
      · exact .inr ⟨b, h1⟩
      · exact ih h2 hx

theorem Holds.nalu {hs : List Bytes} {l : LList} (h : Holds Γ hs l) {x : Nat × LItem} (hx : x ∈ l) :
    ∃ n, x.2.nalu = some n ∧ n.gopSei = false := by
  rcases h.mem hx with h | ⟨b, h⟩
  · obtain ⟨n, e, g, -⟩ := h.nalu; exact ⟨n, e, g⟩
  · obtain ⟨n, e, -, -, g, -⟩ := h.nalu; exact ⟨n, e, g⟩

theorem Holds.dead {hs : List Bytes} {l : LList} (h : Holds Γ hs l) {x : Nat × LItem} (hx : x ∈ l) : x.2.dead = false := by
  rcases h.mem hx with h | ⟨b, h⟩
  · exact h.dead
  · exact h.dead

/-- What becomes of the items of a GOP: `st` tells whether its hashes are right. -/
def markAll (st : Status) (l : LList) : LList :=
  l.map fun x => if x.2.status = .P then (x.1, { x.2 with status := if x.2.bad then .N else st, need := false }) else x

/-- The number of pending items that have failed before. -/
def spoilt (l : LList) : Nat := l.countP fun x => decide (x.2.status = .P) && x.2.bad

/-- The items of a GOP while its hash is computed. -/
def useAll (l : LList) : LList := l.map fun x => if x.2.status = .P then (x.1, { x.2 with used := true }) else x

theorem markAll_addr (st : Status) (l : LList) : (markAll st l).map Prod.fst = l.map Prod.fst := by
  unfold markAll
  rw [List.map_map]
  refine List.map_congr_left fun x _ => ?_
  show Prod.fst (if _ then _ else _) = _
  split <;> rfl

/-! ### Addresses -/

theorem set_none {l : LList} {a : Nat} (h : a ∉ l.map Prod.fst) (f : LItem → LItem) : l.set a f = l := by
  unfold LList.set
  conv => rhs; rw [← List.map_id l]
  refine List.map_congr_left fun y hy => if_neg fun e => h ?_
  rw [← e]; exact List.mem_map_of_mem hy

theorem set_mid {l r : LList} {x : Nat × LItem} (h1 : x.1 ∉ l.map Prod.fst) (h2 : x.1 ∉ r.map Prod.fst) (f : LItem → LItem) :
    LList.set (l ++ x :: r) x.1 f = l ++ (x.1, f x.2) :: r := by
  have e : LList.set (l ++ x :: r) x.1 f = LList.set l x.1 f ++ LList.set (x :: r) x.1 f := by
    unfold LList.set; rw [List.map_append]
  have e2 : LList.set (x :: r) x.1 f = (x.1, f x.2) :: LList.set r x.1 f := by
    unfold LList.set; rw [List.map_cons, if_pos rfl]
  rw [e, e2, set_none h1, set_none h2]

theorem set_last {l : LList} {a : Nat} {i : LItem} (h : a ∉ l.map Prod.fst) (f : LItem → LItem) :
    LList.set (l ++ [(a, i)]) a f = l ++ [(a, f i)] := set_mid (x := (a, i)) h (by simp) f

/-! ### The search in the list of hashes -/

theorem search_here {hs : List Bytes} {h : Bytes} (done : List Bytes) : Validator.searchFrom h (done ++ h :: hs) done.length = done.length := by
  unfold Validator.searchFrom
  rw [List.drop_left, List.takeWhile_cons, if_neg (by simp)]
  rfl

/-- The address of the item before. -/
def lastAddr (prev : Option Nat) (l : LList) : Option Nat := match l.getLast? with | some x => some x.1 | none => prev

theorem lastAddr_cons (prev : Option Nat) (x : Nat × LItem) (l : LList) : lastAddr prev (x :: l) = lastAddr (some x.1) l := by
  unfold lastAddr
  cases l with
  | nil => rfl
  | cons y l => rw [List.getLast?_cons_cons]; cases h : (y :: l).getLast? with
    | none => simp at h
    | some z => rfl

theorem lastAddr_ne {prev : Option Nat} {l : LList} {a : Nat} (hp : prev ≠ some a) (h : a ∉ l.map Prod.fst) : lastAddr prev l ≠ some a := by
  unfold lastAddr
  cases e : l.getLast? with
  | none => exact hp
  | some x =>
    intro hc
    cases hc
    exact h (List.mem_map_of_mem (List.mem_of_getLast? e))

/-- The loop over the items of the GOP: each hash is found where it is expected. -/
theorem hashListLoop_rows {sei : Nat} (pre r : LList) (hs done rest : List Bytes) (prev : Option Nat) (m : Match)
    (h : Holds Γ hs pre) (hp : prev ≠ some sei) (hn : sei ∉ pre.map Prod.fst) (hl : m.latest = (done.length : Int) - 1) (hi : m.invalid = 0) :
    ∃ m', hashListLoop Γ.size (done ++ hs ++ rest) sei (pre ++ r) prev m =
        ((hashListLoop Γ.size (done ++ hs ++ rest) sei r (lastAddr prev pre) m').bind fun p => .ok (markAll .ok pre ++ p.1, p.2)) ∧
      m'.latest = ((done ++ hs).length : Int) - 1 ∧ m'.invalid = 0 ∧ m'.count = m.count + hs.length ∧ m'.brk = m.brk := by
  induction pre generalizing hs done prev m with
  | nil =>
    cases h
    refine ⟨m, ?_, by simpa using hl, hi, rfl, rfl⟩
    show _ = (hashListLoop _ _ _ r prev m).bind _
    simp only [markAll, List.map_nil, List.nil_append]
    cases hashListLoop Γ.size (done ++ [] ++ rest) sei r prev m <;> rfl
  | cons x pre ih =>
    have hn' : sei ∉ pre.map Prod.fst := fun hc => hn (by rw [List.map_cons]; exact List.mem_cons_of_mem _ hc)
    have hx : some x.1 ≠ some sei := fun hc => hn (by rw [List.map_cons, Option.some.inj hc]; exact List.mem_cons_self)
    rw [List.cons_append, lastAddr_cons]
    rcases h with ⟨h1, h2⟩ | ⟨b, t, rfl, h1, h2⟩
    · obtain ⟨m', e, g⟩ := ih hs done (some x.1) m h2 hx hn' hl hi
      refine ⟨m', ?_, g⟩
      conv => lhs; unfold hashListLoop
      rw [if_pos h1.not, e]
      simp only [markAll, List.map_cons, if_neg h1.not]
      cases hashListLoop Γ.size (done ++ hs ++ rest) sei r (lastAddr (some x.1) pre) m' <;> rfl
    · obtain ⟨n, hn1, -, -, hn4, hn5⟩ := h1.nalu
      have hsearch : Validator.searchFrom b (done ++ b :: t ++ rest) (m.latest + 1).toNat = done.length := by
        rw [hl, show ((done.length : Int) - 1 + 1).toNat = done.length by omega, List.append_assoc, List.cons_append]
        exact search_here done
      have hlt : done.length < (done ++ b :: t ++ rest).length := by simp
      have hstop : (decide (prev = some sei) || (n.firstInGop && !x.2.need)) = false := by
        rw [decide_eq_false hp, Bool.false_or]
        cases hf : n.firstInGop with
        | false => rfl
        | true => rw [hn5 hf]; rfl
      obtain ⟨hh, hh1, hh2⟩ : ∃ hh, (if x.2.need then x.2.second else some x.2.hash) = some hh ∧ buf Γ.size hh = b := by
        rcases h1.hash with ⟨e1, c, e2, e3⟩ | ⟨e1, e2, e3⟩
        · exact ⟨c, by rw [if_pos e1, e2], e3⟩
        · exact ⟨_, by rw [if_neg (by rw [e1]; decide)], e3⟩
      have hm : Legacy.matched x.2 n.firstInGop = { x.2 with status := if x.2.bad then .N else .ok, need := false } := by
        unfold Legacy.matched
        have hc : ¬ (x.2.second.isSome && !x.2.need && n.firstInGop) = true := by
          rcases h1.hash with ⟨e1, -⟩ | ⟨-, e2, -⟩
          · rw [e1]; simp
          · rw [e2]; simp
        rw [if_neg hc]
      have hmiss : ((done.length : Int) - m.latest) - 1 - (m.invalid : Int) = 0 := by rw [hl, hi]; simp; omega
      obtain ⟨m', e, g1, g2, g3, g4⟩ := ih t (done ++ [b]) (some x.1)
        { m with lastUsed := some x.1, count := m.count + 1, compare := (done.length : Int), brk := m.brk + 0, latest := (done.length : Int), invalid := 0 }
        h2 hx hn' (by simp) rfl
      rw [show done ++ [b] ++ t ++ rest = done ++ b :: t ++ rest by simp] at e
      rw [show done ++ [b] ++ t = done ++ b :: t by simp] at g1
      refine ⟨m', ?_, g1, g2, by rw [g3]; simp; omega, g4⟩
      conv => lhs; unfold hashListLoop
      rw [if_neg (by rw [h1.status]; decide)]
      simp only [hn1, hn4, hh1, hh2, hsearch, hstop, hlt, hmiss, hm, decide_true, if_true, Int.toNat_zero, List.range'_zero, List.map_nil, List.nil_append]
      rw [if_neg (by decide), if_neg (by decide), e]
      simp only [markAll, List.map_cons, if_pos h1.status, hn1]
      cases hashListLoop Γ.size (done ++ b :: t ++ rest) sei r (lastAddr (some x.1) pre) m' <;> rfl

/-- The item of a SEI that is waiting for the first NAL unit of the next GOP. -/
structure IsMsg (Γ : Scene) (doc : Bytes) (x : Nat × LItem) : Prop where
  status : x.2.status = .P
  nalu : ∃ n, x.2.nalu = some n ∧ n.valid > 0 ∧ n.isHashable = true ∧ n.gopSei = true ∧ n.golden = false ∧ n.firstInGop = false
  hash : buf Γ.size x.2.hash = Γ.H doc
  second : x.2.second = none
  need : x.2.need = false
  bad : x.2.bad = false
  used : x.2.used = false
  dead : x.2.dead = false

/-- The item of the first NAL unit of a GOP: its hash with reference is `h` and the one without is `own`. -/
structure IsNext (Γ : Scene) (h own : Bytes) (x : Nat × LItem) : Prop where
  status : x.2.status = .P
  nalu : ∃ n, x.2.nalu = some n ∧ n.valid = 1 ∧ n.isHashable = true ∧ n.gopSei = false ∧ n.golden = false ∧ n.firstInGop = true ∧ n.tlvSize = 0
  hash : buf Γ.size x.2.hash = h
  second : ∃ b, x.2.second = some b ∧ buf Γ.size b = own
  need : x.2.need = false
  bad : x.2.bad = false
  used : x.2.used = false
  dead : x.2.dead = false
  decoded : x.2.decoded = false

/-- The loop goes over items that are not protected. -/
theorem hashListLoop_rests {sei : Nat} {hashes : List Bytes} (post r : LList) (prev : Option Nat) (m : Match) (h : ∀ x ∈ post, Rests x) :
    hashListLoop Γ.size hashes sei (post ++ r) prev m =
      ((hashListLoop Γ.size hashes sei r (lastAddr prev post) m).bind fun p => .ok (post ++ p.1, p.2)) := by
  induction post generalizing prev with
  | nil =>
    show _ = (hashListLoop _ _ _ r prev m).bind _
    simp only [List.nil_append]
    cases hashListLoop Γ.size hashes sei r prev m <;> rfl
  | cons x post ih =>
    rw [List.cons_append, lastAddr_cons]
    conv => lhs; unfold hashListLoop
    rw [if_pos (h x List.mem_cons_self).not, ih _ fun y hy => h y (List.mem_cons_of_mem _ hy)]
    cases hashListLoop Γ.size hashes sei r (lastAddr (some x.1) post) m <;> rfl

/-- The loop over all items up to the first NAL unit of the next GOP. -/
theorem hashListLoop_all {pre post : LList} {xs xi : Nat × LItem} {hs : List Bytes} {h own doc : Bytes} {brk : Nat} (hp : Holds Γ hs pre)
    (hm : IsMsg Γ doc xs) (hq : ∀ x ∈ post, Rests x) (hi : IsNext Γ h own xi) (hn : xs.1 ∉ pre.map Prod.fst) :
    ∃ m, hashListLoop Γ.size (hs ++ [h]) xs.1 (pre ++ xs :: (post ++ [xi])) none { brk := brk } =
        .ok (markAll .ok pre ++ xs :: (post ++ [(xi.1, { xi.2 with need := true })]), m) ∧
      m.latest = hs.length ∧ m.compare = hs.length ∧ m.count = hs.length + 1 ∧ m.invalid = 0 ∧ m.lastUsed = some xi.1 ∧ m.brk = brk := by
  obtain ⟨m, e, e1, e2, e3, e4⟩ := hashListLoop_rows (Γ := Γ) (sei := xs.1) pre (xs :: (post ++ [xi])) hs [] [h] none { brk := brk } hp (by simp) hn rfl rfl
  rw [List.nil_append] at e e1
  obtain ⟨n, n1, -, -, n4, -, n6⟩ := hm.nalu
  obtain ⟨k, k1, -, -, k4, -, k6, -⟩ := hi.nalu
  obtain ⟨b, b1, -⟩ := hi.second
  have s1 : hashListLoop Γ.size (hs ++ [h]) xs.1 (xs :: (post ++ [xi])) (lastAddr none pre) m =
      ((hashListLoop Γ.size (hs ++ [h]) xs.1 (post ++ [xi]) (some xs.1) m).bind fun p => .ok (xs :: p.1, p.2)) := by
    conv => lhs; unfold hashListLoop
    rw [if_neg (by rw [hm.status]; decide)]
    simp only [n1, n4, n6, decide_eq_false (lastAddr_ne (prev := none) (by simp) hn)]
    rw [if_pos trivial, if_neg (by simp)]
    cases hashListLoop Γ.size (hs ++ [h]) xs.1 (post ++ [xi]) (some xs.1) m <;> rfl
  have hsearch : Validator.searchFrom h (hs ++ [h]) (m.latest + 1).toNat = hs.length := by
    rw [e1, show ((hs.length : Int) - 1 + 1).toNat = hs.length by omega]
    exact search_here hs
  have hmiss : ((hs.length : Int) - m.latest) - 1 - (m.invalid : Int) = 0 := by rw [e1, e2]; simp; omega
  have s2 : ∀ prev, hashListLoop Γ.size (hs ++ [h]) xs.1 [xi] prev m =
      .ok ([(xi.1, { xi.2 with need := true })], { m with lastUsed := some xi.1, count := m.count + 1, compare := hs.length, latest := hs.length, invalid := 0 }) := by
    intro prev
    conv => lhs; unfold hashListLoop
    rw [if_neg (by rw [hi.status]; decide)]
    have hlt : hs.length < (hs ++ [h]).length := by simp
    have hma : Legacy.matched xi.2 true = { xi.2 with need := true } := by
      unfold Legacy.matched
      rw [if_pos (by rw [b1, hi.need]; rfl)]
    simp only [k1, k4, k6, hi.need, hi.hash, hsearch, hlt, hmiss, decide_true, if_true, Int.toNat_zero, List.range'_zero, List.map_nil, List.nil_append, Bool.not_false, Bool.and_true, Bool.or_true]
    rw [if_neg (by decide)]
    simp only [Bool.false_eq_true, if_false, hi.hash, hsearch, hlt, decide_true, if_true, hmiss, Int.toNat_zero, List.range'_zero, List.map_nil, List.nil_append, hma, Nat.add_zero, k1]
  refine ⟨{ m with lastUsed := some xi.1, count := m.count + 1, compare := hs.length, latest := hs.length, invalid := 0 }, ?_, rfl, rfl, ?_, rfl, rfl, e4⟩
  · rw [e, s1, hashListLoop_rests post [xi] _ _ hq, s2]
    rfl
  · show m.count + 1 = _
    rw [e3]; simp

end Old
end SV
