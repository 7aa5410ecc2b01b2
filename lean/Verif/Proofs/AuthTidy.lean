import Verif.Proofs.AuthSegment
import Verif.Proofs.AuthReal
/-! The items marked as used in the GOP hash are those of the segment, in every session. -/
namespace SV
open Spec

/-- Pending items that are marked as used belong to the segment. -/
def TidyFrom : Bool → NList → Prop
  | _, [] => True
  | b, x :: r =>
    if x.2.status ≠ .P then TidyFrom b r
    else if x.2.isSei || (b && x.2.isFirst) then ∀ y ∈ x :: r, candidate y = false
    else TidyFrom true r

theorem candidate_of_status {x : Nat × Item} (h : x.2.status ≠ .P) : candidate x = false := by
  unfold candidate; simp [h]

theorem tidy_of_none {b : Bool} {l : NList} (h : ∀ y ∈ l, candidate y = false) : TidyFrom b l := by
  induction l generalizing b with
  | nil => trivial
  | cons x r ih =>
    unfold TidyFrom
    split
    · exact ih fun y hy => h y (List.mem_cons_of_mem _ hy)
    · split
      · exact h
      · exact ih fun y hy => h y (List.mem_cons_of_mem _ hy)

theorem clearUsed_candidate (l : NList) : ∀ y ∈ Validator.clearUsed l, candidate y = false := by
  intro y hy
  obtain ⟨x, _, rfl⟩ := List.mem_map.1 hy
  rfl

/-- Changes of the items that keep the marks and do not make SEIs or starts of GOPs. -/
theorem TidyFrom.map {b : Bool} {l : NList} {f : Nat × Item → Nat × Item} (h : TidyFrom b l)
    (h1 : ∀ x ∈ l, (f x).2.status = x.2.status) (h2 : ∀ x ∈ l, (f x).2.used = x.2.used)
    (h3 : ∀ x ∈ l, (f x).2.isSei = true → x.2.isSei = true) (h4 : ∀ x ∈ l, (f x).2.isFirst = true → x.2.isFirst = true) :
    TidyFrom b (l.map f) := by
  have hc : ∀ x ∈ l, candidate (f x) = candidate x := fun x hx => by unfold candidate; rw [h1 x hx, h2 x hx]
  induction l generalizing b with
  | nil => trivial
  | cons x r ih =>
    have ih' : ∀ {b}, TidyFrom b r → TidyFrom b (r.map f) := fun {b} h => ih h (fun y hy => h1 y (List.mem_cons_of_mem _ hy))
      (fun y hy => h2 y (List.mem_cons_of_mem _ hy)) (fun y hy => h3 y (List.mem_cons_of_mem _ hy))
      (fun y hy => h4 y (List.mem_cons_of_mem _ hy)) (fun y hy => hc y (List.mem_cons_of_mem _ hy))
    have hx := h1 x List.mem_cons_self
    unfold TidyFrom at h
    rw [List.map_cons]
    unfold TidyFrom
    rw [hx]
    split at h
    · rename_i hp
      rw [if_pos hp]; exact ih' h
    · rename_i hp
      rw [if_neg hp]
      split at h
      · have hall : ∀ y ∈ f x :: r.map f, candidate y = false := by
          intro y hy
          rw [← List.map_cons] at hy
          obtain ⟨z, hz, rfl⟩ := List.mem_map.1 hy
          rw [hc z hz]; exact h z hz
        split
        · exact hall
        · exact tidy_of_none fun y hy => hall y (List.mem_cons_of_mem _ hy)
      · rename_i hn
        rw [if_neg]
        · exact ih' h
        · intro hs
          refine hn ?_
          rw [Bool.or_eq_true, Bool.and_eq_true] at hs ⊢
          rcases hs with hs | hs
          · exact .inl (h3 x List.mem_cons_self hs)
          · exact .inr ⟨hs.1, h4 x List.mem_cons_self hs.2⟩

theorem TidyFrom.set {b : Bool} {l : NList} {a : Nat} {f : Item → Item} (h : TidyFrom b l)
    (h1 : ∀ x ∈ l, x.1 = a → (f x.2).status = x.2.status ∧ (f x.2).used = x.2.used ∧
      ((f x.2).isSei = true → x.2.isSei = true) ∧ ((f x.2).isFirst = true → x.2.isFirst = true)) :
    TidyFrom b (l.set a f) := by
  unfold NList.set
  refine h.map ?_ ?_ ?_ ?_ <;>
  · intro x hx
    by_cases e : x.1 = a
    · rw [if_pos e]
      first
        | exact (h1 x hx e).1
        | exact (h1 x hx e).2.1
        | exact (h1 x hx e).2.2.1
        | exact (h1 x hx e).2.2.2
    · rw [if_neg e]; try exact id

theorem TidyFrom.append {b : Bool} {l : NList} {x : Nat × Item} (h : TidyFrom b l) (hx : candidate x = false) :
    TidyFrom b (l ++ [x]) := by
  induction l generalizing b with
  | nil => exact tidy_of_none fun y hy => by rw [List.mem_singleton.1 hy]; exact hx
  | cons y r ih =>
    unfold TidyFrom at h
    rw [List.cons_append]
    unfold TidyFrom
    split at h
    · rename_i hp; rw [if_pos hp]; exact ih h
    · rename_i hp
      rw [if_neg hp]
      split at h
      · rename_i hs
        rw [if_pos hs]
        intro z hz
        rw [← List.cons_append] at hz
        rcases List.mem_append.1 hz with hz | hz
        · exact h z hz
        · rw [List.mem_singleton.1 hz]; exact hx
      · rename_i hs
        rw [if_neg hs]; exact ih h

theorem TidyFrom.init {b : Bool} {l : NList} {x : Nat × Item} (h : TidyFrom b (l ++ [x])) : TidyFrom b l := by
  induction l generalizing b with
  | nil => trivial
  | cons y r ih =>
    rw [List.cons_append] at h
    unfold TidyFrom at h ⊢
    split at h
    · rename_i hp; rw [if_pos hp]; exact ih h
    · rename_i hp
      rw [if_neg hp]
      split at h
      · rename_i hs
        rw [if_pos hs]
        intro z hz
        refine h z ?_
        rw [← List.cons_append]; exact List.mem_append_left _ hz
      · rename_i hs
        rw [if_neg hs]; exact ih h

theorem TidyFrom.dropWhile {b : Bool} {l : NList} (h : TidyFrom b l) : TidyFrom b (cleanUp l) := by
  unfold cleanUp
  induction l with
  | nil => trivial
  | cons x r ih =>
    rw [List.dropWhile_cons]
    by_cases hp : x.2.status ≠ .P
    · rw [if_pos (by simpa using hp)]
      unfold TidyFrom at h
      rw [if_pos hp] at h
      exact ih h
    · rw [if_neg (by simpa using hp)]
      exact h

/-- Marking the segment makes the marked items the segment. -/
theorem mark_candidates {b : Bool} {l : NList} (h : TidyFrom b l) :
    (markFrom b l).filter candidate = (segFrom b l).map fun x => (x.1, { x.2 with used := true }) := by
  induction l generalizing b with
  | nil => rfl
  | cons x r ih =>
    unfold TidyFrom at h
    unfold markFrom segFrom
    split at h
    · rename_i hp
      rw [if_pos hp, if_pos hp, List.filter_cons_of_neg (by rw [candidate_of_status hp]; decide), ih h]
    · rename_i hp
      rw [if_neg hp, if_neg hp]
      split at h
      · rename_i hs
        rw [if_pos hs, if_pos hs]
        exact List.filter_eq_nil_iff.2 fun y hy => by rw [h y hy]; decide
      · rename_i hs
        rw [if_neg hs, if_neg hs, List.filter_cons_of_pos, List.map_cons, ih h]
        unfold candidate
        simpa using hp

theorem TidyFrom.mark {b : Bool} {l : NList} (h : TidyFrom b l) : TidyFrom b (markFrom b l) := by
  induction l generalizing b with
  | nil => trivial
  | cons x r ih =>
    unfold TidyFrom at h
    unfold markFrom
    split at h
    · rename_i hp
      rw [if_pos hp]
      unfold TidyFrom
      rw [if_pos hp]; exact ih h
    · rename_i hp
      rw [if_neg hp]
      split at h
      · rename_i hs
        rw [if_pos hs]
        unfold TidyFrom
        rw [if_neg hp, if_pos hs]; exact h
      · rename_i hs
        rw [if_neg hs]
        unfold TidyFrom
        rw [if_neg hp, if_neg (by exact hs)]
        exact ih h

theorem markFrom_mem {b : Bool} {l : NList} {y : Nat × Item} (h : y ∈ markFrom b l) :
    ∃ x ∈ l, y = x ∨ y = (x.1, { x.2 with used := true }) := by
  induction l generalizing b with
  | nil => cases h
  | cons x r ih =>
    unfold markFrom at h
    split at h
    · rcases List.mem_cons.1 h with rfl | h
      · exact ⟨_, List.mem_cons_self, .inl rfl⟩
      · obtain ⟨z, hz, e⟩ := ih h
        exact ⟨z, List.mem_cons_of_mem _ hz, e⟩
    · split at h
      · exact ⟨y, h, .inl rfl⟩
      · rcases List.mem_cons.1 h with rfl | h
        · exact ⟨_, List.mem_cons_self, .inr rfl⟩
        · obtain ⟨z, hz, e⟩ := ih h
          exact ⟨z, List.mem_cons_of_mem _ hz, e⟩

/-- Segments do not depend on marks, hashes and the like. -/
theorem segFrom_congr {b : Bool} {l : NList} {f : Nat × Item → Nat × Item}
    (h1 : ∀ x ∈ l, (f x).2.status = x.2.status) (h3 : ∀ x ∈ l, (f x).2.isSei = x.2.isSei)
    (h4 : ∀ x ∈ l, (f x).2.isFirst = x.2.isFirst) : segFrom b (l.map f) = (segFrom b l).map f := by
  induction l generalizing b with
  | nil => rfl
  | cons x r ih =>
    have ih' : ∀ {b}, segFrom b (r.map f) = (segFrom b r).map f := ih (fun y hy => h1 y (List.mem_cons_of_mem _ hy))
      (fun y hy => h3 y (List.mem_cons_of_mem _ hy)) (fun y hy => h4 y (List.mem_cons_of_mem _ hy))
    rw [List.map_cons]
    unfold segFrom
    rw [h1 x List.mem_cons_self, h3 x List.mem_cons_self, h4 x List.mem_cons_self]
    split
    · exact ih'
    · split
      · rfl
      · rw [List.map_cons, ih']

theorem Res.Ends.and {σ α : Type} {P Q : σ → Prop} {r : Res σ α} (h : r.Ends P) (g : r.Ends Q) : r.Ends fun s => P s ∧ Q s := by
  cases r with
  | ok s a => exact ⟨h, g⟩
  | err s e => exact ⟨h, g⟩
  | ub u => trivial

namespace Validator

/-- A property that is kept by the parts of all calls where another one holds. -/
structure CallInvUnder (env : AuthEnv) (P Q : Log → Validator → Prop) : Prop where
  misc : ∀ L s s', Misc s s' → P L s → Q L s → Q L s'
  round : ∀ L s, P L s → Q L s → (s.round env).Ends (Q L)
  recurrent : ∀ L s, P L s → Q L s → (s.recurrentDecoded env).Ends (Q L)
  known : ∀ L (s : Validator), P L s → Q L s → Q L { s with d := { s.d with hashAlgoKnown := true } }
  golden : ∀ L s a n data, P L s → Q L s → (a, data) ∈ L → parseNalu data s.codec true true = .ok n →
    (s.prepareGolden env a n).Ends (Q L)
  hash : ∀ L s x, P L s → Q L s → (∃ y ∈ s.list, y.1 = x.1 ∧ y.2.nalu = x.2.nalu) → (s.hashItem env x).Ends (Q L)
  noKey : ∀ L (s : Validator), P L s → Q L s → Q L { s with d := { s.d with hasPublicKey := false } }
  mark : ∀ L (s : Validator) x st, P L s → Q L s → s.list.getLast? = some x →
    (st = .ok ∧ s.verified = 1 ∧ IsGolden x ∨ st = .N ∧ IsGolden x ∨ st = .E) →
    Q L { s with list := s.list.set x.1 fun i => { i with status := st } }
  append : ∀ L (s : Validator) n data, P L s → Q L s → parseNalu data s.codec true true = .ok n →
    Q ((s.brk, data) :: L) { s with list := s.list.append s.brk (newItem (some n)), brk := s.brk + 1 }
  update : ∀ L (s : Validator) pre a n n' data, P L s → Q L s → s.list = pre ++ [(a, newItem (some n))] → (a, data) ∈ L →
    parseNalu data s.codec true true = .ok n → 0 < n.valid → updateHashable n = .ok n' →
    Q L { s with list := s.list.set a fun i => { i with nalu := some n' } }
  copy : ∀ L (s : Validator) x n c, P L s → Q L s → x ∈ s.list → x.2.nalu = some n → copyNalu s.d.hashAlgoKnown n = .ok c →
    Q L { s with list := s.list.set x.1 fun i => { i with nalu := c, taken := true } }
  clean : ∀ L (s : Validator), P L s → Q L s → Q L { s with list := cleanUp s.list }
  reset : ∀ L (s : Validator), P L s → Q L s → Q L s.reset
  key : ∀ L (s : Validator) k, P L s → Q L s → k ≠ [] → (s.setPublicKey env k).Ends (Q L)

theorem CallInv.and {env : AuthEnv} {P Q : Log → Validator → Prop} (hP : CallInv env P) (hQ : CallInvUnder env P Q) :
    CallInv env fun L s => P L s ∧ Q L s where
  misc L s s' hm h := ⟨hP.misc L s s' hm h.1, hQ.misc L s s' hm h.1 h.2⟩
  round L s h := (hP.round L s h.1).and (hQ.round L s h.1 h.2)
  recurrent L s h := (hP.recurrent L s h.1).and (hQ.recurrent L s h.1 h.2)
  known L s h := ⟨hP.known L s h.1, hQ.known L s h.1 h.2⟩
  golden L s a n data h h1 h2 := (hP.golden L s a n data h.1 h1 h2).and (hQ.golden L s a n data h.1 h.2 h1 h2)
  hash L s x h h1 := (hP.hash L s x h.1 h1).and (hQ.hash L s x h.1 h.2 h1)
  noKey L s h := ⟨hP.noKey L s h.1, hQ.noKey L s h.1 h.2⟩
  mark L s x st h h1 h2 := ⟨hP.mark L s x st h.1 h1 h2, hQ.mark L s x st h.1 h.2 h1 h2⟩
  append L s n data h h1 := ⟨hP.append L s n data h.1 h1, hQ.append L s n data h.1 h.2 h1⟩
  update L s pre a n n' data h h1 h2 h3 h4 h5 :=
    ⟨hP.update L s pre a n n' data h.1 h1 h2 h3 h4 h5, hQ.update L s pre a n n' data h.1 h.2 h1 h2 h3 h4 h5⟩
  copy L s x n c h h1 h2 h3 := ⟨hP.copy L s x n c h.1 h1 h2 h3, hQ.copy L s x n c h.1 h.2 h1 h2 h3⟩
  clean L s h := ⟨hP.clean L s h.1, hQ.clean L s h.1 h.2⟩
  reset L s h := ⟨hP.reset L s h.1, hQ.reset L s h.1 h.2⟩
  key L s k h h1 := (hP.key L s k h.1 h1).and (hQ.key L s k h.1 h.2 h1)

/-- Pending items that are marked as used belong to the segment. -/
def Tidy (s : Validator) : Prop := TidyFrom false s.list

theorem Tidy.of_list {s t : Validator} (h : Tidy s) (e : t.list = s.list) : Tidy t := by unfold Tidy; rw [e]; exact h

theorem detectLost_list {env : AuthEnv} {s : Validator} : (s.detectLost env).Ends fun t => t.list = s.list := by
  rcases h : s.detectLost env with ⟨t, a⟩ | ⟨t, e⟩ | u
  · exact (detectLost_ok h).2.2.2.1
  · unfold detectLost at h
    dsimp only at h
    split at h
    · cases h
    · cases h; rfl
    · split at h
      · cases h
      · cases h; rfl
      · cases h
  · trivial

theorem decodeSei_list (env : AuthEnv) (s : Validator) (mem : Bytes) (size : Nat) :
    (s.decodeSei env mem size).Ends fun t => t.list = s.list := by
  unfold decodeSei
  split
  · trivial
  · refine Res.Ends.andThen' (P := fun t => t.list = s.list) ((tlvDecode_decoded env s mem size).mono fun t ht => ht.list) fun t _ _ ht => ?_
    refine Res.Ends.andThen' (P := fun t => t.list = s.list) (detectLost_list.mono fun u hu => hu.trans ht) fun u _ _ hu => ?_
    show (if _ then _ else _ : Validator).list = _
    split <;> exact hu

theorem Tidy.set {s : Validator} {a : Nat} {f : Item → Item} (h : Tidy s)
    (h1 : ∀ x ∈ s.list, x.1 = a → (f x.2).status = x.2.status ∧ (f x.2).used = x.2.used ∧
      ((f x.2).isSei = true → x.2.isSei = true) ∧ ((f x.2).isFirst = true → x.2.isFirst = true)) :
    Tidy { s with list := s.list.set a f } := TidyFrom.set (b := false) (l := s.list) h h1

theorem Tidy.setDecoded {s : Validator} (h : Tidy s) (a : Nat) :
    Tidy { s with list := s.list.set a fun i => { i with decoded := true } } :=
  h.set fun _ _ _ => ⟨rfl, rfl, fun h => h, fun h => h⟩

theorem decodeNext_tidy {env : AuthEnv} {s : Validator} {x : Nat × Item} (h : Tidy s) : (s.decodeNext env x).Ends Tidy := by
  unfold decodeNext
  split
  · exact h
  · dsimp only
    split
    · trivial
    · refine Res.Ends.andThen' ((decodeSei_list env _ _ _).mono fun t ht => h.of_list ht) fun t _ _ ht => ?_
      split
      · trivial
      · exact (ht.setDecoded x.1).of_list rfl

theorem prepareGopHash_tidy {env : AuthEnv} {s : Validator} {x : Nat × Item} (h : Tidy s)
    (h1 : ∀ y ∈ s.list, y.2.status = .P → y.1 = x.1 → y.2.isSei = true)
    (h2 : ∀ y, nextSei s.list = some y → y.1 = x.1) : (s.prepareGopHash env x.1).Ends Tidy := by
  unfold prepareGopHash
  dsimp only
  split
  · exact tidy_of_none (clearUsed_candidate _)
  · cases hg : gopLoop s.d.hashSize x.1 s.list 0 0 [] with
    | ub u => trivial
    | err e => exact tidy_of_none (clearUsed_candidate _)
    | ok p =>
      obtain ⟨l, acc⟩ := p
      obtain ⟨e, -, -⟩ := gopLoop_spec h1 h2 (Nat.zero_le _) (Nat.le_refl _) hg
      dsimp only
      subst e
      exact TidyFrom.mark h

theorem _root_.SV.Grow.sei {S : Option Nalu → Status → Prop} {l l' : NList} (hg : Grow S l l')
    {a : Nat} (h1 : ∀ y ∈ l, y.2.status = .P → y.1 = a → y.2.isSei = true) :
    ∀ y ∈ l', y.2.status = .P → y.1 = a → y.2.isSei = true := by
  intro y hy hp e
  rcases hg.mem hy with m | ⟨x, hx, e', k⟩
  · rw [m.2] at hp; cases hp
  · have hxp : x.2.status = .P := by
      rcases k.status with q | ⟨q, -⟩
      · rw [← q]; exact hp
      · exact q
    have := h1 x hx hxp (e'.trans e)
    unfold Item.isSei at this ⊢
    rw [k.nalu]; exact this

theorem nextSei_isSei {s : Validator} (w : WFs s) {x : Nat × Item} (hx : nextSei s.list = some x) :
    ∀ y ∈ s.list, y.2.status = .P → y.1 = x.1 → y.2.isSei = true := by
  intro y hy _ e
  obtain ⟨hx1, -, n, hn, hg⟩ := nextSei_spec hx
  rw [WF.unique w hy hx1 e]
  unfold Item.isSei; rw [hn]; exact hg

theorem verifyHash_list (env : AuthEnv) (s : Validator) : (s.verifyHash env).Ends fun t => t.list = s.list := by
  unfold verifyHash
  split
  · rfl
  · split
    · rfl
    · rfl

theorem prepare_tidy {env : AuthEnv} {s : Validator} (w : WFs s) (h : Tidy s) : (s.prepare env).Ends Tidy := by
  unfold prepare
  dsimp only
  refine Res.Ends.andThen' (P := Tidy) ?_ fun t _ _ ht => ?_
  · cases hx : nextSei s.list with
    | none => exact h
    | some x =>
      dsimp only
      refine Res.Ends.andThen' (decodeNext_tidy h) fun t _ e ht => ?_
      have hp := (decodeNext_prep env s x).of_ok e
      have hn := Validator.Grow.nextSei hp.list
      rw [hx] at hn
      refine Res.Ends.andThen' (P := Tidy) (detectLost_list.mono fun u hu => ht.of_list hu) fun u _ e' hu => ?_
      have hl := detectLost_list.of_ok e'
      refine prepareGopHash_tidy hu ?_ ?_
      · rw [hl]
        exact hp.list.sei (nextSei_isSei w hx)
      · intro y hy
        rw [hl] at hy
        rw [hy] at hn
        exact Option.some.inj hn
  · split
    · exact ht
    · split
      · exact (verifyHash_list env t).mono fun u hu => ht.of_list hu
      · exact ht

theorem updateLinkLoop_tidy {u v : Validator} (h : Tidy u) (hl : updateLinkLoop u u.list = .ok v) : Tidy v := by
  rcases updateLinkLoop_eq hl with e | ⟨lk, a, e⟩
  · rw [e]; exact h
  · rw [e]
    exact (h.set (a := a) (f := fun i => { i with linked := true }) fun _ _ _ => ⟨rfl, rfl, fun h => h, fun h => h⟩).of_list rfl

theorem _root_.SV.Undo.used {l l' : NList} (h : Undo l l') (hu : ∀ x ∈ l, x.2.used = false) : ∀ x ∈ l', x.2.used = false := by
  induction h with
  | nil => exact hu
  | same _ ih =>
    intro y hy
    rcases List.mem_cons.1 hy with rfl | hy
    · exact hu _ List.mem_cons_self
    · exact ih (fun z hz => hu z (List.mem_cons_of_mem _ hz)) y hy
  | @reset x l l' _ ih =>
    intro y hy
    rcases List.mem_cons.1 hy with rfl | hy
    · have := hu x List.mem_cons_self
      rcases resetStatus_cases x.2 with h | h | ⟨-, h⟩ <;> (dsimp only; rw [h]; exact this)
    · exact ih (fun z hz => hu z (List.mem_cons_of_mem _ hz)) y hy
  | drop _ _ ih => exact fun y hy => ih (fun z hz => hu z (List.mem_cons_of_mem _ hz)) y hy

/-- No item is marked as used after a validation. -/
theorem conclude_used (t : Validator) (p : Bool × Int × Int) : ∀ x ∈ (t.conclude p).list, x.2.used = false := by
  have h0 : ∀ x ∈ clearUsed t.list, x.2.used = false := by
    intro y hy
    obtain ⟨x, _, rfl⟩ := List.mem_map.1 hy
    rfl
  unfold conclude
  dsimp only
  split
  · exact (removeMissing_undo _).used h0
  · exact h0

theorem round_tidy {env : AuthEnv} {s : Validator} (w : WFs s) (h : Tidy s) : (s.round env).Ends Tidy := by
  unfold Validator.round
  have hb : Tidy s.begin := h.of_list (begin_list s)
  have wb : WFs s.begin := by unfold WFs; rw [begin_list, begin_brk]; exact w
  refine Res.Ends.andThen' (prepare_tidy wb hb) fun u _ _ hu => ?_
  cases hl : updateLinkLoop u u.list with
  | ub e => trivial
  | err e => exact absurd hl (updateLinkLoop_ne_err _ _ _)
  | ok v =>
    dsimp only
    have hv := updateLinkLoop_tidy hu hl
    unfold conduct
    split
    · unfold validate
      cases hg : v.verifyGop with
      | err t e => exact absurd hg (verifyGop_ne_err _ _ _)
      | ub e => trivial
      | ok t p =>
        refine tidy_of_none fun y hy => ?_
        unfold candidate
        rw [conclude_used t p y hy]; rfl
    · exact hv.of_list rfl

theorem Tidy.hashed {s t : Validator} (h : Tidy s) (hh : Hashed s t) : Tidy t := by
  obtain ⟨f, ⟨a, e⟩, hf⟩ := hh.items
  unfold Tidy
  rw [e]
  refine TidyFrom.set h fun x _ _ => ?_
  obtain ⟨h1, h2, e⟩ := hf x.2
  rw [e]
  exact ⟨rfl, rfl, id, id⟩

theorem updateHashable_kind {n n' : Nalu} (hu : updateHashable n = .ok n') : n'.gopSei = n.gopSei ∧ n'.firstInGop = n.firstInGop := by
  unfold updateHashable at hu
  split at hu
  · cases hu; exact ⟨rfl, rfl⟩
  · obtain ⟨o, -, hu⟩ := Out.bind_eq_ok hu
    split at hu <;> (cases hu; exact ⟨rfl, rfl⟩)

theorem copyNalu_kind {b : Bool} {n n' : Nalu} (hu : copyNalu b n = .ok (some n')) : n'.gopSei = n.gopSei ∧ n'.firstInGop = n.firstInGop := by
  unfold copyNalu at hu
  split at hu
  · cases hu
  · split at hu
    · cases hu
    · split at hu
      · cases hu
      · cases hu; exact ⟨rfl, rfl⟩

/-- In a list with unique addresses, writing to the last item changes this item only. -/
theorem set_last {l : NList} {b : Nat} (w : WF l b) {x : Nat × Item} (hx : l.getLast? = some x) (f : Item → Item) :
    ∃ pre, l = pre ++ [x] ∧ l.set x.1 f = pre ++ [(x.1, f x.2)] := by
  obtain ⟨pre, rfl⟩ := List.getLast?_eq_some_iff.1 hx
  refine ⟨pre, rfl, ?_⟩
  unfold NList.set
  rw [List.map_append, List.map_singleton, if_pos rfl]
  congr 1
  conv => rhs; rw [← List.map_id pre]
  refine List.map_congr_left fun y hy => ?_
  have hn := w.nodup
  rw [List.map_append, List.nodup_append] at hn
  rw [if_neg (hn.2.2 _ (List.mem_map_of_mem (f := Prod.fst) hy) _ (by simp))]
  rfl

theorem tidy_under (env : AuthEnv) (P : Log → Validator → Prop) (hP : ∀ L s, P L s → WFs s) :
    CallInvUnder env P fun _ => Tidy where
  misc _ s s' hm _ h := h.of_list (by rw [hm])
  round L s hp h := round_tidy (hP L s hp) h
  recurrent _ s _ h := (recurrentDecoded_decoded env s).mono fun t ht => h.of_list ht.list
  known _ _ _ h := h
  golden L s a n data hp h _ _ := by
    unfold prepareGolden
    have w := hP L s hp
    refine Res.Ends.andThen' (P := fun t => WFs t ∧ Tidy t) ?_ ?_ |>.mono fun _ h => h.2
    · refine Res.Ends.and ((decodeSei_prep env s _ _).mono fun t ht => (ht.ev noStatus).wf w) ?_
      exact (decodeSei_list env s _ _).mono fun t ht => h.of_list ht
    · intro t _ _ ht
      dsimp only
      have ht' := ht.2.setDecoded a
      have wt' : WFs { t with list := t.list.set a fun i => { i with decoded := true } } :=
        WF.of_addr ht.1 (set_addr t.list a fun i => { i with decoded := true })
      split
      · trivial
      · rename_i x _
        refine Res.Ends.andThen' (P := fun t => WFs t ∧ Tidy t) ((hashItem_hashed env _ x).mono fun u hu => ⟨?_, ht'.hashed hu⟩) fun u _ _ hu => ?_
        · have hb : u.brk = t.brk := by rw [hu.eq]
          unfold WFs
          rw [hb]
          exact WF.of_addr wt' hu.addr
        · split
          · trivial
          · split
            · trivial
            · refine Res.Ends.and ?_ (prepare_tidy hu.1 (hu.2.of_list rfl))
              exact (prepare_prep env _).mono fun v hv => (hv.ev noStatus).wf hu.1
  hash _ s x _ h _ := (hashItem_hashed env s x).mono fun t ht => h.hashed ht
  noKey _ _ _ h := h
  mark L s x st hp h hx hst := by
    obtain ⟨pre, e1, e2⟩ := set_last (hP L s hp) hx fun i => { i with status := st }
    unfold Tidy at h ⊢
    dsimp only
    rw [e2]
    rw [e1] at h
    refine h.init.append (candidate_of_status ?_)
    rcases hst with ⟨e, -⟩ | ⟨e, -⟩ | e <;> (dsimp only; rw [e]; decide)
  append L s n data _ h _ := TidyFrom.append h rfl
  update L s pre a n n' data hp h hl _ _ _ hu := by
    refine h.set fun x hx e => ?_
    have : x = (a, newItem (some n)) := WF.unique (hP L s hp) hx (by rw [hl]; exact List.mem_append_right _ List.mem_cons_self) e
    rw [this]
    refine ⟨rfl, rfl, ?_, ?_⟩
    · show n'.gopSei = true → n.gopSei = true
      rw [(updateHashable_kind hu).1]; exact id
    · show n'.firstInGop = true → n.firstInGop = true
      rw [(updateHashable_kind hu).2]; exact id
  copy L s x n c hp h hx hn hc := by
    refine h.set fun y hy e => ?_
    have : y = x := WF.unique (hP L s hp) hy hx e
    subst this
    refine ⟨rfl, rfl, ?_, ?_⟩
    · unfold Item.isSei
      dsimp only
      cases c with
      | none => exact fun h => (by cases h)
      | some n' => rw [hn]; dsimp only; rw [(copyNalu_kind hc).1]; exact id
    · unfold Item.isFirst
      dsimp only
      cases c with
      | none => exact fun h => (by cases h)
      | some n' => rw [hn]; dsimp only; rw [(copyNalu_kind hc).2]; exact id
  clean L s _ h := TidyFrom.dropWhile h
  reset L s _ _ := trivial
  key L s k _ h hk := by
    unfold setPublicKey
    rw [if_neg hk]
    split
    · exact h
    · split
      · exact h
      · dsimp only
        split
        · exact h.of_list rfl
        · exact h.of_list rfl

end Validator
end SV
