import Verif.Proofs.AuthCall
import Verif.Spec.Match
import Verif.Props.AuthDemo
import Verif.Proofs.AuthHang
/-! Comparison of the received NAL units with a signed list of hashes (C43). -/
namespace SV
open Spec Validator

/-- The hash of an item that is compared with the list: the one with its own reference for a NAL unit that starts a GOP. -/
def hashOf (hs : Nat) (x : Nat × Item) : Bytes :=
  buf hs (if x.2.isFirst then x.2.second.getD [] else x.2.hash)

/-- The items that are compared with the list. -/
def candidate (x : Nat × Item) : Bool := x.2.used && decide (x.2.status = .P)

theorem searchFrom_found {h : Bytes} {hashes : List Bytes} {k : Nat} (hf : searchFrom h hashes k < hashes.length) :
    k ≤ searchFrom h hashes k ∧ hashes[searchFrom h hashes k]? = some h ∧
      ∀ j, k ≤ j → j < searchFrom h hashes k → hashes[j]? ≠ some h := by
  unfold searchFrom at *
  generalize ht : (hashes.drop k).takeWhile (fun e => decide (e ≠ h)) = t at *
  have hsplit := List.takeWhile_append_dropWhile (p := fun e => decide (e ≠ h)) (l := hashes.drop k)
  rw [ht] at hsplit
  generalize hd : (hashes.drop k).dropWhile (fun e => decide (e ≠ h)) = d at *
  have hget : ∀ j, hashes[k + j]? = (t ++ d)[j]? := fun j => by rw [hsplit, List.getElem?_drop]
  refine ⟨by omega, ?_, ?_⟩
  · rw [hget, List.getElem?_append_right (by omega), Nat.sub_self]
    cases d with
    | nil =>
      have : (hashes.drop k).length = t.length := by rw [← hsplit]; simp
      rw [List.length_drop] at this; omega
    | cons a d =>
      have := List.head?_dropWhile_not (fun e => decide (e ≠ h)) (hashes.drop k)
      rw [hd] at this
      simp at this
      simp [this]
  · intro j hk hj hc
    obtain ⟨i, rfl⟩ : ∃ i, j = k + i := ⟨j - k, by omega⟩
    rw [hget, List.getElem?_append_left (by omega)] at hc
    have hm := List.mem_of_getElem? hc
    rw [← ht] at hm
    have := List.all_eq_true.1 (List.all_takeWhile (p := fun e => decide (e ≠ h)) (l := hashes.drop k)) _ hm
    simp at this

theorem searchFrom_none {h : Bytes} {hashes : List Bytes} {k : Nat} (hf : ¬ searchFrom h hashes k < hashes.length) :
    ∀ j, k ≤ j → hashes[j]? ≠ some h := by
  intro j hk hc
  unfold searchFrom at hf
  have hj : j < hashes.length := (List.getElem?_eq_some_iff.1 hc).1
  obtain ⟨i, rfl⟩ : ∃ i, j = k + i := ⟨j - k, by omega⟩
  have hlen : ((hashes.drop k).takeWhile (fun e => decide (e ≠ h))).length = (hashes.drop k).length := by
    have h1 := List.takeWhile_append_dropWhile (p := fun e => decide (e ≠ h)) (l := hashes.drop k)
    have h2 : (hashes.drop k).length = ((hashes.drop k).takeWhile (fun e => decide (e ≠ h))).length + ((hashes.drop k).dropWhile (fun e => decide (e ≠ h))).length := by
      rw [← List.length_append, h1]
    rw [List.length_drop] at *
    omega
  have hall : (hashes.drop k).takeWhile (fun e => decide (e ≠ h)) = hashes.drop k :=
    (List.takeWhile_sublist _).eq_of_length hlen
  have hm : h ∈ hashes.drop k := by
    refine List.mem_of_getElem? (i := i) ?_
    rw [List.getElem?_drop]; exact hc
  rw [← hall] at hm
  have := List.all_eq_true.1 (List.all_takeWhile (p := fun e => decide (e ≠ h)) (l := hashes.drop k)) _ hm
  simp at this

/-- What the loop expects of the items: the ones to be compared are no SEIs, have hashes, and do not follow the SEI. -/
structure Comparable (sei : Nat) (prev : Option Nat) (l : NList) : Prop where
  noSei : ∀ x ∈ l, candidate x = true → x.2.isSei = false ∧ (x.2.isFirst = true → x.2.linked = true)
  notAfter : ∀ pre x post, l = pre ++ x :: post → candidate x = true → ((pre.map Prod.fst).getLast?.or prev) ≠ some sei

theorem Comparable.tail {sei : Nat} {prev : Option Nat} {x : Nat × Item} {l : NList} (h : Comparable sei prev (x :: l)) :
    Comparable sei (some x.1) l := by
  refine ⟨fun y hy => h.noSei y (by simp [hy]), fun pre y post e hc => ?_⟩
  have := h.notAfter (x :: pre) y post (by rw [e]; rfl) hc
  cases pre with
  | nil => simpa using this
  | cons z pre => rw [List.map_cons, List.map_cons, List.getLast?_cons_cons] at this; simpa [List.getLast?_cons] using this

theorem hashListLoop_spec {hs : Nat} {hashes : List Bytes} {sei : Nat} {l l' : NList} {prev : Option Nat} {m m' : Match}
    (hc : Comparable sei prev l) (hm : -1 ≤ m.latest) (h : hashListLoop hs hashes sei l prev m = .ok (l', m')) :
    ∃ os, Matches hashes (m.latest + 1).toNat ((l.filter candidate).map (hashOf hs)) os ∧
      Woven candidate l l' (gaps (m.latest + 1).toNat m.invalid m.orderOk os) ∧
      m'.latest + 1 = (final (m.latest + 1).toNat m.invalid os).1 ∧ m'.invalid = (final (m.latest + 1).toNat m.invalid os).2 ∧
      m'.count = m.count + os.length ∧ (l.filter candidate = [] → m'.lastUsed = m.lastUsed ∧ m'.compare = m.compare) ∧
      (∀ x, (l.filter candidate).getLast? = some x → m'.lastUsed = some x.1 ∧
        (m'.latest = m'.compare ↔ (final (m.latest + 1).toNat m.invalid os).2 = 0)) := by
  induction l generalizing prev m l' m' with
  | nil => cases h; exact ⟨[], .nil _, .nil, by simp only [final]; omega, rfl, rfl, fun _ => ⟨rfl, rfl⟩, by simp⟩
  | cons x r ih =>
    rw [hashListLoop] at h
    by_cases hx : x.2.status ≠ .P ∨ x.2.used = false
    · rw [if_pos hx] at h
      obtain ⟨p, h1, h2⟩ := Out.bind_eq_ok h
      cases h2
      have hcx : candidate x = false := by
        unfold candidate
        rcases hx with e | e
        · simp [e]
        · simp [e]
      obtain ⟨os, g1, g2, g3⟩ := ih hc.tail hm h1
      rw [List.filter_cons_of_neg (by simp [hcx])]
      exact ⟨os, g1, .skip hcx g2, g3⟩
    · rw [if_neg hx] at h
      have hcx : candidate x = true := by
        unfold candidate
        have h1 : ¬ x.2.status ≠ .P := fun hh => hx (.inl hh)
        have h2 : ¬ x.2.used = false := fun hh => hx (.inr hh)
        simp at h1 h2
        simp [h1, h2]
      rw [List.filter_cons_of_pos hcx, List.map_cons]
      cases hn : x.2.nalu with
      | none => rw [hn] at h; cases h
      | some n =>
        rw [hn] at h
        dsimp only at h
        obtain ⟨q1, q2⟩ := hc.noSei x (by simp) hcx
        have e1 : x.2.isSei = n.gopSei := by unfold Item.isSei; rw [hn]
        have e2 : x.2.isFirst = n.firstInGop := by unfold Item.isFirst; rw [hn]
        rw [e1] at q1; rw [e2] at q2
        have hstop : (n.gopSei || (n.firstInGop && !x.2.linked)) = false := by
          rw [q1]
          cases hf : n.firstInGop with
          | false => rfl
          | true => rw [q2 hf]; rfl
        rw [hstop, if_neg (by decide)] at h
        have hafter : ¬ prev = some sei := by
          have := hc.notAfter [] x r rfl hcx
          simpa using this
        cases hh : (if n.firstInGop = true then x.2.second else some x.2.hash) with
        | none => rw [hh] at h; cases h
        | some hv =>
          rw [hh] at h
          dsimp only at h
          have hof : hashOf hs x = buf hs hv := by
            unfold hashOf
            rw [e2]
            cases hf : n.firstInGop with
            | false => rw [hf] at hh; simp at hh; simp [hh]
            | true => rw [hf] at hh; simp at hh; simp [hh]
          rw [if_neg hafter] at h
          rw [hof]
          by_cases hfound : searchFrom (buf hs hv) hashes (m.latest + 1).toNat < hashes.length
          · simp only [if_pos hfound] at h
            obtain ⟨p, h1, h2⟩ := Out.bind_eq_ok h
            cases h2
            obtain ⟨f1, f2, f3⟩ := searchFrom_found hfound
            generalize hi : searchFrom (buf hs hv) hashes (m.latest + 1).toNat = i at *
            obtain ⟨os, g1, g2, g3, g4, g5, g6, g7⟩ := ih hc.tail (by dsimp only; omega) h1
            dsimp only at g1 g2 g3 g4 g5 g6 g7
            rw [show ((i : Int) + 1).toNat = i + 1 by omega] at g1 g2 g3 g4 g7
            refine ⟨some i :: os, .hit f1 f2 f3 g1, ?_, g3, g4, by rw [List.length_cons, g5]; omega, by simp, ?_⟩
            rotate_left
            · intro y hy
              cases hl : r.filter candidate with
              | nil =>
                rw [hl] at hy
                simp at hy; subst hy
                obtain ⟨k1, k2⟩ := g6 hl
                rw [hl] at g1
                cases g1
                have e3 : p.2.latest = i := by
                  have : (final (i + 1) 0 []).1 = i + 1 := rfl
                  omega
                exact ⟨k1, by rw [e3, k2]; exact iff_of_true rfl rfl⟩
              | cons z zs =>
                rw [hl, List.getLast?_cons_cons] at hy
                exact g7 y (by rw [hl]; exact hy)
            rw [show ((i : Int) - m.latest - 1 - m.invalid).toNat = i - (m.latest + 1).toNat - m.invalid by omega]
            unfold gaps
            have := Woven.item (st := if m.orderOk then .ok else .N) (new := (List.range' m.brk ((i : Int) - m.latest - 1 - m.invalid).toNat).map fun a => (a, missingItem)) hcx
              (by intro y hy; obtain ⟨a, -, rfl⟩ := List.mem_map.1 hy; rfl) g2
            simp only [List.length_map, List.length_range'] at this
            rw [show ((i : Int) - m.latest - 1 - m.invalid).toNat = i - (m.latest + 1).toNat - m.invalid by omega] at this
            have hst : (if i < hashes.length ∧ m.orderOk = true then Status.ok else .N) = if m.orderOk then .ok else .N := by
              cases m.orderOk <;> simp [hfound]
            rw [hst]
            exact this
          · simp only [if_neg hfound] at h
            obtain ⟨p, h1, h2⟩ := Out.bind_eq_ok h
            cases h2
            have hge : (m.latest + 1).toNat ≤ searchFrom (buf hs hv) hashes (m.latest + 1).toNat := Nat.le_add_right _ _
            obtain ⟨os, g1, g2, g3, g4, g5, g6, g7⟩ := ih hc.tail (by dsimp only; omega) h1
            dsimp only at g1 g2 g3 g4 g5 g6 g7
            refine ⟨none :: os, .miss (searchFrom_none hfound) g1, ?_, g3, g4, by rw [List.length_cons, g5]; omega, by simp, ?_⟩
            rotate_left
            · intro y hy
              cases hl : r.filter candidate with
              | nil =>
                rw [hl] at hy
                simp at hy; subst hy
                obtain ⟨k1, k2⟩ := g6 hl
                rw [hl] at g1
                cases g1
                exact ⟨k1, by simp only [final] at g3 ⊢; omega⟩
              | cons z zs =>
                rw [hl, List.getLast?_cons_cons] at hy
                exact g7 y (by rw [hl]; exact hy)
            unfold gaps
            have := Woven.item (st := .N) (new := []) hcx (by simp) g2
            rw [if_neg (fun hh => hfound hh.1)]
            simpa using this

theorem _root_.SV.Spec.Matches.length {α : Type} {signed : List α} {k : Nat} {rs : List α} {os : List (Option Nat)} (h : Matches signed k rs os) :
    os.length = rs.length := by
  induction h with
  | nil => rfl
  | hit _ _ _ _ ih => simp [ih]
  | miss _ _ ih => simp [ih]

/-- The received hashes that have a position occur in this order in the signed ones. -/
theorem _root_.SV.Spec.Matches.sublist {α : Type} {signed : List α} {k : Nat} {rs : List α} {os : List (Option Nat)} (h : Matches signed k rs os) :
    (matched rs os).Sublist (signed.drop k) := by
  induction h with
  | nil => simp [matched]
  | @hit k i a hs os hk hi _ _ ih =>
    have : signed.drop k = (signed.drop k).take (i - k) ++ a :: signed.drop (i + 1) := by
      conv => lhs; rw [← List.take_append_drop (i - k) (signed.drop k)]
      congr 1
      rw [List.drop_drop, show k + (i - k) = i by omega]
      obtain ⟨hl, he⟩ := List.getElem?_eq_some_iff.1 hi
      rw [List.drop_eq_getElem_cons hl, he]
    rw [this]
    exact ((ih.cons_cons a)).trans (List.sublist_append_right _ _)
  | @miss k a hs os _ hr ih =>
    cases hr <;> exact ih

/-- A received hash that is not a signed one has no position. -/
theorem _root_.SV.Spec.Matches.none_of_not_mem {α : Type} {signed : List α} {k : Nat} {rs : List α} {os : List (Option Nat)}
    (h : Matches signed k rs os) {j : Nat} {a : α} (hj : rs[j]? = some a) (ha : a ∉ signed) : os[j]? = some none := by
  induction h generalizing j with
  | nil => cases hj
  | hit _ hi _ _ ih =>
    cases j with
    | zero => cases hj; exact absurd (List.mem_of_getElem? hi) ha
    | succ j => exact ih hj
  | miss _ _ ih =>
    cases j with
    | zero => rfl
    | succ j => exact ih hj

/-- If all received hashes have a position, the received ones and the ones reported as missing before them make up the signed
ones up to the latest match. -/
theorem gaps_total {α : Type} {signed : List α} {k : Nat} {rs : List α} {os : List (Option Nat)} (h : Matches signed k rs os)
    (good : Bool) (ha : none ∉ os) : ((gaps k 0 good os).map Prod.fst).sum + rs.length + k = (final k 0 os).1 := by
  induction h generalizing good with
  | nil => simp [gaps, final]
  | hit hk _ _ _ ih =>
    have := ih true (fun hc => ha (by simp [hc]))
    simp only [gaps, final, List.map_cons, List.sum_cons, List.length_cons]
    omega
  | miss => exact absurd List.mem_cons_self ha

theorem final_le {α : Type} {signed : List α} {k inv : Nat} {rs : List α} {os : List (Option Nat)} (h : Matches signed k rs os)
    (hk : k ≤ signed.length) : (final k inv os).1 ≤ signed.length := by
  induction h generalizing inv with
  | nil => exact hk
  | hit _ hi _ _ ih =>
    have := (List.getElem?_eq_some_iff.1 hi).1
    exact ih (by omega)
  | miss _ _ ih => exact ih hk

theorem final_inv {α : Type} {signed : List α} {k : Nat} {rs : List α} {os : List (Option Nat)} (h : Matches signed k rs os)
    (ha : none ∉ os) : (final k 0 os).2 = 0 := by
  induction h with
  | nil => rfl
  | hit _ _ _ _ ih => exact ih (fun hc => ha (by simp [hc]))
  | miss => exact absurd List.mem_cons_self ha

theorem _root_.SV.Spec.Woven.length {c : Nat × Item → Bool} {l l' : NList} {ss : List (Nat × Status)} (h : Woven c l l' ss) :
    l'.length = l.length + (ss.map Prod.fst).sum := by
  induction h with
  | nil => rfl
  | skip _ _ ih => simp only [List.length_cons, ih]; omega
  | item _ _ _ ih => simp only [List.length_append, List.length_cons, ih, List.map_cons, List.sum_cons]; omega

theorem addMissing_length {s : Validator} {n : Int} {app : Bool} {x : Nat × Item} (w : WF s.list s.brk) (hx : x ∈ s.list) :
    (s.addMissing n app x.1).list.length = s.list.length + n.toNat := by
  unfold addMissing
  split
  · rename_i h
    rw [show n.toNat = 0 by omega]; rfl
  · have := (insertMissing_perm n.toNat app w ⟨x, hx, rfl⟩).length_eq
    simp only [List.length_map, List.length_append, List.length_range'] at this
    exact this

theorem addMissing_mem {s : Validator} {n : Int} {app : Bool} {a : Nat} {y : Nat × Item} (h : y ∈ s.list) :
    ∃ z ∈ (s.addMissing n app a).list, z.1 = y.1 := by
  unfold addMissing
  split
  · exact ⟨y, h, rfl⟩
  · obtain ⟨z, hz, e, -⟩ := (insertMissing_grow noStatus s.list s.brk n.toNat app a).mem' h
    exact ⟨z, hz, e⟩

theorem _root_.SV.Spec.Woven.mem {c : Nat × Item → Bool} {l l' : NList} {ss : List (Nat × Status)} (h : Woven c l l' ss)
    {x : Nat × Item} (hx : x ∈ l) (hc : c x = false) : x ∈ l' := by
  induction h with
  | nil => exact hx
  | skip _ _ ih =>
    rcases List.mem_cons.1 hx with rfl | hx
    · simp
    · exact List.mem_cons_of_mem _ (ih hx)
  | item hc' _ _ ih =>
    rcases List.mem_cons.1 hx with rfl | hx
    · rw [hc] at hc'; cases hc'
    · simp [ih hx]

theorem _root_.SV.Spec.Woven.addr {c : Nat × Item → Bool} {l l' : NList} {ss : List (Nat × Status)} (h : Woven c l l' ss)
    {x : Nat × Item} (hx : x ∈ l) : ∃ y ∈ l', y.1 = x.1 := by
  induction h with
  | nil => cases hx
  | skip _ _ ih =>
    rcases List.mem_cons.1 hx with rfl | hx
    · exact ⟨_, List.mem_cons_self, rfl⟩
    · obtain ⟨y, hy, e⟩ := ih hx
      exact ⟨y, List.mem_cons_of_mem _ hy, e⟩
  | item hc' _ _ ih =>
    rcases List.mem_cons.1 hx with rfl | hx
    · exact ⟨_, List.mem_append_right _ List.mem_cons_self, rfl⟩
    · obtain ⟨y, hy, e⟩ := ih hx
      exact ⟨y, List.mem_append_right _ (List.mem_cons_of_mem _ hy), e⟩

theorem final_zero (inv : Nat) (os : List (Option Nat)) (h : (final 0 inv os).1 = 0) : (final 0 inv os).2 = inv + os.length := by
  have pos : ∀ (os : List (Option Nat)) (k inv : Nat), k ≤ (final k inv os).1 ∨ 0 < (final k inv os).1 := by
    intro os
    induction os with
    | nil => intro k inv; exact .inl (Nat.le_refl k)
    | cons o os ih =>
      intro k inv
      cases o with
      | none => exact ih k (inv + 1)
      | some i =>
        rcases ih (i + 1) 0 with h | h
        · right; simp only [final]; omega
        · exact .inr h
  induction os generalizing inv with
  | nil => rfl
  | cons o os ih =>
    cases o with
    | none => rw [final] at h ⊢; rw [ih _ h]; simp only [List.length_cons]; omega
    | some i =>
      rw [final] at h
      rcases pos os (i + 1) 0 with h' | h' <;> omega

/-- A pending SEI may become valid. -/
def SeiOk (n : Option Nalu) (st : Status) : Prop := st = .ok ∧ ∃ m, n = some m ∧ m.gopSei = true

theorem set_length (l : NList) (a : Nat) (f : Item → Item) : (l.set a f).length = l.length := by
  unfold NList.set; exact List.length_map _

/-- How many NAL units are reported as missing at the end: the rest of the signed ones if the last received one has a
position; all but the modified ones if none has a position. -/
def tailMissing (n : Nat) (os : List (Option Nat)) : Nat :=
  if (final 0 0 os).1 = 0 then n - (final 0 0 os).2 else if (final 0 0 os).2 = 0 then n - (final 0 0 os).1 else 0

/-- **C43**: let the received NAL units of a GOP be compared with the signed list of hashes. There is an assignment of
positions by first occurrence in order, such that each received NAL unit with a position is marked valid (except the first
one after a broken link), each other one invalid, and before each one with a position as many missing ones are inserted as
were skipped without being replaced by invalid ones. What is marked valid is a selection of the signed hashes in their order.
Expected are as many NAL units as signed hashes, received as many as there are candidates; the list gets as many further
items as `tailMissing` says. -/
theorem C43_hash_list {s s' : Validator} {good : Bool} {p : Bool × Int × Int} {sei : Nat × Item} (w : WF s.list s.brk)
    (hn : nextSei s.list = some sei) (hc : Comparable sei.1 none s.list) (h : s.withHashList good = .ok s' p) :
    ∃ os l1, Matches (chunk s.d.hashSize s.d.hashList) 0 ((s.list.filter candidate).map (hashOf s.d.hashSize)) os ∧
      Woven candidate s.list l1 (gaps 0 0 good os) ∧
      (matched ((s.list.filter candidate).map (hashOf s.d.hashSize)) os).Sublist (chunk s.d.hashSize s.d.hashList) ∧
      p = (true, ((chunk s.d.hashSize s.d.hashList).length : Int), ((s.list.filter candidate).length : Int)) ∧
      Grow SeiOk l1 s'.list ∧
      s'.list.length = l1.length + tailMissing (chunk s.d.hashSize s.d.hashList).length os := by
  unfold withHashList at h
  split at h
  · cases h
  · rw [hn] at h
    dsimp only at h
    split at h
    · cases h
    · cases h
    · rename_i l m hl
      obtain ⟨os, g1, g2, g3, g4, g5, g6, g7⟩ := hashListLoop_spec hc (Int.le_refl _) hl
      dsimp only at g1 g2 g3 g4 g5 g6 g7
      rw [show ((-1 : Int) + 1).toNat = 0 from rfl] at g1 g2 g3 g4 g7
      have wl : WF l m.brk := (hashListLoop_evolves _ _ _ hl).wf w
      obtain ⟨hsm, hsP, hsn⟩ := nextSei_spec hn
      have hsc : candidate sei = false := by
        cases hcs : candidate sei with
        | false => rfl
        | true =>
          obtain ⟨n, e1, e2⟩ := hsn
          have := (hc.noSei sei hsm hcs).1
          unfold Item.isSei at this
          rw [e1] at this
          exact absurd (this.symm.trans e2) (by decide)
      have hsl : sei ∈ l := g2.mem hsm hsc
      have hlen : os.length = (s.list.filter candidate).length := by rw [g1.length, List.length_map]
      have hne : l ≠ [] := fun e => by rw [e] at hsl; cases hsl
      generalize chunk s.d.hashSize s.d.hashList = hashes at *
      -- one of the two additions at the end, or none
      have key : ∀ t : Validator, Evolves noStatus l m.brk t.list t.brk → t.list.length = l.length + tailMissing hashes.length os →
          .ok { t with list := t.list.set sei.1 fun i => { i with status := .ok } } (true, (hashes.length : Int), (m.count : Int)) =
            Res.ok s' p →
          p = (true, (hashes.length : Int), ((s.list.filter candidate).length : Int)) ∧ Grow SeiOk l s'.list ∧
            s'.list.length = l.length + tailMissing hashes.length os := by
        intro t ht hlt he
        cases he
        refine ⟨by rw [g5, Nat.zero_add, hlen], ?_, ?_⟩
        · refine (ht.grow.mono (fun _ _ hf => absurd hf id)).trans ?_
          dsimp only
          refine Grow.set fun x hx e => ?_
          obtain ⟨y, hy, e', k⟩ := ht.grow.mem' hsl
          have : x = y := (ht.wf wl).unique hx hy (by rw [e, e'])
          subst this
          refine ⟨rfl, rfl, rfl, id, .inr ⟨?_, rfl, ?_⟩⟩
          · rcases k.status with k | ⟨-, k⟩
            · rw [k]; exact hsP
            · exact absurd k id
          · obtain ⟨n, e1, e2⟩ := hsn
            exact ⟨n, by rw [k.nalu, e1], e2⟩
        · dsimp only
          rw [set_length, hlt]
      refine ⟨os, l, g1, g2, by simpa using g1.sublist, ?_⟩
      clear hl
      have hz := final_zero 0 os
      generalize hs0 : ({ s with list := l, brk := m.brk } : Validator) = s0 at h
      have l0 : s0.list = l := by rw [← hs0]
      have b0 : s0.brk = m.brk := by rw [← hs0]
      have w0 : WF s0.list s0.brk := by rw [l0, b0]; exact wl
      have e0 : Evolves noStatus l m.brk s0.list s0.brk := by rw [l0, b0]; exact Evolves.refl _ _ _
      clear hs0
      by_cases hA : m.latest = -1
      · have f0 : (final 0 0 os).1 = 0 := by omega
        have hcmp : m.latest ≠ m.compare := by
          cases hcand : (s.list.filter candidate).getLast? with
          | none =>
            have := g6 (List.getLast?_eq_none_iff.1 hcand)
            rw [this.2, hA]; decide
          | some x =>
            intro hc
            have h1 := (g7 x hcand).2.1 hc
            have h2 := hz f0
            have h3 := List.length_pos_of_mem (List.mem_of_getLast? hcand)
            omega
        rw [if_pos hA, if_pos hcmp] at h
        obtain ⟨f, r, hl0⟩ := List.exists_cons_of_ne_nil hne
        have hfm : f ∈ s0.list := by rw [l0, hl0]; simp
        rw [hl0] at h
        dsimp only at h
        refine key _ (e0.trans (addMissing_evolves _ _ _ _ _ w0)) ?_ h
        rw [addMissing_length w0 hfm, l0]
        unfold tailMissing
        rw [if_pos f0]
        omega
      · have f0 : ¬ (final 0 0 os).1 = 0 := by omega
        rw [if_neg hA] at h
        obtain ⟨x, hx⟩ : ∃ x, (s.list.filter candidate).getLast? = some x := by
          cases hcand : (s.list.filter candidate).getLast? with
          | some x => exact ⟨x, rfl⟩
          | none =>
            have h1 := List.getLast?_eq_none_iff.1 hcand
            rw [h1] at hlen
            rw [List.length_eq_zero_iff.1 hlen] at f0
            exact absurd rfl f0
        obtain ⟨k1, k2⟩ := g7 x hx
        by_cases hB : m.latest = m.compare
        · rw [if_neg (fun hh => hh hB), k1] at h
          dsimp only at h
          obtain ⟨y, hy, ey⟩ := g2.addr (List.mem_filter.1 (List.mem_of_getLast? hx)).1
          refine key _ (e0.trans (addMissing_evolves _ _ _ _ _ w0)) ?_ h
          rw [← ey, addMissing_length w0 (by rw [l0]; exact hy), l0]
          unfold tailMissing
          rw [if_neg f0, if_pos (k2.1 hB)]
          omega
        · rw [if_pos hB] at h
          refine key _ e0 ?_ h
          rw [l0]
          unfold tailMissing
          rw [if_neg f0, if_neg (fun hh => hB (k2.2 hh))]
          rfl

theorem sublist_tail {α : Type} {a : α} {hs pre rest : List α} (ha : a ∉ pre) (h : (a :: hs).Sublist (pre ++ a :: rest)) :
    hs.Sublist rest := by
  induction pre with
  | nil =>
    rcases h with _ | h | h
    · rename_i h; exact (List.sublist_cons_self a hs).trans h
    · assumption
  | cons b pre ih =>
    rw [List.cons_append] at h
    cases h with
    | cons _ h => exact ih (fun hc => ha (by simp [hc])) h
    | cons_cons _ h => exact absurd (by simp) ha

theorem _root_.SV.Spec.Matches.complete {α : Type} {signed : List α} {k : Nat} {rs : List α} {os : List (Option Nat)}
    (h : Matches signed k rs os) (hsub : rs.Sublist (signed.drop k)) : none ∉ os := by
  induction h with
  | nil => simp
  | @hit k i a hs os hk hi hno _ ih =>
    have hsplit : signed.drop k = (signed.drop k).take (i - k) ++ a :: signed.drop (i + 1) := by
      conv => lhs; rw [← List.take_append_drop (i - k) (signed.drop k)]
      congr 1
      rw [List.drop_drop, show k + (i - k) = i by omega]
      obtain ⟨hl, he⟩ := List.getElem?_eq_some_iff.1 hi
      rw [List.drop_eq_getElem_cons hl, he]
    rw [hsplit] at hsub
    have : a ∉ (signed.drop k).take (i - k) := by
      intro hm
      obtain ⟨j, hj⟩ := List.getElem?_of_mem hm
      rw [List.getElem?_take] at hj
      split at hj
      · rename_i hlt
        rw [List.getElem?_drop] at hj
        exact hno (k + j) (by omega) (by omega) hj
      · cases hj
    have := ih (sublist_tail this hsub)
    simp [this]
  | @miss k a hs os hno _ ih =>
    have : a ∈ signed.drop k := hsub.subset (by simp)
    obtain ⟨j, hj⟩ := List.getElem?_of_mem this
    rw [List.getElem?_drop] at hj
    exact absurd hj (hno (k + j) (by omega))

theorem gaps_ok {os : List (Option Nat)} {k inv : Nat} (h : none ∉ os) : ∀ x ∈ gaps k inv true os, x.2 = .ok := by
  induction os generalizing k inv with
  | nil => simp [gaps]
  | cons o os ih =>
    cases o with
    | none => simp at h
    | some i =>
      intro x hx
      rw [gaps] at hx
      rcases List.mem_cons.1 hx with rfl | hx
      · rfl
      · exact ih (fun hc => h (by simp [hc])) x hx

theorem _root_.SV.Spec.Woven.status {c : Nat × Item → Bool} {l l' : NList} {ss : List (Nat × Status)} {st : Status}
    (h : Woven c l l' ss) (hs : ∀ x ∈ ss, x.2 = st) {x : Nat × Item} (hx : x ∈ l) (hc : c x = true) :
    (x.1, { x.2 with status := st }) ∈ l' := by
  induction h with
  | nil => cases hx
  | skip hc' _ ih =>
    rcases List.mem_cons.1 hx with rfl | hx
    · rw [hc] at hc'; cases hc'
    · exact List.mem_cons_of_mem _ (ih hs hx)
  | item hc' _ _ ih =>
    rcases List.mem_cons.1 hx with rfl | hx
    · rw [← hs _ List.mem_cons_self]
      exact List.mem_append_right _ List.mem_cons_self
    · exact List.mem_append_right _ (List.mem_cons_of_mem _ (ih (fun y hy => hs y (by simp [hy])) hx))

/-- **C43**: if NAL units of a GOP were only lost, that is, if the received hashes are some of the signed ones in their order,
and the link to the previous GOP holds, then all received NAL units are marked valid and exactly as many missing ones are
reported as were lost. -/
theorem C43_losses {s s' : Validator} {p : Bool × Int × Int} {sei : Nat × Item} (w : WF s.list s.brk)
    (hn : nextSei s.list = some sei) (hc : Comparable sei.1 none s.list) (h : s.withHashList true = .ok s' p)
    (hsub : ((s.list.filter candidate).map (hashOf s.d.hashSize)).Sublist (chunk s.d.hashSize s.d.hashList)) :
    s'.list.length + (s.list.filter candidate).length = s.list.length + (chunk s.d.hashSize s.d.hashList).length ∧
    ∀ x ∈ s.list, candidate x = true → ∃ y ∈ s'.list, y.1 = x.1 ∧ y.2.status = .ok := by
  obtain ⟨os, l1, g1, g2, -, -, g5, g6⟩ := C43_hash_list w hn hc h
  have hno := g1.complete (by simpa using hsub)
  refine ⟨?_, fun x hx hcx => ?_⟩
  · have h1 := gaps_total g1 true hno
    have h2 := final_inv g1 hno
    have h3 := final_le (inv := 0) g1 (Nat.zero_le _)
    have h4 := g2.length
    have h5 : (final 0 0 os).1 = 0 → (final 0 0 os).2 = 0 + os.length := final_zero 0 os
    have h6 := g1.length
    unfold tailMissing at g6
    rw [List.length_map] at h1 h6
    split at g6 <;> omega
  · have hm := g2.status (gaps_ok hno) hx hcx
    obtain ⟨y, hy, e, k⟩ := g5.mem' hm
    refine ⟨y, hy, e, ?_⟩
    rcases k.status with k | ⟨k, -⟩
    · exact k
    · cases k

/-! ### An example -/

/-- Sufficient check of what the comparison expects. -/
def comparableB (sei : Nat) : Option Nat → NList → Bool
  | _, [] => true
  | prev, x :: r => (!candidate x || (!x.2.isSei && (!x.2.isFirst || x.2.linked) && decide (prev ≠ some sei))) && comparableB sei (some x.1) r

theorem Comparable.of_check {sei : Nat} {prev : Option Nat} {l : NList} (h : comparableB sei prev l = true) : Comparable sei prev l := by
  induction l generalizing prev with
  | nil => exact ⟨by simp, fun pre x post e => by cases pre <;> cases e⟩
  | cons x r ih =>
    rw [comparableB, Bool.and_eq_true] at h
    have hr := ih h.2
    have hx : candidate x = true → x.2.isSei = false ∧ (x.2.isFirst = true → x.2.linked = true) ∧ prev ≠ some sei := by
      intro hc
      have := h.1
      rw [hc] at this
      simp only [Bool.not_true, Bool.false_or, Bool.and_eq_true, Bool.not_eq_true', Bool.or_eq_true, decide_eq_true_eq] at this
      exact ⟨this.1.1, fun hf => this.1.2.resolve_left (by rw [hf]; decide), this.2⟩
    refine ⟨fun y hy hc => ?_, fun pre y post e hc => ?_⟩
    · rcases List.mem_cons.1 hy with rfl | hy
      · exact ⟨(hx hc).1, (hx hc).2.1⟩
      · exact hr.noSei y hy hc
    · cases pre with
      | nil => cases e; exact (hx hc).2.2
      | cons z pre =>
        cases e
        have := hr.notAfter pre y post rfl hc
        cases pre with
        | nil => exact this
        | cons a b =>
          rw [List.map_cons, List.map_cons, List.getLast?_cons_cons]
          simpa [List.getLast?_cons] using this

/-- A stream of which the third P-frame of the second GOP is lost. -/
def lossStream : List Bytes := (toySigned [] "IPPIPPPPI").eraseIdx 7

/-- The state in which the hash list of the second SEI is used. -/
def lossState : Option Validator :=
  match authRun toyEnv (newValidator toyEnv .h264) (lossStream.dropLast.map AuthCall.nalu) with
  | .ok (s, _) =>
    match Validator.atLoop toyEnv s (lossStream.getLastD []) with
    | some v =>
      match v.hasPending.1.begin.prepare toyEnv with
      | .ok u _ =>
        match updateLinkLoop u u.list with
        | .ok u => some u
        | _ => none
      | _ => none
    | none => none
  | _ => none
/-- Check of the hypotheses of the theorems above. -/
def lossB : Bool :=
  match lossState with
  | some u =>
    match nextSei u.list with
    | some sei => comparableB sei.1 none u.list && u.linkedOk && decide ((u.list.map Prod.fst).Nodup) &&
        u.list.all (fun x => decide (x.1 < u.brk)) && decide ((u.list.filter candidate).length = 4) &&
        decide ((chunk u.d.hashSize u.d.hashList).length = 5) &&
        ((u.list.filter candidate).map (hashOf u.d.hashSize)).isSublist (chunk u.d.hashSize u.d.hashList) &&
        (match u.withHashList true with | .ok _ _ => true | _ => false)
    | none => false
  | none => false

/-- The hypotheses hold in a session on a signed stream of which a NAL unit is lost: four NAL units are compared with five
signed hashes. -/
example : ∃ u u' p sei, lossState = some u ∧ WF u.list u.brk ∧ nextSei u.list = some sei ∧ Comparable sei.1 none u.list ∧
    u.withHashList true = .ok u' p ∧ (u.list.filter candidate).length = 4 ∧ (chunk u.d.hashSize u.d.hashList).length = 5 ∧
    ((u.list.filter candidate).map (hashOf u.d.hashSize)).Sublist (chunk u.d.hashSize u.d.hashList) := by
  have h : lossB = true := by decide +kernel
  unfold lossB at h
  cases hl : lossState with
  | none => rw [hl] at h; cases h
  | some u =>
    rw [hl] at h
    dsimp only at h
    cases hn : nextSei u.list with
    | none => rw [hn] at h; cases h
    | some sei =>
      rw [hn] at h
      simp only [Bool.and_eq_true, decide_eq_true_eq, List.all_eq_true, List.isSublist_iff_sublist] at h
      obtain ⟨⟨⟨⟨⟨⟨⟨h1, h2⟩, h3⟩, h4⟩, h5⟩, h6⟩, h7⟩, h8⟩ := h
      cases hw : u.withHashList true with
      | ub e => rw [hw] at h8; cases h8
      | err t e => rw [hw] at h8; cases h8
      | ok u' p => exact ⟨u, u', p, sei, rfl, ⟨h3, h4⟩, hn, Comparable.of_check h1, hw, h5, h6, h7⟩

end SV
