import Verif.Model.PlugMem
import Verif.Proofs.Keys
import Verif.Spec.PlugMem
namespace SV.PlugMem
open SV.Keys (Blocks KeyEnv SignData privateKeyMalloc Owns)
open SV.Spec (slotsL sdL dataL sessL refs Fails failures MayStep Obeys)

/-- Same members, as often. -/
theorem owns_of_count {b : Blocks} {l l' k k' : List Nat} (h : Owns b l k)
    (hc : ∀ a, List.count a l + List.count a k = List.count a l' + List.count a k') : Owns b l' k' := by
  refine h.mono (List.perm_iff_count.2 fun a => ?_)
  simpa using hc a

theorem signDataFree_spec {b : Blocks} {l k : List Nat} (sd : Option SData) (h : Owns b (sdL sd ++ l) k) :
    ∃ b', signDataFree b sd = .ok b' ∧ Owns b' l k := by
  cases sd with
  | none => exact ⟨b, rfl, h⟩
  | some s =>
    simp only [sdL, List.append_assoc] at h
    obtain ⟨b1, h1, h⟩ := h.free _
    obtain ⟨b2, h2, h⟩ := h.free _
    obtain ⟨b3, h3, h⟩ := h.free _
    obtain ⟨b4, h4, h⟩ := Owns.free (l := l) (some s.block) h
    exact ⟨b4, by simp [signDataFree, h1, h2, h3, h4], h⟩

theorem freeSlots_spec : ∀ (out inn : List (Option Nat)) {b : Blocks} {l k : List Nat},
    out.length = inn.length → Owns b (slotsL out ++ (slotsL inn ++ l)) k →
    ∃ b', freeSlots b out inn = .ok b' ∧ Owns b' l k
  | [], [], b, l, k, _, h => ⟨b, rfl, by simpa [slotsL] using h⟩
  | o :: out, i :: inn, b, l, k, he, h => by
    have h : Owns b (o.toList ++ (i.toList ++ (slotsL out ++ (slotsL inn ++ l)))) k := by
      refine owns_of_count h fun a => ?_
      simp only [slotsL, List.flatMap_cons, List.count_append]
      omega
    obtain ⟨b1, h1, h⟩ := h.free _
    obtain ⟨b2, h2, h⟩ := h.free _
    obtain ⟨b3, h3, h⟩ := freeSlots_spec out inn (by simpa using he) h
    exact ⟨b3, by simp [freeSlots, h1, h2, h3], h⟩

theorem slotsL_map_none (a : List (Option Nat)) : slotsL (a.map fun _ => none) = [] := by
  simp [slotsL, List.flatMap_map]

theorem slotsL_replicate (n : Nat) : slotsL (List.replicate n none) = [] := by
  simp [slotsL]

/-- The buffers have their length, and a running worker has its key data. -/
structure Wf (t : Data) : Prop where
  inn : t.inn.length = maxBuffer
  out : t.out.length = maxBuffer
  sd : t.running = true → t.sd ≠ none

theorem freeBuffers_spec {b : Blocks} {t : Data} {l k : List Nat} (w : t.out.length = t.inn.length)
    (h : Owns b (dataL t ++ l) k) :
    ∃ b' t', freeBuffers b t = .ok (b', t') ∧ t'.inn.length = t.inn.length ∧ t'.out.length = t.out.length ∧
      t'.sd = t.sd ∧ t'.running = t.running ∧ dataL t' = sdL t.sd ∧ Owns b' (dataL t' ++ l) k := by
  obtain ⟨b', h1, h2⟩ := freeSlots_spec t.out t.inn (b := b) (l := sdL t.sd ++ l) (k := k) w
    (owns_of_count h fun a => by simp only [dataL, List.count_append]; omega)
  have e : dataL { t with inn := t.inn.map fun _ => none, out := t.out.map fun _ => none } = sdL t.sd := by
    simp [dataL, slotsL_map_none]
  exact ⟨b', { t with inn := t.inn.map fun _ => none, out := t.out.map fun _ => none }, by simp [freeBuffers, h1],
    by simp, by simp, rfl, rfl, e, by rw [e]; exact h2⟩

theorem freePlugin_spec {b : Blocks} {t : Data} {l k : List Nat} (w : t.out.length = t.inn.length)
    (h : Owns b (dataL t ++ l) k) :
    ∃ b' t', freePlugin b t = .ok (b', t') ∧ t'.inn.length = t.inn.length ∧ t'.out.length = t.out.length ∧
      t'.sd = none ∧ t'.running = t.running ∧ dataL t' = [] ∧ Owns b' l k := by
  obtain ⟨b1, h1, h2⟩ := signDataFree_spec t.sd (b := b) (l := (slotsL t.out ++ slotsL t.inn) ++ l) (k := k)
    (by simpa [dataL] using h)
  obtain ⟨b2, t2, h3, h4, h5, h6, h7, h8, h9⟩ := freeBuffers_spec (b := b1) (t := { t with sd := none }) (l := l) (k := k) w
    (by simpa [dataL, sdL] using h2)
  have h8' : dataL t2 = [] := by rw [h8]; rfl
  exact ⟨b2, t2, by simp [freePlugin, h1, h3], h4, h5, h6, h7, h8', by rw [h8'] at h9; exact h9⟩

theorem count_set (a : Nat) : ∀ (s : List (Option Nat)) (i n : Nat), s[i]? = some none →
    List.count a (slotsL (s.set i (some n))) = List.count a [n] + List.count a (slotsL s)
  | [], _, _, h => by simp at h
  | x :: s, 0, n, h => by
    simp only [List.getElem?_cons_zero, Option.some.injEq] at h
    subst h
    simp [slotsL, List.count_cons, Nat.add_comm]
  | x :: s, i + 1, n, h => by
    have := count_set a s i n (by simpa using h)
    simp only [slotsL, List.set_cons_succ, List.flatMap_cons, List.count_append] at this ⊢
    omega

theorem slots_split (s : List (Option Nat)) (i j : Nat) :
    s = s.take i ++ ((s.drop i).take 1 ++ ((s.drop (i + 1)).take (j - i) ++ s.drop (i + 1 + (j - i)))) := by
  have h2 := List.take_append_drop 1 (s.drop i)
  have h3 := List.take_append_drop (j - i) (s.drop (i + 1))
  rw [List.drop_drop] at h2 h3
  rw [h3, h2, List.take_append_drop]

theorem count_moveSlot (a : Nat) (s : List (Option Nat)) (i j : Nat) :
    List.count a (slotsL (moveSlot s i j)) = List.count a (slotsL s) := by
  conv => rhs; rw [slots_split s i j]
  simp only [moveSlot, slotsL, List.flatMap_append, List.count_append]
  omega

theorem length_moveSlot (s : List (Option Nat)) (i j : Nat) : (moveSlot s i j).length = s.length := by
  conv => rhs; rw [slots_split s i j]
  simp only [moveSlot, List.length_append]
  omega

theorem signHash_spec {b : Blocks} {t : Data} {l k : List Nat} (idx : Nat) (a1 a2 : Bool) (w : Wf t)
    (h : Owns b (dataL t ++ l) k) :
    ∃ b' t', signHash b t idx a1 a2 = .ok (b', t') ∧ Wf t' ∧ t'.sd.isSome = t.sd.isSome ∧ Owns b' (dataL t' ++ l) k := by
  unfold signHash
  by_cases hi : maxBuffer ≤ idx
  · exact ⟨b, t, by rw [if_pos hi], w, rfl, h⟩
  rw [if_neg hi]
  cases hr : t.running with
  | false => exact ⟨b, t, by simp, w, rfl, h⟩
  | true =>
    cases hd : t.sd with
    | none => exact absurd hd (w.sd hr)
    | some sd =>
      simp only [Bool.not_true, Bool.false_eq_true, if_false]
      have hx : ∃ x, t.inn[idx]? = some x := ⟨_, List.getElem?_eq_getElem (by rw [w.inn]; omega)⟩
      obtain ⟨x, hx⟩ := hx
      have fin : ∀ (b : Blocks) (sd' : SData), Owns b (dataL { t with sd := some sd' } ++ l) k →
          ∃ b' t', (match ({ t with sd := some sd' } : Data).inn[idx]? with
            | none => (Out.ub .oobIndex : Out (Blocks × Data))
            | some (some _) => .ok (b, { t with sd := some sd' })
            | some none =>
              if !a2 then .ok (b, { t with sd := some sd' })
              else .ok (b.alloc, { t with sd := some sd', inn := t.inn.set idx (some b.next) })) = .ok (b', t') ∧
          Wf t' ∧ t'.sd.isSome = true ∧ Owns b' (dataL t' ++ l) k := by
        intro b sd' ho
        have w' : Wf { t with sd := some sd' } := ⟨w.inn, w.out, fun _ => by simp⟩
        simp only [hx]
        cases x with
        | some y => exact ⟨b, _, rfl, w', rfl, ho⟩
        | none =>
          cases a2 with
          | false => exact ⟨b, _, rfl, w', rfl, ho⟩
          | true =>
            refine ⟨b.alloc, _, rfl, ⟨by simpa using w.inn, w.out, fun _ => by simp⟩, rfl, ?_⟩
            refine owns_of_count ho.alloc fun a => ?_
            have := count_set a t.inn idx b.next hx
            simp only [dataL, List.count_append, List.count_cons, List.count_nil] at this ⊢
            omega
      cases hh : sd.hash with
      | some q =>
        obtain ⟨b', t', e, h1, h2, h3⟩ := fin b sd (by rw [← hd]; exact h)
        refine ⟨b', t', ?_, h1, by simpa using h2, h3⟩
        rw [← e]; cases x <;> simp [hx, hr]
      | none =>
        cases a1 with
        | false => exact ⟨b, t, by simp, w, by rw [hd], h⟩
        | true =>
          obtain ⟨b', t', e, h1, h2, h3⟩ := fin b.alloc { sd with hash := some b.next } (by
            refine owns_of_count h.alloc fun a => ?_
            simp only [dataL, hd, sdL, hh, List.count_append, List.count_cons, List.count_nil, Option.toList]
            omega)
          refine ⟨b', t', ?_, h1, by simpa using h2, h3⟩
          rw [← e]; cases x <;> simp [hx, hr]

theorem put_spec {b : Blocks} {t : Data} {l k : List Nat} (c : Bool) (idx : Nat) (al : Bool) (w : Wf t)
    (h : Owns b (dataL t ++ l) k) :
    ∃ b' t', put b t c idx al = .ok (b', t') ∧ Wf t' ∧ (c = true → t'.sd.isSome = t.sd.isSome) ∧
      Owns b' (dataL t' ++ l) k := by
  have hl : t.out.length = t.inn.length := by rw [w.out, w.inn]
  have stop : ∃ b' t', freePlugin b { t with running := false } = .ok (b', t') ∧ Wf t' ∧
      Owns b' (dataL t' ++ l) k := by
    obtain ⟨b', t', e, h1, h2, h3, h4, h5, h6⟩ := freePlugin_spec (t := { t with running := false }) hl h
    refine ⟨b', t', e, ⟨h1.trans w.inn, h2.trans w.out, fun hr => ?_⟩, by rw [h5]; exact h6⟩
    rw [h4] at hr; cases hr
  unfold put
  cases hr : t.running with
  | false => exact ⟨b, t, by simp, w, fun _ => rfl, h⟩
  | true =>
    have hn : t.sd.isNone = false := by
      cases hd : t.sd with
      | none => exact absurd hd (w.sd hr)
      | some x => rfl
    simp only [Bool.not_true, Bool.false_eq_true, if_false, hn]
    by_cases hi : maxBuffer ≤ idx
    · rw [if_pos hi]
      cases c with
      | true => exact ⟨b, t, by simp, w, fun _ => rfl, h⟩
      | false =>
        obtain ⟨b', t', e, h1, h2⟩ := stop
        exact ⟨b', t', by simpa using e, h1, fun h => (by cases h), h2⟩
    rw [if_neg hi]
    have hx : ∃ x, t.out[idx]? = some x := ⟨_, List.getElem?_eq_getElem (by rw [w.out]; omega)⟩
    obtain ⟨x, hx⟩ := hx
    rw [hx]
    cases x with
    | some y => exact ⟨b, t, rfl, w, fun _ => rfl, h⟩
    | none =>
      cases al with
      | true =>
        refine ⟨b.alloc, _, rfl, ⟨w.inn, by simpa using w.out, fun _ => w.sd hr⟩, fun _ => rfl, ?_⟩
        refine owns_of_count h.alloc fun a => ?_
        have := count_set a t.out idx b.next hx
        simp only [dataL, List.count_append, List.count_cons, List.count_nil] at this ⊢
        omega
      | false =>
        cases c with
        | true =>
          obtain ⟨b', t', e, h1, h2, h3, h4, h5, h6⟩ := freeBuffers_spec (t := { t with running := false }) hl h
          refine ⟨b', t', by simpa using e, ⟨h1.trans w.inn, h2.trans w.out, fun hr => ?_⟩, fun _ => by rw [h3], h6⟩
          rw [h4] at hr; cases hr
        | false =>
          obtain ⟨b', t', e, h1, h2⟩ := stop
          exact ⟨b', t', by simpa using e, h1, fun h => (by cases h), h2⟩

theorem op_spec {b : Blocks} {t : Data} {l k : List Nat} (c : Bool) (o : Op) (w : Wf t)
    (h : Owns b (dataL t ++ l) k) :
    ∃ b' t', op b t c o = .ok (b', t') ∧ Wf t' ∧ (c = true → t'.sd.isSome = t.sd.isSome) ∧
      Owns b' (dataL t' ++ l) k := by
  cases o with
  | sign idx a1 a2 =>
    obtain ⟨b', t', e, h1, h2, h3⟩ := signHash_spec idx a1 a2 w h
    exact ⟨b', t', e, h1, fun _ => h2, h3⟩
  | put idx a => exact put_spec c idx a w h
  | moveIn i j =>
    refine ⟨b, _, rfl, ⟨(length_moveSlot _ _ _).trans w.inn, w.out, w.sd⟩, fun _ => rfl, ?_⟩
    refine owns_of_count h fun a => ?_
    simp only [dataL, List.count_append, count_moveSlot]
  | moveOut i j =>
    refine ⟨b, _, rfl, ⟨w.inn, (length_moveSlot _ _ _).trans w.out, w.sd⟩, fun _ => rfl, ?_⟩
    refine owns_of_count h fun a => ?_
    simp only [dataL, List.count_append, count_moveSlot]

end SV.PlugMem
