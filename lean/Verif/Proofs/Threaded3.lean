import Verif.Proofs.Threaded2
namespace SV.Threaded

/-! ### Session ids -/

/-- Steps from `id` to `last` going round the non-zero ids. -/
def dist (last id : Nat) : Nat := if id ≤ last then last - id else last + (2 ^ 32 - 1) - id

theorem pickId_fuel (ids : List UInt32) (last : UInt32) (hl : last ≠ 0) :
    ∀ (f : Nat) (id : UInt32), id ≠ 0 → dist last.toNat id.toNat < f →
      ∃ x, pickId ids last f id = .ok x ∧ x ≠ 0 ∧ (x = last ∨ isActive ids x = false) := by
  intro f
  induction f with
  | zero => intro id _ h; omega
  | succ f ih =>
    intro id hid hd
    by_cases hc : (isActive ids id && id != last) = true
    · simp only [pickId, hc, if_true]
      have hne : id ≠ last := by
        simp only [Bool.and_eq_true, bne_iff_ne, ne_eq] at hc; exact hc.2
      have hn : id.toNat ≠ last.toNat := fun h => hne (UInt32.toNat_inj.1 h)
      have h1 := id.toNat_lt
      have h2 := last.toNat_lt
      have h3 : id.toNat ≠ 0 := fun h => hid (UInt32.toNat_inj.1 h)
      have h4 : last.toNat ≠ 0 := fun h => hl (UInt32.toNat_inj.1 h)
      by_cases hw : id + 1 = 0
      · rw [if_pos hw]
        have e : (id + 1 + 1).toNat = 1 := by rw [hw]; rfl
        have hi : id.toNat = 2 ^ 32 - 1 := by
          have : (id + 1).toNat = 0 := by rw [hw]; rfl
          rw [UInt32.toNat_add] at this
          have e1 : (1 : UInt32).toNat = 1 := rfl
          omega
        refine ih _ ?_ ?_
        · intro h; rw [h] at e; simp at e
        · rw [e]; rw [hi] at hd hn; simp only [dist] at hd ⊢
          split at hd <;> split <;> omega
      · rw [if_neg hw]
        have e : (id + 1).toNat = id.toNat + 1 := by
          have h5 : (id + 1).toNat ≠ 0 := fun h => hw (UInt32.toNat_inj.1 h)
          rw [UInt32.toNat_add] at h5 ⊢
          have e1 : (1 : UInt32).toNat = 1 := rfl
          omega
        refine ih _ hw ?_
        rw [e]
        simp only [dist] at hd ⊢
        split at hd <;> split <;> omega
    · simp only [pickId, hc]
      refine ⟨id, rfl, hid, ?_⟩
      by_cases he : id = last
      · exact .inl he
      · refine .inr ?_
        cases ha : isActive ids id with
        | false => rfl
        | true => exact absurd (by simp [ha, he]) hc

theorem pickId_ok (ids : List UInt32) (last : UInt32) (h0 : last = 0 → ids = [0]) :
    ∃ x, pickId ids last (2 ^ 32) (if last + 1 = 0 then 1 else last + 1) = .ok x ∧ x ≠ 0 ∧
      (x = last ∨ isActive ids x = false) := by
  by_cases hl : last = 0
  · rw [h0 hl, hl]
    refine ⟨1, ?_, by decide, .inr (by decide)⟩
    have : (2 : Nat) ^ 32 = 4294967295 + 1 := by decide
    rw [this]
    rfl
  · have h2 := last.toNat_lt
    refine pickId_fuel ids last hl _ _ ?_ ?_
    · by_cases hw : last + 1 = 0
      · rw [if_pos hw]; decide
      · rw [if_neg hw]; exact hw
    · simp only [dist]
      have h4 : last.toNat ≠ 0 := fun h => hl (UInt32.toNat_inj.1 h)
      by_cases hw : last + 1 = 0
      · rw [if_pos hw]
        have : (1 : UInt32).toNat = 1 := rfl
        split <;> omega
      · rw [if_neg hw]
        have h5 : (last + 1).toNat ≠ 0 := fun h => hw (UInt32.toNat_inj.1 h)
        rw [UInt32.toNat_add] at h5 ⊢
        have e1 : (1 : UInt32).toNat = 1 := rfl
        split <;> omega

/-- The list of active ids agrees with the handles in use. -/
structure IdInv (c : Central) (live : List UInt32) : Prop where
  ids : c.ids = 0 :: live
  nodup : live.Nodup
  zero : (0 : UInt32) ∉ live
  inj : ∀ (k l : Nat) (id : UInt32), c.handles[k]? = some (some id) → c.handles[l]? = some (some id) → k = l
  mem : ∀ id : UInt32, id ∈ live ↔ ∃ k : Nat, c.handles[k]? = some (some id)
  last : c.last = 0 → live = []

theorem IdInv_init (m : Nat) : IdInv (Central.init m) [] :=
  ⟨rfl, List.nodup_nil, by simp, by intro k l id h; simp [Central.init] at h,
    by intro id; simp [Central.init], fun _ => rfl⟩

theorem isActive_iff {c : Central} {live : List UInt32} (h : IdInv c live) (id : UInt32)
    (hid : id ≠ 0) : isActive c.ids id = true ↔ id ∈ live := by
  rw [h.ids]; simp [isActive, hid]

/-- `central_setup`. -/
theorem setup_inv {c : Central} {live : List UInt32} (h : IdInv c live) (a1 a2 : Bool) :
    ∃ c' ok, centralSetup c a1 a2 = .ok (c', ok) ∧ c'.td = c.td ∧ c'.signing = c.signing ∧
      ((ok = false ∧ c'.handles = c.handles ∧ IdInv c' live) ∨
       (ok = true ∧ c'.last ∉ live ∧ c'.last ≠ 0 ∧ c'.handles = c.handles ++ [some c'.last] ∧
         IdInv c' (live ++ [c'.last]))) := by
  by_cases h1 : (!a1) = true
  · exact ⟨c, false, by simp only [centralSetup, h1, if_true], rfl, rfl, .inl ⟨rfl, rfl, h⟩⟩
  by_cases h2 : (!c.td.running) = true
  · exact ⟨c, false, by simp only [centralSetup, h1, if_false, h2, if_true, Bool.false_eq_true], rfl, rfl,
      .inl ⟨rfl, rfl, h⟩⟩
  obtain ⟨x, hx, hx0, hxa⟩ := pickId_ok c.ids c.last (fun e => by rw [h.ids, h.last e])
  by_cases h3 : x = c.last
  · refine ⟨c, false, ?_, rfl, rfl, .inl ⟨rfl, rfl, h⟩⟩
    simp only [centralSetup, h1, if_false, h2, hx, Out.bind_ok, h3, if_true, Bool.false_eq_true]
  have hxl : x ∉ live := by
    rcases hxa with e | e
    · exact absurd e h3
    · intro hm; rw [(isActive_iff h x hx0).2 hm] at e; cases e
  by_cases h4 : (!a2) = true
  · refine ⟨{ c with last := x }, false, ?_, rfl, rfl, .inl ⟨rfl, rfl, h.ids, h.nodup, h.zero, h.inj,
      h.mem, fun e => absurd e hx0⟩⟩
    simp only [centralSetup, h1, if_false, h2, hx, Out.bind_ok, h3, h4, if_true, Bool.false_eq_true]
  refine ⟨{ c with last := x, ids := c.ids ++ [x], handles := c.handles ++ [some x] }, true, ?_, rfl, rfl,
    .inr ⟨rfl, hxl, hx0, rfl, ?_⟩⟩
  · simp only [centralSetup, h1, if_false, h2, hx, Out.bind_ok, h3, h4, Bool.false_eq_true]
  · refine ⟨by simp [h.ids], ?_, ?_, ?_, ?_, fun e => absurd e hx0⟩
    · rw [List.nodup_append]
      refine ⟨h.nodup, by simp, ?_⟩
      intro a ha b hb
      simp only [List.mem_singleton] at hb
      subst hb
      intro e; subst e; exact hxl ha
    · simp only [List.mem_append, List.mem_singleton, not_or]
      exact ⟨h.zero, fun e => hx0 e.symm⟩
    · have key : ∀ (k : Nat) (id : UInt32), (c.handles ++ [some x])[k]? = some (some id) →
          (k < c.handles.length ∧ c.handles[k]? = some (some id) ∧ id ∈ live) ∨
          (k = c.handles.length ∧ id = x) := by
        intro k id hk
        by_cases hlt : k < c.handles.length
        · rw [List.getElem?_append_left hlt] at hk
          exact .inl ⟨hlt, hk, (h.mem id).2 ⟨k, hk⟩⟩
        · rw [List.getElem?_append_right (by omega)] at hk
          have : k - c.handles.length = 0 := by
            cases hz : k - c.handles.length with
            | zero => rfl
            | succ n => rw [hz] at hk; simp at hk
          rw [this] at hk
          simp at hk
          exact .inr ⟨by omega, hk.symm⟩
      intro k l id hk hl
      rcases key k id hk with ⟨-, hk1, hk2⟩ | ⟨hk1, hk2⟩ <;> rcases key l id hl with ⟨-, hl1, hl2⟩ | ⟨hl1, hl2⟩
      · exact h.inj k l id hk1 hl1
      · exact absurd (hl2 ▸ hk2) hxl
      · exact absurd (hk2 ▸ hl2) hxl
      · omega
    · intro id
      simp only [List.mem_append, List.mem_singleton]
      constructor
      · rintro (hm | rfl)
        · obtain ⟨k, hk⟩ := (h.mem id).1 hm
          have hlt : k < c.handles.length := by
            have := List.getElem?_eq_some_iff.1 hk; exact this.1
          exact ⟨k, by rw [List.getElem?_append_left hlt]; exact hk⟩
        · exact ⟨c.handles.length, by simp⟩
      · rintro ⟨k, hk⟩
        by_cases hlt : k < c.handles.length
        · rw [List.getElem?_append_left hlt] at hk
          exact .inl ((h.mem id).2 ⟨k, hk⟩)
        · rw [List.getElem?_append_right (by omega)] at hk
          cases hz : k - c.handles.length with
          | zero => rw [hz] at hk; simp at hk; exact .inr hk.symm
          | succ n => rw [hz] at hk; simp at hk

/-- Deleting a session. -/
theorem delete_inv {c : Central} {live : List UInt32} (h : IdInv c live) {k : Nat} {id : UInt32}
    (hk : c.handles[k]? = some (some id)) (td : TData) :
    id ≠ 0 ∧ deleteItem c.ids id = .ok (0 :: live.erase id) ∧
      IdInv { c with td, ids := 0 :: live.erase id, handles := c.handles.set k none } (live.erase id) := by
  have hm : id ∈ live := (h.mem id).2 ⟨k, hk⟩
  have hid : id ≠ 0 := by rintro rfl; exact h.zero hm
  refine ⟨hid, ?_, rfl, h.nodup.erase _, ?_, ?_, ?_, ?_⟩
  · rw [h.ids]; simp [deleteItem, hid.symm]
  · intro hz; exact h.zero (List.mem_of_mem_erase hz)
  · intro a b x ha hb
    have key : ∀ j : Nat, (c.handles.set k none)[j]? = some (some x) → c.handles[j]? = some (some x) := by
      intro j hj
      by_cases e : k = j
      · subst e
        rw [List.getElem?_set_self'] at hj
        cases hh : c.handles[k]? with
        | none => rw [hh] at hj; simp at hj
        | some v => rw [hh] at hj; simp at hj
      · rw [List.getElem?_set_ne e] at hj; exact hj
    exact h.inj a b x (key a ha) (key b hb)
  · intro x
    rw [h.nodup.mem_erase_iff]
    constructor
    · rintro ⟨hne, hx⟩
      obtain ⟨j, hj⟩ := (h.mem x).1 hx
      refine ⟨j, ?_⟩
      have e : k ≠ j := by
        rintro rfl; rw [hk] at hj; simp at hj; exact hne hj.symm
      show (c.handles.set k none)[j]? = _
      rw [List.getElem?_set_ne e]; exact hj
    · rintro ⟨j, hj⟩
      replace hj : (c.handles.set k none)[j]? = some (some x) := hj
      by_cases e : k = j
      · subst e
        rw [List.getElem?_set_self'] at hj
        cases hh : c.handles[k]? with
        | none => rw [hh] at hj; simp at hj
        | some v => rw [hh] at hj; simp at hj
      · rw [List.getElem?_set_ne e] at hj
        refine ⟨?_, (h.mem x).2 ⟨j, hj⟩⟩
        intro ex
        subst ex
        exact e (h.inj k j _ hk hj)
  · intro e
    show live.erase id = []
    rw [h.last e]; rfl

/-! ### The whole plugin -/

/-- Everything known about a reachable state: the hashes `iq` waiting, the outcomes `oq` waiting
and the active ids. -/
structure BInv (P : Nat → Prop) (c : Central) (iq : List (UInt32 × Bytes))
    (oq : List (UInt32 × Option Bytes)) (live : List UInt32) : Prop where
  td : TInv P c.td iq oq
  id : IdInv c live
  iown : ∀ x ∈ iq, x.1 ∈ live
  oown : ∀ x ∈ oq, x.1 ∈ live
  busy : c.td.inSigning = c.signing.isSome
  sgn : ∀ w, c.signing = some w → w.1 ≠ 0

theorem BInv_init (P : Nat → Prop) (m : Nat) : BInv P (Central.init m) [] [] [] :=
  ⟨TInv_init P m, IdInv_init m, by simp, by simp, rfl, by simp [Central.init]⟩

theorem handle_ok {c : Central} {k : Nat} {id : UInt32} (h : handle c k = .ok id) :
    c.handles[k]? = some (some id) := by
  unfold handle at h
  split at h
  · simp only [Out.ok.injEq] at h; subst h; assumption
  · cases h

theorem handle_cases (c : Central) (k : Nat) :
    (∃ id, handle c k = .ok id ∧ c.handles[k]? = some (some id)) ∨ handle c k = .ub .useAfterFree := by
  unfold handle
  split
  · rename_i id h; exact .inl ⟨id, rfl, h⟩
  · exact .inr rfl

theorem IdInv.td {c : Central} {live : List UInt32} (h : IdInv c live) (td : TData)
    (w : Option (UInt32 × Bytes)) : IdInv { c with td, signing := w } live :=
  ⟨h.ids, h.nodup, h.zero, h.inj, h.mem, h.last⟩

theorem IdInv.ne_zero {c : Central} {live : List UInt32} (h : IdInv c live) {k : Nat} {id : UInt32}
    (hk : c.handles[k]? = some (some id)) : id ∈ live ∧ id ≠ 0 := by
  have hm : id ∈ live := (h.mem id).2 ⟨k, hk⟩
  exact ⟨hm, by rintro rfl; exact h.zero hm⟩

theorem opensslSign_cases (sign : Nat → Bytes → Option Bytes) (m r : Nat) (h : Bytes) :
    (∀ sg, opensslSign sign m r h = .ok sg → sg.length ≤ m) ∧
    (∀ sg, sigOf (opensslSign sign m r h) = some sg → sign r h = some sg) := by
  unfold opensslSign
  cases hs : sign r h with
  | none => simp [sigOf]
  | some s =>
    by_cases hl : m < s.length
    · simp [hl, sigOf]
    · simp [hl, sigOf]; omega

/-- What can happen in one step, in terms of the waiting hashes and outcomes. -/
inductive Effect (sign : Nat → Bytes → Option Bytes) (c c' : Central)
    (iq iq' : List (UInt32 × Bytes)) (oq oq' : List (UInt32 × Option Bytes)) : Step → Ev → Prop
  | setupFail {a1 a2 : Bool} {k : Nat} : iq' = iq → oq' = oq → c'.handles = c.handles →
      c'.signing = c.signing → Effect sign c c' iq iq' oq oq' (.setup a1 a2) (.setup k false)
  | setupOk {a1 a2 : Bool} {live : List UInt32} : iq' = iq → oq' = oq →
      IdInv c live → c'.last ∉ live →
      c'.handles = c.handles ++ [some c'.last] → c'.signing = c.signing →
      Effect sign c c' iq iq' oq oq' (.setup a1 a2) (.setup c.handles.length true)
  | teardown {k : Nat} {id : UInt32} : c.handles[k]? = some (some id) →
      iq' = iq.filter (fun x => x.1 != id) → oq' = oq.filter (fun x => x.1 != id) →
      c'.handles = c.handles.set k none → c'.signing = c.signing →
      Effect sign c c' iq iq' oq oq' (.teardown k) (.teardown k)
  | submit {k : Nat} {id : UInt32} {h : Bytes} {a1 a2 : Bool} : c.handles[k]? = some (some id) →
      iq' = iq ++ [(id, h)] → oq' = oq → c'.handles = c.handles → c'.signing = c.signing →
      Effect sign c c' iq iq' oq oq' (.submit k h a1 a2) (.submit k h none)
  | refused {k : Nat} {h : Bytes} {a1 a2 : Bool} {rc : Rc} : iq' = iq → oq' = oq →
      c'.handles = c.handles → c'.signing = c.signing →
      Effect sign c c' iq iq' oq oq' (.submit k h a1 a2) (.submit k h (some rc))
  | fetchNone {k m : Nat} {rc : Option Rc} : iq' = iq → oq' = oq → c'.handles = c.handles →
      c'.signing = c.signing → Effect sign c c' iq iq' oq oq' (.fetch k m) (.fetch k none rc)
  | fetched {k m : Nat} {id : UInt32} {res sig : Option Bytes} {rc : Option Rc} :
      c.handles[k]? = some (some id) → iq' = iq → oq = (id, res) :: oq' →
      (sig = none ∨ sig = res ∧ sig.isSome) → c'.handles = c.handles → c'.signing = c.signing →
      Effect sign c c' iq iq' oq oq' (.fetch k m) (.fetch k sig rc)
  | wait : iq' = iq → oq' = oq → c'.handles = c.handles → c'.signing = c.signing →
      Effect sign c c' iq iq' oq oq' .take .worker
  | take {w : UInt32 × Bytes} : iq = w :: iq' → oq' = oq → c'.handles = c.handles →
      c.signing = none → c'.signing = some w → Effect sign c c' iq iq' oq oq' .take .worker
  | putNone {r : Nat} {al : Bool} : iq' = iq → oq' = oq → c'.handles = c.handles →
      c.signing = none → c'.signing = none → Effect sign c c' iq iq' oq oq' (.put r al) .worker
  | drop {r : Nat} {al : Bool} {p : UInt32 → Bool} : iq' = iq.filter (fun x => p x.1) →
      oq' = oq.filter (fun x => p x.1) →
      c'.handles = c.handles → c'.signing = none → Effect sign c c' iq iq' oq oq' (.put r al) .worker
  | put {r : Nat} {al : Bool} {w : UInt32 × Bytes} {res : Option Bytes} : iq' = iq →
      c.signing = some w → (∀ s, res = some s → sign r w.2 = some s) → oq' = oq ++ [(w.1, res)] →
      c'.handles = c.handles → c'.signing = none →
      Effect sign c c' iq iq' oq oq' (.put r al) .worker

/-- Sizes of the hashes submitted. -/
def SizeOk (P : Nat → Prop) : Step → Prop
  | .submit _ h _ _ => P h.length
  | _ => True

/-- Session making a call. -/
def who : Step → Option Nat
  | .teardown k => some k
  | .submit k _ _ _ => some k
  | .fetch k _ => some k
  | _ => none

theorem handle_dead {c : Central} {k : Nat} (h : handle c k = .ub .useAfterFree) :
    ¬ ∃ id, c.handles[k]? = some (some id) := by
  rintro ⟨id, hid⟩
  simp [handle, hid] at h

/-- One step from a reachable state: use of a dead handle, hashes of different sizes, or a step with
the expected effect. -/
theorem step_inv (sign : Nat → Bytes → Option Bytes) {P : Nat → Prop} {c : Central}
    {iq : List (UInt32 × Bytes)} {oq : List (UInt32 × Option Bytes)} {live : List UInt32}
    (h : BInv P c iq oq live) (x : Step) (hP : SizeOk P x) :
    (step sign c x = .ub .useAfterFree ∧ ∃ k, who x = some k ∧ ¬ ∃ id, c.handles[k]? = some (some id)) ∨
    (step sign c x = .ub .assertFail ∧ ∃ a b, P a ∧ P b ∧ a ≠ b) ∨
    ∃ c' e iq' oq' live', step sign c x = .ok (c', e) ∧ BInv P c' iq' oq' live' ∧
      Effect sign c c' iq iq' oq oq' x e := by
  cases x with
  | setup a1 a2 =>
    refine .inr (.inr ?_)
    obtain ⟨c', ok, h1, h2, h3, h4⟩ := setup_inv h.id a1 a2
    rcases h4 with ⟨rfl, h4, h5⟩ | ⟨rfl, h4, -, h5, h6⟩
    · refine ⟨c', .setup c.handles.length false, iq, oq, live, by simp [step, h1], ?_, .setupFail rfl rfl h4 h3⟩
      exact ⟨by rw [h2]; exact h.td, h5, h.iown, h.oown, by rw [h2, h3]; exact h.busy,
        by rw [h3]; exact h.sgn⟩
    · refine ⟨c', .setup c.handles.length true, iq, oq, live ++ [c'.last], by simp [step, h1], ?_,
        .setupOk rfl rfl h.id h4 h5 h3⟩
      exact ⟨by rw [h2]; exact h.td, h6, fun x hx => List.mem_append_left _ (h.iown x hx),
        fun x hx => List.mem_append_left _ (h.oown x hx), by rw [h2, h3]; exact h.busy,
        by rw [h3]; exact h.sgn⟩
  | teardown k =>
    rcases handle_cases c k with ⟨id, h1, hk⟩ | h1
    · refine .inr (.inr ?_)
      obtain ⟨hm, hid⟩ := h.id.ne_zero hk
      obtain ⟨td, h2, h3, h4, h5, h6⟩ := bufferReset_inv h.td id hid
      obtain ⟨-, h7, h8⟩ := delete_inv h.id hk td
      refine ⟨_, .teardown k, _, _, _, by simp only [step, h1, Out.bind_ok, h2, h7], ⟨h3, h8, ?_, ?_, ?_, h.sgn⟩,
        .teardown hk rfl rfl rfl rfl⟩
      · intro x hx
        obtain ⟨hx1, hx2⟩ := List.mem_filter.1 hx
        exact h.id.nodup.mem_erase_iff.2 ⟨by simpa using hx2, h.iown x hx1⟩
      · intro x hx
        obtain ⟨hx1, hx2⟩ := List.mem_filter.1 hx
        exact h.id.nodup.mem_erase_iff.2 ⟨by simpa using hx2, h.oown x hx1⟩
      · show td.inSigning = _; rw [h5]; exact h.busy
    · exact .inl ⟨by simp [step, h1], k, rfl, handle_dead h1⟩
  | submit k hs a1 a2 =>
    rcases handle_cases c k with ⟨id, h1, hk⟩ | h1
    · refine .inr (.inr ?_)
      by_cases h0 : hs.length = 0
      · exact ⟨c, .submit k hs (some .invalidParameter), iq, oq, live,
          by simp only [step, h1, Out.bind_ok, h0, if_true], h,
          .refused rfl rfl rfl rfl⟩
      obtain ⟨hm, hid⟩ := h.id.ne_zero hk
      obtain ⟨td, rc, h2, h3, h4, h5, h6⟩ := signHash_inv h.td id hs a1 a2 hP
      cases rc with
      | none =>
        refine ⟨{ c with td }, .submit k hs none, iq ++ [(id, hs)], oq, live,
          by simp only [step, h1, Out.bind_ok, h0, if_false, h2],
          ⟨by simpa using h3, h.id.td td c.signing, ?_, h.oown, ?_, h.sgn⟩, .submit hk rfl rfl rfl rfl⟩
        · intro x hx
          rcases List.mem_append.1 hx with hx | hx
          · exact h.iown x hx
          · simp only [List.mem_singleton] at hx; subst hx; exact hm
        · show td.inSigning = _; rw [h5]; exact h.busy
      | some rc =>
        refine ⟨{ c with td }, .submit k hs (some rc), iq, oq, live,
          by simp only [step, h1, Out.bind_ok, h0, if_false, h2],
          ⟨by simpa using h3, h.id.td td c.signing, h.iown, h.oown, ?_, h.sgn⟩, .refused rfl rfl rfl rfl⟩
        show td.inSigning = _; rw [h5]; exact h.busy
    · exact .inl ⟨by simp [step, h1], k, rfl, handle_dead h1⟩
  | fetch k m =>
    rcases handle_cases c k with ⟨id, h1, hk⟩ | h1
    · refine .inr (.inr ?_)
      obtain ⟨td, sig, rc, oq', h2, h3, h4, h5, h6, h7⟩ := getSignature_inv h.td id m
      have hown : ∀ x ∈ oq', x.1 ∈ live := by
        rcases h7 with ⟨e, -⟩ | ⟨res, e, -⟩
        · rw [e]; exact h.oown
        · intro x hx; exact h.oown x (by rw [e]; exact List.mem_cons_of_mem _ hx)
      refine ⟨{ c with td }, .fetch k sig rc, iq, oq', live,
        by simp only [step, h1, Out.bind_ok, h2],
        ⟨h3, h.id.td td c.signing, h.iown, hown, ?_, h.sgn⟩, ?_⟩
      · show td.inSigning = _; rw [h5]; exact h.busy
      · rcases h7 with ⟨e, rfl⟩ | ⟨res, e, hsig⟩
        · exact .fetchNone rfl e rfl rfl
        · exact .fetched hk rfl e hsig rfl rfl
    · exact .inl ⟨by simp [step, h1], k, rfl, handle_dead h1⟩
  | take =>
    rcases centralTake_inv h.td with ⟨h1, h2⟩ | ⟨h1, -⟩ | ⟨td, w, iq', h1, h2, -, h3, h4, h5, h6, h7⟩
    · exact .inr (.inl ⟨by simp [step, h1], h2⟩)
    · refine .inr (.inr ⟨c, .worker, iq, oq, live, by simp [step, h1], h, .wait rfl rfl rfl rfl⟩)
    · refine .inr (.inr ⟨{ c with td, signing := some w }, .worker, iq', oq, live,
        by simp [step, h3], ⟨h4, h.id.td td _, ?_, h.oown, h5, ?_⟩, .take h1 rfl rfl ?_ rfl⟩)
      · intro x hx; exact h.iown x (by rw [h1]; exact List.mem_cons_of_mem _ hx)
      · intro w' hw'
        simp only [Option.some.injEq] at hw'
        subst hw'
        have hw : w.1 ∈ live := h.iown w (by rw [h1]; simp)
        intro e; rw [e] at hw; exact h.id.zero hw
      · have := h.busy; rw [h2] at this
        cases hs : c.signing with
        | none => rfl
        | some w => rw [hs] at this; simp at this
  | put r al =>
    refine .inr (.inr ?_)
    cases hs : c.signing with
    | none => exact ⟨c, .worker, iq, oq, live, by simp [step, hs], h, .putNone rfl rfl rfl hs hs⟩
    | some w =>
      obtain ⟨id, hash⟩ := w
      have hid : id ≠ 0 := h.sgn _ hs
      obtain ⟨hc1, hc2⟩ := opensslSign_cases sign c.td.maxSig r hash
      obtain ⟨td, h1, h2, h3, h4⟩ := centralPut_inv h.td c.ids id hid
        (opensslSign sign c.td.maxSig r hash) al hc1
      have hstep : step sign c (.put r al) = .ok ({ c with td, signing := none }, .worker) := by
        simp [step, hs, h1]
      rcases h4 with ⟨-, h4, -⟩ | ⟨h4, -⟩ | ⟨h4, -⟩ | ⟨ha, h4, -⟩
      · refine ⟨_, _, iq, oq, live, hstep, ⟨h4, h.id.td td none, h.iown, h.oown, h2, by simp⟩,
          .drop (p := fun _ => true) (List.filter_eq_self.2 fun _ _ => rfl).symm
            (List.filter_eq_self.2 fun _ _ => rfl).symm rfl rfl⟩
      · refine ⟨_, _, _, _, live, hstep, ⟨h4, h.id.td td none, ?_, ?_, h2, by simp⟩,
          .drop (p := fun x => x != id) rfl rfl rfl rfl⟩
        · intro x hx; exact h.iown x (List.mem_filter.1 hx).1
        · intro x hx; exact h.oown x (List.mem_filter.1 hx).1
      · refine ⟨_, _, [], [], live, hstep, ⟨h4, h.id.td td none, by simp, by simp, h2, by simp⟩,
          .drop (p := fun _ => false) (List.filter_eq_nil_iff.2 fun _ _ => by simp).symm
            (List.filter_eq_nil_iff.2 fun _ _ => by simp).symm rfl rfl⟩
      · refine ⟨_, _, iq, _, live, hstep, ⟨h4, h.id.td td none, h.iown, ?_, h2, by simp⟩,
          .put (w := (id, hash)) rfl hs hc2 rfl rfl rfl⟩
        intro x hx
        rcases List.mem_append.1 hx with hx | hx
        · exact h.oown x hx
        · simp only [List.mem_singleton] at hx; subst hx
          exact (isActive_iff h.id id hid).1 ha

end SV.Threaded
