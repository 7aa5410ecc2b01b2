import Verif.Model.ReportMem
/-!
Ownership of the blocks of authenticity reports: how each operation moves blocks between the pointers that own them.
-/
namespace SV.RepMem

/-- One if a block lives at the address, zero otherwise. -/
def live (h : Heap) (a : Nat) : Nat := if (h.mem a).isSome then 1 else 0

theorem live_le (h : Heap) (a : Nat) : live h a ≤ 1 := by unfold live; split <;> omega

theorem live_pos {h : Heap} {a : Nat} : 0 < live h a ↔ (h.mem a).isSome := by
  unfold live; split <;> simp_all

/-- No block at an address not given out yet. -/
def Fresh (h : Heap) : Prop := ∀ a, h.brk ≤ a → h.mem a = none

/-- The pointers own different blocks. -/
def Own (h : Heap) (l : List (Option Nat)) : Prop := ∀ a, l.count (some a) ≤ live h a

/-- From `h` to `h'` the blocks owned by `old` are replaced by those owned by `new`; all others stay. -/
structure Moves (h : Heap) (old : List (Option Nat)) (h' : Heap) (new : List (Option Nat)) : Prop where
  live : ∀ a, live h' a + old.count (some a) = live h a + new.count (some a)
  kept : ∀ a, some a ∉ old → (h.mem a).isSome → h'.mem a = h.mem a
  fresh : Fresh h'

theorem Moves.refl {h : Heap} (hf : Fresh h) (l : List (Option Nat)) : Moves h l h l :=
  ⟨fun _ => rfl, fun _ _ _ => rfl, hf⟩

theorem Moves.frame {h h' : Heap} {old new : List (Option Nat)} (m : Moves h old h' new) (f : List (Option Nat)) :
    Moves h (old ++ f) h' (new ++ f) :=
  ⟨fun a => by have := m.live a; simp only [List.count_append]; omega,
   fun a ha => m.kept a (fun hc => ha (List.mem_append_left _ hc)), m.fresh⟩

theorem Moves.congr {h h' : Heap} {old new old' new' : List (Option Nat)} (m : Moves h old h' new)
    (h1 : ∀ a, old'.count (some a) = old.count (some a)) (h2 : ∀ a, new'.count (some a) = new.count (some a)) :
    Moves h old' h' new' :=
  ⟨fun a => by rw [h1, h2]; exact m.live a,
   fun a ha => m.kept a (fun hc => ha (by
     rw [← List.count_pos_iff] at hc ⊢; rw [h1]; exact hc)), m.fresh⟩

/-- A live block not owned by `old` is not owned by `new` either. -/
theorem Moves.not_new {h h' : Heap} {old new : List (Option Nat)} (m : Moves h old h' new) {a : Nat}
    (ha : some a ∉ old) (hl : (h.mem a).isSome) : some a ∉ new := by
  intro hc
  have h1 := m.live a
  have h2 := live_le h' a
  have h3 := live_pos.2 hl
  have h4 := List.count_pos_iff.2 hc
  have h5 : old.count (some a) = 0 := List.count_eq_zero.2 ha
  omega

theorem Moves.trans {h h' h'' : Heap} {old mid new : List (Option Nat)} (m : Moves h old h' mid)
    (n : Moves h' mid h'' new) : Moves h old h'' new :=
  ⟨fun a => by have := m.live a; have := n.live a; omega,
   fun a ha hl => by
    have h1 := m.kept a ha hl
    rw [n.kept a (m.not_new ha hl) (by rw [h1]; exact hl), h1], n.fresh⟩

theorem Own.sub {h : Heap} {l l' : List (Option Nat)} (ho : Own h l)
    (hs : ∀ a, l'.count (some a) ≤ l.count (some a)) : Own h l' := fun a => Nat.le_trans (hs a) (ho a)

theorem Own.left {h : Heap} {l l' : List (Option Nat)} (ho : Own h (l ++ l')) : Own h l :=
  ho.sub fun a => by simp only [List.count_append]; omega

theorem Own.right {h : Heap} {l l' : List (Option Nat)} (ho : Own h (l ++ l')) : Own h l' :=
  ho.sub fun a => by simp only [List.count_append]; omega

theorem Own.isSome {h : Heap} {l : List (Option Nat)} (ho : Own h l) {a : Nat} (ha : some a ∈ l) : (h.mem a).isSome :=
  live_pos.1 (Nat.lt_of_lt_of_le (List.count_pos_iff.2 ha) (ho a))

theorem Own.disjoint {h : Heap} {l l' : List (Option Nat)} (ho : Own h (l ++ l')) {a : Nat} (ha : some a ∈ l') :
    some a ∉ l := by
  intro hc
  have h1 := ho a
  have h2 := live_le h a
  have h3 := List.count_pos_iff.2 ha
  have h4 := List.count_pos_iff.2 hc
  simp only [List.count_append] at h1
  omega

/-- What is owned after a move. -/
theorem Own.moves {h h' : Heap} {old new f : List (Option Nat)} (ho : Own h (old ++ f)) (m : Moves h old h' new) :
    Own h' (new ++ f) := by
  intro a
  have h1 := ho a
  have h2 := m.live a
  simp only [List.count_append] at h1 ⊢
  omega

/-- What a pointer points to is not changed by a move of other blocks. -/
theorem Own.kept {h h' : Heap} {old new f : List (Option Nat)} (ho : Own h (old ++ f)) (m : Moves h old h' new) {a : Nat}
    (ha : some a ∈ f) : h'.mem a = h.mem a :=
  m.kept a (ho.disjoint ha) (ho.right.isSome ha)

/-! ### Strings -/

/-- NULL, or a block with a string in it. -/
def Str (h : Heap) (p : Option Nat) : Prop := ∀ a, p = some a → ∃ b, h.mem a = some b ∧ (0 : UInt8) ∈ b

/-- The string at a pointer. -/
def val (h : Heap) (p : Option Nat) : Option Bytes := (p.bind h.mem).map cstr

theorem Str.none (h : Heap) : Str h none := fun _ hc => nomatch hc

@[simp] theorem val_none (h : Heap) : val h none = none := rfl

theorem Str.kept {h h' : Heap} {p : Option Nat} (hs : Str h p) (hk : ∀ a, p = some a → h'.mem a = h.mem a) : Str h' p :=
  fun a ha => by rw [hk a ha]; exact hs a ha

theorem val_kept {h h' : Heap} {p : Option Nat} (hk : ∀ a, p = some a → h'.mem a = h.mem a) : val h' p = val h p := by
  cases p with
  | none => rfl
  | some a => simp only [val, Option.bind_some, hk a rfl]

theorem Str.str {h : Heap} {a : Nat} (hs : Str h (some a)) : ∃ s, h.str a = .ok s ∧ val h (some a) = some s := by
  obtain ⟨b, hb, h0⟩ := hs a rfl
  exact ⟨cstr b, by simp only [Heap.str, hb, h0, if_true], by simp only [val, Option.bind_some, hb, Option.map_some]⟩

theorem zero_not_mem_cstr (b : Bytes) : (0 : UInt8) ∉ cstr b := by
  intro h
  have := List.all_takeWhile (p := fun x : UInt8 => decide (x ≠ 0)) (l := b)
  rw [List.all_eq_true] at this
  have h2 := this 0 h
  simp at h2

theorem cstr_append_zero (s t : Bytes) (h : (0 : UInt8) ∉ s) : cstr (s ++ 0 :: t) = s := by
  unfold cstr
  rw [List.takeWhile_append_of_pos (fun x hx => by
    have : x ≠ 0 := fun hc => h (hc ▸ hx)
    simpa using this)]
  simp

theorem val_zero_free {h : Heap} {p : Option Nat} {s : Bytes} (hv : val h p = some s) : (0 : UInt8) ∉ s := by
  unfold val at hv
  cases hp : p.bind h.mem with
  | none => rw [hp] at hv; cases hv
  | some b => rw [hp] at hv; cases hv; exact zero_not_mem_cstr b

/-! ### The single functions -/

theorem set_mem (h : Heap) (a : Nat) (b : Option Bytes) (x : Nat) :
    (h.set a b).mem x = if x = a then b else h.mem x := rfl

theorem alloc_moves {h : Heap} (hf : Fresh h) (b : Bytes) : Moves h [] (h.alloc b).1 [(h.alloc b).2] := by
  unfold Heap.alloc
  split
  · refine ⟨fun a => ?_, fun a _ hl => ?_, fun a ha => ?_⟩
    · have h0 := hf h.brk (Nat.le_refl _)
      simp only [live, set_mem, List.count_nil, Nat.add_zero, List.count_singleton]
      by_cases hc : a = h.brk
      · subst hc; simp [h0]
      · have : ¬ h.brk = a := fun e => hc e.symm
        simp [hc, this]
    · simp only [set_mem]
      split
      · rename_i hc
        rw [hc, hf h.brk (Nat.le_refl _)] at hl
        cases hl
      · rfl
    · simp only at ha
      simp only [set_mem]
      rw [if_neg (by omega)]
      exact hf a (by omega)
  · exact ⟨fun a => by simp [live], fun _ _ _ => rfl, hf⟩

theorem alloc_noFail {h : Heap} (e : false ∉ h.orc) (b : Bytes) :
    (h.alloc b).2 = some h.brk ∧ false ∉ (h.alloc b).1.orc := by
  unfold Heap.alloc
  revert e
  cases h.orc with
  | nil => simp
  | cons x l => cases x <;> simp

theorem alloc_mem {h : Heap} {b : Bytes} {a : Nat} (ha : (h.alloc b).2 = some a) : (h.alloc b).1.mem a = some b := by
  unfold Heap.alloc at ha ⊢
  split
  · rename_i hc
    rw [if_pos hc] at ha
    cases ha
    simp [set_mem]
  · rename_i hc
    rw [if_neg hc] at ha
    cases ha

theorem alloc_str (h : Heap) {s : Bytes} (h0 : (0 : UInt8) ∈ s) : Str (h.alloc s).1 (h.alloc s).2 :=
  fun _ ha => ⟨s, alloc_mem ha, h0⟩

theorem free_moves {h : Heap} (hf : Fresh h) {p : Option Nat} (ho : Own h [p]) :
    ∃ h', h.free p = .ok h' ∧ Moves h [p] h' [] ∧ h'.orc = h.orc := by
  cases p with
  | none => exact ⟨h, rfl, ⟨fun a => by simp, fun _ _ _ => rfl, hf⟩, rfl⟩
  | some p =>
    have hl := ho.isSome (List.mem_singleton.2 rfl)
    refine ⟨h.set p none, by simp only [Heap.free, hl, if_true], ⟨fun a => ?_, fun a ha _ => ?_, fun a ha => ?_⟩, rfl⟩
    · simp only [live, set_mem, List.count_nil, Nat.add_zero, List.count_singleton]
      by_cases hc : a = p
      · subst hc; simp [hl]
      · have : ¬ p = a := fun e => hc e.symm
        simp [hc, this]
    · simp only [set_mem]
      rw [if_neg (fun e => ha (List.mem_singleton.2 (by rw [e])))]
    · simp only [set_mem]
      split
      · rfl
      · exact hf a ha

theorem freeAll_moves (l : List (Option Nat)) {h : Heap} (hf : Fresh h) (ho : Own h l) :
    ∃ h', freeAll h l = .ok h' ∧ Moves h l h' [] := by
  induction l generalizing h with
  | nil => exact ⟨h, rfl, Moves.refl hf _⟩
  | cons p l ih =>
    obtain ⟨h1, e1, m1, _⟩ := free_moves hf (p := p) (Own.left (l' := l) ho)
    obtain ⟨h2, e2, m2⟩ := ih m1.fresh (Own.moves (old := [p]) (new := []) ho m1)
    refine ⟨h2, by simp only [freeAll, e1, Out.bind_ok, e2], ?_⟩
    exact (m1.frame l).trans m2

theorem strcpy_moves {h : Heap} (hf : Fresh h) {a : Nat} {b s : Bytes} (hb : h.mem a = some b)
    (hl : s.length + 1 ≤ b.length) :
    ∃ h', h.strcpy (some a) s = .ok h' ∧ Moves h [some a] h' [some a] ∧ h'.mem a = some (s ++ 0 :: b.drop (s.length + 1)) ∧
      h'.orc = h.orc := by
  refine ⟨h.set a (some (s ++ 0 :: b.drop (s.length + 1))), ?_, ⟨fun x => ?_, fun x hx _ => ?_, fun x hx => ?_⟩, ?_, rfl⟩
  · simp only [Heap.strcpy, hb]; rw [if_neg (by omega)]
  · simp only [live, set_mem]
    by_cases hc : x = a
    · subst hc; simp [hb]
    · simp [hc]
  · simp only [set_mem]
    rw [if_neg (fun e => hx (List.mem_singleton.2 (by rw [e])))]
  · simp only [set_mem]
    split
    · rename_i hc
      have := hf x hx
      rw [hc, hb] at this
      cases this
    · exact hf x hx
  · simp [set_mem]

/-! ### Copies -/

/-- A source that can be read while the blocks of `l` are changed. -/
def Src.Ready (h : Heap) (l : List (Option Nat)) : Src → Prop
  | .ptr p => Str h p ∧ ∀ a, p = some a → some a ∉ l
  | .text _ => True

/-- The string of a source, NULL as the empty string. -/
def Src.val (h : Heap) : Src → Bytes
  | .ptr p => (RepMem.val h p).getD []
  | .text b => (b.map cstr).getD []

theorem Src.read_ok {h : Heap} {l : List (Option Nat)} {s : Src} (hr : s.Ready h l) :
    s.read h = .ok (s.val h) ∧ (0 : UInt8) ∉ s.val h := by
  match s with
  | .ptr none => exact ⟨rfl, List.not_mem_nil⟩
  | .ptr (some a) =>
    obtain ⟨t, h1, h2⟩ := hr.1.str
    refine ⟨by simp only [Src.read, h1, Src.val, h2, Option.getD_some], ?_⟩
    simp only [Src.val, h2, Option.getD_some]
    exact val_zero_free h2
  | .text none => exact ⟨rfl, List.not_mem_nil⟩
  | .text (some b) => exact ⟨rfl, zero_not_mem_cstr b⟩

theorem Src.Ready.kept {h h' : Heap} {l l' : List (Option Nat)} {s : Src} (hr : s.Ready h l)
    (hk : ∀ a, some a ∉ l → (h.mem a).isSome → h'.mem a = h.mem a)
    (hl : ∀ a, some a ∈ l' → some a ∈ l ∨ h.mem a = none) : s.Ready h' l' ∧ s.val h' = s.val h := by
  match s with
  | .ptr p =>
    have hk' : ∀ a, p = some a → h'.mem a = h.mem a := fun a ha => by
      obtain ⟨b, hb, _⟩ := hr.1 a ha
      exact hk a (hr.2 a ha) (by rw [hb]; rfl)
    refine ⟨⟨hr.1.kept hk', fun a ha hc => ?_⟩, by simp only [Src.val, val_kept hk']⟩
    obtain ⟨b, hb, _⟩ := hr.1 a ha
    rcases hl a hc with h1 | h1
    · exact hr.2 a ha h1
    · rw [hb] at h1; cases h1
  | .text _ => exact ⟨trivial, rfl⟩

theorem copyStr_moves {h : Heap} (hf : Fresh h) {d : Option Nat} {s : Src} (ho : Own h [d]) (hd : Str h d)
    (hs : s.Ready h [d]) :
    ∃ h' d' ok, copyStr h d s = .ok (h', d', ok) ∧ Moves h [d] h' [d'] ∧ Str h' d' ∧
      (ok = true → val h' d' = some (s.val h)) ∧ (ok = false → d' = none) ∧ (false ∉ h.orc → ok = true ∧ false ∉ h'.orc) := by
  obtain ⟨e1, h0⟩ := s.read_ok hs
  generalize hv : s.val h = v at e1 h0 ⊢
  unfold copyStr
  rw [e1]
  simp only [Out.bind_ok]
  have hsize : ∃ n, dstSize h d = .ok n ∧
      (n = v.length + 1 → ∃ a b, d = some a ∧ h.mem a = some b ∧ v.length + 1 ≤ b.length) := by
    cases d with
    | none => exact ⟨0, rfl, fun hc => by omega⟩
    | some a =>
      obtain ⟨b, hb, hz⟩ := hd a rfl
      refine ⟨(cstr b).length + 1, by simp only [dstSize, Heap.str, hb, hz, if_true, Out.bind_ok, Out.pure_eq], fun hc =>
        ⟨a, b, rfl, hb, ?_⟩⟩
      have : (cstr b).length < b.length := by
        apply Nat.lt_of_not_le
        intro hle
        have hpre : cstr b <+: b := List.takeWhile_prefix _
        have := hpre.eq_of_length_le hle
        exact zero_not_mem_cstr b (by rw [this]; exact hz)
      omega
  obtain ⟨n, e2, hn⟩ := hsize
  rw [e2]
  simp only [Out.bind_ok]
  by_cases hc : v.length + 1 = n
  · rw [if_neg (fun h => h hc)]
    obtain ⟨a, b, rfl, hb, hl⟩ := hn hc.symm
    obtain ⟨h', e3, m, hm, horc⟩ := strcpy_moves hf hb hl
    refine ⟨h', some a, true, by rw [e3]; rfl, m, fun x hx => ?_, fun _ => ?_, nofun, fun e => ⟨rfl, by rw [horc]; exact e⟩⟩
    · cases hx; exact ⟨_, hm, by simp⟩
    · simp only [val, Option.bind_some, hm, Option.map_some, cstr_append_zero _ _ h0]
  · rw [if_pos hc]
    have m1 := alloc_moves hf (v ++ [0])
    have ho1 : Own (h.alloc (v ++ [0])).1 [d] := by
      intro a
      have h1 := m1.live a
      have h2 := ho a
      simp only [List.count_nil] at h1
      omega
    obtain ⟨h', e3, m2, horc⟩ := free_moves m1.fresh ho1
    have hown : Own (h.alloc (v ++ [0])).1 ([d] ++ [(h.alloc (v ++ [0])).2]) := by
      have := Own.moves (old := []) (f := [d]) (h := h) ho m1
      exact this.sub fun a => by simp only [List.count_append]; omega
    have hk : ∀ a, (h.alloc (v ++ [0])).2 = some a → h'.mem a = some (v ++ [0]) := fun a ha => by
      rw [hown.kept m2 (List.mem_singleton.2 ha.symm), alloc_mem ha]
    refine ⟨h', _, _, by rw [e3]; rfl, ?_, fun a ha => ⟨_, hk a ha, by simp⟩, fun hok => ?_, fun hno => ?_, fun e => ?_⟩
    · have h1 := (m1.frame [d]).trans ((m2.frame [(h.alloc (v ++ [0])).2]).congr
        (old' := [(h.alloc (v ++ [0])).2] ++ [d]) (new' := [(h.alloc (v ++ [0])).2])
        (fun a => by simp only [List.count_append]; omega) (fun a => by simp))
      exact h1
    · obtain ⟨a, ha⟩ := Option.isSome_iff_exists.1 hok
      rw [ha]
      simp only [val, Option.bind_some, hk a ha, Option.map_some, cstr_append_zero _ _ h0]
    · cases hx : (h.alloc (v ++ [0])).2 with
      | none => rfl
      | some a => rw [hx] at hno; cases hno
    · rw [horc, (alloc_noFail e _).1]; exact ⟨rfl, (alloc_noFail e _).2⟩

/-- Several copies. -/
theorem copyAll_moves (ds : List (Option Nat)) (ss : List Src) {h : Heap} (hf : Fresh h) (ho : Own h ds)
    (hd : ∀ d ∈ ds, Str h d) (hs : ∀ s ∈ ss, s.Ready h ds) :
    ∃ h' ds' ok, copyAll h ds ss = .ok (h', ds', ok) ∧ Moves h ds h' ds' ∧ ds'.length = ds.length ∧
      (∀ d ∈ ds', Str h' d) ∧
      (ok = true → ds.length = ss.length → ds'.map (val h') = ss.map fun s => some (s.val h)) ∧
      (false ∉ h.orc → ok = true ∧ false ∉ h'.orc) := by
  induction ds generalizing h ss with
  | nil => exact ⟨h, [], true, by simp [copyAll], Moves.refl hf _, rfl, fun _ hx => (nomatch hx), fun _ hl => (by
      cases ss with
      | nil => rfl
      | cons s ss => cases hl), fun e => ⟨rfl, e⟩⟩
  | cons d ds ih =>
    cases ss with
    | nil => exact ⟨h, d :: ds, true, rfl, Moves.refl hf _, rfl, hd, fun _ hl => (by cases hl), fun e => ⟨rfl, e⟩⟩
    | cons s ss =>
      have hod : Own h ([d] ++ ds) := ho
      obtain ⟨h1, d1, ok, e1, m1, hs1, hv1, hn1, hz1⟩ := copyStr_moves hf hod.left (hd d (List.mem_cons_self ..))
        (s := s) ((hs s (List.mem_cons_self ..)).kept (h' := h) (l' := [d]) (fun _ _ _ => rfl)
          (fun a ha => .inl (List.mem_cons.2 (.inl (List.mem_singleton.1 ha))))).1
      have ho1 : Own h1 ([d1] ++ ds) := hod.moves m1
      have hk1 : ∀ a, some a ∈ ds → h1.mem a = h.mem a := fun a ha => hod.kept m1 ha
      have hds1 : ∀ x ∈ ds, Str h1 x := fun x hx =>
        (hd x (List.mem_cons_of_mem _ hx)).kept fun a ha => hk1 a (ha ▸ hx)
      cases ok with
      | false =>
        refine ⟨h1, d1 :: ds, false, by simp only [copyAll, e1, Out.bind_ok, Bool.false_eq_true, if_false, Out.pure_eq],
          m1.frame ds, rfl, fun x hx => ?_, nofun, fun e => absurd (hz1 e).1 (by simp)⟩
        rcases List.mem_cons.1 hx with rfl | hx
        · exact hs1
        · exact hds1 x hx
      | true =>
        have hss : ∀ x ∈ ss, x.Ready h1 ds ∧ x.val h1 = x.val h := fun x hx =>
          (hs x (List.mem_cons_of_mem _ hx)).kept
            (fun a ha hl => m1.kept a (fun hc => ha (List.mem_cons.2 (.inl (List.mem_singleton.1 hc)))) hl)
            (fun a ha => .inl (List.mem_cons_of_mem _ ha))
        obtain ⟨h2, ds2, ok2, e2, m2, hl2, hs2, hv2, hz2⟩ := ih ss m1.fresh ho1.right hds1 (fun x hx => (hss x hx).1)
        have ho1' : Own h1 (ds ++ [d1]) := ho1.sub fun a => by simp only [List.count_append]; omega
        have hkd : ∀ a, d1 = some a → h2.mem a = h1.mem a := fun a ha =>
          ho1'.kept m2 (List.mem_singleton.2 ha.symm)
        refine ⟨h2, d1 :: ds2, ok2, by simp only [copyAll, e1, Out.bind_ok, if_true, e2, Out.pure_eq],
          ?_, by simp [hl2], fun x hx => ?_, fun hok hl => ?_, fun e => hz2 (hz1 e).2⟩
        · refine (m1.frame ds).trans ((m2.frame [d1]).congr (fun a => ?_) (fun a => ?_))
          · simp only [List.count_append]; omega
          · rw [show d1 :: ds2 = [d1] ++ ds2 from rfl]; simp only [List.count_append]; omega
        · rcases List.mem_cons.1 hx with rfl | hx
          · exact hs1.kept hkd
          · exact hs2 x hx
        · simp only [List.map_cons, val_kept hkd, hv1 rfl]
          rw [hv2 hok (by simpa using hl)]
          congr 1
          apply List.map_congr_left
          intro x hx
          rw [(hss x hx).2]

end SV.RepMem
