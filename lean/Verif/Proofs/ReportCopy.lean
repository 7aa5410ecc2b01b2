import Verif.Proofs.ReportMem
import Verif.Spec.ReportMem
/-!
Copies of reports: what `transfer` and the creation of a report do to the blocks owned.
-/
namespace SV.RepMem

theorem textOf_eq (b : Bytes) : textOf b = cstr b := by
  induction b with
  | nil => rfl
  | cons c r ih =>
    unfold textOf cstr
    by_cases h : c = 0
    · simp [h]
    · simp only [h, if_false]
      rw [ih]
      simp [cstr, List.takeWhile_cons, h]

theorem textAt_eq (h : Heap) (p : Option Nat) : textAt h.mem p = val h p := by
  cases p with
  | none => rfl
  | some a =>
    simp only [textAt, val, Option.bind_some]
    rw [show textOf = cstr from funext textOf_eq]

/-- The pointers of a report other than those of its product information. -/
def Rep.tail (r : Rep) : List (Option Nat) :=
  [r.version] ++ ([r.thisVersion] ++ ([r.nalu] ++ ([r.validation] ++ [some r.self])))

/-- All the pointers of a report. -/
def Rep.ptrs (r : Rep) : List (Option Nat) := r.product ++ r.tail

/-- The strings of a report. -/
def Rep.strs (r : Rep) : List (Option Nat) := r.product ++ [r.version, r.thisVersion, r.nalu, r.validation]

theorem Rep.strs_sub {r : Rep} {p : Option Nat} (h : p ∈ r.strs) : p ∈ r.ptrs := by
  simp only [Rep.strs, Rep.ptrs, Rep.tail, List.mem_append, List.mem_cons, List.not_mem_nil, or_false] at h ⊢
  rcases h with h | h | h | h | h <;> simp [h]

/-- A block for a version string. -/
def VerBlock (h : Heap) (p : Option Nat) : Prop := ∃ a b, p = some a ∧ h.mem a = some b ∧ b.length = versionMax

theorem VerBlock.kept {h h' : Heap} {p : Option Nat} (hv : VerBlock h p) (hk : ∀ a, p = some a → h'.mem a = h.mem a) :
    VerBlock h' p := by
  obtain ⟨a, b, h1, h2, h3⟩ := hv
  exact ⟨a, b, h1, by rw [hk a h1]; exact h2, h3⟩

/-- A report in order. -/
structure RepOk (h : Heap) (r : Rep) : Prop where
  strs : ∀ p ∈ r.strs, Str h p
  five : r.product.length = 5
  ver : VerBlock h r.version

theorem RepOk.kept {h h' : Heap} {r : Rep} (hr : RepOk h r) (hk : ∀ a, some a ∈ r.ptrs → h'.mem a = h.mem a) : RepOk h' r :=
  ⟨fun p hp => (hr.strs p hp).kept fun a ha => hk a (ha ▸ Rep.strs_sub hp), hr.five,
   hr.ver.kept fun a ha => hk a (by simp [Rep.ptrs, Rep.tail, ha])⟩

theorem view_kept {h h' : Heap} {r : Rep} (hk : ∀ a, some a ∈ r.ptrs → h'.mem a = h.mem a) :
    view h'.mem r = view h.mem r := by
  have hv : ∀ p ∈ r.ptrs, textAt h'.mem p = textAt h.mem p := fun p hp => by
    rw [textAt_eq, textAt_eq]
    exact val_kept fun a ha => hk a (ha ▸ hp)
  unfold view
  have h1 : r.product.map (textAt h'.mem) = r.product.map (textAt h.mem) :=
    List.map_congr_left fun p hp => hv p (List.mem_append_left _ hp)
  rw [h1, hv r.version (by simp [Rep.ptrs, Rep.tail]), hv r.thisVersion (by simp [Rep.ptrs, Rep.tail]),
    hv r.nalu (by simp [Rep.ptrs, Rep.tail]), hv r.validation (by simp [Rep.ptrs, Rep.tail])]

/-! ### Creation -/

theorem create_moves {h : Heap} (hf : Fresh h) :
    ((create h).2 = none ∧ Moves h [] (create h).1 [] ∧ false ∈ h.orc) ∨
    ∃ r, (create h).2 = some r ∧ Moves h [] (create h).1 r.ptrs ∧ r.product = List.replicate 5 none ∧ r.nalu = none ∧
      r.validation = none ∧ r.rest = restInit ∧ (∀ p ∈ r.strs, Str (create h).1 p) ∧ (false ∉ h.orc → false ∉ (create h).1.orc) ∧
      (h.orc[1]? ≠ some false → h.orc[2]? ≠ some false →
        VerBlock (create h).1 r.version ∧ VerBlock (create h).1 r.thisVersion ∧
        val (create h).1 r.version = some [] ∧ val (create h).1 r.thisVersion = some []) := by
  have m1 := alloc_moves hf []
  unfold create
  cases ha : (h.alloc []).2 with
  | none =>
    refine .inl ⟨by simp only [ha], ?_, Classical.byContradiction fun e => ?_⟩
    · simp only [ha]
      exact m1.congr (fun _ => rfl) (fun a => by rw [ha]; simp)
    · rw [(alloc_noFail e _).1] at ha; cases ha
  | some p =>
    refine .inr ?_
    simp only [ha]
    have m2 := alloc_moves m1.fresh (List.replicate versionMax 0)
    generalize hv : (h.alloc []).1.alloc (List.replicate versionMax 0) = v at m2
    have m3 := alloc_moves m2.fresh (List.replicate versionMax 0)
    generalize ht : v.1.alloc (List.replicate versionMax 0) = t at m3
    have hz : (0 : UInt8) ∈ List.replicate versionMax (0 : UInt8) := by simp [versionMax]
    have hk : ∀ a, v.2 = some a → t.1.mem a = v.1.mem a := fun a hva => by
      have hmem : v.1.mem a = some (List.replicate versionMax 0) := by rw [← hv] at hva ⊢; exact alloc_mem hva
      exact m3.kept a (List.not_mem_nil) (by rw [hmem]; rfl)
    have hsv : Str v.1 v.2 := by rw [← hv]; exact alloc_str _ hz
    have hst : Str t.1 t.2 := by rw [← ht]; exact alloc_str _ hz
    refine ⟨_, rfl, ?_, rfl, rfl, rfl, rfl, fun q hq => ?_, fun e => ?_, fun o1 o2 => ?_⟩
    · refine ((m1.trans ((m2.frame [(h.alloc []).2]).trans (m3.frame ([v.2] ++ [(h.alloc []).2])))).congr
        (fun _ => rfl) (fun a => ?_))
      have hn : List.count (some a) [(none : Option Nat)] = 0 := by simp
      simp only [Rep.ptrs, Rep.tail, List.count_append, hn, ha]
      have hr : List.count (some a) (List.replicate 5 (none : Option Nat)) = 0 := by simp [List.count_replicate]
      rw [hr]
      omega
    · simp only [Rep.strs, List.mem_append, List.mem_replicate, List.mem_cons, List.not_mem_nil, or_false] at hq
      rcases hq with hq | hq | hq | hq | hq
      · rw [hq.2]; exact Str.none _
      · rw [hq]; exact hsv.kept hk
      · rw [hq]; exact hst
      · rw [hq]; exact Str.none _
      · rw [hq]; exact Str.none _
    · rw [← ht, ← hv]; exact (alloc_noFail (alloc_noFail (alloc_noFail e _).2 _).2 _).2
    · have hv2 : ∃ a, v.2 = some a := by
        rw [← hv]
        unfold Heap.alloc
        revert o1
        cases h.orc with
        | nil => simp
        | cons b l =>
          cases l with
          | nil => cases b <;> simp [Heap.set]
          | cons c l => cases b <;> cases c <;> simp [Heap.set]
      have ht2 : ∃ a, t.2 = some a := by
        rw [← ht, ← hv]
        unfold Heap.alloc
        revert o1 o2
        cases h.orc with
        | nil => simp
        | cons b l =>
          cases l with
          | nil => cases b <;> simp [Heap.set]
          | cons c l =>
            cases l with
            | nil => cases b <;> cases c <;> simp [Heap.set]
            | cons d l => cases b <;> cases c <;> cases d <;> simp [Heap.set]
      obtain ⟨a, hva⟩ := hv2
      obtain ⟨b, htb⟩ := ht2
      have hma : v.1.mem a = some (List.replicate versionMax 0) := by rw [← hv] at hva ⊢; exact alloc_mem hva
      refine ⟨⟨a, _, hva, by rw [hk a hva]; exact hma, by simp⟩, ⟨b, _, htb, by rw [← ht] at htb ⊢; exact alloc_mem htb, by simp⟩, ?_, ?_⟩
      · simp only [hva, val, Option.bind_some, hk a hva, hma, Option.map_some]
        rfl
      · have hmb : t.1.mem b = some (List.replicate versionMax 0) := by rw [← ht] at htb ⊢; exact alloc_mem htb
        simp only [htb, val, Option.bind_some, hmb, Option.map_some]
        rfl

/-! ### Transfer -/

theorem VerBlock.str {h : Heap} {p : Option Nat} (hv : VerBlock h p) (hs : Str h p) :
    ∃ a s, p = some a ∧ h.str a = .ok s ∧ val h p = some s ∧ s.length + 1 ≤ versionMax ∧ (0 : UInt8) ∉ s := by
  obtain ⟨a, b, rfl, hb, hl⟩ := hv
  obtain ⟨b', hb', h0⟩ := hs a rfl
  rw [hb] at hb'; cases hb'
  refine ⟨a, cstr b, rfl, by simp only [Heap.str, hb, h0, if_true], by simp only [val, Option.bind_some, hb, Option.map_some],
    ?_, zero_not_mem_cstr b⟩
  have : (cstr b).length < b.length := by
    apply Nat.lt_of_not_le
    intro hle
    have := (List.takeWhile_prefix (fun x : UInt8 => decide (x ≠ 0)) (l := b)).eq_of_length_le hle
    exact zero_not_mem_cstr b (by rw [show cstr b = b from this]; exact h0)
  omega

/-- Writing of a version string. -/
theorem VerBlock.strcpy {h : Heap} (hf : Fresh h) {p : Option Nat} (hv : VerBlock h p) {s : Bytes}
    (hl : s.length + 1 ≤ versionMax) (h0 : (0 : UInt8) ∉ s) :
    ∃ h', h.strcpy p s = .ok h' ∧ Moves h [p] h' [p] ∧ VerBlock h' p ∧ Str h' p ∧ val h' p = some s ∧ h'.orc = h.orc := by
  obtain ⟨a, b, rfl, hb, hlb⟩ := hv
  obtain ⟨h', e, m, hm, ho⟩ := strcpy_moves hf (s := s) hb (by omega)
  refine ⟨h', e, m, ⟨a, _, rfl, hm, ?_⟩, fun x hx => ?_, ?_, ho⟩
  · simp only [List.length_append, List.length_cons, List.length_drop]; omega
  · cases hx; exact ⟨_, hm, by simp⟩
  · simp only [val, Option.bind_some, hm, Option.map_some, cstr_append_zero _ _ h0]

/-- A move that replaces a part of the pointers of a report. -/
theorem Moves.part {h h' : Heap} {old new : List (Option Nat)} (m : Moves h old h' new) {l l' f : List (Option Nat)}
    (h1 : ∀ a, l.count (some a) = old.count (some a) + f.count (some a))
    (h2 : ∀ a, l'.count (some a) = new.count (some a) + f.count (some a)) : Moves h l h' l' :=
  (m.frame f).congr (fun a => by rw [h1, List.count_append]) (fun a => by rw [h2, List.count_append])

/-- Blocks of other pointers stay. -/
theorem Own.part {h h' : Heap} {old new : List (Option Nat)} {l f : List (Option Nat)} (ho : Own h l) (m : Moves h old h' new)
    (h1 : ∀ a, old.count (some a) + f.count (some a) ≤ l.count (some a)) {a : Nat} (ha : some a ∈ f) : h'.mem a = h.mem a :=
  Own.kept (ho.sub (l' := old ++ f) fun a => by rw [List.count_append]; exact h1 a) m ha

theorem thisVersion_text : thisVersion = "v1.1.29".toUTF8.toList := by decide +kernel

theorem transfer_moves {h : Heap} (hf : Fresh h) {d s : Rep} (ho : Own h (d.ptrs ++ s.ptrs)) (hd : RepOk h d)
    (ht : VerBlock h d.thisVersion) (hs : RepOk h s) :
    ∃ h' d' ok, transfer h d s = .ok (h', d', ok) ∧ Moves h d.ptrs h' d'.ptrs ∧ RepOk h' d' ∧
      (ok = true → view h'.mem d' = (view h.mem s).copied) ∧ (false ∉ h.orc → ok = true ∧ false ∉ h'.orc) := by
  -- the source while blocks of the copy are moved
  have hsrc : ∀ {h' : Heap} {l : List (Option Nat)}, Moves h d.ptrs h' l → ∀ a, some a ∈ s.ptrs → h'.mem a = h.mem a :=
    fun m a ha => ho.kept m ha
  have hdst : Own h d.ptrs := ho.left
  obtain ⟨a0, sv, e0, e0', hv0, hl0, hz0⟩ := hs.ver.str (hs.strs _ (by simp [Rep.strs]))
  -- the version of the signing side
  obtain ⟨h1, e1, m1, hV1, hS1, hv1, ho1⟩ := hd.ver.strcpy hf hl0 hz0
  have M1 : Moves h d.ptrs h1 d.ptrs := m1.part (f := d.product ++ ([d.thisVersion] ++ ([d.nalu] ++ ([d.validation] ++ [some d.self]))))
    (fun a => by simp only [Rep.ptrs, Rep.tail, List.count_append]; omega)
    (fun a => by simp only [Rep.ptrs, Rep.tail, List.count_append]; omega)
  have k1 : ∀ a, some a ∈ d.product ++ ([d.thisVersion] ++ ([d.nalu] ++ ([d.validation] ++ [some d.self]))) → h1.mem a = h.mem a :=
    fun a ha => hdst.part m1 (fun a => by simp only [Rep.ptrs, Rep.tail, List.count_append]; omega) ha
  have O1 : Own h1 d.ptrs := (Own.moves (f := []) (by simpa using hdst) M1).sub (fun a => by simp)
  -- the version of the library
  have hT1 : VerBlock h1 d.thisVersion := ht.kept fun a ha => k1 a (by simp [ha])
  obtain ⟨h2, e2, m2, hV2, hS2, hv2, ho2⟩ := hT1.strcpy m1.fresh (s := thisVersion) (by decide) (by decide)
  have M2 : Moves h1 d.ptrs h2 d.ptrs := m2.part (f := d.product ++ ([d.version] ++ ([d.nalu] ++ ([d.validation] ++ [some d.self]))))
    (fun a => by simp only [Rep.ptrs, Rep.tail, List.count_append]; omega)
    (fun a => by simp only [Rep.ptrs, Rep.tail, List.count_append]; omega)
  have k2 : ∀ a, some a ∈ d.product ++ ([d.version] ++ ([d.nalu] ++ ([d.validation] ++ [some d.self]))) → h2.mem a = h1.mem a :=
    fun a ha => O1.part m2 (fun a => by simp only [Rep.ptrs, Rep.tail, List.count_append]; omega) ha
  have O2 : Own h2 d.ptrs := (Own.moves (f := []) (by simpa using O1) M2).sub (fun a => by simp)
  have M02 := M1.trans M2
  -- the product information
  have hready : ∀ {g : Heap} {l old : List (Option Nat)} (_ : Moves h d.ptrs g l) (_ : ∀ a, some a ∈ old → some a ∈ l) (p : Option Nat)
      (_ : p ∈ s.strs), (Src.ptr p).Ready g old ∧ (Src.ptr p).val g = (val h p).getD [] := by
    intro g l old m hol p hp
    have hk : ∀ a, p = some a → g.mem a = h.mem a := fun a ha => hsrc m a (ha ▸ Rep.strs_sub hp)
    refine ⟨⟨(hs.strs p hp).kept hk, fun a ha hc => ?_⟩, by simp only [Src.val, val_kept hk]⟩
    have hps : some a ∈ s.ptrs := ha ▸ Rep.strs_sub hp
    exact m.not_new (ho.disjoint hps) (ho.right.isSome hps) (hol a hc)
  have hD2 : ∀ p ∈ d.product, Str h2 p := fun p hp =>
    ((hd.strs p (List.mem_append_left _ hp)).kept fun a ha => k1 a (List.mem_append_left _ (ha ▸ hp))).kept
      fun a ha => k2 a (List.mem_append_left _ (ha ▸ hp))
  obtain ⟨h3, P3, ok3, e3, m3, hl3, hS3, hv3, ho3⟩ := copyAll_moves d.product (s.product.map .ptr) M2.fresh
    (O2.sub fun a => by simp only [Rep.ptrs, List.count_append]; omega) hD2 (fun x hx => by
      obtain ⟨p, hp, rfl⟩ := List.mem_map.1 hx
      exact (hready M02 (fun a ha => List.mem_append_left _ ha) p (List.mem_append_left _ hp)).1)
  have M3 : Moves h2 d.ptrs h3 { d with product := P3 }.ptrs := m3.part (f := d.tail)
    (fun a => by simp only [Rep.ptrs, List.count_append])
    (fun a => by simp only [Rep.ptrs, Rep.tail, List.count_append])
  have k3 : ∀ a, some a ∈ d.tail → h3.mem a = h2.mem a :=
    fun a ha => O2.part m3 (fun a => by simp only [Rep.ptrs, List.count_append]; omega) ha
  have O3 : Own h3 { d with product := P3 }.ptrs := (Own.moves (f := []) (by simpa using O2) M3).sub (fun a => by simp)
  have M03 := M02.trans M3
  have hV3 : VerBlock h3 d.version :=
    (hV1.kept fun a ha => k2 a (by simp [ha])).kept fun a ha => k3 a (by simp [Rep.tail, ha])
  have hSv3 : Str h3 d.version :=
    (hS1.kept fun a ha => k2 a (by simp [ha])).kept fun a ha => k3 a (by simp [Rep.tail, ha])
  have hvv3 : val h3 d.version = some sv := by
    rw [val_kept (h := h2) fun a ha => k3 a (by simp [Rep.tail, ha]), val_kept (h := h1) fun a ha => k2 a (by simp [ha]), hv1]
  have hSt3 : Str h3 d.thisVersion := hS2.kept fun a ha => k3 a (by simp [Rep.tail, ha])
  have hvt3 : val h3 d.thisVersion = some thisVersion := by
    rw [val_kept (h := h2) fun a ha => k3 a (by simp [Rep.tail, ha]), hv2]
  have hSn3 : Str h3 d.nalu := (((hd.strs d.nalu (by simp [Rep.strs])).kept fun a ha => k1 a (by simp [ha])).kept
    fun a ha => k2 a (by simp [ha])).kept fun a ha => k3 a (by simp [Rep.tail, ha])
  have hSw3 : Str h3 d.validation := (((hd.strs d.validation (by simp [Rep.strs])).kept fun a ha => k1 a (by simp [ha])).kept
    fun a ha => k2 a (by simp [ha])).kept fun a ha => k3 a (by simp [Rep.tail, ha])
  have hstart : transfer h d s = (do
      let r ← copyAll h2 d.product (s.product.map .ptr)
      let dst := { d with product := r.2.1 }
      if r.2.2 then do
        let q ← copyStr r.1 dst.nalu (.ptr s.nalu)
        let dst := { dst with nalu := q.2.1 }
        if q.2.2 then do
          let t ← copyStr q.1 dst.validation (.ptr s.validation)
          let dst := { dst with validation := t.2.1 }
          if t.2.2 then pure (t.1, { dst with rest := s.rest }, true)
          else pure (t.1, dst, false)
        else pure (q.1, dst, false)
      else pure (r.1, dst, false)) := by
    unfold transfer
    simp only [strcpyFrom, e0, e0', Out.bind_ok, e1, e2]
  have five3 : P3.length = 5 := by rw [hl3]; exact hd.five
  rw [hstart, e3]
  simp only [Out.bind_ok]
  cases ok3 with
  | false =>
    refine ⟨h3, { d with product := P3 }, false, by simp, M03, ⟨fun p hp => ?_, five3, hV3⟩, nofun, fun e => ?_⟩
    · simp only [Rep.strs, List.mem_append, List.mem_cons, List.not_mem_nil, or_false] at hp
      rcases hp with hp | hp | hp | hp | hp
      · exact hS3 p hp
      · rw [hp]; exact hSv3
      · rw [hp]; exact hSt3
      · rw [hp]; exact hSn3
      · rw [hp]; exact hSw3
    · have := (ho3 (by rw [ho2, ho1]; exact e)).1; cases this
  | true =>
    simp only [if_true]
    -- the types of the NAL units
    obtain ⟨h4, n4, ok4, e4, m4, hS4, hv4, hn4, ho4⟩ := copyStr_moves M3.fresh (d := d.nalu) (s := .ptr s.nalu)
      (O3.sub fun a => by simp only [Rep.ptrs, Rep.tail, List.count_append]; omega) hSn3
      (hready M03 (fun a ha => by simp only [List.mem_singleton] at ha; simp [Rep.ptrs, Rep.tail, ha]) s.nalu (by simp [Rep.strs])).1
    have M4 : Moves h3 { d with product := P3 }.ptrs h4 { d with product := P3, nalu := n4 }.ptrs :=
      m4.part (f := P3 ++ ([d.version] ++ ([d.thisVersion] ++ ([d.validation] ++ [some d.self]))))
      (fun a => by simp only [Rep.ptrs, Rep.tail, List.count_append]; omega)
      (fun a => by simp only [Rep.ptrs, Rep.tail, List.count_append]; omega)
    have k4 : ∀ a, some a ∈ P3 ++ ([d.version] ++ ([d.thisVersion] ++ ([d.validation] ++ [some d.self]))) → h4.mem a = h3.mem a :=
      fun a ha => O3.part m4 (fun a => by simp only [Rep.ptrs, Rep.tail, List.count_append]; omega) ha
    have O4 : Own h4 { d with product := P3, nalu := n4 }.ptrs := (Own.moves (f := []) (by simpa using O3) M4).sub (fun a => by simp)
    have M04 := M03.trans M4
    have hV4 : VerBlock h4 d.version := hV3.kept fun a ha => k4 a (by simp [ha])
    have hSv4 : Str h4 d.version := hSv3.kept fun a ha => k4 a (by simp [ha])
    have hSt4 : Str h4 d.thisVersion := hSt3.kept fun a ha => k4 a (by simp [ha])
    have hSw4 : Str h4 d.validation := hSw3.kept fun a ha => k4 a (by simp [ha])
    have hSp4 : ∀ p ∈ P3, Str h4 p := fun p hp => (hS3 p hp).kept fun a ha => k4 a (List.mem_append_left _ (ha ▸ hp))
    rw [e4]
    simp only [Out.bind_ok]
    cases ok4 with
    | false =>
      refine ⟨h4, { d with product := P3, nalu := n4 }, false, by simp, M04, ⟨fun p hp => ?_, five3, hV4⟩, nofun, fun e => ?_⟩
      · simp only [Rep.strs, List.mem_append, List.mem_cons, List.not_mem_nil, or_false] at hp
        rcases hp with hp | hp | hp | hp | hp
        · exact hSp4 p hp
        · rw [hp]; exact hSv4
        · rw [hp]; exact hSt4
        · rw [hp]; exact hS4
        · rw [hp]; exact hSw4
      · have := (ho4 (ho3 (by rw [ho2, ho1]; exact e)).2).1; cases this
    | true =>
      simp only [if_true]
      -- the statuses
      obtain ⟨h5, w5, ok5, e5, m5, hS5, hv5, hn5, ho5⟩ := copyStr_moves M4.fresh (d := d.validation) (s := .ptr s.validation)
        (O4.sub fun a => by simp only [Rep.ptrs, Rep.tail, List.count_append]; omega) hSw4
        (hready M04 (fun a ha => by simp only [List.mem_singleton] at ha; simp [Rep.ptrs, Rep.tail, ha]) s.validation (by simp [Rep.strs])).1
      have M5 : Moves h4 { d with product := P3, nalu := n4 }.ptrs h5 { d with product := P3, nalu := n4, validation := w5 }.ptrs :=
        m5.part (f := P3 ++ ([d.version] ++ ([d.thisVersion] ++ ([n4] ++ [some d.self]))))
        (fun a => by simp only [Rep.ptrs, Rep.tail, List.count_append]; omega)
        (fun a => by simp only [Rep.ptrs, Rep.tail, List.count_append]; omega)
      have k5 : ∀ a, some a ∈ P3 ++ ([d.version] ++ ([d.thisVersion] ++ ([n4] ++ [some d.self]))) → h5.mem a = h4.mem a :=
        fun a ha => O4.part m5 (fun a => by simp only [Rep.ptrs, Rep.tail, List.count_append]; omega) ha
      have M05 := M04.trans M5
      have hok : RepOk h5 { d with product := P3, nalu := n4, validation := w5 } := by
        refine ⟨fun p hp => ?_, five3, hV4.kept fun a ha => k5 a (by simp [ha])⟩
        simp only [Rep.strs, List.mem_append, List.mem_cons, List.not_mem_nil, or_false] at hp
        rcases hp with hp | hp | hp | hp | hp
        · exact (hSp4 p hp).kept fun a ha => k5 a (List.mem_append_left _ (ha ▸ hp))
        · rw [hp]; exact hSv4.kept fun a ha => k5 a (by simp [ha])
        · rw [hp]; exact hSt4.kept fun a ha => k5 a (by simp [ha])
        · rw [hp]; exact hS4.kept fun a ha => k5 a (by simp [ha])
        · rw [hp]; exact hS5
      rw [e5]
      simp only [Out.bind_ok]
      cases ok5 with
      | false =>
        refine ⟨h5, _, false, by simp, M05, hok, nofun, fun e => ?_⟩
        have := (ho5 (ho4 (ho3 (by rw [ho2, ho1]; exact e)).2).2).1; cases this
      | true =>
        refine ⟨h5, { d with product := P3, nalu := n4, validation := w5, rest := s.rest }, true, by simp, M05,
          ⟨hok.strs, hok.five, hok.ver⟩, fun _ => ?_, fun e => ⟨rfl, (ho5 (ho4 (ho3 (by rw [ho2, ho1]; exact e)).2).2).2⟩⟩
        have hp : P3.map (textAt h5.mem) = (s.product.map (textAt h.mem)).map filled := by
          have h1 : P3.map (textAt h5.mem) = P3.map (val h3) := List.map_congr_left fun p hp => by
            rw [textAt_eq, val_kept (h := h4) fun a ha => k5 a (List.mem_append_left _ (ha ▸ hp)),
              val_kept (h := h3) fun a ha => k4 a (List.mem_append_left _ (ha ▸ hp))]
          rw [h1, hv3 rfl (by rw [List.length_map, hd.five, hs.five]), List.map_map, List.map_map]
          apply List.map_congr_left
          intro p hp
          simp only [Function.comp, filled, textAt_eq]
          rw [(hready M02 (fun a ha => ha) p (List.mem_append_left _ hp)).2]
        simp only [view, View.copied, View.mk.injEq]
        refine ⟨hp, ?_, ?_, ?_, ?_, trivial⟩
        · rw [textAt_eq, textAt_eq, hv0, val_kept (h := h4) fun a ha => k5 a (by simp [ha]),
            val_kept (h := h3) fun a ha => k4 a (by simp [ha]), hvv3]
        · rw [textAt_eq, val_kept (h := h4) fun a ha => k5 a (by simp [ha]),
            val_kept (h := h3) fun a ha => k4 a (by simp [ha]), hvt3, thisVersion_text]
        · rw [textAt_eq, textAt_eq, val_kept (h := h4) fun a ha => k5 a (by simp [ha]), hv4 rfl,
            (hready M03 (fun a ha => ha) s.nalu (by simp [Rep.strs])).2]
          rfl
        · rw [textAt_eq, textAt_eq, hv5 rfl, (hready M04 (fun a ha => ha) s.validation (by simp [Rep.strs])).2]
          rfl

end SV.RepMem
