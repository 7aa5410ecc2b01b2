import Verif.Proofs.FlowRound
/-! Validation of an undisturbed stream: when a GOP is validated. -/
namespace SV
open Spec
namespace Validator

/-- The first half of `scanStep`. -/
def scanSei (c : Scan) (n : Nalu) : Scan :=
  if n.valid ≤ 0 ∨ n.isHashable = false then c else { c with hasSei := c.hasSei || n.gopSei }

/-- The second half of `scanStep`. -/
def scanItem (c : Scan) (i : Item) (n : Nalu) : Scan :=
  if i.status = Status.P ∧ n.isHashable = true then
    { c with ends := c.ends + (if n.firstInGop then 1 else 0), sei := c.sei || n.gopSei, after := c.after || c.last.getD false, last := some n.gopSei }
  else c

/-- The end of `scanStep`. -/
def scanFound (signing : Bool) (c : Scan) : Scan :=
  { c with found := c.found || (if signing then decide (c.ends > 0) && c.sei else decide (c.ends ≥ 2)) || c.after }

theorem scanStep_some {signing : Bool} {c : Scan} {i : Item} {n : Nalu} (h : i.nalu = some n) :
    scanStep signing c i = scanFound signing (scanItem (scanSei c n) i n) := by
  unfold scanStep
  rw [h]
  rfl

theorem scanStep_none {signing : Bool} {c : Scan} {i : Item} (h : i.nalu = none) : scanStep signing c i = scanFound signing c := by
  unfold scanStep
  rw [h]
  rfl

/-- Loop variables of `has_pending_gop` when no pending SEI has been passed. -/
structure NoSei (c : Scan) : Prop where
  last : c.last.getD false = false
  sei : c.sei = false
  after : c.after = false
  found : c.found = false

theorem NoSei.found' {c : Scan} (h : NoSei c) : NoSei (scanFound true c) ∧ (scanFound true c).ends = c.ends := by
  refine ⟨⟨h.last, h.sei, h.after, ?_⟩, rfl⟩
  unfold scanFound
  dsimp only
  rw [h.found, h.sei, h.after]; simp

theorem scanSei_ends (c : Scan) (n : Nalu) : (scanSei c n).ends = c.ends := by unfold scanSei; split <;> rfl

theorem NoSei.seen {c : Scan} (h : NoSei c) (n : Nalu) : NoSei (scanSei c n) := by
  unfold scanSei
  split
  · exact h
  · exact ⟨h.last, h.sei, h.after, h.found⟩

theorem NoSei.step {c : Scan} {i : Item} (h : NoSei c) (hi : i.status = .P → i.isSei = false) : NoSei (scanStep true c i) := by
  cases hn : i.nalu with
  | none => rw [scanStep_none hn]; exact h.found'.1
  | some n =>
    rw [scanStep_some hn]
    refine (NoSei.found' ?_).1
    have h' := h.seen n
    unfold scanItem
    split
    · rename_i hc
      have := hi hc.1
      unfold Item.isSei at this
      rw [hn] at this
      exact ⟨this, by dsimp only; rw [h'.sei]; exact this, by dsimp only; rw [h'.after, h'.last]; rfl, h'.found⟩
    · exact h'

theorem scanStep_ends (c : Scan) (i : Item) : c.ends ≤ (scanStep true c i).ends := by
  cases hn : i.nalu with
  | none => rw [scanStep_none hn]; exact Nat.le_refl _
  | some n =>
    rw [scanStep_some hn]
    show c.ends ≤ (scanItem (scanSei c n) i n).ends
    unfold scanItem
    have := scanSei_ends c n
    split
    · dsimp only; omega
    · omega

theorem scanStep_first {c : Scan} {i : Item} {n : Nalu} (hn : i.nalu = some n) (hp : i.status = .P) (hh : n.isHashable = true)
    (hf : n.firstInGop = true) : 0 < (scanStep true c i).ends := by
  rw [scanStep_some hn]
  show 0 < (scanItem (scanSei c n) i n).ends
  unfold scanItem
  rw [if_pos ⟨hp, hh⟩]
  dsimp only
  rw [if_pos hf]
  omega

/-- Without pending SEI nothing is found, and the number of GOP starts grows. -/
theorem scan_plain {l : NList} {c : Scan} (h : NoSei c) (hl : ∀ x ∈ l, x.2.status = .P → x.2.isSei = false) :
    NoSei (scan true l c) ∧ c.ends ≤ (scan true l c).ends := by
  induction l generalizing c with
  | nil => exact ⟨h, Nat.le_refl _⟩
  | cons x r ih =>
    unfold scan
    rw [h.found, if_neg (by decide)]
    have := ih (h.step (hl x List.mem_cons_self)) fun y hy => hl y (List.mem_cons_of_mem _ hy)
    exact ⟨this.1, Nat.le_trans (scanStep_ends c x.2) this.2⟩

theorem scan_first {l : NList} {c : Scan} (h : NoSei c) (hl : ∀ x ∈ l, x.2.status = .P → x.2.isSei = false) {x : Nat × Item} {n : Nalu}
    (hx : x ∈ l) (hn : x.2.nalu = some n) (hp : x.2.status = .P) (hh : n.isHashable = true) (hf : n.firstInGop = true) :
    0 < (scan true l c).ends := by
  induction l generalizing c with
  | nil => cases hx
  | cons y r ih =>
    unfold scan
    rw [h.found, if_neg (by decide)]
    have hs := h.step (hl y List.mem_cons_self)
    rcases List.mem_cons.1 hx with rfl | hx
    · exact Nat.lt_of_lt_of_le (scanStep_first hn hp hh hf) (scan_plain hs fun w hw => hl w (List.mem_cons_of_mem _ hw)).2
    · exact ih hs (fun w hw => hl w (List.mem_cons_of_mem _ hw)) hx

theorem scan_append {l : NList} {c : Scan} (h : NoSei c) (hl : ∀ x ∈ l, x.2.status = .P → x.2.isSei = false) (z : Nat × Item) :
    scan true (l ++ [z]) c = scanStep true (scan true l c) z.2 := by
  induction l generalizing c with
  | nil =>
    show scan true [z] c = _
    unfold scan
    rw [h.found, if_neg (by decide)]
    rfl
  | cons x r ih =>
    rw [List.cons_append]
    unfold scan
    rw [h.found, if_neg (by decide), if_neg (by decide)]
    exact ih (h.step (hl x List.mem_cons_self)) fun y hy => hl y (List.mem_cons_of_mem _ hy)

theorem noSei_init : NoSei {} := ⟨rfl, rfl, rfl, rfl⟩

/-- Nothing to validate. -/
theorem hasPending_plain {s : Validator} (hs : s.flags.signing = true) (hl : ∀ x ∈ s.list, x.2.status = .P → x.2.isSei = false) :
    s.hasPending.2 = false ∧ ∃ g, s.hasPending.1 = { s with gop := g } ∧ g.afterNext = false := by
  have h := (scan_plain noSei_init hl).1
  unfold hasPending
  rw [hs]
  dsimp only
  refine ⟨h.found, _, rfl, ?_⟩
  dsimp only
  rw [h.last, Bool.and_false]

/-- A SEI after the start of a GOP. -/
theorem hasPending_due' {s : Validator} {l : NList} {z : Nat × Item} {m : Nalu} (hs : s.flags.signing = true) (e : s.list = l ++ [z])
    (hl : ∀ x ∈ l, x.2.status = .P → x.2.isSei = false) {x : Nat × Item} {n : Nalu}
    (hx : x ∈ l) (hn : x.2.nalu = some n) (hp : x.2.status = .P) (hh : n.isHashable = true) (hf : n.firstInGop = true)
    (hm : z.2.nalu = some m) (hz : z.2.status = .P) (hmh : m.isHashable = true) (hmv : m.valid > 0) (hms : m.gopSei = true) :
    s.hasPending.2 = true ∧ ∃ g, s.hasPending.1 = { s with gop := g } ∧ g.hasSei = true ∧ g.noEnd = false ∧ g.transLost = false := by
  have h := (scan_plain noSei_init hl).1
  have h2 := scan_first noSei_init hl hx hn hp hh hf
  have hsc : scan true s.list {} = scanStep true (scan true l {}) z.2 := by rw [e]; exact scan_append noSei_init hl z
  generalize scan true l {} = c at h h2 hsc
  have e1 : scanSei c m = { c with hasSei := true } := by
    unfold scanSei
    rw [if_neg (by
      rintro (hc | hc)
      · omega
      · rw [hmh] at hc; cases hc), hms, Bool.or_true]
  rw [scanStep_some hm, e1] at hsc
  unfold scanItem scanFound at hsc
  rw [if_pos ⟨hz, hmh⟩, hms] at hsc
  unfold hasPending
  rw [hs, hsc]
  dsimp only
  refine ⟨?_, _, rfl, rfl, ?_, rfl⟩
  · have : decide (c.ends + (if m.firstInGop = true then 1 else 0) > 0) = true := decide_eq_true (by omega)
    rw [this, Bool.or_true]
    simp
  · dsimp only
    rw [h.after, h.last]; rfl

theorem hasPending_due {s : Validator} {l : NList} {z : Nat × Item} {m : Nalu} (hs : s.flags.signing = true) (e : s.list = l ++ [z])
    (hl : ∀ x ∈ l, x.2.status = .P → x.2.isSei = false) {x : Nat × Item} {n : Nalu}
    (hx : x ∈ l) (hn : x.2.nalu = some n) (hp : x.2.status = .P) (hh : n.isHashable = true) (hf : n.firstInGop = true)
    (hm : z.2.nalu = some m) (hz : z.2.status = .P) (hmh : m.isHashable = true) (hmv : m.valid > 0) (hms : m.gopSei = true) :
    s.hasPending.2 = true ∧ ∃ g, s.hasPending.1 = { s with gop := g } ∧ g.hasSei = true := by
  obtain ⟨h1, g, h2, h3, -⟩ := hasPending_due' hs e hl hx hn hp hh hf hm hz hmh hmv hms
  exact ⟨h1, g, h2, h3⟩

end Validator
end SV
