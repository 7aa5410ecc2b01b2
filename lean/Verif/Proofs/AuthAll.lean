import Verif.Proofs.AuthUsed
/-! Every NAL unit of the segment is given a status. -/
namespace SV
open Spec

/-- What the items before a marked one are. -/
theorem TidyFrom.split {b : Bool} {pre post : NList} {x : Nat × Item} (h : TidyFrom b (pre ++ x :: post)) (hc : candidate x = true) :
    x.2.isSei = false ∧ (∀ z ∈ pre, z.2.status = .P → z.2.isSei = false) ∧
    (x.2.isFirst = true → b = false ∧ ∀ z ∈ pre, z.2.status ≠ .P) := by
  have hp : x.2.status = .P := by
    unfold candidate at hc
    rw [Bool.and_eq_true, decide_eq_true_eq] at hc
    exact hc.2
  induction pre generalizing b with
  | nil =>
    rw [List.nil_append] at h
    unfold TidyFrom at h
    rw [if_neg (by simp [hp])] at h
    split at h
    · have := h x List.mem_cons_self
      rw [hc] at this; cases this
    · rename_i hs
      rw [Bool.or_eq_true, Bool.and_eq_true, not_or] at hs
      refine ⟨by simpa using hs.1, (fun z hz => by cases hz), fun hf => ⟨?_, fun z hz => by cases hz⟩⟩
      cases b with
      | false => rfl
      | true => exact absurd ⟨rfl, hf⟩ hs.2
  | cons z pre ih =>
    rw [List.cons_append] at h
    unfold TidyFrom at h
    split at h
    · rename_i hz
      obtain ⟨h1, h2, h3⟩ := ih h
      refine ⟨h1, fun y hy hyp => ?_, fun hf => ⟨(h3 hf).1, fun y hy => ?_⟩⟩
      · rcases List.mem_cons.1 hy with rfl | hy
        · exact absurd hyp hz
        · exact h2 y hy hyp
      · rcases List.mem_cons.1 hy with rfl | hy
        · exact hz
        · exact (h3 hf).2 y hy
    · split at h
      · have := h x (List.mem_cons_of_mem _ (List.mem_append_right _ List.mem_cons_self))
        rw [hc] at this; cases this
      · rename_i hs
        rw [Bool.or_eq_true, Bool.and_eq_true, not_or] at hs
        obtain ⟨h1, h2, h3⟩ := ih h
        refine ⟨h1, fun y hy hyp => ?_, fun hf => absurd (h3 hf).1 (by decide)⟩
        rcases List.mem_cons.1 hy with rfl | hy
        · simpa using hs.1
        · exact h2 y hy hyp

/-- The oldest pending item is marked, unless it is a SEI. -/
def FirstUsed (l : NList) : Prop :=
  ∀ pre f post, l = pre ++ f :: post → (∀ z ∈ pre, z.2.status ≠ .P) → f.2.status = .P → f.2.isSei = false → f.2.used = true

theorem firstUsed_mark (l : NList) : FirstUsed (markFrom false l) := by
  induction l with
  | nil => intro pre f post e; cases pre <;> cases e
  | cons x r ih =>
    intro pre f post e hpre hf hs
    unfold markFrom at e
    split at e
    · rename_i hx
      cases pre with
      | nil => cases e; exact absurd hf hx
      | cons z pre =>
        injection e with e1 e2
        exact ih pre f post e2 (fun y hy => hpre y (List.mem_cons_of_mem _ hy)) hf hs
    · rename_i hx
      replace hx : x.2.status = .P := by simpa using hx
      split at e
      · rename_i hsx
        cases pre with
        | nil =>
          cases e
          rw [hs] at hsx
          simp at hsx
        | cons z pre =>
          injection e with e1 e2
          subst e1
          exact absurd hx (hpre _ List.mem_cons_self)
      · cases pre with
        | nil => cases e; rfl
        | cons z pre =>
          injection e with e1 e2
          subst e1
          exact absurd hx (hpre (x.1, { x.2 with used := true }) List.mem_cons_self)

theorem FirstUsed.set {l : NList} (h : FirstUsed l) (a : Nat) : FirstUsed (l.set a fun i => { i with linked := true }) := by
  intro pre f post e hpre hf hs
  unfold NList.set at e
  obtain ⟨p1, r1, rfl, e1, e2⟩ := List.map_eq_append_iff.1 e
  obtain ⟨g, q, rfl, e3, e4⟩ := List.map_eq_cons_iff.1 e2
  subst e1
  have key : ∀ x : Nat × Item, (if x.1 = a then (x.1, { x.2 with linked := true }) else x).2.status = x.2.status ∧
      (if x.1 = a then (x.1, { x.2 with linked := true }) else x).2.isSei = x.2.isSei ∧
      (if x.1 = a then (x.1, { x.2 with linked := true }) else x).2.used = x.2.used := by
    intro x; split <;> exact ⟨rfl, rfl, rfl⟩
  have := h p1 g q rfl (fun z hz => by
    have := hpre _ (List.mem_map_of_mem hz)
    rwa [(key z).1] at this) (by rw [← e3, (key g).1] at hf; exact hf) (by rw [← e3, (key g).2.1] at hs; exact hs)
  rw [← e3, (key g).2.2]; exact this

/-- Everything to be compared has been given a status. -/
def Marked (l : NList) (a : Nat) : Prop := ∃ y ∈ l, y.1 = a ∧ y.2.used = true ∧ (y.2.status = .ok ∨ y.2.status = .N)

theorem Marked.set {l : NList} {a b : Nat} (h : Marked l a) : Marked (l.set b fun i => { i with status := .ok }) a := by
  obtain ⟨y, hy, e, hu, hs⟩ := h
  refine ⟨_, List.mem_map_of_mem (f := fun x : Nat × Item => if x.1 = b then (x.1, { x.2 with status := Status.ok }) else x) hy, ?_⟩
  split
  · exact ⟨e, hu, .inl rfl⟩
  · exact ⟨e, hu, hs⟩

theorem Marked.mem {l l' : NList} {a : Nat} (h : Marked l a) (hs : ∀ y ∈ l, y ∈ l') : Marked l' a := by
  obtain ⟨y, hy, h⟩ := h
  exact ⟨y, hs y hy, h⟩

namespace Validator

theorem addMissing_mem (s : Validator) (n : Int) (app : Bool) (a : Nat) : ∀ y ∈ s.list, y ∈ (s.addMissing n app a).list := by
  intro y hy
  unfold addMissing
  split
  · exact hy
  · dsimp only
    unfold insertMissing
    refine List.mem_flatMap.2 ⟨y, hy, ?_⟩
    split
    · split
      · exact List.mem_cons_self
      · exact List.mem_append_right _ List.mem_cons_self
    · exact List.mem_cons_self

theorem setStatusLoop_marks {st : Status} (hst : st = .ok ∨ st = .N) {l : NList} {q : NList × Nat} (h : setStatusLoop st l = .ok q)
    {x : Nat × Item} (hx : x ∈ l) (hc : candidate x = true) : Marked q.1 x.1 := by
  induction l generalizing q with
  | nil => cases hx
  | cons z r ih =>
    unfold setStatusLoop at h
    split at h
    · rename_i hz
      split at h
      · cases h
      · obtain ⟨p, e1, e2⟩ := Out.bind_eq_ok h
        cases e2
        rcases List.mem_cons.1 hx with rfl | hx
        · refine ⟨_, List.mem_cons_self, rfl, ?_, hst⟩
          unfold candidate at hc
          rw [Bool.and_eq_true] at hc
          exact hc.1
        · exact (ih e1 hx).mem fun y hy => List.mem_cons_of_mem _ hy
    · rename_i hz
      obtain ⟨p, e1, e2⟩ := Out.bind_eq_ok h
      cases e2
      rcases List.mem_cons.1 hx with rfl | hx
      · exact absurd hc hz
      · exact (ih e1 hx).mem fun y hy => List.mem_cons_of_mem _ hy

theorem hashListLoop_marks {hs : Nat} {hashes : List Bytes} {sei : Nat} {l : NList} {prev : Option Nat} {m : Match}
    {q : NList × Match} (hcm : Comparable sei prev l) (h : hashListLoop hs hashes sei l prev m = .ok q)
    {x : Nat × Item} (hx : x ∈ l) (hc : candidate x = true) : Marked q.1 x.1 := by
  induction l generalizing prev m q with
  | nil => cases hx
  | cons z r ih =>
    rw [hashListLoop] at h
    by_cases hz : z.2.status ≠ .P ∨ z.2.used = false
    · rw [if_pos hz] at h
      obtain ⟨p, e1, e2⟩ := Out.bind_eq_ok h
      cases e2
      rcases List.mem_cons.1 hx with rfl | hx
      · exfalso
        unfold candidate at hc
        rw [Bool.and_eq_true, decide_eq_true_eq] at hc
        rcases hz with hz | hz
        · exact hz hc.2
        · rw [hc.1] at hz; cases hz
      · exact (ih hcm.tail e1 hx).mem fun y hy => List.mem_cons_of_mem _ hy
    · rw [if_neg hz] at h
      have hcz : candidate z = true := by
        unfold candidate
        rw [not_or] at hz
        rw [Bool.and_eq_true, decide_eq_true_eq]
        exact ⟨by simpa using hz.2, by simpa using hz.1⟩
      have hused : z.2.used = true := by
        unfold candidate at hcz
        rw [Bool.and_eq_true] at hcz
        exact hcz.1
      obtain ⟨k1, k2⟩ := hcm.noSei z List.mem_cons_self hcz
      have k3 := hcm.notAfter [] z r rfl hcz
      cases hn : z.2.nalu with
      | none => rw [hn] at h; cases h
      | some n =>
        rw [hn] at h
        have ef : z.2.isFirst = n.firstInGop := by unfold Item.isFirst; rw [hn]
        have es : z.2.isSei = n.gopSei := by unfold Item.isSei; rw [hn]
        rw [es] at k1
        rw [ef] at k2
        have hgo : ¬ (n.gopSei || n.firstInGop && !z.2.linked) = true := by
          rw [k1]
          cases hf : n.firstInGop with
          | false => simp
          | true => rw [k2 hf]; simp
        dsimp only at h
        rw [if_neg hgo] at h
        cases hh : (if n.firstInGop = true then z.2.second else some z.2.hash) with
        | none => rw [hh] at h; cases h
        | some hv =>
          rw [hh] at h
          dsimp only at h
          have k3' : ¬ prev = some sei := by simpa using k3
          rw [if_neg k3'] at h
          obtain ⟨p, e1, e2⟩ := Out.bind_eq_ok h
          cases e2
          rcases List.mem_cons.1 hx with rfl | hx
          · refine ⟨_, List.mem_append_right _ List.mem_cons_self, rfl, hused, ?_⟩
            dsimp only
            split
            · exact .inl rfl
            · exact .inr rfl
          · exact (ih hcm.tail e1 hx).mem fun y hy => List.mem_append_right _ (List.mem_cons_of_mem _ hy)

theorem withHashList_marks {s s' : Validator} {o : Bool} {p : Bool × Int × Int} {sei : Nat × Item} (hn : nextSei s.list = some sei)
    (hcm : Comparable sei.1 none s.list) (h : s.withHashList o = .ok s' p) {x : Nat × Item} (hx : x ∈ s.list) (hc : candidate x = true) :
    Marked s'.list x.1 := by
  unfold withHashList at h
  split at h
  · cases h
  · rw [hn] at h
    dsimp only at h
    cases hl : hashListLoop s.d.hashSize (chunk s.d.hashSize s.d.hashList) sei.1 s.list none { orderOk := o, brk := s.brk } with
    | ub u => rw [hl] at h; cases h
    | err e => rw [hl] at h; cases h
    | ok q =>
      rw [hl] at h
      dsimp only at h
      have k0 := hashListLoop_marks hcm hl hx hc
      generalize hs1 : ({ s with list := q.1, brk := q.2.brk } : Validator) = s1 at h
      have v1 : Marked s1.list x.1 := by subst hs1; exact k0
      generalize hs2 : (if q.2.latest = -1 then
        match q.1 with
        | [] => s1
        | f :: _ => s1.addMissing ((chunk s.d.hashSize s.d.hashList).length - q.2.invalid) f.2.second.isSome f.1
      else s1) = s2 at h
      have v2 : Marked s2.list x.1 := by
        rw [← hs2]
        split
        · split
          · exact v1
          · exact v1.mem (addMissing_mem _ _ _ _)
        · exact v1
      generalize hs3 : (if q.2.latest ≠ q.2.compare then s2
      else match q.2.lastUsed with
        | none => s2
        | some a => s2.addMissing ((chunk s.d.hashSize s.d.hashList).length - 1 - q.2.latest) true a) = s3 at h
      have v3 : Marked s3.list x.1 := by
        rw [← hs3]
        split
        · exact v2
        · split
          · exact v2
          · exact v2.mem (addMissing_mem _ _ _ _)
      cases h
      exact v3.set

theorem withSeiRest_marks {s s' : Validator} {st : Status} {sei : Nat} {e : Int} {p : Bool × Int × Int}
    (hst : st = .ok ∨ st = .N) (h : s.withSeiRest st (some sei) e = .ok s' p) {x : Nat × Item} (hx : x ∈ s.list) (hc : candidate x = true) :
    Marked s'.list x.1 := by
  unfold withSeiRest at h
  obtain ⟨t, r, h1, h2⟩ := Res.andThen_eq_ok h
  have g : Marked t.list x.1 := by
    unfold setStatus at h1
    dsimp only at h1
    cases hl : setStatusLoop st s.list with
    | ub u => rw [hl] at h1; cases h1
    | err e => rw [hl] at h1; cases h1
    | ok q =>
      rw [hl] at h1
      have g := setStatusLoop_marks hst hl hx hc
      dsimp only at h1
      split at h1
      · split at h1
        · cases h1; exact g.set
        · cases h1
      · cases h1; exact g
  clear h h1
  split at h2
  · cases h2; exact g
  · split at h2
    · cases h2; exact g
    · split at h2
      · cases h2
      · cases h2
        exact g.mem (addMissing_mem _ _ _ _)

theorem withSei_marks {s s' : Validator} {p : Bool × Int × Int} {sei : Nat × Item} (hn : nextSei s.list = some sei)
    (hv : s.verified = 1 ∨ s.verified = 0) (hcm : Comparable sei.1 none s.list) (h : s.withSei = .ok s' p)
    {x : Nat × Item} (hx : x ∈ s.list) (hc : candidate x = true) (hne : x.1 ≠ sei.1) :
    Marked s'.list x.1 := by
  unfold withSei at h
  dsimp only at h
  rw [hn] at h
  split at h
  · split at h
    · exact withHashList_marks hn hcm h hx hc
    · exact withSeiRest_marks (by split <;> simp) h hx hc
  · rename_i hv1
    have hv0 : s.verified = 0 := hv.resolve_left hv1
    simp only [Option.map_some] at h
    rw [if_pos hv0] at h
    refine withSeiRest_marks (.inr rfl) h (x := x) ?_ hc
    refine List.mem_map.2 ⟨x, hx, ?_⟩
    rw [if_neg hne]

theorem markLoop_first {l l' : NList} {k : Nat} {b : Bool} (h : markLoop l = .ok (l', k, b)) {pre post : NList} {f : Nat × Item}
    (e : l = pre ++ f :: post) (hpre : ∀ z ∈ pre, z.2.status ≠ .P) (hf : f.2.status = .P) (hs : f.2.isSei = false) :
    (f.1, { f.2 with status := .N }) ∈ l' := by
  induction pre generalizing l l' k b with
  | nil =>
    rw [List.nil_append] at e
    subst e
    unfold markLoop at h
    rw [if_neg (by simp [hf])] at h
    cases hn : f.2.nalu with
    | none => rw [hn] at h; cases h
    | some n =>
      rw [hn] at h
      have es : n.gopSei = false := by unfold Item.isSei at hs; rw [hn] at hs; exact hs
      dsimp only at h
      rw [if_neg (by rw [es]; decide)] at h
      split at h
      · cases h; exact List.mem_cons_self
      · split at h
        · cases h
        · split at h
          · cases h; exact List.mem_cons_self
          · obtain ⟨q, e1, e2⟩ := Out.bind_eq_ok h
            cases e2; exact List.mem_cons_self
  | cons z pre ih =>
    subst e
    rw [List.cons_append] at h
    unfold markLoop at h
    rw [if_pos (hpre z List.mem_cons_self)] at h
    obtain ⟨q, e1, e2⟩ := Out.bind_eq_ok h
    cases e2
    exact List.mem_cons_of_mem _ (ih e1 rfl fun y hy => hpre y (List.mem_cons_of_mem _ hy))

theorem first_pending {l : NList} {x : Nat × Item} (hx : x ∈ l) (hp : x.2.status = .P) :
    ∃ pre f post, l = pre ++ f :: post ∧ (∀ z ∈ pre, z.2.status ≠ .P) ∧ f.2.status = .P ∧ (f = x ∨ ∃ p1 p2, l = p1 ++ x :: p2 ∧ f ∈ p1) := by
  induction l with
  | nil => cases hx
  | cons y r ih =>
    by_cases hy : y.2.status = .P
    · refine ⟨[], y, r, rfl, (fun z hz => by cases hz), hy, ?_⟩
      rcases List.mem_cons.1 hx with rfl | hx
      · exact .inl rfl
      · right
        obtain ⟨p1, p2, e⟩ := List.append_of_mem hx
        exact ⟨y :: p1, p2, by rw [e]; rfl, List.mem_cons_self⟩
    · rcases List.mem_cons.1 hx with rfl | hx
      · exact absurd hp hy
      · obtain ⟨pre, f, post, e, h1, h2, h3⟩ := ih hx
        refine ⟨y :: pre, f, post, by rw [e]; rfl, ?_, h2, ?_⟩
        · intro z hz
          rcases List.mem_cons.1 hz with rfl | hz
          · exact hy
          · exact h1 z hz
        · rcases h3 with h3 | ⟨p1, p2, e2, h3⟩
          · exact .inl h3
          · exact .inr ⟨y :: p1, p2, by rw [e2]; rfl, List.mem_cons_of_mem _ h3⟩

/-- After a verification that is no failure there is a NAL unit that is not valid, or all that were marked are valid. -/
theorem verifyGop_marks {s s' : Validator} {p : Bool × Int × Int} {sei : Nat × Item} (hn : nextSei s.list = some sei)
    (ht : Tidy s) (hfu : FirstUsed s.list) (hv : s.verified = 1 ∨ s.verified = 0) (hcm : Comparable sei.1 none s.list)
    (h : s.verifyGop = .ok s' p) {x : Nat × Item} (hx : x ∈ s.list) (hc : candidate x = true) (hne : x.1 ≠ sei.1) :
    Marked s'.list x.1 ∨ ∃ y ∈ s'.list, y.2.used = true ∧ y.2.status = .N := by
  unfold verifyGop at h
  split at h
  · right
    obtain ⟨t', b, h1, h2⟩ := Res.andThen_eq_ok h
    cases h2
    have hp : x.2.status = .P := by
      unfold candidate at hc
      rw [Bool.and_eq_true, decide_eq_true_eq] at hc
      exact hc.2
    obtain ⟨pre, f, post, e, k1, k2, k3⟩ := first_pending hx hp
    have hfs : f.2.isSei = false := by
      rcases k3 with rfl | ⟨p1, p2, e2, k3⟩
      · have ht' : TidyFrom false s.list := ht
        rw [e] at ht'
        exact (ht'.split hc).1
      · have ht' : TidyFrom false s.list := ht
        rw [e2] at ht'
        exact (ht'.split hc).2.1 f k3 k2
    have hu := hfu pre f post e k1 k2 hfs
    unfold withoutSei at h1
    cases hm : markLoop s.list with
    | ub u => rw [hm] at h1; cases h1
    | err e => rw [hm] at h1; cases h1
    | ok q =>
      obtain ⟨l, k, g⟩ := q
      rw [hm] at h1
      cases h1
      exact ⟨_, markLoop_first hm e k1 k2 hfs, hu, rfl⟩
  · left
    obtain ⟨t', b, h1, h2⟩ := Res.andThen_eq_ok h
    cases h2
    exact withSei_marks hn hv hcm h1 hx hc hne

/-- The start of the GOP that is linked. -/
theorem updateLinkLoop_first {s v : Validator} {l pre post : NList} {x : Nat × Item} (h : updateLinkLoop s l = .ok v)
    (e : l = pre ++ x :: post) (hpre : ∀ z ∈ pre, z.2.used = false) (hu : x.2.used = true) (hf : x.2.isFirst = true) :
    (x.2.linked = true ∧ v = s) ∨ ∃ lk, v = { s with linked := lk, list := s.list.set x.1 fun i => { i with linked := true } } := by
  induction pre generalizing l with
  | nil =>
    rw [List.nil_append] at e
    subst e
    unfold updateLinkLoop at h
    rw [hu] at h
    cases hn : x.2.nalu with
    | none => rw [hn] at h; cases h
    | some n =>
      rw [hn] at h
      have ef : n.firstInGop = true := by unfold Item.isFirst at hf; rw [hn] at hf; exact hf
      simp only [Bool.not_true, Bool.false_eq_true, if_false, ef] at h
      split at h
      · cases h; exact .inl ⟨by assumption, rfl⟩
      · cases h; exact .inr ⟨_, rfl⟩
  | cons z pre ih =>
    subst e
    rw [List.cons_append] at h
    unfold updateLinkLoop at h
    rw [hpre z List.mem_cons_self] at h
    simp only [Bool.not_false, if_true] at h
    exact ih h rfl fun y hy => hpre y (List.mem_cons_of_mem _ hy)

/-- The items of the segment can be compared. -/
theorem comparable {u v : Validator} {sei : Nat × Item} (w : WFs v) (hut : Tidy u) (huu : Used u) (hl : updateLinkLoop u u.list = .ok v)
    (hn : nextSei v.list = some sei) : Comparable sei.1 none v.list := by
  have wu : WFs u := by
    rcases updateLinkLoop_eq hl with e | ⟨lk, a, e⟩
    · rw [← e]; exact w
    · have : u.list.map Prod.fst = v.list.map Prod.fst := by rw [e]; exact (set_addr u.list a fun i => { i with linked := true }).symm
      have hb : v.brk = u.brk := by rw [e]
      unfold WFs; rw [← hb]; exact WF.of_addr w this
  have hvt := updateLinkLoop_tidy hut hl
  have hcand : ∀ x ∈ v.list, candidate x = true → x.2.isSei = false := by
    intro x hx hc
    obtain ⟨pre, post, e⟩ := List.append_of_mem hx
    have ht' : TidyFrom false v.list := hvt
    rw [e] at ht'
    exact (ht'.split hc).1
  refine ⟨fun x hx hc => ⟨hcand x hx hc, fun hf => ?_⟩, ?_⟩
  · -- the pre-image of the item
    have hpre : ∃ z ∈ u.list, z.1 = x.1 ∧ candidate z = true ∧ z.2.isFirst = true ∧ (z.2.linked = true → x.2.linked = true) := by
      rcases updateLinkLoop_eq hl with e | ⟨lk, a, e⟩
      · rw [e] at hx; exact ⟨x, hx, rfl, hc, hf, id⟩
      · rw [e] at hx
        obtain ⟨z, hz, rfl⟩ := List.mem_map.1 hx
        refine ⟨z, hz, ?_⟩
        by_cases ez : z.1 = a
        · rw [if_pos ez] at hc hf ⊢; exact ⟨rfl, hc, hf, fun _ => rfl⟩
        · rw [if_neg ez] at hc hf ⊢; exact ⟨rfl, hc, hf, id⟩
    obtain ⟨z, hz, ez, hzc, hzf, hzl⟩ := hpre
    obtain ⟨pre, post, e⟩ := List.append_of_mem hz
    have ht' : TidyFrom false u.list := hut
    rw [e] at ht'
    have hnp := ((ht'.split hzc).2.2 hzf).2
    have hnu : ∀ y ∈ pre, y.2.used = false := by
      intro y hy
      cases hyu : y.2.used with
      | false => rfl
      | true => exact absurd (UsedOk.mem huu (by rw [e]; exact List.mem_append_left _ hy) hyu) (hnp y hy)
    have hzu : z.2.used = true := by
      unfold candidate at hzc
      rw [Bool.and_eq_true] at hzc
      exact hzc.1
    rcases updateLinkLoop_first hl e hnu hzu hzf with ⟨h1, -⟩ | ⟨lk, h1⟩
    · exact hzl h1
    · rw [h1] at hx
      obtain ⟨y, hy, rfl⟩ := List.mem_map.1 hx
      by_cases ey : y.1 = z.1
      · rw [if_pos ey]
      · rw [if_neg ey] at ez
        exact absurd ez.symm ey
  · intro pre x post e hc
    have ht' : TidyFrom false v.list := hvt
    rw [e] at ht'
    have h2 := (ht'.split hc).2.1
    rw [Option.or_none]
    intro hlast
    have hm := List.mem_of_getLast? hlast
    obtain ⟨z, hz, ez⟩ := List.mem_map.1 hm
    obtain ⟨k1, k2, n, k3, k4⟩ := nextSei_spec hn
    have hzs : z = sei := WF.unique w (by rw [e]; exact List.mem_append_left _ hz) k1 ez
    have := h2 z hz (by rw [hzs]; exact k2)
    rw [hzs] at this
    unfold Item.isSei at this
    rw [k3] at this
    dsimp only at this
    rw [k4] at this; cases this

end Validator
end SV
