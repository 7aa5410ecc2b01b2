import Verif.Proofs.AuthList
/-! What a round of the validation loop does to a validating session. -/
namespace SV

/-- Addresses of the pending items. -/
def pend (l : NList) : List Nat := (l.filter fun x => x.2.status = .P).map Prod.fst

theorem pend_length (l : NList) : (pend l).length = numPending l := by simp [pend, numPending]

theorem mem_pend {l : NList} {a : Nat} : a ∈ pend l ↔ ∃ x ∈ l, x.1 = a ∧ x.2.status = .P := by
  unfold pend
  rw [List.mem_map]
  constructor
  · rintro ⟨x, hx, rfl⟩
    rw [List.mem_filter] at hx
    exact ⟨x, hx.1, rfl, by simpa using hx.2⟩
  · rintro ⟨x, hx, rfl, hs⟩
    exact ⟨x, List.mem_filter.2 ⟨hx, by simpa using hs⟩, rfl⟩

theorem pend_cons (x : Nat × Item) (l : NList) : pend (x :: l) = if x.2.status = .P then x.1 :: pend l else pend l := by
  unfold pend
  rw [List.filter_cons]
  by_cases h : x.2.status = .P <;> simp [h]

/-- Validation does not make items pending. -/
theorem Grow.pend {S : Option Nalu → Status → Prop} (hS : ∀ n, ¬ S n .P) {l l' : NList} (h : Grow S l l') :
    (SV.pend l').Sublist (SV.pend l) := by
  induction h with
  | nil => exact List.Sublist.slnil
  | keep k _ ih =>
    rw [pend_cons, pend_cons]
    dsimp only
    rcases k.status with e | ⟨e, s⟩
    · rw [e]
      split
      · exact ih.cons_cons _
      · exact ih
    · rw [if_pos e, if_neg (fun hc => hS _ (hc ▸ s))]
      exact ih.cons _
  | miss m _ ih =>
    rw [pend_cons]
    dsimp only
    rw [if_neg (by rw [m.2]; decide)]
    exact ih

theorem sublist_lt {α : Type} {l l' : List α} {a : α} (h : l'.Sublist l) (ha : a ∈ l) (hb : a ∉ l') : l'.length < l.length := by
  rcases Nat.lt_or_ge l'.length l.length with h1 | h1
  · exact h1
  · exact absurd (h.eq_of_length_le h1 ▸ ha) hb

namespace Validator

/-- Evolution of the list. -/
def Ev (S : Option Nalu → Status → Prop) (s s' : Validator) : Prop := Evolves S s.list s.brk s'.list s'.brk

/-- No status is given. -/
def noStatus : Option Nalu → Status → Prop := fun _ _ => False

theorem Ev.refl (S : Option Nalu → Status → Prop) (s : Validator) : Ev S s s := Evolves.refl S _ _

theorem Ev.trans {S : Option Nalu → Status → Prop} {a b c : Validator} (h : Ev S a b) (g : Ev S b c) : Ev S a c :=
  Evolves.trans h g

theorem Ev.mono {S T : Option Nalu → Status → Prop} (hst : ∀ n s, S n s → T n s) {a b : Validator} (h : Ev S a b) : Ev T a b :=
  Evolves.mono hst h

theorem Ev.of_none {S : Option Nalu → Status → Prop} {a b : Validator} (h : Ev noStatus a b) : Ev S a b :=
  h.mono fun _ _ h => h.elim

/-- The effect of the preparation of a validation. -/
structure Prep (s s' : Validator) : Prop where
  codec : s'.codec = s.codec
  brk : s'.brk = s.brk
  list : Grow noStatus s.list s'.list
  addr : s'.list.map Prod.fst = s.list.map Prod.fst
  buddies : s'.buddies = s.buddies
  hasRef : s'.hasRef = s.hasRef
  linked : s'.linked = s.linked
  latestGop : s'.latestGop = s.latestGop
  synced : s'.synced = s.synced
  hasSei : s'.gop.hasSei = s.gop.hasSei
  noEnd : s'.gop.noEnd = s.gop.noEnd
  afterNext : s'.gop.afterNext = s.gop.afterNext
  flags : s'.flags = s.flags
  hasReport : s'.hasReport = s.hasReport
  started : s'.started = s.started
  legacy : s'.legacy = s.legacy
  acc : s'.rep.acc = s.rep.acc
  thisVersion : s'.rep.thisVersion = s.rep.thisVersion
  latest : ∃ k h t, s'.rep.latest = { s.rep.latest with keyChanged := k, hasTs := h, ts := t }

theorem Prep.refl (s : Validator) : Prep s s :=
  ⟨rfl, rfl, Grow.refl _ _, rfl, rfl, rfl, rfl, rfl, rfl, rfl, rfl, rfl, rfl, rfl, rfl, rfl, rfl, rfl, _, _, _, rfl⟩

theorem Prep.trans {a b c : Validator} (h : Prep a b) (g : Prep b c) : Prep a c := by
  obtain ⟨k, h1, t, e⟩ := h.latest
  obtain ⟨k', h1', t', e'⟩ := g.latest
  exact ⟨g.codec.trans h.codec, g.brk.trans h.brk, h.list.trans g.list, g.addr.trans h.addr, g.buddies.trans h.buddies,
    g.hasRef.trans h.hasRef, g.linked.trans h.linked, g.latestGop.trans h.latestGop, g.synced.trans h.synced,
    g.hasSei.trans h.hasSei, g.noEnd.trans h.noEnd, g.afterNext.trans h.afterNext, g.flags.trans h.flags,
    g.hasReport.trans h.hasReport, g.started.trans h.started, g.legacy.trans h.legacy, g.acc.trans h.acc,
    g.thisVersion.trans h.thisVersion, k', h1', t', by rw [e', e]⟩

theorem Prep.of_decoded {s s' : Validator} (h : Decoded s s') : Prep s s' :=
  ⟨h.codec, h.brk, h.list ▸ Grow.refl _ _, by rw [h.list], h.buddies, h.hasRef, h.linked, h.latestGop, h.synced,
    by rw [h.gop], by rw [h.gop], by rw [h.gop], h.flags, h.hasReport, h.started, h.legacy, h.acc, h.thisVersion, h.latest⟩

theorem Prep.ev {s s' : Validator} (h : Prep s s') (S : Option Nalu → Status → Prop) : Ev S s s' := by
  refine Ev.of_none ?_
  unfold Ev
  rw [h.brk]
  exact Evolves.same _ h.list h.addr

theorem _root_.SV.Grow.pend_eq {l l' : NList} (hg : Grow noStatus l l') : SV.pend l' = SV.pend l := by
  induction hg with
  | nil => rfl
  | keep k _ ih =>
    rw [pend_cons, pend_cons, ih]
    rcases k.status with e | ⟨-, e⟩
    · dsimp only; rw [e]
    · exact e.elim
  | miss m _ ih =>
    rw [pend_cons]
    dsimp only
    rw [if_neg (by rw [m.2]; decide), ih]

theorem _root_.SV.Grow.length_le {S : Option Nalu → Status → Prop} {l l' : NList} (hg : Grow S l l') : l.length ≤ l'.length := by
  induction hg with
  | nil => exact Nat.le_refl _
  | keep _ _ ih => simp only [List.length_cons]; omega
  | miss _ _ ih => simp only [List.length_cons]; omega

/-- Nothing inserted and no status given. -/
theorem _root_.SV.Grow.same_of_length {l l' : NList} (hg : Grow noStatus l l') (h : l'.length = l.length) :
    l'.map (fun x => (x.2.nalu, x.2.status)) = l.map (fun x => (x.2.nalu, x.2.status)) := by
  induction hg with
  | nil => rfl
  | keep k _ ih =>
    rw [List.map_cons, List.map_cons, ih (by simpa using h)]
    rcases k.status with e | ⟨-, e⟩
    · dsimp only; rw [e, k.nalu]
    · exact e.elim
  | miss _ g _ =>
    have := g.length_le
    simp only [List.length_cons] at h
    omega

theorem Prep.pend {s s' : Validator} (h : Prep s s') : pend s'.list = pend s.list := h.list.pend_eq

theorem detectLost_eq (env : AuthEnv) (s : Validator) :
    (∃ b, s.detectLost env = .ok { s with gop := { s.gop with lost := b } } () ∧ (b = true → s.synced = true)) ∨
    (∃ u, s.detectLost env = .ub u) := by
  unfold detectLost
  dsimp only
  generalize (s.d.gopCounter.toNat : Int) - ((s.latestGop + 1).toNat : Int) = diff
  have hadd : ∀ o a b e, add64 o a b ≠ .err e := by
    intro o a b e; unfold add64
    split
    · intro h; cases h
    · cases o <;> intro h <;> cases h
  cases h1 : add64 env.ov diff 9223372036854775807 with
  | err e => exact absurd h1 (hadd _ _ _ _)
  | ub u => exact .inr ⟨u, rfl⟩
  | ok sum =>
    dsimp only
    split
    · exact .inr ⟨_, rfl⟩
    · rename_i h
      split at h
      · cases h
      · cases h
    · exact .inl ⟨_, rfl, fun h => by simp at h; exact h.2⟩

theorem detectLost_prep (env : AuthEnv) (s : Validator) : (s.detectLost env).Ends (Prep s) := by
  rcases detectLost_eq env s with ⟨b, e, -⟩ | ⟨u, e⟩
  · rw [e]
    exact ⟨rfl, rfl, Grow.refl _ _, rfl, rfl, rfl, rfl, rfl, rfl, rfl, rfl, rfl, rfl, rfl, rfl, rfl, rfl, rfl, _, _, _, rfl⟩
  · rw [e]; trivial

theorem decodeSei_prep (env : AuthEnv) (s : Validator) (mem : Bytes) (size : Nat) : (s.decodeSei env mem size).Ends (Prep s) := by
  unfold decodeSei
  split
  · trivial
  · refine Res.Ends.andThen' ((tlvDecode_decoded env s mem size).mono fun _ h => Prep.of_decoded h) ?_
    intro t _ _ ht
    refine Res.Ends.andThen' ((detectLost_prep env t).mono fun _ h => ht.trans h) ?_
    intro u _ _ hu
    refine hu.trans ?_
    split
    · exact ⟨rfl, rfl, Grow.refl _ _, rfl, rfl, rfl, rfl, rfl, rfl, rfl, rfl, rfl, rfl, rfl, rfl, rfl, rfl, rfl, _, _, _, rfl⟩
    · exact Prep.refl _

/-- A step that changes only list items, keeping addresses and statuses. -/
theorem Prep.withList (s : Validator) (l : NList) (h : Grow noStatus s.list l) (e : l.map Prod.fst = s.list.map Prod.fst) :
    Prep s { s with list := l } :=
  ⟨rfl, rfl, h, e, rfl, rfl, rfl, rfl, rfl, rfl, rfl, rfl, rfl, rfl, rfl, rfl, rfl, rfl, _, _, _, rfl⟩

theorem clearUsed_grow (S : Option Nalu → Status → Prop) (l : NList) : Grow S l (clearUsed l) :=
  (clearUsed_evolves S l 0).grow

theorem clearUsed_addr (l : NList) : (clearUsed l).map Prod.fst = l.map Prod.fst := by
  unfold clearUsed
  rw [List.map_map]; rfl

theorem decodeNext_prep (env : AuthEnv) (s : Validator) (x : Nat × Item) : (s.decodeNext env x).Ends (Prep s) := by
  unfold decodeNext
  split
  · exact Prep.refl _
  · dsimp only
    split
    · trivial
    · rename_i n _
      have h0 : Prep s { s with rep := { s.rep with latest := { s.rep.latest with keyChanged := false } } } :=
        ⟨rfl, rfl, Grow.refl _ _, rfl, rfl, rfl, rfl, rfl, rfl, rfl, rfl, rfl, rfl, rfl, rfl, rfl, rfl, rfl, _, _, _, rfl⟩
      refine Res.Ends.andThen' ((decodeSei_prep env _ n.tlvMem n.tlvSize).mono fun _ h => h0.trans h) ?_
      intro t _ _ ht
      split
      · trivial
      · refine ht.trans ?_
        refine ⟨rfl, rfl, ?_, ?_, rfl, rfl, rfl, rfl, rfl, rfl, rfl, rfl, rfl, rfl, rfl, rfl, rfl, rfl, _, _, _, rfl⟩
        · dsimp only
          exact Grow.set fun y _ _ => ⟨rfl, rfl, rfl, fun _ => rfl, .inl rfl⟩
        · dsimp only
          exact set_addr _ _ _

theorem prepareGopHash_prep (env : AuthEnv) (s : Validator) (sei : Nat) : (s.prepareGopHash env sei).Ends (Prep s) := by
  have hf : ∀ t : Validator, Prep t { t with list := clearUsed t.list } := fun t =>
    Prep.withList t _ (clearUsed_grow _ _) (clearUsed_addr _)
  have hp : ∀ p, Prep s { s with primary := p } := fun p =>
    ⟨rfl, rfl, Grow.refl _ _, rfl, rfl, rfl, rfl, rfl, rfl, rfl, rfl, rfl, rfl, rfl, rfl, rfl, rfl, rfl, _, _, _, rfl⟩
  unfold prepareGopHash
  split
  · exact hf s
  · dsimp only
    cases h : gopLoop s.d.hashSize sei s.list 0 0 [] with
    | ub u => trivial
    | err e => exact (hp _).trans (hf { s with primary := some (s.primary.getD s.typ) })
    | ok p =>
      have := gopLoop_grow noStatus _ _ h
      exact ⟨rfl, rfl, this.1, this.2, rfl, rfl, rfl, rfl, rfl, rfl, rfl, rfl, rfl, rfl, rfl, rfl, rfl, rfl, _, _, _, rfl⟩

theorem verifyHash_prep (env : AuthEnv) (s : Validator) : (s.verifyHash env).Ends (Prep s) := by
  have hv : ∀ v, Prep s { s with verified := v } := fun v =>
    ⟨rfl, rfl, Grow.refl _ _, rfl, rfl, rfl, rfl, rfl, rfl, rfl, rfl, rfl, rfl, rfl, rfl, rfl, rfl, rfl, _, _, _, rfl⟩
  unfold verifyHash
  split
  · exact hv _
  · split
    · exact hv _
    · exact hv _

theorem prepare_prep (env : AuthEnv) (s : Validator) : (s.prepare env).Ends (Prep s) := by
  unfold prepare
  dsimp only
  refine Res.Ends.andThen' (P := Prep s) ?_ ?_
  · split
    · exact Prep.refl _
    · rename_i x _
      refine Res.Ends.andThen' (decodeNext_prep env s x) fun t _ _ ht => ?_
      refine Res.Ends.andThen' ((detectLost_prep env t).mono fun _ h => ht.trans h) fun u _ _ hu => ?_
      exact (prepareGopHash_prep env u x.1).mono fun _ h => hu.trans h
  · intro t _ _ ht
    split
    · exact ht
    · split
      · exact (verifyHash_prep env t).mono fun _ h => ht.trans h
      · exact ht

/-- The linked hashes and one flag of the list are written. -/
theorem updateLinkLoop_eq {s s' : Validator} {l : NList} (h : updateLinkLoop s l = .ok s') :
    s' = s ∨ ∃ lk a, s' = { s with linked := lk, list := s.list.set a fun i => { i with linked := true } } := by
  induction l with
  | nil => cases h; exact .inl rfl
  | cons x r ih =>
    unfold updateLinkLoop at h
    split at h
    · exact ih h
    · split at h
      · cases h
      · split at h
        · exact ih h
        · split at h
          · cases h; exact .inl rfl
          · cases h; exact .inr ⟨_, _, rfl⟩

/-! ### Verification -/

/-- Only the list, the next address and the latest validated GOP are changed. -/
structure Ver (S : Option Nalu → Status → Prop) (s s' : Validator) : Prop where
  eq : s' = { s with list := s'.list, brk := s'.brk, latestGop := s'.latestGop }
  ev : Ev S s s'

theorem Ver.refl (S : Option Nalu → Status → Prop) (s : Validator) : Ver S s s := ⟨rfl, Ev.refl S s⟩

theorem Ver.trans {S : Option Nalu → Status → Prop} {a b c : Validator} (h : Ver S a b) (g : Ver S b c) : Ver S a c := by
  refine ⟨?_, h.ev.trans g.ev⟩
  have h1 := h.eq
  have h2 := g.eq
  generalize b.list = l at *
  generalize b.brk = k at *
  generalize b.latestGop = z at *
  subst h1
  exact h2

theorem Ver.mono {S T : Option Nalu → Status → Prop} (hst : ∀ n s, S n s → T n s) {a b : Validator} (h : Ver S a b) : Ver T a b :=
  ⟨h.eq, h.ev.mono hst⟩

theorem withoutSei_ver (s : Validator) : s.withoutSei.Ends (Ver PlainN s) := by
  unfold withoutSei
  cases h : markLoop s.list with
  | ub u => trivial
  | err e => exact Ver.refl _ _
  | ok p =>
    have := markLoop_grow h
    exact ⟨rfl, Evolves.same _ this.1 this.2⟩

/-- The statuses given by a validation. -/
def Valid (n : Option Nalu) (st : Status) : Prop :=
  st = .ok ∨ st = .N ∨ (st = .E ∧ ∃ m, n = some m ∧ m.gopSei = true)

theorem Valid.of_okOrN {n : Option Nalu} {st : Status} (h : OkOrN n st) : Valid n st := h.2.imp id .inl
theorem Valid.of_plainN {n : Option Nalu} {st : Status} (h : PlainN n st) : Valid n st := .inr (.inl h.2)

theorem addMissing_ver (S : Option Nalu → Status → Prop) (s : Validator) (n : Int) (app : Bool) (item : Nat)
    (w : WF s.list s.brk) : Ver S s (s.addMissing n app item) := by
  refine ⟨?_, addMissing_evolves S s n app item w⟩
  unfold addMissing
  split <;> rfl

theorem nextSei_spec {l : NList} {x : Nat × Item} (h : nextSei l = some x) :
    x ∈ l ∧ x.2.status = .P ∧ ∃ n, x.2.nalu = some n ∧ n.gopSei = true := by
  have h1 := List.mem_of_find?_eq_some h
  have h2 := List.find?_some h
  rw [Bool.and_eq_true, decide_eq_true_eq] at h2
  refine ⟨h1, h2.2, ?_⟩
  cases hn : x.2.nalu with
  | none => rw [hn] at h2; cases h2.1
  | some n => rw [hn] at h2; exact ⟨n, rfl, h2.1⟩

theorem set_status_pend (l : NList) (a : Nat) (st : Status) (hst : st ≠ .P) : a ∉ pend (l.set a fun i => { i with status := st }) := by
  intro h
  obtain ⟨y, hy, e, hs⟩ := mem_pend.1 h
  obtain ⟨x, hx, rfl⟩ := List.mem_map.1 hy
  split at e
  · rename_i hc
    rw [if_pos hc] at hs
    exact hst hs
  · exact absurd e ‹_›

/-- A pending item at an address with unique addresses may be given a status. -/
theorem Evolves.set_pending {S : Option Nalu → Status → Prop} {l : NList} {b : Nat} (w : WF l b) {x : Nat × Item} (hx : x ∈ l)
    (hp : x.2.status = .P) {st : Status} (hS : S x.2.nalu st) :
    Evolves S l b (l.set x.1 fun i => { i with status := st }) b := by
  refine Evolves.set b fun y hy e => ?_
  have := w.unique hy hx e
  subst this
  exact ⟨rfl, rfl, rfl, id, .inr ⟨hp, hS⟩⟩

theorem withHashList_ver {s : Validator} {o : Bool} (w : WF s.list s.brk) {s' : Validator} {p : Bool × Int × Int}
    (h : s.withHashList o = .ok s' p) : Ver Valid s s' ∧ ∀ x, nextSei s.list = some x → x.1 ∉ pend s'.list := by
  unfold withHashList at h
  split at h
  · cases h
  · cases hn : nextSei s.list with
    | none => rw [hn] at h; cases h; exact ⟨Ver.refl _ _, fun x hx => by cases hx⟩
    | some x =>
      rw [hn] at h
      dsimp only at h
      obtain ⟨hx, hxp, n, hxn, hxg⟩ := nextSei_spec hn
      cases hl : hashListLoop s.d.hashSize (chunk s.d.hashSize s.d.hashList) x.1 s.list none { orderOk := o, brk := s.brk } with
      | ub u => rw [hl] at h; cases h
      | err e => rw [hl] at h; cases h
      | ok q =>
        rw [hl] at h
        dsimp only at h
        have e0 := hashListLoop_evolves _ _ _ hl
        generalize hs1 : ({ s with list := q.1, brk := q.2.brk } : Validator) = s1 at h
        have v1 : Ver OkOrN s s1 := by subst hs1; exact ⟨rfl, e0⟩
        generalize hs2 : (if q.2.latest = -1 then
          match q.1 with
          | [] => s1
          | f :: _ => s1.addMissing ((chunk s.d.hashSize s.d.hashList).length - q.2.invalid) f.2.second.isSome f.1
        else s1) = s2 at h
        have v2 : Ver OkOrN s s2 := by
          rw [← hs2]
          split
          · split
            · exact v1
            · exact v1.trans (addMissing_ver _ _ _ _ _ (v1.ev.wf w))
          · exact v1
        generalize hs3 : (if q.2.latest ≠ q.2.compare then s2
        else match q.2.lastUsed with
          | none => s2
          | some a => s2.addMissing ((chunk s.d.hashSize s.d.hashList).length - 1 - q.2.latest) true a) = s3 at h
        have v3 : Ver OkOrN s s3 := by
          rw [← hs3]
          split
          · exact v2
          · split
            · exact v2
            · exact v2.trans (addMissing_ver _ _ _ _ _ (v2.ev.wf w))
        clear hs1 hs2 hs3 v1 v2
        cases h
        refine ⟨?_, ?_⟩
        · refine (v3.mono fun _ _ => Valid.of_okOrN).trans ⟨rfl, ?_⟩
          obtain ⟨y, hy, ha, hk⟩ := v3.ev.grow.mem' hx
          have hst : y.2.status = .P := by
            rcases hk.status with e | ⟨-, e, -⟩
            · exact e.trans hxp
            · exact absurd (e n hxn) (by rw [hxg]; decide)
          have := Evolves.set_pending (S := Valid) (v3.ev.wf w) hy hst (st := .ok) (.inl rfl)
          rw [ha] at this
          exact this
        · intro y hy
          cases hy
          exact set_status_pend _ _ _ (by decide)

theorem statusAt_mem {l : NList} {a : Nat} {st : Status} (h : statusAt l a = some st) : ∃ x ∈ l, x.1 = a ∧ x.2.status = st := by
  unfold statusAt at h
  cases hf : l.find? (fun x => x.1 = a) with
  | none => rw [hf] at h; cases h
  | some x =>
    rw [hf] at h
    exact ⟨x, List.mem_of_find?_eq_some hf, by simpa using List.find?_some hf, by simpa using h⟩

theorem statusAt_of_mem {l : NList} {b : Nat} (w : WF l b) {x : Nat × Item} (hx : x ∈ l) : statusAt l x.1 = some x.2.status := by
  unfold statusAt
  cases hf : l.find? (fun y => y.1 = x.1) with
  | none =>
    have := List.find?_eq_none.1 hf x hx
    simp at this
  | some y =>
    have h1 := List.mem_of_find?_eq_some hf
    have h2 : y.1 = x.1 := by simpa using List.find?_some hf
    rw [w.unique h1 hx h2]; rfl

theorem setStatus_ver {s : Validator} {st : Status} {sei : Option Nat} (w : WF s.list s.brk) (hst : st = .ok ∨ st = .N)
    {s' : Validator} {k : Int} (h : s.setStatus st sei = .ok s' k) :
    Ver Valid s s' ∧ ∀ a, sei = some a → a ∉ pend s'.list := by
  have hS : ∀ (n : Option Nalu) (t : Status), t = st → Valid n t := by
    intro n t e
    rcases hst with h | h
    · exact .inl (e.trans h)
    · exact .inr (.inl (e.trans h))
  unfold setStatus at h
  cases sei with
  | none => cases h; exact ⟨Ver.refl _ _, fun a ha => by cases ha⟩
  | some a =>
    dsimp only at h
    cases hl : setStatusLoop st s.list with
    | ub u => rw [hl] at h; cases h
    | err e => rw [hl] at h; cases h
    | ok q =>
      rw [hl] at h
      have g := setStatusLoop_grow st hl
      have e1 : Evolves Valid s.list s.brk q.1 s.brk := (Evolves.same _ g.1 g.2).mono fun n t => hS n t
      dsimp only at h
      split at h
      · rename_i hp
        obtain ⟨y, hy, ha, hys⟩ := statusAt_mem hp
        split at h
        · cases h
          refine ⟨⟨rfl, ?_⟩, ?_⟩
          · have := Evolves.set_pending (S := Valid) (e1.wf w) hy hys (st := .ok) (.inl rfl)
            rw [ha] at this
            exact e1.trans this
          · intro b hb; cases hb; exact set_status_pend _ _ _ (by decide)
        · cases h
      · rename_i hp
        cases h
        refine ⟨⟨rfl, e1⟩, ?_⟩
        intro b hb hc
        cases hb
        obtain ⟨y, hy, rfl, hys⟩ := mem_pend.1 hc
        exact hp (by rw [statusAt_of_mem (e1.wf w) hy]; exact congrArg some hys)

theorem not_mem_pend {S : Option Nalu → Status → Prop} (hS : ∀ n, ¬ S n .P) {s s' : Validator} (h : Ev S s s') {a : Nat}
    (ha : a ∉ pend s.list) : a ∉ pend s'.list := fun hc => ha ((h.grow.pend hS).subset hc)

theorem not_valid_P (n : Option Nalu) : ¬ Valid n .P := by
  rintro (h | h | ⟨h, -⟩) <;> cases h

theorem not_plainN_P (n : Option Nalu) : ¬ PlainN n .P := by
  rintro ⟨-, h⟩; cases h

theorem withSeiRest_ver {s : Validator} {st : Status} {sei : Option Nat} {e : Int} (w : WF s.list s.brk)
    (hst : st = .ok ∨ st = .N) {s' : Validator} {p : Bool × Int × Int} (h : s.withSeiRest st sei e = .ok s' p) :
    Ver Valid s s' ∧ ∀ a, sei = some a → a ∉ pend s'.list := by
  unfold withSeiRest at h
  obtain ⟨t, r, h1, h2⟩ := Res.andThen_eq_ok h
  have g := setStatus_ver w hst h1
  clear h h1
  split at h2
  · cases h2; exact g
  · split at h2
    · cases h2; exact g
    · split at h2
      · cases h2
      · cases h2
        have v := addMissing_ver Valid t (e - r) (Nalu.firstInGop ‹_›) (Prod.fst ‹_›) (g.1.ev.wf w)
        exact ⟨g.1.trans v, fun a ha => not_mem_pend not_valid_P v.ev (g.2 a ha)⟩

theorem withSei_ver {s : Validator} (w : WF s.list s.brk) {s' : Validator} {p : Bool × Int × Int} (h : s.withSei = .ok s' p) :
    Ver Valid s s' ∧ ∀ x, nextSei s.list = some x → x.1 ∉ pend s'.list := by
  unfold withSei at h
  dsimp only at h
  split at h
  · split at h
    · exact withHashList_ver w h
    · have g := withSeiRest_ver w (by split <;> simp) h
      refine ⟨g.1, fun x hx => g.2 x.1 ?_⟩
      rw [hx]; rfl
  · cases hn : nextSei s.list with
    | none => rw [hn] at h; cases h
    | some x =>
      rw [hn] at h
      obtain ⟨hx, hxp, n, hxn, hxg⟩ := nextSei_spec hn
      simp only [Option.map_some] at h
      have hset : ∀ st : Status, Valid (some n) st → Ver Valid s { s with list := s.list.set x.1 fun i => { i with status := st } } := by
        intro st hs
        exact ⟨rfl, Evolves.set_pending w hx hxp (by rw [hxn]; exact hs)⟩
      split at h
      · have v := hset .N (.inr (.inl rfl))
        have g := withSeiRest_ver (v.ev.wf w) (.inr rfl) h
        exact ⟨v.trans g.1, fun y hy => by cases hy; exact g.2 x.1 rfl⟩
      · have v := hset .E (.inr (.inr ⟨rfl, n, rfl, hxg⟩))
        have v2 : Ver Valid s { s with list := clearUsed (s.list.set x.1 fun i => { i with status := .E }) } :=
          ⟨rfl, v.ev.trans (clearUsed_evolves _ _ _)⟩
        obtain ⟨t, r, h1, h2⟩ := Res.andThen_eq_ok h
        cases h2
        have g := (withoutSei_ver _).of_ok h1
        refine ⟨v2.trans (g.mono fun _ _ => Valid.of_plainN), fun y hy => ?_⟩
        cases hy
        refine not_mem_pend not_plainN_P g.ev fun hc => ?_
        exact set_status_pend s.list x.1 .E (by decide) (((clearUsed_grow Valid _).pend not_valid_P).subset hc)

end Validator
end SV
