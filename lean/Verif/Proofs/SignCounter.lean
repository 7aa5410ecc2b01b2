import Verif.Proofs.SignHist
/-! What the calls of a signing session do to the GOP counter. -/
namespace SV
open Spec

theorem tlvWrite_state (epb : Bool) (e : EncState) (s : L2) (t : Tuple) :
    (tlvWrite epb e s t).2.2 = if valueSize e t.tag = 0 then e else afterWrite e t.tag := by
  unfold tlvWrite
  split
  · rfl
  · dsimp only
    split <;> rfl

theorem tlvWrite_general (epb : Bool) (e : EncState) (s : L2) (t : Tuple) (ht : t.tag = tagGeneral) :
    (tlvWrite epb e s t).2.2.gopCounter = e.gopCounter + 1 := by
  have h3 : valueSize e tagGeneral ≠ 0 := by
    have : valueSize e tagGeneral = sizeGeneral e := by unfold valueSize; rw [if_pos rfl]
    rw [this]; unfold sizeGeneral; simp only [ne_eq]; omega
  rw [tlvWrite_state, ht, if_neg h3]
  unfold afterWrite; rw [if_pos rfl]

theorem tlvWrite_other (epb : Bool) (e : EncState) (s : L2) (t : Tuple) (ht : t.tag ≠ tagGeneral) :
    (tlvWrite epb e s t).2.2.gopCounter = e.gopCounter := by
  rw [tlvWrite_state]
  split
  · rfl
  · unfold afterWrite
    rw [if_neg ht]
    split <;> rfl

theorem tlvListWrite_counter (epb : Bool) (ts : List UInt8) : ∀ (e : EncState) (s : L2),
    (tlvListWrite epb e s ts).2.2.gopCounter = e.gopCounter + UInt32.ofNat (ts.count tagGeneral) := by
  induction ts with
  | nil => intro e s; simp [tlvListWrite]
  | cons t ts ih =>
    intro e s
    unfold tlvListWrite
    by_cases ht : t = tagGeneral
    · subst ht
      have h1 : tagSelected e tagGeneral = true := by
        have h : (getTuple tagGeneral).tag = tagGeneral ∧ (getTuple tagGeneral).alwaysPresent = true := by decide
        unfold tagSelected; rw [h.1, h.2]; simp
      rw [if_pos h1]
      dsimp only
      rw [ih, tlvWrite_general _ _ _ _ (by decide), List.count_cons_self, UInt32.ofNat_add, UInt32.add_assoc, UInt32.add_comm (UInt32.ofNat _)]
      rfl
    · have hc : (t :: ts).count tagGeneral = ts.count tagGeneral := List.count_cons_of_ne ht
      rw [hc]
      split
      · dsimp only
        rw [ih, tlvWrite_other]
        have := ‹tagSelected e t = true›
        unfold tagSelected at this
        simp only [Bool.and_eq_true, beq_iff_eq] at this
        rw [this.1]; exact ht
      · exact ih e s

/-- The counter after a SEI. -/
def bump (s : Signer) : UInt32 := if s.golden then s.e.gopCounter else s.e.gopCounter + 1

theorem seiStart_counter (s : Signer) : (seiStart s.opts s.encNow).2.gopCounter = bump s := by
  unfold seiStart
  dsimp only
  rw [tlvListWrite_counter, tlvListWrite_counter, tlvListWrite_counter]
  have h1 : (optTags s.opts).count tagGeneral = 0 := by unfold optTags; split <;> rfl
  have h2 : (vendorTags s.opts).count tagGeneral = 0 := by unfold vendorTags; split <;> rfl
  have h3 : (mandTags s.opts).count tagGeneral = if s.golden then 0 else 1 := by
    unfold mandTags
    show (if s.golden = true then _ else _ : List UInt8).count tagGeneral = _
    split <;> rfl
  have h4 : (applyFallback s.opts s.encNow).gopCounter = s.e.gopCounter := by unfold applyFallback; split <;> rfl
  rw [h1, h2, h3, h4]
  unfold bump
  split <;> simp

/-- Neither the counter nor the SEI generated by this call change. -/
def Still (s s' : Signer) : Prop := s'.e.gopCounter = s.e.gopCounter ∧ s'.signed = s.signed ∧ s'.golden = s.golden

theorem Still.refl (s : Signer) : Still s s := ⟨rfl, rfl, rfl⟩
theorem Still.trans {a b c : Signer} (h : Still a b) (g : Still b c) : Still a c :=
  ⟨g.1.trans h.1, g.2.1.trans h.2.1, g.2.2.trans h.2.2⟩

/-- As `Still`, and errors are not `NOT_SUPPORTED`. -/
def Calm {α : Type} (s : Signer) : Res Signer α → Prop
  | .ok s' _ => Still s s'
  | .err s' e => Still s s' ∧ e ≠ .notSupported
  | .ub _ => True

theorem Calm.andThen {α β : Type} {s : Signer} {r : Res Signer α} {f : Signer → α → Res Signer β} (h : Calm s r)
    (g : ∀ t a, Still s t → Calm t (f t a)) : Calm s (r.andThen f) := by
  cases r with
  | ok t a =>
    have h2 := g t a h
    show Calm s (f t a)
    cases hf : f t a with
    | ok u b => rw [hf] at h2; exact Still.trans h h2
    | err u e => rw [hf] at h2; exact ⟨Still.trans h h2.1, h2.2⟩
    | ub u => trivial
  | err t e => exact h
  | ub u => trivial

theorem updateHash_calm (s : Signer) (d : Bytes) : Calm s (updateHash s d) := by
  unfold updateHash Ctx.update
  repeat' split
  all_goals first
    | trivial
    | exact ⟨rfl, rfl, rfl⟩
    | (next h => (repeat' split at h) <;> cases h <;> exact ⟨⟨rfl, rfl, rfl⟩, by decide⟩)

theorem hashData_calm (H : Bytes → Bytes) (s : Signer) (d : Bytes) : Calm s (Res.ofOut s (hashData H d)) := by
  unfold hashData
  split
  · exact ⟨Still.refl s, by decide⟩
  · exact Still.refl s

theorem simplyHash_calm (hs : Hashing) (s : Signer) (d : Bytes) (f : Bool) : Calm s (simplyHash hs s d f) := by
  unfold simplyHash
  split
  · exact hashData_calm _ _ _
  · refine (updateHash_calm s d).andThen (fun t _ _ => ?_)
    unfold Ctx.final
    repeat' split
    all_goals first
      | trivial
      | exact ⟨rfl, rfl, rfl⟩
      | (next h => (repeat' split at h) <;> cases h <;> exact ⟨⟨rfl, rfl, rfl⟩, by decide⟩)

theorem hashAndAdd_calm (hs : Hashing) (s : Signer) (n : Nalu) (f l : Bool) : Calm s (hashAndAdd hs s n f l) := by
  unfold hashAndAdd
  split
  · exact Still.refl s
  · dsimp only
    generalize ht : (if (f && !l) = true then { s with secondary := .open [] } else s : Signer) = t
    have h0 : Still s t := by subst ht; split <;> exact ⟨rfl, rfl, rfl⟩
    clear ht
    have onErr : ∀ r : Res Signer Unit, Calm t r → Calm s (r.onErr fun s => { s with e := { s.e with hashList := none } }) := by
      intro r hr
      cases r with
      | ok u a => exact h0.trans hr
      | err u a => exact ⟨h0.trans ⟨hr.1.1, hr.1.2.1, hr.1.2.2⟩, hr.2⟩
      | ub u => trivial
    apply onErr
    split
    · exact updateHash_calm _ _
    · refine Calm.andThen ?_ (fun u a hu => ?_)
      · split
        · exact simplyHash_calm _ _ _ _
        · split
          · exact (simplyHash_calm _ _ _ _).andThen (fun u a _ => ⟨rfl, rfl, rfl⟩)
          · exact (simplyHash_calm _ _ _ _).andThen (fun u a _ => hashData_calm _ _ _)
      · show Still u _
        split <;> exact ⟨rfl, rfl, rfl⟩

/-- A SEI was generated and the counter goes on accordingly, or nothing happened. -/
def Counted (s s' : Signer) : Prop :=
  s'.golden = s.golden ∧
  ((s'.signed = s.signed ∧ s'.e.gopCounter = s.e.gopCounter) ∨
    ∃ g, s'.signed = some g ∧ g.e.gopCounter = s.e.gopCounter ∧ g.o.golden = s.golden ∧
      s'.e.gopCounter = if g.o.golden then s.e.gopCounter else s.e.gopCounter + 1)

/-- A call; `rc` is what the plugin says.  Upon other failures than a refusal nothing is said. -/
def CountOk {α : Type} (rc : Option Rc) (s : Signer) : Res Signer α → Prop
  | .ok s' _ => Counted s s'
  | .err s' e => Counted s s' ∨ (s'.signed = s.signed ∧ s'.golden = s.golden ∧ (e = .notSupported → rc = some .notSupported))
  | .ub _ => True

theorem Counted.ofStill {s t : Signer} (h : Still s t) : Counted s t := ⟨h.2.2, .inl ⟨h.2.1, h.1⟩⟩

theorem Counted.still {s t u : Signer} (h : Counted s t) (g : Still t u) : Counted s u := by
  refine ⟨g.2.2.trans h.1, ?_⟩
  rcases h.2 with ⟨a, b⟩ | ⟨x, a, b, c, d⟩
  · exact .inl ⟨g.2.1.trans a, g.1.trans b⟩
  · exact .inr ⟨x, g.2.1.trans a, b, c, g.1.trans d⟩

theorem Counted.after {s t u : Signer} (h : Still s t) (g : Counted t u) : Counted s u := by
  refine ⟨g.1.trans h.2.2, ?_⟩
  rcases g.2 with ⟨a, b⟩ | ⟨x, a, b, c, d⟩
  · exact .inl ⟨a.trans h.2.1, b.trans h.1⟩
  · exact .inr ⟨x, a, b.trans h.1, c.trans h.2.2, by rw [d, h.1]⟩

theorem CountOk.ofAll {α : Type} {rc : Option Rc} {s : Signer} {r : Res Signer α} (h : r.All (Still s)) : CountOk rc s r := by
  cases r with
  | ok t a => exact .ofStill h
  | err t e => exact .inl (.ofStill h)
  | ub u => trivial

/-- First something that does not count. -/
theorem CountOk.after {α β : Type} {rc : Option Rc} {s : Signer} {r : Res Signer α} {f : Signer → α → Res Signer β}
    (h : r.All (Still s)) (g : ∀ t a, r = .ok t a → CountOk rc t (f t a)) : CountOk rc s (r.andThen f) := by
  cases r with
  | ok t a =>
    have h2 := g t a rfl
    show CountOk rc s (f t a)
    cases hf : f t a with
    | ok u b => rw [hf] at h2; exact Counted.after h h2
    | err u e =>
      rw [hf] at h2
      rcases h2 with h2 | ⟨h2, h3, h4⟩
      · exact .inl (Counted.after h h2)
      · exact .inr ⟨h2.trans h.2.1, h3.trans h.2.2, h4⟩
    | ub u => trivial
  | err t e => exact .inl (.ofStill h)
  | ub u => trivial

/-- Then something that does not count. -/
theorem CountOk.before {α β : Type} {rc : Option Rc} {s : Signer} {r : Res Signer α} {f : Signer → α → Res Signer β}
    (h : CountOk rc s r) (g : ∀ t a, (f t a).All (Still t)) : CountOk rc s (r.andThen f) := by
  cases r with
  | ok t a =>
    have h2 := g t a
    show CountOk rc s (f t a)
    cases hf : f t a with
    | ok u b => rw [hf] at h2; exact .still h h2
    | err u e => rw [hf] at h2; exact .inl (.still h h2)
    | ub u => trivial
  | err t e => exact h
  | ub u => trivial

theorem generateSei_count (hs : Hashing) (s : Signer) (rc : Option Rc) : CountOk rc s (generateSei hs s rc) := by
  unfold generateSei
  split
  · exact .inl (.ofStill (.refl s))
  dsimp only
  split
  · trivial
  split
  · trivial
  · next e hp => exact absurd hp ((onlyOverread_parse _ _ _ _).noErr e)
  · next fake hp =>
    have h3 := hashAndAdd_calm hs { s with e := (seiStart s.opts s.encNow).2 } fake true true
    cases hr : hashAndAdd hs { s with e := (seiStart s.opts s.encNow).2 } fake true true with
    | ub u => trivial
    | err t e =>
      rw [hr] at h3
      exact .inr ⟨h3.1.2.1, h3.1.2.2, fun h => absurd h h3.2⟩
    | ok t a =>
      rw [hr] at h3
      cases rc with
      | some e => exact .inr ⟨h3.2.1, h3.2.2, fun h => by rw [h]⟩
      | none =>
        refine ⟨h3.2.2, .inr ⟨_, rfl, rfl, rfl, ?_⟩⟩
        exact h3.1.trans (seiStart_counter s)

theorem addPayload_still (s : Signer) (p : SeiSlot) : (addPayload s p).All (Still s) := by
  unfold addPayload
  repeat' split
  all_goals first | trivial | exact ⟨rfl, rfl, rfl⟩

theorem FetchInv.still {s s' : Signer} (h : FetchInv s s') : Still s s' := by
  have := h.1
  unfold CompletedOnly at this
  rw [this]; exact ⟨rfl, rfl, rfl⟩

theorem Res.All.mono {α : Type} {P Q : Signer → Prop} {r : Res Signer α} (h : r.All P) (hq : ∀ s, P s → Q s) : r.All Q := by
  cases r with
  | ok s a => exact hq s h
  | err s e => exact hq s h
  | ub u => trivial

theorem prepare_still (s : Signer) : (prepare s).All (Still s) := by
  unfold prepare
  dsimp only
  repeat' split
  all_goals exact ⟨rfl, rfl, rfl⟩

theorem Calm.all {α : Type} {s : Signer} {r : Res Signer α} (h : Calm s r) : r.All (Still s) := by
  cases r with
  | ok t a => exact h
  | err t e => exact h.1
  | ub u => trivial

theorem endOfGop_count (hs : Hashing) (s : Signer) (ts : Option Int64) (rc : Option Rc) : CountOk rc s (endOfGop hs s ts rc) := by
  unfold endOfGop
  split
  · dsimp only
    have h0 : Still s (stamp s ts) := by cases ts <;> exact ⟨rfl, rfl, rfl⟩
    generalize stamp s ts = t at h0
    split
    · exact .inl (.ofStill h0)
    · trivial
    · next c h _ =>
      have h1 : Still s { t with primary := c, e := { t.e with gopHash := h } } := h0
      have := generateSei_count hs { t with primary := c, e := { t.e with gopHash := h } } rc
      refine CountOk.after (r := .ok { t with primary := c, e := { t.e with gopHash := h } } ()) (f := fun s _ =>
        (generateSei hs s rc).andThen fun s p => (addPayload s p).andThen fun s _ => .ok { s with seiEnabled := true } ()) h1 ?_
      intro u a hu
      cases hu
      refine this.before (fun u p => ?_)
      refine Res.All.andThen (addPayload_still u p) (fun v a hv => ?_)
      exact hv
  · exact .ofStill ⟨rfl, rfl, rfl⟩

theorem addNalu_count (hs : Hashing) (s : Signer) (d : Bytes) (ts : Option Int64) (l : Bool) (rc : Option Rc) :
    CountOk rc s (addNalu hs s d ts l rc) := by
  unfold addNalu
  split
  · exact .inl (.ofStill (.refl s))
  · refine CountOk.after ?_ (fun t p _ => ?_)
    · unfold nextPart
      repeat' split
      all_goals first | trivial | exact ⟨rfl, rfl, rfl⟩
    · unfold addParsed
      refine CountOk.after (prepare_still t) (fun t _ _ => ?_)
      split
      · exact .inl (.ofStill (.refl t))
      · refine CountOk.after ?_ (fun t _ _ => ?_)
        · unfold countFrame
          dsimp only
          repeat' split
          all_goals first | trivial | exact ⟨rfl, rfl, rfl⟩
        · refine CountOk.before ?_ (fun t _ => ?_)
          · split
            · exact endOfGop_count hs t ts rc
            · exact .ofStill (.refl t)
          · refine Res.All.andThen (hashAndAdd_calm hs t _ _ _).all (fun u a hu => ?_)
            show Still t _
            split
            · exact hu
            · exact hu

theorem endOfStream_count (hs : Hashing) (s : Signer) (rc : Option Rc) (sigs : List SigAnswer) :
    CountOk rc s (endOfStream hs s rc sigs) := by
  unfold endOfStream
  refine CountOk.after (prepare_still s) (fun t _ _ => ?_)
  refine (generateSei_count hs t rc).before (fun u p => ?_)
  have h1 := addPayload_still u p
  cases hr : addPayload u p with
  | ub u => trivial
  | err v e => rw [hr] at h1; exact h1
  | ok v x =>
    rw [hr] at h1
    exact (completeSeis_inv sigs v).mono (fun w hw => Still.trans h1 hw.still)

/-- The same for a call. -/
def Tally (s s' : Signer) : Prop :=
  (s'.signed = none ∧ s'.e.gopCounter = s.e.gopCounter) ∨
    ∃ g, s'.signed = some g ∧ g.e.gopCounter = s.e.gopCounter ∧
      s'.e.gopCounter = if g.o.golden then s.e.gopCounter else s.e.gopCounter + 1

theorem Counted.tally {s t : Signer} (h : Counted s t) (hn : s.signed = none) : Tally s t := by
  rcases h.2 with ⟨a, b⟩ | ⟨x, a, b, c, d⟩
  · exact .inl ⟨a.trans hn, b⟩
  · exact .inr ⟨x, a, b, d⟩

def TallyOk {α : Type} (rc : Option Rc) (s : Signer) : Res Signer α → Prop
  | .ok s' _ => Tally s s'
  | .err s' e => Tally s s' ∨ (s'.signed = none ∧ (e = .notSupported → rc = some .notSupported))
  | .ub _ => True

theorem CountOk.tally {α : Type} {rc : Option Rc} {s : Signer} {r : Res Signer α} (h : CountOk rc s r) (hn : s.signed = none) :
    TallyOk rc s r := by
  cases r with
  | ok t a => exact Counted.tally h hn
  | err t e =>
    rcases h with h | ⟨h1, -, h2⟩
    · exact .inl (h.tally hn)
    · exact .inr ⟨h1.trans hn, h2⟩
  | ub u => trivial

theorem goldenSei_count (hs : Hashing) (s : Signer) (rc : Option Rc) (hn : s.signed = none) : TallyOk rc s (goldenSei hs s rc) := by
  unfold goldenSei
  dsimp only
  generalize ht : ({ s with golden := true, e := { s.e with recurrent := true, frameLevel := true } } : Signer) = t
  have hc : t.e.gopCounter = s.e.gopCounter ∧ t.signed = none := by subst ht; exact ⟨rfl, hn⟩
  have h : TallyOk rc t ((prepare t).andThen fun s _ => (generateSei hs s rc).andThen fun s p => addPayload s p) :=
    CountOk.tally (CountOk.after (prepare_still t) (fun u _ _ =>
      (generateSei_count hs u rc).before (fun v p => addPayload_still v p))) hc.2
  have back : ∀ v, Tally t v → Tally s { v with golden := false } := by
    intro v hv
    unfold Tally at hv
    rw [hc.1] at hv
    exact hv
  split
  · next v a hr => rw [hr] at h; exact back v h
  · next v e hr =>
    rw [hr] at h
    rcases h with h | h
    · exact .inl (back v h)
    · exact .inr h
  · trivial

theorem plain_tally {rc : Option Rc} {s : Signer} {r : Res Signer Unit} (h : TallyOk rc s r) : TallyOk rc s (plain r) := by
  cases r <;> exact h

theorem signCall_count (hs : Hashing) (s : Signer) (c : SCall) (hn : s.signed = none) :
    TallyOk (pluginSays c) s (signCall hs s c) ∧ (¬ Generates c → (signCall hs s c).All (Tally s)) := by
  have still : ∀ (r : Res Signer (Option Bytes)) rc, r.All (Still s) → TallyOk rc s r ∧ (¬ Generates c → r.All (Tally s)) := by
    intro r rc h
    refine ⟨(CountOk.ofAll h).tally hn, fun _ => h.mono fun t ht => (Counted.ofStill ht).tally hn⟩
  cases c with
  | nalu d ts l rc => exact ⟨plain_tally ((addNalu_count hs s d ts l rc).tally hn), fun h => absurd trivial h⟩
  | endOfStream rc sigs => exact ⟨plain_tally ((endOfStream_count hs s rc sigs).tally hn), fun h => absurd trivial h⟩
  | golden rc => exact ⟨plain_tally (goldenSei_count hs s rc hn), fun h => absurd trivial h⟩
  | getSei c p sigs => exact still _ _ ((getSei_inv s c p sigs).mono fun t ht => ht.still)
  | prepend a b => exact still _ _ ((getPrepend_inv s a b).mono fun t ht => ht.still)
  | set x =>
    apply still
    have : (applySetting hs s x).All (Still s) := by
      unfold applySetting
      dsimp only
      repeat' split
      all_goals first | trivial | exact ⟨rfl, rfl, rfl⟩
    show (plain (applySetting hs s x)).All (Still s)
    cases hr : applySetting hs s x with
    | ub u => trivial
    | err v e => rw [hr] at this; exact this
    | ok v y => rw [hr] at this; exact this
  | reset => exact still _ _ ⟨rfl, rfl, rfl⟩

/-- One call in terms of observations. -/
theorem signStep_count (hs : Hashing) (s s' : Signer) (c : SCall) (o : Obs) (h : signStep hs s c = .ok (s', o))
    (hu : Unbroken c o) :
    (o.signed = none ∧ s'.e.gopCounter = s.e.gopCounter) ∨
    ∃ g, o.signed = some g ∧ g.e.gopCounter = s.e.gopCounter ∧
      s'.e.gopCounter = if g.o.golden then s.e.gopCounter else s.e.gopCounter + 1 := by
  unfold signStep at h
  obtain ⟨h1, h2⟩ := signCall_count hs { s with signed := none, got := [] } c rfl
  generalize signCall hs { s with signed := none, got := [] } c = r at h h1 h2
  cases r with
  | ok t b => cases h; exact h1
  | err t e =>
    cases h
    rcases h1 with h1 | ⟨h1, h3⟩
    · exact h1
    · by_cases hg : Generates c
      · exfalso
        rcases hu hg with hu | hu | ⟨hu, hv⟩
        · cases hu
        · exact hu h1
        · cases hu; exact hv (h3 rfl)
      · exact h2 hg
  | ub u => cases h

end SV
