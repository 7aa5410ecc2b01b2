import Verif.Proofs.AuthSteps
import Verif.Props.Report
/-!
What a call does to the report before it is given to the user: the version strings, the accumulated validation, the flags.
-/
namespace SV
namespace Validator

/-- Only the list, the addresses in use and the counter differ. -/
def Listed (s t : Validator) : Prop := t = { s with list := t.list, brk := t.brk, latestGop := t.latestGop }

theorem Listed.refl (s : Validator) : Listed s s := rfl

theorem Listed.trans {a b c : Validator} (h : Listed a b) (g : Listed b c) : Listed a c := by
  unfold Listed at *
  generalize b.list = l at *
  generalize b.brk = k at *
  generalize b.latestGop = z at *
  subst h
  exact g

theorem Listed.rep {s t : Validator} (h : Listed s t) : t.rep = s.rep := by rw [h]
theorem Listed.flags {s t : Validator} (h : Listed s t) : t.flags = s.flags := by rw [h]
theorem Listed.legacy {s t : Validator} (h : Listed s t) : t.legacy = s.legacy := by rw [h]
theorem Listed.d {s t : Validator} (h : Listed s t) : t.d = s.d := by rw [h]
theorem Listed.gop {s t : Validator} (h : Listed s t) : t.gop = s.gop := by rw [h]

theorem withoutSei_listed (s : Validator) : s.withoutSei.Ends (Listed s) := by
  unfold withoutSei
  split
  · trivial
  · exact Listed.refl s
  · exact rfl

theorem addMissing_listed (s : Validator) (n : Int) (app : Bool) (a : Nat) : Listed s (s.addMissing n app a) := by
  unfold addMissing
  split
  · exact Listed.refl s
  · exact rfl

theorem setStatus_listed (s : Validator) (st : Status) (o : Option Nat) : (s.setStatus st o).Ends (Listed s) := by
  unfold setStatus
  split
  · exact Listed.refl s
  · split
    · trivial
    · exact Listed.refl s
    · split
      · split
        · exact rfl
        · trivial
      · exact rfl

theorem withSeiRest_listed (s : Validator) (st : Status) (o : Option Nat) (e : Int) : (s.withSeiRest st o e).Ends (Listed s) := by
  unfold withSeiRest
  dsimp only
  refine Res.Ends.andThen' (setStatus_listed s st o) fun t k _ ht => ?_
  split
  · exact ht
  · split
    · exact ht
    · split
      · trivial
      · exact ht.trans (addMissing_listed ..)

theorem withHashList_listed (s : Validator) (o : Bool) : (s.withHashList o).Ends (Listed s) := by
  unfold withHashList
  split
  · trivial
  split
  · exact Listed.refl s
  dsimp only
  split
  · trivial
  · exact Listed.refl s
  · rename_i l m _
    have h0 : Listed s { s with list := l, brk := m.brk } := rfl
    have set : ∀ (t : Validator) l, Listed s t → Listed s { t with list := l } := fun t l ht => ht.trans rfl
    refine set _ _ ?_
    have fin : ∀ X : Validator, Listed s X → Listed s (if m.latest ≠ m.compare then X else match m.lastUsed with
        | none => X
        | some a => X.addMissing ((chunk s.d.hashSize s.d.hashList).length - 1 - m.latest) true a) := by
      intro X hX
      split
      · exact hX
      · split
        · exact hX
        · exact hX.trans (addMissing_listed ..)
    refine fin _ ?_
    split
    · split
      · exact h0
      · exact h0.trans (addMissing_listed ..)
    · exact h0

theorem withSei_listed (s : Validator) : s.withSei.Ends (Listed s) := by
  unfold withSei
  dsimp only
  split
  · split
    · exact withHashList_listed ..
    · exact withSeiRest_listed ..
  · split
    · trivial
    · split
      · exact (withSeiRest_listed ..).mono fun t ht => Listed.trans (b := { s with list := s.list.set _ fun i => { i with status := .N } }) rfl ht
      · refine Res.Ends.andThen' (withoutSei_listed _) fun t b _ ht => ?_
        exact ht

theorem verifyGop_listed (s : Validator) : s.verifyGop.Ends (Listed s) := by
  unfold verifyGop
  split
  · exact Res.Ends.andThen' (withoutSei_listed s) fun t b _ ht => ht
  · exact Res.Ends.andThen' (withSei_listed s) fun t b _ ht => ht.trans rfl

/-- The strings and the accumulated validation are kept, unless an old stream is recognised. -/
structure RepKept (s t : Validator) : Prop where
  this : t.rep.thisVersion = s.rep.thisVersion
  acc : t.legacy = false → s.legacy = false ∧ t.rep.acc = s.rep.acc
  has : t.hasReport = s.hasReport
  any : t.rep.acc = s.rep.acc ∨ t.rep.acc = accumulatedInit

theorem RepKept.refl (s : Validator) : RepKept s s := ⟨rfl, fun h => ⟨h, rfl⟩, rfl, .inl rfl⟩

theorem RepKept.trans {a b c : Validator} (h : RepKept a b) (g : RepKept b c) : RepKept a c :=
  ⟨g.this.trans h.this, fun hc => ⟨(h.acc (g.acc hc).1).1, (g.acc hc).2.trans (h.acc (g.acc hc).1).2⟩, g.has.trans h.has,
    g.any.elim (fun e => h.any.imp e.trans e.trans) .inr⟩

theorem RepKept.of_eq {s t : Validator} (h1 : t.rep.thisVersion = s.rep.thisVersion) (h2 : t.legacy = s.legacy)
    (h3 : t.rep.acc = s.rep.acc) (h4 : t.hasReport = s.hasReport) : RepKept s t := ⟨h1, fun h => ⟨h2 ▸ h, h3⟩, h4, .inl h3⟩

theorem RepKept.of_prep {s t : Validator} (h : Prep s t) : RepKept s t := .of_eq h.thisVersion h.legacy h.acc h.hasReport
theorem RepKept.of_decoded {s t : Validator} (h : Decoded s t) : RepKept s t := .of_eq h.thisVersion h.legacy h.acc h.hasReport
theorem RepKept.of_listed {s t : Validator} (h : Listed s t) : RepKept s t := .of_eq (by rw [h.rep]) h.legacy (by rw [h.rep]) (by rw [h])
theorem RepKept.of_hashed {s t : Validator} (h : Hashed s t) : RepKept s t :=
  .of_eq (by rw [h.eq]) (by rw [h.eq]) (by rw [h.eq]) (by rw [h.eq])

theorem begin_rep (s : Validator) : RepKept s s.begin := by
  unfold begin
  split
  · exact RepKept.refl s
  · exact .of_eq rfl rfl rfl rfl

theorem round_rep (env : AuthEnv) (s : Validator) : (s.round env).Ends (RepKept s) := by
  unfold round
  refine Res.Ends.andThen' ((prepare_prep env s.begin).mono fun t h => (begin_rep s).trans (.of_prep h)) fun t _ _ ht => ?_
  split
  · trivial
  · exact ht
  · rename_i u hu
    have hu : RepKept s u := by
      rcases updateLinkLoop_eq hu with e | ⟨lk, a, e⟩
      · rw [e]; exact ht
      · rw [e]; exact ht.trans (.of_eq rfl rfl rfl rfl)
    refine Res.Ends.andThen' (P := RepKept s) ?_ fun v _ _ hv => hv.trans (.of_eq rfl rfl rfl rfl)
    unfold conduct
    split
    · unfold validate
      refine Res.Ends.andThen' ((verifyGop_listed u).mono fun v hv => hu.trans (.of_listed hv)) fun v p _ hv => ?_
      exact hv.trans (.of_eq rfl rfl rfl rfl)
    · exact hu.trans (.of_eq rfl rfl rfl rfl)

theorem rounds_rep (env : AuthEnv) (k : Nat) (s : Validator) : (s.rounds env k).Ends (RepKept s) := by
  induction k generalizing s with
  | zero => trivial
  | succ k ih =>
    have hp : ∀ s : Validator, RepKept s s.hasPending.1 := fun s => .of_eq rfl rfl rfl rfl
    unfold rounds
    split
    · refine Res.Ends.andThen' (P := RepKept s) ((round_rep env s.hasPending.1).mono fun t ht => (hp s).trans ht) fun t _ _ ht => ?_
      split
      · exact (ih t).mono fun u hu => ht.trans hu
      · exact ht.trans (hp t)
    · exact hp s

/-- All of the latest validation is kept but what decoding a SEI writes to it. -/
def LatestKept (l m : Latest) : Prop := ∃ k h ts, m = { l with keyChanged := k, hasTs := h, ts := ts }

theorem LatestKept.refl (l : Latest) : LatestKept l l := ⟨_, _, _, rfl⟩

theorem LatestKept.trans {l m n : Latest} (h : LatestKept l m) (g : LatestKept m n) : LatestKept l n := by
  obtain ⟨_, _, _, rfl⟩ := h
  obtain ⟨_, _, _, rfl⟩ := g
  exact ⟨_, _, _, rfl⟩

/-- The part of a call before the validation keeps the flags as well, and most of the latest validation. -/
structure Before (s t : Validator) : Prop where
  rep : RepKept s t
  flags : t.flags = s.flags
  latest : LatestKept s.rep.latest t.rep.latest

theorem Before.refl (s : Validator) : Before s s := ⟨.refl s, rfl, .refl _⟩
theorem Before.trans {a b c : Validator} (h : Before a b) (g : Before b c) : Before a c :=
  ⟨h.rep.trans g.rep, g.flags.trans h.flags, h.latest.trans g.latest⟩
theorem Before.of_prep {s t : Validator} (h : Prep s t) : Before s t := ⟨.of_prep h, h.flags, h.latest⟩
theorem Before.of_hashed {s t : Validator} (h : Hashed s t) : Before s t := ⟨.of_hashed h, by rw [h.eq], by rw [h.eq]; exact .refl _⟩

theorem recurrentDecoded_before (env : AuthEnv) (s : Validator) : (s.recurrentDecoded env).Ends (Before s) :=
  (recurrentDecoded_decoded env s).mono fun t h => ⟨.of_decoded h, h.flags, h.latest⟩

theorem register_before (env : AuthEnv) (s : Validator) (a : Nat) (n : Nalu) : (s.register env a n).Ends (Before s) := by
  unfold Validator.register
  split
  · trivial
  split
  · exact Before.refl s
  split
  · trivial
  · exact Before.refl s
  · dsimp only
    split
    · trivial
    · exact (hashItem_hashed env _ _).mono fun t ht =>
        have h := Before.of_hashed ht
        ⟨⟨h.rep.this, h.rep.acc, h.rep.has, h.rep.any⟩, h.flags, h.latest⟩

theorem prepareGolden_before (env : AuthEnv) (s : Validator) (a : Nat) (n : Nalu) : (s.prepareGolden env a n).Ends (Before s) := by
  unfold prepareGolden
  refine Res.Ends.andThen' ((decodeSei_prep env s _ _).mono fun t h => Before.of_prep h) fun t _ _ ht => ?_
  dsimp only
  have ht' : Before s { t with list := t.list.set a fun i => { i with decoded := true } } := ht.trans ⟨.of_eq rfl rfl rfl rfl, rfl, .refl _⟩
  split
  · trivial
  · refine Res.Ends.andThen' ((hashItem_hashed env _ _).mono fun u hu => ht'.trans (.of_hashed hu)) fun u _ _ hu => ?_
    split
    · trivial
    · split
      · trivial
      · refine (prepare_prep env _).mono fun v hv => ?_
        have h := Before.of_prep hv
        exact hu.trans ⟨⟨h.rep.this, h.rep.acc, h.rep.has, h.rep.any⟩, h.flags, h.latest⟩

theorem reregister_before (env : AuthEnv) (l : NList) (s : Validator) (st : Option Rc) : (reregister env l s st).Ends (Before s) := by
  induction l generalizing s st with
  | nil => cases st <;> exact Before.refl s
  | cons x r ih =>
    unfold reregister
    split
    · trivial
    · split
      · exact ih s st
      · exact Res.Ends.andThen' ((hashItem_hashed env s x).mono fun t h => Before.of_hashed h) fun t _ _ ht =>
          (ih t none).mono fun u hu => ht.trans hu

theorem hashAlgoBlock_before (env : AuthEnv) (s : Validator) (a : Nat) (n : Nalu) : (s.hashAlgoBlock env a n).Ends (Before s) := by
  unfold hashAlgoBlock
  split
  · exact Before.refl s
  · refine Res.Ends.andThen' (recurrentDecoded_before env s) fun t ok _ ht => ?_
    split
    · exact ht
    · dsimp only
      have h1 : Before s { t with d := { t.d with hashAlgoKnown := true } } := ht.trans ⟨.of_eq rfl rfl rfl rfl, rfl, .refl _⟩
      refine Res.Ends.andThen' (P := Before s) ?_ fun u _ _ hu => ?_
      · split
        · exact (prepareGolden_before env _ a n).mono fun u hu => h1.trans hu
        · exact h1
      · split
        · exact ⟨⟨hu.rep.this, fun h => (nomatch h), hu.rep.has, .inr rfl⟩, hu.flags, hu.latest⟩
        · exact (reregister_before env _ u _).mono fun v hv => hu.trans hv

theorem firstSei_rep (s : Validator) (n : Nalu) (a : Nat) : RepKept s (s.firstSei n a) := by
  unfold firstSei
  dsimp only
  split
  · split <;> exact .of_eq rfl rfl rfl rfl
  · exact .of_eq rfl rfl rfl rfl

theorem maybeValidate_rep (env : AuthEnv) (s : Validator) (n : Nalu) : (s.maybeValidate env n).Ends (RepKept s) := by
  unfold maybeValidate
  split
  · exact RepKept.refl s
  split
  · trivial
  · refine Res.Ends.andThen' ((recurrentDecoded_before env s).mono fun t h => h.rep) fun t ok _ ht => ?_
    split
    · split
      · exact ht.trans (firstSei_rep ..)
      · exact ht
    · exact (rounds_rep env _ t).mono fun u hu => ht.trans hu

theorem addBody_rep (env : AuthEnv) (s : Validator) (n : Nalu) : (s.addBody env n).Ends (RepKept s) := by
  unfold addBody
  dsimp only
  split
  · exact .of_eq rfl rfl rfl rfl
  · refine Res.Ends.andThen' (P := RepKept s) ((register_before env _ _ n).mono fun t h => ⟨h.rep.this, h.rep.acc, h.rep.has, h.rep.any⟩) fun t _ _ ht => ?_
    refine Res.Ends.andThen' ((hashAlgoBlock_before env t _ n).mono fun u h => ht.trans h.rep) fun u _ _ hu => ?_
    exact (maybeValidate_rep env u n).mono fun v hv => hu.trans hv

theorem copyLast_rep (s : Validator) : s.copyLast.Ends (fun t => RepKept s t ∧ t.flags = s.flags ∧ t.rep = s.rep) := by
  unfold copyLast
  split
  · trivial
  split
  · trivial
  split
  · trivial
  · exact ⟨RepKept.refl s, rfl, rfl⟩
  · exact ⟨.of_eq rfl rfl rfl rfl, rfl, rfl⟩

theorem addEnd_rep (s : Validator) (e : Option Rc) : (s.addEnd e).Ends (fun t => RepKept s t ∧ t.flags = s.flags ∧ t.rep = s.rep) := by
  unfold addEnd
  refine Res.Ends.andThen' (copyLast_rep s) fun t _ _ ht => ?_
  split
  · exact ht
  · unfold markLast
    split
    · exact ht
    · exact ⟨ht.1.trans (.of_eq rfl rfl rfl rfl), ht.2⟩

/-- The local version string is never written. -/
theorem call_this (env : AuthEnv) (s : Validator) (c : AuthCall) (h0 : s.rep.thisVersion = []) :
    (authCall env s c).Ends fun t => t.rep.thisVersion = [] := by
  cases c with
  | reset => exact h0
  | publicKey k =>
    show ((s.setPublicKey env k).andThen _).Ends _
    refine Res.Ends.andThen' (P := fun t : Validator => t.rep.thisVersion = []) ?_ fun t _ _ ht => ht
    unfold setPublicKey
    split
    · exact h0
    split
    · exact h0
    split
    · exact h0
    dsimp only
    split <;> exact h0
  | nalu d =>
    show (s.add env d).Ends _
    unfold add
    split
    · exact h0
    dsimp only
    refine Res.Ends.andThen' (P := fun t : Validator => t.rep.thisVersion = []) ?_ fun t _ _ ht => ?_
    · unfold addH26x
      split
      · exact h0
      split
      · exact h0
      split
      · trivial
      · exact h0
      · dsimp only
        have hb := addBody_rep env { s with
          started := true, hasReport := true, flags := { s.flags with hasAuth := false }
          rep := { s.rep with acc := { s.rep.acc with received := s.rep.acc.received + 1 } } } ‹_›
        split
        · trivial
        · rename_i e; rw [e] at hb
          exact (addEnd_rep _ _).mono fun u hu => (hu.1.this.trans hb.this).trans h0
        · rename_i e; rw [e] at hb
          exact (addEnd_rep _ _).mono fun u hu => (hu.1.this.trans hb.this).trans h0
    · split
      · exact ht
      · unfold report
        split
        · split
          · trivial
          · exact ht
          · rename_i r l e
            obtain ⟨r', e', -, h2⟩ := C25_never_mismatch t.rep t.list ht
            rw [e'] at e; cases e
            exact h2.trans ht
        · exact ht

end Validator

theorem authRun_this {env : AuthEnv} {cs : List AuthCall} {s t : Validator} {os : List AObs} (h0 : s.rep.thisVersion = [])
    (h : authRun env s cs = .ok (t, os)) : t.rep.thisVersion = [] := by
  induction cs generalizing s os with
  | nil => cases h; exact h0
  | cons c cs ih =>
    obtain ⟨⟨u, o⟩, h1, h2⟩ := Out.bind_eq_ok h
    obtain ⟨⟨v, os'⟩, h3, h4⟩ := Out.bind_eq_ok h2
    cases h4
    refine ih ?_ h3
    have hc := Validator.call_this env s c h0
    unfold authStep at h1
    split at h1
    · rename_i e; cases h1; rw [e] at hc; exact hc
    · rename_i e; cases h1; rw [e] at hc; exact hc
    · cases h1

end SV
