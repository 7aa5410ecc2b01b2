import Verif.Proofs.AuthInv
/-! Invariants of a call of a validating session. -/
namespace SV
namespace Validator

theorem _root_.SV.Out.bind_eq_ok {α β : Type} {o : Out α} {f : α → Out β} {b : β} (h : (o >>= f) = .ok b) :
    ∃ a, o = .ok a ∧ f a = .ok b := by
  cases o with
  | ok a => exact ⟨a, rfl, h⟩
  | err e => cases h
  | ub u => cases h

/-- Hashes of list items are written. -/
structure Hashed (s s' : Validator) : Prop where
  eq : s' = { s with list := s'.list, buddies := s'.buddies, hasRef := s'.hasRef }
  items : ∃ f : Item → Item, (∃ a, s'.list = s.list.set a f) ∧ ∀ i, ∃ h h2, f i = { i with hash := h, second := h2 }
  room : s.buddies.length ≤ s'.buddies.length

theorem set_set (l : NList) (a : Nat) (f g : Item → Item) : (l.set a f).set a g = l.set a (g ∘ f) := by
  unfold NList.set
  rw [List.map_map]
  refine List.map_congr_left fun x _ => ?_
  by_cases h : x.1 = a <;> simp [h]

theorem set_id (l : NList) (a : Nat) : l.set a id = l := by
  unfold NList.set
  conv => rhs; rw [← List.map_id l]
  refine List.map_congr_left fun x _ => ?_
  split <;> rfl

theorem hashNalu_eq {env : AuthEnv} {s s' : Validator} {n : Nalu} {h : Bytes} (e : s.hashNalu env n = .ok (s', h)) :
    s' = { s with buddies := s'.buddies, hasRef := s'.hasRef } := by
  unfold hashNalu at e
  obtain ⟨a, _, e⟩ := Out.bind_eq_ok e
  split at e
  · cases e; rfl
  · split at e
    · cases e; rfl
    · obtain ⟨b, _, e⟩ := Out.bind_eq_ok e
      cases e; rfl

theorem ovl_grows (a b : Bytes) : b.length ≤ (ovl a b).length := by
  unfold ovl
  rw [List.length_append, List.length_drop]
  omega

/-- The buffer with the reference hash is not made shorter. -/
theorem hashNalu_room {env : AuthEnv} {s s' : Validator} {n : Nalu} {h : Bytes} (e : s.hashNalu env n = .ok (s', h)) :
    s.buddies.length ≤ s'.buddies.length := by
  unfold hashNalu at e
  obtain ⟨a, _, e⟩ := Out.bind_eq_ok e
  split at e
  · cases e; exact Nat.le_refl _
  · split at e
    · cases e; exact ovl_grows _ _
    · obtain ⟨b, _, e⟩ := Out.bind_eq_ok e
      cases e
      dsimp only
      have := ovl_grows a (s.buddies.drop s.d.hashSize)
      rw [List.length_drop] at this
      rw [List.length_append, List.length_take]
      omega

theorem hashItem_hashed (env : AuthEnv) (s : Validator) (x : Nat × Item) : (s.hashItem env x).Ends (Hashed s) := by
  have hr : Hashed s s := ⟨rfl, ⟨id, ⟨x.1, (set_id _ _).symm⟩, fun i => ⟨i.hash, i.second, rfl⟩⟩, Nat.le_refl _⟩
  unfold hashItem
  cases hn : x.2.nalu with
  | none => exact hr
  | some n =>
    dsimp only
    split
    · exact hr
    · cases h1 : s.hashNalu env n with
      | ub u => trivial
      | err e => exact hr
      | ok p =>
        obtain ⟨t, h⟩ := p
        have e1 := hashNalu_eq h1
        dsimp only
        have ht : t.list = s.list := by rw [e1]
        have hh : Hashed s { t with list := t.list.set x.1 fun i => { i with hash := ovl h i.hash } } :=
          ⟨by rw [e1], ⟨fun i => { i with hash := ovl h i.hash }, ⟨x.1, by rw [ht]⟩, fun i => ⟨_, _, rfl⟩⟩, (by have := hashNalu_room h1; exact this)⟩
        split
        · generalize h2 : hashNalu env _ n = r
          cases r with
          | ub u => trivial
          | err e =>
            exact ⟨by rw [e1], ⟨fun i => { i with hash := ovl h i.hash }, ⟨x.1, by rw [← ht]⟩, fun i => ⟨_, _, rfl⟩⟩, (by have := hashNalu_room h1; exact this)⟩
          | ok q =>
            obtain ⟨v, h'⟩ := q
            have e2 := hashNalu_eq h2
            have hv : v.list = s.list.set x.1 fun i => { i with hash := ovl h i.hash } := by rw [e2, ← ht]
            refine ⟨by rw [e2, e1], ⟨(fun i => { i with second := some h' }) ∘ fun i => { i with hash := ovl h i.hash }, ⟨x.1, ?_⟩,
              fun i => ⟨_, _, rfl⟩⟩, Nat.le_trans (hashNalu_room h1) (by have := hashNalu_room h2; exact this)⟩
            dsimp only
            rw [hv, set_set]
        · exact hh

/-- Addresses, NAL units and statuses of the items. -/
def core (l : NList) : List (Nat × Option Nalu × Status) := l.map fun x => (x.1, x.2.nalu, x.2.status)

theorem core_set {l : NList} {a : Nat} {f : Item → Item} (h : ∀ i, (f i).nalu = i.nalu ∧ (f i).status = i.status) :
    core (l.set a f) = core l := by
  unfold core NList.set
  rw [List.map_map]
  refine List.map_congr_left fun x _ => ?_
  show ((if x.1 = a then (x.1, f x.2) else x).1, (if x.1 = a then (x.1, f x.2) else x).2.nalu, (if x.1 = a then (x.1, f x.2) else x).2.status) = _
  split
  · dsimp only; rw [(h x.2).1, (h x.2).2]
  · rfl

theorem Hashed.core {s s' : Validator} (h : Hashed s s') : core s'.list = Validator.core s.list := by
  obtain ⟨f, ⟨a, e⟩, hf⟩ := h.items
  rw [e]
  refine core_set fun i => ?_
  obtain ⟨h, h2, e⟩ := hf i
  rw [e]; exact ⟨rfl, rfl⟩

theorem Hashed.addr {s s' : Validator} (h : Hashed s s') : s'.list.map Prod.fst = s.list.map Prod.fst := by
  obtain ⟨f, ⟨a, e⟩, hf⟩ := h.items
  rw [e, set_addr]

/-- A property of states that is kept between the registration of a NAL unit and the end of a call. -/
structure MidInv (P : Validator → Prop) : Prop where
  round : RoundInv P
  prep : ∀ s s', Prep s s' → P s → P s'
  hashed : ∀ s s', Hashed s s' → P s → P s'
  gold : ∀ (s : Validator) h b, P s → P { s with sigHash := h, gop := { s.gop with hasSei := b } }
  legacy : ∀ s : Validator, P s → P { s with legacy := true, rep := { s.rep with acc := accumulatedInit } }
  firstSei : ∀ (s : Validator) n a, P s → P (s.firstSei n a)

namespace MidInv
variable {P : Validator → Prop} (hP : MidInv P) (env : AuthEnv)
include hP

theorem hashItem {s : Validator} (x : Nat × Item) (h : P s) : (s.hashItem env x).Ends P :=
  (hashItem_hashed env s x).mono fun _ hh => hP.hashed _ _ hh h

theorem reregister (l : NList) {s : Validator} (st : Option Rc) (h : P s) : (Validator.reregister env l s st).Ends P := by
  induction l generalizing s st with
  | nil =>
    cases st with
    | none => unfold Validator.reregister; exact h
    | some e => unfold Validator.reregister; exact h
  | cons x r ih =>
    unfold Validator.reregister
    split
    · trivial
    · split
      · exact ih st h
      · exact Res.Ends.andThen' (hP.hashItem env x h) fun t _ _ ht => ih none ht

theorem prepareGolden {s : Validator} (a : Nat) (n : Nalu) (h : P s) : (s.prepareGolden env a n).Ends P := by
  unfold Validator.prepareGolden
  refine Res.Ends.andThen' ((decodeSei_prep env s n.tlvMem n.tlvSize).mono fun _ hp => hP.prep _ _ hp h) fun t _ _ ht => ?_
  dsimp only
  have h1 : P { t with list := t.list.set a fun i => { i with decoded := true } } := by
    refine hP.prep _ _ (Prep.withList t _ ?_ (set_addr _ _ _)) ht
    exact Grow.set fun y _ _ => ⟨rfl, rfl, rfl, fun _ => rfl, .inl rfl⟩
  split
  · trivial
  · refine Res.Ends.andThen' (hP.hashItem env _ h1) fun u _ _ hu => ?_
    split
    · trivial
    · split
      · trivial
      · exact (prepare_prep env _).mono fun _ hp => hP.prep _ _ hp (hP.gold u _ _ hu)

theorem hashAlgoBlock {s : Validator} (a : Nat) (n : Nalu) (h : P s) : (s.hashAlgoBlock env a n).Ends P := by
  unfold Validator.hashAlgoBlock
  split
  · exact h
  · refine Res.Ends.andThen' ((recurrentDecoded_decoded env s).mono fun _ hd => hP.prep _ _ (Prep.of_decoded hd) h)
      fun t ok _ ht => ?_
    split
    · exact ht
    · dsimp only
      have h1 : P { t with d := { t.d with hashAlgoKnown := true } } :=
        hP.prep _ _ (Prep.of_decoded (Decoded.withD t _)) ht
      refine Res.Ends.andThen' (P := P) ?_ fun u _ _ hu => ?_
      · split
        · exact hP.prepareGolden env a n h1
        · exact h1
      · split
        · exact hP.legacy u hu
        · exact hP.reregister env _ _ hu

theorem maybeValidate {s : Validator} (n : Nalu) (h : P s) : (s.maybeValidate env n).Ends P := by
  unfold Validator.maybeValidate
  split
  · exact h
  · split
    · trivial
    · rename_i x _
      refine Res.Ends.andThen' ((recurrentDecoded_decoded env s).mono fun _ hd => hP.prep _ _ (Prep.of_decoded hd) h)
        fun t ok _ ht => ?_
      split
      · show P (if _ then _ else _)
        split
        · exact hP.firstSei t n x.1 ht
        · exact ht
      · exact hP.round.rounds env _ ht

end MidInv

/-- `firstSei` changes the list at most at one address. -/
theorem firstSei_list (s : Validator) (n : Nalu) (a : Nat) : ∃ f : Item → Item, (s.firstSei n a).list = s.list.set a f ∧
    ∀ i, f i = i ∨ ∃ st : Status, f i = { i with status := st } ∧ (st = .ok ∨ st = .N ∨ st = .E) := by
  unfold firstSei
  dsimp only
  split
  · refine ⟨fun i => { i with status := if s.verified = 1 then .ok else if s.verified = 0 then .N else .E }, ?_, fun i => .inr ⟨_, rfl, ?_⟩⟩
    · split <;> rfl
    · split
      · exact .inl rfl
      · split
        · exact .inr (.inl rfl)
        · exact .inr (.inr rfl)
  · exact ⟨id, (set_id _ _).symm, fun i => .inl rfl⟩

theorem firstSei_brk (s : Validator) (n : Nalu) (a : Nat) : (s.firstSei n a).brk = s.brk := by
  unfold firstSei
  dsimp only
  split
  · split <;> rfl
  · rfl

theorem WF.of_addr {l l' : NList} {b : Nat} (w : WF l b) (e : l'.map Prod.fst = l.map Prod.fst) : WF l' b := by
  refine ⟨by rw [e]; exact w.nodup, fun x hx => ?_⟩
  obtain ⟨y, hy, h⟩ := List.mem_map.1 (e ▸ List.mem_map_of_mem (f := Prod.fst) hx)
  have := w.lt y hy
  omega

theorem WF.append {l : NList} {b : Nat} (w : WF l b) (i : Item) : WF (l.append b i) (b + 1) := by
  unfold NList.append
  constructor
  · rw [List.map_append, List.nodup_append]
    refine ⟨w.nodup, by simp, ?_⟩
    intro a ha c hc
    obtain ⟨x, hx, rfl⟩ := List.mem_map.1 ha
    have := w.lt x hx
    simp at hc
    omega
  · intro x hx
    rcases List.mem_append.1 hx with hx | hx
    · have := w.lt x hx; omega
    · simp at hx; subst hx; exact Nat.lt_succ_self _

theorem WF.sublist {l l' : NList} {b : Nat} (w : WF l b) (h : l'.Sublist l) : WF l' b :=
  ⟨(h.map _).nodup w.nodup, fun x hx => w.lt x (h.subset hx)⟩

theorem wfs_mid : MidInv WFs where
  round := wfs_inv
  prep _ _ hp h := (hp.ev noStatus).wf h
  hashed s s' hh h := by
    unfold WFs
    have : s'.brk = s.brk := by rw [hh.eq]
    rw [this]
    exact WF.of_addr h hh.addr
  gold _ _ _ h := h
  legacy _ h := h
  firstSei s n a h := by
    obtain ⟨f, e, -⟩ := firstSei_list s n a
    unfold WFs
    rw [e, firstSei_brk]
    exact WF.of_addr h (set_addr _ _ _)

theorem register_wfs (env : AuthEnv) {s : Validator} (a : Nat) (n : Nalu) (h : WFs s) : (s.register env a n).Ends WFs := by
  unfold register
  split
  · trivial
  · split
    · exact h
    · split
      · trivial
      · exact h
      · dsimp only
        split
        · trivial
        · exact wfs_mid.hashItem env _ (by unfold WFs; dsimp only; exact WF.of_addr h (set_addr _ _ _))

theorem addBody_wfs (env : AuthEnv) {s : Validator} (n : Nalu) (h : WFs s) : (s.addBody env n).Ends WFs := by
  unfold addBody
  dsimp only
  have h1 : WF (s.list.append s.brk (newItem (some n))) (s.brk + 1) := WF.append h _
  split
  · exact h1
  · refine Res.Ends.andThen' (register_wfs env s.brk n (by exact h1)) fun t _ _ ht => ?_
    refine Res.Ends.andThen' (wfs_mid.hashAlgoBlock env s.brk n ht) fun u _ _ hu => ?_
    exact wfs_mid.maybeValidate env n hu

theorem copyLast_wfs {s : Validator} (h : WFs s) : s.copyLast.Ends WFs := by
  unfold copyLast
  split
  · trivial
  · split
    · trivial
    · split
      · trivial
      · exact h
      · show WF _ _
        dsimp only
        exact WF.of_addr h (set_addr _ _ _)

theorem markLast_wfs {s : Validator} (h : WFs s) : WFs s.markLast := by
  unfold markLast
  split
  · exact h
  · unfold WFs; dsimp only; exact WF.of_addr h (set_addr _ _ _)

theorem addEnd_wfs {s : Validator} (e : Option Rc) (h : WFs s) : (s.addEnd e).Ends WFs := by
  unfold addEnd
  refine Res.Ends.andThen' (copyLast_wfs h) fun t _ _ ht => ?_
  split
  · exact ht
  · exact markLast_wfs ht

theorem addH26x_wfs (env : AuthEnv) {s : Validator} (data : Bytes) (h : WFs s) : (s.addH26x env data).Ends WFs := by
  unfold addH26x
  split
  · exact h
  · split
    · exact h
    · split
      · trivial
      · exact h
      · rename_i n _
        dsimp only
        have := addBody_wfs env (s := { s with flags := { s.flags with hasAuth := false }, rep := { s.rep with acc := { s.rep.acc with received := s.rep.acc.received + 1 } } }) n h
        revert this
        generalize addBody env _ n = r
        intro this
        cases r with
        | ub u => trivial
        | err t e => exact addEnd_wfs _ this
        | ok t _ => exact addEnd_wfs _ this

theorem updateReport_list {r r' : Report} {l l' : NList} (h : updateReport r l = .ok (r', l')) : l' = cleanUp l := by
  unfold updateReport at h
  obtain ⟨c, _, h⟩ := Out.bind_eq_ok h
  cases h; rfl

theorem report_wfs {s : Validator} (h : WFs s) : s.report.Ends WFs := by
  unfold report
  split
  · cases hr : updateReport s.rep s.list with
    | ub u => trivial
    | err e => exact h
    | ok p =>
      obtain ⟨r, l⟩ := p
      have := updateReport_list hr
      subst this
      exact WF.sublist h (List.dropWhile_sublist _)
  · exact h

theorem add_wfs (env : AuthEnv) {s : Validator} (data : Bytes) (h : WFs s) : (s.add env data).Ends WFs := by
  unfold add
  split
  · exact h
  · refine Res.Ends.andThen' (addH26x_wfs env data (by exact h)) fun t _ _ ht => ?_
    split
    · exact ht
    · exact report_wfs ht

/-- Addresses are unique after every call. -/
theorem authStep_wfs {env : AuthEnv} {s s' : Validator} {c : AuthCall} {o : AObs} (h : WFs s)
    (e : authStep env s c = .ok (s', o)) : WFs s' := by
  have hc : (authCall env s c).Ends WFs := by
    unfold authCall
    cases c with
    | nalu d => exact add_wfs env d h
    | reset => exact ⟨List.nodup_nil, fun x hx => by cases hx⟩
    | publicKey k =>
      refine Res.Ends.andThen' (P := WFs) ?_ fun t _ _ ht => ht
      unfold setPublicKey
      split
      · exact h
      · split
        · exact h
        · split
          · exact h
          · dsimp only
            split
            · exact h
            · exact h
  unfold authStep at e
  generalize authCall env s c = r at hc e
  cases r with
  | ub u => cases e
  | err t e' => cases e; exact hc
  | ok t r => cases e; exact hc

theorem authRun_wfs {env : AuthEnv} {codec : Codec} {calls : List AuthCall} {s : Validator} {os : List AObs}
    (e : authRun env (newValidator env codec) calls = .ok (s, os)) : WFs s := by
  suffices h : ∀ (calls : List AuthCall) (s0 s : Validator) (os : List AObs), WFs s0 → authRun env s0 calls = .ok (s, os) → WFs s from
    h calls (newValidator env codec) s os ⟨List.nodup_nil, fun x hx => by cases hx⟩ e
  intro calls
  induction calls with
  | nil => intro s0 s os h e; cases e; exact h
  | cons c cs ih =>
    intro s0 s os h e
    unfold authRun at e
    obtain ⟨p, h1, e⟩ := Out.bind_eq_ok e
    obtain ⟨q, h2, e⟩ := Out.bind_eq_ok e
    cases e
    exact ih p.1 q.1 q.2 (authStep_wfs h h1) h2

end Validator
end SV
