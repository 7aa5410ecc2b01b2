import Verif.Proofs.AuthHang
import Verif.Proofs.AuthCall
/-! Invariants of a validating session over all calls, together with the NAL units that were added. -/
namespace SV

/-- The NAL units added to a session, the latest one first, with the addresses of their list items. -/
abbrev Log := List (Nat × Bytes)

/-- The NAL units added by a call. -/
def logStep (s : Validator) (L : Log) : AuthCall → Log
  | .nalu d =>
    if d = [] ∨ s.legacy = true then L
    else match parseNalu d s.codec true true with
      | .ok _ => (s.brk, d) :: L
      | _ => L
  | _ => L

theorem logStep_nalu (s : Validator) (L : Log) (d : Bytes) : logStep s L (.nalu d) =
    if d = [] ∨ s.legacy = true then L
    else match parseNalu d s.codec true true with
      | .ok _ => (s.brk, d) :: L
      | _ => L := rfl

/-- The NAL units added by a sequence of calls. -/
def authLog (env : AuthEnv) : Validator → Log → List AuthCall → Log
  | _, L, [] => L
  | s, L, c :: cs =>
    match authStep env s c with
    | .ok (s', _) => authLog env s' (logStep s L c) cs
    | _ => L

namespace Validator

/-- The same session except for the flags, the report and members that the list does not depend on. -/
def Misc (s s' : Validator) : Prop :=
  s' = { s with flags := s'.flags, rep := s'.rep, gop := s'.gop, hasReport := s'.hasReport, started := s'.started,
                legacy := s'.legacy }

/-- A golden SEI. -/
def IsGolden (x : Nat × Item) : Prop := ∃ n, x.2.nalu = some n ∧ n.golden = true

/-- The NAL units of a list. -/
def nalus (l : NList) : List (Option Nalu) := l.map fun x => x.2.nalu

/-- A property of the session and the NAL units added that is kept by the parts of `signed_video_add_h26x_nalu`. -/
structure BodyInv (env : AuthEnv) (P : Log → Validator → Prop) : Prop where
  misc : ∀ L s s', Misc s s' → P L s → P L s'
  round : ∀ L s, P L s → (s.round env).Ends (P L)
  recurrent : ∀ L s, P L s → (s.recurrentDecoded env).Ends (P L)
  known : ∀ L (s : Validator), P L s → P L { s with d := { s.d with hashAlgoKnown := true } }
  golden : ∀ L s a n data, P L s → (a, data) ∈ L → parseNalu data s.codec true true = .ok n →
    (s.prepareGolden env a n).Ends (P L)
  hash : ∀ L s x, P L s → (∃ y ∈ s.list, y.1 = x.1 ∧ y.2.nalu = x.2.nalu) → (s.hashItem env x).Ends (P L)
  noKey : ∀ L (s : Validator), P L s → P L { s with d := { s.d with hasPublicKey := false } }
  mark : ∀ L (s : Validator) x st, P L s → s.list.getLast? = some x →
    (st = .ok ∧ s.verified = 1 ∧ IsGolden x ∨ st = .N ∧ IsGolden x ∨ st = .E) →
    P L { s with list := s.list.set x.1 fun i => { i with status := st } }
  append : ∀ L (s : Validator) n data, P L s → parseNalu data s.codec true true = .ok n →
    P ((s.brk, data) :: L) { s with list := s.list.append s.brk (newItem (some n)), brk := s.brk + 1 }
  update : ∀ L (s : Validator) pre a n n' data, P L s → s.list = pre ++ [(a, newItem (some n))] → (a, data) ∈ L →
    parseNalu data s.codec true true = .ok n → 0 < n.valid → updateHashable n = .ok n' →
    P L { s with list := s.list.set a fun i => { i with nalu := some n' } }
  copy : ∀ L (s : Validator) x n c, P L s → x ∈ s.list → x.2.nalu = some n → copyNalu s.d.hashAlgoKnown n = .ok c →
    P L { s with list := s.list.set x.1 fun i => { i with nalu := c, taken := true } }

/-- A property of the session and the NAL units added that is kept by the parts of all calls. -/
structure CallInv (env : AuthEnv) (P : Log → Validator → Prop) : Prop extends BodyInv env P where
  clean : ∀ L (s : Validator), P L s → P L { s with list := cleanUp s.list }
  reset : ∀ L (s : Validator), P L s → P L s.reset
  key : ∀ L (s : Validator) k, P L s → k ≠ [] → (s.setPublicKey env k).Ends (P L)

/-- A property of the session and the NAL units added that is kept by the larger parts of `signed_video_add_h26x_nalu`. -/
structure BodyStep (env : AuthEnv) (P : Log → Validator → Prop) : Prop where
  misc : ∀ L s s', Misc s s' → P L s → P L s'
  round : ∀ L s, P L s → (s.round env).Ends (P L)
  recurrent : ∀ L s, P L s → (s.recurrentDecoded env).Ends (P L)
  noKey : ∀ L (s : Validator), P L s → P L { s with d := { s.d with hasPublicKey := false } }
  mark : ∀ L (s : Validator) x st, P L s → s.list.getLast? = some x →
    (st = .ok ∧ s.verified = 1 ∧ IsGolden x ∨ st = .N ∧ IsGolden x ∨ st = .E) →
    P L { s with list := s.list.set x.1 fun i => { i with status := st } }
  bad : ∀ L (s : Validator) n data, P L s → parseNalu data s.codec true true = .ok n → n.valid < 0 →
    P ((s.brk, data) :: L) { s with list := s.list.append s.brk (newItem (some n)), brk := s.brk + 1 }
  enter : ∀ L (s : Validator) n data fl, P L s → parseNalu data s.codec true true = .ok n →
    (Validator.register env { s with list := s.list.append s.brk (newItem (some n)), brk := s.brk + 1, flags := fl } s.brk n).Ends
      (P ((s.brk, data) :: L))
  algo : ∀ L (s : Validator) a n data, P L s → (a, data) ∈ L → parseNalu data s.codec true true = .ok n →
    (s.hashAlgoBlock env a n).Ends (P L)
  copy : ∀ L (s : Validator) x n c, P L s → x ∈ s.list → x.2.nalu = some n → copyNalu s.d.hashAlgoKnown n = .ok c →
    P L { s with list := s.list.set x.1 fun i => { i with nalu := c, taken := true } }

/-- A property of the session and the NAL units added that is kept by the larger parts of all calls. -/
structure CallStep (env : AuthEnv) (P : Log → Validator → Prop) : Prop extends BodyStep env P where
  clean : ∀ L (s : Validator), P L s → P L { s with list := cleanUp s.list }
  reset : ∀ L (s : Validator), P L s → P L s.reset
  key : ∀ L (s : Validator) k, P L s → k ≠ [] → (s.setPublicKey env k).Ends (P L)

theorem register_codec (env : AuthEnv) (s : Validator) (a : Nat) (n : Nalu) :
    (s.register env a n).Ends fun t => t.codec = s.codec := by
  unfold Validator.register
  split
  · trivial
  · split
    · rfl
    · split
      · trivial
      · rfl
      · dsimp only
        split
        · trivial
        · exact (hashItem_hashed env _ _).mono fun t ht => by rw [ht.eq]

theorem nalus_core {l l' : NList} (h : core l' = core l) : nalus l' = nalus l := by
  have key : ∀ l, nalus l = (core l).map fun p => p.2.1 := fun l => by unfold nalus core; rw [List.map_map]; rfl
  rw [key, key, h]

theorem Prep.nalus {s t : Validator} (h : Prep s t) : nalus t.list = nalus s.list := by
  have hl : t.list.length = s.list.length := by
    have := congrArg List.length h.addr
    simpa using this
  have := congrArg (List.map fun p : Option Nalu × Status => p.1) (h.list.same_of_length hl)
  rw [List.map_map, List.map_map] at this
  exact this

theorem nalus_set {l : NList} {a : Nat} {f : Item → Item} (h : ∀ i, (f i).nalu = i.nalu) : nalus (l.set a f) = nalus l := by
  unfold nalus NList.set
  rw [List.map_map]
  refine List.map_congr_left fun x _ => ?_
  show (if x.1 = a then (x.1, f x.2) else x).2.nalu = _
  split
  · exact h x.2
  · rfl

theorem prepareGolden_nalus (env : AuthEnv) (s : Validator) (a : Nat) (n : Nalu) :
    (s.prepareGolden env a n).Ends fun t => nalus t.list = nalus s.list := by
  unfold prepareGolden
  refine Res.Ends.andThen' (P := fun t => nalus t.list = nalus s.list) ((decodeSei_prep env s _ _).mono fun t ht => ht.nalus) fun t _ _ ht => ?_
  dsimp only
  have ht' : nalus (t.list.set a fun i => { i with decoded := true }) = nalus s.list := 
    (nalus_set (f := fun i => { i with decoded := true }) fun _ => rfl).trans ht
  split
  · trivial
  · rename_i x _
    refine Res.Ends.andThen' (P := fun t => nalus t.list = nalus s.list) ((hashItem_hashed env { t with list := t.list.set a fun i => { i with decoded := true } } x).mono fun u hu => (nalus_core hu.core).trans ht') fun u _ _ hu => ?_
    split
    · trivial
    · split
      · trivial
      · exact (prepare_prep env _).mono fun v hv => hv.nalus.trans hu

theorem reregister_nalus (env : AuthEnv) (l : NList) (s : Validator) (st : Option Rc) :
    (Validator.reregister env l s st).Ends fun t => nalus t.list = nalus s.list := by
  induction l generalizing s st with
  | nil => cases st <;> (unfold Validator.reregister; rfl)
  | cons x r ih =>
    unfold Validator.reregister
    split
    · trivial
    · split
      · exact ih s st
      · refine Res.Ends.andThen' (P := fun t => nalus t.list = nalus s.list) ((hashItem_hashed env s x).mono fun t ht => nalus_core ht.core) fun t _ _ ht => ?_
        exact (ih t none).mono fun u hu => hu.trans ht

theorem hashAlgoBlock_nalus (env : AuthEnv) (s : Validator) (a : Nat) (n : Nalu) :
    (s.hashAlgoBlock env a n).Ends fun t => nalus t.list = nalus s.list := by
  unfold Validator.hashAlgoBlock
  split
  · rfl
  · refine Res.Ends.andThen' (P := fun t => nalus t.list = nalus s.list) ((recurrentDecoded_decoded env s).mono fun t ht => by rw [ht.list]) fun t ok _ ht => ?_
    split
    · exact ht
    · dsimp only
      refine Res.Ends.andThen' (P := fun t : Validator => nalus t.list = nalus s.list) ?_ fun u _ _ hu => ?_
      · split
        · refine (prepareGolden_nalus env _ a n).mono fun u hu => ?_
          exact hu.trans ht
        · exact ht
      · split
        · exact hu
        · exact (reregister_nalus env _ u _).mono fun v hv => hv.trans hu

theorem updateHashable_golden {n n' : Nalu} (hu : updateHashable n = .ok n') : n'.golden = n.golden := by
  unfold updateHashable at hu
  split at hu
  · cases hu; rfl
  · obtain ⟨o, -, hu⟩ := Out.bind_eq_ok hu
    split at hu <;> (cases hu; rfl)

/-- The last item after the registration of a NAL unit. -/
theorem register_last (env : AuthEnv) (s : Validator) (pre : NList) (a : Nat) (n : Nalu)
    (hl : s.list = pre ++ [(a, newItem (some n))]) :
    (s.register env a n).Ends fun t => ∃ n', (nalus t.list).getLast? = some (some n') ∧ n'.golden = n.golden := by
  have h0 : ∃ n', (nalus s.list).getLast? = some (some n') ∧ n'.golden = n.golden := by
    refine ⟨n, ?_, rfl⟩
    unfold nalus
    rw [hl, List.map_append, List.map_singleton, List.getLast?_append, List.getLast?_singleton]
    rfl
  unfold Validator.register
  split
  · trivial
  · split
    · exact h0
    · split
      · trivial
      · exact h0
      · rename_i n' hu
        have h1 : (nalus (s.list.set a fun i => { i with nalu := some n' })).getLast? = some (some n') := by
          unfold nalus NList.set
          rw [hl, List.map_append, List.map_singleton, if_pos rfl, List.map_append, List.map_singleton, List.getLast?_append, List.getLast?_singleton]
          rfl
        dsimp only
        split
        · trivial
        · exact (hashItem_hashed env _ _).mono fun t ht => ⟨n', by rw [nalus_core ht.core]; exact h1, updateHashable_golden hu⟩

/-- The last item is golden if its NAL unit is. -/
theorem isGolden_last {l : NList} {x : Nat × Item} {n : Nalu} (h : ∃ n', (nalus l).getLast? = some (some n') ∧ n'.golden = n.golden)
    (hx : l.getLast? = some x) (hg : n.golden = true) : IsGolden x := by
  obtain ⟨n', h1, h2⟩ := h
  refine ⟨n', ?_, h2.trans hg⟩
  unfold nalus at h1
  rw [List.getLast?_map, hx] at h1
  simpa using h1

namespace BodyInv
variable {env : AuthEnv} {P : Log → Validator → Prop} (hP : BodyInv env P)
include hP

theorem free {L : Log} {s s' : Validator} (h : P L s) (hm : Misc s s') : P L s' := hP.misc L s s' hm h

theorem reregister (l : NList) {L : Log} {s : Validator} (st : Option Rc) (h : P L s)
    (hl : ∀ x ∈ l, ∃ y ∈ s.list, y.1 = x.1 ∧ y.2.nalu = x.2.nalu) : (Validator.reregister env l s st).Ends (P L) := by
  induction l generalizing s st with
  | nil =>
    cases st with
    | none => unfold Validator.reregister; exact h
    | some e => unfold Validator.reregister; exact h
  | cons x r ih =>
    unfold Validator.reregister
    split
    · trivial
    · split
      · exact ih st h fun y hy => hl y (List.mem_cons_of_mem _ hy)
      · refine Res.Ends.andThen' (hP.hash L s x h (hl x List.mem_cons_self)) fun t _ e ht => ih none ht fun y hy => ?_
        have hc := ((hashItem_hashed env s x).of_ok e).core
        obtain ⟨z, hz, e1, e2⟩ := hl y (List.mem_cons_of_mem _ hy)
        have hm : (z.1, z.2.nalu, z.2.status) ∈ core t.list := by
          rw [hc]; exact List.mem_map_of_mem (f := fun x : Nat × Item => (x.1, x.2.nalu, x.2.status)) hz
        obtain ⟨w, hw, e3⟩ := List.mem_map.1 hm
        injection e3 with e3 e4
        injection e4 with e4 _
        exact ⟨w, hw, e3.trans e1, e4.trans e2⟩

theorem hashAlgoBlock {L : Log} {s : Validator} {a : Nat} {n : Nalu} {data : Bytes} (h : P L s) (hm : (a, data) ∈ L)
    (hn : parseNalu data s.codec true true = .ok n) : (s.hashAlgoBlock env a n).Ends (P L) := by
  unfold Validator.hashAlgoBlock
  split
  · exact h
  · refine Res.Ends.andThen' (hP.recurrent L s h) fun t ok e ht => ?_
    have hc : t.codec = s.codec := ((recurrentDecoded_decoded env s).of_ok e).codec
    split
    · exact ht
    · dsimp only
      have h1 := hP.known L t ht
      refine Res.Ends.andThen' (P := P L) ?_ fun u _ _ hu => ?_
      · split
        · exact hP.golden L _ a n data h1 hm (by rw [← hn]; exact congrArg (parseNalu data · true true) hc)
        · exact h1
      · split
        · exact hP.free hu rfl
        · exact hP.reregister _ _ hu fun x hx => ⟨x, hx, rfl, rfl⟩

theorem register {L : Log} {s : Validator} {pre : NList} {a : Nat} {n : Nalu} {data : Bytes} (h : P L s)
    (hl : s.list = pre ++ [(a, newItem (some n))]) (hm : (a, data) ∈ L)
    (hn : parseNalu data s.codec true true = .ok n) : (s.register env a n).Ends (P L) := by
  unfold Validator.register
  split
  · trivial
  · split
    · exact h
    · split
      · trivial
      · exact h
      · rename_i h1 h2 n' hu
        dsimp only
        have h3 := hP.update L s pre a n n' data h hl hm hn (by omega) hu
        split
        · trivial
        · rename_i x hx
          exact hP.hash L _ x h3 ⟨x, List.mem_of_find?_eq_some hx, rfl, rfl⟩

theorem toStep : BodyStep env P where
  misc := hP.misc
  round := hP.round
  recurrent := hP.recurrent
  noKey := hP.noKey
  mark := hP.mark
  bad L s n data h hn _ := hP.append L s n data h hn
  enter L s n data fl h hn :=
    hP.register (pre := s.list) (hP.free (s' := { s with list := s.list.append s.brk (newItem (some n)), brk := s.brk + 1, flags := fl })
      (hP.append L s n data h hn) rfl) rfl List.mem_cons_self hn
  algo L s a n data h hm hn := hP.hashAlgoBlock h hm hn
  copy := hP.copy

end BodyInv

namespace BodyStep
variable {env : AuthEnv} {P : Log → Validator → Prop} (hP : BodyStep env P)
include hP

theorem free {L : Log} {s s' : Validator} (h : P L s) (hm : Misc s s') : P L s' := hP.misc L s s' hm h

theorem pending {L : Log} {s : Validator} (h : P L s) : P L s.hasPending.1 := hP.free h rfl

theorem rounds (k : Nat) {L : Log} {s : Validator} (h : P L s) : (s.rounds env k).Ends (P L) := by
  induction k generalizing s with
  | zero => trivial
  | succ k ih =>
    unfold Validator.rounds
    split
    · refine Res.Ends.andThen' (hP.round L _ (hP.pending h)) fun t _ _ ht => ?_
      split
      · exact ih ht
      · exact hP.pending ht
    · exact hP.pending h

theorem firstSei {L : Log} {s : Validator} (n : Nalu) {x : Nat × Item} (h : P L s) (hx : s.list.getLast? = some x)
    (hg : n.golden = true → IsGolden x) : P L (s.firstSei n x.1) := by
  unfold Validator.firstSei
  dsimp only
  split
  · rename_i hn
    split
    · rename_i hv
      exact hP.free (hP.mark L s x .ok h hx (.inl ⟨rfl, hv, hg hn⟩)) rfl
    · have h1 := hP.mark L s x (if s.verified = 0 then .N else .E) h hx (by
        split
        · exact .inr (.inl ⟨rfl, hg hn⟩)
        · exact .inr (.inr rfl))
      exact hP.free (hP.noKey L _ h1) rfl
  · exact hP.free h rfl

theorem maybeValidate {L : Log} {s : Validator} (n : Nalu) (h : P L s)
    (hg : ∃ n', (nalus s.list).getLast? = some (some n') ∧ n'.golden = n.golden) : (s.maybeValidate env n).Ends (P L) := by
  unfold Validator.maybeValidate
  split
  · exact h
  · split
    · trivial
    · rename_i x hx
      refine Res.Ends.andThen' (hP.recurrent L s h) fun t ok e ht => ?_
      have hl : t.list = s.list := ((recurrentDecoded_decoded env s).of_ok e).list
      split
      · show P L (if _ then _ else _)
        split
        · exact hP.firstSei n ht (by rw [hl]; exact hx) (isGolden_last hg hx)
        · exact ht
      · exact hP.rounds _ ht

theorem addBody {L : Log} {s : Validator} {n : Nalu} {data : Bytes} (h : P L s)
    (hn : parseNalu data s.codec true true = .ok n) : (s.addBody env n).Ends (P ((s.brk, data) :: L)) := by
  unfold Validator.addBody
  dsimp only
  split
  · rename_i hv
    exact hP.bad L s n data h hn hv
  · refine Res.Ends.andThen' (hP.enter L s n data { s.flags with firstSei := !s.flags.signing && n.gopSei, signing := s.flags.signing || n.gopSei } h hn) fun t _ e ht => ?_
    have hc := (register_codec env _ s.brk n).of_ok e
    have hg := (register_last env _ s.list s.brk n rfl).of_ok e
    refine Res.Ends.andThen' (hP.algo _ _ _ _ _ ht List.mem_cons_self (by rw [hc]; exact hn)) fun u _ e' hu => ?_
    refine hP.maybeValidate n hu ?_
    rw [(hashAlgoBlock_nalus env t s.brk n).of_ok e']
    exact hg

theorem copyLast {L : Log} {s : Validator} (h : P L s) : s.copyLast.Ends (P L) := by
  unfold Validator.copyLast
  split
  · trivial
  · rename_i x hx
    split
    · trivial
    · rename_i n hn
      split
      · trivial
      · exact h
      · rename_i c hc
        exact hP.copy L s x n c h (List.mem_reverse.1 (List.mem_of_find?_eq_some hx)) hn hc

theorem markLast {L : Log} {s : Validator} (h : P L s) : P L s.markLast := by
  unfold Validator.markLast
  split
  · exact h
  · rename_i x hx
    exact hP.mark L s x .E h hx (.inr (.inr rfl))

theorem addEnd {L : Log} {s : Validator} (e : Option Rc) (h : P L s) : (s.addEnd e).Ends (P L) := by
  unfold Validator.addEnd
  refine Res.Ends.andThen' (hP.copyLast h) fun t _ _ ht => ?_
  split
  · exact ht
  · exact hP.markLast ht

theorem addH26x {L : Log} {s : Validator} {data : Bytes} (h : P L s) :
    (s.addH26x env data).Ends (P (logStep s L (.nalu data))) := by
  rw [logStep_nalu]
  unfold Validator.addH26x
  by_cases hd : data = []
  · rw [if_pos hd, if_pos (.inl hd)]; exact h
  · rw [if_neg hd]
    by_cases hl : s.legacy = true
    · rw [if_pos hl, if_pos (.inr hl)]; exact h
    · rw [if_neg hl, if_neg (by rintro (e | e); exact hd e; exact hl e)]
      cases hn : parseNalu data s.codec true true with
      | ub u => trivial
      | err e => exact h
      | ok n =>
        dsimp only
        have h1 : P L { s with flags := { s.flags with hasAuth := false }, rep := { s.rep with acc := { s.rep.acc with received := s.rep.acc.received + 1 } } } := hP.free h rfl
        have := hP.addBody h1 hn
        revert this
        generalize Validator.addBody env _ n = r
        intro this
        cases r with
        | ub u => trivial
        | err t e => exact hP.addEnd _ this
        | ok t _ => exact hP.addEnd _ this

end BodyStep

theorem BodyInv.addH26x {env : AuthEnv} {P : Log → Validator → Prop} (hP : BodyInv env P) {L : Log} {s : Validator} {data : Bytes} (h : P L s) :
    (s.addH26x env data).Ends (P (logStep s L (.nalu data))) := hP.toStep.addH26x h

namespace CallStep
variable {env : AuthEnv} {P : Log → Validator → Prop} (hP : CallStep env P)
include hP

theorem report {L : Log} {s : Validator} (h : P L s) : s.report.Ends (P L) := by
  unfold Validator.report
  split
  · cases hr : updateReport s.rep s.list with
    | ub u => trivial
    | err e => exact h
    | ok p =>
      obtain ⟨r, l⟩ := p
      have := updateReport_list hr
      subst this
      exact hP.free (hP.clean L s h) rfl
  · exact h

theorem call {L : Log} {s : Validator} (c : AuthCall) (h : P L s) : (authCall env s c).Ends (P (logStep s L c)) := by
  unfold authCall
  cases c with
  | nalu d =>
    unfold Validator.add
    dsimp only
    split
    · rename_i hd
      rw [logStep_nalu, if_pos (.inl hd)]; exact h
    · have h1 := hP.free (s' := { s with started := true, hasReport := true }) h rfl
      have h2 := hP.addH26x (data := d) h1
      have e : logStep { s with started := true, hasReport := true } L (.nalu d) = logStep s L (.nalu d) := rfl
      rw [e] at h2
      refine Res.Ends.andThen' h2 fun t _ _ ht => ?_
      split
      · exact ht
      · exact hP.report ht
  | reset => exact hP.reset L s h
  | publicKey k =>
    by_cases hk : k = []
    · dsimp only
      unfold setPublicKey
      rw [if_pos hk]; exact h
    · exact Res.Ends.andThen' (hP.key L s k h hk) fun t _ _ ht => ht

theorem step {L : Log} {s s' : Validator} {c : AuthCall} {o : AObs} (h : P L s)
    (e : authStep env s c = .ok (s', o)) : P (logStep s L c) s' := by
  have hc := hP.call c h
  unfold authStep at e
  generalize authCall env s c = r at hc e
  cases r with
  | ub u => cases e
  | err t e' => cases e; exact hc
  | ok t r => cases e; exact hc

/-- The property holds after any sequence of calls. -/
theorem run {L : Log} {s s' : Validator} {cs : List AuthCall} {os : List AObs} (h : P L s)
    (e : authRun env s cs = .ok (s', os)) : P (authLog env s L cs) s' := by
  induction cs generalizing L s os with
  | nil => cases e; exact h
  | cons c cs ih =>
    unfold authRun at e
    obtain ⟨p, h1, e⟩ := Out.bind_eq_ok e
    obtain ⟨q, h2, e⟩ := Out.bind_eq_ok e
    cases e
    unfold authLog
    rw [h1]
    exact ih (hP.step h h1) h2

/-- The property holds where the validation loop starts. -/
theorem atLoop {L : Log} {s v : Validator} {data : Bytes} (h : P L s) (e : Validator.atLoop env s data = some v) :
    P (logStep s L (.nalu data)) v := by
  unfold Validator.atLoop at e
  rw [logStep_nalu]
  by_cases hc : data = [] ∨ s.legacy = true
  · rw [if_pos hc] at e; cases e
  · rw [if_neg hc] at e ⊢
    cases hn : parseNalu data s.codec true true with
    | ub u => rw [hn] at e; cases e
    | err e' => rw [hn] at e; cases e
    | ok n =>
      rw [hn] at e
      dsimp only at e ⊢
      split at e
      · cases e
      · have h1 : P L { s with started := true, hasReport := true, rep := { s.rep with acc := { s.rep.acc with received := s.rep.acc.received + 1 } } } := hP.free h rfl
        have h3 := hP.enter L { s with started := true, hasReport := true, rep := { s.rep with acc := { s.rep.acc with received := s.rep.acc.received + 1 } } } n data
          { s.flags with hasAuth := false, firstSei := !s.flags.signing && n.gopSei, signing := s.flags.signing || n.gopSei } h1 hn
        have hcod := register_codec env { s with
          list := s.list.append s.brk (newItem (some n)), brk := s.brk + 1, started := true, hasReport := true, rep := { s.rep with acc := { s.rep.acc with received := s.rep.acc.received + 1 } }
          flags := { s.flags with hasAuth := false, firstSei := !s.flags.signing && n.gopSei, signing := s.flags.signing || n.gopSei } } s.brk n
        generalize Validator.register env _ s.brk n = r at h3 hcod e
        cases r with
        | ub u => cases e
        | err t e' => cases e
        | ok t _ =>
          have h4 := hP.algo _ _ _ _ _ h3 List.mem_cons_self (by rw [show t.codec = s.codec from hcod]; exact hn)
          rw [Res.andThen_ok] at e
          generalize Validator.hashAlgoBlock env t s.brk n = r at h4 e
          cases r with
          | ub u => cases e
          | err t e' => cases e
          | ok t _ =>
            dsimp only at e
            split at e
            · cases e
            · split at e
              · cases e
              · have h5 := hP.recurrent _ t h4
                generalize t.recurrentDecoded env = r at h5 e
                cases r with
                | ub u => cases e
                | err t e' => cases e
                | ok t ok =>
                  dsimp only at e
                  split at e
                  · cases e; exact h5
                  · cases e

end CallStep

namespace CallInv
variable {env : AuthEnv} {P : Log → Validator → Prop} (hP : CallInv env P)
include hP

theorem toCallStep : CallStep env P where
  toBodyStep := hP.toBodyInv.toStep
  clean := hP.clean
  reset := hP.reset
  key := hP.key

theorem report {L : Log} {s : Validator} (h : P L s) : s.report.Ends (P L) := hP.toCallStep.report h

theorem call {L : Log} {s : Validator} (c : AuthCall) (h : P L s) : (authCall env s c).Ends (P (logStep s L c)) := hP.toCallStep.call c h

theorem step {L : Log} {s s' : Validator} {c : AuthCall} {o : AObs} (h : P L s)
    (e : authStep env s c = .ok (s', o)) : P (logStep s L c) s' := hP.toCallStep.step h e

/-- The property holds after any sequence of calls. -/
theorem run {L : Log} {s s' : Validator} {cs : List AuthCall} {os : List AObs} (h : P L s)
    (e : authRun env s cs = .ok (s', os)) : P (authLog env s L cs) s' := hP.toCallStep.run h e

/-- The property holds where the validation loop starts. -/
theorem atLoop {L : Log} {s v : Validator} {data : Bytes} (h : P L s) (e : Validator.atLoop env s data = some v) :
    P (logStep s L (.nalu data)) v := hP.toCallStep.atLoop h e

end CallInv
end Validator
end SV
