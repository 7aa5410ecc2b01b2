import Verif.Proofs.AuthCert
/-! Items marked as used are pending, and a SEI follows them. -/
namespace SV
open Spec

/-- Marked items are pending and not the last ones. -/
def UsedOk : NList → Prop
  | [] => True
  | x :: r => (x.2.used = true → x.2.status = .P ∧ r ≠ []) ∧ UsedOk r

theorem usedOk_of_none {l : NList} (h : ∀ x ∈ l, x.2.used = false) : UsedOk l := by
  induction l with
  | nil => trivial
  | cons x r ih =>
    refine ⟨fun hu => ?_, ih fun y hy => h y (List.mem_cons_of_mem _ hy)⟩
    rw [h x List.mem_cons_self] at hu; cases hu

theorem UsedOk.mem {l : NList} (h : UsedOk l) {x : Nat × Item} (hx : x ∈ l) (hu : x.2.used = true) : x.2.status = .P := by
  induction l with
  | nil => cases hx
  | cons y r ih =>
    rcases List.mem_cons.1 hx with rfl | hx
    · exact (h.1 hu).1
    · exact ih h.2 hx

theorem UsedOk.last {l : NList} (h : UsedOk l) {x : Nat × Item} (hx : l.getLast? = some x) : x.2.used = false := by
  induction l with
  | nil => cases hx
  | cons y r ih =>
    cases r with
    | nil =>
      have e : y = x := Option.some.inj hx
      subst e
      cases hu : y.2.used with
      | false => rfl
      | true => exact absurd rfl (h.1 hu).2
    | cons z r =>
      rw [List.getLast?_cons_cons] at hx
      exact ih h.2 hx

theorem UsedOk.map {l : NList} {f : Nat × Item → Nat × Item} (h : UsedOk l)
    (hf : ∀ x ∈ l, (f x).2.used = true → x.2.used = true ∧ (f x).2.status = x.2.status) : UsedOk (l.map f) := by
  induction l with
  | nil => trivial
  | cons x r ih =>
    refine ⟨fun hu => ?_, ih h.2 fun y hy => hf y (List.mem_cons_of_mem _ hy)⟩
    obtain ⟨h1, h2⟩ := hf x List.mem_cons_self hu
    rw [h2]
    refine ⟨(h.1 h1).1, fun hc => (h.1 h1).2 (List.map_eq_nil_iff.1 hc)⟩

theorem UsedOk.set {l : NList} {a : Nat} {f : Item → Item} (h : UsedOk l)
    (hf : ∀ x ∈ l, x.1 = a → (f x.2).used = true → x.2.used = true ∧ (f x.2).status = x.2.status) : UsedOk (l.set a f) := by
  unfold NList.set
  refine h.map fun x hx => ?_
  by_cases e : x.1 = a
  · rw [if_pos e]; exact hf x hx e
  · rw [if_neg e]; exact fun h => ⟨h, rfl⟩

theorem UsedOk.append {l : NList} {x : Nat × Item} (h : UsedOk l) (hx : x.2.used = false) : UsedOk (l ++ [x]) := by
  induction l with
  | nil => exact ⟨fun hu => (by rw [hx] at hu; cases hu), trivial⟩
  | cons y r ih => exact ⟨fun hu => ⟨(h.1 hu).1, by simp⟩, ih h.2⟩

theorem UsedOk.suffix {d l : NList} (h : UsedOk (d ++ l)) : UsedOk l := by
  induction d with
  | nil => exact h
  | cons y r ih => exact ih h.2

theorem markFrom_ne_nil {b : Bool} {l : NList} (h : l ≠ []) : markFrom b l ≠ [] := by
  cases l with
  | nil => exact absurd rfl h
  | cons x r =>
    unfold markFrom
    split
    · simp
    · split <;> simp

theorem UsedOk.mark {b : Bool} {l : NList} (h : UsedOk l) {y : Nat × Item} (hy : nextSei l = some y) : UsedOk (markFrom b l) := by
  induction l generalizing b with
  | nil => trivial
  | cons x r ih =>
    rw [Validator.nextSei_cons] at hy
    unfold markFrom
    split
    · rename_i hp
      rw [if_neg (by simp [hp])] at hy
      refine ⟨fun hu => ⟨(h.1 hu).1, markFrom_ne_nil (h.1 hu).2⟩, ih h.2 hy⟩
    · rename_i hp
      split
      · exact h
      · rename_i hs
        rw [if_neg (by
          intro hc
          rw [Bool.and_eq_true] at hc
          exact hs (by rw [hc.1]; rfl))] at hy
        refine ⟨fun _ => ⟨by simpa using hp, markFrom_ne_nil ?_⟩, ih h.2 hy⟩
        intro hc
        rw [hc] at hy
        cases hy

namespace Validator

/-- Marked items are pending and not the last ones. -/
def Used (s : Validator) : Prop := UsedOk s.list

theorem Used.of_list {s t : Validator} (h : Used s) (e : t.list = s.list) : Used t := by unfold Used; rw [e]; exact h

theorem Used.set {s : Validator} {a : Nat} {f : Item → Item} (h : Used s)
    (hf : ∀ x ∈ s.list, x.1 = a → (f x.2).used = true → x.2.used = true ∧ (f x.2).status = x.2.status) :
    Used { s with list := s.list.set a f } := UsedOk.set (l := s.list) h hf

theorem Used.setDecoded {s : Validator} (h : Used s) (a : Nat) :
    Used { s with list := s.list.set a fun i => { i with decoded := true } } :=
  h.set fun _ _ _ hu => ⟨hu, rfl⟩

theorem Used.clear (l : NList) : UsedOk (clearUsed l) := usedOk_of_none fun y hy => by
  obtain ⟨x, _, rfl⟩ := List.mem_map.1 hy
  rfl

theorem decodeNext_used {env : AuthEnv} {s : Validator} {x : Nat × Item} (h : Used s) : (s.decodeNext env x).Ends Used := by
  unfold decodeNext
  split
  · exact h
  · dsimp only
    split
    · trivial
    · refine Res.Ends.andThen' ((decodeSei_list env _ _ _).mono fun t ht => h.of_list ht) fun t _ _ ht => ?_
      split
      · trivial
      · exact (ht.setDecoded x.1).of_list rfl

theorem prepareGopHash_used {env : AuthEnv} {s : Validator} {x z : Nat × Item} (h : Used s)
    (h1 : ∀ y ∈ s.list, y.2.status = .P → y.1 = x.1 → y.2.isSei = true)
    (hz : nextSei s.list = some z) (h2 : z.1 = x.1) : (s.prepareGopHash env x.1).Ends Used := by
  unfold prepareGopHash
  dsimp only
  split
  · exact Used.clear _
  · cases hg : gopLoop s.d.hashSize x.1 s.list 0 0 [] with
    | ub u => trivial
    | err e => exact Used.clear _
    | ok p =>
      obtain ⟨l, acc⟩ := p
      obtain ⟨e, -, -⟩ := gopLoop_spec h1 (fun y hy => by rw [hz] at hy; cases hy; exact h2) (Nat.zero_le _) (Nat.le_refl _) hg
      dsimp only
      subst e
      exact UsedOk.mark h hz

theorem prepare_used {env : AuthEnv} {s : Validator} (w : WFs s) (h : Used s) : (s.prepare env).Ends Used := by
  unfold prepare
  dsimp only
  refine Res.Ends.andThen' (P := Used) ?_ fun t _ _ ht => ?_
  · cases hx : nextSei s.list with
    | none => exact h
    | some x =>
      dsimp only
      refine Res.Ends.andThen' (decodeNext_used h) fun t _ e ht => ?_
      have hp := (decodeNext_prep env s x).of_ok e
      have hn := Validator.Grow.nextSei hp.list
      rw [hx] at hn
      refine Res.Ends.andThen' (P := Used) (detectLost_list.mono fun u hu => ht.of_list hu) fun u _ e' hu => ?_
      have hl := detectLost_list.of_ok e'
      cases hz : nextSei u.list with
      | none => rw [hl] at hz; rw [hz] at hn; cases hn
      | some z =>
        refine prepareGopHash_used hu ?_ hz ?_
        · rw [hl]
          exact hp.list.sei (nextSei_isSei w hx)
        · rw [hl] at hz
          rw [hz] at hn
          exact Option.some.inj hn
  · split
    · exact ht
    · split
      · exact (verifyHash_list env t).mono fun u hu => ht.of_list hu
      · exact ht

theorem updateLinkLoop_used {u v : Validator} (h : Used u) (hl : updateLinkLoop u u.list = .ok v) : Used v := by
  rcases updateLinkLoop_eq hl with e | ⟨lk, a, e⟩
  · rw [e]; exact h
  · rw [e]
    exact (h.set (a := a) (f := fun i => { i with linked := true }) fun _ _ _ hu => ⟨hu, rfl⟩).of_list rfl

theorem round_used {env : AuthEnv} {s : Validator} (w : WFs s) (h : Used s) : (s.round env).Ends Used := by
  unfold Validator.round
  have hb : Used s.begin := h.of_list (begin_list s)
  have wb : WFs s.begin := by unfold WFs; rw [begin_list, begin_brk]; exact w
  refine Res.Ends.andThen' (prepare_used wb hb) fun u _ _ hu => ?_
  cases hl : updateLinkLoop u u.list with
  | ub e => trivial
  | err e => exact absurd hl (updateLinkLoop_ne_err _ _ _)
  | ok v =>
    dsimp only
    have hv := updateLinkLoop_used hu hl
    unfold conduct
    split
    · unfold validate
      cases hg : v.verifyGop with
      | err t e => exact absurd hg (verifyGop_ne_err _ _ _)
      | ub e => trivial
      | ok t p => exact usedOk_of_none (conclude_used t p)
    · exact hv.of_list rfl

theorem Used.hashed {s t : Validator} (h : Used s) (hh : Hashed s t) : Used t := by
  obtain ⟨f, ⟨a, e⟩, hf⟩ := hh.items
  unfold Used
  rw [e]
  refine UsedOk.set h fun x _ _ => ?_
  obtain ⟨h1, h2, e⟩ := hf x.2
  rw [e]
  exact fun h => ⟨h, rfl⟩

theorem used_under (env : AuthEnv) (P : Log → Validator → Prop) (hP : ∀ L s, P L s → WFs s) :
    CallInvUnder env P fun _ => Used where
  misc _ s s' hm _ h := h.of_list (by rw [hm])
  round L s hp h := round_used (hP L s hp) h
  recurrent _ s _ h := (recurrentDecoded_decoded env s).mono fun t ht => h.of_list ht.list
  known _ _ _ h := h
  golden L s a n data hp h _ _ := by
    unfold prepareGolden
    have w := hP L s hp
    refine Res.Ends.andThen' (P := fun t => WFs t ∧ Used t) ?_ ?_ |>.mono fun _ h => h.2
    · refine Res.Ends.and ((decodeSei_prep env s _ _).mono fun t ht => (ht.ev noStatus).wf w) ?_
      exact (decodeSei_list env s _ _).mono fun t ht => h.of_list ht
    · intro t _ _ ht
      dsimp only
      have ht' := ht.2.setDecoded a
      have wt' : WFs { t with list := t.list.set a fun i => { i with decoded := true } } :=
        WF.of_addr ht.1 (set_addr t.list a fun i => { i with decoded := true })
      split
      · trivial
      · rename_i x _
        refine Res.Ends.andThen' (P := fun t => WFs t ∧ Used t) ((hashItem_hashed env _ x).mono fun u hu => ⟨?_, ht'.hashed hu⟩) fun u _ _ hu => ?_
        · have hb : u.brk = t.brk := by rw [hu.eq]
          unfold WFs
          rw [hb]
          exact WF.of_addr wt' hu.addr
        · split
          · trivial
          · split
            · trivial
            · refine Res.Ends.and ?_ (prepare_used hu.1 (hu.2.of_list rfl))
              exact (prepare_prep env _).mono fun v hv => (hv.ev noStatus).wf hu.1
  hash _ s x _ h _ := (hashItem_hashed env s x).mono fun t ht => h.hashed ht
  noKey _ _ _ h := h
  mark L s x st hp h hx hst := by
    refine h.set fun y hy e hu => ?_
    have hxm : x ∈ s.list := List.mem_of_getLast? hx
    have : y = x := WF.unique (hP L s hp) hy hxm e
    subst this
    have hl := UsedOk.last h hx
    dsimp only at hu
    rw [hl] at hu; cases hu
  append L s n data _ h _ := UsedOk.append h rfl
  update L s pre a n n' data hp h hl _ _ _ hu := h.set fun x hx e hu => ⟨hu, rfl⟩
  copy L s x n c hp h hx hn hc := h.set fun x hx e hu => ⟨hu, rfl⟩
  clean L s _ h := by
    obtain ⟨p, hp⟩ : cleanUp s.list <:+ s.list := List.dropWhile_suffix _
    have h' : UsedOk s.list := h
    rw [← hp] at h'
    exact UsedOk.suffix (d := p) h'
  reset L s _ _ := trivial
  key L s k _ h hk := by
    unfold setPublicKey
    rw [if_neg hk]
    split
    · exact h
    · split
      · exact h
      · dsimp only
        split
        · exact h.of_list rfl
        · exact h.of_list rfl

/-- What is known of every session. -/
structure Good (s : Validator) : Prop where
  wf : WFs s
  kinds : AllKind s.list
  tidy : Tidy s
  used : Used s

theorem good_inv (env : AuthEnv) : CallInv env fun _ => Good := by
  have h1 := (kinds_inv env).and (tidy_under env _ fun _ _ h => h.1)
  have h2 := h1.and (used_under env _ fun _ _ h => h.1.1)
  have e : (fun (_ : Log) s => ((Kinds s ∧ Tidy s) ∧ Used s)) = fun _ => Good := by
    funext _ s
    exact propext ⟨fun h => ⟨h.1.1.1, h.1.1.2, h.1.2, h.2⟩, fun h => ⟨⟨⟨h.1, h.2⟩, h.3⟩, h.4⟩⟩
  rw [← e]
  exact h2

end Validator
end SV
