import Verif.Proofs.AuthTidy
/-! Items that are pending or not valid have a NAL unit that is hashed. -/
namespace SV

/-- What is known of an item from its NAL unit. -/
structure Kind (n : Nalu) (st : Status) : Prop where
  golden : n.golden = true → 0 < n.valid ∧ n.isHashable = true
  pending : st = .P ∨ st = .N → 0 < n.valid ∧ n.isHashable = true

/-- All items of a list are of a possible kind. -/
def AllKind (l : NList) : Prop := ∀ x ∈ l, ∀ n, x.2.nalu = some n → Kind n x.2.status

theorem parseNalu_golden {data : Bytes} {c : Codec} {b d : Bool} {n : Nalu} (h : parseNalu data c b d = .ok n) :
    n.golden = true → 0 < n.valid ∧ n.isHashable = true := by
  unfold parseNalu at h
  split at h
  · cases h; intro hg; cases hg
  · rename_i d0 b0 x0 e0 _
    obtain ⟨⟨t, v, prim⟩, -, h⟩ := Out.bind_eq_ok h
    obtain ⟨size, -, h⟩ := Out.bind_eq_ok h
    dsimp only at h
    split at h
    · unfold parseSei at h
      obtain ⟨⟨ud, m1⟩, -, h⟩ := Out.bind_eq_ok h
      dsimp only at h
      split at h
      · obtain ⟨⟨ps, k⟩, -, h⟩ := Out.bind_eq_ok h
        obtain ⟨⟨u, _⟩, -, h⟩ := Out.bind_eq_ok h
        dsimp only at h
        generalize hm : (({ startCode := _, valid := _, ntype := _, hashable := _, isHashable := _, primary := _, firstInGop := _, gopSei := _, payloadSize := _, epbs := _ : Nalu}) : Nalu) = m at h
        have hmg : m.golden = false := by rw [← hm]
        clear hm
        unfold removeEpb at h
        split at h
        · cases h; rw [hmg]; intro hg; cases hg
        · rename_i hh
          have hh' : 0 < m.valid ∧ m.isHashable = true := by
            simp only [Bool.or_eq_true, Bool.not_eq_true', decide_eq_true_eq] at hh
            refine ⟨?_, ?_⟩
            · exact Int.not_le.1 fun h => hh (.inr h)
            · cases hi : m.isHashable with
              | true => rfl
              | false => exact absurd (.inl (.inl hi)) hh
          split at h
          · cases h
          · dsimp only at h
            split at h
            · cases h; exact fun _ => hh'
            · split at h
              · cases h
              · split at h
                · cases h; exact fun _ => hh'
                · cases h; exact fun _ => hh'
      · cases h; intro hg; cases hg
    · cases h; intro hg; cases hg
  · cases h

theorem updateHashable_frame {n n' : Nalu} (hu : updateHashable n = .ok n') :
    n'.golden = n.golden ∧ n'.valid = n.valid ∧ n'.isHashable = n.isHashable := by
  unfold updateHashable at hu
  split at hu
  · cases hu; exact ⟨rfl, rfl, rfl⟩
  · obtain ⟨o, -, hu⟩ := Out.bind_eq_ok hu
    split at hu <;> (cases hu; exact ⟨rfl, rfl, rfl⟩)

theorem copyNalu_frame {b : Bool} {n n' : Nalu} (hu : Validator.copyNalu b n = .ok (some n')) :
    n'.golden = n.golden ∧ n'.valid = n.valid ∧ n'.isHashable = n.isHashable := by
  unfold Validator.copyNalu at hu
  split at hu
  · cases hu
  · split at hu
    · cases hu
    · split at hu
      · cases hu
      · cases hu; exact ⟨rfl, rfl, rfl⟩

theorem Kind.of_frame {n n' : Nalu} {st : Status} (h : Kind n st) (e : n'.golden = n.golden ∧ n'.valid = n.valid ∧ n'.isHashable = n.isHashable) :
    Kind n' st := by
  refine ⟨?_, ?_⟩
  · rw [e.1, e.2.1, e.2.2]; exact h.golden
  · rw [e.2.1, e.2.2]; exact h.pending

theorem AllKind.grow {S : Option Nalu → Status → Prop} (hS : ∀ n, ¬ S n .P) {l l' : NList} (h : AllKind l) (g : Grow S l l') : AllKind l' := by
  intro y hy n hn
  rcases g.mem hy with m | ⟨x, hx, -, k⟩
  · rw [m.1] at hn; cases hn
  · have := h x hx n (by rw [← k.nalu]; exact hn)
    rcases k.status with e | ⟨e, s⟩
    · rw [e]; exact this
    · exact ⟨this.golden, fun _ => this.pending (.inl e)⟩

theorem AllKind.undo {l l' : NList} (h : AllKind l) (g : Undo l l') : AllKind l' := by
  induction g with
  | nil => exact h
  | same _ ih =>
    intro y hy
    rcases List.mem_cons.1 hy with rfl | hy
    · exact h _ List.mem_cons_self
    · exact ih (fun z hz => h z (List.mem_cons_of_mem _ hz)) y hy
  | @reset x l l' _ ih =>
    intro y hy
    rcases List.mem_cons.1 hy with rfl | hy
    · intro n hn
      dsimp only at hn ⊢
      rw [resetStatus_nalu] at hn
      have := h x List.mem_cons_self n hn
      rcases resetStatus_cases x.2 with h | h | ⟨h', h⟩ <;> rw [h]
      · exact this
      · exact ⟨this.golden, fun h => (by rcases h with h | h <;> cases h)⟩
      · exact ⟨this.golden, fun _ => this.pending (.inr h')⟩
    · exact ih (fun z hz => h z (List.mem_cons_of_mem _ hz)) y hy
  | drop _ _ ih => exact fun y hy => ih (fun z hz => h z (List.mem_cons_of_mem _ hz)) y hy

theorem AllKind.core {l l' : NList} (h : Validator.core l' = Validator.core l) (m : AllKind l) : AllKind l' := fun x hx n hn => by
  have hm : (x.1, x.2.nalu, x.2.status) ∈ Validator.core l := by
    rw [← h]; exact List.mem_map_of_mem (f := fun x : Nat × Item => (x.1, x.2.nalu, x.2.status)) hx
  obtain ⟨w, hw, e3⟩ := List.mem_map.1 hm
  injection e3 with e3 e4
  injection e4 with e4 e5
  rw [← e5]
  exact m w hw n (e4.trans hn)

theorem AllKind.set {l : NList} {a : Nat} {f : Item → Item} (m : AllKind l)
    (h : ∀ x ∈ l, x.1 = a → ∀ n, (f x.2).nalu = some n → Kind n (f x.2).status) : AllKind (l.set a f) := by
  unfold NList.set
  intro y hy
  obtain ⟨x, hx, rfl⟩ := List.mem_map.1 hy
  by_cases e : x.1 = a
  · rw [if_pos e]; exact h x hx e
  · rw [if_neg e]; exact m x hx

namespace Validator

/-- Addresses are unique and all items are of a possible kind. -/
def Kinds (s : Validator) : Prop := WFs s ∧ AllKind s.list

theorem Kinds.of_list {s t : Validator} (h : Kinds s) (hl : t.list = s.list) (hb : t.brk = s.brk) : Kinds t := by
  refine ⟨?_, ?_⟩
  · unfold WFs; rw [hl, hb]; exact h.1
  · rw [hl]; exact h.2

theorem Kinds.of_grow {S : Option Nalu → Status → Prop} (hS : ∀ n, ¬ S n .P) {s t : Validator} (h : Kinds s)
    (hl : Grow S s.list t.list) (w : WFs t) : Kinds t := ⟨w, h.2.grow hS hl⟩

theorem kinds_round : RoundInv Kinds where
  pending _ h := h
  begin s h := h.of_list (begin_list s) (begin_brk s)
  prep env s h := (prepare_prep env s).mono fun t hp => h.of_grow (fun _ h => h) hp.list ((hp.ev noStatus).wf h.1)
  link u v h hl := by
    have hw := wfs_inv.link u v h.1 hl
    obtain ⟨v1, v2, v3⟩ := updateLinkLoop_prep hl
    exact h.of_grow (fun _ h => h) v1 hw
  verify v t p h hv := by
    have := verifyGop_ver h.1 hv
    exact h.of_grow not_valid_P this.ev.grow (this.ev.wf h.1)
  conclude t p h := by
    refine ⟨wfs_conclude t p h.1, ?_⟩
    have g := h.2.grow (fun _ h => h) (clearUsed_grow noStatus t.list)
    unfold Validator.conclude
    dsimp only
    split
    · exact g.undo (removeMissing_undo _)
    · exact g
  notSigned _ h := h
  finish _ h := h

theorem Kinds.hashed {s t : Validator} (h : Kinds s) (hh : Hashed s t) : Kinds t := by
  have hb : t.brk = s.brk := by rw [hh.eq]
  refine ⟨?_, h.2.core hh.core⟩
  unfold WFs; rw [hb]; exact WF.of_addr h.1 hh.addr

theorem Kinds.set {s : Validator} {a : Nat} {f : Item → Item} (h : Kinds s)
    (h1 : ∀ x ∈ s.list, x.1 = a → ∀ n, (f x.2).nalu = some n → Kind n (f x.2).status) :
    Kinds { s with list := s.list.set a f } :=
  ⟨WF.of_addr h.1 (set_addr _ _ _), h.2.set h1⟩

theorem kinds_inv (env : AuthEnv) : CallInv env fun _ => Kinds where
  misc _ s s' hm h := h.of_list (by rw [hm]) (by rw [hm])
  round _ _ h := kinds_round.round env h
  recurrent _ s h := (recurrentDecoded_decoded env s).mono fun t ht => h.of_list ht.list ht.brk
  known _ _ h := h
  golden _ s a n data h _ _ := by
    unfold prepareGolden
    refine Res.Ends.andThen' ((decodeSei_prep env s _ _).mono fun t ht => h.of_grow (fun _ h => h) ht.list ((ht.ev noStatus).wf h.1)) fun t _ _ ht => ?_
    dsimp only
    have ht' := ht.set (a := a) (f := fun i => { i with decoded := true }) fun x hx _ => ht.2 x hx
    split
    · trivial
    · rename_i x _
      refine Res.Ends.andThen' ((hashItem_hashed env _ x).mono fun u hu => ht'.hashed hu) fun u _ _ hu => ?_
      split
      · trivial
      · split
        · trivial
        · exact kinds_round.prep env _ (hu.of_list (t := _) rfl rfl)
  hash _ s x h _ := (hashItem_hashed env s x).mono fun t ht => h.hashed ht
  noKey _ _ h := h
  mark _ s x st h hx hst := by
    refine h.set fun y hy e n hn => ?_
    have hxm : x ∈ s.list := List.mem_of_getLast? hx
    have : y = x := WF.unique h.1 hy hxm e
    subst this
    have hk := h.2 y hy n hn
    refine ⟨hk.golden, ?_⟩
    have hg : IsGolden y → 0 < n.valid ∧ n.isHashable = true := by
      rintro ⟨m, hm, hg⟩
      dsimp only at hn
      rw [hn] at hm
      cases hm
      exact hk.golden hg
    dsimp only
    rcases hst with ⟨e, -, -⟩ | ⟨e, g⟩ | e
    · rw [e]; rintro (h | h) <;> cases h
    · exact fun _ => hg g
    · rw [e]; rintro (h | h) <;> cases h
  append L s n data h hn := by
    refine ⟨WF.append h.1 _, fun x hx => ?_⟩
    rcases List.mem_append.1 hx with hx | hx
    · exact h.2 x hx
    · cases List.mem_singleton.1 hx
      intro m hm
      cases hm
      refine ⟨parseNalu_golden hn, ?_⟩
      show statusOf (some n) = .P ∨ statusOf (some n) = .N → _
      unfold statusOf
      dsimp only
      split
      · rintro (h | h) <;> cases h
      · split
        · rintro (h | h) <;> cases h
        · split
          · exact fun _ => ⟨by omega, by assumption⟩
          · rintro (h | h) <;> cases h
  update L s pre a n n' data h hl _ hn _ hu := by
    refine h.set fun x hx e m hm => ?_
    have he : x = (a, newItem (some n)) := WF.unique h.1 hx (by rw [hl]; exact List.mem_append_right _ List.mem_cons_self) e
    cases hm
    exact (h.2 x hx n (by rw [he]; rfl)).of_frame (updateHashable_frame hu)
  copy L s x n cp h hx hn hc := by
    refine h.set fun y hy e m hm => ?_
    have : y = x := WF.unique h.1 hy hx e
    subst this
    dsimp only at hm
    subst hm
    exact (h.2 y hy n hn).of_frame (copyNalu_frame hc)
  clean L s h := by
    have hs : cleanUp s.list <:+ s.list := List.dropWhile_suffix _
    exact ⟨WF.sublist h.1 hs.sublist, fun x hx => h.2 x (hs.subset hx)⟩
  reset L s h := ⟨⟨List.nodup_nil, fun _ h => by cases h⟩, fun _ h => by cases h⟩
  key L s k h hk := by
    unfold setPublicKey
    rw [if_neg hk]
    split
    · exact h
    · split
      · exact h
      · dsimp only
        split
        · exact h.of_list rfl rfl
        · exact h.of_list rfl rfl

/-- The scan sees the pending SEI that it stops at. -/
theorem scanStep_hasSei {c : Scan} {x : Nat × Item} (hk : ∀ n, x.2.nalu = some n → Kind n x.2.status)
    (hc : c.sei = true → c.hasSei = true) (hl : c.last = some true → c.sei = true) (ha : c.after = true → c.sei = true)
    (hf : c.found = true → c.sei = true) :
    let c' := scanStep true c x.2
    (c'.sei = true → c'.hasSei = true) ∧ (c'.last = some true → c'.sei = true) ∧ (c'.after = true → c'.sei = true) ∧
      (c'.found = true → c'.sei = true) := by
  intro c'
  have key : ∀ d : Scan, (d.sei = true → d.hasSei = true) → (d.last = some true → d.sei = true) → (d.after = true → d.sei = true) →
      (d.found = true → d.sei = true) →
      (d.sei = true → d.hasSei = true) ∧ (d.last = some true → d.sei = true) ∧ (d.after = true → d.sei = true) ∧
      ((d.found || (decide (d.ends > 0) && d.sei) || d.after) = true → d.sei = true) := by
    intro d h1 h2 h3 h4
    refine ⟨h1, h2, h3, fun h => ?_⟩
    simp only [Bool.or_eq_true, Bool.and_eq_true] at h
    rcases h with (h | h) | h
    · exact h4 h
    · exact h.2
    · exact h3 h
  show _ ∧ _ ∧ _ ∧ _
  unfold c' scanStep
  cases hn : x.2.nalu with
  | none => exact key c hc hl ha hf
  | some n =>
    dsimp only
    by_cases hv : n.valid ≤ 0 ∨ n.isHashable = false
    · rw [if_pos hv]
      have hp : ¬ (x.2.status = .P ∧ n.isHashable = true) := by
        rintro ⟨hp, hh⟩
        have := ((hk n hn).pending (.inl hp)).1
        rcases hv with hv | hv
        · omega
        · rw [hh] at hv; cases hv
      rw [if_neg hp]
      exact key c hc hl ha hf
    · rw [if_neg hv]
      by_cases hp : x.2.status = .P ∧ n.isHashable = true
      · rw [if_pos hp]
        refine key _ ?_ ?_ ?_ ?_
        · dsimp only
          rw [Bool.or_eq_true, Bool.or_eq_true]
          exact fun h => h.imp hc id
        · dsimp only
          intro h
          rw [Option.some.inj h, Bool.or_true]
        · dsimp only
          rw [Bool.or_eq_true, Bool.or_eq_true]
          rintro (h | h)
          · exact .inl (ha h)
          · cases hl' : c.last with
            | none => rw [hl'] at h; cases h
            | some b => rw [hl'] at h; cases h; exact .inl (hl hl')
        · dsimp only
          rw [Bool.or_eq_true]
          exact fun h => .inl (hf h)
      · rw [if_neg hp]
        refine key _ ?_ hl ha hf
        dsimp only
        rw [Bool.or_eq_true]
        exact fun h => .inl (hc h)

theorem scan_hasSei {l : NList} {c : Scan} (hk : AllKind l)
    (hc : c.sei = true → c.hasSei = true) (hl : c.last = some true → c.sei = true) (ha : c.after = true → c.sei = true)
    (hf : c.found = true → c.sei = true) (h : (scan true l c).found = true) : (scan true l c).hasSei = true := by
  induction l generalizing c with
  | nil => exact hc (hf h)
  | cons x r ih =>
    unfold scan at h ⊢
    split at h
    · rename_i hf'
      rw [if_pos hf']
      exact hc (hf hf')
    · rename_i hf'
      rw [if_neg hf']
      obtain ⟨h1, h2, h3, h4⟩ := scanStep_hasSei (hk x List.mem_cons_self) hc hl ha hf
      exact ih (fun y hy => hk y (List.mem_cons_of_mem _ hy)) h1 h2 h3 h4 h

/-- The signature of the SEI is verified in each round. -/
theorem hasPending_hasSei {s : Validator} (hk : AllKind s.list) (hs : s.flags.signing = true) (h : s.hasPending.2 = true) :
    s.hasPending.1.gop.hasSei = true := by
  have hf : (scan s.flags.signing s.list {}).found = true := h
  show (scan s.flags.signing s.list {}).hasSei = true
  rw [hs] at hf ⊢
  exact scan_hasSei hk (fun h => by cases h) (fun h => by cases h) (fun h => by cases h) (fun h => by cases h) hf

end Validator
end SV
