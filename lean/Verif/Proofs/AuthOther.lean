import Verif.Proofs.AuthSig
import Verif.Proofs.AuthTrace
import Verif.Props.AuthSigned
import Verif.Props.AuthCount
/-! A validating session whose SEIs all have another room for the signature than the session. -/
namespace SV
open Spec

/-- A NAL unit, if it is a SEI of the framework, has a signature with room for another number of bytes than `N`. -/
def OtherSei (c : Codec) (N : Nat) (data : Bytes) : Prop :=
  ∀ n, parseNalu data c true true = .ok n → n.gopSei = true → OtherRoom n N

/-- No SEI of a list has been decoded, and all have another room for the signature. -/
def Others (N : Nat) (l : NList) : Prop :=
  ∀ x ∈ l, ∀ m, x.2.nalu = some m → m.gopSei = true → x.2.decoded = false ∧ OtherRoom m N

theorem Others.from {N : Nat} {l l' : NList} (h : Others N l)
    (hl : ∀ y ∈ l', y.2.nalu = none ∨ ∃ x ∈ l, y.2.nalu = x.2.nalu ∧ y.2.decoded = x.2.decoded) : Others N l' := by
  intro y hy m hm hg
  rcases hl y hy with e | ⟨x, hx, e1, e2⟩
  · rw [e] at hm; cases hm
  · rw [e2]; exact h x hx m (e1 ▸ hm) hg

theorem Others.calm {N : Nat} {l l' : NList} (h : Others N l) (g : CalmList l l') : Others N l' :=
  h.from fun _ hy => (g.mem hy).imp id fun ⟨x, hx, _, hs⟩ => ⟨x, hx, hs.nalu, hs.decoded⟩

theorem Others.set {N : Nat} {l : NList} (h : Others N l) (a : Nat) {f : Item → Item} (hf : ∀ i, (f i).nalu = i.nalu ∧ (f i).decoded = i.decoded) :
    Others N (l.set a f) := by
  refine h.from fun y hy => ?_
  obtain ⟨x, hx, rfl⟩ := List.mem_map.1 hy
  refine .inr ⟨x, hx, ?_⟩
  split
  · exact hf x.2
  · exact ⟨rfl, rfl⟩

theorem Others.undo {N : Nat} {l l' : NList} (h : Others N l) (g : Undo l l') : Others N l' := by
  refine h.from fun y hy => .inr ?_
  clear h
  induction g with
  | nil => cases hy
  | same _ ih =>
    rcases List.mem_cons.1 hy with rfl | hy
    · exact ⟨_, List.mem_cons_self, rfl, rfl⟩
    · obtain ⟨x, hx, h⟩ := ih hy
      exact ⟨x, List.mem_cons_of_mem _ hx, h⟩
  | @reset z _ _ _ ih =>
    rcases List.mem_cons.1 hy with rfl | hy
    · refine ⟨z, List.mem_cons_self, ?_⟩
      rcases resetStatus_cases z.2 with e | e | ⟨-, e⟩ <;> rw [e] <;> exact ⟨rfl, rfl⟩
    · obtain ⟨x, hx, h⟩ := ih hy
      exact ⟨x, List.mem_cons_of_mem _ hx, h⟩
  | drop _ _ ih =>
    obtain ⟨x, hx, h⟩ := ih hy
    exact ⟨x, List.mem_cons_of_mem _ hx, h⟩

namespace Validator
variable {env : AuthEnv} {N : Nat}

/-- The preparations leave the list alone, and succeed only if no SEI is pending. -/
theorem prepare_others {s : Validator} (hr : Room N s) (h : Others N s.list) :
    (s.prepare env).Ends (fun t => t.list = s.list) ∧ ∀ u, s.prepare env = .ok u () → nextSei s.list = none := by
  have key : ∀ x, nextSei s.list = some x → (s.decodeNext env x).Ends (fun t => t.list = s.list) ∧ ∀ u, s.decodeNext env x ≠ .ok u () := by
    intro x hx
    obtain ⟨h1, h2, m, hm, hg⟩ := nextSei_spec hx
    obtain ⟨hd, ho⟩ := h x h1 m hm hg
    unfold decodeNext
    rw [if_neg (by rw [hd]; decide)]
    simp only [hm]
    have hl := decodeSei_list env { s with rep := { s.rep with latest := { s.rep.latest with keyChanged := false } } } m.tlvMem m.tlvSize
    have hno := fun t => decodeSei_other (env := env) (s := { s with rep := { s.rep with latest := { s.rep.latest with keyChanged := false } } }) (t := t) hr ho
    generalize decodeSei env _ m.tlvMem m.tlvSize = r at hl hno
    cases r with
    | ub u => exact ⟨trivial, fun u e => by cases e⟩
    | err t e => exact ⟨hl, fun u e => by cases e⟩
    | ok t y => exact (hno t rfl).elim
  unfold Validator.prepare
  dsimp only
  cases hx : nextSei s.list with
  | none =>
    refine ⟨?_, fun _ _ => rfl⟩
    dsimp only
    rw [Res.andThen_ok]
    split
    · rfl
    · split
      · unfold verifyHash
        split
        · rfl
        · split <;> rfl
      · rfl
  | some x =>
    dsimp only
    obtain ⟨k1, k2⟩ := key x hx
    generalize s.decodeNext env x = r at k1 k2
    cases r with
    | ub u => exact ⟨trivial, fun u e => by cases e⟩
    | err t e => exact ⟨k1, fun u e => by cases e⟩
    | ok t y => exact (k2 t rfl).elim

theorem round_others {s : Validator} (g : Good s) (hr : Room N s) (h : Others N s.list) : (s.round env).Ends fun t => Others N t.list := by
  unfold Validator.round
  have hbl : s.begin.list = s.list := begin_list s
  have hbr : Room N s.begin := by
    unfold Validator.begin
    split
    · exact hr
    · exact hr
  have wb : WFs s.begin := by unfold WFs; rw [begin_list, begin_brk]; exact g.wf
  have tb : Tidy s.begin := Tidy.of_list g.tidy hbl
  obtain ⟨p1, p2⟩ := prepare_others (env := env) hbr (by rw [hbl]; exact h)
  refine Res.Ends.andThen' (P := fun t : Validator => Others N t.list) (p1.mono fun t ht => by rw [ht, hbl]; exact h) fun u _ hu0 hu => ?_
  have hul : u.list = s.begin.list := p1.of_ok hu0
  have hnone : nextSei u.list = none := by rw [hul]; exact p2 u hu0
  cases hl : updateLinkLoop u u.list with
  | ub e => trivial
  | err e => exact absurd hl (updateLinkLoop_ne_err _ _ _)
  | ok v =>
    dsimp only
    obtain ⟨l1, l2, l3⟩ := updateLinkLoop_prep hl
    have wu : WFs u := (((prepare_prep env s.begin).of_ok hu0).ev noStatus).wf wb
    have wv : WFs v := by
      have hb : v.brk = u.brk := by rw [l3]
      unfold WFs; rw [hb]; exact WF.of_addr wu l2
    have tv : Tidy v := updateLinkLoop_tidy ((prepare_tidy wb tb).of_ok hu0) hl
    have hv : Others N v.list := hu.calm (updateLinkLoop_calm hl)
    have hn : ∀ x, nextSei v.list = some x → x.2.decoded = true := by
      intro x hx
      have e := Validator.Grow.nextSei l1
      rw [hx, hnone] at e
      cases e
    unfold conduct
    split
    · unfold validate
      cases hg : v.verifyGop with
      | err t e => exact absurd hg (verifyGop_ne_err _ _ _)
      | ub e => trivial
      | ok t p =>
        have ht : Others N t.list := hv.calm (verifyGop_calm wv (UsedPlain.of_tidyFrom tv) hn hg)
        show Others N (t.conclude p).list
        unfold conclude
        dsimp only
        split
        · exact (ht.calm (clearUsed_calm _)).undo (removeMissing_undo _)
        · exact ht.calm (clearUsed_calm _)
    · exact hv

theorem Others.hashed {s t : Validator} (h : Others N s.list) (hh : Hashed s t) : Others N t.list := h.calm (Hashed.calm hh)

theorem reregister_others (l : NList) : ∀ {s : Validator} (st : Option Rc), Others N s.list →
    (reregister env l s st).Ends fun t => Others N t.list := by
  induction l with
  | nil => intro s st h; cases st <;> exact h
  | cons x r ih =>
    intro s st h
    unfold reregister
    split
    · trivial
    · split
      · exact ih st h
      · exact Res.Ends.andThen' (P := fun t : Validator => Others N t.list) ((hashItem_hashed env s x).mono fun t ht => Others.hashed h ht)
          fun t _ _ ht => ih none ht

theorem hashAlgoBlock_others {s : Validator} (hr : Room N s) (h : Others N s.list) (a : Nat) {n : Nalu} (hn : n.golden = true → OtherRoom n N) :
    (s.hashAlgoBlock env a n).Ends fun t => Others N t.list := by
  unfold hashAlgoBlock
  split
  · exact h
  · have hd : (s.recurrentDecoded env).Ends fun t => t.list = s.list ∧ Room N t :=
      ((recurrentDecoded_decoded env s).mono fun t ht => ht.list).and (recurrentDecoded_ends decTag_keeps hr)
    refine Res.Ends.andThen' (P := fun t : Validator => Others N t.list) (hd.mono fun t ht => by rw [ht.1]; exact h) fun t ok ht0 ht => ?_
    split
    · exact ht
    · dsimp only
      refine Res.Ends.andThen' (P := fun t : Validator => Others N t.list) ?_ fun u _ _ hu => ?_
      · split
        · rename_i hg
          have hrt : Room N { t with d := { t.d with hashAlgoKnown := true } } := (hd.of_ok ht0).2
          have hl := decodeSei_list env { t with d := { t.d with hashAlgoKnown := true } } n.tlvMem n.tlvSize
          have hno := fun u => decodeSei_other (env := env) (t := u) hrt (hn hg)
          unfold prepareGolden
          generalize decodeSei env _ n.tlvMem n.tlvSize = r at hl hno
          cases r with
          | ub u => trivial
          | err u e =>
            have hl : u.list = t.list := hl
            show Others N u.list
            rw [hl]; exact ht
          | ok u y => exact (hno u rfl).elim
        · exact ht
      · split
        · exact hu
        · exact reregister_others _ _ hu

theorem OtherRoom.same {n n' : Nalu} (h : OtherRoom n N) (e1 : n'.tlvSize = n.tlvSize) (e2 : n'.tlvMem.take n.tlvSize = n.tlvMem.take n.tlvSize) :
    OtherRoom n' N := by
  unfold OtherRoom at h ⊢
  rw [e1, e2]; exact h

theorem _root_.SV.Others.append {l : NList} (h : Others N l) {b : Nat} {i : Item} (hd : i.decoded = false)
    (hi : ∀ m, i.nalu = some m → m.gopSei = true → OtherRoom m N) : Others N (l ++ [(b, i)]) := by
  intro x hx m hm hg
  rcases List.mem_append.1 hx with hx | hx
  · exact h x hx m hm hg
  · rw [List.mem_singleton.1 hx] at hm ⊢
    exact ⟨hd, hi m hm hg⟩

theorem CallInv.under {P Q : Log → Validator → Prop} (hQ : CallInv env Q) : CallInvUnder env P Q where
  misc L s s' hm _ h := hQ.misc L s s' hm h
  round L s _ h := hQ.round L s h
  recurrent L s _ h := hQ.recurrent L s h
  known L s _ h := hQ.known L s h
  golden L s a n data _ h h1 h2 := hQ.golden L s a n data h h1 h2
  hash L s x _ h h1 := hQ.hash L s x h h1
  noKey L s _ h := hQ.noKey L s h
  mark L s x st _ h h1 h2 := hQ.mark L s x st h h1 h2
  append L s n data _ h h1 := hQ.append L s n data h h1
  update L s pre a n n' data _ h h1 h2 h3 h4 h5 := hQ.update L s pre a n n' data h h1 h2 h3 h4 h5
  copy L s x n c _ h h1 h2 h3 := hQ.copy L s x n c h h1 h2 h3
  clean L s _ h := hQ.clean L s h
  reset L s _ h := hQ.reset L s h
  key L s k _ h h1 := hQ.key L s k h h1

/-- What is needed of the session besides. -/
def OtherBase (c : Codec) (N : Nat) (s : Validator) : Prop := (Good s ∧ s.codec = c) ∧ Room N s

theorem otherBase_step (env : AuthEnv) (c : Codec) (N : Nat) : CallStep env fun _ => OtherBase c N :=
  (((good_inv env).and (codec_inv env c).under).and (room_inv env N).under).toCallStep

theorem others_step (env : AuthEnv) (c : Codec) (N : Nat) :
    CallStep env fun L s => OtherBase c N s ∧ ((∀ p ∈ L, OtherSei c N p.2) → Others N s.list) where
  misc L s s' hm h := by
    refine ⟨(otherBase_step env c N).misc L s s' hm h.1, fun hs => ?_⟩
    have : s'.list = s.list := by rw [hm]
    rw [this]; exact h.2 hs
  round L s h := by
    refine ((otherBase_step env c N).round L s h.1).and ?_
    by_cases hs : ∀ p ∈ L, OtherSei c N p.2
    · exact (round_others h.1.1.1 h.1.2 (h.2 hs)).mono fun t ht _ => ht
    · exact ((otherBase_step env c N).round L s h.1).mono fun t _ hs' => absurd hs' hs
  recurrent L s h := by
    refine ((otherBase_step env c N).recurrent L s h.1).and ?_
    exact (recurrentDecoded_decoded env s).mono fun t ht hs => by rw [ht.list]; exact h.2 hs
  noKey L s h := ⟨(otherBase_step env c N).noKey L s h.1, h.2⟩
  mark L s x st h hx hst :=
    ⟨(otherBase_step env c N).mark L s x st h.1 hx hst, fun hs => (h.2 hs).set x.1 (f := fun i => { i with status := st }) fun _ => ⟨rfl, rfl⟩⟩
  bad L s n data h hn hv := by
    refine ⟨(otherBase_step env c N).bad L s n data h.1 hn hv, fun hs => ?_⟩
    rw [h.1.1.2] at hn
    refine (h.2 fun p hp => hs p (List.mem_cons_of_mem _ hp)).append (i := newItem (some n)) rfl fun m hm hg => ?_
    cases hm
    exact hs _ List.mem_cons_self n hn hg
  enter L s n data fl h hn := by
    have h1 := (otherBase_step env c N).enter L s n data fl h.1 hn
    refine h1.and ?_
    rw [h.1.1.2] at hn
    have w := h.1.1.1.wf
    by_cases hs : ∀ p ∈ (s.brk, data) :: L, OtherSei c N p.2
    · have hl := h.2 fun p hp => hs p (List.mem_cons_of_mem _ hp)
      have happ : s.list.append s.brk (newItem (some n)) = s.list ++ [(s.brk, newItem (some n))] := rfl
      refine Res.Ends.mono (P := fun t : Validator => Others N t.list) ?_ fun t ht _ => ht
      unfold Validator.register
      split
      · trivial
      · split
        · refine hl.append (i := newItem (some n)) rfl fun m hm hg => ?_
          cases hm
          exact hs _ List.mem_cons_self n hn hg
        · split
          · trivial
          · rename_i e hu
            exact absurd hu (updateHashable_ne_err n e)
          · rename_i n' hu
            dsimp only
            rw [happ, set_append_new w, find_append_new w]
            dsimp only
            obtain ⟨u1, u2, u3, u4⟩ := updateHashable_tlv hu
            have ht : Others N (s.list ++ [(s.brk, { newItem (some n) with nalu := some n' })]) := by
              refine hl.append (i := { newItem (some n) with nalu := some n' }) rfl fun m hm hg => ?_
              cases hm
              exact OtherRoom.same (hs _ List.mem_cons_self n hn (u1 ▸ hg)) u3 (by rw [u4])
            exact (hashItem_hashed env _ _).mono fun t hh => Others.hashed (s := { s with
              list := s.list ++ [(s.brk, { newItem (some n) with nalu := some n' })], brk := s.brk + 1, flags := fl }) ht hh
    · exact h1.mono fun t _ hs' => absurd hs' hs
  algo L s a n data h hm hn := by
    have h1 := (otherBase_step env c N).algo L s a n data h.1 hm hn
    refine h1.and ?_
    rw [h.1.1.2] at hn
    by_cases hs : ∀ p ∈ L, OtherSei c N p.2
    · exact (hashAlgoBlock_others h.1.2 (h.2 hs) a fun hg => hs _ hm n hn (parseNalu_goldenSei hn hg)).mono fun t ht _ => ht
    · exact h1.mono fun t _ hs' => absurd hs' hs
  copy L s x n cp h hx hn hc := by
    refine ⟨(otherBase_step env c N).copy L s x n cp h.1 hx hn hc, fun hs => ?_⟩
    intro z hz k hk hg
    obtain ⟨y, hy, rfl⟩ := List.mem_map.1 hz
    by_cases e : y.1 = x.1
    · have : y = x := WF.unique h.1.1.1.wf hy hx e
      subst this
      rw [if_pos rfl] at hk ⊢
      have hk : cp = some k := hk
      subst hk
      obtain ⟨u1, u2, u3, u4⟩ := copyNalu_tlv hc
      obtain ⟨d1, d2⟩ := h.2 hs y hy n hn (u1 ▸ hg)
      exact ⟨d1, OtherRoom.same d2 u3 (by rw [u4, List.take_take, Nat.min_self])⟩
    · rw [if_neg e] at hk ⊢
      exact h.2 hs y hy k hk hg
  clean L s h := ⟨(otherBase_step env c N).clean L s h.1, fun hs => (h.2 hs).calm (CalmList.suffix (List.dropWhile_suffix _))⟩
  reset L s h := ⟨(otherBase_step env c N).reset L s h.1, fun _ x hx => by cases hx⟩
  key L s k h hk := by
    refine ((otherBase_step env c N).key L s k h.1 hk).and ?_
    unfold setPublicKey
    rw [if_neg hk]
    split
    · exact h.2
    · split
      · exact h.2
      · dsimp only
        split
        · exact h.2
        · exact h.2

end Validator
end SV
