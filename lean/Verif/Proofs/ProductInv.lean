import Verif.Proofs.ProductTlv
import Verif.Proofs.AuthTrace
import Verif.Props.AuthUnsigned
import Verif.Proofs.TraceRound
import Verif.Proofs.AuthKinds
import Verif.Proofs.AuthProgress
/-! Where the product information of a validating session stems from. -/
namespace SV
open Spec
namespace Validator

/-- A NAL unit of the list was received. -/
def Seen (c : Codec) (L : Log) (n : Nalu) : Prop :=
  ∃ q ∈ L, ∃ m, parseNalu q.2 c true true = .ok m ∧ n.tlvSize = m.tlvSize ∧ n.tlvMem <+: m.tlvMem

/-- The product information is the initial one or was received. -/
def Shown (c : Codec) (L : Log) (p : ProductInfo) : Prop := p = {} ∨ ∃ q ∈ L, HasProduct c q.2 p

structure Origin (c : Codec) (L : Log) (s : Validator) : Prop where
  wf : WFs s
  codec : s.codec = c
  items : ∀ x ∈ s.list, ∀ n, x.2.nalu = some n → Seen c L n
  product : Shown c L s.d.product

variable {c : Codec} {L : Log}

theorem hasProduct_of {data : Bytes} {m : Nalu} {p : ProductInfo} (h : parseNalu data c true true = .ok m)
    (hf : Found m.tlvMem m.tlvSize m.tlvSize p) : HasProduct c data p := by
  refine ⟨m, h, ?_, hf⟩
  cases hg : m.gopSei with
  | true => rfl
  | false =>
    exfalso
    obtain ⟨v, hv, -⟩ := hf
    have h0 : m.tlvSize = 0 := by
      by_cases hd : data = []
      · subst hd
        cases h
        rfl
      · exact ((parseNalu_unsigned hd h).1 hg).1
    rw [h0] at hv
    cases hv

theorem Seen.found {n : Nalu} {p : ProductInfo} (h : Seen c L n) (hf : ∀ mem, n.tlvMem <+: mem → Found mem n.tlvSize n.tlvSize p) : Shown c L p := by
  obtain ⟨q, hq, m, h1, h2, h3⟩ := h
  have := hf _ h3
  rw [h2] at this
  exact .inr ⟨q, hq, hasProduct_of h1 this⟩

theorem Origin.keep {s t : Validator} (h : Origin c L s) (w : WFs t) (e1 : t.codec = s.codec)
    (e2 : ∀ y ∈ t.list, ∀ n, y.2.nalu = some n → ∃ x ∈ s.list, x.2.nalu = some n) (e3 : t.d.product = s.d.product) : Origin c L t :=
  ⟨w, e1.trans h.codec, fun y hy n hn => by obtain ⟨x, hx, e⟩ := e2 y hy n hn; exact h.items x hx n e, by rw [e3]; exact h.product⟩

theorem Origin.of_list {s t : Validator} (h : Origin c L s) (hl : t.list = s.list) (hb : t.brk = s.brk) (hc : t.codec = s.codec)
    (hp : t.d.product = s.d.product) : Origin c L t :=
  h.keep (by unfold WFs; rw [hl, hb]; exact h.wf) hc (fun y hy n hn => ⟨y, hl ▸ hy, hn⟩) hp

theorem Grow.has {S : Option Nalu → Status → Prop} {l l' : NList} (g : Grow S l l') : ∀ y ∈ l', ∀ n, y.2.nalu = some n → ∃ x ∈ l, x.2.nalu = some n := by
  intro y hy n hn
  rcases g.mem hy with m | ⟨x, hx, -, k⟩
  · rw [m.1] at hn; cases hn
  · exact ⟨x, hx, by rw [← k.nalu]; exact hn⟩

theorem Undo.has {l l' : NList} (g : Undo l l') : ∀ y ∈ l', ∀ n, y.2.nalu = some n → ∃ x ∈ l, x.2.nalu = some n := by
  induction g with
  | nil => exact fun y hy n hn => ⟨y, hy, hn⟩
  | same _ ih =>
    intro y hy n hn
    rcases List.mem_cons.1 hy with rfl | hy
    · exact ⟨_, List.mem_cons_self, hn⟩
    · obtain ⟨x, hx, e⟩ := ih y hy n hn
      exact ⟨x, List.mem_cons_of_mem _ hx, e⟩
  | @reset x l l' _ ih =>
    intro y hy n hn
    rcases List.mem_cons.1 hy with rfl | hy
    · exact ⟨x, List.mem_cons_self, by rw [← resetStatus_nalu x.2]; exact hn⟩
    · obtain ⟨x, hx, e⟩ := ih y hy n hn
      exact ⟨x, List.mem_cons_of_mem _ hx, e⟩
  | drop _ _ ih =>
    intro y hy n hn
    obtain ⟨x, hx, e⟩ := ih y hy n hn
    exact ⟨x, List.mem_cons_of_mem _ hx, e⟩

theorem core_has {l l' : NList} (h : core l' = core l) : ∀ y ∈ l', ∀ n, y.2.nalu = some n → ∃ x ∈ l, x.2.nalu = some n := by
  intro x hx n hn
  have hm : (x.1, x.2.nalu, x.2.status) ∈ Validator.core l := by
    rw [← h]; exact List.mem_map_of_mem (f := fun x : Nat × Item => (x.1, x.2.nalu, x.2.status)) hx
  obtain ⟨w, hw, e3⟩ := List.mem_map.1 hm
  injection e3 with e3 e4
  injection e4 with e4 e5
  exact ⟨w, hw, e4.trans hn⟩

theorem Origin.hashed {s t : Validator} (h : Origin c L s) (hh : Hashed s t) (hp : t.d.product = s.d.product) : Origin c L t := by
  have hb : t.brk = s.brk := by rw [hh.eq]
  refine h.keep ?_ (by rw [hh.eq]) (core_has hh.core) hp
  unfold WFs; rw [hb]; exact WF.of_addr h.wf hh.addr

theorem Origin.set {s : Validator} {a : Nat} {f : Item → Item} (h : Origin c L s)
    (h1 : ∀ x ∈ s.list, x.1 = a → ∀ n, (f x.2).nalu = some n → Seen c L n) :
    Origin c L { s with list := s.list.set a f } := by
  refine ⟨WF.of_addr h.wf (set_addr _ _ _), h.codec, ?_, h.product⟩
  intro y hy
  obtain ⟨x, hx, rfl⟩ := List.mem_map.1 hy
  by_cases e : x.1 = a
  · rw [if_pos e]; exact h1 x hx e
  · rw [if_neg e]; exact h.items x hx

/-- Decoding. -/
theorem decodeSei_product (env : AuthEnv) (s : Validator) {mem m' : Bytes} (size : Nat) (hm : m' <+: mem) :
    (s.decodeSei env m' size).Ends fun t => t.d.product = s.d.product ∨ Found mem size size t.d.product := by
  unfold decodeSei
  split
  · trivial
  · refine Res.Ends.andThen' (tlvDecode_product env s size hm) fun t _ _ ht => ?_
    refine Res.Ends.andThen' (P := fun t : Validator => t.d.product = s.d.product ∨ Found mem size size t.d.product)
      ((detectLost_d env t).mono fun u hu => by rw [hu.1]; exact ht) fun u _ _ hu => ?_
    show (if _ then _ else _ : Validator).d.product = _ ∨ _
    split
    · exact hu
    · exact hu

theorem decodeSei_origin (env : AuthEnv) {s : Validator} (h : Origin c L s) {n : Nalu} (hn : Seen c L n) :
    (s.decodeSei env n.tlvMem n.tlvSize).Ends (Origin c L) := by
  have h1 := decodeSei_prep env s n.tlvMem n.tlvSize
  have h2 := decodeSei_list env s n.tlvMem n.tlvSize
  have h3 : (s.decodeSei env n.tlvMem n.tlvSize).Ends fun t => Shown c L t.d.product := by
    obtain ⟨q, hq, m, g1, g2, g3⟩ := hn
    refine (decodeSei_product env s n.tlvSize g3).mono fun t ht => ?_
    rcases ht with e | e
    · rw [e]; exact h.product
    · rw [g2] at e; exact .inr ⟨q, hq, hasProduct_of g1 e⟩
  refine ((h1.and h2).and h3).mono fun t ht => ?_
  refine ⟨?_, ht.1.1.codec.trans h.codec, ?_, ht.2⟩
  · unfold WFs; rw [ht.1.2, ht.1.1.brk]; exact h.wf
  · rw [ht.1.2]; exact h.items

theorem Seen.more {n : Nalu} {q : Nat × Bytes} (h : Seen c L n) : Seen c (q :: L) n := by
  obtain ⟨p, hp, r⟩ := h
  exact ⟨p, List.mem_cons_of_mem _ hp, r⟩

theorem Shown.more {p : ProductInfo} {q : Nat × Bytes} (h : Shown c L p) : Shown c (q :: L) p := by
  rcases h with h | ⟨r, hr, h⟩
  · exact .inl h
  · exact .inr ⟨r, List.mem_cons_of_mem _ hr, h⟩

theorem decodeNext_origin (env : AuthEnv) {s : Validator} (h : Origin c L s) {x : Nat × Item} (hx : x ∈ s.list) :
    (s.decodeNext env x).Ends (Origin c L) := by
  unfold decodeNext
  split
  · exact h
  · dsimp only
    split
    · trivial
    · rename_i n hn
      have h' : Origin c L { s with rep := { s.rep with latest := { s.rep.latest with keyChanged := false } } } := h.of_list rfl rfl rfl rfl
      refine Res.Ends.andThen' (decodeSei_origin env h' (h.items x hx n hn)) fun t _ _ ht => ?_
      split
      · trivial
      · exact (ht.set (a := x.1) (f := fun i => { i with decoded := true }) fun y hy _ => ht.items y hy).of_list rfl rfl rfl rfl

theorem prepareGopHash_origin (env : AuthEnv) {s : Validator} (h : Origin c L s) (a : Nat) :
    (s.prepareGopHash env a).Ends (Origin c L) := by
  refine ((prepareGopHash_prep env s a).and (prepareGopHash_calm env s a)).mono fun t ht => ?_
  exact h.keep ((ht.1.ev noStatus).wf h.wf) ht.1.codec (Grow.has ht.1.list) (by rw [ht.2.2.1])

theorem detectLost_origin (env : AuthEnv) {s : Validator} (h : Origin c L s) : (s.detectLost env).Ends (Origin c L) := by
  refine ((detectLost_prep env s).and (detectLost_d env s)).mono fun t ht => ?_
  exact h.of_list ht.2.2.2 ht.1.brk ht.1.codec (by rw [ht.2.1])

theorem verifyHash_origin (env : AuthEnv) {s : Validator} (h : Origin c L s) : (s.verifyHash env).Ends (Origin c L) := by
  unfold verifyHash
  split
  · exact h.of_list rfl rfl rfl rfl
  · split
    · exact h.of_list rfl rfl rfl rfl
    · exact h.of_list rfl rfl rfl rfl

theorem prepare_origin (env : AuthEnv) {s : Validator} (h : Origin c L s) : (s.prepare env).Ends (Origin c L) := by
  unfold prepare
  dsimp only
  refine Res.Ends.andThen' (P := Origin c L) ?_ fun t _ _ ht => ?_
  · split
    · exact h
    · rename_i x hx
      refine Res.Ends.andThen' (decodeNext_origin env h (nextSei_spec hx).1) fun t _ _ ht => ?_
      exact Res.Ends.andThen' (detectLost_origin env ht) fun u _ _ hu => prepareGopHash_origin env hu x.1
  · split
    · exact ht
    · split
      · exact verifyHash_origin env ht
      · exact ht

theorem origin_round (c : Codec) (L : Log) : RoundInv (Origin c L) where
  pending _ h := h.of_list rfl rfl rfl rfl
  begin s h := h.of_list (begin_list s) (begin_brk s) (by unfold begin; split <;> rfl) (by rw [begin_d])
  prep env s h := prepare_origin env h
  link u v h hl := by
    have hw := wfs_inv.link u v h.wf hl
    obtain ⟨v1, -⟩ := updateLinkLoop_prep hl
    rcases updateLinkLoop_eq hl with e | ⟨lk, a, e⟩
    · rw [e]; exact h
    · exact h.keep hw (by rw [e]) (Grow.has v1) (by rw [e])
  verify v t p h hv := by
    have := verifyGop_ver h.wf hv
    exact h.keep (this.ev.wf h.wf) (by rw [this.eq]) (Grow.has this.ev.grow) (by rw [this.eq])
  conclude t p h := by
    refine h.keep (wfs_conclude t p h.wf) rfl ?_ rfl
    have g := Grow.has (clearUsed_grow noStatus t.list)
    unfold Validator.conclude
    dsimp only
    split
    · intro y hy n hn
      obtain ⟨x, hx, e⟩ := Undo.has (removeMissing_undo _) y hy n hn
      exact g x hx n e
    · exact g
  notSigned _ h := h.of_list rfl rfl rfl rfl
  finish _ h := h.of_list rfl rfl rfl rfl

theorem recurrentLoop_origin (env : AuthEnv) (l : NList) : ∀ {s : Validator}, Origin c L s → (∀ x ∈ l, x ∈ s.list) →
    (recurrentLoop env l s).Ends (Origin c L) := by
  induction l with
  | nil => exact fun h _ => h
  | cons x r ih =>
    intro s h hl
    unfold recurrentLoop
    have hr := fun y hy => hl y (List.mem_cons_of_mem _ hy)
    split
    · rename_i n hn
      split
      · have h0 := h.items x (hl x List.mem_cons_self) n hn
        have e : (s.findOptional env n.tlvMem n.tlvSize).Ends fun t => Origin c L t ∧ t.list = s.list := by
          obtain ⟨q, hq, m, g1, g2, g3⟩ := h0
          refine ((findOptional_decoded env s n.tlvMem n.tlvSize).and (findOptional_product env s n.tlvSize g3)).mono fun t ht => ?_
          refine ⟨⟨?_, ht.1.codec.trans h.codec, ?_, ?_⟩, ht.1.list⟩
          · unfold WFs; rw [ht.1.list, ht.1.brk]; exact h.wf
          · rw [ht.1.list]; exact h.items
          · rcases ht.2 with e | e
            · rw [e]; exact h.product
            · rw [g2] at e; exact .inr ⟨q, hq, hasProduct_of g1 e⟩
        refine Res.Ends.andThen e (fun t ht => ht.1) fun t f _ ht => ?_
        split
        · exact ht.1
        · exact ih ht.1 fun y hy => by rw [ht.2]; exact hr y hy
      · exact ih h hr
    · exact ih h hr

theorem origin_inv (env : AuthEnv) (c : Codec) : CallInv env (Origin c) where
  misc _ s s' hm h := h.of_list (by rw [hm]) (by rw [hm]) (by rw [hm]) (by rw [hm])
  round L _ h := (origin_round c L).round env h
  recurrent L s h := by
    unfold recurrentDecoded
    split
    · exact h
    · exact recurrentLoop_origin env s.list h fun _ h => h
  known _ _ h := h.of_list rfl rfl rfl rfl
  golden L s a n data h hL hn := by
    unfold prepareGolden
    have hs : Seen c L n := ⟨_, hL, n, by rw [← h.codec]; exact hn, rfl, List.prefix_refl _⟩
    refine Res.Ends.andThen' (decodeSei_origin env h hs) fun t _ _ ht => ?_
    dsimp only
    have ht' := ht.set (a := a) (f := fun i => { i with decoded := true }) fun x hx _ => ht.items x hx
    split
    · trivial
    · rename_i x _
      refine Res.Ends.andThen' ((hashItem_hashed env _ x).mono fun u hu => ht'.hashed hu (by rw [hu.eq])) fun u _ _ hu => ?_
      split
      · trivial
      · split
        · trivial
        · exact prepare_origin env (hu.of_list (t := _) rfl rfl rfl rfl)
  hash _ s x h _ := (hashItem_hashed env s x).mono fun t ht => h.hashed ht (by rw [ht.eq])
  noKey _ _ h := h.of_list rfl rfl rfl rfl
  mark _ s x st h hx hst := h.set fun y hy _ => h.items y hy
  append L s n data h hn := by
    refine ⟨WF.append h.wf _, h.codec, fun x hx m hm => ?_, h.product.more⟩
    rcases List.mem_append.1 hx with hx | hx
    · exact (h.items x hx m hm).more
    · cases List.mem_singleton.1 hx
      cases hm
      exact ⟨_, List.mem_cons_self, n, by rw [← h.codec]; exact hn, rfl, List.prefix_refl _⟩
  update L s pre a n n' data h hl hL hn _ hu := by
    refine h.set fun x hx e m hm => ?_
    cases hm
    obtain ⟨-, -, h1, h2⟩ := updateHashable_tlv hu
    exact ⟨_, hL, n, by rw [← h.codec]; exact hn, h1, by rw [h2]; exact List.prefix_refl _⟩
  copy L s x n cp h hx hn hc := by
    refine h.set fun y hy e m hm => ?_
    dsimp only at hm
    subst hm
    obtain ⟨-, -, h1, h2⟩ := copyNalu_tlv hc
    obtain ⟨q, hq, k, g1, g2, g3⟩ := h.items x hx n hn
    exact ⟨q, hq, k, g1, h1.trans g2, by rw [h2]; exact (List.take_prefix _ _).trans g3⟩
  clean L s h := by
    have hs : cleanUp s.list <:+ s.list := List.dropWhile_suffix _
    exact ⟨WF.sublist h.wf hs.sublist, h.codec, fun x hx => h.items x (hs.subset hx), h.product⟩
  reset L s h := ⟨⟨List.nodup_nil, fun _ h => by cases h⟩, h.codec, fun _ h => (by cases h), h.product⟩
  key L s k h hk := by
    unfold setPublicKey
    rw [if_neg hk]
    split
    · exact h
    · split
      · exact h
      · dsimp only
        split
        · exact h.of_list rfl rfl rfl rfl
        · exact h.of_list rfl rfl rfl rfl

end Validator
end SV
