import Verif.Proofs.TraceRound
import Verif.Proofs.TraceTlv
/-! Where the decoded data of a validator stem from if all lists of hashes are those of a signing session. -/
namespace SV
open Spec
namespace Validator

/-- A received NAL unit that is no golden SEI and that brings no list of hashes of its own: it is a SEI that decodes as one of the session
with the same signed part, or its signed part is none of the session and it has no list of hashes. -/
def Sound (env : AuthEnv) (N : Nat) (c : Codec) (S : Src → Prop) (data : Bytes) : Prop :=
  ∀ n, parseNalu data c true true = .ok n → n.golden = false ∧
    (n.gopSei = true →
      (∃ g, S g ∧ hashedBytes c data = g.doc ∧ Behaves env N n.tlvMem n.tlvSize g ∧ Behaves env N (n.tlvMem.take n.tlvSize) n.tlvSize g) ∨
      ((∀ g, S g → hashedBytes c data ≠ g.doc) ∧ Quiet env n.tlvMem n.tlvSize ∧ Quiet env (n.tlvMem.take n.tlvSize) n.tlvSize))

/-- The decoded data and the hash to verify are those of the NAL unit received as item `a`. -/
def DecodedFrom (env : AuthEnv) (T : List Bytes) (N : Nat) (c : Codec) (S : Src → Prop) (L : Log) (s : Validator) (a : Nat) : Prop :=
  ∃ data, L.lookup a = some data ∧
    (buf N s.sigHash = List.replicate N 0 ∨ ∃ t ∈ T, buf N s.sigHash = env.H t (hashedBytes c data)) ∧
    ((∃ g, S g ∧ hashedBytes c data = g.doc ∧ buf N s.d.gopHash = g.gop ∧ ∀ l, g.list = some l → s.d.hashList = l) ∨
      ∀ g, S g → hashedBytes c data ≠ g.doc)

/-- The TLV data of an item are those of the received NAL unit. -/
def TlvOf (c : Codec) (L : Log) (x : Nat × Item) : Prop :=
  ∀ n, x.2.nalu = some n → ∃ data m, L.lookup x.1 = some data ∧ parseNalu data c true true = .ok m ∧ n.gopSei = m.gopSei ∧ n.golden = m.golden ∧
    n.tlvSize = m.tlvSize ∧ (n.tlvMem = m.tlvMem ∨ n.tlvMem = m.tlvMem.take m.tlvSize)

structure Trace (env : AuthEnv) (T : List Bytes) (N : Nat) (c : Codec) (S : Src → Prop) (L : Log) (s : Validator) : Prop where
  tlv : ∀ x ∈ s.list, TlvOf c L x
  list : s.d.hashList = [] ∨ ∃ g, S g ∧ g.list = some s.d.hashList
  order : ∀ p ∈ (waiting s.list).tail, p.2 = false
  from_ : ∀ p ∈ waiting s.list, p.2 = true → DecodedFrom env T N c S L s p.1
  bad : BadDecoded s.list

variable {env : AuthEnv} {T : List Bytes} {N : Nat} {c : Codec} {S : Src → Prop} {L : Log}

theorem DecodedFrom.same {s t : Validator} {a : Nat} (h : DecodedFrom env T N c S L s a) (e1 : t.d.hashList = s.d.hashList)
    (e2 : t.d.gopHash = s.d.gopHash) (e3 : t.sigHash = s.sigHash) : DecodedFrom env T N c S L t a := by
  unfold DecodedFrom at h ⊢
  rw [e1, e2, e3]; exact h

theorem Trace.calm {s t : Validator} (h : Trace env T N c S L s) (hc : CalmList s.list t.list) (e1 : t.d.hashList = s.d.hashList)
    (e2 : t.d.gopHash = s.d.gopHash) (e3 : t.sigHash = s.sigHash) : Trace env T N c S L t := by
  refine ⟨?_, by rw [e1]; exact h.list, ?_, ?_, hc.bad h.bad⟩
  · intro y hy n hn
    rcases hc.mem hy with e | ⟨x, hx, ha, hs⟩
    · rw [e] at hn; cases hn
    · rw [← ha]; exact h.tlv x hx n (hs.nalu ▸ hn)
  · intro p hp
    exact h.order p (Sublist.tail_subset hc.waiting p hp)
  · intro p hp hd
    exact (h.from_ p (hc.waiting.subset hp) hd).same e1 e2 e3

/-- The list is kept. -/
theorem Trace.keep {s t : Validator} (h : Trace env T N c S L s) (e : t.list = s.list) (e1 : t.d.hashList = s.d.hashList)
    (e2 : t.d.gopHash = s.d.gopHash) (e3 : t.sigHash = s.sigHash) : Trace env T N c S L t :=
  h.calm (by rw [e]; exact .refl _) e1 e2 e3

/-! ### Decoding a SEI -/

theorem nextSei_find (l : NList) : nextSei l = l.find? isWaiting := by
  unfold nextSei
  congr 1

theorem nextSei_waiting {l : NList} : ∀ {x : Nat × Item}, nextSei l = some x → ∃ r, waiting l = (x.1, x.2.decoded) :: r := by
  induction l with
  | nil => intro x h; cases h
  | cons y l ih =>
    intro x h
    rw [waiting_cons]
    rw [nextSei_find, List.find?_cons] at h
    cases hy : isWaiting y with
    | true =>
      rw [hy] at h
      cases h
      exact ⟨_, rfl⟩
    | false =>
      rw [hy] at h
      exact ih (by rw [nextSei_find]; exact h)

theorem waiting_nodup {l : NList} (h : (l.map Prod.fst).Nodup) : ((waiting l).map Prod.fst).Nodup := by
  have e : (waiting l).map Prod.fst = (l.filter isWaiting).map Prod.fst := by
    unfold waiting; rw [List.map_map]; rfl
  rw [e]
  exact h.sublist (List.filter_sublist.map _)

theorem waiting_setDecoded (l : NList) (a : Nat) :
    waiting (l.set a fun i => { i with decoded := true }) = (waiting l).map fun p => if p.1 = a then (p.1, true) else p := by
  induction l with
  | nil => rfl
  | cons y l ih =>
    have e : (NList.set (y :: l) a fun i => { i with decoded := true }) =
      (if y.1 = a then (y.1, { y.2 with decoded := true }) else y) :: NList.set l a fun i => { i with decoded := true } := rfl
    rw [e, waiting_cons, waiting_cons, ih]
    have k : isWaiting (if y.1 = a then (y.1, { y.2 with decoded := true }) else y) = isWaiting y := by
      split
      · rfl
      · rfl
    rw [k]
    split
    · rw [List.map_cons]
      congr 1
      by_cases hy : y.1 = a
      · rw [if_pos hy, if_pos hy]
      · rw [if_neg hy, if_neg hy]
    · rfl

/-- What decoding a SEI does to the data. -/
def SeiTells (N : Nat) (S : Src → Prop) (doc : Bytes) (s : Validator) (r : Res Validator Unit) : Prop :=
  (r.Ends fun t => t.d.hashList = s.d.hashList ∨ ∃ g, S g ∧ g.list = some t.d.hashList) ∧
  ∀ t, r = .ok t () → (∃ g, S g ∧ doc = g.doc ∧ buf N t.d.gopHash = g.gop ∧ ∀ l, g.list = some l → t.d.hashList = l) ∨ ∀ g, S g → doc ≠ g.doc

theorem detectLost_d (env : AuthEnv) (s : Validator) : (s.detectLost env).Ends fun t => t.d = s.d ∧ t.sigHash = s.sigHash ∧ t.list = s.list := by
  unfold detectLost
  dsimp only
  split
  · trivial
  · exact ⟨rfl, rfl, rfl⟩
  · split
    · trivial
    · exact ⟨rfl, rfl, rfl⟩
    · exact ⟨rfl, rfl, rfl⟩

theorem decodeSei_sig (env : AuthEnv) (s : Validator) (mem : Bytes) (size : Nat) : (s.decodeSei env mem size).Ends fun t => t.sigHash = s.sigHash := by
  unfold decodeSei
  split
  · trivial
  · refine Res.Ends.andThen' (P := fun u : Validator => u.sigHash = s.sigHash) ((tlvDecode_decoded env s mem size).mono fun t ht => ht.sigHash)
      fun t _ _ ht => ?_
    refine Res.Ends.andThen' (P := fun u : Validator => u.sigHash = s.sigHash) ((detectLost_d env t).mono fun u hu => hu.2.1.trans ht)
      fun u _ _ hu => ?_
    show (if _ then _ else _ : Validator).sigHash = _
    split <;> exact hu

theorem decodeSei_tells {doc mem : Bytes} {size : Nat} (h : ∀ s, SeiTells N S doc s (tlvDecode env s mem size)) (s : Validator) :
    SeiTells N S doc s (s.decodeSei env mem size) := by
  unfold decodeSei
  split
  · exact ⟨trivial, fun t ht => by cases ht⟩
  · obtain ⟨h1, h2⟩ := h s
    constructor
    · refine Res.Ends.andThen' (P := fun t : Validator => t.d.hashList = s.d.hashList ∨ ∃ g, S g ∧ g.list = some t.d.hashList) h1 fun t _ _ ht => ?_
      refine Res.Ends.mono (P := fun u : Validator => u.d = t.d) (Res.Ends.andThen' (P := fun u : Validator => u.d = t.d)
        ((detectLost_d env t).mono fun u hu => hu.1) fun u _ _ hu => ?_) fun v hv => by rw [show v.d = t.d from hv]; exact ht
      show (if _ then _ else _ : Validator).d = _
      split <;> exact hu
    · intro t ht
      obtain ⟨a, _, g1, g2⟩ := Res.andThen_eq_ok ht
      obtain ⟨b, _, g3, g4⟩ := Res.andThen_eq_ok g2
      have e1 : b.d = a.d := ((detectLost_d env a).of_ok g3).1
      have e2 : t.d = b.d := by
        cases g4
        split <;> rfl
      rw [e2, e1]
      exact h2 a g1

theorem Sound.tells {data : Bytes} (h : Sound env N c S data) {m n : Nalu} (hm : parseNalu data c true true = .ok m) (hg : m.gopSei = true)
    (hs : n.tlvSize = m.tlvSize) (ht : n.tlvMem = m.tlvMem ∨ n.tlvMem = m.tlvMem.take m.tlvSize) (s : Validator) :
    SeiTells N S (hashedBytes c data) s (tlvDecode env s n.tlvMem n.tlvSize) := by
  obtain ⟨-, h2⟩ := h m hm
  rw [hs]
  rcases h2 hg with ⟨g, g1, g2, g3, g4⟩ | ⟨g1, g2, g3⟩
  · have hb : Behaves env N n.tlvMem m.tlvSize g := by
      rcases ht with e | e
      · rw [e]; exact g3
      · rw [e]; exact g4
    obtain ⟨k1, k2⟩ := hb s
    refine ⟨k1.mono fun t ht => ht.imp id fun e => ⟨g, g1, e⟩, fun t ht => .inl ⟨g, g1, g2, k2 t ht⟩⟩
  · have hq : Quiet env n.tlvMem m.tlvSize := by
      rcases ht with e | e
      · rw [e]; exact g2
      · rw [e]; exact g3
    exact ⟨(hq s).mono fun t ht => .inl ht, fun t _ => .inr g1⟩

/-- The SEI is decoded. -/
theorem decodeNext_trace (w : WFs s) (hC : Content env T N c L s) (hs : ∀ p ∈ L, Sound env N c S p.2) (h : Trace env T N c S L s)
    {x : Nat × Item} (hx : nextSei s.list = some x) : (s.decodeNext env x).Ends (Trace env T N c S L) := by
  unfold decodeNext
  split
  · exact h
  rename_i hd
  have hd : x.2.decoded = false := by cases hq : x.2.decoded with
    | false => rfl
    | true => exact absurd hq hd
  dsimp only
  split
  · trivial
  rename_i n hn
  obtain ⟨hx1, hx2, n', hn', hg⟩ := nextSei_spec hx
  have : n' = n := Option.some.inj (hn'.symm.trans hn)
  subst this
  obtain ⟨data, m, i1, i2, i3, -, i5, i6⟩ := h.tlv x hx1 n' hn
  have hmem : (x.1, data) ∈ L := lookup_mem i1
  have htell := (hs _ hmem).tells i2 (i3.symm.trans hg) i5 i6
  let s0 : Validator := { s with rep := { s.rep with latest := { s.rep.latest with keyChanged := false } } }
  show ((s0.decodeSei env n'.tlvMem n'.tlvSize).andThen _).Ends _
  have hdec := decodeSei_tells htell s0
  obtain ⟨r, hr⟩ := nextSei_waiting hx
  rw [hd] at hr
  have hrest : ∀ p ∈ waiting s.list, p.2 = false := by
    intro p hp
    have ho := h.order
    rw [hr] at hp ho
    rcases List.mem_cons.1 hp with rfl | hp
    · rfl
    · exact ho p hp
  have hkeep : ∀ t : Validator, t.list = s.list → (t.d.hashList = s.d.hashList ∨ ∃ g, S g ∧ g.list = some t.d.hashList) → Trace env T N c S L t := by
    intro t e1 e2
    refine ⟨by rw [e1]; exact h.tlv, ?_, by rw [e1]; exact h.order, ?_, by rw [e1]; exact h.bad⟩
    · rcases e2 with e2 | e2
      · rw [e2]; exact h.list
      · exact .inr e2
    · intro p hp hq
      rw [e1] at hp
      rw [hrest p hp] at hq
      cases hq
  have hbase := (((decodeSei_list env s0 n'.tlvMem n'.tlvSize).and hdec.1).and (decodeSei_sig env s0 n'.tlvMem n'.tlvSize))
  refine Res.Ends.andThen' (P := Trace env T N c S L) (hbase.mono fun t ht => hkeep t ht.1.1 ht.1.2) fun t _ ht hT => ?_
  have hlist : t.list = s.list := (hbase.of_ok ht).1.1
  split
  · trivial
  · have hN : s.d.hashSize = N := hC.core.alg.size
    obtain ⟨data', m', j1, j2, j3, j4⟩ := hC.core.items x hx1 n' hn
    have : data' = data := Option.some.inj (j1.symm.trans i1)
    subst this
    have hwait : waiting (t.list.set x.1 fun i => { i with decoded := true }) = (x.1, true) :: r := by
      rw [waiting_setDecoded, hlist, hr, List.map_cons, if_pos rfl]
      congr 1
      conv => rhs; rw [← List.map_id r]
      refine List.map_congr_left fun p hp => ?_
      have hnd := waiting_nodup w.nodup
      rw [hr, List.map_cons, List.nodup_cons] at hnd
      rw [if_neg]
      · rfl
      · intro e
        exact hnd.1 (e ▸ List.mem_map_of_mem (f := Prod.fst) hp)
    refine ⟨?_, hT.list, ?_, ?_, ?_⟩
    · intro z hz k hk
      obtain ⟨y, hy, rfl⟩ := List.mem_map.1 hz
      rw [hlist] at hy
      have : (if y.1 = x.1 then (y.1, { y.2 with decoded := true }) else y : Nat × Item).1 = y.1 ∧
        (if y.1 = x.1 then (y.1, { y.2 with decoded := true }) else y : Nat × Item).2.nalu = y.2.nalu := by
        split <;> exact ⟨rfl, rfl⟩
      have hk : (if y.1 = x.1 then (y.1, { y.2 with decoded := true }) else y : Nat × Item).2.nalu = some k := hk
      rw [this.2] at hk
      obtain ⟨data, m, q⟩ := h.tlv y hy k hk
      exact ⟨data, m, by rw [← this.1] at q; exact q⟩
    · show ∀ p ∈ (waiting (t.list.set x.1 fun i => { i with decoded := true })).tail, p.2 = false
      rw [hwait]
      intro p hp
      exact hrest p (by rw [hr]; exact List.mem_cons_of_mem _ hp)
    · intro p hp hq
      have hp : p ∈ waiting (t.list.set x.1 fun i => { i with decoded := true }) := hp
      rw [hwait] at hp
      rcases List.mem_cons.1 hp with rfl | hp
      · refine ⟨data', i1, ?_, hdec.2 t ht⟩
        show buf N (ovl (buf s.d.hashSize x.2.hash) t.sigHash) = _ ∨ ∃ t' ∈ T, buf N (ovl (buf s.d.hashSize x.2.hash) t.sigHash) = _
        rw [hN, buf_ovl (by unfold buf; simp)]
        exact j4.sei hg
      · have := hrest p (by rw [hr]; exact List.mem_cons_of_mem _ hp)
        rw [this] at hq; cases hq
    · intro z hz hz1 hz2
      obtain ⟨y, hy, rfl⟩ := List.mem_map.1 hz
      rw [hlist] at hy
      split
      · rfl
      · rename_i e
        rw [if_neg e] at hz1 hz2
        exact h.bad y hy hz1 hz2

theorem prepare_trace (w : WFs s) (hC : Content env T N c L s) (hs : ∀ p ∈ L, Sound env N c S p.2) (h : Trace env T N c S L s) :
    (s.prepare env).Ends (Trace env T N c S L) := by
  unfold prepare
  dsimp only
  refine Res.Ends.andThen' (P := Trace env T N c S L) ?_ fun t _ _ ht => ?_
  · cases hx : nextSei s.list with
    | none => exact h
    | some x =>
      dsimp only
      refine Res.Ends.andThen' (decodeNext_trace w hC hs h hx) fun t _ _ ht => ?_
      refine Res.Ends.andThen' (P := Trace env T N c S L) ((detectLost_d env t).mono fun u hu => ?_) fun u _ _ hu => ?_
      · exact ht.keep hu.2.2 (by rw [hu.1]) (by rw [hu.1]) hu.2.1
      · exact (prepareGopHash_calm env u x.1).mono fun v hv => hu.calm hv.1 (by rw [hv.2.1]) (by rw [hv.2.1]) hv.2.2
  · split
    · exact ht
    · split
      · unfold verifyHash
        split
        · exact ht.keep rfl rfl rfl rfl
        · split
          · exact ht.keep rfl rfl rfl rfl
          · exact ht.keep rfl rfl rfl rfl
      · exact ht

/-- The first SEI is decoded after the preparations. -/
theorem prepare_first {s u : Validator} (w : WFs s) (h : s.prepare env = .ok u ()) :
    ∀ x, nextSei u.list = some x → x.2.decoded = true := by
  intro x hx
  have hp := (prepare_prep env s).of_ok h
  have e := Validator.Grow.nextSei hp.list
  rw [hx] at e
  cases hy : nextSei s.list with
  | none => rw [hy] at e; cases e
  | some y =>
    rw [hy] at e
    have e : x.1 = y.1 := Option.some.inj e
    exact (prepared w hy h).decoded x (nextSei_spec hx).1 e

theorem round_trace {s : Validator} (g : Good s) (hC : Content env T N c L s) (hs : ∀ p ∈ L, Sound env N c S p.2) (h : Trace env T N c S L s) :
    (s.round env).Ends (Trace env T N c S L) := by
  unfold Validator.round
  have hbl : s.begin.list = s.list := begin_list s
  have hbd : s.begin.d = s.d ∧ s.begin.sigHash = s.sigHash := by unfold begin; split <;> exact ⟨rfl, rfl⟩
  have hb : Trace env T N c S L s.begin := h.keep hbl (by rw [hbd.1]) (by rw [hbd.1]) hbd.2
  have wb : WFs s.begin := by unfold WFs; rw [begin_list, begin_brk]; exact g.wf
  have tb : Tidy s.begin := Tidy.of_list g.tidy hbl
  have cb : Content env T N c L s.begin := by
    have : s.begin = { s with rep := s.begin.rep } := by unfold begin; split <;> rfl
    refine hC.same wb ?_ ?_ ?_ ?_ ?_ ?_ ?_
    all_goals first | (rw [this]; done) | (rw [this]; exact .refl _)
  refine Res.Ends.andThen' (prepare_trace wb cb hs hb) fun u _ hu0 hu => ?_
  cases hl : updateLinkLoop u u.list with
  | ub e => trivial
  | err e => exact absurd hl (updateLinkLoop_ne_err _ _ _)
  | ok v =>
    dsimp only
    obtain ⟨l1, l2, l3⟩ := updateLinkLoop_prep hl
    have wu : WFs u := (((prepare_prep env s.begin).of_ok hu0).ev noStatus).wf wb
    have wv : WFs v := by
      have hb : v.brk = u.brk := by rw [l3]
      unfold WFs; rw [hb]; exact WF.of_addr wu l2
    have tv : Tidy v := updateLinkLoop_tidy ((prepare_tidy wb tb).of_ok hu0) hl
    have cal := updateLinkLoop_calm hl
    have hv : Trace env T N c S L v := hu.calm cal (by rw [l3]) (by rw [l3]) (by rw [l3])
    have hf : ∀ x, nextSei v.list = some x → x.2.decoded = true := by
      intro x hx
      have e := Validator.Grow.nextSei l1
      rw [hx] at e
      cases hy : nextSei u.list with
      | none => rw [hy] at e; cases e
      | some y =>
        rw [hy] at e
        have e : x.1 = y.1 := Option.some.inj e
        have hxv := (nextSei_spec hx).1
        rcases cal.mem hxv with k | ⟨z, hz, z1, z2⟩
        · obtain ⟨-, -, n, hn, -⟩ := nextSei_spec hx
          rw [hn] at k; cases k
        · rw [z2.decoded]
          have : z = y := WF.unique wu hz (nextSei_spec hy).1 (z1.trans e)
          rw [this]
          exact prepare_first wb hu0 y hy
    unfold conduct
    split
    · unfold validate
      cases hg : v.verifyGop with
      | err t e => exact absurd hg (verifyGop_ne_err _ _ _)
      | ub e => trivial
      | ok t p =>
        have hlt := (verifyGop_listed v).of_ok hg
        have ht : Trace env T N c S L t := hv.calm (verifyGop_calm wv (UsedPlain.of_tidyFrom tv) hf hg) (by rw [hlt]) (by rw [hlt]) (by rw [hlt])
        have hd : (t.conclude p).d = t.d ∧ (t.conclude p).sigHash = t.sigHash := by
          unfold conclude; exact ⟨rfl, rfl⟩
        exact ht.calm (t := (t.conclude p).finish) (conclude_calm t p ht.bad) (by show (t.conclude p).d.hashList = _; rw [hd.1])
          (by show (t.conclude p).d.gopHash = _; rw [hd.1]) hd.2
    · exact hv.keep (t := finish { v with rep := _ }) rfl rfl rfl rfl

/-! ### The other parts of a call -/

theorem optLoop_keeps (k : Nat) {s : Validator} (f : Bool) (mem : Bytes) (size : Nat) :
    (optLoop env k s f mem size).Ends fun t => t.d.hashList = s.d.hashList ∧ t.d.gopHash = s.d.gopHash := by
  induction k generalizing s f mem size with
  | zero => exact ⟨rfl, rfl⟩
  | succ k ih =>
    unfold optLoop
    split
    · exact ⟨rfl, rfl⟩
    · split
      · trivial
      · exact ⟨rfl, rfl⟩
      · rename_i t n hd _
        split
        · trivial
        · split
          · exact ih f _ _
          · rename_i ha
            have h4 : t ≠ 4 := by rintro rfl; exact ha (by decide)
            have h1 : t ≠ 1 := by rintro rfl; exact ha (by decide)
            have := (decTag_keepsList (env := env) s (mem.drop hd) n h4).and (decTag_keepsGop (env := env) s (mem.drop hd) n h1)
            generalize s.decTag env t (mem.drop hd) n = r at this
            cases r with
            | ub u => trivial
            | err u c => exact this
            | ok u _ =>
              exact (ih true _ _).mono fun v hv => ⟨hv.1.trans this.1, hv.2.trans this.2⟩

theorem recurrentLoop_keeps (l : NList) {s : Validator} :
    (recurrentLoop env l s).Ends fun t => t.d.hashList = s.d.hashList ∧ t.d.gopHash = s.d.gopHash := by
  induction l generalizing s with
  | nil => exact ⟨rfl, rfl⟩
  | cons x r ih =>
    unfold recurrentLoop
    split
    · split
      · refine Res.Ends.andThen' (P := fun t : Validator => t.d.hashList = s.d.hashList ∧ t.d.gopHash = s.d.gopHash) ?_ fun t f _ ht => ?_
        · unfold findOptional
          split
          · exact ⟨rfl, rfl⟩
          · exact optLoop_keeps _ _ _ _
        · split
          · exact ht
          · exact ih.mono fun v hv => ⟨hv.1.trans ht.1, hv.2.trans ht.2⟩
      · exact ih
    · exact ih

theorem recurrentDecoded_trace {s : Validator} (h : Trace env T N c S L s) : (s.recurrentDecoded env).Ends (Trace env T N c S L) := by
  have hk : (s.recurrentDecoded env).Ends fun t => t.d.hashList = s.d.hashList ∧ t.d.gopHash = s.d.gopHash := by
    unfold recurrentDecoded
    split
    · exact ⟨rfl, rfl⟩
    · exact recurrentLoop_keeps _
  exact (hk.and (recurrentDecoded_decoded env s)).mono fun t ht => h.keep ht.2.list ht.1.1 ht.1.2 ht.2.sigHash

theorem Hashed.calm {s t : Validator} (h : Hashed s t) : CalmList s.list t.list := by
  obtain ⟨f, ⟨a, e⟩, hf⟩ := h.items
  rw [e]
  refine CalmList.set fun x _ _ => ?_
  obtain ⟨h1, h2, e⟩ := hf x.2
  rw [e]
  exact .of_status rfl rfl rfl

theorem Trace.hashed {s t : Validator} (h : Trace env T N c S L s) (hh : Hashed s t) : Trace env T N c S L t :=
  h.calm (Hashed.calm hh) (by rw [hh.eq]) (by rw [hh.eq]) (by rw [hh.eq])

theorem reregister_trace (l : NList) : ∀ {s : Validator} (st : Option Rc), Trace env T N c S L s →
    (reregister env l s st).Ends (Trace env T N c S L) := by
  induction l with
  | nil => intro s st h; cases st <;> exact h
  | cons x r ih =>
    intro s st h
    unfold reregister
    split
    · trivial
    · split
      · exact ih st h
      · exact Res.Ends.andThen' ((hashItem_hashed env s x).mono fun t ht => h.hashed ht) fun t _ _ ht => ih none ht

theorem hashAlgoBlock_trace {s : Validator} (h : Trace env T N c S L s) (a : Nat) {n : Nalu} (hn : n.golden = false) :
    (s.hashAlgoBlock env a n).Ends (Trace env T N c S L) := by
  unfold hashAlgoBlock
  split
  · exact h
  · refine Res.Ends.andThen' (recurrentDecoded_trace h) fun t ok _ ht => ?_
    split
    · exact ht
    · dsimp only
      rw [if_neg (by rw [hn]; decide)]
      refine Res.Ends.andThen' (P := Trace env T N c S L) (ht.keep (t := { t with d := { t.d with hashAlgoKnown := true } }) rfl rfl rfl rfl)
        fun u _ _ hu => ?_
      split
      · exact hu.keep rfl rfl rfl rfl
      · exact reregister_trace _ _ hu

theorem waiting_append (l m : NList) : waiting (l ++ m) = waiting l ++ waiting m := by
  unfold waiting; rw [List.filter_append, List.map_append]

theorem TlvOf.cons {x : Nat × Item} {b : Nat} {data : Bytes} (h : TlvOf c L x) (hb : x.1 ≠ b) : TlvOf c ((b, data) :: L) x := by
  intro n hn
  obtain ⟨d, m, h1, h2⟩ := h n hn
  refine ⟨d, m, ?_, h2⟩
  rw [List.lookup_cons, beq_eq_false_iff_ne.2 hb]; exact h1

theorem DecodedFrom.cons {s : Validator} {a b : Nat} {data : Bytes} (h : DecodedFrom env T N c S L s a) (hb : a ≠ b) :
    DecodedFrom env T N c S ((b, data) :: L) s a := by
  obtain ⟨d, h1, h2⟩ := h
  refine ⟨d, ?_, h2⟩
  rw [List.lookup_cons, beq_eq_false_iff_ne.2 hb]; exact h1

/-- A new item. -/
theorem Trace.append {s t : Validator} {data : Bytes} {n n' : Nalu} {i : Item} (w : WFs s) (h : Trace env T N c S L s)
    (hn : parseNalu data c true true = .ok n) (hi : i.nalu = some n') (h1 : n'.gopSei = n.gopSei) (h2 : n'.golden = n.golden)
    (h3 : n'.tlvSize = n.tlvSize) (h4 : n'.tlvMem = n.tlvMem) (h5 : i.decoded = false) (h6 : i.status ≠ .N)
    (e : t.list = s.list ++ [(s.brk, i)]) (e1 : t.d.hashList = s.d.hashList) (e2 : t.d.gopHash = s.d.gopHash) (e3 : t.sigHash = s.sigHash) :
    Trace env T N c S ((s.brk, data) :: L) t := by
  have hw : ∀ p ∈ waiting [(s.brk, i)], p.2 = false := by
    intro p hp
    obtain ⟨x, hx, -, -, e⟩ := mem_waiting.1 hp
    rw [List.mem_singleton.1 hx] at e
    exact e.symm.trans h5
  refine ⟨?_, by rw [e1]; exact h.list, ?_, ?_, ?_⟩
  · intro x hx
    rw [e] at hx
    rcases List.mem_append.1 hx with hx | hx
    · exact (h.tlv x hx).cons (by have := w.lt x hx; omega)
    · rw [List.mem_singleton.1 hx]
      intro k hk
      have : n' = k := Option.some.inj (hi.symm.trans hk)
      subst this
      exact ⟨data, n, by simp [List.lookup], hn, h1, h2, h3, .inl h4⟩
  · rw [e, waiting_append]
    intro p hp
    cases hl : waiting s.list with
    | nil =>
      rw [hl, List.nil_append] at hp
      exact hw p (List.mem_of_mem_tail hp)
    | cons q r =>
      rw [hl, List.cons_append, List.tail_cons] at hp
      rcases List.mem_append.1 hp with hp | hp
      · exact h.order p (by rw [hl]; exact hp)
      · exact hw p hp
  · rw [e, waiting_append]
    intro p hp hd
    rcases List.mem_append.1 hp with hp | hp
    · obtain ⟨x, hx, -, hx1, -⟩ := mem_waiting.1 hp
      exact ((h.from_ p hp hd).same e1 e2 e3).cons (by have := w.lt x hx; omega)
    · rw [hw p hp] at hd; cases hd
  · rw [e]
    intro x hx g1 g2
    rcases List.mem_append.1 hx with hx | hx
    · exact h.bad x hx g1 g2
    · rw [List.mem_singleton.1 hx] at g2
      exact absurd g2 h6

theorem updateHashable_tlv {n n' : Nalu} (h : updateHashable n = .ok n') :
    n'.gopSei = n.gopSei ∧ n'.golden = n.golden ∧ n'.tlvSize = n.tlvSize ∧ n'.tlvMem = n.tlvMem := by
  unfold updateHashable at h
  split at h
  · cases h; exact ⟨rfl, rfl, rfl, rfl⟩
  · obtain ⟨q, -, h⟩ := Out.bind_eq_ok h
    split at h <;> (cases h; exact ⟨rfl, rfl, rfl, rfl⟩)

theorem statusOf_ne (n : Option Nalu) : statusOf n ≠ .N := by
  unfold statusOf
  repeat' split
  all_goals decide

theorem register_trace {s : Validator} {n : Nalu} {data : Bytes} {fl : VFlags} (w : WFs s) (h : Trace env T N c S L s)
    (hn : parseNalu data c true true = .ok n) :
    (Validator.register env { s with list := s.list.append s.brk (newItem (some n)), brk := s.brk + 1, flags := fl } s.brk n).Ends
      (Trace env T N c S ((s.brk, data) :: L)) := by
  have happ : s.list.append s.brk (newItem (some n)) = s.list ++ [(s.brk, newItem (some n))] := rfl
  unfold Validator.register
  split
  · trivial
  · split
    · exact h.append w hn (i := newItem (some n)) rfl rfl rfl rfl rfl rfl (statusOf_ne (some n)) happ rfl rfl rfl
    · split
      · trivial
      · rename_i e hu
        exact absurd hu (updateHashable_ne_err n e)
      · rename_i h1 h2 n' hu
        dsimp only
        rw [happ, set_append_new w, find_append_new w]
        dsimp only
        obtain ⟨u1, u2, u3, u4⟩ := updateHashable_tlv hu
        have ht : Trace env T N c S ((s.brk, data) :: L)
            { s with list := s.list ++ [(s.brk, { newItem (some n) with nalu := some n' })], brk := s.brk + 1, flags := fl } :=
          h.append w hn (i := { newItem (some n) with nalu := some n' }) rfl u1 u2 u3 u4 rfl (statusOf_ne (some n)) rfl rfl rfl rfl
        exact (hashItem_hashed env _ _).mono fun t hh => ht.hashed hh

theorem copyNalu_tlv {b : Bool} {n n' : Nalu} (h : copyNalu b n = .ok (some n')) :
    n'.gopSei = n.gopSei ∧ n'.golden = n.golden ∧ n'.tlvSize = n.tlvSize ∧ n'.tlvMem = n.tlvMem.take n.tlvSize := by
  unfold copyNalu at h
  split at h
  · cases h
  split at h
  · cases h
  split at h
  · cases h
  · cases h
    exact ⟨rfl, rfl, rfl, rfl⟩

theorem waiting_set_sublist {l : NList} {a : Nat} {f : Item → Item}
    (h : ∀ x ∈ l, x.1 = a → (f x.2).status = x.2.status ∧ (f x.2).decoded = x.2.decoded ∧ ((f x.2).isSei = true → x.2.isSei = true)) :
    (waiting (l.set a f)).Sublist (waiting l) := by
  induction l with
  | nil => exact .slnil
  | cons y l ih =>
    have e : NList.set (y :: l) a f = (if y.1 = a then (y.1, f y.2) else y) :: NList.set l a f := rfl
    have ih := ih fun x hx => h x (List.mem_cons_of_mem _ hx)
    rw [e, waiting_cons, waiting_cons]
    split
    · rename_i hy
      obtain ⟨h1, h2, h3⟩ := h y List.mem_cons_self hy
      by_cases hw : isWaiting (y.1, f y.2) = true
      · have hw' : isWaiting y = true := by
          unfold isWaiting at hw ⊢
          rw [Bool.and_eq_true] at hw ⊢
          exact ⟨h3 hw.1, by rw [← h1]; exact hw.2⟩
        rw [if_pos hw, if_pos hw']
        show ((y.1, (f y.2).decoded) :: _).Sublist _
        rw [h2]
        exact ih.cons₂ _
      · rw [if_neg hw]
        split
        · exact ih.cons _
        · exact ih
    · rename_i hy
      split
      · exact ih.cons₂ _
      · exact ih

theorem trace_step (he : Algs env T N) (c : Codec) (S : Src → Prop) :
    CallStep env fun L s => (Good s ∧ Content env T N c L s) ∧ ((∀ p ∈ L, Sound env N c S p.2) → Trace env T N c S L s) where
  misc L s s' hm h := by
    refine ⟨(content_step he c).misc L s s' hm h.1, fun hs => ?_⟩
    exact (h.2 hs).keep (by rw [hm]) (by rw [hm]) (by rw [hm]) (by rw [hm])
  round L s h := by
    refine ((content_step he c).round L s h.1).and ?_
    by_cases hs : ∀ p ∈ L, Sound env N c S p.2
    · exact (round_trace h.1.1 h.1.2 hs (h.2 hs)).mono fun t ht _ => ht
    · exact ((content_step he c).round L s h.1).mono fun t _ hs' => absurd hs' hs
  recurrent L s h := by
    refine ((content_step he c).recurrent L s h.1).and ?_
    by_cases hs : ∀ p ∈ L, Sound env N c S p.2
    · exact (recurrentDecoded_trace (h.2 hs)).mono fun t ht _ => ht
    · exact ((content_step he c).recurrent L s h.1).mono fun t _ hs' => absurd hs' hs
  noKey L s h := ⟨(content_step he c).noKey L s h.1, fun hs => (h.2 hs).keep rfl rfl rfl rfl⟩
  mark L s x st h hx hst := by
    refine ⟨(content_step he c).mark L s x st h.1 hx hst, fun hs => ?_⟩
    have hT := h.2 hs
    have hno : ¬ IsGolden x := by
      rintro ⟨n, h1, h2⟩
      obtain ⟨data, m, k1, k2, -, k4, -⟩ := hT.tlv x (List.mem_of_getLast? hx) n h1
      have := (hs _ (lookup_mem k1) m k2).1
      rw [← k4, h2] at this
      cases this
    rcases hst with ⟨-, -, hg⟩ | ⟨-, hg⟩ | rfl
    · exact absurd hg hno
    · exact absurd hg hno
    · exact hT.calm (set_calm (st := .E) x.1 (by decide) (by decide)) rfl rfl rfl
  bad L s n data h hn hv := by
    refine ⟨(content_step he c).bad L s n data h.1 hn hv, fun hs => ?_⟩
    rw [h.1.2.core.codec] at hn
    exact (h.2 fun p hp => hs p (List.mem_cons_of_mem _ hp)).append h.1.1.wf hn (i := newItem (some n)) rfl rfl rfl rfl rfl rfl (statusOf_ne (some n))
      rfl rfl rfl rfl
  enter L s n data fl h hn := by
    have h1 := (content_step he c).enter L s n data fl h.1 hn
    refine h1.and ?_
    rw [h.1.2.core.codec] at hn
    by_cases hs : ∀ p ∈ L, Sound env N c S p.2
    · exact (register_trace h.1.1.wf (h.2 hs) hn).mono fun t ht _ => ht
    · exact h1.mono fun t _ hs' => absurd (fun p hp => hs' p (List.mem_cons_of_mem _ hp)) hs
  algo L s a n data h hm hn := by
    have h1 := (content_step he c).algo L s a n data h.1 hm hn
    refine h1.and ?_
    rw [h.1.2.core.codec] at hn
    by_cases hs : ∀ p ∈ L, Sound env N c S p.2
    · exact (hashAlgoBlock_trace (h.2 hs) a (hs _ hm n hn).1).mono fun t ht _ => ht
    · exact h1.mono fun t _ hs' => absurd hs' hs
  copy L s x n cp h hx hn hc := by
    refine ⟨(content_step he c).copy L s x n cp h.1 hx hn hc, fun hs => ?_⟩
    have hT := h.2 hs
    have key : ∀ y ∈ s.list, y.1 = x.1 → y = x := fun y hy e => WF.unique h.1.1.wf hy hx e
    have hsei : ∀ y ∈ s.list, y.1 = x.1 → ({ y.2 with nalu := cp, taken := true } : Item).isSei = true → y.2.isSei = true := by
      intro y hy e hq
      rw [key y hy e]
      cases cp with
      | none => cases hq
      | some n' =>
        unfold Item.isSei
        rw [hn]
        exact (copyNalu_tlv hc).1.symm.trans hq
    have hsub : (waiting (s.list.set x.1 fun i => { i with nalu := cp, taken := true })).Sublist (waiting s.list) :=
      waiting_set_sublist (f := fun i => { i with nalu := cp, taken := true }) fun y hy e => ⟨rfl, rfl, hsei y hy e⟩
    refine ⟨?_, hT.list, ?_, ?_, ?_⟩
    · intro z hz k hk
      obtain ⟨y, hy, rfl⟩ := List.mem_map.1 hz
      by_cases e : y.1 = x.1
      · rw [if_pos e] at hk ⊢
        have hk : cp = some k := hk
        subst hk
        obtain ⟨u1, u2, u3, u4⟩ := copyNalu_tlv hc
        obtain ⟨data, m, k1, k2, k3, k4, k5, k6⟩ := hT.tlv x hx n hn
        refine ⟨data, m, ?_, k2, u1.trans k3, u2.trans k4, u3.trans k5, .inr ?_⟩
        · show L.lookup y.1 = _
          rw [e]; exact k1
        · rw [u4, k5]
          rcases k6 with q | q
          · rw [q]
          · rw [q, List.take_take, Nat.min_self]
      · rw [if_neg e] at hk ⊢
        exact hT.tlv y hy k hk
    · intro p hp
      exact hT.order p (Sublist.tail_subset hsub p hp)
    · intro p hp hq
      exact hT.from_ p (hsub.subset hp) hq
    · intro z hz hz1 hz2
      obtain ⟨y, hy, rfl⟩ := List.mem_map.1 hz
      by_cases e : y.1 = x.1
      · rw [if_pos e] at hz1 hz2 ⊢
        exact hT.bad y hy (hsei y hy e hz1) hz2
      · rw [if_neg e] at hz1 hz2 ⊢
        exact hT.bad y hy hz1 hz2
  clean L s h := by
    refine ⟨(content_step he c).clean L s h.1, fun hs => ?_⟩
    exact (h.2 hs).calm (CalmList.suffix (List.dropWhile_suffix _)) rfl rfl rfl
  reset L s h := by
    refine ⟨(content_step he c).reset L s h.1, fun hs => ⟨?_, .inl rfl, ?_, ?_, ?_⟩⟩
    · intro x hx; cases hx
    · intro x hx; cases hx
    · intro x hx; cases hx
    · intro x hx; cases hx
  key L s k h hk := by
    refine ((content_step he c).key L s k h.1 hk).and ?_
    unfold setPublicKey
    rw [if_neg hk]
    split
    · exact h.2
    · split
      · exact h.2
      · dsimp only
        split
        · exact fun hs => (h.2 hs).keep rfl rfl rfl rfl
        · exact fun hs => (h.2 hs).keep rfl rfl rfl rfl

theorem trace_new (c : Codec) (S : Src → Prop) : Trace env T N c S [] (newValidator env c) :=
  ⟨fun x hx => (by cases hx), .inl rfl, fun x hx => (by cases hx), fun x hx => (by cases hx), fun x hx => (by cases hx)⟩

end Validator
end SV
