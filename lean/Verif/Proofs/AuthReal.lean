import Verif.Proofs.AuthSteps
/-! The NAL units held by a session, apart from missing ones. -/
namespace SV


/-- The NAL units of a list, without the missing ones: address, letter and size of the payload. -/
def real (l : NList) : List (Nat × Char × Nat) := l.filterMap fun x => x.2.nalu.map fun n => (x.1, typeChar (some n), n.tlvSize)

/-- A NAL unit that was added: address, letter and size of the payload. -/
def realKey (c : Codec) (p : Nat × Bytes) : Nat × Char × Nat :=
  match parseNalu p.2 c true true with
  | .ok n => (p.1, typeChar (some n), n.tlvSize)
  | _ => (p.1, '?', 0)

theorem real_cons (x : Nat × Item) (l : NList) :
    real (x :: l) = (x.2.nalu.map fun n => (x.1, typeChar (some n), n.tlvSize)).toList ++ real l := by
  unfold real
  rw [List.filterMap_cons]
  cases x.2.nalu <;> rfl

theorem real_append (l m : NList) : real (l ++ m) = real l ++ real m := by
  unfold real; rw [List.filterMap_append]

theorem Grow.real {S : Option Nalu → Status → Prop} {l l' : NList} (h : Grow S l l') : SV.real l' = SV.real l := by
  induction h with
  | nil => rfl
  | keep k _ ih => rw [real_cons, real_cons, k.nalu, ih]
  | miss m _ ih => rw [real_cons, m.1, ih]; rfl

theorem real_set {l : NList} {a : Nat} {f : Item → Item}
    (h : ∀ x ∈ l, x.1 = a → (f x.2).nalu.map (fun n => (typeChar (some n), n.tlvSize)) = x.2.nalu.map fun n => (typeChar (some n), n.tlvSize)) :
    real (l.set a f) = real l := by
  unfold real NList.set
  rw [List.filterMap_map]
  induction l with
  | nil => rfl
  | cons x l ih =>
  rw [List.filterMap_cons, List.filterMap_cons, ih fun y hy => h y (List.mem_cons_of_mem _ hy)]
  replace h := h x List.mem_cons_self
  suffices hs : (if x.1 = a then (x.1, f x.2) else x).2.nalu.map (fun n => ((if x.1 = a then (x.1, f x.2) else x).1, typeChar (some n), n.tlvSize)) =
      x.2.nalu.map fun n => (x.1, typeChar (some n), n.tlvSize) by
    rw [← hs]; rfl
  by_cases e : x.1 = a
  · rw [if_pos e]
    have := h e
    dsimp only
    have key : ∀ o : Option Nalu, o.map (fun n => (x.1, typeChar (some n), n.tlvSize)) =
        (o.map fun n => (typeChar (some n), n.tlvSize)).map fun p => (x.1, p.1, p.2) := by
      intro o; cases o <;> rfl
    rw [key, key, this]
  · rw [if_neg e]

/-- Missing items have no NAL unit. -/
def MissOk (l : NList) : Prop := ∀ x ∈ l, x.2.status = .M → x.2.nalu = none

theorem MissOk.cons {x : Nat × Item} {l : NList} (h1 : x.2.status = .M → x.2.nalu = none) (h : MissOk l) : MissOk (x :: l) := fun y hy => by
  rcases List.mem_cons.1 hy with rfl | hy
  · exact h1
  · exact h y hy

theorem MissOk.tail {x : Nat × Item} {l : NList} (h : MissOk (x :: l)) : MissOk l := fun z hz => h z (List.mem_cons_of_mem _ hz)

theorem Grow.missOk {S : Option Nalu → Status → Prop} (hS : ∀ n, ¬ S n .M) {l l' : NList} (h : Grow S l l')
    (m : MissOk l) : MissOk l' := by
  induction h with
  | nil => exact m
  | @keep a x y l l' k _ ih =>
    refine .cons ?_ (ih m.tail)
    have hx := m _ List.mem_cons_self
    dsimp only at hx ⊢
    rw [k.nalu]
    rcases k.status with e | ⟨e, s⟩
    · rw [e]; exact hx
    · exact fun e' => absurd (e' ▸ s) (hS _)
  | miss k _ ih => exact .cons (fun _ => k.1) (ih m)

theorem Undo.real {l l' : NList} (h : Undo l l') (m : MissOk l) : SV.real l' = SV.real l := by
  induction h with
  | nil => rfl
  | same _ ih => rw [real_cons, real_cons, ih m.tail]
  | @reset x l l' _ ih =>
    rw [real_cons, real_cons, ih m.tail]
    dsimp only
    rw [resetStatus_nalu]
  | @drop x l l' e _ ih =>
    rw [real_cons, ih m.tail, m x List.mem_cons_self e]; rfl

theorem Undo.missOk {l l' : NList} (h : Undo l l') (m : MissOk l) : MissOk l' := by
  induction h with
  | nil => exact m
  | same _ ih => exact .cons (m _ List.mem_cons_self) (ih m.tail)
  | @reset x l l' _ ih =>
    refine .cons ?_ (ih m.tail)
    have hx := m _ List.mem_cons_self
    rcases resetStatus_cases x.2 with h | h | ⟨h', h⟩ <;> (dsimp only; rw [h])
    · exact hx
    · intro e; cases e
    · intro e; cases e
  | drop _ _ ih => exact ih m.tail

theorem real_core {l l' : NList} (h : Validator.core l' = Validator.core l) : real l' = real l := by
  have key : ∀ l : NList, real l = (Validator.core l).filterMap fun p => p.2.1.map fun n => (p.1, typeChar (some n), n.tlvSize) := by
    intro l
    unfold real Validator.core
    rw [List.filterMap_map]
    rfl
  rw [key, key, h]

theorem MissOk.core {l l' : NList} (h : Validator.core l' = Validator.core l) (m : MissOk l) : MissOk l' := fun x hx e => by
  have hm : (x.1, x.2.nalu, x.2.status) ∈ Validator.core l := by
    rw [← h]; exact List.mem_map_of_mem (f := fun x : Nat × Item => (x.1, x.2.nalu, x.2.status)) hx
  obtain ⟨w, hw, e3⟩ := List.mem_map.1 hm
  injection e3 with e3 e4
  injection e4 with e4 e5
  rw [← e4]
  exact m w hw (e5.trans e)

theorem MissOk.set {l : NList} {a : Nat} {f : Item → Item} (m : MissOk l)
    (h : ∀ x ∈ l, x.1 = a → ((f x.2).status = .M → (f x.2).nalu = none)) : MissOk (l.set a f) := by
  unfold NList.set
  intro y hy
  obtain ⟨x, hx, rfl⟩ := List.mem_map.1 hy
  by_cases e : x.1 = a
  · rw [if_pos e]; exact h x hx e
  · rw [if_neg e]; exact m x hx

namespace Validator

/-- The list holds the NAL units `B`, apart from missing ones. -/
def Shows (rel : List (Nat × Char × Nat) → List (Nat × Char × Nat) → Prop) (c : Codec) (B : List (Nat × Char × Nat)) (s : Validator) : Prop :=
  WFs s ∧ s.codec = c ∧ ((∀ k ∈ B, k.2.2 < 2 ^ 63) → MissOk s.list ∧ rel (real s.list) B)

theorem begin_codec (s : Validator) : s.begin.codec = s.codec := by unfold begin; split <;> rfl

variable {rel : List (Nat × Char × Nat) → List (Nat × Char × Nat) → Prop} {c : Codec} {B : List (Nat × Char × Nat)}

theorem Shows.of_list {s t : Validator} (h : Shows rel c B s) (hl : t.list = s.list) (hb : t.brk = s.brk) (hc : t.codec = s.codec) :
    Shows rel c B t := by
  refine ⟨?_, hc.trans h.2.1, ?_⟩
  · unfold WFs; rw [hl, hb]; exact h.1
  · rw [hl]; exact h.2.2

theorem Shows.of_grow {S : Option Nalu → Status → Prop} (hS : ∀ n, ¬ S n .M) {s t : Validator} (h : Shows rel c B s)
    (hl : Grow S s.list t.list) (w : WFs t) (hc : t.codec = s.codec) : Shows rel c B t :=
  ⟨w, hc.trans h.2.1, fun hB => ⟨hl.missOk hS (h.2.2 hB).1, by rw [hl.real]; exact (h.2.2 hB).2⟩⟩

theorem conclude_codec (t : Validator) (p : Bool × Int × Int) : (t.conclude p).codec = t.codec := rfl

theorem shows_round : RoundInv (Shows rel c B) where
  pending _ h := h
  begin s h := h.of_list (begin_list s) (begin_brk s) (begin_codec s)
  prep env s h := (prepare_prep env s).mono fun t hp => h.of_grow (fun _ h => h) hp.list ((hp.ev noStatus).wf h.1) hp.codec
  link u v h hl := by
    have hw := wfs_inv.link u v h.1 hl
    obtain ⟨v1, v2, v3⟩ := updateLinkLoop_prep hl
    exact h.of_grow (fun _ h => h) v1 hw (by rw [v3])
  verify v t p h hv := by
    have := verifyGop_ver h.1 hv
    refine h.of_grow not_valid_M this.ev.grow (this.ev.wf h.1) ?_
    rw [this.eq]
  conclude t p h := by
    refine ⟨wfs_conclude t p h.1, h.2.1, fun hB => ?_⟩
    obtain ⟨m, r⟩ := h.2.2 hB
    have g := clearUsed_grow noStatus t.list
    have m1 := g.missOk (fun _ h => h) m
    have r1 : rel (real (clearUsed t.list)) B := by rw [g.real]; exact r
    show MissOk (if _ then _ else _) ∧ rel (real (if _ then _ else _)) B
    split
    · exact ⟨(removeMissing_undo _).missOk m1, by rw [(removeMissing_undo _).real m1]; exact r1⟩
    · exact ⟨m1, r1⟩
  notSigned _ h := h
  finish _ h := h

theorem Shows.hashed {s t : Validator} (h : Shows rel c B s) (hh : Hashed s t) : Shows rel c B t := by
  have hb : t.brk = s.brk := by rw [hh.eq]
  refine ⟨?_, ?_, fun hB => ⟨(h.2.2 hB).1.core hh.core, by rw [real_core hh.core]; exact (h.2.2 hB).2⟩⟩
  · unfold WFs; rw [hb]; exact WF.of_addr h.1 hh.addr
  · have : t.codec = s.codec := by rw [hh.eq]
    exact this.trans h.2.1

theorem Shows.set {s : Validator} {a : Nat} {f : Item → Item} (h : Shows rel c B s)
    (h1 : (∀ k ∈ B, k.2.2 < 2 ^ 63) → ∀ x ∈ s.list, x.1 = a → (f x.2).nalu.map (fun n => (typeChar (some n), n.tlvSize)) = x.2.nalu.map fun n => (typeChar (some n), n.tlvSize))
    (h2 : ∀ x ∈ s.list, x.1 = a → (f x.2).status = .M → x.2.status = .M) :
    Shows rel c B { s with list := s.list.set a f } := by
  refine ⟨WF.of_addr h.1 (set_addr _ _ _), h.2.1, fun hB => ?_⟩
  obtain ⟨m, r⟩ := h.2.2 hB
  refine ⟨m.set fun x hx e hM => ?_, by dsimp only; rw [real_set (h1 hB)]; exact r⟩
  have := h1 hB x hx e
  rw [m x hx (h2 x hx e hM)] at this
  cases hn : (f x.2).nalu with
  | none => rfl
  | some n => rw [hn] at this; cases this

/-- The list with what has been added. -/
abbrev ShowsL (rel : List (Nat × Char × Nat) → List (Nat × Char × Nat) → Prop) (c : Codec) (R : List (Nat × Char × Nat)) (L : Log) : Validator → Prop :=
  Shows rel c (R ++ L.reverse.map (realKey c))

theorem WF.unique {l : NList} {b : Nat} (w : WF l b) {x y : Nat × Item} (hx : x ∈ l) (hy : y ∈ l) (e : x.1 = y.1) : x = y := by
  have := w.nodup
  clear w
  induction l with
  | nil => cases hx
  | cons z l ih =>
    rw [List.map_cons, List.nodup_cons] at this
    rcases List.mem_cons.1 hx with hx1 | hx1 <;> rcases List.mem_cons.1 hy with hy1 | hy1
    · rw [hx1, hy1]
    · rw [hx1] at e
      exact absurd (e ▸ List.mem_map_of_mem (f := Prod.fst) hy1) this.1
    · rw [hy1] at e
      exact absurd (e ▸ List.mem_map_of_mem (f := Prod.fst) hx1) this.1
    · exact ih hx1 hy1 this.2

theorem shows_body (env : AuthEnv) (R : List (Nat × Char × Nat)) (h1 : ∀ a b k, rel a b → rel (a ++ [k]) (b ++ [k]))
    (h2 : ∀ a b, rel a b → a ⊆ b) : BodyInv env (ShowsL rel c R) where
  misc _ s s' hm h := h.of_list (by rw [hm]) (by rw [hm]) (by rw [hm])
  round _ _ h := shows_round.round env h
  recurrent _ s h := (recurrentDecoded_decoded env s).mono fun t ht => h.of_list ht.list ht.brk ht.codec
  known _ _ h := h
  golden _ s a n data h _ _ := by
    unfold prepareGolden
    refine Res.Ends.andThen' ((decodeSei_prep env s _ _).mono fun t ht => h.of_grow (fun _ h => h) ht.list ((ht.ev noStatus).wf h.1) ht.codec) fun t _ _ ht => ?_
    dsimp only
    have ht' := ht.set (a := a) (f := fun i => { i with decoded := true }) (fun _ _ _ _ => rfl) fun _ _ _ h => h
    split
    · trivial
    · rename_i x _
      refine Res.Ends.andThen' ((hashItem_hashed env _ x).mono fun u hu => ht'.hashed hu) fun u _ _ hu => ?_
      split
      · trivial
      · split
        · trivial
        · exact shows_round.prep env _ (hu.of_list (t := _) rfl rfl rfl)
  hash _ s x h _ := (hashItem_hashed env s x).mono fun t ht => h.hashed ht
  noKey _ _ h := h
  mark _ s x st h _ hst := by
    refine h.set (fun _ _ _ _ => rfl) fun _ _ _ e => ?_
    rcases hst with ⟨e', -⟩ | ⟨e', -⟩ | e' <;> (rw [e'] at e; cases e)
  append L s n data h hn := by
    refine ⟨WF.append h.1 _, h.2.1, fun hB => ?_⟩
    rw [List.reverse_cons, List.map_append, ← List.append_assoc] at hB ⊢
    obtain ⟨m, r⟩ := h.2.2 fun k hk => hB k (List.mem_append_left _ hk)
    have hk : realKey c (s.brk, data) = (s.brk, typeChar (some n), n.tlvSize) := by
      unfold realKey
      rw [← h.2.1, hn]
    have hs : statusOf (some n) ≠ .M := by
      unfold statusOf
      dsimp only
      repeat' split
      all_goals decide
    refine ⟨fun x hx e => ?_, ?_⟩
    · rcases List.mem_append.1 hx with hx | hx
      · exact m x hx e
      · cases List.mem_singleton.1 hx; exact absurd e hs
    · show rel (real (s.list ++ [(s.brk, newItem (some n))])) _
      rw [real_append]
      have : real [(s.brk, newItem (some n))] = [realKey c (s.brk, data)] := by rw [hk]; rfl
      rw [this]
      exact h1 _ _ _ r
  update L s pre a n n' data h hl _ hn _ hu := by
    refine h.set (fun _ x hx e => ?_) fun _ _ _ h => h
    have : x = (a, newItem (some n)) := WF.unique h.1 hx (by rw [hl]; exact List.mem_append_right _ List.mem_cons_self) e
    rw [this]
    have hu' : typeChar (some n') = typeChar (some n) ∧ n'.tlvSize = n.tlvSize := by
      unfold updateHashable at hu
      split at hu
      · cases hu; exact ⟨rfl, rfl⟩
      · obtain ⟨o, -, hu⟩ := Out.bind_eq_ok hu
        split at hu <;> (cases hu; exact ⟨rfl, rfl⟩)
    show some (typeChar (some n'), n'.tlvSize) = some (typeChar (some n), n.tlvSize)
    rw [hu'.1, hu'.2]
  copy L s x n cp h hx hn hc := by
    refine h.set (fun hB y hy e => ?_) fun _ _ _ h => h
    have : y = x := WF.unique h.1 hy hx e
    subst this
    have hm : (y.1, typeChar (some n), n.tlvSize) ∈ real s.list := List.mem_filterMap.2 ⟨y, hx, by rw [hn]; rfl⟩
    have hlt : n.tlvSize < 2 ^ 63 := hB _ (h2 _ _ (h.2.2 hB).2 hm)
    unfold copyNalu at hc
    rw [if_neg (Nat.not_le.2 hlt)] at hc
    split at hc
    · cases hc
    · split at hc
      · cases hc
      · cases hc
        rw [hn]; rfl

theorem shows_inv (env : AuthEnv) (c : Codec) : CallInv env (ShowsL (· <:+ ·) c []) where
  toBodyInv := shows_body env [] (fun a b k h => by
    obtain ⟨t, rfl⟩ := h
    exact ⟨t, (List.append_assoc _ _ _).symm⟩) fun a b h => h.subset
  clean L s h := by
    have hs : cleanUp s.list <:+ s.list := List.dropWhile_suffix _
    refine ⟨WF.sublist h.1 hs.sublist, h.2.1, fun hB => ?_⟩
    obtain ⟨m, r⟩ := h.2.2 hB
    refine ⟨fun x hx => m x (hs.subset hx), ?_⟩
    obtain ⟨p, hp⟩ := hs
    have e := real_append p (cleanUp s.list)
    rw [hp] at e
    exact List.IsSuffix.trans ⟨real p, e.symm⟩ r
  reset L s h := by
    refine ⟨⟨List.nodup_nil, fun _ h => by cases h⟩, h.2.1, fun _ => ⟨fun _ h => (by cases h), List.nil_suffix⟩⟩
  key L s k h hk := by
    unfold setPublicKey
    rw [if_neg hk]
    split
    · exact h
    · split
      · exact h
      · dsimp only
        split
        · exact h.of_list rfl rfl rfl
        · exact h.of_list rfl rfl rfl

/-- The session holds the NAL units `M`, apart from missing ones. -/
structure Holds (c : Codec) (M : Log) (s : Validator) : Prop where
  wf : WFs s
  codec : s.codec = c
  miss : MissOk s.list
  real : real s.list = M.map (realKey c)

/-- The payload sizes are not negative ones. -/
def SmallKeys (c : Codec) (M : Log) : Prop := ∀ p ∈ M, (realKey c p).2.2 < 2 ^ 63

theorem Holds.addH26x {env : AuthEnv} {c : Codec} {M : Log} {s : Validator} {data : Bytes} (h : Holds c M s) (hM : SmallKeys c M)
    (hd : SmallKeys c [(s.brk, data)]) :
    (s.addH26x env data).Ends (Holds c (M ++ logStep s [] (.nalu data))) := by
  have h0 : ShowsL Eq c (M.map (realKey c)) [] s :=
    ⟨h.wf, h.codec, fun _ => ⟨h.miss, by rw [h.real]; simp⟩⟩
  have h1 := (shows_body env (M.map (realKey c)) (rel := Eq) (c := c) (fun a b k h => by rw [h]) fun a b h => by rw [h]; exact fun _ h => h).addH26x (data := data) h0
  have hL : SmallKeys c (logStep s [] (.nalu data)) ∧ (logStep s [] (.nalu data)).reverse = logStep s [] (.nalu data) := by
    rw [logStep_nalu]
    split
    · exact ⟨(fun _ h => by cases h), rfl⟩
    · split
      · exact ⟨hd, rfl⟩
      · exact ⟨(fun _ h => by cases h), rfl⟩
  refine h1.mono fun t ht => ?_
  obtain ⟨m, r⟩ := ht.2.2 fun k hk => by
    rcases List.mem_append.1 hk with hk | hk
    · obtain ⟨p, hp, rfl⟩ := List.mem_map.1 hk
      exact hM p hp
    · obtain ⟨p, hp, rfl⟩ := List.mem_map.1 hk
      exact hL.1 p (List.mem_reverse.1 hp)
  exact ⟨ht.1, ht.2.1, m, by rw [r, hL.2, List.map_append]⟩

theorem Holds.misc {c : Codec} {M : Log} {s t : Validator} (h : Holds c M s) (hl : t.list = s.list) (hb : t.brk = s.brk) (hc : t.codec = s.codec) :
    Holds c M t := by
  refine ⟨?_, hc.trans h.codec, by rw [hl]; exact h.miss, by rw [hl]; exact h.real⟩
  unfold WFs; rw [hl, hb]; exact h.wf

/-- The number of NAL units that a clean up removes. -/
def goneCount (l : NList) : Nat := (real (l.takeWhile fun x => x.2.status ≠ .P)).length

theorem Holds.clean {c : Codec} {M : Log} {s : Validator} (h : Holds c M s) :
    Holds c (M.drop (goneCount s.list)) { s with list := cleanUp s.list } := by
  have hs : cleanUp s.list <:+ s.list := List.dropWhile_suffix _
  refine ⟨WF.sublist h.wf hs.sublist, h.codec, fun x hx => h.miss x (hs.subset hx), ?_⟩
  have e := real_append (s.list.takeWhile fun x => decide (x.2.status ≠ .P)) (cleanUp s.list)
  unfold cleanUp at e
  rw [List.takeWhile_append_dropWhile] at e
  rw [List.map_drop, ← h.real, e]
  unfold goneCount
  rw [List.drop_left]
  rfl

theorem Holds.setPublicKey {env : AuthEnv} {c : Codec} {M : Log} {s : Validator} (k : Bytes) (h : Holds c M s) :
    (s.setPublicKey env k).Ends (Holds c M) := by
  unfold Validator.setPublicKey
  split
  · exact h
  · split
    · exact h
    · split
      · exact h
      · dsimp only
        split
        · exact h.misc rfl rfl rfl
        · exact h.misc rfl rfl rfl

end Validator
end SV
