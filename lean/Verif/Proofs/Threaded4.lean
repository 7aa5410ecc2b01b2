import Verif.Proofs.Threaded3
import Verif.Spec.Threaded
namespace SV.Threaded
open SV.Spec

theorem SigsOf_snoc {sign : Nat → Bytes → Option Bytes} : ∀ {hs ds : List Bytes} {h d : Bytes},
    SigsOf sign hs ds → IsSig sign h d → SigsOf sign (hs ++ [h]) (ds ++ [d])
  | [], [], _, _, _, h2 => ⟨h2, trivial⟩
  | [], _ :: _, _, _, h1, _ => absurd h1 (by simp [SigsOf])
  | _ :: _, [], _, _, h1, _ => absurd h1 (by simp [SigsOf])
  | _ :: _, _ :: _, _, _, h1, h2 => ⟨h1.1, SigsOf_snoc h1.2 h2⟩

theorem acceptedBy_snoc (k : Nat) (es : List Ev) (e : Ev) :
    acceptedBy k (es ++ [e]) = acceptedBy k es ++ acceptedBy k [e] := by
  simp [acceptedBy, List.filterMap_append]

theorem deliveredTo_snoc (k : Nat) (es : List Ev) (e : Ev) :
    deliveredTo k (es ++ [e]) = deliveredTo k es ++ deliveredTo k [e] := by
  simp [deliveredTo, List.filterMap_append]

/-- Hash being signed for `id`. -/
def sgnOf (id : UInt32) (w : Option (UInt32 × Bytes)) : List Bytes :=
  match w with
  | none => []
  | some w => if w.1 = id then [w.2] else []

/-- Waiting outcomes together with the hashes they belong to. -/
abbrev GQ := List (UInt32 × Bytes × Option Bytes)

def outsOf (id : UInt32) (gq : GQ) : List Bytes := (gq.filter fun x => x.1 == id).map fun x => x.2.1
def insOf (id : UInt32) (iq : List (UInt32 × Bytes)) : List Bytes :=
  (iq.filter fun x => x.1 == id).map Prod.snd

theorem outsOf_append (id : UInt32) (a b : GQ) : outsOf id (a ++ b) = outsOf id a ++ outsOf id b := by
  simp [outsOf]
theorem insOf_append (id : UInt32) (a b : List (UInt32 × Bytes)) :
    insOf id (a ++ b) = insOf id a ++ insOf id b := by simp [insOf]

theorem outsOf_filter (id : UInt32) (p : UInt32 → Bool) (gq : GQ) :
    (outsOf id (gq.filter fun x => p x.1)).Sublist (outsOf id gq) := by
  unfold outsOf
  exact ((List.filter_sublist).filter _).map _

theorem insOf_filter (id : UInt32) (p : UInt32 → Bool) (iq : List (UInt32 × Bytes)) :
    (insOf id (iq.filter fun x => p x.1)).Sublist (insOf id iq) := by
  unfold insOf
  exact ((List.filter_sublist).filter _).map _

theorem outsOf_nil (id : UInt32) (gq : GQ) (h : ∀ x ∈ gq, x.1 ≠ id) : outsOf id gq = [] := by
  unfold outsOf
  rw [List.filter_eq_nil_iff.2]
  · rfl
  · intro x hx; simpa using h x hx

theorem insOf_nil (id : UInt32) (iq : List (UInt32 × Bytes)) (h : ∀ x ∈ iq, x.1 ≠ id) :
    insOf id iq = [] := by
  unfold insOf
  rw [List.filter_eq_nil_iff.2]
  · rfl
  · intro x hx; simpa using h x hx

/-- What every session got so far and what is under way for it. -/
structure Hist (sign : Nat → Bytes → Option Bytes) (handles : List (Option UInt32))
    (signing : Option (UInt32 × Bytes)) (iq : List (UInt32 × Bytes)) (gq : GQ) (es : List Ev) :
    Prop where
  alive : ∀ (k : Nat) (id : UInt32), handles[k]? = some (some id) → ∃ dh, SigsOf sign dh (deliveredTo k es) ∧
    (dh ++ outsOf id gq ++ sgnOf id signing ++ insOf id iq).Sublist (acceptedBy k es)
  all : ∀ k : Nat, ∃ dh, SigsOf sign dh (deliveredTo k es) ∧ dh.Sublist (acceptedBy k es)
  fresh : ∀ k : Nat, handles.length ≤ k → acceptedBy k es = [] ∧ deliveredTo k es = []
  sigs : ∀ x ∈ gq, ∀ s, x.2.2 = some s → IsSig sign x.2.1 s

/-- Forgetting the ghost hash. -/
def forget (gq : GQ) : List (UInt32 × Option Bytes) := gq.map fun x => (x.1, x.2.2)

theorem forget_filter (p : UInt32 → Bool) (gq : GQ) :
    (forget gq).filter (fun x => p x.1) = forget (gq.filter fun x => p x.1) := by
  unfold forget
  rw [List.filter_map]
  rfl

theorem sub_drop (a b c b' c' : List Bytes) (x : List Bytes) (hb : b'.Sublist b) (hc : c'.Sublist c)
    {l : List Bytes} (h : (a ++ b ++ x ++ c).Sublist l) (x' : List Bytes) (hx : x'.Sublist x) :
    (a ++ b' ++ x' ++ c').Sublist l :=
  ((((List.Sublist.refl a).append hb).append hx).append hc).trans h

theorem no_events {e : Ev} (k : Nat) (es : List Ev) (h1 : acceptedBy k [e] = [])
    (h2 : deliveredTo k [e] = []) :
    acceptedBy k (es ++ [e]) = acceptedBy k es ∧ deliveredTo k (es ++ [e]) = deliveredTo k es := by
  rw [acceptedBy_snoc, deliveredTo_snoc, h1, h2]; simp

/-- A step that no session notices and that only drops what is under way. -/
theorem Hist.quiet {sign : Nat → Bytes → Option Bytes} {hd hd' : List (Option UInt32)}
    {w w' : Option (UInt32 × Bytes)} {iq iq' : List (UInt32 × Bytes)} {gq gq' : GQ} {es : List Ev}
    {e : Ev} (h : Hist sign hd w iq gq es) (h1 : ∀ k, acceptedBy k [e] = [])
    (h2 : ∀ k, deliveredTo k [e] = [])
    (hh : ∀ (k : Nat) (id : UInt32), hd'[k]? = some (some id) → hd[k]? = some (some id)) (hl : hd'.length = hd.length)
    (hq : ∀ id, (∃ k : Nat, hd'[k]? = some (some id)) → (outsOf id gq' ++ sgnOf id w' ++ insOf id iq').Sublist
      (outsOf id gq ++ sgnOf id w ++ insOf id iq))
    (hs : ∀ x ∈ gq', ∀ s, x.2.2 = some s → IsSig sign x.2.1 s) :
    Hist sign hd' w' iq' gq' (es ++ [e]) := by
  refine ⟨?_, ?_, ?_, hs⟩
  · intro k id hk
    obtain ⟨dh, hd1, hd2⟩ := h.alive k id (hh k id hk)
    obtain ⟨e1, e2⟩ := no_events k es (h1 k) (h2 k)
    refine ⟨dh, by rw [e2]; exact hd1, ?_⟩
    rw [e1]
    refine List.Sublist.trans ?_ hd2
    have := (List.Sublist.refl dh).append (hq id ⟨k, hk⟩)
    simpa [List.append_assoc] using this
  · intro k
    obtain ⟨dh, hd1, hd2⟩ := h.all k
    obtain ⟨e1, e2⟩ := no_events k es (h1 k) (h2 k)
    exact ⟨dh, by rw [e2]; exact hd1, by rw [e1]; exact hd2⟩
  · intro k hk
    obtain ⟨e1, e2⟩ := no_events k es (h1 k) (h2 k)
    rw [e1, e2]
    exact h.fresh k (by omega)

theorem length_of_some {l : List (Option UInt32)} {k : Nat} {x : Option UInt32} (h : l[k]? = some x) :
    k < l.length := (List.getElem?_eq_some_iff.1 h).1

/-- One step keeps the history, provided a new session does not get the id of the hash being
signed. -/
theorem hist_step (sign : Nat → Bytes → Option Bytes) {P : Nat → Prop} {c c' : Central}
    {iq iq' : List (UInt32 × Bytes)} {oq' : List (UInt32 × Option Bytes)} {gq : GQ}
    {live : List UInt32} {es : List Ev} {x : Step} {e : Ev}
    (hb : BInv P c iq (forget gq) live) (h : Hist sign c.handles c.signing iq gq es)
    (hf : Effect sign c c' iq iq' (forget gq) oq' x e)
    (hsafe : ∀ a1 a2 w, x = .setup a1 a2 → c.signing = some w → e = .setup c.handles.length true →
      w.1 ≠ c'.last) :
    ∃ gq', oq' = forget gq' ∧ Hist sign c'.handles c'.signing iq' gq' (es ++ [e]) := by
  cases hf with
  | setupFail h1 h2 h3 h4 =>
    subst h1 h2
    refine ⟨gq, rfl, ?_⟩
    rw [h3, h4]
    exact h.quiet (fun _ => rfl) (fun _ => rfl) (fun _ _ hk => hk) rfl (fun _ _ => List.Sublist.refl _) h.sigs
  | @setupOk a1 a2 live' h1 h2 hid hlast h3 h4 =>
    subst h1 h2
    refine ⟨gq, rfl, ?_⟩
    rw [h3, h4]
    have e1 : ∀ k, acceptedBy k (es ++ [Ev.setup c.handles.length true]) = acceptedBy k es :=
      fun k => (no_events k es rfl rfl).1
    have e2 : ∀ k, deliveredTo k (es ++ [Ev.setup c.handles.length true]) = deliveredTo k es :=
      fun k => (no_events k es rfl rfl).2
    have hnl : c'.last ∉ live := by
      intro hm
      obtain ⟨k, hk⟩ := (hb.id.mem _).1 hm
      exact hlast ((hid.mem _).2 ⟨k, hk⟩)
    refine ⟨?_, ?_, ?_, h.sigs⟩
    · intro k id hk
      rw [e1, e2]
      by_cases hlt : k < c.handles.length
      · rw [List.getElem?_append_left hlt] at hk
        exact h.alive k id hk
      · have hid' : id = c'.last := by
          rw [List.getElem?_append_right (by omega)] at hk
          cases hz : k - c.handles.length with
          | zero => rw [hz] at hk; simp at hk; exact hk.symm
          | succ n => rw [hz] at hk; simp at hk
        obtain ⟨f1, f2⟩ := h.fresh k (by omega)
        refine ⟨[], by rw [f2]; trivial, ?_⟩
        have g1 : outsOf id gq = [] := outsOf_nil _ _ (by
          intro x hx e
          have := hb.oown (x.1, x.2.2) (List.mem_map.2 ⟨x, hx, rfl⟩)
          exact hnl (hid' ▸ e ▸ this))
        have g2 : insOf id iq' = [] := insOf_nil _ _ (by
          intro x hx e
          have := hb.iown x hx
          exact hnl (hid' ▸ e ▸ this))
        have g3 : sgnOf id c.signing = [] := by
          cases hs : c.signing with
          | none => rfl
          | some w =>
            have := hsafe a1 a2 w rfl hs rfl
            simp [sgnOf, hid', this]
        rw [g1, g2, g3, f1]
        exact List.Sublist.refl _
    · intro k; rw [e1, e2]; exact h.all k
    · intro k hk
      rw [e1, e2]
      exact h.fresh k (by simp at hk; omega)
  | @teardown k id hk h1 h2 h3 h4 =>
    subst h1
    refine ⟨gq.filter (fun x => x.1 != id), by rw [h2]; exact forget_filter (fun x => x != id) gq, ?_⟩
    rw [h3, h4]
    refine h.quiet (fun _ => rfl) (fun _ => rfl) ?_ (by simp) ?_ ?_
    · intro j jd hj
      by_cases e : k = j
      · subst e
        rw [List.getElem?_set_self'] at hj
        cases hh : c.handles[k]? with
        | none => rw [hh] at hj; simp at hj
        | some v => rw [hh] at hj; simp at hj
      · rw [List.getElem?_set_ne e] at hj; exact hj
    · intro jd _
      exact ((outsOf_filter jd (fun x => x != id) gq).append (List.Sublist.refl _)).append
        (insOf_filter jd (fun x => x != id) iq)
    · intro x hx; exact h.sigs x (List.mem_filter.1 hx).1
  | @submit k id hs a1 a2 hk h1 h2 h3 h4 =>
    subst h1 h2
    refine ⟨gq, rfl, ?_⟩
    rw [h3, h4]
    have d : ∀ j, deliveredTo j (es ++ [Ev.submit k hs none]) = deliveredTo j es := by
      intro j; rw [deliveredTo_snoc]; simp [deliveredTo]
    have a0 : ∀ j, acceptedBy j (es ++ [Ev.submit k hs none])
        = acceptedBy j es ++ if k = j then [hs] else [] := by
      intro j; rw [acceptedBy_snoc]; by_cases e : k = j <;> simp [acceptedBy, e]
    refine ⟨?_, ?_, ?_, h.sigs⟩
    · intro j jd hj
      obtain ⟨dh, hd1, hd2⟩ := h.alive j jd hj
      refine ⟨dh, by rw [d]; exact hd1, ?_⟩
      rw [a0]
      by_cases e : id = jd
      · subst e
        have : k = j := hb.id.inj k j id hk hj
        rw [if_pos this, insOf_append]
        have : insOf id [(id, hs)] = [hs] := by simp [insOf]
        rw [this]
        have := hd2.append (List.Sublist.refl [hs])
        simpa [List.append_assoc] using this
      · have : insOf jd (iq ++ [(id, hs)]) = insOf jd iq := by
          rw [insOf_append]; simp [insOf, e]
        rw [this]
        exact hd2.trans (List.sublist_append_left _ _)
    · intro j
      obtain ⟨dh, hd1, hd2⟩ := h.all j
      exact ⟨dh, by rw [d]; exact hd1, by rw [a0]; exact hd2.trans (List.sublist_append_left _ _)⟩
    · intro j hj
      have hne : k ≠ j := by have := length_of_some hk; omega
      rw [d, a0, if_neg hne]
      simpa using h.fresh j hj
  | @refused k hs a1 a2 rc h1 h2 h3 h4 =>
    subst h1 h2
    refine ⟨gq, rfl, ?_⟩
    rw [h3, h4]
    exact h.quiet (fun _ => rfl) (fun _ => rfl) (fun _ _ hk => hk) rfl (fun _ _ => List.Sublist.refl _) h.sigs
  | fetchNone h1 h2 h3 h4 =>
    subst h1 h2
    refine ⟨gq, rfl, ?_⟩
    rw [h3, h4]
    exact h.quiet (fun _ => rfl) (fun _ => rfl) (fun _ _ hk => hk) rfl (fun _ _ => List.Sublist.refl _) h.sigs
  | @fetched k m id res sig rc hk h1 h2 hsig h3 h4 =>
    subst h1
    cases gq with
    | nil => simp [forget] at h2
    | cons g gq =>
      simp only [forget, List.map_cons, List.cons.injEq, Prod.mk.injEq] at h2
      obtain ⟨⟨hg1, hg2⟩, hg3⟩ := h2
      refine ⟨gq, hg3.symm, ?_⟩
      rw [h3, h4]
      have hgo : ∀ jd, outsOf jd (g :: gq) = (if g.1 = jd then [g.2.1] else []) ++ outsOf jd gq := by
        intro jd; by_cases e : g.1 = jd <;> simp [outsOf, e]
      have hs' : ∀ x ∈ gq, ∀ s, x.2.2 = some s → IsSig sign x.2.1 s :=
        fun x hx => h.sigs x (List.mem_cons_of_mem _ hx)
      cases hsg : sig with
      | none =>
        refine h.quiet (fun _ => rfl) (fun _ => rfl) (fun _ _ hk => hk) rfl ?_ hs'
        intro jd _
        rw [hgo]
        exact ((List.sublist_append_right _ _).append (List.Sublist.refl _)).append (List.Sublist.refl _)
      | some s =>
        have hres : g.2.2 = some s := by
          rcases hsig with e | ⟨e, -⟩
          · rw [hsg] at e; cases e
          · rw [hg2, ← e, hsg]
        have hgs := h.sigs g (by simp) s hres
        have a0 : ∀ j, acceptedBy j (es ++ [Ev.fetch k (some s) rc]) = acceptedBy j es := by
          intro j; rw [acceptedBy_snoc]; simp [acceptedBy]
        have d : ∀ j, deliveredTo j (es ++ [Ev.fetch k (some s) rc])
            = deliveredTo j es ++ if k = j then [s] else [] := by
          intro j; rw [deliveredTo_snoc]; by_cases e : k = j <;> simp [deliveredTo, e]
        have hown : ∀ j (jd : UInt32), c.handles[j]? = some (some jd) → ∃ dh,
            SigsOf sign dh (deliveredTo j (es ++ [Ev.fetch k (some s) rc])) ∧
            (dh ++ outsOf jd gq ++ sgnOf jd c.signing ++ insOf jd iq').Sublist
              (acceptedBy j (es ++ [Ev.fetch k (some s) rc])) := by
          intro j jd hj
          obtain ⟨dh, hd1, hd2⟩ := h.alive j jd hj
          rw [hgo] at hd2
          by_cases e : g.1 = jd
          · have hkj : k = j := hb.id.inj k j jd (by rw [hk, ← hg1, e]) hj
            refine ⟨dh ++ [g.2.1], ?_, ?_⟩
            · rw [d, if_pos hkj]; exact SigsOf_snoc hd1 hgs
            · rw [a0]
              rw [if_pos e] at hd2
              simpa [List.append_assoc] using hd2
          · have hkj : k ≠ j := by
              rintro rfl
              rw [hk] at hj
              simp only [Option.some.injEq] at hj
              exact e (by rw [hg1, hj])
            refine ⟨dh, ?_, ?_⟩
            · rw [d, if_neg hkj]; simpa using hd1
            · rw [a0]
              rw [if_neg e] at hd2
              simpa [List.append_assoc] using hd2
        refine ⟨hown, ?_, ?_, hs'⟩
        · intro j
          by_cases hkj : k = j
          · subst hkj
            obtain ⟨dh, hd1, hd2⟩ := hown k id hk
            refine ⟨dh, hd1, List.Sublist.trans ?_ hd2⟩
            simp only [List.append_assoc]
            exact List.sublist_append_left _ _
          · obtain ⟨dh, hd1, hd2⟩ := h.all j
            exact ⟨dh, by rw [d, if_neg hkj]; simpa using hd1, by rw [a0]; exact hd2⟩
        · intro j hj
          have hne : k ≠ j := by have := length_of_some hk; omega
          rw [d, a0, if_neg hne]
          simpa using h.fresh j hj
  | wait h1 h2 h3 h4 =>
    subst h1 h2
    refine ⟨gq, rfl, ?_⟩
    rw [h3, h4]
    exact h.quiet (fun _ => rfl) (fun _ => rfl) (fun _ _ hk => hk) rfl (fun _ _ => List.Sublist.refl _) h.sigs
  | @take w h1 h2 h3 h4 h5 =>
    subst h1 h2
    refine ⟨gq, rfl, ?_⟩
    rw [h3, h5]
    refine h.quiet (fun _ => rfl) (fun _ => rfl) (fun _ _ hk => hk) rfl ?_ h.sigs
    intro jd _
    rw [h4]
    by_cases e : w.1 = jd
    · have : insOf jd (w :: iq') = w.2 :: insOf jd iq' := by simp [insOf, e]
      rw [this]
      simp [sgnOf, e]
    · have : insOf jd (w :: iq') = insOf jd iq' := by simp [insOf, e]
      rw [this]
      simp [sgnOf, e]
  | putNone h1 h2 h3 h4 h5 =>
    subst h1 h2
    refine ⟨gq, rfl, ?_⟩
    rw [h3, h5]
    rw [h4] at h
    exact h.quiet (fun _ => rfl) (fun _ => rfl) (fun _ _ hk => hk) rfl (fun _ _ => List.Sublist.refl _) h.sigs
  | @drop r al p h1 h2 h3 h4 =>
    subst h1
    refine ⟨gq.filter (fun x => p x.1), by rw [h2]; exact forget_filter p gq, ?_⟩
    rw [h3, h4]
    refine h.quiet (fun _ => rfl) (fun _ => rfl) (fun _ _ hk => hk) rfl ?_ ?_
    · intro jd _
      exact ((outsOf_filter jd p gq).append (List.nil_sublist _)).append (insOf_filter jd p iq)
    · intro x hx; exact h.sigs x (List.mem_filter.1 hx).1
  | @put r al w res h1 h2 hres h3 h4 h5 =>
    subst h1
    refine ⟨gq ++ [(w.1, w.2, res)], by rw [h3]; simp [forget], ?_⟩
    rw [h4, h5]
    refine h.quiet (fun _ => rfl) (fun _ => rfl) (fun _ _ hk => hk) rfl ?_ ?_
    · intro jd _
      rw [outsOf_append, h2]
      by_cases e : w.1 = jd <;> simp [outsOf, sgnOf, e]
    · intro x hx s hxs
      rcases List.mem_append.1 hx with hx | hx
      · exact h.sigs x hx s hxs
      · simp only [List.mem_singleton] at hx
        subst hx
        exact ⟨r, hres s hxs⟩

theorem Hist_init (sign : Nat → Bytes → Option Bytes) : Hist sign [] none [] [] [] := by
  refine ⟨?_, ?_, ?_, by simp⟩
  · intro k id hk; simp at hk
  · intro k; exact ⟨[], trivial, List.Sublist.refl _⟩
  · intro k _; exact ⟨rfl, rfl⟩

/-! ### No id is handed out twice during the first 2^32 - 2 set ups -/

/-- All ids in use are at most `last`. -/
def Low (c : Central) (live : List UInt32) : Prop :=
  (∀ id ∈ live, id.toNat ≤ c.last.toNat) ∧ ∀ w, c.signing = some w → w.1.toNat ≤ c.last.toNat

theorem setup_low {c c' : Central} {live : List UInt32} {a1 a2 ok : Bool}
    (hi : IdInv c live) (hl : Low c live) (hlt : c.last.toNat + 1 < 2 ^ 32)
    (h : centralSetup c a1 a2 = .ok (c', ok)) :
    c'.signing = c.signing ∧ (c'.last = c.last ∨ c'.last.toNat = c.last.toNat + 1) ∧
    (ok = true → c'.last.toNat = c.last.toNat + 1) := by
  have e : (c.last + 1).toNat = c.last.toNat + 1 := by
    rw [UInt32.toNat_add]
    have e1 : (1 : UInt32).toNat = 1 := rfl
    omega
  have hne : c.last + 1 ≠ 0 := by intro h0; rw [h0] at e; simp at e
  have hna : isActive c.ids (c.last + 1) = false := by
    cases ha : isActive c.ids (c.last + 1) with
    | false => rfl
    | true =>
      have := hl.1 _ ((isActive_iff hi _ hne).1 ha)
      omega
  have hp : pickId c.ids c.last (2 ^ 32) (if c.last + 1 = 0 then 1 else c.last + 1)
      = .ok (c.last + 1) := by
    rw [if_neg hne]
    have e2 : (2 : Nat) ^ 32 = 4294967295 + 1 := by decide
    rw [e2, pickId]
    simp [hna]
  rw [if_neg hne] at hp
  simp only [centralSetup, if_neg hne] at h
  split at h
  · simp only [Out.ok.injEq, Prod.mk.injEq] at h
    obtain ⟨rfl, rfl⟩ := h; exact ⟨rfl, .inl rfl, by simp⟩
  · split at h
    · simp only [Out.ok.injEq, Prod.mk.injEq] at h
      obtain ⟨rfl, rfl⟩ := h; exact ⟨rfl, .inl rfl, by simp⟩
    · rw [hp, Out.bind_ok] at h
      split at h
      · simp only [Out.ok.injEq, Prod.mk.injEq] at h
        obtain ⟨rfl, rfl⟩ := h; exact ⟨rfl, .inl rfl, by simp⟩
      · split at h
        · simp only [Out.ok.injEq, Prod.mk.injEq] at h
          obtain ⟨rfl, rfl⟩ := h; exact ⟨rfl, .inr e, by simp⟩
        · simp only [Out.ok.injEq, Prod.mk.injEq] at h
          obtain ⟨rfl, rfl⟩ := h; exact ⟨rfl, .inr e, fun _ => e⟩

/-- `last` only changes at a set up. -/
theorem step_last {sign : Nat → Bytes → Option Bytes} {c c' : Central} {x : Step} {e : Ev}
    (h : step sign c x = .ok (c', e)) (hx : ∀ a1 a2, x ≠ .setup a1 a2) : c'.last = c.last := by
  cases x with
  | setup a1 a2 => exact absurd rfl (hx a1 a2)
  | teardown k =>
    rcases handle_cases c k with ⟨id, h1, -⟩ | h1
    · simp only [step, h1, Out.bind_ok] at h
      cases h2 : bufferReset c.td id <;> rw [h2] at h <;> simp at h
      cases h3 : deleteItem c.ids id <;> rw [h3] at h <;> simp at h
      rw [← h.1]
    · simp [step, h1] at h
  | submit k hs a1 a2 =>
    rcases handle_cases c k with ⟨id, h1, -⟩ | h1
    · simp only [step, h1, Out.bind_ok] at h
      split at h
      · simp at h; rw [← h.1]
      · cases h2 : signHash c.td id hs a1 a2 <;> rw [h2] at h <;> simp at h
        rw [← h.1]
    · simp [step, h1] at h
  | fetch k m =>
    rcases handle_cases c k with ⟨id, h1, -⟩ | h1
    · simp only [step, h1, Out.bind_ok] at h
      cases h2 : getSignature c.td id m <;> rw [h2] at h <;> simp at h
      rw [← h.1]
    · simp [step, h1] at h
  | take =>
    simp only [step] at h
    cases h2 : centralTake c.td with
    | ok q =>
      rw [h2] at h
      obtain ⟨td, w⟩ := q
      cases w with
      | none => simp at h; rw [← h.1]
      | some w => simp at h; rw [← h.1]
    | err e => rw [h2] at h; simp at h
    | ub e => rw [h2] at h; simp at h
  | put r al =>
    simp only [step] at h
    cases h3 : c.signing with
    | none => rw [h3] at h; simp at h; rw [← h.1]
    | some w =>
      rw [h3] at h
      obtain ⟨id, hash⟩ := w
      simp only at h
      cases h2 : centralPut c.td c.ids id (opensslSign sign c.td.maxSig r hash) al <;> rw [h2] at h <;>
        simp at h
      rw [← h.1]

end SV.Threaded
