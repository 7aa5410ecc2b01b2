import Verif.Proofs.AuthKinds
/-! Why an item is given the status of a valid NAL unit. -/
namespace SV
open Spec

/-- Items with the status of a valid NAL unit have had it before, or there is a reason. -/
def OkAt (R : Nat × Item → Prop) (l l' : NList) : Prop :=
  ∀ y ∈ l', y.2.status = .ok → ∃ x ∈ l, x.1 = y.1 ∧ (x.2.status = .ok ∨ R x)

theorem OkAt.refl (R : Nat × Item → Prop) (l : NList) : OkAt R l l := fun y hy h => ⟨y, hy, rfl, .inl h⟩

theorem OkAt.trans {R R' : Nat × Item → Prop} {l l1 l2 : NList} (h : OkAt R l l1) (g : OkAt R' l1 l2)
    (hr : ∀ y ∈ l1, R' y → ∃ x ∈ l, x.1 = y.1 ∧ R x) : OkAt R l l2 := by
  intro z hz hs
  obtain ⟨y, hy, e, h1⟩ := g z hz hs
  rcases h1 with h1 | h1
  · obtain ⟨x, hx, e', h2⟩ := h y hy h1
    exact ⟨x, hx, e'.trans e, h2⟩
  · obtain ⟨x, hx, e', h2⟩ := hr y hy h1
    exact ⟨x, hx, e'.trans e, .inr h2⟩

theorem OkAt.mono {R R' : Nat × Item → Prop} {l l' : NList} (h : OkAt R l l') (hr : ∀ x ∈ l, R x → R' x) : OkAt R' l l' := by
  intro y hy hs
  obtain ⟨x, hx, e, h1⟩ := h y hy hs
  exact ⟨x, hx, e, h1.imp id (hr x hx)⟩

/-- Changes that do not make items valid. -/
theorem OkAt.grow {R : Nat × Item → Prop} {S : Option Nalu → Status → Prop} (hS : ∀ n, ¬ S n .ok) {l l' : NList} (g : Grow S l l') :
    OkAt R l l' := by
  intro y hy hs
  rcases g.mem hy with m | ⟨x, hx, e, k⟩
  · rw [m.2] at hs; cases hs
  · rcases k.status with e1 | ⟨-, e1⟩
    · exact ⟨x, hx, e, .inl (e1 ▸ hs)⟩
    · rw [hs] at e1; exact absurd e1 (hS _)

theorem OkAt.set (l : NList) (a : Nat) (st : Status) : OkAt (fun x => x.1 = a ∧ st = .ok) l (l.set a fun i => { i with status := st }) := by
  intro y hy hs
  obtain ⟨x, hx, rfl⟩ := List.mem_map.1 hy
  by_cases e : x.1 = a
  · rw [if_pos e] at hs ⊢
    exact ⟨x, hx, rfl, .inr ⟨e, hs⟩⟩
  · rw [if_neg e] at hs ⊢
    exact ⟨x, hx, rfl, .inl hs⟩

theorem OkAt.undo {R : Nat × Item → Prop} {l l' : NList} (g : Undo l l') : OkAt R l l' := by
  induction g with
  | nil => exact OkAt.refl R _
  | same _ ih =>
    intro y hy hs
    rcases List.mem_cons.1 hy with rfl | hy
    · exact ⟨_, List.mem_cons_self, rfl, .inl hs⟩
    · obtain ⟨x, hx, h⟩ := ih y hy hs
      exact ⟨x, List.mem_cons_of_mem _ hx, h⟩
  | @reset x l l' _ ih =>
    intro y hy hs
    rcases List.mem_cons.1 hy with rfl | hy
    · refine ⟨x, List.mem_cons_self, rfl, .inl ?_⟩
      rcases resetStatus_cases x.2 with h | h | ⟨-, h⟩ <;> (dsimp only at hs; rw [h] at hs)
      · exact hs
      · cases hs
      · cases hs
    · obtain ⟨x, hx, h⟩ := ih y hy hs
      exact ⟨x, List.mem_cons_of_mem _ hx, h⟩
  | drop _ _ ih =>
    intro y hy hs
    obtain ⟨x, hx, h⟩ := ih y hy hs
    exact ⟨x, List.mem_cons_of_mem _ hx, h⟩

namespace Validator

theorem addMissing_okAt (R : Nat × Item → Prop) {s : Validator} (w : WFs s) (n : Int) (app : Bool) (a : Nat) :
    OkAt R s.list (s.addMissing n app a).list :=
  OkAt.grow (S := noStatus) (fun _ h => h) (addMissing_ver noStatus s n app a w).ev.grow

theorem setStatusLoop_okAt {st : Status} {l : NList} {q : NList × Nat} (h : setStatusLoop st l = .ok q) :
    OkAt (fun x => candidate x = true ∧ st = .ok) l q.1 := by
  induction l generalizing q with
  | nil => cases h; exact OkAt.refl _ _
  | cons x r ih =>
    unfold setStatusLoop at h
    split at h
    · rename_i hc
      split at h
      · cases h
      · obtain ⟨p, e1, e2⟩ := Out.bind_eq_ok h
        cases e2
        intro y hy hs
        rcases List.mem_cons.1 hy with rfl | hy
        · exact ⟨x, List.mem_cons_self, rfl, .inr ⟨hc, hs⟩⟩
        · obtain ⟨z, hz, g⟩ := ih e1 y hy hs
          exact ⟨z, List.mem_cons_of_mem _ hz, g⟩
    · obtain ⟨p, e1, e2⟩ := Out.bind_eq_ok h
      cases e2
      intro y hy hs
      rcases List.mem_cons.1 hy with rfl | hy
      · exact ⟨y, List.mem_cons_self, rfl, .inl hs⟩
      · obtain ⟨z, hz, g⟩ := ih e1 y hy hs
        exact ⟨z, List.mem_cons_of_mem _ hz, g⟩

/-- What `verify_hashes_with_hash_list` finds valid is in the list. -/
theorem hashListLoop_okAt {hs : Nat} {hashes : List Bytes} {sei : Nat} {l : NList} {prev : Option Nat} {m : Match}
    {q : NList × Match} (h : hashListLoop hs hashes sei l prev m = .ok q) :
    OkAt (fun x => candidate x = true ∧ hashOf hs x ∈ hashes) l q.1 := by
  have new : ∀ (b k : Nat) (y : Nat × Item), y ∈ (List.range' b k).map (fun a => (a, missingItem)) → y.2.status ≠ .ok := by
    intro b k y hy
    obtain ⟨a, -, rfl⟩ := List.mem_map.1 hy
    intro h; cases h
  induction l generalizing prev m q with
  | nil => cases h; exact OkAt.refl _ _
  | cons x r ih =>
    rw [hashListLoop] at h
    by_cases hx : x.2.status ≠ .P ∨ x.2.used = false
    · rw [if_pos hx] at h
      obtain ⟨p, e1, e2⟩ := Out.bind_eq_ok h
      cases e2
      intro y hy hs
      rcases List.mem_cons.1 hy with rfl | hy
      · exact ⟨y, List.mem_cons_self, rfl, .inl hs⟩
      · obtain ⟨z, hz, g⟩ := ih e1 y hy hs
        exact ⟨z, List.mem_cons_of_mem _ hz, g⟩
    · rw [if_neg hx] at h
      have hc : candidate x = true := by
        unfold candidate
        rw [not_or] at hx
        rw [Bool.and_eq_true, decide_eq_true_eq]
        exact ⟨by simpa using hx.2, by simpa using hx.1⟩
      cases hn : x.2.nalu with
      | none => rw [hn] at h; cases h
      | some n =>
        rw [hn] at h
        dsimp only at h
        split at h
        · cases h; exact OkAt.refl _ _
        · cases hh : (if n.firstInGop = true then x.2.second else some x.2.hash) with
          | none => rw [hh] at h; cases h
          | some hv =>
            rw [hh] at h
            have hof : hashOf hs x = buf hs hv := by
              have ef : x.2.isFirst = n.firstInGop := by unfold Item.isFirst; rw [hn]
              unfold hashOf
              rw [ef]
              cases hf : n.firstInGop with
              | false => rw [hf] at hh; simp at hh; simp [hh]
              | true => rw [hf] at hh; simp at hh; simp [hh]
            dsimp only at h
            have hfound : ∀ k, searchFrom (buf hs hv) hashes k < hashes.length → hashOf hs x ∈ hashes := by
              intro k hk
              rw [hof]
              exact List.mem_of_getElem? (searchFrom_found hk).2.1
            have this : ∀ (st : Status) (l' new' : NList) , (st = .ok → hashOf hs x ∈ hashes) → (∀ y ∈ new', y.2.status ≠ .ok) →
                OkAt (fun x => candidate x = true ∧ hashOf hs x ∈ hashes) r l' →
                OkAt (fun x => candidate x = true ∧ hashOf hs x ∈ hashes) (x :: r) (new' ++ (x.1, { x.2 with status := st }) :: l') := by
              intro st l' new' h1 h2 h3 y hy hs
              rcases List.mem_append.1 hy with hy | hy
              · exact absurd hs (h2 y hy)
              · rcases List.mem_cons.1 hy with rfl | hy
                · exact ⟨x, List.mem_cons_self, rfl, .inr ⟨hc, h1 hs⟩⟩
                · obtain ⟨z, hz, g⟩ := h3 y hy hs
                  exact ⟨z, List.mem_cons_of_mem _ hz, g⟩
            have hst : ∀ (c : Prop) [Decidable c] (k : Nat), (c → searchFrom (buf hs hv) hashes k < hashes.length) →
                (if c then Status.ok else .N) = .ok → hashOf hs x ∈ hashes := by
              intro c _ k hk e
              by_cases hc : c
              · exact hfound k (hk hc)
              · rw [if_neg hc] at e; cases e
            split at h
            · cases h
              exact this _ _ _ (hst _ _ fun h => h.1) (new _ _) (OkAt.refl _ _)
            · obtain ⟨p, e1, e2⟩ := Out.bind_eq_ok h
              cases e2
              exact this _ _ _ (hst _ _ fun h => h.1) (new _ _) (ih e1)

/-- Why `verify_hashes_with_sei` marks an item as valid. -/
def Reason (s : Validator) (x : Nat × Item) : Prop :=
  s.verified = 1 ∧ (nextSei s.list = some x ∨ candidate x = true ∧
    (s.gopHashOk = true ∧ s.linkedOk = true ∨ hashOf s.d.hashSize x ∈ chunk s.d.hashSize s.d.hashList))

theorem withHashList_okAt {s s' : Validator} {o : Bool} {p : Bool × Int × Int} (w : WFs s) (hv : s.verified = 1)
    (h : s.withHashList o = .ok s' p) : OkAt (Reason s) s.list s'.list := by
  unfold withHashList at h
  split at h
  · cases h
  · cases hn : nextSei s.list with
    | none => rw [hn] at h; cases h; exact OkAt.refl _ _
    | some x =>
      rw [hn] at h
      dsimp only at h
      obtain ⟨hx, hxp, n, hxn, hxg⟩ := nextSei_spec hn
      cases hl : hashListLoop s.d.hashSize (chunk s.d.hashSize s.d.hashList) x.1 s.list none { orderOk := o, brk := s.brk } with
      | ub u => rw [hl] at h; cases h
      | err e => rw [hl] at h; cases h
      | ok q =>
        rw [hl] at h
        dsimp only at h
        have e0 := hashListLoop_evolves _ _ _ hl
        have k0 : OkAt (Reason s) s.list q.1 := (hashListLoop_okAt hl).mono fun y _ hy => ⟨hv, .inr ⟨hy.1, .inr hy.2⟩⟩
        generalize hs1 : ({ s with list := q.1, brk := q.2.brk } : Validator) = s1 at h
        have v1 : Ver OkOrN s s1 ∧ OkAt (Reason s) s.list s1.list := by subst hs1; exact ⟨⟨rfl, e0⟩, k0⟩
        have add : ∀ (t : Validator) (n : Int) (b : Bool) (a : Nat), Ver OkOrN s t ∧ OkAt (Reason s) s.list t.list →
            Ver OkOrN s (t.addMissing n b a) ∧ OkAt (Reason s) s.list (t.addMissing n b a).list := by
          intro t n b a hv
          refine ⟨hv.1.trans (addMissing_ver _ _ _ _ _ (hv.1.ev.wf w)), ?_⟩
          exact hv.2.trans (addMissing_okAt (fun _ => False) (hv.1.ev.wf w) n b a) fun _ _ h => h.elim
        generalize hs2 : (if q.2.latest = -1 then
          match q.1 with
          | [] => s1
          | f :: _ => s1.addMissing ((chunk s.d.hashSize s.d.hashList).length - q.2.invalid) f.2.second.isSome f.1
        else s1) = s2 at h
        have v2 : Ver OkOrN s s2 ∧ OkAt (Reason s) s.list s2.list := by
          rw [← hs2]
          split
          · split
            · exact v1
            · exact add _ _ _ _ v1
          · exact v1
        generalize hs3 : (if q.2.latest ≠ q.2.compare then s2
        else match q.2.lastUsed with
          | none => s2
          | some a => s2.addMissing ((chunk s.d.hashSize s.d.hashList).length - 1 - q.2.latest) true a) = s3 at h
        have v3 : Ver OkOrN s s3 ∧ OkAt (Reason s) s.list s3.list := by
          rw [← hs3]
          split
          · exact v2
          · split
            · exact v2
            · exact add _ _ _ _ v2
        clear hs1 hs2 hs3 v1 v2
        cases h
        refine v3.2.trans (OkAt.set _ _ _) fun y _ hy => ⟨x, hx, hy.1.symm, hv, .inl hn⟩

theorem setStatus_okAt {s s' : Validator} {st : Status} {sei : Option Nat} {k : Int} (h : s.setStatus st sei = .ok s' k) :
    OkAt (fun x => candidate x = true ∧ st = .ok ∨ sei = some x.1 ∧ s.verified = 1) s.list s'.list := by
  unfold setStatus at h
  cases sei with
  | none => cases h; exact OkAt.refl _ _
  | some a =>
    dsimp only at h
    cases hl : setStatusLoop st s.list with
    | ub u => rw [hl] at h; cases h
    | err e => rw [hl] at h; cases h
    | ok q =>
      rw [hl] at h
      have g := setStatusLoop_okAt hl
      have gg := setStatusLoop_grow st hl
      dsimp only at h
      split at h
      · split at h
        · rename_i hv
          cases h
          refine (g.mono fun x _ hx => .inl hx).trans (OkAt.set _ _ _) fun y hy h => ?_
          have hm : y.1 ∈ s.list.map Prod.fst := by
            rw [← gg.2]; exact List.mem_map_of_mem (f := Prod.fst) hy
          obtain ⟨x, hx, e⟩ := List.mem_map.1 hm
          exact ⟨x, hx, e, .inr ⟨by rw [e, h.1], hv⟩⟩
        · cases h
      · cases h
        exact g.mono fun x _ hx => .inl hx

theorem withSeiRest_okAt {s s' : Validator} {st : Status} {sei : Option Nat} {e : Int} {p : Bool × Int × Int} (w : WFs s)
    (hst : st = .ok ∨ st = .N) (h : s.withSeiRest st sei e = .ok s' p) :
    OkAt (fun x => candidate x = true ∧ st = .ok ∨ sei = some x.1 ∧ s.verified = 1) s.list s'.list := by
  unfold withSeiRest at h
  obtain ⟨t, r, h1, h2⟩ := Res.andThen_eq_ok h
  have g := setStatus_okAt h1
  have gv := setStatus_ver w hst h1
  clear h h1
  split at h2
  · cases h2; exact g
  · split at h2
    · cases h2; exact g
    · split at h2
      · cases h2
      · cases h2
        exact g.trans (addMissing_okAt (fun _ => False) (gv.1.ev.wf w) _ _ _) fun _ _ h => h.elim

theorem withSei_okAt {s s' : Validator} {p : Bool × Int × Int} (w : WFs s) (h : s.withSei = .ok s' p) :
    OkAt (Reason s) s.list s'.list := by
  unfold withSei at h
  dsimp only at h
  split at h
  · rename_i hv
    split at h
    · exact withHashList_okAt w hv h
    · refine (withSeiRest_okAt w (by split <;> simp) h).mono fun x hx hr => ⟨hv, ?_⟩
      rcases hr with ⟨h1, h2⟩ | ⟨h1, -⟩
      · refine .inr ⟨h1, .inl ?_⟩
        split at h2
        · rename_i hc
          rwa [Bool.and_eq_true] at hc
        · cases h2
      · left
        cases hn : nextSei s.list with
        | none => rw [hn] at h1; cases h1
        | some y =>
          rw [hn] at h1
          have e : y.1 = x.1 := Option.some.inj h1
          rw [WF.unique w (nextSei_spec hn).1 hx e]
  · rename_i hv
    cases hn : nextSei s.list with
    | none => rw [hn] at h; cases h
    | some x =>
      rw [hn] at h
      obtain ⟨hx, hxp, n, hxn, hxg⟩ := nextSei_spec hn
      simp only [Option.map_some] at h
      have hset : ∀ st : Status, st ≠ .ok → OkAt (Reason s) s.list (s.list.set x.1 fun i => { i with status := st }) := by
        intro st hs
        exact (OkAt.set _ _ _).mono fun y _ hy => absurd hy.2 hs
      split at h
      · have w' : WFs { s with list := s.list.set x.1 fun i => { i with status := Status.N } } :=
          WF.of_addr w (set_addr s.list x.1 fun i => { i with status := Status.N })
        refine (hset .N (by decide)).trans (withSeiRest_okAt w' (.inr rfl) h) fun y hy hr => ?_
        rcases hr with ⟨-, hr⟩ | ⟨-, hr⟩
        · cases hr
        · exact absurd hr hv
      · obtain ⟨t, r, h1, h2⟩ := Res.andThen_eq_ok h
        cases h2
        have g := (withoutSei_ver _).of_ok h1
        refine (hset .E (by decide)).trans ((OkAt.grow (R := fun _ => False) (S := noStatus) (fun _ h => h) (clearUsed_grow _ _)).trans
          (OkAt.grow (R := fun _ => False) (fun n hp => by rcases hp with ⟨-, hp⟩; cases hp) g.ev.grow) fun _ _ h => h.elim) fun _ _ h => h.elim

theorem verifyGop_okAt {s s' : Validator} {p : Bool × Int × Int} (w : WFs s) (h : s.verifyGop = .ok s' p) :
    OkAt (fun x => (s.gop.lost = false ∨ s.gop.transLost = true) ∧ Reason s x) s.list s'.list := by
  unfold verifyGop at h
  split at h
  · obtain ⟨t', b, h1, h2⟩ := Res.andThen_eq_ok h
    cases h2
    exact OkAt.grow (fun n hp => by rcases hp with ⟨-, hp⟩; cases hp) ((withoutSei_ver s).of_ok h1).ev.grow
  · rename_i hl
    obtain ⟨t', b, h1, h2⟩ := Res.andThen_eq_ok h
    cases h2
    refine (withSei_okAt w h1).mono fun x _ hr => ⟨?_, hr⟩
    cases hc : s.gop.lost with
    | false => exact .inl rfl
    | true => right; rw [hc] at hl; simpa using hl

theorem conclude_okAt (t : Validator) (p : Bool × Int × Int) : OkAt (fun _ => False) t.list (t.conclude p).list := by
  have h0 : OkAt (fun _ => False) t.list (clearUsed t.list) := OkAt.grow (S := noStatus) (fun _ h => h) (clearUsed_grow _ _)
  unfold conclude
  dsimp only
  split
  · exact h0.trans (R' := fun _ => False) (OkAt.undo (removeMissing_undo _)) fun _ _ h => h.elim
  · exact h0

end Validator
end SV
