import Verif.Proofs.AuthAll
import Verif.Proofs.AuthRep
/-! What stands behind the verdict of one validation. -/
namespace SV
open Spec

namespace Spec

/-- What vouches for NAL units with the given hashes: the signature of a SEI holds, and the SEI has the hash of the
concatenated hashes as GOP hash and a linked hash that is not refuted, or it has the hashes in its list of hashes, in this order;
for the best verdict its list of hashes has nothing else. -/
structure Backed (env : AuthEnv) (s : Validator) (key : Bytes) (hashes : List Bytes) : Prop where
  signed : env.verify key s.d.signature (buf s.d.hashSize s.sigHash) = 1
  content : (∃ t old, s.primary = some t ∧ buf s.d.hashSize (ovl (env.H t hashes.flatten) old) = buf s.d.hashSize s.d.gopHash) ∧ s.linkedOk = true ∨
    hashes.Sublist (Validator.chunk s.d.hashSize s.d.hashList) ∧
      (s.rep.latest.auth = .ok → hashes = Validator.chunk s.d.hashSize s.d.hashList)

end Spec

theorem matched_all {α : Type} {hs : List α} {os : List (Option Nat)} (hl : os.length = hs.length) (h : none ∉ os) : matched hs os = hs := by
  induction hs generalizing os with
  | nil => cases os <;> rfl
  | cons x r ih =>
    cases os with
    | nil => cases hl
    | cons o os =>
      cases o with
      | none => exact absurd List.mem_cons_self h
      | some i =>
        show x :: matched r os = _
        rw [ih (by simpa using hl) fun hm => h (List.mem_cons_of_mem _ hm)]

theorem gaps_none {os : List (Option Nat)} (next inv : Nat) (good : Bool) (h : none ∈ os) : ∃ g ∈ gaps next inv good os, g.2 = Status.N := by
  induction os generalizing next inv good with
  | nil => cases h
  | cons o os ih =>
    cases o with
    | none => exact ⟨_, List.mem_cons_self, rfl⟩
    | some i =>
      rcases List.mem_cons.1 h with h | h
      · cases h
      · obtain ⟨g, hg, e⟩ := ih (i + 1) 0 true h
        exact ⟨g, List.mem_cons_of_mem _ hg, e⟩

theorem woven_status {c : Nat × Item → Bool} {l l' : NList} {ss : List (Nat × Status)} (h : Woven c l l' ss) :
    ∀ g ∈ ss, ∃ x ∈ l, c x = true ∧ (x.1, { x.2 with status := g.2 }) ∈ l' := by
  induction h with
  | nil => intro g hg; cases hg
  | skip _ _ ih =>
    intro g hg
    obtain ⟨x, hx, hc, hm⟩ := ih g hg
    exact ⟨x, List.mem_cons_of_mem _ hx, hc, List.mem_cons_of_mem _ hm⟩
  | @item x new l l' st ss hc _ _ ih =>
    intro g hg
    rcases List.mem_cons.1 hg with rfl | hg
    · exact ⟨x, List.mem_cons_self, hc, List.mem_append_right _ List.mem_cons_self⟩
    · obtain ⟨z, hz, hzc, hm⟩ := ih g hg
      exact ⟨z, List.mem_cons_of_mem _ hz, hzc, List.mem_append_right _ (List.mem_cons_of_mem _ hm)⟩

namespace Validator

/-- If all that is compared is valid, the hashes are in the list in their order. -/
theorem withHashList_sublist {s s' : Validator} {good : Bool} {p : Bool × Int × Int} {sei : Nat × Item} (w : WF s.list s.brk)
    (w' : WFs s') (hn : nextSei s.list = some sei) (hc : Comparable sei.1 none s.list) (h : s.withHashList good = .ok s' p)
    (hall : ∀ x ∈ s.list, candidate x = true → ∃ y ∈ s'.list, y.1 = x.1 ∧ y.2.status = .ok) :
    ((s.list.filter candidate).map (hashOf s.d.hashSize)).Sublist (chunk s.d.hashSize s.d.hashList) := by
  obtain ⟨os, l1, g1, g2, g3, -, g5, -⟩ := C43_hash_list w hn hc h
  rw [matched_all g1.length] at g3
  · exact g3
  · intro hno
    obtain ⟨g, hg, eg⟩ := gaps_none 0 0 good hno
    obtain ⟨x, hx, hxc, hm⟩ := woven_status g2 g hg
    obtain ⟨z, hz, ez, kz⟩ := g5.mem' hm
    obtain ⟨y, hy, ey, hyo⟩ := hall x hx hxc
    have : y = z := WF.unique w' hy hz (ey.trans ez.symm)
    subst this
    rcases kz.status with k | ⟨k, -⟩
    · rw [hyo] at k; dsimp only at k; rw [eg] at k; cases k
    · dsimp only at k; rw [eg] at k; cases k

/-- Items of `l'` that are not in `l` are missing ones, marked as used. -/
def OnlyMissing (l l' : NList) : Prop := ∀ y ∈ l', (∃ x ∈ l, x.1 = y.1) ∨ (y.2.used = true ∧ y.2.status = .M)

theorem OnlyMissing.refl (l : NList) : OnlyMissing l l := fun y hy => .inl ⟨y, hy, rfl⟩

theorem hashListLoop_onlyMissing {hs : Nat} {hashes : List Bytes} {sei : Nat} {l l' : NList} {prev : Option Nat} {m m' : Match}
    (h : hashListLoop hs hashes sei l prev m = .ok (l', m')) : OnlyMissing l l' := by
  have cons : ∀ {x x' : Nat × Item} {r r' new : NList}, x'.1 = x.1 → (∀ y ∈ new, y.2 = missingItem) → OnlyMissing r r' →
      OnlyMissing (x :: r) (new ++ x' :: r') := by
    intro x x' r r' new e hn hr y hy
    rcases List.mem_append.1 hy with hy | hy
    · right; rw [hn y hy]; exact ⟨rfl, rfl⟩
    · rcases List.mem_cons.1 hy with rfl | hy
      · exact .inl ⟨x, List.mem_cons_self, e.symm⟩
      · rcases hr y hy with ⟨z, hz, ez⟩ | k
        · exact .inl ⟨z, List.mem_cons_of_mem _ hz, ez⟩
        · exact .inr k
  have hnew : ∀ (b k : Nat), ∀ y ∈ (List.range' b k).map (fun a => (a, missingItem)), y.2 = missingItem := by
    intro b k y hy
    obtain ⟨a, -, rfl⟩ := List.mem_map.1 hy
    rfl
  induction l generalizing l' prev m m' with
  | nil => cases h; exact OnlyMissing.refl _
  | cons x r ih =>
    rw [hashListLoop] at h
    split at h
    · obtain ⟨q, h1, h2⟩ := Out.bind_eq_ok h
      cases h2
      exact cons (new := []) rfl (fun y hy => by cases hy) (ih h1)
    · split at h
      · cases h
      · dsimp only at h
        split at h
        · cases h; exact OnlyMissing.refl _
        · split at h
          · cases h
          · split at h
            · cases h
              exact cons rfl (hnew _ _) (OnlyMissing.refl _)
            · obtain ⟨q, h1, h2⟩ := Out.bind_eq_ok h
              cases h2
              exact cons rfl (hnew _ _) (ih h1)

theorem addMissing_onlyMissing {l : NList} {s : Validator} (h : OnlyMissing l s.list) (n : Int) (app : Bool) (a : Nat) :
    OnlyMissing l (s.addMissing n app a).list := by
  unfold addMissing
  split
  · exact h
  · intro y hy
    obtain ⟨x, hx, hxy⟩ := List.mem_flatMap.1 (show y ∈ s.list.flatMap _ from hy)
    have : y = x ∨ y.2 = missingItem := by
      split at hxy
      · split at hxy
        · rcases List.mem_cons.1 hxy with e | e
          · exact .inl e
          · rw [List.mem_reverse] at e
            obtain ⟨a, -, rfl⟩ := List.mem_map.1 e
            exact .inr rfl
        · rcases List.mem_append.1 hxy with e | e
          · obtain ⟨a, -, rfl⟩ := List.mem_map.1 e
            exact .inr rfl
          · exact .inl (List.mem_singleton.1 e)
      · exact .inl (List.mem_singleton.1 hxy)
    rcases this with rfl | e
    · exact h y hx
    · right; rw [e]; exact ⟨rfl, rfl⟩

theorem withHashList_onlyMissing {s s' : Validator} {good : Bool} {p : Bool × Int × Int} {sei : Nat × Item}
    (hn : nextSei s.list = some sei) (h : s.withHashList good = .ok s' p) : OnlyMissing s.list s'.list := by
  unfold withHashList at h
  split at h
  · cases h
  · rw [hn] at h
    dsimp only at h
    split at h
    · cases h
    · cases h
    · rename_i q1 q2 hl
      have h0 := hashListLoop_onlyMissing hl
      have fin : ∀ t : Validator, OnlyMissing s.list t.list → OnlyMissing s.list (t.list.set sei.1 fun i => { i with status := .ok }) := by
        intro t ht y hy
        obtain ⟨x, hx, rfl⟩ := List.mem_map.1 hy
        split
        · rename_i e
          exact .inl ⟨sei, (nextSei_spec hn).1, e.symm⟩
        · exact ht x hx
      have two : ∀ (c : Prop) [Decidable c] (o : Option Nat) (n : Int) (t : Validator), OnlyMissing s.list t.list →
          OnlyMissing s.list (if c then t else match o with | none => t | some a => t.addMissing n true a).list := by
        intro c _ o n t ht
        split
        · exact ht
        · cases o with
          | none => exact ht
          | some a => exact addMissing_onlyMissing ht n true a
      cases h
      apply fin
      apply two
      split
      · split
        · exact h0
        · refine addMissing_onlyMissing ?_ _ _ _
          exact h0
      · exact h0

/-- If all that is compared is valid and nothing is found to be missing, the hashes are those of the list. -/
theorem withHashList_all {s s' : Validator} {good : Bool} {p : Bool × Int × Int} {sei : Nat × Item} (w : WF s.list s.brk)
    (w' : WFs s') (hn : nextSei s.list = some sei) (hc : Comparable sei.1 none s.list) (h : s.withHashList good = .ok s' p)
    (hall : ∀ x ∈ s.list, candidate x = true → ∃ y ∈ s'.list, y.1 = x.1 ∧ y.2.status = .ok)
    (hm : ∀ y ∈ s'.list, y.2.used = true → y.2.status ≠ .M) :
    p.1 = true ∧ (s.list.filter candidate).map (hashOf s.d.hashSize) = chunk s.d.hashSize s.d.hashList := by
  have hsub := withHashList_sublist w w' hn hc h hall
  obtain ⟨os, l1, g1, g2, -, g4, -, g6⟩ := C43_hash_list w hn hc h
  have hno := g1.complete (by simpa using hsub)
  refine ⟨by rw [g4], hsub.eq_of_length ?_⟩
  have hlen : s'.list.length = s.list.length := by
    obtain ⟨ns, -, hb, hp⟩ := (withHashList_ver w h).1.ev.perm
    cases ns with
    | nil => have := hp.length_eq; simpa using this
    | cons a ns =>
      exfalso
      have ha : a ∈ s'.list.map Prod.fst := hp.mem_iff.2 (List.mem_append_right _ List.mem_cons_self)
      obtain ⟨y, hy, e⟩ := List.mem_map.1 ha
      rcases withHashList_onlyMissing hn h y hy with ⟨x, hx, ex⟩ | ⟨k1, k2⟩
      · have h1 := w.lt x hx
        have h2 := (hb a List.mem_cons_self).1
        rw [ex, e] at h1
        omega
      · exact hm y hy k1 k2
  have h1 := gaps_total g1 good hno
  have h2 := final_inv g1 hno
  have h3 := final_le (inv := 0) g1 (Nat.zero_le _)
  have h4 := g2.length
  have h5 : (final 0 0 os).1 = 0 → (final 0 0 os).2 = 0 + os.length := final_zero 0 os
  have h6 := g1.length
  unfold tailMissing at g6
  rw [List.length_map] at h1 h6
  rw [List.length_map]
  split at g6 <;> omega

/-- What `prepare_for_validation` leaves for the verification. -/
theorem prepare_seg {env : AuthEnv} {s u : Validator} {x : Nat × Item} (w : WFs s) (hx : nextSei s.list = some x)
    (hsei : s.gop.hasSei = true) (h : s.prepare env = .ok u ()) :
    ∃ a f k p old, s.decodeNext env x = .ok a () ∧ u.d = a.d ∧ u.sigHash = a.sigHash ∧ u.key = a.key ∧ u.linked = a.linked ∧
      (f = id ∨ f = fun i => { i with decoded := true }) ∧ u.list = markFrom false (s.list.set x.1 f) ∧
      u.computed = ovl (env.H p ((segment s.list).flatMap (hashOf u.d.hashSize))) old ∧
      u.key = some k ∧ u.verified = env.verify k u.d.signature (buf u.d.hashSize u.sigHash) ∧ u.primary = some p ∧
      ∀ y ∈ segment s.list, y.2.nalu.isSome = true := by
  obtain ⟨a, b, c, h1, h2, h3, -, h5⟩ := prepare_ok hx h
  have hp := (decodeNext_prep env s x).of_ok h1
  have hl : ∃ f : Item → Item, (f = id ∨ f = fun i => { i with decoded := true }) ∧ a.list = s.list.set x.1 f := by
    unfold decodeNext at h1
    split at h1
    · cases h1
      refine ⟨id, .inl rfl, ?_⟩
      unfold NList.set
      have : (fun y : Nat × Item => if y.1 = x.1 then (y.1, id y.2) else y) = id := by
        funext y; split <;> rfl
      rw [this, List.map_id]
    · dsimp only at h1
      split at h1
      · cases h1
      · obtain ⟨t, _, e1, e2⟩ := Res.andThen_eq_ok h1
        have := (decodeSei_list env _ _ _).of_ok e1
        split at e2
        · cases e2
        · cases e2
          refine ⟨_, .inr rfl, ?_⟩
          dsimp only at this ⊢
          rw [this]
  obtain ⟨f, hf, hal⟩ := hl
  obtain ⟨b1, -, -, b4, -⟩ := detectLost_ok h2
  have hbm : b.key = a.key ∧ b.sigHash = a.sigHash ∧ b.linked = a.linked ∧ b.gop.hasSei = a.gop.hasSei := by
    unfold detectLost at h2
    dsimp only at h2
    split at h2
    · cases h2
    · cases h2
    · split at h2
      · cases h2
      · cases h2
      · cases h2; exact ⟨rfl, rfl, rfl, rfl⟩
  have hn := Validator.Grow.nextSei hp.list
  rw [hx] at hn
  unfold prepareGopHash at h3
  dsimp only at h3
  split at h3
  · cases h3
  · cases hg : gopLoop b.d.hashSize x.1 b.list 0 0 [] with
    | ub e => rw [hg] at h3; cases h3
    | err e => rw [hg] at h3; cases h3
    | ok q =>
      obtain ⟨l, acc⟩ := q
      rw [hg] at h3
      cases h3
      obtain ⟨g1, g2, g3⟩ := gopLoop_spec (by rw [b4]; exact hp.list.sei (nextSei_isSei w hx))
        (fun y hy => by rw [b4] at hy; rw [hy] at hn; exact Option.some.inj hn) (Nat.zero_le _) (Nat.le_refl _) hg
      have hseg : (segFrom false b.list).flatMap (hashOf b.d.hashSize) = (segment s.list).flatMap (hashOf b.d.hashSize) ∧
          ∀ y ∈ segment s.list, ∃ z ∈ segFrom false b.list, z.2.nalu = y.2.nalu := by
        rw [segment_eq, b4, hal]
        unfold NList.set
        have hfe : ∀ i : Item, (f i).status = i.status ∧ (f i).nalu = i.nalu ∧ (f i).hash = i.hash ∧ (f i).second = i.second := by
          rcases hf with rfl | rfl
          · exact fun i => ⟨rfl, rfl, rfl, rfl⟩
          · exact fun i => ⟨rfl, rfl, rfl, rfl⟩
        have key : ∀ y : Nat × Item, (if y.1 = x.1 then (y.1, f y.2) else y).2.status = y.2.status ∧
            (if y.1 = x.1 then (y.1, f y.2) else y).2.nalu = y.2.nalu ∧
            (if y.1 = x.1 then (y.1, f y.2) else y).2.hash = y.2.hash ∧
            (if y.1 = x.1 then (y.1, f y.2) else y).2.second = y.2.second := by
          intro y; split
          · exact hfe y.2
          · exact ⟨rfl, rfl, rfl, rfl⟩
        rw [segFrom_congr (fun y _ => (key y).1) (fun y _ => by unfold Item.isSei; rw [(key y).2.1])
          (fun y _ => by unfold Item.isFirst; rw [(key y).2.1]), List.flatMap_map]
        refine ⟨?_, fun y hy => ⟨_, List.mem_map_of_mem (f := fun y : Nat × Item => if y.1 = x.1 then (y.1, f y.2) else y) hy, (key y).2.1⟩⟩
        congr 1
        funext y
        unfold hashOf Item.isFirst
        rw [(key y).2.1, (key y).2.2.1, (key y).2.2.2]
      rw [List.nil_append] at g2
      have hcs : b.gop.hasSei = true := by
        have : a.gop.hasSei = s.gop.hasSei := by
          exact hp.hasSei
        rw [hbm.2.2.2, this]; exact hsei
      rcases h5 with ⟨-, h5⟩ | ⟨h5, -⟩
      · unfold verifyHash at h5
        split at h5
        · cases h5
        · split at h5
          · cases h5
          · rename_i k hk
            cases h5
            refine ⟨a, f, k, b.primary.getD b.typ, b.computed, h1, b1, hbm.2.1, hbm.1, hbm.2.2.1, hf, ?_, ?_, hk, rfl, rfl, fun y hy => ?_⟩
            · dsimp only; rw [g1, b4, hal]; rfl
            · dsimp only
              rw [g2, ← hseg.1]; rfl
            · obtain ⟨z, hz, e⟩ := hseg.2 y hy
              rw [← e]; exact (g3 z hz).1
      · dsimp only at h5; rw [hcs] at h5; cases h5

/-- A good verdict means that no NAL unit marked as used is invalid, and that nothing is taken back. -/
theorem conclude_good {t : Validator} {p : Bool × Int × Int}
    (h : (t.conclude p).rep.latest.auth = .ok ∨ (t.conclude p).rep.latest.auth = .okWithMissing) :
    (∀ y ∈ t.list, y.2.used = true → y.2.status ≠ .N) ∧ (t.conclude p).list = clearUsed t.list ∧ t.rep.latest.keyChanged = false := by
  have e : (t.conclude p).rep.latest.auth = worse t.rep.latest.auth (if t.rep.latest.keyChanged then .notOk else
      (if (t.flags.first && decide (verdict (getStats t.list) t.flags.first p ≠ .ok)) then .signaturePresent
        else verdict (getStats t.list) t.flags.first p)) := rfl
  rw [e] at h
  have hv : ∀ st f, verdict st f p = .ok ∨ verdict st f p = .okWithMissing ∨ verdict st f p = .notOk ∨ verdict st f p = .signaturePresent := by
    intro st f
    unfold verdict judge
    dsimp only
    repeat' split
    all_goals simp
  have hw : ∀ a v : Auth, v ≠ .versionMismatch → (worse a v = .ok ∨ worse a v = .okWithMissing) → v = .ok ∨ v = .okWithMissing := by
    intro a v; cases a <;> cases v <;> decide
  generalize hk : t.rep.latest.keyChanged = kc at h
  generalize hr : (t.flags.first && decide (verdict (getStats t.list) t.flags.first p ≠ .ok)) = retry at h
  have h1 := hw _ _ (by
    cases kc
    · cases retry
      · simp only [Bool.false_eq_true, if_false]
        rcases hv (getStats t.list) t.flags.first with e | e | e | e <;> rw [e] <;> simp
      · simp
    · simp) h
  cases kc with
  | true => simp at h1
  | false =>
    cases retry with
    | true => simp at h1
    | false =>
      simp only [Bool.false_eq_true, if_false] at h1
      refine ⟨?_, ?_, rfl⟩
      · intro y hy hu hs
        have hi : (getStats t.list).invalid > 0 := by
          unfold getStats
          dsimp only
          apply List.length_pos_of_mem (a := y)
          rw [List.mem_filter]
          exact ⟨hy, by rw [hu, hs]; rfl⟩
        have : verdict (getStats t.list) t.flags.first p = .notOk := by
          unfold verdict judge
          dsimp only
          rw [if_pos hi]
          simp
        rw [this] at h1
        rcases h1 with h1 | h1 <;> cases h1
      · show (if (t.flags.first && decide (verdict (getStats t.list) t.flags.first p ≠ .ok)) = true then _ else _) = _
        rw [hr]; rfl

/-- The best verdict on a validation that succeeded means that no NAL unit is missing. -/
theorem conclude_ok {t : Validator} {p : Bool × Int × Int} (h : (t.conclude p).rep.latest.auth = .ok) (hp : p.1 = true) :
    ∀ y ∈ t.list, y.2.used = true → y.2.status ≠ .M := by
  have e : (t.conclude p).rep.latest.auth = worse t.rep.latest.auth (if t.rep.latest.keyChanged then .notOk else
      (if (t.flags.first && decide (verdict (getStats t.list) t.flags.first p ≠ .ok)) then .signaturePresent
        else verdict (getStats t.list) t.flags.first p)) := rfl
  rw [e] at h
  have hv : verdict (getStats t.list) t.flags.first p ≠ .versionMismatch := by
    unfold verdict judge
    dsimp only
    repeat' split
    all_goals simp
  have hw : ∀ a v : Auth, v ≠ .versionMismatch → worse a v = .ok → v = .ok := by
    intro a v; cases a <;> cases v <;> decide
  have h1 : verdict (getStats t.list) t.flags.first p = .ok := by
    have := hw _ _ (by
      split
      · simp
      · split
        · simp
        · exact hv) h
    split at this
    · cases this
    · split at this
      · cases this
      · exact this
  intro y hy hu hs
  have hi : (getStats t.list).missing > 0 := by
    unfold getStats
    dsimp only
    apply List.length_pos_of_mem (a := y)
    rw [List.mem_filter]
    exact ⟨hy, by rw [hu, hs]; rfl⟩
  have hj : judge (getStats t.list) t.flags.first p.2.1 p.1 ≠ .ok := by
    have key : ∀ v : Auth, (if v = .ok ∧ (getStats t.list).missing > 0 ∧ p.1 = true then Auth.okWithMissing else v) ≠ .ok := by
      intro v
      split
      · simp
      · rename_i hc
        intro e
        exact hc ⟨e, hi, hp⟩
    exact key _
  unfold verdict at h1
  dsimp only at h1
  split at h1
  · cases h1
  · exact hj h1

theorem verifyGop_hashList {s s' : Validator} {p : Bool × Int × Int} (hg : (s.gopHashOk && s.linkedOk) = false) (hv : s.verified = 1)
    (hl : s.gop.lost = false ∨ s.gop.transLost = true) (h : s.verifyGop = .ok s' p) :
    (∃ t, s.withHashList s.linkedOk = .ok t p ∧ s'.list = t.list) ∨ s.d.hashList = [] := by
  unfold verifyGop at h
  rw [if_neg (by rcases hl with e | e <;> rw [e] <;> simp)] at h
  obtain ⟨t, q, h1, h2⟩ := Res.andThen_eq_ok h
  cases h2
  unfold withSei at h1
  dsimp only at h1
  rw [if_pos hv] at h1
  split at h1
  · exact .inl ⟨t, h1, rfl⟩
  · rename_i hc
    rw [hg] at hc
    exact .inr (List.length_eq_zero_iff.1 (by simpa using hc))

theorem cand_map {hs : Nat} {l : NList} {f : Nat × Item → Nat × Item}
    (h : ∀ x, (f x).1 = x.1 ∧ (f x).2.status = x.2.status ∧ (f x).2.used = x.2.used ∧ (f x).2.nalu = x.2.nalu ∧ (f x).2.hash = x.2.hash ∧
      (f x).2.second = x.2.second) :
    ((l.map f).filter candidate).map (fun y => (y.1, hashOf hs y)) = (l.filter candidate).map fun y => (y.1, hashOf hs y) := by
  rw [List.filter_map, List.map_map]
  have e : candidate ∘ f = candidate := by
    funext x; show candidate (f x) = _; unfold candidate; rw [(h x).2.1, (h x).2.2.1]
  rw [e]
  refine List.map_congr_left fun x _ => ?_
  show ((f x).1, hashOf hs (f x)) = _
  unfold hashOf Item.isFirst
  rw [(h x).1, (h x).2.2.2.1, (h x).2.2.2.2.1, (h x).2.2.2.2.2]

/-- What is compared in a validation are NAL units. -/
theorem round_nalus {env : AuthEnv} {s s' : Validator} (g : Good s) (hs : s.flags.signing = true) (hp : s.hasPending.2 = true)
    (h : s.hasPending.1.round env = .ok s' ()) : ∀ y ∈ segment s.list, y.2.nalu.isSome = true := by
  obtain ⟨u, v, t, p, h1, -⟩ := round_ok (s := s.hasPending.1) hs h
  obtain ⟨x, hx⟩ := hasPending_sei (s := s) hs hp
  have hq : s.hasPending.1.begin.list = s.list := begin_list _
  have wq : WFs s.hasPending.1.begin := by
    unfold WFs; rw [begin_list, begin_brk]; exact g.wf
  have hsei : s.hasPending.1.begin.gop.hasSei = true := by
    have := hasPending_hasSei g.kinds hs hp
    unfold begin; split <;> exact this
  obtain ⟨a, f, k, pt, old, -, -, -, -, -, -, -, -, -, -, -, p12⟩ := prepare_seg wq (by rw [hq]; exact hx) hsei h1
  rw [hq] at p12
  exact p12

/-- What stands behind a good verdict. -/
theorem round_backed {env : AuthEnv} {s s' : Validator} (g : Good s) (hs : s.flags.signing = true) (hp : s.hasPending.2 = true)
    (hv : ∀ k sig h, env.verify k sig h = 0 ∨ env.verify k sig h = 1) (h : s.hasPending.1.round env = .ok s' ())
    (ha : s'.rep.latest.auth = .ok ∨ s'.rep.latest.auth = .okWithMissing) :
    ∃ key, s'.key = some key ∧ (segment s.list ≠ [] → Backed env s' key ((segment s.list).map (hashOf s'.d.hashSize))) ∧
      ∀ x ∈ segment s.list, ∃ y ∈ s'.list, y.1 = x.1 ∧ y.2.status = .ok := by
  obtain ⟨u, v, t, p, h1, h2, h3, h4⟩ := round_ok (s := s.hasPending.1) hs h
  obtain ⟨x, hx⟩ := hasPending_sei (s := s) hs hp
  have hq : s.hasPending.1.begin.list = s.list := begin_list _
  have wq : WFs s.hasPending.1.begin := by
    unfold WFs; rw [begin_list, begin_brk]; exact g.wf
  have hsei : s.hasPending.1.begin.gop.hasSei = true := by
    have := hasPending_hasSei g.kinds hs hp
    unfold begin; split <;> exact this
  obtain ⟨a, f, k, pt, old, p1, p2, p3, p4, p5, p6, p7, p8, p9, p10, p11, -⟩ := prepare_seg wq (by rw [hq]; exact hx) hsei h1
  rw [hq] at p7 p8
  have tq : Tidy s.hasPending.1.begin := by
    unfold Tidy; rw [hq]; exact g.tidy
  have uq : Used s.hasPending.1.begin := by
    unfold Used; rw [hq]; exact g.used
  have hpr := (prepare_prep env s.hasPending.1.begin).of_ok h1
  have wu : WFs u := (hpr.ev noStatus).wf wq
  have tu : Tidy u := (prepare_tidy wq tq).of_ok h1
  have uu : Used u := (prepare_used wq uq).of_ok h1
  obtain ⟨l1, l2, l3⟩ := updateLinkLoop_prep h2
  have wv : WFs v := by
    have hb : v.brk = u.brk := by rw [l3]
    unfold WFs; rw [hb]; exact WF.of_addr wu l2
  have tv := updateLinkLoop_tidy tu h2
  have fu : FirstUsed u.list := by rw [p7]; exact firstUsed_mark _
  have fv : FirstUsed v.list := by
    rcases updateLinkLoop_eq h2 with e | ⟨lk, i, e⟩
    · rw [e]; exact fu
    · rw [e]; exact fu.set i
  have hvd : v.d = u.d ∧ v.key = u.key ∧ v.sigHash = u.sigHash ∧ v.verified = u.verified ∧ v.computed = u.computed ∧ v.primary = u.primary := by
    rw [l3]; exact ⟨rfl, rfl, rfl, rfl, rfl, rfl⟩
  have hn : (nextSei v.list).map Prod.fst = some x.1 := by
    rw [Validator.Grow.nextSei l1, Validator.Grow.nextSei hpr.list, hq, hx]; rfl
  cases hsei' : nextSei v.list with
  | none => rw [hsei'] at hn; cases hn
  | some sei =>
  have hcm := comparable wv tu uu h2 hsei'
  have hcv : ∀ hs, (v.list.filter candidate).map (fun y => (y.1, hashOf hs y)) = (segment s.list).map fun y => (y.1, hashOf hs y) := by
    intro hs
    have e1 : (v.list.filter candidate).map (fun y => (y.1, hashOf hs y)) = (u.list.filter candidate).map fun y => (y.1, hashOf hs y) := by
      rcases updateLinkLoop_eq h2 with e | ⟨lk, i, e⟩
      · rw [e]
      · rw [e]
        exact cand_map fun y => by split <;> exact ⟨rfl, rfl, rfl, rfl, rfl, rfl⟩
    rw [e1, p7]
    have hfe : ∀ i : Item, (f i).status = i.status ∧ (f i).used = i.used ∧ (f i).nalu = i.nalu ∧ (f i).hash = i.hash ∧ (f i).second = i.second := by
      rcases p6 with rfl | rfl
      · exact fun i => ⟨rfl, rfl, rfl, rfl, rfl⟩
      · exact fun i => ⟨rfl, rfl, rfl, rfl, rfl⟩
    have tf : TidyFrom false (s.list.set x.1 f) :=
      TidyFrom.set (b := false) (l := s.list) g.tidy fun y _ _ => ⟨(hfe y.2).1, (hfe y.2).2.1,
        fun h => by unfold Item.isSei at h ⊢; rw [← (hfe y.2).2.2.1]; exact h,
        fun h => by unfold Item.isFirst at h ⊢; rw [← (hfe y.2).2.2.1]; exact h⟩
    rw [mark_candidates tf, List.map_map, segment_eq]
    have key : ∀ y : Nat × Item, (if y.1 = x.1 then (y.1, f y.2) else y).1 = y.1 ∧ (if y.1 = x.1 then (y.1, f y.2) else y).2.status = y.2.status ∧
        (if y.1 = x.1 then (y.1, f y.2) else y).2.nalu = y.2.nalu ∧
        (if y.1 = x.1 then (y.1, f y.2) else y).2.hash = y.2.hash ∧
        (if y.1 = x.1 then (y.1, f y.2) else y).2.second = y.2.second := by
      intro y; split
      · exact ⟨rfl, (hfe y.2).1, (hfe y.2).2.2⟩
      · exact ⟨rfl, rfl, rfl, rfl, rfl⟩
    unfold NList.set
    rw [segFrom_congr (fun y _ => (key y).2.1) (fun y _ => by unfold Item.isSei; rw [(key y).2.2.1])
      (fun y _ => by unfold Item.isFirst; rw [(key y).2.2.1]), List.map_map]
    refine List.map_congr_left fun y _ => ?_
    show ((if y.1 = x.1 then (y.1, f y.2) else y).1, hashOf hs ((if y.1 = x.1 then (y.1, f y.2) else y).1,
      { (if y.1 = x.1 then (y.1, f y.2) else y).2 with used := true })) = _
    unfold hashOf Item.isFirst
    rw [(key y).1, (key y).2.2.1, (key y).2.2.2.1, (key y).2.2.2.2]
  have hl := (verifyGop_listed v).of_ok h3
  have wt : WFs t := (verifyGop_ver wv h3).ev.wf wv
  have hs'd : s'.d = u.d ∧ s'.key = u.key ∧ s'.sigHash = u.sigHash ∧ s'.linked = v.linked ∧ s'.rep.latest.auth = (t.conclude p).rep.latest.auth ∧
      s'.list = (t.conclude p).list ∧ s'.primary = v.primary := by
    rw [h4]
    have : t.d = v.d ∧ t.key = v.key ∧ t.sigHash = v.sigHash ∧ t.linked = v.linked ∧ t.primary = v.primary := by
      rw [hl]; exact ⟨rfl, rfl, rfl, rfl, rfl⟩
    exact ⟨this.1.trans hvd.1, this.2.1.trans hvd.2.1, this.2.2.1.trans hvd.2.2.1, this.2.2.2.1, rfl, rfl, this.2.2.2.2⟩
  rw [hs'd.2.2.2.2.1] at ha
  obtain ⟨c1, c2, -⟩ := conclude_good ha
  have hver : v.verified = 1 ∨ v.verified = 0 := by
    rw [hvd.2.2.2.1, p10]; exact (hv _ _ _).symm
  have hnotsei : ∀ y ∈ v.list, candidate y = true → y.1 ≠ sei.1 := by
    intro y hy hc e
    obtain ⟨k1, k2, n, k3, k4⟩ := nextSei_spec hsei'
    have : y = sei := WF.unique wv hy k1 e
    have h := (hcm.noSei y hy hc).1
    rw [this] at h
    unfold Item.isSei at h; rw [k3] at h; dsimp only at h; rw [k4] at h; cases h
  have hall : ∀ y ∈ v.list, candidate y = true → ∃ z ∈ t.list, z.1 = y.1 ∧ z.2.status = .ok := by
    intro y hy hc
    rcases verifyGop_marks hsei' tv fv hver hcm h3 hy hc (hnotsei y hy hc) with ⟨z, hz, e, hu, hst⟩ | ⟨z, hz, hu, hst⟩
    · rcases hst with hst | hst
      · exact ⟨z, hz, e, hst⟩
      · exact absurd hst (c1 z hz hu)
    · exact absurd hst (c1 z hz hu)
  refine ⟨k, hs'd.2.1.trans p9, ?_, ?_⟩
  · intro hne
    have hne' : v.list.filter candidate ≠ [] := by
      intro e
      have := hcv 0
      rw [e] at this
      exact hne (List.map_eq_nil_iff.1 this.symm)
    have hr : ∀ y ∈ v.list, candidate y = true → (v.gop.lost = false ∨ v.gop.transLost = true) ∧ Reason v y := by
      intro y hy hc
      obtain ⟨z, hz, e, hst⟩ := hall y hy hc
      obtain ⟨q, hq, eq, hqq⟩ := verifyGop_okAt wv h3 z hz hst
      have : q = y := WF.unique wv hq hy (eq.trans e)
      subst this
      rcases hqq with hqq | hqq
      · unfold candidate at hc
        rw [hqq] at hc; simp at hc
      · exact hqq
    obtain ⟨y0, r0, e0⟩ := List.exists_cons_of_ne_nil hne'
    have hy0 : y0 ∈ v.list.filter candidate := by rw [e0]; exact List.mem_cons_self
    obtain ⟨hy0, hc0⟩ := List.mem_filter.1 hy0
    obtain ⟨hlost, hver1, -⟩ := hr y0 hy0 hc0
    have hmap : (v.list.filter candidate).map (hashOf u.d.hashSize) = (segment s.list).map (hashOf u.d.hashSize) := by
      have := congrArg (List.map Prod.snd) (hcv u.d.hashSize)
      rw [List.map_map, List.map_map] at this
      exact this
    refine ⟨?_, ?_⟩
    · rw [hs'd.1, hs'd.2.2.1, ← p10, ← hvd.2.2.2.1]; exact hver1
    · rw [hs'd.1]
      cases hg : (v.gopHashOk && v.linkedOk) with
      | true =>
        rw [Bool.and_eq_true] at hg
        refine .inl ⟨⟨pt, old, hs'd.2.2.2.2.2.2.trans (hvd.2.2.2.2.2.trans p11), ?_⟩, ?_⟩
        · have := hg.1
          unfold gopHashOk at this
          rw [decide_eq_true_eq, hvd.1, hvd.2.2.2.2.1, p8] at this
          exact this
        · have := hg.2
          unfold linkedOk at this ⊢
          rw [hs'd.1, hs'd.2.2.2.1, ← hvd.1]; exact this
      | false =>
        right
        rcases verifyGop_hashList hg hver1 hlost h3 with ⟨t', h5, h6⟩ | h5
        · have wt' : WFs t' := (withHashList_ver wv h5).1.ev.wf wv
          have hall' : ∀ y ∈ v.list, candidate y = true → ∃ z ∈ t'.list, z.1 = y.1 ∧ z.2.status = .ok := by
            rw [← h6]; exact hall
          have hsub := withHashList_sublist wv wt' hsei' hcm h5 hall'
          rw [hvd.1, hmap] at hsub
          refine ⟨hsub, fun hok => ?_⟩
          have hp1 : p.1 = true := by
            obtain ⟨-, -, -, -, -, g4, -⟩ := C43_hash_list wv hsei' hcm h5
            rw [g4]
          have := (withHashList_all wv wt' hsei' hcm h5 hall' (by rw [← h6]; exact conclude_ok (hs'd.2.2.2.2.1.symm.trans hok) hp1)).2
          rw [hvd.1, hmap] at this
          exact this
        · exfalso
          rcases (hr y0 hy0 hc0).2.2 with e | ⟨-, e | e⟩
          · rw [hsei'] at e
            exact hnotsei y0 hy0 hc0 (congrArg Prod.fst (Option.some.inj e)).symm
          · rw [e.1, e.2] at hg; cases hg
          · rw [h5] at e
            unfold chunk at e
            simp at e
  · intro z hz
    have hm : (z.1, hashOf 0 z) ∈ (v.list.filter candidate).map fun y => (y.1, hashOf 0 y) := by
      rw [hcv 0]; exact List.mem_map_of_mem (f := fun y => (y.1, hashOf 0 y)) hz
    obtain ⟨y, hy, e⟩ := List.mem_map.1 hm
    obtain ⟨hy, hc⟩ := List.mem_filter.1 hy
    obtain ⟨q, hq, eq, hqo⟩ := hall y hy hc
    rw [hs'd.2.2.2.2.2.1, c2]
    refine ⟨(q.1, { q.2 with used := false }), List.mem_map_of_mem (f := fun x : Nat × Item => (x.1, { x.2 with used := false })) hq, ?_, hqo⟩
    have ez : y.1 = z.1 := (Prod.mk.inj e).1
    exact eq.trans ez

end Validator
end SV
