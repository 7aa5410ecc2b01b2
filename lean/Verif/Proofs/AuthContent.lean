import Verif.Proofs.AuthAlgo
/-! What the hashes of the list items are hashes of. -/
namespace SV

namespace Spec

/-- The bytes of a received NAL unit that are hashed: all of it without start code and trailing zeros; of a SEI, what precedes the
signature. -/
def hashedBytes (c : Codec) (data : Bytes) : Bytes :=
  match parseNalu data c true true with
  | .ok n => match (if n.valid ≤ 0 then .ok n else updateHashable n) with
    | .ok m => m.hashable
    | _ => []
  | _ => []

/-- A hash that NAL units were hashed together with: the one of a received NAL unit, or zeros before there is any. -/
def RefHash (env : AuthEnv) (T : List Bytes) (N : Nat) (c : Codec) (L : Log) (r : Bytes) : Prop :=
  r = List.replicate N 0 ∨ ∃ p ∈ L, ∃ t ∈ T, r = env.H t (hashedBytes c p.2)

/-- The hashes of the NAL unit `data` that an item may have. -/
structure HashesOf (env : AuthEnv) (T : List Bytes) (N : Nat) (c : Codec) (L : Log) (n : Nalu) (data : Bytes) (i : Item) : Prop where
  sei : n.gopSei = true → buf N i.hash = List.replicate N 0 ∨ ∃ t ∈ T, buf N i.hash = env.H t (hashedBytes c data)
  first : n.firstInGop = true → i.second = none ∨ ∃ t ∈ T, i.second = some (env.H t (hashedBytes c data))
  other : n.gopSei = false → n.firstInGop = false →
    buf N i.hash = List.replicate N 0 ∨ ∃ t ∈ T, ∃ r, RefHash env T N c L r ∧ buf N i.hash = env.H t (r ++ env.H t (hashedBytes c data))

end Spec

open Spec
namespace Validator

/-- The same kind of NAL unit. -/
structure SameKind (n m : Nalu) : Prop where
  sei : n.gopSei = m.gopSei
  first : n.firstInGop = m.firstInGop
  hashable : n.isHashable = m.isHashable
  valid : n.valid = m.valid

/-- An item stands for a received NAL unit and has hashes of it. -/
def ItemOk (env : AuthEnv) (T : List Bytes) (N : Nat) (c : Codec) (L : Log) (x : Nat × Item) : Prop :=
  ∀ n, x.2.nalu = some n → ∃ data m, L.lookup x.1 = some data ∧ parseNalu data c true true = .ok m ∧ SameKind n m ∧
    HashesOf env T N c L n data x.2

/-- An item has the bytes that are hashed. -/
def FullItem (c : Codec) (L : Log) (x : Nat × Item) : Prop :=
  ∀ n, x.2.nalu = some n → n.isHashable = true → ∃ data, L.lookup x.1 = some data ∧ n.hashable = hashedBytes c data

structure Core (env : AuthEnv) (T : List Bytes) (N : Nat) (c : Codec) (k : Bool) (L : Log) (s : Validator) : Prop where
  alg : Alg T N k s
  codec : s.codec = c
  ref : RefHash env T N c L (s.buddies.take N)
  items : ∀ x ∈ s.list, ItemOk env T N c L x

variable {env : AuthEnv} {T : List Bytes} {N : Nat} {c : Codec} {k : Bool} {L : Log}

theorem RefHash.length (he : Algs env T N) {r : Bytes} (h : RefHash env T N c L r) : r.length = N := by
  rcases h with rfl | ⟨p, _, t, ht, rfl⟩
  · exact List.length_replicate
  · exact he.len t ht _

theorem RefHash.cons {r : Bytes} {p : Nat × Bytes} (h : RefHash env T N c L r) : RefHash env T N c (p :: L) r :=
  h.imp id fun ⟨q, hq, h⟩ => ⟨q, List.mem_cons_of_mem _ hq, h⟩

theorem HashesOf.cons {n : Nalu} {data : Bytes} {i : Item} {p : Nat × Bytes} (h : HashesOf env T N c L n data i) :
    HashesOf env T N c (p :: L) n data i :=
  ⟨h.sei, h.first, fun a b => (h.other a b).imp id fun ⟨t, ht, r, hr, e⟩ => ⟨t, ht, r, RefHash.cons hr, e⟩⟩

theorem ItemOk.cons {x : Nat × Item} {p : Nat × Bytes} (h : ItemOk env T N c L x) (hx : x.1 ≠ p.1) : ItemOk env T N c (p :: L) x := by
  intro n hn
  obtain ⟨data, m, h1, h2, h3, h4⟩ := h n hn
  refine ⟨data, m, ?_, h2, h3, HashesOf.cons h4⟩
  rw [← h1]
  have : (x.1 == p.1) = false := by simpa using hx
  simp [List.lookup, this]

theorem FullItem.cons {x : Nat × Item} {p : Nat × Bytes} (h : FullItem c L x) (hx : x.1 ≠ p.1) : FullItem c (p :: L) x := by
  intro n hn hh
  obtain ⟨data, h1, h2⟩ := h n hn hh
  refine ⟨data, ?_, h2⟩
  rw [← h1]
  have : (x.1 == p.1) = false := by simpa using hx
  simp [List.lookup, this]

/-- The items with NAL unit come from another list. -/
def From (l l' : NList) : Prop :=
  ∀ x ∈ l', x.2.nalu = none ∨ ∃ y ∈ l, y.1 = x.1 ∧ x.2.nalu = y.2.nalu ∧ x.2.hash = y.2.hash ∧ x.2.second = y.2.second

theorem From.refl (l : NList) : From l l := fun x hx => .inr ⟨x, hx, rfl, rfl, rfl, rfl⟩

theorem From.trans {a b d : NList} (h : From a b) (g : From b d) : From a d := by
  intro x hx
  rcases g x hx with e | ⟨y, hy, e1, e2, e3, e4⟩
  · exact .inl e
  · rcases h y hy with e | ⟨z, hz, f1, f2, f3, f4⟩
    · exact .inl (e2.trans e)
    · exact .inr ⟨z, hz, f1.trans e1, e2.trans f2, e3.trans f3, e4.trans f4⟩

theorem From.of_grow {S : Option Nalu → Status → Prop} {l l' : NList} (h : Grow S l l') : From l l' := by
  intro x hx
  rcases h.mem hx with e | ⟨y, hy, e, kk⟩
  · exact .inl e.1
  · exact .inr ⟨y, hy, e, kk.nalu, kk.hash, kk.second⟩

theorem From.of_map {l : NList} {f : Nat × Item → Nat × Item}
    (hf : ∀ x, (f x).1 = x.1 ∧ (f x).2.nalu = x.2.nalu ∧ (f x).2.hash = x.2.hash ∧ (f x).2.second = x.2.second) : From l (l.map f) := by
  intro x hx
  obtain ⟨y, hy, rfl⟩ := List.mem_map.1 hx
  obtain ⟨h1, h2, h3, h4⟩ := hf y
  exact .inr ⟨y, hy, h1.symm, h2, h3, h4⟩

theorem From.of_set {l : NList} {a : Nat} {f : Item → Item}
    (hf : ∀ i, (f i).nalu = i.nalu ∧ (f i).hash = i.hash ∧ (f i).second = i.second) : From l (l.set a f) := by
  refine From.of_map fun x => ?_
  split
  · exact ⟨rfl, hf x.2⟩
  · exact ⟨rfl, rfl, rfl, rfl⟩

theorem From.of_undo {l l' : NList} (h : Undo l l') : From l l' := by
  have key : ∀ x ∈ l', ∃ y ∈ l, y.1 = x.1 ∧ x.2.nalu = y.2.nalu ∧ x.2.hash = y.2.hash ∧ x.2.second = y.2.second := by
    induction h with
    | nil => intro x hx; cases hx
    | same _ ih =>
      intro x hx
      rcases List.mem_cons.1 hx with rfl | hx
      · exact ⟨x, List.mem_cons_self, rfl, rfl, rfl, rfl⟩
      · obtain ⟨y, hy, h⟩ := ih x hx
        exact ⟨y, List.mem_cons_of_mem _ hy, h⟩
    | @reset z l l' _ ih =>
      intro x hx
      rcases List.mem_cons.1 hx with rfl | hx
      · refine ⟨z, List.mem_cons_self, rfl, ?_⟩
        rcases resetStatus_cases z.2 with e | e | ⟨-, e⟩ <;> (dsimp only; rw [e]; exact ⟨rfl, rfl, rfl⟩)
      · obtain ⟨y, hy, h⟩ := ih x hx
        exact ⟨y, List.mem_cons_of_mem _ hy, h⟩
    | drop _ _ ih =>
      intro x hx
      obtain ⟨y, hy, h⟩ := ih x hx
      exact ⟨y, List.mem_cons_of_mem _ hy, h⟩
  exact fun x hx => .inr (key x hx)

theorem ItemOk.from {l l' : NList} (hf : From l l') (h : ∀ x ∈ l, ItemOk env T N c L x) : ∀ x ∈ l', ItemOk env T N c L x := by
  intro x hx n hn
  rcases hf x hx with e | ⟨y, hy, e1, e2, e3, e4⟩
  · rw [e] at hn; cases hn
  · obtain ⟨data, m, h1, h2, h3, h4⟩ := h y hy n (e2 ▸ hn)
    exact ⟨data, m, e1 ▸ h1, h2, h3, ⟨fun q => e3 ▸ h4.sei q, fun q => e4 ▸ h4.first q, fun q r => e3 ▸ h4.other q r⟩⟩

theorem FullItem.from {l l' : NList} (hf : From l l') (h : ∀ x ∈ l, FullItem c L x) : ∀ x ∈ l', FullItem c L x := by
  intro x hx n hn hh
  rcases hf x hx with e | ⟨y, hy, e1, e2, -, -⟩
  · rw [e] at hn; cases hn
  · obtain ⟨data, h1, h2⟩ := h y hy n (e2 ▸ hn) hh
    exact ⟨data, e1 ▸ h1, h2⟩

/-- The state has the list items of another one. -/
structure FromS (s t : Validator) : Prop where
  wf : WFs t
  codec : t.codec = s.codec
  buddies : t.buddies = s.buddies
  list : From s.list t.list

theorem fromS_inv (s : Validator) : RoundInv (FromS s) where
  pending t h := ⟨h.wf, h.codec, h.buddies, h.list⟩
  begin t h := ⟨wfs_inv.begin t h.wf, (begin_codec t).trans h.codec, by unfold Validator.begin; split <;> exact h.buddies,
    by rw [begin_list]; exact h.list⟩
  prep env t h := (prepare_prep env t).mono fun u hu =>
    ⟨(hu.ev noStatus).wf h.wf, hu.codec.trans h.codec, hu.buddies.trans h.buddies, h.list.trans (.of_grow hu.list)⟩
  link u v h hl := by
    have w := wfs_inv.link u v h.wf hl
    rcases updateLinkLoop_eq hl with e | ⟨lk, a, e⟩
    · rw [e]; exact h
    · refine ⟨w, by rw [e]; exact h.codec, by rw [e]; exact h.buddies, ?_⟩
      rw [e]
      exact h.list.trans (.of_set (f := fun i => { i with linked := true }) fun i => ⟨rfl, rfl, rfl⟩)
  verify v t p h hv := by
    have hr := verifyGop_ver h.wf hv
    refine ⟨wfs_inv.verify v t p h.wf hv, by rw [hr.eq]; exact h.codec, by rw [hr.eq]; exact h.buddies, h.list.trans (.of_grow hr.ev.grow)⟩
  conclude t p h := by
    refine ⟨wfs_conclude t p h.wf, h.codec, h.buddies, h.list.trans ?_⟩
    have h1 : From t.list (clearUsed t.list) := .of_map fun x => ⟨rfl, rfl, rfl, rfl⟩
    unfold conclude
    dsimp only
    split
    · exact h1.trans (.of_undo (removeMissing_undo _))
    · exact h1
  notSigned t h := ⟨h.wf, h.codec, h.buddies, h.list⟩
  finish t h := ⟨h.wf, h.codec, h.buddies, h.list⟩

theorem Core.from {s t : Validator} (h : Core env T N c k L s) (hf : FromS s t) (ha : Alg T N k t) : Core env T N c k L t :=
  ⟨ha, hf.codec.trans h.codec, hf.buddies.symm ▸ h.ref, ItemOk.from hf.list h.items⟩

/-! ### Hashing -/

theorem ovl_take {h b : Bytes} {N : Nat} (e : h.length = N) : (ovl h b).take N = h := by
  unfold ovl; rw [← e, List.take_left]

theorem buf_of_length {h : Bytes} {N : Nat} (e : h.length = N) : buf N h = h := by
  unfold buf; rw [← e, List.take_left]

theorem buf_ovl {h b : Bytes} {N : Nat} (e : h.length = N) : buf N (ovl h b) = h := by
  unfold buf ovl; rw [List.append_assoc, ← e, List.take_left]

theorem buf_zeros {N : Nat} : buf N [] = List.replicate N 0 := by unfold buf; simp

theorem digest_ok {s : Validator} {d h : Bytes} (e : s.digest env d = .ok h) : h = env.H s.typ d := by
  unfold digest hashData at e
  split at e
  · cases e
  · split at e
    · cases e
    · cases e; rfl

theorem hashNalu_spec (he : Algs env T N) {s s' : Validator} {n : Nalu} {h : Bytes} {a : Nat} {data : Bytes} (ha : Alg T N k s)
    (hr : RefHash env T N c L (s.buddies.take N)) (hm : (a, data) ∈ L) (hb : n.hashable = hashedBytes c data)
    (e : s.hashNalu env n = .ok (s', h)) :
    RefHash env T N c L (s'.buddies.take N) ∧ h.length = N ∧
    (n.gopSei = true → h = env.H s.typ (hashedBytes c data)) ∧
    (n.firstInGop = true → s.hasRef = false → h = env.H s.typ (hashedBytes c data)) ∧
    (n.gopSei = false → n.firstInGop = false → ∃ r, RefHash env T N c L r ∧ h = env.H s.typ (r ++ env.H s.typ (hashedBytes c data))) := by
  unfold hashNalu at e
  obtain ⟨h1, e1, e⟩ := Out.bind_eq_ok e
  have e1 := digest_ok e1
  rw [hb] at e1
  have hl1 : h1.length = N := by rw [e1]; exact he.len _ ha.typ _
  split at e
  · rename_i hg
    cases e
    exact ⟨hr, hl1, fun _ => e1, fun _ _ => e1, fun q => by rw [hg] at q; cases q⟩
  · rename_i hg
    split at e
    · rename_i hf
      cases e
      rw [Bool.and_eq_true] at hf
      refine ⟨?_, hl1, fun q => absurd q hg, fun _ _ => e1, fun _ q => by rw [hf.1] at q; cases q⟩
      right
      refine ⟨_, hm, _, ha.typ, ?_⟩
      dsimp only
      rw [ha.size, ovl_take, buf_of_length hl1, e1]
      rw [buf_of_length hl1, hl1]
    · rename_i hf
      obtain ⟨h2, e2, e⟩ := Out.bind_eq_ok e
      have e2 := digest_ok e2
      cases e
      rw [ha.size] at e2 ⊢
      have hrl := RefHash.length he hr
      have ht : ((s.buddies.take N) ++ ovl h1 (s.buddies.drop N)).take (2 * N) = s.buddies.take N ++ h1 := by
        rw [show 2 * N = (s.buddies.take N).length + N by omega, List.take_length_add_append, ovl_take hl1]
      have ht1 : ((s.buddies.take N) ++ ovl h1 (s.buddies.drop N)).take N = s.buddies.take N := by
        conv => lhs; rw [← hrl]
        rw [hrl]
        conv => lhs; arg 1; rw [← hrl]
        exact List.take_left
      rw [ht] at e2
      refine ⟨?_, by rw [e2]; exact he.len _ ha.typ _, fun q => absurd q hg, fun q r => ?_, fun _ _ => ⟨_, hr, by rw [e2, e1]⟩⟩
      · dsimp only
        rw [ht1]; exact hr
      · exfalso; apply hf; rw [q, r]; rfl

theorem lookup_mem {L : Log} {a : Nat} {d : Bytes} (h : L.lookup a = some d) : (a, d) ∈ L := by
  induction L with
  | nil => cases h
  | cons p L ih =>
    obtain ⟨b, e⟩ := p
    rw [List.lookup_cons] at h
    split at h
    · rename_i hb
      have : a = b := by simpa using hb
      cases h; rw [this]; exact List.mem_cons_self
    · exact List.mem_cons_of_mem _ (ih h)

/-- Hashing an item that has the bytes that are hashed. -/
theorem hashItem_core (he : Algs env T N) {s : Validator} {x : Nat × Item} (h : Core env T N c k L s)
    (hx : ∀ y ∈ s.list, y.1 = x.1 → y.2.nalu = x.2.nalu) (hf : FullItem c L x) : (s.hashItem env x).Ends (Core env T N c k L) := by
  unfold hashItem
  cases hn : x.2.nalu with
  | none => exact h
  | some n =>
    dsimp only
    split
    · exact h
    rename_i hc
    have hh : n.isHashable = true := by
      cases hq : n.isHashable with
      | true => rfl
      | false => rw [hq] at hc; simp at hc
    obtain ⟨data, hd, hb⟩ := hf n hn hh
    have hm := lookup_mem hd
    cases h1 : s.hashNalu env n with
    | ub u => trivial
    | err e => exact h
    | ok p =>
      obtain ⟨t, h1'⟩ := p
      have e1 := hashNalu_eq h1
      obtain ⟨r1, r2, r3, r4, r5⟩ := hashNalu_spec he h.alg h.ref hm hb h1
      dsimp only
      have hst : t.list = s.list ∧ t.typ = s.typ ∧ t.d = s.d ∧ t.primary = s.primary ∧ t.codec = s.codec := by
        rw [e1]; exact ⟨rfl, rfl, rfl, rfl, rfl⟩
      have ct : Alg T N k t := h.alg.same (by rw [hst.2.2.1]) hst.2.1 hst.2.2.2.1 (by rw [hst.2.2.1])
      have it : ∀ y ∈ t.list.set x.1 (fun i => { i with hash := ovl h1' i.hash }), ItemOk env T N c L y := by
        rw [hst.1]
        intro y hy
        obtain ⟨z, hz, rfl⟩ := List.mem_map.1 hy
        split
        · rename_i ez
          intro m hm'
          obtain ⟨dt, m', i1, i2, i3, i4⟩ := h.items z hz m hm'
          have e : z.2.nalu = some n := (hx z hz ez).trans hn
          have em : m = n := Option.some.inj (Eq.trans (Eq.symm hm') e)
          subst em
          have ed : dt = data := by
            have : L.lookup z.1 = some data := by rw [ez]; exact hd
            rw [i1] at this; exact Option.some.inj this
          subst ed
          refine ⟨dt, m', i1, i2, i3, ?_, i4.first, ?_⟩
          · intro q
            right
            exact ⟨_, h.alg.typ, by dsimp only; rw [buf_ovl r2, r3 q]⟩
          · intro q q'
            right
            obtain ⟨r, hr, e⟩ := r5 q q'
            exact ⟨_, h.alg.typ, r, hr, by dsimp only; rw [buf_ovl r2, e]⟩
        · exact h.items z hz
      have ch : Core env T N c k L { t with list := t.list.set x.1 fun i => { i with hash := ovl h1' i.hash } } :=
        ⟨ct.same rfl rfl rfl rfl, hst.2.2.2.2.trans h.codec, r1, it⟩
      split
      · generalize h2 : hashNalu env _ n = r
        cases r with
        | ub u => trivial
        | err e => exact ⟨ch.alg.same rfl rfl rfl rfl, ch.codec, ch.ref, ch.items⟩
        | ok q =>
          obtain ⟨v, h2'⟩ := q
          have e2 := hashNalu_eq h2
          obtain ⟨q1, q2, q3, q4, q5⟩ := hashNalu_spec he (s := { t with list := t.list.set x.1 fun i => { i with hash := ovl h1' i.hash }, hasRef := false }) (ch.alg.same rfl rfl rfl rfl) ch.ref hm hb h2
          have hv : v.list = t.list.set x.1 (fun i => { i with hash := ovl h1' i.hash }) ∧ v.typ = s.typ ∧ v.d = s.d ∧ v.primary = s.primary ∧
              v.codec = s.codec := by
            rw [e2]; exact ⟨rfl, hst.2⟩
          refine ⟨h.alg.same (show v.d.hashSize = _ by rw [hv.2.2.1]) hv.2.1 hv.2.2.2.1 (show v.d.hashAlgoKnown = _ by rw [hv.2.2.1]),
            hv.2.2.2.2.trans h.codec, q1, ?_⟩
          dsimp only
          intro y hy
          obtain ⟨z, hz, rfl⟩ := List.mem_map.1 hy
          rw [hv.1] at hz
          split
          · rename_i ez
            intro m hm'
            obtain ⟨dt, m', i1, i2, i3, i4⟩ := it z hz m hm'
            have e : z.2.nalu = some n := by
              rw [hst.1] at hz
              obtain ⟨w, hw, rfl⟩ := List.mem_map.1 hz
              have ew : w.1 = x.1 := by
                by_cases hc : w.1 = x.1
                · exact hc
                · rw [if_neg hc] at ez; exact ez
              rw [if_pos ew]
              exact (hx w hw ew).trans hn
            have em : m = n := Option.some.inj (Eq.trans (Eq.symm hm') e)
            subst em
            have ed : dt = data := by
              have : L.lookup z.1 = some data := by rw [ez]; exact hd
              rw [i1] at this; exact Option.some.inj this
            subst ed
            refine ⟨dt, m', i1, i2, i3, i4.sei, ?_, i4.other⟩
            intro q
            right
            exact ⟨_, h.alg.typ, by dsimp only; rw [q4 q rfl]; rw [← hst.2.1]⟩
          · exact it z hz
      · exact ch

/-- Addresses are unique, and the hashes are those of received NAL units. -/
def CoreW (env : AuthEnv) (T : List Bytes) (N : Nat) (c : Codec) (k : Bool) (L : Log) (s : Validator) : Prop :=
  WFs s ∧ Core env T N c k L s

/-- The items have the bytes that are hashed. -/
def FullS (c : Codec) (L : Log) (s : Validator) : Prop := ∀ x ∈ s.list, FullItem c L x

theorem FullS.hashed {s t : Validator} (h : FullS c L s) (hh : Hashed s t) : FullS c L t := by
  intro x hx
  have hm : (x.1, x.2.nalu, x.2.status) ∈ core s.list := by
    rw [← hh.core]; exact List.mem_map_of_mem (f := fun x : Nat × Item => (x.1, x.2.nalu, x.2.status)) hx
  obtain ⟨y, hy, e⟩ := List.mem_map.1 hm
  have e1 := (Prod.mk.inj e).1
  have e2 := (Prod.mk.inj (Prod.mk.inj e).2).1
  intro n hn hh'
  obtain ⟨data, h1, h2⟩ := h y hy n (e2.trans hn) hh'
  exact ⟨data, e1 ▸ h1, h2⟩

theorem hashItem_corew (he : Algs env T N) {s : Validator} {x : Nat × Item} (h : CoreW env T N c k L s)
    (hx : ∃ y ∈ s.list, y.1 = x.1 ∧ y.2.nalu = x.2.nalu) (hf : FullS c L s) :
    (s.hashItem env x).Ends fun t => CoreW env T N c k L t ∧ FullS c L t := by
  obtain ⟨y, hy, e1, e2⟩ := hx
  have hfx : FullItem c L x := by
    intro n hn hh
    obtain ⟨data, h1, h2⟩ := hf y hy n (e2.trans hn) hh
    exact ⟨data, e1 ▸ h1, h2⟩
  have h1 := hashItem_core he h.2 (fun z hz e => by rw [WF.unique h.1 hz hy (e.trans e1.symm)]; exact e2) hfx
  have h2 := hashItem_hashed env s x
  refine (h1.and h2).mono fun t ht => ⟨⟨?_, ht.1⟩, hf.hashed ht.2⟩
  have hb : t.brk = s.brk := by rw [ht.2.eq]
  unfold WFs
  rw [hb]
  exact WF.of_addr h.1 ht.2.addr

theorem reregister_corew (he : Algs env T N) (l : NList) {s : Validator} (st : Option Rc) (h : CoreW env T N c k L s ∧ FullS c L s)
    (hl : ∀ x ∈ l, ∃ y ∈ s.list, y.1 = x.1 ∧ y.2.nalu = x.2.nalu) :
    (Validator.reregister env l s st).Ends fun t => CoreW env T N c k L t ∧ FullS c L t := by
  induction l generalizing s st with
  | nil =>
    cases st with
    | none => unfold Validator.reregister; exact h
    | some e => unfold Validator.reregister; exact h
  | cons x r ih =>
    unfold Validator.reregister
    split
    · trivial
    · split
      · exact ih st h fun y hy => hl y (List.mem_cons_of_mem _ hy)
      · refine Res.Ends.andThen' (hashItem_corew he h.1 (hl x List.mem_cons_self) h.2) fun t _ e ht => ih none ht fun y hy => ?_
        have hc := ((hashItem_hashed env s x).of_ok e).core
        obtain ⟨z, hz, e1, e2⟩ := hl y (List.mem_cons_of_mem _ hy)
        have hm : (z.1, z.2.nalu, z.2.status) ∈ core t.list := by
          rw [hc]; exact List.mem_map_of_mem (f := fun x : Nat × Item => (x.1, x.2.nalu, x.2.status)) hz
        obtain ⟨w, hw, e3⟩ := List.mem_map.1 hm
        injection e3 with e3 e4
        injection e4 with e4 _
        exact ⟨w, hw, e3.trans e1, e4.trans e2⟩

theorem CoreW.prep {s t : Validator} (h : CoreW env T N c k L s ∧ FullS c L s) (hp : Prep s t) (ha : Alg T N k t) :
    CoreW env T N c k L t ∧ FullS c L t := by
  have hf : FromS s t := ⟨(hp.ev noStatus).wf h.1.1, hp.codec, hp.buddies, .of_grow hp.list⟩
  exact ⟨⟨hf.wf, h.1.2.from hf ha⟩, FullItem.from hf.list h.2⟩

theorem prepareGolden_corew (he : Algs env T N) {s : Validator} (a : Nat) (n : Nalu) (h : CoreW env T N c k L s ∧ FullS c L s) :
    (s.prepareGolden env a n).Ends fun t => CoreW env T N c k L t ∧ FullS c L t := by
  unfold prepareGolden
  refine Res.Ends.andThen' (P := fun t => CoreW env T N c k L t ∧ FullS c L t)
    (((decodeSei_prep env s _ _).and (decodeSei_alg he h.1.2.alg _ _)).mono fun t ht => CoreW.prep h ht.1 ht.2) fun t _ _ ht => ?_
  dsimp only
  have hp : Prep t { t with list := t.list.set a fun i => { i with decoded := true } } :=
    Prep.withList t _ (Grow.set fun y _ _ => ⟨rfl, rfl, rfl, fun _ => rfl, .inl rfl⟩) (set_addr _ _ _)
  have ht' := CoreW.prep ht hp (ht.1.2.alg.same rfl rfl rfl rfl)
  split
  · trivial
  · rename_i x hx
    refine Res.Ends.andThen' (hashItem_corew he ht'.1 ⟨x, List.mem_of_find?_eq_some hx, rfl, rfl⟩ ht'.2) fun u _ _ hu => ?_
    split
    · trivial
    · split
      · trivial
      · rename_i y _ _
        have hu' : CoreW env T N c k L { u with sigHash := ovl (buf u.d.hashSize y.2.hash) u.sigHash, gop := { u.gop with hasSei := true } } ∧
            FullS c L { u with sigHash := ovl (buf u.d.hashSize y.2.hash) u.sigHash, gop := { u.gop with hasSei := true } } :=
          ⟨⟨hu.1.1, hu.1.2.alg.same rfl rfl rfl rfl, hu.1.2.codec, hu.1.2.ref, hu.1.2.items⟩, hu.2⟩
        exact ((prepare_prep env _).and (prepare_alg he hu'.1.2.alg)).mono fun v hv => CoreW.prep hu' hv.1 hv.2

/-- The hashes of the items are those of received NAL units; before the hash algorithm is known the items have the bytes that are hashed. -/
structure Content (env : AuthEnv) (T : List Bytes) (N : Nat) (c : Codec) (L : Log) (s : Validator) : Prop where
  core : Core env T N c false L s
  full : s.d.hashAlgoKnown = false → FullS c L s

theorem Core.weaken {s : Validator} (h : Core env T N c k L s) : Core env T N c false L s :=
  ⟨⟨h.alg.size, h.alg.typ, h.alg.prim, fun h => by cases h⟩, h.codec, h.ref, h.items⟩

theorem Core.strengthen {s : Validator} (h : Core env T N c k L s) : Core env T N c s.d.hashAlgoKnown L s :=
  ⟨⟨h.alg.size, h.alg.typ, h.alg.prim, fun h => h⟩, h.codec, h.ref, h.items⟩

/-- The part of a call for the first SEI. -/
theorem hashAlgoBlock_content (he : Algs env T N) {s : Validator} (w : WFs s) (h : Content env T N c L s) (a : Nat) (n : Nalu) :
    (s.hashAlgoBlock env a n).Ends (Content env T N c L) := by
  unfold Validator.hashAlgoBlock
  split
  · exact h
  · rename_i hk
    have hk : s.d.hashAlgoKnown = false := by
      cases hq : s.d.hashAlgoKnown with
      | false => rfl
      | true => rw [hq] at hk; simp at hk
    have h0 : CoreW env T N c false L s ∧ FullS c L s := ⟨⟨w, h.core⟩, h.full hk⟩
    refine (Res.Ends.andThen' (P := fun t => CoreW env T N c false L t ∧ FullS c L t) ?_ fun t ok _ ht => ?_).mono
      fun t ht => ⟨ht.1.2, fun _ => ht.2⟩
    · exact ((recurrentDecoded_decoded env s).and (recurrentDecoded_ends (decTag_alg he) h.core.alg)).mono fun t ht =>
        CoreW.prep h0 (.of_decoded ht.1) ht.2
    · split
      · exact ht
      · dsimp only
        have ht' : CoreW env T N c false L { t with d := { t.d with hashAlgoKnown := true } } ∧
            FullS c L { t with d := { t.d with hashAlgoKnown := true } } :=
          ⟨⟨ht.1.1, ⟨ht.1.2.alg.size, ht.1.2.alg.typ, ht.1.2.alg.prim, fun _ => rfl⟩, ht.1.2.codec, ht.1.2.ref, ht.1.2.items⟩, ht.2⟩
        refine Res.Ends.andThen' (P := fun t => CoreW env T N c false L t ∧ FullS c L t) ?_ fun u _ _ hu => ?_
        · split
          · exact prepareGolden_corew he a n ht'
          · exact ht'
        · split
          · exact ⟨⟨hu.1.1, hu.1.2.alg.same rfl rfl rfl rfl, hu.1.2.codec, hu.1.2.ref, hu.1.2.items⟩, hu.2⟩
          · exact reregister_corew he _ _ hu fun x hx => ⟨x, hx, rfl, rfl⟩

/-- A new item. -/
theorem newItem_ok {data : Bytes} {n n' : Nalu} {b : Nat} (hn : parseNalu data c true true = .ok n) (hk : SameKind n' n) :
    ItemOk env T N c ((b, data) :: L) (b, { newItem (some n) with nalu := some n' }) := by
  intro m hm
  have hm : n' = m := Option.some.inj hm
  subst hm
  refine ⟨data, n, by simp [List.lookup], hn, hk, fun _ => .inl buf_zeros, fun _ => .inl rfl, fun _ _ => .inl buf_zeros⟩

theorem updateHashable_same {n n' : Nalu} (h : updateHashable n = .ok n') : SameKind n' n := by
  unfold updateHashable at h
  split at h
  · cases h; exact ⟨rfl, rfl, rfl, rfl⟩
  · obtain ⟨q, -, h⟩ := Out.bind_eq_ok h
    split at h <;> (cases h; exact ⟨rfl, rfl, rfl, rfl⟩)

/-- Adding an item to the list. -/
theorem Core.append {s : Validator} {data : Bytes} {n n' : Nalu} (w : WFs s) (h : Core env T N c k L s)
    (hn : parseNalu data c true true = .ok n) (hk : SameKind n' n) {t : Validator}
    (ht : t = { s with list := s.list ++ [(s.brk, { newItem (some n) with nalu := some n' })], brk := s.brk + 1, flags := t.flags }) :
    Core env T N c k ((s.brk, data) :: L) t := by
  rw [ht]
  refine ⟨h.alg.same rfl rfl rfl rfl, h.codec, RefHash.cons h.ref, ?_⟩
  intro x hx
  rcases List.mem_append.1 hx with hx | hx
  · exact ItemOk.cons (h.items x hx) (by have := w.lt x hx; dsimp only; omega)
  · rw [List.mem_singleton.1 hx]
    exact newItem_ok hn hk

theorem FullS.append {s : Validator} {data : Bytes} {n n' : Nalu} (w : WFs s) (h : FullS c L s)
    (hb : n'.hashable = hashedBytes c data) {t : Validator}
    (ht : t = { s with list := s.list ++ [(s.brk, { newItem (some n) with nalu := some n' })], brk := s.brk + 1, flags := t.flags }) :
    FullS c ((s.brk, data) :: L) t := by
  rw [ht]
  intro x hx
  rcases List.mem_append.1 hx with hx | hx
  · exact FullItem.cons (h x hx) (by have := w.lt x hx; dsimp only; omega)
  · rw [List.mem_singleton.1 hx]
    intro m hm _
    have hm : n' = m := Option.some.inj hm
    subst hm
    exact ⟨data, by simp [List.lookup], hb⟩

theorem hashedBytes_low {data : Bytes} {n : Nalu} (hn : parseNalu data c true true = .ok n) (h : n.valid ≤ 0) : hashedBytes c data = n.hashable := by
  unfold hashedBytes
  rw [hn]
  dsimp only
  rw [if_pos h]

theorem hashedBytes_high {data : Bytes} {n n' : Nalu} (hn : parseNalu data c true true = .ok n) (h : ¬ n.valid ≤ 0) (hu : updateHashable n = .ok n') :
    hashedBytes c data = n'.hashable := by
  unfold hashedBytes
  rw [hn]
  dsimp only
  rw [if_neg h, hu]

theorem set_append_new {l : NList} {b : Nat} (w : WF l b) (i : Item) (f : Item → Item) : NList.set (l ++ [(b, i)]) b f = l ++ [(b, f i)] := by
  unfold NList.set
  rw [List.map_append]
  congr 1
  · conv => rhs; rw [← List.map_id l]
    refine List.map_congr_left fun x hx => ?_
    have := w.lt x hx
    rw [if_neg (by omega)]; rfl
  · simp

theorem find_append_new {l : NList} {b : Nat} (w : WF l b) (i : Item) : (l ++ [(b, i)]).find? (fun x => decide (x.1 = b)) = some (b, i) := by
  rw [List.find?_append, List.find?_eq_none.2]
  · simp
  · intro x hx
    have := w.lt x hx
    simp; omega

theorem findTagLoop_ne_err (epb : Bool) (tag : UInt8) (size fuel : Nat) (s : L2) (mem : Bytes) (off : Nat) (e : Rc) :
    findTagLoop epb tag size fuel s mem off ≠ .err e := by
  induction fuel generalizing s mem off with
  | zero => intro h; cases h
  | succ k ih =>
    unfold findTagLoop
    repeat' split
    all_goals first
      | exact ih _ _ _
      | (intro h; cases h)

theorem updateHashable_ne_err (n : Nalu) (e : Rc) : updateHashable n ≠ .err e := by
  unfold updateHashable
  split
  · intro h; cases h
  · intro h
    cases hf : findTag n.tlvStart n.tlvSize tagSignature n.withEpb with
    | ub u => rw [hf] at h; cases h
    | err e' =>
      unfold findTag at hf
      split at hf
      · cases hf
      · exact findTagLoop_ne_err _ _ _ _ _ _ _ _ hf
    | ok o =>
      rw [hf] at h
      cases o <;> cases h

/-- A NAL unit is added to the list and hashed. -/
theorem register_content (he : Algs env T N) {s : Validator} {n : Nalu} {data : Bytes} {fl : VFlags} (w : WFs s) (h : Content env T N c L s)
    (hn : parseNalu data c true true = .ok n) :
    (Validator.register env { s with list := s.list.append s.brk (newItem (some n)), brk := s.brk + 1, flags := fl } s.brk n).Ends
      (Content env T N c ((s.brk, data) :: L)) := by
  have happ : s.list.append s.brk (newItem (some n)) = s.list ++ [(s.brk, { newItem (some n) with nalu := some n })] := rfl
  unfold Validator.register
  split
  · trivial
  · split
    · rename_i hv
      refine ⟨h.core.append w hn ⟨rfl, rfl, rfl, rfl⟩ (n' := n) (by rw [happ]), fun hk => ?_⟩
      exact (h.full hk).append w (n := n) (n' := n) (hashedBytes_low hn (by omega)).symm (by rw [happ])
    · split
      · trivial
      · rename_i e hu
        exact absurd hu (updateHashable_ne_err n e)
      · rename_i h1 h2 n' hu
        dsimp only
        rw [happ, set_append_new w, find_append_new w]
        dsimp only
        let x : Nat × Item := (s.brk, { newItem (some n) with nalu := some n' })
        let t : Validator := { s with list := s.list ++ [x], brk := s.brk + 1, flags := fl }
        have hb : n'.hashable = hashedBytes c data := (hashedBytes_high hn (by omega) hu).symm
        have ct : Core env T N c false ((s.brk, data) :: L) t := h.core.append w hn (updateHashable_same hu) rfl
        have hx : FullItem c ((s.brk, data) :: L) x := by
          intro m hm _
          have hm : n' = m := Option.some.inj hm
          subst hm
          exact ⟨data, by simp [List.lookup, x], hb⟩
        have h3 := hashItem_core he ct (x := x) (fun y hy e => by
          rcases List.mem_append.1 hy with hy | hy
          · have := w.lt y hy
            have : y.1 = s.brk := e
            omega
          · rw [List.mem_singleton.1 hy]) hx
        show (t.hashItem env x).Ends _
        refine (h3.and (hashItem_hashed env t x)).mono fun u hu' => ⟨hu'.1, fun hk => ?_⟩
        have hd : u.d = s.d := by rw [hu'.2.eq]
        rw [hd] at hk
        exact FullS.hashed ((h.full hk).append w (n := n) (n' := n') hb rfl) hu'.2

theorem copyNalu_same {b : Bool} {n n' : Nalu} (h : copyNalu b n = .ok (some n')) :
    SameKind n' n ∧ (b = false → n.isHashable = true → n'.hashable = n.hashable) := by
  unfold copyNalu at h
  split at h
  · cases h
  split at h
  · cases h
  split at h
  · cases h
  · cases h
    refine ⟨⟨rfl, rfl, rfl, rfl⟩, fun h1 h2 => ?_⟩
    dsimp only
    rw [h1, h2]; rfl

theorem Content.from {s t : Validator} (h : Content env T N c L s) (hf : FromS s t) (ha : Alg T N s.d.hashAlgoKnown t) : Content env T N c L t := by
  refine ⟨(h.core.strengthen.from hf ha).weaken, fun hk => ?_⟩
  refine FullItem.from hf.list (h.full ?_)
  cases hq : s.d.hashAlgoKnown with
  | false => rfl
  | true => rw [ha.known hq] at hk; cases hk

/-- The same hash algorithm and list. -/
theorem Content.same {s t : Validator} (h : Content env T N c L s) (w : WFs t) (e1 : t.d.hashSize = s.d.hashSize) (e2 : t.typ = s.typ)
    (e3 : t.primary = s.primary) (e4 : t.d.hashAlgoKnown = s.d.hashAlgoKnown) (e5 : t.codec = s.codec) (e6 : t.buddies = s.buddies)
    (e7 : From s.list t.list) : Content env T N c L t :=
  h.from ⟨w, e5, e6, e7⟩ (h.core.strengthen.alg.same e1 e2 e3 e4)

theorem content_step (he : Algs env T N) (c : Codec) : CallStep env fun L s => Good s ∧ Content env T N c L s where
  misc L s s' hm h := by
    have hg := (good_inv env).misc L s s' hm h.1
    exact ⟨hg, h.2.same hg.wf (by rw [hm]) (by rw [hm]) (by rw [hm]) (by rw [hm]) (by rw [hm]) (by rw [hm]) (by rw [hm]; exact .refl _)⟩
  round L s h := by
    refine ((good_inv env).round L s h.1).and ?_
    have h0 : FromS s s := ⟨h.1.wf, rfl, rfl, .refl _⟩
    exact (((fromS_inv s).round env h0).and (round_alg he h.2.core.strengthen.alg)).mono fun t ht => h.2.from ht.1 ht.2
  recurrent L s h := by
    refine (((good_inv env).recurrent L s h.1).and ((recurrentDecoded_decoded env s).and
      (recurrentDecoded_ends (decTag_alg he) h.2.core.strengthen.alg))).mono fun t ht => ⟨ht.1, ?_⟩
    exact h.2.from ⟨ht.1.wf, ht.2.1.codec, ht.2.1.buddies, by rw [ht.2.1.list]; exact .refl _⟩ ht.2.2
  noKey L s h := ⟨(good_inv env).noKey L s h.1, h.2.same h.1.wf rfl rfl rfl rfl rfl rfl (.refl _)⟩
  mark L s x st h hx hst := by
    have hg := (good_inv env).mark L s x st h.1 hx hst
    exact ⟨hg, h.2.same hg.wf rfl rfl rfl rfl rfl rfl (From.of_set (f := fun i => { i with status := st }) fun i => ⟨rfl, rfl, rfl⟩)⟩
  bad L s n data h hn hv := by
    refine ⟨(good_inv env).append L s n data h.1 hn, ?_⟩
    rw [h.2.core.codec] at hn
    refine ⟨h.2.core.append h.1.wf hn ⟨rfl, rfl, rfl, rfl⟩ (n' := n) rfl, fun hk => ?_⟩
    exact (h.2.full hk).append h.1.wf (n := n) (n' := n) (hashedBytes_low hn (by omega)).symm rfl
  enter L s n data fl h hn := by
    refine ((good_inv env).toCallStep.enter L s n data fl h.1 hn).and ?_
    rw [h.2.core.codec] at hn
    exact register_content he h.1.wf h.2 hn
  algo L s a n data h hm hn :=
    ((good_inv env).toCallStep.algo L s a n data h.1 hm hn).and (hashAlgoBlock_content he h.1.wf h.2 a n)
  copy L s x n cp h hx hn hc := by
    refine ⟨(good_inv env).copy L s x n cp h.1 hx hn hc, ?_⟩
    have key : ∀ y ∈ s.list, y.1 = x.1 → y.2.nalu = some n := fun y hy e => by rw [WF.unique h.1.wf hy hx e]; exact hn
    refine ⟨⟨h.2.core.alg.same rfl rfl rfl rfl, h.2.core.codec, h.2.core.ref, ?_⟩, fun hk => ?_⟩
    · intro z hz
      obtain ⟨y, hy, rfl⟩ := List.mem_map.1 hz
      split
      · rename_i e
        intro m hm
        have hm : cp = some m := hm
        subst hm
        obtain ⟨data, m', i1, i2, i3, i4⟩ := h.2.core.items y hy n (key y hy e)
        obtain ⟨k1, -⟩ := copyNalu_same hc
        exact ⟨data, m', i1, i2, ⟨k1.sei.trans i3.sei, k1.first.trans i3.first, k1.hashable.trans i3.hashable, k1.valid.trans i3.valid⟩,
          fun q => i4.sei (k1.sei ▸ q), fun q => i4.first (k1.first ▸ q), fun q r => i4.other (k1.sei ▸ q) (k1.first ▸ r)⟩
      · exact h.2.core.items y hy
    · intro z hz
      obtain ⟨y, hy, rfl⟩ := List.mem_map.1 hz
      split
      · rename_i e
        intro m hm hh
        have hm : cp = some m := hm
        subst hm
        obtain ⟨k1, k2⟩ := copyNalu_same hc
        have hh' : n.isHashable = true := k1.hashable.symm.trans hh
        obtain ⟨data, i1, i2⟩ := h.2.full hk y hy n (key y hy e) hh'
        exact ⟨data, i1, (k2 hk hh').trans i2⟩
      · exact h.2.full hk y hy
  clean L s h := by
    have hg := (good_inv env).clean L s h.1
    refine ⟨hg, h.2.same hg.wf rfl rfl rfl rfl rfl rfl fun x hx => .inr ⟨x, ?_, rfl, rfl, rfl, rfl⟩⟩
    have hs : cleanUp s.list <:+ s.list := List.dropWhile_suffix _
    exact hs.subset hx
  reset L s h := by
    refine ⟨(good_inv env).reset L s h.1, ⟨⟨h.2.core.alg.size, h.2.core.alg.typ, h.2.core.alg.prim, fun h => by cases h⟩, h.2.core.codec, h.2.core.ref, ?_⟩, ?_⟩
    · intro x hx; cases hx
    · intro _ x hx; cases hx
  key L s k h hk := by
    refine ((good_inv env).key L s k h.1 hk).and ?_
    unfold setPublicKey
    rw [if_neg hk]
    split
    · exact h.2
    · split
      · exact h.2
      · dsimp only
        split
        · exact h.2.same h.1.wf rfl rfl rfl rfl rfl rfl (.refl _)
        · exact h.2.same h.1.wf rfl rfl rfl rfl rfl rfl (.refl _)

/-- A new session. -/
theorem content_new (he : Algs env T N) (hN : N = 32) (c : Codec) : Content env T N c [] (newValidator env c) := by
  refine ⟨⟨⟨hN.symm, he.dflt, fun p hp => (by cases hp), fun h => by cases h⟩, rfl, .inl ?_, ?_⟩, ?_⟩
  · rw [hN]; rfl
  · intro x hx; cases hx
  · intro _ x hx; cases hx

end Validator
end SV
