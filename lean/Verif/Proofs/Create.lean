import Verif.Proofs.PlugMem
import Verif.Spec.Create
/-! Lemmas for `Props/Create`. -/
namespace SV.Create
open SV.Keys (Blocks Owns)
open SV.PlugMem (owns_of_count)
open SV.Spec

def hL (h : Handle) : List Nat := h.primary.toList ++ (h.secondary.toList ++ (h.oid.toList ++ [h.block]))

def handleL : Option Handle → List Nat
  | none => []
  | some h => hL h

def vendorL : Option Vendor → List Nat
  | none => []
  | some v => v.ca.toList ++ [v.block]

def dataL : Option Data → List Nat
  | none => []
  | some d => [d.hash, d.block]

def sessL : Option Sess → List Nat
  | none => []
  | some s => vendorL s.vendor ++ (handleL s.handle ++ (s.last.toList ++ (s.list.toList ++ (s.product.toList ++
      (s.gop.toList ++ (dataL s.sign ++ (dataL s.verify ++ [s.block])))))))

theorem freeHandle_spec {b : Blocks} {l k : List Nat} (o : Option Handle) (h : Owns b (handleL o ++ l) k) :
    ∃ b', freeHandle b o = .ok b' ∧ Owns b' l k := by
  cases o with
  | none => exact ⟨b, rfl, h⟩
  | some s =>
    simp only [handleL, hL, List.append_assoc] at h
    obtain ⟨b1, h1, h⟩ := h.free _
    obtain ⟨b2, h2, h⟩ := h.free _
    obtain ⟨b3, h3, h⟩ := h.free _
    obtain ⟨b4, h4, h⟩ := Owns.free (l := l) (some s.block) h
    exact ⟨b4, by simp [freeHandle, h1, h2, h3, h4], h⟩

theorem vendorTeardown_spec {b : Blocks} {l k : List Nat} (o : Option Vendor) (h : Owns b (vendorL o ++ l) k) :
    ∃ b', vendorTeardown b o = .ok b' ∧ Owns b' l k := by
  cases o with
  | none => exact ⟨b, rfl, h⟩
  | some s =>
    simp only [vendorL, List.append_assoc] at h
    obtain ⟨b1, h1, h⟩ := h.free _
    obtain ⟨b4, h4, h⟩ := Owns.free (l := l) (some s.block) h
    exact ⟨b4, by simp [vendorTeardown, h1, h4], h⟩

theorem dataFree_spec {b : Blocks} {l k : List Nat} (o : Option Data) (h : Owns b (dataL o ++ l) k) :
    ∃ b', dataFree b o = .ok b' ∧ Owns b' l k := by
  cases o with
  | none => exact ⟨b, rfl, h⟩
  | some s =>
    obtain ⟨b1, h1, h⟩ := Owns.free (l := s.block :: l) (some s.hash) h
    obtain ⟨b4, h4, h⟩ := Owns.free (l := l) (some s.block) h
    exact ⟨b4, by simp [dataFree, h1, h4], h⟩

theorem free_spec {b : Blocks} {l k : List Nat} (o : Option Sess) (h : Owns b (sessL o ++ l) k) :
    ∃ b', free b o = .ok b' ∧ Owns b' l k := by
  cases o with
  | none => exact ⟨b, rfl, h⟩
  | some s =>
    simp only [sessL, List.append_assoc] at h
    obtain ⟨b1, h1, h⟩ := vendorTeardown_spec _ h
    obtain ⟨b2, h2, h⟩ := freeHandle_spec _ h
    obtain ⟨b3, h3, h⟩ := h.free _
    obtain ⟨b4, h4, h⟩ := h.free _
    obtain ⟨b5, h5, h⟩ := h.free _
    obtain ⟨b6, h6, h⟩ := h.free _
    obtain ⟨b7, h7, h⟩ := dataFree_spec _ h
    obtain ⟨b8, h8, h⟩ := dataFree_spec _ h
    obtain ⟨b9, h9, h⟩ := Owns.free (l := l) (some s.block) h
    exact ⟨b9, by simp [free, h1, h2, h3, h4, h5, h6, h7, h8, h9], h⟩

theorem failed_spec {b : Blocks} {k : List Nat} (o : Option Sess) (h : Owns b (sessL o) k) :
    ∃ b', failed b o = .ok (b', none) ∧ Owns b' [] k := by
  obtain ⟨b', h1, h2⟩ := free_spec (l := []) o (by simpa using h)
  exact ⟨b', by simp [failed, h1], h2⟩

theorem initHash_spec {b : Blocks} {h : Handle} {l k : List Nat} (p c i : Bool) (ho : Owns b (hL h ++ l) k) :
    ∃ b' h' ok, initHash b h p c i = (b', h', ok) ∧ Owns b' (hL h' ++ l) k ∧ b.next ≤ b'.next ∧
      ((if p then h.primary else h.secondary) = none → ok = (c && i)) := by
  cases p <;> simp only [initHash, Bool.false_eq_true, if_false, if_true]
  · cases hs : h.secondary with
    | some x => exact ⟨_, _, _, rfl, ho, Nat.le_refl _, by simp⟩
    | none =>
      cases c
      · exact ⟨_, _, _, rfl, ho, Nat.le_refl _, by simp⟩
      · refine ⟨_, _, _, rfl, owns_of_count ho.alloc fun a => ?_, by simp [Blocks.alloc], by simp⟩
        simp only [hL, hs, List.count_append, List.count_cons, Option.toList, List.count_nil]
        omega
  · cases hs : h.primary with
    | some x => exact ⟨_, _, _, rfl, ho, Nat.le_refl _, by simp⟩
    | none =>
      cases c
      · exact ⟨_, _, _, rfl, ho, Nat.le_refl _, by simp⟩
      · refine ⟨_, _, _, rfl, owns_of_count ho.alloc fun a => ?_, by simp [Blocks.alloc], by simp⟩
        simp only [hL, hs, List.count_append, List.count_cons, Option.toList, List.count_nil]
        omega

/-- The objects that a call leaves behind. -/
def left (t : Try) (b : Blocks) : List Nat := if t.obj = some true then [b.next] else []

theorem setAlgo_spec {b : Blocks} {h : Handle} {l k : List Nat} (t : Try) (ho : Owns b (hL h ++ l) k) :
    ∃ b' h' ok, setAlgo b h t = .ok (b', h', ok) ∧ Owns b' (hL h' ++ l) (left t b ++ k) ∧
      (ok = (t.obj.isSome && t.digest && t.oid && t.ctx && t.init)) := by
  obtain ⟨obj, digest, oid, ctx, init⟩ := t
  cases obj with
  | none => exact ⟨_, _, _, rfl, by simpa [left] using ho, by simp⟩
  | some new =>
    have h1 : Owns (if new then b.alloc else b) (hL h ++ l) (left ⟨some new, digest, oid, ctx, init⟩ b ++ k) := by
      cases new
      · simpa [left] using ho
      · refine owns_of_count ho.alloc fun a => ?_
        simp only [left, List.count_append, List.count_cons, List.count_nil, if_true]
        omega
    simp only [setAlgo]
    generalize (if new then b.alloc else b) = b1 at h1
    generalize left ⟨some new, digest, oid, ctx, init⟩ b ++ k = k1 at h1
    cases digest
    · exact ⟨_, _, _, rfl, h1, by simp⟩
    cases oid
    · exact ⟨_, _, _, rfl, h1, by simp⟩
    have h2 : Owns b1.alloc (h.oid.toList ++ (h.primary.toList ++ (h.secondary.toList ++ (b1.next :: h.block :: l)))) k1 := by
      refine owns_of_count h1.alloc fun a => ?_
      simp only [hL, List.count_append, List.count_cons, List.count_nil]
      omega
    obtain ⟨b2, e2, h2⟩ := h2.free _
    obtain ⟨b3, e3, h2⟩ := h2.free _
    obtain ⟨b4, e4, h2⟩ := h2.free _
    obtain ⟨b5, h5, ok, e5, h5', _, hok⟩ := initHash_spec
      (h := { h with oid := some b1.next, primary := none, secondary := none }) false ctx init
      (b := b4) (l := l) (k := k1) (by simpa [hL] using h2)
    exact ⟨b5, h5, ok, by simp [e2, e3, e4, e5], h5', by simpa using hok rfl⟩

theorem setByOid_spec {b : Blocks} {h : Handle} {l k : List Nat} (s m d : Bool) (ho : Owns b (hL h ++ l) k) :
    ∃ b' h' ok, setByOid b h s m d = .ok (b', h', ok) ∧ Owns b' (hL h' ++ l) k := by
  cases s
  · have h2 : Owns b (h.oid.toList ++ (h.primary.toList ++ (h.secondary.toList ++ (h.block :: l)))) k := by
      refine owns_of_count ho fun a => ?_
      simp only [hL, List.count_append, List.count_cons, List.count_nil]
      omega
    obtain ⟨b2, e2, h2⟩ := h2.free _
    cases m
    · exact ⟨b2, { h with oid := none }, false, by simp [setByOid, e2], by simpa [hL] using h2⟩
    · refine ⟨b2.alloc, { h with oid := some b2.next }, d, by simp [setByOid, e2], owns_of_count h2.alloc fun a => ?_⟩
      simp only [hL, List.count_append, List.count_cons, List.count_nil, Option.toList]
      omega
  · exact ⟨_, _, _, rfl, ho⟩

theorem opHandle_spec {b : Blocks} {h : Handle} {l k : List Nat} (o : Op) (ho : Owns b (hL h ++ l) k) :
    ∃ b' h' ok k', opHandle b h o = .ok (b', h', ok) ∧ Owns b' (hL h' ++ l) (k' ++ k) ∧ k'.length = textOids [o] := by
  cases o with
  | algo t =>
    obtain ⟨b', h', ok, e, ho', _⟩ := setAlgo_spec t ho
    refine ⟨b', h', ok, left t b, e, ho', ?_⟩
    by_cases ht : t.obj = some true <;> simp [left, textOids, ht]
  | oid s m d =>
    obtain ⟨b', h', ok, e, ho'⟩ := setByOid_spec s m d ho
    exact ⟨b', h', ok, [], e, ho', by simp [textOids]⟩
  | hash p c i =>
    obtain ⟨b', h', ok, e, ho', _⟩ := initHash_spec p c i ho
    exact ⟨b', h', ok, [], by simp [opHandle, e], ho', by simp [textOids]⟩

theorem ops_spec : ∀ (os : List Op) {b : Blocks} {s : Sess} {k : List Nat}, s.handle.isSome = true →
    Owns b (sessL (some s)) k →
    ∃ b' s' k', ops b s os = .ok (b', s') ∧ Owns b' (sessL (some s')) (k' ++ k) ∧ k'.length = textOids os
  | [], b, s, k, _, ho => ⟨b, s, [], rfl, ho, rfl⟩
  | o :: os, b, s, k, hs, ho => by
    obtain ⟨h, hh⟩ := Option.isSome_iff_exists.1 hs
    let rest := vendorL s.vendor ++ (s.last.toList ++ (s.list.toList ++ (s.product.toList ++
      (s.gop.toList ++ (dataL s.sign ++ (dataL s.verify ++ [s.block]))))))
    have hc : ∀ (h : Handle) (a : Nat), List.count a (sessL (some { s with handle := some h })) = List.count a (hL h ++ rest) := by
      intro h a
      simp only [sessL, handleL, rest, List.count_append]
      omega
    have e0 : { s with handle := some h } = s := by rw [← hh]
    have h1 : Owns b (hL h ++ rest) k := owns_of_count ho fun a => by rw [← hc h a, e0]
    obtain ⟨b1, h', ok, k1, e1, h2, l1⟩ := opHandle_spec o h1
    obtain ⟨b2, s2, k2, e2, h3, l2⟩ := ops_spec os (b := b1) (s := { s with handle := some h' }) (k := k1 ++ k) rfl
      (owns_of_count h2 fun a => by rw [← hc h' a])
    refine ⟨b2, s2, k2 ++ k1, by simp [ops, op, hh, e1, e2], by rw [List.append_assoc]; exact h3, ?_⟩
    rw [List.length_append, l1, l2]
    simp only [textOids, List.countP_cons, List.countP_nil]
    omega

theorem createHandle_spec {b : Blocks} {l k : List Nat} (c : Can) (ho : Owns b l k) :
    ∃ b' r, createHandle b c = .ok (b', r) ∧ Owns b' (handleL r ++ l) k ∧
      r.isSome = (c.handle && c.known && c.digest && c.oid && c.ctx && c.init) := by
  unfold createHandle
  cases hc : c.handle
  · exact ⟨b, none, by simp, ho, by simp⟩
  · obtain ⟨b1, h1, ok, e1, h2, hok⟩ := setAlgo_spec (h := { block := b.next })
      { obj := if c.known then some false else none, digest := c.digest, oid := c.oid, ctx := c.ctx, init := c.init }
      (b := b.alloc) (l := l) (k := k) ho.alloc
    have h2 : Owns b1 (hL h1 ++ l) k := by
      have : left { obj := if c.known then some false else none, digest := c.digest, oid := c.oid, ctx := c.ctx, init := c.init }
          b.alloc = [] := by
        cases c.known <;> simp [left]
      simpa [this] using h2
    have hk : (if c.known then some false else none : Option Bool).isSome = c.known := by cases c.known <;> rfl
    rw [hk] at hok
    cases ok
    · obtain ⟨b2, e2, h3⟩ := freeHandle_spec (some h1) h2
      exact ⟨b2, none, by simp [e1, e2], h3, by simpa using hok⟩
    · exact ⟨b1, some h1, by simp [e1], h2, by simpa using hok⟩

theorem vendorSetup_spec {b : Blocks} {l k : List Nat} (c : Can) (ho : Owns b l k) :
    ∃ b' r, vendorSetup b c = .ok (b', r) ∧ Owns b' (vendorL r ++ l) k ∧
      r.isSome = (c.vendor && c.bio && c.puts && c.ca) := by
  unfold vendorSetup
  cases hv : c.vendor
  · exact ⟨b, none, by simp, ho, by simp⟩
  have h1 := ho.alloc
  have hnone : ∀ {b1 : Blocks}, Owns b1 (b.next :: l) k →
      ∃ b', vendorTeardown b1 (some { block := b.next, ca := none }) = .ok b' ∧ Owns b' l k := fun h =>
    vendorTeardown_spec (some { block := b.next, ca := none }) h
  cases hb : c.bio
  · obtain ⟨b2, e2, h2⟩ := hnone h1
    exact ⟨b2, none, by simp [e2], h2, by simp⟩
  have h2 := h1.alloc
  cases hca : (c.puts && c.ca)
  · obtain ⟨b3, e3, h3⟩ := Owns.free (some b.alloc.next) (l := b.next :: l) h2
    obtain ⟨b4, e4, h4⟩ := hnone h3
    exact ⟨b4, none, by simp [e3, e4], h4, by simpa using hca.symm⟩
  · obtain ⟨b3, e3, h3⟩ := Owns.free (some b.alloc.next) (l := b.alloc.alloc.next :: b.next :: l) (b := b.alloc.alloc.alloc) (k := k)
      (owns_of_count h2.alloc fun a => by simp only [Option.toList, List.count_append, List.count_cons, List.count_nil]; omega)
    exact ⟨b3, some { block := b.next, ca := some b.alloc.alloc.next }, by simp [e3], h3, by simpa using hca.symm⟩

theorem dataCreate_spec {b : Blocks} {l k : List Nat} (s h : Bool) (ho : Owns b l k) :
    ∃ b' r, dataCreate b s h = .ok (b', r) ∧ Owns b' (dataL r ++ l) k ∧ r.isSome = (s && h) := by
  cases s
  · exact ⟨b, none, rfl, ho, rfl⟩
  cases h
  · obtain ⟨b2, e2, h2⟩ := Owns.free (some b.next) (l := l) ho.alloc
    exact ⟨b2, none, by simp [dataCreate, e2], h2, rfl⟩
  · exact ⟨_, _, rfl, ho.alloc.alloc, rfl⟩

/-- What `createData` and `create` give. -/
def Gives (b : Out (Blocks × Option Sess)) (k : List Nat) (made missing : Prop) : Prop :=
  (missing ∧ ¬ made ∧ b = .ub .nullDeref) ∨
  (¬ missing ∧ ∃ b' r, b = .ok (b', r) ∧ Owns b' (sessL r) k ∧ (r.isSome = true ↔ made) ∧ ∀ s, r = some s → s.handle.isSome = true)

theorem gives_none {b : Blocks} {k : List Nat} {o : Option Sess} {made missing : Prop} (h : Owns b (sessL o) k)
    (h1 : ¬ made) (h2 : ¬ missing) : Gives (failed b o) k made missing := by
  obtain ⟨b', e, h⟩ := failed_spec o h
  exact .inr ⟨h2, b', none, e, h, by simpa using h1, by simp⟩

theorem createData_spec {b : Blocks} {k : List Nat} (c : Can) (s : Sess) (hh : s.handle.isSome = true)
    (h0 : s.sign = none ∧ s.last = none ∧ s.list = none ∧ s.verify = none) (ho : Owns b (sessL (some s)) k) :
    Gives (createData b c s) k
      ((c.sign = true ∧ c.signHash = true) ∧ c.size = 32 ∧ c.last = true ∧ (c.verify = true ∧ c.verifyHash = true))
      (¬ (c.sign = true ∧ c.signHash = true) ∨
        (c.size = 32 ∧ c.last = true ∧ ¬ (c.verify = true ∧ c.verifyHash = true))) := by
  obtain ⟨z1, z2, z3, z4⟩ := h0
  obtain ⟨b1, r, e1, h1, r1⟩ := dataCreate_spec c.sign c.signHash ho
  unfold createData
  rw [e1]
  simp only [Out.bind_ok]
  cases r with
  | none =>
    have : ¬ (c.sign = true ∧ c.signHash = true) := by simpa using r1.symm
    exact .inl ⟨.inl this, fun h => this h.1, rfl⟩
  | some d =>
    have hd : c.sign = true ∧ c.signHash = true := by simpa using r1.symm
    have h2 : Owns b1 (sessL (some { s with sign := some d })) k := by
      refine owns_of_count h1 fun a => ?_
      simp only [sessL, z1, z2, z3, z4, dataL, List.count_append, List.count_cons, List.count_nil]
      omega
    by_cases hz : c.size = 32
    case neg =>
      simp only [hz, ne_eq, not_false_eq_true, if_true]
      exact gives_none h2 (fun h => h.2.1.elim) (by rintro (h | h); exact h hd; exact h.1.elim)
    rcases Bool.eq_false_or_eq_true c.last with hl | hl
    case inr =>
      simp only [hz, hl, ne_eq, not_true, if_false, Bool.not_false, if_true]
      exact gives_none h2 (fun h => by simp at h) (by rintro (h | h); exact h hd; simp at h)
    simp only [hz, hl, ne_eq, not_true, if_false, Bool.not_true, Bool.false_eq_true]
    have h3 : Owns (if c.list then b1.alloc.alloc else b1.alloc)
        (sessL (some { s with sign := some d, last := some b1.next, list := if c.list then some b1.alloc.next else none })) k := by
      cases c.list
      · refine owns_of_count h2.alloc fun a => ?_
        simp only [sessL, z1, z2, z3, z4, dataL, List.count_append, List.count_cons, List.count_nil, Option.toList,
          Bool.false_eq_true, if_false]
        omega
      · refine owns_of_count h2.alloc.alloc fun a => ?_
        simp only [sessL, z1, z2, z3, z4, dataL, List.count_append, List.count_cons, List.count_nil, Option.toList,
          if_true]
        omega
    obtain ⟨b2, r, e2, h4, r2⟩ := dataCreate_spec c.verify c.verifyHash h3
    rw [e2]
    simp only [Out.bind_ok]
    cases r with
    | none =>
      have hv : ¬ (c.verify = true ∧ c.verifyHash = true) := by simpa using r2.symm
      exact .inl ⟨.inr ⟨trivial, trivial, hv⟩, fun h => hv h.2.2.2, rfl⟩
    | some d' =>
      have hv : c.verify = true ∧ c.verifyHash = true := by simpa using r2.symm
      refine .inr ⟨by rintro (h | h); exact h hd; exact h.2.2 hv, b2, _, rfl, owns_of_count h4 fun a => ?_, by simp [hd, hv], ?_⟩
      · simp only [sessL, z4, dataL, List.count_append, List.count_cons, List.count_nil]
        omega
      · intro s' hs'
        cases hs'
        exact hh

theorem create_spec {b : Blocks} {k : List Nat} (c : Can) (ho : Owns b [] k) :
    Gives (create b c) k (Made c) (DataMissing c) := by
  have no : ∀ {b : Blocks} {o : Option Sess}, Owns b (sessL o) k → ¬ Starts c → Gives (failed b o) k (Made c) (DataMissing c) :=
    fun h hn => gives_none h (fun h => hn h.1) (fun h => hn h.1)
  unfold create
  rcases Bool.eq_false_or_eq_true c.codec with c1 | c1
  case inr => rw [c1]; exact no ho (by simp [Starts, c1])
  rcases Bool.eq_false_or_eq_true c.self with c2 | c2
  case inr => rw [c1, c2]; exact no ho (by simp [Starts, c2])
  have h1 := ho.alloc
  rcases Bool.eq_false_or_eq_true c.product with c3 | c3
  case inr => rw [c1, c2, c3]; exact no (o := some { block := b.next }) h1 (by simp [Starts, c3])
  rw [c1, c2, c3]
  simp only [Bool.not_true, Bool.false_eq_true, if_false]
  obtain ⟨b2, r, e2, h2, r2⟩ := createHandle_spec c h1.alloc
  rw [e2]
  simp only [Out.bind_ok]
  cases r with
  | none =>
    refine no (o := some { block := b.next, product := some b.alloc.next }) h2 ?_
    intro hs
    obtain ⟨-, -, -, x1, x2, x3, x4, x5, x6, -⟩ := hs
    simp [x1, x2, x3, x4, x5, x6] at r2
  | some h =>
    have hh : c.handle = true ∧ c.known = true ∧ c.digest = true ∧ c.oid = true ∧ c.ctx = true ∧ c.init = true := by
      simpa [and_assoc] using r2.symm
    have h3 : Owns b2 (sessL (some { block := b.next, product := some b.alloc.next, handle := some h })) k := by
      simpa [sessL, vendorL, dataL, handleL] using h2
    rcases Bool.eq_false_or_eq_true c.gop with c4 | c4
    case inr => simp only [c4, Bool.not_false, if_true]; exact no h3 (by simp [Starts, c4])
    simp only [c4, Bool.not_true, Bool.false_eq_true, if_false]
    have h4 : Owns b2.alloc (sessL (some { block := b.next, product := some b.alloc.next, handle := some h, gop := some b2.next })) k := by
      refine owns_of_count h3.alloc fun a => ?_
      simp only [sessL, vendorL, dataL, List.count_append, List.count_cons, List.count_nil, Option.toList]
      omega
    have fin : ∀ {b : Blocks} {s : Sess}, s.handle.isSome = true →
        (s.sign = none ∧ s.last = none ∧ s.list = none ∧ s.verify = none) → Owns b (sessL (some s)) k → Starts c →
        Gives (createData b c s) k (Made c) (DataMissing c) := by
      intro b s p1 p2 p3 hs
      have := createData_spec c s p1 p2 p3
      simpa only [Made, DataMissing, hs, true_and] using this
    rcases Bool.eq_false_or_eq_true c.axis with c5 | c5
    case inr =>
      simp only [c5, Bool.false_eq_true, if_false]
      exact fin rfl ⟨rfl, rfl, rfl, rfl⟩ h4 ⟨c1, c2, c3, hh.1, hh.2.1, hh.2.2.1, hh.2.2.2.1, hh.2.2.2.2.1, hh.2.2.2.2.2, c4, by simp [c5]⟩
    simp only [c5, if_true]
    obtain ⟨b5, r, e5, h5, r5⟩ := vendorSetup_spec c h4
    rw [e5]
    simp only [Out.bind_ok]
    cases r with
    | none =>
      refine no h5 ?_
      intro hs
      obtain ⟨-, -, -, -, -, -, -, -, -, -, hx⟩ := hs
      obtain ⟨y1, y2, y3, y4⟩ := hx c5
      simp [y1, y2, y3, y4] at r5
    | some v =>
      have hv : c.vendor = true ∧ c.bio = true ∧ c.puts = true ∧ c.ca = true := by simpa [and_assoc] using r5.symm
      refine fin rfl ⟨rfl, rfl, rfl, rfl⟩ (owns_of_count h5 fun a => ?_)
        ⟨c1, c2, c3, hh.1, hh.2.1, hh.2.2.1, hh.2.2.2.1, hh.2.2.2.2.1, hh.2.2.2.2.2, c4, fun _ => hv⟩
      simp only [sessL, vendorL, List.count_append, List.count_nil]
      omega

end SV.Create
