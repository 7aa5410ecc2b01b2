import Verif.Proofs.OldList
/-! Validation of an undisturbed stream of the older format: the hash of a GOP. -/
namespace SV
open Spec
namespace Old
open Legacy
open Validator (Scene Alg1 digest_eq)

variable {Γ : Scene}

/-- Hashes put together one after the other. -/
def chain (Γ : Scene) (g : Bytes) (hs : List Bytes) : Bytes := hs.foldl (fun g h => Γ.H (g ++ h)) g

theorem gopStep_eq (hΓ : Γ.Ok) (h32 : Γ.size = 32) {v : Validator} (ha : Alg1 Γ v) {b h : Bytes} (hb : 64 ≤ b.length) :
    ∃ b', gopStep Γ.env v b h = .ok b' ∧ 64 ≤ b'.length ∧ b'.take 32 = Γ.H (b.take 32 ++ buf 32 h) := by
  have hl : (buf 32 h).length = 32 := by unfold buf; simp
  have ht : (b.take 32).length = 32 := by rw [List.length_take]; omega
  have e : (b.take 32 ++ ovl (buf 32 h) (b.drop 32)).take (2 * 32) = b.take 32 ++ buf 32 h := by
    rw [show 2 * 32 = (b.take 32).length + 32 by omega, List.take_length_add_append, Validator.ovl_take hl]
  refine ⟨ovl (Γ.H (b.take 32 ++ buf 32 h)) (b.take 32 ++ ovl (buf 32 h) (b.drop 32)), ?_, ?_, ?_⟩
  · unfold gopStep
    rw [ha.size, h32]
    dsimp only
    rw [e, digest_eq hΓ ha (fun hc => by have := congrArg List.length hc; rw [List.length_append, ht] at this; simp at this)]
    rfl
  · unfold ovl
    simp only [List.length_append, List.length_drop, hl, ht, hΓ.len, h32]
    omega
  · rw [Validator.ovl_take (by rw [hΓ.len, h32])]

/-- The loop over the items of the GOP. -/
theorem gopLoop_rows (hΓ : Γ.Ok) (h32 : Γ.size = 32) {v : Validator} (ha : Alg1 Γ v) {sei : Nat} (pre r : LList) (hs : List Bytes) (prev : Option Nat) (b : Bytes)
    (h : Holds Γ hs pre) (hp : prev ≠ some sei) (hn : sei ∉ pre.map Prod.fst) (hb : 64 ≤ b.length) :
    ∃ b', gopLoop Γ.env v sei (pre ++ r) prev b = ((gopLoop Γ.env v sei r (lastAddr prev pre) b').bind fun p => .ok (useAll pre ++ p.1, p.2)) ∧
      64 ≤ b'.length ∧ b'.take 32 = chain Γ (b.take 32) hs := by
  induction pre generalizing hs prev b with
  | nil =>
    cases h
    refine ⟨b, ?_, hb, rfl⟩
    show _ = (gopLoop _ _ _ r prev b).bind _
    simp only [useAll, List.map_nil, List.nil_append]
    cases gopLoop Γ.env v sei r prev b <;> rfl
  | cons x pre ih =>
    have hn' : sei ∉ pre.map Prod.fst := fun hc => hn (by rw [List.map_cons]; exact List.mem_cons_of_mem _ hc)
    have hx : some x.1 ≠ some sei := fun hc => hn (by rw [List.map_cons, Option.some.inj hc]; exact List.mem_cons_self)
    rw [List.cons_append, lastAddr_cons]
    rcases h with ⟨h1, h2⟩ | ⟨c, t, rfl, h1, h2⟩
    · obtain ⟨b', e, g⟩ := ih hs (some x.1) b h2 hx hn' hb
      refine ⟨b', ?_, g⟩
      conv => lhs; unfold gopLoop
      rw [if_pos h1.not, e]
      simp only [useAll, List.map_cons, if_neg h1.not]
      cases gopLoop Γ.env v sei r (lastAddr (some x.1) pre) b' <;> rfl
    · obtain ⟨n, hn1, -, -, hn4, hn5⟩ := h1.nalu
      have hstop : (decide (prev = some sei) || (n.firstInGop && !x.2.need)) = false := by
        rw [decide_eq_false hp, Bool.false_or]
        cases hf : n.firstInGop with
        | false => rfl
        | true => rw [hn5 hf]; rfl
      obtain ⟨hh, hh1, hh2⟩ : ∃ hh, (if x.2.need then x.2.second else some x.2.hash) = some hh ∧ buf Γ.size hh = c := by
        rcases h1.hash with ⟨e1, c, e2, e3⟩ | ⟨e1, e2, e3⟩
        · exact ⟨c, by rw [if_pos e1, e2], e3⟩
        · exact ⟨_, by rw [if_neg (by rw [e1]; decide)], e3⟩
      obtain ⟨b1, q1, q2, q3⟩ := gopStep_eq hΓ h32 ha (h := hh) hb
      obtain ⟨b', e, g1, g2⟩ := ih t (some x.1) b1 h2 hx hn' q2
      refine ⟨b', ?_, g1, ?_⟩
      · conv => lhs; unfold gopLoop
        rw [if_neg (by rw [h1.status]; decide)]
        simp only [hn1, hn4, hh1, hstop]
        rw [if_neg (by decide), q1]
        simp only [Out.bind_ok, Bool.false_eq_true, if_false]
        rw [e]
        simp only [useAll, List.map_cons, if_pos h1.status, hn1]
        cases gopLoop Γ.env v sei r (lastAddr (some x.1) pre) b' <;> rfl
      · rw [g2, q3, ← hh2, h32]; rfl

theorem gopLoop_rests {v : Validator} {sei : Nat} (post r : LList) (prev : Option Nat) (b : Bytes) (h : ∀ x ∈ post, Rests x) :
    gopLoop Γ.env v sei (post ++ r) prev b =
      ((gopLoop Γ.env v sei r (lastAddr prev post) b).bind fun p => .ok (post ++ p.1, p.2)) := by
  induction post generalizing prev with
  | nil =>
    show _ = (gopLoop _ _ _ r prev b).bind _
    simp only [List.nil_append]
    cases gopLoop Γ.env v sei r prev b <;> rfl
  | cons x post ih =>
    rw [List.cons_append, lastAddr_cons]
    conv => lhs; unfold gopLoop
    rw [if_pos (h x List.mem_cons_self).not, ih _ fun y hy => h y (List.mem_cons_of_mem _ hy)]
    cases gopLoop Γ.env v sei r (lastAddr (some x.1) post) b <;> rfl

/-- The hash of the GOP, with the first NAL unit of the next one and the SEI. -/
theorem computeGop_all (hΓ : Γ.Ok) (h32 : Γ.size = 32) {s : Legacy} (ha : Alg1 Γ s.v) {pre post : LList} {xs ys xi : Nat × LItem} {hs : List Bytes} {h own doc : Bytes}
    (hp : Holds Γ hs pre) (hm : IsMsg Γ doc xs) (hy : IsMsg Γ doc ys) (hxy : xs.1 = ys.1) (hq : ∀ x ∈ post, Rests x) (hi : IsNext Γ h own xi) (hn : xs.1 ∉ pre.map Prod.fst)
    (hn2 : xs.1 ∉ post.map Prod.fst) (hn3 : xs.1 ≠ xi.1) (hl : s.list = pre ++ xs :: (post ++ [xi])) (hb : 64 ≤ s.hashes.length) :
    ∃ b, s.computeGop Γ.env ys = .ok { s with list := useAll pre ++ (xs.1, { xs.2 with used := true }) :: (post ++ [(xi.1, { xi.2 with used := true })]), hashes := b } () ∧
      64 ≤ b.length ∧ b.take 32 = chain Γ (Γ.H [1]) (hs ++ [h, Γ.H doc]) := by
  have r1 : resetGopHash Γ.env s.v s.hashes = .ok (ovl (Γ.H [1]) s.hashes) := by
    unfold resetGopHash
    rw [digest_eq hΓ ha (by simp)]; rfl
  have r2 : 64 ≤ (ovl (Γ.H [1]) s.hashes).length := by
    have := Validator.ovl_grows (Γ.H [1]) s.hashes; omega
  have r3 : (ovl (Γ.H [1]) s.hashes).take 32 = Γ.H [1] := Validator.ovl_take (by rw [hΓ.len, h32])
  obtain ⟨b1, e1, e2, e3⟩ := gopLoop_rows hΓ h32 ha (sei := xs.1) pre (xs :: (post ++ [xi])) hs none _ hp (by simp) hn r2
  obtain ⟨n, n1, -, -, n4, -, n6⟩ := hm.nalu
  obtain ⟨k, k1, -, -, k4, -, k6, -⟩ := hi.nalu
  have s1 : gopLoop Γ.env s.v xs.1 (xs :: (post ++ [xi])) (lastAddr none pre) b1 =
      ((gopLoop Γ.env s.v xs.1 (post ++ [xi]) (some xs.1) b1).bind fun p => .ok (xs :: p.1, p.2)) := by
    conv => lhs; unfold gopLoop
    rw [if_neg (by rw [hm.status]; decide)]
    simp only [n1, n4, n6, decide_eq_false (lastAddr_ne (prev := none) (by simp) hn)]
    rw [if_pos trivial, if_neg (by simp)]
    cases gopLoop Γ.env s.v xs.1 (post ++ [xi]) (some xs.1) b1 <;> rfl
  obtain ⟨b2, f1, f2, f3⟩ := gopStep_eq hΓ h32 ha (b := b1) (h := xi.2.hash) e2
  have s2 : ∀ prev, gopLoop Γ.env s.v xs.1 [xi] prev b1 = .ok ([(xi.1, { xi.2 with used := true })], b2) := by
    intro prev
    conv => lhs; unfold gopLoop
    rw [if_neg (by rw [hi.status]; decide)]
    simp only [k1, k4, k6, hi.need, Bool.not_false, Bool.and_true, Bool.or_true]
    rw [if_neg (by decide)]
    simp only [Bool.false_eq_true, if_false, f1, Out.bind_ok, if_true]
  obtain ⟨b3, g1, g2, g3⟩ := gopStep_eq hΓ h32 ha (b := b2) (h := ys.2.hash) f2
  refine ⟨b3, ?_, g2, ?_⟩
  · unfold computeGop
    rw [r1, hl, ← hxy]
    simp only [Out.bind_ok]
    rw [e1, s1, gopLoop_rests post [xi] _ _ hq, s2]
    simp only [Out.bind_ok, Out.bind]
    rw [g1]
    simp only [Out.bind_ok]
    have h1 : xs.1 ∉ (useAll pre).map Prod.fst := by
      have : (useAll pre).map Prod.fst = pre.map Prod.fst := by
        unfold useAll
        rw [List.map_map]
        refine List.map_congr_left fun x _ => ?_
        show Prod.fst (if _ then _ else _) = _
        split <;> rfl
      rw [this]; exact hn
    have h2 : xs.1 ∉ (post ++ [(xi.1, ({ xi.2 with used := true } : LItem))]).map Prod.fst := by
      rw [List.map_append, List.mem_append]
      rintro (hc | hc)
      · exact hn2 hc
      · exact hn3 (by simpa using hc)
    rw [set_mid h1 h2]
  · rw [g3, f3, e3, r3, ← h32, hi.hash, hy.hash]
    unfold chain
    rw [List.foldl_append]; rfl

/-- The marks when the hash of the GOP is right. -/
theorem setStatus_used {hs : List Bytes} {l : LList} (h : Holds Γ hs l) (st : Status) : setStatus st (useAll l) = markAll st l := by
  unfold setStatus useAll markAll
  rw [List.map_map]
  refine List.map_congr_left fun x hx => ?_
  show (_, _) = _
  obtain ⟨a, i⟩ := x
  rcases h.mem hx with h1 | ⟨b, h1⟩
  · have e : i.used = false := h1.used
    have e2 : ¬ i.status = .P := h1.not
    simp only [if_neg e2, e, Bool.false_eq_true, if_false]
    cases i; cases e; rfl
  · have e : i.status = .P := h1.status
    have e3 : i.used = false := h1.used
    have hc : (i.second.isSome && !i.need) = false := by
      rcases h1.hash with ⟨e1, -⟩ | ⟨-, e2, -⟩
      · have e1 : i.need = true := e1
        rw [e1, Bool.not_true, Bool.and_false]
      · have e2 : i.second = none := e2
        rw [e2]; rfl
    simp only [if_pos e, if_true]
    unfold settle
    dsimp only
    rw [hc]
    simp only [Bool.false_eq_true, if_false]
    rw [e3]

theorem setStatusCount_append (l m : LList) : setStatusCount (l ++ m) = setStatusCount l + setStatusCount m := by
  unfold setStatusCount
  rw [List.filter_append, List.length_append]

theorem setStatusCount_used {hs : List Bytes} {l : LList} (h : Holds Γ hs l) : setStatusCount (useAll l) = hs.length := by
  induction l generalizing hs with
  | nil => cases h; rfl
  | cons x l ih =>
    unfold setStatusCount useAll at *
    rcases h with ⟨h1, h2⟩ | ⟨b, t, rfl, h1, h2⟩
    · rw [List.map_cons, if_neg h1.not, List.filter_cons_of_neg (by rw [h1.used]; simp)]
      exact ih h2
    · have hc : (x.2.second.isSome && !x.2.need) = false := by
        rcases h1.hash with ⟨e1, -⟩ | ⟨-, e2, -⟩
        · rw [e1, Bool.not_true, Bool.and_false]
        · rw [e2]; rfl
      rw [List.map_cons, if_pos h1.status, List.filter_cons_of_pos (by show (true && !(x.2.second.isSome && !x.2.need)) = true; rw [hc]; rfl), List.length_cons, ih h2, List.length_cons]

theorem setStatusCount_rests {l : LList} (h : ∀ x ∈ l, Rests x) : setStatusCount l = 0 := by
  unfold setStatusCount
  rw [List.length_eq_zero_iff, List.filter_eq_nil_iff]
  intro x hx
  rw [(h x hx).used]; simp

theorem setStatus_rests {l : LList} (h : ∀ x ∈ l, Rests x) (st : Status) : setStatus st l = l := by
  unfold setStatus
  conv => rhs; rw [← List.map_id l]
  refine List.map_congr_left fun x hx => ?_
  obtain ⟨a, i⟩ := x
  have e : i.used = false := (h _ hx).used
  simp only [e, Bool.false_eq_true, if_false]
  cases i; cases e; rfl

end Old
end SV
