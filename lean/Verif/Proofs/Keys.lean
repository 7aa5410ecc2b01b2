import Verif.Model.Keys
import Verif.Proofs.Unthreaded
namespace SV
namespace Keys

/-- The live blocks are those in `l`, which are referred to, and those in `k`, which are leaked. -/
structure Owns (b : Blocks) (l k : List Nat) : Prop where
  nodup : (l ++ k).Nodup
  perm : b.live.Perm (l ++ k)
  lt : ∀ p ∈ b.live, p < b.next

theorem Owns.mono {b : Blocks} {l l' k k' : List Nat} (h : Owns b l k) (hp : (l ++ k).Perm (l' ++ k')) :
    Owns b l' k' := ⟨hp.nodup h.nodup, h.perm.trans hp, h.lt⟩

theorem Owns.alloc {b : Blocks} {l k : List Nat} (h : Owns b l k) : Owns b.alloc (b.next :: l) k := by
  refine ⟨?_, ?_, ?_⟩
  · rw [List.cons_append, List.nodup_cons]
    exact ⟨fun hm => Nat.lt_irrefl _ (h.lt _ (h.perm.mem_iff.2 hm)), h.nodup⟩
  · exact h.perm.cons _
  · intro p hp
    simp only [Blocks.alloc, List.mem_cons] at hp ⊢
    rcases hp with rfl | hp
    · omega
    · have := h.lt p hp; omega

theorem Owns.free {b : Blocks} {l k : List Nat} (o : Option Nat) (h : Owns b (o.toList ++ l) k) :
    ∃ b', b.free o = .ok b' ∧ Owns b' l k := by
  cases o with
  | none => exact ⟨b, rfl, h⟩
  | some p =>
    have hp : b.live.Perm (p :: (l ++ k)) := by simpa using h.perm
    have hm : p ∈ b.live := hp.mem_iff.2 (by simp)
    refine ⟨{ b with live := b.live.erase p }, by simp [Blocks.free, hm], ?_, ?_, ?_⟩
    · have := h.nodup
      simp only [Option.toList, List.cons_append, List.nil_append, List.nodup_cons] at this
      exact this.2
    · have := hp.erase p
      rwa [List.erase_cons_head] at this
    · intro q hq
      exact h.lt q (List.mem_of_mem_erase hq)

/-- A key that can be read and has a size: memory is allocated for it. -/
def Loads (env : KeyEnv) (pem : Bytes) : Prop := pem ≠ [] ∧ ∃ k, env.read pem = some k ∧ k.size ≠ 0

def sigL (d : SignData) : List Nat := (d.signature.map Prod.fst).toList

theorem privateKeyMalloc_spec (env : KeyEnv) {b : Blocks} {d : SignData} {l k : List Nat} (pem : Bytes)
    (h : Owns b (sigL d ++ l) k) :
    ∃ b' d' rc k', privateKeyMalloc env b d pem = .ok (b', d', rc) ∧
      (¬ Loads env pem → k' = k) ∧ (d.signature = none → k' = k) ∧
      ((∃ n c key, rc = none ∧ env.read pem = some key ∧ key.size ≠ 0 ∧ key.usable = true ∧ pem ≠ [] ∧
          d' = { signature := some (n, key.size), max := key.size, key := some (c, pem) } ∧
          Owns b' (n :: c :: l) k')
        ∨ ((∃ e, rc = some e) ∧ pem = [] ∧ b' = b ∧ d' = d ∧ k' = k)
        ∨ (rc = some .externalError ∧ d' = { d with signature := none } ∧ Owns b' l k' ∧
            ¬ (∃ key, env.read pem = some key ∧ key.size ≠ 0 ∧ key.usable = true))) := by
  have failed : ∀ (b : Blocks) (d : SignData) (c : Option Nat) (k : List Nat),
      Owns b (sigL d ++ (c.toList ++ l)) k → ∃ b', keyFailed b d c = .ok (b', { d with signature := none }, some .externalError) ∧
        Owns b' l k := by
    intro b d c k h
    obtain ⟨b1, h1, h2⟩ := h.free (d.signature.map Prod.fst)
    obtain ⟨b2, h3, h4⟩ := h2.free c
    exact ⟨b2, by simp [keyFailed, h1, h3], h4⟩
  unfold privateKeyMalloc
  by_cases hp : pem = []
  · exact ⟨b, d, _, k, by rw [if_pos hp], fun _ => rfl, fun _ => rfl, .inr (.inl ⟨⟨_, rfl⟩, hp, rfl, rfl, rfl⟩)⟩
  rw [if_neg hp]
  cases hr : env.read pem with
  | none =>
    obtain ⟨b', h1, h2⟩ := failed b d none k (by simpa using h)
    exact ⟨b', _, _, k, h1, fun _ => rfl, fun _ => rfl, .inr (.inr ⟨rfl, rfl, h2, by simp⟩)⟩
  | some key =>
    by_cases hs : key.size = 0
    · obtain ⟨b', h1, h2⟩ := failed b d none k (by simpa using h)
      refine ⟨b', _, _, k, by rw [← h1]; simp [hs], fun _ => rfl, fun _ => rfl, .inr (.inr ⟨rfl, rfl, h2, ?_⟩)⟩
      rintro ⟨key', h3, h4, -⟩
      cases h3; exact h4 hs
    · have hl : Loads env pem := ⟨hp, key, hr, hs⟩
      have h2 := h.alloc.alloc
      have hk : d.signature = none → sigL d ++ k = k := by intro h; simp [sigL, h]
      have hperm : ((b.alloc.next :: b.next :: (sigL d ++ l)) ++ k).Perm ((b.next :: b.alloc.next :: l) ++ (sigL d ++ k)) := by
        simp only [List.cons_append, List.append_assoc]
        refine (List.Perm.swap _ _ _).trans (List.Perm.cons _ (List.Perm.cons _ ?_))
        rw [← List.append_assoc, ← List.append_assoc]
        exact List.Perm.append_right _ List.perm_append_comm
      have h3 := h2.mono hperm
      cases hu : key.usable with
      | false =>
        obtain ⟨b', h4, h5⟩ := failed b.alloc.alloc { d with signature := some (b.next, key.size) } (some b.alloc.next) (sigL d ++ k)
          (by simpa [sigL] using h3)
        refine ⟨b', _, _, sigL d ++ k, by rw [← h4]; simp [hs, hu], fun h => absurd hl h, hk, .inr (.inr ⟨rfl, rfl, h5, ?_⟩)⟩
        rintro ⟨key', h3, -, h4⟩
        cases h3; rw [hu] at h4; cases h4
      | true =>
        exact ⟨_, _, _, sigL d ++ k, by simp [hs, hu], fun h => absurd hl h, hk,
          .inl ⟨b.next, b.alloc.next, key, rfl, rfl, hs, hu, hp, rfl, h3⟩⟩

/-- Blocks that a plugin refers to. -/
def plugL : Option Plug → List Nat
  | none => []
  | some p => (p.d.key.map Prod.fst).toList ++ (sigL p.d ++ [p.block])

/-- Blocks that a session refers to. -/
def owned (s : Sess) : List Nat := sigL s.d ++ ((s.pub.map Prod.fst).toList ++ plugL s.plug)

/-- What holds between calls, with `k` leaked. -/
structure Inv (s : Sess) (k : List Nat) : Prop where
  key : s.d.key = none
  own : Owns s.b (owned s) k
  sig : ∀ p, s.d.signature = some p → p.2 = s.d.max

theorem teardown_ok {b : Blocks} (p : Option Plug) {l k : List Nat} (h : Owns b (plugL p ++ l) k) :
    ∃ b', teardown b p = .ok b' ∧ Owns b' l k := by
  cases p with
  | none => exact ⟨b, rfl, h⟩
  | some p =>
    obtain ⟨b1, h1, h2⟩ := Owns.free (p.d.key.map Prod.fst) (l := sigL p.d ++ ([p.block] ++ l)) (k := k) (b := b)
      (by simpa [plugL, List.append_assoc] using h)
    obtain ⟨b2, h3, h4⟩ := Owns.free (p.d.signature.map Prod.fst) (l := [p.block] ++ l) h2
    obtain ⟨b3, h5, h6⟩ := Owns.free (some p.block) (l := l) h4
    exact ⟨b3, by simp [teardown, h1, h3, h5], h6⟩

/-- A key that the session takes. -/
def Accepts (env : KeyEnv) (pem : Bytes) (key : Pkey) : Prop :=
  pem ≠ [] ∧ env.read pem = some key ∧ key.size ≠ 0 ∧ key.usable = true ∧ ∃ x xs, key.pub = some (x :: xs)

/-- The outcome of setting a key. -/
inductive KeyRes (env : KeyEnv) (s : Sess) (pem : Bytes) (s' : Sess) : Option Rc → Prop
  | accepted {key : Pkey} {n m q x y : Nat} {pub : Bytes} : Accepts env pem key →
      s'.plug = some ⟨q, ⟨some (x, key.size), key.size, some (y, pem)⟩, Unthreaded.init key.size⟩ →
      s'.d = ⟨some (n, key.size), key.size, none⟩ → s'.pub = some (m, pub) → key.pub = some pub → KeyRes env s pem s' none
  | empty : pem = [] → s' = s → KeyRes env s pem s' (some .invalidParameter)
  | refused : pem ≠ [] → ¬ (∃ key, env.read pem = some key ∧ key.size ≠ 0 ∧ key.usable = true) →
      s'.plug = s.plug → s'.pub = s.pub → s'.d = { s.d with signature := none } → KeyRes env s pem s' (some .externalError)
  | nopub {key : Pkey} {n : Nat} : pem ≠ [] → env.read pem = some key → key.size ≠ 0 → key.usable = true →
      (∀ x xs, key.pub ≠ some (x :: xs)) →
      s'.plug = s.plug → s'.pub = none → s'.d = ⟨some (n, key.size), key.size, none⟩ → KeyRes env s pem s' (some .externalError)

theorem dropKey_ok {s : Sess} (rc : Option Rc) {l k : List Nat} (h : Owns s.b ((s.d.key.map Prod.fst).toList ++ l) k) :
    ∃ b, dropKey s rc = .ok ({ s with b := b, d := { s.d with key := none } }, rc) ∧ Owns b l k := by
  obtain ⟨b, h1, h2⟩ := h.free (s.d.key.map Prod.fst)
  exact ⟨b, by simp [dropKey, h1], h2⟩

theorem readPub_ok (env : KeyEnv) {s : Sess} {c : Nat} {pem : Bytes} {key : Pkey} {l k : List Nat}
    (hk : s.d.key = some (c, pem)) (hr : env.read pem = some key)
    (h : Owns s.b ((s.pub.map Prod.fst).toList ++ l) k) :
    ∃ b, (∃ m x xs, key.pub = some (x :: xs) ∧ readPub env s = .ok ({ s with b := b, pub := some (m, x :: xs) }, none) ∧ Owns b (m :: l) k) ∨
      ((∀ x xs, key.pub ≠ some (x :: xs)) ∧
        readPub env s = .ok ({ s with b := b, pub := none }, some .externalError) ∧ Owns b l k) := by
  have hrd : (env.read pem).bind Pkey.pub = key.pub := by rw [hr]; rfl
  unfold readPub
  rw [hk]; dsimp only; rw [hrd]
  cases hp : key.pub with
  | none =>
    obtain ⟨b, h1, h2⟩ := h.free (s.pub.map Prod.fst)
    exact ⟨b, .inr ⟨by simp, by simp [h1], h2⟩⟩
  | some y =>
    cases y with
    | nil =>
      obtain ⟨b, h1, h2⟩ := h.free (s.pub.map Prod.fst)
      exact ⟨b, .inr ⟨by simp, by simp [h1], h2⟩⟩
    | cons x xs =>
      have h0 := h.alloc.mono (l' := (s.pub.map Prod.fst).toList ++ (s.b.next :: l)) (k' := k)
        (by
          apply List.Perm.append_right
          exact List.perm_middle.symm)
      obtain ⟨b, h1, h2⟩ := h0.free (s.pub.map Prod.fst)
      exact ⟨b, .inl ⟨s.b.next, x, xs, rfl, by simp [h1], h2⟩⟩

theorem setup_ok (env : KeyEnv) {b : Blocks} {pem : Bytes} {key : Pkey} {l k : List Nat} (hp : pem ≠ [])
    (hr : env.read pem = some key) (hs : key.size ≠ 0) (hu : key.usable = true) (h : Owns b l k) :
    ∃ b' q x y, setup env b pem = .ok (b', some ⟨q, ⟨some (x, key.size), key.size, some (y, pem)⟩, Unthreaded.init key.size⟩) ∧
      Owns b' (y :: x :: q :: l) k := by
  obtain ⟨b', d', rc, k', h1, -, h3, h4⟩ := privateKeyMalloc_spec env (b := b.alloc) (d := {}) (l := b.next :: l) (k := k) pem
    (by simpa [sigL] using h.alloc)
  have hk := h3 rfl
  subst hk
  rcases h4 with ⟨n, c, key', h5, h6, h7, h8, h9, h10, h11⟩ | ⟨-, h5, -⟩ | ⟨-, -, -, h5⟩
  · rw [hr] at h6
    cases h6
    subst h10 h5
    refine ⟨b', b.next, n, c, ?_, h11.mono ?_⟩
    · simp [setup, hp, h1]
    · exact List.Perm.append_right _ (List.Perm.swap _ _ _)
  · exact absurd h5 hp
  · exact absurd ⟨key, hr, hs, hu⟩ h5

theorem setKey_spec (env : KeyEnv) {s : Sess} {k : List Nat} (pem : Bytes) (h : Inv s k) :
    ∃ s' rc k', setKey env s pem = .ok (s', rc) ∧ Inv s' k' ∧ KeyRes env s pem s' rc ∧
      (¬ Loads env pem → k' = k) ∧ (s.d.signature = none → s.plug = none → k' = k) := by
  by_cases hp : pem = []
  · exact ⟨s, _, k, by simp [setKey, hp], h, .empty hp rfl, fun _ => rfl, fun _ _ => rfl⟩
  obtain ⟨b1, d1, rc, k1, h1, h2, h3, h4⟩ := privateKeyMalloc_spec env pem h.own
  rcases h4 with ⟨n, c, key, h5, h6, h7, h8, -, h10, h11⟩ | ⟨-, h5, -⟩ | ⟨h5, h6, h7, h8⟩
  · subst h5
    have hl : Loads env pem := ⟨hp, key, h6, h7⟩
    have hd : d1.key = some (c, pem) := by rw [h10]
    have hd' : { d1 with key := none } = (⟨some (n, key.size), key.size, none⟩ : SignData) := by rw [h10]
    obtain ⟨b2, ⟨m, x, xs, h12, h13, h14⟩ | ⟨h12, h13, h14⟩⟩ := readPub_ok env (s := { s with b := b1, d := d1 })
      (l := c :: n :: plugL s.plug) (k := k1) hd h6
      (h11.mono (by
        apply List.Perm.append_right
        show (n :: c :: ((s.pub.map Prod.fst).toList ++ plugL s.plug)).Perm _
        refine .trans ?_ List.perm_middle.symm
        refine .trans (.swap _ _ _) (.cons _ ?_)
        exact List.perm_middle.symm))
    · obtain ⟨b3, q, y, z, h15, h16⟩ := setup_ok env hp h6 h7 h8 h14
      have h17 : Owns b3 (c :: ([n] ++ ([m] ++ [z, y, q]))) (plugL s.plug ++ k1) := h16.mono (by
        simp only [List.cons_append, List.nil_append]
        -- z y q m c n P K  ~  c n m z y q P K
        have e1 : (z :: y :: q :: m :: c :: n :: (plugL s.plug ++ k1)) = [z, y, q] ++ ([m, c, n] ++ (plugL s.plug ++ k1)) := rfl
        have e2 : (c :: n :: m :: z :: y :: q :: (plugL s.plug ++ k1)) = [c, n, m] ++ ([z, y, q] ++ (plugL s.plug ++ k1)) := rfl
        rw [e1, e2, ← List.append_assoc, ← List.append_assoc [c, n, m]]
        refine List.Perm.append_right _ (.trans List.perm_append_comm (List.Perm.append_right _ ?_))
        exact .trans (.swap _ _ _) (.cons _ (.swap _ _ _)))
      obtain ⟨b4, h18, h19⟩ := dropKey_ok (s := { s with b := b3, d := d1, pub := some (m, x :: xs), plug := some ⟨q, ⟨some (y, key.size), key.size, some (z, pem)⟩, Unthreaded.init key.size⟩ }) none
        (l := [n] ++ ([m] ++ [z, y, q])) (k := plugL s.plug ++ k1) (by simpa [hd] using h17)
      dsimp only at h18
      rw [hd'] at h18
      have hE := (show setKey env s pem = dropKey _ _ by simp only [setKey, hp, h1, h13, h15, if_false, Out.bind_ok, Option.isSome, if_true]).trans h18
      refine ⟨_, none, plugL s.plug ++ k1, hE, ⟨rfl, ?_, ?_⟩, .accepted ⟨hp, h6, h7, h8, x, xs, h12⟩ rfl rfl rfl h12, fun h => absurd hl h, ?_⟩
      · simpa [owned, sigL, plugL] using h19
      · intro p hpp; cases hpp; rfl
      · intro ha hb
        rw [h3 ha, hb]; rfl
    · obtain ⟨b4, h18, h19⟩ := dropKey_ok (s := { s with b := b2, d := d1, pub := none }) (some .externalError)
          (l := n :: plugL s.plug) (k := k1) (by simpa [hd] using h14)
      dsimp only at h18
      rw [hd'] at h18
      have hE := (show setKey env s pem = dropKey _ _ by simp only [setKey, hp, h1, h13, if_false, Out.bind_ok]).trans h18
      refine ⟨_, _, k1, hE, ⟨rfl, ?_, ?_⟩, .nopub hp h6 h7 h8 h12 rfl rfl rfl, fun h => absurd hl h, fun ha _ => h3 ha⟩
      · simpa [owned, sigL] using h19
      · intro p hpp; cases hpp; rfl
  · exact absurd h5 hp
  · subst h5
    have hd : d1.key = none := by rw [h6]; exact h.key
    have hd' : { d1 with key := none } = { s.d with signature := none } := by rw [h6, ← h.key]
    obtain ⟨b4, h18, h19⟩ := dropKey_ok (s := { s with b := b1, d := d1 }) (some .externalError)
          (l := (s.pub.map Prod.fst).toList ++ plugL s.plug) (k := k1) (by simpa [hd] using h7)
    dsimp only at h18
    rw [hd'] at h18
    have hE := (show setKey env s pem = dropKey _ _ by simp only [setKey, hp, h1, if_false, Out.bind_ok]).trans h18
    refine ⟨_, _, k1, hE, ⟨h.key, ?_, ?_⟩, .refused hp h8 rfl rfl rfl, h2, fun ha _ => h3 ha⟩
    · simpa [owned, sigL] using h19
    · intro p hpp; cases hpp

end Keys
end SV
