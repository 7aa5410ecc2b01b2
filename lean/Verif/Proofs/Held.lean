import Verif.Proofs.PlugMem
import Verif.Spec.Held
/-! Lemmas for `Props/Held`. -/
namespace SV.Held
open SV.Keys (Blocks Owns)
open SV.PlugMem (owns_of_count)
open SV.Spec

/-- The blocks of a session. -/
def heldL (s : Sess) : List Nat := s.ctx.toList ++ ((addr s.sig).toList ++ ((addr s.key).toList ++ (addr s.arb).toList))

/-- Blocks are as large as remembered. -/
structure Caps (s : Sess) : Prop where
  key : ∀ p c, s.key = some (p, c) → c = s.keySize
  sig : ∀ p c, s.sig = some (p, c) → c = s.maxSig

/-- Whether there is arbitrary data after a step. -/
def arbStep (k : Bool) : Op → Bool
  | .arb v n a => decide (v ≠ 0) && decide (2 ≤ n) && decide (n ≤ 65536) && a
  | _ => k

theorem keyMalloc_spec {b : Blocks} {old : Option Nat} {l k : List Nat} (c : Pem) (h : Owns b (old.toList ++ l) k) :
    ∃ b' new ok, keyMalloc b old c = .ok (b', new, ok) ∧ Owns b' (new.toList ++ l) k := by
  unfold keyMalloc
  cases c.read with
  | false => exact ⟨b, old, false, rfl, h⟩
  | true =>
    have h1 := h.alloc
    cases c.ctx with
    | false =>
      obtain ⟨b2, e2, h2⟩ := Owns.free (l := old.toList ++ l) (some b.next) h1
      exact ⟨b2, old, false, by simp [e2], h2⟩
    | true =>
      have h2 := h1.alloc
      cases c.init with
      | false =>
        obtain ⟨b3, e3, h3⟩ := Owns.free (l := b.next :: (old.toList ++ l)) (some b.alloc.next) h2
        obtain ⟨b4, e4, h4⟩ := Owns.free (l := old.toList ++ l) (some b.next) h3
        exact ⟨b4, old, false, by simp [e3, e4], h4⟩
      | true =>
        have h2' : Owns b.alloc.alloc (old.toList ++ (b.next :: b.alloc.next :: l)) k := owns_of_count h2 fun a => by
          simp only [List.count_append, List.count_cons]; omega
        obtain ⟨b3, e3, h3⟩ := Owns.free (l := b.next :: b.alloc.next :: l) old h2'
        obtain ⟨b4, e4, h4⟩ := Owns.free (l := b.alloc.next :: l) (some b.next) h3
        exact ⟨b4, some b.alloc.next, true, by simp [e3, e4], h4⟩

/-- The outcome of a step. -/
def Good (k : List Nat) (s : Sess) (o : Op) (r : Out (Blocks × Sess × Bool)) : Prop :=
  ∃ b' s' ok, r = .ok (b', s', ok) ∧ Owns b' (heldL s') k ∧ Caps s' ∧ s'.arb.isSome = arbStep s.arb.isSome o

theorem decKey_spec {b : Blocks} {s : Sess} {k : List Nat} (v n : Nat) (a : Bool) (c : Pem) (h : Owns b (heldL s) k) (hc : Caps s) :
    (decKey b s v n a c = .ub .nullDeref ∧ s.key = none ∧ s.keySize = keyLen v n ∧ v ≠ 0 ∧ keyLen v n ≠ 0) ∨
    (¬ (s.key = none ∧ s.keySize = keyLen v n ∧ v ≠ 0 ∧ keyLen v n ≠ 0) ∧ ∃ b' s' ok, decKey b s v n a c = .ok (b', s', ok) ∧
      Owns b' (heldL s') k ∧ Caps s' ∧ s'.arb = s.arb ∧
      s'.keySize = (if v ≠ 0 ∧ keyLen v n ≠ 0 ∧ a = true then keyLen v n else s.keySize) ∧
      (s'.key = none ↔ if v ≠ 0 ∧ keyLen v n ≠ 0 ∧ s.keySize ≠ keyLen v n then a = false else s.key = none)) := by
  unfold decKey
  have hn : (if v < 2 then (n + 65534) % 65536 else (n + 65535) % 65536) = keyLen v n := rfl
  simp only [hn]
  generalize keyLen v n = m
  by_cases hv : v = 0
  · right
    rw [if_pos hv]
    exact ⟨fun h => h.2.2.1 hv, b, s, false, rfl, h, hc, rfl, by rw [if_neg (fun h => h.1 hv)], by rw [if_neg (fun h => h.1 hv)]⟩
  rw [if_neg hv]
  by_cases hm : m = 0
  · right
    rw [if_pos hm]
    exact ⟨fun h => h.2.2.2 hm, b, s, false, rfl, h, hc, rfl, by rw [if_neg (fun h => h.2.1 hm)], by rw [if_neg (fun h => h.2.1 hm)]⟩
  rw [if_neg hm]
  by_cases hk : s.keySize = m
  · rw [if_neg (by rw [hk]; simp)]
    cases hp : s.key with
    | none =>
      left
      refine ⟨?_, rfl, hk, hv, hm⟩
      simp [hp, write]
    | some q =>
      right
      obtain ⟨p, cap⟩ := q
      have hcap := hc.key p cap hp
      obtain ⟨b', new, ok, e, h'⟩ := keyMalloc_spec c h
      refine ⟨fun h => (by cases h.1), b', { s with ctx := new }, ok && decide (m + (if v < 2 then 2 else 1) = n), ?_, h', ⟨hc.key, hc.sig⟩, rfl, ?_, ?_⟩
      · simp [hp, write, hcap, hk, e]
      · rw [hk]; simp
      · rw [if_neg (fun h => h.2.2 hk)]
        exact ⟨fun h => by rw [← hp]; exact h, fun h => by cases h⟩
  · right
    refine ⟨fun h => hk h.2.1, ?_⟩
    rw [if_pos hk]
    have h1 : Owns b ((addr s.key).toList ++ (s.ctx.toList ++ ((addr s.sig).toList ++ (addr s.arb).toList))) k := owns_of_count h fun a => by
      simp only [heldL, List.count_append]; omega
    obtain ⟨b1, e1, h1⟩ := h1.free _
    cases a with
    | false =>
      refine ⟨b1, { s with key := none }, false, by simp [e1], ?_, ⟨fun _ _ h => (by cases h), hc.sig⟩, rfl, by simp, ?_⟩
      · simpa [heldL, addr] using h1
      · rw [if_pos ⟨hv, hm, hk⟩]; simp
    | true =>
      have h2 := h1.alloc
      have h2 : Owns b1.alloc (s.ctx.toList ++ ((addr s.sig).toList ++ (b1.next :: (addr s.arb).toList))) k := owns_of_count h2 fun a => by
        simp only [List.count_append, List.count_cons]; omega
      obtain ⟨b', new, ok, e, h'⟩ := keyMalloc_spec c h2
      refine ⟨b', { s with key := some (b1.next, m), keySize := m, ctx := new }, ok && decide (m + (if v < 2 then 2 else 1) = n), ?_, ?_,
        ⟨fun p c h => (by cases h; rfl), hc.sig⟩, rfl, ?_, ?_⟩
      · simp [e1, write, e]
      · simpa [heldL, addr] using h'
      · rw [if_pos ⟨hv, hm, rfl⟩]
      · rw [if_pos ⟨hv, hm, hk⟩]; simp

theorem arbFailed_spec {b : Blocks} {s : Sess} {k : List Nat} (h : Owns b (heldL s) k) (hc : Caps s) :
    ∃ b', arbFailed b s = .ok (b', { s with arb := none, arbSize := 0 }, false) ∧ Owns b' (heldL { s with arb := none, arbSize := 0 }) k := by
  unfold arbFailed
  have h1 : Owns b ((addr s.arb).toList ++ (s.ctx.toList ++ ((addr s.sig).toList ++ (addr s.key).toList))) k := owns_of_count h fun a => by
    simp only [heldL, List.count_append]; omega
  obtain ⟨b1, e1, h1⟩ := h1.free _
  exact ⟨b1, by simp [e1], by simpa [heldL, addr] using h1⟩

theorem decArb_spec {b : Blocks} {s : Sess} {k : List Nat} (v n : Nat) (a : Bool) (h : Owns b (heldL s) k) (hc : Caps s) :
    ∃ b' s' ok, decArb b s v n a = .ok (b', s', ok) ∧ Owns b' (heldL s') k ∧ Caps s' ∧ s'.key = s.key ∧ s'.keySize = s.keySize ∧
      s'.arb.isSome = (decide (v ≠ 0) && decide (2 ≤ n) && decide (n ≤ 65536) && a) := by
  have fail : ∀ (b : Blocks) (s : Sess), Owns b (heldL s) k → Caps s → (decide (v ≠ 0) && decide (2 ≤ n) && decide (n ≤ 65536) && a) = false →
      ∃ b' s' ok, arbFailed b s = .ok (b', s', ok) ∧ Owns b' (heldL s') k ∧ Caps s' ∧ s'.key = s.key ∧ s'.keySize = s.keySize ∧
      s'.arb.isSome = (decide (v ≠ 0) && decide (2 ≤ n) && decide (n ≤ 65536) && a) := by
    intro b s h hc hf
    obtain ⟨b', e, h'⟩ := arbFailed_spec h hc
    exact ⟨b', _, false, e, h', ⟨hc.key, hc.sig⟩, rfl, rfl, by rw [hf]; rfl⟩
  unfold decArb
  dsimp only
  by_cases hv : v = 0
  · rw [if_pos hv]; exact fail b s h hc (by simp [hv])
  rw [if_neg hv]
  by_cases hn : (n + 65535) % 65536 = 0
  · rw [if_pos hn]; exact fail b s h hc (by
      have : ¬ (2 ≤ n ∧ n ≤ 65536) := by omega
      by_cases h2 : 2 ≤ n
      · have h3 : ¬ n ≤ 65536 := fun h => this ⟨h2, h⟩
        simp [h3]
      · simp [h2])
  rw [if_neg hn]
  cases ha : a with
  | false => exact (by simpa [ha] using fail b s h hc (by simp [ha]))
  | true =>
    have h1 : Owns b ((addr s.arb).toList ++ (s.ctx.toList ++ ((addr s.sig).toList ++ (addr s.key).toList))) k := owns_of_count h fun a => by
      simp only [heldL, List.count_append]; omega
    obtain ⟨b1, e1, h1⟩ := h1.free _
    have h2 : Owns b1.alloc (heldL { s with arb := some (b1.next, (n + 65535) % 65536), arbSize := (n + 65535) % 65536 }) k :=
      owns_of_count h1.alloc fun a => by
        simp only [heldL, addr, Option.map_some, Option.toList, List.count_append, List.count_cons, List.count_nil]; omega
    have hc2 : Caps { s with arb := some (b1.next, (n + 65535) % 65536), arbSize := (n + 65535) % 65536 } := ⟨hc.key, hc.sig⟩
    by_cases hs : (n + 65535) % 65536 + 1 = n
    · refine ⟨b1.alloc, _, true, ?_, h2, hc2, rfl, rfl, ?_⟩
      · simp [e1, write, hs]
      · have h3 : 2 ≤ n := by omega
        have h4 : n ≤ 65536 := by omega
        simp [hv, h3, h4]
    · obtain ⟨b', s', ok, e, g⟩ := fail b1.alloc _ h2 hc2 (by
        have : ¬ (2 ≤ n ∧ n ≤ 65536) := by omega
        by_cases h2 : 2 ≤ n
        · have h3 : ¬ n ≤ 65536 := fun h => this ⟨h2, h⟩
          simp [h3]
        · simp [h2])
      rw [ha] at g
      exact ⟨b', s', ok, by simp [e1, write, hs, e], g⟩

theorem decSig_spec {b : Blocks} {s : Sess} {k : List Nat} (acc : Bool) (n sz : Nat) (a : Bool) (h : Owns b (heldL s) k) (hc : Caps s) :
    ∃ b' s' ok, decSig b s acc n sz a = .ok (b', s', ok) ∧ Owns b' (heldL s') k ∧ Caps s' ∧ s'.key = s.key ∧ s'.keySize = s.keySize ∧
      s'.arb = s.arb := by
  unfold decSig
  cases acc with
  | false => exact ⟨b, s, false, rfl, h, hc, rfl, rfl, rfl⟩
  | true =>
    rw [if_neg (by decide)]
    generalize hmx : (n + (2 ^ 64 - 5)) % 2 ^ 64 = mx
    dsimp only
    by_cases hz : mx < sz
    · rw [if_pos hz]; exact ⟨b, s, false, rfl, h, hc, rfl, rfl, rfl⟩
    rw [if_neg hz]
    cases hs : s.sig with
    | some q =>
      obtain ⟨p, cap⟩ := q
      have hcap := hc.sig p cap hs
      dsimp only
      rw [if_neg (by decide)]
      by_cases hm : s.maxSig = mx
      · refine ⟨b, s, true, ?_, h, hc, rfl, rfl, rfl⟩
        simp [hm, hs, write, hcap]
      · exact ⟨b, s, false, by simp [hm], h, hc, rfl, rfl, rfl⟩
    | none =>
      dsimp only
      by_cases ha : (a && decide (5 ≤ n)) = true
      · rw [if_pos ha]
        refine ⟨b.alloc, { s with sig := some (b.next, mx), maxSig := mx }, true, by simp [write], ?_, ⟨hc.key, fun p c h => (by cases h; rfl)⟩, rfl, rfl, rfl⟩
        exact owns_of_count h.alloc fun a => by
          simp only [heldL, addr, hs, Option.map_some, Option.map_none, Option.toList, List.count_append, List.count_cons, List.count_nil]; omega
      · rw [if_neg ha]
        exact ⟨b, { s with maxSig := 0 }, false, by simp [hs], h, ⟨hc.key, fun p c h => by rw [show s.sig = _ from h] at hs; cases hs⟩, rfl, rfl, rfl⟩

theorem setKey_spec {b : Blocks} {s : Sess} {k : List Nat} (n : Nat) (a : Bool) (c : Pem) (h : Owns b (heldL s) k) (hc : Caps s) :
    ∃ b' s' ok, setKey b s n a c = .ok (b', s', ok) ∧ Owns b' (heldL s') k ∧ Caps s' ∧ s'.arb = s.arb ∧
      (s'.key = none → s'.keySize = s.keySize ∧ s.key = none) := by
  unfold setKey
  by_cases hn : n = 0
  · rw [if_pos hn]; exact ⟨b, s, false, rfl, h, hc, rfl, fun h => ⟨rfl, h⟩⟩
  rw [if_neg hn]
  cases hk : s.key with
  | some q => exact ⟨b, s, false, by simp, h, hc, rfl, fun h => by rw [hk] at h; cases h⟩
  | none =>
    rw [if_neg (by simp)]
    cases hst : s.started with
    | true => exact ⟨b, s, false, by simp, h, hc, rfl, fun _ => ⟨rfl, rfl⟩⟩
    | false =>
      rw [if_neg (by simp)]
      cases a with
      | false =>
        refine ⟨b, { s with key := none }, false, by simp [hst], ?_, ⟨fun _ _ h => (by cases h), hc.sig⟩, rfl, fun _ => ⟨rfl, rfl⟩⟩
        simpa [heldL, hk] using h
      | true =>
        have h2 : Owns b.alloc (s.ctx.toList ++ ((addr s.sig).toList ++ (b.next :: (addr s.arb).toList))) k := owns_of_count h.alloc fun a => by
          simp only [heldL, hk, addr, Option.map_none, Option.toList, List.count_append, List.count_cons, List.count_nil]; omega
        obtain ⟨b', new, ok, e, h'⟩ := keyMalloc_spec c h2
        refine ⟨b', { s with key := some (b.next, n), keySize := n, ctx := new }, ok, by simp [write, e, hst], ?_,
          ⟨fun p c h => (by cases h; rfl), hc.sig⟩, rfl, fun h => by cases h⟩
        simpa [heldL, addr] using h'

theorem close_spec {b : Blocks} {s : Sess} {k : List Nat} (h : Owns b (heldL s) k) :
    ∃ b', close b s = .ok b' ∧ Owns b' (addr s.arb).toList k := by
  obtain ⟨b1, e1, h⟩ := h.free _
  obtain ⟨b2, e2, h⟩ := h.free _
  obtain ⟨b3, e3, h⟩ := h.free _
  exact ⟨b3, by simp [close, e1, e2, e3], h⟩

end SV.Held
