import Verif.Proofs.AuthContent
import Verif.Spec.SignHist
/-! Validation of an undisturbed stream: hashing of the received NAL units. -/
namespace SV
open Spec
namespace Validator

/-- What does not change in a stream: the surroundings of the validator, the codec, the hash algorithm and its size, the
public key and the size of the buffer for signatures. -/
structure Scene where
  env : AuthEnv
  codec : Codec
  oid : Bytes
  size : Nat
  key : Bytes
  maxSig : Nat
  /-- The public key is in the SEIs. -/
  sent : Bool
  /-- The number of GOPs before the first one that is received. -/
  base : Nat
  /-- There may be lists of hashes in the SEIs. -/
  lists : Bool
  /-- The room for lists of hashes, if they are known to be sent. -/
  full : Option Nat

/-- The hash in use. -/
def Scene.H (Γ : Scene) (b : Bytes) : Bytes := Γ.env.H Γ.oid b

structure Scene.Ok (Γ : Scene) : Prop where
  pos : 1 ≤ Γ.size
  le : Γ.size ≤ 64
  len : ∀ x, (Γ.H x).length = Γ.size
  rounds : 2 ≤ Γ.env.rounds
  over : Γ.base = 0 ∨ Γ.env.ov ≠ .strict

/-- The hash of a piece, together with the reference `r` unless it starts a GOP. -/
def Scene.hash (Γ : Scene) (r : Bytes) (p : Piece) : Bytes := if p.first then Γ.H p.bytes else Γ.H (r ++ Γ.H p.bytes)

/-- The reference after a piece. -/
def Scene.ref (Γ : Scene) (r : Bytes) (p : Piece) : Bytes := if p.first then Γ.H p.bytes else r

/-- The NAL unit of a piece. -/
structure IsPiece (p : Piece) (n : Nalu) : Prop where
  valid : n.valid = 1
  hashable : n.isHashable = true
  sei : n.gopSei = false
  golden : n.golden = false
  first : n.firstInGop = p.first
  tlv : n.tlvSize = 0

/-- A pending item of a piece that is not hashed yet. -/
structure Raw (p : Piece) (x : Nat × Item) : Prop where
  nalu : ∃ n, x.2.nalu = some n ∧ IsPiece p n ∧ n.hashable = p.bytes
  linked : x.2.linked = false
  bytes : p.bytes ≠ []

/-- A pending item of a piece with hash `h`. -/
structure Row (Γ : Scene) (p : Piece) (h : Bytes) (x : Nat × Item) : Prop where
  nalu : ∃ n, x.2.nalu = some n ∧ IsPiece p n
  hash : hashOf Γ.size x = h
  second : p.first = true → x.2.second.isSome = true
  linked : x.2.linked = false

/-- Pending items that are not hashed yet. -/
def Raws : List Piece → NList → Prop
  | [], [] => True
  | p :: ps, x :: xs => Raw p x ∧ Raws ps xs
  | _, _ => False

/-- Pending items with the hashes of pieces. -/
def Rows (Γ : Scene) : Bytes → List Piece → NList → Prop
  | _, [], [] => True
  | r, p :: ps, x :: xs => Row Γ p (Γ.hash r p) x ∧ Rows Γ (Γ.ref r p) ps xs
  | _, _, _ => False

theorem Raws.append {ps qs : List Piece} {xs ys : NList} (h : Raws ps xs) (g : Raws qs ys) : Raws (ps ++ qs) (xs ++ ys) := by
  induction ps generalizing xs with
  | nil =>
    cases xs with
    | nil => exact g
    | cons x xs => exact h.elim
  | cons p ps ih =>
    cases xs with
    | nil => exact h.elim
    | cons x xs => exact ⟨h.1, ih h.2⟩

theorem Rows.append {Γ : Scene} {r : Bytes} {ps qs : List Piece} {xs ys : NList} (h : Rows Γ r ps xs)
    (g : Rows Γ (refAfter Γ.H r ps) qs ys) : Rows Γ r (ps ++ qs) (xs ++ ys) := by
  induction ps generalizing xs r with
  | nil =>
    cases xs with
    | nil => exact g
    | cons x xs => exact h.elim
  | cons p ps ih =>
    cases xs with
    | nil => exact h.elim
    | cons x xs => exact ⟨h.1, ih h.2 g⟩

theorem Rows.split {Γ : Scene} {r : Bytes} {ps qs : List Piece} {zs : NList} (h : Rows Γ r (ps ++ qs) zs) :
    ∃ xs ys, zs = xs ++ ys ∧ Rows Γ r ps xs ∧ Rows Γ (refAfter Γ.H r ps) qs ys := by
  induction ps generalizing zs r with
  | nil => exact ⟨[], zs, rfl, trivial, h⟩
  | cons p ps ih =>
    cases zs with
    | nil => exact h.elim
    | cons z zs =>
      obtain ⟨xs, ys, rfl, h1, h2⟩ := ih h.2
      exact ⟨z :: xs, ys, rfl, ⟨h.1, h1⟩, h2⟩

theorem Rows.length {Γ : Scene} {r : Bytes} {ps : List Piece} {xs : NList} (h : Rows Γ r ps xs) : xs.length = ps.length := by
  induction ps generalizing xs r with
  | nil =>
    cases xs with
    | nil => rfl
    | cons x xs => exact h.elim
  | cons p ps ih =>
    cases xs with
    | nil => exact h.elim
    | cons x xs => simp [ih h.2]

/-- The hashes of the rows are the hashes of the pieces. -/
theorem Rows.hashes {Γ : Scene} {r : Bytes} {ps : List Piece} {xs : NList} (h : Rows Γ r ps xs) :
    xs.flatMap (hashOf Γ.size) = (pieceHashes Γ.H r ps).flatten := by
  induction ps generalizing xs r with
  | nil =>
    cases xs with
    | nil => rfl
    | cons x xs => exact h.elim
  | cons p ps ih =>
    cases xs with
    | nil => exact h.elim
    | cons x xs =>
      rw [List.flatMap_cons, ih h.2, h.1.hash]
      rfl

theorem Rows.mem {Γ : Scene} {r : Bytes} {ps : List Piece} {xs : NList} (h : Rows Γ r ps xs) {x : Nat × Item} (hx : x ∈ xs) :
    ∃ p ∈ ps, ∃ b, Row Γ p b x := by
  induction ps generalizing xs r with
  | nil =>
    cases xs with
    | nil => cases hx
    | cons x xs => exact h.elim
  | cons p ps ih =>
    cases xs with
    | nil => exact h.elim
    | cons y xs =>
      rcases List.mem_cons.1 hx with rfl | hx
      · exact ⟨p, List.mem_cons_self, _, h.1⟩
      · obtain ⟨q, hq, b, hb⟩ := ih h.2 hx
        exact ⟨q, List.mem_cons_of_mem _ hq, b, hb⟩

/-- The reference does not matter if the first piece starts a GOP. -/
theorem Rows.start {Γ : Scene} {r : Bytes} (r' : Bytes) {p : Piece} {ps : List Piece} {xs : NList} (hp : p.first = true)
    (h : Rows Γ r (p :: ps) xs) : Rows Γ r' (p :: ps) xs := by
  cases xs with
  | nil => exact h.elim
  | cons x xs =>
    have h1 := h.1
    have h2 := h.2
    unfold Scene.hash at h1
    unfold Scene.ref at h2
    rw [if_pos hp] at h1 h2
    refine ⟨?_, ?_⟩
    · unfold Scene.hash; rw [if_pos hp]; exact h1
    · unfold Scene.ref; rw [if_pos hp]; exact h2

/-- The algorithm of the scene is in use. -/
structure Alg1 (Γ : Scene) (s : Validator) : Prop where
  known : s.d.hashAlgoKnown = true
  size : s.d.hashSize = Γ.size
  typ : s.typ = Γ.oid

theorem digest_eq {Γ : Scene} (hΓ : Γ.Ok) {s : Validator} (h : Alg1 Γ s) {b : Bytes} (hb : b ≠ []) :
    s.digest Γ.env b = .ok (Γ.H b) := by
  unfold digest hashData
  have := hΓ.le
  rw [if_neg (by rw [h.size]; omega), if_neg hb, h.typ]
  rfl

theorem hash_ne {Γ : Scene} (hΓ : Γ.Ok) (b : Bytes) : Γ.H b ≠ [] := by
  intro h
  have := hΓ.len b
  have := hΓ.pos
  rw [h] at *
  simp at *
  omega

/-- Hashing a NAL unit that starts a GOP, without reference. -/
theorem hashNalu_first {Γ : Scene} (hΓ : Γ.Ok) {s : Validator} (h : Alg1 Γ s) {p : Piece} {n : Nalu} (hp : IsPiece p n)
    (hb : n.hashable = p.bytes) (hne : p.bytes ≠ []) (hf : p.first = true) (hr : s.hasRef = false) :
    s.hashNalu Γ.env n = .ok ({ s with buddies := ovl (Γ.H p.bytes) s.buddies, hasRef := true }, Γ.H p.bytes) := by
  unfold hashNalu
  rw [hb, digest_eq hΓ h hne]
  simp only [Out.bind_ok, hp.sei, hp.first, hf, hr]
  rw [if_neg (by decide), if_pos (by decide), h.size, buf_of_length (hΓ.len _)]

/-- Hashing another NAL unit, or one that starts a GOP when there is a reference. -/
theorem hashNalu_other {Γ : Scene} (hΓ : Γ.Ok) {s : Validator} (h : Alg1 Γ s) {p : Piece} {n : Nalu} (hp : IsPiece p n)
    (hb : n.hashable = p.bytes) (hne : p.bytes ≠ []) (hf : p.first = false ∨ s.hasRef = true) (hl : 2 * Γ.size ≤ s.buddies.length) :
    s.hashNalu Γ.env n = .ok ({ s with buddies := s.buddies.take Γ.size ++ ovl (Γ.H p.bytes) (s.buddies.drop Γ.size) },
      Γ.H (s.buddies.take Γ.size ++ Γ.H p.bytes)) := by
  unfold hashNalu
  rw [hb, digest_eq hΓ h hne]
  simp only [Out.bind_ok, hp.sei, hp.first]
  rw [if_neg (by decide), if_neg (by rcases hf with e | e <;> simp [e]), h.size]
  have ht : ((s.buddies.take Γ.size) ++ ovl (Γ.H p.bytes) (s.buddies.drop Γ.size)).take (2 * Γ.size) =
      s.buddies.take Γ.size ++ Γ.H p.bytes := by
    have : (s.buddies.take Γ.size).length = Γ.size := by rw [List.length_take]; omega
    rw [show 2 * Γ.size = (s.buddies.take Γ.size).length + Γ.size by omega, List.take_length_add_append, ovl_take (hΓ.len _)]
  rw [ht, digest_eq hΓ h (by
    intro hc
    exact hash_ne hΓ _ (List.append_eq_nil_iff.1 hc).2)]
  rfl

/-- What hashing writes to an item. -/
def stamp (h : Bytes) (h2 : Option Bytes) (i : Item) : Item :=
  { i with hash := ovl h i.hash, second := match h2 with | none => i.second | some b => some b }

/-- Hashing the item of a piece. -/
theorem hashItem_piece {Γ : Scene} (hΓ : Γ.Ok) {s : Validator} (h : Alg1 Γ s) (ha : s.gop.afterNext = false)
    (hl : 2 * Γ.size ≤ s.buddies.length) {p : Piece} {x : Nat × Item} (hx : Raw p x) :
    ∃ b hr h1 h2, s.hashItem Γ.env x = .ok { s with list := s.list.set x.1 (stamp h1 h2), buddies := b, hasRef := hr } () ∧
      2 * Γ.size ≤ b.length ∧ b.take Γ.size = Γ.ref (s.buddies.take Γ.size) p ∧
      ∀ i : Item, i.nalu = x.2.nalu → i.linked = false → Row Γ p (Γ.hash (s.buddies.take Γ.size) p) (x.1, stamp h1 h2 i) := by
  obtain ⟨n, hn, hp, hb⟩ := hx.nalu
  have hne := hx.bytes
  have hrow : ∀ (h1 : Bytes) (h2 : Option Bytes) (i : Item), i.nalu = x.2.nalu → i.linked = false →
      (p.first = true → h2 = some (Γ.H p.bytes)) → (p.first = false → h1 = Γ.H (s.buddies.take Γ.size ++ Γ.H p.bytes)) →
      Row Γ p (Γ.hash (s.buddies.take Γ.size) p) (x.1, stamp h1 h2 i) := by
    intro h1 h2 i e1 e2 e3 e4
    have ef : Item.isFirst (stamp h1 h2 i) = p.first := by
      unfold Item.isFirst stamp
      dsimp only
      rw [e1, hn]; exact hp.first
    refine ⟨⟨n, by unfold stamp; dsimp only; rw [e1, hn], hp⟩, ?_, ?_, e2⟩
    · unfold hashOf Scene.hash
      dsimp only
      rw [ef]
      cases hf : p.first with
      | true =>
        rw [if_pos rfl, if_pos rfl]
        unfold stamp
        rw [e3 hf]
        exact buf_of_length (hΓ.len _)
      | false =>
        rw [if_neg (by decide), if_neg (by decide)]
        unfold stamp
        rw [← e4 hf]
        exact buf_ovl (by rw [e4 hf]; exact hΓ.len _)
    · intro hf
      unfold stamp
      rw [e3 hf]; rfl
  have hz : (s.buddies.take Γ.size).length = Γ.size := by rw [List.length_take]; omega
  have hlen : ∀ b : Bytes, 2 * Γ.size ≤ b.length → 2 * Γ.size ≤ (b.take Γ.size ++ ovl (Γ.H p.bytes) (b.drop Γ.size)).length := by
    intro b hb
    unfold ovl
    simp only [List.length_append, List.length_take, List.length_drop, hΓ.len]
    omega
  have htake : ∀ b : Bytes, 2 * Γ.size ≤ b.length → (b.take Γ.size ++ ovl (Γ.H p.bytes) (b.drop Γ.size)).take Γ.size = b.take Γ.size := by
    intro b hb
    have : (b.take Γ.size).length = Γ.size := by rw [List.length_take]; omega
    rw [List.take_append_of_le_length (by omega), List.take_take, Nat.min_self]
  have hfin : ∀ b : Bytes, 2 * Γ.size ≤ b.length → 2 * Γ.size ≤ (ovl (Γ.H p.bytes) b).length := by
    intro b hb
    unfold ovl
    simp only [List.length_append, List.length_drop, hΓ.len]
    omega
  unfold hashItem
  simp only [hn]
  rw [if_neg (by rw [hp.hashable, h.known]; decide)]
  cases hf : p.first with
  | false =>
    rw [hashNalu_other hΓ h hp hb hne (.inl hf) hl]
    dsimp only
    rw [if_neg (by rw [hp.first, hf, ha]; simp)]
    refine ⟨_, s.hasRef, Γ.H (s.buddies.take Γ.size ++ Γ.H p.bytes), none, rfl, hlen _ hl, ?_, ?_⟩
    · rw [htake _ hl]; unfold Scene.ref; rw [hf]; rfl
    · intro i e1 e2
      exact hrow _ _ i (e1.trans hn.symm) e2 (fun e => by rw [hf] at e; cases e) (fun _ => rfl)
  | true =>
    have hcomp : ∀ (a b : Bytes), ((fun i : Item => { i with second := some b }) ∘ fun i : Item => { i with hash := ovl a i.hash }) = stamp a (some b) := by
      intro a b; rfl
    have fin : ∀ (h1 b : Bytes) (i : Item), i.nalu = some n → i.linked = false → Row Γ p (Γ.hash (s.buddies.take Γ.size) p) (x.1, stamp h1 (some (Γ.H p.bytes)) i) := by
      intro h1 b i e1 e2
      exact hrow _ _ i (e1.trans hn.symm) e2 (fun _ => rfl) (fun e => by rw [hf] at e; cases e)
    cases hr : s.hasRef with
    | false =>
      rw [hashNalu_first hΓ h hp hb hne hf hr]
      dsimp only
      rw [if_pos (by rw [hp.first, hf]; rfl)]
      rw [hashNalu_first hΓ (s := { s with list := s.list.set x.1 fun i => { i with hash := ovl (Γ.H p.bytes) i.hash }, buddies := ovl (Γ.H p.bytes) s.buddies, hasRef := false }) ⟨h.known, h.size, h.typ⟩ hp hb hne hf rfl]
      refine ⟨ovl (Γ.H p.bytes) (ovl (Γ.H p.bytes) s.buddies), true, Γ.H p.bytes, some (Γ.H p.bytes), ?_, hfin _ (hfin _ hl), ?_, fin _ s.buddies⟩
      · dsimp only
        rw [set_set, hcomp]
      · rw [ovl_take (hΓ.len _)]; unfold Scene.ref; rw [if_pos hf]
    | true =>
      rw [hashNalu_other hΓ h hp hb hne (.inr hr) hl]
      dsimp only
      rw [if_pos (by rw [hp.first, hf]; rfl)]
      rw [hashNalu_first hΓ (s := { s with list := s.list.set x.1 fun i => { i with hash := ovl (Γ.H (s.buddies.take Γ.size ++ Γ.H p.bytes)) i.hash }, buddies := s.buddies.take Γ.size ++ ovl (Γ.H p.bytes) (s.buddies.drop Γ.size), hasRef := false }) ⟨h.known, h.size, h.typ⟩ hp hb hne hf rfl]
      refine ⟨ovl (Γ.H p.bytes) (s.buddies.take Γ.size ++ ovl (Γ.H p.bytes) (s.buddies.drop Γ.size)), true, Γ.H (s.buddies.take Γ.size ++ Γ.H p.bytes), some (Γ.H p.bytes), ?_, hfin _ (hlen _ hl), ?_, fin _ s.buddies⟩
      · dsimp only
        rw [set_set, hcomp]
      · rw [ovl_take (hΓ.len _)]; unfold Scene.ref; rw [if_pos hf]

end Validator
end SV
