import Verif.Proofs.LegacyQueue
import Verif.Spec.Gop
/-! What a session for the older format verifies is the hash of the SEI, or the GOP hash of the NAL units it marks. -/
namespace SV
namespace Legacy
open Validator (Decoded Alg Algs)

/-! ### Pending SEIs -/

theorem keyOf_isSome (x : Nat × LItem) : (keyOf x).isSome = (x.2.isSei && decide (x.2.status = .P)) := by
  unfold keyOf LItem.isSei
  cases x.2.nalu with
  | none => rfl
  | some n =>
    dsimp only
    by_cases h : n.gopSei = true ∧ x.2.status = .P
    · rw [if_pos h, h.1]; simp [h.2]
    · rw [if_neg h]
      cases hg : n.gopSei with
      | false => rfl
      | true =>
        rw [hg] at h
        simp only [true_and] at h
        simp [h]

theorem nextSei_none {l : LList} (h : nextSei l = none) : queue l = [] := by
  unfold nextSei at h
  rw [List.find?_eq_none] at h
  unfold queue
  rw [List.filterMap_eq_nil_iff]
  intro x hx
  have := h x hx
  rw [← keyOf_isSome] at this
  cases hk : keyOf x with
  | none => rfl
  | some k => rw [hk] at this; exact absurd rfl this

/-- The first pending SEI with what is before and after it. -/
theorem nextSei_split {l : LList} {x : Nat × LItem} (h : nextSei l = some x) :
    ∃ l1 l2 k, l = l1 ++ x :: l2 ∧ queue l1 = [] ∧ keyOf x = some k ∧ queue l = k :: queue l2 := by
  unfold nextSei at h
  rw [List.find?_eq_some_iff_append] at h
  obtain ⟨hx, l1, l2, rfl, h1⟩ := h
  rw [← keyOf_isSome] at hx
  obtain ⟨k, hk⟩ := Option.isSome_iff_exists.1 hx
  have hq : queue l1 = [] := by
    unfold queue
    rw [List.filterMap_eq_nil_iff]
    intro y hy
    have := h1 y hy
    rw [← keyOf_isSome] at this
    cases hk : keyOf y with
    | none => rfl
    | some k => rw [hk] at this; cases this
  exact ⟨l1, l2, k, rfl, hq, hk, by rw [queue_append, hq, queue_cons, hk]; rfl⟩

theorem set_none {l : LList} {a : Nat} (f : LItem → LItem) (h : ∀ y ∈ l, y.1 ≠ a) : LList.set l a f = l := by
  unfold LList.set
  rw [List.map_congr_left (g := id)]
  · simp
  · intro y hy; rw [if_neg (h y hy)]; rfl

theorem WFL.parts {l1 l2 : LList} {x : Nat × LItem} {b : Nat} (w : WFL (l1 ++ x :: l2) b) : (∀ y ∈ l1, y.1 ≠ x.1) ∧ ∀ y ∈ l2, y.1 ≠ x.1 := by
  have h := w x.1
  rw [cnt_append, cnt_cons, if_pos rfl] at h
  have h1 : cnt l1 x.1 + (cnt l2 x.1 + 1) ≤ 1 := Nat.le_trans h (by split <;> omega)
  have pos : ∀ {m : LList} {y : Nat × LItem}, y ∈ m → y.1 = x.1 → 0 < cnt m x.1 := by
    intro m y hy e
    unfold cnt
    exact List.count_pos_iff.2 (e ▸ List.mem_map_of_mem (f := Prod.fst) hy)
  constructor
  · intro y hy e; have := pos hy e; omega
  · intro y hy e; have := pos hy e; omega

theorem set_middle {l1 l2 : LList} {x : Nat × LItem} {b : Nat} (w : WFL (l1 ++ x :: l2) b) (f : LItem → LItem) :
    LList.set (l1 ++ x :: l2) x.1 f = l1 ++ (x.1, f x.2) :: l2 := by
  have := w.parts
  unfold LList.set
  rw [List.map_append, List.map_cons, if_pos rfl]
  congr 1
  · exact set_none f this.1
  · congr 1
    exact set_none f this.2

/-! ### The state between rounds -/

/-- The members that say what is verified are those that decoding a pending SEI has left. -/
def Read (env : AuthEnv) (v : Validator) (k : Key) : Prop :=
  (∃ mem w w', mem.take k.size = k.tlv ∧ tlvDecode env w mem k.size = .ok w' () ∧
    v.d.hashType = w'.d.hashType ∧ v.d.hashList = w'.d.hashList ∧ v.d.signature = w'.d.signature) ∧
  (v.d.hashType = 1 → buf 32 v.sigHash = buf 32 k.hash)

/-- The list and the members of a session. -/
structure Base (env : AuthEnv) (T : List Bytes) (s : Legacy) : Prop where
  wf : WFL s.list s.brk
  alg : Alg T 32 false s.v
  type : s.v.d.hashType < 2
  valid : ∀ k ∈ queue s.list, k.valid > 0
  fresh : ∀ k ∈ (queue s.list).tail, k.decoded = false
  held : ∀ k ∈ (queue s.list).head?, k.decoded = true → s.v.d.hasPublicKey = true ∧ Read env s.v k
  quiet : s.v.flags.signing = false → queue s.list = []

/-- A session between two rounds. -/
structure Calm (env : AuthEnv) (T : List Bytes) (s : Legacy) : Prop extends Base env T s where
  clear : Clear s.list
  verified : s.v.verified = -1

/-- Members of the state that matter are the same. -/
structure Stays (v w : Validator) : Prop where
  hashType : w.d.hashType = v.d.hashType
  hashList : w.d.hashList = v.d.hashList
  signature : w.d.signature = v.d.signature
  sigHash : w.sigHash = v.sigHash
  hashSize : w.d.hashSize = v.d.hashSize
  hasKey : w.d.hasPublicKey = v.d.hasPublicKey
  known : w.d.hashAlgoKnown = v.d.hashAlgoKnown
  typ : w.typ = v.typ
  primary : w.primary = v.primary
  signing : w.flags.signing = v.flags.signing

theorem Stays.refl (v : Validator) : Stays v v := ⟨rfl, rfl, rfl, rfl, rfl, rfl, rfl, rfl, rfl, rfl⟩

theorem Stays.trans {a b c : Validator} (h : Stays a b) (g : Stays b c) : Stays a c :=
  ⟨g.hashType.trans h.hashType, g.hashList.trans h.hashList, g.signature.trans h.signature, g.sigHash.trans h.sigHash,
    g.hashSize.trans h.hashSize, g.hasKey.trans h.hasKey, g.known.trans h.known, g.typ.trans h.typ, g.primary.trans h.primary,
    g.signing.trans h.signing⟩

theorem Stays.read {env : AuthEnv} {v w : Validator} {k : Key} (h : Stays v w) (r : Read env v k) : Read env w k := by
  obtain ⟨⟨mem, a, b, h1, h2, h3, h4, h5⟩, h6⟩ := r
  refine ⟨⟨mem, a, b, h1, h2, h.hashType.trans h3, h.hashList.trans h4, h.signature.trans h5⟩, fun e => ?_⟩
  rw [h.sigHash]; exact h6 (h.hashType ▸ e)

theorem Stays.alg {v w : Validator} {T : List Bytes} (h : Stays v w) (a : Alg T 32 false v) : Alg T 32 false w :=
  a.same h.hashSize h.typ h.primary h.known

theorem tail_sub {α : Type} {l m : List α} (h : l.Sublist m) {k : α} (hk : k ∈ l.tail) : k ∈ m.tail := by
  cases h with
  | slnil => exact hk
  | cons a g => exact g.subset (List.mem_of_mem_tail hk)
  | cons_cons a g => exact g.subset hk

theorem head_sub {α : Type} {l m : List α} (h : l.Sublist m) {k : α} (hk : k ∈ l.head?) : k ∈ m.head? ∨ k ∈ m.tail := by
  cases h with
  | slnil => exact .inl hk
  | cons a g => exact .inr (g.subset (List.mem_of_mem_head? hk))
  | cons_cons a g => exact .inl hk

theorem Base.moves {env : AuthEnv} {T : List Bytes} {s t : Legacy} (h : Base env T s) (m : Moves s.list s.brk t.list t.brk) (g : Stays s.v t.v) :
    Base env T t := by
  have hq := m.ages.queue
  refine ⟨m.wf h.wf, g.alg h.alg, g.hashType ▸ h.type, fun k hk => h.valid k (hq.subset hk),
    fun k hk => h.fresh k (tail_sub hq hk), fun k hk hd => ?_, fun e => ?_⟩
  · rcases head_sub hq hk with h1 | h1
    · have := h.held k h1 hd
      exact ⟨g.hasKey.trans this.1, g.read this.2⟩
    · rw [h.fresh k h1] at hd; cases hd
  · have := h.quiet (g.signing ▸ e)
    rw [this] at hq
    exact List.sublist_nil.1 hq

theorem Calm.moves {env : AuthEnv} {T : List Bytes} {s t : Legacy} (h : Calm env T s) (m : Moves s.list s.brk t.list t.brk) (g : Stays s.v t.v)
    (hv : t.v.verified = -1) : Calm env T t := ⟨h.toBase.moves m g, m.ages.clear h.clear, hv⟩

/-! ### Decoding -/

section Tags
variable {env : AuthEnv} {P : Validator → Prop} (hP : ∀ s t mem size, P s → (Validator.decTag env s t mem size).Ends P)
include hP

theorem decTag_ends {v : Validator} (h : P v) (t : UInt8) (mem : Bytes) (size : Nat) : (decTag env v t mem size).Ends P := by
  unfold decTag
  split
  · rename_i ht
    split
    · split
      · exact h
      · have := hP v t mem size h
        unfold Validator.decTag at this
        rw [if_pos ht] at this
        exact this
    · exact h
    · trivial
  · exact hP v t mem size h

theorem tlvLoop_ends (k : Nat) {s : Validator} (h : P s) (mem : Bytes) (size : Nat) : (tlvLoop env k s mem size).Ends P := by
  induction k generalizing s mem size with
  | zero => exact h
  | succ k ih =>
    unfold tlvLoop
    split
    · exact h
    · split
      · trivial
      · exact h
      · exact Res.Ends.andThen' (decTag_ends hP h _ _ _) fun u _ _ hu => ih hu _ _

theorem tlvDecode_ends {s : Validator} (h : P s) (mem : Bytes) (size : Nat) : (tlvDecode env s mem size).Ends P := by
  unfold tlvDecode
  split
  · exact h
  · exact tlvLoop_ends hP _ h _ _

theorem optLoop_ends (k : Nat) {s : Validator} (f : Bool) (h : P s) (mem : Bytes) (size : Nat) :
    (optLoop env k s f mem size).Ends P := by
  induction k generalizing s f mem size with
  | zero => exact h
  | succ k ih =>
    unfold optLoop
    split
    · exact h
    · split
      · trivial
      · exact h
      · split
        · trivial
        · split
          · exact ih f h _ _
          · rename_i t n hd _ _ _
            have := decTag_ends hP h t (mem.drop hd) n
            generalize decTag env s t (mem.drop hd) n = r at this
            cases r with
            | ub u => trivial
            | err u c => exact this
            | ok u _ => exact ih true this _ _

theorem recurrentLoop_ends (l : LList) {s : Validator} (h : P s) : (recurrentLoop env l s).Ends P := by
  induction l generalizing s with
  | nil => exact h
  | cons x r ih =>
    unfold recurrentLoop
    split
    · trivial
    · split
      · split
        · refine Res.Ends.andThen' (P := P) ?_ fun t f _ ht => ?_
          · unfold findOptional
            split
            · exact h
            · exact optLoop_ends hP _ _ h _ _
          · split
            · exact ht
            · exact ih ht
        · exact ih h
      · exact ih h

end Tags

theorem decTag_type (env : AuthEnv) (s : Validator) (t : UInt8) (mem : Bytes) (size : Nat) (h : s.d.hashType < 2) :
    (s.decTag env t mem size).Ends fun w => w.d.hashType < 2 := by
  unfold Validator.decTag
  split
  · have put : ∀ d, (∃ n, SV.decGeneral s.dec mem n = .ok d) → (s.put d).putVersion.d.hashType < 2 := by
      rintro d ⟨n, hd⟩
      have e := decGeneral_frame hd
      show d.hashType < 2
      rw [e]; exact h
    unfold Validator.decGeneral
    split
    · rename_i d h; exact put d ⟨_, h⟩
    · trivial
    · split
      · split
        · split
          · rename_i h; exact put _ ⟨_, h⟩
          · exact h
        · split
          · rename_i h; exact put _ ⟨_, h⟩
          · exact h
      · exact h
    · exact h
  rename_i h1
  split
  · unfold Validator.decPublicKey
    split
    · rename_i d hd
      have e := (decPublicKey_frame hd).1
      split
      · show d.hashType < 2
        rw [e]; exact h
      · show d.hashType < 2
        rw [e]; exact h
    · exact h
    · trivial
  rename_i h2
  split
  · unfold Validator.decCrypto
    split
    · split
      · split
        · exact h
        split
        · exact h
        split
        · dsimp only
          refine Res.Ends.andThen' (P := fun (w : Validator) => w.d.hashType < 2) ?_ fun t _ _ ht => ?_
          · split
            · exact h
            · split
              · exact h
              · exact h
          · split
            · exact ht
            · exact ht
        · exact h
        · trivial
      · exact h
      · trivial
    · exact h
    · trivial
  rename_i h7
  split
  · rename_i d hd
    show d.hashType < 2
    by_cases h5 : t = 5
    · subst h5
      unfold decValue at hd
      simp only [show ¬ (5 : UInt8) = 1 by decide, show ¬ (5 : UInt8) = 2 by decide, show ¬ (5 : UInt8) = 3 by decide,
        show ¬ (5 : UInt8) = 4 by decide, if_false, if_true] at hd
      unfold SV.decSignature at hd
      obtain ⟨⟨a, m⟩, _, hd⟩ := Out.bind_eq_ok hd
      obtain ⟨⟨b, m⟩, _, hd⟩ := Out.bind_eq_ok hd
      obtain ⟨⟨c, m⟩, _, hd⟩ := Out.bind_eq_ok hd
      obtain ⟨⟨e, m⟩, _, hd⟩ := Out.bind_eq_ok hd
      dsimp only at hd
      split at hd
      · cases hd
      · split at hd
        · cases hd
        · rename_i hc
          split at hd
          · cases hd
          · split at hd
            · cases hd
            · split at hd
              · cases hd
              · obtain ⟨⟨e, m⟩, _, hd⟩ := Out.bind_eq_ok hd
                cases hd
                exact UInt8.not_le.1 hc
    · have e := ((decValue_frame h1 h2 h7 hd).2.1 h5).2.2.2
      rw [e]; exact h
  · obtain ⟨a, p, hf⟩ := Validator.failed_eq s t mem
    rw [hf]
    exact h
  · trivial

/-- What decoding keeps. -/
theorem decTag_good {env : AuthEnv} {T : List Bytes} (he : Algs env T 32) (s : Validator) (t : UInt8) (mem : Bytes) (size : Nat)
    (h : Alg T 32 false s ∧ s.d.hashType < 2) : (s.decTag env t mem size).Ends fun w => Alg T 32 false w ∧ w.d.hashType < 2 :=
  (Validator.decTag_alg he s t mem size h.1).and (decTag_type env s t mem size h.2)

/-! ### The GOP hash -/

theorem buf_length (n : Nat) (b : Bytes) : (buf n b).length = n := by
  unfold buf
  rw [List.length_take, List.length_append, List.length_replicate]
  omega

theorem buf_ovl {n : Nat} (a r : Bytes) (h : a.length = n) : buf n (ovl a r) = a := by
  unfold buf ovl
  rw [List.append_assoc, List.take_left' h]

theorem buf_take {n : Nat} {b : Bytes} (h : n ≤ b.length) : buf n b = b.take n := by
  unfold buf
  rw [List.take_append_of_le_length h]

theorem digest_ok {env : AuthEnv} {v : Validator} (hs : v.d.hashSize = 32) {data : Bytes} (hd : data ≠ []) : v.digest env data = .ok (env.H v.typ data) := by
  unfold Validator.digest hashData
  rw [if_neg (by omega), if_neg hd]

theorem resetGopHash_ok {env : AuthEnv} {v : Validator} (hs : v.d.hashSize = 32) (hashes : Bytes) :
    resetGopHash env v hashes = .ok (ovl (env.H v.typ [1]) hashes) := by
  unfold resetGopHash
  rw [digest_ok hs (by simp)]; rfl

theorem gopStep_ok {env : AuthEnv} {v : Validator} {T : List Bytes} (he : Algs env T 32) (ha : Alg T 32 false v) {b h : Bytes} (hb : 32 ≤ b.length) :
    ∃ b', gopStep env v b h = .ok b' ∧ 32 ≤ b'.length ∧ b'.take 32 = env.H v.typ (b.take 32 ++ buf 32 h) := by
  have hl : (b.take 32).length = 32 := by rw [List.length_take]; omega
  have hc : (b.take 32 ++ ovl (buf 32 h) (b.drop 32)).take (2 * 32) = b.take 32 ++ buf 32 h := by
    unfold ovl
    rw [← List.append_assoc, List.take_left' (by rw [List.length_append, hl, buf_length])]
  have hn : b.take 32 ++ buf 32 h ≠ [] := by
    intro e
    have := congrArg List.length e
    rw [List.length_append, hl] at this
    simp at this
  unfold gopStep
  rw [ha.size]
  dsimp only
  rw [hc, digest_ok ha.size hn]
  have hg := he.len v.typ ha.typ (b.take 32 ++ buf 32 h)
  refine ⟨_, rfl, ?_, ?_⟩
  · unfold ovl
    rw [List.length_append, hg]; omega
  · unfold ovl
    rw [List.take_left' hg]

/-- The hash of an item that goes into the GOP hash. -/
def taken (x : Nat × LItem) : Bytes := buf 32 ((if x.2.need then x.2.second else some x.2.hash).getD [])

/-- An item that is hashed is pending and has the hash that is taken. -/
def Feeds (i : LItem) : Prop := i.status = .P ∧ (if i.need then i.second else some i.hash) ≠ none

theorem gopLoop_hashed {env : AuthEnv} {v : Validator} {T : List Bytes} (he : Algs env T 32) (ha : Alg T 32 false v) {sei : Nat} {l : LList}
    {prev : Option Nat} {b : Bytes} {p : LList × Bytes} (hb : 32 ≤ b.length) (h : gopLoop env v sei l prev b = .ok p) :
    queue p.1 = queue l ∧ (∀ a, cnt p.1 a = cnt l a) ∧ 32 ≤ p.2.length ∧
    ∃ hashed : LList, hashed.Sublist p.1 ∧ (∀ y ∈ hashed, y.2.isSei = false ∧ y.2.used = true ∧ Feeds y.2) ∧
      (∀ y ∈ p.1, y.2.used = true → y ∈ hashed ∨ y ∈ l) ∧
      p.2.take 32 = (hashed.map taken).foldl (fun g h => env.H v.typ (g ++ h)) (b.take 32) := by
  induction l generalizing prev b p with
  | nil =>
    cases h
    exact ⟨rfl, fun _ => rfl, hb, [], List.nil_sublist _, fun y hy => absurd hy List.not_mem_nil, fun y hy => absurd hy List.not_mem_nil, rfl⟩
  | cons x r ih =>
    have skip : ∀ {b : Bytes} {q : LList × Bytes}, 32 ≤ b.length → gopLoop env v sei r (some x.1) b = .ok q →
        queue (x :: q.1) = queue (x :: r) ∧ (∀ a, cnt (x :: q.1) a = cnt (x :: r) a) ∧ 32 ≤ q.2.length ∧
        ∃ hashed : LList, hashed.Sublist (x :: q.1) ∧ (∀ y ∈ hashed, y.2.isSei = false ∧ y.2.used = true ∧ Feeds y.2) ∧
          (∀ y ∈ x :: q.1, y.2.used = true → y ∈ hashed ∨ y ∈ x :: r) ∧
          q.2.take 32 = (hashed.map taken).foldl (fun g h => env.H v.typ (g ++ h)) (b.take 32) := by
      intro b q hb h1
      obtain ⟨h2, h3, h4, hashed, h5, h6, h7, h8⟩ := ih hb h1
      refine ⟨by rw [queue_cons, queue_cons, h2], fun a => by rw [cnt_cons, cnt_cons, h3], h4, hashed, .cons _ h5, h6, ?_, h8⟩
      intro y hy hu
      rcases List.mem_cons.1 hy with rfl | hy
      · exact .inr (List.mem_cons_self ..)
      · exact (h7 y hy hu).imp_right (List.mem_cons_of_mem _)
    unfold gopLoop at h
    split at h
    · obtain ⟨q, h1, h2⟩ := Out.bind_eq_ok h
      cases h2
      exact skip hb h1
    · split at h
      · cases h
      · rename_i n hn
        dsimp only at h
        split at h
        · split at h
          · cases h
            exact ⟨rfl, fun _ => rfl, hb, [], List.nil_sublist _, fun y hy => absurd hy List.not_mem_nil, fun y hy _ => .inr hy, rfl⟩
          · obtain ⟨q, h1, h2⟩ := Out.bind_eq_ok h
            cases h2
            exact skip hb h1
        · rename_i hg
          split at h
          · cases h
          · rename_i g hh
            obtain ⟨b', h1, h⟩ := Out.bind_eq_ok h
            obtain ⟨b'', g1, g2, g3⟩ := gopStep_ok he ha (h := g) hb
            rw [g1] at h1
            cases h1
            have hk : ∀ m : LList, queue ((x.1, { x.2 with used := true }) :: m) = (keyOf x).toList ++ queue m := by
              intro m; rw [queue_cons]; rfl
            have hs : (LItem.isSei { x.2 with used := true }) = false := by
              unfold LItem.isSei
              dsimp only
              rw [hn]; simpa using hg
            have hf : Feeds { x.2 with used := true } := by
              refine ⟨Decidable.byContradiction fun e => absurd e ‹¬ x.2.status ≠ .P›, ?_⟩
              show (if x.2.need then x.2.second else some x.2.hash) ≠ none
              rw [hh]; exact nofun
            have ht : taken (x.1, { x.2 with used := true }) = buf 32 g := by
              show buf 32 ((if x.2.need then x.2.second else some x.2.hash).getD []) = _
              rw [hh]; rfl
            split at h
            · cases h
              refine ⟨by rw [hk, queue_cons], fun a => by rw [cnt_cons, cnt_cons], g2, [(x.1, { x.2 with used := true })], ?_, ?_, ?_, ?_⟩
              · exact .cons_cons _ (List.nil_sublist _)
              · intro y hy
                rw [List.mem_singleton] at hy
                subst hy
                exact ⟨hs, rfl, hf⟩
              · intro y hy _
                rcases List.mem_cons.1 hy with rfl | hy
                · exact .inl (List.mem_cons_self ..)
                · exact .inr (List.mem_cons_of_mem _ hy)
              · rw [List.map_cons, List.map_nil, List.foldl_cons, List.foldl_nil, ht, g3]
            · obtain ⟨q, h1, h2⟩ := Out.bind_eq_ok h
              cases h2
              obtain ⟨k2, k3, k4, hashed, k5, k6, k7, k8⟩ := ih g2 h1
              refine ⟨by rw [hk, queue_cons, k2], fun a => by rw [cnt_cons, cnt_cons, k3], k4,
                (x.1, { x.2 with used := true }) :: hashed, .cons_cons _ k5, ?_, ?_, ?_⟩
              · intro y hy
                rcases List.mem_cons.1 hy with rfl | hy
                · exact ⟨hs, rfl, hf⟩
                · exact k6 y hy
              · intro y hy hu
                rcases List.mem_cons.1 hy with rfl | hy
                · exact .inl (List.mem_cons_self ..)
                · exact (k7 y hy hu).imp (List.mem_cons_of_mem _) (List.mem_cons_of_mem _)
              · rw [List.map_cons, List.foldl_cons, ht, ← g3]; exact k8

/-- The hash to verify is the GOP hash of the items marked as used in it, and of a SEI. -/
def Chain (env : AuthEnv) (u : Legacy) (x : Nat × LItem) : Prop :=
  ∃ hashed : LList, hashed.Sublist u.list ∧ (∀ y ∈ hashed, y.2.isSei = false ∧ Feeds y.2) ∧
    (∀ y ∈ u.list, y.2.used = true → y.1 = x.1 ∨ y ∈ hashed) ∧
    buf 32 u.v.sigHash = gopHashOf (env.H u.v.typ) (hashed.map taken ++ [buf 32 x.2.hash])

/-- The first pending SEI has been decoded, and the hash to verify is its hash or the GOP hash. -/
def Tied (env : AuthEnv) (u : Legacy) : Prop :=
  ∃ x k, nextSei u.list = some x ∧ keyOf x = some k ∧ Read env u.v k ∧ (u.v.d.hashType ≠ 1 → Chain env u x)

theorem computeGop_chain {env : AuthEnv} {T : List Bytes} (he : Algs env T 32) {s : Legacy} (ha : Alg T 32 false s.v) (hc : Clear s.list)
    {x : Nat × LItem} {t : Legacy} (h : s.computeGop env x = .ok t ()) :
    t.v = s.v ∧ t.brk = s.brk ∧ queue t.list = queue s.list ∧ (∀ a, cnt t.list a = cnt s.list a) ∧
    ∀ g, Chain env { t with v := { t.v with sigHash := ovl (buf 32 t.hashes) g } } x := by
  unfold computeGop at h
  dsimp only at h
  rw [resetGopHash_ok ha.size] at h
  have hl : 32 ≤ (ovl (env.H s.v.typ [1]) s.hashes).length := by
    unfold ovl
    rw [List.length_append, he.len _ ha.typ]; omega
  have ht : (ovl (env.H s.v.typ [1]) s.hashes).take 32 = env.H s.v.typ [1] := by
    unfold ovl
    rw [List.take_left' (he.len _ ha.typ _)]
  generalize ovl (env.H s.v.typ [1]) s.hashes = b at h hl ht
  cases hg : gopLoop env s.v x.1 s.list none b with
  | ub u => simp only [bind, Out.bind, hg] at h; cases h
  | err e => simp only [bind, Out.bind, hg] at h; cases h
  | ok p =>
    obtain ⟨h1, h2, h3, hashed, h4, h5, h6, h7⟩ := gopLoop_hashed he ha hl hg
    obtain ⟨b', g1, g2, g3⟩ := gopStep_ok he ha (b := p.2) (h := x.2.hash) h3
    simp only [bind, Out.bind, hg, g1] at h
    cases h
    have hk : ∀ y, keyOf (if y.1 = x.1 then (y.1, { y.2 with used := true }) else y) = keyOf y := by
      intro y; split <;> rfl
    refine ⟨rfl, rfl, ?_, fun a => by dsimp only; rw [cnt_set, h2], fun g => ?_⟩
    · dsimp only
      rw [← h1]
      unfold queue LList.set
      rw [List.filterMap_map]
      congr 1
      funext y
      exact hk y
    · refine ⟨hashed.map fun y => if y.1 = x.1 then (y.1, { y.2 with used := true }) else y, ?_, ?_, ?_, ?_⟩
      · exact h4.map _
      · intro y hy
        obtain ⟨z, hz, rfl⟩ := List.mem_map.1 hy
        have := (h5 z hz)
        dsimp only
        split
        · exact ⟨this.1, this.2.2⟩
        · exact ⟨this.1, this.2.2⟩
      · intro y hy hu
        obtain ⟨z, hz, rfl⟩ := List.mem_map.1 hy
        dsimp only at hu ⊢
        by_cases e : z.1 = x.1
        · rw [if_pos e]; exact .inl e
        · rw [if_neg e] at hu ⊢
          rcases h6 z hz hu with g | g
          · exact .inr (List.mem_map.2 ⟨z, g, by rw [if_neg e]⟩)
          · rw [hc z g] at hu; cases hu
      · dsimp only
        rw [buf_ovl _ _ (buf_length _ _), buf_take g2, g3, h7, ht]
        unfold gopHashOf
        rw [List.foldl_append, List.foldl_cons, List.foldl_nil, List.map_map]
        have hm : hashed.map (taken ∘ fun y => if y.1 = x.1 then (y.1, { y.2 with used := true }) else y) = hashed.map taken := by
          apply List.map_congr_left
          intro y _
          show taken (if y.1 = x.1 then (y.1, { y.2 with used := true }) else y) = _
          split <;> rfl
        rw [hm]

theorem computeGop_err {env : AuthEnv} {T : List Bytes} (he : Algs env T 32) {s : Legacy} (ha : Alg T 32 false s.v)
    {x : Nat × LItem} {t : Legacy} {e : Rc} (h : s.computeGop env x = .err t e) : False := by
  unfold computeGop at h
  dsimp only at h
  rw [resetGopHash_ok ha.size] at h
  have hl : 32 ≤ (ovl (env.H s.v.typ [1]) s.hashes).length := by
    unfold ovl
    rw [List.length_append, he.len _ ha.typ]; omega
  generalize ovl (env.H s.v.typ [1]) s.hashes = b at h hl
  cases hg : gopLoop env s.v x.1 s.list none b with
  | ub u => simp only [bind, Out.bind, hg] at h; cases h
  | err e' =>
    -- the loop does not fail
    have : ∀ {l : LList} {prev : Option Nat} {b : Bytes}, 32 ≤ b.length → gopLoop env s.v x.1 l prev b ≠ .err e' := by
      intro l
      induction l with
      | nil => intro prev b _ h; cases h
      | cons y r ih =>
        intro prev b hb h
        unfold gopLoop at h
        split at h
        · cases hr : gopLoop env s.v x.1 r (some y.1) b with
          | ub u => simp only [bind, Out.bind, hr] at h; cases h
          | ok q => simp only [bind, Out.bind, hr] at h; cases h
          | err e2 => simp only [bind, Out.bind, hr] at h; cases h; exact ih hb hr
        · split at h
          · cases h
          · dsimp only at h
            split at h
            · split at h
              · cases h
              · cases hr : gopLoop env s.v x.1 r (some y.1) b with
                | ub u => simp only [bind, Out.bind, hr] at h; cases h
                | ok q => simp only [bind, Out.bind, hr] at h; cases h
                | err e2 => simp only [bind, Out.bind, hr] at h; cases h; exact ih hb hr
            · split at h
              · cases h
              · rename_i g _
                obtain ⟨b'', g1, g2, g3⟩ := gopStep_ok he ha (h := g) hb
                simp only [bind, Out.bind, g1] at h
                split at h
                · cases h
                · cases hr : gopLoop env s.v x.1 r (some y.1) b'' with
                  | ub u => rw [hr] at h; cases h
                  | ok q => rw [hr] at h; cases h
                  | err e2 => rw [hr] at h; cases h; exact ih g2 hr
    exact this hl hg
  | ok p =>
    obtain ⟨h1, h2, h3, -⟩ := gopLoop_hashed he ha hl hg
    obtain ⟨b', g1, -, -⟩ := gopStep_ok he ha (b := p.2) (h := x.2.hash) h3
    simp only [bind, Out.bind, hg, g1] at h
    cases h

end Legacy
end SV
