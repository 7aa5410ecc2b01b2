import Verif.Proofs.Unthreaded
/-!
C26: the unthreaded signing plugin is a bounded FIFO.
-/
namespace SV
open SV.Spec SV.Unthreaded

/-- Each signature delivered belongs to the next accepted hash: `ds` are signatures of a prefix of
`hs`, in order. -/
def SigsOfPrefix (sign : Nat → Bytes → Option Bytes) : List Bytes → List Bytes → Prop
  | _, [] => True
  | [], _ :: _ => False
  | h :: hs, d :: ds => IsSig sign h d ∧ SigsOfPrefix sign hs ds

/-- **C26.** Every sequence of submissions and fetches is a history of a queue of hashes with room
for 60: no undefined behaviour, accepted hashes are queued, refused ones change nothing and are
refused for a reason, and every fetch answers with a signature of the oldest hash. -/
theorem C26_fifo (sign : Nat → Bytes → Option Bytes) (maxSig : Nat) (cs : List Call) :
    ∃ s es q, run sign (init maxSig) cs = .ok (s, es) ∧ FifoRun sign maxSig [] cs es q ∧ q.length ≤ 60 := by
  obtain ⟨s, es, q, h1, h2, h3⟩ := run_fifo cs (inv_init sign maxSig)
  exact ⟨s, es, q, h1, h3, h2.len_le⟩

/-- Non-vacuity: two hashes in, one signature out, under a toy signature. -/
example : ∃ s, run (fun _ h => some (h ++ [9])) (init 8)
    [.submit (some [1]) 0 true, .submit (some [2]) 0 true, .fetch 8] = .ok (s,
      [.submit (some [1]) none, .submit (some [2]) none, .fetch 8 (some [1, 9])]) := ⟨_, rfl⟩

theorem fifo_order {sign : Nat → Bytes → Option Bytes} {maxSig : Nat} {q q' : List Bytes} {cs : List Call}
    {es : List Ev} (h : FifoRun sign maxSig q cs es q') :
    (∀ c ∈ cs, ∀ m, c = .fetch m → ∀ x s, IsSig sign x s → s.length ≤ m) →
    ∃ del, q ++ acceptedHashes es = del ++ q' ∧ del.length = (deliveredSigs es).length ∧
      SigsOfPrefix sign del (deliveredSigs es) := by
  induction h with
  | nil => intro _; exact ⟨[], by simp [acceptedHashes], rfl, trivial⟩
  | @cons q q1 q2 c cs e es hs _ ih =>
    intro hroom
    obtain ⟨del, h1, h2, h3⟩ := ih (fun c hc => hroom c (List.mem_cons_of_mem _ hc))
    cases hs with
    | accepted hlt =>
      refine ⟨del, ?_, ?_, ?_⟩
      · simpa [acceptedHashes] using h1
      · simpa [deliveredSigs] using h2
      · simpa [deliveredSigs] using h3
    | @refused _ hh r al rc hwhy =>
      refine ⟨del, ?_, ?_, ?_⟩
      · cases hh <;> simpa [acceptedHashes] using h1
      · simpa [deliveredSigs] using h2
      · simpa [deliveredSigs] using h3
    | @delivered _ hh sg m hsg hm =>
      refine ⟨hh :: del, ?_, ?_, ?_⟩
      · simpa [acceptedHashes] using h1
      · simpa [deliveredSigs] using h2
      · exact ⟨hsg, h3⟩
    | @tooLarge _ _ _ m hsg hm =>
      exact absurd (hroom (.fetch m) (by simp) m rfl _ _ hsg) (by omega)
    | empty =>
      refine ⟨del, ?_, ?_, ?_⟩
      · simpa [acceptedHashes] using h1
      · simpa [deliveredSigs] using h2
      · simpa [deliveredSigs] using h3

/-- **C26, order.** When the caller always offers enough room, the signatures handed out are, one by
one, signatures of the accepted hashes, in the order of submission and without gaps. -/
theorem C26_order (sign : Nat → Bytes → Option Bytes) (maxSig : Nat) (cs : List Call)
    (hroom : ∀ c ∈ cs, ∀ m, c = .fetch m → ∀ x s, IsSig sign x s → s.length ≤ m) :
    ∃ s es, run sign (init maxSig) cs = .ok (s, es) ∧
      SigsOfPrefix sign (acceptedHashes es) (deliveredSigs es) := by
  obtain ⟨s, es, q, h1, h2, -⟩ := C26_fifo sign maxSig cs
  obtain ⟨del, h3, -, h4⟩ := fifo_order h2 hroom
  refine ⟨s, es, h1, ?_⟩
  simp only [List.nil_append] at h3
  rw [h3]
  have : ∀ (a b ds : List Bytes), SigsOfPrefix sign a ds → SigsOfPrefix sign (a ++ b) ds := by
    intro a
    induction a with
    | nil =>
      intro b ds h
      cases ds with
      | nil => cases b <;> trivial
      | cons d ds => exact absurd h (by simp [SigsOfPrefix])
    | cons x a ih =>
      intro b ds h
      cases ds with
      | nil => trivial
      | cons d ds => exact ⟨h.1, ih b ds h.2⟩
  exact this _ _ _ h4

/-- Non-vacuity of the room hypothesis. -/
example : ∀ c ∈ [Call.submit (some [1]) 0 true, .fetch 3], ∀ m, c = .fetch m →
    ∀ x s, IsSig (fun _ (_ : Bytes) => some [7, 8]) x s → s.length ≤ m := by
  intro c hc m hm x s hs
  subst hm
  simp at hc
  subst hc
  obtain ⟨_, h⟩ := hs
  simp at h
  subst h
  decide

end SV
