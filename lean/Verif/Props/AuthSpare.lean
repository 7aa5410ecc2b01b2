import Verif.Props.AuthFlow
/-! Unprotected NAL units in an untouched stream: C51. -/
namespace SV
open Spec
open Validator

namespace Spec

/-- The stream without what is not protected. -/
def protectedPart (codec : Codec) (st : List StreamItem) : List StreamItem :=
  st.filter fun x => (x.piece codec).isSome || x.sei?.isSome

/-- What a report says about the protected NAL units: the verdict on the last GOP and on all so far, whether the key is another one,
and how many NAL units were sent, received and are pending. -/
def Said (r : Report) : Auth × Auth × Bool × Int × Int × Int :=
  (r.latest.auth, r.acc.auth, r.latest.keyChanged, r.latest.expected, r.latest.received, r.latest.pending)

/-- All that is said of a stream that is known to be signed. -/
def said (rs : List AObs) : List (Auth × Auth × Bool × Int × Int × Int) :=
  (rs.filterMap AObs.report).filter (fun r => decide (r.latest.auth ≠ .notSigned)) |>.map Said

end Spec

variable {codec : Codec} {gs : List (List Piece)}

/-- What is to be said of a stream that is confirmed. -/
def toSay (codec : Codec) (gs : List (List Piece)) : Nat → Nat → List StreamItem → List (Auth × Auth × Bool × Int × Int × Int)
  | _, _, [] => []
  | n, k, .nalu d ts :: st => toSay codec gs (n + ((StreamItem.nalu d ts).piece codec).toList.length) k st
  | n, k, .sei _ :: st =>
    (.ok, .ok, false, (((gs[k]?.getD []).length % 65536 : Nat) : Int), ((gs[k]?.getD []).length : Int), ((n - (gs.take (k + 1)).flatten.length : Nat) : Int)) ::
      toSay codec gs n (k + 1) st

theorem said_confirmed : ∀ (st : List StreamItem) (n k : Nat) (rs : List AObs), Confirmed codec gs n k st rs → said rs = toSay codec gs n k st := by
  intro st
  induction st with
  | nil =>
    intro n k rs h
    cases rs with
    | nil => rfl
    | cons o os => exact h.elim
  | cons x st ih =>
    intro n k rs h
    cases rs with
    | nil => cases x <;> exact h.elim
    | cons o os =>
    cases x with
    | nalu d ts =>
      obtain ⟨-, h2, h3⟩ := h
      rw [toSay, ← ih _ _ _ h3]
      unfold said
      cases ho : o.report with
      | none => rw [List.filterMap_cons_none ho]
      | some r => rw [List.filterMap_cons_some ho, List.filter_cons_of_neg (by rw [(h2 r ho).2.1]; simp)]
    | sei b =>
      obtain ⟨-, ⟨gop, r, g1, g2, g3⟩, h3⟩ := h
      rw [toSay, ← ih _ _ _ h3]
      unfold said
      rw [List.filterMap_cons_some g2, List.filter_cons_of_pos (by rw [g3.latest]; simp), List.map_cons, g1]
      congr 1
      unfold Said
      rw [g3.latest, g3.overall, g3.key, g3.expected, g3.received, g3.pending]
      rfl

theorem toSay_protected : ∀ (st : List StreamItem) (n k : Nat), toSay codec gs n k (protectedPart codec st) = toSay codec gs n k st := by
  intro st
  induction st with
  | nil => intro n k; rfl
  | cons x st ih =>
    intro n k
    unfold protectedPart
    cases x with
    | sei b =>
      rw [List.filter_cons_of_pos (by simp [StreamItem.sei?])]
      simp only [toSay]
      congr 1
      exact ih _ _
    | nalu d ts =>
      cases hp : (StreamItem.nalu d ts).piece codec with
      | none =>
        rw [List.filter_cons_of_neg (by rw [hp]; simp [StreamItem.sei?])]
        simp only [toSay, hp]
        exact ih _ _
      | some p =>
        rw [List.filter_cons_of_pos (by rw [hp]; simp)]
        simp only [toSay]
        exact ih _ _

theorem protected_seis (st : List StreamItem) : (protectedPart codec st).filterMap StreamItem.sei? = st.filterMap StreamItem.sei? := by
  unfold protectedPart
  rw [List.filterMap_filter]
  congr 1
  funext x
  cases h : x.sei? <;> simp [h]

theorem protected_pieces (st : List StreamItem) : (protectedPart codec st).filterMap (StreamItem.piece codec) = st.filterMap (StreamItem.piece codec) := by
  unfold protectedPart
  rw [List.filterMap_filter]
  congr 1
  funext x
  cases h : x.piece codec <;> simp [h]

variable {hs : Hashing} {oid : Bytes} {v : UInt8 × UInt8 × UInt8} {setup : List Setting} {cs : List SCall} {s : Signer} {os : List Obs}
  {env : AuthEnv} {key : Bytes}

/-- Whether a stream is transmitted depends on the protected part only. -/
theorem transmits_same {st st' : List StreamItem} (h : Transmits codec cs os st) (e : protectedPart codec st' = protectedPart codec st) : Transmits codec cs os st' := by
  refine ⟨?_, ?_, ?_⟩
  · rw [← protected_pieces, e, protected_pieces]; exact h.nalus
  · rw [← protected_seis (codec := codec), e, protected_seis]; exact h.seis
  · intro a b c hst
    have e1 : protectedPart codec st = protectedPart codec a ++ .sei b :: protectedPart codec c := by
      rw [← e, hst]
      unfold protectedPart
      rw [List.filter_append, List.filter_cons_of_pos (by simp [StreamItem.sei?])]
    unfold protectedPart at e1
    obtain ⟨a', r', q1, q2, q3⟩ := List.filter_eq_append_iff.1 e1
    obtain ⟨m, c', q4, q5, -, -⟩ := List.filter_eq_cons_iff.1 q3
    have q5' : ∀ x ∈ m, (x.piece codec).isSome = false ∧ x.sei?.isSome = false := by
      intro x hx
      have := q5 x hx
      simpa using this
    have ha := h.after (a' ++ m) b c' (by rw [q1, q4, List.append_assoc])
    have m1 : m.filterMap StreamItem.sei? = [] := by
      rw [List.filterMap_eq_nil_iff]; intro x hx; simpa using (q5' x hx).2
    have m2 : m.filterMap (StreamItem.piece codec) = [] := by
      rw [List.filterMap_eq_nil_iff]; intro x hx; simpa using (q5' x hx).1
    rw [List.filterMap_append, List.filterMap_append, m1, m2, List.append_nil, List.append_nil, ← protected_seis (codec := codec), ← protected_pieces] at ha
    unfold protectedPart at ha
    rw [q2] at ha
    have p1 := protected_seis (codec := codec) a
    have p2 := protected_pieces (codec := codec) a
    unfold protectedPart at p1 p2
    rw [p1, p2] at ha
    exact ha

/-- **C51**, for streams of which nothing protected is changed, as in C44: if two streams differ only in unprotected NAL units, then
the same is said about them, in each of the reports that are given from the first SEI on.

What is missing: streams that were tampered with. For them it is false, see `C51_delimiter_false`. -/
theorem C51_untouched_partial (hk : SendsKey setup cs) (h : Undisturbed hs codec oid v setup cs s os) (t : Trusting hs env key s os)
    (start : ∀ p l, pieces codec cs = p :: l → p.first = true) {st st' : List StreamItem} (ht : Transmits codec cs os st)
    (hsame : protectedPart codec st' = protectedPart codec st)
    (hord : ∀ d ts, StreamItem.nalu d ts ∈ st ++ st' → Ordinary codec d) :
    ∃ v1 rs v2 rs', authRun env (newValidator env codec) (st.map fun x => .nalu x.bytes) = .ok (v1, rs) ∧
      authRun env (newValidator env codec) (st'.map fun x => .nalu x.bytes) = .ok (v2, rs') ∧
      said rs' = said rs ∧ (said rs).length = (st.filterMap StreamItem.sei?).length := by
  obtain ⟨v1, rs, e1, c1⟩ := C44_confirmed_partial hk h t start ht fun d ts hd => hord d ts (List.mem_append_left _ hd)
  obtain ⟨v2, rs', e2, c2⟩ := C44_confirmed_partial hk h t start (transmits_same ht hsame) fun d ts hd => hord d ts (List.mem_append_right _ hd)
  refine ⟨v1, rs, v2, rs', e1, e2, ?_, ?_⟩
  · rw [said_confirmed _ _ _ _ c1, said_confirmed _ _ _ _ c2, ← toSay_protected st', hsame, toSay_protected]
  · rw [said_confirmed _ _ _ _ c1]
    have : ∀ (gs : List (List Piece)) (st : List StreamItem) (n k : Nat), (toSay codec gs n k st).length = (st.filterMap StreamItem.sei?).length := by
      intro gs st
      induction st with
      | nil => intro n k; rfl
      | cons x st ih =>
        intro n k
        cases x with
        | nalu d ts => simp only [toSay, List.filterMap_cons, StreamItem.sei?]; exact ih _ _
        | sei b => simp only [toSay, List.filterMap_cons, StreamItem.sei?, List.length_cons]; rw [ih]
    exact this _ _ _ _

/-- An access unit delimiter before each NAL unit. -/
def delimited (st : List StreamItem) : List StreamItem := st.flatMap fun x => [.nalu [0, 0, 0, 1, 0x09, 0xf0] none, x]

theorem delimited_protected (st : List StreamItem) : protectedPart .h264 (delimited st) = protectedPart .h264 st := by
  induction st with
  | nil => rfl
  | cons x st ih =>
    unfold delimited protectedPart at ih ⊢
    have : ((StreamItem.nalu [0, 0, 0, 1, 0x09, 0xf0] none).piece .h264).isSome = false := by decide
    rw [List.flatMap_cons, List.filter_append, List.filter_cons_of_neg (by rw [this]; simp [StreamItem.sei?]), ih, ← List.filter_append]
    rfl

/-- The stream of C44 with and without delimiters before all NAL units and SEIs: the same is said three times. -/
example : ∃ st v1 rs v2 rs', authRun toyEnv (newValidator toyEnv .h264) (st.map fun x : StreamItem => AuthCall.nalu x.bytes) = .ok (v1, rs) ∧
    authRun toyEnv (newValidator toyEnv .h264) ((delimited st).map fun x : StreamItem => AuthCall.nalu x.bytes) = .ok (v2, rs') ∧
    said rs' = said rs ∧ (said rs).length = 3 := by
  obtain ⟨s, os, h1, h2, hk, h3, -, h4⟩ := flowSession
  obtain ⟨v1, rs, v2, rs', g1, g2, g3, g4⟩ := C51_untouched_partial hk h1 h2 flow_start (transmits_inOrder h1).1 (delimited_protected _) (fun d ts hd => by
    have key : StreamItem.nalu d ts ∈ inOrder flowCalls (os.drop flowSetup.length) → Ordinary .h264 d := by
      intro hc
      obtain ⟨l, rc, hc⟩ := mem_inOrder h1 hc
      exact flow_calls hc
    rcases List.mem_append.1 hd with hd | hd
    · exact key hd
    · unfold delimited at hd
      obtain ⟨x, hx, hd⟩ := List.mem_flatMap.1 hd
      simp only [List.mem_cons, List.not_mem_nil, or_false] at hd
      rcases hd with hd | hd
      · cases hd
        exact flow_ordinary (by simp [flowScript])
      · exact key (hd ▸ hx))
  refine ⟨_, v1, rs, v2, rs', g1, g2, g3, ?_⟩
  rw [g4, (transmits_inOrder h1).2]; exact h3

end SV
