import Verif.Props.AuthFlow
import Verif.Proofs.AuthSized
import Verif.Proofs.AuthRep
/-! What a reset leaves behind: C50. -/
namespace SV
open Spec
open Validator

namespace Spec

/-- What may be left of earlier streams in a session, if it is to validate a stream of a session for signing that ended in `s`,
with the public key `key`: the session did not meet the old format, the last counter is not the largest number there is, the size of
signatures and the hash algorithm of the context are unknown or those of the stream, and the public key is either unknown, with the
algorithm that sessions start with or that of the stream, or it is known together with the algorithm of the stream. In the
first case the key has to be in the SEIs (`told`). -/
structure LeftOver (env : AuthEnv) (s : Signer) (key : Bytes) (told : Prop) (v : Validator) : Prop where
  legacy : v.legacy = false
  turn : v.latestGop ≠ 0xFFFFFFFF
  max : v.d.maxSignature = none ∨ v.d.maxSignature = some s.e.maxSignature
  context : v.primary = none ∨ v.primary = some s.e.oid
  known : (told ∧ v.d.hasPublicKey = false) ∧
      (v.d.oid = env.oid ∧ v.typ = env.oid ∧ v.d.hashSize = 32 ∨ v.d.oid = s.e.oid ∧ v.typ = s.e.oid ∧ v.d.hashSize = s.e.hashSize) ∨
    (v.d.hasPublicKey = true ∧ v.d.publicKey = key ∧ v.key = some key) ∧ v.d.oid = s.e.oid ∧ v.typ = s.e.oid ∧ v.d.hashSize = s.e.hashSize

/-- A stream: how it was signed and what was transmitted of it. -/
structure Stream where
  setup : List Setting
  cs : List SCall
  s : Signer
  os : List Obs
  st : List StreamItem

/-- The calls that validate streams one after the other, with a reset before each of them. -/
def inTurn (xs : List Stream) : List AuthCall := xs.flatMap fun x => .reset :: x.st.map fun i => .nalu i.bytes

end Spec

variable {hs : Hashing} {codec : Codec} {oid : Bytes} {v : UInt8 × UInt8 × UInt8} {setup : List Setting} {cs : List SCall} {s : Signer} {os : List Obs}
  {env : AuthEnv} {key : Bytes}

theorem authRun_append {env : AuthEnv} {as bs : List AuthCall} : ∀ {u v w : Validator} {o1 o2 : List AObs}, authRun env u as = .ok (v, o1) →
    authRun env v bs = .ok (w, o2) → authRun env u (as ++ bs) = .ok (w, o1 ++ o2) := by
  induction as with
  | nil => intro u v w o1 o2 h1 h2; cases h1; exact h2
  | cons a as ih =>
    intro u v w o1 o2 h1 h2
    obtain ⟨⟨u', o⟩, h3, h4⟩ := Out.bind_eq_ok h1
    obtain ⟨⟨v', os⟩, h5, h6⟩ := Out.bind_eq_ok h4
    cases h6
    rw [List.cons_append]
    unfold authRun
    rw [h3]
    simp only [Out.bind_ok]
    rw [ih h5 h2]
    rfl

theorem authRun_reset {env : AuthEnv} {u w : Validator} {cs : List AuthCall} {os : List AObs} (h : authRun env u.reset cs = .ok (w, os)) :
    authRun env u (.reset :: cs) = .ok (w, ⟨none, none⟩ :: os) := by
  have e : authStep env u .reset = .ok (u.reset, ⟨none, none⟩) := rfl
  unfold authRun
  rw [e]
  simp only [Out.bind_ok]
  rw [h]
  rfl

/-- **C50**: whatever streams a session has validated and whatever calls were made, after a reset it validates an untouched
stream as a new session does (C44), if what is left over fits the stream. What is missing is what is not true: the public key
and the hash algorithm survive a reset (`C50_key_survives_false`), and so does the last counter. -/
theorem C50_after_partial {cs0 : List AuthCall} {u : Validator} {os0 : List AObs} (h0 : authRun env (newValidator env codec) cs0 = .ok (u, os0))
    (h : Undisturbed hs codec oid v setup cs s os) (t : Trusting hs env key s os) (hl : LeftOver env s key (SendsKey setup cs) u)
    (start : ∀ p l, pieces codec cs = p :: l → p.first = true) {st : List StreamItem} (ht : Transmits codec cs os st)
    (hord : ∀ d ts, StreamItem.nalu d ts ∈ st → Ordinary codec d) :
    ∃ v' rs, authRun env (newValidator env codec) (cs0 ++ .reset :: st.map fun x => .nalu x.bytes) = .ok (v', os0 ++ ⟨none, none⟩ :: rs) ∧
      Confirmed codec (gops (pieces codec cs)).1 0 0 st rs := by
  have hz := authRun_sized h0
  have hv := authRun_this rfl h0
  have early : ∀ sent : Bool, (sent = true ∨ u.d.hasPublicKey = true) → Early (sceneOf env codec s key sent) [] u.reset := by
    intro sent hs
    refine ⟨hz.codec, hl.legacy, rfl, rfl, ⟨rfl, rfl, hl.max, (fun hx => by cases hx), ?_⟩, ⟨List.nodup_nil, fun x hx => by cases hx⟩, trivial, (by intro x hx; cases hx),
      (by intro x hx; cases hx), ?_, rfl, hl.turn, rfl, hl.context, hv, rfl⟩
    · rcases hl.known with ⟨⟨-, h1⟩, h2⟩ | h2
      · refine .inl ⟨⟨?_, h1⟩, h2⟩
        rcases hs with hs | hs
        · exact hs
        · rw [h1] at hs; cases hs
      · exact .inr h2
    · have := (scene_ok (sent := sent) (lists := true) (full := none) h t (.inl rfl)).1.le
      have := hz.room
      show 2 * (sceneOf env codec s key sent).size ≤ u.buddies.length
      omega
  have key : ∃ v' rs, authRun env u.reset (st.map fun x => .nalu x.bytes) = .ok (v', rs) ∧ Confirmed codec (gops (pieces codec cs)).1 0 0 st rs := by
    cases hp : u.d.hasPublicKey with
    | false =>
      have hk : SendsKey setup cs := by
        rcases hl.known with ⟨⟨h1, -⟩, -⟩ | ⟨⟨h1, -⟩, -⟩
        · exact h1
        · rw [hp] at h1; cases h1
      obtain ⟨v', rs, h1, -, h2⟩ := confirmed_from (sent := true) h t (fun _ => hk) (early true (.inl rfl)) start ht hord
      exact ⟨v', rs, h1, h2⟩
    | true =>
      obtain ⟨v', rs, h1, -, h2⟩ := confirmed_from (sent := false) h t (fun hc => nomatch hc) (early false (.inr hp)) start ht hord
      exact ⟨v', rs, h1, h2⟩
  obtain ⟨v', rs, h1, h2⟩ := key
  exact ⟨v', rs, authRun_append h0 (authRun_reset h1), h2⟩

theorem At.reset {Γ : Scene} {ok : Bool} {gs : List (List Piece)} {n : List Piece} {k : Nat} {u : Validator} (h : At Γ ok gs n k u)
    (hk : UInt32.ofNat (Γ.base + k) ≠ 0xFFFFFFFF) : Early Γ [] u.reset := by
  by_cases h0 : k = 0
  · have e := h.early h0
    exact ⟨e.codec, e.legacy, rfl, rfl, ⟨rfl, rfl, e.blank.max, fun _ => rfl, e.blank.left⟩, ⟨List.nodup_nil, fun x hx => by cases hx⟩, trivial, (by intro x hx; cases hx),
      (by intro x hx; cases hx), e.bud, rfl, e.count, rfl, e.primary, e.version, rfl⟩
  · have e := h.sync h0
    exact ⟨e.codec, e.legacy, rfl, rfl, ⟨rfl, rfl, e.knows.max, fun _ => rfl, .inr ⟨⟨e.knows.has, e.knows.pub, e.knows.key⟩, e.knows.oid, e.knows.typ, e.knows.size⟩⟩,
      ⟨List.nodup_nil, fun x hx => by cases hx⟩, trivial, (by intro x hx; cases hx),
      (by intro x hx; cases hx), e.budLen, rfl, (by show u.latestGop ≠ _; rw [e.count]; exact hk), rfl, e.primary, e.version, rfl⟩

/-- **C50**: streams signed by any number of sessions with the same key and algorithm, validated one after the other by the same
session with a reset before each, are found good as if each of them had a new session (C44): what came before has no
influence. What is missing: streams with another key or algorithm, and a stream after one in which the last counter seen is
2^32 − 1, whose successor overflows. -/
theorem C50_streams_partial (alg : Bytes) (size maxSig : Nat) {xs : List Stream}
    (h : ∀ x ∈ xs, Undisturbed hs codec oid v x.setup x.cs x.s x.os ∧ Trusting hs env key x.s x.os ∧ SendsKey x.setup x.cs ∧
      (∀ p l, pieces codec x.cs = p :: l → p.first = true) ∧ Transmits codec x.cs x.os x.st ∧ (∀ d ts, StreamItem.nalu d ts ∈ x.st → Ordinary codec d) ∧
      (x.s.e.oid = alg ∧ x.s.e.hashSize = size ∧ x.s.e.maxSignature = maxSig) ∧ (x.st.filterMap StreamItem.sei?).length % 4294967296 ≠ 4294967295) :
    ∃ (v' : Validator) (rss : List (List AObs)), authRun env (newValidator env codec) (inTurn xs) = .ok (v', rss.flatMap fun rs => ⟨none, none⟩ :: rs) ∧ rss.length = xs.length ∧
      ∀ (j : Nat) x rs, xs[j]? = some x → rss[j]? = some rs → Confirmed codec (gops (pieces codec x.cs)).1 0 0 x.st rs := by
  have key : ∀ (xs : List Stream), (∀ x ∈ xs, Undisturbed hs codec oid v x.setup x.cs x.s x.os ∧ Trusting hs env key x.s x.os ∧ SendsKey x.setup x.cs ∧
      (∀ p l, pieces codec x.cs = p :: l → p.first = true) ∧ Transmits codec x.cs x.os x.st ∧ (∀ d ts, StreamItem.nalu d ts ∈ x.st → Ordinary codec d) ∧
      (x.s.e.oid = alg ∧ x.s.e.hashSize = size ∧ x.s.e.maxSignature = maxSig) ∧ (x.st.filterMap StreamItem.sei?).length % 4294967296 ≠ 4294967295) →
      ∀ u : Validator, Early ⟨env, codec, alg, size, key, maxSig, true, 0, true, none⟩ [] u.reset →
      ∃ (v' : Validator) (rss : List (List AObs)), authRun env u (inTurn xs) = .ok (v', rss.flatMap fun rs => ⟨none, none⟩ :: rs) ∧ rss.length = xs.length ∧
        ∀ (j : Nat) x rs, xs[j]? = some x → rss[j]? = some rs → Confirmed codec (gops (pieces codec x.cs)).1 0 0 x.st rs := by
    intro xs
    induction xs with
    | nil => intro _ u _; exact ⟨u, [], rfl, rfl, fun j x rs h => by simp at h⟩
    | cons x xs ih =>
      intro h u hu
      obtain ⟨h1, h2, h3, h4, h5, h6, ⟨rfl, rfl, rfl⟩, h8⟩ := h x List.mem_cons_self
      obtain ⟨w, rs, g1, g2, g3⟩ := confirmed_from (sent := true) h1 h2 (fun _ => h3) hu h4 h5 h6
      have hc : UInt32.ofNat (x.st.filterMap StreamItem.sei?).length ≠ 0xFFFFFFFF := by
        intro hc
        have := congrArg UInt32.toNat hc
        exact h8 (by simpa using this)
      obtain ⟨v', rss, k1, k2, k3⟩ := ih (fun y hy => h y (List.mem_cons_of_mem _ hy)) w (At.reset g2 (by show UInt32.ofNat (0 + _) ≠ _; rw [Nat.zero_add]; exact hc))
      refine ⟨v', rs :: rss, ?_, by simp [k2], ?_⟩
      · have := authRun_append (authRun_reset g1) k1
        simpa [inTurn, List.flatMap_cons] using this
      · intro j y r hy hr
        cases j with
        | zero => cases hy; cases hr; exact g3
        | succ j => exact k3 j y r hy hr
  cases xs with
  | nil => exact ⟨_, [], rfl, rfl, fun j x rs h => by simp at h⟩
  | cons x xs =>
    refine key _ h _ ?_
    obtain ⟨h1, h2, -, -, -, -, ⟨rfl, rfl, rfl⟩, -⟩ := h x List.mem_cons_self
    exact At.reset (.of_early (early_new (scene_ok (sent := true) (lists := true) (full := none) h1 h2 (.inl rfl)).1 rfl) true []) (by show UInt32.ofNat (0 + 0) ≠ _; decide)

/-! ### Sessions that meet the hypotheses -/

/-- A session has lost a frame of a stream, which was reported. After a reset it finds another stream good. -/
example : ∃ st v' os0 rs, authRun toyEnv (newValidator toyEnv .h264) (((toySigned [] "IPPIPPIPPI").eraseIdx 5).map .nalu ++ .reset :: st.map fun x : StreamItem => AuthCall.nalu x.bytes) =
      .ok (v', os0 ++ ⟨none, none⟩ :: rs) ∧ toyReports os0 =
       [("IPPI", "PPPP", .notSigned), ("IPPIS", "...P.", .ok), ("IS PIS", "..M.P.", .okWithMissing), ("ISPPIS", "....P.", .ok)] ∧
    (st.filterMap StreamItem.sei?).length = 3 ∧ Confirmed .h264 (gops (pieces .h264 flowCalls)).1 0 0 st rs := by
  obtain ⟨u, os0, h0, hp⟩ := authCheck toyEnv (newValidator toyEnv .h264) (((toySigned [] "IPPIPPIPPI").eraseIdx 5).map .nalu)
    (fun u os => decide (u.legacy = false) && decide (u.latestGop ≠ 4294967295) && decide (u.d.maxSignature = some 40) && decide (u.primary = some [0x60, 0x86]) &&
      decide (u.d.hasPublicKey = true) && decide (u.d.publicKey = [9, 9, 9]) && decide (u.key = some [9, 9, 9]) && decide (u.d.oid = [0x60, 0x86]) &&
      decide (u.typ = [0x60, 0x86]) && decide (u.d.hashSize = 32) && 
      toyReports os == [("IPPI", "PPPP", .notSigned), ("IPPIS", "...P.", .ok), ("IS PIS", "..M.P.", .okWithMissing), ("ISPPIS", "....P.", .ok)]) (by decide +kernel)
  simp only [Bool.and_eq_true, beq_iff_eq, decide_eq_true_eq] at hp
  obtain ⟨⟨⟨⟨⟨⟨⟨⟨⟨⟨c1, c2⟩, c3⟩, c4⟩, c5⟩, c6⟩, c7⟩, c8⟩, c9⟩, c10⟩, c11⟩ := hp
  obtain ⟨s, os, h1, h2, hk, h3, ⟨e1, e2, e3⟩, h4⟩ := flowSession
  obtain ⟨v', rs, g1, g2⟩ := C50_after_partial h0 h1 h2
    ⟨c1, c2, .inr (e3 ▸ c3), .inr (e1 ▸ c4), .inr ⟨⟨c5, c6, c7⟩, e1 ▸ c8, e1 ▸ c9, e2 ▸ c10⟩⟩ flow_start (transmits_inOrder h1).1 (fun d ts hd => by
      obtain ⟨l, rc, hc⟩ := mem_inOrder h1 hd
      exact flow_calls hc)
  exact ⟨_, v', os0, rs, g1, c11, by rw [(transmits_inOrder h1).2]; exact h3, g2⟩

/-- A stream twice. -/
example : ∃ st v' rs rs', authRun toyEnv (newValidator toyEnv .h264)
      (.reset :: st.map (fun x : StreamItem => AuthCall.nalu x.bytes) ++ .reset :: st.map fun x : StreamItem => AuthCall.nalu x.bytes) =
      .ok (v', ⟨none, none⟩ :: rs ++ ⟨none, none⟩ :: rs') ∧
    (st.filterMap StreamItem.sei?).length = 3 ∧ Confirmed .h264 (gops (pieces .h264 flowCalls)).1 0 0 st rs ∧
    Confirmed .h264 (gops (pieces .h264 flowCalls)).1 0 0 st rs' := by
  obtain ⟨s, os, h1, h2, hk, h3, h5, h4⟩ := flowSession
  have hl : ((inOrder flowCalls (os.drop flowSetup.length)).filterMap StreamItem.sei?).length = 3 := by rw [(transmits_inOrder h1).2]; exact h3
  obtain ⟨x, hx⟩ : ∃ x : Stream, x = ⟨flowSetup, flowCalls, s, os, inOrder flowCalls (os.drop flowSetup.length)⟩ := ⟨_, rfl⟩
  obtain ⟨v', rss, g1, g2, g3⟩ := C50_streams_partial (hs := toyHashing) (codec := .h264) (env := toyEnv) (key := [9, 9, 9]) [0x60, 0x86] 32 40 (xs := [x, x]) (by
    intro y hy
    have : y = x := by simpa using hy
    rw [this, hx]
    exact ⟨h1, h2, hk, flow_start, (transmits_inOrder h1).1, (fun d ts hd => by
      obtain ⟨l, rc, hc⟩ := mem_inOrder h1 hd
      exact flow_calls hc), h5, by show _ % _ ≠ _; rw [hl]; decide⟩)
  match rss, g2 with
  | [rs, rs'], _ =>
    refine ⟨_, v', rs, rs', ?_, hl, ?_, ?_⟩
    · simpa [inTurn, hx] using g1
    · have := g3 0 x rs rfl rfl; rw [hx] at this; exact this
    · have := g3 1 x rs' rfl rfl; rw [hx] at this; exact this

end SV
