import Verif.Props.LegacyCovered
/-! C69: the hashes behind a mark in a session for the older format are those of the NAL units as they were received. -/
namespace SV
open Legacy Validator Spec

/-- Decoding a SEI gives a hash type, a hash list and a signature. -/
def Says (env : AuthEnv) (n : Nalu) (type : UInt8) (list sig : Bytes) : Prop :=
  ∃ mem w w', mem.take n.tlvSize = n.tlvMem.take n.tlvSize ∧ Legacy.tlvDecode env w mem n.tlvSize = .ok w' () ∧
    w'.d.hashType = type ∧ w'.d.hashList = list ∧ w'.d.signature = sig

/-- Among the NAL units received, each with an address, there is a SEI with a signature of the key `key` that speaks for the one
at the address `a`. The signature is one of the hash of the SEI, and a hash of the NAL unit is in the hash list of the SEI; or it
is one of the GOP hash of hashes of different NAL units, of which this is one, and of the hash of the SEI. The SEI speaks for
itself. -/
def Speaks (env : AuthEnv) (T : List Bytes) (c : Codec) (received : Log) (key : Bytes) (a : Nat) : Prop :=
  ∃ at' sei n type list sig t, t ∈ T ∧ received.lookup at' = some sei ∧ parseNalu sei c true true = .ok n ∧ n.gopSei = true ∧
    Says env n type list sig ∧
    if type = 1 then
      env.verify key sig (env.H t (hashedBytes c sei)) = 1 ∧
        (at' = a ∨ ∃ data h, received.lookup a = some data ∧ HashOf env T c received data h ∧ h ∈ chunk 32 list)
    else
      ∃ t' ∈ T, ∃ units : List (Nat × Bytes × Bytes), (units.map fun q => q.1).Nodup ∧
        (∀ q ∈ units, received.lookup q.1 = some q.2.1 ∧ HashOf env T c received q.2.1 q.2.2) ∧
        env.verify key sig (gopHashOf (env.H t') ((units.map fun q => q.2.2) ++ [env.H t (hashedBytes c sei)])) = 1 ∧
        (at' = a ∨ ∃ q ∈ units, q.1 = a)

namespace Legacy

variable {env : AuthEnv} {T : List Bytes} {c : Codec} {L : Log}

theorem HashOf.buf (he : Algs env T 32) {data h : Bytes} (hh : HashOf env T c L data h) : SV.buf 32 h = h := by
  have := HashOf.length he hh
  unfold SV.buf
  rw [List.take_append_of_le_length (by omega), List.take_of_length_le (by omega)]

/-- The hash that is taken of an item is one of the NAL unit that it stands for. -/
theorem Held.taken (he : Algs env T 32) {x : Nat × LItem} (h : Held env T c L x) (hf : Feeds x.2) :
    ∃ data, L.lookup x.1 = some data ∧ HashOf env T c L data (taken x) := by
  rcases h with hb | ⟨data, n, h1, h2, h3⟩
  · exact absurd hf.1 hb.2.2.2
  · refine ⟨data, h1, ?_⟩
    have hh : ∀ h, (if x.2.need then x.2.second else some x.2.hash) = some h → HashOf env T c L data h := by
      intro h e
      split at e
      · exact h3.second h e
      · cases e
        exact h3.hash.resolve_left (h3.full hf.1)
    unfold Legacy.taken
    cases e : (if x.2.need then x.2.second else some x.2.hash) with
    | none => exact absurd e hf.2
    | some h =>
      have := hh h e
      show HashOf env T c L data (SV.buf 32 h)
      rw [HashOf.buf he this]
      exact this

/-- The SEI that is verified was received, with its hash and with what is decoded. -/
theorem Held.sei (he : Algs env T 32) {x : Nat × LItem} {k : Key} (h : Held env T c L x) (hk : keyOf x = some k) :
    ∃ sei n t, t ∈ T ∧ L.lookup x.1 = some sei ∧ parseNalu sei c true true = .ok n ∧ n.gopSei = true ∧
      k.size = n.tlvSize ∧ k.tlv = n.tlvMem.take n.tlvSize ∧ SV.buf 32 x.2.hash = env.H t (hashedBytes c sei) := by
  obtain ⟨m, hm, hg, hp, rfl⟩ := keyOf_some hk
  rcases h with hb | ⟨data, n, h1, h2, h3⟩
  · exact absurd hp hb.2.2.2
  · have hf := h3.nalu m hm
    unfold face at hf
    obtain ⟨f1, f2⟩ := Prod.mk.inj hf
    obtain ⟨f2, f3⟩ := Prod.mk.inj f2
    rw [hg] at f1
    obtain ⟨t, ht, e⟩ := (h3.sei f1.symm).resolve_left (h3.full hp)
    refine ⟨data, n, t, ht, h1, h2, f1.symm, f2, f3, ?_⟩
    rw [e]
    have := he.len t ht (hashedBytes c data)
    unfold SV.buf
    rw [List.take_append_of_le_length (by omega), List.take_of_length_le (by omega)]

theorem nodup_of_wfl {l l' : LList} {b : Nat} (w : WFL l b) (h : l'.Sublist l) : (l'.map fun x => x.1).Nodup := by
  rw [List.nodup_iff_count]
  intro a
  have h1 : (l'.map fun x => x.1).count a ≤ (l.map fun x => x.1).count a := (h.map _).count_le a
  have h2 : (l.map fun x => x.1).count a = cnt l a := rfl
  have h3 := w a
  split at h3 <;> omega

/-- What is marked is vouched for. -/
theorem Covered.vouched (he : Algs env T 32) {u : Legacy} {a : Nat} (h : Covered env T u a) (hl : ∀ x ∈ u.list, Held env T c L x) :
    ∃ key, u.v.key = some key ∧ Speaks env T c L key a := by
  obtain ⟨⟨⟨x, hx, e, hv⟩, key, hk, hsig⟩, ⟨sei, k, h1, h2, ⟨⟨mem, w, w', m1, m2, m3, m4, m5⟩, h3⟩, h4⟩, hb⟩ := h
  have h5 := hb.alg.size
  rw [h5] at hsig
  have hsei : sei ∈ u.list := List.mem_of_find?_eq_some h1
  obtain ⟨data, n, t, ht, g1, g2, g3, g4, g5, g6⟩ := (hl sei hsei).sei he h2
  refine ⟨key, hk, sei.1, data, n, u.v.d.hashType, u.v.d.hashList, u.v.d.signature, t, ht, g1, g2, g3,
    ⟨mem, w, w', by rw [← g5, ← g4]; exact m1, by rw [← g4]; exact m2, m3.symm, m4.symm, m5.symm⟩, ?_⟩
  have how := hv.how
  split at how
  · rename_i ty
    rw [if_pos ty]
    have hs : buf 32 u.v.sigHash = env.H t (hashedBytes c data) := by
      rw [h3 ty, ← g6]
      obtain ⟨m, -, -, -, rfl⟩ := keyOf_some h2
      rfl
    rw [hs] at hsig
    refine ⟨hsig, ?_⟩
    rcases how with ⟨s2, q1, q2⟩ | ⟨q1, -, g, q2, q3⟩
    · rw [h1] at q1; cases q1
      exact .inl (q2.trans e)
    · obtain ⟨d, r1, r2⟩ := (hl x hx).taken he ⟨q1, by rw [q2]; exact nofun⟩
      refine .inr ⟨d, _, e ▸ r1, r2, ?_⟩
      unfold Legacy.taken
      rw [q2]
      rw [h5] at q3
      exact q3
  · rename_i ty
    rw [if_neg ty]
    obtain ⟨hashed, k1, k2, k3, k4⟩ := h4 ty
    rw [k4, g6] at hsig
    have hu : ∀ y ∈ hashed, ∃ d, L.lookup y.1 = some d ∧ HashOf env T c L d (Legacy.taken y) := fun y hy =>
      (hl y (k1.subset hy)).taken he (k2 y hy).2
    refine ⟨u.v.typ, hb.alg.typ, hashed.map fun y => (y.1, (L.lookup y.1).getD [], Legacy.taken y), ?_, ?_, ?_, ?_⟩
    · rw [List.map_map]
      exact nodup_of_wfl hb.wf k1
    · intro q hq
      obtain ⟨y, hy, rfl⟩ := List.mem_map.1 hq
      obtain ⟨d, r1, r2⟩ := hu y hy
      dsimp only
      rw [r1]
      exact ⟨rfl, r2⟩
    · rw [List.map_map]
      exact hsig
    · rcases k3 x hx how.1 with g | g
      · exact .inl (g.symm.trans e)
      · exact .inr ⟨_, List.mem_map.2 ⟨x, g, rfl⟩, e⟩

end Legacy

/-- **C69.** If the library knows hashes of 32 bytes only, the verification of a signature always gives a result, and no call so
far has returned "not supported" or "invalid parameter", then for each NAL unit that a report of a session for the older format
shows with '.' there is a call since the last reset, this one included, and a state of the validation in it, so that among the
NAL units that were received up to then a SEI with an accepted signature of the key in use speaks for this NAL unit: all hashes
that count are hashes of what was received. -/
theorem C69_received {env : AuthEnv} {T : List Bytes} {codec : Codec} {calls : List AuthCall} {s s' : Session} {os : List AObs} {data : Bytes}
    {r : Report} (hverify : ∀ k sig h, env.verify k sig h = 0 ∨ env.verify k sig h = 1) (he : Algs env T 32)
    (hist : Session.run env (newSession env codec) calls = .ok (s, os))
    (hrc : ∀ o ∈ os, o.rc ≠ some .notSupported ∧ o.rc ≠ some .invalidParameter)
    (h : s.add env data = .ok s' (some r)) (hold : s'.leg ≠ none) :
    ∃ l past, Since env l past ∧ ∃ items : LList,
      r.latest.validationStr = some (items.map fun (x : Nat × LItem) => x.2.status.char) ∧
      ∀ y ∈ items, y.2.status.char = '.' → ∃ q ∈ (l, data) :: past, ∃ received key v u, Passed env q.1 received ∧
        (∀ p ∈ (q.1.brk, q.2) :: received, AuthCall.nalu p.2 ∈ calls ∨ p.2 = data) ∧
        q.1.atLoop env q.2 = some v ∧ Visits env v u ∧ u.v.key = some key ∧
        Speaks env T codec ((q.1.brk, q.2) :: received) key y.1 := by
  have h0 : (newSession env codec).Tame env T codec (fun d => AuthCall.nalu d ∈ calls ∨ d = data) :=
    ⟨⟨[], good_new env codec, content_new he rfl codec⟩, fun p hp => absurd hp List.not_mem_nil, fun l e => by cases e⟩
  have hr := run_tame hverify he h0 (fun d hd => .inl hd) hist hrc
  obtain ⟨l, past, h1, L, g1, g2⟩ := (add_tame hverify he hr (data := data) (.inr rfl)).2 s' r h hold
  refine ⟨l, past, h1, L, g1, fun y hy hc => ?_⟩
  have hs : y.2.status = .ok := by
    generalize y.2.status = st at hc
    cases st <;> first | rfl | (simp [Status.char] at hc)
  obtain ⟨q, hm, R, v, u, k1, k2, k3, k4, k5, k6⟩ := g2 y hy hs
  obtain ⟨key, k7, k8⟩ := k5.vouched he k6
  exact ⟨q, hm, R, key, v, u, k1, k2, k3, k4, k7, k8⟩

/-- The hypotheses are met, with a GOP hash and with a hash list, and four NAL units are found authentic. -/
example (b : Bool) : ∃ l past data, Since polyStrict l past ∧ ∃ items : LList,
    items.map (fun (x : Nat × LItem) => x.2.status.char) = "....P".toList ∧
    ∀ y ∈ items, y.2.status.char = '.' → ∃ q ∈ (l, data) :: past, ∃ received key, Passed polyStrict q.1 received ∧
      Speaks polyStrict [[0x60, 0x86]] .h264 ((q.1.brk, q.2) :: received) key y.1 := by
  obtain ⟨he, hv, h⟩ := poly_fine
  obtain ⟨s, os, h1, h2, s', r, h3, h4, h5⟩ := h b
  obtain ⟨l, past, g1, items, g2, g3⟩ := C69_received hv he h1 h2 h3 h4
  rw [h5] at g2
  refine ⟨l, past, (legSigned b "IPPIPPI").getD 9 [], g1, items, (Option.some.inj g2).symm, fun y hy hs => ?_⟩
  obtain ⟨q, hq, R, key, v, u, k1, -, -, -, -, k2⟩ := g3 y hy hs
  exact ⟨q, hq, R, key, k1, k2⟩

end SV
