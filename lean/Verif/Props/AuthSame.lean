import Verif.Props.AuthBacked
import Verif.Proofs.AuthContent
import Verif.Proofs.SignHist
/-!
C42: a good verdict means that the NAL units are those that were signed, if no two of the hashed inputs collide.
-/
namespace SV
open Spec

namespace Spec

/-- What is told of a NAL unit: whether it is the first slice of an intra picture, and its bytes. -/
def Piece.content (p : Piece) : Bool × Bytes := (p.first, p.bytes)

/-- What is told of a received NAL unit, if it is protected. -/
def received (c : Codec) (data : Bytes) : Option (Bool × Bytes) :=
  if Protected c ((body data).getD 0 0) ((body data).getD 1 0) then
    some (decide (IntraType c ((body data).getD 0 0) ((body data).getD 1 0) ∧ 128 ≤ (sliceByte c data).toNat), trimZeros (body data))
  else none

/-- The NAL units of a GOP, each with the reference it is hashed with. -/
def withRef (H : Bytes → Bytes) (r : Bytes) : List Piece → List (Bytes × Piece)
  | [] => []
  | p :: ps => (r, p) :: withRef H (if p.first then H p.bytes else r) ps

/-- All that is hashed by the signer for a GOP: the NAL units, the hashes of NAL units together with the reference, and the hashes of
all NAL units. -/
def signerInputs (H : Bytes → Bytes) (r : Bytes) (gop : List Piece) : List Bytes :=
  ((withRef H r gop).flatMap fun q => q.2.bytes :: (if q.2.first then [] else [q.1 ++ H q.2.bytes])) ++ [(pieceHashes H r gop).flatten]

/-- What is hashed by the validator, as far as it matters: received NAL units, their hashes together with a reference, and the hashes
that are compared with a GOP hash. -/
inductive Met (env : AuthEnv) (T : List Bytes) (N : Nat) (c : Codec) (L : Log) (hashes : List Bytes) : Bytes → Prop
  | nalu {p : Nat × Bytes} (h : p ∈ L) : Met env T N c L hashes (hashedBytes c p.2)
  | pair {p : Nat × Bytes} {t r : Bytes} (h : p ∈ L) (ht : t ∈ T) (hr : RefHash env T N c L r) :
    Met env T N c L hashes (r ++ env.H t (hashedBytes c p.2))
  | gop : Met env T N c L hashes hashes.flatten

/-- No confusion by hashes. As nothing that is hashed says what it is, first slices as long as two hashes are ruled out. -/
structure NoCollision (env : AuthEnv) (T : List Bytes) (N : Nat) (c : Codec) (L : Log) (hashes : List Bytes) (t0 r0 : Bytes)
    (gop : List Piece) : Prop where
  inj : ∀ t ∈ T, ∀ x, Met env T N c L hashes x → ∀ y ∈ signerInputs (env.H t0) r0 gop, env.H t x = env.H t0 y → x = y
  zero : ∀ y ∈ signerInputs (env.H t0) r0 gop, env.H t0 y ≠ List.replicate N 0
  sent : ∀ p ∈ gop, p.first = true → p.bytes.length ≠ 2 * N
  got : ∀ p ∈ L, (received c p.2).any (·.1) = true → (hashedBytes c p.2).length ≠ 2 * N

/-- The decoded data is what the signer writes for a GOP. -/
structure Commits (env : AuthEnv) (N : Nat) (t0 r0 : Bytes) (gop : List Piece) (d : DecState) : Prop where
  gopHash : buf N d.gopHash = env.H t0 (pieceHashes (env.H t0) r0 gop).flatten
  hashList : d.hashList = [] ∨ d.hashList = (pieceHashes (env.H t0) r0 gop).flatten

end Spec

theorem pieceHashes_withRef (H : Bytes → Bytes) (r : Bytes) (ps : List Piece) :
    pieceHashes H r ps = (withRef H r ps).map fun q => if q.2.first then H q.2.bytes else H (q.1 ++ H q.2.bytes) := by
  induction ps generalizing r with
  | nil => rfl
  | cons p ps ih => rw [pieceHashes, ih]; rfl

theorem withRef_snd (H : Bytes → Bytes) (r : Bytes) (ps : List Piece) : (withRef H r ps).map Prod.snd = ps := by
  induction ps generalizing r with
  | nil => rfl
  | cons p ps ih => rw [withRef, List.map_cons, ih]

theorem withRef_ref {H : Bytes → Bytes} {N : Nat} (hl : ∀ x, (H x).length = N) {r : Bytes} (hr : r.length = N) {ps : List Piece}
    {q : Bytes × Piece} (h : q ∈ withRef H r ps) : q.1.length = N := by
  induction ps generalizing r with
  | nil => cases h
  | cons p ps ih =>
    rcases List.mem_cons.1 h with rfl | h
    · exact hr
    · refine ih (r := if p.first then H p.bytes else r) ?_ h
      split
      · exact hl _
      · exact hr

theorem chunk_flatten {N : Nat} (hN : 0 < N) {ls : List Bytes} (h : ∀ x ∈ ls, x.length = N) : Validator.chunk N ls.flatten = ls := by
  have hlen : ls.flatten.length = ls.length * N := by
    clear hN
    induction ls with
    | nil => simp
    | cons x r ih =>
      rw [List.flatten_cons, List.length_append, ih fun y hy => h y (List.mem_cons_of_mem _ hy), h x List.mem_cons_self,
        List.length_cons, Nat.succ_mul, Nat.add_comm]
  unfold Validator.chunk
  rw [hlen, Nat.mul_div_cancel _ hN]
  clear hlen
  induction ls with
  | nil => rfl
  | cons x r ih =>
    have hx := h x List.mem_cons_self
    have hr := ih fun y hy => h y (List.mem_cons_of_mem _ hy)
    rw [List.length_cons, List.range_succ_eq_map, List.map_cons, List.map_map]
    congr 1
    · rw [Nat.zero_mul, List.drop_zero, List.flatten_cons, List.take_append, hx, Nat.sub_self, List.take_zero, List.append_nil,
        List.take_of_length_le (Nat.le_of_eq hx)]
    · refine Eq.trans ?_ hr
      refine List.map_congr_left fun i _ => ?_
      show ((x :: r).flatten.drop ((i + 1) * N)).take N = _
      rw [List.flatten_cons, List.drop_append, hx, Nat.succ_mul, Nat.add_sub_cancel, List.drop_eq_nil_of_le (by rw [hx]; omega), List.nil_append]

theorem Steps.content {env : AuthEnv} {T : List Bytes} {N : Nat} (he : Validator.Algs env T N) {c : Codec} {L : Log} {k : Nat}
    {s t : Validator} (g : Validator.Good s ∧ Validator.Content env T N c L s) (h : Steps env k s t) :
    Validator.Good t ∧ Validator.Content env T N c L t := by
  induction h with
  | zero s => exact g
  | @succ k s t u hp h1 hs _ ih =>
    exact ih (((Validator.content_step he c).round L _ ((Validator.content_step he c).pending g)).of_ok h1)

theorem received_of {c : Codec} {data : Bytes} {m : Nalu} (h : parseNalu data c true true = .ok m) (hh : m.isHashable = true)
    (hs : m.gopSei = false) : received c data = some (m.firstInGop, hashedBytes c data) := by
  have hne : data ≠ [] := by
    rintro rfl
    rw [show parseNalu [] c true true = .ok {} from rfl] at h
    cases h; cases hh
  obtain ⟨h1, h2⟩ := parse_piece data c true m hne h
  unfold received
  split
  · rename_i hp
    obtain ⟨-, g2, g3, g4, -⟩ := h1 hp
    have : hashedBytes c data = m.hashable := by
      unfold hashedBytes
      rw [h]
      dsimp only
      split
      · rename_i m' e
        split at e
        · cases e; rfl
        · unfold updateHashable at e
          rw [if_pos (by rw [g2]; simp)] at e
          cases e; rfl
      · rename_i e
        exfalso
        split at e
        · exact e m rfl
        · unfold updateHashable at e
          rw [if_pos (by rw [g2]; simp)] at e
          exact e m rfl
    rw [this, g3, g4]
  · rename_i hp
    have := ((h2 hp).1 hh).2
    rw [hs] at this; cases this

/-- An item whose hash is the one of a signed NAL unit stands for this NAL unit. -/
theorem match_one {env : AuthEnv} {T : List Bytes} {N : Nat} {c : Codec} {L : Log} {hashes : List Bytes} {t0 r0 : Bytes}
    {gop : List Piece} {s : Validator} {x : Nat × Item} {n : Nalu} {q : Bytes × Piece} (he : Validator.Algs env T N)
    (hC : Validator.Content env T N c L s) (hx : x ∈ s.list) (hn : x.2.nalu = some n) (hs : n.gopSei = false) (hh : n.isHashable = true)
    (ht0 : t0 ∈ T) (hr0 : r0.length = N) (nc : NoCollision env T N c L hashes t0 r0 gop) (hq : q ∈ withRef (env.H t0) r0 gop)
    (e : hashOf N x = if q.2.first then env.H t0 q.2.bytes else env.H t0 (q.1 ++ env.H t0 q.2.bytes)) :
    ∃ data, L.lookup x.1 = some data ∧ received c data = some q.2.content := by
  obtain ⟨data, m, h1, h2, h3, h4⟩ := hC.core.items x hx n hn
  refine ⟨data, h1, ?_⟩
  have hrec := received_of h2 (h3.hashable.symm.trans hh) (h3.sei.symm.trans hs)
  have hmem := Validator.lookup_mem h1
  have hpg : q.2 ∈ gop := by
    rw [← withRef_snd (env.H t0) r0 gop]; exact List.mem_map_of_mem (f := Prod.snd) hq
  have hlen0 : ∀ y, (env.H t0 y).length = N := he.len t0 ht0
  have hrl : q.1.length = N := withRef_ref hlen0 hr0 hq
  have in1 : q.2.bytes ∈ signerInputs (env.H t0) r0 gop :=
    List.mem_append_left _ (List.mem_flatMap.2 ⟨q, hq, List.mem_cons_self⟩)
  have in2 : q.2.first = false → q.1 ++ env.H t0 q.2.bytes ∈ signerInputs (env.H t0) r0 gop := fun hf =>
    List.mem_append_left _ (List.mem_flatMap.2 ⟨q, hq, List.mem_cons_of_mem _ (by rw [hf]; simp)⟩)
  have nz : hashOf N x ≠ List.replicate N 0 := by
    rw [e]
    cases hf : q.2.first with
    | true => exact nc.zero _ in1
    | false => exact nc.zero _ (in2 hf)
  have hfirst : x.2.isFirst = n.firstInGop := by unfold Item.isFirst; rw [hn]
  rw [hrec, ← h3.first]
  cases hfn : n.firstInGop with
  | true =>
    have hof : hashOf N x = buf N (x.2.second.getD []) := by unfold hashOf; rw [hfirst, hfn]; rfl
    have h2N : (hashedBytes c data).length ≠ 2 * N := nc.got _ hmem (by rw [hrec, ← h3.first, hfn]; rfl)
    rcases h4.first hfn with k | ⟨t, ht, k⟩
    · rw [hof, k] at nz
      exact absurd Validator.buf_zeros nz
    · have hv : hashOf N x = env.H t (hashedBytes c data) := by
        rw [hof, k]; exact Validator.buf_of_length (he.len t ht _)
      rw [hv] at e
      cases hf : q.2.first with
      | true =>
        rw [if_pos hf] at e
        have := nc.inj t ht _ (.nalu hmem) _ in1 e
        unfold Piece.content
        rw [hf, ← this]
      | false =>
        rw [if_neg (by rw [hf]; decide)] at e
        have := nc.inj t ht _ (.nalu hmem) _ (in2 hf) e
        have hlen := congrArg List.length this
        rw [List.length_append, hrl, hlen0] at hlen
        exact absurd (hlen.trans (by omega)) h2N
  | false =>
    have hof : hashOf N x = buf N x.2.hash := by unfold hashOf; rw [hfirst, hfn]; rfl
    rcases h4.other hs hfn with k | ⟨t, ht, r, hr, k⟩
    · rw [hof, k] at nz
      exact absurd rfl nz
    · have hrl' := Validator.RefHash.length he hr
      rw [hof, k] at e
      cases hf : q.2.first with
      | true =>
        rw [if_pos hf] at e
        have := nc.inj t ht _ (.pair hmem ht hr) _ in1 e
        have hlen := congrArg List.length this
        rw [List.length_append, hrl', he.len t ht] at hlen
        exact absurd (hlen.symm.trans (by omega)) (nc.sent q.2 hpg hf)
      | false =>
        rw [if_neg (by rw [hf]; decide)] at e
        have := nc.inj t ht _ (.pair hmem ht hr) _ (in2 hf) e
        have h5 := (List.append_inj this (hrl'.trans hrl.symm)).2
        have := nc.inj t ht _ (.nalu hmem) _ in1 h5
        unfold Piece.content
        rw [hf, ← this]

theorem match_all {c : Codec} {L : Log} {N : Nat} {h : Bytes × Piece → Bytes} {l : NList} {qs : List (Bytes × Piece)}
    (e : l.map (hashOf N) = qs.map h)
    (hm : ∀ x ∈ l, ∀ q ∈ qs, hashOf N x = h q → ∃ data, L.lookup x.1 = some data ∧ received c data = some q.2.content) :
    ∃ ds : List Bytes, ds.map some = l.map (fun x => L.lookup x.1) ∧ ds.map (received c) = (qs.map Prod.snd).map fun p => some p.content := by
  induction l generalizing qs with
  | nil =>
    cases qs with
    | nil => exact ⟨[], rfl, rfl⟩
    | cons q qs => cases e
  | cons x l ih =>
    cases qs with
    | nil => cases e
    | cons q qs =>
      rw [List.map_cons, List.map_cons, List.cons.injEq] at e
      obtain ⟨ds, h1, h2⟩ := ih e.2 fun y hy q' hq' => hm y (List.mem_cons_of_mem _ hy) q' (List.mem_cons_of_mem _ hq')
      obtain ⟨data, g1, g2⟩ := hm x List.mem_cons_self q List.mem_cons_self e.1
      exact ⟨data :: ds, by rw [List.map_cons, List.map_cons, h1, g1], by rw [List.map_cons, h2, g2]; rfl⟩

/-- **C42 in part.** Let a call in any history give a report that says OK or OK WITH MISSING INFO, and let the data decoded for a
validation in this call be what the signer writes for the GOP `gop`. If no inputs of the hash functions collide, the NAL
units that were compared are NAL units of this GOP, in their order: they have the same bytes and start a GOP if those do. If the
report says OK, or if there is no list of hashes, then they are all of them, provided that any was compared.

Taken for granted: `EVP_PKEY_verify` does not fail, all digests have 32 bytes. What is missing: that the decoded data is what was
signed. This is not so if the SEI has more data after the signature (`C42_unsigned_tail_false`), or if the list of hashes is one of
another SEI (`C42_injected_list_false`, `C42_replay_false`). -/
theorem C42_content_partial {env : AuthEnv} {codec : Codec} {calls : List AuthCall} {s t v : Validator} {os : List AObs} {data : Bytes}
    {r : Report} {T : List Bytes} (hist : authRun env (newValidator env codec) calls = .ok (s, os))
    (hl : Validator.atLoop env s data = some v)
    (h : s.add env data = .ok t (some r)) (hgood : r.latest.auth = .ok ∨ r.latest.auth = .okWithMissing)
    (hv : ∀ k sig h, env.verify k sig h = 0 ∨ env.verify k sig h = 1) {k : Nat} {a b : Validator} (hk : Steps env k v a)
    (hp : a.hasPending.2 = true) (hr : a.hasPending.1.round env = .ok b ())
    (he : Validator.Algs env T 32) {t0 r0 : Bytes} {gop : List Piece} (ht0 : t0 ∈ T) (hr0 : r0.length = 32)
    (hd : Commits env 32 t0 r0 gop b.d) {L : Log} (hL : L = logStep s (authLog env (newValidator env codec) [] calls) (.nalu data))
    (nc : NoCollision env T 32 codec L ((segment a.list).map (hashOf 32)) t0 r0 gop) :
    (k = 0 ∧ a.flags.first = true ∧ b.rep.latest.auth = .signaturePresent) ∨
    ∃ key ds, b.key = some key ∧ ds.map some = (segment a.list).map (fun x => L.lookup x.1) ∧
      (ds ≠ [] → env.verify key b.d.signature (buf 32 b.sigHash) = 1 ∧
        (ds.map (received codec)).Sublist (gop.map fun p => some p.content) ∧
        (r.latest.auth = .ok ∨ b.d.hashList = [] → ds.map (received codec) = gop.map fun p => some p.content)) := by
  have cs : Validator.Good s ∧ Validator.Content env T 32 codec (authLog env (newValidator env codec) [] calls) s :=
    (Validator.content_step he codec).run ⟨Validator.good_new env codec, Validator.content_new he rfl codec⟩ hist
  have cv : Validator.Good v ∧ Validator.Content env T 32 codec L v := by
    rw [hL]; exact (Validator.content_step he codec).atLoop cs hl
  have ca := Steps.content he cv hk
  have cb : Validator.Good b ∧ Validator.Content env T 32 codec L b :=
    ((Validator.content_step he codec).round L _ ((Validator.content_step he codec).pending ca)).of_ok hr
  have hbs : b.d.hashSize = 32 := cb.2.core.alg.size
  rcases C41_backed_partial hist hl h hgood hv hk hp hr with h0 | ⟨key, k1, k2, k3, k4⟩
  · exact .inl h0
  · right
    by_cases hne : segment a.list = []
    · exact ⟨key, [], k1, by rw [hne]; rfl, fun e => absurd rfl e⟩
    · have bk := k3 hne
      rw [hbs] at bk
      have hH : ∀ y, (env.H t0 y).length = 32 := he.len t0 ht0
      have hHash : ∀ y ∈ pieceHashes (env.H t0) r0 gop, y.length = 32 := by
        rw [pieceHashes_withRef]
        intro y hy
        obtain ⟨q, -, rfl⟩ := List.mem_map.1 hy
        split
        · exact hH _
        · exact hH _
      have hSeg : ∀ y ∈ (segment a.list).map (hashOf 32), y.length = 32 := by
        intro y hy
        obtain ⟨x, -, rfl⟩ := List.mem_map.1 hy
        unfold hashOf buf; simp
      have one : ∀ x ∈ segment a.list, ∀ q ∈ withRef (env.H t0) r0 gop,
          hashOf 32 x = (if q.2.first then env.H t0 q.2.bytes else env.H t0 (q.1 ++ env.H t0 q.2.bytes)) →
          ∃ data, L.lookup x.1 = some data ∧ received codec data = some q.2.content := by
        intro x hx q hq e
        obtain ⟨g1, g2, g3⟩ := segment_sub hx
        cases hn : x.2.nalu with
        | none => have := (k4 x hx).1; rw [hn] at this; cases this
        | some n =>
          have hs : n.gopSei = false := by unfold Item.isSei at g3; rw [hn] at g3; exact g3
          exact match_one he ca.2 g1 hn hs ((ca.1.kinds x g1 n hn).pending (.inl g2)).2 ht0 hr0 nc hq e
      -- all hashes of the GOP, or some of them
      have fin : ∀ qs : List (Bytes × Piece), qs.Sublist (withRef (env.H t0) r0 gop) →
          (segment a.list).map (hashOf 32) = qs.map (fun q => if q.2.first then env.H t0 q.2.bytes else env.H t0 (q.1 ++ env.H t0 q.2.bytes)) →
          ∃ ds : List Bytes, ds.map some = (segment a.list).map (fun x => L.lookup x.1) ∧
            ds.map (received codec) = (qs.map Prod.snd).map fun p => some p.content := fun qs hqs e =>
        match_all e fun x hx q hq => one x hx q (hqs.subset hq)
      have whole : (segment a.list).map (hashOf 32) = pieceHashes (env.H t0) r0 gop →
          ∃ ds : List Bytes, ds.map some = (segment a.list).map (fun x => L.lookup x.1) ∧ ds.map (received codec) = gop.map fun p => some p.content := by
        intro e
        obtain ⟨ds, d1, d2⟩ := fin _ (List.Sublist.refl _) (by rw [e, pieceHashes_withRef])
        exact ⟨ds, d1, by rw [d2, withRef_snd]⟩
      rcases bk.content with ⟨⟨t, old, c1, c2⟩, -⟩ | ⟨c1, c2⟩
      · have ht : t ∈ T := cb.2.core.alg.prim t c1
        rw [hbs, Validator.buf_ovl (he.len t ht _), hd.gopHash] at c2
        have c3 := nc.inj t ht _ .gop _ (List.mem_append_right _ (List.mem_singleton.2 rfl)) c2
        have c4 := congrArg (Validator.chunk 32) c3
        rw [chunk_flatten (by decide) hSeg, chunk_flatten (by decide) hHash] at c4
        obtain ⟨ds, d1, d2⟩ := whole c4
        exact ⟨key, ds, k1, d1, fun _ => ⟨hbs ▸ bk.signed, by rw [d2]; exact List.Sublist.refl _, fun _ => d2⟩⟩
      · rw [hbs] at c1 c2
        have hne' : b.d.hashList ≠ [] := fun hn => by
          rw [hn] at c1
          exact hne (List.map_eq_nil_iff.1 (List.sublist_nil.1 c1))
        rcases hd.hashList with hn | hn
        · exact absurd hn hne'
        · rw [hn, chunk_flatten (by decide) hHash] at c1 c2
          by_cases hok : r.latest.auth = .ok
          · obtain ⟨ds, d1, d2⟩ := whole (c2 (k2 hok))
            exact ⟨key, ds, k1, d1, fun _ => ⟨hbs ▸ bk.signed, by rw [d2]; exact List.Sublist.refl _, fun _ => d2⟩⟩
          · rw [pieceHashes_withRef] at c1
            obtain ⟨qs, q1, q2⟩ := List.sublist_map_iff.1 c1
            obtain ⟨ds, d1, d2⟩ := fin qs q1 q2
            refine ⟨key, ds, k1, d1, fun _ => ⟨hbs ▸ bk.signed, ?_, ?_⟩⟩
            · rw [d2]
              have := q1.map Prod.snd
              rw [withRef_snd] at this
              exact this.map _
            · rintro (e | e)
              · exact absurd e hok
              · exact absurd e hne'

/-! ### An example -/

/-- A hash function without collisions for small examples. -/
def wideHash (b : Bytes) : Bytes :=
  let n := b.foldl (fun x y => (x * 257 + y.toNat + 1) % 4294967291) 1
  List.replicate 28 0x5A ++ [UInt8.ofNat (n / 16777216), UInt8.ofNat (n / 65536), UInt8.ofNat (n / 256), UInt8.ofNat n]

def wideHashing : Hashing := ⟨fun _ b => wideHash b, fun _ => some ([0x60, 0x86], 32)⟩
def wideEnv : AuthEnv := { toyEnv with H := fun _ b => wideHash b }

/-- Sign NAL units of the given types. -/
def wideStream (s : Signer) (k : UInt8) : List Char → List Bytes
  | [] => []
  | c :: cs =>
    match signStep wideHashing s (.nalu (toyNalu c k) none true none) with
    | .ok (s, o) =>
      match o.signed with
      | none => toyNalu c k :: wideStream s (k + 1) cs
      | some g =>
        match signStep wideHashing s (.getSei true none [.ok (toySig g.h)]) with
        | .ok (s, o) => toyNalu c k :: (o.sei.toList ++ wideStream s (k + 1) cs)
        | _ => []
    | _ => []

def wideSigned (types : String) : List Bytes :=
  match signRun wideHashing toySigner [.set (.privateKey (some ([9, 9, 9], 40)) true)] with
  | .ok p => wideStream p.1 1 types.toList
  | _ => []

theorem wide_algs : Validator.Algs wideEnv [[0x60, 0x86]] 32 where
  oids o n h := by
    have h : (if o = [0x60, 0x86] then some 32 else none) = some n := h
    split at h
    · rename_i e; cases h; exact ⟨rfl, by rw [e]; simp⟩
    · cases h
  dflt := by decide
  len t _ b := by show (wideHash b).length = 32; simp [wideHash]
  pos := by decide
  le := by decide

/-- All references that can occur. -/
def refs (env : AuthEnv) (t0 : Bytes) (N : Nat) (c : Codec) (L : Log) : List Bytes :=
  List.replicate N 0 :: L.map fun p => env.H t0 (hashedBytes c p.2)

/-- All inputs that can occur. -/
def metInputs (env : AuthEnv) (t0 : Bytes) (N : Nat) (c : Codec) (L : Log) (hashes : List Bytes) : List Bytes :=
  hashes.flatten :: L.flatMap fun p => hashedBytes c p.2 :: (refs env t0 N c L).map fun r => r ++ env.H t0 (hashedBytes c p.2)

def noCollision (env : AuthEnv) (N : Nat) (c : Codec) (L : Log) (hashes : List Bytes) (t0 r0 : Bytes) (gop : List Piece) : Bool :=
  let ys := (signerInputs (env.H t0) r0 gop).map fun y => (y, env.H t0 y)
  (metInputs env t0 N c L hashes).all (fun x => let h := env.H t0 x; ys.all fun y => h != y.2 || x == y.1) &&
  ys.all (fun y => y.2 != List.replicate N 0) && gop.all (fun p => p.bytes.length != 2 * N) &&
  L.all fun p => (hashedBytes c p.2).length != 2 * N

theorem NoCollision.of_check {env : AuthEnv} {N : Nat} {c : Codec} {L : Log} {hashes : List Bytes} {t0 r0 : Bytes} {gop : List Piece}
    (h : noCollision env N c L hashes t0 r0 gop = true) : NoCollision env [t0] N c L hashes t0 r0 gop := by
  unfold noCollision at h
  simp only [Bool.and_eq_true, List.all_eq_true, List.mem_map, forall_exists_index, and_imp, forall_apply_eq_imp_iff₂, Bool.or_eq_true,
    bne_iff_ne, beq_iff_eq] at h
  obtain ⟨⟨⟨h1, h2⟩, h3⟩, h4⟩ := h
  have hr : ∀ r, RefHash env [t0] N c L r → r ∈ refs env t0 N c L := by
    rintro r (rfl | ⟨p, hp, t, ht, rfl⟩)
    · exact List.mem_cons_self
    · rw [List.mem_singleton.1 ht]
      exact List.mem_cons_of_mem _ (List.mem_map_of_mem (f := fun p : Nat × Bytes => env.H t0 (hashedBytes c p.2)) hp)
  have hm : ∀ x, Met env [t0] N c L hashes x → x ∈ metInputs env t0 N c L hashes := by
    rintro x (⟨h⟩ | ⟨h, ht, hr'⟩ | _)
    · exact List.mem_cons_of_mem _ (List.mem_flatMap.2 ⟨_, h, List.mem_cons_self⟩)
    · rw [List.mem_singleton.1 ht]
      exact List.mem_cons_of_mem _ (List.mem_flatMap.2 ⟨_, h, List.mem_cons_of_mem _ (List.mem_map.2 ⟨_, hr _ hr', rfl⟩)⟩)
    · exact List.mem_cons_self
  refine ⟨?_, h2, fun p hp _ => h3 p hp, fun p hp _ => h4 p hp⟩
  intro t ht x hx y hy e
  rw [List.mem_singleton.1 ht] at e
  rcases h1 x (hm x hx) y hy with g | g
  · exact absurd e g
  · exact g

/-- The signed NAL units of the second GOP of the sample. -/
def widePieces : List Piece := pieces .h264 (([toyNalu 'I' 4, toyNalu 'P' 5, toyNalu 'P' 6] : List Bytes).map fun d => SCall.nalu d none true none)

def wideCheck : Bool :=
  let calls := ((wideSigned "IPPIPPI").take 8).map AuthCall.nalu
  let data := ((wideSigned "IPPIPPI").drop 8).headD []
  match authRun wideEnv (newValidator wideEnv .h264) calls with
  | .ok (s, _) =>
    match Validator.atLoop wideEnv s data, s.add wideEnv data with
    | some v, .ok _ (some r) =>
      match v.hasPending.1.round wideEnv with
      | .ok b _ =>
        decide (r.latest.auth = .ok) && v.hasPending.2 && !v.flags.first && decide ((segment v.list).length = 3) &&
        decide (buf 32 b.d.gopHash = wideEnv.H [0x60, 0x86] (pieceHashes (wideEnv.H [0x60, 0x86]) (List.replicate 32 0) widePieces).flatten) &&
        decide (b.d.hashList = (pieceHashes (wideEnv.H [0x60, 0x86]) (List.replicate 32 0) widePieces).flatten) &&
        noCollision wideEnv 32 .h264 (logStep s (authLog wideEnv (newValidator wideEnv .h264) [] calls) (.nalu data))
          ((segment v.list).map (hashOf 32)) [0x60, 0x86] (List.replicate 32 0) widePieces
      | _ => false
    | _, _ => false
  | _ => false

/-- The hypotheses are met: in a signed stream the second SEI gives a report that says OK; the only validation of this call is not the
first one of the session, three NAL units are compared, and the SEI has hashes of the three signed ones. -/
example : ∃ calls data s os t r v b, authRun wideEnv (newValidator wideEnv .h264) calls = .ok (s, os) ∧
    Validator.atLoop wideEnv s data = some v ∧ s.add wideEnv data = .ok t (some r) ∧ r.latest.auth = .ok ∧
    Steps wideEnv 0 v v ∧ v.hasPending.2 = true ∧ v.hasPending.1.round wideEnv = .ok b () ∧ v.flags.first = false ∧ (segment v.list).length = 3 ∧
    Commits wideEnv 32 [0x60, 0x86] (List.replicate 32 0) widePieces b.d ∧
    NoCollision wideEnv [[0x60, 0x86]] 32 .h264 (logStep s (authLog wideEnv (newValidator wideEnv .h264) [] calls) (.nalu data))
      ((segment v.list).map (hashOf 32)) [0x60, 0x86] (List.replicate 32 0) widePieces := by
  have h : wideCheck = true := by decide +kernel
  unfold wideCheck at h
  generalize ((wideSigned "IPPIPPI").take 8).map AuthCall.nalu = calls at h
  generalize ((wideSigned "IPPIPPI").drop 8).headD [] = data at h
  dsimp only at h
  split at h
  · rename_i s os hs
    split at h
    · rename_i v t r hv ht
      split at h
      · rename_i b _ hb
        simp only [Bool.and_eq_true, decide_eq_true_eq, Bool.not_eq_true'] at h
        obtain ⟨⟨⟨⟨⟨⟨h1, h2⟩, h3⟩, h4⟩, h5⟩, h6⟩, h7⟩ := h
        exact ⟨calls, data, s, os, t, r, v, b, hs, hv, ht, h1, .zero v, h2, hb, h3, h4, ⟨h5, .inr h6⟩, NoCollision.of_check h7⟩
      · cases h
    · cases h
  · cases h

example : Validator.Algs wideEnv [[0x60, 0x86]] 32 ∧ ∀ k sig h, wideEnv.verify k sig h = 0 ∨ wideEnv.verify k sig h = 1 := by
  refine ⟨wide_algs, fun k sig h => ?_⟩
  show (if _ then _ else _ : Int) = 0 ∨ (if _ then _ else _ : Int) = 1
  split <;> simp

end SV
