import Verif.Proofs.Show
import Verif.Proofs.FlowSigner
import Verif.Props.AuthProduct
/-! What is printed for the SEIs of the library. -/
namespace SV
open Spec Validator

/-- A tag and its value as written by some session whose key and hash algorithm the library understands. -/
structure Clear (env : AuthEnv) (p : UInt8 × Bytes) : Prop where
  lib : Lib p.1
  no5 : p.1 ≠ 5
  ne : p.2 ≠ []
  from_ : ∃ e : EncState, Fits e ∧ p.2 = valueBytes e p.1 ∧ (∀ k, e.publicKey = some k → env.crypto.keyOk k = true) ∧
    ∃ n, env.crypto.oidHashSize e.oid = some n

/-- A scene of which only the environment matters. -/
def bare (env : AuthEnv) : Scene := ⟨env, .h264, [], 0, [], 0, false, 0, false, none⟩

theorem clear_step {env : AuthEnv} {t : UInt8} {v : Bytes} (hp : Clear env (t, v)) (s : Validator) (hm : s.d.maxSignature = none) (m : Bytes) :
    ∃ s', s.decTag env t (v ++ m) v.length = .ok s' () ∧ s'.d.maxSignature = none := by
  obtain ⟨hlib, h5, hne, e, hf, hv, hk, n, ho⟩ := hp
  dsimp only at hlib h5 hne hv
  subst hv
  simp only [Lib, List.mem_cons, List.not_mem_nil, or_false] at hlib
  by_cases ht : t = 3 ∨ t = 4 ∨ t = 5 ∨ t = 6
  · obtain ⟨d', g0, -, -, -, -, -, -, g7, -⟩ := decTag_other (Γ := bare env) s hf ht hne (fun h => absurd h h5) m
    exact ⟨_, g0, (g7 h5).1.trans hm⟩
  · have ht' : t = 1 ∨ t = 2 ∨ t = 7 := by
      rcases hlib with h | h | h | h | h | h | h <;> simp [h] at ht ⊢
    rcases ht' with rfl | rfl | rfl
    · exact ⟨_, decTag_general (Γ := bare env) s hf m, hm⟩
    · have : ∃ k, e.publicKey = some k ∧ e.addPublicKey = true := by
        change valPublicKey e ≠ [] at hne
        unfold valPublicKey at hne
        split at hne
        · exact ⟨_, by assumption, by assumption⟩
        · exact absurd rfl hne
      obtain ⟨k, a1, a2⟩ := this
      exact ⟨_, decTag_tellsKey (Γ := bare env) s hf a1 a2 (hk k a1) m, hm⟩
    · have hn : e.oid ≠ [] := by
        intro hc
        apply hne
        show valCrypto e = []
        simp [valCrypto, hc]
      refine ⟨_, Validator.decTag_crypto (Γ := bare env) s hf hn ho m, ?_⟩
      split <;> exact hm

/-- All records of a SEI of the library can be decoded by a new session. -/
theorem clear_all {env : AuthEnv} (rest : Bytes) {e1 : EncState} (h1 : Fits e1) (l : List (UInt8 × Bytes)) (hl : ∀ p ∈ l, Clear env p) :
    ∀ (s : Validator) (fuel : Nat), s.d.maxSignature = none → (frames (l ++ [(5, valSignature e1)])).length ≤ fuel →
      ∃ s', Validator.tlvLoop env fuel s (frames (l ++ [(5, valSignature e1)]) ++ rest) (frames (l ++ [(5, valSignature e1)])).length = .ok s' () := by
  have step : ∀ {t : UInt8} {v : Bytes} (hk : Known t) (hv : v.length ≤ maxLen t) (more : List (UInt8 × Bytes)) {s s1 : Validator}
      (_ : s.decTag env t (v ++ (frames more ++ rest)) v.length = .ok s1 ()) (fuel : Nat),
      Validator.tlvLoop env (fuel + 1) s (frames ((t, v) :: more) ++ rest) (frames ((t, v) :: more)).length =
        Validator.tlvLoop env fuel s1 (frames more ++ rest) (frames more).length := by
    intro t v hk hv more s s1 hd fuel
    have hlen := frame_length hk v
    obtain ⟨e1, e2⟩ := decHeader_frame hk hv (frames more ++ rest)
    rw [frames_cons, List.append_assoc, List.length_append]
    dsimp only
    rw [tlvLoop_walk e1 (by rw [e2]; exact hd) fuel (by omega), e2, List.drop_left]
    have hsz : (frame t v).length + (frames more).length - (1 + (getTuple t).lenBytes) - v.length = (frames more).length := by omega
    rw [hsz]
  induction l with
  | nil =>
    intro s fuel hm hfu
    have hk : Known 5 := by simp [Known]
    have hv := maxLen_ok (t := 5) h1 hk
    have hlen := frame_length hk (valSignature e1)
    simp only [List.nil_append, frames_cons, List.length_append] at hfu
    obtain ⟨fuel, rfl⟩ : ∃ f, fuel = f + 1 := ⟨fuel - 1, by omega⟩
    obtain ⟨d', g0, -⟩ := decTag_other (Γ := bare env) (t := 5) s h1 (by simp) (by show valSignature e1 ≠ []; simp [valSignature]) (fun _ => .inl hm) (frames [] ++ rest)
    rw [List.nil_append, step (v := valSignature e1) hk hv [] g0 fuel]
    cases fuel with
    | zero => exact ⟨_, rfl⟩
    | succ f => exact ⟨_, by simp only [Validator.tlvLoop, frames, List.flatMap_nil, List.length_nil]; rw [if_pos trivial]⟩
  | cons p l ih =>
    intro s fuel hm hfu
    obtain ⟨t, v⟩ := p
    have hp := hl (t, v) List.mem_cons_self
    have hk : Known t := lib_known hp.lib
    have hv : v.length ≤ maxLen t := by
      obtain ⟨e, hf, he, -⟩ := hp.from_
      exact (show v = valueBytes e t from he) ▸ maxLen_ok hf hk
    have hlen := frame_length hk v
    rw [List.cons_append, frames_cons, List.length_append] at hfu
    dsimp only at hfu
    obtain ⟨fuel, rfl⟩ : ∃ f, fuel = f + 1 := ⟨fuel - 1, by omega⟩
    obtain ⟨s1, a1, a2⟩ := clear_step hp s hm (frames (l ++ [(5, valSignature e1)]) ++ rest)
    rw [List.cons_append, step hk hv _ a1 fuel]
    exact ih (fun q hq => hl q (List.mem_cons_of_mem _ hq)) s1 fuel a2 (by omega)

/-- The records of framed items are the items. -/
theorem fields_frames (rest : Bytes) (l : List (UInt8 × Bytes)) : (∀ p ∈ l, Known p.1 ∧ p.2.length ≤ maxLen p.1) → ∀ k, (frames l).length ≤ k →
    fields k (frames l ++ rest) (frames l).length = l ∧ (records k (frames l ++ rest) (frames l).length).map Prod.fst = l.map Prod.fst := by
  induction l with
  | nil =>
    intro _ k _
    cases k with
    | zero => exact ⟨rfl, rfl⟩
    | succ k => constructor <;> simp [fields, records, frames]
  | cons p l ih =>
    intro hl k hk
    obtain ⟨hk', hb⟩ := hl p List.mem_cons_self
    have hlen := frame_length hk' p.2
    rw [frames_cons, List.length_append] at hk
    obtain ⟨k, rfl⟩ : ∃ f, k = f + 1 := ⟨k - 1, by omega⟩
    obtain ⟨d1, d2⟩ := decHeader_frame hk' hb (frames l ++ rest)
    obtain ⟨i1, i2⟩ := ih (fun x hx => hl x (List.mem_cons_of_mem _ hx)) k (by omega)
    have hsz : (frame p.1 p.2).length + (frames l).length - (1 + (getTuple p.1).lenBytes) - p.2.length = (frames l).length := by omega
    rw [frames_cons, List.append_assoc, List.length_append]
    rw [fields_walk d1 k _ (by omega), records_walk (List.prefix_refl _) d1 k _ (by omega), d2, List.drop_left, hsz, i1, List.take_left]
    exact ⟨rfl, by rw [List.map_cons, List.map_cons, i2]⟩

theorem items_tags (ts : List UInt8) : ∀ e : EncState, ((items e ts).map Prod.fst).Sublist ts := by
  induction ts with
  | nil => intro e; exact List.Sublist.refl _
  | cons t ts ih =>
    intro e
    unfold items
    split
    · exact (ih _).cons_cons t
    · exact (ih _).cons t

/-- The tags of a SEI without vendor record. -/
theorem sei_items_any {o : SeiOpts} (e : EncState) (hv : o.vendor = false) : seiItems o e = items (applyFallback o e) (optTags o ++ mandTags o) := by
  have hven : vendorTags o = [] := by simp [vendorTags, hv]
  simp only [seiItems, hven, items_append, SV.items, List.append_nil]

theorem tags_sub (o : SeiOpts) : (optTags o ++ mandTags o).Sublist [2, 3, 7, 1, 4, 6] := by
  unfold optTags mandTags
  split <;> split <;> decide

end SV
