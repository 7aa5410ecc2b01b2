import Verif.Spec.Threaded
import Verif.Spec.Tlv
import Verif.Spec.Nalu
import Verif.Model.Sign
/-!
What a user of the signing API sees.  Only the calls and observations are taken from the model.
-/
namespace SV.Spec

/-- The signatures a plugin delivers before it reports an error. -/
def oks : List SigAnswer → List Bytes
  | .ok sig :: l => sig :: oks l
  | _ => []

/-- The signatures a plugin is ready to deliver during a call. -/
def offered : SCall → List Bytes
  | .getSei _ _ sigs => oks sigs
  | .prepend a b => oks a ++ oks b
  | .endOfStream _ sigs => oks sigs
  | _ => []

/-- Number of hashes a call may give to the plugin before it asks for signatures. -/
def extra : SCall → Nat
  | .endOfStream none _ => 1
  | _ => 0

/-- The plugin never delivers more signatures than it accepted hashes (`n` are outstanding), and no empty signature. -/
def Honest (hs : Hashing) : Signer → Nat → List SCall → Prop
  | _, _, [] => True
  | s, n, c :: cs =>
    (offered c).length ≤ n + extra c ∧ (∀ x ∈ offered c, x ≠ []) ∧
    ∀ s' o, signStep hs s c = .ok (s', o) → Honest hs s' (n + o.signed.toList.length - o.got.length) cs

/-- Hashes given to the plugin and accepted, in order: one per generated SEI. -/
def generated (os : List Obs) : List Bytes := (os.filterMap Obs.signed).map Gen.h
/-- Signatures taken from the plugin, in order. -/
def taken (os : List Obs) : List Bytes := os.flatMap Obs.got
/-- SEIs handed out, in order. -/
def delivered (os : List Obs) : List Bytes := os.filterMap Obs.sei

/-- The call is not `signed_video_get_nalu_to_prepend`. -/
def NotPrepend : SCall → Prop
  | .prepend _ _ => False
  | _ => True

/-- Calls that may generate a SEI. -/
def Generates : SCall → Prop
  | .nalu _ _ _ _ => True
  | .endOfStream _ _ => True
  | .golden _ => True
  | _ => False

/-- What the plugin returns when a hash is given to it during the call. -/
def pluginSays : SCall → Option Rc
  | .nalu _ _ _ rc => rc
  | .endOfStream rc _ => rc
  | .golden rc => rc
  | _ => none

/-- The generation of a SEI was not broken off: the call succeeds, or a SEI is generated, or the library refuses it. -/
def Unbroken (c : SCall) (o : Obs) : Prop :=
  Generates c → o.rc = none ∨ o.signed ≠ none ∨ (o.rc = some .notSupported ∧ pluginSays c ≠ some .notSupported)

def AllUnbroken : List SCall → List Obs → Prop
  | c :: cs, o :: os => Unbroken c o ∧ AllUnbroken cs os
  | _, _ => True

/-- The bytes to be signed, which are everything before the signature. -/
def _root_.SV.Gen.doc (g : Gen) : Bytes := (seiStart g.o g.e).1.bytes

/-- The hash given to the plugin is the hash of the bytes to be signed. -/
def _root_.SV.Gen.Good (hs : Hashing) (g : Gen) : Prop := Fits g.e → g.h = hs.H g.e.oid g.doc

/-- A completed SEI: what it was generated from and the options and the state (with the signature) when it was
completed. -/
structure Done where
  g : Gen
  o : SeiOpts
  e : EncState

/-- The complete SEI, with start code. -/
def Done.bytes (d : Done) : Bytes := [0, 0, 0, 1] ++ seiComplete d.o d.e (seiStart d.g.o d.g.e).1

/-- The byte after the header of a NAL unit given with or without start code. -/
def sliceByte (c : Codec) (data : Bytes) : UInt8 :=
  let body := match data with
    | 0 :: 0 :: 0 :: 1 :: b => b
    | 0 :: 0 :: 1 :: b => b
    | b => b
  body.getD (hdr c) 0

end SV.Spec
