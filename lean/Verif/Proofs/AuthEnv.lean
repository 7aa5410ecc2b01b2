import Verif.Model.Auth
/-! The number of rounds granted to the loop of `maybe_validate_gop` is used by that loop only. -/
namespace SV

/-- The same parameters with another number of rounds. -/
def AuthEnv.withRounds (env : AuthEnv) (k : Nat) : AuthEnv := { env with rounds := k }

namespace Validator
variable (env : AuthEnv) (k : Nat)

theorem decTag_wr : decTag (env.withRounds k) = decTag env := rfl

theorem tlvLoop_wr : Validator.tlvLoop (env.withRounds k) = Validator.tlvLoop env := by
  funext f
  induction f with
  | zero => funext s mem size; simp only [Validator.tlvLoop]
  | succ f ih => funext s mem size; simp only [Validator.tlvLoop, ih, decTag_wr]

theorem optLoop_wr : Validator.optLoop (env.withRounds k) = Validator.optLoop env := by
  funext f
  induction f with
  | zero => funext s b mem size; simp only [Validator.optLoop]
  | succ f ih => funext s b mem size; simp only [Validator.optLoop, ih, decTag_wr]

theorem tlvDecode_wr : Validator.tlvDecode (env.withRounds k) = Validator.tlvDecode env := by
  funext s mem size; simp only [Validator.tlvDecode, tlvLoop_wr]

theorem findOptional_wr : findOptional (env.withRounds k) = findOptional env := by
  funext s mem size; simp only [findOptional, optLoop_wr]

theorem detectLost_wr : detectLost (env.withRounds k) = detectLost env := rfl

theorem decodeSei_wr : decodeSei (env.withRounds k) = decodeSei env := by
  funext s mem size; simp only [decodeSei, tlvDecode_wr, detectLost_wr]

theorem hashItem_wr : Validator.hashItem (env.withRounds k) = Validator.hashItem env := rfl

theorem prepareGopHash_wr : prepareGopHash (env.withRounds k) = prepareGopHash env := rfl

theorem verifyHash_wr : verifyHash (env.withRounds k) = verifyHash env := rfl

theorem decodeNext_wr : decodeNext (env.withRounds k) = decodeNext env := by
  funext s x; simp only [decodeNext, decodeSei_wr]

theorem prepare_wr : Validator.prepare (env.withRounds k) = Validator.prepare env := by
  funext s; simp only [Validator.prepare, decodeNext_wr, detectLost_wr, prepareGopHash_wr, verifyHash_wr]

theorem prepareGolden_wr : prepareGolden (env.withRounds k) = prepareGolden env := by
  funext s a n; simp only [prepareGolden, decodeSei_wr, prepare_wr, hashItem_wr]

theorem recurrentLoop_wr : recurrentLoop (env.withRounds k) = recurrentLoop env := by
  funext l
  induction l with
  | nil => funext s; simp only [recurrentLoop]
  | cons x r ih => funext s; simp only [recurrentLoop, ih, findOptional_wr]

theorem recurrentDecoded_wr : recurrentDecoded (env.withRounds k) = recurrentDecoded env := by
  funext s; simp only [recurrentDecoded, recurrentLoop_wr]

theorem round_wr : round (env.withRounds k) = round env := by
  funext s; simp only [round, prepare_wr]

theorem rounds_wr : rounds (env.withRounds k) = rounds env := by
  funext j
  induction j with
  | zero => funext s; simp only [rounds]
  | succ j ih => funext s; simp only [rounds, ih, round_wr]

theorem register_wr : Validator.register (env.withRounds k) = Validator.register env := rfl

theorem reregister_wr : reregister (env.withRounds k) = reregister env := by
  funext l
  induction l with
  | nil => funext s st; cases st <;> simp only [reregister]
  | cons x r ih => funext s st; simp only [reregister, ih, hashItem_wr]

theorem hashAlgoBlock_wr : hashAlgoBlock (env.withRounds k) = hashAlgoBlock env := by
  funext s a n; simp only [hashAlgoBlock, recurrentDecoded_wr, prepareGolden_wr, reregister_wr]

end Validator
end SV
