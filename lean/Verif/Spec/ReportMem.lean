import Verif.Model.ReportMem
/-!
What a user reads in an authenticity report, and what a copy of a report is.
-/
namespace SV.RepMem

/-- The text in a block of memory: everything before the first zero byte. -/
def textOf : Bytes → Bytes
  | [] => []
  | c :: r => if c = 0 then [] else c :: textOf r

/-- The text at a pointer, `none` for NULL. -/
def textAt (mem : Nat → Option Bytes) (p : Option Nat) : Option Bytes :=
  match p with
  | none => none
  | some a => (mem a).map textOf

/-- A report as it is read by a user. -/
structure View where
  product : List (Option Bytes)
  version : Option Bytes
  thisVersion : Option Bytes
  nalu : Option Bytes
  validation : Option Bytes
  rest : Nat
deriving DecidableEq, Repr

/-- Reading of a report. -/
def view (mem : Nat → Option Bytes) (r : Rep) : View :=
  ⟨r.product.map (textAt mem), textAt mem r.version, textAt mem r.thisVersion, textAt mem r.nalu, textAt mem r.validation,
   r.rest⟩

/-- A text that is always there. -/
def filled (t : Option Bytes) : Option Bytes := some (t.getD [])

/-- A copy of a report: the same texts, empty ones for NULL, and the version of the library. -/
def View.copied (v : View) : View :=
  { v with product := v.product.map filled, thisVersion := some "v1.1.29".toUTF8.toList, nalu := filled v.nalu,
           validation := filled v.validation }

/-- The strings of a session as they are read: its product information, the local report, and the reports handed out (without
those freed). -/
structure Vals where
  product : List (Option Bytes)
  loc : Option View
  out : List (Option View)
deriving DecidableEq, Repr

/-- Reading of a session. -/
def Sess.vals (s : Sess) : Vals :=
  ⟨s.product.map (textAt s.heap.mem), s.loc.map (view s.heap.mem), s.out.map fun r => r.map (view s.heap.mem)⟩

/-- A byte in decimal digits. -/
def digits (x : UInt8) : Bytes :=
  (if 100 ≤ x then [48 + x / 100] else []) ++ (if 10 ≤ x then [48 + x / 10 % 10] else []) ++ [48 + x % 10]

/-- What an operation does to the texts when there is memory enough, without any notion of memory. -/
def Vals.apply (v : Vals) : Op → Vals
  | .createLocal =>
    match v.loc with
    | some _ => v
    | none => { v with loc := some ⟨v.product.map filled, some [], some [], none, none, 0⟩ }
  | .setProduct l => { v with product := l.map fun b => filled (b.map textOf) }
  | .decodeProduct l =>
    { v with product := l.map fun b => some (textOf b),
             loc := v.loc.map fun r => { r with product := l.map fun b => some (textOf b) } }
  | .version a b c =>
    { v with loc := v.loc.map fun r => { r with version := some (118 :: digits a ++ 46 :: digits b ++ 46 :: digits c) } }
  | .update n w rest =>
    { v with loc := v.loc.map fun r => { r with nalu := some (textOf n), validation := some (textOf w), rest := rest } }
  | .reset => { v with loc := v.loc.map fun r => { r with nalu := none, validation := none, rest := 0 } }
  | .get rest =>
    match v.loc with
    | none => v
    | some r => { v with loc := some { r with rest := rest }, out := v.out ++ [some { r with rest := rest }.copied] }
  | .free k => { v with out := v.out.set k none }

/-- An operation has the five strings of product information. -/
def Op.Five : Op → Prop
  | .setProduct l => l.length = 5
  | .decodeProduct l => l.length = 5
  | _ => True

/-- The two allocations for version strings succeed, those that are the second and the third of a new report. -/
def VersionsAllocated (o : Op × List Bool) : Prop :=
  o.2[1]? ≠ some false ∧ o.2[2]? ≠ some false

end SV.RepMem
