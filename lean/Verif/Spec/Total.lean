import Verif.Model.Fetch
/-!
The total result of a session, told from what its user sees.
-/
namespace SV.Spec

/-- The verdicts in a total result; the numbers of NAL units are the subject of C20. -/
structure Total where
  auth : Auth
  keyChanged : Bool
  keyVal : KeyVal
  hasTs : Bool
  firstTs : Int
  lastTs : Int
deriving DecidableEq, Repr

/-- The verdicts in the accumulated validation of a report. -/
def shown (a : Accumulated) : Total := ⟨a.auth, a.keyChanged, a.keyVal, a.hasTs, a.firstTs, a.lastTs⟩

/-- A report with a verdict. -/
def decided (l : Latest) : Bool := decide (l.auth ≠ .notSigned) && decide (l.auth ≠ .signaturePresent)

/-- The worse of two verdicts; NOT OK is worse than OK WITH MISSING INFO, which is worse than OK. -/
def worse (a b : Auth) : Auth := if a.val < b.val then a else b

/-- The total result for the reports `ls`, earliest first.  The verdict is that of the last report if this has none of
NOT OK, OK WITH MISSING INFO or OK, else the worst one of the reports after the last report like that. -/
def total (ls : List Latest) : Total where
  auth :=
    match (ls.reverse.takeWhile decided).map Latest.auth with
    | [] => (ls.getLast?.map Latest.auth).getD .notSigned
    | a :: r => r.foldr worse a
  keyChanged := ls.any Latest.keyChanged
  keyVal := if ls.any fun l => l.keyVal = .notOk then .notOk else (ls.getLast?.map Latest.keyVal).getD .notFeasible
  hasTs := ls.any Latest.hasTs
  firstTs := ((ls.find? Latest.hasTs).map Latest.ts).getD 0
  lastTs := ((ls.reverse.find? Latest.hasTs).map Latest.ts).getD 0

/-- What is added by a call to the reports handed out since the last reset. -/
def heard (ls : List Latest) (p : FCall × AObs) : List Latest :=
  match p.1 with
  | .call .reset => []
  | .call _ => ls ++ p.2.report.toList.map Report.latest
  | .fetch => ls

/-- The reports handed out since the last reset, without those fetched. -/
def history (ls : List Latest) (tr : List (FCall × AObs)) : List Latest := tr.foldl heard ls

end SV.Spec
