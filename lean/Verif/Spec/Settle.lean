import Verif.Spec.RequestManager
/-!
# Vocabulary for C71: which request a reply settles
-/
namespace Mixnet.Spec
variable {R : Type}

/-- The request an entry of the log is about. -/
def subject : LogEntry R → R
  | .post r _ _ _ _ _ => r
  | .postErr r _ => r
  | .retryLimit r => r
  | .newId r _ => r

/-- The message ids drawn for a request. -/
def idsOf [DecidableEq R] (r : R) (log : List (LogEntry R)) : List MessageId :=
  log.flatMap fun
    | .newId r' id => if r' = r then [id] else []
    | _ => []

/-- The message id last drawn for a request. -/
def latestId [DecidableEq R] (r : R) (log : List (LogEntry R)) : Option MessageId := (idsOf r log).getLast?

end Mixnet.Spec
