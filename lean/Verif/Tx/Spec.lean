import Verif.Tx.Model
/-!
Specification vocabulary for the transaction context, over the observable log only
(newest event first).
-/
namespace Casual.Tx
open Casual.Code

/-- The event is (a part of) the decision to commit `x`. -/
def commits (x : Xid) : Event → Bool
  | .tmCommit y _ => y = x
  | .xa (.commit _ y) _ => y = x
  | .committed y => y = x
  | _ => false

/-- The event is (a part of) the decision to roll back `x`. -/
def rollsBack (x : Xid) : Event → Bool
  | .tmRollback y _ => y = x
  | .xa (.rollback _ y) _ => y = x
  | _ => false

/-- The resource has been associated with the transaction: `xa_start`, or it has registered. -/
def touches (r : Rm) (x : Xid) : Event → Bool
  | .xa (.start r' y _) _ => r' = r && y = x
  | .reg r' y => r' = r && y = x
  | _ => false

/-- The event changes the association between the resource and the transaction. -/
def uses (r : Rm) (x : Xid) : Event → Bool
  | .xa (.start r' y _) _ => r' = r && y = x
  | .xa (.stop r' y _) _ => r' = r && y = x
  | .reg r' y => r' = r && y = x
  | _ => false

def touched (log : List Event) (r : Rm) (x : Xid) : Prop := ∃ ev ∈ log, touches r x ev = true

/-- Work for the transaction has been sent out of the process. -/
def leaves (x : Xid) : Event → Bool
  | .call _ y => y = x
  | .external y => y = x
  | _ => false

/-- The last thing that happened between the resource and the transaction is a successful
`xa_end( TMSUCCESS)`. -/
def ended (log : List Event) (r : Rm) (x : Xid) : Prop :=
  ∃ k, log.find? (uses r x) = some (.xa (.stop r x .success) k) ∧ (k = .ok ∨ k = .read_only)

/-- No event of the log satisfies the predicate. -/
def none? (p : Event → Bool) (log : List Event) : Prop := ∀ ev ∈ log, p ev = false

end Casual.Tx
