import Verif.TM.Spec
/-!
# Requests on the wire: what is claimed

Only the trace is used: which request has been handed to which process, and which replies have come.
-/
namespace Casual.TM

/-- does the process `pid` of resource `rm` still owe an answer, after these observations? A reply (or that the
process announces itself anew) settles it. -/
def openStep (rm : Int) (pid : Nat) (b : Bool) : Obs → Bool
  | .wire r p => if r.rm = rm ∧ p.pid = pid then true else b
  | .got m => if m.rm = rm ∧ m.pid = pid then false else b
  | .ev (.ready rm' p) => if rm' = rm ∧ p.pid = pid then false else b
  | .ev .crash => false
  | _ => b

def owes (tr : List Obs) (rm : Int) (pid : Nat) : Bool := tr.foldl (openStep rm pid) false

/-- a request is only sent after it was issued, and a local resource process only gets it if it owes no answer -/
def WireOk (pre : List Obs) : Obs → Prop
  | .wire r p => Obs.issued r ∈ pre ∧ (0 < r.rm → owes pre r.rm p.pid = false)
  | _ => True

/-- no device has vanished, the manager has neither halted nor crashed -/
def Calm (tr : List Obs) : Prop :=
  (∀ i, Obs.ev (.ipcGone i) ∉ tr) ∧ Obs.halted ∉ tr ∧ Obs.ev .crash ∉ tr

/-- requests issued for / sent to a resource, in order -/
def issuedTo (rm : Int) (tr : List Obs) : List Req :=
  tr.filterMap (fun o => match o with | .issued r => if r.rm = rm then some r else none | _ => none)
def sentTo (rm : Int) (tr : List Obs) : List Req :=
  tr.filterMap (fun o => match o with | .wire r _ => if r.rm = rm then some r else none | _ => none)

end Casual.TM
