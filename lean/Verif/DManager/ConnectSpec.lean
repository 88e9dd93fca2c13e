import Verif.DManager.Model

/-! What is said about connects, singletons, lookups and assassinations, in terms of the log. -/
namespace Casual.DManager

/-- The process `h` was admitted as the singleton `x` (0: as none), and has not exited since. -/
def Live (log : List Item) (h : Handle) (x : Ident) : Prop :=
  ∃ l1 l2 w, log = l1 ++ .admitted h x w :: l2 ∧ .inp (.exit h.pid) ∉ l2

/-- The process `pid` asked to be spared from assassinations when it was admitted, and has not
exited since. -/
def Spared (log : List Item) (pid : Pid) : Prop :=
  ∃ l1 l2 h x, log = l1 ++ .admitted h x true :: l2 ∧ h.pid = pid ∧ .inp (.exit pid) ∉ l2

/-- A shutdown was asked for, or an error that is fatal was reported. -/
def Closing (log : List Item) : Prop := .inp .shutdown ∈ log ∨ .inp .fatal ∈ log

/-- Something is true of each item and what was before it. -/
def Always (P : List Item → Item → Prop) (log : List Item) : Prop :=
  ∀ l1 a l2, log = l1 ++ a :: l2 → P l1 a

/-- No process is admitted twice without exiting in between. -/
def OncePerLife (log : List Item) : Prop :=
  Always (fun before a => match a with
    | .admitted h _ _ => ∀ h' x', Live before h' x' → h'.pid ≠ h.pid
    | _ => True) log

/-- An answer to a lookup. -/
def Item.answers (l : Lookup) : Item → Bool
  | .lookupReply l' _ => decide (l' = l)
  | _ => false

/-- The lookup asks for something. -/
def Lookup.valid (l : Lookup) : Prop := l.ident ≠ 0 ∨ l.pid ≠ 0

/-- A process asks to connect. -/
def Item.connects (h : Handle) (x : Ident) : Item → Bool
  | .inp (.connect h' x' _) => decide (h' = h) && decide (x' = x)
  | _ => false

/-- A process is told whether it may. -/
def Item.replies (h : Handle) (x : Ident) : Item → Bool
  | .approved h' x' => decide (h' = h) && decide (x' = x)
  | .denied h' x' => decide (h' = h) && decide (x' = x)
  | _ => false

end Casual.DManager
