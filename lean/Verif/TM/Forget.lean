import Verif.TM.Life
import Verif.TM.Eqn
/-!
# Telling others to forget a finished transaction
-/
namespace Casual.TM
open Casual.Code Casual.FanOut

/-- an announcement directly follows the removal of a transaction, and announces that transaction; except when the
answer just given said ok or read-only -/
def Forget (pre : List Obs) : Obs → Prop
  | .disassociate d => ∃ p g, pre = p ++ [.removed g] ∧
      (d = some g ∨ ∃ p' to a, p = p' ++ [.answer to a] ∧ SaysOk a)
  | _ => True

def IsDis : Obs → Prop
  | .disassociate _ => True
  | _ => False

theorem Always.growF {tr l : List Obs} (h : Always Forget tr) (hl : ∀ o ∈ l, ¬ IsDis o) : Always Forget (tr ++ l) := by
  refine h.grow ?_
  intro a o b he
  have := hl o (by rw [he]; simp)
  cases o <;> first | trivial | exact absurd trivial this

theorem forget_removed {tr : List Obs} (h : Always Forget tr) (g : Nat) (d : Option Nat)
    (hd : d = some g ∨ ∃ p' to a, tr = p' ++ [.answer to a] ∧ SaysOk a) :
    Always Forget (tr ++ [.removed g, .disassociate d]) := by
  refine h.grow ?_
  intro a o b he
  rcases a with _ | ⟨a1, _ | ⟨a2, a⟩⟩
  · simp at he; rw [← he.1]; trivial
  · simp at he
    obtain ⟨rfl, rfl, rfl⟩ := he
    exact ⟨tr, g, rfl, hd⟩
  · simp at he

theorem Forget.remove {s : State} (h : Always Forget s.tr) (g : Nat) : Always Forget (s.remove g).tr := by
  unfold State.remove
  dsimp only
  split
  · exact forget_removed h g _ (.inl rfl)
  · exact h.growF (by simp [IsDis])

theorem Forget.removeByRange {s : State} (h : Always Forget s.tr) (to : Proc) (a : Answer) (ha : SaysOk a) (g : Nat) :
    Always Forget ((s.emit (.answer to a)).removeByRange g).tr := by
  have h1 : Always Forget (s.emit (.answer to a)).tr := h.growF (by simp [IsDis])
  unfold State.removeByRange
  dsimp only
  split
  · exact forget_removed h1 g _ (.inr ⟨s.tr, to, a, rfl, ha⟩)
  · exact h1.growF (by simp [IsDis])

theorem Freed.forget {s s' : State} {l : List Obs} (h : Always Forget s.tr) (hf : Freed s s' l) : Always Forget s'.tr := by
  rw [hf.tr]
  refine h.growF ?_
  intro o ho hd
  have := hf.only o ho
  cases o <;> first | exact this | exact hd

theorem closed_forget' : ClosedS (fun _ => True) (fun s => Always Forget s.tr) where
  plain := fun s o ho h => Always.growF h (l := [o]) (by
    intro o' ho'; simp at ho'; subst ho'
    intro hd
    cases o' <;> first | exact ho | exact hd)
  prep := fun s _ h => h
  com := fun s _ h => h
  rol := fun s _ h => h
  issue := fun s kind op t rm h => by
    obtain ⟨l, hs, hl⟩ := issue_tr { s with nextCorr := s.nextCorr + 1 } ⟨kind, s.nextCorr, t, rm, op⟩
    show Always Forget (State.issue _ _).1.tr
    rw [hl]
    refine Always.growF h ?_
    intro o ho hd
    rcases List.mem_cons.mp ho with rfl | ho
    · exact hd
    · have := hs o ho
      cases o <;> first | exact this | exact hd
  modify := fun s g f hf h => h
  ensure := fun s t _ h => by
    show Always Forget (s.ensure t).tr
    unfold State.ensure
    split <;> exact h
  remove := fun s g h => Forget.remove h g
  done := fun s to a g _ h => Forget.remove (s := s.emit (.answer to a)) (Always.growF h (by simp [IsDis])) g
  doneByRange := fun s to a g _ ha h => Forget.removeByRange h to a ha g
  queue := fun s x hx h => h
  persist := fun s h => Always.growF h (by
    intro o ho
    rcases List.mem_cons.mp ho with rfl | ho
    · exact fun k => k
    · obtain ⟨x, hx, rfl⟩ := List.mem_map.mp ho
      exact fun k => k)
  logTx := fun s g h => by
    rcases logTx_cases s g with ⟨-, e⟩ | ⟨t, -, l, hf⟩ | ⟨t, -, e⟩
    · show Always Forget (s.logTx g).tr
      rw [e]; exact h
    · exact hf.forget h
    · show Always Forget (s.logTx g).tr
      rw [e]; exact Always.growF h (l := [_]) (by simp [IsDis])
  halt := fun s h => (halt_freed s).forget h
  ext := fun s _ _ h => h
  inbox := fun s _ h => h
  replied := fun s r h => by
    obtain ⟨l, hf⟩ := replied_freed (s.emit (.got r)) r.rm r.pid
    exact hf.forget (Always.growF h (l := [.got r]) (by simp [IsDis]))

theorem reach_forget (self : Proc) (es : List Event) : Always Forget (run (init self) es).tr := by
  have hev : ∀ (s : State) e, Always Forget s.tr → Always Forget (s.emit (.ev e)).tr := fun s e h =>
    h.growF (by simp [IsDis])
  refine Closed.run (P := fun s => Always Forget s.tr) closed_forget'.closed (fun s e _ h => hev s e h) ?_ ?_ ?_ (init_J self) ?_ es
  · intro s e he h
    obtain ⟨l, hf⟩ := env_freed (s.emit (.ev e)) e he
    exact hf.forget (hev s e h)
  · intro s pid ps _ h
    exact hev s _ h
  · intro s h
    exact hev s _ h
  · intro pre o post h
    simp [init] at h

end Casual.TM
