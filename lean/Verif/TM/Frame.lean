import Verif.TM.Model
import Verif.FanOut.Lite
/-!
# Which part of the state each function of the manager touches
-/
namespace Casual.TM
open Casual.Code Casual.FanOut

/-- observations that only occur while sending requests -/
def IsSend : Obs → Prop
  | .wire _ _ | .sendFailed _ => True
  | _ => False

/-- the part of a request that is decided before it is sent -/
def Req.core (r : Req) : Kind × Trid × Int × Bool := (r.kind, r.trid, r.rm, r.onePhase)

/-- fields untouched by sending requests -/
structure SameCore (s s' : State) : Prop where
  self : s'.self = s.self
  txs : s'.txs = s.txs
  externals : s'.externals = s.externals
  nextExt : s'.nextExt = s.nextExt
  prep : s'.prep = s.prep
  com : s'.com = s.com
  rol : s'.rol = s.rol
  log : s'.log = s.log
  replies : s'.replies = s.replies
  gone : s'.gone = s.gone
  halted : s'.halted = s.halted

theorem SameCore.refl (s : State) : SameCore s s := by constructor <;> rfl
theorem SameCore.trans {a b c : State} (h : SameCore a b) (k : SameCore b c) : SameCore a c := by
  obtain ⟨h1, h2, h3, h4, h5, h6, h7, h8, h9, h10, h11⟩ := h
  obtain ⟨k1, k2, k3, k4, k5, k6, k7, k8, k9, k10, k11⟩ := k
  constructor <;> simp_all

theorem sendReq_core (s : State) (r : Req) (p : Proc) : SameCore s (s.sendReq r p).1 := by
  unfold State.sendReq
  split <;> constructor <;> rfl

theorem sendReq_tr (s : State) (r : Req) (p : Proc) :
    ∃ o, IsSend o ∧ (s.sendReq r p).1.tr = s.tr ++ [o] := by
  unfold State.sendReq
  split
  · exact ⟨.sendFailed r, trivial, rfl⟩
  · exact ⟨.wire r p, trivial, rfl⟩

theorem issue_core (s : State) (r : Req) : SameCore s (s.issue r).1 := by
  unfold State.issue
  dsimp only
  split
  · split
    · refine SameCore.trans ?_ (sendReq_core _ _ _); constructor <;> rfl
    · constructor <;> rfl
  · split
    · refine SameCore.trans ?_ (sendReq_core _ _ _); constructor <;> rfl
    · constructor <;> rfl

theorem issue_tr (s : State) (r : Req) :
    ∃ l, (∀ o ∈ l, IsSend o) ∧ (s.issue r).1.tr = s.tr ++ (.issued r :: l) := by
  unfold State.issue
  dsimp only
  split
  · split
    · rename_i i ps _
      obtain ⟨o, ho, h⟩ := sendReq_tr { s.emit (.issued r) with proxies := ps } r ⟨i.pid, i.ipc⟩
      exact ⟨[o], by simpa using ho, by rw [h]; simp [State.emit]⟩
    · exact ⟨[], by simp, rfl⟩
  · split
    · rename_i e _
      obtain ⟨o, ho, h⟩ := sendReq_tr (s.emit (.issued r)) r e.proc
      exact ⟨[o], by simpa using ho, by rw [h]; simp [State.emit]⟩
    · exact ⟨[.sendFailed r], by simp [IsSend], by simp [State.emit]⟩

theorem issueAll_core (s : State) (kind : Kind) (op : Bool) (l : List (Trid × Int)) :
    SameCore s (s.issueAll kind op l).1 := by
  induction l generalizing s with
  | nil => exact SameCore.refl s
  | cons x l ih =>
    unfold State.issueAll
    refine SameCore.trans ?_ (ih _)
    refine SameCore.trans ?_ (issue_core _ _)
    constructor <;> rfl

def issued? : Obs → Option Req
  | .issued r => some r
  | _ => none

theorem filterMap_isSend {l : List Obs} (h : ∀ o ∈ l, IsSend o) : l.filterMap issued? = [] := by
  rw [List.filterMap_eq_nil_iff]
  intro o ho
  have := h o ho
  cases o <;> simp_all [IsSend, issued?]

theorem issueAll_reqs (s : State) (kind : Kind) (op : Bool) (l : List (Trid × Int)) :
    (s.issueAll kind op l).2.map Req.core = l.map (fun x => (kind, x.1, x.2, op)) := by
  induction l generalizing s with
  | nil => rfl
  | cons x l ih =>
    unfold State.issueAll
    simp only [List.map_cons]
    rw [ih]
    rfl

theorem issueAll_tr (s : State) (kind : Kind) (op : Bool) (l : List (Trid × Int)) :
    ∃ o, (s.issueAll kind op l).1.tr = s.tr ++ o ∧
      (∀ x ∈ o, IsSend x ∨ ∃ r, x = .issued r) ∧
      (o.filterMap issued?).map Req.core = l.map (fun x => (kind, x.1, x.2, op)) := by
  induction l generalizing s with
  | nil => exact ⟨[], by simp [State.issueAll], by simp, by simp⟩
  | cons x l ih =>
    unfold State.issueAll
    dsimp only
    obtain ⟨l1, hs, h1⟩ := issue_tr { s with nextCorr := s.nextCorr + 1 } ⟨kind, s.nextCorr, x.1, x.2, op⟩
    obtain ⟨l2, h2, hi, hc⟩ := ih ({ s with nextCorr := s.nextCorr + 1 }.issue ⟨kind, s.nextCorr, x.1, x.2, op⟩).1
    refine ⟨.issued ⟨kind, s.nextCorr, x.1, x.2, op⟩ :: l1 ++ l2, ?_, ?_, ?_⟩
    · rw [h2, h1]; simp
    · intro y hy
      rcases List.mem_append.mp hy with hy | hy
      · rcases List.mem_cons.mp hy with rfl | hy
        · exact .inr ⟨_, rfl⟩
        · exact .inl (hs y hy)
      · exact hi y hy
    · rw [List.filterMap_append, List.filterMap_cons, filterMap_isSend hs, List.map_append, hc]
      simp [issued?, Req.core]

/-- every issued request among the observations is one of the wanted -/
theorem issued_core_mem {o : List Obs} {kind : Kind} {op : Bool} {l : List (Trid × Int)}
    (h : (o.filterMap issued?).map Req.core = l.map (fun x => (kind, x.1, x.2, op))) {r : Req}
    (hr : Obs.issued r ∈ o) : r.kind = kind ∧ r.onePhase = op ∧ (r.trid, r.rm) ∈ l := by
  have : r.core ∈ (o.filterMap issued?).map Req.core :=
    List.mem_map_of_mem (List.mem_filterMap.mpr ⟨_, hr, rfl⟩)
  rw [h, List.mem_map] at this
  obtain ⟨x, hx, he⟩ := this
  simp only [Req.core, Prod.mk.injEq] at he
  obtain ⟨h1, h2, h3, h4⟩ := he
  exact ⟨h1.symm, h4.symm, by rw [← h2, ← h3]; exact hx⟩

end Casual.TM
