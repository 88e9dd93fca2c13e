import Verif.TM.Just
/-!
# The invariant is preserved by every handler
-/
namespace Casual.TM
open Casual.Code Casual.FanOut

variable {X : Nat → Prop}
set_option linter.unusedSectionVars false

/-! ### outcome -/

theorem accumulate_good {kind : Kind} {recv : List Rep} {out : List (Pending Int)} {code : Xa}
    (h : 21 ≤ toOrder (accumulate kind recv out code)) :
    out.any (fun p => p.state = .failed) = false ∧
    accumulate kind recv out code = combine code (recv.map (·.code)) := by
  have fold : ∀ c, (recv.map (·.code)).foldl severest c = combine c (recv.map (·.code)) := fun _ => rfl
  by_cases hf : out.any (fun p => decide (p.state = .failed)) = true
  · exfalso
    unfold accumulate at h
    simp only [hf] at h
    have e1 : toOrder .resource_fail = 4 := rfl
    have e2 : toOrder .heuristic_commit = 2 := rfl
    have e3 : toOrder .heuristic_rollback = 3 := rfl
    split at h
    · rw [toOrder_severest] at h; omega
    · cases kind <;> simp only [if_true, fold] at h
      · have := combine_le_start (severest code .resource_fail) (recv.map (·.code))
        rw [toOrder_severest] at this; omega
      · have := combine_le_start (severest .heuristic_commit code) (recv.map (·.code))
        rw [toOrder_severest] at this; omega
      · have := combine_le_start (severest .heuristic_rollback code) (recv.map (·.code))
        rw [toOrder_severest] at this; omega
  · have hf : out.any (fun p => decide (p.state = .failed)) = false := by simpa using hf
    refine ⟨hf, ?_⟩
    unfold accumulate
    simp only [hf]
    cases kind <;> simp [fold]

theorem accumulate_le {kind : Kind} {recv : List Rep} {out : List (Pending Int)} {code : Xa}
    (h : 21 ≤ toOrder (accumulate kind recv out code)) :
    toOrder (accumulate kind recv out code) ≤ toOrder code ∧
    ∀ m ∈ recv, toOrder (accumulate kind recv out code) ≤ toOrder m.code := by
  rw [(accumulate_good h).2]
  exact ⟨combine_le_start _ _, fun m hm => combine_le_mem _ _ _ (List.mem_map_of_mem hm)⟩

theorem vote_of_order {c : Xa} (h : 22 ≤ toOrder c) : Vote c := by
  cases c <;> simp [toOrder, Vote] at h ⊢

theorem done_of_order {c : Xa} (h : 21 ≤ toOrder c) : Done c := by
  cases c <;> simp [toOrder, Done] at h ⊢

theorem ro_of_order {c : Xa} (h : 23 ≤ toOrder c) : c = .read_only := by
  cases c <;> simp [toOrder] at h ⊢

/-- status of an answer is ok only for good codes -/
theorem mkAnswer_tx_ok {rt : RType} {o : Trid} {d : Dest} {c : Xa} {st : Option AStage}
    (h : (mkAnswer rt o d c st).status = .tx .ok) : 21 ≤ toOrder c := by
  have key : toTx (if c = .invalid_xid then Xa.read_only else c) = .ok → 21 ≤ toOrder c := by
    intro h
    rw [toTx_ok_iff] at h
    split at h
    · rename_i hc; rw [hc]; decide
    · rcases h with h | h <;> rw [h] <;> decide
  unfold mkAnswer at h
  cases rt <;> simp at h
  · exact key h
  · exact key h

theorem mkAnswer_xa_ok {rt : RType} {o : Trid} {d : Dest} {c : Xa} {st : Option AStage}
    (h : (mkAnswer rt o d c st).status = .xa .ok) : c = .ok := by
  unfold mkAnswer at h
  cases rt <;> simp at h
  all_goals
    split at h
    · cases h
    · exact h

theorem mkAnswer_fields (rt : RType) (o : Trid) (d : Dest) (c : Xa) (st : Option AStage) :
    (mkAnswer rt o d c st).rtype = rt ∧ (mkAnswer rt o d c st).corr = d.corr ∧
    (mkAnswer rt o d c st).g = o.xid.g ∧ (rt = .commit → (mkAnswer rt o d c st).stage = st) := by
  cases rt <;> simp [mkAnswer]

/-! ### log and answers -/

theorem JX.persist {s : State} (h : JX X s) : Ok X s s.persist := by
  have h1 : Always Claim (s.tr ++ [.persisted]) := h.claims.append (by simp [Claim])
  have h2 : Always Claim (s.tr ++ [.persisted] ++ s.replies.map (fun p => Obs.answer p.1 p.2)) := by
    refine h1.append ?_ ?_
    rotate_left
    · intro o ho
      obtain ⟨x, hx, rfl⟩ := List.mem_map.mp (List.mem_of_mem_tail ho)
      obtain ⟨hv, hp, rows, p1, p2, he, hc⟩ := h.replies x hx
      intro a c
      rcases hp with ⟨_, hp⟩ | ⟨hp, _⟩
      · rw [hp] at c; cases c
      · rw [hp] at a; cases a
    intro o ho
    obtain ⟨x, hx, rfl⟩ := List.mem_map.mp ho
    obtain ⟨hv, hp, rows, p1, p2, he, hc⟩ := h.replies x hx
    refine ⟨hv.mono, ?_, ?_, ?_, fun _ => ⟨rows, p1, p2, [], by rw [he]; simp, hc⟩⟩
    · intro a b c
      rcases hp with ⟨_, hp⟩ | ⟨hp, _⟩
      · rw [hp] at c; cases c
      · rw [hp] at a; cases a
    · intro a b
      rcases hp with ⟨hp, _⟩ | ⟨hp, _⟩ <;> rw [hp] at a <;> cases a
    · intro a b
      rcases hp with ⟨hp, _⟩ | ⟨hp, _⟩ <;> rw [hp] at a <;> cases a
  have htr : s.persist.tr = s.tr ++ (.persisted :: s.replies.map (fun p => Obs.answer p.1 p.2)) := rfl
  refine ⟨⟨?_, h.prepL, h.comL, h.rolL, h.prepO, h.comO, h.rolO, ?_, ?_, ?_, ?_, ?_⟩, _, htr⟩
  · rw [htr]; simpa using h2
  · rw [htr]; exact fun e he => ⟨(h.prepE e he).1.mono, (h.prepE e he).2⟩
  · rw [htr]; exact fun e he => ⟨(h.comE e he).1.mono, (h.comE e he).2⟩
  · rw [htr]; exact fun e he => ⟨(h.rolE e he).1.mono, (h.rolE e he).2⟩
  · rw [htr]; exact fun t ht => (h.txs t ht).mono
  · intro x hx; cases hx

theorem JX.persistReply {s : State} (h : JX X s) {to : Proc} {a : Answer} (ha : RepOk s.tr to a) :
    Ok X s (s.persistReply to a) := by
  have h1 : JX X { s with replies := s.replies ++ [(to, a)] } := by
    refine ⟨h.claims, h.prepL, h.comL, h.rolL, h.prepO, h.comO, h.rolO, h.prepE, h.comE, h.rolE, h.txs, ?_⟩
    intro x hx
    rcases List.mem_append.mp hx with hx | hx
    · exact h.replies x hx
    · simp at hx; subst hx; exact ha
  unfold State.persistReply
  dsimp only
  split
  · exact h1.persist
  · exact ⟨h1, [], by simp⟩

/-- logging; either the row is there or the manager is down -/
theorem JX.logPrepare {s : State} (h : JX X s) {t : Tx} (ht : t ∈ s.txs) :
    Ok X s (s.logPrepare t) ∧ ((s.logPrepare t).halted = false →
      (s.logPrepare t).txs = s.txs ∧ ∃ rows, (s.logPrepare t).tr = s.tr ++ [.logged t.g rows]) ∧
      (s.halted = false → (s.logPrepare t).halted = true → (s.logPrepare t).txs = []) := by
  unfold State.logPrepare
  dsimp only
  split
  · refine ⟨h.halt, ?_, fun _ _ => rfl⟩
    intro hh; simp [State.halt] at hh
  · refine ⟨⟨h.of' (l := [.logged t.g _]) rfl ?_ (by simp) rfl rfl rfl rfl rfl, _, rfl⟩, fun _ => ⟨rfl, _, rfl⟩, fun a b => by rw [State.emit] at b; dsimp only at b; rw [a] at b; cases b⟩
    intro o ho
    simp at ho; subst ho
    intro x hx
    obtain ⟨b, hb, rfl⟩ := List.mem_map.mp hx
    exact (h.txs t ht).branches b hb

/-! ### callbacks -/

theorem Ok.emitRemove {s : State} (h : JX X s) {o : Obs} (ho : Claim s.tr o) (hc : o ≠ .ev .crash) (g : Nat) :
    Ok X s ((s.emit o).remove g) :=
  (h.emit ho hc).trans ((h.emit ho hc).1.remove g)

theorem Ok.emitRemove' {s : State} (h : JX X s) {o : Obs} (ho : Claim s.tr o) (hc : o ≠ .ev .crash) (g : Nat) :
    Ok X s ((s.emit o).removeByRange g) :=
  (h.emit ho hc).trans ((h.emit ho hc).1.removeByRange g)

theorem runCommit_ok {s : State} (h : JX X s) {f : Fired Rep Int KFinal} (hf : FOk .commit projF s.tr f)
    (hk : ComOk f.callback) : Ok X s (runCommit s f) := by
  unfold runCommit
  dsimp only
  refine Ok.emitRemove h ?_ (by simp) _
  obtain ⟨reqs, h1, h2, h3, h4⟩ := hf
  obtain ⟨m1, m2, m3, m4⟩ := mkAnswer_fields f.callback.rtype f.callback.origin f.callback.dest
    (accumulate .commit f.received f.outcome f.callback.code) (some .commit)
  have good : 21 ≤ toOrder (accumulate .commit f.received f.outcome f.callback.code) →
      AllGood reqs f.received Done := by
    intro hge
    refine ⟨h4 (accumulate_good hge).1, fun m hm => done_of_order ?_⟩
    have := (accumulate_le hge).2 m hm
    omega
  refine ⟨?_, ?_, ?_, ?_, ?_⟩
  · intro a b
    rw [m1] at a; rcases hk with hk | hk <;> rw [hk] at a <;> cases a
  · intro a b c
    right; right
    rw [m1] at a
    refine ⟨_, _, reqs, f.received, rfl, m2.symm, m3.symm, ?_, h3, good (mkAnswer_tx_ok b)⟩
    simpa [projF, a] using h1
  · intro a b
    rw [m1] at a; rcases hk with hk | hk <;> rw [hk] at a <;> cases a
  · intro a b
    rw [m1] at a
    refine ⟨_, _, reqs, f.received, rfl, m2.symm, m3.symm, ?_, h3, good ?_⟩
    · simpa [projF, a] using h1
    · rw [mkAnswer_xa_ok b]; decide
  · intro hp
    exfalso
    rcases hp with ⟨a, b⟩ | ⟨a, b⟩
    · rw [m1] at a; rw [m4 a] at b; cases b
    · rw [m1] at a; rcases hk with hk | hk <;> rw [hk] at a <;> cases a

theorem runRollback_ok {s : State} (h : JX X s) {f : Fired Rep Int KFinal} (hf : FOk .rollback projF s.tr f)
    (hk : RolOk f.callback) : Ok X s (runRollback s f) := by
  unfold runRollback
  dsimp only
  split
  · have h1 := h.emit (o := .selfRollback f.callback.origin
      (mkAnswer f.callback.rtype f.callback.origin f.callback.dest
        (accumulate .rollback f.received f.outcome f.callback.code) (some .rollback)).status) trivial (by simp)
    split
    · exact h1.trans (h1.1.remove _)
    · exact h1
  refine Ok.emitRemove h ?_ (by simp) _
  obtain ⟨reqs, h1, h2, h3, h4⟩ := hf
  obtain ⟨m1, m2, m3, m4⟩ := mkAnswer_fields f.callback.rtype f.callback.origin f.callback.dest
    (accumulate .rollback f.received f.outcome f.callback.code) (some .rollback)
  refine ⟨?_, ?_, ?_, ?_, ?_⟩
  · intro a b
    rw [m1] at a; exact absurd a hk.1
  · intro a b c
    rw [m1] at a; rw [m4 a] at c; cases c
  · intro a b
    rw [m1] at a
    have hge := mkAnswer_tx_ok b
    refine ⟨_, _, reqs, f.received, rfl, m2.symm, m3.symm, ?_, h3,
      h4 (accumulate_good hge).1, fun m hm => done_of_order ?_⟩
    · simpa [projF, a] using h1
    · have := (accumulate_le hge).2 m hm; omega
  · intro a b
    exfalso
    rw [m1] at a
    have hc := mkAnswer_xa_ok b
    have hge : 21 ≤ toOrder (accumulate .rollback f.received f.outcome f.callback.code) := by rw [hc]; decide
    have := (accumulate_le hge).1
    rw [hc] at this
    have e : toOrder .ok = 22 := rfl
    have := vote_of_order (c := f.callback.code) (by omega)
    obtain ⟨x, y⟩ := hk.2 a
    rcases this with h | h
    · exact x h
    · exact y h
  · intro hp
    exfalso
    rcases hp with ⟨a, b⟩ | ⟨a, b⟩
    · rw [m1] at a; rw [m4 a] at b; cases b
    · rw [m1] at a; exact hk.1 a

theorem fireAll_ok {F : Type} {P : List Obs → F → Prop} (hmono : ∀ tr l f, P tr f → P (tr ++ l) f)
    (run : State → F → State) (hrun : ∀ s f, JX X s → s.halted = false → P s.tr f → Ok X s (run s f)) (s : State) (h : JX X s)
    (fs : List F) (hfs : ∀ f ∈ fs, P s.tr f) : Ok X s (fireAll run s fs) := by
  induction fs generalizing s with
  | nil => exact Ok.refl h
  | cons f fs ih =>
    unfold fireAll
    rw [List.foldl_cons]
    have h1 : Ok X s (if s.halted = true then s else run s f) := by
      split
      · exact Ok.refl h
      · rename_i hh; exact hrun s f h (by simpa using hh) (hfs f (by simp))
    refine h1.trans (ih _ h1.1 ?_)
    intro f' hf'
    obtain ⟨l, hl⟩ := h1.2
    rw [hl]
    exact hmono _ _ _ (hfs f' (by simp [hf']))

theorem fireCommit_ok {s : State} (h : JX X s) {fs : List (Fired Rep Int KFinal)}
    (hfs : ∀ f ∈ fs, FOk .commit projF s.tr f ∧ ComOk f.callback) : Ok X s (fireAll runCommit s fs) :=
  fireAll_ok (P := fun tr f => FOk .commit projF tr f ∧ ComOk f.callback)
    (fun _ _ _ h => ⟨h.1.mono, h.2⟩) runCommit (fun _ _ h _ hf => runCommit_ok h hf.1 hf.2) s h fs hfs

theorem fireRollback_ok {s : State} (h : JX X s) {fs : List (Fired Rep Int KFinal)}
    (hfs : ∀ f ∈ fs, FOk .rollback projF s.tr f ∧ RolOk f.callback) : Ok X s (fireAll runRollback s fs) :=
  fireAll_ok (P := fun tr f => FOk .rollback projF tr f ∧ RolOk f.callback)
    (fun _ _ _ h => ⟨h.1.mono, h.2⟩) runRollback (fun _ _ h _ hf => runRollback_ok h hf.1 hf.2) s h fs hfs

theorem JX.regCommit {s : State} (h : JX X s) {reqs : List Req} {k : KFinal} (hk : ComOk k)
    (hc : Claim s.tr (.fanout .commit k.rtype k.origin k.dest reqs)) : Ok X s (s.regCommit reqs k) := by
  have h1 := (h.emit hc (by simp)).1
  have hmem : Obs.fanout .commit k.rtype k.origin k.dest reqs ∈ (s.emit (.fanout .commit k.rtype k.origin k.dest reqs)).tr := by
    simp [State.emit]
  obtain ⟨hE, hF⟩ := register_ok (p := projF) (k := k) (fun e he => (h1.comE e he).1) hmem
  have h2 : JX X ({ s with com := (s.com.register (toPending reqs) k).1 }.emit (.fanout .commit k.rtype k.origin k.dest reqs)) := by
    refine ⟨h1.claims, h1.prepL, register_lite _ h1.comL _ _, h1.rolL, h1.prepO,
      register_once _ _ h1.comL h1.comO _ _, h1.rolO, h1.prepE, ?_, h1.rolE, h1.txs, h1.replies⟩
    intro e he
    obtain ⟨a, b⟩ := hE e he
    refine ⟨a, ?_⟩
    rcases b with b | b
    · exact (h1.comE e b).2
    · rw [b]; exact hk
  have h3 : Ok X s ({ s with com := (s.com.register (toPending reqs) k).1 }.emit (.fanout .commit k.rtype k.origin k.dest reqs)) :=
    ⟨h2, _, rfl⟩
  refine h3.trans (fireCommit_ok h2 ?_)
  intro f hf
  obtain ⟨a, b⟩ := hF f hf
  exact ⟨a, by rw [b]; exact hk⟩

theorem JX.regRollback {s : State} (h : JX X s) {reqs : List Req} {k : KFinal} (hk : RolOk k)
    (hc : Claim s.tr (.fanout .rollback k.rtype k.origin k.dest reqs)) : Ok X s (s.regRollback reqs k) := by
  have h1 := (h.emit hc (by simp)).1
  have hmem : Obs.fanout .rollback k.rtype k.origin k.dest reqs ∈ (s.emit (.fanout .rollback k.rtype k.origin k.dest reqs)).tr := by
    simp [State.emit]
  obtain ⟨hE, hF⟩ := register_ok (p := projF) (k := k) (fun e he => (h1.rolE e he).1) hmem
  have h2 : JX X ({ s with rol := (s.rol.register (toPending reqs) k).1 }.emit (.fanout .rollback k.rtype k.origin k.dest reqs)) := by
    refine ⟨h1.claims, h1.prepL, h1.comL, register_lite _ h1.rolL _ _, h1.prepO, h1.comO,
      register_once _ _ h1.rolL h1.rolO _ _, h1.prepE, h1.comE, ?_, h1.txs, h1.replies⟩
    intro e he
    obtain ⟨a, b⟩ := hE e he
    refine ⟨a, ?_⟩
    rcases b with b | b
    · exact (h1.rolE e b).2
    · rw [b]; exact hk
  have h3 : Ok X s ({ s with rol := (s.rol.register (toPending reqs) k).1 }.emit (.fanout .rollback k.rtype k.origin k.dest reqs)) :=
    ⟨h2, _, rfl⟩
  refine h3.trans (fireRollback_ok h2 ?_)
  intro f hf
  obtain ⟨a, b⟩ := hF f hf
  exact ⟨a, by rw [b]; exact hk⟩

/-! ### sending -/

theorem JX.issueAll {s : State} (h : JX X s) (kind : Kind) (op : Bool) (l : List (Trid × Int))
    (hc : ∀ r : Req, r.kind = kind → r.onePhase = op → (r.trid, r.rm) ∈ l → Claim s.tr (.issued r)) :
    Ok X s (s.issueAll kind op l).1 := by
  have hs := issueAll_core s kind op l
  obtain ⟨o, h1, h2, h3⟩ := issueAll_tr s kind op l
  refine ⟨h.of' h1 ?_ ?_ hs.prep hs.com hs.rol hs.txs hs.replies ?_, o, h1⟩
  rotate_left 2
  · intro x hx
    rcases h2 x (List.mem_of_mem_tail hx) with hx' | ⟨r, rfl⟩
    · cases x <;> simp_all [IsSend, NotDone]
    · trivial
  · intro x hx
    rcases h2 x hx with hx' | ⟨r, rfl⟩
    · cases x <;> simp_all [IsSend, Claim]
    · obtain ⟨a, b, c⟩ := issued_core_mem h3 hx
      exact hc r a b c
  · intro hx
    rcases h2 _ hx with hx' | ⟨r, hr⟩
    · simp [IsSend] at hx'
    · cases hr

theorem issueAll_kind (s : State) (kind : Kind) (op : Bool) (l : List (Trid × Int)) :
    ∀ q ∈ (s.issueAll kind op l).2, q.kind = kind ∧ q.onePhase = op ∧ (q.trid, q.rm) ∈ l := by
  intro q hq
  have := issueAll_reqs s kind op l
  have hm : q.core ∈ (s.issueAll kind op l).2.map Req.core := List.mem_map_of_mem hq
  rw [this, List.mem_map] at hm
  obtain ⟨x, hx, he⟩ := hm
  simp only [Req.core, Prod.mk.injEq] at he
  obtain ⟨h1, h2, h3, h4⟩ := he
  exact ⟨h1.symm, h4.symm, by rw [← h2, ← h3]; exact hx⟩

theorem issueAll_targets (s : State) (kind : Kind) (op : Bool) (l : List (Trid × Int)) :
    (s.issueAll kind op l).2.map (fun q => (q.trid, q.rm)) = l := by
  have := congrArg (List.map (fun x => (x.2.1, x.2.2.1))) (issueAll_reqs s kind op l)
  simpa [Function.comp_def, Req.core] using this

end Casual.TM
