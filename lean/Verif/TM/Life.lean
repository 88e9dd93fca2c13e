import Verif.TM.Table
/-!
# Life of a transaction: stages only go up, a final answer goes with removal
-/
namespace Casual.TM
open Casual.Code Casual.FanOut

/-- observations made when a resource instance becomes free -/
def IsFree : Obs → Prop
  | .wire .. | .dropped _ | .halted => True
  | _ => False

/-- `s'` comes from `s` by freeing an instance: the trace grows by such observations and either
everything of the transactions is as before or the manager has halted -/
structure Freed (s s' : State) (l : List Obs) : Prop where
  tr : s'.tr = s.tr ++ l
  only : ∀ o ∈ l, IsFree o
  cases : (s'.txs = s.txs ∧ s'.log = s.log ∧ s'.replies = s.replies ∧ s'.halted = s.halted) ∨
    (Obs.halted ∈ l ∧ s'.halted = true ∧ s'.txs = [] ∧ s'.replies = [] ∧
      s'.log = { s.log with durable := s.log.current })

theorem instReady_freed (s : State) (rm : Int) (pid : Nat) : ∃ l, Freed s (s.instReady rm pid) l := by
  unfold State.instReady
  split
  · exact ⟨[], by simp, by simp, .inl ⟨rfl, rfl, rfl, rfl⟩⟩
  split
  · exact ⟨[], by simp, by simp, .inl ⟨rfl, rfl, rfl, rfl⟩⟩
  dsimp only
  split
  · exact ⟨[_], rfl, by simp [IsFree], .inl ⟨rfl, rfl, rfl, rfl⟩⟩
  split
  · exact ⟨[_], rfl, by simp [IsFree], .inl ⟨rfl, rfl, rfl, rfl⟩⟩
  · rename_i r _ _ _ i _ _ _
    exact ⟨[.wire r ⟨i.pid, i.ipc⟩, .halted], by simp [State.halt, State.emit], by simp [IsFree],
      .inr ⟨by simp, rfl, rfl, rfl, rfl⟩⟩

theorem halt_freed (s : State) : Freed s s.halt [.halted] :=
  ⟨rfl, by simp [IsFree], .inr ⟨by simp, rfl, rfl, rfl, rfl⟩⟩

theorem replied_freed (s : State) (rm : Int) (pid : Nat) : ∃ l, Freed s (s.replied rm pid) l := by
  unfold State.replied
  split
  · split
    · exact ⟨_, halt_freed s⟩
    · obtain ⟨l, h1, h2, h3⟩ := instReady_freed { s with proxies := setInst rm pid (fun i => if i.state = .busy then { i with state := .idle } else i) s.proxies } rm pid
      exact ⟨l, h1, h2, h3⟩
  · exact ⟨[], by simp, by simp, .inl ⟨rfl, rfl, rfl, rfl⟩⟩

theorem env_freed (s : State) (e : Event) (he : e.isEnv) : ∃ l, Freed s (handle s e) l := by
  have same : ∀ s' : State, s'.tr = s.tr → s'.txs = s.txs → s'.log = s.log → s'.replies = s.replies →
      s'.halted = s.halted → ∃ l, Freed s s' l :=
    fun s' h1 h2 h3 h4 h5 => ⟨[], by simpa using h1, by simp, .inl ⟨h2, h3, h4, h5⟩⟩
  cases e with
  | ready rm p =>
    dsimp only [handle]
    unfold readyHandler
    split
    · exact ⟨_, halt_freed s⟩
    · dsimp only
      obtain ⟨l, h1, h2, h3⟩ := instReady_freed { s with proxies := setInst rm p.pid (fun (i : Inst) =>
          { i with ipc := p.ipc, state := if i.state = .shutdown then .shutdown else .idle }) s.proxies } rm p.pid
      exact ⟨l, h1, h2, h3⟩
  | spawn rm pid =>
    dsimp only [handle]
    split
    · exact same _ rfl rfl rfl rfl rfl
    · split <;> exact same _ rfl rfl rfl rfl rfl
  | scaleIn rm pid => exact same _ rfl rfl rfl rfl rfl
  | ipcGone i => exact same _ rfl rfl rfl rfl rfl
  | _ => exact he.elim

/-- what logging does: the rows are added, or the manager halts -/
theorem logTx_cases (s : State) (g : Nat) :
    (s.find g = none ∧ s.logTx g = s) ∨
    (∃ t, s.find g = some t ∧ ∃ l, Freed s (s.logTx g) l) ∨
    (∃ t, s.find g = some t ∧ s.logTx g = { s with
        log := { s.log with current := s.log.current ++ t.branches.map (fun b => b.trid.xid) },
        tr := s.tr ++ [.logged t.g (t.branches.map (fun b => b.trid.xid))] }) := by
  unfold State.logTx
  split
  · rename_i t ht
    refine .inr ?_
    unfold State.logPrepare
    dsimp only
    split
    · exact .inl ⟨t, ht, _, halt_freed s⟩
    · exact .inr ⟨t, ht, rfl⟩
  · rename_i hn
    exact .inl ⟨hn, rfl⟩

theorem remove_tr (s : State) (g : Nat) : ∃ l, (s.remove g).tr = s.tr ++ .removed g :: l ∧
    ∀ o ∈ l, ∃ x, o = .disassociate x := by
  unfold State.remove
  dsimp only
  split
  · exact ⟨[.disassociate (some g)], rfl, by simp⟩
  · exact ⟨[], rfl, by simp⟩

theorem removeByRange_tr (s : State) (g : Nat) : ∃ l, (s.removeByRange g).tr = s.tr ++ .removed g :: l ∧
    ∀ o ∈ l, ∃ x, o = .disassociate x := by
  unfold State.removeByRange
  dsimp only
  split
  · exact ⟨[.disassociate _], rfl, by simp⟩
  · exact ⟨[], rfl, by simp⟩

theorem remove_log (s : State) (g : Nat) :
    (s.remove g).log = { s.log with current := s.log.current.filter (fun x => x.g ≠ g) } := by
  unfold State.remove; dsimp only; split <;> rfl

theorem removeByRange_log (s : State) (g : Nat) :
    (s.removeByRange g).log = { s.log with current := s.log.current.filter (fun x => x.g ≠ g) } := by
  unfold State.removeByRange; dsimp only; split <;> rfl

theorem remove_replies (s : State) (g : Nat) : (s.remove g).replies = s.replies := by
  unfold State.remove; dsimp only; split <;> rfl

theorem removeByRange_replies (s : State) (g : Nat) : (s.removeByRange g).replies = s.replies := by
  unfold State.removeByRange; dsimp only; split <;> rfl

theorem issue_grow (s : State) (r : Req) : ∃ l, (∀ o ∈ l, IsSend o) ∧ (s.issue r).1.tr = s.tr ++ .issued r :: l :=
  issue_tr s r

/-! ## Stages -/

/-- the transaction `g` came to an end in these observations -/
def Ended (g : Nat) (l : List Obs) : Prop := Obs.removed g ∈ l ∨ Obs.halted ∈ l ∨ Obs.ev .crash ∈ l

/-- since `s0` each transaction has kept its stage or moved up, unless it has ended -/
def Rising (s0 s : State) : Prop := ∃ l, s.tr = s0.tr ++ l ∧
  ∀ t0 ∈ s0.txs, Ended t0.g l ∨ ∃ t ∈ s.txs, t.g = t0.g ∧ t0.stage.rank ≤ t.stage.rank

theorem Ended.left {g : Nat} {l l' : List Obs} (h : Ended g l) : Ended g (l ++ l') := by
  rcases h with h | h | h
  · exact .inl (by simp [h])
  · exact .inr (.inl (by simp [h]))
  · exact .inr (.inr (by simp [h]))

theorem Ended.right {g : Nat} {l l' : List Obs} (h : Ended g l') : Ended g (l ++ l') := by
  rcases h with h | h | h
  · exact .inl (by simp [h])
  · exact .inr (.inl (by simp [h]))
  · exact .inr (.inr (by simp [h]))

theorem Rising.refl (s : State) : Rising s s := ⟨[], by simp, fun t ht => .inr ⟨t, ht, rfl, Nat.le_refl _⟩⟩

theorem Rising.grow {s0 s s' : State} (h : Rising s0 s) (l : List Obs) (ht : s'.tr = s.tr ++ l)
    (hx : ∀ t ∈ s.txs, Ended t.g l ∨ ∃ t' ∈ s'.txs, t'.g = t.g ∧ t.stage.rank ≤ t'.stage.rank) : Rising s0 s' := by
  obtain ⟨l0, h1, h2⟩ := h
  refine ⟨l0 ++ l, by rw [ht, h1]; simp, ?_⟩
  intro t0 h0
  rcases h2 t0 h0 with h | ⟨t, ht, hg, hr⟩
  · exact .inl h.left
  · rcases hx t ht with h | ⟨t', ht', hg', hr'⟩
    · exact .inl (by rw [← hg]; exact h.right)
    · exact .inr ⟨t', ht', hg'.trans hg, Nat.le_trans hr hr'⟩

theorem Rising.same {s0 s s' : State} (h : Rising s0 s) (l : List Obs) (ht : s'.tr = s.tr ++ l)
    (hx : s'.txs = s.txs) : Rising s0 s' :=
  h.grow l ht (fun t ht => .inr ⟨t, by rw [hx]; exact ht, rfl, Nat.le_refl _⟩)

theorem Rising.freed {s0 s s' : State} {l : List Obs} (h : Rising s0 s) (hf : Freed s s' l) : Rising s0 s' := by
  rcases hf.cases with hc | hc
  · exact h.same l hf.tr hc.1
  · exact h.grow l hf.tr (fun t _ => .inl (.inr (.inl hc.1)))

theorem filter_ne_rising {s : State} {g : Nat} {l : List Obs} (t : Tx) (ht : t ∈ s.txs) :
    Ended t.g (.removed g :: l) ∨ ∃ t' ∈ s.txs.filter (fun t => decide (t.g ≠ g)), t'.g = t.g ∧ t.stage.rank ≤ t'.stage.rank := by
  by_cases hg : t.g = g
  · exact .inl (.inl (by simp [hg]))
  · exact .inr ⟨t, List.mem_filter.mpr ⟨ht, by simpa using hg⟩, rfl, Nat.le_refl _⟩

theorem Rising.remove {s0 s : State} (h : Rising s0 s) (g : Nat) : Rising s0 (s.remove g) := by
  obtain ⟨l, h1, -⟩ := remove_tr s g
  refine h.grow _ h1 ?_
  rw [remove_txs]
  exact fun t ht => filter_ne_rising t ht

theorem Rising.removeByRange {s0 s : State} (h : Rising s0 s) (g : Nat) : Rising s0 (s.removeByRange g) := by
  obtain ⟨l, h1, -⟩ := removeByRange_tr s g
  refine h.grow _ h1 ?_
  rw [removeByRange_txs']
  exact fun t ht => filter_ne_rising t ht

theorem closed_rising' (s0 : State) : ClosedS (fun _ => True) (Rising s0) where
  plain := fun s o _ h => h.same [o] rfl rfl
  prep := fun s _ h => h.same [] (by simp) rfl
  com := fun s _ h => h.same [] (by simp) rfl
  rol := fun s _ h => h.same [] (by simp) rfl
  issue := fun s kind op t rm h => by
    have hc := (issue_core { s with nextCorr := s.nextCorr + 1 } ⟨kind, s.nextCorr, t, rm, op⟩)
    obtain ⟨l, -, hl⟩ := issue_tr { s with nextCorr := s.nextCorr + 1 } ⟨kind, s.nextCorr, t, rm, op⟩
    exact h.same _ hl hc.txs
  modify := fun s g f hf h => by
    refine h.grow [] (by simp [State.modify]) ?_
    intro t ht
    refine .inr ⟨if t.g = g then f t else t, List.mem_map.mpr ⟨t, ht, rfl⟩, ?_, ?_⟩
    · split
      · exact hf.g t
      · rfl
    · split
      · exact hf.rank t
      · exact Nat.le_refl _
  ensure := fun s t _ h => by
    unfold State.ensure
    split
    · exact h
    · exact h.grow [] (by simp) (fun x hx => .inr ⟨x, by simp [hx], rfl, Nat.le_refl _⟩)
  remove := fun s g h => h.remove g
  done := fun s to a g _ h => (h.same [.answer to a] rfl rfl : Rising s0 (s.emit (.answer to a))).remove g
  doneByRange := fun s to a g _ _ h => (h.same [.answer to a] rfl rfl : Rising s0 (s.emit (.answer to a))).removeByRange g
  queue := fun s _ _ h => h.same [] (by simp) rfl
  persist := fun s h => h.same _ rfl rfl
  logTx := fun s g h => by
    rcases logTx_cases s g with ⟨-, e⟩ | ⟨t, -, l, hf⟩ | ⟨t, -, e⟩
    · rw [e]; exact h
    · exact h.freed hf
    · rw [e]; exact h.same _ rfl rfl
  halt := fun s h => h.freed (halt_freed s)
  ext := fun s _ _ h => h.same [] (by simp) rfl
  inbox := fun s _ h => h.same [] (by simp) rfl
  replied := fun s r h => by
    obtain ⟨l, hf⟩ := replied_freed (s.emit (.got r)) r.rm r.pid
    exact Rising.freed (h.same [.got r] rfl rfl : Rising s0 (s.emit (.got r))) hf

theorem closed_rising (s0 : State) : Closed (fun _ => True) (Rising s0) := (closed_rising' s0).closed

theorem rising_run (s0 : State) (hJ : J s0) (es : List Event) : Rising s0 (run s0 es) := by
  refine Closed.run (closed_rising s0) (fun s e _ h => h.same [.ev e] rfl rfl) ?_ ?_ ?_ hJ (Rising.refl s0) es
  · intro s e he h
    obtain ⟨l, hf⟩ := env_freed (s.emit (.ev e)) e he
    exact Rising.freed (h.same [.ev e] rfl rfl : Rising s0 (s.emit (.ev e))) hf
  · intro s pid ps _ h
    exact h.same [.ev (.exit pid)] rfl rfl
  · intro s h
    exact h.grow [.ev .crash] rfl (fun t _ => .inl (.inr (.inr (by simp))))

/-! ## Final answers -/

/-- every final answer is followed at once by the removal of its transaction; nothing final is
queued -/
structure Fin (s : State) : Prop where
  adj : ∀ pre to a post, s.tr = pre ++ .answer to a :: post → Final a → ∃ rest, post = .removed a.g :: rest
  queue : ∀ x ∈ s.replies, ¬ Final x.2

def NotFinal (o : Obs) : Prop := ∀ to a, o = .answer to a → ¬ Final a

theorem adj_append {tr l : List Obs}
    (h : ∀ pre to a post, tr = pre ++ .answer to a :: post → Final a → ∃ rest, post = .removed a.g :: rest)
    (hl : ∀ pre to a post, l = pre ++ .answer to a :: post → Final a → ∃ rest, post = .removed a.g :: rest) :
    ∀ pre to a post, tr ++ l = pre ++ .answer to a :: post → Final a → ∃ rest, post = .removed a.g :: rest := by
  intro pre to a post he hf
  rw [List.append_eq_append_iff] at he
  rcases he with ⟨as, h1, h2⟩ | ⟨bs, h1, h2⟩
  · exact hl as to a post h2 hf
  · cases bs with
    | nil => exact hl [] to a post (by simpa using h2.symm) hf
    | cons b bs =>
      simp only [List.cons_append, List.cons.injEq] at h2
      obtain ⟨rfl, h2⟩ := h2
      obtain ⟨rest, hr⟩ := h pre to a bs h1 hf
      exact ⟨rest ++ l, by rw [h2, hr]; simp⟩

theorem adj_notFinal {l : List Obs} (hl : ∀ o ∈ l, NotFinal o) :
    ∀ pre to a post, l = pre ++ .answer to a :: post → Final a → ∃ rest, post = .removed a.g :: rest := by
  intro pre to a post he hf
  exact absurd hf (hl (.answer to a) (by rw [he]; simp) to a rfl)

theorem Fin.grow {s s' : State} (h : Fin s) (l : List Obs) (ht : s'.tr = s.tr ++ l) (hl : ∀ o ∈ l, NotFinal o)
    (hr : ∀ x ∈ s'.replies, x ∈ s.replies) : Fin s' :=
  ⟨by rw [ht]; exact adj_append h.adj (adj_notFinal hl), fun x hx => h.queue x (hr x hx)⟩

theorem notFinal_of_ne {o : Obs} (h : ∀ to a, o ≠ .answer to a) : NotFinal o := fun to a he => absurd he (h to a)

theorem Freed.notFinal {s s' : State} {l : List Obs} (h : Freed s s' l) : ∀ o ∈ l, NotFinal o := by
  intro o ho
  have := h.only o ho
  refine notFinal_of_ne ?_
  rintro to a rfl
  exact this

theorem Freed.replies {s s' : State} {l : List Obs} (h : Freed s s' l) : ∀ x ∈ s'.replies, x ∈ s.replies := by
  rcases h.cases with h | h
  · rw [h.2.2.1]; exact fun _ h => h
  · rw [h.2.2.2.1]; simp

theorem Fin.freed {s s' : State} {l : List Obs} (h : Fin s) (hf : Freed s s' l) : Fin s' :=
  h.grow l hf.tr hf.notFinal hf.replies

theorem adj_done {to : Proc} {a : Answer} {g : Nat} (hg : Final a → a.g = g) {l : List Obs}
    (hl : ∀ o ∈ l, ∃ x, o = .disassociate x) :
    ∀ pre to' a' post, Obs.answer to a :: .removed g :: l = pre ++ .answer to' a' :: post → Final a' →
      ∃ rest, post = .removed a'.g :: rest := by
  intro pre to' a' post he hf
  cases pre with
  | nil =>
    simp only [List.nil_append, List.cons.injEq, Obs.answer.injEq] at he
    obtain ⟨⟨rfl, rfl⟩, rfl⟩ := he
    exact ⟨l, by rw [hg hf]⟩
  | cons b pre =>
    simp only [List.cons_append, List.cons.injEq] at he
    cases pre with
    | nil => simp at he
    | cons c pre =>
      simp only [List.cons_append, List.cons.injEq] at he
      have : Obs.answer to' a' ∈ l := by rw [he.2.2]; simp
      obtain ⟨x, hx⟩ := hl _ this
      cases hx

theorem closed_fin' : ClosedS (fun _ => True) Fin where
  plain := fun s o ho h => h.grow [o] rfl (by
    intro o' ho'
    simp at ho'; subst ho'
    intro to a he
    subst he
    exact ho) (fun _ h => h)
  prep := fun s _ h => ⟨h.adj, h.queue⟩
  com := fun s _ h => ⟨h.adj, h.queue⟩
  rol := fun s _ h => ⟨h.adj, h.queue⟩
  issue := fun s kind op t rm h => by
    have hc := (issue_core { s with nextCorr := s.nextCorr + 1 } ⟨kind, s.nextCorr, t, rm, op⟩)
    obtain ⟨l, hs, hl⟩ := issue_tr { s with nextCorr := s.nextCorr + 1 } ⟨kind, s.nextCorr, t, rm, op⟩
    refine h.grow _ hl ?_ (by rw [hc.replies]; exact fun _ h => h)
    intro o ho
    refine notFinal_of_ne ?_
    rintro to a rfl
    rcases List.mem_cons.mp ho with h | h
    · cases h
    · exact hs _ h
  modify := fun s g f hf h => ⟨h.adj, h.queue⟩
  ensure := fun s t _ h => by
    unfold State.ensure
    split
    · exact h
    · exact ⟨h.adj, h.queue⟩
  remove := fun s g h => by
    obtain ⟨l, h1, h2⟩ := remove_tr s g
    refine h.grow _ h1 ?_ (by rw [remove_replies]; exact fun _ h => h)
    intro o ho
    refine notFinal_of_ne ?_
    rintro to a rfl
    rcases List.mem_cons.mp ho with h | h
    · cases h
    · obtain ⟨x, hx⟩ := h2 _ h; cases hx
  done := fun s to a g hg h => by
    obtain ⟨l, h1, h2⟩ := remove_tr (s.emit (.answer to a)) g
    refine ⟨?_, by rw [remove_replies]; exact h.queue⟩
    rw [h1]
    simp only [State.emit, List.append_assoc, List.singleton_append]
    exact adj_append h.adj (adj_done hg h2)
  doneByRange := fun s to a g hg _ h => by
    obtain ⟨l, h1, h2⟩ := removeByRange_tr (s.emit (.answer to a)) g
    refine ⟨?_, by rw [removeByRange_replies]; exact h.queue⟩
    rw [h1]
    simp only [State.emit, List.append_assoc, List.singleton_append]
    exact adj_append h.adj (adj_done hg h2)
  queue := fun s x hx h => ⟨h.adj, by
    intro y hy
    rcases List.mem_append.mp hy with hy | hy
    · exact h.queue y hy
    · simp at hy; subst hy; exact hx⟩
  persist := fun s h => h.grow _ rfl (by
    intro o ho
    rcases List.mem_cons.mp ho with rfl | ho
    · exact notFinal_of_ne (by simp)
    · obtain ⟨x, hx, rfl⟩ := List.mem_map.mp ho
      intro to a he
      cases he
      exact h.queue x hx) (by simp [State.persist])
  logTx := fun s g h => by
    rcases logTx_cases s g with ⟨-, e⟩ | ⟨t, -, l, hf⟩ | ⟨t, -, e⟩
    · rw [e]; exact h
    · exact h.freed hf
    · rw [e]; exact h.grow [_] rfl (by simpa using notFinal_of_ne (by simp)) (fun _ h => h)
  halt := fun s h => h.freed (halt_freed s)
  ext := fun s _ _ h => ⟨h.adj, h.queue⟩
  inbox := fun s _ h => ⟨h.adj, h.queue⟩
  replied := fun s r h => by
    obtain ⟨l, hf⟩ := replied_freed (s.emit (.got r)) r.rm r.pid
    refine Fin.freed (h.grow [.got r] rfl ?_ (fun _ h => h) : Fin (s.emit (.got r))) hf
    simpa using notFinal_of_ne (by simp)

theorem closed_fin : Closed (fun _ => True) Fin := (closed_fin' ).closed

theorem reach_fin (self : Proc) (es : List Event) : Fin (run (init self) es) := by
  have hev : ∀ (s : State) e, Fin s → Fin (s.emit (.ev e)) := fun s e h =>
    h.grow [.ev e] rfl (by simpa using notFinal_of_ne (by simp)) (fun _ h => h)
  refine Closed.run closed_fin (fun s e _ h => hev s e h) ?_ ?_ ?_ (init_J self) ?_ es
  · intro s e he h
    obtain ⟨l, hf⟩ := env_freed (s.emit (.ev e)) e he
    exact (hev s e h).freed hf
  · intro s pid ps _ h
    exact ⟨(hev s _ h).adj, h.queue⟩
  · intro s h
    exact ⟨(hev s _ h).adj, by simp [handle, State.restart]⟩
  · exact ⟨by simp [init], by simp [init]⟩

end Casual.TM
