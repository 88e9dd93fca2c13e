import Verif.Tx.Props2
import Verif.Tx.Props4
import Verif.Conv.Model
/-!
Conversations and transactions. The transaction context of a process is the one of `Verif.Tx`; this file is about what a
conversation does to it:

* `tpconnect` in a transaction, without `TPNOTRAN`, associates the correlation of the conversation with the transaction
  (`transaction.associate( message.correlation)`, common/source/service/conversation/context.cpp:310-317). `Transaction::replied` is only
  called by `transaction::Context::update`, that is for replies to `tpcall` and `tpacall` (service/call/context.cpp:268):
  nothing in conversation/context.cpp does it, and the correlation is none of the reserved call descriptors. So the effect on the
  context is the one of a call that is never answered, `Tx.callFails`.
* `tpsend`, `tprecv`, `tpdiscon` do not touch the context at all.
* the end of a service, server/handle/service.h:139-211.
-/
namespace Casual.Conv.Trans
open Casual.Tx

/-- What `tpconnect` does to the transaction context, conversation/context.cpp:310-317; the correlation is a new one. -/
def connectTx (noTran : Bool) : Tx.Act := .callFails noTran

/-- The two ways a service is called. -/
inductive Kind
  | call | conversation
  deriving DecidableEq, Repr

/-- `reply.transaction_state` after `complement::reply`, server/handle/service.cpp:116-157; 0 is `ok`, 1 is `rollback`. In the one for
conversations the state is not set, and it is `ok` in a new message (message/conversation.h:174). -/
def complement : Kind → Bool → ReplyState
  | .call, success => if success then 0 else 1
  | .conversation, _ => 0

/-- `execute_transaction`, server/handle/service.h:201-209: the end of the service, `success` is `TPSUCCESS`. -/
def serviceEnd (k : Kind) (e : Env) (success : Bool) (c : Ctx) : Ctx × ReplyState :=
  finalize e (complement k success == 0) c

/-- The event that the caller is given: `reply.code.result` after `complement::reply` and `normalize_code` (server/handle/service.h:92-116). -/
def serviceCode (k : Kind) (e : Env) (success : Bool) (c : Ctx) : Code :=
  if success then (if (serviceEnd k e success c).2 = 0 then .ok else .error) else .fail

/-- The reply is the one of the conversation model. -/
theorem serviceCode_eq (k : Kind) (e : Env) (s : Bool) (c : Ctx) :
    serviceCode k e s c = replyCode s ((serviceEnd k e s c).2 == 0) := by
  unfold serviceCode replyCode
  cases s <;> simp

/-! ### a correlation that is never answered -/

/-- The correlation is pending in the transaction `x`, and is not one of a call. -/
def H (k : Nat) (x : Xid) (c : Ctx) : Prop :=
  k ∉ c.outstanding ∧ k < c.nextCorr ∧ ∃ t ∈ c.stack, t.trid = some x ∧ k ∈ t.pending

theorem H.ext {k : Nat} {x : Xid} {c c' : Ctx} {p : Tx.Event → Prop} (h : H k x c) (he : Extends p c c') : H k x c' := by
  obtain ⟨evs, _, h2⟩ := he
  rw [h2]; exact h

theorem H.fields {k : Nat} {x : Xid} {c c' : Ctx} (h : H k x c) (h1 : c'.outstanding = c.outstanding)
    (h2 : c'.nextCorr = c.nextCorr) (h3 : ∀ t ∈ c.stack, t ∈ c'.stack) : H k x c' := by
  obtain ⟨a, b, t, ht, h⟩ := h
  exact ⟨by rw [h1]; exact a, by rw [h2]; exact b, t, h3 t ht, h⟩

theorem H.emit {k : Nat} {x : Xid} {c : Ctx} (h : H k x c) (ev : Tx.Event) : H k x (emit ev c) := h

theorem H.stop {k : Nat} {x : Xid} {c : Ctx} (h : H k x c) (e : Env) (y f rs) : H k x (stopAll e y f rs c).1 :=
  h.ext (stopAll_extends e y f rs c)

theorem H.startAll {k : Nat} {x : Xid} {c : Ctx} (h : H k x c) (e : Env) (y f a rs) : H k x (startAll e y f a rs c).1 :=
  h.ext (startAll_extends e y f a rs c)

theorem setCurrent_corr (f : Tran → Tran) (c : Ctx) : (setCurrent f c).outstanding = c.outstanding ∧
    (setCurrent f c).nextCorr = c.nextCorr := by
  unfold setCurrent
  split
  · exact ⟨rfl, rfl⟩
  · split <;> exact ⟨rfl, rfl⟩

theorem H.set {k : Nat} {x : Xid} {c : Ctx} (h : H k x c) {f : Tran → Tran} (h1 : ∀ t, (f t).trid = t.trid)
    (h2 : ∀ t, k ∈ t.pending → k ∈ (f t).pending) : H k x (setCurrent f c) := by
  obtain ⟨a, b, t, ht, h3, h4⟩ := h
  obtain ⟨e1, e2⟩ := setCurrent_corr f c
  refine ⟨by rw [e1]; exact a, by rw [e2]; exact b, ?_⟩
  unfold setCurrent
  split
  · exact ⟨t, ht, h3, h4⟩
  · rename_i u us hst
    split
    · exact ⟨t, ht, h3, h4⟩
    · rw [hst] at ht
      rcases List.mem_cons.1 ht with rfl | ht
      · exact ⟨_, List.mem_cons_self, by rw [h1]; exact h3, h2 _ h4⟩
      · exact ⟨t, List.mem_cons_of_mem _ ht, h3, h4⟩

theorem H.begin {k : Nat} {x : Xid} {c : Ctx} (h : H k x c) (e : Env) (now : Time) : H k x (begin e now c).1 := by
  have hnew : ∀ {c : Ctx}, H k x c → H k x (beginNew e now c).1 := by
    intro c h
    have hs : ∀ (l : List Rm) (y : Xid) (c : Ctx), H k x c → H k x (beginStart e y l c).1 := by
      intro l
      induction l with
      | nil => intro y c h; exact h
      | cons r rs ih => intro y c h; exact ih y _ h
    have hp : ∀ (l : List Rm) (y : Xid) (c : Ctx), H k x c → H k x (beginStop e y l c) := by
      intro l
      induction l with
      | nil => intro y c h; exact h
      | cons r rs ih => intro y c h; exact ih y _ h
    unfold beginNew
    dsimp only
    have h0 := hs e.fixed (.mine c.next) (Tx.emit (.began (.mine c.next) ((newTran c.next (deadlineOf now c.timeout)).involve e.fixed).deadline)
      { c with timeout := 0, next := c.next + 1 }) h
    split
    · exact h0.fields rfl rfl (fun t ht => List.mem_cons_of_mem _ ht)
    · exact hp _ _ _ h0
  unfold Tx.begin
  split
  · split
    · exact h
    · dsimp only
      split
      · exact h.stop e _ _ _
      · exact hnew (h.stop e _ _ _)
  · split
    · exact h
    · exact hnew h

theorem H.resumeCurrent {k : Nat} {x : Xid} {c : Ctx} (h : H k x c) (e : Env) (a : List Rm) : H k x (resumeCurrent e a c).1 := by
  unfold Tx.resumeCurrent
  split
  · exact h
  · split
    · exact h
    · exact (h.set (f := (·.involve a)) (fun _ => rfl) (fun _ h => h)).startAll e _ _ _ _

theorem H.continuation {k : Nat} {x : Xid} {s : Ctx × Casual.Code.Tx} (h : H k x s.1) (e : Env) (now : Time) :
    H k x (continuation e now s).1 := by
  unfold Tx.continuation
  split
  · exact h
  · exact h.begin e now
  · exact h.resumeCurrent e _

theorem H.commit {k : Nat} {x : Xid} {c : Ctx} (h : H k x c) {e : Env} (hw : W e c) (now : Time) : H k x (commit e now c).1 := by
  unfold Tx.commit
  split
  · exact h
  · rename_i hp
    have hp : commitPre (current c) = .ok := by
      cases hx : decide (commitPre (current c) = .ok) with
      | true => exact of_decide_eq_true hx
      | false => exact absurd (of_decide_eq_false hx) hp
    refine H.continuation (H.ext ?_ (commitT_calm e _ _)) e now
    obtain ⟨a, b, t, ht, h3, h4⟩ := h
    refine ⟨a, b, t, ?_, h3, h4⟩
    have hcur : ∃ y, (current c).trid = some y := by
      cases hy : (current c).trid with
      | none => unfold commitPre at hp; rw [hy] at hp; simp at hp
      | some y => exact ⟨y, rfl⟩
    obtain ⟨y, hy⟩ := hcur
    obtain ⟨u, us, hst, _, hcu, _⟩ := current_some hw.emp hy
    show t ∈ c.stack.tail
    rw [hst] at ht ⊢
    rcases List.mem_cons.1 ht with rfl | ht
    · exfalso
      rw [hcu] at hp
      have : t.pending ≠ [] := List.ne_nil_of_mem h4
      unfold commitPre at hp
      rw [if_pos (c := t.pending ≠ []) this] at hp
      split at hp
      · cases hp
      · split at hp
        · cases hp
        · split at hp <;> cases hp
    · exact ht

theorem H.suspend {k : Nat} {x : Xid} {c : Ctx} (h : H k x c) (e : Env) : H k x (suspend e c).1 := by
  unfold Tx.suspend
  split
  · exact h
  · dsimp only
    have := (h.set (f := fun t => { t with suspended := true }) (fun _ => rfl) (fun _ h => h)).stop e
    split <;> exact this _ _ _

theorem H.resume {k : Nat} {x : Xid} {c : Ctx} (h : H k x c) (e : Env) (y : Option Xid) : H k x (resume e y c).1 := by
  unfold Tx.resume
  split
  · exact h
  split
  · exact h
  split
  · exact h
  split
  · exact h
  rename_i y _ _ _ pre t post hsp
  split
  · exact h
  obtain ⟨hrev, htx⟩ := splitAt_some hsp
  obtain ⟨a, b, u, hu, h3, h4⟩ := h
  have hu' : u = t ∨ u ∈ pre ∨ u ∈ post := by
    rw [← List.mem_reverse, hrev] at hu
    rcases List.mem_append.1 hu with h | h
    · exact Or.inr (Or.inl h)
    · rcases List.mem_cons.1 h with h | h
      · exact Or.inl h
      · exact Or.inr (Or.inr h)
  have key : ∀ (v : Tran) (l : List Tran), v.trid = t.trid → v.pending = t.pending →
      (v ∈ l ∧ (∀ u ∈ pre, u ∈ l) ∧ ∀ u ∈ post, u ∈ l) → ∃ t' ∈ l, t'.trid = some x ∧ k ∈ t'.pending := by
    rintro v l hv1 hv2 ⟨l1, l2, l3⟩
    rcases hu' with rfl | hu | hu
    · exact ⟨v, l1, by rw [hv1]; exact h3, by rw [hv2]; exact h4⟩
    · exact ⟨u, l2 u hu, h3, h4⟩
    · exact ⟨u, l3 u hu, h3, h4⟩
  have rot : ∀ v : Tran, v ∈ (post ++ pre ++ [v]).reverse ∧ (∀ u ∈ pre, u ∈ (post ++ pre ++ [v]).reverse) ∧
      ∀ u ∈ post, u ∈ (post ++ pre ++ [v]).reverse := by
    intro v
    refine ⟨by simp, ?_, ?_⟩ <;> intro u hu <;> simp [hu]
  have mid : ∀ v : Tran, v ∈ (pre ++ v :: post).reverse ∧ (∀ u ∈ pre, u ∈ (pre ++ v :: post).reverse) ∧
      ∀ u ∈ post, u ∈ (pre ++ v :: post).reverse := by
    intro v
    refine ⟨by simp, ?_, ?_⟩ <;> intro u hu <;> simp [hu]
  dsimp only
  split
  · exact ⟨a, b, key { t with suspended := false } _ rfl rfl (rot _)⟩
  · obtain ⟨evs, h1, h2⟩ := startAll_extends e y .resume e.fixed
      (({ t with suspended := false } : Tran).involve e.fixed).involved
      { c with stack := (pre ++ ({ t with suspended := false } : Tran).involve e.fixed :: post).reverse }
    split
    · rw [h2]
      exact ⟨a, b, key (({ t with suspended := false } : Tran).involve e.fixed) _ rfl rfl (mid _)⟩
    · rw [h2]
      exact ⟨a, b, key (({ t with suspended := false } : Tran).involve e.fixed) _ rfl rfl (rot _)⟩

theorem H.accum {k : Nat} {x : Xid} {α : Type} {f : α → Ctx → Ctx × Casual.Code.Tx} (hf : ∀ a c, H k x c → H k x (f a c).1) :
    ∀ (l : List α) (s : Ctx × Casual.Code.Tx), H k x s.1 → H k x (accum f l s).1
  | [], _, h => h
  | a :: l, (c, _), h => H.accum hf l _ (hf a c h)

theorem H.join {k : Nat} {x : Xid} {c : Ctx} (h : H k x c) (e : Env) (y : Option Xid) : H k x (join e y c).1 := by
  unfold Tx.join
  split
  · exact h.fields rfl rfl (fun t ht => List.mem_cons_of_mem _ ht)
  · split
    · exact h.fields rfl rfl (fun t ht => List.mem_cons_of_mem _ ht)
    · dsimp only
      refine H.accum ?_ _ _ ?_
      · intro r c h; exact h
      · exact h.fields rfl rfl (fun t ht => List.mem_cons_of_mem _ ht)

theorem H.start {k : Nat} {x : Xid} {c : Ctx} (h : H k x c) (e : Env) : H k x (start e c).1 := by
  unfold Tx.start
  dsimp only
  have h0 : H k x (Tx.emit (.began (.mine c.next) none) { c with next := c.next + 1 }) := h
  split
  · exact h0.startAll e _ _ _ _
  · exact (h0.startAll e _ _ _ _).fields rfl rfl (fun t ht => List.mem_cons_of_mem _ ht)

theorem H.branch {k : Nat} {x : Xid} {c : Ctx} (h : H k x c) (e : Env) (n : Nat) : H k x (branch e n c).1 := by
  unfold Tx.branch
  dsimp only
  split
  · exact h.fields rfl rfl (fun t ht => List.mem_cons_of_mem _ ht)
  · refine H.startAll ?_ e _ _ _ _
    exact h.fields rfl rfl (fun t ht => List.mem_cons_of_mem _ ht)

theorem H.call {k : Nat} {x : Xid} {c : Ctx} (h : H k x c) (b : Bool) : H k x (call b c) := by
  have h1 : H k x { c with nextCorr := c.nextCorr + 1, outstanding := c.outstanding ++ [c.nextCorr] } := by
    obtain ⟨a, b, t⟩ := h
    refine ⟨?_, Nat.lt_succ_of_lt b, t⟩
    intro hk
    rcases List.mem_append.1 hk with hk | hk
    · exact a hk
    · rw [List.mem_singleton] at hk; omega
  unfold Tx.call
  dsimp only
  split
  · split
    · exact h1
    · exact (h1.set (f := (·.associate c.nextCorr)) (fun _ => rfl) (fun _ hk => List.mem_append_left _ hk)).emit _
  · exact h1

theorem H.callFails {k : Nat} {x : Xid} {c : Ctx} (h : H k x c) (b : Bool) : H k x (callFails b c) := by
  have h1 : H k x { c with nextCorr := c.nextCorr + 1 } := ⟨h.1, Nat.lt_succ_of_lt h.2.1, h.2.2⟩
  unfold Tx.callFails
  dsimp only
  split
  · split
    · exact h1
    · exact h1.set (f := (·.associate c.nextCorr)) (fun _ => rfl) (fun _ hk => List.mem_append_left _ hk)
  · exact h1

theorem updateFirst_keeps {corr st k : Nat} {x : Xid} (hk : k ≠ corr) : ∀ {l : List Tran},
    (∃ t ∈ l, t.trid = some x ∧ k ∈ t.pending) → ∃ t ∈ updateFirst corr st l, t.trid = some x ∧ k ∈ t.pending
  | [], ⟨t, ht, _⟩ => by cases ht
  | u :: us, ⟨t, ht, h1, h2⟩ => by
    unfold updateFirst
    split
    · rcases List.mem_cons.1 ht with rfl | ht
      · exact ⟨_, List.mem_cons_self, h1, List.mem_filter.2 ⟨h2, by simpa using hk⟩⟩
      · exact ⟨t, List.mem_cons_of_mem _ ht, h1, h2⟩
    · rcases List.mem_cons.1 ht with rfl | ht
      · exact ⟨_, List.mem_cons_self, h1, h2⟩
      · obtain ⟨t', h3, h4⟩ := updateFirst_keeps (corr := corr) (st := st) hk ⟨t, ht, h1, h2⟩
        exact ⟨t', List.mem_cons_of_mem _ h3, h4⟩

theorem H.reply {k : Nat} {x : Xid} {c : Ctx} (h : H k x c) (corr st : Nat) : H k x (reply corr st c) := by
  unfold Tx.reply
  split
  · rename_i hc
    obtain ⟨a, b, t, ht, h3⟩ := h
    have hne : k ≠ corr := by rintro rfl; exact a hc
    refine ⟨fun hk => a (List.mem_filter.1 hk).1, b, ?_⟩
    obtain ⟨t', h4, h5⟩ := updateFirst_keeps (corr := corr) (st := st) hne (l := c.stack.reverse)
      ⟨t, List.mem_reverse.2 ht, h3⟩
    exact ⟨t', List.mem_reverse.2 h4, h5⟩
  · exact h

theorem H.cancel {k : Nat} {x : Xid} {c : Ctx} (h : H k x c) (corr : Nat) : H k x (cancel corr c).1 := by
  unfold Tx.cancel
  split
  · exact h
  split
  · exact h
  · exact ⟨fun hk => h.1 (List.mem_filter.1 hk).1, h.2.1, h.2.2⟩

theorem H.callAndReply {k : Nat} {x : Xid} {c : Ctx} (h : H k x c) (b : Bool) (st : Option Nat) : H k x (callAndReply b st c) := by
  unfold Tx.callAndReply
  split
  · exact (h.call b).reply _ _
  · exact h.callFails b

theorem H.sync {k : Nat} {x : Xid} {c : Ctx} (h : H k x c) (e : Env) (b : Bool) (st : Option Nat) : H k x (sync e b st c).1 := by
  unfold Tx.sync
  split
  · dsimp only
    split
    · split
      · exact (h.emit _).stop e _ _ _
      · exact (((h.emit _).stop e _ _ _).callAndReply _ _).resumeCurrent e _
    · split
      · exact h.stop e _ _ _
      · exact ((h.stop e _ _ _).callAndReply _ _).resumeCurrent e _
  · exact h.callAndReply _ _

/-- Everything but a rollback and the end of the service keeps it. -/
theorem H.step {k : Nat} {x : Xid} {c : Ctx} (h : H k x c) {e : Env} (hw : W e c) (a : Tx.Act) (h1 : ∀ now, a ≠ .rollback now)
    (h2 : ∀ b, a ≠ .finalize b) : H k x (Tx.step e c a) := by
  cases a with
  | begin now => exact h.begin e now
  | commit now => exact h.commit hw now
  | rollback now => exact absurd rfl (h1 now)
  | suspend => exact h.suspend e
  | resume y => exact h.resume e y
  | setControl k => exact h
  | setReturn l => exact h
  | setTimeout t =>
    show H _ x (Tx.setTimeout t c).1
    unfold Tx.setTimeout
    split <;> exact h
  | reg r =>
    show H k x (register e r c).1
    unfold register
    split
    · exact h
    split
    · exact h
    have h3 := h.set (f := fun t => { t with dynamic := addUnique t.dynamic r }) (fun _ => rfl) (fun _ h => h)
    dsimp only
    split
    · exact h3
    · rename_i y _
      split
      · exact h3.emit _
      · have h4 := (h3.emit (.reg r y)).set (f := (·.involve [r])) (fun _ => rfl) (fun _ h => h)
        split
        · exact h4
        · exact h4.emit _
  | unreg r =>
    show H k x (unregister r c).1
    unfold unregister
    split
    · exact h
    split
    · exact h
    · exact h.set (f := fun t => { t with dynamic := t.dynamic.erase r }) (fun _ => rfl) (fun _ h => h)
  | join n => exact h.join e _
  | start => exact h.start e
  | branch n => exact h.branch e n
  | call b => exact h.call b
  | reply corr st => exact h.reply corr st
  | cancel corr => exact h.cancel corr
  | callFails b => exact h.callFails b
  | sync b st => exact h.sync e b st
  | external =>
    show H k x (Tx.external c)
    unfold Tx.external
    split
    · exact (h.set (f := fun t => { t with external := true }) (fun _ => rfl) (fun _ h => h)).emit _
    · exact h
  | finalize b => exact absurd rfl (h2 b)

/-- Neither a rollback nor the end of a service. -/
def goesOn : Tx.Act → Bool
  | .rollback _ => false
  | .finalize _ => false
  | _ => true

theorem run_append (e : Env) (as bs : List Tx.Act) : Tx.run e (as ++ bs) = bs.foldl (Tx.step e) (Tx.run e as) := by
  unfold Tx.run
  rw [List.foldl_append]

theorem connected_pending {e : Env} {as bs : List Tx.Act} {x : Xid} (hx : (current (Tx.run e as)).trid = some x)
    (hb : ∀ a ∈ bs, goesOn a = true) : ∃ k, H k x (Tx.run e (as ++ connectTx false :: bs)) := by
  refine ⟨(Tx.run e as).nextCorr, ?_⟩
  have hw := W.run e as
  have h0 : H (Tx.run e as).nextCorr x (Tx.run e (as ++ [connectTx false])) := by
    rw [run_append]
    show H _ x (Tx.callFails false (Tx.run e as))
    obtain ⟨t, ts, hst, hsu, hct, htx⟩ := current_some hw.emp hx
    unfold Tx.callFails
    dsimp only
    rw [hx]
    simp only [Bool.false_eq_true, if_false]
    rw [setCurrent_head (c := { Tx.run e as with nextCorr := (Tx.run e as).nextCorr + 1 }) (t := t) (ts := ts) hst hsu]
    refine ⟨?_, Nat.lt_succ_self _, t.associate _, List.mem_cons_self, htx, List.mem_append_right _ (List.mem_singleton.2 rfl)⟩
    intro hk
    exact absurd (hw.inv.freshO _ hk) (Nat.lt_irrefl _)
  have go : ∀ (bs : List Tx.Act) (pre : List Tx.Act), (∀ a ∈ bs, goesOn a = true) → H (Tx.run e as).nextCorr x (Tx.run e pre) →
      H (Tx.run e as).nextCorr x (Tx.run e (pre ++ bs)) := by
    intro bs
    induction bs with
    | nil => intro pre _ h; simpa using h
    | cons a bs ih =>
      intro pre hb h
      have ha := hb a List.mem_cons_self
      have : H (Tx.run e as).nextCorr x (Tx.run e (pre ++ [a])) := by
        rw [run_append]
        exact h.step (W.run e pre) a (by rintro now rfl; cases ha) (by rintro b rfl; cases ha)
      have := ih (pre ++ [a]) (fun b hb' => hb b (List.mem_cons_of_mem _ hb')) this
      simpa using this
  have := go bs _ hb h0
  simpa using this

/-! ### C197 the transaction of a conversation can be committed -/

/-- "A transaction in which a conversation has been connected to, and ended, can be committed": it never can, by `tx_commit`, whatever
has happened since the `tpconnect`. The call returns `TX_PROTOCOL_ERROR` and does nothing. -/
theorem conv_commit_refuted (e : Env) (as bs : List Tx.Act) (n : Nat) (now : Time)
    (hx : (current (Tx.run e as)).trid = some (.mine n)) (hb : ∀ a ∈ bs, goesOn a = true)
    (hc : (current (Tx.run e (as ++ connectTx false :: bs))).trid = some (.mine n)) :
    commit e now (Tx.run e (as ++ connectTx false :: bs)) = (Tx.run e (as ++ connectTx false :: bs), .protocol) := by
  obtain ⟨k, _, _, t, ht, h3, h4⟩ := connected_pending (e := e) (as := as) (bs := bs) hx hb
  have hw := W.run e (as ++ connectTx false :: bs)
  generalize Tx.run e (as ++ connectTx false :: bs) = c at hc ht hw ⊢
  obtain ⟨u, us, hst, hsu, hcu, hux⟩ := current_some hw.emp hc
  have heq : t = u := by
    rw [hst] at ht
    rcases List.mem_cons.1 ht with h | h
    · exact h
    · exfalso
      have hnd := hw.inv.nodup
      rw [hst, List.filterMap_cons_some (b := n) (by simp [mineOf, hux]), List.nodup_cons] at hnd
      exact hnd.1 (List.mem_filterMap.mpr ⟨t, h, by simp [mineOf, h3]⟩)
  subst heq
  have hp : commitPre (current c) = .protocol := by
    rw [hcu]
    have h5 : t.pending ≠ [] := List.ne_nil_of_mem h4
    have h6 : t.own = true := own_iff.mpr ⟨n, h3⟩
    unfold commitPre
    simp [h3, h5, h6]
  unfold commit
  rw [if_pos (by rw [hp]; simp), hp]

/-- And a service that is called within a transaction, and connects to another service in it, can not succeed: at the end of it the state
of its transaction is an error, and the reply is `TPESVCERR`, or `TPEV_SVCERR`. -/
theorem conv_service_fails_refuted (e : Env) (as bs : List Tx.Act) (x : Xid) (k : Kind)
    (hx : (current (Tx.run e as)).trid = some x) (hb : ∀ a ∈ bs, goesOn a = true) :
    (serviceEnd k e true (Tx.run e (as ++ connectTx false :: bs))).2 ≥ 3 ∧
    serviceCode k e true (Tx.run e (as ++ connectTx false :: bs)) = .error := by
  obtain ⟨k', _, _, t, ht, h3, h4⟩ := connected_pending (e := e) (as := as) (bs := bs) hx hb
  generalize Tx.run e (as ++ connectTx false :: bs) = c at ht ⊢
  have hany : c.stack.reverse.any (fun t => decide (t.pending ≠ []) && t.trid.isSome) = true := by
    rw [List.any_eq_true]
    exact ⟨t, List.mem_reverse.2 ht, by simp [h3, List.ne_nil_of_mem h4]⟩
  have h3 : (serviceEnd k e true c).2 ≥ 3 := by
    have e0 : (complement k true == 0) = true := by cases k <;> rfl
    unfold serviceEnd
    rw [e0]
    unfold finalize
    dsimp only
    rw [hany]
    simp only [if_true]
    split
    · exact Nat.le_max_left _ _
    · split
      · refine Nat.le_trans ?_ (Nat.le_max_left _ _)
        split <;> rename_i h
        · simp at h
        · exact Nat.le_max_left _ _
      · refine Nat.le_trans ?_ (Nat.le_max_left _ _)
        split <;> rename_i h
        · simp at h
        · exact Nat.le_max_left _ _
  refine ⟨h3, ?_⟩
  unfold serviceCode
  have h4 : (serviceEnd k e true c).2 ≠ 0 := by
    intro h; rw [h] at h3; exact absurd h3 (by decide)
  rw [if_pos rfl, if_neg h4]

/-- With `TPNOTRAN` the transaction is not touched. -/
theorem conv_commit_partial (e : Env) (as : List Tx.Act) :
    (Tx.run e (as ++ [connectTx true])).stack = (Tx.run e as).stack ∧ (Tx.run e (as ++ [connectTx true])).log = (Tx.run e as).log := by
  rw [run_append]
  show (Tx.callFails true (Tx.run e as)).stack = _ ∧ (Tx.callFails true (Tx.run e as)).log = _
  unfold Tx.callFails
  dsimp only
  split <;> exact ⟨rfl, rfl⟩

/-! ### C198 a service that fails commits nothing -/

/-- With `tpcall`, nothing is committed when a service returns `TPFAIL`. -/
theorem conv_fail_partial (e : Env) (c : Ctx) :
    ∃ evs, (serviceEnd .call e false c).1.log = evs ++ c.log ∧ ∀ ev ∈ evs, ∀ x, commits x ev = false :=
  C83_failed_commits_nothing e c

/-- In a conversation `TPFAIL` and `TPSUCCESS` do the same to the transactions. -/
theorem conv_fail_same (e : Env) (c : Ctx) : serviceEnd .conversation e false c = serviceEnd .conversation e true c := rfl

/-- "A service that returns `TPFAIL` commits nothing": in a conversation its own transaction is committed, and the caller gets
`TPEV_SVCFAIL`. -/
theorem conv_fail_refuted : ∃ (e : Env) (as : List Tx.Act) (n : Nat),
    .committed (.mine n) ∉ (Tx.run e as).log ∧
    .committed (.mine n) ∈ (serviceEnd .conversation e false (Tx.run e as)).1.log ∧
    serviceCode .conversation e false (Tx.run e as) = .fail :=
  ⟨okEnv [] [], [.start], 0, by decide +kernel, by decide +kernel, by decide +kernel⟩

/-- With a resource: it gets `xa_commit`. -/
theorem conv_fail_resource_refuted : ∃ (e : Env) (as : List Tx.Act) (n : Nat) (r : Rm),
    .xa (.commit r (.mine n)) .ok ∈ (serviceEnd .conversation e false (Tx.run e as)).1.log ∧
    (∀ k, .xa (.commit r (.mine n)) k ∉ (serviceEnd .call e false (Tx.run e as)).1.log) ∧
    .xa (.rollback r (.mine n)) .ok ∈ (serviceEnd .call e false (Tx.run e as)).1.log :=
  ⟨okEnv [1] [], [.start], 0, 1, by decide +kernel, by
    intro k h
    have h2 : (serviceEnd .call (okEnv [1] []) false (Tx.run (okEnv [1] []) [.start])).1.log.all
      (fun e => match e with | .xa (.commit _ _) _ => false | _ => true) = true := by decide +kernel
    have := List.all_eq_true.1 h2 _ h
    simp at this, by decide +kernel⟩

/-! ### the hypotheses can be met -/

/-- A transaction with a resource, a conversation, a call that is answered, and a nested transaction that is committed. -/
example : let e := okEnv [1] []
    let as := [Tx.Act.begin 0]
    let bs := [Tx.Act.sync false (some 0), .setControl .stacked, .begin 1, .commit 2]
    (current (Tx.run e as)).trid = some (.mine 0) ∧ (∀ a ∈ bs, goesOn a = true) ∧
    (current (Tx.run e (as ++ connectTx false :: bs))).trid = some (.mine 0) ∧
    (commit e 3 (Tx.run e (as ++ connectTx false :: bs))).2 = .protocol ∧
    (commit e 3 (Tx.run e (as ++ bs))).2 = .ok := by decide +kernel

/-- A service that is called in a transaction of somebody else. -/
example : let e := okEnv [1] []
    let as := [Tx.Act.join (some 7)]
    (current (Tx.run e as)).trid = some (.other 7 0) ∧
    serviceCode .conversation e true (Tx.run e (as ++ connectTx false :: [])) = .error ∧
    serviceCode .conversation e true (Tx.run e (as ++ connectTx true :: [])) = .ok := by decide +kernel

end Casual.Conv.Trans
