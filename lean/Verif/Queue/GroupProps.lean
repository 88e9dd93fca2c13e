import Verif.Queue.GroupWake

/-!
# Properties of a queue group

`Group.init.run is` is the group after the messages `is` (which include crashes at any point). `tr` is what was
received and sent, in order.
-/
namespace Casual.Queue

/-! ## A concrete group, for examples -/

def exOneQueue : List Conf := [{ name := ['a'], retryCount := 1, retryDelay := 0 }]

/-- Queue `a` gets id 2 (its error queue 1). Process 900 is the queue manager. -/
def exStart : In := .configure 900 0 exOneQueue (some 10) 1

def exEnq (corr : Nat) (id : MsgId) (t : Option Trid) (n : Nat) (now : Time) : In :=
  .enqueue 100 corr id 0 ['a'] t 0 { properties := [], reply := [], type := [], payload := List.replicate n 7 } now

def exDeq (corr : Nat) (t : Option Trid) (block : Bool) (now : Time) : In :=
  .dequeue { proc := 101, corr, queue := 0, name := ['a'], sel := .any, trid := t, block } now

/-! ## C20: size and capacity -/

/-- The size the group calculates with is the sum of the sizes of the payloads stored. -/
theorem C20_size_exact (is : List In) (hup : (Group.init.run is).up = true) :
    (Group.init.run is).current = ((Group.init.run is).db.msgs.map fun m => (m.body.payload.length : Int)).sum :=
  size_run is hup

theorem sized_step {is : List In} {i : In} : Core ((Group.init.run is).step i) := (core is).step i

/-- With a capacity configured, no message makes the group store more than the capacity (or than it already did, if the
capacity has been lowered). -/
theorem C20_capacity (is : List In) (i : In) (cap : Int) (hup : (Group.init.run is).up = true)
    (hcap : (Group.init.run is).capacity = some cap) (hi : i ≠ .crash) :
    ((Group.init.run is).step i).db.size ≤ max (Group.init.run is).db.size cap := by
  have hc := core is
  have hc' := hc.step i
  have hsz := size_run is hup
  generalize Group.init.run is = g at *
  have hs : g.step i = (g.emit (.recv i)).handle i := by
    rcases step_cases g i with ⟨h, -⟩ | ⟨-, h, -⟩
    · exact h
    · rw [h] at hup; simp at hup
  by_cases he : ∃ p c id queue name trid a b now, i = .enqueue p c id queue name trid a b now
  · obtain ⟨p, c, id, queue, name, trid, a, b, now, rfl⟩ := he
    rw [hs] at hc' ⊢
    simp only [Group.handle] at hc' ⊢
    have hdb : (g.emit (.recv (.enqueue p c id queue name trid a b now))).db = g.db := rfl
    have hcu : (g.emit (.recv (.enqueue p c id queue name trid a b now))).current = g.current := rfl
    have hca : (g.emit (.recv (.enqueue p c id queue name trid a b now))).capacity = g.capacity := rfl
    have hops : (g.emit (.recv (.enqueue p c id queue name trid a b now))).ops = g.ops := rfl
    generalize g.emit (.recv (.enqueue p c id queue name trid a b now)) = g0 at *
    rcases enqueue_ops g0 p c id queue name trid a b now with ⟨h, -⟩ | ⟨q, h1, h2, h3, g1, h4, h5, h6⟩
    · rw [h]; show g0.db.size ≤ _; rw [hdb]; omega
    · have hsize := size_enqueue h3
      have hg1 : (g0.enqueue p c id queue name trid a b now).db.size ≤ g1.db.size := by
        obtain ⟨l, h7, h8⟩ := h6
        have hrun : g1.db = DB.empty.run g1.ops := by
          rw [h4, h5, run_snoc, hdb, hc.db, hops]; rfl
        have hinv : Inv g1.db := by rw [hrun]; exact inv_run _
        rw [hc'.db, h7, run_append, ← hrun]
        generalize g1.db = d at hinv
        clear h7 hsize h4
        induction l generalizing d with
        | nil => exact Int.le_refl _
        | cons op l ih =>
          rw [run_cons]
          exact Int.le_trans (ih (fun o ho => h8 o (by simp [ho])) _ (hinv.step op)) (size_step_le hinv (h8 op (by simp)).not)
      rw [← h4] at hsize
      unfold Group.hasCapacity at h1
      rw [hca, hcap] at h1
      simp only [decide_eq_true_eq] at h1
      rw [hdb] at hsize
      omega
  · have ht : Tail (fun op => ¬ op.isEnqueue) (g.emit (.recv i)) ((g.emit (.recv i)).handle i) :=
      (Tail.handle (g.emit (.recv i)) i hi (fun p c id queue name trid a b now h => he ⟨p, c, id, queue, name, trid, a, b, now, h⟩)).imp fun op h => h.1
    rw [hs] at hc' ⊢
    have := size_tail (hc.emit (.recv i) rfl) hc' ht
    have hdb : (g.emit (.recv i)).db.size = g.db.size := rfl
    omega

/-- An enqueue that fits, for a queue that exists, with an id that is not in use, is performed. -/
theorem C20_fitting_is_accepted (is : List In) (p c : Nat) (id : MsgId) (queue : Qid) (name : Name) (t : Option Trid) (a : Time) (b : Body) (now : Time) (cap : Int)
    (hup : (Group.init.run is).up = true) (hcap : (Group.init.run is).capacity = some cap)
    (hfit : (Group.init.run is).db.size + b.payload.length ≤ cap)
    (hq : ∃ r ∈ (Group.init.run is).db.queues, if queue = 0 then r.name = name else r.id = queue)
    (hid : ∀ m ∈ (Group.init.run is).db.msgs, m.id ≠ id) :
    ∃ q after, ((Group.init.run is).step (.enqueue p c id queue name t a b now)).ops =
        (Group.init.run is).ops ++ .enqueue id q (t.map (·.g)) a b now :: after ∧
      ((Group.init.run is).db.enqueue id q (t.map (·.g)) a b now).2 = .ok () := by
  have hsz := size_run is hup
  generalize Group.init.run is = g at *
  have hs : g.step (.enqueue p c id queue name t a b now) = (g.emit (.recv (.enqueue p c id queue name t a b now))).handle (.enqueue p c id queue name t a b now) := by
    rcases step_cases g (.enqueue p c id queue name t a b now) with ⟨h, -⟩ | ⟨-, h, -⟩
    · exact h
    · rw [h] at hup; simp at hup
  rw [hs]
  simp only [Group.handle]
  have hdb : (g.emit (.recv (.enqueue p c id queue name t a b now))).db = g.db := rfl
  have hcu : (g.emit (.recv (.enqueue p c id queue name t a b now))).current = g.current := rfl
  have hca : (g.emit (.recv (.enqueue p c id queue name t a b now))).capacity = g.capacity := rfl
  have hops : (g.emit (.recv (.enqueue p c id queue name t a b now))).ops = g.ops := rfl
  generalize g.emit (.recv (.enqueue p c id queue name t a b now)) = g0 at *
  obtain ⟨r, hr, hrq⟩ := hq
  have htarget : ∃ q, g0.target queue name = some q ∧ g0.db.queues.any (fun r => r.id == q) = true := by
    unfold Group.target
    by_cases hz : queue = 0
    · rw [if_pos hz] at hrq
      rw [if_neg (by simpa using hz)]
      unfold DB.qid?
      rw [hdb]
      cases hf : g.db.queues.find? (fun r => r.name == name) with
      | none => rw [List.find?_eq_none] at hf; exact absurd hrq (by simpa using hf r hr)
      | some x => exact ⟨x.id, rfl, List.any_eq_true.mpr ⟨x, List.mem_of_find?_eq_some hf, by simp⟩⟩
    · rw [if_neg hz] at hrq
      rw [if_pos (by simpa using hz)]
      exact ⟨queue, rfl, by rw [hdb]; exact List.any_eq_true.mpr ⟨r, hr, by simp [hrq]⟩⟩
  obtain ⟨q, htq, hany⟩ := htarget
  have hok : (g0.db.enqueue id q (t.map (·.g)) a b now).2 = .ok () := by
    unfold DB.enqueue DB.insert
    rw [if_neg, if_pos hany]
    rw [hdb]
    simp only [List.any_eq_true, beq_iff_eq, not_exists, not_and]
    exact fun m hm => hid m hm
  rcases enqueue_ops g0 p c id queue name t a b now with ⟨h, hwhy⟩ | ⟨q', h1, h2, h3, g1, h4, h5, h6⟩
  · exfalso
    rcases hwhy with h1 | h1 | ⟨q', e, h1, h2⟩
    · unfold Group.hasCapacity at h1
      rw [hca, hcap] at h1
      simp only [decide_eq_false_iff_not] at h1
      omega
    · rw [htq] at h1; simp at h1
    · rw [htq] at h1; simp only [Option.some.injEq] at h1; subst h1
      rw [hok] at h2; simp at h2
  · obtain ⟨l, h7, h8⟩ := h6
    rw [htq] at h2; simp only [Option.some.injEq] at h2; subst h2
    rw [hdb] at hok
    exact ⟨q, l, by rw [h7, h5, hops]; simp, hok⟩

/-- Capacity 10: six bytes fit, then five more do not, four do. -/
example : (Group.init.run [exStart, exEnq 1 10 none 6 5]).current = 6 ∧
    (Group.init.run [exStart, exEnq 1 10 none 6 5, exEnq 2 11 none 5 6]).current = 6 ∧
    (Group.init.run [exStart, exEnq 1 10 none 6 5, exEnq 2 11 (some ⟨1, 1⟩) 4 6]).current = 10 ∧
    (Group.init.run [exStart, exEnq 1 10 none 6 5]).up = true ∧
    (Group.init.run [exStart, exEnq 1 10 none 6 5]).capacity = some 10 := by decide +kernel

/-! ## C21: what is acknowledged survives a crash -/

theorem crash_db (g : Group) : (g.step .crash).db = g.disk := rfl

/-- An answer that a message has been enqueued (outside a transaction): after a crash at this point, the queuebase is one in
the history of which that enqueue has happened; the request asked for it. -/
theorem C21_enqueue_survives (is : List In) (p c : Nat) (id : MsgId) (h : Ev.send p c (.enqueued none id) ∈ (Group.init.run is).tr) :
    ∃ ops, ((Group.init.run is).step .crash).db = DB.empty.run ops ∧ ops <+: (Group.init.run is).ops ∧
      ∃ queue name a b now q before after, Ev.recv (.enqueue p c id queue name none a b now) ∈ (Group.init.run is).tr ∧
        ops = before ++ .enqueue id q none a b now :: after ∧ ((DB.empty.run before).enqueue id q none a b now).2 = .ok () ∧
        (queue ≠ 0 → q = queue) ∧ (queue = 0 → (DB.empty.run before).qid? name = some q) :=
  ⟨_, (core is).disk, (core is).pre, (core is).sent p c _ h⟩

/-- An answer that a transaction has been committed. -/
theorem C21_commit_survives (is : List In) (p c : Nat) (t : Trid) (h : Ev.send p c (.committed t) ∈ (Group.init.run is).tr) :
    ∃ ops, ((Group.init.run is).step .crash).db = DB.empty.run ops ∧ ops <+: (Group.init.run is).ops ∧ .commit t.g ∈ ops ∧
      ∃ now, Ev.recv (.commit p c t now) ∈ (Group.init.run is).tr := by
  obtain ⟨now, h1, h2⟩ := (core is).sent p c _ h
  exact ⟨_, (core is).disk, (core is).pre, h2, now, h1⟩

/-- An answer that a transaction has been rolled back. -/
theorem C21_rollback_survives (is : List In) (p c : Nat) (t : Trid) (h : Ev.send p c (.rolledBack t) ∈ (Group.init.run is).tr) :
    ∃ ops now, ((Group.init.run is).step .crash).db = DB.empty.run ops ∧ ops <+: (Group.init.run is).ops ∧ .rollback t.g now ∈ ops ∧
      Ev.recv (.rollback p c t now) ∈ (Group.init.run is).tr := by
  obtain ⟨now, h1, h2⟩ := (core is).sent p c _ h
  exact ⟨_, now, (core is).disk, (core is).pre, h2, h1⟩

/-- The answer is sent at the next idle; then the message is there after a crash. Without idle, neither. -/
example : Ev.send 100 1 (.enqueued none 10) ∈ (Group.init.run [exStart, exEnq 1 10 none 6 5, .idle 6]).tr ∧
    ((Group.init.run [exStart, exEnq 1 10 none 6 5, .idle 6]).step .crash).db.msgs.map (·.id) = [10] ∧
    Ev.send 100 1 (.enqueued none 10) ∉ (Group.init.run [exStart, exEnq 1 10 none 6 5]).tr ∧
    ((Group.init.run [exStart, exEnq 1 10 none 6 5]).step .crash).db.msgs = [] ∧
    Ev.send 50 3 (.committed ⟨1, 1⟩) ∈ (Group.init.run [exStart, exEnq 1 10 (some ⟨1, 1⟩) 6 5, .commit 50 3 ⟨1, 1⟩ 6, .idle 7]).tr ∧
    Ev.send 50 3 (.rolledBack ⟨1, 1⟩) ∈ (Group.init.run [exStart, exEnq 1 10 (some ⟨1, 1⟩) 6 5, .rollback 50 3 ⟨1, 1⟩ 6, .idle 7]).tr := by
  decide +kernel

/-! ## C22: a prepare vote -/

/-- The vote is not durable: there is a history in which the transaction manager has got the vote for a transaction that has
enqueued a message, the group has been idle since, it crashes and starts again with the same configuration, then is asked to
commit and answers that it has — and the message does not exist. -/
theorem C22_refuted : ¬ ∀ (is : List In) (p c : Nat) (t : Trid) (id : MsgId) (conf : List Conf) (cap : Option Int) (now : Time),
    Ev.send p c (.prepared t) ∈ (Group.init.run is).tr →
    (∃ m ∈ (Group.init.run is).db.msgs, m.id = id ∧ m.gtrid = some t.g ∧ m.state = .added) →
    (∃ m ∈ ((Group.init.run is).run [.crash, .configure 900 0 conf cap now, .commit p c t now]).db.msgs, m.id = id ∧ m.state = .enqueued) := by
  intro h
  have := h [exStart, exEnq 1 10 (some ⟨1, 1⟩) 6 5, .idle 6, .prepare 50 3 ⟨1, 1⟩, .idle 7] 50 3 ⟨1, 1⟩ 10 exOneQueue (some 10) 8
    (by decide +kernel) (by decide +kernel)
  revert this
  decide +kernel

/-- If, after the vote, the group has acknowledged anything that it promises to be on disk (an enqueue outside a transaction,
a commit or a rollback of any transaction), the state at the vote is on disk: after a crash the queuebase is the one at
the vote plus what has been done to it since.
Missing: the full property, which does not hold (`C22_refuted`). -/
theorem C22_prepare_durable_partial (is is' : List In) (p c : Nat) (t : Trid)
    (hcrash : ∀ i ∈ is', i ≠ .crash)
    (hack : ∃ es p' c' r, ((Group.init.run (is ++ [.prepare p c t])).run is').tr = (Group.init.run (is ++ [.prepare p c t])).tr ++ es ∧ Ev.send p' c' r ∈ es ∧
      ((∃ id, r = .enqueued none id) ∨ (∃ t, r = .committed t) ∨ ∃ t, r = .rolledBack t)) :
    ∃ ops, (((Group.init.run (is ++ [.prepare p c t])).run is').step .crash).db = (Group.init.run (is ++ [.prepare p c t])).db.run ops := by
  have hc := core (is ++ [.prepare p c t])
  have hc' := hc.run is'
  generalize Group.init.run (is ++ [.prepare p c t]) = g at *
  have hstart : After g.tr g.ops none g := ⟨List.prefix_refl _, ⟨[], by simp, Or.inr (by simp), by simp⟩, by simp, by simp⟩
  have hend := hstart.run is' (fun i _ => by cases i <;> simp [In.from?]) (fun i hi he => absurd he (hcrash i hi))
  obtain ⟨es, ht, hd, -⟩ := hend.tr
  obtain ⟨es', p', c', r, ht', hr, hkind⟩ := hack
  have hes : es = es' := by rw [ht] at ht'; exact List.append_cancel_left ht'
  subst hes
  rcases hd with ⟨ops, hops⟩ | hfree
  · refine ⟨ops, ?_⟩
    rw [crash_db, hc'.disk, ← hops, run_append, ← hc.db]
  · exfalso
    have := hfree _ hr
    rcases hkind with ⟨id, rfl⟩ | ⟨t', rfl⟩ | ⟨t', rfl⟩ <;> simp [Ev.free, Reply.free] at this

/-- Another client's acknowledged enqueue after the vote; the message enqueued in the transaction is there after a crash. -/
example :
    Ev.send 100 2 (.enqueued none 11) ∈ (((Group.init.run ([exStart, exEnq 1 10 (some ⟨1, 1⟩) 2 5] ++ [.prepare 50 3 ⟨1, 1⟩])).run [exEnq 2 11 none 2 6, .idle 7]).tr.drop
      (Group.init.run ([exStart, exEnq 1 10 (some ⟨1, 1⟩) 2 5] ++ [.prepare 50 3 ⟨1, 1⟩])).tr.length) ∧
    (((Group.init.run ([exStart, exEnq 1 10 (some ⟨1, 1⟩) 2 5] ++ [.prepare 50 3 ⟨1, 1⟩])).run [exEnq 2 11 none 2 6, .idle 7]).step .crash).db.msgs.map (·.id) = [10, 11] := by
  decide +kernel

/-! ## C46: a dequeue outside a transaction -/

/-- A message handed out outside a transaction can come again: the group crashes, and hands it out a second time. -/
theorem C46_refuted : ¬ ∀ (is : List In) (p c p' c' : Nat) (m m' : Msg), p ≠ p' →
    Ev.send p c (.dequeued none m) ∈ (Group.init.run is).tr → Ev.send p' c' (.dequeued none m') ∈ (Group.init.run is).tr → m.id ≠ m'.id := by
  intro h
  have := h [exStart, exEnq 1 10 none 6 5, .idle 6, exDeq 2 none false 7, .idle 8, .crash, exStart,
    .dequeue { proc := 102, corr := 3, queue := 0, name := ['a'], sel := .any, trid := none, block := false } 9] 101 2 102 3
    { id := 10, queue := 2, origin := 2, gtrid := none, state := .enqueued, redelivered := 0, available := 0, timestamp := 5,
      body := { properties := [], reply := [], type := [], payload := List.replicate 6 7 } }
    { id := 10, queue := 2, origin := 2, gtrid := none, state := .enqueued, redelivered := 0, available := 0, timestamp := 5,
      body := { properties := [], reply := [], type := [], payload := List.replicate 6 7 } } (by decide) (by decide +kernel) (by decide +kernel)
  simp at this

/-- Once the group has, after handing out the message, acknowledged something that it promises to be on disk, the message does
not come again after a crash: nobody can get it, unless somebody has enqueued with the same id again.
Missing: the full property, which does not hold (`C46_refuted`). -/
theorem C46_not_again_partial (is is' : List In) (req : DeqReq) (now : Time) (m : Msg)
    (hout : ((Group.init.run is).step (.dequeue req now)).tr = (Group.init.run is).tr ++ [.recv (.dequeue req now), .send req.proc req.corr (.dequeued none m)])
    (hcrash : ∀ i ∈ is', i ≠ .crash)
    (hack : ∃ es p' c' r, (((Group.init.run is).step (.dequeue req now)).run is').tr = ((Group.init.run is).step (.dequeue req now)).tr ++ es ∧ Ev.send p' c' r ∈ es ∧
      ((∃ id, r = .enqueued none id) ∨ (∃ t, r = .committed t) ∨ ∃ t, r = .rolledBack t)) :
    ∃ ops, ((((Group.init.run is).step (.dequeue req now)).run is').step .crash).db = DB.run ((Group.init.run is).step (.dequeue req now)).db ops ∧
      ((∀ op ∈ ops, ¬ op.enqueues m.id) → Invisible ((((Group.init.run is).step (.dequeue req now)).run is').step .crash).db m.id) := by
  have hgone : ((Group.init.run is).step (.dequeue req now)).db.get? m.id = none := by
    have hc := core is
    generalize Group.init.run is = g at *
    rcases step_cases g (.dequeue req now) with ⟨hs, -⟩ | ⟨hs, -⟩
    · rw [hs] at hout ⊢
      simp only [Group.handle] at hout ⊢
      have hdb : ((g.emit (.recv (.dequeue req now))).tick now).db = g.db := (same_tick _ now).db
      have htr : ((g.emit (.recv (.dequeue req now))).tick now).tr = g.tr ++ [.recv (.dequeue req now)] := (dequeues_tick _ now).2.2
      generalize (g.emit (.recv (.dequeue req now))).tick now = g0 at *
      unfold Group.dequeueOne at hout ⊢
      have hend : ∀ {a b : List Ev} {e : Ev}, a ++ [e] = b ++ [.recv (.dequeue req now), .send req.proc req.corr (.dequeued none m)] → e = .send req.proc req.corr (.dequeued none m) := by
        intro a b e h
        have : a ++ [e] = (b ++ [.recv (.dequeue req now)]) ++ [.send req.proc req.corr (.dequeued none m)] := by rw [h]; simp
        exact (by simpa using (List.append_inj' this rfl).2)
      cases htg : g0.target req.queue req.name with
      | none =>
        rw [htg] at hout
        have := hend (e := .send req.proc req.corr .dequeueFailed) hout
        simp at this
      | some q =>
        rw [htg] at hout
        dsimp only at hout ⊢
        cases hsel : g0.db.select q req.sel now with
        | none =>
          rw [hsel] at hout
          dsimp only at hout
          split at hout
          · exfalso
            have hlen : ∀ g1 : Group, g1.tr = g0.tr → g1.tr ≠ g.tr ++ [.recv (.dequeue req now), .send req.proc req.corr (.dequeued none m)] := by
              intro g1 h1 h2
              rw [h1, htr] at h2
              have := congrArg List.length h2
              simp at this
            dsimp only at hout
            split at hout
            · exact hlen (g0.arm _ now) (dequeues_arm _ _ _).2.2 hout
            · exact hlen g0 rfl hout
          · have := hend (e := .send req.proc req.corr .noMessage) hout
            simp at this
        | some m' =>
          rw [hsel] at hout
          dsimp only at hout ⊢
          cases htr' : req.trid with
          | some t =>
            rw [htr'] at hout
            have := hend (e := .send req.proc req.corr (.dequeued (some t) m')) hout
            simp at this
          | none =>
            rw [htr'] at hout
            have := hend (e := .send req.proc req.corr (.dequeued none m')) hout
            simp only [Ev.send.injEq, Reply.dequeued.injEq, true_and] at this
            subst this
            show (g0.db.dequeue q req.sel none now).1.get? m'.id = none
            rw [hdb, get?_dequeue hc.inv, ← hdb, hsel]
            simp
    · exfalso
      rw [hs] at hout
      have := congrArg List.length hout
      simp [Group.emit] at this
  have hc := core (is ++ [.dequeue req now])
  rw [run_snoc'] at hc
  have hc' := hc.run is'
  generalize (Group.init.run is).step (.dequeue req now) = g at *
  have hstart : After g.tr g.ops none g := ⟨List.prefix_refl _, ⟨[], by simp, Or.inr (by simp), by simp⟩, by simp, by simp⟩
  have hend := hstart.run is' (fun i _ => by cases i <;> simp [In.from?]) (fun i hi he => absurd he (hcrash i hi))
  obtain ⟨es, ht, hd, -⟩ := hend.tr
  obtain ⟨es', p', c', r, ht', hr, hkind⟩ := hack
  have hes : es = es' := by rw [ht] at ht'; exact List.append_cancel_left ht'
  subst hes
  rcases hd with ⟨ops, hops⟩ | hfree
  · have heq : ((g.run is').step .crash).db = g.db.run ops := by rw [crash_db, hc'.disk, ← hops, run_append, ← hc.db]
    refine ⟨ops, heq, ?_⟩
    intro hno
    rw [heq]
    exact gone_stays hc.inv hgone ops hno
  · exfalso
    have := hfree _ hr
    rcases hkind with ⟨id, rfl⟩ | ⟨t', rfl⟩ | ⟨t', rfl⟩ <;> simp [Ev.free, Reply.free] at this

example : ((Group.init.run [exStart, exEnq 1 10 none 2 5, .idle 6]).step (exDeq 2 none false 7)).tr = (Group.init.run [exStart, exEnq 1 10 none 2 5, .idle 6]).tr ++
      [.recv (exDeq 2 none false 7), .send 101 2 (.dequeued none { id := 10, queue := 2, origin := 2, gtrid := none, state := .enqueued, redelivered := 0, available := 0, timestamp := 5, body := { properties := [], reply := [], type := [], payload := [7, 7] } })] ∧
    Ev.send 100 3 (.enqueued none 11) ∈ (((Group.init.run [exStart, exEnq 1 10 none 2 5, .idle 6]).step (exDeq 2 none false 7)).run [exEnq 3 11 none 2 8, .idle 9]).tr := by
  decide +kernel

/-! ## C47: the transaction manager is told -/

/-- Whenever a client gets an answer about work in a transaction, the transaction manager has been told before that the group
is involved in that transaction, and the transaction has not ended in the group in between. -/
theorem C47_manager_told_first (is : List In) (a b : List Ev) (p c : Nat) (t : Trid) (r : Reply)
    (hr : (∃ id, r = .enqueued (some t) id) ∨ ∃ m, r = .dequeued (some t) m) (htr : (Group.init.run is).tr = a ++ .send p c r :: b) :
    ∃ a1 a2, a = a1 ++ .involve t :: a2 ∧
      ∀ e ∈ a2, e ≠ .recv .crash ∧ (∀ p c now, e ≠ .recv (.commit p c t now)) ∧ ∀ p c now, e ≠ .recv (.rollback p c t now) := by
  obtain ⟨a1, a2, h1, h2⟩ := (wp_run is).wire.informed a b p c r t htr (by rcases hr with ⟨id, rfl⟩ | ⟨m, rfl⟩ <;> rfl)
  refine ⟨a1, a2, h1, ?_⟩
  intro e he
  have := h2 e he
  refine ⟨?_, ?_, ?_⟩
  · rintro rfl; exact this trivial
  · rintro p c now rfl; exact this rfl
  · rintro p c now rfl; exact this rfl

example : (Group.init.run [exStart, exEnq 1 10 (some ⟨1, 1⟩) 2 5, exEnq 2 11 (some ⟨1, 1⟩) 2 5]).tr.drop 2 =
    [.recv (exEnq 1 10 (some ⟨1, 1⟩) 2 5), .involve ⟨1, 1⟩, .send 100 1 (.enqueued (some ⟨1, 1⟩) 10),
     .recv (exEnq 2 11 (some ⟨1, 1⟩) 2 5), .send 100 2 (.enqueued (some ⟨1, 1⟩) 11)] := by decide +kernel

/-! ## C48: answers to dequeue requests -/

/-- For each correlation, no more answers to dequeue requests are sent than requests have come. -/
theorem C48_answered_at_most_once (c : Nat) (is : List In) :
    (Group.init.run is).tr.countP (Ev.settles c) ≤ (is.map Ev.recv).countP (Ev.asks c) := by
  have := acct_run c is
  unfold acct at this
  omega

/-- Nothing is forgotten: as long as the group runs, and no process has died, each request is answered or still blocked. -/
theorem C48_answered_or_blocked (c : Nat) (is : List In) (i : In) (hup : (Group.init.run is).up = true)
    (hup' : ((Group.init.run is).step i).up = true) (hex : ∀ p, i ≠ .exit p) :
    ((Group.init.run is).step i).tr.countP (Ev.settles c) + ((Group.init.run is).step i).dequeues.countP (fun r => r.corr == c) =
    (Group.init.run is).tr.countP (Ev.settles c) + (Group.init.run is).dequeues.countP (fun r => r.corr == c) +
      if (Ev.recv i).asks c then 1 else 0 :=
  (acct_step c (core is) (unsettling_run is) i).2 hup hup' hex

/-- A message handed out is an answer to a request: the process, correlation and transaction of the request, a message that is
committed and not taken by anybody, from the queue asked for, fitting the selector. -/
theorem C48_answer_fits (is : List In) (p c : Nat) (t : Option Trid) (m : Msg) (h : Ev.send p c (.dequeued t m) ∈ (Group.init.run is).tr) :
    ∃ req now, Ev.recv (.dequeue req now) ∈ (Group.init.run is).tr ∧ req.proc = p ∧ req.corr = c ∧ req.trid = t ∧
      m.state = .enqueued ∧ (req.queue ≠ 0 → m.queue = req.queue) ∧
      (match req.sel with | .any => True | .byId id => m.id = id | .byProperties ps => m.body.properties = ps) := by
  obtain ⟨req, now, h1, h2, h3, h4, ⟨h5, h6, h7⟩, -⟩ := (wp_run is).wire.answers p c t m h
  exact ⟨req, now, h1, h2, h3, h4, h5, h6, h7⟩

/-- A blocked request is answered when the message comes. -/
example : (Group.init.run [exStart, exDeq 7 (some ⟨3, 1⟩) true 5, exEnq 1 10 none 2 6]).tr.countP (Ev.settles 7) = 0 ∧
    (Group.init.run [exStart, exDeq 7 (some ⟨3, 1⟩) true 5, exEnq 1 10 none 2 6]).dequeues.length = 1 ∧
    (Group.init.run [exStart, exDeq 7 (some ⟨3, 1⟩) true 5, exEnq 1 10 none 2 6, .idle 8]).tr.countP (Ev.settles 7) = 1 ∧
    (Group.init.run [exStart, exDeq 7 (some ⟨3, 1⟩) true 5, exEnq 1 10 none 2 6, .idle 8]).dequeues = [] ∧
    (Group.init.run [exStart, exDeq 7 (some ⟨3, 1⟩) true 5, exEnq 1 10 none 2 6, .idle 8, .idle 9]).up = true := by decide +kernel

/-! ## C49: blocked requests wake up -/

/-- When the group has been idle, no request is blocked for which there is a message: committed, not taken, available, in the
queue asked for and fitting the selector. -/
theorem C49_no_sleeping_request (is : List In) (now : Time) (r : DeqReq) (hr : r ∈ (Group.init.run (is ++ [.idle now])).dequeues) :
    ¬ ∃ m ∈ (Group.init.run (is ++ [.idle now])).db.msgs, m.queue = r.queue ∧ m.state = .enqueued ∧ m.available < now ∧
      (match r.sel with | .any => True | .byId id => m.id = id | .byProperties ps => m.body.properties = ps) := by
  rw [run_snoc'] at hr ⊢
  have hw := (wp_run is).wire
  have hb := blank_run is
  generalize Group.init.run is = g at *
  rcases step_cases g (.idle now) with ⟨hs, -⟩ | ⟨hs, hup, -⟩ <;> rw [hs] at hr ⊢
  · simp only [Group.handle] at hr ⊢
    rw [persist_eq] at hr ⊢
    have hd : ((g.emit (.recv (.idle now))).tick now).flush.dequeues = g.dequeues := by
      have : ∀ g : Group, g.flush.dequeues = g.dequeues := by intro g; unfold Group.flush; split <;> rfl
      rw [this, (dequeues_tick _ now).1]; rfl
    have hdb : ((g.emit (.recv (.idle now))).tick now).flush.db = g.db := by
      have : ∀ g : Group, g.flush.db = g.db := by intro g; unfold Group.flush; split <;> rfl
      rw [this, (same_tick _ now).db]; rfl
    exact pending_waiting (by rw [hdb]; exact hw.inv) (by rw [hd]; exact fun r hr => (hw.asked r hr).2) now r hr
  · rcases hb with hb | hb
    · rw [hb] at hup; simp at hup
    · exfalso
      have : r ∈ g.dequeues := hr
      rw [hb.dequeues] at this; simp at this

/-- But a request for a message that is not available yet may sleep for good: two requests are blocked, a transaction commits two
messages, one of them to be available later. The first request gets the available one, the second is blocked again — and no
timer is set and no alarm on its way that would wake it up. -/
theorem C49_refuted : ¬ ∀ (is : List In) (now : Time) (r : DeqReq) (m : Msg),
    r ∈ (Group.init.run (is ++ [.idle now])).dequeues → m ∈ (Group.init.run (is ++ [.idle now])).db.msgs → m.queue = r.queue → m.state = .enqueued →
    (Group.init.run (is ++ [.idle now])).alarmed = true ∨ ∃ w, (Group.init.run (is ++ [.idle now])).timer = some w ∧ w ≤ m.available := by
  intro h
  have := h [exStart, exDeq 1 none true 5, exDeq 2 none true 5, exEnq 3 10 (some ⟨1, 1⟩) 1 6,
      .enqueue 100 4 11 0 ['a'] (some ⟨1, 1⟩) 50 { properties := [], reply := [], type := [], payload := [1] } 7, .commit 50 5 ⟨1, 1⟩ 8] 9
    { proc := 101, corr := 2, queue := 2, name := ['a'], sel := .any, trid := none, block := true }
    { id := 11, queue := 2, origin := 2, gtrid := some 1, state := .enqueued, redelivered := 0, available := 50, timestamp := 7
      body := { properties := [], reply := [], type := [], payload := [1] } } (by decide +kernel) (by decide +kernel) rfl rfl
  revert this
  simp only [imp_false]
  rw [not_or]
  refine ⟨by decide +kernel, ?_⟩
  have hnone : (Group.init.run ([exStart, exDeq 1 none true 5, exDeq 2 none true 5, exEnq 3 10 (some ⟨1, 1⟩) 1 6,
      .enqueue 100 4 11 0 ['a'] (some ⟨1, 1⟩) 50 { properties := [], reply := [], type := [], payload := [1] } 7, .commit 50 5 ⟨1, 1⟩ 8] ++ [.idle 9])).timer = none := by
    decide +kernel
  rw [hnone]
  rintro ⟨w, hw, -⟩
  simp at hw

theorem flush_dequeues (g : Group) : g.flush.dequeues = g.dequeues := by unfold Group.flush; split <;> rfl
theorem flush_db (g : Group) : g.flush.db = g.db := by unfold Group.flush; split <;> rfl

/-- If there was nothing to serve when the group went idle (each committed message in a queue somebody waits for is to be
available later), the timer is set, at the latest for the earliest of these messages.
Missing: the case that some request is served at the same time, for which it does not hold (`C49_refuted`). -/
theorem C49_timer_partial (is : List In) (now : Time) (hup : (Group.init.run is).up = true)
    (hlater : ∀ r ∈ (Group.init.run is).dequeues, ∀ m ∈ (Group.init.run is).db.msgs, m.queue = r.queue → m.state ≠ .added → m.state = .enqueued ∧ now < m.available)
    (r : DeqReq) (m : Msg) (hr : r ∈ (Group.init.run is).dequeues) (hm : m ∈ (Group.init.run is).db.msgs) (hq : m.queue = r.queue) (hs : m.state = .enqueued) :
    ∃ w, (Group.init.run (is ++ [.idle now])).timer = some w ∧ w ≤ m.available := by
  rw [run_snoc']
  have hi := (core is).inv
  generalize Group.init.run is = g at *
  rcases step_cases g (.idle now) with ⟨hst, -⟩ | ⟨-, h, -⟩
  · rw [hst]
    simp only [Group.handle]
    rw [persist_eq]
    have hd : ((g.emit (.recv (.idle now))).tick now).flush.dequeues = g.dequeues := by
      rw [flush_dequeues, (dequeues_tick _ now).1]; rfl
    have hdb : ((g.emit (.recv (.idle now))).tick now).flush.db = g.db := by
      rw [flush_db, (same_tick _ now).db]; rfl
    generalize ((g.emit (.recv (.idle now))).tick now).flush = g0 at hd hdb
    rw [← hd] at hlater hr
    rw [← hdb] at hlater hm hi
    have hav : ∀ a ∈ g0.db.availables (g0.dequeues.map (·.queue)), now < a.when_ := by
      intro a ha
      unfold DB.availables at ha
      obtain ⟨row, hrow, rfl⟩ := List.mem_map.mp ha
      obtain ⟨h1, h2⟩ := List.mem_filter.mp hrow
      obtain ⟨h3, h4⟩ := List.mem_filter.mp h1
      simp only [decide_eq_true_eq] at h4
      simp only [List.contains_iff_mem] at h2
      obtain ⟨r', hr', hrq⟩ := List.mem_map.mp h2
      have hcount := (hi.exact_ row h3).1
      rw [(sumOf_counted row.id g0.db.msgs).1] at hcount
      have hpos : 0 < ((g0.db.msgs.filter fun m => m.queue == row.id).filter fun m => m.state != .added).length := by omega
      obtain ⟨x, hx⟩ := List.exists_mem_of_length_pos hpos
      simp only [List.mem_filter, beq_iff_eq, bne_iff_ne, ne_eq] at hx
      have hxl := hlater r' hr' x hx.1.1 (by rw [hx.1.2, ← hrq]) hx.2
      show now < (g0.db.available row.id).getD 0
      unfold DB.available
      cases hmin : ((g0.db.msgs.filter fun m => m.queue == row.id && m.state == .enqueued).map (·.available)).min? with
      | none =>
        rw [List.min?_eq_none_iff] at hmin
        have : x.available ∈ (g0.db.msgs.filter fun m => m.queue == row.id && m.state == .enqueued).map (·.available) :=
          List.mem_map_of_mem (List.mem_filter.mpr ⟨hx.1.1, by simp [hx.1.2, hxl.1]⟩)
        rw [hmin] at this; simp at this
      | some w =>
        have := (List.min?_eq_some_iff.mp hmin).1
        obtain ⟨y, hy, rfl⟩ := List.mem_map.mp this
        simp only [List.mem_filter, Bool.and_eq_true, beq_iff_eq] at hy
        exact (hlater r' hr' y hy.1 (by rw [hy.2.1, ← hrq]) (by rw [hy.2.2]; simp)).2
    have hmem : ∃ a ∈ g0.db.availables (g0.dequeues.map (·.queue)), a.when_ ≤ m.available := by
      obtain ⟨row, hrow, hid⟩ := (hi.msgs m hm).fk
      have hcount := free_le_count hi hrow
      have hf : 0 < free g0.db row.id := List.countP_pos_iff.mpr ⟨m, hm, by simp [hs, hid]⟩
      refine ⟨{ queue := row.id, count := row.count, when_ := (g0.db.available row.id).getD 0 }, ?_, ?_⟩
      · unfold DB.availables
        refine List.mem_map.mpr ⟨row, List.mem_filter.mpr ⟨List.mem_filter.mpr ⟨hrow, by simp; omega⟩, ?_⟩, rfl⟩
        rw [hid, hq]
        simp only [List.contains_iff_mem]
        exact List.mem_map_of_mem (f := fun r : DeqReq => r.queue) hr
      · show (g0.db.available row.id).getD 0 ≤ m.available
        unfold DB.available
        have hmm : m.available ∈ (g0.db.msgs.filter fun m => m.queue == row.id && m.state == .enqueued).map (·.available) :=
          List.mem_map_of_mem (List.mem_filter.mpr ⟨hm, by simp [hs, hid]⟩)
        cases hmin : ((g0.db.msgs.filter fun m => m.queue == row.id && m.state == .enqueued).map (·.available)).min? with
        | none => rw [List.min?_eq_none_iff] at hmin; rw [hmin] at hmm; simp at hmm
        | some w => exact min?_le hmm hmin
    unfold Group.pendingDequeues
    rw [if_neg (by intro h; rw [List.isEmpty_iff] at h; rw [h] at hr; simp at hr)]
    dsimp only
    have h1 : List.filter (fun a => decide (a.when_ ≤ now)) (g0.db.availables (g0.dequeues.map (·.queue))) = [] := by
      rw [List.filter_eq_nil_iff]
      intro a ha
      have := hav a ha
      simp only [decide_eq_true_eq]; omega
    have h2 : List.filter (fun a => !decide (a.when_ ≤ now)) (g0.db.availables (g0.dequeues.map (·.queue))) = g0.db.availables (g0.dequeues.map (·.queue)) := by
      rw [List.filter_eq_self]
      intro a ha
      have := hav a ha
      simp only [Bool.not_eq_true', decide_eq_false_iff_not]; omega
    rw [h1, h2]
    obtain ⟨a, ha, hale⟩ := hmem
    have hmapm : a.when_ ∈ (g0.db.availables (g0.dequeues.map (·.queue))).map (·.when_) := List.mem_map_of_mem ha
    cases hmin : ((g0.db.availables (g0.dequeues.map (·.queue))).map (·.when_)).min? with
    | none => rw [List.min?_eq_none_iff] at hmin; rw [hmin] at hmapm; simp at hmapm
    | some w =>
      have hle := min?_le hmapm hmin
      have hin := (List.min?_eq_some_iff.mp hmin).1
      obtain ⟨a', ha', rfl⟩ := List.mem_map.mp hin
      have := hav a' ha'
      refine ⟨a'.when_, ?_, by omega⟩
      dsimp only
      unfold Group.setTimer
      rw [if_neg (by omega)]
  · rw [h] at hup; simp at hup

/-- One request, one message to be available at 50. -/
example : (Group.init.run [exStart, exDeq 1 none true 5,
    .enqueue 100 4 11 0 ['a'] none 50 { properties := [], reply := [], type := [], payload := [1] } 7]).dequeues.length = 1 ∧
    (Group.init.run [exStart, exDeq 1 none true 5,
      .enqueue 100 4 11 0 ['a'] none 50 { properties := [], reply := [], type := [], payload := [1] } 7, .idle 9]).timer = some 50 := by decide +kernel

/-! ## C50: the queue asked for -/

/-- A client that asks for a queue by name gets a message only from a queue that had this name at some time. -/
theorem C50_named_queue (is : List In) (p c : Nat) (t : Option Trid) (m : Msg) (h : Ev.send p c (.dequeued t m) ∈ (Group.init.run is).tr) :
    ∃ req now, Ev.recv (.dequeue req now) ∈ (Group.init.run is).tr ∧ req.proc = p ∧ req.corr = c ∧
      (req.queue ≠ 0 → m.queue = req.queue) ∧
      (req.queue = 0 → ∃ is0, is0 <+: is ∧ (Group.init.run is0).db.qid? req.name = some m.queue) := by
  obtain ⟨req, now, h1, h2, h3, -, ⟨-, h6, -⟩, h8⟩ := (wp_run is).wire.answers p c t m h
  exact ⟨req, now, h1, h2, h3, h6, h8⟩

/-- But not from the queue that has this name when the message is handed out: a request is blocked on queue `b`, the queue is
removed, a new queue `c` gets its id, a message is enqueued to `c` — and handed out to the one who asked for `b`. -/
theorem C50_refuted : ¬ ∀ (is : List In) (p c : Nat) (t : Option Trid) (m : Msg),
    Ev.send p c (.dequeued t m) ∈ (Group.init.run is).tr →
    ∃ req now, Ev.recv (.dequeue req now) ∈ (Group.init.run is).tr ∧ req.proc = p ∧ req.corr = c ∧
      (req.queue = 0 → ∃ q0 p0 c0 a0 b0 now0, Ev.recv (.enqueue p0 c0 m.id q0 req.name t a0 b0 now0) ∈ (Group.init.run is).tr) := by
  intro h
  obtain ⟨req, now, h1, -, -, h4⟩ := h [.configure 900 0 [⟨['a'], 0, 0⟩, ⟨['b'], 0, 0⟩] none 1,
      .dequeue { proc := 101, corr := 7, queue := 0, name := ['b'], sel := .any, trid := none, block := true } 2,
      .configure 900 0 [⟨['a'], 0, 0⟩] none 3, .configure 900 0 [⟨['a'], 0, 0⟩, ⟨['c'], 0, 0⟩] none 4,
      .enqueue 100 1 10 0 ['c'] none 0 { properties := [], reply := [], type := [], payload := [] } 5, .idle 6] 101 7 none
    { id := 10, queue := 4, origin := 4, gtrid := none, state := .enqueued, redelivered := 0, available := 0, timestamp := 5,
      body := { properties := [], reply := [], type := [], payload := [] } } (by decide +kernel)
  have htr : (Group.init.run [.configure 900 0 [⟨['a'], 0, 0⟩, ⟨['b'], 0, 0⟩] none 1,
      .dequeue { proc := 101, corr := 7, queue := 0, name := ['b'], sel := .any, trid := none, block := true } 2,
      .configure 900 0 [⟨['a'], 0, 0⟩] none 3, .configure 900 0 [⟨['a'], 0, 0⟩, ⟨['c'], 0, 0⟩] none 4,
      .enqueue 100 1 10 0 ['c'] none 0 { properties := [], reply := [], type := [], payload := [] } 5, .idle 6]).tr.filterMap
        (fun e => match e with | .recv (.dequeue r _) => some (r.queue, r.name) | _ => none) = [(0, ['b'])] := by decide +kernel
  have hreq : (req.queue, req.name) ∈ [((0 : Nat), ['b'])] := by
    rw [← htr]; exact List.mem_filterMap.mpr ⟨_, h1, rfl⟩
  simp only [List.mem_singleton, Prod.mk.injEq] at hreq
  obtain ⟨q0, p0, c0, a0, b0, now0, h5⟩ := h4 hreq.1
  have henq : (Group.init.run [.configure 900 0 [⟨['a'], 0, 0⟩, ⟨['b'], 0, 0⟩] none 1,
      .dequeue { proc := 101, corr := 7, queue := 0, name := ['b'], sel := .any, trid := none, block := true } 2,
      .configure 900 0 [⟨['a'], 0, 0⟩] none 3, .configure 900 0 [⟨['a'], 0, 0⟩, ⟨['c'], 0, 0⟩] none 4,
      .enqueue 100 1 10 0 ['c'] none 0 { properties := [], reply := [], type := [], payload := [] } 5, .idle 6]).tr.filterMap
        (fun e => match e with | .recv (.enqueue _ _ _ _ n _ _ _ _) => some n | _ => none) = [['c']] := by decide +kernel
  have : req.name ∈ [['c']] := by
    rw [← henq]; exact List.mem_filterMap.mpr ⟨_, h5, rfl⟩
  rw [hreq.2] at this
  simp at this

theorem qid_keys {a b : List QRow} (h : keys a = keys b) (n : Name) :
    (a.find? fun r => r.name == n).map (·.id) = (b.find? fun r => r.name == n).map (·.id) := by
  have : ∀ l : List QRow, (l.find? fun r => r.name == n).map (·.id) = ((keys l).find? fun k => k.2.1 == n).map (·.1) := by
    intro l
    induction l with
    | nil => rfl
    | cons r l ih =>
      simp only [List.find?_cons, keys, List.map_cons, QRow.key] at ih ⊢
      cases r.name == n
      · exact ih
      · rfl
  rw [this, this, h]

theorem keys_ops {db : DB} (hi : Inv db) (l : List Op) (h : ∀ op ∈ l, ¬ op.isConfigure) : keys (db.run l).queues = keys db.queues := by
  induction l generalizing db with
  | nil => rfl
  | cons op l ih =>
    rw [run_cons, ih (hi.step op) (fun o ho => h o (by simp [ho]))]
    exact keys_step hi fun conf e => h op (by simp) (by rw [e]; trivial)

/-- Without a new configuration, the queues keep name and id. -/
theorem keys_run {g : Group} (hc : Core g) (is : List In) (h : ∀ i ∈ is, ¬ i.isConfigure ∧ i ≠ .crash) : keys (g.run is).db.queues = keys g.db.queues := by
  induction is generalizing g with
  | nil => rfl
  | cons i is ih =>
    show keys ((g.step i).run is).db.queues = _
    rw [ih (hc.step i) fun j hj => h j (by simp [hj])]
    obtain ⟨h1, h2⟩ := h i (by simp)
    have hT : Tail (fun op => ¬ op.isConfigure) g (g.step i) := by
      rcases step_cases g i with ⟨hs, -⟩ | ⟨hs, -⟩ <;> rw [hs]
      · refine (Tail.of_eq rfl : Tail _ g (g.emit (.recv i))).trans ?_
        by_cases he : ∃ p c id queue name trid a b now, i = .enqueue p c id queue name trid a b now
        · obtain ⟨p, c, id, queue, name, trid, a, b, now, rfl⟩ := he
          simp only [Group.handle]
          rcases enqueue_ops (g.emit (.recv (.enqueue p c id queue name trid a b now))) p c id queue name trid a b now with ⟨h, -⟩ | ⟨q, -, -, -, g1, -, h5, h6⟩
          · rw [h]; exact Tail.of_eq rfl
          · exact Tail.trans ⟨_, h5, by simp [Op.isConfigure]⟩ (h6.imp fun op ho => by cases op <;> simp_all [Op.isDequeue, Op.isConfigure])
        · exact (Tail.handle _ i h2 (fun p c id queue name trid a b now h => he ⟨p, c, id, queue, name, trid, a, b, now, h⟩)).imp fun op ho (hcf : op.isConfigure) => h1 (ho.2 hcf)
      · exact Tail.of_eq rfl
    obtain ⟨l, h3, h4⟩ := hT
    rw [(hc.step i).db, h3, run_append, ← hc.db]
    exact keys_ops hc.inv l h4

/-- As long as the group gets no second configuration and does not crash, a client that asks for a queue by name gets a message
only from the queue with this name.
Missing: with a new configuration in between it does not hold (`C50_refuted`). -/
theorem C50_named_queue_partial (first : In) (is : List In) (h : ∀ i ∈ is, ¬ i.isConfigure ∧ i ≠ .crash) (p c : Nat) (t : Option Trid) (m : Msg)
    (hm : Ev.send p c (.dequeued t m) ∈ (Group.init.run (first :: is)).tr) :
    ∃ req now, Ev.recv (.dequeue req now) ∈ (Group.init.run (first :: is)).tr ∧ req.proc = p ∧ req.corr = c ∧
      (req.queue ≠ 0 → m.queue = req.queue) ∧ (req.queue = 0 → (Group.init.run (first :: is)).db.qid? req.name = some m.queue) := by
  obtain ⟨req, now, h1, h2, h3, h4, h5⟩ := C50_named_queue (first :: is) p c t m hm
  refine ⟨req, now, h1, h2, h3, h4, ?_⟩
  intro hz
  obtain ⟨is0, hp, hq⟩ := h5 hz
  cases is0 with
  | nil => simp [Group.run, Group.init, DB.qid?, DB.empty] at hq
  | cons i is0 =>
    obtain ⟨s, hs⟩ := hp
    simp only [List.cons_append, List.cons.injEq] at hs
    obtain ⟨rfl, rfl⟩ := hs
    have hc0 : Core (Group.init.step i) := Core.init.step i
    have k1 := keys_run hc0 is0 fun j hj => h j (List.mem_append_left _ hj)
    have k2 := keys_run hc0 (is0 ++ s) h
    have hk : keys (Group.init.run (i :: (is0 ++ s))).db.queues = keys (Group.init.run (i :: is0)).db.queues := k2.trans k1.symm
    unfold DB.qid? at hq ⊢
    rw [qid_keys hk]; exact hq

example : (∀ i ∈ [exDeq 7 none true 5, exEnq 1 10 none 2 6, .idle 8], ¬ i.isConfigure ∧ i ≠ .crash) ∧
    (Group.init.run [exStart, exDeq 7 none true 5, exEnq 1 10 none 2 6, .idle 8]).tr.countP (Ev.settles 7) = 1 := by
  refine ⟨?_, by decide +kernel⟩
  intro i hi
  simp only [List.mem_cons, List.not_mem_nil, or_false] at hi
  rcases hi with rfl | rfl | rfl <;> simp [In.isConfigure, exDeq, exEnq]

/-! ## C52: a process that has died -/

/-- After the group has been told that a process has died, and as long as no message of that process arrives any more, the
group sends it nothing. -/
theorem C52_dead_gets_nothing (is is' : List In) (p : Nat) (hfrom : ∀ i ∈ is', i.from? ≠ some p) :
    ∃ es, (Group.init.run (is ++ [.exit p] ++ is')).tr = (Group.init.run (is ++ [.exit p])).tr ++ es ∧
      ∀ c r, Ev.send p c r ∉ es := by
  have hb := blank_run is
  have hstart : After (Group.init.run (is ++ [.exit p])).tr [] (some p) (Group.init.run (is ++ [.exit p])) := by
    rw [run_snoc']
    generalize Group.init.run is = g at hb ⊢
    refine ⟨List.nil_prefix, ⟨[], by simp, Or.inr (by simp), by simp⟩, ?_, ?_⟩
    · rcases step_cases g (.exit p) with ⟨hs, -⟩ | ⟨hs, hup, -⟩ <;> rw [hs]
      · intro r hr
        simp only [Group.handle, List.mem_filter, decide_eq_true_eq] at hr
        simpa using hr.2
      · rcases hb with hb | hb
        · rw [hb] at hup; simp at hup
        · intro r hr
          have : r ∈ g.dequeues := hr
          rw [hb.dequeues] at this; simp at this
    · rcases step_cases g (.exit p) with ⟨hs, -⟩ | ⟨hs, hup, -⟩ <;> rw [hs]
      · intro x hx
        simp only [Group.handle, List.mem_filter, decide_eq_true_eq] at hx
        simpa using hx.2
      · rcases hb with hb | hb
        · rw [hb] at hup; simp at hup
        · intro x hx
          have : x ∈ g.replies := hx
          rw [hb.replies] at this; simp at this
  have hend := hstart.run is' (fun i hi => Or.inl (hfrom i hi)) (fun _ _ _ => rfl)
  obtain ⟨es, ht, -, hg⟩ := hend.tr
  refine ⟨es, ?_, ?_⟩
  · rw [← ht]; unfold Group.run; rw [List.foldl_append]
  · intro c r hm
    have := hg _ hm
    simp [Ev.goesTo] at this

example : (Group.init.run ([exStart, exDeq 7 none true 5] ++ [.exit 101] ++ [exEnq 1 10 none 2 6, .idle 8])).db.msgs.map (·.id) = [10] ∧
    (Group.init.run ([exStart, exDeq 7 none true 5] ++ [.exit 101] ++ [exEnq 1 10 none 2 6, .idle 8])).tr.countP (Ev.settles 7) = 0 := by decide +kernel

end Casual.Queue
