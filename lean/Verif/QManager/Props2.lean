import Verif.QManager.Account

/-!
  The queue manager: every lookup comes to an end, once (C128), none waits for a queue that
  is there (C129), none waits when it does not want to (C130) or when the manager stops
  (C131), what discarding does (C132) and what domain discovery is told (C133).
-/
namespace Casual.QManager

/-- C128.  With any correlation there are never more ends - replies, and confirmations that
the lookup is discarded - than lookups: every lookup has at most one. -/
theorem lookup_ends_at_most_once (env : Env) (dg : Nat) (model : Model) (np : Pid) (xs : List (Env × Input)) (k : Corr) :
    nReplies k (State.run env dg model np xs).core.log ≤ nLookups k (State.run env dg model np xs).core.log := by
  have := run_count k env dg model np xs
  unfold Count at this
  omega

/-- The lookup is in the log, and neither answered, nor discarded by its requester, nor
has the requester exited. -/
def Unanswered (l : Lookup) (log : List Item) : Prop :=
  ∃ pre post, log = pre ++ .inp (.lookup l) :: post ∧ (∀ f, Item.out (.lookupReply l.process.ipc l.corr l.name f) ∉ post) ∧
    (∀ p, Item.inp (.discard l.corr p) ∉ post) ∧ ∀ y ∈ post, ¬ IsExit l.process.pid y

/-- The requester can be reached at all times, and no other lookup has its correlation. -/
structure Proper (l : Lookup) (env : Env) (dg : Nat) (model : Model) (np : Pid) (xs : List (Env × Input)) : Prop where
  reached : ∀ x ∈ xs, x.1.reach l.process.ipc = true
  unique : ∀ x, Item.inp (.lookup x) ∈ (State.run env dg model np xs).core.log → x.corr = l.corr → x = l

section
variable (env : Env) (dg : Nat) (model : Model) (np : Pid) (xs : List (Env × Input)) (l : Lookup)

theorem unanswered_pending (hp : Proper l env dg model np xs) (hu : Unanswered l (State.run env dg model np xs).core.log) :
    l ∈ (State.run env dg model np xs).core.pending := by
  obtain ⟨pre, post, he, h1, h2, h3⟩ := hu
  rcases run_acc env dg model np xs hp.reached hp.unique pre post he with ⟨f, h⟩ | h | h
  · exact absurd h (h1 f)
  · rcases h with ⟨p, h⟩ | ⟨y, hy, hx⟩
    · exact absurd h (h2 p)
    · exact absurd hx (h3 y hy)
  · exact h.1

/-- C129.  A lookup that is not answered waits for a queue that nobody offers: no queue
group of this domain, and - unless it is from another domain and has not discovered - no
remote either. -/
theorem lookup_waits_only_if_none (hp : Proper l env dg model np xs) (hu : Unanswered l (State.run env dg model np xs).core.log) :
    (∀ p, ¬ GroupOffers (State.run env dg model np xs).core.log l.name l.action p) ∧
    (l.requester ≠ .external → ∀ a since, ¬ RemoteOffers (State.run env dg model np xs).core.log l.name l.action a since) := by
  have hm := unanswered_pending env dg model np xs l hp hu
  have hn := run_waits env dg model np xs hp.reached hm
  have hq := (run_rinv env dg model np xs).q
  refine ⟨?_, ?_⟩
  · intro p hg
    obtain ⟨j, hj, he, ho⟩ := hq.group hg
    exact (hn j hj he).2 ho
  · intro hne a since hr
    obtain ⟨j, hj, he, _⟩ := hq.remote hr
    exact hne (hn j hj he).1

/-- C130.  A lookup that does not want to wait is answered at the latest when the
discovery it caused is answered; and it is answered at once if it is not from this domain. -/
theorem lookup_direct_answered (hp : Proper l env dg model np xs) (hd : l.semantic = .direct) (pre post : List Item)
    (he : (State.run env dg model np xs).core.log = pre ++ .inp (.lookup l) :: post)
    (h : Item.inp (.discoveryReply l.corr) ∈ post ∨ l.requester ≠ .internal) :
    (∃ f, Item.out (.lookupReply l.process.ipc l.corr l.name f) ∈ post) ∨
    (∃ p, Item.inp (.discard l.corr p) ∈ post) ∨ ∃ y ∈ post, IsExit l.process.pid y := by
  rcases run_acc env dg model np xs hp.reached hp.unique pre post he with h1 | h1 | ⟨hm, h1⟩
  · exact Or.inl h1
  · exact Or.inr h1
  · rcases h with h | h
    · exact absurd h (h1 hd)
    · exact absurd (((run_linv env dg model np xs).pend l hm).2 hd) h

/-- C131.  When the manager is told to stop nobody is left waiting: every lookup before,
and every one after, is answered. -/
theorem lookup_stop_answers_all (hp : Proper l env dg model np xs) (hs : Stopped (State.run env dg model np xs).core.log) :
    ¬ Unanswered l (State.run env dg model np xs).core.log := by
  intro hu
  have hm := unanswered_pending env dg model np xs l hp hu
  have h := run_linv env dg model np xs
  rw [h.quiet (h.beyond.mpr hs)] at hm
  cases hm

theorem run_snoc (x : Env × Input) : State.run env dg model np (xs ++ [x]) = (State.run env dg model np xs).step x := by
  unfold State.run
  rw [List.foldl_append]
  rfl

/-- C132.  To discard a lookup that is not answered is confirmed, and there will be no
reply to it (see C128); when it is not confirmed, nothing with that correlation waits. -/
theorem lookup_discard_confirms (hp : Proper l env dg model np xs) (hu : Unanswered l (State.run env dg model np xs).core.log)
    (env' : Env) (p : Handle) (hre : env'.reach p.ipc = true) :
    (State.run env dg model np (xs ++ [(env', .discard l.corr p)])).core.log =
      (State.run env dg model np xs).core.log ++ [.inp (.discard l.corr p), .out (.discardReply p.ipc l.corr true)] := by
  have hm := unanswered_pending env dg model np xs l hp hu
  rw [run_snoc]
  obtain ⟨y, hy, _, _⟩ := find_some_of_mem (p := fun x : Lookup => x.corr == l.corr) hm (by simp)
  show (Core.discardRequest _ env' l.corr p).log = _
  unfold Core.discardRequest
  split
  · unfold Core.send
    rw [if_pos hre]
    show (State.run env dg model np xs).core.log ++ [_] ++ [_] = _
    simp
  · rename_i hf
    exact absurd (hf.symm.trans hy) (fun h => by cases h)

/-- C132, the other half: not confirmed means that the lookup is no longer waiting. -/
theorem lookup_discard_refuses (hp : Proper l env dg model np xs) (env' : Env) (p : Handle)
    (h : (State.run env dg model np (xs ++ [(env', .discard l.corr p)])).core.log =
      (State.run env dg model np xs).core.log ++ [.inp (.discard l.corr p), .out (.discardReply p.ipc l.corr false)])
    (hre : env'.reach p.ipc = true) : ¬ Unanswered l (State.run env dg model np xs).core.log := by
  intro hu
  rw [lookup_discard_confirms env dg model np xs l hp hu env' p hre] at h
  have := List.append_cancel_left h
  injection this with _ this
  injection this with this
  injection this with this
  injection this with _ _ this
  cases this

end

/-! ### Discovery -/

theorem filterMap_count {α : Type} (get : Name → Option α) (mk : Name → α → QueueCfg) (hmk : ∀ n a, (mk n a).name = n) (n : Name) :
    ∀ (names : List Name), ((names.filterMap fun n => (get n).map (mk n)).map (·.name)).count n +
      (names.filter fun n => (get n).isNone).count n = names.count n
  | [] => rfl
  | x :: xs => by
    have ih := filterMap_count get mk hmk n xs
    cases hg : get x with
    | none =>
      rw [List.filterMap_cons_none (by simp [hg]), List.filter_cons_of_pos (by simp [hg]), List.count_cons, List.count_cons]
      omega
    | some a =>
      rw [List.filterMap_cons_some (by rw [hg]; rfl), List.filter_cons_of_neg (by simp [hg]), List.map_cons, List.count_cons,
        List.count_cons, hmk]
      omega

/-- C133.  A discovery is told, of every queue it asks for, that it is there or that it is
not - as often as it asks; what is there is offered, for a discovery that does not go beyond this domain by a
queue group of this domain, with the flags it is offered with; what is not there nobody
offers. -/
theorem discovery_told_right (env : Env) (dg : Nat) (model : Model) (np : Pid) (xs : List (Env × Input))
    (env' : Env) (corr : Corr) (p : Handle) (scope : Scope) (names : List Name) (hre : env'.reach p.ipc = true) :
    ∃ content absent,
      (State.run env dg model np (xs ++ [(env', .discoveryLookup corr p scope names)])).core.log =
        (State.run env dg model np xs).core.log ++
          [.inp (.discoveryLookup corr p scope names), .out (.discoveryReply p.ipc corr content absent)] ∧
      (∀ n, (content.map (·.name)).count n + absent.count n = names.count n) ∧
      (∀ q ∈ content, ∃ i, OfferedNow (State.run env dg model np xs).core.log q.name i ∧ i.enable = q.enable ∧
        (scope = .internal → ∃ p' qs cfg, Item.inp (.groupReply p' qs) ∈ (State.run env dg model np xs).core.log ∧
          Item.out (.spawnGroup p'.pid cfg) ∈ (State.run env dg model np xs).core.log ∧ p'.pid = i.process.pid ∧ (q.name, i.queue) ∈ qs)) ∧
      ∀ n ∈ absent, (∀ p', ¬ GroupOffers (State.run env dg model np xs).core.log n .any p') ∧
        (scope = .extended → ∀ a since, ¬ RemoteOffers (State.run env dg model np xs).core.log n .any a since) := by
  have hq := (run_rinv env dg model np xs).q
  rw [run_snoc]
  generalize State.run env dg model np xs = s at *
  have hlook : ∀ n a, (s.core.logged (.discoveryLookup corr p scope names)).queue n a = s.core.queue n a := fun _ _ => rfl
  let get : Name → Option Inst := fun n => match scope with
    | .internal => s.core.localQueue n .any
    | .extended => s.core.queue n .any
  refine ⟨names.filterMap fun n => (get n).map fun i => ({ name := n, enable := i.enable } : QueueCfg),
    names.filter fun n => (get n).isNone, ?_, ?_, ?_, ?_⟩
  · show (Core.discoveryLookup _ env' corr p scope names).log = _
    unfold Core.discoveryLookup Core.send
    rw [if_pos hre]
    show s.core.log ++ [_] ++ [_] = _
    rw [List.append_assoc]
    cases scope <;> rfl
  · intro n
    exact filterMap_count get (fun n i => ({ name := n, enable := i.enable } : QueueCfg)) (fun _ _ => rfl) n names
  · intro q hqm
    obtain ⟨n, _, hg⟩ := List.mem_filterMap.mp hqm
    obtain ⟨j, hj, rfl⟩ := Option.map_eq_some_iff.mp hg
    cases scope with
    | internal =>
      have hjm := List.mem_of_find?_eq_some hj
      have hjp := List.find?_some hj
      rw [Bool.and_eq_true] at hjp
      have hj0 : j.order = 0 := by simpa [Inst.isLocal] using hjp.2
      obtain ⟨i, hi, ha, ho⟩ := hq.sound n j hjm
      refine ⟨i, hi, ha.2.2, fun _ => ?_⟩
      have hi0 : i.order = 0 := by
        rcases ho with ho | ⟨y, _, hy⟩
        · rw [← ho]; exact hj0
        · exfalso
          rw [hj0] at hy
          cases y with
          | out o => exact hy
          | inp i =>
            cases i <;> try exact hy
            exact absurd hy.2.2 (by omega)
      exact order_zero_is_group hi hi0
    | extended =>
      have hjm := List.mem_of_find?_eq_some hj
      obtain ⟨i, hi, ha, _⟩ := hq.sound n j hjm
      exact ⟨i, hi, ha.2.2, fun h => by cases h⟩
  · intro n hn
    have hnone : get n = none := by simpa using (List.mem_filter.mp hn).2
    refine ⟨?_, ?_⟩
    · intro p' hg
      obtain ⟨j, hj, he, ho⟩ := hq.group hg
      cases scope with
      | internal =>
        have : s.core.localQueue n .any = none := hnone
        unfold Core.localQueue at this
        rw [List.find?_eq_none] at this
        exact this j hj (by rw [Bool.and_eq_true]; exact ⟨rfl, by simp [Inst.isLocal, ho]⟩)
      | extended =>
        have : s.core.queue n .any = none := hnone
        unfold Core.queue at this
        rw [List.find?_eq_none] at this
        exact this j hj rfl
    · rintro rfl a since hr
      obtain ⟨j, hj, he, _⟩ := hq.remote hr
      have : s.core.queue n .any = none := hnone
      unfold Core.queue at this
      rw [List.find?_eq_none] at this
      exact this j hj rfl

theorem mem_insertUnique {n m : Name} : ∀ {l : List Name}, m ∈ insertUnique n l ↔ m = n ∨ m ∈ l
  | [] => by simp [insertUnique]
  | x :: xs => by
    unfold insertUnique
    split
    · rw [List.mem_cons]
    · split
      · rename_i h
        subst h
        rw [List.mem_cons]
        constructor
        · intro h; exact Or.inr h
        · rintro (h | h)
          · exact Or.inl h
          · exact h
      · rw [List.mem_cons, mem_insertUnique, List.mem_cons]
        constructor
        · rintro (h | h | h)
          · exact Or.inr (Or.inl h)
          · exact Or.inl h
          · exact Or.inr (Or.inr h)
        · rintro (h | h | h)
          · exact Or.inr (Or.inl h)
          · exact Or.inl h
          · exact Or.inr (Or.inr h)

theorem mem_sortUnique {m : Name} : ∀ {l : List Name}, m ∈ sortUnique l ↔ m ∈ l
  | [] => by simp [sortUnique]
  | x :: xs => by
    show m ∈ insertUnique x (sortUnique xs) ↔ _
    rw [mem_insertUnique, mem_sortUnique, List.mem_cons]

theorem string_trichotomy {a b : Name} (h1 : ¬ a < b) (h2 : a ≠ b) : b < a := by
  rw [String.not_lt] at h1
  apply Classical.byContradiction
  intro hn
  rw [String.not_lt] at hn
  exact h2 (String.le_antisymm hn h1)

theorem sorted_insertUnique {n : Name} : ∀ {l : List Name}, l.Pairwise (· < ·) → (insertUnique n l).Pairwise (· < ·)
  | [], _ => by simp [insertUnique]
  | x :: xs, h => by
    unfold insertUnique
    split
    · rename_i hlt
      rw [List.pairwise_cons]
      refine ⟨?_, h⟩
      intro y hy
      rw [List.pairwise_cons] at h
      rcases List.mem_cons.mp hy with rfl | hy
      · exact hlt
      · exact String.lt_trans hlt (h.1 y hy)
    · split
      · exact h
      · rename_i h1 h2
        rw [List.pairwise_cons] at h ⊢
        refine ⟨?_, sorted_insertUnique h.2⟩
        intro y hy
        rcases mem_insertUnique.mp hy with rfl | hy
        · exact string_trichotomy h1 h2
        · exact h.1 y hy

theorem sorted_sortUnique : ∀ (l : List Name), (sortUnique l).Pairwise (· < ·)
  | [] => List.Pairwise.nil
  | _ :: xs => sorted_insertUnique (sorted_sortUnique xs)

/-- C133.  A rediscovery is told, once and in order, the queues that remotes offer and the ones that
somebody waits for. -/
theorem discovery_known (env : Env) (dg : Nat) (model : Model) (np : Pid) (xs : List (Env × Input))
    (env' : Env) (corr : Corr) (p : Handle) (hre : env'.reach p.ipc = true) :
    ∃ names,
      (State.run env dg model np (xs ++ [(env', .fetchKnown corr p)])).core.log =
        (State.run env dg model np xs).core.log ++ [.inp (.fetchKnown corr p), .out (.knownReply p.ipc corr names)] ∧
      names.Pairwise (· < ·) ∧
      (∀ n act a since, RemoteOffers (State.run env dg model np xs).core.log n act a since → n ∈ names) ∧
      (∀ l, Proper l env dg model np xs → Unanswered l (State.run env dg model np xs).core.log → l.semantic = .wait → l.name ∈ names) ∧
      (∀ n ∈ names,
        (∃ i, OfferedNow (State.run env dg model np xs).core.log n i ∧
          (i.order ≠ 0 ∨ ∃ o, ∃ y ∈ (State.run env dg model np xs).core.log, Reorders i.process.ipc o y)) ∨
        (∃ l, Item.inp (.lookup l) ∈ (State.run env dg model np xs).core.log ∧ l.name = n ∧ l.semantic = .wait ∧
          nReplies l.corr (State.run env dg model np xs).core.log < nLookups l.corr (State.run env dg model np xs).core.log)) := by
  have hq := (run_rinv env dg model np xs).q
  have hl := run_linv env dg model np xs
  have hcount := fun k => run_count k env dg model np xs
  have hpend := fun l => unanswered_pending env dg model np xs l
  rw [run_snoc]
  generalize State.run env dg model np xs = s at *
  refine ⟨_, ?_, sorted_sortUnique ((s.core.queues.filter fun q => q.2.any (·.isRemote)).map (·.1) ++
    (s.core.pending.filter fun l => l.semantic == .wait).map (·.name)), ?_, ?_, ?_⟩
  · show (Core.fetchKnown _ env' corr p).log = _
    unfold Core.fetchKnown Core.send
    rw [if_pos hre]
    show s.core.log ++ [_] ++ [_] = _
    rw [List.append_assoc]
    rfl
  · intro n act a since hr
    obtain ⟨j, hj, _, _, hpos⟩ := hq.remote hr
    rw [mem_sortUnique]
    refine List.mem_append.mpr (Or.inl ?_)
    have hne : look s.core.queues n ≠ [] := fun h => by rw [h] at hj; cases hj
    refine List.mem_map.mpr ⟨(n, look s.core.queues n), List.mem_filter.mpr ⟨look_mem hne, ?_⟩, rfl⟩
    rw [List.any_eq_true]
    exact ⟨j, hj, by simp [Inst.isRemote, hpos]⟩
  · intro l hp hu hw
    rw [mem_sortUnique]
    refine List.mem_append.mpr (Or.inr ?_)
    exact List.mem_map.mpr ⟨l, List.mem_filter.mpr ⟨hpend l hp hu, by simp [hw]⟩, rfl⟩
  · intro n hn
    rw [mem_sortUnique] at hn
    rcases List.mem_append.mp hn with hn | hn
    · obtain ⟨q, hqm, rfl⟩ := List.mem_map.mp hn
      obtain ⟨hqm, hr⟩ := List.mem_filter.mp hqm
      rw [List.any_eq_true] at hr
      obtain ⟨j, hj, hr⟩ := hr
      have hjo : j.order > 0 := of_decide_eq_true hr
      obtain ⟨i, hi, ha, ho⟩ := hq.sound q.1 j (by rw [look_of_mem hq.shape hqm]; exact hj)
      refine Or.inl ⟨i, hi, ?_⟩
      rcases ho with ho | ⟨y, hy, hyr⟩
      · exact Or.inl (by omega)
      · exact Or.inr ⟨_, y, hy, hyr⟩
    · obtain ⟨l, hlm, rfl⟩ := List.mem_map.mp hn
      obtain ⟨hlm, hw⟩ := List.mem_filter.mp hlm
      refine Or.inr ⟨l, (hl.pend l hlm).1, rfl, by simpa using hw, ?_⟩
      have hc := hcount l.corr
      have hpos : 0 < nPending l.corr s.core.pending := by
        unfold nPending
        rw [List.countP_pos_iff]
        exact ⟨l, hlm, by simp⟩
      unfold Count at hc
      omega

/-! ### Concrete histories -/

/-- Only the lookup replies and what is confirmed. -/
def answers (s : State) : List Out := s.core.log.filterMap fun x => match x with
  | .out (.lookupReply d c n f) => some (.lookupReply d c n f)
  | .out (.discardReply d c b) => some (.discardReply d c b)
  | .out (.discoveryReply d c q a) => some (.discoveryReply d c q a)
  | .out (.knownReply d c n) => some (.knownReply d c n)
  | _ => none

/-- A lookup that waits, unanswered. -/
def waiting : Lookup := { corr := 7, process := ⟨30, 130⟩, name := "t", semantic := .wait }

example : Proper waiting allReach 0 demoModel 10 ((demoUp ++ [Input.lookup waiting]).map fun i => (allReach, i)) := by
  constructor
  · intro x hx
    obtain ⟨i, _, rfl⟩ := List.mem_map.mp hx
    rfl
  · intro x hx _
    have h : (State.run allReach 0 demoModel 10 ((demoUp ++ [Input.lookup waiting]).map fun i => (allReach, i))).core.log.filterMap
        (fun y => match y with | .inp (.lookup z) => some z | _ => none) = [waiting] := by decide +kernel
    have : x ∈ (State.run allReach 0 demoModel 10 ((demoUp ++ [Input.lookup waiting]).map fun i => (allReach, i))).core.log.filterMap
        (fun y => match y with | .inp (.lookup z) => some z | _ => none) := List.mem_filterMap.mpr ⟨_, hx, rfl⟩
    rw [h] at this
    exact List.mem_singleton.mp this

example : Unanswered waiting (demoRun (demoUp ++ [.lookup waiting])).core.log :=
  ⟨(demoRun demoUp).core.log, [.out (.discoveryRequest "t" 7)], by decide +kernel,
    fun f h => (by cases List.mem_singleton.mp h), fun p h => (by cases List.mem_singleton.mp h),
    fun y hy h => (by rw [List.mem_singleton.mp hy] at h; exact h)⟩

/-- It is answered when the queue is advertised; discarded; or answered at shutdown.  The
last one was never answered before it is discarded again. -/
example : answers (demoRun (demoUp ++ [.lookup waiting, .advertise (adv ⟨20, 120⟩ 2 .update [qc "t"]), .discard 7 ⟨30, 130⟩])) =
    [.lookupReply 130 7 "t" (some ⟨-1, ⟨20, 120⟩, 3⟩), .discardReply 130 7 false] ∧
  answers (demoRun (demoUp ++ [.lookup waiting, .discard 7 ⟨30, 130⟩, .advertise (adv ⟨20, 120⟩ 2 .update [qc "t"])])) =
    [.discardReply 130 7 true] ∧
  answers (demoRun (demoUp ++ [.lookup waiting, .shutdown, .lookup { waiting with corr := 8 }])) =
    [.lookupReply 130 7 "t" none, .lookupReply 130 8 "t" none] := by decide +kernel

/-- Discovery: `q` and `r` are here, `s` is remote, `t` is not there but waited for. -/
example : answers (demoRun (demoUp ++ [.lookup waiting, .discoveryLookup 1 ⟨40, 140⟩ .internal ["q", "s", "t"],
      .discoveryLookup 2 ⟨40, 140⟩ .extended ["q", "s", "t"], .fetchKnown 3 ⟨40, 140⟩])) =
    [.discoveryReply 140 1 [{ name := "q", enable := { dequeue := false } }] ["s", "t"],
     .discoveryReply 140 2 [{ name := "q", enable := { dequeue := false } }, { name := "s" }] ["t"],
     .knownReply 140 3 ["q", "s", "t"]] := by decide +kernel

/-- The offers of that history. -/
example : GroupOffers (demoRun (demoUp.take 2)).core.log "q" .enqueue ⟨10, 110⟩ := by
  refine ⟨(demoRun (demoUp.take 1)).core.log, [("q", 1)], 1, [], by decide +kernel, by simp,
    ⟨{ alias := "g", queues := [{ name := "q", enable := { dequeue := false } }] }, ?_⟩, ?_, ?_, ?_⟩
  · decide +kernel
  · intro y hy h
    have e : (demoRun (demoUp.take 1)).core.log.filter (fun y => match y with
        | .inp (.exitEvent _) => true | .inp (.childExit _) => true | _ => false) = [] := by decide +kernel
    have hm : y ∈ (demoRun (demoUp.take 1)).core.log.filter (fun y => match y with
        | .inp (.exitEvent _) => true | .inp (.childExit _) => true | _ => false) := by
      refine List.mem_filter.mpr ⟨hy, ?_⟩
      cases y with
      | out o => cases h
      | inp i => cases i <;> first | rfl | cases h
    rw [e] at hm
    cases hm
  · intro cfg hm
    have e : (demoRun (demoUp.take 2)).core.log.filterMap (fun y => match y with
        | .out (.spawnGroup 10 c) => some c | _ => none) =
        [{ alias := "g", queues := [{ name := "q", enable := { dequeue := false } }] }] := by decide +kernel
    have hm' : cfg ∈ (demoRun (demoUp.take 2)).core.log.filterMap (fun y => match y with
        | .out (.spawnGroup 10 c) => some c | _ => none) := List.mem_filterMap.mpr ⟨_, hm, rfl⟩
    rw [e] at hm'
    rw [List.mem_singleton.mp hm']
    rfl
  · intro y hy
    cases hy

example : RemoteOffers (demoRun demoUp).core.log "s" .dequeue (adv ⟨21, 121⟩ 1 .update [qc "q", qc "s"]) [] :=
  ⟨(demoRun (demoUp.take 5)).core.log, qc "s", by decide +kernel, rfl, by simp [adv], rfl, by simp [adv], rfl, fun y hy => by cases hy⟩

end Casual.QManager
