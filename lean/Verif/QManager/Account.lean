import Verif.QManager.Props

/-! Lookups: every one is accounted for. -/
namespace Casual.QManager

open Casual.Task

/-! ### Counting -/

/-- A lookup with this correlation comes to its end: a reply, or it is confirmed that
it is discarded. -/
def isReplyTo (k : Corr) : Item → Bool
  | .out (.lookupReply _ c _ _) => c == k
  | .out (.discardReply _ c true) => c == k
  | _ => false

def IsEnd : Item → Prop
  | .out (.lookupReply ..) => True
  | .out (.discardReply _ _ true) => True
  | _ => False

def isLookupOf (k : Corr) : Item → Bool
  | .inp (.lookup l) => l.corr == k
  | _ => false

/-- The number of lookups with this correlation that have come to their end. -/
def nReplies (k : Corr) (log : List Item) : Nat := log.countP (isReplyTo k)

/-- The number of lookups with this correlation. -/
def nLookups (k : Corr) (log : List Item) : Nat := log.countP (isLookupOf k)

def nPending (k : Corr) (ls : List Lookup) : Nat := ls.countP (·.corr == k)

theorem nReplies_append (k : Corr) (a b : List Item) : nReplies k (a ++ b) = nReplies k a + nReplies k b := List.countP_append
theorem nLookups_append (k : Corr) (a b : List Item) : nLookups k (a ++ b) = nLookups k a + nLookups k b := List.countP_append
theorem nPending_append (k : Corr) (a b : List Lookup) : nPending k (a ++ b) = nPending k a + nPending k b := List.countP_append

/-- No more replies, and lookups that wait, than lookups. -/
def Count (k : Corr) (more : Nat) (c : Core) : Prop := nReplies k c.log + nPending k c.pending + more ≤ nLookups k c.log

theorem Count.other {k m} {c c' : Core} (h : Count k m c) (ys : List Item) (hl : c'.log = c.log ++ ys) (hy : ∀ y ∈ ys, ¬ IsEnd y)
    (hp : nPending k c'.pending ≤ nPending k c.pending) : Count k m c' := by
  unfold Count at *
  rw [hl, nReplies_append, nLookups_append]
  have h0 : nReplies k ys = 0 := by
    unfold nReplies
    rw [List.countP_eq_zero]
    intro y hy' hr
    apply hy y hy'
    cases y with
    | inp i => cases hr
    | out o =>
      cases o with
      | discardReply d c b => cases b <;> first | exact trivial | cases hr
      | _ => first | exact trivial | cases hr
  omega

theorem Count.emit {k m} {c : Core} (h : Count k m c) (o : Out) (ho : ¬ IsEnd (.out o)) : Count k m (c.emit o) :=
  h.other [.out o] rfl (fun y hy => by rw [List.mem_singleton.mp hy]; exact ho) (Nat.le_refl _)

theorem Count.send {k m} {c : Core} (h : Count k m c) (env : Env) (d : Ipc) (o : Out) (ho : ¬ IsEnd (.out o)) :
    Count k m (c.send env d o) := by
  unfold Core.send
  split
  · exact h.emit o ho
  · exact h

theorem Count.framed {k m} {c c' : Core} (h : Count k m c) (hf : Framed c c') : Count k m c' := by
  obtain ⟨os, hl, ht, _⟩ := hf.log
  refine h.other (outsOf os) hl ?_ (by rw [hf.pending]; exact Nat.le_refl _)
  intro y hy hr
  obtain ⟨o, ho, rfl⟩ := mem_outsOf.mp hy
  have := ht o ho
  cases o <;> first | exact this | exact hr

/-- One for the lookup, none for others. -/
def one (k : Corr) (l : Lookup) : Nat := if l.corr == k then 1 else 0

theorem nPending_cons (k : Corr) (l : Lookup) (ls : List Lookup) : nPending k (l :: ls) = nPending k ls + one k l := by
  unfold nPending one
  rw [List.countP_cons]

theorem Count.reply {k m} {c : Core} {l : Lookup} (h : Count k (one k l + m) c) (d : Ipc) (n : Name) (f : Option Found) :
    Count k m (c.emit (.lookupReply d l.corr n f)) := by
  unfold Count at *
  have e : (c.emit (.lookupReply d l.corr n f)).log = c.log ++ [.out (.lookupReply d l.corr n f)] := rfl
  have e2 : (c.emit (.lookupReply d l.corr n f)).pending = c.pending := rfl
  rw [e, e2, nReplies_append, nLookups_append]
  have h1 : nReplies k [.out (.lookupReply d l.corr n f)] = one k l := by
    unfold nReplies one
    rw [List.countP_singleton]
    rfl
  rw [h1]
  omega

theorem Count.weaken {k m m'} {c : Core} (h : Count k m c) (hm : m' ≤ m) : Count k m' c := by
  unfold Count at *; omega

theorem Count.sendReply {k m} {c : Core} {l : Lookup} (h : Count k (one k l + m) c) (env : Env) (d : Ipc) (n : Name) (f : Option Found) :
    Count k m (c.send env d (.lookupReply d l.corr n f)) := by
  unfold Core.send
  split
  · exact h.reply d n f
  · exact h.weaken (by omega)

theorem Count.push {k m} {c : Core} {l : Lookup} (h : Count k (one k l + m) c) : Count k m { c with pending := c.pending ++ [l] } := by
  unfold Count at *
  dsimp only
  rw [nPending_append, nPending_cons]
  have : nPending k [] = 0 := rfl
  omega

theorem Count.check {k m} {c : Core} (h : Count k m c) (env : Env) : Count k m (c.check env) := by
  unfold Core.check
  have key : ∀ (ls : List Lookup) (acc : Core), Count k (nPending k ls + m) acc →
      Count k m (ls.foldl (fun acc l =>
      match c.queue l.name l.action with
      | some i =>
        if env.reach l.process.ipc then acc.emit (foundReply l i)
        else { acc with pending := acc.pending ++ [l] }
      | none => { acc with pending := acc.pending ++ [l] }) acc) := by
    intro ls
    induction ls with
    | nil => intro acc h; exact h.weaken (by omega)
    | cons l ls ih =>
      intro acc h
      rw [nPending_cons] at h
      have h' : Count k (one k l + (nPending k ls + m)) acc := h.weaken (by omega)
      rw [List.foldl_cons]
      cases c.queue l.name l.action with
      | none => exact ih _ h'.push
      | some i =>
        dsimp only
        split
        · exact ih _ (h'.reply _ _ _)
        · exact ih _ h'.push
  apply key
  unfold Count at *
  dsimp only
  have : nPending k [] = 0 := rfl
  omega

theorem Count.discardAll {k m} {c : Core} (h : Count k m c) (env : Env) : Count k m (c.discardAll env) := by
  unfold Core.discardAll
  have key : ∀ (ls : List Lookup) (acc : Core), Count k (nPending k ls + m) acc →
      Count k m (ls.foldl (fun acc l => acc.replyAbsent env l) acc) := by
    intro ls
    induction ls with
    | nil => intro acc h; exact h.weaken (by omega)
    | cons l ls ih =>
      intro acc h
      rw [nPending_cons] at h
      have h' : Count k (one k l + (nPending k ls + m)) acc := h.weaken (by omega)
      rw [List.foldl_cons]
      exact ih _ (h'.sendReply env _ _ _)
  apply key
  unfold Count at *
  dsimp only
  have : nPending k [] = 0 := rfl
  omega

theorem nPending_erase (k : Corr) (p : Lookup → Bool) : ∀ (ls : List Lookup), nPending k (eraseFirst p ls) ≤ nPending k ls
  | [] => Nat.le_refl _
  | x :: xs => by
    unfold eraseFirst
    split
    · rw [nPending_cons]; omega
    · rw [nPending_cons, nPending_cons]
      have := nPending_erase k p xs
      omega

theorem nPending_found {k corr : Corr} {l : Lookup} : ∀ {ls : List Lookup}, ls.find? (·.corr == corr) = some l →
    nPending k (eraseFirst (·.corr == corr) ls) + one k l = nPending k ls
  | [], h => by cases h
  | x :: xs, h => by
    rw [List.find?_cons] at h
    unfold eraseFirst
    cases hx : x.corr == corr with
    | true =>
      rw [hx] at h
      injection h with h
      subst h
      rw [if_pos rfl, nPending_cons]
    | false =>
      rw [hx] at h
      rw [if_neg (by simp), nPending_cons, nPending_cons]
      have := nPending_found (k := k) h
      omega

theorem Count.lookupRequest {k} {c : Core} {l : Lookup} (h : Count k (one k l) c) (env : Env) : Count k 0 (c.lookupRequest env l) := by
  have h' : Count k (one k l + 0) c := h
  have habs : Count k 0 (c.absentQueue env l) := by
    unfold Core.absentQueue
    split
    · exact h'.sendReply env _ _ _
    · exact h'.push
  unfold Core.lookupRequest
  split
  · exact h'.sendReply env _ _ _
  · cases l.requester with
    | internal =>
      dsimp only
      split
      · exact h'.sendReply env _ _ _
      · exact (h'.emit (.discoveryRequest l.name l.corr) (fun h => h)).push
    | external =>
      dsimp only
      split
      · exact h'.sendReply env _ _ _
      · exact habs
    | externalDiscovery =>
      dsimp only
      split
      · exact h'.sendReply env _ _ _
      · exact habs

theorem Count.same {k m} {c c' : Core} (h : Count k m c) (hl : c'.log = c.log) (hp : nPending k c'.pending ≤ nPending k c.pending) :
    Count k m c' := h.other [] (by rw [hl]; simp) (fun _ h => by cases h) hp

theorem Count.discardRequest {k m} {c : Core} (h : Count k m c) (env : Env) (corr : Corr) (p : Handle) :
    Count k m (c.discardRequest env corr p) := by
  unfold Core.discardRequest
  split
  · rename_i l hf
    dsimp only
    have h0 := nPending_found (k := k) hf
    have hc : l.corr = corr := by simpa using List.find?_some hf
    have h1 : Count k (one k l + m) { c with pending := eraseFirst (·.corr == corr) c.pending } := by
      unfold Count at *
      dsimp only
      omega
    unfold Core.send
    split
    · unfold Count at *
      dsimp only at *
      rw [nReplies_append, nLookups_append]
      have h2 : nReplies k [.out (.discardReply p.ipc corr true)] = one k l := by
        unfold nReplies one
        rw [List.countP_singleton, hc]
        rfl
      rw [h2]
      omega
    · exact h1.weaken (by omega)
  · exact h.send env _ _ (fun h => h)

theorem Count.discoveryReply {k} {c : Core} (h : Count k 0 c) (env : Env) (corr : Corr) : Count k 0 (c.discoveryReply env corr) := by
  unfold Core.discoveryReply
  dsimp only
  have hc := h.check env
  cases hf : (c.check env).pending.find? (·.corr == corr) with
  | none => exact hc
  | some l =>
    dsimp only
    cases l.semantic with
    | wait => exact hc
    | direct =>
      dsimp only
      unfold Core.replyAbsent
      refine Count.sendReply ?_ env _ _ _
      unfold Count at *
      dsimp only
      have := nPending_found (k := k) hf
      omega

theorem Count.logged {k m} {c : Core} (h : Count k m c) (i : Input) : Count k m (c.logged i) :=
  h.other [.inp i] rfl (fun y hy => by rw [List.mem_singleton.mp hy]; exact fun h => h) (Nat.le_refl _)

theorem Count.loggedLookup {k} {c : Core} (h : Count k 0 c) (l : Lookup) : Count k (one k l) (c.logged (.lookup l)) := by
  unfold Count at *
  have e : (c.logged (.lookup l)).log = c.log ++ [.inp (.lookup l)] := rfl
  have e2 : (c.logged (.lookup l)).pending = c.pending := rfl
  rw [e, e2, nReplies_append, nLookups_append]
  have h1 : nLookups k [.inp (.lookup l)] = one k l := by
    unfold nLookups one
    rw [List.countP_singleton]
    rfl
  have h2 : nReplies k [.inp (.lookup l)] = 0 := rfl
  omega

theorem Count.terminates {k m} {α : Type} (pid : α → Pid) : ∀ (l : List α) (c : Core), Count k m c →
    Count k m (l.foldl (fun acc g => acc.emit (.terminate (pid g))) c)
  | [], _, h => h
  | x :: xs, c, h => Count.terminates pid xs _ (h.emit _ (fun h => h))

theorem nPending_filter (k : Corr) (p : Lookup → Bool) (ls : List Lookup) : nPending k (ls.filter p) ≤ nPending k ls :=
  List.Sublist.countP_le List.filter_sublist

theorem step_count {k} {s : State} (h : Count k 0 s.core) (env : Env) (i : Input) : Count k 0 (s.step (env, i)).core := by
  rw [step_eq]
  cases i with
  | lookup l => exact (h.loggedLookup l).lookupRequest env
  | discard corr p => exact (h.logged (.discard corr p)).discardRequest env corr p
  | discoveryLookup corr p scope names => exact (h.logged (.discoveryLookup corr p scope names)).send env _ _ (fun h => h)
  | discoveryReply corr => exact (h.logged (.discoveryReply corr)).discoveryReply env corr
  | fetchKnown corr p => exact (h.logged (.fetchKnown corr p)).send env _ _ (fun h => h)
  | configRequest corr p => exact (h.logged (.configRequest corr p)).send env _ _ (fun h => h)
  | idle =>
    show Count k 0 (Core.idle _)
    unfold Core.idle
    split
    · refine Count.emit (c := { s.core.logged .idle with runlevel := .running }) ?_ _ (fun h => h)
      exact (h.logged .idle).same rfl (Nat.le_refl _)
    · exact h.logged .idle
  | abort =>
    show Count k 0 (Core.abort _ env)
    unfold Core.abort
    dsimp only
    refine Count.terminates (fun g : Entity GroupCfg => g.process.pid) _ _ ?_
    refine Count.terminates (fun g : Entity FwdCfg => g.process.pid) _ _ ?_
    exact Count.discardAll (c := { s.core.logged .abort with runlevel := .error }) ((h.logged .abort).same rfl (Nat.le_refl _)) env
  | configUpdate corr p dg wanted =>
    have h1 : Count k 0 { s.core.logged (.configUpdate corr p dg wanted) with domainGroups := dg } :=
      (h.logged (.configUpdate corr p dg wanted)).same rfl (Nat.le_refl _)
    exact h1.framed (Framed.configUpdate { s with core := s.core.logged (.configUpdate corr p dg wanted) } env corr p dg wanted)
  | shutdown =>
    have h1 : Count k 0 (({ s.core.logged .shutdown with runlevel := .shutdown } : Core).discardAll env) :=
      Count.discardAll (c := { s.core.logged .shutdown with runlevel := .shutdown }) ((h.logged .shutdown).same rfl (Nat.le_refl _)) env
    exact h1.framed (Framed.conform ({ s with core := (({ s.core.logged .shutdown with runlevel := .shutdown } : Core).discardAll env) } : State)
      env _ {})
  | groupConnect p =>
    have h1 := (h.logged (.groupConnect p)).framed
      (Framed.taskMsg { s with core := s.core.logged (.groupConnect p) } env (.groupConnect p.pid))
    show Count k 0 (Core.groupConnect _ env p)
    unfold Core.groupConnect
    split
    · dsimp only
      refine Count.send ?_ env _ _ ?_
      · exact h1.same rfl (Nat.le_refl _)
      · exact fun h => h
    · exact h1
  | forwardConnect p =>
    have h1 := (h.logged (.forwardConnect p)).framed
      (Framed.taskMsg { s with core := s.core.logged (.forwardConnect p) } env (.forwardConnect p.pid))
    show Count k 0 (Core.forwardConnect _ env p)
    unfold Core.forwardConnect
    split
    · dsimp only
      refine Count.send ?_ env _ _ ?_
      · exact h1.same rfl (Nat.le_refl _)
      · exact fun h => h
    · exact h1
  | forwardReply p =>
    have h1 := (h.logged (.forwardReply p)).framed
      (Framed.taskMsg { s with core := s.core.logged (.forwardReply p) } env (.forwardReply p.pid))
    exact h1.same rfl (Nat.le_refl _)
  | groupReply p qs =>
    have h1 := (h.logged (.groupReply p qs)).framed
      (Framed.taskMsg { s with core := s.core.logged (.groupReply p qs) } env (.groupReply p.pid))
    exact Count.check (h1.same (updateGroup_groups _ p qs).2 (by rw [(updateGroup_more _ p qs).1]; exact Nat.le_refl _)) env
  | advertise a =>
    exact Count.check ((h.logged (.advertise a)).same (updateAdvertise_rest _ a).2
      (by rw [(updateAdvertise_more _ a).1]; exact Nat.le_refl _)) env
  | exitEvent pid =>
    have h1 := (h.logged (.exitEvent pid)).framed
      (Framed.taskMsg { s with core := s.core.logged (.exitEvent pid) } env (.exit pid))
    exact h1.same rfl (nPending_filter k _ _)
  | childExit pid =>
    exact ((h.logged (.childExit pid)).emit (.exitEvent pid) (fun h => h)).same rfl (nPending_filter k _ _)
  | ipcDestroyed ipc => exact (h.logged (.ipcDestroyed ipc)).same rfl (Nat.le_refl _)

theorem run_count (k : Corr) (env : Env) (dg : Nat) (model : Model) (np : Pid) (xs : List (Env × Input)) :
    Count k 0 (State.run env dg model np xs).core := by
  have h0 : Count k 0 (State.init env dg model np).core := by
    have : Count k 0 ({ domainGroups := dg, nextPid := np } : Core) := Nat.le_refl 0
    exact this.framed (Framed.conform ({ core := { domainGroups := dg, nextPid := np } } : State) env {} model)
  unfold State.run
  generalize State.init env dg model np = s at h0
  induction xs generalizing s with
  | nil => exact h0
  | cons x xs ih => exact ih _ (step_count h0 x.1 x.2)

/-! ### Nothing is forgotten -/

/-- The lookup is answered by one of these items. -/
def AnsweredIn (l : Lookup) (ys : List Item) : Prop := ∃ f, Item.out (.lookupReply l.process.ipc l.corr l.name f) ∈ ys

/-- The requester has given up, or is gone, by one of these items. -/
def DroppedIn (l : Lookup) (ys : List Item) : Prop :=
  (∃ p, Item.inp (.discard l.corr p) ∈ ys) ∨ ∃ y ∈ ys, IsExit l.process.pid y

/-- Where the lookup is: answered, dropped or pending; the last not when it wants an
answer at once and discovery has answered. -/
def Acc (l : Lookup) (c : Core) : Prop :=
  ∀ pre post, c.log = pre ++ .inp (.lookup l) :: post → AnsweredIn l post ∨ DroppedIn l post ∨
    (l ∈ c.pending ∧ (l.semantic = .direct → Item.inp (.discoveryReply l.corr) ∉ post))

theorem AnsweredIn.more {l ys zs} (h : AnsweredIn l ys ∨ AnsweredIn l zs) : AnsweredIn l (ys ++ zs) := by
  rcases h with ⟨f, h⟩ | ⟨f, h⟩
  · exact ⟨f, List.mem_append.mpr (Or.inl h)⟩
  · exact ⟨f, List.mem_append.mpr (Or.inr h)⟩

theorem DroppedIn.more {l ys zs} (h : DroppedIn l ys ∨ DroppedIn l zs) : DroppedIn l (ys ++ zs) := by
  rcases h with h | h
  · rcases h with ⟨p, h⟩ | ⟨y, h, hy⟩
    · exact Or.inl ⟨p, List.mem_append.mpr (Or.inl h)⟩
    · exact Or.inr ⟨y, List.mem_append.mpr (Or.inl h), hy⟩
  · rcases h with ⟨p, h⟩ | ⟨y, h, hy⟩
    · exact Or.inl ⟨p, List.mem_append.mpr (Or.inr h)⟩
    · exact Or.inr ⟨y, List.mem_append.mpr (Or.inr h), hy⟩

theorem Acc.next {l : Lookup} {c c' : Core} (h : Acc l c) (i : Input) (os : List Out) (hl : c'.log = c.log ++ .inp i :: outsOf os)
    (hp : l ∈ c.pending → AnsweredIn l (outsOf os) ∨ DroppedIn l [.inp i] ∨
      (l ∈ c'.pending ∧ (l.semantic = .direct → i ≠ .discoveryReply l.corr)))
    (hi : i = .lookup l → AnsweredIn l (outsOf os) ∨ l ∈ c'.pending) : Acc l c' := by
  intro pre post he
  rw [hl] at he
  rcases split_last he with ⟨rfl, h2, rfl⟩ | ⟨post', h1, rfl⟩
  · injection h2 with h2
    rcases hi h2 with ha | hm
    · exact Or.inl ha
    · refine Or.inr (Or.inr ⟨hm, ?_⟩)
      intro _ hd
      obtain ⟨o, _, ho⟩ := mem_outsOf.mp hd
      cases ho
  · rcases h pre post' h1 with ha | hd | ⟨hm, hdr⟩
    · exact Or.inl (AnsweredIn.more (Or.inl ha))
    · exact Or.inr (Or.inl (DroppedIn.more (Or.inl hd)))
    · rcases hp hm with ha | hd | ⟨hm', hne⟩
      · obtain ⟨f, ha⟩ := ha
        exact Or.inl ⟨f, List.mem_append.mpr (Or.inr (List.mem_cons_of_mem _ ha))⟩
      · refine Or.inr (Or.inl (DroppedIn.more (Or.inr ?_)))
        rcases hd with ⟨p, hd⟩ | ⟨y, hd, hy⟩
        · exact Or.inl ⟨p, by rw [List.mem_singleton.mp hd]; exact List.mem_cons_self⟩
        · exact Or.inr ⟨y, by rw [List.mem_singleton.mp hd]; exact List.mem_cons_self, hy⟩
      · refine Or.inr (Or.inr ⟨hm', ?_⟩)
        intro hs hmem
        rcases List.mem_append.mp hmem with hmem | hmem
        · exact hdr hs hmem
        · rcases List.mem_cons.mp hmem with hmem | hmem
          · injection hmem with hmem; exact hne hs hmem.symm
          · obtain ⟨o, _, ho⟩ := mem_outsOf.mp hmem
            cases ho

/-- What a function that only answers does with the pending lookup. -/
structure Keeps (l : Lookup) (c c' : Core) : Prop where
  keeps : ∃ os, c'.log = c.log ++ outsOf os ∧ (l ∈ c.pending → AnsweredIn l (outsOf os) ∨ l ∈ c'.pending)

theorem Keeps.of_pending {l : Lookup} {c c' : Core} (os : List Out) (hl : c'.log = c.log ++ outsOf os) (hp : l ∈ c.pending → l ∈ c'.pending) :
    Keeps l c c' := ⟨os, hl, fun h => Or.inr (hp h)⟩

theorem Keeps.refl (l : Lookup) (c : Core) : Keeps l c c := .of_pending [] (by simp [outsOf]) id

theorem Keeps.trans {l : Lookup} {a b c : Core} (h1 : Keeps l a b) (h2 : Keeps l b c) : Keeps l a c := by
  obtain ⟨o1, e1, k1⟩ := h1
  obtain ⟨o2, e2, k2⟩ := h2
  refine ⟨o1 ++ o2, by rw [e2, e1, outsOf_append, List.append_assoc], ?_⟩
  intro h
  rw [outsOf_append]
  rcases k1 h with h | h
  · exact Or.inl (AnsweredIn.more (Or.inl h))
  · rcases k2 h with h | h
    · exact Or.inl (AnsweredIn.more (Or.inr h))
    · exact Or.inr h

theorem Keeps.framed {l : Lookup} {c c' : Core} (hf : Framed c c') : Keeps l c c' := by
  obtain ⟨os, hl, _⟩ := hf.log
  exact .of_pending os hl (fun h => by rw [hf.pending]; exact h)

theorem Keeps.emit (l : Lookup) (c : Core) (o : Out) : Keeps l c (c.emit o) := .of_pending [o] rfl id

theorem Keeps.send (l : Lookup) (c : Core) (env : Env) (d : Ipc) (o : Out) : Keeps l c (c.send env d o) := by
  unfold Core.send
  split
  · exact Keeps.emit l c o
  · exact Keeps.refl l c

theorem Keeps.same {l : Lookup} {c c' : Core} (hl : c'.log = c.log) (hp : c'.pending = c.pending) : Keeps l c c' :=
  .of_pending [] (by rw [hl]; simp [outsOf]) (fun h => by rw [hp]; exact h)

theorem Keeps.foldl {α : Type} {l : Lookup} (f : Core → α → Core) (h : ∀ c x, Keeps l c (f c x)) :
    ∀ (ls : List α) (c : Core), Keeps l c (ls.foldl f c)
  | [], c => Keeps.refl l c
  | x :: xs, c => (h c x).trans (Keeps.foldl f h xs (f c x))

theorem Keeps.check (l : Lookup) (c : Core) (env : Env) (_hr : env.reach l.process.ipc = true) : Keeps l c (c.check env) := by
  unfold Core.check
  have key : ∀ (ls : List Lookup) (acc : Core), ∃ os, (ls.foldl (fun acc l =>
      match c.queue l.name l.action with
      | some i =>
        if env.reach l.process.ipc then acc.emit (foundReply l i)
        else { acc with pending := acc.pending ++ [l] }
      | none => { acc with pending := acc.pending ++ [l] }) acc).log = acc.log ++ outsOf os ∧
      (l ∈ acc.pending ∨ l ∈ ls → AnsweredIn l (outsOf os) ∨ l ∈ (ls.foldl (fun acc l =>
      match c.queue l.name l.action with
      | some i =>
        if env.reach l.process.ipc then acc.emit (foundReply l i)
        else { acc with pending := acc.pending ++ [l] }
      | none => { acc with pending := acc.pending ++ [l] }) acc).pending) := by
    intro ls
    induction ls with
    | nil =>
      intro acc
      refine ⟨[], by simp [outsOf], ?_⟩
      rintro (h | h)
      · exact Or.inr h
      · cases h
    | cons x ls ih =>
      intro acc
      rw [List.foldl_cons]
      have hpush : ∀ acc' : Core, acc'.log = acc.log → acc'.pending = acc.pending ++ [x] → (l ∈ acc.pending ∨ l ∈ x :: ls) →
          l ∈ acc'.pending ∨ l ∈ ls := by
        intro acc' _ hp h
        rw [hp]
        rcases h with h | h
        · exact Or.inl (List.mem_append.mpr (Or.inl h))
        · rcases List.mem_cons.mp h with rfl | h
          · exact Or.inl (List.mem_append.mpr (Or.inr (List.mem_singleton.mpr rfl)))
          · exact Or.inr h
      cases hf : c.queue x.name x.action with
      | none =>
        dsimp only
        obtain ⟨os, hl, hk⟩ := ih { acc with pending := acc.pending ++ [x] }
        exact ⟨os, hl, fun h => hk (hpush _ rfl rfl h)⟩
      | some i =>
        dsimp only
        split
        · obtain ⟨os, hl, hk⟩ := ih (acc.emit (foundReply x i))
          refine ⟨foundReply x i :: os, ?_, ?_⟩
          · rw [hl]; simp [Core.emit, outsOf]
          · intro h
            have : l = x ∨ (l ∈ acc.pending ∨ l ∈ ls) := by
              rcases h with h | h
              · exact Or.inr (Or.inl h)
              · rcases List.mem_cons.mp h with h | h
                · exact Or.inl h
                · exact Or.inr (Or.inr h)
            rcases this with rfl | h
            · exact Or.inl ⟨_, mem_outsOf.mpr ⟨_, List.mem_cons_self, rfl⟩⟩
            · rcases hk h with ⟨f, hh⟩ | hh
              · exact Or.inl ⟨f, by
                  obtain ⟨o, ho, he⟩ := mem_outsOf.mp hh
                  exact mem_outsOf.mpr ⟨o, List.mem_cons_of_mem _ ho, he⟩⟩
              · exact Or.inr hh
        · obtain ⟨os, hl, hk⟩ := ih { acc with pending := acc.pending ++ [x] }
          exact ⟨os, hl, fun h => hk (hpush _ rfl rfl h)⟩
  obtain ⟨os, hl, hk⟩ := key c.pending { c with pending := [] }
  exact ⟨os, hl, fun h => hk (Or.inr h)⟩

theorem Keeps.discardAll (l : Lookup) (c : Core) (env : Env) (hr : env.reach l.process.ipc = true) : Keeps l c (c.discardAll env) := by
  unfold Core.discardAll
  have key : ∀ (ls : List Lookup) (acc : Core), ∃ os, (ls.foldl (fun acc l => acc.replyAbsent env l) acc).log = acc.log ++ outsOf os ∧
      (l ∈ ls → AnsweredIn l (outsOf os)) := by
    intro ls
    induction ls with
    | nil => intro acc; exact ⟨[], by simp [outsOf], fun h => by cases h⟩
    | cons x ls ih =>
      intro acc
      rw [List.foldl_cons]
      obtain ⟨os, hl, hk⟩ := ih (acc.replyAbsent env x)
      by_cases hx : env.reach x.process.ipc = true
      · refine ⟨.lookupReply x.process.ipc x.corr x.name none :: os, ?_, ?_⟩
        · rw [hl]; unfold Core.replyAbsent Core.send; rw [if_pos hx]; simp [outsOf]
        · intro h
          rcases List.mem_cons.mp h with rfl | h
          · exact ⟨none, mem_outsOf.mpr ⟨_, List.mem_cons_self, rfl⟩⟩
          · obtain ⟨f, hh⟩ := hk h
            obtain ⟨o, ho, he⟩ := mem_outsOf.mp hh
            exact ⟨f, mem_outsOf.mpr ⟨o, List.mem_cons_of_mem _ ho, he⟩⟩
      · refine ⟨os, ?_, ?_⟩
        · rw [hl]; unfold Core.replyAbsent Core.send; rw [if_neg hx]
        · intro h
          rcases List.mem_cons.mp h with rfl | h
          · exact absurd hr hx
          · exact hk h
  obtain ⟨os, hl, hk⟩ := key c.pending { c with pending := [] }
  exact ⟨os, hl, fun h => Or.inl (hk h)⟩

theorem eraseFirst_kept {α : Type} {p : α → Bool} {x : α} : ∀ {l : List α}, x ∈ l → x ∈ eraseFirst p l ∨ l.find? p = some x
  | [], h => by cases h
  | y :: ys, h => by
    unfold eraseFirst
    rw [List.find?_cons]
    cases hy : p y with
    | true =>
      rw [if_pos rfl]
      rcases List.mem_cons.mp h with rfl | h
      · exact Or.inr rfl
      · exact Or.inl h
    | false =>
      rw [if_neg (by simp)]
      rcases List.mem_cons.mp h with rfl | h
      · exact Or.inl List.mem_cons_self
      · rcases eraseFirst_kept (p := p) h with h | h
        · exact Or.inl (List.mem_cons_of_mem _ h)
        · exact Or.inr h

/-- A new lookup is answered, or it is pending. -/
theorem lookupRequest_handled (l : Lookup) (c : Core) (env : Env) (hr : env.reach l.process.ipc = true) :
    ∃ os, (c.lookupRequest env l).log = c.log ++ outsOf os ∧ (AnsweredIn l (outsOf os) ∨ l ∈ (c.lookupRequest env l).pending) := by
  have hsend : ∀ f, ∃ os, (c.send env l.process.ipc (.lookupReply l.process.ipc l.corr l.name f)).log = c.log ++ outsOf os ∧
      AnsweredIn l (outsOf os) := by
    intro f
    refine ⟨[.lookupReply l.process.ipc l.corr l.name f], ?_, f, mem_outsOf.mpr ⟨_, List.mem_cons_self, rfl⟩⟩
    unfold Core.send
    rw [if_pos hr]
    rfl
  have hs : ∀ f c', c' = c.send env l.process.ipc (.lookupReply l.process.ipc l.corr l.name f) →
      ∃ os, c'.log = c.log ++ outsOf os ∧ (AnsweredIn l (outsOf os) ∨ l ∈ c'.pending) := by
    rintro f c' rfl
    obtain ⟨os, h1, h2⟩ := hsend f
    exact ⟨os, h1, Or.inl h2⟩
  have habs : ∃ os, (c.absentQueue env l).log = c.log ++ outsOf os ∧ (AnsweredIn l (outsOf os) ∨ l ∈ (c.absentQueue env l).pending) := by
    unfold Core.absentQueue
    split
    · exact hs none _ rfl
    · exact ⟨[], by simp [outsOf], Or.inr (List.mem_append.mpr (Or.inr (List.mem_singleton.mpr rfl)))⟩
  unfold Core.lookupRequest
  split
  · exact hs none _ rfl
  · cases l.requester with
    | internal =>
      dsimp only
      split
      · exact hs _ _ rfl
      · exact ⟨[.discoveryRequest l.name l.corr], rfl, Or.inr (List.mem_append.mpr (Or.inr (List.mem_singleton.mpr rfl)))⟩
    | external =>
      dsimp only
      split
      · exact hs _ _ rfl
      · exact habs
    | externalDiscovery =>
      dsimp only
      split
      · exact hs _ _ rfl
      · exact habs

/-- And the others are left alone. -/
theorem lookupRequest_pending {l x : Lookup} (c : Core) (env : Env) (h : x ∈ c.pending) : x ∈ (c.lookupRequest env l).pending := by
  have hsend : ∀ d o, x ∈ (c.send env d o).pending := by
    intro d o
    unfold Core.send
    split <;> exact h
  have habs : x ∈ (c.absentQueue env l).pending := by
    unfold Core.absentQueue
    split
    · exact hsend _ _
    · exact List.mem_append.mpr (Or.inl h)
  unfold Core.lookupRequest
  split
  · exact hsend _ _
  · cases l.requester with
    | internal =>
      dsimp only
      split
      · exact hsend _ _
      · exact List.mem_append.mpr (Or.inl h)
    | external =>
      dsimp only
      split
      · exact hsend _ _
      · exact habs
    | externalDiscovery =>
      dsimp only
      split
      · exact hsend _ _
      · exact habs

/-- A step that only keeps. -/
theorem Acc.keeps {l : Lookup} {c c' : Core} (h : Acc l c) (i : Input) (hk : Keeps l (c.logged i) c')
    (hi : i ≠ .lookup l) (hd : i ≠ .discoveryReply l.corr) : Acc l c' := by
  obtain ⟨os, hl, hp⟩ := hk
  refine h.next i os (by rw [hl]; simp [Core.logged]) ?_ (fun he => absurd he hi)
  intro hm
  rcases hp hm with hp | hp
  · exact Or.inl hp
  · exact Or.inr (Or.inr ⟨hp, fun _ => hd⟩)

theorem Acc.discoveryReply {l : Lookup} {c : Core} (h : Acc l c) (hr : RInv c) (hl : LInv c) (env : Env) (corr : Corr)
    (hre : env.reach l.process.ipc = true)
    (hu : ∀ x, Item.inp (.lookup x) ∈ c.log → x.corr = l.corr → x = l) :
    Acc l ((c.logged (.discoveryReply corr)).discoveryReply env corr) := by
  have hlc : LInv ((c.logged (.discoveryReply corr)).check env) :=
    (hl.logged (.discoveryReply corr) (fun h => by cases h) (fun h => by cases h)).check
      (hr.quiet (.discoveryReply corr) (Quiet.refl _) (fun _ h => by cases h) (fun _ _ h => by cases h) (fun _ _ h => h)).q env
  obtain ⟨os, e, hk⟩ := Keeps.check l (c.logged (.discoveryReply corr)) env hre
  have hpe : ∀ x ∈ ((c.logged (.discoveryReply corr)).check env).pending, x ∈ c.pending := fun x hx => (mem_check_pending.mp hx).1
  unfold Core.discoveryReply
  dsimp only
  generalize (c.logged (.discoveryReply corr)).check env = c1 at *
  have e' : c1.log = c.log ++ .inp (.discoveryReply corr) :: outsOf os := by rw [e]; simp [Core.logged]
  cases hf : c1.pending.find? (·.corr == corr) with
  | none =>
    dsimp only
    refine h.next (.discoveryReply corr) os e' ?_ (fun he => by cases he)
    intro hm
    rcases hk hm with hk | hk
    · exact Or.inl hk
    · refine Or.inr (Or.inr ⟨hk, ?_⟩)
      intro _ he
      injection he with he
      rw [List.find?_eq_none] at hf
      exact hf l hk (by simp [he])
  | some x =>
    dsimp only
    have hx := List.mem_of_find?_eq_some hf
    have hxc : x.corr = corr := by simpa using List.find?_some hf
    have hxl : x.corr = l.corr → x = l := hu x ((hl.pend x (hpe x hx)).1)
    cases hs : x.semantic with
    | wait =>
      dsimp only
      refine h.next (.discoveryReply corr) os e' ?_ (fun he => by cases he)
      intro hm
      rcases hk hm with hk | hk
      · exact Or.inl hk
      · refine Or.inr (Or.inr ⟨hk, ?_⟩)
        intro hd he
        injection he with he
        rw [hxl (by rw [hxc, he])] at hs
        rw [hs] at hd; cases hd
    | direct =>
      dsimp only
      unfold Core.replyAbsent Core.send
      by_cases hre2 : env.reach x.process.ipc = true
      · rw [if_pos hre2]
        refine h.next (.discoveryReply corr) (os ++ [.lookupReply x.process.ipc x.corr x.name none]) ?_ ?_ (fun he => by cases he)
        · show c1.log ++ _ = _
          rw [e', outsOf_append]; simp [outsOf]
        · intro hm
          rw [outsOf_append]
          rcases hk hm with hk | hk
          · exact Or.inl (AnsweredIn.more (Or.inl hk))
          · by_cases hlc' : l.corr = corr
            · have := hxl (by rw [hxc, hlc'])
              subst this
              exact Or.inl (AnsweredIn.more (Or.inr ⟨none, mem_outsOf.mpr ⟨_, List.mem_cons_self, rfl⟩⟩))
            · refine Or.inr (Or.inr ⟨?_, fun _ he => ?_⟩)
              · rcases eraseFirst_kept (p := (·.corr == corr)) hk with hk | hk
                · exact hk
                · exact absurd (by simpa using List.find?_some hk) hlc'
              · injection he with he; exact hlc' he.symm
      · rw [if_neg hre2]
        refine h.next (.discoveryReply corr) os e' ?_ (fun he => by cases he)
        intro hm
        rcases hk hm with hk | hk
        · exact Or.inl hk
        · by_cases hlc' : l.corr = corr
          · have := hxl (by rw [hxc, hlc'])
            subst this
            exact absurd hre hre2
          · refine Or.inr (Or.inr ⟨?_, fun _ he => ?_⟩)
            · rcases eraseFirst_kept (p := (·.corr == corr)) hk with hk | hk
              · exact hk
              · exact absurd (by simpa using List.find?_some hk) hlc'
            · injection he with he; exact hlc' he.symm

theorem filter_pending {l : Lookup} {ls : List Lookup} {pid : Pid} (h : l ∈ ls) :
    l ∈ ls.filter (fun l => !(l.process.pid == pid)) ∨ pid = l.process.pid := by
  by_cases hp : pid = l.process.pid
  · exact Or.inr hp
  · refine Or.inl (List.mem_filter.mpr ⟨h, ?_⟩)
    have : l.process.pid ≠ pid := fun he => hp he.symm
    simpa using this

theorem step_acc {l : Lookup} {s : State} (h : Acc l s.core) (hr : RInv s.core) (hl : LInv s.core) (env : Env) (i : Input)
    (hre : env.reach l.process.ipc = true)
    (hu : ∀ x, Item.inp (.lookup x) ∈ s.core.log → x.corr = l.corr → x = l) : Acc l (s.step (env, i)).core := by
  rw [step_eq]
  cases i with
  | lookup x =>
    by_cases hx : x = l
    · subst hx
      obtain ⟨os, e, hk⟩ := lookupRequest_handled x (s.core.logged (.lookup x)) env hre
      refine h.next (.lookup x) os (e.trans (by simp [Core.logged])) ?_ (fun _ => hk)
      intro hm
      refine Or.inr (Or.inr ⟨?_, fun _ he => by cases he⟩)
      exact lookupRequest_pending (s.core.logged (.lookup x)) env hm
    · have hq := Quiet.lookupRequest (s.core.logged (.lookup x)) env x
      obtain ⟨os, e, _⟩ := hq.log
      refine h.next (.lookup x) os (e.trans (by simp [Core.logged])) ?_ (fun he => by injection he with he; exact absurd he hx)
      intro hm
      refine Or.inr (Or.inr ⟨?_, fun _ he => by cases he⟩)
      exact lookupRequest_pending (s.core.logged (.lookup x)) env hm
  | discard corr p =>
    obtain ⟨os, e, _⟩ := (Quiet.discardRequest (s.core.logged (.discard corr p)) env corr p).log
    refine h.next (.discard corr p) os (e.trans (by simp [Core.logged])) ?_ (fun he => by cases he)
    intro hm
    by_cases hc : corr = l.corr
    · subst hc
      exact Or.inr (Or.inl (Or.inl ⟨p, List.mem_cons_self⟩))
    · refine Or.inr (Or.inr ⟨?_, fun _ he => by cases he⟩)
      show l ∈ (Core.discardRequest _ env corr p).pending
      unfold Core.discardRequest
      split
      · have hk : l ∈ eraseFirst (·.corr == corr) s.core.pending := by
          rcases eraseFirst_kept (p := (·.corr == corr)) hm with hk | hk
          · exact hk
          · exact absurd (by simpa using List.find?_some hk : l.corr = corr).symm hc
        unfold Core.send
        split <;> exact hk
      · unfold Core.send
        split <;> exact hm
  | discoveryLookup corr p scope names =>
    exact h.keeps _ (Keeps.send l _ env _ _) (fun h => by cases h) (fun h => by cases h)
  | discoveryReply corr => exact h.discoveryReply hr hl env corr hre hu
  | fetchKnown corr p => exact h.keeps _ (Keeps.send l _ env _ _) (fun h => by cases h) (fun h => by cases h)
  | configRequest corr p => exact h.keeps _ (Keeps.send l _ env _ _) (fun h => by cases h) (fun h => by cases h)
  | idle =>
    refine h.keeps .idle ?_ (fun h => by cases h) (fun h => by cases h)
    show Keeps l _ (Core.idle _)
    unfold Core.idle
    split
    · exact Keeps.trans (b := { s.core.logged .idle with runlevel := .running }) (Keeps.same rfl rfl) (Keeps.emit l _ _)
    · exact Keeps.refl l _
  | abort =>
    refine h.keeps .abort ?_ (fun h => by cases h) (fun h => by cases h)
    show Keeps l _ (Core.abort _ env)
    unfold Core.abort
    dsimp only
    refine Keeps.trans (b := { s.core.logged .abort with runlevel := .error }) (Keeps.same rfl rfl) ?_
    refine (Keeps.discardAll l _ env hre).trans ?_
    generalize Core.discardAll _ env = c1
    have h1 := Keeps.foldl (l := l) (fun (acc : Core) (g : Entity FwdCfg) => acc.emit (.terminate g.process.pid))
      (fun c g => Keeps.emit l c _) c1.forwards c1
    exact h1.trans (Keeps.foldl (fun (acc : Core) (g : Entity GroupCfg) => acc.emit (.terminate g.process.pid))
      (fun c g => Keeps.emit l c _) _ _)
  | configUpdate corr p dg wanted =>
    refine h.keeps (.configUpdate corr p dg wanted) ?_ (fun h => by cases h) (fun h => by cases h)
    refine Keeps.trans (b := { s.core.logged (.configUpdate corr p dg wanted) with domainGroups := dg }) (Keeps.same rfl rfl) ?_
    exact Keeps.framed (Framed.configUpdate { s with core := s.core.logged (.configUpdate corr p dg wanted) } env corr p dg wanted)
  | shutdown =>
    refine h.keeps .shutdown ?_ (fun h => by cases h) (fun h => by cases h)
    refine Keeps.trans (b := { s.core.logged .shutdown with runlevel := .shutdown }) (Keeps.same rfl rfl) ?_
    refine (Keeps.discardAll l _ env hre).trans ?_
    exact Keeps.framed (Framed.conform ({ s with core := (({ s.core.logged .shutdown with runlevel := .shutdown } : Core).discardAll env) } : State)
      env _ {})
  | groupConnect p =>
    refine h.keeps (.groupConnect p) ?_ (fun h => by cases h) (fun h => by cases h)
    refine (Keeps.framed (Framed.taskMsg { s with core := s.core.logged (.groupConnect p) } env (.groupConnect p.pid))).trans ?_
    show Keeps l _ (Core.groupConnect _ env p)
    unfold Core.groupConnect
    split
    · dsimp only
      refine Keeps.trans ?_ (Keeps.send l _ env _ _)
      exact Keeps.same rfl rfl
    · exact Keeps.refl l _
  | forwardConnect p =>
    refine h.keeps (.forwardConnect p) ?_ (fun h => by cases h) (fun h => by cases h)
    refine (Keeps.framed (Framed.taskMsg { s with core := s.core.logged (.forwardConnect p) } env (.forwardConnect p.pid))).trans ?_
    show Keeps l _ (Core.forwardConnect _ env p)
    unfold Core.forwardConnect
    split
    · dsimp only
      refine Keeps.trans ?_ (Keeps.send l _ env _ _)
      exact Keeps.same rfl rfl
    · exact Keeps.refl l _
  | forwardReply p =>
    refine h.keeps (.forwardReply p) ?_ (fun h => by cases h) (fun h => by cases h)
    refine (Keeps.framed (Framed.taskMsg { s with core := s.core.logged (.forwardReply p) } env (.forwardReply p.pid))).trans ?_
    exact Keeps.same rfl rfl
  | groupReply p qs =>
    refine h.keeps (.groupReply p qs) ?_ (fun h => by cases h) (fun h => by cases h)
    refine (Keeps.framed (Framed.taskMsg { s with core := s.core.logged (.groupReply p qs) } env (.groupReply p.pid))).trans ?_
    refine Keeps.trans ?_ (Keeps.check l _ env hre)
    exact Keeps.same (updateGroup_groups _ p qs).2 (updateGroup_more _ p qs).1
  | advertise a =>
    refine h.keeps (.advertise a) ?_ (fun h => by cases h) (fun h => by cases h)
    refine Keeps.trans ?_ (Keeps.check l _ env hre)
    exact Keeps.same (updateAdvertise_rest _ a).2 (updateAdvertise_more _ a).1
  | exitEvent pid =>
    have hf := Framed.taskMsg { s with core := s.core.logged (.exitEvent pid) } env (.exit pid)
    obtain ⟨os, e, _⟩ := hf.log
    refine h.next (.exitEvent pid) os (e.trans (by simp [Core.logged])) ?_ (fun he => by cases he)
    intro hm
    rcases filter_pending (pid := pid) hm with hk | hk
    · refine Or.inr (Or.inr ⟨?_, fun _ he => by cases he⟩)
      show l ∈ ((State.taskMsg _ env (.exit pid)).core.remove pid).pending
      unfold Core.remove Core.removeQueuesPid
      dsimp only
      rw [hf.pending]
      exact hk
    · exact Or.inr (Or.inl (Or.inr ⟨_, List.mem_cons_self, hk⟩))
  | childExit pid =>
    refine h.next (.childExit pid) [.exitEvent pid] (by
      show (((s.core.logged (.childExit pid)).emit (.exitEvent pid)).remove pid).log = _
      simp [Core.remove, Core.removeQueuesPid, Core.emit, Core.logged, outsOf]) ?_ (fun he => by cases he)
    intro hm
    rcases filter_pending (pid := pid) hm with hk | hk
    · exact Or.inr (Or.inr ⟨hk, fun _ he => by cases he⟩)
    · exact Or.inr (Or.inl (Or.inr ⟨_, List.mem_cons_self, hk⟩))
  | ipcDestroyed ipc =>
    refine h.keeps (.ipcDestroyed ipc) ?_ (fun h => by cases h) (fun h => by cases h)
    exact Keeps.same rfl rfl

/-- The log only grows. -/
theorem step_log (s : State) (x : Env × Input) : ∃ ys, (s.step x).core.log = s.core.log ++ ys := by
  obtain ⟨env, i⟩ := x
  have hk : ∀ (c : Core) (i : Input), (∃ os : List Out, c.log = (s.core.logged i).log ++ outsOf os) → ∃ ys, c.log = s.core.log ++ ys := by
    rintro c i ⟨os, h⟩
    exact ⟨.inp i :: outsOf os, by rw [h]; simp [Core.logged]⟩
  rw [step_eq]
  have hq : ∀ (i : Input) (c : Core), Quiet (s.core.logged i) c → ∃ ys, c.log = s.core.log ++ ys := by
    intro i c h
    obtain ⟨os, e, _⟩ := h.log
    exact hk c i ⟨os, e⟩
  cases i with
  | lookup x => exact hq _ _ (Quiet.lookupRequest _ env x)
  | discard corr p => exact hq _ _ (Quiet.discardRequest _ env corr p)
  | discoveryLookup corr p scope names => exact hq (.discoveryLookup corr p scope names) _ (Quiet.send _ env _ _ trivial)
  | discoveryReply corr => exact hq _ _ (Quiet.discoveryReply _ env corr)
  | fetchKnown corr p => exact hq (.fetchKnown corr p) _ (Quiet.send _ env _ _ trivial)
  | configRequest corr p => exact hq (.configRequest corr p) _ (Quiet.send _ env _ _ trivial)
  | idle => exact hq _ _ (Quiet.idle _)
  | abort => exact hq _ _ (Quiet.abort _ env)
  | configUpdate corr p dg wanted =>
    obtain ⟨os, e, _⟩ := (Framed.configUpdate { s with core := s.core.logged (.configUpdate corr p dg wanted) } env corr p dg wanted).log
    exact hk _ (.configUpdate corr p dg wanted) ⟨os, e⟩
  | shutdown =>
    have h1 : Quiet (s.core.logged .shutdown) (({ s.core.logged .shutdown with runlevel := .shutdown } : Core).discardAll env) :=
      Quiet.trans (b := { s.core.logged .shutdown with runlevel := .shutdown })
        ⟨rfl, rfl, rfl, [], by simp [outsOf], by simp⟩ (Quiet.discardAll _ env)
    obtain ⟨o1, e1, _⟩ := h1.log
    obtain ⟨o2, e2, _⟩ := (Framed.conform ({ s with core := (({ s.core.logged .shutdown with runlevel := .shutdown } : Core).discardAll env) } : State)
      env (({ s.core.logged .shutdown with runlevel := .shutdown } : Core).discardAll env).configuration {}).log
    refine hk _ .shutdown ⟨o1 ++ o2, ?_⟩
    rw [outsOf_append, ← List.append_assoc, ← e1]
    exact e2
  | groupConnect p =>
    obtain ⟨o1, e1, _⟩ := (Framed.taskMsg { s with core := s.core.logged (.groupConnect p) } env (.groupConnect p.pid)).log
    have : ∃ o2, ((s.core.logged (.groupConnect p)) |> fun c => (State.taskMsg { s with core := c } env (.groupConnect p.pid)).core.groupConnect env p).log =
        (State.taskMsg { s with core := s.core.logged (.groupConnect p) } env (.groupConnect p.pid)).core.log ++ outsOf o2 := by
      dsimp only
      generalize (State.taskMsg { s with core := s.core.logged (.groupConnect p) } env (.groupConnect p.pid)).core = c
      unfold Core.groupConnect
      split
      · dsimp only
        unfold Core.send
        split
        · exact ⟨[_], rfl⟩
        · exact ⟨[], by simp [outsOf]⟩
      · exact ⟨[], by simp [outsOf]⟩
    obtain ⟨o2, e2⟩ := this
    refine hk _ (.groupConnect p) ⟨o1 ++ o2, ?_⟩
    rw [outsOf_append, ← List.append_assoc]
    exact e2.trans (by rw [e1])
  | forwardConnect p =>
    obtain ⟨o1, e1, _⟩ := (Framed.taskMsg { s with core := s.core.logged (.forwardConnect p) } env (.forwardConnect p.pid)).log
    have : ∃ o2, ((s.core.logged (.forwardConnect p)) |> fun c => (State.taskMsg { s with core := c } env (.forwardConnect p.pid)).core.forwardConnect env p).log =
        (State.taskMsg { s with core := s.core.logged (.forwardConnect p) } env (.forwardConnect p.pid)).core.log ++ outsOf o2 := by
      dsimp only
      generalize (State.taskMsg { s with core := s.core.logged (.forwardConnect p) } env (.forwardConnect p.pid)).core = c
      unfold Core.forwardConnect
      split
      · dsimp only
        unfold Core.send
        split
        · exact ⟨[_], rfl⟩
        · exact ⟨[], by simp [outsOf]⟩
      · exact ⟨[], by simp [outsOf]⟩
    obtain ⟨o2, e2⟩ := this
    refine hk _ (.forwardConnect p) ⟨o1 ++ o2, ?_⟩
    rw [outsOf_append, ← List.append_assoc]
    exact e2.trans (by rw [e1])
  | forwardReply p =>
    obtain ⟨os, e, _⟩ := (Framed.taskMsg { s with core := s.core.logged (.forwardReply p) } env (.forwardReply p.pid)).log
    exact hk _ (.forwardReply p) ⟨os, e⟩
  | groupReply p qs =>
    obtain ⟨o1, e1, _⟩ := (Framed.taskMsg { s with core := s.core.logged (.groupReply p qs) } env (.groupReply p.pid)).log
    obtain ⟨o2, e2, _⟩ := (Quiet.check ((State.taskMsg { s with core := s.core.logged (.groupReply p qs) } env (.groupReply p.pid)).core.updateGroup p qs) env).log
    refine hk _ (.groupReply p qs) ⟨o1 ++ o2, ?_⟩
    rw [outsOf_append, ← List.append_assoc]
    refine e2.trans ?_
    rw [(updateGroup_groups _ p qs).2, e1]
  | advertise a =>
    obtain ⟨o2, e2, _⟩ := (Quiet.check ((s.core.logged (.advertise a)).updateAdvertise a) env).log
    refine hk _ (.advertise a) ⟨o2, ?_⟩
    refine e2.trans ?_
    rw [(updateAdvertise_rest _ a).2]
  | exitEvent pid =>
    obtain ⟨os, e, _⟩ := (Framed.taskMsg { s with core := s.core.logged (.exitEvent pid) } env (.exit pid)).log
    exact hk _ (.exitEvent pid) ⟨os, e⟩
  | childExit pid => exact hk _ (.childExit pid) ⟨[.exitEvent pid], rfl⟩
  | ipcDestroyed ipc => exact ⟨[.inp (.ipcDestroyed ipc)], rfl⟩

theorem foldl_log : ∀ (xs : List (Env × Input)) (s : State), ∃ ys, (xs.foldl State.step s).core.log = s.core.log ++ ys
  | [], s => ⟨[], by simp⟩
  | x :: xs, s => by
    obtain ⟨y1, e1⟩ := step_log s x
    obtain ⟨y2, e2⟩ := foldl_log xs (s.step x)
    exact ⟨y1 ++ y2, by rw [List.foldl_cons, e2, e1, List.append_assoc]⟩

/-- The accounting, in every run in which the requester can be reached. -/
theorem foldl_acc {l : Lookup} : ∀ (xs : List (Env × Input)) (s : State), RInv s.core → LInv s.core → Acc l s.core →
    (∀ x ∈ xs, x.1.reach l.process.ipc = true) →
    (∀ x, Item.inp (.lookup x) ∈ (xs.foldl State.step s).core.log → x.corr = l.corr → x = l) →
    Acc l (xs.foldl State.step s).core
  | [], _, _, _, h, _, _ => h
  | x :: xs, s, hr, hl, h, hre, hu => by
    refine foldl_acc xs (s.step x) (step_rinv hr x.1 x.2) (step_linv hl hr x.1 x.2) ?_
      (fun y hy => hre y (List.mem_cons_of_mem _ hy)) hu
    refine step_acc h hr hl x.1 x.2 (hre x List.mem_cons_self) ?_
    intro y hy
    apply hu y
    obtain ⟨ys, e⟩ := foldl_log (x :: xs) s
    rw [e]
    exact List.mem_append.mpr (Or.inl hy)

theorem run_acc {l : Lookup} (env : Env) (dg : Nat) (model : Model) (np : Pid) (xs : List (Env × Input))
    (hre : ∀ x ∈ xs, x.1.reach l.process.ipc = true)
    (hu : ∀ x, Item.inp (.lookup x) ∈ (State.run env dg model np xs).core.log → x.corr = l.corr → x = l) :
    Acc l (State.run env dg model np xs).core := by
  refine foldl_acc xs _ (init_rinv env dg model np) (init_linv env dg model np) ?_ hre hu
  intro pre post he
  exfalso
  obtain ⟨os, e, _⟩ := (Framed.conform ({ core := { domainGroups := dg, nextPid := np } } : State) env {} model).log
  have hm : Item.inp (.lookup l) ∈ (State.init env dg model np).core.log := by rw [he]; simp
  have e' : (State.init env dg model np).core.log = outsOf os := e
  rw [e'] at hm
  obtain ⟨o, _, ho⟩ := mem_outsOf.mp hm
  cases ho

/-! ### What waits, waits for a queue that is not there -/

/-- Nothing in the registry is for the lookup (for `external`: nothing local). -/
def Nothing (l : Lookup) (qs : List (Name × List Inst)) : Prop :=
  ∀ j ∈ look qs l.name, j.enabledFor l.action = true → l.requester = .external ∧ j.order ≠ 0

/-- A pending lookup has nothing. -/
def Waits (l : Lookup) (c : Core) : Prop := l ∈ c.pending → Nothing l c.queues

theorem nothing_of_none {l : Lookup} {c : Core} (h : c.queue l.name l.action = none) : Nothing l c.queues := by
  intro j hj he
  unfold Core.queue at h
  rw [List.find?_eq_none] at h
  exact absurd he (h j hj)

theorem Waits.check {l : Lookup} {c : Core} {env : Env} (hre : env.reach l.process.ipc = true) : Waits l (c.check env) := by
  intro hm
  rw [(Quiet.check c env).queues]
  rcases (mem_check_pending.mp hm).2 with h | h
  · exact nothing_of_none h
  · rw [hre] at h; cases h

/-- The registry did not grow, and neither did what is pending. -/
theorem Waits.less {l : Lookup} {c c' : Core} (h : Waits l c) (hp : l ∈ c'.pending → l ∈ c.pending)
    (hq : ∀ j, j ∈ look c'.queues l.name → j ∈ look c.queues l.name) : Waits l c' :=
  fun hm j hj he => h (hp hm) j (hq j hj) he

theorem Waits.same {l : Lookup} {c c' : Core} (h : Waits l c) (hp : l ∈ c'.pending → l ∈ c.pending) (hq : c'.queues = c.queues) :
    Waits l c' := h.less hp (fun j hj => by rw [hq] at hj; exact hj)

theorem Waits.framed {l : Lookup} {c c' : Core} (h : Waits l c) (hf : Framed c c') : Waits l c' :=
  h.same (fun hm => by rw [hf.pending] at hm; exact hm) hf.queues

theorem send_same (c : Core) (env : Env) (d : Ipc) (o : Out) : (c.send env d o).pending = c.pending ∧ (c.send env d o).queues = c.queues := by
  unfold Core.send
  split <;> exact ⟨rfl, rfl⟩

theorem Waits.send {l : Lookup} {c : Core} (h : Waits l c) (env : Env) (d : Ipc) (o : Out) : Waits l (c.send env d o) :=
  h.same (fun hm => by rw [(send_same c env d o).1] at hm; exact hm) (send_same c env d o).2

theorem Waits.lookupRequest {l : Lookup} {c : Core} (h : Waits l c) (env : Env) (x : Lookup) : Waits l (c.lookupRequest env x) := by
  have hpush : Nothing x c.queues → Waits l { c with pending := c.pending ++ [x] } := by
    intro hn hm
    rcases List.mem_append.mp hm with hm | hm
    · exact h hm
    · rw [List.mem_singleton.mp hm]; exact hn
  have habs : Nothing x c.queues → Waits l (c.absentQueue env x) := by
    intro hn
    unfold Core.absentQueue
    split
    · exact h.send env _ _
    · exact hpush hn
  unfold Core.lookupRequest
  split
  · exact h.send env _ _
  · cases hr : x.requester with
    | internal =>
      dsimp only
      cases hf : c.queue x.name x.action with
      | some i => exact h.send env _ _
      | none => exact hpush (nothing_of_none hf)
    | external =>
      dsimp only
      cases hf : c.localQueue x.name x.action with
      | some i => exact h.send env _ _
      | none =>
        refine habs ?_
        intro j hj he
        refine ⟨hr, fun h0 => ?_⟩
        unfold Core.localQueue at hf
        rw [List.find?_eq_none] at hf
        exact hf j hj (by rw [Bool.and_eq_true]; exact ⟨he, by simp [Inst.isLocal, h0]⟩)
    | externalDiscovery =>
      dsimp only
      cases hf : c.queue x.name x.action with
      | some i => exact h.send env _ _
      | none => exact habs (nothing_of_none hf)

theorem Waits.nil {l : Lookup} {c : Core} (h : c.pending = []) : Waits l c := fun hm => by rw [h] at hm; cases hm

theorem step_waits {l : Lookup} {s : State} (h : Waits l s.core) (hr : RInv s.core) (hl : LInv s.core) (env : Env) (i : Input)
    (hre : env.reach l.process.ipc = true) : Waits l (s.step (env, i)).core := by
  have hlog : ∀ i, Waits l (s.core.logged i) := fun i => h.same id rfl
  have hst := step_linv hl hr env i
  rw [step_eq] at hst ⊢
  cases i with
  | lookup x => exact (hlog (.lookup x)).lookupRequest env x
  | discard corr p =>
    show Waits l (Core.discardRequest _ env corr p)
    unfold Core.discardRequest
    split
    · dsimp only
      refine Waits.send ?_ env _ _
      exact (hlog (.discard corr p)).same mem_eraseFirst rfl
    · exact (hlog (.discard corr p)).send env _ _
  | discoveryLookup corr p scope names => exact (hlog (.discoveryLookup corr p scope names)).send env _ _
  | discoveryReply corr =>
    show Waits l (Core.discoveryReply _ env corr)
    unfold Core.discoveryReply
    dsimp only
    have hc : Waits l ((s.core.logged (.discoveryReply corr)).check env) := Waits.check hre
    split
    · split
      · unfold Core.replyAbsent
        refine Waits.send ?_ env _ _
        exact hc.same mem_eraseFirst rfl
      · exact hc
    · exact hc
  | fetchKnown corr p => exact (hlog (.fetchKnown corr p)).send env _ _
  | configRequest corr p => exact (hlog (.configRequest corr p)).send env _ _
  | idle =>
    show Waits l (Core.idle _)
    unfold Core.idle
    split
    · exact (hlog .idle).same id rfl
    · exact hlog .idle
  | abort => exact Waits.nil (hst.quiet (hst.beyond.mpr (by
      obtain ⟨os, e, _⟩ := (Quiet.abort (s.core.logged .abort) env).log
      right
      show Item.inp .abort ∈ (Core.abort _ env).log
      rw [e]
      exact List.mem_append.mpr (Or.inl (List.mem_append.mpr (Or.inr (List.mem_singleton.mpr rfl)))))))
  | configUpdate corr p dg wanted =>
    have h1 : Waits l { s.core.logged (.configUpdate corr p dg wanted) with domainGroups := dg } := h.same id rfl
    exact h1.framed (Framed.configUpdate { s with core := s.core.logged (.configUpdate corr p dg wanted) } env corr p dg wanted)
  | shutdown =>
    have h1 := (hl.stop .shutdown (Or.inl rfl) .shutdown rfl env).2
    exact (Waits.nil h1).framed (Framed.conform ({ s with core := (({ s.core.logged .shutdown with runlevel := .shutdown } : Core).discardAll env) } : State)
      env _ {})
  | groupConnect p =>
    have h1 := (hlog (.groupConnect p)).framed
      (Framed.taskMsg { s with core := s.core.logged (.groupConnect p) } env (.groupConnect p.pid))
    show Waits l (Core.groupConnect _ env p)
    unfold Core.groupConnect
    split
    · dsimp only
      refine Waits.send ?_ env _ _
      exact h1.same id rfl
    · exact h1
  | forwardConnect p =>
    have h1 := (hlog (.forwardConnect p)).framed
      (Framed.taskMsg { s with core := s.core.logged (.forwardConnect p) } env (.forwardConnect p.pid))
    show Waits l (Core.forwardConnect _ env p)
    unfold Core.forwardConnect
    split
    · dsimp only
      refine Waits.send ?_ env _ _
      exact h1.same id rfl
    · exact h1
  | forwardReply p =>
    have h1 := (hlog (.forwardReply p)).framed
      (Framed.taskMsg { s with core := s.core.logged (.forwardReply p) } env (.forwardReply p.pid))
    exact h1.same id rfl
  | groupReply p qs => exact Waits.check hre
  | advertise a => exact Waits.check hre
  | exitEvent pid =>
    have hf := Framed.taskMsg { s with core := s.core.logged (.exitEvent pid) } env (.exit pid)
    have h1 := (hlog (.exitEvent pid)).framed hf
    refine h1.less (fun hm => (List.mem_filter.mp hm).1) ?_
    intro j hj
    have hsh : Shape (State.taskMsg { s with core := s.core.logged (.exitEvent pid) } env (.exit pid)).core.queues := by
      rw [hf.queues]; exact hr.q.shape
    have hj' : j ∈ look (removeInsts (State.taskMsg { s with core := s.core.logged (.exitEvent pid) } env (.exit pid)).core.queues
      (fun i => i.process.pid == pid)) l.name := hj
    rw [look_removeInsts hsh] at hj'
    exact (List.mem_filter.mp hj').1
  | childExit pid =>
    refine h.less (fun hm => (List.mem_filter.mp hm).1) ?_
    intro j hj
    have hj' : j ∈ look (removeInsts s.core.queues (fun i => i.process.pid == pid)) l.name := hj
    rw [look_removeInsts hr.q.shape] at hj'
    exact (List.mem_filter.mp hj').1
  | ipcDestroyed ipc =>
    refine h.less id ?_
    intro j hj
    have hj' : j ∈ look (removeInsts s.core.queues (fun i => i.process.ipc == ipc)) l.name := hj
    rw [look_removeInsts hr.q.shape] at hj'
    exact (List.mem_filter.mp hj').1

theorem foldl_waits {l : Lookup} : ∀ (xs : List (Env × Input)) (s : State), RInv s.core → LInv s.core → Waits l s.core →
    (∀ x ∈ xs, x.1.reach l.process.ipc = true) → Waits l (xs.foldl State.step s).core
  | [], _, _, _, h, _ => h
  | x :: xs, s, hr, hl, h, hre =>
    foldl_waits xs (s.step x) (step_rinv hr x.1 x.2) (step_linv hl hr x.1 x.2) (step_waits h hr hl x.1 x.2 (hre x List.mem_cons_self))
      (fun y hy => hre y (List.mem_cons_of_mem _ hy))

theorem run_waits {l : Lookup} (env : Env) (dg : Nat) (model : Model) (np : Pid) (xs : List (Env × Input))
    (hre : ∀ x ∈ xs, x.1.reach l.process.ipc = true) : Waits l (State.run env dg model np xs).core := by
  refine foldl_waits xs _ (init_rinv env dg model np) (init_linv env dg model np) (Waits.nil ?_) hre
  exact (Framed.conform ({ core := { domainGroups := dg, nextPid := np } } : State) env {} model).pending

end Casual.QManager
