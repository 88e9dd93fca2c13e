import Verif.QManager.Registry

/-! The registry holds what is offered and not withdrawn: the invariant. -/
namespace Casual.QManager

open Casual.Task

/-- Two providers that are the same but for the order. -/
def Agree (i j : Inst) : Prop := i.process = j.process ∧ i.queue = j.queue ∧ i.enable = j.enable

structure QInv (log : List Item) (qs : List (Name × List Inst)) : Prop where
  shape : Shape qs
  sorted : AllSorted qs
  sound : ∀ n j, j ∈ look qs n → ∃ i, OfferedNow log n i ∧ Agree i j ∧
    (j.order = i.order ∨ ∃ y ∈ log, Reorders i.process.ipc j.order y)
  remoteComplete : ∀ pre a post q, log = pre ++ .inp (.advertise a) :: post → a.directive = .update → q ∈ a.add →
    q.name ∉ a.remove → (∀ y ∈ post, ¬ Withdraws q.name a.process y) →
    ∃ j ∈ look qs q.name, j.process = a.process ∧ j.enable = q.enable ∧
      ((∀ y ∈ post, ∀ o, ¬ Reorders a.process.ipc o y) → j.order = a.order + 1) ∧ 0 < j.order
  groupComplete : ∀ pre p qs' post n id, log = pre ++ .inp (.groupReply p qs') :: post → (n, id) ∈ qs' →
    (∃ cfg, Item.out (.spawnGroup p.pid cfg) ∈ pre) → (∀ y ∈ pre, ¬ IsExit p.pid y) →
    (∀ y ∈ post, ∀ h : Handle, h.pid = p.pid → ConnectedAs pre h → ¬ Withdraws n h y) →
    ∃ j ∈ look qs n, j.process.pid = p.pid ∧ j.queue = id ∧ ConnectedAs pre j.process ∧
      (∃ cfg, Item.out (.spawnGroup p.pid cfg) ∈ log ∧ j.enable = configuredEnable cfg n) ∧
      ((∀ y ∈ post, ∀ h : Handle, h.pid = p.pid → ConnectedAs pre h → ∀ o, ¬ Reorders h.ipc o y) → j.order = 0)

structure GInv (log : List Item) (c : Core) : Prop where
  spawned : ∀ g ∈ c.groups, Item.out (.spawnGroup g.process.pid g.configuration) ∈ log
  connected : ∀ g ∈ c.groups, ConnectedAs log g.process
  known : ∀ pid cfg, Item.out (.spawnGroup pid cfg) ∈ log → (∀ y ∈ log, ¬ IsExit pid y) → ∃ g ∈ c.groups, g.process.pid = pid

theorem Offers.mono {l l' : List Item} {x n i} (h : Offers l x n i) (hs : ∀ y ∈ l, y ∈ l') : Offers l' x n i := by
  cases h with
  | remote a q _ hd hq hp hi ho he => exact .remote a q i hd hq hp hi ho he
  | group p qs n cfg _ hq hp ho hsp he => exact .group p qs n cfg i hq hp ho (hs _ hsp) he

theorem not_withdraws_out {n p o} : ¬ Withdraws n p (.out o) := fun h => h

theorem OfferedNow.more {l : List Item} {n i} (h : OfferedNow l n i) (ys : List Item) (hy : ∀ y ∈ ys, ¬ Withdraws n i.process y) :
    OfferedNow (l ++ ys) n i := by
  obtain ⟨pre, x, post, rfl, ho, hr, hw⟩ := h
  refine ⟨pre, x, post ++ ys, by simp, ho.mono (fun y hy => List.mem_append.mpr (Or.inl hy)), hr, ?_⟩
  intro y hy'
  rcases List.mem_append.mp hy' with h | h
  · exact hw y h
  · exact hy y h

/-- Where an input is in a history that ends with one input and outputs. -/
theorem split_last {l : List Item} {x : Item} {os : List Out} {pre post : List Item} {i : Input}
    (h : l ++ x :: outsOf os = pre ++ .inp i :: post) :
    (pre = l ∧ x = .inp i ∧ post = outsOf os) ∨ ∃ post', l = pre ++ .inp i :: post' ∧ post = post' ++ x :: outsOf os := by
  rw [List.append_eq_append_iff] at h
  rcases h with ⟨k, h1, h2⟩ | ⟨k, h1, h2⟩
  · cases k with
    | nil =>
      rw [List.append_nil] at h1
      injection h2 with h2 h3
      exact Or.inl ⟨h1, h2, h3.symm⟩
    | cons y k =>
      injection h2 with h2 h3
      have : Item.inp i ∈ outsOf os := by rw [h3]; simp
      obtain ⟨o, _, ho⟩ := mem_outsOf.mp this
      cases ho
  · cases k with
    | nil =>
      rw [List.append_nil] at h1
      injection h2 with h2 h3
      exact Or.inl ⟨h1.symm, h2.symm, h3⟩
    | cons y k =>
      injection h2 with h2 h3
      subst h2
      exact Or.inr ⟨k, h1, h3⟩

theorem QInv.next {l : List Item} {qs qs' : List (Name × List Inst)} (h : QInv l qs) (x : Item) (os : List Out)
    (shape : Shape qs') (sorted : AllSorted qs')
    (old : ∀ n j', j' ∈ look qs' n →
      (∃ j ∈ look qs n, Agree j j' ∧ (j'.order = j.order ∨ Reorders j.process.ipc j'.order x) ∧ ¬ Withdraws n j.process x) ∨
      (∃ i, Offers (l ++ x :: outsOf os) x n i ∧ (∀ a, x = .inp (.advertise a) → n ∉ a.remove) ∧ Agree i j' ∧
        j'.order = i.order))
    (kept : ∀ n j, j ∈ look qs n → ¬ Withdraws n j.process x → ∃ j' ∈ look qs' n, Agree j' j ∧
      ((∀ o, ¬ Reorders j.process.ipc o x) → j'.order = j.order) ∧ (0 < j.order → 0 < j'.order))
    (newR : ∀ a q, x = .inp (.advertise a) → a.directive = .update → q ∈ a.add → q.name ∉ a.remove →
      ∃ j ∈ look qs' q.name, j.process = a.process ∧ j.enable = q.enable ∧ j.order = a.order + 1)
    (newG : ∀ p qs2 n id, x = .inp (.groupReply p qs2) → (n, id) ∈ qs2 → (∃ cfg, Item.out (.spawnGroup p.pid cfg) ∈ l) →
      (∀ y ∈ l, ¬ IsExit p.pid y) → ∃ j ∈ look qs' n, j.process.pid = p.pid ∧ j.queue = id ∧ ConnectedAs l j.process ∧
        (∃ cfg, Item.out (.spawnGroup p.pid cfg) ∈ l ++ x :: outsOf os ∧ j.enable = configuredEnable cfg n) ∧ j.order = 0) :
    QInv (l ++ x :: outsOf os) qs' where
  shape := shape
  sorted := sorted
  sound := by
    intro n j' hj'
    have hout : ∀ p, ∀ y ∈ outsOf os, ¬ Withdraws n p y := fun p y hy => by
      obtain ⟨o, _, rfl⟩ := mem_outsOf.mp hy
      exact not_withdraws_out
    rcases old n j' hj' with ⟨j, hj, ha, ho, hw⟩ | ⟨i, hoff, hr, ha, ho⟩
    · obtain ⟨i, hi, hai, hoi⟩ := h.sound n j hj
      refine ⟨i, hi.more _ ?_, ⟨hai.1.trans ha.1, hai.2.1.trans ha.2.1, hai.2.2.trans ha.2.2⟩, ?_⟩
      rotate_left
      · rcases ho with ho | ho
        · rw [ho]
          exact hoi.imp id (fun ⟨y, hy, hr⟩ => ⟨y, List.mem_append.mpr (Or.inl hy), hr⟩)
        · refine Or.inr ⟨x, by simp, ?_⟩
          rw [hai.1]; exact ho
      intro y hy
      rcases List.mem_cons.mp hy with rfl | hy
      · rw [hai.1]; exact hw
      · exact hout _ y hy
    · exact ⟨i, ⟨l, x, outsOf os, rfl, hoff, hr, hout _⟩, ha, Or.inl ho⟩
  remoteComplete := by
    intro pre a post q he hd hq hn hw
    rcases split_last he with ⟨rfl, rfl, rfl⟩ | ⟨post', h1, h2⟩
    · obtain ⟨j, hj, hp, hen, ho⟩ := newR a q rfl hd hq hn
      exact ⟨j, hj, hp, hen, fun _ => ho, by rw [ho]; exact Nat.succ_pos _⟩
    · obtain ⟨j, hj, hp, hen, ho, hpos⟩ := h.remoteComplete pre a post' q h1 hd hq hn
        (fun y hy => hw y (by rw [h2]; exact List.mem_append.mpr (Or.inl hy)))
      obtain ⟨j', hj', ha, hko, hkp⟩ := kept q.name j hj (by rw [hp]; exact hw x (by rw [h2]; simp))
      refine ⟨j', hj', ha.1.trans hp, ha.2.2.trans hen, ?_, hkp hpos⟩
      intro hno
      rw [hko (by rw [hp]; exact hno x (by rw [h2]; simp))]
      exact ho (fun y hy => hno y (by rw [h2]; exact List.mem_append.mpr (Or.inl hy)))
  groupComplete := by
    intro pre p qs2 post n id he hq hs hx hw
    rcases split_last he with ⟨rfl, rfl, rfl⟩ | ⟨post', h1, h2⟩
    · obtain ⟨j, hj, hp, hqi, hc, hen, ho⟩ := newG p qs2 n id rfl hq hs hx
      exact ⟨j, hj, hp, hqi, hc, hen, fun _ => ho⟩
    · obtain ⟨j, hj, hp, hqi, hc, ⟨cfg, hen1, hen2⟩, ho⟩ := h.groupComplete pre p qs2 post' n id h1 hq hs hx
        (fun y hy => hw y (by rw [h2]; exact List.mem_append.mpr (Or.inl hy)))
      obtain ⟨j', hj', ha, hko, hkp⟩ := kept n j hj (hw x (by rw [h2]; simp) j.process hp hc)
      refine ⟨j', hj', by rw [ha.1]; exact hp, ha.2.1.trans hqi, by rw [ha.1]; exact hc,
        ⟨cfg, List.mem_append.mpr (Or.inl hen1), ha.2.2.trans hen2⟩, ?_⟩
      intro hno
      rw [hko (fun o => hno x (by rw [h2]; simp) j.process hp hc o)]
      exact ho (fun y hy => hno y (by rw [h2]; exact List.mem_append.mpr (Or.inl hy)))

/-- An input that offers nothing and withdraws nothing that is there, the registry the same. -/
theorem QInv.idle {l : List Item} {qs : List (Name × List Inst)} (h : QInv l qs) (i : Input) (os : List Out)
    (ha : ∀ a, i ≠ .advertise a) (hg : ∀ p q, i ≠ .groupReply p q) (hw : ∀ n p, ¬ Withdraws n p (.inp i)) :
    QInv (l ++ .inp i :: outsOf os) qs := by
  refine h.next _ os h.shape h.sorted ?_ ?_ ?_ ?_
  · intro n j hj; exact Or.inl ⟨j, hj, ⟨rfl, rfl, rfl⟩, Or.inl rfl, hw n _⟩
  · intro n j hj _; exact ⟨j, hj, ⟨rfl, rfl, rfl⟩, fun _ => rfl, id⟩
  · intro a q he; injection he with he; exact absurd he (ha a)
  · intro p q n id he; injection he with he; exact absurd he (hg p q)

/-- Something is removed. -/
theorem QInv.removed {l : List Item} {qs : List (Name × List Inst)} (h : QInv l qs) (i : Input) (os : List Out) (p : Inst → Bool)
    (ha : ∀ a q, i = .advertise a → a.directive = .update → q ∈ a.add → False) (hg : ∀ p q, i ≠ .groupReply p q)
    (h1 : ∀ n j, p j = false → ¬ Withdraws n j.process (.inp i)) (h2 : ∀ n j, p j = true → Withdraws n j.process (.inp i)) :
    QInv (l ++ .inp i :: outsOf os) (removeInsts qs p) := by
  refine h.next _ os (removeInsts_shape h.shape p) ?_ ?_ ?_ ?_ ?_
  · intro n; rw [look_removeInsts h.shape]; exact sorted_filter (h.sorted n) _
  · intro n j hj
    rw [look_removeInsts h.shape, List.mem_filter] at hj
    exact Or.inl ⟨j, hj.1, ⟨rfl, rfl, rfl⟩, Or.inl rfl, h1 n j (by simpa using hj.2)⟩
  · intro n j hj hw
    refine ⟨j, ?_, ⟨rfl, rfl, rfl⟩, fun _ => rfl, id⟩
    rw [look_removeInsts h.shape, List.mem_filter]
    refine ⟨hj, ?_⟩
    cases hp : p j with
    | false => rfl
    | true => exact absurd (h2 n j hp) hw
  · intro a q he hd hq
    injection he with he
    exact absurd hq (fun hq => ha a q he hd hq)
  · intro q qs2 n id he
    injection he with he
    exact absurd he (hg q qs2)

/-! ### The groups -/

theorem GInv.more {l : List Item} {c : Core} (h : GInv l c) (ys : List Item)
    (hy : ∀ pid cfg, Item.out (.spawnGroup pid cfg) ∉ ys) : GInv (l ++ ys) c where
  spawned := fun g hg => List.mem_append.mpr (Or.inl (h.spawned g hg))
  connected := fun g hg => (h.connected g hg).imp id (fun hm => List.mem_append.mpr (Or.inl hm))
  known := fun pid cfg hs hx => by
    rcases List.mem_append.mp hs with hs | hs
    · exact h.known pid cfg hs (fun y hy => hx y (List.mem_append.mpr (Or.inl hy)))
    · exact absurd hs (hy pid cfg)

theorem GInv.framed {l : List Item} {c c' : Core} (h : GInv l c) (hf : Framed c c') :
    ∃ os, c'.log = c.log ++ outsOf os ∧ GInv (l ++ outsOf os) c' := by
  obtain ⟨os, hl, _, hg, _, hs, _⟩ := hf.log
  refine ⟨os, hl, ?_, ?_, ?_⟩
  · intro g hgm
    rcases hg g hgm with ⟨g0, hg0, hp, hc⟩ | ⟨hsp, _⟩
    · rw [hp, hc]; exact List.mem_append.mpr (Or.inl (h.spawned g0 hg0))
    · exact List.mem_append.mpr (Or.inr (mem_outsOf.mpr ⟨_, hsp, rfl⟩))
  · intro g hgm
    rcases hg g hgm with ⟨g0, hg0, hp, hc⟩ | ⟨_, hi⟩
    · rw [hp]; exact (h.connected g0 hg0).imp id (fun hm => List.mem_append.mpr (Or.inl hm))
    · exact Or.inl hi
  · intro pid cfg hsp hx
    rcases List.mem_append.mp hsp with hsp | hsp
    · obtain ⟨g0, hg0, hp⟩ := h.known pid cfg hsp (fun y hy => hx y (List.mem_append.mpr (Or.inl hy)))
      obtain ⟨g, hgm, hpp, _⟩ := hf.groupsKept g0 hg0
      exact ⟨g, hgm, by rw [hpp]; exact hp⟩
    · obtain ⟨o, ho, he⟩ := mem_outsOf.mp hsp
      injection he with he
      subst he
      exact (hs pid cfg ho).2.2

theorem GInv.congr {l : List Item} {c c' : Core} (h : GInv l c) (hg : c'.groups = c.groups) : GInv l c' :=
  ⟨by rw [hg]; exact h.spawned, by rw [hg]; exact h.connected, by rw [hg]; exact h.known⟩

theorem GInv.remove {l : List Item} {c : Core} (h : GInv l c) (pid : Pid) (hx : ∃ y ∈ l, IsExit pid y) : GInv l (c.remove pid) := by
  have hg : (c.remove pid).groups = c.groups.filter fun g => !(g.process.pid == pid) := rfl
  refine ⟨?_, ?_, ?_⟩
  · intro g hgm; rw [hg] at hgm; exact h.spawned g (List.mem_filter.mp hgm).1
  · intro g hgm; rw [hg] at hgm; exact h.connected g (List.mem_filter.mp hgm).1
  · intro p cfg hs hne
    obtain ⟨g, hgm, hp⟩ := h.known p cfg hs hne
    refine ⟨g, ?_, hp⟩
    rw [hg]
    refine List.mem_filter.mpr ⟨hgm, ?_⟩
    have : g.process.pid ≠ pid := by
      rw [hp]
      rintro rfl
      obtain ⟨y, hy, hex⟩ := hx
      exact hne y hy hex
    simpa using this

/-- The groups are changed one by one, but not their pids and configurations. -/
theorem GInv.updated {l : List Item} {c : Core} {c' : Core} (h : GInv l c) (p : Entity GroupCfg → Bool)
    (f : Entity GroupCfg → Entity GroupCfg) (hc : c'.groups = updateFirst p f c.groups)
    (h1 : ∀ g, p g = true → (f g).process.pid = g.process.pid ∧ (f g).configuration = g.configuration)
    (h2 : ∀ g ∈ c.groups, p g = true → ConnectedAs l (f g).process) : GInv l c' := by
  refine ⟨?_, ?_, ?_⟩
  · intro g hg
    rw [hc] at hg
    rcases mem_updateFirst hg with hg | ⟨x, hx, hp, rfl⟩
    · exact h.spawned g hg
    · rw [(h1 x hp).1, (h1 x hp).2]; exact h.spawned x hx
  · intro g hg
    rw [hc] at hg
    rcases mem_updateFirst hg with hg | ⟨x, hx, hp, rfl⟩
    · exact h.connected g hg
    · exact h2 x hx hp
  · intro pid cfg hs hx
    obtain ⟨g, hg, hp⟩ := h.known pid cfg hs hx
    rw [hc]
    rcases updateFirst_kept (p := p) (f := f) hg with hk | ⟨hpg, hk⟩
    · exact ⟨g, hk, hp⟩
    · exact ⟨f g, hk, by rw [(h1 g hpg).1]; exact hp⟩

/-! ### The functions that only answer -/

/-- Not something that only the tasks do. -/
def Plain : Out → Prop
  | .spawnGroup .. | .spawnForward .. | .updateReply .. | .shutdownRequest .. => False
  | _ => True

/-- Neither the registry nor the groups change, and only replies are logged. -/
structure Quiet (c c' : Core) : Prop where
  queues : c'.queues = c.queues
  groups : c'.groups = c.groups
  forwards : c'.forwards = c.forwards
  log : ∃ os, c'.log = c.log ++ outsOf os ∧ ∀ o ∈ os, Plain o

theorem Quiet.refl (c : Core) : Quiet c c := ⟨rfl, rfl, rfl, [], by simp [outsOf], by simp⟩

theorem Quiet.trans {a b c : Core} (h1 : Quiet a b) (h2 : Quiet b c) : Quiet a c := by
  obtain ⟨q1, g1, f1, o1, l1, s1⟩ := h1
  obtain ⟨q2, g2, f2, o2, l2, s2⟩ := h2
  refine ⟨q2.trans q1, g2.trans g1, f2.trans f1, o1 ++ o2, ?_, ?_⟩
  · rw [l2, l1, List.append_assoc, outsOf_append]
  · intro o hm
    rcases List.mem_append.mp hm with h | h
    · exact s1 o h
    · exact s2 o h

theorem Quiet.emit (c : Core) (o : Out) (h : Plain o) : Quiet c (c.emit o) :=
  ⟨rfl, rfl, rfl, [o], rfl, fun x hm => by rw [List.mem_singleton.mp hm]; exact h⟩

theorem Quiet.send (c : Core) (env : Env) (d : Ipc) (o : Out) (h : Plain o) : Quiet c (c.send env d o) := by
  unfold Core.send
  split
  · exact Quiet.emit c o h
  · exact Quiet.refl c

theorem Quiet.pending (c : Core) (l : List Lookup) : Quiet c { c with pending := l } :=
  ⟨rfl, rfl, rfl, [], by simp [outsOf], by simp⟩

theorem Quiet.foldl {α : Type} (f : Core → α → Core) (h : ∀ c x, Quiet c (f c x)) :
    ∀ (l : List α) (c : Core), Quiet c (l.foldl f c)
  | [], c => Quiet.refl c
  | x :: xs, c => (h c x).trans (Quiet.foldl f h xs (f c x))

theorem Quiet.replyAbsent (c : Core) (env : Env) (l : Lookup) : Quiet c (c.replyAbsent env l) :=
  Quiet.send c env _ _ trivial

theorem Quiet.check (c : Core) (env : Env) : Quiet c (c.check env) := by
  unfold Core.check
  refine (Quiet.pending c []).trans (Quiet.foldl _ ?_ _ _)
  intro acc l
  split
  · split
    · exact Quiet.emit _ _ trivial
    · exact Quiet.pending _ _
  · exact Quiet.pending _ _

theorem Quiet.discardAll (c : Core) (env : Env) : Quiet c (c.discardAll env) := by
  unfold Core.discardAll
  exact (Quiet.pending c []).trans (Quiet.foldl _ (fun c l => Quiet.replyAbsent c env l) _ _)

theorem Quiet.absentQueue (c : Core) (env : Env) (l : Lookup) : Quiet c (c.absentQueue env l) := by
  unfold Core.absentQueue
  split
  · exact Quiet.replyAbsent c env l
  · exact Quiet.pending _ _

theorem Quiet.lookupRequest (c : Core) (env : Env) (l : Lookup) : Quiet c (c.lookupRequest env l) := by
  unfold Core.lookupRequest
  split
  · exact Quiet.replyAbsent c env l
  · split
    · split
      · exact Quiet.send _ _ _ _ trivial
      · unfold Core.discovery
        exact (Quiet.emit c (.discoveryRequest l.name l.corr) trivial).trans (Quiet.pending _ _)
    · split
      · exact Quiet.send _ _ _ _ trivial
      · exact Quiet.absentQueue c env l
    · split
      · exact Quiet.send _ _ _ _ trivial
      · exact Quiet.absentQueue c env l

theorem Quiet.discardRequest (c : Core) (env : Env) (corr : Corr) (p : Handle) : Quiet c (c.discardRequest env corr p) := by
  unfold Core.discardRequest
  split
  · exact (Quiet.pending c _).trans (Quiet.send _ _ _ _ trivial)
  · exact Quiet.send _ _ _ _ trivial

theorem Quiet.discoveryReply (c : Core) (env : Env) (corr : Corr) : Quiet c (c.discoveryReply env corr) := by
  unfold Core.discoveryReply
  dsimp only
  refine (Quiet.check c env).trans ?_
  generalize c.check env = c
  split
  · split
    · exact (Quiet.pending c _).trans (Quiet.replyAbsent _ env _)
    · exact Quiet.refl c
  · exact Quiet.refl c

theorem Quiet.idle (c : Core) : Quiet c c.idle := by
  unfold Core.idle
  split
  · refine Quiet.trans (b := { c with runlevel := .running }) ⟨rfl, rfl, rfl, [], by simp [outsOf], by simp⟩ ?_
    exact Quiet.emit _ _ trivial
  · exact Quiet.refl c

theorem Quiet.abort (c : Core) (env : Env) : Quiet c (c.abort env) := by
  unfold Core.abort
  dsimp only
  refine Quiet.trans (b := { c with runlevel := .error }) ⟨rfl, rfl, rfl, [], by simp [outsOf], by simp⟩ ?_
  refine (Quiet.discardAll _ env).trans ?_
  generalize Core.discardAll _ env = c1
  have h1 := Quiet.foldl (fun (acc : Core) (g : Entity FwdCfg) => acc.emit (.terminate g.process.pid))
    (fun c g => Quiet.emit c _ trivial) c1.forwards c1
  exact h1.trans (Quiet.foldl (fun (acc : Core) (g : Entity GroupCfg) => acc.emit (.terminate g.process.pid))
    (fun c g => Quiet.emit c _ trivial) _ _)

theorem Quiet.ginv {l : List Item} {c c' : Core} (h : Quiet c c') (hg : GInv l c) :
    ∃ os, c'.log = c.log ++ outsOf os ∧ GInv (l ++ outsOf os) c' := by
  obtain ⟨os, hl, hs⟩ := h.log
  refine ⟨os, hl, GInv.congr (hg.more (outsOf os) ?_) h.groups⟩
  intro pid cfg hm
  obtain ⟨o, ho, he⟩ := mem_outsOf.mp hm
  injection he with he
  subst he
  exact hs _ ho

/-- The invariant of the registry and the groups. -/
structure RInv (c : Core) : Prop where
  q : QInv c.log c.queues
  g : GInv c.log c

/-- A quiet step after an input that offers and withdraws nothing. -/
theorem RInv.quiet {c c' : Core} (h : RInv c) (i : Input) (hq : Quiet { c with log := c.log ++ [.inp i] } c')
    (ha : ∀ a, i ≠ .advertise a) (hg : ∀ p q, i ≠ .groupReply p q) (hw : ∀ n p, ¬ Withdraws n p (.inp i)) : RInv c' := by
  have h1 : GInv (c.log ++ [.inp i]) { c with log := c.log ++ [.inp i] } :=
    GInv.congr (h.g.more [.inp i] (fun _ _ hm => by cases List.mem_singleton.mp hm)) rfl
  obtain ⟨os, hl, hgi⟩ := hq.ginv h1
  have hl' : c'.log = c.log ++ .inp i :: outsOf os := by rw [hl]; simp
  refine ⟨?_, ?_⟩
  · rw [hl', hq.queues]
    exact h.q.idle i os ha hg hw
  · rw [hl]; exact hgi

theorem find_some_of_mem {α : Type} {p : α → Bool} {l : List α} {x : α} (hx : x ∈ l) (hp : p x = true) :
    ∃ y, l.find? p = some y ∧ y ∈ l ∧ p y = true := by
  cases hf : l.find? p with
  | none => exact absurd hp (by rw [List.find?_eq_none] at hf; exact hf x hx)
  | some y => exact ⟨y, rfl, List.mem_of_find?_eq_some hf, List.find?_some hf⟩

end Casual.QManager
