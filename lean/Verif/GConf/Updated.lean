import Verif.GConf.Props
/-
  When an update is done the groups are those that were posted, if nothing else happens meanwhile.
-/
namespace Casual.GConf
open Casual.Task

/-! ### Specification -/

/-- The groups that have not been asked to stop. -/
def State.live (st : State) : List Conf := (st.groups.filter fun g => .stop g.pid ∉ st.sent).map (·.conf)

/-- No two have the same alias on the same side. -/
def Unique (cs : List Conf) : Prop := (cs.map fun c => (c.side, c.alias)).Nodup

instance (cs : List Conf) : Decidable (Unique cs) := inferInstanceAs (Decidable (List.Nodup _))

/-- There are no further updates or shutdowns, and groups end only if they have been asked to stop, before the manager is running again. -/
def calm (c : Mgr) : Ev → Prop
  | .exit pid => ∀ g ∈ c.st.groups, g.pid = pid → .stop pid ∈ c.st.sent ∧ c.st.level ≠ .running
  | .update _ _ => False
  | .shutdown => False
  | _ => True

/-- All events are such. -/
def Calm : Mgr → List Ev → Prop
  | _, [] => True
  | c, e :: es => calm c e ∧ Calm (step c e) es

/-! ### Proof -/

/-- The alias, with the side. -/
def Conf.key (c : Conf) : Side × Nat := (c.side, c.alias)

/-- What is to be added. -/
def adds (W : List Act) : List Conf := W.flatMap fun a => match a with | .added _ cs => cs | _ => []

/-- What is to be modified. -/
def mods (W : List Act) : List Conf := W.flatMap fun a => match a with | .modified _ cs => cs | _ => []

/-- What is to be removed. -/
def rems (W : List Act) : List Conf := W.flatMap fun a => match a with | .removed _ cs => cs | _ => []

/-- There is such a group, not asked to stop. -/
def Live (st : State) (c : Conf) : Prop := ∃ p ∈ st.groups.map (fun g => (g.pid, g.conf)), .stop p.1 ∉ st.sent ∧ p.2 = c

/-- On the way to what is wanted. -/
structure Toward (wanted : List Conf) (st : State) (W : List Act) : Prop where
  fails : st.fails = []
  pids : ((st.groups.map fun g => (g.pid, g.conf)).map (·.1)).Nodup
  below : ∀ p ∈ st.groups.map (fun g => (g.pid, g.conf)), p.1 < st.nextPid
  stops : ∀ pid, .stop pid ∈ st.sent → pid < st.nextPid
  keys : (((st.groups.map fun g => (g.pid, g.conf)).map (·.2) ++ adds W).map Conf.key).Nodup
  ahead : ∀ w ∈ wanted, Live st w ∨ w ∈ adds W ∨ (w ∈ mods W ∧ ∃ c, Live st c ∧ c.key = w.key)
  left : ∀ c, Live st c → c ∈ wanted ∨ (∃ m ∈ mods W, m.key = c.key) ∨ (∃ r ∈ rems W, r.key = c.key)

/-- The action is about what is wanted. -/
def Act.fits (wanted : List Conf) : Act → Prop
  | .added _ cs => ∀ c ∈ cs, c ∈ wanted
  | .modified s cs => ∀ c ∈ cs, c ∈ wanted ∧ c.side = s
  | .removed s cs => ∀ c ∈ cs, c.side = s ∧ ∀ w ∈ wanted, w.key ≠ c.key
  | _ => True

variable {wanted : List Conf}

theorem Unique.inj {cs : List Conf} (h : (cs.map Conf.key).Nodup) {a b : Conf} (ha : a ∈ cs) (hb : b ∈ cs) (e : a.key = b.key) : a = b := by
  induction cs with
  | nil => cases ha
  | cons c cs ih =>
    rw [List.map_cons, List.nodup_cons] at h
    rcases List.mem_cons.1 ha with rfl | ha2
    · rcases List.mem_cons.1 hb with rfl | hb
      · rfl
      · exact absurd (e ▸ List.mem_map_of_mem hb) h.1
    · rcases List.mem_cons.1 hb with rfl | hb
      · exact absurd (e ▸ List.mem_map_of_mem ha2) h.1
      · exact ih h.2 ha2 hb

theorem group_key {gs : List Group} (h : (gs.map fun g => g.conf.key).Nodup) {a b : Group} (ha : a ∈ gs) (hb : b ∈ gs) (e : a.conf.key = b.conf.key) : a = b := by
  induction gs with
  | nil => cases ha
  | cons c cs ih =>
    rw [List.map_cons, List.nodup_cons] at h
    rcases List.mem_cons.1 ha with rfl | ha2
    · rcases List.mem_cons.1 hb with rfl | hb
      · rfl
      · exact absurd (e ▸ List.mem_map_of_mem (f := fun g : Group => g.conf.key) hb) h.1
    · rcases List.mem_cons.1 hb with rfl | hb
      · exact absurd (e ▸ List.mem_map_of_mem (f := fun g : Group => g.conf.key) ha2) h.1
      · exact ih h.2 ha2 hb

theorem group_pid {gs : List Group} (h : (gs.map (·.pid)).Nodup) {a b : Group} (ha : a ∈ gs) (hb : b ∈ gs) (e : a.pid = b.pid) : a = b := by
  induction gs with
  | nil => cases ha
  | cons c cs ih =>
    rw [List.map_cons, List.nodup_cons] at h
    rcases List.mem_cons.1 ha with rfl | ha2
    · rcases List.mem_cons.1 hb with rfl | hb
      · rfl
      · exact absurd (e ▸ List.mem_map_of_mem (f := fun g : Group => g.pid) hb) h.1
    · rcases List.mem_cons.1 hb with rfl | hb
      · exact absurd (e ▸ List.mem_map_of_mem (f := fun g : Group => g.pid) ha2) h.1
      · exact ih h.2 ha2 hb

theorem live_iff {st : State} {c : Conf} : Live st c ↔ ∃ g ∈ st.groups, .stop g.pid ∉ st.sent ∧ g.conf = c := by
  unfold Live
  constructor
  · rintro ⟨p, hp, h⟩
    obtain ⟨g, hg, rfl⟩ := List.mem_map.1 hp
    exact ⟨g, hg, h⟩
  · rintro ⟨g, hg, h⟩
    exact ⟨_, List.mem_map_of_mem hg, h⟩

theorem Toward.gkeys {st : State} {W : List Act} (h : Toward wanted st W) : (st.groups.map fun g => g.conf.key).Nodup := by
  have := h.keys
  rw [List.map_append, List.nodup_append] at this
  have := this.1
  rw [List.map_map, List.map_map] at this
  exact this

theorem Toward.gpids {st : State} {W : List Act} (h : Toward wanted st W) : (st.groups.map (·.pid)).Nodup := by
  have := h.pids
  rw [List.map_map] at this
  exact this

theorem Toward.fresh {st : State} {W : List Act} (h : Toward wanted st W) {g : Group} (hg : g ∈ st.groups) {c : Conf} (hc : c ∈ adds W) : g.conf.key ≠ c.key := by
  have := h.keys
  rw [List.map_append, List.nodup_append] at this
  refine this.2.2 _ (List.mem_map_of_mem ?_) _ (List.mem_map_of_mem hc)
  rw [List.map_map]
  exact List.mem_map_of_mem (f := (·.2) ∘ fun g : Group => (g.pid, g.conf)) hg

/-- Only the processes and what has been sent matter. -/
theorem Toward.same {st st' : State} {W : List Act} (h : Toward wanted st W) (hg : st'.groups.map (fun g => (g.pid, g.conf)) = st.groups.map (fun g => (g.pid, g.conf)))
    (hn : st'.nextPid = st.nextPid) (hf : st'.fails = st.fails) (hs : ∀ pid, Out.stop pid ∈ st'.sent ↔ .stop pid ∈ st.sent) : Toward wanted st' W := by
  have hl : ∀ c, Live st' c ↔ Live st c := by
    intro c
    unfold Live
    rw [hg]
    constructor
    · rintro ⟨p, hp, h1, h2⟩; exact ⟨p, hp, fun h => h1 ((hs _).2 h), h2⟩
    · rintro ⟨p, hp, h1, h2⟩; exact ⟨p, hp, fun h => h1 ((hs _).1 h), h2⟩
  refine ⟨hf.trans h.fails, hg ▸ h.pids, ?_, ?_, hg ▸ h.keys, ?_, ?_⟩
  · rw [hg, hn]; exact h.below
  · intro pid hp; rw [hn]; exact h.stops pid ((hs pid).1 hp)
  · intro w hw
    rcases h.ahead w hw with h1 | h1 | ⟨h1, c, h2, h3⟩
    · exact .inl ((hl w).2 h1)
    · exact .inr (.inl h1)
    · exact .inr (.inr ⟨h1, c, (hl c).2 h2, h3⟩)
  · intro c hc
    exact h.left c ((hl c).1 hc)

theorem spawns_full : ∀ (cs : List Conf) (st : State), st.fails = [] → (spawns cs st).1.fails = [] ∧ (spawns cs st).2.map (·.conf) = cs := by
  intro cs
  induction cs with
  | nil => intro st h; exact ⟨h, rfl⟩
  | cons c cs ih =>
    intro st h
    have h1 : spawn st = ({ st with fails := [], nextPid := st.nextPid + 1 }, some st.nextPid) := by
      unfold spawn
      rw [h]; rfl
    unfold spawns
    rw [h1]
    dsimp only
    obtain ⟨h2, h3⟩ := ih { st with fails := [], nextPid := st.nextPid + 1 } rfl
    refine ⟨h2, ?_⟩
    rw [List.map_append, h3]
    rfl

theorem added_state (s : Side) (cs : List Conf) (b : Body) (st : State) : (added s cs b st).1 = { (spawns cs st).1 with groups := (spawns cs st).1.groups ++ (spawns cs st).2 } := by
  unfold added
  split
  · rename_i e
    rw [e]
    dsimp only
    rw [List.append_nil]
  · rename_i e
    rw [e]

theorem added_toward (s : Side) (cs : List Conf) (b : Body) (st : State) (W : List Act) (ha : ∀ c ∈ cs, c ∈ wanted) (h : Toward wanted st (.added s cs :: W)) :
    Toward wanted (added s cs b st).1 W := by
  rw [added_state]
  obtain ⟨s1, s2, _, s4, s5, s6⟩ := spawns_spec cs st
  obtain ⟨f1, f2⟩ := spawns_full cs st h.fails
  have hl : ∀ c, Live { (spawns cs st).1 with groups := (spawns cs st).1.groups ++ (spawns cs st).2 } c ↔ Live st c ∨ c ∈ cs := by
    intro c
    rw [live_iff, live_iff]
    dsimp only
    rw [s1, s2]
    constructor
    · rintro ⟨g, hg, h1, h2⟩
      rcases List.mem_append.1 hg with hg | hg
      · exact .inl ⟨g, hg, h1, h2⟩
      · exact .inr (by rw [← h2]; exact (s6 g hg).2.2.2)
    · rintro (⟨g, hg, h1, h2⟩ | hc)
      · exact ⟨g, List.mem_append_left _ hg, h1, h2⟩
      · rw [← f2] at hc
        obtain ⟨g, hg, e⟩ := List.mem_map.1 hc
        refine ⟨g, List.mem_append_right _ hg, fun hst => ?_, e⟩
        have := h.stops _ hst
        have := (s6 g hg).1
        omega
  refine ⟨f1, ?_, ?_, ?_, ?_, ?_, ?_⟩
  · dsimp only
    rw [s1, List.map_append, List.map_append]
    refine List.nodup_append.2 ⟨h.pids, ?_, ?_⟩
    · rw [List.map_map]; exact s5
    · intro x hx y hy e
      obtain ⟨p, hp, rfl⟩ := List.mem_map.1 hx
      rw [List.map_map] at hy
      obtain ⟨g, hg, rfl⟩ := List.mem_map.1 hy
      have := h.below p hp
      have := (s6 g hg).1
      simp only [Function.comp] at e
      omega
  · intro p hp
    dsimp only at hp ⊢
    rw [s1, List.map_append] at hp
    rcases List.mem_append.1 hp with hp | hp
    · have := h.below p hp
      omega
    · obtain ⟨g, hg, rfl⟩ := List.mem_map.1 hp
      exact (s6 g hg).2.1
  · intro pid hp
    dsimp only at hp ⊢
    rw [s2] at hp
    have := h.stops pid hp
    omega
  · have := h.keys
    dsimp only
    rw [s1, List.map_append (l₁ := st.groups), List.map_append (l₁ := st.groups.map fun g => (g.pid, g.conf))]
    have e : ((spawns cs st).2.map fun g => (g.pid, g.conf)).map (·.2) = cs := by
      rw [List.map_map]; exact f2
    rw [e, List.append_assoc]
    exact this
  · intro w hw
    rcases h.ahead w hw with h1 | h1 | ⟨h1, c, h2, h3⟩
    · exact .inl ((hl w).2 (.inl h1))
    · rcases List.mem_append.1 (show w ∈ cs ++ adds W from h1) with h1 | h1
      · exact .inl ((hl w).2 (.inr h1))
      · exact .inr (.inl h1)
    · exact .inr (.inr ⟨h1, c, (hl c).2 (.inl h2), h3⟩)
  · intro c hc
    rcases (hl c).1 hc with hc | hc
    · exact h.left c hc
    · exact .inl (ha c hc)

theorem named_iff {s : Side} {c : Conf} (hs : c.side = s) {g : Group} : Group.named s c.alias g = true ↔ g.conf.key = c.key := by
  unfold Group.named Conf.key
  simp only [Bool.and_eq_true, beq_iff_eq, Prod.mk.injEq, hs]

theorem changeFirst_eq {s : Side} {c : Conf} (hs : c.side = s) (f : Group → Group) : ∀ {gs : List Group}, (gs.map fun g => g.conf.key).Nodup →
    changeFirst (Group.named s c.alias) f gs = gs.map fun g => if g.conf.key = c.key then f g else g := by
  intro gs
  induction gs with
  | nil => intro _; rfl
  | cons g gs ih =>
    intro h
    rw [List.map_cons, List.nodup_cons] at h
    unfold changeFirst
    by_cases e : g.conf.key = c.key
    · rw [if_pos ((named_iff hs).2 e), List.map_cons, if_pos e]
      congr 1
      symm
      refine (List.map_congr_left fun x hx => if_neg fun e2 => ?_).trans (List.map_id _)
      exact h.1 (by rw [e, ← e2]; exact List.mem_map_of_mem (f := fun g : Group => g.conf.key) hx)
    · rw [if_neg (fun h => e ((named_iff hs).1 h)), List.map_cons, if_neg e, ih h.2]

theorem modify_toward {s : Side} {c : Conf} {cs : List Conf} {st : State} {W : List Act} (hu : (wanted.map Conf.key).Nodup) (hc : c ∈ wanted ∧ c.side = s)
    (h : Toward wanted st (.modified s (c :: cs) :: W)) : Toward wanted { st with groups := changeFirst (Group.named s c.alias) (Group.update c) st.groups } (.modified s cs :: W) := by
  have hk := h.gkeys
  have hgs := changeFirst_eq hc.2 (Group.update c) hk
  have hadd : adds (.modified s (c :: cs) :: W) = adds (.modified s cs :: W) := rfl
  have hlive : ∀ g ∈ st.groups, g.conf.key = c.key → .stop g.pid ∉ st.sent := by
    intro g hg e
    have : ∀ d, Live st d → d.key = c.key → .stop g.pid ∉ st.sent := by
      intro d hd e2
      obtain ⟨g', hg', h1, rfl⟩ := live_iff.1 hd
      rw [group_key hk hg hg' (e.trans e2.symm)]
      exact h1
    rcases h.ahead c hc.1 with h1 | h1 | ⟨_, d, h2, h3⟩
    · exact this c h1 rfl
    · exact absurd e (h.fresh hg h1)
    · exact this d h2 h3
  have hl1 : ∀ d, Live st d → d.key ≠ c.key → Live { st with groups := changeFirst (Group.named s c.alias) (Group.update c) st.groups } d := by
    intro d hd hne
    obtain ⟨g, hg, h1, rfl⟩ := live_iff.1 hd
    refine live_iff.2 ⟨g, ?_, h1, rfl⟩
    dsimp only
    rw [hgs]
    exact List.mem_map.2 ⟨g, hg, if_neg hne⟩
  have hl2 : ∀ g ∈ st.groups, g.conf.key = c.key → Live { st with groups := changeFirst (Group.named s c.alias) (Group.update c) st.groups } c := by
    intro g hg e
    refine live_iff.2 ⟨Group.update c g, ?_, hlive g hg e, rfl⟩
    dsimp only
    rw [hgs]
    exact List.mem_map.2 ⟨g, hg, if_pos e⟩
  have hl3 : ∀ d, Live { st with groups := changeFirst (Group.named s c.alias) (Group.update c) st.groups } d → d = c ∨ (Live st d ∧ d.key ≠ c.key) := by
    intro d hd
    obtain ⟨g', hg', h1, rfl⟩ := live_iff.1 hd
    dsimp only at hg' h1
    rw [hgs] at hg'
    obtain ⟨g, hg, e⟩ := List.mem_map.1 hg'
    split at e
    · exact .inl (by rw [← e]; rfl)
    · rename_i hne
      subst e
      exact .inr ⟨live_iff.2 ⟨g, hg, h1, rfl⟩, hne⟩
  have hp : (changeFirst (Group.named s c.alias) (Group.update c) st.groups).map (·.pid) = st.groups.map (·.pid) := changeFirst_map (f := Group.update c) (·.pid) (fun _ => rfl) _
  have hkk : (changeFirst (Group.named s c.alias) (Group.update c) st.groups).map (fun g => g.conf.key) = st.groups.map fun g => g.conf.key := by
    rw [hgs, List.map_map]
    refine List.map_congr_left fun g _ => ?_
    simp only [Function.comp]
    split
    · rename_i e; exact e.symm
    · rfl
  refine ⟨h.fails, ?_, ?_, h.stops, ?_, ?_, ?_⟩
  · rw [List.map_map]
    show ((changeFirst (Group.named s c.alias) (Group.update c) st.groups).map (·.pid)).Nodup
    rw [hp]
    exact h.gpids
  · intro p hpp
    obtain ⟨g, hg, rfl⟩ := List.mem_map.1 hpp
    exact below_of hp (Nat.le_refl _) (fun g hg => h.below _ (List.mem_map_of_mem hg)) g hg
  · have := h.keys
    rw [List.map_append, List.map_map, List.map_map] at this ⊢
    show (List.map (fun g => g.conf.key) (changeFirst (Group.named s c.alias) (Group.update c) st.groups) ++ _).Nodup
    rw [hkk]
    exact this
  · intro w hw
    by_cases e : w.key = c.key
    · have : w = c := Unique.inj hu hw hc.1 e
      subst this
      rcases h.ahead w hw with h1 | h1 | ⟨_, d, h2, h3⟩
      · obtain ⟨g, hg, _, e2⟩ := live_iff.1 h1
        exact .inl (hl2 g hg (by rw [e2]))
      · exact .inr (.inl h1)
      · obtain ⟨g, hg, _, e2⟩ := live_iff.1 h2
        exact .inl (hl2 g hg (by rw [e2]; exact h3))
    · rcases h.ahead w hw with h1 | h1 | ⟨h1, d, h2, h3⟩
      · exact .inl (hl1 w h1 e)
      · exact .inr (.inl h1)
      · refine .inr (.inr ⟨?_, d, hl1 d h2 (by rw [h3]; exact e), h3⟩)
        rcases List.mem_cons.1 (show w ∈ c :: (cs ++ mods W) from h1) with rfl | h1
        · exact absurd rfl e
        · exact h1
  · intro d hd
    rcases hl3 d hd with rfl | ⟨hd, hne⟩
    · exact .inl hc.1
    · rcases h.left d hd with h1 | ⟨m, h1, h2⟩ | h1
      · exact .inl h1
      · rcases List.mem_cons.1 (show m ∈ c :: (cs ++ mods W) from h1) with rfl | h1
        · exact absurd h2.symm hne
        · exact .inr (.inl ⟨m, h1, h2⟩)
      · exact .inr (.inr h1)

theorem modifyAll_toward (hu : (wanted.map Conf.key).Nodup) (s : Side) (W : List Act) : ∀ (cs : List Conf) (st : State), (∀ c ∈ cs, c ∈ wanted ∧ c.side = s) →
    Toward wanted st (.modified s cs :: W) → Toward wanted (modifyAll s cs st).1 W := by
  intro cs
  induction cs with
  | nil => intro st _ h; exact ⟨h.fails, h.pids, h.below, h.stops, h.keys, h.ahead, h.left⟩
  | cons c cs ih =>
    intro st ha h
    have hc := ha c (List.mem_cons_self ..)
    have hr : ∀ c ∈ cs, c ∈ wanted ∧ c.side = s := fun d hd => ha d (List.mem_cons_of_mem _ hd)
    unfold modifyAll
    split
    · rename_i hnone
      have hno : ∀ d, Live st d → d.key ≠ c.key := by
        intro d hd e
        obtain ⟨g, hg, _, rfl⟩ := live_iff.1 hd
        exact List.find?_eq_none.1 hnone g hg ((named_iff hc.2).2 e)
      refine ih st hr ⟨h.fails, h.pids, h.below, h.stops, h.keys, ?_, ?_⟩
      · intro w hw
        rcases h.ahead w hw with h1 | h1 | ⟨h1, d, h2, h3⟩
        · exact .inl h1
        · exact .inr (.inl h1)
        · rcases List.mem_cons.1 (show w ∈ c :: (cs ++ mods W) from h1) with rfl | h1
          · exact absurd h3 (hno d h2)
          · exact .inr (.inr ⟨h1, d, h2, h3⟩)
      · intro d hd
        rcases h.left d hd with h1 | ⟨m, h1, h2⟩ | h1
        · exact .inl h1
        · rcases List.mem_cons.1 (show m ∈ c :: (cs ++ mods W) from h1) with rfl | h1
          · exact absurd h2.symm (hno d hd)
          · exact .inr (.inl ⟨m, h1, h2⟩)
        · exact .inr (.inr h1)
    · exact ih _ hr (modify_toward hu hc h)

theorem removed_state (s : Side) (cs : List Conf) (b : Body) (st : State) :
    (removed s cs b st).1 = { st with sent := st.sent ++ (cs.filterMap fun c => (st.groups.find? (Group.named s c.alias)).map (·.pid)).map .stop } := by
  unfold removed
  split
  · rename_i e
    rw [e]
    simp
  · rfl

theorem removed_toward (s : Side) (cs : List Conf) (b : Body) (st : State) (W : List Act) (ha : ∀ c ∈ cs, c.side = s ∧ ∀ w ∈ wanted, w.key ≠ c.key)
    (h : Toward wanted st (.removed s cs :: W)) : Toward wanted (removed s cs b st).1 W := by
  rw [removed_state]
  generalize hP : (cs.filterMap fun c => (st.groups.find? (Group.named s c.alias)).map (·.pid)) = P
  have hp1 : ∀ g ∈ st.groups, g.pid ∈ P → ∃ c ∈ cs, g.conf.key = c.key := by
    intro g hg hm
    rw [← hP] at hm
    obtain ⟨c, hc, e⟩ := List.mem_filterMap.1 hm
    obtain ⟨g', hf, e2⟩ := Option.map_eq_some_iff.1 e
    have := group_pid h.gpids (List.mem_of_find?_eq_some hf) hg e2
    subst this
    exact ⟨c, hc, (named_iff (ha c hc).1).1 (List.find?_some hf)⟩
  have hp2 : ∀ g ∈ st.groups, ∀ c ∈ cs, g.conf.key = c.key → g.pid ∈ P := by
    intro g hg c hc e
    rw [← hP]
    refine List.mem_filterMap.2 ⟨c, hc, ?_⟩
    cases hf : st.groups.find? (Group.named s c.alias) with
    | none => exact absurd ((named_iff (ha c hc).1).2 e) (List.find?_eq_none.1 hf g hg)
    | some g' =>
      have := (named_iff (ha c hc).1).1 (List.find?_some hf)
      rw [group_key h.gkeys (List.mem_of_find?_eq_some hf) hg (this.trans e.symm)]
      rfl
  have hl1 : ∀ d, Live { st with sent := st.sent ++ P.map .stop } d → Live st d ∧ ∀ c ∈ cs, d.key ≠ c.key := by
    intro d hd
    obtain ⟨g, hg, h1, rfl⟩ := live_iff.1 hd
    refine ⟨live_iff.2 ⟨g, hg, fun h => h1 (List.mem_append_left _ h), rfl⟩, fun c hc e => h1 ?_⟩
    exact List.mem_append_right _ (List.mem_map_of_mem (hp2 g hg c hc e))
  have hl2 : ∀ d, Live st d → (∀ c ∈ cs, d.key ≠ c.key) → Live { st with sent := st.sent ++ P.map .stop } d := by
    intro d hd hne
    obtain ⟨g, hg, h1, rfl⟩ := live_iff.1 hd
    refine live_iff.2 ⟨g, hg, fun h => ?_, rfl⟩
    rcases List.mem_append.1 h with h | h
    · exact h1 h
    · obtain ⟨pid, hm, e⟩ := List.mem_map.1 h
      cases e
      obtain ⟨c, hc, e⟩ := hp1 g hg hm
      exact hne c hc e
  refine ⟨h.fails, h.pids, h.below, ?_, h.keys, ?_, ?_⟩
  · intro pid hm
    rcases List.mem_append.1 hm with hm | hm
    · exact h.stops pid hm
    · obtain ⟨x, hx, e⟩ := List.mem_map.1 hm
      cases e
      rw [← hP] at hx
      obtain ⟨c, _, e⟩ := List.mem_filterMap.1 hx
      obtain ⟨g, hf, rfl⟩ := Option.map_eq_some_iff.1 e
      exact h.below _ (List.mem_map_of_mem (f := fun g : Group => (g.pid, g.conf)) (List.mem_of_find?_eq_some hf))
  · intro w hw
    have hne : ∀ c ∈ cs, w.key ≠ c.key := fun c hc => (ha c hc).2 w hw
    rcases h.ahead w hw with h1 | h1 | ⟨h1, d, h2, h3⟩
    · exact .inl (hl2 w h1 hne)
    · exact .inr (.inl h1)
    · exact .inr (.inr ⟨h1, d, hl2 d h2 (fun c hc => by rw [h3]; exact hne c hc), h3⟩)
  · intro d hd
    obtain ⟨h1, h2⟩ := hl1 d hd
    rcases h.left d h1 with h3 | h3 | ⟨r, h3, h4⟩
    · exact .inl h3
    · exact .inr (.inl h3)
    · rcases List.mem_append.1 (show r ∈ cs ++ rems W from h3) with h3 | h3
      · exact absurd h4.symm (h2 r h3)
      · exact .inr (.inr ⟨r, h3, h4⟩)

theorem toward_kept (hu : (wanted.map Conf.key).Nodup) (F : List Act) : Kept (fun st W => Toward wanted st (W ++ F)) (Act.fits wanted) (fun _ => True) := by
  refine ⟨fun a b st W ha _ h => ⟨?_, trivial⟩, fun b m f st W _ e hj => ⟨by rw [handle_state e]; exact hj, trivial⟩⟩
  cases a with
  | added s cs => exact added_toward s cs b st _ ha h
  | modified s cs =>
    have := modifyAll_toward hu s (W ++ F) cs st ha h
    show Toward wanted (modified s cs b st).1 _
    unfold modified
    split <;> rename_i e <;> rw [e] at this <;> exact this
  | removed s cs => exact removed_toward s cs b st _ ha h
  | reply k =>
    have h' : Toward wanted st (W ++ F) := ⟨h.fails, h.pids, h.below, h.stops, h.keys, h.ahead, h.left⟩
    exact h'.same rfl rfl rfl (fun pid => by
      show Out.stop pid ∈ st.sent ++ [Out.reply k] ↔ _
      simp)
  | booted =>
    have h' : Toward wanted st (W ++ F) := ⟨h.fails, h.pids, h.below, h.stops, h.keys, h.ahead, h.left⟩
    exact h'.same rfl rfl rfl (fun pid => Iff.rfl)

/-- The manager is on the way, and `F` is still to be posted. -/
abbrev On (wanted : List Conf) (F : List Act) (c : Mgr) : Prop := GoodM (fun st W => Toward wanted st (W ++ F)) (Act.fits wanted) (fun _ => True) c

theorem push_on (hu : (wanted.map Conf.key).Nodup) {c : Mgr} {a : Act} {F : List Act} (ha : a.fits wanted) (h : On wanted (a :: F) c) : On wanted F (c.push [(a, .none)]) := by
  refine push_good (toward_kept hu F) ?_ h.units h.front ?_
  · have := h.holds
    rw [List.map_cons, List.map_nil]
    show Toward wanted c.st (_ ++ [a] ++ F)
    rw [List.append_assoc]
    exact this
  · intro x hx
    rw [List.mem_singleton.1 hx]
    exact ⟨ha, trivial⟩

theorem task_on (hu : (wanted.map Conf.key).Nodup) {c : Mgr} (mk : List Conf → Act) (hmk : ∀ W F, adds (W ++ mk [] :: F) = adds (W ++ F) ∧ mods (W ++ mk [] :: F) = mods (W ++ F) ∧ rems (W ++ mk [] :: F) = rems (W ++ F))
    (cs : List Conf) {F : List Act} (ha : (mk cs).fits wanted) (h : On wanted (mk cs :: F) c) : On wanted F (c.task mk cs) := by
  unfold Mgr.task
  split
  · rename_i e
    subst e
    refine ⟨?_, h.units, h.front⟩
    have h1 := h.holds
    obtain ⟨e1, e2, e3⟩ := hmk (pend c.conts) F
    exact ⟨h1.fails, h1.pids, h1.below, h1.stops, e1 ▸ h1.keys, e1 ▸ e2 ▸ h1.ahead, e2 ▸ e3 ▸ h1.left⟩
  · exact push_on hu ha h

theorem calc_added {cur want : List Conf} {x : Conf} : x ∈ (Casual.Config.calculate Conf.alias cur want).added ↔ x ∈ want ∧ x ∉ cur ∧ ∀ y ∈ cur, x.alias ≠ y.alias := by
  unfold Casual.Config.calculate Casual.Config.intersection
  simp only [List.mem_filter, Bool.not_eq_true', List.any_eq_false, decide_eq_true_eq, and_assoc]
  constructor
  · rintro ⟨h1, h2, h3⟩
    exact ⟨h1, fun h => h2 x h rfl, h3⟩
  · rintro ⟨h1, h2, h3⟩
    exact ⟨h1, fun y hy e => h2 (e ▸ hy), h3⟩

theorem calc_modified {cur want : List Conf} {x : Conf} : x ∈ (Casual.Config.calculate Conf.alias cur want).modified ↔ x ∈ want ∧ x ∉ cur ∧ ∃ y ∈ cur, x.alias = y.alias := by
  unfold Casual.Config.calculate Casual.Config.intersection
  simp only [List.mem_filter, Bool.not_eq_true', List.any_eq_false, List.any_eq_true, decide_eq_true_eq, and_assoc]
  constructor
  · rintro ⟨h1, h2, h3⟩
    exact ⟨h1, fun h => h2 x h rfl, h3⟩
  · rintro ⟨h1, h2, h3⟩
    exact ⟨h1, fun y hy e => h2 (e ▸ hy), h3⟩

theorem calc_removed {cur want : List Conf} {x : Conf} : x ∈ (Casual.Config.calculate Conf.alias cur want).removed ↔ x ∈ cur ∧ ∀ y ∈ want, x.alias ≠ y.alias := by
  unfold Casual.Config.calculate Casual.Config.intersection
  simp only [List.mem_filter, Bool.not_eq_true', List.any_eq_false, decide_eq_true_eq]

theorem mem_side {s : Side} {cs : List Conf} {x : Conf} : x ∈ side s cs ↔ x ∈ cs ∧ x.side = s := by
  unfold side
  simp [List.mem_filter]

/-- What has been asked to stop has been started. -/
def Stopped (st : State) (W : List Act) : Prop := Sound st W ∧ ∀ pid, .stop pid ∈ st.sent → pid < st.nextPid

theorem stopped_kept : Kept Stopped (fun _ => True) (fun _ => True) := by
  refine kept_of fun a b st W h => ⟨(sound_kept.act a b st W trivial trivial h.1).1, ?_⟩
  cases a with
  | added s cs =>
    show ∀ pid, .stop pid ∈ (added s cs b st).1.sent → pid < (added s cs b st).1.nextPid
    rw [added_state]
    obtain ⟨_, s2, _, s4, _⟩ := spawns_spec cs st
    intro pid hp
    dsimp only at hp ⊢
    rw [s2] at hp
    have := h.2 pid hp
    omega
  | modified s cs =>
    obtain ⟨m1, m2, _⟩ := modifyAll_spec s cs st
    have : ∀ pid, Out.stop pid ∈ (modifyAll s cs st).1.sent → pid < (modifyAll s cs st).1.nextPid := by
      rw [m1, m2]; exact h.2
    show ∀ pid, .stop pid ∈ (modified s cs b st).1.sent → pid < (modified s cs b st).1.nextPid
    unfold modified
    split <;> rename_i e <;> rw [e] at this <;> exact this
  | removed s cs =>
    show ∀ pid, .stop pid ∈ (removed s cs b st).1.sent → pid < (removed s cs b st).1.nextPid
    rw [removed_state]
    intro pid hm
    rcases List.mem_append.1 hm with hm | hm
    · exact h.2 pid hm
    · obtain ⟨x, hx, e⟩ := List.mem_map.1 hm
      cases e
      obtain ⟨c, _, e⟩ := List.mem_filterMap.1 hx
      obtain ⟨g, hf, rfl⟩ := Option.map_eq_some_iff.1 e
      exact h.1.2.1 g (List.mem_of_find?_eq_some hf)
  | reply k =>
    intro pid hm
    refine h.2 pid ?_
    have : Out.stop pid ∈ st.sent ++ [Out.reply k] := hm
    simpa using this
  | booted => exact h.2

theorem stopped_steady : Steady Stopped :=
  ⟨fun st W pid h => ⟨sound_steady.exit st W pid h.1, h.2⟩, fun st W s pid h => ⟨sound_steady.connect st W s pid h.1, h.2⟩, fun st W l h => ⟨sound_steady.level st W l h.1, h.2⟩⟩

theorem run_stopped (fails : List Bool) (wanted : List Conf) (es : List Ev) : Stopped (run (boot fails wanted) es).st [] :=
  (run_good stopped_kept (fun _ _ _ h => h) stopped_steady fails wanted ⟨⟨List.nodup_nil, (by intro g hg; cases hg), (by intro g hg; cases hg)⟩, (by intro g hg; cases hg)⟩ es).holds

/-- Nothing is under way. -/
structure Still (c : Mgr) : Prop where
  idle : c.conts = []
  fails : c.st.fails = []
  sound : Stopped c.st []
  uniq : Unique (c.st.groups.map (·.conf))
  none : ∀ g ∈ c.st.groups, .stop g.pid ∉ c.st.sent

theorem live_all {c : Mgr} (h : Still c) {d : Conf} : Live c.st d ↔ d ∈ c.st.groups.map (·.conf) := by
  rw [live_iff, List.mem_map]
  constructor
  · rintro ⟨g, hg, _, e⟩; exact ⟨g, hg, e⟩
  · rintro ⟨g, hg, e⟩; exact ⟨g, hg, h.none g hg, e⟩

/-- What is new has keys that are not there. -/
theorem keys_add {cur add : List Conf} (hc : (cur.map Conf.key).Nodup) (ha : (add.map Conf.key).Nodup) (hd : ∀ x ∈ cur, ∀ y ∈ add, x.key ≠ y.key) : ((cur ++ add).map Conf.key).Nodup := by
  rw [List.map_append]
  refine List.nodup_append.2 ⟨hc, ha, ?_⟩
  intro a ha b hb e
  obtain ⟨x, hx, rfl⟩ := List.mem_map.1 ha
  obtain ⟨y, hy, rfl⟩ := List.mem_map.1 hb
  exact hd x hx y hy e

theorem sub_keys {ws xs : List Conf} (hu : (ws.map Conf.key).Nodup) (hs : xs.Sublist ws) : (xs.map Conf.key).Nodup := (List.Sublist.map _ hs).nodup hu

theorem added_sub (cur want : List Conf) : (Casual.Config.calculate Conf.alias cur want).added.Sublist want := by
  unfold Casual.Config.calculate Casual.Config.intersection
  dsimp only
  exact List.filter_sublist.trans List.filter_sublist

theorem toward_still {c : Mgr} (h : Still c) {W : List Act} (hk : ((c.st.groups.map (·.conf) ++ adds W).map Conf.key).Nodup)
    (ha : ∀ w ∈ wanted, w ∈ c.st.groups.map (·.conf) ∨ w ∈ adds W ∨ (w ∈ mods W ∧ ∃ x ∈ c.st.groups.map (·.conf), x.key = w.key))
    (hl : ∀ x ∈ c.st.groups.map (·.conf), x ∈ wanted ∨ (∃ m ∈ mods W, m.key = x.key) ∨ (∃ r ∈ rems W, r.key = x.key)) : Toward wanted c.st W := by
  refine ⟨h.fails, ?_, ?_, h.sound.2, ?_, ?_, ?_⟩
  · rw [List.map_map]; exact h.sound.1.1
  · intro p hp
    obtain ⟨g, hg, rfl⟩ := List.mem_map.1 hp
    exact h.sound.1.2.1 g hg
  · have : (c.st.groups.map fun g => (g.pid, g.conf)).map (·.2) = c.st.groups.map (·.conf) := by rw [List.map_map]; rfl
    rw [this]; exact hk
  · intro w hw
    rcases ha w hw with h1 | h1 | ⟨h1, x, h2, h3⟩
    · exact .inl ((live_all h).2 h1)
    · exact .inr (.inl h1)
    · exact .inr (.inr ⟨h1, x, (live_all h).2 h2, h3⟩)
  · intro x hx
    exact hl x ((live_all h).1 hx)

theorem conform_on (hu : (wanted.map Conf.key).Nodup) {c : Mgr} (h : Still c) : On wanted [] (conform c wanted) := by
  have hunits : ∀ g ∈ c.conts, ∀ u ∈ g, OkU (Act.fits wanted) (fun _ => True) u := by rw [h.idle]; intro g hg; cases hg
  have hfront : ∀ g, c.conts.head? = some g → ∀ u ∈ g, u.action = none := by rw [h.idle]; intro g hg; cases hg
  have hpend : pend c.conts = [] := by rw [h.idle]; rfl
  unfold conform
  dsimp only
  split
  · rename_i he
    have hm : ∀ x, x ∈ c.st.groups.map (·.conf) ↔ x ∈ wanted := by
      intro x
      cases hx : x.side with
      | inb =>
        have e := congrArg (x ∈ ·) he.1
        simp only [mem_side, hx, and_true] at e
        exact iff_of_eq e
      | outb =>
        have e := congrArg (x ∈ ·) he.2
        simp only [mem_side, hx, and_true] at e
        exact iff_of_eq e
    refine ⟨?_, hunits, hfront⟩
    show Toward wanted c.st (pend c.conts ++ [])
    rw [hpend]
    refine toward_still h ?_ (fun w hw => .inl ((hm w).2 hw)) (fun x hx => .inl ((hm x).1 hx))
    show ((_ ++ []).map Conf.key).Nodup
    rw [List.append_nil]
    exact h.uniq
  · generalize hcur : c.st.groups.map (·.conf) = cur
    have huc : (cur.map Conf.key).Nodup := hcur ▸ h.uniq
    have hA : ∀ s x, x ∈ (Casual.Config.calculate Conf.alias (side s cur) (side s wanted)).added ↔ (x ∈ wanted ∧ x.side = s) ∧ x ∉ cur ∧ ∀ y ∈ cur, y.side = s → x.alias ≠ y.alias := by
      intro s x
      rw [calc_added]
      simp only [mem_side]
      constructor
      · rintro ⟨h1, h2, h3⟩; exact ⟨h1, fun h => h2 ⟨h, h1.2⟩, fun y hy e => h3 y ⟨hy, e⟩⟩
      · rintro ⟨h1, h2, h3⟩; exact ⟨h1, fun h => h2 h.1, fun y hy => h3 y hy.1 hy.2⟩
    have hM : ∀ s x, x ∈ (Casual.Config.calculate Conf.alias (side s cur) (side s wanted)).modified ↔ (x ∈ wanted ∧ x.side = s) ∧ x ∉ cur ∧ ∃ y ∈ cur, y.side = s ∧ x.alias = y.alias := by
      intro s x
      rw [calc_modified]
      simp only [mem_side]
      constructor
      · rintro ⟨h1, h2, y, hy, e⟩; exact ⟨h1, fun h => h2 ⟨h, h1.2⟩, y, hy.1, hy.2, e⟩
      · rintro ⟨h1, h2, y, hy, e1, e2⟩; exact ⟨h1, fun h => h2 h.1, y, ⟨hy, e1⟩, e2⟩
    have hR : ∀ s x, x ∈ (Casual.Config.calculate Conf.alias (side s cur) (side s wanted)).removed ↔ (x ∈ cur ∧ x.side = s) ∧ ∀ y ∈ wanted, y.side = s → x.alias ≠ y.alias := by
      intro s x
      rw [calc_removed]
      simp only [mem_side]
      constructor
      · rintro ⟨h1, h3⟩; exact ⟨h1, fun y hy e => h3 y ⟨hy, e⟩⟩
      · rintro ⟨h1, h3⟩; exact ⟨h1, fun y hy => h3 y hy.1 hy.2⟩
    have hAN : ∀ s, ((Casual.Config.calculate Conf.alias (side s cur) (side s wanted)).added.map Conf.key).Nodup := fun s =>
      sub_keys hu ((added_sub _ _).trans List.filter_sublist)
    have hAf : ∀ s, (Act.added s (Casual.Config.calculate Conf.alias (side s cur) (side s wanted)).added).fits wanted := fun s x hx => ((hA s x).1 hx).1.1
    have hMf : ∀ s, (Act.modified s (Casual.Config.calculate Conf.alias (side s cur) (side s wanted)).modified).fits wanted := fun s x hx => ((hM s x).1 hx).1
    have hRf : ∀ s, (Act.removed s (Casual.Config.calculate Conf.alias (side s cur) (side s wanted)).removed).fits wanted := by
      intro s x hx
      obtain ⟨h1, h2⟩ := (hR s x).1 hx
      refine ⟨h1.2, fun w hw e => ?_⟩
      unfold Conf.key at e
      rw [Prod.mk.injEq] at e
      exact h2 w hw (e.1.trans h1.2) e.2.symm
    generalize hAo : (Casual.Config.calculate Conf.alias (side .outb cur) (side .outb wanted)).added = Ao at *
    generalize hAi : (Casual.Config.calculate Conf.alias (side .inb cur) (side .inb wanted)).added = Ai at *
    generalize hMo : (Casual.Config.calculate Conf.alias (side .outb cur) (side .outb wanted)).modified = Mo at *
    generalize hMi : (Casual.Config.calculate Conf.alias (side .inb cur) (side .inb wanted)).modified = Mi at *
    generalize hRo : (Casual.Config.calculate Conf.alias (side .outb cur) (side .outb wanted)).removed = Ro at *
    generalize hRi : (Casual.Config.calculate Conf.alias (side .inb cur) (side .inb wanted)).removed = Ri at *
    have hadds : adds [.added .outb Ao, .added .inb Ai, .modified .outb Mo, .modified .inb Mi, .removed .inb Ri, .removed .outb Ro] = Ao ++ Ai := by simp [adds]
    have hmods : mods [.added .outb Ao, .added .inb Ai, .modified .outb Mo, .modified .inb Mi, .removed .inb Ri, .removed .outb Ro] = Mo ++ Mi := by simp [mods]
    have hrems : rems [.added .outb Ao, .added .inb Ai, .modified .outb Mo, .modified .inb Mi, .removed .inb Ri, .removed .outb Ro] = Ri ++ Ro := by simp [rems]
    have e0 : ∀ s W F, adds (W ++ Act.added s [] :: F) = adds (W ++ F) ∧ mods (W ++ Act.added s [] :: F) = mods (W ++ F) ∧ rems (W ++ Act.added s [] :: F) = rems (W ++ F) := by
      intro s W F; simp [adds, mods, rems]
    have e1 : ∀ s W F, adds (W ++ Act.modified s [] :: F) = adds (W ++ F) ∧ mods (W ++ Act.modified s [] :: F) = mods (W ++ F) ∧ rems (W ++ Act.modified s [] :: F) = rems (W ++ F) := by
      intro s W F; simp [adds, mods, rems]
    have e2 : ∀ s W F, adds (W ++ Act.removed s [] :: F) = adds (W ++ F) ∧ mods (W ++ Act.removed s [] :: F) = mods (W ++ F) ∧ rems (W ++ Act.removed s [] :: F) = rems (W ++ F) := by
      intro s W F; simp [adds, mods, rems]
    have start : On wanted [.added .outb Ao, .added .inb Ai, .modified .outb Mo, .modified .inb Mi, .removed .inb Ri, .removed .outb Ro] c := by
      refine ⟨?_, hunits, hfront⟩
      show Toward wanted c.st (pend c.conts ++ _)
      rw [hpend, List.nil_append]
      refine toward_still h ?_ ?_ ?_
      · rw [hadds, hcur]
        refine keys_add huc (keys_add (hAo ▸ hAN .outb) (hAi ▸ hAN .inb) ?_) ?_
        · intro x hx y hy e
          rw [← hAo] at hx; rw [← hAi] at hy
          have e1 := ((hA _ _).1 hx).1.2
          have e2 := ((hA _ _).1 hy).1.2
          have := congrArg Prod.fst e
          unfold Conf.key at this
          dsimp only at this
          rw [e1, e2] at this
          cases this
        · intro x hx y hy e
          unfold Conf.key at e
          rw [Prod.mk.injEq] at e
          rcases List.mem_append.1 hy with hy | hy
          · rw [← hAo] at hy
            have h1 := (hA _ _).1 hy
            exact h1.2.2 x hx (e.1.trans h1.1.2) e.2.symm
          · rw [← hAi] at hy
            have h1 := (hA _ _).1 hy
            exact h1.2.2 x hx (e.1.trans h1.1.2) e.2.symm
      · intro w hw
        rw [hadds, hmods, hcur]
        by_cases h1 : w ∈ cur
        · exact .inl h1
        · by_cases h2 : ∃ y ∈ cur, y.side = w.side ∧ w.alias = y.alias
          · refine .inr (.inr ⟨?_, ?_⟩)
            · cases hs : w.side with
              | outb => exact List.mem_append_left _ (hMo ▸ (hM .outb w).2 ⟨⟨hw, hs⟩, h1, hs ▸ h2⟩)
              | inb => exact List.mem_append_right _ (hMi ▸ (hM .inb w).2 ⟨⟨hw, hs⟩, h1, hs ▸ h2⟩)
            · obtain ⟨y, hy, a, b⟩ := h2
              exact ⟨y, hy, by unfold Conf.key; rw [a, b]⟩
          · refine .inr (.inl ?_)
            have h3 : ∀ y ∈ cur, y.side = w.side → w.alias ≠ y.alias := fun y hy a b => h2 ⟨y, hy, a, b⟩
            cases hs : w.side with
            | outb => exact List.mem_append_left _ (hAo ▸ (hA .outb w).2 ⟨⟨hw, hs⟩, h1, hs ▸ h3⟩)
            | inb => exact List.mem_append_right _ (hAi ▸ (hA .inb w).2 ⟨⟨hw, hs⟩, h1, hs ▸ h3⟩)
      · intro x hx
        rw [hcur] at hx
        rw [hmods, hrems]
        by_cases h1 : x ∈ wanted
        · exact .inl h1
        · refine .inr ?_
          by_cases h2 : ∃ w ∈ wanted, w.side = x.side ∧ w.alias = x.alias
          · obtain ⟨w, hw, a, b⟩ := h2
            have hk : w.key = x.key := by unfold Conf.key; rw [a, b]
            have hnc : w ∉ cur := fun hc => h1 (Unique.inj huc hc hx hk ▸ hw)
            refine .inl ⟨w, ?_, hk⟩
            cases hs : w.side with
            | outb => exact List.mem_append_left _ (hMo ▸ (hM .outb w).2 ⟨⟨hw, hs⟩, hnc, x, hx, a ▸ hs, b⟩)
            | inb => exact List.mem_append_right _ (hMi ▸ (hM .inb w).2 ⟨⟨hw, hs⟩, hnc, x, hx, a ▸ hs, b⟩)
          · refine .inr ⟨x, ?_, rfl⟩
            have h3 : ∀ y ∈ wanted, y.side = x.side → x.alias ≠ y.alias := fun y hy a b => h2 ⟨y, hy, a, b.symm⟩
            cases hs : x.side with
            | outb => exact List.mem_append_right _ (hRo ▸ (hR .outb x).2 ⟨⟨hx, hs⟩, hs ▸ h3⟩)
            | inb => exact List.mem_append_left _ (hRi ▸ (hR .inb x).2 ⟨⟨hx, hs⟩, hs ▸ h3⟩)
    refine task_on hu (.removed .outb) (e2 _) Ro (hRo ▸ hRf .outb) ?_
    refine task_on hu (.removed .inb) (e2 _) Ri (hRi ▸ hRf .inb) ?_
    refine task_on hu (.modified .inb) (e1 _) Mi (hMi ▸ hMf .inb) ?_
    refine task_on hu (.modified .outb) (e1 _) Mo (hMo ▸ hMf .outb) ?_
    refine task_on hu (.added .inb) (e0 _) Ai (hAi ▸ hAf .inb) ?_
    exact task_on hu (.added .outb) (e0 _) Ao (hAo ▸ hAf .outb) start

theorem calm_on (hu : (wanted.map Conf.key).Nodup) {c : Mgr} (e : Ev) (hq : calm c e) (h : On wanted [] c) : On wanted [] (step c e) := by
  unfold step
  split
  · exact h
  · cases e with
    | exit pid =>
      show On _ _ (onExit c pid)
      unfold onExit
      dsimp only
      refine msg_good (toward_kept hu []) _ ?_
      split
      · exact h
      · rename_i g hf
        have hg := List.mem_of_find?_eq_some hf
        have hp : g.pid = pid := by
          have := List.find?_some hf
          unfold Group.isProc at this
          simpa using this
        obtain ⟨h1, h2⟩ := hq g hg hp
        rw [if_neg h2]
        refine on_good h fun W hj => ?_
        have hsub : (c.st.groups.eraseP (Group.isProc pid)).Sublist c.st.groups := List.eraseP_sublist
        have hmem : ∀ x, x ∈ c.st.groups.eraseP (Group.isProc pid) ↔ x ∈ c.st.groups ∧ x.pid ≠ pid := by
          intro x
          rw [erase_proc hj.gpids, List.mem_filter]
          simp
        have hl : ∀ d, Live { c.st with groups := c.st.groups.eraseP (Group.isProc pid) } d ↔ Live c.st d := by
          intro d
          rw [live_iff, live_iff]
          constructor
          · rintro ⟨x, hx, a, b⟩; exact ⟨x, ((hmem x).1 hx).1, a, b⟩
          · rintro ⟨x, hx, a, b⟩; exact ⟨x, (hmem x).2 ⟨hx, fun e => a (e ▸ h1)⟩, a, b⟩
        refine ⟨hj.fails, ?_, ?_, hj.stops, ?_, ?_, ?_⟩
        · exact ((hsub.map _).map _).nodup hj.pids
        · intro p hp
          exact hj.below p ((hsub.map _).subset hp)
        · exact (List.Sublist.map _ (List.Sublist.append ((hsub.map _).map _) (.refl _))).nodup hj.keys
        · intro w hw
          rcases hj.ahead w hw with a | a | ⟨a, d, b, e⟩
          · exact .inl ((hl w).2 a)
          · exact .inr (.inl a)
          · exact .inr (.inr ⟨a, d, (hl d).2 b, e⟩)
        · intro d hd
          exact hj.left d ((hl d).1 hd)
    | connect s pid =>
      refine on_good h fun W hj => hj.same ?_ rfl rfl (fun _ => Iff.rfl)
      exact changeFirst_map (q := fun g => g.conf.side == s && g.pid == pid) (f := fun g => { g with ipc := true, told := some g.conf }) (fun g => (g.pid, g.conf)) (fun _ => rfl) _
    | reply s pid => exact msg_good (toward_kept hu []) _ h
    | update k w => cases hq
    | shutdown => cases hq

theorem calms_on (hu : (wanted.map Conf.key).Nodup) : ∀ (es : List Ev) (c : Mgr), Calm c es → On wanted [] c → On wanted [] (run c es) := by
  intro es
  induction es with
  | nil => intro c _ h; exact h
  | cons e es ih => intro c hq h; exact ih _ hq.2 (calm_on hu e hq.1 h)

theorem on_done {c : Mgr} (h : On wanted [] c) (hc : c.conts = []) : (∀ d, d ∈ c.st.live ↔ d ∈ wanted) ∧ Unique c.st.live := by
  have h1 := h.holds
  have hp : pend c.conts = [] := by rw [hc]; rfl
  rw [hp] at h1
  have hl : ∀ d, d ∈ c.st.live ↔ Live c.st d := by
    intro d
    rw [live_iff]
    unfold State.live
    rw [List.mem_map]
    constructor
    · rintro ⟨g, hg, e⟩
      obtain ⟨a, b⟩ := List.mem_filter.1 hg
      exact ⟨g, a, by simpa using b, e⟩
    · rintro ⟨g, hg, a, e⟩
      exact ⟨g, List.mem_filter.2 ⟨hg, by simpa using a⟩, e⟩
  refine ⟨fun d => ?_, ?_⟩
  · rw [hl]
    constructor
    · intro hd
      rcases h1.left d hd with a | ⟨m, a, _⟩ | ⟨m, a, _⟩
      · exact a
      · cases a
      · cases a
    · intro hd
      rcases h1.ahead d hd with a | a | ⟨a, _⟩
      · exact a
      · cases a
      · cases a
  · unfold Unique State.live
    rw [List.map_map]
    exact (List.Sublist.map _ List.filter_sublist).nodup h1.gkeys

/-- If a configuration is posted, where no alias is used twice, when nothing is under way, and until it is done nothing else is posted, no group dies unasked and all processes can be started: when it is done
there is exactly one group for each that was posted, with its configuration, and all others have been asked to stop. -/
theorem updated_live (fails : List Bool) (wanted0 : List Conf) (es0 : List Ev) (hc : (run (boot fails wanted0) es0).conts = []) (hd : (run (boot fails wanted0) es0).st.done = false)
    (hf : (run (boot fails wanted0) es0).st.fails = []) (hu0 : Unique ((run (boot fails wanted0) es0).st.groups.map (·.conf)))
    (hs : ∀ g ∈ (run (boot fails wanted0) es0).st.groups, .stop g.pid ∉ (run (boot fails wanted0) es0).st.sent)
    (k : Nat) (wanted : List Conf) (hu : Unique wanted) (es : List Ev) (hq : Calm (step (run (boot fails wanted0) es0) (.update k wanted)) es)
    (hdone : (run (step (run (boot fails wanted0) es0) (.update k wanted)) es).conts = []) :
    (∀ d, d ∈ (run (step (run (boot fails wanted0) es0) (.update k wanted)) es).st.live ↔ d ∈ wanted) ∧ Unique (run (step (run (boot fails wanted0) es0) (.update k wanted)) es).st.live := by
  have hst := run_stopped fails wanted0 es0
  generalize run (boot fails wanted0) es0 = c at *
  refine on_done (calms_on hu es _ hq ?_) hdone
  unfold step
  rw [hd]
  show On _ _ (onUpdate c k wanted)
  unfold onUpdate
  have h1 : On wanted [] (conform (c.on fun st => { st with level := if st.level = .running then .configuring else st.level }) wanted) :=
    conform_on hu ⟨hc, hf, stopped_steady.level _ _ _ hst, hu0, hs⟩
  refine push_on hu trivial ⟨?_, h1.units, h1.front⟩
  have := h1.holds
  exact ⟨this.fails, this.pids, this.below, this.stops, by simpa [adds] using this.keys, by simpa [adds, mods] using this.ahead, by simpa [mods, rems] using this.left⟩

/-- The same for the configuration at boot. -/
theorem booted_live (wanted : List Conf) (hu : Unique wanted) (es : List Ev) (hq : Calm (boot [] wanted) es) (hdone : (run (boot [] wanted) es).conts = []) :
    (∀ d, d ∈ (run (boot [] wanted) es).st.live ↔ d ∈ wanted) ∧ Unique (run (boot [] wanted) es).st.live := by
  refine on_done (calms_on hu es _ hq ?_) hdone
  unfold boot
  have h1 : On wanted [] (conform { st := { fails := [] } } wanted) := by
    refine conform_on hu ⟨rfl, rfl, ⟨⟨List.nodup_nil, ?_, ?_⟩, ?_⟩, List.nodup_nil, ?_⟩
    · intro g hg; cases hg
    · intro g hg; cases hg
    · intro g hg; cases hg
    · intro g hg; cases hg
  refine push_on hu trivial ⟨?_, h1.units, h1.front⟩
  have := h1.holds
  exact ⟨this.fails, this.pids, this.below, this.stops, by simpa [adds] using this.keys, by simpa [adds, mods] using this.ahead, by simpa [mods, rems] using this.left⟩

/-- The same for shutdown: when it is done all groups have been asked to stop, and when there are none left the manager ends. -/
theorem shutdown_live (fails : List Bool) (wanted0 : List Conf) (es0 : List Ev) (hc : (run (boot fails wanted0) es0).conts = []) (hd : (run (boot fails wanted0) es0).st.done = false)
    (hf : (run (boot fails wanted0) es0).st.fails = []) (hu0 : Unique ((run (boot fails wanted0) es0).st.groups.map (·.conf)))
    (hs : ∀ g ∈ (run (boot fails wanted0) es0).st.groups, .stop g.pid ∉ (run (boot fails wanted0) es0).st.sent)
    (es : List Ev) (hq : Calm (step (run (boot fails wanted0) es0) .shutdown) es) (hdone : (run (step (run (boot fails wanted0) es0) .shutdown) es).conts = []) :
    ∀ g ∈ (run (step (run (boot fails wanted0) es0) .shutdown) es).st.groups, .stop g.pid ∈ (run (step (run (boot fails wanted0) es0) .shutdown) es).st.sent := by
  have hst := run_stopped fails wanted0 es0
  generalize run (boot fails wanted0) es0 = c at *
  have h : On [] [] (run (step c .shutdown) es) := by
    refine calms_on (wanted := []) (by exact List.nodup_nil) es _ hq ?_
    unfold step
    rw [hd]
    exact conform_on (wanted := []) (by exact List.nodup_nil) ⟨hc, hf, stopped_steady.level _ _ _ hst, hu0, hs⟩
  have h2 := (on_done h hdone).1
  intro g hg
  refine Classical.byContradiction fun hn => ?_
  have : g.conf ∈ (run (step c .shutdown) es).st.live := List.mem_map_of_mem (List.mem_filter.2 ⟨hg, by simpa using hn⟩)
  cases (h2 _).1 this

end Casual.GConf
