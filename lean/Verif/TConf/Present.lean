import Verif.TConf.Alias
/-
  Resources that are posted are there, if no resource is taken away.
-/
namespace Casual.TConf
open Casual.Task

/-! ### Specification -/

/-- The configurations of the resources. -/
def State.confs (st : State) : List Res := st.proxies.map (·.conf)

/-- No name is used twice. -/
def Named (m : Model) : Prop := (m.resources.map (·.name)).Nodup

instance (m : Model) : Decidable (Named m) := inferInstanceAs (Decidable (List.Nodup _))

/-- What has been posted last. -/
def posted (m : Model) : List Ev → Model
  | [] => m
  | .update _ m' :: es => posted m' es
  | _ :: es => posted m es

/-- No name is used twice in what is posted. -/
def Clean (es : List Ev) : Prop := ∀ k m, .update k m ∈ es → Named m

/-! ### Proof -/

/-- Which resources there are. -/
structure Core where
  items : List (Nat × Res)
  keys : List Nat
  next : Nat

/-- See above. -/
def core (st : State) : Core := ⟨st.proxies.map fun p => (p.id, p.conf), st.keys, st.nextId⟩

/-- Tasks keep that. -/
def Is (T : Core) (st : State) (_ : List Act) : Prop := core st = T

theorem change_core {st : State} (id : Nat) {f : Proxy → Proxy} (hf : ∀ p, (f p).id = p.id ∧ (f p).conf = p.conf) : core (st.change id f) = core st := by
  unfold core State.change
  simp only [List.map_map, Core.mk.injEq, and_true]
  refine List.map_congr_left fun p _ => ?_
  show ((if p.id = id then f p else p).id, (if p.id = id then f p else p).conf) = _
  split
  · rw [(hf p).1, (hf p).2]
  · rfl

theorem stop_core (st : State) (id pid : Nat) : core (stop st id pid) = core st :=
  change_core (f := fun p => { p with insts := p.insts.map fun i => if i.pid = pid then i.set .shutdown else i }) id fun _ => ⟨rfl, rfl⟩

theorem stops_core (id : Nat) : ∀ (pids : List Nat) (st : State), core (pids.foldl (fun st pid => stop st id pid) st) = core st := by
  intro pids
  induction pids with
  | nil => intro st; rfl
  | cons pid pids ih => intro st; exact (ih _).trans (stop_core st id pid)

theorem spawn_core (st : State) (p : Proxy) : core (spawn st p).1 = core st := by
  have h := spawn_spec st p
  unfold core
  rw [h.1, h.2.2.1, h.2.2.2.1]

theorem spawns_core (p : Proxy) (n : Nat) (st : State) : core (spawns p n st).1 = core st := by
  have h := spawns_spec p n st
  unfold core
  rw [h.1, h.2.2.1, h.2.2.2.1]

theorem scaleIn_core (id : Nat) (b : Body) (st : State) : core (scaleIn id b st).1 = core st := by
  unfold scaleIn
  split
  · rfl
  · dsimp only
    split
    · exact change_core id fun _ => ⟨rfl, rfl⟩
    · exact (stops_core id _ _).trans (change_core (f := Proxy.partitioned) id fun _ => ⟨rfl, rfl⟩)

theorem scaleOut_core (id : Nat) (b : Body) (st : State) : core (scaleOut id b st).1 = core st := by
  unfold scaleOut
  split
  · rfl
  · rename_i p _
    have h := spawns_core p (p.conf.instances - p.running) st
    split
    · rename_i e; rw [e] at h; exact h
    · rename_i e; rw [e] at h; exact Eq.trans (by exact change_core id fun _ => ⟨rfl, rfl⟩) h

theorem restart_core (id : Nat) (b : Body) (st : State) : core (restart id b st).1 = core st := by
  unfold restart
  split
  · split
    · rfl
    · exact stop_core st id _
  · rfl

theorem restartExit_core (id : Nat) (rs ss : List Nat) (pid : Nat) (st : State) : core (restartExit id rs ss pid st).1 = core st := by
  unfold restartExit
  split
  · rfl
  · dsimp only
    split
    · rfl
    · split
      · rfl
      · rename_i p _
        split
        · rfl
        · have h := spawn_core st p
          split
          · rename_i e; rw [e] at h; exact Eq.trans (by exact change_core id fun _ => ⟨rfl, rfl⟩) h
          · rename_i e; rw [e] at h; exact h

theorem restartReady_core (id : Nat) (rs ss : List Nat) (pid : Nat) (st : State) : core (restartReady id rs ss pid st).1 = core st := by
  unfold restartReady
  split
  · rfl
  · dsimp only
    split
    · rfl
    · split
      · rfl
      · split
        · rfl
        · exact stop_core st id _

variable {T : Core}

theorem is_kept : Kept (Is T) Act.stays (fun _ => True) := by
  refine ⟨fun a b st W ha _ h => ⟨?_, trivial⟩, fun b m f st W _ e h => ⟨?_, trivial⟩⟩
  · cases a with
    | scaleIn id => exact (scaleIn_core id b st).trans h
    | scaleOut id => exact (scaleOut_core id b st).trans h
    | restart id => exact (restart_core id b st).trans h
    | remove ids => cases ha
    | mappings w => exact h
    | reply k => exact h
  · unfold handle at e
    split at e <;> first | (cases e; done) | skip
    all_goals rw [← Option.some.inj e]
    · exact h
    · exact h
    · exact h
    · exact (restartExit_core ..).trans h
    · exact (restartReady_core ..).trans h

/-- The manager has those resources. -/
abbrev IsM (T : Core) (c : Mgr) : Prop := GoodM (Is T) Act.stays (fun _ => True) c

theorem is_push {c : Mgr} {us : List (Act × Body)} (h : IsM T c) (hu : ∀ x ∈ us, x.1.stays) : IsM T (c.push us) := push_good is_kept h.holds h.units h.front fun x hx => ⟨hu x hx, trivial⟩

theorem is_on {c : Mgr} {f : State → State} (h : IsM T c) (hf : core (f c.st) = core c.st) : IsM T (c.on f) := on_good h fun _ hj => hf.trans hj

/-- Something else is there now. -/
theorem is_new {T' : Core} {c : Mgr} {f : State → State} (h : IsM T c) (hf : core (f c.st) = T') : IsM T' (c.on f) := ⟨hf, h.units, h.front⟩

/-- Names and ids are unique. -/
structure Core.ok (T : Core) : Prop where
  ids : (T.items.map (·.1)).Nodup
  below : ∀ x ∈ T.items, x.1 < T.next
  names : (T.items.map (·.2.name)).Nodup

theorem nodup_inj {α β : Type} {f : α → β} {l : List α} (h : (l.map f).Nodup) {a b : α} (ha : a ∈ l) (hb : b ∈ l) (e : f a = f b) : a = b := by
  induction l with
  | nil => cases ha
  | cons x xs ih =>
    rw [List.map_cons, List.nodup_cons] at h
    rcases List.mem_cons.1 ha with h1 | h1 <;> rcases List.mem_cons.1 hb with h2 | h2
    · rw [h1, h2]
    · rw [h1] at e; exact absurd (e ▸ List.mem_map_of_mem h2) h.1
    · rw [h2] at e; exact absurd (e ▸ List.mem_map_of_mem h1) h.1
    · exact ih h.2 h1 h2

/-- Those that are changed. -/
theorem contexts_core : ∀ (rs : List Res) (st : State), (core st).ok → (rs.map (·.name)).Nodup →
    (core (contexts rs st).1).ok ∧ (core (contexts rs st).1).keys = (core st).keys
    ∧ (∀ r ∈ rs, (∃ q ∈ st.confs, q.name = r.name) → r ∈ (contexts rs st).1.confs)
    ∧ (∀ q ∈ st.confs, q.name ∉ rs.map (·.name) → q ∈ (contexts rs st).1.confs) := by
  intro rs
  induction rs with
  | nil => intro st h _; exact ⟨h, rfl, (fun r hr => by cases hr), fun q hq _ => hq⟩
  | cons r rs ih =>
    intro st h hn
    rw [List.map_cons, List.nodup_cons] at hn
    unfold contexts
    split
    · rename_i e
      have hnone : ¬ ∃ q ∈ st.confs, q.name = r.name := by
        rintro ⟨q, hq, e2⟩
        obtain ⟨p, hp, rfl⟩ := List.mem_map.1 hq
        have := List.find?_eq_none.1 e p hp
        simp [e2] at this
      obtain ⟨a, b, c, d⟩ := ih st h hn.2
      refine ⟨a, b, fun x hx hex => ?_, fun q hq hqn => d q hq fun hm => hqn (List.mem_cons_of_mem _ hm)⟩
      rcases List.mem_cons.1 hx with rfl | hx
      · exact absurd hex hnone
      · exact c x hx hex
    · rename_i p e
      have hp := List.mem_of_find?_eq_some e
      have hpn : p.conf.name = r.name := by simpa using List.find?_some e
      dsimp only
      have hids : ∀ q ∈ st.proxies, q.id = p.id → q = p := by
        have : (st.proxies.map (·.id)).Nodup := by
          have := h.ids
          unfold core at this
          rw [List.map_map] at this
          exact this
        exact fun q hq e => nodup_inj this hq hp e
      have hcore : (core (st.change p.id fun p => { p with conf := r })).items = (core st).items.map fun x => if x.1 = p.id then (x.1, r) else x := by
        unfold core State.change
        simp only [List.map_map]
        refine List.map_congr_left fun q _ => ?_
        simp only [Function.comp_apply]
        split <;> rfl
      have hk2 : (core (st.change p.id fun p => { p with conf := r })).keys = (core st).keys ∧ (core (st.change p.id fun p => { p with conf := r })).next = (core st).next := ⟨rfl, rfl⟩
      have hok : (core (st.change p.id fun p => { p with conf := r })).ok := by
        have e1 : (core (st.change p.id fun p => { p with conf := r })).items.map (·.1) = (core st).items.map (·.1) := by
          rw [hcore, List.map_map]
          refine List.map_congr_left fun x _ => ?_
          simp only [Function.comp_apply]
          split <;> rfl
        have e2 : (core (st.change p.id fun p => { p with conf := r })).items.map (·.2.name) = (core st).items.map (·.2.name) := by
          rw [hcore, List.map_map]
          refine List.map_congr_left fun x hx => ?_
          simp only [Function.comp_apply]
          split
          · rename_i ex
            obtain ⟨q, hq, rfl⟩ := List.mem_map.1 hx
            rw [hids q hq ex]
            exact hpn.symm
          · rfl
        refine ⟨e1 ▸ h.ids, fun x hx => ?_, e2 ▸ h.names⟩
        have : x.1 ∈ (core st).items.map (·.1) := e1 ▸ List.mem_map_of_mem hx
        obtain ⟨y, hy, e⟩ := List.mem_map.1 this
        rw [← e, hk2.2]
        exact h.below y hy
      have hconf : ∀ q ∈ st.proxies, (if q.id = p.id then r else q.conf) ∈ (st.change p.id fun p => { p with conf := r }).confs := by
        intro q hq
        refine List.mem_map.2 ⟨if q.id = p.id then { q with conf := r } else q, List.mem_map.2 ⟨q, hq, rfl⟩, ?_⟩
        split <;> rfl
      have key : ∀ st' : State, st'.confs = (st.change p.id fun p => { p with conf := r }).confs → core st' = core (st.change p.id fun p => { p with conf := r }) →
          (core (contexts rs st').1).ok ∧ (core (contexts rs st').1).keys = (core st).keys
          ∧ (∀ x ∈ r :: rs, (∃ q ∈ st.confs, q.name = x.name) → x ∈ (contexts rs st').1.confs)
          ∧ (∀ q ∈ st.confs, q.name ∉ (r :: rs).map (·.name) → q ∈ (contexts rs st').1.confs) := by
        intro st' e1 e2
        obtain ⟨a, b, c, d⟩ := ih st' (e2 ▸ hok) hn.2
        have hr : r ∈ st'.confs := by
          have := hconf p hp
          rw [if_pos rfl] at this
          rw [e1]; exact this
        refine ⟨a, b.trans (by rw [e2]; rfl), fun x hx hex => ?_, fun q hq hqn => ?_⟩
        · rcases List.mem_cons.1 hx with rfl | hx
          · exact d _ hr hn.1
          · refine c x hx ?_
            obtain ⟨q, hq, e⟩ := hex
            obtain ⟨z, hz, rfl⟩ := List.mem_map.1 hq
            have := hconf z hz
            rw [← e1] at this
            refine ⟨_, this, ?_⟩
            split
            · rename_i e3
              rw [← e, hids z hz e3, hpn]
            · exact e
        · obtain ⟨z, hz, rfl⟩ := List.mem_map.1 hq
          have hzp : z.id ≠ p.id := by
            intro e3
            rw [hids z hz e3] at hqn
            exact hqn (hpn ▸ List.mem_cons_self ..)
          have := hconf z hz
          rw [if_neg hzp, ← e1] at this
          exact d _ this fun hm => hqn (List.mem_cons_of_mem _ hm)
      split
      · exact key _ rfl rfl
      · exact key _ rfl rfl

theorem new_items (rs : List Res) : ∀ (n : Nat), ((rs.zip ((List.range rs.length).map (n + ·))).map fun p => (p.2, p.1)).map (·.2) = rs
    ∧ ((rs.zip ((List.range rs.length).map (n + ·))).map fun p => (p.2, p.1)).map (·.1) = (List.range rs.length).map (n + ·) := by
  intro n
  rw [List.map_map, List.map_map]
  constructor
  · show (rs.zip ((List.range rs.length).map (n + ·))).map Prod.fst = rs
    rw [List.map_fst_zip]
    simp
  · show (rs.zip ((List.range rs.length).map (n + ·))).map Prod.snd = _
    rw [List.map_snd_zip]
    simp

/-- Those that are added. -/
def Core.more (T : Core) (rs : List Res) : Core := ⟨T.items ++ (rs.zip ((List.range rs.length).map (T.next + ·))).map fun p => (p.2, p.1), T.keys, T.next + rs.length⟩

theorem more_ok (T : Core) (rs : List Res) (h : T.ok) (hn : (rs.map (·.name)).Nodup) (hd : ∀ x ∈ T.items, ∀ r ∈ rs, x.2.name ≠ r.name) : (T.more rs).ok := by
  obtain ⟨e1, e2⟩ := new_items rs T.next
  refine ⟨?_, ?_, ?_⟩
  · show ((T.items ++ _).map (·.1)).Nodup
    rw [List.map_append, e2]
    refine List.nodup_append.2 ⟨h.ids, ?_, ?_⟩
    · refine List.Pairwise.map _ (fun a b hab e => hab ?_) (List.nodup_range)
      exact Nat.add_left_cancel e
    · intro a ha b hb e
      obtain ⟨x, hx, rfl⟩ := List.mem_map.1 ha
      obtain ⟨k, _, rfl⟩ := List.mem_map.1 hb
      have := h.below x hx
      omega
  · intro x hx
    show x.1 < T.next + rs.length
    rcases List.mem_append.1 hx with hx | hx
    · have := h.below x hx
      omega
    · have : x.1 ∈ (List.range rs.length).map (T.next + ·) := e2 ▸ List.mem_map_of_mem hx
      obtain ⟨k, hk, e⟩ := List.mem_map.1 this
      have := List.mem_range.1 hk
      omega
  · show ((T.items ++ _).map (·.2.name)).Nodup
    have e3 : ((rs.zip ((List.range rs.length).map (T.next + ·))).map fun p => (p.2, p.1)).map (·.2.name) = rs.map (·.name) := by
      conv => rhs; rw [← e1]
      rw [List.map_map, List.map_map, List.map_map]
      rfl
    rw [List.map_append, e3]
    refine List.nodup_append.2 ⟨h.names, hn, ?_⟩
    intro a ha b hb e
    obtain ⟨x, hx, rfl⟩ := List.mem_map.1 ha
    obtain ⟨r, hr, rfl⟩ := List.mem_map.1 hb
    exact hd x hx r hr e

theorem added_is {c : Mgr} (rs : List Res) (h : IsM T c) : IsM (T.more (rs.filter fun r => r.key ∈ T.keys)) (added c rs) := by
  have hT : core c.st = T := h.holds
  subst hT
  unfold added
  dsimp only
  refine is_push (is_new h ?_) (scales_stay _ _ id)
  unfold core Core.more
  simp only [List.map_append, List.map_map]
  rfl

theorem modified_is {c : Mgr} (rs : List Res) (h : IsM T c) : IsM (core (contexts rs c.st).1) (modified c rs) := by
  unfold modified
  dsimp only
  have h1 : IsM (core (contexts rs c.st).1) (c.on fun _ => (contexts rs c.st).1) := is_new h rfl
  have h2 : IsM (core (contexts rs c.st).1) (if ((contexts rs c.st).2.flatMap fun x => scale (c.on fun _ => (contexts rs c.st).1).st x.1) = [] then (c.on fun _ => (contexts rs c.st).1)
      else (c.on fun _ => (contexts rs c.st).1).push ((contexts rs c.st).2.flatMap fun x => scale (c.on fun _ => (contexts rs c.st).1).st x.1)) := by
    split
    · exact h1
    · exact is_push h1 (scales_stay _ _ (fun y : Nat × List Nat => y.1))
  split
  · exact h2
  · refine is_push h2 ?_
    intro x hx
    obtain ⟨y, _, e⟩ := List.mem_filterMap.1 hx
    split at e
    · cases e
    · rw [← Option.some.inj e]; trivial

theorem confs_core (st : State) : st.confs = (core st).items.map (·.2) := by
  unfold State.confs core
  rw [List.map_map]
  rfl

theorem calc_added {cur want : List Res} {x : Res} : x ∈ (Casual.Config.calculate Res.name cur want).added ↔ x ∈ want ∧ x ∉ cur ∧ ∀ y ∈ cur, x.name ≠ y.name := by
  unfold Casual.Config.calculate Casual.Config.intersection
  simp only [List.mem_filter, Bool.not_eq_true', List.any_eq_false, decide_eq_true_eq, and_assoc]
  constructor
  · rintro ⟨h1, h2, h3⟩
    exact ⟨h1, fun h => h2 x h rfl, h3⟩
  · rintro ⟨h1, h2, h3⟩
    exact ⟨h1, fun y hy e => h2 (e ▸ hy), h3⟩

theorem calc_modified {cur want : List Res} {x : Res} : x ∈ (Casual.Config.calculate Res.name cur want).modified ↔ x ∈ want ∧ x ∉ cur ∧ ∃ y ∈ cur, x.name = y.name := by
  unfold Casual.Config.calculate Casual.Config.intersection
  simp only [List.mem_filter, Bool.not_eq_true', List.any_eq_false, List.any_eq_true, decide_eq_true_eq, and_assoc]
  constructor
  · rintro ⟨h1, h2, h3⟩
    exact ⟨h1, fun h => h2 x h rfl, h3⟩
  · rintro ⟨h1, h2, h3⟩
    exact ⟨h1, fun y hy e => h2 (e ▸ hy), h3⟩

theorem calc_added_sub (cur want : List Res) : (Casual.Config.calculate Res.name cur want).added.Sublist want := by
  unfold Casual.Config.calculate
  exact List.filter_sublist.trans List.filter_sublist

theorem calc_modified_sub (cur want : List Res) : (Casual.Config.calculate Res.name cur want).modified.Sublist want := by
  unfold Casual.Config.calculate Casual.Config.intersection
  exact List.filter_sublist.trans List.filter_sublist

theorem conform_is {c : Mgr} (m : Model) (h : IsM T c) (hT : T.ok) (hn : Named m) (hm : ∀ p ∈ c.st.proxies, ∃ r ∈ m.resources, r.name = p.conf.name) :
    ∃ T', IsM T' (conform c m) ∧ T'.ok ∧ T'.keys = T.keys ∧ ∀ r ∈ m.resources, r.key ∈ T.keys → r ∈ T'.items.map (·.2) := by
  have hrem : (Casual.Config.calculate Res.name (c.st.proxies.map (·.conf)) m.resources).removed = [] := by
    unfold Casual.Config.calculate Casual.Config.intersection
    dsimp only
    rw [List.filter_eq_nil_iff]
    intro r hr
    obtain ⟨p, hp, rfl⟩ := List.mem_map.1 hr
    obtain ⟨x, hx, e⟩ := hm p hp
    have hin : x ∈ m.resources := hx
    simp only [Bool.not_eq_true', List.any_eq_false, decide_eq_true_eq, Classical.not_forall]
    exact ⟨x, hin, fun h => h e.symm⟩
  have hcur : c.st.proxies.map (·.conf) = T.items.map (·.2) := by
    have : core c.st = T := h.holds
    rw [← this]
    exact confs_core c.st
  unfold conform
  dsimp only
  rw [hrem]
  simp only [if_true]
  rw [hcur]
  have ha := fun x => @calc_added (T.items.map (·.2)) m.resources x
  have hmo := fun x => @calc_modified (T.items.map (·.2)) m.resources x
  have hsa : ((Casual.Config.calculate Res.name (T.items.map (·.2)) m.resources).added.map (·.name)).Nodup := (List.Sublist.map _ (calc_added_sub _ _)).nodup hn
  have hsm : ((Casual.Config.calculate Res.name (T.items.map (·.2)) m.resources).modified.map (·.name)).Nodup := (List.Sublist.map _ (calc_modified_sub _ _)).nodup hn
  generalize (Casual.Config.calculate Res.name (T.items.map (·.2)) m.resources).added = A at *
  generalize (Casual.Config.calculate Res.name (T.items.map (·.2)) m.resources).modified = M at *
  have hA : ∃ T1, IsM T1 (if A = [] then c else added c A) ∧ T1.ok ∧ T1.keys = T.keys ∧ (∀ r ∈ A, r.key ∈ T.keys → r ∈ T1.items.map (·.2)) ∧ (∀ r ∈ T.items.map (·.2), r ∈ T1.items.map (·.2)) := by
    split
    · rename_i e
      exact ⟨T, h, hT, rfl, (fun r hr => by rw [e] at hr; cases hr), fun r hr => hr⟩
    · refine ⟨_, added_is A h, more_ok T _ hT ((List.Sublist.map _ List.filter_sublist).nodup hsa) ?_, rfl, ?_, ?_⟩
      · intro x hx r hr e
        exact ((ha r).1 (List.mem_filter.1 hr).1).2.2 x.2 (List.mem_map_of_mem hx) e.symm
      · intro r hr hk
        show r ∈ (T.items ++ _).map (·.2)
        rw [List.map_append, (new_items _ _).1]
        exact List.mem_append_right _ (List.mem_filter.2 ⟨hr, by simpa using hk⟩)
      · intro r hr
        show r ∈ (T.items ++ _).map (·.2)
        rw [List.map_append]
        exact List.mem_append_left _ hr
  obtain ⟨T1, h1, hT1, hk1, ha1, hc1⟩ := hA
  generalize (if A = [] then c else added c A) = c1 at h1 ⊢
  have hM : ∃ T2, IsM T2 (if M = [] then c1 else modified c1 M) ∧ T2.ok ∧ T2.keys = T.keys ∧ (∀ r ∈ M, r ∈ T2.items.map (·.2)) ∧ (∀ r ∈ T1.items.map (·.2), r.name ∉ M.map (·.name) → r ∈ T2.items.map (·.2)) := by
    have e1 : core c1.st = T1 := h1.holds
    split
    · rename_i e
      exact ⟨T1, h1, hT1, hk1, (fun r hr => by rw [e] at hr; cases hr), fun r hr _ => hr⟩
    · obtain ⟨b1, b2, b3, b4⟩ := contexts_core M c1.st (e1 ▸ hT1) hsm
      have e2 : c1.st.confs = T1.items.map (·.2) := by rw [confs_core, e1]
      rw [confs_core (contexts M c1.st).1] at b3 b4
      rw [e2] at b3 b4
      refine ⟨_, modified_is M h1, b1, b2.trans (by rw [e1]; exact hk1), fun r hr => b3 r hr ?_, b4⟩
      obtain ⟨_, _, y, hy, e⟩ := (hmo r).1 hr
      exact ⟨y, hc1 y hy, e.symm⟩
  obtain ⟨T2, h2, hT2, hk2, hm2, hc2⟩ := hM
  refine ⟨T2, ?_, hT2, hk2, ?_⟩
  · split
    · exact h2
    · refine is_push h2 ?_
      intro x hx
      rw [List.mem_singleton.1 hx]
      trivial
  · intro r hr hk
    by_cases hM : r ∈ M
    · exact hm2 r hM
    · have hnot : r.name ∉ M.map (·.name) := by
        intro hin
        obtain ⟨x, hx, e⟩ := List.mem_map.1 hin
        have := nodup_inj hn ((hmo x).1 hx).1 hr e
        exact hM (this ▸ hx)
      refine hc2 r ?_ hnot
      by_cases hcurr : r ∈ T.items.map (·.2)
      · exact hc1 r hcurr
      · by_cases hex : ∃ y ∈ T.items.map (·.2), r.name = y.name
        · exact absurd ((hmo r).2 ⟨hr, hcurr, hex⟩) hM
        · exact ha1 r ((ha r).2 ⟨hr, hcurr, fun y hy e => hex ⟨y, hy, e⟩⟩) hk

/-- The resources are those that have been posted. -/
def Have (m : Model) (keys : List Nat) (c : Mgr) : Prop := ∃ T : Core, IsM T c ∧ T.ok ∧ T.keys = keys ∧ ∀ r ∈ m.resources, r.key ∈ keys → r ∈ T.items.map (·.2)

theorem is_step {c : Mgr} (e : Ev) (h : IsM T c) (hu : ∀ k m, e ≠ .update k m) (hs : e ≠ .shutdown) : IsM T (step c e) := by
  unfold step
  split
  · exact h
  · cases e with
    | exit pid =>
      refine onExit_good is_kept pid h fun W hj => ?_
      refine Eq.trans ?_ (show core c.st = T from hj)
      unfold core
      simp only [List.map_map]
      rfl
    | ask id pid =>
      show GoodM _ _ _ (onAsk c id pid)
      unfold onAsk
      split
      · exact is_on h rfl
      · exact is_on h (by exact change_core id fun _ => ⟨rfl, rfl⟩)
    | ready id pid =>
      show GoodM _ _ _ (onReady c id pid)
      unfold onReady
      dsimp only
      have h1 : IsM T (c.msg (.ready pid)) := msg_good is_kept (.ready pid) h
      split
      · exact is_on h1 (by exact change_core id fun _ => ⟨rfl, rfl⟩)
      · exact is_on h1 rfl
    | update k m => exact absurd rfl (hu k m)
    | alias a ns =>
      show GoodM _ _ _ (onAlias c a ns)
      unfold onAlias
      split
      · exact is_on h rfl
      · exact is_on h rfl
    | shutdown => exact absurd rfl hs

theorem run_have (keys : List Nat) : ∀ (es : List Ev) (m : Model) (c : Mgr), Have m keys c → Keeps c es → Clean es → (run c es).st.dead = false → Have (posted m es) keys (run c es) := by
  intro es
  induction es with
  | nil => intro m c h _ _ _; exact h
  | cons e es ih =>
    intro m c h hq hcl hd
    have hcl' : Clean es := fun k m hm => hcl k m (List.mem_cons_of_mem _ hm)
    have hdc : c.st.dead = false := by
      cases hdc : c.st.dead with
      | false => rfl
      | true => rw [run_dead _ c hdc, hdc] at hd; cases hd
    show Have _ keys (run (step c e) es)
    have other : (∀ k m, e ≠ .update k m) → e ≠ .shutdown → Have m keys (step c e) := by
      intro h1 h2
      obtain ⟨T, a, b, d⟩ := h
      exact ⟨T, is_step e a h1 h2, b, d⟩
    cases e with
    | update k m' =>
      refine ih m' _ ?_ hq.2 hcl' hd
      obtain ⟨T, a, b, d, _⟩ := h
      obtain ⟨T', a', b', d', e'⟩ := conform_is m' a b (hcl k m' (List.mem_cons_self ..)) hq.1
      refine ⟨T', ?_, b', d'.trans d, by rw [← d]; exact e'⟩
      unfold step
      rw [hdc]
      show IsM T' (onUpdate c k m')
      refine is_push a' ?_
      intro x hx
      rw [List.mem_singleton.1 hx]
      trivial
    | shutdown => cases hq.1
    | exit pid => exact ih m _ (other (fun _ _ h => by cases h) (fun h => by cases h)) hq.2 hcl' hd
    | ask id pid => exact ih m _ (other (fun _ _ h => by cases h) (fun h => by cases h)) hq.2 hcl' hd
    | ready id pid => exact ih m _ (other (fun _ _ h => by cases h) (fun h => by cases h)) hq.2 hcl' hd
    | «alias» a ns => exact ih m _ (other (fun _ _ h => by cases h) (fun h => by cases h)) hq.2 hcl' hd

/-- As long as no resource is taken away, no name is used twice in what is posted, and the manager has not ended: all resources that were posted last, and that the system has, are there as they were posted,
each once, at all times. -/
theorem present_partial (keys : List Nat) (fails : List Bool) (m : Model) (es : List Ev) (hn : Named m) (hcl : Clean es) (hq : Keeps (boot keys fails m) es)
    (hd : (run (boot keys fails m) es).st.dead = false) :
    (∀ r ∈ (posted m es).resources, r.key ∈ keys → r ∈ (run (boot keys fails m) es).st.confs) ∧ ((run (boot keys fails m) es).st.confs.map (·.name)).Nodup := by
  have h0 : Have m keys (boot keys fails m) := by
    unfold boot
    have hI : IsM ⟨[], keys, 1⟩ { st := { keys := keys, fails := fails } } := ⟨rfl, (by intro g hg; cases hg), (by intro g hg; cases hg)⟩
    exact conform_is m hI ⟨List.nodup_nil, (by intro x hx; cases hx), List.nodup_nil⟩ hn (by intro p hp; cases hp)
      |>.imp fun T' h => ⟨h.1, h.2.1, h.2.2.1, h.2.2.2⟩
  obtain ⟨T, a, b, _, d⟩ := run_have keys es m _ h0 hq hcl hd
  have e : core (run (boot keys fails m) es).st = T := a.holds
  rw [confs_core, e]
  exact ⟨fun r hr hk => (d r hr (by assumption)), by rw [List.map_map]; exact b.names⟩

end Casual.TConf
