import Verif.TConf.Stops
/-
  Resources get the instances that are configured, if nothing goes wrong and nothing is modified; and what is not so.
-/
namespace Casual.TConf
open Casual.Task

/-! ### Specification -/

/-- No instance dies that has not been asked to stop, and no resource that is there already is changed. -/
def quiet (c : Mgr) : Ev → Prop
  | .exit pid => ∀ p ∈ c.st.proxies, ∀ i ∈ p.insts, i.pid = pid → i.state = .shutdown
  | .update _ m => ∀ r ∈ m.resources, ∀ p ∈ c.st.proxies, p.conf.name = r.name → p.conf = r
  | _ => True

/-- All events are such. -/
def Quiet : Mgr → List Ev → Prop
  | _, [] => True
  | c, e :: es => quiet c e ∧ Quiet (step c e) es

/-! ### Proof -/

/-- What is not as configured will be. -/
def Need (W : List Act) (p : Proxy) : Prop := (p.running < p.conf.instances → .scaleOut p.id ∈ W) ∧ (p.conf.instances < p.running → .scaleIn p.id ∈ W)

/-- Instances have been told what is configured. -/
def Told (p : Proxy) : Prop := ∀ i ∈ p.insts, ∀ r, i.told = some r → r.name = p.conf.name ∧ r.key = p.conf.key ∧ r.info = p.conf.info

/-- A resource is as it should. -/
def Fine (keys : List Nat) (W : List Act) (p : Proxy) : Prop := p.conf.key ∈ keys ∧ Need W p ∧ Told p

/-- The same for the manager. -/
def Calm (st : State) (W : List Act) : Prop := Sound st W ∧ st.fails = [] ∧ ∀ p ∈ st.proxies, Fine st.keys W p

/-- Not a restart. -/
def Act.plain : Act → Prop
  | .restart _ => False
  | _ => True

/-- Not a restart. -/
def Body.plain : Body → Prop
  | .restart _ _ _ => False
  | _ => True

theorem Need.mono {W W' : List Act} {p : Proxy} (h : Need W p) (hs : ∀ a ∈ W, a ∈ W') : Need W' p := ⟨fun hl => hs _ (h.1 hl), fun hl => hs _ (h.2 hl)⟩

theorem Fine.mono {keys : List Nat} {W W' : List Act} {p : Proxy} (h : Fine keys W p) (hs : ∀ a ∈ W, a ∈ W') : Fine keys W' p := ⟨h.1, h.2.1.mono hs, h.2.2⟩

theorem Calm.mono {W W' : List Act} {st : State} (h : Calm st W) (hs : ∀ a ∈ W, a ∈ W') : Calm st W' := ⟨h.1, h.2.1, fun p hp => (h.2.2 p hp).mono hs⟩

theorem Need.other {W : List Act} {p : Proxy} {a : Act} (h : Need (a :: W) p) (h1 : a ≠ .scaleOut p.id) (h2 : a ≠ .scaleIn p.id) : Need W p := by
  refine ⟨fun hl => ?_, fun hl => ?_⟩
  · rcases List.mem_cons.1 (h.1 hl) with e | e
    · exact absurd e.symm h1
    · exact e
  · rcases List.mem_cons.1 (h.2 hl) with e | e
    · exact absurd e.symm h2
    · exact e

theorem spawn_full {st : State} {p : Proxy} (hk : p.conf.key ∈ st.keys) (hf : st.fails = []) : (spawn st p).1.fails = [] ∧ (spawn st p).2 = some st.nextPid := by
  unfold spawn
  rw [if_neg (fun h => h hk), hf]
  exact ⟨rfl, rfl⟩

theorem spawns_full (p : Proxy) : ∀ (n : Nat) (st : State), p.conf.key ∈ st.keys → st.fails = [] → (spawns p n st).1.fails = [] ∧ (spawns p n st).2.length = n := by
  intro n
  induction n with
  | zero => intro st _ hf; exact ⟨hf, rfl⟩
  | succ n ih =>
    intro st hk hf
    unfold spawns
    dsimp only
    obtain ⟨h1, h2⟩ := spawn_full hk hf
    obtain ⟨h3, h4⟩ := ih (spawn st p).1 ((spawn_spec st p).2.2.2.1 ▸ hk) h1
    refine ⟨h3, ?_⟩
    rw [h2, Option.toList_some, List.length_append, h4, List.length_singleton, Nat.add_comm]

/-- What a change of one resource leaves. -/
theorem change_mem {st : State} {id : Nat} {f : Proxy → Proxy} {q : Proxy} (h : q ∈ (st.change id f).proxies) : (q ∈ st.proxies ∧ q.id ≠ id) ∨ ∃ p ∈ st.proxies, p.id = id ∧ q = f p := by
  unfold State.change at h
  obtain ⟨p, hp, e⟩ := List.mem_map.1 h
  split at e
  · exact .inr ⟨p, hp, ‹_›, e.symm⟩
  · exact .inl ⟨e ▸ hp, e ▸ ‹_›⟩

/-- What one stop does to a resource. -/
def halt (pid : Nat) (p : Proxy) : Proxy := { p with insts := p.insts.map fun i => if i.pid = pid then i.set .shutdown else i }

theorem stops_proxies (id : Nat) : ∀ (pids : List Nat) (st : State), (pids.foldl (fun st pid => stop st id pid) st).proxies = (st.change id fun p => pids.foldl (fun p pid => halt pid p) p).proxies
    ∧ (pids.foldl (fun st pid => stop st id pid) st).keys = st.keys ∧ (pids.foldl (fun st pid => stop st id pid) st).fails = st.fails := by
  intro pids
  induction pids with
  | nil =>
    intro st
    refine ⟨?_, rfl, rfl⟩
    unfold State.change
    simp
  | cons pid pids ih =>
    intro st
    obtain ⟨h1, h2, h3⟩ := ih (stop st id pid)
    refine ⟨?_, h2, h3⟩
    rw [List.foldl_cons, h1]
    unfold State.change stop State.change
    dsimp only
    rw [List.map_map]
    apply List.map_congr_left
    intro p _
    by_cases hp : p.id = id
    · subst hp
      simp only [Function.comp, if_true, List.foldl_cons]
      rfl
    · simp only [Function.comp, hp, if_false]

theorem halts_spec (pids : List Nat) : ∀ (p : Proxy), (pids.foldl (fun p pid => halt pid p) p).id = p.id ∧ (pids.foldl (fun p pid => halt pid p) p).conf = p.conf
    ∧ (pids.foldl (fun p pid => halt pid p) p).insts = p.insts.map fun i => if i.pid ∈ pids then i.set .shutdown else i := by
  induction pids with
  | nil => intro p; exact ⟨rfl, rfl, by simp⟩
  | cons pid pids ih =>
    intro p
    obtain ⟨h1, h2, h3⟩ := ih (halt pid p)
    refine ⟨h1, h2, ?_⟩
    rw [List.foldl_cons, h3]
    unfold halt
    dsimp only
    rw [List.map_map]
    apply List.map_congr_left
    intro i _
    simp only [Function.comp]
    by_cases e : i.pid = pid
    · simp only [if_pos e, (set_shutdown i).1, if_pos (show i.pid ∈ pid :: pids from e ▸ List.mem_cons_self ..)]
      split
      · unfold Inst.set; split <;> simp_all
      · rfl
    · simp only [if_neg e]
      by_cases e2 : i.pid ∈ pids
      · rw [if_pos e2, if_pos (List.mem_cons_of_mem _ e2)]
      · rw [if_neg e2, if_neg (by simp [e, e2])]

theorem set_told (i : Inst) (s : IState) : (i.set s).told = i.told := by
  unfold Inst.set; split <;> rfl

theorem set_running (i : Inst) (s : IState) (hs : s ≠ .shutdown) : (i.set s).running = i.running := by
  unfold Inst.set Inst.running
  split
  · rfl
  · rename_i h; simp [h, hs]

theorem filter_drop {L : List Nat} (h : L.Nodup) (n : Nat) : (L.filter (· ∉ L.drop n)).length = min n L.length := by
  have e : L = L.take n ++ L.drop n := (List.take_append_drop n L).symm
  have h2 : (L.take n ++ L.drop n).Nodup := e ▸ h
  have h1 : (L.take n).filter (· ∉ L.drop n) = L.take n := by
    rw [List.filter_eq_self]
    intro a ha
    have := (List.nodup_append.1 h2).2.2 a ha
    simp only [decide_eq_true_eq]
    intro hd
    exact this a hd rfl
  have h3 : (L.drop n).filter (· ∉ L.drop n) = [] := by
    rw [List.filter_eq_nil_iff]
    intro a ha
    simp [ha]
  calc (L.filter (· ∉ L.drop n)).length = ((L.take n ++ L.drop n).filter (· ∉ L.drop n)).length := by rw [← e]
    _ = (L.take n).length := by rw [List.filter_append, h1, h3, List.append_nil]
    _ = min n L.length := List.length_take

/-- After those have been asked to stop that should, as many run as are configured. -/
theorem scaled_in {p : Proxy} (hn : (p.insts.map (·.pid)).Nodup) : (p.insts.map fun i => if i.pid ∈ p.shutdownable then i.set .shutdown else i).countP Inst.running = min p.conf.instances p.running := by
  have hL : ((p.insts.filter Inst.running).map (·.pid)).Nodup := (List.filter_sublist.map _).nodup hn
  have h1 := filter_drop hL p.conf.instances
  rw [List.length_map] at h1
  unfold Proxy.running
  rw [List.countP_eq_length_filter (l := p.insts), ← h1, List.countP_map]
  have hd : p.shutdownable = ((p.insts.filter Inst.running).map (·.pid)).drop p.conf.instances := by
    unfold Proxy.shutdownable
    rw [List.map_drop]
  rw [← hd, List.filter_map, List.length_map, List.filter_filter, List.countP_eq_length_filter]
  congr 1
  apply List.filter_congr
  intro i _
  dsimp only [Function.comp]
  by_cases e : i.pid ∈ p.shutdownable
  · rw [if_pos e]
    have := (set_shutdown i).2
    unfold Inst.running
    simp [this, e]
  · rw [if_neg e]
    simp [e]

theorem proxy_once {st : State} {W : List Act} (h : Sound st W) {p : Proxy} (hp : p ∈ st.proxies) : (p.insts.map (·.pid)).Nodup := by
  have h1 := h.2.once
  unfold State.view at h1
  obtain ⟨l, r, e⟩ := List.append_of_mem hp
  rw [e, List.flatMap_append, List.flatMap_cons, List.map_append, List.map_append] at h1
  have h2 := (List.nodup_append.1 (List.nodup_append.1 h1).2.1).1
  unfold Proxy.view at h2
  rw [List.map_map] at h2
  exact h2

theorem part_told {p : Proxy} (h : Told p) : Told p.partitioned := by
  intro i hi r hr
  unfold Proxy.partitioned at hi
  refine h i ?_ r hr
  rcases List.mem_append.1 hi with hi | hi <;> exact (List.mem_filter.1 hi).1

theorem part_running (p : Proxy) : p.partitioned.running = p.running ∧ p.partitioned.shutdownable = p.shutdownable := by
  have hf : (p.insts.filter Inst.running ++ p.insts.filter (!·.running)).filter Inst.running = p.insts.filter Inst.running := by
    rw [List.filter_append]
    have h1 : (p.insts.filter Inst.running).filter Inst.running = p.insts.filter Inst.running := by
      rw [List.filter_filter]; congr 1; funext i; simp
    have h2 : (p.insts.filter (!·.running)).filter Inst.running = [] := by
      rw [List.filter_eq_nil_iff]
      intro i hi
      have := (List.mem_filter.1 hi).2
      simpa using this
    rw [h1, h2, List.append_nil]
  refine ⟨?_, ?_⟩
  · unfold Proxy.running Proxy.partitioned
    rw [List.countP_eq_length_filter, List.countP_eq_length_filter]
    exact congrArg _ hf
  · unfold Proxy.shutdownable Proxy.partitioned
    dsimp only
    rw [hf]

theorem act_calm (a : Act) (b : Body) {st : State} {W : List Act} (ha : a.plain) (hb : b.plain) (h : Calm st (a :: W)) : Calm (act a b st).1 W ∧ (act a b st).2.1.plain := by
  have hsound := act_sound a b h.1
  have hother : ∀ q ∈ st.proxies, a ≠ .scaleOut q.id → a ≠ .scaleIn q.id → Fine st.keys W q := fun q hq h1 h2 => ⟨(h.2.2 q hq).1, (h.2.2 q hq).2.1.other h1 h2, (h.2.2 q hq).2.2⟩
  refine ⟨⟨hsound, ?_⟩, ?_⟩
  · clear hsound
    cases a with
    | restart id => cases ha
    | scaleIn id =>
      show (scaleIn id b st).1.fails = [] ∧ ∀ p ∈ (scaleIn id b st).1.proxies, Fine (scaleIn id b st).1.keys W p
      unfold scaleIn
      split
      · rename_i hf
        refine ⟨h.2.1, fun q hq => hother q hq (fun e => by cases e) (fun e => ?_)⟩
        cases e
        unfold State.find at hf
        exact absurd (List.find?_eq_none.1 hf q hq) (by simp)
      · rename_i p hf
        have hone : ∀ q ∈ st.proxies, q.id = id → q = p := by
          intro q hq e
          have := find_of h.1.1 hq
          rw [e, hf] at this
          exact (Option.some.inj this).symm
        have hpm := (find_mem hf).1
        have hfine := h.2.2 p hpm
        dsimp only
        split
        · rename_i hnil
          refine ⟨h.2.1, fun q hq => ?_⟩
          rcases change_mem hq with ⟨hq, hne⟩ | ⟨q', hq', hid, rfl⟩
          · exact hother q hq (fun e => by cases e) (fun e => hne (by cases e; rfl))
          · have := hone q' hq' hid
            subst this
            have hle : q'.running ≤ q'.conf.instances := by
              unfold Proxy.shutdownable at hnil
              have := List.drop_eq_nil_iff.1 (List.map_eq_nil_iff.1 hnil)
              unfold Proxy.running
              rw [List.countP_eq_length_filter]
              exact this
            refine ⟨hfine.1, ⟨fun hl => ?_, fun hl => ?_⟩, part_told hfine.2.2⟩
            · rw [(part_running q').1] at hl
              rcases List.mem_cons.1 (hfine.2.1.1 hl) with e | e
              · cases e
              · exact e
            · rw [(part_running q').1] at hl
              exact absurd hl (by show ¬ q'.conf.instances < q'.running; omega)
        · obtain ⟨e1, e2, e3⟩ := stops_proxies id p.shutdownable (st.change id Proxy.partitioned)
          refine ⟨e3.trans h.2.1, fun q hq => ?_⟩
          rw [e2]
          rw [e1] at hq
          rcases change_mem hq with ⟨hq, hne⟩ | ⟨q', hq', hid, rfl⟩
          · rcases change_mem hq with ⟨hq, _⟩ | ⟨q', _, hid, rfl⟩
            · exact hother q hq (fun e => by cases e) (fun e => hne (by cases e; rfl))
            · exact absurd hid hne
          · rcases change_mem hq' with ⟨hq2, hne⟩ | ⟨q2, hq2, hid2, rfl⟩
            · exact absurd hid hne
            · have := hone q2 hq2 hid2
              subst this
              obtain ⟨s1, s2, s3⟩ := halts_spec q2.shutdownable q2.partitioned
              have hrun : (q2.shutdownable.foldl (fun p pid => halt pid p) q2.partitioned).running = min q2.conf.instances q2.running := by
                have hnp : (q2.partitioned.insts.map (·.pid)).Nodup := by
                  have hp : q2.partitioned.insts.Perm q2.insts := List.filter_append_perm Inst.running q2.insts
                  exact (hp.map _).nodup_iff.2 (proxy_once h.1 hpm)
                have := scaled_in hnp
                rw [(part_running q2).2, (part_running q2).1] at this
                unfold Proxy.running at this ⊢
                rw [s3]
                exact this
              refine ⟨?_, ⟨fun hl => ?_, fun hl => ?_⟩, ?_⟩
              · rw [s2]; exact hfine.1
              · rw [s2, hrun] at hl
                have : q2.running < q2.conf.instances := by
                  have : q2.partitioned.conf = q2.conf := rfl
                  rw [this] at hl
                  omega
                rw [s1]
                rcases List.mem_cons.1 (hfine.2.1.1 this) with e | e
                · cases e
                · exact e
              · rw [s2, hrun] at hl
                have : q2.partitioned.conf = q2.conf := rfl
                rw [this] at hl
                omega
              · intro i hi r hr
                rw [s3] at hi
                rw [s2]
                obtain ⟨j, hj, e⟩ := List.mem_map.1 hi
                refine part_told hfine.2.2 j hj r ?_
                split at e
                · rw [← e, set_told] at hr; exact hr
                · rw [← e] at hr; exact hr
    | scaleOut id =>
      show (scaleOut id b st).1.fails = [] ∧ ∀ p ∈ (scaleOut id b st).1.proxies, Fine (scaleOut id b st).1.keys W p
      unfold scaleOut
      split
      · rename_i hf
        refine ⟨h.2.1, fun q hq => hother q hq (fun e => ?_) (fun e => by cases e)⟩
        cases e
        unfold State.find at hf
        exact absurd (List.find?_eq_none.1 hf q hq) (by simp)
      · rename_i p hf
        have hone : ∀ q ∈ st.proxies, q.id = id → q = p := by
          intro q hq e
          have := find_of h.1.1 hq
          rw [e, hf] at this
          exact (Option.some.inj this).symm
        have hpm := (find_mem hf).1
        have hfine := h.2.2 p hpm
        obtain ⟨a1, _, _, a4, _⟩ := spawns_spec p (p.conf.instances - p.running) st
        obtain ⟨f1, f2⟩ := spawns_full p (p.conf.instances - p.running) st hfine.1 h.2.1
        generalize hx : spawns p (p.conf.instances - p.running) st = x at a1 a4 f1 f2 ⊢
        split
        · rename_i st'
          dsimp only at a1 a4 f1 f2 ⊢
          refine ⟨f1, fun q hq => ?_⟩
          rw [a4]
          rw [a1] at hq
          by_cases e : q.id = id
          · have := hone q hq e
            subst this
            refine ⟨hfine.1, ⟨fun hl => ?_, fun hl => ?_⟩, hfine.2.2⟩
            · rw [List.length_nil] at f2; omega
            · rcases List.mem_cons.1 (hfine.2.1.2 hl) with e | e
              · cases e
              · exact e
          · exact hother q hq (fun e2 => e (by cases e2; rfl)) (fun e2 => by cases e2)
        · rename_i st' pids hne
          dsimp only at a1 a4 f1 f2 ⊢
          refine ⟨f1, fun q hq => ?_⟩
          show Fine st'.keys W q
          rw [a4]
          rcases change_mem hq with ⟨hq, hne2⟩ | ⟨q', hq', hid, rfl⟩
          · rw [a1] at hq
            exact hother q hq (fun e2 => hne2 (by cases e2; rfl)) (fun e2 => by cases e2)
          · rw [a1] at hq'
            have := hone q' hq' hid
            subst this
            have hrun : ({ q' with insts := q'.insts ++ pids.map fun pid => { pid := pid } } : Proxy).running = q'.running + pids.length := by
              unfold Proxy.running
              dsimp only
              rw [List.countP_append, List.countP_map]
              congr 1
              rw [List.countP_eq_length]
              intro _ _
              rfl
            refine ⟨hfine.1, ⟨fun hl => ?_, fun hl => ?_⟩, ?_⟩
            · rw [hrun] at hl
              dsimp only at hl
              omega
            · rw [hrun] at hl
              dsimp only at hl
              have : q'.conf.instances < q'.running ∨ pids.length = 0 := by omega
              rcases this with e | e
              · rcases List.mem_cons.1 (hfine.2.1.2 e) with e | e
                · cases e
                · exact e
              · have : q'.conf.instances < q'.running := by omega
                rcases List.mem_cons.1 (hfine.2.1.2 this) with e | e
                · cases e
                · exact e
            · intro i hi r hr
              rcases List.mem_append.1 hi with hi | hi
              · exact hfine.2.2 i hi r hr
              · obtain ⟨_, _, rfl⟩ := List.mem_map.1 hi
                cases hr
    | remove ids =>
      show (removeAll ids st).fails = [] ∧ ∀ p ∈ (removeAll ids st).proxies, Fine (removeAll ids st).keys W p
      have : ∀ (ids : List Nat) (st : State), (removeAll ids st).fails = st.fails ∧ (removeAll ids st).keys = st.keys ∧ ∀ p ∈ (removeAll ids st).proxies, p ∈ st.proxies := by
        intro ids
        induction ids with
        | nil => intro st; exact ⟨rfl, rfl, fun p hp => hp⟩
        | cons id ids ih =>
          intro st
          obtain ⟨h1, h2, h3⟩ := ih { st with proxies := st.proxies.eraseP fun p => p.id == id && p.insts.isEmpty }
          exact ⟨h1, h2, fun p hp => List.eraseP_sublist.subset (h3 p hp)⟩
      obtain ⟨h1, h2, h3⟩ := this ids st
      refine ⟨h1.trans h.2.1, fun p hp => ?_⟩
      rw [h2]
      exact hother p (h3 p hp) (fun e => by cases e) (fun e => by cases e)
    | mappings w => exact ⟨h.2.1, fun p hp => hother p hp (fun e => by cases e) (fun e => by cases e)⟩
    | reply c => exact ⟨h.2.1, fun p hp => hother p hp (fun e => by cases e) (fun e => by cases e)⟩
  · cases a with
    | restart id => cases ha
    | scaleIn id =>
      show (scaleIn id b st).2.1.plain
      unfold scaleIn
      split
      · exact hb
      · dsimp only
        split
        · exact hb
        · trivial
    | scaleOut id =>
      show (scaleOut id b st).2.1.plain
      unfold scaleOut
      split
      · exact hb
      · split
        · exact hb
        · trivial
    | remove ids => exact hb
    | mappings w => exact hb
    | reply c => exact hb

theorem calm_kept : Kept Calm Act.plain Body.plain := by
  refine ⟨fun a b st W ha hb h => act_calm a b ha hb h, fun b m h st W hb e hj => ?_⟩
  unfold handle at e
  split at e <;> first | (cases e; done) | (cases hb; done) | skip
  all_goals rw [← Option.some.inj e]
  all_goals exact ⟨hj, trivial⟩

theorem scale_need {st : State} (h : Ids st) {p : Proxy} (hp : p ∈ st.proxies) : Need ((scale st p.id).map (·.1)) p := by
  unfold scale
  rw [find_of h hp]
  dsimp only
  refine ⟨fun hl => ?_, fun hl => ?_⟩
  · rw [if_pos hl]; simp
  · rw [if_neg (by omega), if_pos hl]; simp

theorem scale_plain (st : State) (id : Nat) : ∀ x ∈ scale st id, x.1.plain ∧ x.2.plain := by
  unfold scale
  split
  · intro x hx; cases hx
  · split
    · intro x hx; rw [List.mem_singleton.1 hx]; exact ⟨trivial, trivial⟩
    · split
      · intro x hx; rw [List.mem_singleton.1 hx]; exact ⟨trivial, trivial⟩
      · intro x hx; cases hx

theorem push_calm {c : Mgr} {us : List (Act × Body)} (h : GoodM Calm Act.plain Body.plain c) (hu : ∀ x ∈ us, x.1.plain ∧ x.2.plain) : GoodM Calm Act.plain Body.plain (c.push us) :=
  push_good calm_kept (h.holds.mono fun _ ha => List.mem_append_left _ ha) h.units h.front hu

/-- Some resources are new or changed, and are scaled. -/
theorem scaled_calm {c : Mgr} {f : State → State} (h : GoodM Calm Act.plain Body.plain c) (ids : List Nat) (hs : Same c.st (f c.st)) (hfl : (f c.st).fails = c.st.fails)
    (hf : ∀ p ∈ (f c.st).proxies, (p ∈ c.st.proxies ∧ (f c.st).keys = c.st.keys) ∨ (p.id ∈ ids ∧ p.conf.key ∈ (f c.st).keys ∧ Told p)) :
    GoodM Calm Act.plain Body.plain ((c.on f).push (ids.flatMap (scale (c.on f).st))) := by
  have hso : ∀ W, Sound (f c.st) W := fun W => same_sound hs h.holds.1
  refine push_good calm_kept ⟨hso _, hfl.trans h.holds.2.1, fun p hp => ?_⟩ h.units h.front ?_
  · rcases hf p hp with ⟨h1, h2⟩ | ⟨h1, h2, h3⟩
    · have := h.holds.2.2 p h1
      show Fine (f c.st).keys _ p
      rw [h2]
      exact this.mono fun _ ha => List.mem_append_left _ ha
    · refine ⟨h2, (scale_need (hso []).1 hp).mono ?_, h3⟩
      intro a ha
      refine List.mem_append_right _ ?_
      obtain ⟨x, hx, rfl⟩ := List.mem_map.1 ha
      exact List.mem_map_of_mem (List.mem_flatMap.2 ⟨p.id, h1, hx⟩)
  · intro x hx
    obtain ⟨id, _, h⟩ := List.mem_flatMap.1 hx
    exact scale_plain _ _ x h

theorem added_calm {c : Mgr} (rs : List Res) (h : GoodM Calm Act.plain Body.plain c) : GoodM Calm Act.plain Body.plain (added c rs) := by
  unfold added
  dsimp only
  refine scaled_calm (f := fun st => { st with
        proxies := st.proxies ++ ((rs.filter fun r => r.key ∈ c.st.keys).zip ((List.range (rs.filter fun r => r.key ∈ c.st.keys).length).map (c.st.nextId + ·))).map fun p => { id := p.2, conf := p.1 }
        nextId := st.nextId + (rs.filter fun r => r.key ∈ c.st.keys).length }) h _ (added_same _ _) rfl ?_
  intro p hp
  rcases List.mem_append.1 hp with hp | hp
  · exact .inl ⟨hp, rfl⟩
  · refine .inr ?_
    obtain ⟨x, hx, rfl⟩ := List.mem_map.1 hp
    have h1 := List.of_mem_zip hx
    refine ⟨h1.2, ?_, ?_⟩
    · have := (List.mem_filter.1 h1.1).2
      simpa using this
    · intro i hi; cases hi

theorem zeros_proxies : ∀ (ids : List Nat) (st : State),
    (ids.foldl (fun st id => st.change id fun p => { p with conf := { p.conf with instances := 0 } }) st).keys = st.keys
    ∧ (ids.foldl (fun st id => st.change id fun p => { p with conf := { p.conf with instances := 0 } }) st).fails = st.fails
    ∧ ∀ q ∈ (ids.foldl (fun st id => st.change id fun p => { p with conf := { p.conf with instances := 0 } }) st).proxies,
      q ∈ st.proxies ∨ (q.id ∈ ids ∧ ∃ p ∈ st.proxies, q = { p with conf := { p.conf with instances := 0 } }) := by
  intro ids
  induction ids with
  | nil => intro st; exact ⟨rfl, rfl, fun q hq => .inl hq⟩
  | cons id ids ih =>
    intro st
    obtain ⟨h1, h2, h3⟩ := ih (st.change id fun p => { p with conf := { p.conf with instances := 0 } })
    refine ⟨h1, h2, fun q hq => ?_⟩
    rcases h3 q hq with h | ⟨h4, p, hp, e⟩
    · rcases change_mem h with ⟨h, _⟩ | ⟨p, hp, hid, e⟩
      · exact .inl h
      · exact .inr ⟨by rw [e]; exact hid ▸ List.mem_cons_self .., p, hp, e⟩
    · refine .inr ⟨List.mem_cons_of_mem _ h4, ?_⟩
      rcases change_mem hp with ⟨h, _⟩ | ⟨p', hp', hid, e'⟩
      · exact ⟨p, h, e⟩
      · exact ⟨p', hp', by rw [e, e']⟩

theorem removed_calm {c : Mgr} (rs : List Res) (h : GoodM Calm Act.plain Body.plain c) : GoodM Calm Act.plain Body.plain (removed c rs) := by
  unfold removed
  dsimp only
  split
  · rename_i hn
    rw [hn]
    exact h
  · generalize rs.filterMap (fun r => (c.st.named r.name).map (·.id)) = ids
    obtain ⟨h1, h2, h3⟩ := zeros_proxies ids c.st
    refine push_calm (scaled_calm (f := fun st => ids.foldl (fun st id => st.change id fun p => { p with conf := { p.conf with instances := 0 } }) st) h ids (zeros_same _ _) h2 ?_) ?_
    · intro q hq
      rcases h3 q hq with h4 | ⟨h4, p, hp, e⟩
      · exact .inl ⟨h4, h1⟩
      · refine .inr ⟨h4, ?_, ?_⟩
        · have := (h.holds.2.2 p hp).1
          dsimp only
          rw [h1, e]
          exact this
        · have := (h.holds.2.2 p hp).2.2
          rw [e]
          exact this
    · intro x hx
      rw [List.mem_singleton.1 hx]
      exact ⟨trivial, trivial⟩

theorem conform_calm {c : Mgr} (m : Model) (h : GoodM Calm Act.plain Body.plain c) (hm : ∀ r ∈ m.resources, ∀ p ∈ c.st.proxies, p.conf.name = r.name → p.conf = r) :
    GoodM Calm Act.plain Body.plain (conform c m) := by
  have hmod : (Casual.Config.calculate Res.name (c.st.proxies.map (·.conf)) m.resources).modified = [] := by
    unfold Casual.Config.calculate Casual.Config.intersection
    dsimp only
    rw [List.filter_eq_nil_iff]
    intro r hr hany
    obtain ⟨h1, h2⟩ := List.mem_filter.1 hr
    simp only [List.any_eq_true, decide_eq_true_eq] at hany
    obtain ⟨x, hx, e⟩ := hany
    obtain ⟨p, hp, rfl⟩ := List.mem_map.1 hx
    have := hm r h1 p hp e.symm
    simp only [Bool.not_eq_true', List.any_eq_false, decide_eq_true_eq] at h2
    exact h2 _ hx this.symm
  unfold conform
  dsimp only
  rw [hmod]
  simp only [if_true]
  have h1 : GoodM Calm Act.plain Body.plain (if (Casual.Config.calculate Res.name (c.st.proxies.map (·.conf)) m.resources).added = [] then c else added c (Casual.Config.calculate Res.name (c.st.proxies.map (·.conf)) m.resources).added) := by
    split
    · exact h
    · exact added_calm _ h
  generalize (if (Casual.Config.calculate Res.name (c.st.proxies.map (·.conf)) m.resources).added = [] then c else added c (Casual.Config.calculate Res.name (c.st.proxies.map (·.conf)) m.resources).added) = c1 at h1 ⊢
  have h3 : GoodM Calm Act.plain Body.plain (if (Casual.Config.calculate Res.name (c.st.proxies.map (·.conf)) m.resources).removed = [] then c1 else removed c1 (Casual.Config.calculate Res.name (c.st.proxies.map (·.conf)) m.resources).removed) := by
    split
    · exact h1
    · exact removed_calm _ h1
  split
  · exact h3
  · refine push_calm h3 ?_
    intro x hx
    rw [List.mem_singleton.1 hx]
    exact ⟨trivial, trivial⟩

/-- Instances are changed, but not whether they run, and not what they have been told, or it is right. -/
theorem insts_fine {keys : List Nat} {W : List Act} {p : Proxy} (h : Fine keys W p) {insts : List Inst} (hr : insts.countP Inst.running = p.running)
    (ht : ∀ i ∈ insts, ∀ r, i.told = some r → r = p.conf ∨ ∃ j ∈ p.insts, j.told = some r) : Fine keys W { p with insts := insts } := by
  refine ⟨h.1, ⟨fun hl => ?_, fun hl => ?_⟩, fun i hi r hir => ?_⟩
  · unfold Proxy.running at hl
    dsimp only at hl
    rw [hr] at hl
    exact h.2.1.1 hl
  · unfold Proxy.running at hl
    dsimp only at hl
    rw [hr] at hl
    exact h.2.1.2 hl
  · rcases ht i hi r hir with rfl | ⟨j, hj, e⟩
    · exact ⟨rfl, rfl, rfl⟩
    · exact h.2.2 j hj r e

theorem map_running (l : List Inst) (f : Inst → Inst) (hf : ∀ i ∈ l, (f i).running = i.running) : (l.map f).countP Inst.running = l.countP Inst.running := by
  rw [List.countP_map]
  exact List.countP_congr fun i hi => by rw [Function.comp, hf i hi]

theorem onMap_calm {c : Mgr} (h : GoodM Calm Act.plain Body.plain c) (id : Nat) (f : Proxy → Inst → Inst) (hs : Same c.st (c.st.change id fun p => { p with insts := p.insts.map (f p) }))
    (hr : ∀ p i, (f p i).running = i.running) (ht : ∀ p i r, (f p i).told = some r → r = p.conf ∨ i.told = some r) :
    GoodM Calm Act.plain Body.plain (c.on fun st => st.change id fun p => { p with insts := p.insts.map (f p) }) := by
  refine on_good h (fun W hj => ⟨same_sound hs hj.1, hj.2.1, fun q hq => ?_⟩)
  rcases change_mem hq with ⟨hq, _⟩ | ⟨p, hp, _, rfl⟩
  · exact hj.2.2 q hq
  · refine insts_fine (hj.2.2 p hp) (map_running _ _ fun i _ => hr p i) ?_
    intro i hi r hir
    obtain ⟨j, hj2, rfl⟩ := List.mem_map.1 hi
    rcases ht p j r hir with e | e
    · exact .inl e
    · exact .inr ⟨j, hj2, e⟩

theorem exit_same (st : State) (pid : Nat) {W : List Act} (h : Sound st W) : Sound { st with proxies := st.proxies.map fun p => { p with insts := p.insts.filter (·.pid ≠ pid) } } W := by
  refine ⟨ids_of (st := st) ?_ (Nat.le_refl _) h.1, h.2.sublist ?_⟩
  · dsimp only
    rw [List.map_map]; rfl
  · unfold State.view
    dsimp only
    induction st.proxies with
    | nil => exact .slnil
    | cons p ps ih =>
      rw [List.map_cons, List.flatMap_cons, List.flatMap_cons]
      exact List.Sublist.append (List.Sublist.map _ List.filter_sublist) ih

theorem step_calm {c : Mgr} (e : Ev) (h : GoodM Calm Act.plain Body.plain c) (hq : quiet c e) : GoodM Calm Act.plain Body.plain (step c e) := by
  unfold step
  split
  · exact h
  · cases e with
    | exit pid =>
      refine onExit_good calm_kept pid h (fun W hj => ⟨exit_same _ _ hj.1, hj.2.1, fun q hq2 => ?_⟩)
      obtain ⟨p, hp, rfl⟩ := List.mem_map.1 hq2
      refine insts_fine (hj.2.2 p hp) ?_ ?_
      · unfold Proxy.running
        rw [List.countP_filter]
        refine List.countP_congr fun i hi => ?_
        by_cases e : i.pid = pid
        · have := hq p hp i hi e
          unfold Inst.running
          simp [this]
        · simp [e]
      · intro i hi r hir
        exact .inr ⟨i, (List.mem_filter.1 hi).1, hir⟩
    | ask id pid =>
      show GoodM _ _ _ (onAsk c id pid)
      unfold onAsk
      split
      · exact on_good h (fun _ hj => hj)
      · refine onMap_calm h id (fun p i => if i.pid = pid then { i with told := some p.conf } else i) (change_same id (fun _ => rfl) fun p => ?_) ?_ ?_
        · unfold Proxy.view
          dsimp only
          rw [List.map_map]
          refine .of_eq (List.map_congr_left fun i _ => ?_)
          dsimp only [Function.comp]
          split <;> rfl
        · intro p i
          split <;> rfl
        · intro p i r hr
          split at hr
          · exact .inl (Option.some.inj hr).symm
          · exact .inr hr
    | ready id pid =>
      show GoodM _ _ _ (onReady c id pid)
      unfold onReady
      dsimp only
      have h1 := msg_good calm_kept (.ready pid) h
      split
      · refine onMap_calm h1 id (fun _ i => if i.pid = pid then i.set .idle else i) (change_same id (fun _ => rfl) fun p => ?_) ?_ ?_
        · unfold Proxy.view
          dsimp only
          rw [List.map_map]
          refine .of_eq (List.map_congr_left fun i _ => ?_)
          dsimp only [Function.comp]
          split
          · unfold Inst.set
            split
            · rfl
            · rename_i hs; simp [hs]
          · rfl
        · intro p i
          split
          · exact set_running i .idle (fun e => by cases e)
          · rfl
        · intro p i r hr
          split at hr
          · rw [set_told] at hr; exact .inr hr
          · exact .inr hr
      · exact on_good h1 (fun _ hj => hj)
    | update k m =>
      refine push_calm (conform_calm m h hq) ?_
      intro x hx
      rw [List.mem_singleton.1 hx]
      exact ⟨trivial, trivial⟩
    | alias a ns =>
      show GoodM _ _ _ (onAlias c a ns)
      unfold onAlias
      split
      · exact on_good h (fun W hj => ⟨⟨hj.1.1, hj.1.2.reply (fun pid e => by cases e)⟩, hj.2⟩)
      · exact on_good h (fun _ hj => hj)
    | shutdown => exact conform_calm {} h (fun r hr => by cases hr)

theorem run_calm (keys : List Nat) (m : Model) (es : List Ev) (hq : Quiet (boot keys [] m) es) : GoodM Calm Act.plain Body.plain (run (boot keys [] m) es) := by
  have h0 : GoodM Calm Act.plain Body.plain (boot keys [] m) := by
    unfold boot
    refine conform_calm m ⟨⟨⟨⟨List.nodup_nil, ?_⟩, ⟨List.nodup_nil, ?_, ?_, ?_⟩⟩, rfl, ?_⟩, ?_, ?_⟩ ?_
    · intro p hp; cases hp
    · intro p hp; cases hp
    · intro p hp; cases hp
    · intro p hp; cases hp
    · intro p hp; cases hp
    · intro p hp; cases hp
    · intro p hp; cases hp
    · intro r _ p hp; cases hp
  have : ∀ (es : List Ev) (c : Mgr), GoodM Calm Act.plain Body.plain c → Quiet c es → GoodM Calm Act.plain Body.plain (run c es) := by
    intro es
    induction es with
    | nil => intro c h _; exact h
    | cons e es ih => intro c h hq; exact ih _ (step_calm e h hq.1) hq.2
  exact this es _ h0 hq

/-- If no process fails to start, no instance dies that should not and no resource that is there is modified: when the tasks are done each resource has as many instances running as are configured. -/
theorem scaled_partial (keys : List Nat) (m : Model) (es : List Ev) (hq : Quiet (boot keys [] m) es) (hdone : (run (boot keys [] m) es).conts = []) :
    ∀ p ∈ (run (boot keys [] m) es).st.proxies, p.insts.countP (·.state ≠ .shutdown) = p.conf.instances := by
  intro p hp
  have h := (run_calm keys m es hq).holds
  rw [hdone] at h
  have hn := (h.2.2 p hp).2.1
  have h1 : ¬ p.running < p.conf.instances := fun hl => by have := hn.1 hl; cases this
  have h2 : ¬ p.conf.instances < p.running := fun hl => by have := hn.2 hl; cases this
  show p.running = p.conf.instances
  omega

/-- In such histories, at all times: each instance has been told what is configured for its resource. -/
theorem told_partial (keys : List Nat) (m : Model) (es : List Ev) (hq : Quiet (boot keys [] m) es) :
    ∀ p ∈ (run (boot keys [] m) es).st.proxies, ∀ i ∈ p.insts, ∀ r, i.told = some r → r.name = p.conf.name ∧ r.key = p.conf.key ∧ r.info = p.conf.info :=
  fun p hp => ((run_calm keys m es hq).holds.2.2 p hp).2.2

end Casual.TConf
