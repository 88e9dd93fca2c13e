import Verif.TConf.Props
/-
  An instance that has been asked to stop is not used again, and no other instance is taken for it.
-/
namespace Casual.TConf
open Casual.Task

/-- Each process is there once, and it is in state shutdown exactly if it has been asked to stop. -/
structure Stops (V : List (Nat × Bool)) (sent : List Out) (next : Nat) : Prop where
  once : (V.map (·.1)).Nodup
  old : ∀ x ∈ V, x.1 < next
  past : ∀ pid, .stop pid ∈ sent → pid < next
  iff : ∀ x ∈ V, x.2 = true ↔ .stop x.1 ∈ sent

theorem Stops.perm {V V' : List (Nat × Bool)} {sent : List Out} {next : Nat} (h : Stops V sent next) (p : V'.Perm V) : Stops V' sent next :=
  ⟨(p.map _).nodup_iff.2 h.once, fun x hx => h.old x (p.subset hx), h.past, fun x hx => h.iff x (p.subset hx)⟩

theorem Stops.sublist {V V' : List (Nat × Bool)} {sent : List Out} {next : Nat} (h : Stops V sent next) (p : List.Sublist V' V) : Stops V' sent next :=
  ⟨(p.map _).nodup h.once, fun x hx => h.old x (p.subset hx), h.past, fun x hx => h.iff x (p.subset hx)⟩

theorem Stops.stop {V : List (Nat × Bool)} {sent : List Out} {next : Nat} (h : Stops V sent next) {pid : Nat} (hp : pid ∈ V.map (·.1)) :
    Stops (V.map fun x => if x.1 = pid then (x.1, true) else x) (sent ++ [.stop pid]) next := by
  have hm : (V.map fun x => if x.1 = pid then (x.1, true) else x).map (·.1) = V.map (·.1) := by
    rw [List.map_map]
    apply List.map_congr_left
    intro x _
    dsimp only [Function.comp]
    split <;> rfl
  refine ⟨hm ▸ h.once, ?_, ?_, ?_⟩
  · intro x hx
    have : x.1 ∈ V.map (·.1) := hm ▸ List.mem_map_of_mem hx
    obtain ⟨y, hy, e⟩ := List.mem_map.1 this
    rw [← e]; exact h.old y hy
  · intro q hq
    rcases List.mem_append.1 hq with hq | hq
    · exact h.past q hq
    · have := List.mem_singleton.1 hq
      cases this
      obtain ⟨y, hy, e⟩ := List.mem_map.1 hp
      rw [← e]; exact h.old y hy
  · intro x hx
    obtain ⟨y, hy, e⟩ := List.mem_map.1 hx
    split at e
    · rename_i hy2
      rw [← e]
      simp [hy2]
    · rename_i hy2
      rw [← e, h.iff y hy]
      simp [hy2]

theorem Stops.spawned {V : List (Nat × Bool)} {sent : List Out} {next next' : Nat} (h : Stops V sent next) {pids : List Nat} (hn : pids.Nodup) (hp : ∀ p ∈ pids, next ≤ p ∧ p < next') (hl : next ≤ next') :
    Stops (V ++ pids.map (·, false)) sent next' := by
  refine ⟨?_, ?_, ?_, ?_⟩
  · rw [List.map_append, List.map_map]
    refine List.nodup_append.2 ⟨h.once, ?_, ?_⟩
    · have : ((fun x : Nat × Bool => x.1) ∘ fun p : Nat => (p, false)) = id := rfl
      rw [this, List.map_id]; exact hn
    · intro a ha b hb e
      obtain ⟨x, hx, rfl⟩ := List.mem_map.1 ha
      obtain ⟨p, hp2, rfl⟩ := List.mem_map.1 hb
      have h1 := h.old x hx
      have h2 := (hp p hp2).1
      dsimp only [Function.comp] at e
      omega
  · intro x hx
    rcases List.mem_append.1 hx with hx | hx
    · have := h.old x hx; omega
    · obtain ⟨p, hp2, rfl⟩ := List.mem_map.1 hx
      exact (hp p hp2).2
  · intro pid hpid
    have := h.past pid hpid
    omega
  · intro x hx
    rcases List.mem_append.1 hx with hx | hx
    · exact h.iff x hx
    · obtain ⟨p, hp2, rfl⟩ := List.mem_map.1 hx
      constructor
      · intro e; cases e
      · intro e
        have h1 := h.past p e
        have h2 := (hp p hp2).1
        omega

theorem Stops.replaced {V : List (Nat × Bool)} {sent : List Out} {next : Nat} (h : Stops V sent next) (pid : Nat) :
    Stops (V.map fun x => if x.1 = pid then (next, false) else x) sent (next + 1) := by
  have hold : ∀ x ∈ V.map (fun x => if x.1 = pid then (next, false) else x), (x ∈ V) ∨ x = (next, false) := by
    intro x hx
    obtain ⟨y, hy, e⟩ := List.mem_map.1 hx
    split at e
    · exact .inr e.symm
    · exact .inl (e ▸ hy)
  refine ⟨?_, ?_, ?_, ?_⟩
  · have h1 := h.once
    rw [List.Nodup, List.pairwise_map] at h1 ⊢
    rw [List.pairwise_map]
    refine (List.Pairwise.and_mem.1 h1).imp ?_
    rintro a b ⟨ha, hb, hne⟩
    have h2 := h.old a ha
    have h3 := h.old b hb
    by_cases ea : a.1 = pid
    · rw [if_pos ea]
      by_cases eb : b.1 = pid
      · exact absurd (ea.trans eb.symm) hne
      · rw [if_neg eb]; dsimp only; omega
    · rw [if_neg ea]
      by_cases eb : b.1 = pid
      · rw [if_pos eb]; dsimp only; omega
      · rw [if_neg eb]; exact hne
  · intro x hx
    rcases hold x hx with hx | rfl
    · have := h.old x hx; omega
    · exact Nat.lt_succ_self _
  · intro q hq
    have := h.past q hq
    omega
  · intro x hx
    rcases hold x hx with hx | rfl
    · exact h.iff x hx
    · constructor
      · intro e; cases e
      · intro e
        have := h.past next e
        omega

theorem Stops.reply {V : List (Nat × Bool)} {sent : List Out} {next : Nat} (h : Stops V sent next) {o : Out} (ho : ∀ pid, o ≠ .stop pid) : Stops V (sent ++ [o]) next := by
  have : ∀ pid, .stop pid ∈ sent ++ [o] ↔ .stop pid ∈ sent := by
    intro pid
    rw [List.mem_append, List.mem_singleton]
    constructor
    · rintro (h | h)
      · exact h
      · exact absurd h.symm (ho pid)
    · exact .inl
  exact ⟨h.once, h.old, fun pid hp => h.past pid ((this pid).1 hp), fun x hx => (h.iff x hx).trans (this x.1).symm⟩

/-- The same for a state. -/
def Sound (st : State) (_ : List Act) : Prop := Ids st ∧ Stops st.view st.sent st.nextPid

/-- Instances of one resource are changed. -/
theorem view_insts {st : State} (h : Ids st) (hs : (st.view.map (·.1)).Nodup) {id pid : Nat} {p : Proxy} (hf : st.find id = some p) (hp : pid ∈ p.view.map (·.1))
    {f : Inst → Inst} {g : Nat × Bool → Nat × Bool} (hg : ∀ i : Inst, ((f i).pid, decide ((f i).state = .shutdown)) = g (i.pid, decide (i.state = .shutdown)))
    (hn : ∀ x : Nat × Bool, x.1 ≠ pid → g x = x) : (st.change id fun p => { p with insts := p.insts.map f }).view = st.view.map g := by
  obtain ⟨A, B, e1, e2⟩ := view_change h hf fun p => { p with insts := p.insts.map f }
  rw [e1, e2, List.map_append, List.map_append]
  rw [e1, List.map_append, List.map_append] at hs
  have hA : ∀ x ∈ A, x.1 ≠ pid := by
    intro x hx e
    have h1 := List.nodup_append.1 (List.nodup_append.1 hs).1
    exact h1.2.2 x.1 (List.mem_map_of_mem hx) pid hp e
  have hB : ∀ x ∈ B, x.1 ≠ pid := by
    intro x hx e
    have h1 := (List.nodup_append.1 hs).2.2
    exact h1 pid (List.mem_append_right _ hp) x.1 (List.mem_map_of_mem hx) e.symm
  have eA : A.map g = A := (List.map_congr_left fun x hx => hn x (hA x hx)).trans (List.map_id _)
  have eB : B.map g = B := (List.map_congr_left fun x hx => hn x (hB x hx)).trans (List.map_id _)
  rw [eA, eB]
  congr 2
  unfold Proxy.view
  dsimp only
  rw [List.map_map, List.map_map]
  exact List.map_congr_left fun i _ => hg i

theorem set_shutdown (i : Inst) : (i.set .shutdown).pid = i.pid ∧ (i.set .shutdown).state = .shutdown := by
  unfold Inst.set
  split
  · rename_i h; exact ⟨rfl, h⟩
  · exact ⟨rfl, rfl⟩

theorem stop_sound {st : State} {W : List Act} (h : Sound st W) {id pid : Nat} {p : Proxy} (hf : st.find id = some p) (hp : pid ∈ p.view.map (·.1)) : Sound (stop st id pid) W := by
  have hv : (stop st id pid).view = st.view.map fun x => if x.1 = pid then (x.1, true) else x := by
    refine view_insts (f := fun i => if i.pid = pid then i.set .shutdown else i) h.1 h.2.once hf hp ?_ ?_
    · intro i
      dsimp only
      by_cases e : i.pid = pid
      · rw [if_pos e, if_pos e, (set_shutdown i).1, (set_shutdown i).2]; simp
      · rw [if_neg e, if_neg e]
    · intro x hx
      exact if_neg hx
  refine ⟨ids_of (change_ids id fun _ => rfl) (Nat.le_refl _) h.1, ?_⟩
  rw [hv]
  refine h.2.stop ?_
  obtain ⟨A, B, e1, _⟩ := view_change h.1 hf (fun p => p)
  rw [e1]
  simp only [List.map_append, List.mem_append]
  exact .inl (.inr hp)

theorem stop_find {st : State} (h : Ids st) {id pid : Nat} {p : Proxy} (hf : st.find id = some p) :
    ∃ q, (stop st id pid).find id = some q ∧ q.view.map (·.1) = p.view.map (·.1) := by
  obtain ⟨l, r, e, hid, hl, hr⟩ := find_split h hf
  have e2 := change_split e hid hl hr fun p => { p with insts := p.insts.map fun i => if i.pid = pid then i.set .shutdown else i }
  refine ⟨{ p with insts := p.insts.map fun i => if i.pid = pid then i.set .shutdown else i }, ?_, ?_⟩
  · have hi : Ids (stop st id pid) := ids_of (change_ids id fun _ => rfl) (Nat.le_refl _) h
    have := find_of hi (p := { p with insts := p.insts.map fun i => if i.pid = pid then i.set .shutdown else i }) (by
      show _ ∈ (st.change id fun p => { p with insts := p.insts.map fun i => if i.pid = pid then i.set .shutdown else i }).proxies
      rw [e2]; simp)
    rw [show ({ p with insts := p.insts.map fun i => if i.pid = pid then i.set .shutdown else i } : Proxy).id = id from hid] at this
    simpa [hid] using this
  · unfold Proxy.view
    rw [List.map_map, List.map_map, List.map_map]
    apply List.map_congr_left
    intro i _
    dsimp only [Function.comp]
    split
    · exact (set_shutdown i).1
    · rfl

theorem stops_sound {W : List Act} (id : Nat) : ∀ (pids : List Nat) (st : State) (p : Proxy), Sound st W → st.find id = some p → (∀ pid ∈ pids, pid ∈ p.view.map (·.1)) →
    Sound (pids.foldl (fun st pid => stop st id pid) st) W := by
  intro pids
  induction pids with
  | nil => intro st p h _ _; exact h
  | cons pid pids ih =>
    intro st p h hf hp
    rw [List.foldl_cons]
    obtain ⟨q, hq, e⟩ := stop_find (pid := pid) h.1 hf
    exact ih _ q (stop_sound h hf (hp pid (List.mem_cons_self ..))) hq (fun x hx => e ▸ hp x (List.mem_cons_of_mem _ hx))

theorem same_sound {st st' : State} {W W' : List Act} (h : Same st st') (hs : Sound st W) : Sound st' W' :=
  ⟨h.ids hs.1, by rw [h.sent, h.pid]; exact hs.2.perm h.view⟩

theorem find_change {st : State} (h : Ids st) {id : Nat} {p : Proxy} (hf : st.find id = some p) {f : Proxy → Proxy} (hi : ∀ p, (f p).id = p.id) : (st.change id f).find id = some (f p) := by
  obtain ⟨l, r, e, hid, hl, hr⟩ := find_split h hf
  have e2 := change_split e hid hl hr f
  have hs : Ids (st.change id f) := ids_of (change_ids id hi) (Nat.le_refl _) h
  have := find_of hs (p := f p) (by rw [e2]; simp)
  rw [hi, hid] at this
  exact this

theorem shutdownable_mem {p : Proxy} : ∀ pid ∈ p.shutdownable, pid ∈ p.view.map (·.1) := by
  intro pid hp
  unfold Proxy.shutdownable at hp
  obtain ⟨i, hi, rfl⟩ := List.mem_map.1 hp
  have := (List.mem_filter.1 (List.drop_subset _ _ hi)).1
  unfold Proxy.view
  rw [List.map_map]
  exact List.mem_map.2 ⟨i, this, rfl⟩

theorem scaleOut_view {st : State} (h : Ids st) {id : Nat} {p : Proxy} (hf : st.find id = some p) (pids : List Nat) :
    (st.change id fun p => { p with insts := p.insts ++ pids.map fun pid => { pid := pid } }).view.Perm (st.view ++ pids.map (·, false)) := by
  obtain ⟨A, B, e1, e2⟩ := view_change h hf fun p => { p with insts := p.insts ++ pids.map fun pid => { pid := pid } }
  rw [e1, e2]
  have : ({ p with insts := p.insts ++ pids.map fun pid => { pid := pid } } : Proxy).view = p.view ++ pids.map (·, false) := by
    unfold Proxy.view
    rw [List.map_append, List.map_map]
    rfl
  rw [this, ← List.append_assoc, List.append_assoc (A ++ p.view), List.append_assoc (A ++ p.view)]
  exact List.Perm.append_left _ List.perm_append_comm

theorem act_sound (a : Act) (b : Body) {st : State} {W : List Act} (h : Sound st (a :: W)) : Sound (act a b st).1 W := by
  cases a with
  | scaleIn id =>
    show Sound (scaleIn id b st).1 W
    unfold scaleIn
    split
    · exact h
    · rename_i p hf
      have h1 : Sound (st.change id Proxy.partitioned) W := same_sound (change_same id (fun _ => rfl) partitioned_view) h
      have h2 := find_change h.1 hf (f := Proxy.partitioned) (fun _ => rfl)
      dsimp only
      split
      · exact h1
      · refine stops_sound id _ _ _ h1 h2 ?_
        intro pid hp
        have := shutdownable_mem pid hp
        exact ((partitioned_view p).map _).mem_iff.2 this
  | scaleOut id =>
    show Sound (scaleOut id b st).1 W
    unfold scaleOut
    split
    · exact h
    · rename_i p hf
      obtain ⟨a1, a2, a3, _, _, _, a7, a8, a9⟩ := spawns_spec p (p.conf.instances - p.running) st
      generalize hx : spawns p (p.conf.instances - p.running) st = x at a1 a2 a3 a7 a8 a9 ⊢
      have hi : Ids x.1 := ids_of (by rw [a1]) (by omega) h.1
      have hf' : x.1.find id = some p := by unfold State.find; rw [a1]; exact hf
      have hv : x.1.view = st.view := by unfold State.view; rw [a1]
      split
      · refine ⟨hi, ?_⟩
        have := h.2.spawned a8 a9 a7
        rw [List.map_nil, List.append_nil] at this
        show Stops (State.view _) (State.sent _) _
        rw [hv, a2]
        exact this
      · refine ⟨ids_of (change_ids id fun _ => rfl) (Nat.le_refl _) hi, ?_⟩
        refine Stops.perm ?_ (scaleOut_view hi hf' _)
        show Stops _ (State.sent _) (State.nextPid _)
        rw [hv]
        have := h.2.spawned a8 a9 a7
        show Stops _ (State.sent _) _
        dsimp only at a2 ⊢
        have e : ∀ s f, (State.change s id f).sent = s.sent ∧ (State.change s id f).nextPid = s.nextPid := fun _ _ => ⟨rfl, rfl⟩
        rw [(e _ _).1, (e _ _).2, a2]
        exact this
  | restart id =>
    show Sound (restart id b st).1 W
    unfold restart
    split
    · rename_i p hf
      split
      · exact h
      · rename_i i hi
        refine stop_sound h hf ?_
        unfold Proxy.view
        rw [List.map_map]
        exact List.mem_map.2 ⟨i, List.mem_of_find?_eq_some hi, rfl⟩
    · exact h
  | remove ids => exact same_sound (removeAll_same ids st) h
  | mappings w => exact h
  | reply c => exact ⟨h.1, h.2.reply (fun pid e => by cases e)⟩

theorem restartExit_sound (id : Nat) (rs ss : List Nat) (pid : Nat) {st : State} {W : List Act} (h : Sound st W) : Sound (restartExit id rs ss pid st).1 W := by
  unfold restartExit ifDone
  split
  · exact h
  · dsimp only
    split
    · exact h
    · split
      · exact h
      · rename_i p hf
        split
        · exact h
        · rename_i hall
          obtain ⟨a1, a2, a3, _, _, _, a7⟩ := spawn_spec st p
          have hi : Ids (spawn st p).1 := ids_of (by rw [a1]) (by omega) h.1
          have hf' : (spawn st p).1.find id = some p := by unfold State.find; rw [a1]; exact hf
          have hv : (spawn st p).1.view = st.view := by unfold State.view; rw [a1]
          split
          · rename_i st' new e
            rw [e] at a1 a2 a3 a7 hi hf' hv
            rcases a7 with ⟨q, e1, e2, e3⟩ | ⟨e1, _⟩
            · cases e1
              refine ⟨ids_of (change_ids id fun _ => rfl) (Nat.le_refl _) hi, ?_⟩
              have hp : pid ∈ p.view.map (·.1) := by
                simp only [List.all_eq_true, decide_eq_true_eq] at hall
                unfold Proxy.view
                rw [List.map_map]
                have : ∃ i ∈ p.insts, i.pid = pid := by
                  refine Classical.byContradiction fun hc => hall fun i hi2 e => hc ⟨i, hi2, e⟩
                obtain ⟨i, hi2, e⟩ := this
                exact List.mem_map.2 ⟨i, hi2, e⟩
              have hw := view_insts (st := st') (f := fun i => if i.pid = pid then { pid := new } else i) (g := fun x => if x.1 = pid then (new, false) else x) hi (by rw [hv]; exact h.2.once) hf' hp
                (by
                  intro i
                  dsimp only
                  by_cases e : i.pid = pid
                  · rw [if_pos e, if_pos e]; rfl
                  · rw [if_neg e, if_neg e])
                (by intro x hx; exact if_neg hx)
              dsimp only at e2 e3 a2 ⊢
              rw [hw, hv]
              show Stops _ st'.sent st'.nextPid
              rw [a2, e3, e2]
              exact h.2.replaced pid
            · cases e1
          · rename_i st' e
            rw [e] at a1 a2 a3 a7 hi hf' hv
            refine ⟨hi, ?_⟩
            rcases a7 with ⟨q, e1, _⟩ | ⟨_, e3⟩
            · cases e1
            · dsimp only at e3 a2 ⊢
              rw [hv, a2, e3]
              exact h.2

theorem restartReady_sound (id : Nat) (rs ss : List Nat) (pid : Nat) {st : State} {W : List Act} (h : Sound st W) : Sound (restartReady id rs ss pid st).1 W := by
  unfold restartReady ifDone
  split
  · exact h
  · dsimp only
    split
    · exact h
    · split
      · exact h
      · rename_i p hf
        split
        · exact h
        · rename_i i hi
          refine stop_sound h hf ?_
          unfold Proxy.view
          rw [List.map_map]
          exact List.mem_map.2 ⟨i, List.mem_of_find?_eq_some hi, rfl⟩

theorem sound_kept : Kept Sound (fun _ => True) (fun _ => True) := by
  refine ⟨fun a b st W _ _ h => ⟨act_sound a b h, trivial⟩, fun b m h st W _ e hj => ⟨?_, trivial⟩⟩
  unfold handle at e
  split at e <;> first | (cases e; done) | skip
  all_goals rw [← Option.some.inj e]
  · exact hj
  · exact hj
  · exact hj
  · exact restartExit_sound _ _ _ _ hj
  · exact restartReady_sound _ _ _ _ hj

theorem sound_indifferent : Indifferent Sound (fun _ => True) (fun _ => True) :=
  ⟨fun _ _ _ h hj => same_sound h hj, fun _ _ _ _ hj => hj, fun _ _ => trivial, fun _ => trivial⟩

theorem step_sound {c : Mgr} (e : Ev) (h : GoodM Sound (fun _ => True) (fun _ => True) c) : GoodM Sound (fun _ => True) (fun _ => True) (step c e) := by
  have hk := sound_kept
  have hi := sound_indifferent
  unfold step
  split
  · exact h
  · cases e with
    | exit pid =>
      refine onExit_good hk pid h (fun W hj => ?_)
      refine ⟨ids_of (st := c.st) ?_ (Nat.le_refl c.st.nextId) hj.1, hj.2.sublist ?_⟩
      · dsimp only
        rw [List.map_map]; rfl
      · unfold State.view
        dsimp only
        induction c.st.proxies with
        | nil => exact .slnil
        | cons p ps ih =>
          rw [List.map_cons, List.flatMap_cons, List.flatMap_cons]
          exact List.Sublist.append (List.Sublist.map _ List.filter_sublist) ih
    | ask id pid =>
      show GoodM _ _ _ (onAsk c id pid)
      unfold onAsk
      split
      · exact on_good h (fun _ hj => hj)
      · refine on_same hi h (change_same id (fun _ => rfl) fun p => ?_)
        unfold Proxy.view
        dsimp only
        rw [List.map_map]
        refine .of_eq (List.map_congr_left fun i _ => ?_)
        dsimp only [Function.comp]
        split <;> rfl
    | ready id pid =>
      show GoodM _ _ _ (onReady c id pid)
      unfold onReady
      dsimp only
      have h1 := msg_good hk (.ready pid) h
      split
      · refine on_same hi h1 (change_same id (fun _ => rfl) fun p => ?_)
        unfold Proxy.view
        dsimp only
        rw [List.map_map]
        refine .of_eq (List.map_congr_left fun i _ => ?_)
        dsimp only [Function.comp]
        split
        · unfold Inst.set
          split
          · rfl
          · rename_i hs; simp [hs]
        · rfl
      · exact on_good h1 (fun _ hj => hj)
    | update k m => exact push_good hk (conform_good hk hi m h).holds (conform_good hk hi m h).units (conform_good hk hi m h).front (fun _ _ => ⟨trivial, trivial⟩)
    | alias a ns =>
      show GoodM _ _ _ (onAlias c a ns)
      unfold onAlias
      split
      · exact on_good h (fun W hj => ⟨hj.1, hj.2.reply (fun pid e => by cases e)⟩)
      · exact on_good h (fun _ hj => hj)
    | shutdown => exact conform_good hk hi {} h

theorem run_sound (keys : List Nat) (fails : List Bool) (m : Model) (es : List Ev) : GoodM Sound (fun _ => True) (fun _ => True) (run (boot keys fails m) es) := by
  have h0 : GoodM Sound (fun _ => True) (fun _ => True) (boot keys fails m) := by
    unfold boot
    refine conform_good sound_kept sound_indifferent m ⟨⟨⟨List.nodup_nil, ?_⟩, ⟨List.nodup_nil, ?_, ?_, ?_⟩⟩, ?_, ?_⟩
    · intro p hp; cases hp
    · intro p hp; cases hp
    · intro p hp; cases hp
    · intro p hp; cases hp
    · intro p hp; cases hp
    · intro p hp; cases hp
  have : ∀ (es : List Ev) (c : Mgr), GoodM Sound (fun _ => True) (fun _ => True) c → GoodM Sound (fun _ => True) (fun _ => True) (run c es) := by
    intro es
    induction es with
    | nil => intro c h; exact h
    | cons e es ih => intro c h; exact ih _ (step_sound e h)
  exact this es _ h0

/-- Whatever happens: an instance is in state shutdown exactly if it has been asked to stop, so it is never taken for work after that; and each process is one instance of one resource. -/
theorem stopped_is_final (keys : List Nat) (fails : List Bool) (m : Model) (es : List Ev) :
    (∀ p ∈ (run (boot keys fails m) es).st.proxies, ∀ i ∈ p.insts, i.state = .shutdown ↔ .stop i.pid ∈ (run (boot keys fails m) es).st.sent)
    ∧ ((run (boot keys fails m) es).st.proxies.flatMap fun p => p.insts.map (·.pid)).Nodup
    ∧ ((run (boot keys fails m) es).st.proxies.map (·.id)).Nodup := by
  have h := (run_sound keys fails m es).holds
  refine ⟨fun p hp i hi => ?_, ?_, h.1.1⟩
  · have := h.2.iff (i.pid, decide (i.state = .shutdown)) (List.mem_flatMap.2 ⟨p, hp, List.mem_map.2 ⟨i, hi, rfl⟩⟩)
    simpa using this
  · have := h.2.once
    unfold State.view at this
    rw [List.map_flatMap] at this
    refine List.Perm.nodup_iff (.of_eq ?_) |>.1 this
    congr 1
    funext p
    unfold Proxy.view
    rw [List.map_map]
    rfl

end Casual.TConf
