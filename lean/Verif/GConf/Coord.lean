import Verif.GConf.Model
/-
  What holds of the state and of the actions that are waiting, whatever the tasks do.
-/
namespace Casual.GConf
open Casual.Task

/-- The actions of a group that have not been done. -/
def acts (g : List (TUnit Act Body)) : List Act := g.filterMap (·.action)

/-- The actions that have not been done. -/
def pend (cs : List (List (TUnit Act Body))) : List Act := cs.flatMap acts

/-- `J` is kept by all actions and handlers, of those that are `okA` and `okB`. -/
structure Kept (J : State → List Act → Prop) (okA : Act → Prop) (okB : Body → Prop) : Prop where
  act : ∀ a b st W, okA a → okB b → J st (a :: W) → J (act a b st).1 W ∧ okB (act a b st).2.1
  handle : ∀ b m h st W, okB b → handle b m = some h → J st W → J (h st).1 W ∧ okB (h st).2.1

/-- The unit is as it should. -/
def OkU (okA : Act → Prop) (okB : Body → Prop) (u : TUnit Act Body) : Prop := okB u.body ∧ ∀ a, u.action = some a → okA a

/-- `J` holds, and the first group has been started. -/
structure Good (J : State → List Act → Prop) (okA : Act → Prop) (okB : Body → Prop) (st : State) (cs : List (List (TUnit Act Body))) : Prop where
  holds : J st (pend cs)
  units : ∀ g ∈ cs, ∀ u ∈ g, OkU okA okB u
  front : ∀ g, cs.head? = some g → ∀ u ∈ g, u.action = none

variable {J : State → List Act → Prop} {okA : Act → Prop} {okB : Body → Prop}

theorem acts_none {g : List (TUnit Act Body)} (h : ∀ u ∈ g, u.action = none) : acts g = [] := by
  unfold acts
  rw [List.filterMap_eq_nil_iff]
  exact h

theorem groupStart_good (hk : Kept J okA okB) (W : List Act) : ∀ (us : List (TUnit Act Body)) (st : State), (∀ u ∈ us, OkU okA okB u) → J st (acts us ++ W) →
    J (groupStart ops us st).1 W ∧ (∀ u ∈ (groupStart ops us st).2.1, OkU okA okB u ∧ u.action = none) := by
  intro us
  induction us with
  | nil => intro st _ hj; exact ⟨hj, by intro u hu; cases hu⟩
  | cons u us ih =>
    intro st hu hj
    have h1 : J (unitStart ops u st).1 (acts us ++ W) ∧ OkU okA okB (unitStart ops u st).2.1 ∧ (unitStart ops u st).2.1.action = none := by
      obtain ⟨hb, ha⟩ := hu u (List.mem_cons_self ..)
      unfold unitStart
      unfold acts at hj ⊢
      rw [List.filterMap_cons] at hj
      split
      · rename_i a e
        rw [e] at hj
        have := hk.act a u.body st _ (ha a e) hb hj
        exact ⟨this.1, ⟨this.2, fun _ h => by cases h⟩, rfl⟩
      · rename_i e
        rw [e] at hj
        exact ⟨hj, ⟨hb, fun _ h => by rw [e] at h; cases h⟩, e⟩
    have h2 := ih (unitStart ops u st).1 (fun v hv => hu v (List.mem_cons_of_mem _ hv)) h1.1
    unfold groupStart
    dsimp only
    split
    · refine ⟨h2.1, fun v hv => ?_⟩
      rcases List.mem_cons.1 hv with rfl | hv
      · exact h1.2
      · exact h2.2 v hv
    · exact h2

theorem groupMsg_good (hk : Kept J okA okB) (m : Msg) (W : List Act) : ∀ (us : List (TUnit Act Body)) (st : State), (∀ u ∈ us, OkU okA okB u ∧ u.action = none) → J st W →
    J (groupMsg ops m us st).1 W ∧ (∀ u ∈ (groupMsg ops m us st).2.1, OkU okA okB u ∧ u.action = none) := by
  intro us
  induction us with
  | nil => intro st _ hj; exact ⟨hj, by intro u hu; cases hu⟩
  | cons u us ih =>
    intro st hu hj
    have h1 : J (unitMsg ops m u st).1 W ∧ OkU okA okB (unitMsg ops m u st).2.1 ∧ (unitMsg ops m u st).2.1.action = none := by
      obtain ⟨⟨hb, _⟩, ha⟩ := hu u (List.mem_cons_self ..)
      unfold unitMsg
      split
      · rename_i h e
        have := hk.handle u.body m h st W hb e hj
        exact ⟨this.1, ⟨this.2, fun _ h => by dsimp only at h; rw [ha] at h; cases h⟩, ha⟩
      · exact ⟨hj, ⟨hb, fun _ h => by rw [ha] at h; cases h⟩, ha⟩
    have h2 := ih (unitMsg ops m u st).1 (fun v hv => hu v (List.mem_cons_of_mem _ hv)) h1.1
    unfold groupMsg
    dsimp only
    split
    · refine ⟨h2.1, fun v hv => ?_⟩
      rcases List.mem_cons.1 hv with rfl | hv
      · exact h1.2
      · exact h2.2 v hv
    · exact h2

theorem good_cons {g : List (TUnit Act Body)} {rest : List (List (TUnit Act Body))} {st : State} (hj : J st (pend rest)) (hg : ∀ u ∈ g, OkU okA okB u ∧ u.action = none)
    (hr : ∀ g ∈ rest, ∀ u ∈ g, OkU okA okB u) : Good J okA okB st (g :: rest) := by
  refine ⟨?_, ?_, ?_⟩
  · unfold pend
    rw [List.flatMap_cons, acts_none (fun u hu => (hg u hu).2)]
    exact hj
  · intro g' hg' u hu
    rcases List.mem_cons.1 hg' with rfl | hg'
    · exact (hg u hu).1
    · exact hr g' hg' u hu
  · intro g' e
    cases e
    exact fun u hu => (hg u hu).2

theorem coordMsg_good (hk : Kept J okA okB) (m : Msg) : ∀ (n : Nat) (cs : List (List (TUnit Act Body))) (st : State), cs.length = n → Good J okA okB st cs →
    Good J okA okB (coordMsg ops m cs st).1 (coordMsg ops m cs st).2.1 := by
  intro n
  induction n with
  | zero =>
    intro cs st hn h
    rw [List.eq_nil_of_length_eq_zero hn] at h ⊢
    unfold coordMsg
    exact h
  | succ n ih =>
    intro cs st hn h
    match cs, hn, h with
    | g :: rest, hn, h =>
      have hg : ∀ u ∈ g, OkU okA okB u ∧ u.action = none := fun u hu => ⟨h.units g (List.mem_cons_self ..) u hu, h.front g rfl u hu⟩
      have hj : J st (pend rest) := by
        have := h.holds
        unfold pend at this
        rw [List.flatMap_cons, acts_none (fun u hu => (hg u hu).2)] at this
        exact this
      have h1 := groupMsg_good hk m (pend rest) g st hg hj
      have hr : ∀ g ∈ rest, ∀ u ∈ g, OkU okA okB u := fun g' hg' => h.units g' (List.mem_cons_of_mem _ hg')
      unfold coordMsg
      dsimp only
      split
      · split
        · refine ⟨h1.1, ?_, ?_⟩
          · intro g hg; cases hg
          · intro g hg; cases hg
        · rename_i nx rest'
          have h2 := groupStart_good hk (pend rest') nx (groupMsg ops m g st).1 (fun u hu => hr nx (List.mem_cons_self ..) u hu) h1.1
          have h3 := good_cons h2.1 h2.2 (fun g' hg' => hr g' (List.mem_cons_of_mem _ hg'))
          exact ih _ _ (by simpa using hn) h3
      · exact good_cons h1.1 h1.2 hr

theorem mkGroup_acts (seq : Nat) (us : List (Act × Body)) : acts (mkGroup seq us) = us.map (·.1) := by
  unfold acts mkGroup
  rw [List.filterMap_map]
  have : ∀ (l : List (Act × Body)) (k : Nat), (l.zipIdx k).filterMap ((fun u : TUnit Act Body => u.action) ∘ fun p => { id := ⟨seq, p.2⟩, action := some p.1.1, body := p.1.2 }) = l.map (·.1) := by
    intro l
    induction l with
    | nil => intro k; rfl
    | cons x l ih => intro k; rw [List.zipIdx_cons, List.filterMap_cons]; exact congrArg _ (ih (k + 1))
  exact this us 0

theorem mkGroup_ok {seq : Nat} {us : List (Act × Body)} (h : ∀ x ∈ us, okA x.1 ∧ okB x.2) : ∀ u ∈ mkGroup seq us, OkU okA okB u := by
  intro u hu
  unfold mkGroup at hu
  obtain ⟨p, hp, rfl⟩ := List.mem_map.1 hu
  have hm : p.1 ∈ us := by
    obtain ⟨_, _, he⟩ := List.mem_zipIdx hp
    rw [he]
    exact List.getElem_mem _
  exact ⟨(h _ hm).2, fun a e => by cases e; exact (h _ hm).1⟩

/-- What a manager with tasks is like. -/
abbrev GoodM (J : State → List Act → Prop) (okA : Act → Prop) (okB : Body → Prop) (c : Mgr) : Prop := Good J okA okB c.st c.conts

theorem msg_good (hk : Kept J okA okB) {c : Mgr} (m : Msg) (h : GoodM J okA okB c) : GoodM J okA okB (c.msg m) := coordMsg_good hk m _ c.conts c.st rfl h

theorem push_good (hk : Kept J okA okB) {c : Mgr} {us : List (Act × Body)} (hj : J c.st (pend c.conts ++ us.map (·.1)))
    (hun : ∀ g ∈ c.conts, ∀ u ∈ g, OkU okA okB u) (hf : ∀ g, c.conts.head? = some g → ∀ u ∈ g, u.action = none) (hu : ∀ x ∈ us, okA x.1 ∧ okB x.2) : GoodM J okA okB (c.push us) := by
  have hp : J c.st (pend (c.conts ++ [mkGroup c.seq us])) := by
    unfold pend
    rw [List.flatMap_append]
    simp only [List.flatMap_cons, List.flatMap_nil, List.append_nil, mkGroup_acts]
    exact hj
  have hall : ∀ g ∈ c.conts ++ [mkGroup c.seq us], ∀ u ∈ g, OkU okA okB u := by
    intro g hg
    rcases List.mem_append.1 hg with hg | hg
    · exact hun g hg
    · rw [List.mem_singleton.1 hg]; exact mkGroup_ok hu
  unfold Mgr.push Coord.step coordThen
  dsimp only
  split
  · rename_i hl
    have hc : c.conts = [] := by
      cases hc : c.conts with
      | nil => rfl
      | cons => rw [hc] at hl; simp at hl
    rw [hc] at hp hall ⊢
    unfold coordStart
    simp only [List.nil_append] at hp hall ⊢
    have h1 := groupStart_good hk [] (mkGroup c.seq us) c.st (hall _ (List.mem_singleton.2 rfl)) (by simpa [pend] using hp)
    split
    · exact ⟨h1.1, (by intro g hg; cases hg), (by intro g hg; cases hg)⟩
    · exact good_cons h1.1 h1.2 (by intro g hg; cases hg)
  · rename_i hl
    refine ⟨hp, hall, ?_⟩
    intro g e
    cases hc : c.conts with
    | nil => rw [hc] at hl; simp at hl
    | cons x xs =>
      dsimp only at e
      rw [hc] at e
      have : c.conts.head? = some g := by rw [hc]; simpa using e
      exact hf g this

theorem on_good {c : Mgr} {f : State → State} (h : GoodM J okA okB c) (hf : ∀ W, J c.st W → J (f c.st) W) : GoodM J okA okB (c.on f) := ⟨hf _ h.holds, h.units, h.front⟩

end Casual.GConf
