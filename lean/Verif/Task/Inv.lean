import Verif.Task.Model
import Verif.Util

/-! The invariant of the task coordinator. -/
namespace Casual.Task

variable {S M A B : Type}

/-- The unit has ended: it was aborted, or is done. -/
def Ended (log : List Ev) (u : UId) : Prop := Ev.aborted u ∈ log ∨ Ev.done u ∈ log

/-- The unit an event is about. -/
def Ev.uid : Ev → UId
  | .added u | .started u | .aborted u | .done u | .cancelled u => u

/-- The units that were started, in order. -/
def starts (log : List Ev) : List UId :=
  log.filterMap fun | .started u => some u | _ => none

/-- The units that ended, in order. -/
def ends (log : List Ev) : List UId :=
  log.filterMap fun | .aborted u => some u | .done u => some u | _ => none

theorem mem_starts {log : List Ev} {u : UId} : u ∈ starts log ↔ Ev.started u ∈ log := by
  unfold starts
  rw [List.mem_filterMap]
  constructor
  · rintro ⟨e, he, h⟩
    cases e <;> simp at h
    subst h; exact he
  · intro h; exact ⟨_, h, rfl⟩

theorem mem_ends {log : List Ev} {u : UId} : u ∈ ends log ↔ Ended log u := by
  unfold ends Ended
  rw [List.mem_filterMap]
  constructor
  · rintro ⟨e, he, h⟩
    cases e <;> simp at h
    · subst h; exact Or.inl he
    · subst h; exact Or.inr he
  · rintro (h | h)
    · exact ⟨_, h, rfl⟩
    · exact ⟨_, h, rfl⟩

theorem starts_append (a b : List Ev) : starts (a ++ b) = starts a ++ starts b := by
  unfold starts; exact List.filterMap_append

theorem ends_append (a b : List Ev) : ends (a ++ b) = ends a ++ ends b := by
  unfold ends; exact List.filterMap_append

theorem Ended.append {a b : List Ev} {u : UId} : Ended (a ++ b) u ↔ Ended a u ∨ Ended b u := by
  rw [← mem_ends, ← mem_ends, ← mem_ends, ends_append, List.mem_append]

/-- The identities of some units. -/
def ids (us : List (TUnit A B)) : List UId := us.map (·.id)

theorem mem_ids {us : List (TUnit A B)} {i : UId} : i ∈ ids us ↔ ∃ u ∈ us, u.id = i := List.mem_map

theorem unitStart_id (ops : Ops S M A B) (u : TUnit A B) (s : S) :
    (unitStart ops u s).2.1.id = u.id := by
  unfold unitStart; split <;> rfl

theorem unitMsg_id (ops : Ops S M A B) (m : M) (u : TUnit A B) (s : S) :
    (unitMsg ops m u s).2.1.id = u.id := by
  unfold unitMsg; split <;> rfl

/-- What starting a group does to its units. -/
theorem groupStart_spec (ops : Ops S M A B) : ∀ (g : List (TUnit A B)) (s : S), (ids g).Nodup →
    (ids (groupStart ops g s).2.1).Sublist (ids g) ∧
    starts (groupStart ops g s).2.2 = ids g ∧
    (∀ e ∈ (groupStart ops g s).2.2, e = .started e.uid ∨ e = .aborted e.uid) ∧
    (∀ e ∈ (groupStart ops g s).2.2, e.uid ∈ ids g) ∧
    (ends (groupStart ops g s).2.2).Nodup ∧
    (∀ i, i ∈ ends (groupStart ops g s).2.2 ↔ i ∈ ids g ∧ i ∉ ids (groupStart ops g s).2.1)
  | [], s, _ => by
    refine ⟨List.Sublist.refl _, rfl, ?_, ?_, List.nodup_nil, ?_⟩
    · intro e he; cases he
    · intro e he; cases he
    · intro i; simp [groupStart, ends, ids]
  | u :: us, s, hn => by
    have hn' : u.id ∉ ids us ∧ (ids us).Nodup := by
      rw [ids, List.map_cons, List.nodup_cons] at hn; exact hn
    obtain ⟨h1, h2, h3, h4, h5, h6⟩ := groupStart_spec ops us (unitStart ops u s).1 hn'.2
    unfold groupStart
    dsimp only
    have hid := unitStart_id ops u s
    cases ho : (unitStart ops u s).2.2 with
    | success =>
      dsimp only
      refine ⟨?_, ?_, ?_, ?_, ?_, ?_⟩
      · show ((unitStart ops u s).2.1.id :: ids _).Sublist (u.id :: ids us)
        rw [hid]; exact h1.cons_cons _
      · show u.id :: starts _ = u.id :: ids us
        rw [h2]
      · intro e he
        rcases List.mem_cons.mp he with rfl | he
        · exact Or.inl rfl
        · exact h3 e he
      · intro e he
        rcases List.mem_cons.mp he with rfl | he
        · exact List.mem_cons_self
        · exact List.mem_cons_of_mem _ (h4 e he)
      · exact h5
      · intro i
        have : i ∈ ends (groupStart ops us (unitStart ops u s).1).2.2 ↔ _ := h6 i
        show i ∈ ends (groupStart ops us (unitStart ops u s).1).2.2 ↔ i ∈ u.id :: ids us ∧
          i ∉ (unitStart ops u s).2.1.id :: ids _
        rw [this, hid, List.mem_cons, List.mem_cons]
        constructor
        · rintro ⟨ha, hb⟩
          refine ⟨Or.inr ha, ?_⟩
          rintro (hc | hc)
          · subst hc; exact hn'.1 ha
          · exact hb hc
        · rintro ⟨ha | ha, hb⟩
          · exact absurd (Or.inl ha) hb
          · exact ⟨ha, fun hc => hb (Or.inr hc)⟩
    | abort =>
      dsimp only
      refine ⟨?_, ?_, ?_, ?_, ?_, ?_⟩
      · exact h1.cons _
      · show u.id :: starts _ = u.id :: ids us
        exact congrArg (u.id :: ·) h2
      · intro e he
        rcases List.mem_cons.mp he with rfl | he
        · exact Or.inl rfl
        · rcases List.mem_cons.mp he with rfl | he
          · exact Or.inr rfl
          · exact h3 e he
      · intro e he
        rcases List.mem_cons.mp he with rfl | he
        · exact List.mem_cons_self
        · rcases List.mem_cons.mp he with rfl | he
          · exact List.mem_cons_self
          · exact List.mem_cons_of_mem _ (h4 e he)
      · show (u.id :: ends _).Nodup
        rw [List.nodup_cons]
        exact ⟨fun h => hn'.1 ((h6 _).mp h).1, h5⟩
      · intro i
        have : i ∈ ends (groupStart ops us (unitStart ops u s).1).2.2 ↔ _ := h6 i
        show i ∈ u.id :: ends (groupStart ops us (unitStart ops u s).1).2.2 ↔ i ∈ u.id :: ids us ∧ i ∉ ids _
        rw [List.mem_cons, List.mem_cons, this]
        constructor
        · rintro (rfl | ⟨ha, hb⟩)
          · exact ⟨Or.inl rfl, fun h => hn'.1 (h1.subset h)⟩
          · exact ⟨Or.inr ha, hb⟩
        · rintro ⟨ha | ha, hb⟩
          · exact Or.inl ha
          · exact Or.inr ⟨ha, hb⟩

/-- What a message does to the units of a group. -/
theorem groupMsg_spec (ops : Ops S M A B) (m : M) : ∀ (g : List (TUnit A B)) (s : S), (ids g).Nodup →
    (ids (groupMsg ops m g s).2.1).Sublist (ids g) ∧
    (∀ e ∈ (groupMsg ops m g s).2.2, e = .done e.uid ∧ e.uid ∈ ids g) ∧
    (ends (groupMsg ops m g s).2.2).Nodup ∧
    (∀ i, i ∈ ends (groupMsg ops m g s).2.2 ↔ i ∈ ids g ∧ i ∉ ids (groupMsg ops m g s).2.1)
  | [], s, _ => by
    refine ⟨List.Sublist.refl _, ?_, List.nodup_nil, ?_⟩
    · intro e he; cases he
    · intro i; simp [groupMsg, ends, ids]
  | u :: us, s, hn => by
    have hn' : u.id ∉ ids us ∧ (ids us).Nodup := by
      rw [ids, List.map_cons, List.nodup_cons] at hn; exact hn
    obtain ⟨h1, h3, h5, h6⟩ := groupMsg_spec ops m us (unitMsg ops m u s).1 hn'.2
    unfold groupMsg
    dsimp only
    have hid := unitMsg_id ops m u s
    cases ho : (unitMsg ops m u s).2.2 with
    | pending =>
      dsimp only
      refine ⟨?_, ?_, ?_, ?_⟩
      · show ((unitMsg ops m u s).2.1.id :: ids _).Sublist (u.id :: ids us)
        rw [hid]; exact h1.cons_cons _
      · intro e he
        exact ⟨(h3 e he).1, List.mem_cons_of_mem _ (h3 e he).2⟩
      · exact h5
      · intro i
        have : i ∈ ends (groupMsg ops m us (unitMsg ops m u s).1).2.2 ↔ _ := h6 i
        show i ∈ ends (groupMsg ops m us (unitMsg ops m u s).1).2.2 ↔ i ∈ u.id :: ids us ∧
          i ∉ (unitMsg ops m u s).2.1.id :: ids _
        rw [this, hid, List.mem_cons, List.mem_cons]
        constructor
        · rintro ⟨ha, hb⟩
          refine ⟨Or.inr ha, ?_⟩
          rintro (hc | hc)
          · subst hc; exact hn'.1 ha
          · exact hb hc
        · rintro ⟨ha | ha, hb⟩
          · exact absurd (Or.inl ha) hb
          · exact ⟨ha, fun hc => hb (Or.inr hc)⟩
    | done =>
      dsimp only
      refine ⟨?_, ?_, ?_, ?_⟩
      · exact h1.cons _
      · intro e he
        rcases List.mem_cons.mp he with rfl | he
        · exact ⟨rfl, List.mem_cons_self⟩
        · exact ⟨(h3 e he).1, List.mem_cons_of_mem _ (h3 e he).2⟩
      · show (u.id :: ends _).Nodup
        rw [List.nodup_cons]
        exact ⟨fun h => hn'.1 ((h6 _).mp h).1, h5⟩
      · intro i
        have : i ∈ ends (groupMsg ops m us (unitMsg ops m u s).1).2.2 ↔ _ := h6 i
        show i ∈ u.id :: ends (groupMsg ops m us (unitMsg ops m u s).1).2.2 ↔ i ∈ u.id :: ids us ∧ i ∉ ids _
        rw [List.mem_cons, List.mem_cons, this]
        constructor
        · rintro (rfl | ⟨ha, hb⟩)
          · exact ⟨Or.inl rfl, fun h => hn'.1 (h1.subset h)⟩
          · exact ⟨Or.inr ha, hb⟩
        · rintro ⟨ha | ha, hb⟩
          · exact Or.inl ha
          · exact Or.inr ⟨ha, hb⟩

theorem groupMsg_starts (ops : Ops S M A B) (m : M) (g : List (TUnit A B)) (s : S) (h : (ids g).Nodup) :
    starts (groupMsg ops m g s).2.2 = [] := by
  apply List.eq_nil_iff_forall_not_mem.mpr
  intro u hu
  have := ((groupMsg_spec ops m g s h).2.1 _ (mem_starts.mp hu)).1
  cases this

/-- The invariant, on the identities: `act` are the started units of the front group,
`wait` those of the groups that wait. -/
structure W (act : List UId) (wait : List (List UId)) (log : List Ev) (n : Nat) : Prop where
  actStarted : ∀ u ∈ act, Ev.started u ∈ log
  actLive : ∀ u ∈ act, ¬ Ended log u
  waitNew : ∀ u ∈ wait.flatten, Ev.started u ∉ log
  notCancelled : ∀ u, u ∈ act ∨ u ∈ wait.flatten → Ev.cancelled u ∉ log
  account : ∀ u, Ev.added u ∈ log → Ev.cancelled u ∈ log ∨ (Ev.started u ∈ log ∧ Ended log u) ∨
    u ∈ act ∨ u ∈ wait.flatten
  nodup : (act ++ wait.flatten).Nodup
  actBefore : ∀ u ∈ act, ∀ w ∈ wait.flatten, u.seq < w.seq
  waitOrder : wait.Pairwise fun g g' => ∀ u ∈ g, ∀ w ∈ g', u.seq < w.seq
  same : ∀ g ∈ wait, ∀ u ∈ g, ∀ w ∈ g, u.seq = w.seq
  actSame : ∀ u ∈ act, ∀ w ∈ act, u.seq = w.seq
  bound : ∀ e ∈ log, e.uid.seq < n
  known : ∀ u, u ∈ act ∨ u ∈ wait.flatten → Ev.added u ∈ log
  startsNodup : (starts log).Nodup
  endsNodup : (ends log).Nodup
  startedAdded : ∀ u, Ev.started u ∈ log → Ev.added u ∈ log
  endedStarted : ∀ u, Ended log u → Ev.started u ∈ log
  cancelledNew : ∀ u, Ev.cancelled u ∈ log → Ev.started u ∉ log ∧ Ev.added u ∈ log
  order : ∀ pre post w, log = pre ++ Ev.started w :: post → ∀ v, Ev.added v ∈ log → v.seq < w.seq →
    Ev.cancelled v ∈ pre ∨ Ended pre v

theorem W.init : W [] [] [] 0 := by
  constructor <;> simp [Ended, starts, ends]

/-- The order clause when events that start nothing are appended. -/
theorem order_append {log ev : List Ev}
    (h : ∀ pre post w, log = pre ++ Ev.started w :: post → ∀ v, Ev.added v ∈ log → v.seq < w.seq →
      Ev.cancelled v ∈ pre ∨ Ended pre v)
    (hs : starts ev = [])
    (ha : ∀ v, Ev.added v ∈ ev → ∀ w, Ev.started w ∈ log → ¬ v.seq < w.seq) :
    ∀ pre post w, log ++ ev = pre ++ Ev.started w :: post → ∀ v, Ev.added v ∈ log ++ ev → v.seq < w.seq →
      Ev.cancelled v ∈ pre ∨ Ended pre v := by
  intro pre post w he v hv hlt
  rw [List.append_eq_append_iff] at he
  rcases he with ⟨k, h1, h2⟩ | ⟨k, h1, h2⟩
  · -- the start is in `ev`
    exfalso
    have : w ∈ starts ev := mem_starts.mpr (by rw [h2]; simp)
    rw [hs] at this; cases this
  · cases k with
    | nil =>
      exfalso
      have : w ∈ starts ev := mem_starts.mpr (by rw [← List.nil_append ev, ← h2]; simp)
      rw [hs] at this; cases this
    | cons x k =>
      injection h2 with h2 h3
      subst h2
      have hw : Ev.started w ∈ log := by rw [h1]; simp
      rcases List.mem_append.mp hv with hv | hv
      · exact h pre k w h1 v hv hlt
      · exact absurd hlt (ha v hv w hw)

/-- A message is given to the front group. -/
theorem W.msg {act act' : List UId} {wait log n} (ev : List Ev) (h : W act wait log n)
    (h1 : act'.Sublist act) (h2 : ∀ e ∈ ev, e = .done e.uid ∧ e.uid ∈ act) (h3 : (ends ev).Nodup)
    (h4 : ∀ i, i ∈ ends ev ↔ i ∈ act ∧ i ∉ act') : W act' wait (log ++ ev) n := by
  have hst : starts ev = [] := by
    apply List.eq_nil_iff_forall_not_mem.mpr
    intro u hu
    have := (h2 _ (mem_starts.mp hu)).1
    cases this
  have hadd : ∀ u, Ev.added u ∉ ev := fun u hu => by have := (h2 _ hu).1; cases this
  have hcan : ∀ u, Ev.cancelled u ∉ ev := fun u hu => by have := (h2 _ hu).1; cases this
  have hsta : ∀ u, Ev.started u ∉ ev := fun u hu => by have := (h2 _ hu).1; cases this
  constructor
  · intro u hu; exact List.mem_append.mpr (Or.inl (h.actStarted u (h1.subset hu)))
  · intro u hu he
    rcases Ended.append.mp he with he | he
    · exact h.actLive u (h1.subset hu) he
    · exact ((h4 u).mp (mem_ends.mpr he)).2 hu
  · intro u hu he
    rcases List.mem_append.mp he with he | he
    · exact h.waitNew u hu he
    · exact hsta u he
  · intro u hu he
    rcases List.mem_append.mp he with he | he
    · exact h.notCancelled u (hu.imp (h1.subset ·) id) he
    · exact hcan u he
  · intro u hu
    rcases List.mem_append.mp hu with hu | hu
    · rcases h.account u hu with hc | ⟨hc, hd⟩ | hc | hc
      · exact Or.inl (List.mem_append.mpr (Or.inl hc))
      · exact Or.inr (Or.inl ⟨List.mem_append.mpr (Or.inl hc), Ended.append.mpr (Or.inl hd)⟩)
      · by_cases hu' : u ∈ act'
        · exact Or.inr (Or.inr (Or.inl hu'))
        · exact Or.inr (Or.inl ⟨List.mem_append.mpr (Or.inl (h.actStarted u hc)),
            Ended.append.mpr (Or.inr (mem_ends.mp ((h4 u).mpr ⟨hc, hu'⟩)))⟩)
      · exact Or.inr (Or.inr (Or.inr hc))
    · exact absurd hu (hadd u)
  · exact h.nodup.sublist (List.Sublist.append h1 (List.Sublist.refl _))
  · intro u hu w hw; exact h.actBefore u (h1.subset hu) w hw
  · exact h.waitOrder
  · exact h.same
  · intro u hu w hw; exact h.actSame u (h1.subset hu) w (h1.subset hw)
  · intro e he
    rcases List.mem_append.mp he with he | he
    · exact h.bound e he
    · have := h.bound _ (h.actStarted _ (h2 e he).2)
      exact this
  · intro u hu; exact List.mem_append.mpr (Or.inl (h.known u (hu.imp (h1.subset ·) id)))
  · rw [starts_append, hst, List.append_nil]; exact h.startsNodup
  · rw [ends_append, List.nodup_append]
    refine ⟨h.endsNodup, h3, ?_⟩
    intro a ha b hb hab
    subst hab
    exact h.actLive a ((h4 a).mp hb).1 (mem_ends.mp ha)
  · intro u hu
    rcases List.mem_append.mp hu with hu | hu
    · exact List.mem_append.mpr (Or.inl (h.startedAdded u hu))
    · exact absurd hu (hsta u)
  · intro u hu
    rcases Ended.append.mp hu with hu | hu
    · exact List.mem_append.mpr (Or.inl (h.endedStarted u hu))
    · exact List.mem_append.mpr (Or.inl (h.actStarted u ((h4 u).mp (mem_ends.mpr hu)).1))
  · intro u hu
    rcases List.mem_append.mp hu with hu | hu
    · refine ⟨?_, List.mem_append.mpr (Or.inl (h.cancelledNew u hu).2)⟩
      intro hs
      rcases List.mem_append.mp hs with hs | hs
      · exact (h.cancelledNew u hu).1 hs
      · exact hsta u hs
    · exact absurd hu (hcan u)
  · exact order_append h.order hst (fun v hv => absurd hv (hadd v))

/-- The front group, exhausted, is popped and the next is started. -/
theorem W.start {g g' : List UId} {wait log n} (ev : List Ev) (h : W [] (g :: wait) log n)
    (h1 : g'.Sublist g) (hs : starts ev = g)
    (h2 : ∀ e ∈ ev, e = .started e.uid ∨ e = .aborted e.uid) (h2' : ∀ e ∈ ev, e.uid ∈ g)
    (h3 : (ends ev).Nodup) (h4 : ∀ i, i ∈ ends ev ↔ i ∈ g ∧ i ∉ g') : W g' wait (log ++ ev) n := by
  have hadd : ∀ u, Ev.added u ∉ ev := fun u hu => by
    rcases h2 _ hu with h | h <;> cases h
  have hcan : ∀ u, Ev.cancelled u ∉ ev := fun u hu => by
    rcases h2 _ hu with h | h <;> cases h
  have hsta : ∀ u, Ev.started u ∈ ev ↔ u ∈ g := fun u => by rw [← mem_starts, hs]
  have hfl : (g :: wait).flatten = g ++ wait.flatten := rfl
  have hnd := h.nodup
  rw [List.nil_append, hfl, List.nodup_append] at hnd
  have hgf : ∀ u ∈ g, u ∈ (g :: wait).flatten := fun u hu => by rw [hfl]; exact List.mem_append.mpr (Or.inl hu)
  have hwf : ∀ u ∈ wait.flatten, u ∈ (g :: wait).flatten := fun u hu => by
    rw [hfl]; exact List.mem_append.mpr (Or.inr hu)
  have hgnd : g.Nodup := hnd.1
  have hnew : ∀ u ∈ g, ¬ Ended log u := fun u hu he => h.waitNew u (hgf u hu) (h.endedStarted u he)
  have hwo := List.pairwise_cons.mp h.waitOrder
  constructor
  · intro u hu; exact List.mem_append.mpr (Or.inr ((hsta u).mpr (h1.subset hu)))
  · intro u hu he
    rcases Ended.append.mp he with he | he
    · exact hnew u (h1.subset hu) he
    · exact ((h4 u).mp (mem_ends.mpr he)).2 hu
  · intro u hu he
    rcases List.mem_append.mp he with he | he
    · exact h.waitNew u (hwf u hu) he
    · exact hnd.2.2 u ((hsta u).mp he) u hu rfl
  · intro u hu he
    rcases List.mem_append.mp he with he | he
    · exact h.notCancelled u (Or.inr (hu.elim (fun hu => hgf u (h1.subset hu)) (hwf u))) he
    · exact hcan u he
  · intro u hu
    rcases List.mem_append.mp hu with hu | hu
    · rcases h.account u hu with hc | ⟨hc, hd⟩ | hc | hc
      · exact Or.inl (List.mem_append.mpr (Or.inl hc))
      · exact Or.inr (Or.inl ⟨List.mem_append.mpr (Or.inl hc), Ended.append.mpr (Or.inl hd)⟩)
      · cases hc
      · rw [hfl] at hc
        rcases List.mem_append.mp hc with hc | hc
        · by_cases hu' : u ∈ g'
          · exact Or.inr (Or.inr (Or.inl hu'))
          · exact Or.inr (Or.inl ⟨List.mem_append.mpr (Or.inr ((hsta u).mpr hc)),
              Ended.append.mpr (Or.inr (mem_ends.mp ((h4 u).mpr ⟨hc, hu'⟩)))⟩)
        · exact Or.inr (Or.inr (Or.inr hc))
    · exact absurd hu (hadd u)
  · have := h.nodup
    rw [List.nil_append, hfl] at this
    exact this.sublist (List.Sublist.append h1 (List.Sublist.refl _))
  · intro u hu w hw
    obtain ⟨g2, hg2, hw2⟩ := List.mem_flatten.mp hw
    exact hwo.1 g2 hg2 u (h1.subset hu) w hw2
  · exact hwo.2
  · intro g2 hg2; exact h.same g2 (List.mem_cons_of_mem _ hg2)
  · intro u hu w hw; exact h.same g List.mem_cons_self u (h1.subset hu) w (h1.subset hw)
  · intro e he
    rcases List.mem_append.mp he with he | he
    · exact h.bound e he
    · have := h.bound _ (h.known _ (Or.inr (hgf _ (h2' e he))))
      exact this
  · intro u hu
    exact List.mem_append.mpr (Or.inl (h.known u (Or.inr (hu.elim (fun hu => hgf u (h1.subset hu)) (hwf u)))))
  · rw [starts_append, hs, List.nodup_append]
    refine ⟨h.startsNodup, hgnd, ?_⟩
    intro a ha b hb hab
    subst hab
    exact h.waitNew a (hgf a hb) (mem_starts.mp ha)
  · rw [ends_append, List.nodup_append]
    refine ⟨h.endsNodup, h3, ?_⟩
    intro a ha b hb hab
    subst hab
    exact hnew a ((h4 a).mp hb).1 (mem_ends.mp ha)
  · intro u hu
    rcases List.mem_append.mp hu with hu | hu
    · exact List.mem_append.mpr (Or.inl (h.startedAdded u hu))
    · exact List.mem_append.mpr (Or.inl (h.known u (Or.inr (hgf u ((hsta u).mp hu)))))
  · intro u hu
    rcases Ended.append.mp hu with hu | hu
    · exact List.mem_append.mpr (Or.inl (h.endedStarted u hu))
    · exact List.mem_append.mpr (Or.inr ((hsta u).mpr ((h4 u).mp (mem_ends.mpr hu)).1))
  · intro u hu
    rcases List.mem_append.mp hu with hu | hu
    · refine ⟨?_, List.mem_append.mpr (Or.inl (h.cancelledNew u hu).2)⟩
      intro hs'
      rcases List.mem_append.mp hs' with hs' | hs'
      · exact (h.cancelledNew u hu).1 hs'
      · exact h.notCancelled u (Or.inr (hgf u ((hsta u).mp hs'))) hu
    · exact absurd hu (hcan u)
  · intro pre post w he v hv hlt
    have hv' : Ev.added v ∈ log := by
      rcases List.mem_append.mp hv with hv | hv
      · exact hv
      · exact absurd hv (hadd v)
    rw [List.append_eq_append_iff] at he
    have key : Ev.started w ∈ ev → ∀ k, pre = log ++ k → Ev.cancelled v ∈ pre ∨ Ended pre v := by
      intro hw k hk
      have hwg : w ∈ g := (hsta w).mp hw
      rcases h.account v hv' with hc | ⟨_, hd⟩ | hc | hc
      · exact Or.inl (by rw [hk]; exact List.mem_append.mpr (Or.inl hc))
      · exact Or.inr (by rw [hk]; exact Ended.append.mpr (Or.inl hd))
      · cases hc
      · exfalso
        rw [hfl] at hc
        rcases List.mem_append.mp hc with hc | hc
        · have := h.same g List.mem_cons_self v hc w hwg
          omega
        · obtain ⟨g2, hg2, hw2⟩ := List.mem_flatten.mp hc
          have := hwo.1 g2 hg2 w hwg v hw2
          omega
    rcases he with ⟨k, h5, h6⟩ | ⟨k, h5, h6⟩
    · exact key (by rw [h6]; simp) k h5
    · cases k with
      | nil =>
        refine key (by rw [← List.nil_append ev, ← h6]; simp) [] ?_
        rw [List.append_nil] at h5 ⊢; exact h5.symm
      | cons x k =>
        injection h6 with h6 h7
        subst h6
        exact h.order pre k w h5 v hv' hlt

/-- A group is added. -/
theorem W.add {act : List UId} {wait log n} (g : List UId) (h : W act wait log n)
    (hs : ∀ u ∈ g, u.seq = n) (hn : g.Nodup) : W act (wait ++ [g]) (log ++ g.map .added) (n + 1) := by
  have hfl : (wait ++ [g]).flatten = wait.flatten ++ g := by simp
  have hmem : ∀ e ∈ g.map Ev.added, ∃ u ∈ g, e = .added u := fun e he => by
    obtain ⟨u, hu, rfl⟩ := List.mem_map.mp he
    exact ⟨u, hu, rfl⟩
  have hfresh : ∀ e ∈ log, e.uid ∉ g := fun e he hc => by
    have := h.bound e he
    rw [hs _ hc] at this; omega
  have hst : starts (g.map Ev.added) = [] := by
    apply List.eq_nil_iff_forall_not_mem.mpr
    intro u hu
    obtain ⟨w, _, hw⟩ := hmem _ (mem_starts.mp hu)
    cases hw
  have hen : ∀ u, ¬ Ended (g.map Ev.added) u := fun u hu => by
    rcases hu with hu | hu <;> (obtain ⟨w, _, hw⟩ := hmem _ hu; cases hw)
  have hcan : ∀ u, Ev.cancelled u ∉ g.map Ev.added := fun u hu => by
    obtain ⟨w, _, hw⟩ := hmem _ hu; cases hw
  have hsta : ∀ u, Ev.started u ∉ g.map Ev.added := fun u hu => by
    obtain ⟨w, _, hw⟩ := hmem _ hu; cases hw
  have hold : ∀ u, u ∈ act ∨ u ∈ wait.flatten → u.seq < n := fun u hu => h.bound _ (h.known u hu)
  constructor
  · intro u hu; exact List.mem_append.mpr (Or.inl (h.actStarted u hu))
  · intro u hu he
    rcases Ended.append.mp he with he | he
    · exact h.actLive u hu he
    · exact hen u he
  · intro u hu he
    rw [hfl] at hu
    rcases List.mem_append.mp he with he | he
    · rcases List.mem_append.mp hu with hu | hu
      · exact h.waitNew u hu he
      · exact hfresh _ he hu
    · exact hsta u he
  · intro u hu he
    rcases List.mem_append.mp he with he | he
    · rw [hfl] at hu
      rcases hu with hu | hu
      · exact h.notCancelled u (Or.inl hu) he
      · rcases List.mem_append.mp hu with hu | hu
        · exact h.notCancelled u (Or.inr hu) he
        · exact hfresh _ he hu
    · exact hcan u he
  · intro u hu
    rcases List.mem_append.mp hu with hu | hu
    · rcases h.account u hu with hc | ⟨hc, hd⟩ | hc | hc
      · exact Or.inl (List.mem_append.mpr (Or.inl hc))
      · exact Or.inr (Or.inl ⟨List.mem_append.mpr (Or.inl hc), Ended.append.mpr (Or.inl hd)⟩)
      · exact Or.inr (Or.inr (Or.inl hc))
      · exact Or.inr (Or.inr (Or.inr (by rw [hfl]; exact List.mem_append.mpr (Or.inl hc))))
    · obtain ⟨w, hw, he⟩ := hmem _ hu
      injection he with he
      subst he
      exact Or.inr (Or.inr (Or.inr (by rw [hfl]; exact List.mem_append.mpr (Or.inr hw))))
  · rw [hfl, ← List.append_assoc, List.nodup_append]
    refine ⟨h.nodup, hn, ?_⟩
    intro a ha b hb hab
    subst hab
    have := hold a (List.mem_append.mp ha)
    rw [hs a hb] at this; omega
  · intro u hu w hw
    rw [hfl] at hw
    rcases List.mem_append.mp hw with hw | hw
    · exact h.actBefore u hu w hw
    · rw [hs w hw]; exact hold u (Or.inl hu)
  · rw [List.pairwise_append]
    refine ⟨h.waitOrder, by simp, ?_⟩
    intro g1 hg1 g2 hg2 u hu w hw
    rw [List.mem_singleton] at hg2
    subst hg2
    rw [hs w hw]
    exact hold u (Or.inr (List.mem_flatten.mpr ⟨g1, hg1, hu⟩))
  · intro g1 hg1 u hu w hw
    rcases List.mem_append.mp hg1 with hg1 | hg1
    · exact h.same g1 hg1 u hu w hw
    · rw [List.mem_singleton] at hg1
      subst hg1
      rw [hs u hu, hs w hw]
  · exact h.actSame
  · intro e he
    rcases List.mem_append.mp he with he | he
    · have := h.bound e he; omega
    · obtain ⟨w, hw, rfl⟩ := hmem _ he
      show w.seq < n + 1
      rw [hs w hw]; omega
  · intro u hu
    rw [hfl] at hu
    rcases hu with hu | hu
    · exact List.mem_append.mpr (Or.inl (h.known u (Or.inl hu)))
    · rcases List.mem_append.mp hu with hu | hu
      · exact List.mem_append.mpr (Or.inl (h.known u (Or.inr hu)))
      · exact List.mem_append.mpr (Or.inr (List.mem_map.mpr ⟨u, hu, rfl⟩))
  · rw [starts_append, hst, List.append_nil]; exact h.startsNodup
  · rw [ends_append, List.eq_nil_iff_forall_not_mem.mpr (fun u hu => hen u (mem_ends.mp hu)), List.append_nil]
    exact h.endsNodup
  · intro u hu
    rcases List.mem_append.mp hu with hu | hu
    · exact List.mem_append.mpr (Or.inl (h.startedAdded u hu))
    · exact absurd hu (hsta u)
  · intro u hu
    rcases Ended.append.mp hu with hu | hu
    · exact List.mem_append.mpr (Or.inl (h.endedStarted u hu))
    · exact absurd hu (hen u)
  · intro u hu
    rcases List.mem_append.mp hu with hu | hu
    · refine ⟨?_, List.mem_append.mpr (Or.inl (h.cancelledNew u hu).2)⟩
      intro hs'
      rcases List.mem_append.mp hs' with hs' | hs'
      · exact (h.cancelledNew u hu).1 hs'
      · exact hsta u hs'
    · exact absurd hu (hcan u)
  · refine order_append h.order hst ?_
    intro v hv w hw hlt
    obtain ⟨x, hx, he⟩ := hmem _ hv
    injection he with he
    subst he
    have := h.bound _ hw
    rw [hs v hx] at hlt
    exact absurd (show w.seq < n from this) (by omega)

/-- The waiting groups are cancelled. -/
theorem W.cancel {act : List UId} {wait log n} (h : W act wait log n) :
    W act [] (log ++ wait.flatten.map .cancelled) n := by
  have hmem : ∀ e ∈ wait.flatten.map Ev.cancelled, ∃ u ∈ wait.flatten, e = .cancelled u := fun e he => by
    obtain ⟨u, hu, rfl⟩ := List.mem_map.mp he
    exact ⟨u, hu, rfl⟩
  have hst : starts (wait.flatten.map Ev.cancelled) = [] := by
    apply List.eq_nil_iff_forall_not_mem.mpr
    intro u hu
    obtain ⟨w, _, hw⟩ := hmem _ (mem_starts.mp hu)
    cases hw
  have hen : ∀ u, ¬ Ended (wait.flatten.map Ev.cancelled) u := fun u hu => by
    rcases hu with hu | hu <;> (obtain ⟨w, _, hw⟩ := hmem _ hu; cases hw)
  have hadd : ∀ u, Ev.added u ∉ wait.flatten.map Ev.cancelled := fun u hu => by
    obtain ⟨w, _, hw⟩ := hmem _ hu; cases hw
  have hsta : ∀ u, Ev.started u ∉ wait.flatten.map Ev.cancelled := fun u hu => by
    obtain ⟨w, _, hw⟩ := hmem _ hu; cases hw
  have hnd := List.nodup_append.mp h.nodup
  constructor
  · intro u hu; exact List.mem_append.mpr (Or.inl (h.actStarted u hu))
  · intro u hu he
    rcases Ended.append.mp he with he | he
    · exact h.actLive u hu he
    · exact hen u he
  · intro u hu; cases hu
  · intro u hu he
    rcases hu with hu | hu
    · rcases List.mem_append.mp he with he | he
      · exact h.notCancelled u (Or.inl hu) he
      · obtain ⟨w, hw, hx⟩ := hmem _ he
        injection hx with hx
        subst hx
        exact hnd.2.2 u hu u hw rfl
    · cases hu
  · intro u hu
    rcases List.mem_append.mp hu with hu | hu
    · rcases h.account u hu with hc | ⟨hc, hd⟩ | hc | hc
      · exact Or.inl (List.mem_append.mpr (Or.inl hc))
      · exact Or.inr (Or.inl ⟨List.mem_append.mpr (Or.inl hc), Ended.append.mpr (Or.inl hd)⟩)
      · exact Or.inr (Or.inr (Or.inl hc))
      · exact Or.inl (List.mem_append.mpr (Or.inr (List.mem_map.mpr ⟨u, hc, rfl⟩)))
    · exact absurd hu (hadd u)
  · rw [List.flatten_nil, List.append_nil]; exact hnd.1
  · intro u _ w hw; cases hw
  · exact List.Pairwise.nil
  · intro g hg; cases hg
  · exact h.actSame
  · intro e he
    rcases List.mem_append.mp he with he | he
    · exact h.bound e he
    · obtain ⟨w, hw, rfl⟩ := hmem _ he
      have := h.bound _ (h.known w (Or.inr hw))
      exact this
  · intro u hu
    rcases hu with hu | hu
    · exact List.mem_append.mpr (Or.inl (h.known u (Or.inl hu)))
    · cases hu
  · rw [starts_append, hst, List.append_nil]; exact h.startsNodup
  · rw [ends_append, List.eq_nil_iff_forall_not_mem.mpr (fun u hu => hen u (mem_ends.mp hu)), List.append_nil]
    exact h.endsNodup
  · intro u hu
    rcases List.mem_append.mp hu with hu | hu
    · exact List.mem_append.mpr (Or.inl (h.startedAdded u hu))
    · exact absurd hu (hsta u)
  · intro u hu
    rcases Ended.append.mp hu with hu | hu
    · exact List.mem_append.mpr (Or.inl (h.endedStarted u hu))
    · exact absurd hu (hen u)
  · intro u hu
    have hs' : Ev.started u ∈ log ++ wait.flatten.map Ev.cancelled → Ev.started u ∈ log := fun hx =>
      (List.mem_append.mp hx).elim id (fun hx => absurd hx (hsta u))
    rcases List.mem_append.mp hu with hu | hu
    · exact ⟨fun hx => (h.cancelledNew u hu).1 (hs' hx), List.mem_append.mpr (Or.inl (h.cancelledNew u hu).2)⟩
    · obtain ⟨w, hw, hx⟩ := hmem _ hu
      injection hx with hx
      subst hx
      exact ⟨fun hx => h.waitNew u hw (hs' hx), List.mem_append.mpr (Or.inl (h.known u (Or.inr hw)))⟩
  · exact order_append h.order hst (fun v hv => absurd hv (hadd v))

/-- The invariant of a coordinator. -/
structure CInv (c : Coord S A B) : Prop where
  w : W (ids (c.conts.headD [])) ((c.conts.drop 1).map ids) c.log c.seq
  /-- the front group has a unit left -/
  front : c.conts ≠ [] → c.conts.headD [] ≠ []
  /-- what waits has its action left -/
  armed : ∀ g ∈ c.conts.drop 1, ∀ u ∈ g, u.action ≠ none

theorem ids_eq_nil {us : List (TUnit A B)} (h : us.isEmpty = true) : ids us = [] := by
  cases us with
  | nil => rfl
  | cons => cases h

theorem coordMsg_inv (ops : Ops S M A B) (m : M) (n : Nat) : ∀ (cs : List (List (TUnit A B))) (s : S) (log : List Ev),
    cs ≠ [] → W (ids (cs.headD [])) ((cs.drop 1).map ids) log n → (∀ g ∈ cs.drop 1, ∀ u ∈ g, u.action ≠ none) →
    W (ids ((coordMsg ops m cs s).2.1.headD [])) (((coordMsg ops m cs s).2.1.drop 1).map ids)
        (log ++ (coordMsg ops m cs s).2.2) n ∧
      ((coordMsg ops m cs s).2.1 ≠ [] → (coordMsg ops m cs s).2.1.headD [] ≠ []) ∧
      (∀ g ∈ (coordMsg ops m cs s).2.1.drop 1, ∀ u ∈ g, u.action ≠ none)
  | [], _, _, h, _, _ => absurd rfl h
  | g :: rest, s, log, _, hw, ha => by
    rw [List.headD_cons, List.drop_one, List.tail_cons] at hw
    rw [List.drop_one, List.tail_cons] at ha
    have hnd : (ids g).Nodup := (List.nodup_append.mp hw.nodup).1
    obtain ⟨h1, h2, h3, h4⟩ := groupMsg_spec ops m g s hnd
    have hm := hw.msg (groupMsg ops m g s).2.2 h1 h2 h3 h4
    unfold coordMsg
    dsimp only
    split
    · rename_i he
      rw [ids_eq_nil he] at hm
      cases rest with
      | nil => exact ⟨hm, fun h => absurd rfl h, by intro g hg; cases hg⟩
      | cons x rest' =>
        dsimp only
        rw [List.map_cons] at hm
        have hnd2 : (ids x).Nodup := by
          have := hm.nodup
          rw [List.nil_append, List.flatten_cons] at this
          exact (List.nodup_append.mp this).1
        obtain ⟨k1, k2, k3, k3', k4, k5⟩ := groupStart_spec ops x (groupMsg ops m g s).1 hnd2
        have hs := hm.start (groupStart ops x (groupMsg ops m g s).1).2.2 k1 k2 k3 k3' k4 k5
        have := coordMsg_inv ops m n ((groupStart ops x (groupMsg ops m g s).1).2.1 :: rest')
          (groupStart ops x (groupMsg ops m g s).1).1
          (log ++ (groupMsg ops m g s).2.2 ++ (groupStart ops x (groupMsg ops m g s).1).2.2)
          (List.cons_ne_nil _ _) hs (fun g' hg' => ha g' (List.mem_cons_of_mem _ hg'))
        rw [← List.append_assoc, ← List.append_assoc]
        exact this
    · rename_i he
      refine ⟨hm, ?_, ha⟩
      intro _ h
      rw [List.headD_cons] at h
      rw [h] at he
      exact he rfl
termination_by cs => cs.length

theorem mkGroup_mem {seq : Nat} {us : List (A × B)} {u : TUnit A B} (h : u ∈ mkGroup seq us) :
    u.id.seq = seq ∧ u.action ≠ none := by
  unfold mkGroup at h
  obtain ⟨p, _, rfl⟩ := List.mem_map.mp h
  exact ⟨rfl, fun h => by cases h⟩

theorem mkGroup_ids (seq : Nat) (us : List (A × B)) : ids (mkGroup seq us) = (List.range us.length).map (UId.mk seq) := by
  unfold mkGroup ids
  rw [List.map_map]
  have : (fun u : TUnit A B => u.id) ∘ (fun p : (A × B) × Nat =>
      ({ id := ⟨seq, p.2⟩, action := some p.1.1, body := p.1.2 } : TUnit A B)) = UId.mk seq ∘ Prod.snd := by
    funext p; rfl
  rw [this, ← List.map_map, List.zipIdx_map_snd, List.range_eq_range']

theorem mkGroup_nodup (seq : Nat) (us : List (A × B)) : (ids (mkGroup seq us)).Nodup := by
  rw [mkGroup_ids, List.nodup_iff_pairwise_ne, List.pairwise_map]
  refine List.Pairwise.imp ?_ (List.nodup_iff_pairwise_ne.mp List.nodup_range)
  intro a b hab h
  injection h with _ h
  exact hab h

theorem step_inv (ops : Ops S M A B) {c : Coord S A B} (h : CInv c) (cmd : Cmd S M A B) : CInv (c.step ops cmd) := by
  cases cmd with
  | owner f => exact ⟨h.w, h.front, h.armed⟩
  | cancel =>
    unfold Coord.step coordCancel
    dsimp only
    have hw := h.w.cancel
    have he : (((c.conts.drop 1).flatten).map fun u => Ev.cancelled u.id) =
        (((c.conts.drop 1).map ids).flatten).map Ev.cancelled := by
      unfold ids
      rw [← List.map_flatten, List.map_map]; rfl
    refine ⟨?_, ?_, ?_⟩
    · show W (ids ((c.conts.take 1).headD [])) (((c.conts.take 1).drop 1).map ids) _ c.seq
      rw [he]
      cases hc : c.conts with
      | nil => rw [hc] at hw; simpa using hw
      | cons g rest => rw [hc] at hw; simpa using hw
    · intro _
      show (c.conts.take 1).headD [] ≠ []
      rename_i hne
      have hne : c.conts.take 1 ≠ [] := hne
      have hcn : c.conts ≠ [] := fun hc => hne (by rw [hc]; rfl)
      cases hc : c.conts with
      | nil => exact absurd hc hcn
      | cons g rest => have := h.front hcn; rw [hc] at this; exact this
    · intro g hg
      exfalso
      have hg : g ∈ (c.conts.take 1).drop 1 := hg
      cases hc : c.conts with
      | nil => rw [hc] at hg; cases hg
      | cons x rest => rw [hc] at hg; simp at hg
  | msg m =>
    unfold Coord.step
    dsimp only
    by_cases hc : c.conts = []
    · have : coordMsg ops m c.conts c.st = (c.st, [], []) := by rw [hc, coordMsg]
      refine ⟨?_, ?_, ?_⟩
      · show W (ids ((coordMsg ops m c.conts c.st).2.1.headD [])) _ _ _
        rw [this, List.append_nil]
        have := h.w
        rw [hc] at this
        exact this
      · show (coordMsg ops m c.conts c.st).2.1 ≠ [] → _
        rw [this]; intro h; exact absurd rfl h
      · show ∀ g ∈ (coordMsg ops m c.conts c.st).2.1.drop 1, _
        rw [this]; intro g hg; cases hg
    · obtain ⟨h1, h2, h3⟩ := coordMsg_inv ops m c.seq c.conts c.st c.log hc h.w h.armed
      exact ⟨h1, h2, h3⟩
  | then_ us =>
    have hadd := h.w.add (ids (mkGroup c.seq us)) (fun u hu => by
      obtain ⟨w, hw, rfl⟩ := mem_ids.mp hu
      exact (mkGroup_mem hw).1) (mkGroup_nodup c.seq us)
    have hev : (mkGroup c.seq us).map (fun u => Ev.added u.id) = (ids (mkGroup c.seq us)).map Ev.added := by
      unfold ids; rw [List.map_map]; rfl
    unfold Coord.step coordThen
    dsimp only
    rw [hev]
    by_cases hc : c.conts = []
    · have hl : (c.conts ++ [mkGroup c.seq us]).length = 1 := by rw [hc]; rfl
      rw [if_pos hl]
      rw [hc] at hadd
      have hadd : W [] [ids (mkGroup c.seq us)] (c.log ++ (ids (mkGroup c.seq us)).map Ev.added) (c.seq + 1) := hadd
      obtain ⟨k1, k2, k3, k3', k4, k5⟩ := groupStart_spec ops (mkGroup c.seq us) c.st (mkGroup_nodup c.seq us)
      have hs := hadd.start _ k1 k2 k3 k3' k4 k5
      have hcs : coordStart ops (c.conts ++ [mkGroup c.seq us]) c.st =
          (let r := groupStart ops (mkGroup c.seq us) c.st
           if r.2.1.isEmpty then (r.1, [], r.2.2) else (r.1, [r.2.1], r.2.2)) := by
        rw [hc]; rfl
      rw [hcs]
      dsimp only
      split
      · rename_i he
        rw [ids_eq_nil he] at hs
        refine ⟨?_, fun h => absurd rfl h, by intro g hg; cases hg⟩
        show W [] [] _ _
        rw [← List.append_assoc]
        exact hs
      · rename_i he
        refine ⟨?_, ?_, by intro g hg; cases hg⟩
        · show W _ [] _ _
          rw [← List.append_assoc]
          exact hs
        · intro _ h
          have h : (groupStart ops (mkGroup c.seq us) c.st).2.1 = [] := h
          rw [h] at he; exact he rfl
    · have hl : (c.conts ++ [mkGroup c.seq us]).length ≠ 1 := by
        rw [List.length_append]
        have : c.conts.length ≠ 0 := fun h0 => hc (List.length_eq_zero_iff.mp h0)
        show c.conts.length + 1 ≠ 1
        omega
      rw [if_neg hl]
      obtain ⟨g, rest, hgr⟩ : ∃ g rest, c.conts = g :: rest := by
        cases hx : c.conts with
        | nil => exact absurd hx hc
        | cons g rest => exact ⟨g, rest, rfl⟩
      refine ⟨?_, ?_, ?_⟩
      · show W (ids ((c.conts ++ [mkGroup c.seq us]).headD [])) (((c.conts ++ [mkGroup c.seq us]).drop 1).map ids) _ _
        rw [hgr] at hadd ⊢
        simpa using hadd
      · intro _
        show (c.conts ++ [mkGroup c.seq us]).headD [] ≠ []
        have := h.front hc
        rw [hgr] at this ⊢
        exact this
      · intro g' hg'
        have hg' : g' ∈ (c.conts ++ [mkGroup c.seq us]).drop 1 := hg'
        rw [hgr] at hg'
        have hg' : g' ∈ rest ++ [mkGroup c.seq us] := hg'
        rcases List.mem_append.mp hg' with hg' | hg'
        · exact h.armed g' (by rw [hgr]; exact hg')
        · rw [List.mem_singleton] at hg'
          subst hg'
          intro u hu
          exact (mkGroup_mem hu).2

theorem run_inv (ops : Ops S M A B) (s : S) (cmds : List (Cmd S M A B)) : CInv (Coord.run ops s cmds) := by
  unfold Coord.run
  have h0 : CInv ({ st := s } : Coord S A B) := by
    refine ⟨W.init, fun h => absurd rfl h, ?_⟩
    intro g hg; cases hg
  generalize ({ st := s } : Coord S A B) = c at h0
  induction cmds generalizing c with
  | nil => exact h0
  | cons x xs ih => exact ih (c.step ops x) (step_inv ops h0 x)

end Casual.Task
