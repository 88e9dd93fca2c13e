import Verif.Task.Rel

/-! What is true of the state and of every unit of a coordinator. -/
namespace Casual.Task

variable {S M A B : Type}

/-- `I` is true of the state and `K` of the units: actions and handlers keep both, and what they do to the state (`R`) keeps
what is true of the other units. -/
structure Carry (ops : Ops S M A B) (R : S → S → Prop) (I : S → Prop) (K : S → TUnit A B → Prop) : Prop where
  refl : ∀ s, R s s
  trans : ∀ {a b c}, R a b → R b c → R a c
  frame : ∀ {s s' u}, R s s' → K s u → K s' u
  act : ∀ {s u a}, u.action = some a → I s → K s u →
    I (ops.act a u.body s).1 ∧ R s (ops.act a u.body s).1 ∧ K (ops.act a u.body s).1 { u with action := none, body := (ops.act a u.body s).2.1 }
  handle : ∀ {s u m h}, ops.handle u.body m = some h → I s → K s u →
    I (h s).1 ∧ R s (h s).1 ∧ K (h s).1 { u with body := (h s).2.1 }

variable {ops : Ops S M A B} {R : S → S → Prop} {I : S → Prop} {K : S → TUnit A B → Prop}

theorem Carry.unitStart (k : Carry ops R I K) {u : TUnit A B} {s : S} (hi : I s) (hu : K s u) :
    I (unitStart ops u s).1 ∧ R s (unitStart ops u s).1 ∧ K (unitStart ops u s).1 (unitStart ops u s).2.1 := by
  unfold Task.unitStart
  split
  · rename_i a ha
    exact k.act ha hi hu
  · exact ⟨hi, k.refl s, hu⟩

theorem Carry.unitMsg (k : Carry ops R I K) {u : TUnit A B} {s : S} (m : M) (hi : I s) (hu : K s u) :
    I (unitMsg ops m u s).1 ∧ R s (unitMsg ops m u s).1 ∧ K (unitMsg ops m u s).1 (unitMsg ops m u s).2.1 := by
  unfold Task.unitMsg
  split
  · rename_i h hh
    exact k.handle hh hi hu
  · exact ⟨hi, k.refl s, hu⟩

theorem Carry.groupStart (k : Carry ops R I K) : ∀ (g : List (TUnit A B)) (s : S), I s → (∀ u ∈ g, K s u) →
    I (groupStart ops g s).1 ∧ R s (groupStart ops g s).1 ∧ ∀ u ∈ (groupStart ops g s).2.1, K (groupStart ops g s).1 u
  | [], s, hi, _ => ⟨hi, k.refl s, fun u hu => by cases hu⟩
  | u :: us, s, hi, hk => by
    obtain ⟨h1, h2, h3⟩ := k.unitStart hi (hk u List.mem_cons_self)
    obtain ⟨h4, h5, h6⟩ := k.groupStart us _ h1 (fun v hv => k.frame h2 (hk v (List.mem_cons_of_mem _ hv)))
    unfold Task.groupStart
    dsimp only
    split
    · refine ⟨h4, k.trans h2 h5, ?_⟩
      intro v hv
      rcases List.mem_cons.1 hv with rfl | hv
      · exact k.frame h5 h3
      · exact h6 v hv
    · exact ⟨h4, k.trans h2 h5, h6⟩

theorem Carry.groupMsg (k : Carry ops R I K) (m : M) : ∀ (g : List (TUnit A B)) (s : S), I s → (∀ u ∈ g, K s u) →
    I (groupMsg ops m g s).1 ∧ R s (groupMsg ops m g s).1 ∧ ∀ u ∈ (groupMsg ops m g s).2.1, K (groupMsg ops m g s).1 u
  | [], s, hi, _ => ⟨hi, k.refl s, fun u hu => by cases hu⟩
  | u :: us, s, hi, hk => by
    obtain ⟨h1, h2, h3⟩ := k.unitMsg m hi (hk u List.mem_cons_self)
    obtain ⟨h4, h5, h6⟩ := k.groupMsg m us _ h1 (fun v hv => k.frame h2 (hk v (List.mem_cons_of_mem _ hv)))
    unfold Task.groupMsg
    dsimp only
    split
    · refine ⟨h4, k.trans h2 h5, ?_⟩
      intro v hv
      rcases List.mem_cons.1 hv with rfl | hv
      · exact k.frame h5 h3
      · exact h6 v hv
    · exact ⟨h4, k.trans h2 h5, h6⟩

theorem Carry.coordMsg (k : Carry ops R I K) (m : M) : ∀ (cs : List (List (TUnit A B))) (s : S), I s → (∀ g ∈ cs, ∀ u ∈ g, K s u) →
    I (coordMsg ops m cs s).1 ∧ R s (coordMsg ops m cs s).1 ∧ ∀ g ∈ (coordMsg ops m cs s).2.1, ∀ u ∈ g, K (coordMsg ops m cs s).1 u
  | [], s, hi, hk => by rw [Task.coordMsg]; exact ⟨hi, k.refl s, hk⟩
  | g :: rest, s, hi, hk => by
    obtain ⟨h1, h2, h3⟩ := k.groupMsg m g s hi (hk g List.mem_cons_self)
    rw [Task.coordMsg.eq_def]
    dsimp only
    split
    · cases rest with
      | nil => exact ⟨h1, h2, fun g hg => by cases hg⟩
      | cons n rest' =>
        obtain ⟨h4, h5, h6⟩ := k.groupStart n (Task.groupMsg ops m g s).1 h1
          (fun u hu => k.frame h2 (hk n (List.mem_cons_of_mem _ List.mem_cons_self) u hu))
        have := k.coordMsg m ((Task.groupStart ops n (Task.groupMsg ops m g s).1).2.1 :: rest')
          (Task.groupStart ops n (Task.groupMsg ops m g s).1).1 h4 (by
            intro g' hg' u hu
            rcases List.mem_cons.1 hg' with rfl | hg'
            · exact h6 u hu
            · exact k.frame (k.trans h2 h5) (hk g' (List.mem_cons_of_mem _ (List.mem_cons_of_mem _ hg')) u hu))
        exact ⟨this.1, k.trans (k.trans h2 h5) this.2.1, this.2.2⟩
    · refine ⟨h1, h2, ?_⟩
      intro g' hg' u hu
      rcases List.mem_cons.1 hg' with rfl | hg'
      · exact h3 u hu
      · exact k.frame h2 (hk g' (List.mem_cons_of_mem _ hg') u hu)
termination_by cs => cs.length

theorem Carry.coordThen (k : Carry ops R I K) (g : List (TUnit A B)) (cs : List (List (TUnit A B))) (s : S) (hi : I s)
    (hg : ∀ u ∈ g, K s u) (hk : ∀ g ∈ cs, ∀ u ∈ g, K s u) :
    I (coordThen ops g cs s).1 ∧ R s (coordThen ops g cs s).1 ∧ ∀ g' ∈ (coordThen ops g cs s).2.1, ∀ u ∈ g', K (coordThen ops g cs s).1 u := by
  unfold Task.coordThen
  dsimp only
  split
  · rename_i hl
    have hcs : cs = [] := by
      cases cs with
      | nil => rfl
      | cons a b => simp at hl
    subst hcs
    obtain ⟨h1, h2, h3⟩ := k.groupStart g s hi hg
    unfold coordStart
    dsimp only [List.nil_append]
    split
    · exact ⟨h1, h2, fun g' hg' => by cases hg'⟩
    · refine ⟨h1, h2, ?_⟩
      intro g' hg' u hu
      have : g' = (Task.groupStart ops g s).2.1 := by simpa using hg'
      subst this
      exact h3 u hu
  · refine ⟨hi, k.refl s, ?_⟩
    intro g' hg' u hu
    rcases List.mem_append.1 hg' with h | h
    · exact hk g' h u hu
    · have : g' = g := by simpa using h
      subst this
      exact hg u hu

/-- A use of the coordinator. -/
theorem Carry.msg (k : Carry ops R I K) (m : M) {c : Coord S A B} (hi : I c.st) (hk : ∀ g ∈ c.conts, ∀ u ∈ g, K c.st u) :
    I (c.step ops (.msg m)).st ∧ R c.st (c.step ops (.msg m)).st ∧ ∀ g ∈ (c.step ops (.msg m)).conts, ∀ u ∈ g, K (c.step ops (.msg m)).st u :=
  k.coordMsg m c.conts c.st hi hk

theorem mkGroup_unit {seq : Nat} {us : List (A × B)} {u : TUnit A B} (h : u ∈ mkGroup seq us) :
    ∃ p ∈ us, u.action = some p.1 ∧ u.body = p.2 := by
  unfold mkGroup at h
  obtain ⟨⟨p, n⟩, hp, rfl⟩ := List.mem_map.1 h
  exact ⟨p, (List.mem_zipIdx hp).2.2 ▸ List.getElem_mem _, rfl, rfl⟩

theorem Carry.then_ (k : Carry ops R I K) (us : List (A × B)) {c : Coord S A B} (hi : I c.st)
    (hu : ∀ p ∈ us, ∀ id, K c.st ⟨id, some p.1, p.2⟩) (hk : ∀ g ∈ c.conts, ∀ u ∈ g, K c.st u) :
    I (c.step ops (.then_ us)).st ∧ R c.st (c.step ops (.then_ us)).st ∧
      ∀ g ∈ (c.step ops (.then_ us)).conts, ∀ u ∈ g, K (c.step ops (.then_ us)).st u := by
  refine k.coordThen _ c.conts c.st hi ?_ hk
  intro u hm
  obtain ⟨p, hp, h1, h2⟩ := mkGroup_unit hm
  have : u = ⟨u.id, some p.1, p.2⟩ := by
    cases u
    simp only at h1 h2
    subst h1 h2
    rfl
  rw [this]
  exact hu p hp u.id

theorem Carry.cancel (ops : Ops S M A B) {c : Coord S A B} (hk : ∀ g ∈ c.conts, ∀ u ∈ g, K c.st u) :
    ∀ g ∈ (c.step ops .cancel).conts, ∀ u ∈ g, K (c.step ops .cancel).st u := by
  intro g hg u hu
  exact hk g (List.mem_of_mem_take hg) u hu

end Casual.Task
