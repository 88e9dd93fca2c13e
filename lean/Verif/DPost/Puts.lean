import Verif.DPost.View
/-
  Lists of things with a name of which some are removed, some added and some changed.
-/
namespace Casual.DPost

open Casual.Config (calculate mem_added mem_modified mem_removed inj_of_nodup)

variable {α : Type}

/-- The one with the key of `e` becomes `e`. -/
def put1 (key : α → String) (e : α) (l : List α) : List α := l.map fun x => if key x = key e then e else x

/-- One after the other. -/
def puts (key : α → String) (es l : List α) : List α := es.foldl (fun l e => put1 key e l) l

theorem keys_put1 (key : α → String) (e : α) (l : List α) : (put1 key e l).map key = l.map key := by
  unfold put1
  rw [List.map_map]
  refine List.map_congr_left fun x _ => ?_
  simp only [Function.comp]
  split
  · rename_i h; exact h.symm
  · rfl

theorem keys_puts (key : α → String) (es l : List α) : (puts key es l).map key = l.map key := by
  induction es generalizing l with
  | nil => rfl
  | cons e es ih =>
    show (puts key es (put1 key e l)).map key = _
    rw [ih, keys_put1]

theorem mem_put1 (key : α → String) (e x : α) (l : List α) :
    x ∈ put1 key e l ↔ (x ∈ l ∧ key x ≠ key e) ∨ (x = e ∧ key e ∈ l.map key) := by
  unfold put1
  rw [List.mem_map]
  constructor
  · rintro ⟨y, hy, rfl⟩
    by_cases h : key y = key e
    · rw [if_pos h]; exact Or.inr ⟨rfl, h ▸ List.mem_map_of_mem hy⟩
    · rw [if_neg h]; exact Or.inl ⟨hy, h⟩
  · rintro (⟨h1, h2⟩ | ⟨rfl, h⟩)
    · exact ⟨x, h1, if_neg h2⟩
    · obtain ⟨y, hy, e⟩ := List.mem_map.1 h
      exact ⟨y, hy, if_pos e⟩

theorem mem_puts (key : α → String) (es l : List α) (hn : (es.map key).Nodup) (x : α) :
    x ∈ puts key es l ↔ (x ∈ l ∧ ∀ e ∈ es, key e ≠ key x) ∨ (x ∈ es ∧ key x ∈ l.map key) := by
  induction es generalizing l with
  | nil =>
    show x ∈ l ↔ _
    simp
  | cons e es ih =>
    have hn' := List.nodup_cons.1 (List.map_cons ▸ hn)
    show x ∈ puts key es (put1 key e l) ↔ _
    rw [ih _ hn'.2, mem_put1, keys_put1]
    constructor
    · rintro (⟨h1 | h1, h2⟩ | ⟨h1, h2⟩)
      · refine Or.inl ⟨h1.1, fun y hy => ?_⟩
        rcases List.mem_cons.1 hy with rfl | hy
        · exact fun e => h1.2 e.symm
        · exact h2 y hy
      · obtain ⟨rfl, h1⟩ := h1
        exact Or.inr ⟨List.mem_cons_self, h1⟩
      · exact Or.inr ⟨List.mem_cons_of_mem _ h1, h2⟩
    · rintro (⟨h1, h2⟩ | ⟨h1, h2⟩)
      · exact Or.inl ⟨Or.inl ⟨h1, fun e' => h2 e List.mem_cons_self e'.symm⟩, fun y hy => h2 y (List.mem_cons_of_mem _ hy)⟩
      · rcases List.mem_cons.1 h1 with rfl | h1
        · refine Or.inl ⟨Or.inr ⟨rfl, h2⟩, fun y hy e => ?_⟩
          exact hn'.1 (e ▸ List.mem_map_of_mem hy)
        · exact Or.inr ⟨h1, h2⟩

/-- What there is after a change: some is removed, the rest stripped, then the new ones come, and
then the changed ones are put in. `fix` is what is done to the configured ones. -/
def after [DecidableEq α] (key : α → String) (strip fix : α → α) (all current wanted : List α) : List α :=
  let c := calculate key current wanted
  puts key (c.modified.map fix)
    (((all.map strip) ++ c.added.map fix).filter fun x => decide (key x ∉ c.removed.map key))

/-- What is seen after the change is what is wanted; what is not seen is as before, apart from the
stripping. -/
theorem after_wanted [DecidableEq α] (key : α → String) (strip fix : α → α) (P : α → Bool) (all wanted : List α)
    (hall : (all.map key).Nodup) (hw : (wanted.map key).Nodup)
    (hs : ∀ x, key (strip x) = key x) (hf : ∀ x, key (fix x) = key x)
    (hPs : ∀ x ∈ all, P (strip x) = P x) (hPf : ∀ x ∈ wanted, P (fix x) = true)
    (hclosed : ∀ x ∈ wanted, x ∈ all → strip x = x) (hfix : ∀ x ∈ wanted, x ∈ all → fix x = x)
    (hdisj : ∀ x ∈ all, P x = false → key x ∉ wanted.map key) :
    (∀ x, x ∈ (after key strip fix all (all.filter P) wanted).filter P ↔ x ∈ wanted.map fix) ∧
    ((after key strip fix all (all.filter P) wanted).map key).Nodup ∧
    (∀ x, (x ∈ after key strip fix all (all.filter P) wanted ∧ P x = false) ↔ ∃ y ∈ all, P y = false ∧ x = strip y) := by
  have hcur : ∀ x, x ∈ all.filter P ↔ x ∈ all ∧ P x = true := fun x => List.mem_filter
  have hmodN : (((calculate key (all.filter P) wanted).modified.map fix).map key).Nodup := by
    rw [List.map_map, show key ∘ fix = key from funext hf]
    have : ((calculate key (all.filter P) wanted).modified.map key).Sublist (wanted.map key) := by
      unfold calculate Config.intersection
      exact (List.filter_sublist.trans List.filter_sublist).map key
    exact this.nodup hw
  have hrem : ∀ k, k ∈ (calculate key (all.filter P) wanted).removed.map key ↔
      k ∈ (all.filter P).map key ∧ k ∉ wanted.map key := by
    intro k
    constructor
    · intro h
      obtain ⟨x, hx, rfl⟩ := List.mem_map.1 h
      have := mem_removed.1 hx
      refine ⟨List.mem_map_of_mem this.1, fun hm => ?_⟩
      obtain ⟨y, hy, e⟩ := List.mem_map.1 hm
      exact this.2 y hy e
    · rintro ⟨h1, h2⟩
      obtain ⟨x, hx, rfl⟩ := List.mem_map.1 h1
      exact List.mem_map_of_mem (mem_removed.2 ⟨hx, fun y hy e => h2 (e ▸ List.mem_map_of_mem hy)⟩)
  have hmem : ∀ x, x ∈ after key strip fix all (all.filter P) wanted ↔
      (((∃ y ∈ all, x = strip y) ∨ ∃ y ∈ (calculate key (all.filter P) wanted).added, x = fix y) ∧
        key x ∉ (calculate key (all.filter P) wanted).removed.map key ∧
        ∀ e ∈ (calculate key (all.filter P) wanted).modified, key e ≠ key x) ∨
      ((∃ y ∈ (calculate key (all.filter P) wanted).modified, x = fix y) ∧
        ∃ z, ((∃ y ∈ all, z = strip y) ∨ ∃ y ∈ (calculate key (all.filter P) wanted).added, z = fix y) ∧
          key z ∉ (calculate key (all.filter P) wanted).removed.map key ∧ key z = key x) := by
    intro x
    unfold after
    dsimp only
    rw [mem_puts _ _ _ hmodN]
    have hin : ∀ z, z ∈ ((all.map strip) ++ (calculate key (all.filter P) wanted).added.map fix).filter
        (fun x => decide (key x ∉ (calculate key (all.filter P) wanted).removed.map key)) ↔
        ((∃ y ∈ all, z = strip y) ∨ ∃ y ∈ (calculate key (all.filter P) wanted).added, z = fix y) ∧
          key z ∉ (calculate key (all.filter P) wanted).removed.map key := by
      intro z
      rw [List.mem_filter, List.mem_append, List.mem_map, List.mem_map, decide_eq_true_eq]
      constructor
      · rintro ⟨⟨y, h1, h2⟩ | ⟨y, h1, h2⟩, h3⟩
        · exact ⟨Or.inl ⟨y, h1, h2.symm⟩, h3⟩
        · exact ⟨Or.inr ⟨y, h1, h2.symm⟩, h3⟩
      · rintro ⟨⟨y, h1, h2⟩ | ⟨y, h1, h2⟩, h3⟩
        · exact ⟨Or.inl ⟨y, h1, h2.symm⟩, h3⟩
        · exact ⟨Or.inr ⟨y, h1, h2.symm⟩, h3⟩
    rw [hin]
    constructor
    · rintro (⟨⟨h1, h2⟩, h3⟩ | ⟨hy0, hz0⟩)
      · refine Or.inl ⟨h1, h2, fun e he => ?_⟩
        have := h3 (fix e) (List.mem_map_of_mem he)
        rwa [hf] at this
      · obtain ⟨y, hy, h1⟩ := List.mem_map.1 hy0
        obtain ⟨z, hz, h2⟩ := List.mem_map.1 hz0
        have := (hin z).1 hz
        exact Or.inr ⟨⟨y, hy, h1.symm⟩, z, this.1, this.2, h2⟩
    · rintro (⟨h1, h2, h3⟩ | ⟨⟨y, hy, h1⟩, z, h2, h3, h4⟩)
      · refine Or.inl ⟨⟨h1, h2⟩, fun e he => ?_⟩
        obtain ⟨y, hy, rfl⟩ := List.mem_map.1 he
        rw [hf]
        exact h3 y hy
      · exact Or.inr ⟨List.mem_map.2 ⟨y, hy, h1.symm⟩, List.mem_map.2 ⟨z, (hin z).2 ⟨h2, h3⟩, h4⟩⟩
  refine ⟨fun x => ?_, ?_, fun x => ?_⟩
  · rw [List.mem_filter, hmem]
    constructor
    · rintro ⟨⟨⟨y, hy, rfl⟩ | ⟨y, hy, rfl⟩, h2, h3⟩ | ⟨⟨y, hy, rfl⟩, -⟩, hP⟩
      · -- one that was there and is not changed
        rw [hPs y hy] at hP
        have hyc : y ∈ all.filter P := (hcur y).2 ⟨hy, hP⟩
        rw [hs] at h2 h3
        have hkw : key y ∈ wanted.map key := by
          apply Classical.byContradiction
          intro hn
          exact h2 ((hrem _).2 ⟨List.mem_map_of_mem hyc, hn⟩)
        obtain ⟨w, hww, e⟩ := List.mem_map.1 hkw
        have hwc : w ∈ all.filter P := by
          apply Classical.byContradiction
          intro hn
          exact h3 w (mem_modified.2 ⟨hww, hn, y, hyc, e.symm⟩) e
        have hwy : w = y := inj_of_nodup hall ((hcur w).1 hwc).1 hy e
        subst hwy
        rw [hclosed w hww hy]
        exact List.mem_map.2 ⟨w, hww, hfix w hww hy⟩
      · exact List.mem_map_of_mem (mem_added.1 hy).1
      · exact List.mem_map_of_mem (mem_modified.1 hy).1
    · intro h
      obtain ⟨w, hww, rfl⟩ := List.mem_map.1 h
      refine ⟨?_, hPf w hww⟩
      have hkr : key w ∉ (calculate key (all.filter P) wanted).removed.map key :=
        fun hm => ((hrem _).1 hm).2 (List.mem_map_of_mem hww)
      by_cases hc : ∃ y ∈ all.filter P, key y = key w
      · obtain ⟨y, hy, e⟩ := hc
        by_cases hwc : w ∈ all.filter P
        · have hwa := ((hcur w).1 hwc).1
          refine Or.inl ⟨Or.inl ⟨w, hwa, ?_⟩, ?_, ?_⟩
          · rw [hfix w hww hwa, hclosed w hww hwa]
          · rw [hf]; exact hkr
          · intro m hm hk
            rw [hf] at hk
            have hm' := mem_modified.1 hm
            exact hm'.2.1 (inj_of_nodup hw hm'.1 hww hk ▸ hwc)
        · refine Or.inr ⟨⟨w, mem_modified.2 ⟨hww, hwc, y, hy, e⟩, rfl⟩, strip y, Or.inl ⟨y, ((hcur y).1 hy).1, rfl⟩, ?_, ?_⟩
          · rw [hs, e]; exact hkr
          · rw [hs, hf, e]
      · refine Or.inl ⟨Or.inr ⟨w, mem_added.2 ⟨hww, fun y hy e => hc ⟨y, hy, e⟩⟩, rfl⟩, ?_, ?_⟩
        · rw [hf]; exact hkr
        · intro m hm hk
          rw [hf] at hk
          obtain ⟨y, hy, e⟩ := (mem_modified.1 hm).2.2
          exact hc ⟨y, hy, e.trans hk⟩
  · unfold after
    dsimp only
    rw [keys_puts]
    have hbig : (((all.map strip) ++ (calculate key (all.filter P) wanted).added.map fix).map key).Nodup := by
      rw [List.map_append, List.map_map, List.map_map, show key ∘ strip = key from funext hs, show key ∘ fix = key from funext hf,
        List.nodup_append]
      refine ⟨hall, ?_, ?_⟩
      · have : ((calculate key (all.filter P) wanted).added.map key).Sublist (wanted.map key) := by
          unfold calculate Config.intersection
          exact (List.filter_sublist.trans List.filter_sublist).map key
        exact this.nodup hw
      · intro a ha b hb e
        subst e
        obtain ⟨y, hy, rfl⟩ := List.mem_map.1 ha
        obtain ⟨z, hz, ez⟩ := List.mem_map.1 hb
        have hz' := mem_added.1 hz
        cases hP : P y with
        | true => exact hz'.2 y ((hcur y).2 ⟨hy, hP⟩) ez.symm
        | false => exact hdisj y hy hP (ez ▸ List.mem_map_of_mem hz'.1)
    exact (List.filter_sublist.map key).nodup hbig
  · rw [hmem]
    constructor
    · rintro ⟨⟨⟨y, hy, rfl⟩ | ⟨y, hy, rfl⟩, h2, h3⟩ | ⟨⟨y, hy, rfl⟩, -⟩, hP⟩
      · rw [hPs y hy] at hP
        exact ⟨y, hy, hP, rfl⟩
      · rw [hPf y (mem_added.1 hy).1] at hP; cases hP
      · rw [hPf y (mem_modified.1 hy).1] at hP; cases hP
    · rintro ⟨y, hy, hP, rfl⟩
      refine ⟨Or.inl ⟨Or.inl ⟨y, hy, rfl⟩, ?_, ?_⟩, by rw [hPs y hy, hP]⟩
      · rw [hs]
        intro hm
        obtain ⟨z, hz, e⟩ := List.mem_map.1 ((hrem _).1 hm).1
        have hz' := (hcur z).1 hz
        rw [inj_of_nodup hall hz'.1 hy e] at hz'
        rw [hP] at hz'
        cases hz'.2
      · intro m hm e
        rw [hs] at e
        exact hdisj y hy hP (e ▸ List.mem_map_of_mem (mem_modified.1 hm).1)

end Casual.DPost
