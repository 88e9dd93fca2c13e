import Verif.Service.Model
import Verif.Util
/-! Lemmas about the index, the sorted instances, the deadlines, and what a lookup can lead to. -/
namespace Casual.Service

/-! ## Index -/

namespace Index
variable {α : Type}

@[simp] theorem get_nil (i : Nat) : get ([] : List (Option α)) i = none := by simp [get]

@[simp] theorem get_cons_zero (o : Option α) (l : List (Option α)) : get (o :: l) 0 = o := by simp [get]

@[simp] theorem get_cons_succ (o : Option α) (l : List (Option α)) (i : Nat) : get (o :: l) (i + 1) = get l i := by
  simp [get]

theorem insert_free (l : List (Option α)) (a : α) : get l (insert l a).1 = none := by
  induction l with
  | nil => simp
  | cons o l ih =>
    cases o with
    | none => simp [insert]
    | some b => simpa [insert] using ih

theorem get_insert (l : List (Option α)) (a : α) (j : Nat) :
    get (insert l a).2 j = if j = (insert l a).1 then some a else get l j := by
  induction l generalizing j with
  | nil => cases j <;> simp [insert]
  | cons o l ih =>
    cases o with
    | none => cases j <;> simp [insert]
    | some b =>
      cases j with
      | zero => simp [insert]
      | succ j => simpa [insert] using ih j

theorem get_set (l : List (Option α)) (i j : Nat) (o : Option α) (h : i < l.length ∨ o = none) :
    get (l.set i o) j = if j = i then o else get l j := by
  unfold get
  rw [List.getElem?_set]
  by_cases e : i = j
  · subst e
    by_cases hl : i < l.length
    · simp [hl]
    · simp only [if_true, hl, if_false]
      rcases h with h | h
      · exact absurd h hl
      · subst h; simp
  · rw [if_neg e, if_neg (fun h => e h.symm)]

theorem get_erase (l : List (Option α)) (i j : Nat) : get (erase l i) j = if j = i then none else get l j :=
  get_set l i j none (.inr rfl)

theorem lt_of_get {l : List (Option α)} {i : Nat} {a : α} (h : get l i = some a) : i < l.length := by
  unfold get at h
  apply Classical.byContradiction
  intro hn
  rw [List.getElem?_eq_none (Nat.le_of_not_lt hn)] at h
  simp at h

theorem get_modify (l : List (Option α)) (i : Nat) (f : α → α) (j : Nat) :
    get (modify l i f) j = if j = i then (get l i).map f else get l j := by
  unfold modify
  cases h : get l i with
  | none =>
    by_cases e : j = i
    · subst e; simp [h]
    · simp [e]
  | some a => rw [get_set _ _ _ _ (.inl (lt_of_get h))]; simp

theorem mem_ids {l : List (Option α)} {i : Nat} : i ∈ ids l ↔ (get l i).isSome := by
  unfold ids
  rw [List.mem_filter, List.mem_range]
  constructor
  · exact fun h => h.2
  · intro h
    obtain ⟨a, ha⟩ := Option.isSome_iff_exists.mp h
    exact ⟨lt_of_get ha, h⟩

theorem ids_nodup (l : List (Option α)) : (ids l).Nodup := List.Pairwise.filter _ List.nodup_range

theorem find_some {l : List (Option α)} {p : α → Bool} {i : Nat} (h : find l p = some i) :
    ∃ a, get l i = some a ∧ p a = true := by
  unfold find at h
  have h1 := List.find?_some h
  cases hg : get l i with
  | none => simp [hg] at h1
  | some a => exact ⟨a, rfl, by simpa [hg] using h1⟩

theorem find_none {l : List (Option α)} {p : α → Bool} (h : find l p = none) {i : Nat} {a : α} (hg : get l i = some a) :
    p a = false := by
  unfold find at h
  rw [List.find?_eq_none] at h
  have := h i (mem_ids.mpr (by simp [hg]))
  simpa [hg] using this

theorem get_map (l : List (Option α)) (f : α → α) (i : Nat) : get (l.map fun o => o.map f) i = (get l i).map f := by
  unfold get
  rw [List.getElem?_map]
  cases l[i]? <;> simp

theorem ext_get {l l' : List (Option α)} (hl : l.length = l'.length) (h : ∀ i, get l i = get l' i) : l = l' := by
  apply List.ext_getElem? 
  intro i
  have := h i
  unfold get at this
  by_cases hi : i < l.length
  · rw [List.getElem?_eq_getElem hi, List.getElem?_eq_getElem (hl ▸ hi)] at *
    simpa using this
  · rw [List.getElem?_eq_none (Nat.le_of_not_lt hi), List.getElem?_eq_none (by omega)]

end Index

/-! ## Concurrent instances of a service -/

theorem mem_insertCon {x y : ConE} {l : List ConE} : y ∈ insertCon x l ↔ y = x ∨ y ∈ l := by
  induction l with
  | nil => simp [insertCon]
  | cons z l ih =>
    unfold insertCon
    split
    · simp only [List.mem_cons, ih]
      constructor
      · rintro (h | h | h) <;> simp [h]
      · rintro (h | h | h) <;> simp [h]
    · simp

theorem mem_sortCons {y : ConE} {l : List ConE} : y ∈ sortCons l ↔ y ∈ l := by
  induction l with
  | nil => simp [sortCons]
  | cons z l ih =>
    have : sortCons (z :: l) = insertCon z (sortCons l) := rfl
    rw [this, mem_insertCon, ih, List.mem_cons]

theorem insertCon_perm (x : ConE) (l : List ConE) : (insertCon x l).Perm (x :: l) := by
  induction l with
  | nil => exact List.Perm.refl _
  | cons z l ih =>
    unfold insertCon
    split
    · exact (List.Perm.cons z ih).trans (List.Perm.swap x z l)
    · exact List.Perm.refl _

theorem sortCons_perm (l : List ConE) : (sortCons l).Perm l := by
  induction l with
  | nil => exact List.Perm.refl _
  | cons z l ih => exact (insertCon_perm z (sortCons l)).trans (List.Perm.cons z ih)

/-- Less or equal by order, then hops. -/
def ConE.le (a b : ConE) : Prop := a.order < b.order ∨ (a.order = b.order ∧ a.hops ≤ b.hops)

theorem ConE.not_lt {a b : ConE} : a.lt b = false ↔ b.le a := by
  simp only [ConE.lt, ConE.le, Bool.or_eq_false_iff, Bool.and_eq_false_iff, decide_eq_false_iff_not]
  omega

theorem ConE.lt_iff {a b : ConE} : a.lt b = true ↔ ¬ b.le a := by
  rw [← ConE.not_lt]; simp

theorem ConE.le_trans {a b c : ConE} (h : a.le b) (h' : b.le c) : a.le c := by
  simp only [ConE.le] at *; omega

theorem ConE.le_refl (a : ConE) : a.le a := .inr ⟨rfl, Int.le_refl _⟩

theorem ConE.le_total (a b : ConE) : a.le b ∨ b.le a := by simp only [ConE.le]; omega

def Sorted (l : List ConE) : Prop := l.Pairwise ConE.le

theorem sorted_insert {x : ConE} {l : List ConE} (h : Sorted l) : Sorted (insertCon x l) := by
  induction l with
  | nil => exact List.pairwise_singleton _ _
  | cons z l ih =>
    have hz := List.pairwise_cons.mp h
    unfold insertCon
    split
    · rename_i hlt
      refine List.pairwise_cons.mpr ⟨fun y hy => ?_, ih hz.2⟩
      rcases mem_insertCon.mp hy with e | e
      · subst e
        rcases ConE.le_total z y with h1 | h1
        · exact h1
        · exact absurd h1 (ConE.lt_iff.mp hlt)
      · exact hz.1 y e
    · rename_i hlt
      have hx : x.le z := ConE.not_lt.mp (by simpa using hlt)
      refine List.pairwise_cons.mpr ⟨fun y hy => ?_, h⟩
      rcases List.mem_cons.mp hy with e | e
      · subst e; exact hx
      · exact ConE.le_trans hx (hz.1 y e)

theorem sorted_sort (l : List ConE) : Sorted (sortCons l) := by
  induction l with
  | nil => exact List.Pairwise.nil
  | cons z l ih => exact sorted_insert ih

theorem sorted_eraseP {l : List ConE} (p : ConE → Bool) (h : Sorted l) : Sorted (l.eraseP p) :=
  List.Pairwise.sublist (List.eraseP_sublist) h

theorem mem_prioritized {l : List ConE} (h : Sorted l) {x : ConE} : x ∈ prioritized l ↔ x ∈ l ∧ ∀ y ∈ l, x.le y := by
  cases l with
  | nil => simp [prioritized]
  | cons z l =>
    have hz := List.pairwise_cons.mp h
    unfold prioritized
    constructor
    · intro hx
      rcases List.mem_cons.mp hx with e | e
      · subst e
        exact ⟨List.mem_cons_self, fun y hy => by
          rcases List.mem_cons.mp hy with e | e
          · subst e; exact ConE.le_refl _
          · exact hz.1 y e⟩
      · have hxl : x ∈ l := (List.takeWhile_sublist _).subset e
        have hb : ∀ (l : List ConE) (p : ConE → Bool), ∀ y ∈ l.takeWhile p, p y = true := by
          intro l p
          induction l with
          | nil => simp
          | cons a l ih =>
            intro y hy
            rw [List.takeWhile_cons] at hy
            split at hy
            · rcases List.mem_cons.mp hy with e | e
              · subst e; assumption
              · exact ih y e
            · cases hy
        have hp := hb _ _ x e
        have hle : x.le z := ConE.not_lt.mp (by simpa using hp)
        refine ⟨List.mem_cons_of_mem _ hxl, fun y hy => ?_⟩
        rcases List.mem_cons.mp hy with e | e
        · subst e; exact hle
        · exact ConE.le_trans hle (hz.1 y e)
    · rintro ⟨hx, hle⟩
      rcases List.mem_cons.mp hx with e | e
      · subst e; exact List.mem_cons_self
      · refine List.mem_cons_of_mem _ ?_
        have hxz := hle z List.mem_cons_self
        have : ∀ l : List ConE, Sorted l → x ∈ l → x ∈ l.takeWhile fun y => !z.lt y := by
          intro l
          induction l with
          | nil => simp
          | cons a l ih =>
            intro hs hx
            have ha := List.pairwise_cons.mp hs
            rw [List.takeWhile_cons]
            have hax : a.le x := by
              rcases List.mem_cons.mp hx with e | e
              · subst e; exact ConE.le_refl _
              · exact ha.1 x e
            have haz : z.lt a = false := ConE.not_lt.mpr (ConE.le_trans hax hxz)
            rw [haz]
            simp only [Bool.not_false, if_true]
            rcases List.mem_cons.mp hx with e | e
            · subst e; exact List.mem_cons_self
            · exact List.mem_cons_of_mem _ (ih ha.2 e)
        exact this l hz.2 e

theorem prioritized_nil {l : List ConE} : prioritized l = [] ↔ l = [] := by
  cases l <;> simp [prioritized]

/-- What `nextConcurrent` gives: one of the prioritized, a preferred one if there is any. -/
theorem next_some {v : Svc} {pref : List Nat} {pick i : Nat} (h : v.nextConcurrent pref pick = some i) :
    (∃ c ∈ prioritized v.cons, c.id = i) ∧ ((∃ c ∈ prioritized v.cons, c.id ∈ pref) → i ∈ pref) := by
  unfold Svc.nextConcurrent at h
  generalize prioritized v.cons = q at h
  cases q with
  | nil => cases h
  | cons x l =>
    simp only at h
    cases hf : (x :: l).find? fun c => decide (c.id ∈ pref) with
    | some c =>
      rw [hf] at h
      simp only [Option.some.injEq] at h
      subst h
      exact ⟨⟨c, List.mem_of_find?_eq_some hf, rfl⟩, fun _ => by simpa using List.find?_some hf⟩
    | none =>
      rw [hf] at h
      cases hg : (x :: l)[pick % (l.length + 1)]? with
      | none => rw [hg] at h; cases h
      | some c =>
        rw [hg] at h
        simp only [Option.map_some, Option.some.injEq] at h
        subst h
        refine ⟨⟨c, List.mem_of_getElem? hg, rfl⟩, ?_⟩
        rintro ⟨d, hd, hd'⟩
        rw [List.find?_eq_none] at hf
        exact absurd (by simpa using hd') (hf d hd)

theorem next_none {v : Svc} {pref : List Nat} {pick : Nat} : v.nextConcurrent pref pick = none ↔ v.cons = [] := by
  unfold Svc.nextConcurrent
  rw [← prioritized_nil (l := v.cons)]
  generalize prioritized v.cons = q
  cases q with
  | nil => simp
  | cons x l =>
    simp only
    cases hf : (x :: l).find? fun c => decide (c.id ∈ pref) with
    | some c => simp
    | none =>
      have : pick % (l.length + 1) < (x :: l).length := Nat.mod_lt _ (Nat.succ_pos _)
      simp [List.getElem?_eq_getElem this]

end Casual.Service
