import Verif.Gateway.OutLog
/-!
Transactions, tasks and the justification of what is sent, in histories where no service call,
queue request or hang up of a conversation fails to be sent.
-/
namespace Casual.Gateway.Out

/-! ### the table of transactions -/

def has (g d : Nat) (xs : List (Nat × List Nat)) : Bool := xs.any fun x => x.1 == g && x.2.contains d

structure Tidy (xs : List (Nat × List Nat)) : Prop where
  keys : (xs.map (·.1)).Nodup
  vals : ∀ x ∈ xs, x.2.Nodup

theorem has_false_of_key {g d : Nat} {xs : List (Nat × List Nat)} (h : g ∉ xs.map (·.1)) : has g d xs = false := by
  simp only [has, List.any_eq_false, Bool.and_eq_true, beq_iff_eq, not_and]
  intro x hx hg
  exact absurd (List.mem_map.mpr ⟨x, hx, hg⟩) h

theorem associate_keys (g d : Nat) (xs : List (Nat × List Nat)) (x : Nat) :
    x ∈ (associate g d xs).1.map (·.1) ↔ x = g ∨ x ∈ xs.map (·.1) := by
  induction xs with
  | nil => simp [associate]
  | cons y ys ih =>
    obtain ⟨g', ds⟩ := y
    unfold associate
    split
    · rename_i h; subst h
      split <;> simp <;> (intro h; exact h.elim (fun h => Or.inl h) Or.inr)
    · simp only [List.map_cons, List.mem_cons, ih]
      constructor
      · rintro (h | h | h)
        · exact Or.inr (Or.inl h)
        · exact Or.inl h
        · exact Or.inr (Or.inr h)
      · rintro (h | h | h)
        · exact Or.inr (Or.inl h)
        · exact Or.inl h
        · exact Or.inr (Or.inr h)

theorem tidy_associate {g d : Nat} {xs : List (Nat × List Nat)} (h : Tidy xs) : Tidy (associate g d xs).1 := by
  induction xs with
  | nil => exact ⟨by simp [associate], by simp [associate]⟩
  | cons y ys ih =>
    obtain ⟨g', ds⟩ := y
    have hk : g' ∉ ys.map (·.1) ∧ (ys.map (·.1)).Nodup := List.nodup_cons.mp h.keys
    have hys : Tidy ys := ⟨hk.2, fun x hx => h.vals x (List.mem_cons_of_mem _ hx)⟩
    have hds : ds.Nodup := h.vals _ (List.mem_cons_self ..)
    unfold associate
    split
    · split
      · exact h
      · rename_i hd
        refine ⟨h.keys, fun x hx => ?_⟩
        rcases List.mem_cons.mp hx with rfl | hx
        · show (ds ++ [d]).Nodup
          rw [List.nodup_append]
          refine ⟨hds, by simp, ?_⟩
          intro a ha b hb
          rw [List.mem_singleton] at hb; subst hb
          exact fun hab => hd (hab ▸ ha)
        · exact hys.vals x hx
    · rename_i hg
      refine ⟨List.nodup_cons.mpr ⟨?_, (ih hys).keys⟩, fun x hx => ?_⟩
      · rw [associate_keys]; exact fun h' => h'.elim hg hk.1
      · rcases List.mem_cons.mp hx with rfl | hx
        · exact hds
        · exact (ih hys).vals x hx

theorem has_associate {g d g' d' : Nat} {xs : List (Nat × List Nat)} :
    has g' d' (associate g d xs).1 = (has g' d' xs || (g == g' && d == d')) := by
  induction xs with
  | nil =>
    simp only [associate, has, List.any_cons, List.any_nil, Bool.or_false, Bool.false_or]
    congr 1
    rw [Bool.eq_iff_iff, List.contains_iff_mem, List.mem_singleton, beq_iff_eq]
    exact eq_comm
  | cons y ys ih =>
    obtain ⟨gy, ds⟩ := y
    unfold associate
    split
    · rename_i hg
      subst hg
      split
      · rename_i hd
        cases hc : (gy == g' && d == d') with
        | false => simp
        | true =>
          simp only [Bool.and_eq_true, beq_iff_eq] at hc
          obtain ⟨rfl, rfl⟩ := hc
          simp [has, hd]
      · unfold has
        simp only [List.any_cons, List.contains_append]
        have : [d].contains d' = (d == d') := by
          rw [Bool.eq_iff_iff, List.contains_iff_mem, List.mem_singleton, beq_iff_eq]
          exact eq_comm
        rw [this]
        cases (gy == g') <;> cases (ds.contains d') <;> cases (d == d') <;> simp
    · unfold has at ih ⊢
      simp only [List.any_cons, ih, Bool.or_assoc]

theorem associate_snd {g d : Nat} {xs : List (Nat × List Nat)} (h : (xs.map (·.1)).Nodup) :
    (associate g d xs).2 = !has g d xs := by
  induction xs with
  | nil => rfl
  | cons y ys ih =>
    obtain ⟨gy, ds⟩ := y
    have hk : gy ∉ ys.map (·.1) ∧ (ys.map (·.1)).Nodup := List.nodup_cons.mp h
    unfold associate
    split
    · rename_i hg
      subst hg
      have h0 : has gy d ys = false := has_false_of_key hk.1
      unfold has at h0 ⊢
      split
      · rename_i hd; simp [hd]
      · rename_i hd; simp only [List.any_cons, h0]; simp [hd]
    · rename_i hg
      simp only [ih hk.2, has, List.any_cons]
      simp [hg]

theorem tidy_remove {g : Nat} {xs : List (Nat × List Nat)} (h : Tidy xs) : Tidy (removeTrans g xs) :=
  ⟨h.keys.sublist ((List.filter_sublist).map _), fun x hx => h.vals x (List.mem_filter.mp hx).1⟩

theorem has_remove {g g' d : Nat} {xs : List (Nat × List Nat)} :
    has g' d (removeTrans g xs) = (g != g' && has g' d xs) := by
  unfold has removeTrans
  induction xs with
  | nil => simp
  | cons x xs ih =>
    simp only [List.filter_cons]
    by_cases hx : x.1 = g
    · simp only [hx, ne_eq, not_true_eq_false, decide_false, Bool.false_eq_true, if_false, ih, List.any_cons]
      rw [Bool.eq_iff_iff]
      simp only [Bool.and_eq_true, bne_iff_ne, ne_eq, Bool.or_eq_true, beq_iff_eq]
      exact ⟨fun ⟨a, b⟩ => ⟨a, Or.inr b⟩, fun ⟨a, b⟩ => ⟨a, b.elim (fun h => absurd h.1 a) id⟩⟩
    · simp only [ne_eq, hx, not_false_eq_true, decide_true, if_true, List.any_cons, ih]
      rw [Bool.eq_iff_iff]
      simp only [Bool.and_eq_true, bne_iff_ne, ne_eq, Bool.or_eq_true, beq_iff_eq]
      constructor
      · rintro (⟨h, h'⟩ | h)
        · exact ⟨fun hg => hx (h.trans hg.symm), Or.inl ⟨h, h'⟩⟩
        · exact ⟨h.1, Or.inr h.2⟩
      · rintro ⟨a, h | h⟩
        · exact Or.inl h
        · exact Or.inr ⟨a, h⟩

theorem extract_keys {d : Nat} {xs : List (Nat × List Nat)} :
    ∀ x, x ∈ (extractTrans d xs).map (·.1) → x ∈ xs.map (·.1) := by
  induction xs with
  | nil => simp [extractTrans]
  | cons y ys ih =>
    obtain ⟨gy, ds⟩ := y
    intro x hx
    unfold extractTrans at hx
    simp only [List.map_cons, List.mem_cons]
    split at hx
    · split at hx
      · exact Or.inr (ih x hx)
      · rcases List.mem_cons.mp hx with h | h
        · exact Or.inl h
        · exact Or.inr (ih x h)
    · rcases List.mem_cons.mp hx with h | h
      · exact Or.inl h
      · exact Or.inr (ih x h)

theorem tidy_extract {d : Nat} {xs : List (Nat × List Nat)} (h : Tidy xs) : Tidy (extractTrans d xs) := by
  induction xs with
  | nil => exact h
  | cons y ys ih =>
    obtain ⟨gy, ds⟩ := y
    have hk : gy ∉ ys.map (·.1) ∧ (ys.map (·.1)).Nodup := List.nodup_cons.mp h.keys
    have hys : Tidy ys := ⟨hk.2, fun x hx => h.vals x (List.mem_cons_of_mem _ hx)⟩
    have hds : ds.Nodup := h.vals _ (List.mem_cons_self ..)
    have key : ∀ ds' : List Nat, ds'.Nodup → Tidy ((gy, ds') :: extractTrans d ys) := by
      intro ds' hd
      refine ⟨List.nodup_cons.mpr ⟨fun h' => hk.1 (extract_keys _ h'), (ih hys).keys⟩, fun x hx => ?_⟩
      rcases List.mem_cons.mp hx with rfl | hx
      · exact hd
      · exact (ih hys).vals x hx
    unfold extractTrans
    split
    · split
      · exact ih hys
      · exact key _ (hds.erase _)
    · exact key _ hds

theorem has_extract {g d d' : Nat} {xs : List (Nat × List Nat)} (h : Tidy xs) :
    has g d' (extractTrans d xs) = (d != d' && has g d' xs) := by
  induction xs with
  | nil => simp [extractTrans, has]
  | cons y ys ih =>
    obtain ⟨gy, ds⟩ := y
    have hk : gy ∉ ys.map (·.1) ∧ (ys.map (·.1)).Nodup := List.nodup_cons.mp h.keys
    have hys : Tidy ys := ⟨hk.2, fun x hx => h.vals x (List.mem_cons_of_mem _ hx)⟩
    have hds : ds.Nodup := h.vals _ (List.mem_cons_self ..)
    have ih := ih hys
    have hmem : ∀ x, (ds.erase d).contains x = (d != x && ds.contains x) := by
      intro x
      rw [Bool.eq_iff_iff]
      simp only [List.contains_iff_mem, Bool.and_eq_true, bne_iff_ne, ne_eq]
      rw [hds.mem_erase_iff]
      exact ⟨fun ⟨a, b⟩ => ⟨fun h => a h.symm, b⟩, fun ⟨a, b⟩ => ⟨fun h => a h.symm, b⟩⟩
    unfold has at ih ⊢
    unfold extractTrans
    have e1 : ((d != d') && (((gy == g) && ds.contains d') || ys.any fun x => x.1 == g && x.2.contains d')) =
        (((gy == g) && (d != d' && ds.contains d')) || (d != d' && ys.any fun x => x.1 == g && x.2.contains d')) := by
      cases (d != d') <;> simp
    split
    · split
      · rename_i he
        rw [ih, List.any_cons]
        have : (d != d' && ds.contains d') = false := by
          rw [← hmem]
          rw [List.isEmpty_iff] at he
          rw [he]; rfl
        rw [e1, this]; simp
      · rw [List.any_cons, List.any_cons, ih, hmem, e1]
    · rename_i hd
      rw [List.any_cons, List.any_cons, ih, e1]
      congr 2
      cases hx : ds.contains d' with
      | false => simp
      | true =>
        rw [List.contains_iff_mem] at hx
        have : d ≠ d' := fun h => hd (h ▸ hx)
        simp [this]

/-! ### in the log -/

/-- TM knows that the connection takes part in the transaction. -/
def told (g d : Nat) : List Obs → Bool
  | [] => false
  | .involved g' d' :: l => told g d l || (g' == g && d' == d)
  | .disassociate g' :: l => g' != g && told g d l
  | .closed d' :: l => d' != d && told g d l
  | _ :: l => told g d l

/-- A request in the transaction has been sent to the other domain, and the transaction is not over. -/
def used (g d : Nat) : List Obs → Bool
  | [] => false
  | .tcp d' _ _ (some g') :: l => used g d l || (g' == g && d' == d)
  | .disassociate g' :: l => g' != g && used g d l
  | .closed d' :: l => d' != d && used g d l
  | _ :: l => used g d l

theorem told_neutral (g d) : Neutral (told g d) := ⟨fun _ _ => rfl, fun _ _ _ _ _ => rfl⟩
theorem used_neutral (g d) : Neutral (used g d) := ⟨fun _ _ => rfl, fun _ _ _ _ _ => rfl⟩

end Casual.Gateway.Out
