import Verif.Code.Model
/-!
# Properties of XA/TX codes (C01, C37, C38)
-/
namespace Casual.Code

/-! ## Specification -/

/-- Specification: `a` is at least as severe as `b` iff it comes no later in the documented
severity ranking `order`. -/
def AtLeastAsSevere (a b : Xa) : Prop := order.idxOf a ≤ order.idxOf b

/-- Combining a list of replies the way the transaction manager does: a fold of `severest`
over the replies (`normalize_code`, middleware/transaction/source/manager/handle.cpp:156-162). -/
def combine (start : Xa) (replies : List Xa) : Xa := replies.foldl severest start

/-! ## Helper lemmas -/

theorem toOrder_eq_idxOf (a : Xa) : toOrder a = order.idxOf a := by cases a <;> rfl

theorem ofOrder_toOrder (a : Xa) : ofOrder (toOrder a) = a := by cases a <;> rfl

theorem toOrder_lt (a : Xa) : toOrder a < 24 := by cases a <;> decide

theorem toOrder_inj {a b : Xa} (h : toOrder a = toOrder b) : a = b := by
  rw [← ofOrder_toOrder a, h, ofOrder_toOrder]

theorem toOrder_severest (a b : Xa) : toOrder (severest a b) = min (toOrder a) (toOrder b) := by
  unfold severest
  rcases Nat.le_total (toOrder a) (toOrder b) with h | h
  · rw [Nat.min_eq_left h, ofOrder_toOrder]
  · rw [Nat.min_eq_right h, ofOrder_toOrder]

theorem toOrder_combine (s : Xa) (l : List Xa) :
    toOrder (combine s l) = l.foldl (fun n c => min n (toOrder c)) (toOrder s) := by
  unfold combine
  induction l generalizing s with
  | nil => rfl
  | cons x xs ih => simp only [List.foldl_cons]; rw [ih, toOrder_severest]

theorem combine_le_start (s : Xa) (l : List Xa) : toOrder (combine s l) ≤ toOrder s := by
  unfold combine
  induction l generalizing s with
  | nil => exact Nat.le_refl _
  | cons x xs ih =>
    simp only [List.foldl_cons]
    have h1 := ih (severest s x)
    have h2 := toOrder_severest s x
    omega

theorem combine_le_mem (s : Xa) (l : List Xa) (c : Xa) (h : c ∈ l) :
    toOrder (combine s l) ≤ toOrder c := by
  induction l generalizing s with
  | nil => cases h
  | cons x xs ih =>
    unfold combine at *
    simp only [List.foldl_cons]
    cases h with
    | head =>
      have h1 := combine_le_start (severest s c) xs
      have h2 := toOrder_severest s c
      unfold combine at h1
      omega
    | tail _ h => exact ih (severest s x) h

theorem severest_choice (a b : Xa) : severest a b = a ∨ severest a b = b := by
  unfold severest
  rcases Nat.le_total (toOrder a) (toOrder b) with h | h
  · left; rw [Nat.min_eq_left h, ofOrder_toOrder]
  · right; rw [Nat.min_eq_right h, ofOrder_toOrder]

theorem combine_mem (s : Xa) (l : List Xa) : combine s l ∈ s :: l := by
  unfold combine
  induction l generalizing s with
  | nil => exact List.mem_singleton.mpr rfl
  | cons x xs ih =>
    simp only [List.foldl_cons]
    have h := ih (severest s x)
    rcases List.mem_cons.mp h with h | h
    · rw [h]
      rcases severest_choice s x with e | e <;> rw [e] <;> simp
    · exact List.mem_cons_of_mem _ (List.mem_cons_of_mem _ h)

/-! ## C01 -/

/-- **C01** `severest` returns one of its arguments, and it is at least as severe as both. -/
theorem severest_spec (a b : Xa) :
    (severest a b = a ∨ severest a b = b) ∧
    AtLeastAsSevere (severest a b) a ∧ AtLeastAsSevere (severest a b) b := by
  refine ⟨severest_choice a b, ?_, ?_⟩ <;>
    (unfold AtLeastAsSevere; rw [← toOrder_eq_idxOf, ← toOrder_eq_idxOf, toOrder_severest]; omega)

/-- **C01** order, grouping and repetition do not matter, and `read_only` is neutral. -/
theorem severest_semilattice (a b c : Xa) :
    severest a b = severest b a ∧
    severest (severest a b) c = severest a (severest b c) ∧
    severest a a = a ∧ severest a .read_only = a := by
  refine ⟨toOrder_inj ?_, toOrder_inj ?_, toOrder_inj ?_, toOrder_inj ?_⟩
  · simp only [toOrder_severest]; omega
  · simp only [toOrder_severest]; omega
  · simp only [toOrder_severest]; omega
  · have := toOrder_lt a
    have e : toOrder .read_only = 23 := rfl
    simp only [toOrder_severest]; omega

/-- **C01** the combination of any list of replies is one of them (or the start code), is at
least as severe as every one of them, and is the same for every reordering of the replies and
for replies that repeat codes: it depends only on the set of codes. -/
theorem combine_spec (s : Xa) (l : List Xa) :
    combine s l ∈ s :: l ∧
    (∀ c ∈ s :: l, AtLeastAsSevere (combine s l) c) ∧
    (∀ l', (∀ c, c ∈ l ↔ c ∈ l') → combine s l' = combine s l) := by
  refine ⟨combine_mem s l, ?_, ?_⟩
  · intro c hc
    unfold AtLeastAsSevere
    rw [← toOrder_eq_idxOf, ← toOrder_eq_idxOf]
    rcases List.mem_cons.mp hc with h | h
    · rw [h]; exact combine_le_start s l
    · exact combine_le_mem s l c h
  · intro l' hl
    apply toOrder_inj
    apply Nat.le_antisymm
    · rcases List.mem_cons.mp (combine_mem s l) with h | h
      · rw [h]; exact combine_le_start s l'
      · exact combine_le_mem s l' _ ((hl _).mp h)
    · rcases List.mem_cons.mp (combine_mem s l') with h | h
      · rw [h]; exact combine_le_start s l
      · exact combine_le_mem s l _ ((hl _).mpr h)

/-- **C01** consequence used by the commit decision: the combined code is `ok` or `read_only`
only if every single reply is. -/
theorem combine_good (s : Xa) (l : List Xa)
    (h : combine s l = .ok ∨ combine s l = .read_only) :
    ∀ c ∈ s :: l, c = .ok ∨ c = .read_only := by
  intro c hc
  have hle : toOrder (combine s l) ≤ toOrder c := by
    rcases List.mem_cons.mp hc with h' | h'
    · rw [h']; exact combine_le_start s l
    · exact combine_le_mem s l c h'
  have h22 : 22 ≤ toOrder c := by
    have e1 : toOrder .ok = 22 := rfl
    have e2 : toOrder .read_only = 23 := rfl
    rcases h with h | h <;> rw [h] at hle <;> omega
  cases c <;> simp [toOrder] at h22 <;> simp

example : combine .read_only [.ok, .rollback_timeout, .ok, .resource_fail] = .resource_fail := by
  decide

/-! ## C37: how a rolled back commit is reported -/

/-- The XA_RB* codes: the resource manager has rolled the branch back. -/
def isRollback : Xa → Bool
  | .rollback_unspecified | .rollback_communication | .rollback_deadlock | .rollback_other
  | .rollback_protocoll | .rollback_timeout | .rollback_transient | .rollback_integrity => true
  | _ => false

/-- **C37 refuted**: there is a code with which a resource says "I rolled back" that is
reported to the application as something else than TX_ROLLBACK; in fact the conversion yields
TX_ROLLBACK for no code at all, and every rollback code becomes TX_HAZARD. -/
theorem rollback_reported_as_rollback_refuted :
    (¬ ∀ c, isRollback c = true → toTx c = .rollback) ∧
    (∀ c, isRollback c = true → toTx c = .hazard) ∧ (∀ c, toTx c ≠ .rollback) := by
  refine ⟨fun h => ?_, ?_, ?_⟩
  · have := h .rollback_timeout rfl; simp [toTx] at this
  · intro c; cases c <;> simp [isRollback, toTx]
  · intro c; cases c <;> simp [toTx]

/-- **C37** what does hold: TX_OK is reported exactly for `ok` and `read_only`. -/
theorem toTx_ok_iff (c : Xa) : toTx c = .ok ↔ c = .ok ∨ c = .read_only := by
  cases c <;> simp [toTx]

/-! ## C38: adding TX codes -/

/-- The four combined codes. -/
def isNoBeginX : Tx → Bool
  | .no_begin_rollback | .no_begin_mixed | .no_begin_hazard | .no_begin_committed => true
  | _ => false

/-- **C38 refuted**: the sum of two TX codes depends on the order, and adding `no_begin` to an
outcome that already is a combined one forgets the outcome. -/
theorem tx_add_comm_refuted :
    (¬ ∀ a b : Tx, a.add b = b.add a) ∧
    Tx.add .no_begin .no_begin_rollback = .no_begin := by
  refine ⟨fun h => ?_, by decide⟩
  have := h .no_begin_rollback .no_begin_mixed
  revert this; decide

/-- **C38 (partial)** sums are order independent, idempotent, have `ok` as neutral element and
are associative, as long as none of the codes is one of the four combined codes (and, for
associativity, none is `no_begin`).  Missing for the full claim: the combined codes. -/
theorem tx_add_partial (a b c : Tx) (ha : isNoBeginX a = false) (hb : isNoBeginX b = false)
    (hc : isNoBeginX c = false) :
    a.add b = b.add a ∧ a.add a = a ∧ a.add .ok = a ∧
    (a ≠ .no_begin → b ≠ .no_begin → c ≠ .no_begin →
      (a.add b).add c = a.add (b.add c)) := by
  revert ha hb hc
  cases a <;> cases b <;> first
    | (intro h; exact absurd h (by decide))
    | (intro _ h; exact absurd h (by decide))
    | (cases c <;> decide)

/-- **C38** an outcome `x` together with "no new transaction" gives the corresponding combined
code whichever comes first. -/
theorem tx_no_begin_combines :
    ∀ p ∈ [(Tx.rollback, Tx.no_begin_rollback), (.mixed, .no_begin_mixed),
           (.hazard, .no_begin_hazard), (.committed, .no_begin_committed)],
      p.1.add .no_begin = p.2 ∧ Tx.add .no_begin p.1 = p.2 ∧
      p.2.value = p.1.value + Tx.no_begin.value := by
  decide

end Casual.Code
