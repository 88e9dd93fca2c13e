import Verif.Forward.Emit
/-! How messages end. -/
namespace Casual.Forward

/-- The forward and the transaction of a message that has arrived, or that was to arrive. -/
def inside : Phase → Option (Nat × Trid)
  | .held f t _ | .looking f t _ | .dropping f t | .found f t _ _ | .calling f t | .called f t _ | .storing f t
  | .stored f t | .failed f t | .committing f t | .rolling f t => some (f, t)
  | _ => none

def EndIn (c : Nat) (t : Trid) (l : List Obs) : Prop := .commit c t ∈ l ∨ .rollback c t ∈ l

theorem EndIn.cons {c : Nat} {t : Trid} {l : List Obs} (o : Obs) (h : EndIn c t l) : EndIn c t (o :: l) :=
  h.imp (List.mem_cons_of_mem _) (List.mem_cons_of_mem _)

/-- The last phases are reached by a commit or a rollback. -/
def Said (c : Nat) : Phase → List Obs → Prop
  | .committing _ t, l => .commit c t ∈ l
  | .rolling _ t, l => .rollback c t ∈ l
  | _, _ => True

theorem Said.cons {c : Nat} {ph : Phase} {l : List Obs} {o : Obs} (h : Said c ph l) : Said c ph (o :: l) := by
  cases ph <;> first | trivial | exact List.mem_cons_of_mem _ h

theorem said_hear {c : Nat} {ph : Phase} {l : List Obs} {o : Obs} (h : Said c ph l) : Said c (hear l ph o) (o :: l) := by
  have hk := h.cons (o := o)
  cases ph with
  | asked f t =>
    cases o with
    | got c' m => cases m <;> simp only [hear] <;> first | trivial | (split <;> trivial)
    | forgotten c' d => cases d <;> trivial
    | _ => trivial
  | looking f t m =>
    cases o with
    | found c' p => cases p <;> trivial
    | _ => trivial
  | dropping f t => cases o <;> trivial
  | calling f t =>
    cases o with
    | replied c' ok m => cases ok <;> trivial
    | _ => trivial
  | storing f t =>
    cases o with
    | acked c' ok => cases ok <;> trivial
    | _ => trivial
  | committing f t =>
    cases o with
    | committed c' e => cases e <;> first | exact hk | trivial
    | _ => exact hk
  | rolling f t =>
    cases o with
    | rolledBack c' ok => trivial
    | _ => exact hk
  | idle => rw [hear_idle]; trivial
  | over => rw [hear_over]; trivial
  | bad => rw [hear_bad]; trivial
  | held f t m => cases o <;> trivial
  | found f t m p => cases o <;> trivial
  | called f t m => cases o <;> trivial
  | stored f t => cases o <;> trivial
  | failed f t => cases o <;> trivial

theorem said_say {c : Nat} {ph : Phase} {l : List Obs} {o : Obs} (ho : said o = some c) : Said c (say l ph o) (o :: l) := by
  cases ph with
  | idle => cases o <;> trivial
  | held f t m => cases o <;> simp only [say] <;> first | trivial | (split <;> trivial)
  | looking f t m => cases o <;> trivial
  | found f t m p => cases o <;> simp only [say] <;> first | trivial | (split <;> trivial)
  | called f t m =>
    cases o with
    | commit c' t' =>
      cases ho
      simp only [say]
      split
      · next h => obtain ⟨rfl, _⟩ := h; exact List.mem_cons_self ..
      · trivial
    | _ => simp only [say]; first | trivial | (split <;> trivial)
  | stored f t =>
    cases o with
    | commit c' t' =>
      cases ho
      simp only [say]
      split
      · next h => subst h; exact List.mem_cons_self ..
      · trivial
    | _ => trivial
  | failed f t =>
    cases o with
    | rollback c' t' =>
      cases ho
      simp only [say]
      split
      · next h => subst h; exact List.mem_cons_self ..
      · trivial
    | _ => trivial
  | _ => trivial

theorem said_facts (c : Nat) (l : List Obs) : Said c (walk c l) l := by
  induction l with
  | nil => trivial
  | cons o l ih =>
    rw [walk]
    split
    · exact said_hear ih
    · split
      · next h => exact said_say h
      · exact ih.cons

theorem inside_hear {l : List Obs} {ph : Phase} {o : Obs} {r : Nat × Trid} (h : inside ph = some r) :
    inside (hear l ph o) = some r ∨ (hear l ph o = .over ∧ ((∃ f, ph = .committing f r.2) ∨ ∃ f, ph = .rolling f r.2)) := by
  cases ph with
  | idle => cases h
  | asked f t => cases h
  | over => cases h
  | bad => cases h
  | looking f t m =>
    cases o with
    | found c' p => cases p <;> exact Or.inl h
    | _ => exact Or.inl h
  | dropping f t => cases o <;> exact Or.inl h
  | calling f t =>
    cases o with
    | replied c' ok m => cases ok <;> exact Or.inl h
    | _ => exact Or.inl h
  | storing f t =>
    cases o with
    | acked c' ok => cases ok <;> exact Or.inl h
    | _ => exact Or.inl h
  | committing f t =>
    cases o with
    | committed c' e =>
      cases e with
      | prepare => exact Or.inl h
      | commit => cases h; exact Or.inr ⟨rfl, Or.inl ⟨f, rfl⟩⟩
      | rollback => cases h; exact Or.inr ⟨rfl, Or.inl ⟨f, rfl⟩⟩
    | _ => exact Or.inl h
  | rolling f t =>
    cases o with
    | rolledBack c' ok => cases h; exact Or.inr ⟨rfl, Or.inr ⟨f, rfl⟩⟩
    | _ => exact Or.inl h
  | held f t m => cases o <;> exact Or.inl h
  | found f t m p => cases o <;> exact Or.inl h
  | called f t m => cases o <;> exact Or.inl h
  | stored f t => cases o <;> exact Or.inl h
  | failed f t => cases o <;> exact Or.inl h

theorem inside_say {l : List Obs} {ph : Phase} {o : Obs} {r : Nat × Trid} (h : inside ph = some r) :
    inside (say l ph o) = some r ∨ say l ph o = .bad := by
  cases ph with
  | idle => cases h
  | asked f t => cases h
  | over => cases h
  | bad => cases h
  | held f t m => cases o <;> first | exact Or.inr rfl | (simp only [say]; split <;> first | exact Or.inl h | exact Or.inr rfl)
  | looking f t m => cases o <;> first | exact Or.inl h | exact Or.inr rfl
  | found f t m p => cases o <;> first | exact Or.inr rfl | (simp only [say]; split <;> first | exact Or.inl h | exact Or.inr rfl)
  | called f t m => cases o <;> first | exact Or.inr rfl | (simp only [say]; split <;> first | exact Or.inl h | exact Or.inr rfl)
  | stored f t => cases o <;> first | exact Or.inr rfl | (simp only [say]; split <;> first | exact Or.inl h | exact Or.inr rfl)
  | failed f t => cases o <;> first | exact Or.inr rfl | (simp only [say]; split <;> first | exact Or.inl h | exact Or.inr rfl)
  | _ => exact Or.inr rfl

/-- A message that has arrived stays inside, until a commit or a rollback. -/
theorem inside_stays {c : Nat} {b : List Obs} {r : Nat × Trid} (hb : inside (walk c b) = some r) :
    ∀ a, walk c (a ++ b) ≠ .bad →
      inside (walk c (a ++ b)) = some r ∨ (walk c (a ++ b) = .over ∧ EndIn c r.2 (a ++ b)) := by
  intro a
  induction a with
  | nil => intro _; exact Or.inl hb
  | cons o a ih =>
    intro hg
    have hg' : walk c (a ++ b) ≠ .bad := walk_good (a := [o]) hg
    rw [List.cons_append] at hg ⊢
    rcases ih hg' with ih | ⟨ih, he⟩
    · by_cases ho : heard o = some c
      · rw [walk, if_pos ho]
        rcases inside_hear (l := a ++ b) (o := o) ih with h | ⟨h, h'⟩
        · exact Or.inl h
        · refine Or.inr ⟨h, ?_⟩
          have hs := said_facts c (a ++ b)
          rcases h' with ⟨f, e⟩ | ⟨f, e⟩ <;> rw [e] at hs
          · exact Or.inl (List.mem_cons_of_mem _ hs)
          · exact Or.inr (List.mem_cons_of_mem _ hs)
      · rw [walk, if_neg ho] at hg ⊢
        by_cases hs : said o = some c
        · rw [if_pos hs] at hg ⊢
          exact Or.inl ((inside_say ih).resolve_right hg)
        · rw [if_neg hs] at hg ⊢
          exact Or.inl ih
    · have hover : walk c (o :: (a ++ b)) = .over := by
        by_cases ho : heard o = some c
        · rw [walk, if_pos ho, ih, hear_over]
        · rw [walk, if_neg ho] at hg ⊢
          by_cases hs : said o = some c
          · rw [if_pos hs, ih, say_over] at hg
            exact absurd rfl hg
          · rw [if_neg hs]; exact ih
      exact Or.inr ⟨hover, he.cons o⟩

/-- After a failure there is a rollback. -/
theorem failed_stays {c f : Nat} {t : Trid} {b : List Obs} (hb : walk c b = .failed f t) :
    ∀ a, walk c (a ++ b) ≠ .bad → walk c (a ++ b) = .failed f t ∨ .rollback c t ∈ a := by
  intro a
  induction a with
  | nil => intro _; exact Or.inl hb
  | cons o a ih =>
    intro hg
    have hg' : walk c (a ++ b) ≠ .bad := walk_good (a := [o]) hg
    rw [List.cons_append] at hg ⊢
    rcases ih hg' with ih | ih
    · by_cases ho : heard o = some c
      · rw [walk, if_pos ho, ih]
        left; cases o <;> rfl
      · rw [walk, if_neg ho] at hg ⊢
        by_cases hs : said o = some c
        · rw [if_pos hs, ih] at hg
          right
          cases o with
          | rollback c' t' =>
            cases hs
            simp only [say] at hg
            split at hg
            · next e => subst e; exact List.mem_cons_self ..
            · exact absurd rfl hg
          | _ => exact absurd rfl hg
        · rw [if_neg hs]; exact Or.inl ih
    · exact Or.inr (List.mem_cons_of_mem _ ih)

/-! ### Once -/

/-- A commit or a rollback. -/
def endsC (c : Nat) : Obs → Bool
  | .commit d _ | .rollback d _ => d == c
  | _ => false

def endCount (c : Nat) (l : List Obs) : Nat := (l.filter (endsC c)).length

def notEnded : Phase → Bool
  | .committing _ _ | .rolling _ _ | .over | .bad => false
  | _ => true

theorem notEnded_hear {l ph o} (h : notEnded (hear l ph o) = true) : notEnded ph = true := by
  cases ph with
  | committing f t =>
    cases o with
    | committed c' e => cases e <;> exact h
    | _ => exact h
  | rolling f t => cases o <;> exact h
  | over => rw [hear_over] at h; exact h
  | bad => rw [hear_bad] at h; exact h
  | _ => rfl

theorem notEnded_say {l ph o} (h : say l ph o ≠ .bad) : notEnded ph = true := by
  cases ph with
  | committing f t => exact absurd rfl h
  | rolling f t => exact absurd rfl h
  | over => exact absurd (say_over ..) h
  | bad => exact absurd rfl h
  | _ => rfl

theorem say_end {l ph o} {c : Nat} (ho : endsC c o = true) : notEnded (say l ph o) = false := by
  cases o with
  | commit d t =>
    cases ph <;> simp only [say] <;> first | rfl | (split <;> rfl)
  | rollback d t =>
    cases ph <;> simp only [say] <;> first | rfl | (split <;> rfl)
  | _ => cases ho

theorem endCount_le {c : Nat} {l : List Obs} (hg : walk c l ≠ .bad) :
    endCount c l ≤ 1 ∧ (notEnded (walk c l) = true → endCount c l = 0) := by
  induction l with
  | nil => exact ⟨Nat.zero_le _, fun _ => rfl⟩
  | cons o l ih =>
    obtain ⟨ih1, ih2⟩ := ih (walk_good (a := [o]) hg)
    by_cases ho : heard o = some c
    · have hn : endsC c o = false := by cases o <;> first | rfl | (cases ho; done)
      have he : endCount c (o :: l) = endCount c l := by simp [endCount, hn]
      rw [he]
      refine ⟨ih1, fun h => ih2 ?_⟩
      rw [walk, if_pos ho] at h
      exact notEnded_hear h
    · rw [walk, if_neg ho] at hg ⊢
      by_cases hs : said o = some c
      · rw [if_pos hs] at hg ⊢
        have h0 := ih2 (notEnded_say hg)
        by_cases he : endsC c o = true
        · have : endCount c (o :: l) = endCount c l + 1 := by simp [endCount, he]
          rw [this, h0, say_end he]
          exact ⟨Nat.le_refl _, fun h => by cases h⟩
        · have : endCount c (o :: l) = endCount c l := by simp [endCount, he]
          rw [this, h0]
          exact ⟨Nat.zero_le _, fun _ => rfl⟩
      · have hn : endsC c o = false := by
          cases o <;> first | rfl | skip
          · next d t => simp only [endsC, beq_eq_false_iff_ne]; intro e; exact hs (by rw [← e]; rfl)
          · next d t => simp only [endsC, beq_eq_false_iff_ne]; intro e; exact hs (by rw [← e]; rfl)
        have he : endCount c (o :: l) = endCount c l := by simp [endCount, hn]
        rw [he, if_neg hs]
        exact ⟨ih1, ih2⟩

/-- What is committed or rolled back, was dequeued, in this transaction. -/
theorem end_deq {c : Nat} {t : Trid} {o : Obs} {l : List Obs} (h : o = .commit c t ∨ o = .rollback c t)
    (hg : walk c (o :: l) ≠ .bad) : ∃ f, Deq c f t l := by
  have hf := facts c l
  rcases h with rfl | rfl
  · rw [walk, if_neg (by simp [heard]), if_pos (show said (Obs.commit c t) = some c from rfl)] at hg
    cases hw : walk c l with
    | stored f t' =>
      rw [hw] at hf hg
      simp only [say] at hg
      split at hg
      · next e => subst e; exact ⟨f, Storing.deq hf.1⟩
      · exact absurd rfl hg
    | called f t' m =>
      rw [hw] at hf hg
      simp only [say] at hg
      split at hg
      · next e =>
        obtain ⟨rfl, _⟩ := e
        obtain ⟨⟨m, p, h, _⟩, _⟩ := hf
        exact ⟨f, h.1.1⟩
      · exact absurd rfl hg
    | _ => rw [hw] at hg; exact absurd rfl hg
  · rw [walk, if_neg (by simp [heard]), if_pos (show said (Obs.rollback c t) = some c from rfl)] at hg
    cases hw : walk c l with
    | failed f t' =>
      rw [hw] at hf hg
      simp only [say] at hg
      split at hg
      · next e => subst e; exact ⟨f, hf⟩
      · exact absurd rfl hg
    | _ => rw [hw] at hg; exact absurd rfl hg

theorem commit_finished {c : Nat} {t : Trid} {l : List Obs} (hg : walk c (.commit c t :: l) ≠ .bad) : ∃ f, Finished c f t l := by
  have hf := facts c l
  rw [walk, if_neg (by simp [heard]), if_pos (show said (Obs.commit c t) = some c from rfl)] at hg
  cases hw : walk c l with
  | stored f t' =>
    rw [hw] at hf hg
    simp only [say] at hg
    split at hg
    · next e => subst e; exact ⟨f, Or.inl hf⟩
    · exact absurd rfl hg
  | called f t' m =>
    rw [hw] at hf hg
    simp only [say] at hg
    split at hg
    · next e =>
      obtain ⟨rfl, hc⟩ := e
      obtain ⟨x, hx, hk⟩ := confOf_any hc
      simp only [Bool.and_eq_true, beq_iff_eq] at hk
      exact ⟨f, Or.inr ⟨m, x, hx, hk.1, hk.2, hf⟩⟩
    · exact absurd rfl hg
  | _ => rw [hw] at hg; exact absurd rfl hg

end Casual.Forward
