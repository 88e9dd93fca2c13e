import Verif.Forward.InvRun
/-! What must have happened before, in a log that keeps to the protocol. -/
namespace Casual.Forward

theorem hear_bad (l o) : hear l .bad o = .bad := by cases o <;> rfl
theorem say_bad (l o) : say l .bad o = .bad := by cases o <;> rfl

theorem walk_bad (c : Nat) (a b : List Obs) (h : walk c b = .bad) : walk c (a ++ b) = .bad := by
  induction a with
  | nil => exact h
  | cons o a ih =>
    rw [List.cons_append, walk, ih]
    split
    · exact hear_bad ..
    · split
      · exact say_bad ..
      · rfl

theorem walk_good {c : Nat} {a b : List Obs} (h : walk c (a ++ b) ≠ .bad) : walk c b ≠ .bad :=
  fun e => h (walk_bad c a b e)

theorem run_good (es : List Event) (c : Nat) : walk c (run es).log ≠ .bad := by
  by_cases hx : ∃ x ∈ (run es).flows, x.corr = c
  · obtain ⟨x, hx, rfl⟩ := hx
    rw [(inv_run es).W.here x hx]; exact phaseOf_not_bad
  · rcases (inv_run es).W.gone c (fun x hxm e => hx ⟨x, hxm, e⟩) with e | e <;> rw [e] <;> simp

theorem said_of_heard {o : Obs} {c : Nat} (h : heard o = some c) : said o = none := by
  cases o <;> first | rfl | (cases h; done)

/-! ### Facts -/

def Deq (c f : Nat) (t : Trid) (l : List Obs) : Prop := ∃ p q, .dequeue f c t p q ∈ l

def Held (c f : Nat) (t : Trid) (m : Nat) (l : List Obs) : Prop := Deq c f t l ∧ .got c (some m) ∈ l

def Looked (c f : Nat) (t : Trid) (m : Nat) (l : List Obs) : Prop :=
  Held c f t m l ∧ ∃ x v, .created f x ∈ l ∧ x.target.svc = some v ∧ .askService c v ∈ l

def Called (c f : Nat) (t : Trid) (l : List Obs) : Prop :=
  ∃ m p, Looked c f t m l ∧ .found c (some p) ∈ l ∧ .call c t m p ∈ l

def Answered (c f : Nat) (t : Trid) (m : Nat) (l : List Obs) : Prop := Called c f t l ∧ .replied c true m ∈ l

def Storing (c f : Nat) (t : Trid) (l : List Obs) : Prop :=
  ∃ x m n p q, .created f x ∈ l ∧ .enqueue c t n m x.delayed p q ∈ l ∧
    ((x.target = .queue n ∧ Held c f t m l) ∨ (x.target.svc.isSome = true ∧ x.target.dest = some n ∧ Answered c f t m l))

def Finished (c f : Nat) (t : Trid) (l : List Obs) : Prop :=
  (Storing c f t l ∧ .acked c true ∈ l) ∨
  ∃ m x, .created f x ∈ l ∧ x.target.svc.isSome = true ∧ x.target.dest = none ∧ Answered c f t m l

def Facts (c : Nat) : Phase → List Obs → Prop
  | .idle, l => ∀ f t, ¬ Deq c f t l
  | .asked f t, l | .dropping f t, l | .failed f t, l | .rolling f t, l => Deq c f t l
  | .held f t m, l => Held c f t m l
  | .looking f t m, l => Looked c f t m l
  | .found f t m p, l => Looked c f t m l ∧ .found c (some p) ∈ l
  | .calling f t, l => Called c f t l
  | .called f t m, l => Answered c f t m l
  | .storing f t, l => Storing c f t l
  | .stored f t, l => Storing c f t l ∧ .acked c true ∈ l
  | .committing f t, l => Finished c f t l
  | .over, l => ∃ f t, Deq c f t l
  | .bad, _ => True

section
variable {c f : Nat} {t : Trid} {m : Nat} {l : List Obs} (o : Obs)
theorem Deq.cons (h : Deq c f t l) : Deq c f t (o :: l) := by
  obtain ⟨p, q, h⟩ := h; exact ⟨p, q, List.mem_cons_of_mem _ h⟩
theorem Held.cons (h : Held c f t m l) : Held c f t m (o :: l) := ⟨h.1.cons o, List.mem_cons_of_mem _ h.2⟩
theorem Looked.cons (h : Looked c f t m l) : Looked c f t m (o :: l) := by
  obtain ⟨h, x, v, h1, h2, h3⟩ := h
  exact ⟨h.cons o, x, v, List.mem_cons_of_mem _ h1, h2, List.mem_cons_of_mem _ h3⟩
theorem Called.cons (h : Called c f t l) : Called c f t (o :: l) := by
  obtain ⟨m, p, h, h1, h2⟩ := h
  exact ⟨m, p, h.cons o, List.mem_cons_of_mem _ h1, List.mem_cons_of_mem _ h2⟩
theorem Answered.cons (h : Answered c f t m l) : Answered c f t m (o :: l) := ⟨h.1.cons o, List.mem_cons_of_mem _ h.2⟩
theorem Storing.cons (h : Storing c f t l) : Storing c f t (o :: l) := by
  obtain ⟨x, m, n, p, q, h1, h2, h3⟩ := h
  exact ⟨x, m, n, p, q, List.mem_cons_of_mem _ h1, List.mem_cons_of_mem _ h2,
    h3.imp (fun h => ⟨h.1, h.2.cons o⟩) fun h => ⟨h.1, h.2.1, h.2.2.cons o⟩⟩
theorem Finished.cons (h : Finished c f t l) : Finished c f t (o :: l) := by
  rcases h with ⟨h1, h2⟩ | ⟨m, x, h1, h2, h3, h4⟩
  · exact Or.inl ⟨h1.cons o, List.mem_cons_of_mem _ h2⟩
  · exact Or.inr ⟨m, x, List.mem_cons_of_mem _ h1, h2, h3, h4.cons o⟩
end

theorem Storing.deq {c f : Nat} {t : Trid} {l : List Obs} (h : Storing c f t l) : Deq c f t l := by
  obtain ⟨x, m, n, p, q, h1, h2, h3⟩ := h
  rcases h3 with ⟨_, h⟩ | ⟨_, _, h⟩
  · exact h.1
  · obtain ⟨⟨m, p, h, _⟩, _⟩ := h
    exact h.1.1

theorem Finished.deq {c f : Nat} {t : Trid} {l : List Obs} (h : Finished c f t l) : Deq c f t l := by
  rcases h with ⟨h, _⟩ | ⟨m, x, _, _, _, h⟩
  · exact h.deq
  · obtain ⟨⟨m, p, h, _⟩, _⟩ := h
    exact h.1.1

theorem Facts.cons {c : Nat} {ph : Phase} {l : List Obs} {o : Obs} (h : Facts c ph l) (hi : said o ≠ some c) :
    Facts c ph (o :: l) := by
  cases ph with
  | idle =>
    intro f t ⟨p, q, hm⟩
    rcases List.mem_cons.mp hm with rfl | hm
    · exact hi rfl
    · exact h f t ⟨p, q, hm⟩
  | asked f t => exact Deq.cons o h
  | dropping f t => exact Deq.cons o h
  | failed f t => exact Deq.cons o h
  | rolling f t => exact Deq.cons o h
  | held f t m => exact Held.cons o h
  | looking f t m => exact Looked.cons o h
  | found f t m p => exact ⟨Looked.cons o h.1, List.mem_cons_of_mem _ h.2⟩
  | calling f t => exact Called.cons o h
  | called f t m => exact Answered.cons o h
  | storing f t => exact Storing.cons o h
  | stored f t => exact ⟨Storing.cons o h.1, List.mem_cons_of_mem _ h.2⟩
  | committing f t => exact Finished.cons o h
  | over => obtain ⟨f, t, h⟩ := h; exact ⟨f, t, h.cons o⟩
  | bad => trivial

theorem confOf_mem {f : Nat} {l : List Obs} {x : Conf} (h : confOf f l = some x) : .created f x ∈ l := by
  induction l with
  | nil => cases h
  | cons o l ih =>
    by_cases hp : plain o = true
    · rw [confOf_plain hp] at h
      exact List.mem_cons_of_mem _ (ih h)
    · cases o with
      | created g y =>
        simp only [confOf] at h
        split at h
        · next e =>
          cases h; subst e; exact List.mem_cons_self ..
        · exact List.mem_cons_of_mem _ (ih h)
      | instances g n => exact List.mem_cons_of_mem _ (ih h)
      | shutdown => exact List.mem_cons_of_mem _ (ih h)
      | _ => exact absurd rfl hp

theorem confOf_any {f : Nat} {l : List Obs} {k : Conf → Bool} (h : (confOf f l).any k = true) :
    ∃ x, .created f x ∈ l ∧ k x = true := by
  cases hc : confOf f l with
  | none => rw [hc] at h; cases h
  | some x => rw [hc] at h; exact ⟨x, confOf_mem hc, h⟩

theorem facts_hear {c : Nat} {ph : Phase} {l : List Obs} {o : Obs} (h : Facts c ph l) (ho : heard o = some c) :
    Facts c (hear l ph o) (o :: l) := by
  have hk : Facts c ph (o :: l) := h.cons (by rw [said_of_heard ho]; simp)
  cases ph with
  | asked f t =>
    cases o with
    | got c' m =>
      cases ho
      cases m with
      | none => exact hk
      | some m =>
        simp only [hear]
        split
        · exact hk
        · exact ⟨hk, List.mem_cons_self ..⟩
    | forgetRequest c' => exact ⟨f, t, hk⟩
    | forgotten c' d =>
      cases d
      · exact hk
      · exact ⟨f, t, hk⟩
    | undelivered c' => exact ⟨f, t, hk⟩
    | _ => exact hk
  | looking f t m =>
    cases o with
    | found c' p =>
      cases ho
      cases p with
      | none => exact hk.1.1
      | some p => exact ⟨hk, List.mem_cons_self ..⟩
    | _ => exact hk
  | dropping f t => cases o <;> exact hk
  | calling f t =>
    cases o with
    | replied c' ok m =>
      cases ho
      cases ok with
      | true => exact ⟨hk, List.mem_cons_self ..⟩
      | false =>
        obtain ⟨m, p, hk, _⟩ := hk
        exact hk.1.1
    | _ => exact hk
  | storing f t =>
    cases o with
    | acked c' ok =>
      cases ho
      cases ok with
      | true => exact ⟨hk, List.mem_cons_self ..⟩
      | false => exact Storing.deq hk
    | undelivered c' => exact Storing.deq hk
    | _ => exact hk
  | committing f t =>
    cases o with
    | committed c' e =>
      cases e with
      | prepare => exact hk
      | commit => exact ⟨f, t, Finished.deq hk⟩
      | rollback => exact ⟨f, t, Finished.deq hk⟩
    | _ => exact hk
  | rolling f t =>
    cases o with
    | rolledBack c' ok => exact ⟨f, t, hk⟩
    | _ => exact hk
  | idle => rw [hear_idle]; exact hk
  | over => rw [hear_over]; exact hk
  | bad => rw [hear_bad]; exact hk
  | held f t m => cases o <;> exact hk
  | found f t m p => cases o <;> exact hk
  | called f t m => cases o <;> exact hk
  | stored f t => cases o <;> exact hk
  | failed f t => cases o <;> exact hk

theorem facts_say {c : Nat} {ph : Phase} {l : List Obs} {o : Obs} (h : Facts c ph l) (ho : said o = some c) :
    Facts c (say l ph o) (o :: l) := by
  cases ph with
  | idle =>
    cases o with
    | dequeue f c' t p q => cases ho; exact ⟨p, q, List.mem_cons_self ..⟩
    | _ => trivial
  | held f t m =>
    cases o with
    | askService c' v =>
      cases ho
      simp only [say]
      split
      · next hc =>
        obtain ⟨x, hx, hk⟩ := confOf_any hc
        exact ⟨Held.cons _ h, x, v, List.mem_cons_of_mem _ hx, by simpa using hk, List.mem_cons_self ..⟩
      · trivial
    | enqueue c' t' n m' d p q =>
      cases ho
      simp only [say]
      split
      · next hc =>
        obtain ⟨rfl, rfl, hc⟩ := hc
        obtain ⟨x, hx, hk⟩ := confOf_any hc
        simp only [Bool.and_eq_true, beq_iff_eq] at hk
        exact ⟨x, m', n, p, q, List.mem_cons_of_mem _ hx, by rw [hk.2]; exact List.mem_cons_self .., Or.inl ⟨hk.1, Held.cons _ h⟩⟩
      · trivial
    | _ => trivial
  | looking f t m =>
    cases o with
    | dropService c' => exact Deq.cons _ h.1.1
    | _ => trivial
  | found f t m p =>
    cases o with
    | call c' t' m' p' =>
      cases ho
      simp only [say]
      split
      · next hc =>
        obtain ⟨rfl, rfl, rfl⟩ := hc
        exact ⟨m', p', Looked.cons _ h.1, List.mem_cons_of_mem _ h.2, List.mem_cons_self ..⟩
      · trivial
    | _ => trivial
  | called f t m =>
    cases o with
    | enqueue c' t' n m' d p q =>
      cases ho
      simp only [say]
      split
      · next hc =>
        obtain ⟨rfl, rfl, hc⟩ := hc
        obtain ⟨x, hx, hk⟩ := confOf_any hc
        simp only [Bool.and_eq_true, beq_iff_eq] at hk
        exact ⟨x, m', n, p, q, List.mem_cons_of_mem _ hx, by rw [hk.2]; exact List.mem_cons_self ..,
          Or.inr ⟨hk.1.1, hk.1.2, Answered.cons _ h⟩⟩
      · trivial
    | commit c' t' =>
      cases ho
      simp only [say]
      split
      · next hc =>
        obtain ⟨rfl, hc⟩ := hc
        obtain ⟨x, hx, hk⟩ := confOf_any hc
        simp only [Bool.and_eq_true, beq_iff_eq] at hk
        exact Or.inr ⟨m, x, List.mem_cons_of_mem _ hx, hk.1, hk.2, Answered.cons _ h⟩
      · trivial
    | _ => trivial
  | stored f t =>
    cases o with
    | commit c' t' =>
      simp only [say]
      split
      · exact Or.inl ⟨Storing.cons _ h.1, List.mem_cons_of_mem _ h.2⟩
      · trivial
    | _ => trivial
  | failed f t =>
    cases o with
    | rollback c' t' =>
      simp only [say]
      split
      · exact Deq.cons _ h
      · trivial
    | _ => trivial
  | over => rw [say_over]; trivial
  | bad => trivial
  | asked f t => trivial
  | dropping f t => trivial
  | calling f t => trivial
  | storing f t => trivial
  | committing f t => trivial
  | rolling f t => trivial

theorem facts (c : Nat) (l : List Obs) : Facts c (walk c l) l := by
  induction l with
  | nil => intro f t ⟨p, q, h⟩; cases h
  | cons o l ih =>
    rw [walk]
    split
    · next h => exact facts_hear ih h
    · split
      · next h => exact facts_say ih h
      · next h => exact ih.cons h

/-! ### Once -/

/-- A forward that is created is not created again. -/
theorem created_once {s : State} (h : Inv s) {i : Nat} {x y : Conf} (hx : .created i x ∈ s.log) (hy : .created i y ∈ s.log) :
    x = y :=
  Option.some.inj ((h.F.once i x hx).2.symm.trans (h.F.once i y hy).2)

/-- A correlation is used once. -/
theorem deq_once {c : Nat} {l : List Obs} (hg : walk c l ≠ .bad) {f f' : Nat} {t t' : Trid}
    (h : Deq c f t l) (h' : Deq c f' t' l) : f = f' ∧ t = t' := by
  induction l with
  | nil => obtain ⟨p, q, h⟩ := h; cases h
  | cons o l ih =>
    have hg' : walk c l ≠ .bad := walk_good (a := [o]) hg
    obtain ⟨p, q, h⟩ := h
    obtain ⟨p', q', h'⟩ := h'
    have key : ∀ (f f' : Nat) (t t' : Trid) (p q p' q' : Option Nat), o = .dequeue f c t p q → .dequeue f' c t' p' q' ∈ l → False := by
      intro f f' t t' p q p' q' e hm
      subst e
      have hf := facts c l
      apply hg
      rw [walk, if_neg (by simp [heard]), if_pos (show said (Obs.dequeue f c t p q) = some c from rfl)]
      cases hw : walk c l with
      | idle => rw [hw] at hf; exact absurd ⟨p', q', hm⟩ (hf f' t')
      | _ => rfl
    rcases List.mem_cons.mp h with h | h
    · rcases List.mem_cons.mp h' with h' | h'
      · rw [← h] at h'; cases h'; exact ⟨rfl, rfl⟩
      · exact (key _ _ _ _ _ _ _ _ h.symm h').elim
    · rcases List.mem_cons.mp h' with h' | h'
      · exact (key _ _ _ _ _ _ _ _ h'.symm h).elim
      · exact ih hg' ⟨p, q, h⟩ ⟨p', q', h'⟩

end Casual.Forward
