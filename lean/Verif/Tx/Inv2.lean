import Verif.Tx.Inv
/-! The operations of the transaction context keep the invariant. -/
namespace Casual.Tx
open Casual.Code

theorem accum_ind {α : Type} {P : Ctx → Prop} {f : α → Ctx → Ctx × Tx} {l : List α}
    (hf : ∀ a ∈ l, ∀ c, P c → P (f a c).1) : ∀ c k, P c → P (accum f l (c, k)).1 := by
  induction l with
  | nil => intro c k h; exact h
  | cons a l ih =>
    intro c k h
    exact ih (fun b hb => hf b (List.mem_cons_of_mem _ hb)) _ _ (hf a List.mem_cons_self c h)

theorem accum_code {α : Type} {f : α → Ctx → Ctx × Tx} {l : List α} :
    ∀ c k, (accum f l (c, k)).2 = .ok → k = .ok := by
  induction l with
  | nil => intro c k h; exact h
  | cons a l ih => intro c k h; exact ((add_ok_iff _ _).mp (ih _ _ h)).1

/-- `c'` is `c` with more events, all of them satisfying `p`. -/
def Extends (p : Event → Prop) (c c' : Ctx) : Prop :=
  ∃ evs, (∀ ev ∈ evs, p ev) ∧ c' = { c with log := evs ++ c.log }

theorem Extends.refl {p : Event → Prop} (c : Ctx) : Extends p c c := ⟨[], by simp, rfl⟩

theorem Extends.trans {p : Event → Prop} {a b c : Ctx} (h1 : Extends p a b) (h2 : Extends p b c) :
    Extends p a c := by
  obtain ⟨e1, p1, rfl⟩ := h1
  obtain ⟨e2, p2, rfl⟩ := h2
  refine ⟨e2 ++ e1, ?_, by simp⟩
  intro ev hev
  rcases List.mem_append.mp hev with h | h
  · exact p2 _ h
  · exact p1 _ h

theorem Extends.emit {p : Event → Prop} {c : Ctx} {ev : Event} (h : p ev) :
    Extends p c (emit ev c) := ⟨[ev], by simpa using h, rfl⟩

theorem accum_extends {α : Type} {p : Event → Prop} {f : α → Ctx → Ctx × Tx} {l : List α}
    (hf : ∀ a ∈ l, ∀ c, Extends p c (f a c).1) (c : Ctx) (k : Tx) :
    Extends p c (accum f l (c, k)).1 :=
  accum_ind (P := fun c' => Extends p c c') (fun a ha c' h => h.trans (hf a ha c')) c k
    (Extends.refl c)

def isStop (x : Xid) (f : Flag) (ev : Event) : Prop := ∃ r k, ev = .xa (.stop r x f) k
def isStart (x : Xid) (rs : List Rm) (ev : Event) : Prop :=
  ∃ r f k, r ∈ rs ∧ ev = .xa (.start r x f) k
def isRollback (x : Xid) (ev : Event) : Prop := ∃ r k, ev = .xa (.rollback r x) k

theorem stopAll_extends (e : Env) (x : Xid) (f : Flag) (rs : List Rm) (c : Ctx) :
    Extends (isStop x f) c (stopAll e x f rs c).1 := by
  refine accum_extends ?_ c _
  intro r _ c
  split
  · exact Extends.emit ⟨r, _, rfl⟩
  · exact Extends.refl c

theorem startAll_extends (e : Env) (x : Xid) (f : Flag) (among rs : List Rm) (c : Ctx) :
    Extends (isStart x rs) c (startAll e x f among rs c).1 := by
  refine accum_extends ?_ c _
  intro r hr c
  split
  · exact Extends.emit ⟨r, _, _, hr, rfl⟩
  · exact Extends.refl c

/-- Adding events that do not use `(r, x)` does not change the last use. -/
theorem ended_mono {r : Rm} {x : Xid} {log : List Event} (h : ended log r x) {evs : List Event}
    (hn : ∀ ev ∈ evs, uses r x ev = false) : ended (evs ++ log) r x := by
  obtain ⟨k, h1, h2⟩ := h
  refine ⟨k, ?_, h2⟩
  rw [List.find?_append]
  have : evs.find? (uses r x) = none := by
    rw [List.find?_eq_none]
    intro ev hev; simp [hn ev hev]
  rw [this]; exact h1

theorem stopAll_ended (e : Env) (x : Xid) :
    ∀ (rs : List Rm) (c : Ctx) (k : Tx),
      (accum (fun r c => if r ∈ e.all then ((doXa e (.stop r x .success) c).1, toTx (doXa e (.stop r x .success) c).2)
        else (c, .ok)) rs (c, k)).2 = .ok →
      ∀ r, (r ∈ rs ∧ r ∈ e.all ∨ ended c.log r x) →
      ended (accum (fun r c => if r ∈ e.all then ((doXa e (.stop r x .success) c).1, toTx (doXa e (.stop r x .success) c).2)
        else (c, .ok)) rs (c, k)).1.log r x := by
  intro rs
  induction rs with
  | nil =>
    intro c k h r hr
    rcases hr with ⟨hr, _⟩ | hr
    · cases hr
    · exact hr
  | cons a l ih =>
    intro c k h r hr
    unfold accum at h ⊢
    refine ih _ _ h r ?_
    have hc := accum_code _ _ h
    have hc := ((add_ok_iff _ _).mp hc).2
    by_cases har : a = r
    · subst har
      by_cases ha : a ∈ e.all
      · right
        rw [if_pos ha] at hc ⊢
        have hk := (toTx_ok_iff _).mp hc
        refine ⟨_, ?_, hk⟩
        show List.find? _ (_ :: _) = _
        rw [List.find?_cons_of_pos (by simp [uses])]
        rfl
      · rcases hr with ⟨_, hr⟩ | hr
        · exact absurd hr ha
        · rw [if_neg ha]; exact Or.inr hr
    · rcases hr with ⟨hr1, hr2⟩ | hr
      · rcases List.mem_cons.mp hr1 with hr1 | hr1
        · exact absurd hr1.symm har
        · exact Or.inl ⟨hr1, hr2⟩
      · right
        split
        · exact ended_mono hr (evs := [_]) (by
            intro ev hev
            rw [List.mem_singleton] at hev
            subst hev
            simp [uses, har])
        · exact hr

theorem stopAll_ok {e : Env} {x : Xid} {rs : List Rm} {c : Ctx}
    (h : (stopAll e x .success rs c).2 = .ok) {r : Rm} (hr : r ∈ rs) (ha : r ∈ e.all) :
    ended (stopAll e x .success rs c).1.log r x :=
  stopAll_ended e x rs c .ok h r (Or.inl ⟨hr, ha⟩)

/-! ### the full rollback -/

theorem Full.add {log : List Event} (h : Full log) {ev : Event}
    (h1 : ∀ r x k, ev ≠ .xa (.rollback r x) k)
    (h2 : ∀ r x, touches r x ev = true → ∀ r' k, Event.xa (.rollback r' x) k ∉ log) :
    Full (ev :: log) := by
  intro x r k hm r' ht
  rcases List.mem_cons.mp hm with hm | hm
  · exact absurd hm.symm (h1 _ _ _)
  rcases touched_cons.mp ht with ht | ht
  · exact absurd hm (h2 r' x ht r k)
  · obtain ⟨k', hk'⟩ := h x r k hm r' ht
    exact ⟨k', List.mem_cons_of_mem _ hk'⟩

theorem Full.neutral {log : List Event} (h : Full log) {ev : Event} (hn : neutral ev = true) :
    Full (ev :: log) := by
  refine h.add ?_ ?_
  · intro r x k he; subst he; simp [Tx.neutral] at hn
  · intro r x ht
    cases ev <;> simp [Tx.neutral, touches] at hn ht
    rename_i op _
    cases op <;> simp at hn ht

theorem neutral_many {e : Env} {ts : List Tran} {c : Ctx} {evs : List Event}
    (h : Inv e ts c) (hf : Full c.log) (hn : ∀ ev ∈ evs, neutral ev = true) :
    InvL e ts c.next c.nextCorr c.outstanding (evs ++ c.log) ∧ Full (evs ++ c.log) := by
  induction evs with
  | nil => exact ⟨h, hf⟩
  | cons a l ih =>
    have := ih (fun ev hev => hn ev (List.mem_cons_of_mem _ hev))
    have ha := hn a List.mem_cons_self
    exact ⟨this.1.add (Addable.neutral ha), this.2.neutral ha⟩

theorem extends_neutral {e : Env} {ts : List Tran} {c c' : Ctx} {p : Event → Prop}
    (h : Inv e ts c) (hf : Full c.log) (hx : Extends p c c') (hn : ∀ ev, p ev → neutral ev = true) :
    Inv e ts c' ∧ Full c'.log := by
  obtain ⟨evs, hp, rfl⟩ := hx
  exact neutral_many h hf (fun ev hev => hn ev (hp ev hev))

theorem isStop_neutral {x : Xid} {f : Flag} (ev : Event) (h : isStop x f ev) :
    neutral ev = true := by
  obtain ⟨r, k, rfl⟩ := h; rfl

/-- Starting resources the transaction knows about. -/
theorem extends_start {e : Env} {ts : List Tran} {c c' : Ctx} {x : Xid} {rs : List Rm}
    (h : Inv e ts c) (hf : Full c.log) (hx : Extends (isStart x rs) c c')
    (hx1 : ∀ n, x = .mine n → n < c.next ∧ (∀ t ∈ ts, t.trid = some x → ∀ r ∈ rs, r ∈ t.involved))
    (hx2 : none? (rollsBack x) c.log) :
    Inv e ts c' ∧ Full c'.log := by
  obtain ⟨evs, hp, rfl⟩ := hx
  show InvL e ts c.next c.nextCorr c.outstanding (evs ++ c.log) ∧ Full (evs ++ c.log)
  have : (InvL e ts c.next c.nextCorr c.outstanding (evs ++ c.log) ∧ Full (evs ++ c.log)) ∧
      none? (rollsBack x) (evs ++ c.log) := by
    induction evs with
    | nil => exact ⟨⟨h, hf⟩, hx2⟩
    | cons a l ih =>
      obtain ⟨⟨h1, h2⟩, h3⟩ := ih (fun ev hev => hp ev (List.mem_cons_of_mem _ hev))
      obtain ⟨r, f, k, hr, rfl⟩ := hp a List.mem_cons_self
      refine ⟨⟨?_, ?_⟩, ?_⟩
      · exact h1.add (Addable.start (fun n hn => ⟨(hx1 n hn).1, fun t ht htr => (hx1 n hn).2 t ht htr r hr⟩))
      · refine h2.add (by intro _ _ _ he; cases he) ?_
        intro r' y ht r'' k' hm
        simp only [touches, Bool.and_eq_true, decide_eq_true_eq] at ht
        have := h3 _ hm
        rw [ht.2] at this
        simp [rollsBack] at this
      · intro ev hev
        rcases List.mem_cons.mp hev with rfl | hev
        · rfl
        · exact h3 _ hev
  exact this.1

/-! ### decisions -/

theorem none_of_undec {e : Env} {ts : List Tran} {n nc : Nat} {out log} (h : InvL e ts n nc out log)
    {t : Tran} (ht : t ∈ ts) {m : Nat} (hm : t.trid = some (.mine m)) :
    none? (commits (.mine m)) log ∧ none? (rollsBack (.mine m)) log :=
  ⟨fun ev hev => (h.undec t ht m hm ev hev).1, fun ev hev => (h.undec t ht m hm ev hev).2⟩

/-- No transaction of another process is ever rolled back from here. -/
theorem none_other {e : Env} {ts : List Tran} {n nc : Nat} {out log} (h : InvL e ts n nc out log)
    (a b : Nat) : none? (rollsBack (.other a b)) log := by
  intro ev hev
  cases hr : rollsBack (.other a b) ev with
  | false => rfl
  | true =>
    obtain ⟨m, _, hm, _⟩ := h.mineL ev hev _ (Or.inr hr)
    cases hm

theorem none_fresh {e : Env} {ts : List Tran} {n nc : Nat} {out log} (h : InvL e ts n nc out log) :
    none? (rollsBack (.mine n)) log := by
  intro ev hev
  cases hr : rollsBack (.mine n) ev with
  | false => rfl
  | true => exact absurd (h.freshL ev hev n (Or.inr (Or.inl hr))) (Nat.lt_irrefl _)

/-- A live transaction has no rollback in the log. -/
theorem none_live {e : Env} {ts : List Tran} {n nc : Nat} {out log} (h : InvL e ts n nc out log)
    {t : Tran} (ht : t ∈ ts) {x : Xid} (hx : t.trid = some x) : none? (rollsBack x) log := by
  cases x with
  | mine m => exact (none_of_undec h ht hx).2
  | other a b => exact none_other h a b

theorem commitT_inv {e : Env} {ts : List Tran} {t : Tran} {c : Ctx}
    (h : Inv e (t :: ts) c) (hf : Full c.log) (ho : t.own = true) (hs : t.state = 0) :
    Inv e ts (commitT e t c).1 ∧ Full (commitT e t c).1.log ∧
    (commitT e t c).1 = { c with log := (commitT e t c).1.log } := by
  obtain ⟨n, hn⟩ := own_iff.mp ho
  unfold commitT
  rw [hn]
  dsimp only
  have hx := stopAll_extends e (.mine n) .success t.involved c
  have hst := extends_neutral h hf hx isStop_neutral
  have hend := @stopAll_ok e (.mine n) t.involved c
  obtain ⟨evs, _, hev⟩ := hx
  generalize stopAll e (.mine n) .success t.involved c = s at hst hend hev ⊢
  obtain ⟨c', k⟩ := s
  dsimp only at hst hend hev ⊢
  obtain ⟨hI, hF⟩ := hst
  have hmem : t ∈ t :: ts := List.mem_cons_self
  obtain ⟨hnc, hnr⟩ := none_of_undec hI hmem hn
  have hto : ∀ r, touched c'.log r (.mine n) → r ∈ t.involved := fun r => hI.invol t hmem n r hn
  have htail : InvL e ts c'.next c'.nextCorr c'.outstanding c'.log :=
    hI.sublist (List.sublist_cons_self t ts)
  obtain ⟨d, hd⟩ := hI.began t hmem n hn
  have hne := hI.head_ne hn
  have hfr : n < c'.next := hI.freshT t hmem n hn
  split
  · refine ⟨htail, hF, ?_⟩
    rw [hev]
  · rename_i hk
    have hk : k = .ok := Classical.not_not.mp hk
    have hend : ∀ r, touched c'.log r (.mine n) → ended c'.log r (.mine n) := fun r hr =>
      hend hk (hto r hr) (hI.sub t hmem r (hto r hr))
    split
    · rename_i hl
      simp only [Bool.and_eq_true, decide_eq_true_eq, Tran.isLocal, Bool.not_eq_true'] at hl
      have hlv : none? (leaves (.mine n)) c'.log := by
        intro ev hev'
        cases hlv : leaves (.mine n) ev with
        | false => rfl
        | true => have := hI.ext t hmem n hn ev hev' hlv; rw [this] at hl; simp at hl
      split
      · rename_i hi
        refine ⟨htail.add ?_, ?_, ?_⟩
        · exact
          { good := ⟨⟨d, hd⟩, hnc, hnr, hlv, fun r hr => by have := hto r hr; rw [hi] at this; cases this⟩
            notCall := by intros; simp
            notReply := by intros; simp
            fresh := by
              intro m hm
              simp only [about, commits, rollsBack, leaves, touches, decide_eq_true_eq] at hm
              obtain hm | hm | hm | ⟨_, hm⟩ := hm
              · injection hm with hm; rw [← hm]; exact hfr
              · cases hm
              · cases hm
              · cases hm
            dec := by
              intro x hx
              simp only [commits, rollsBack, decide_eq_true_eq, Bool.false_eq_true, or_false] at hx
              subst hx
              exact ⟨⟨n, d, rfl, hd⟩, hne⟩
            touch := by intro m r hm; simp [touches] at hm
            leave := by intro m hm; simp [leaves] at hm }
        · exact hF.add (by intro _ _ _ he; cases he) (by intro r x hx; simp [touches] at hx)
        · show _ = _
          rw [hev]; rfl
      · rename_i r l hi
        have hlen : l = [] := by
          have := hl.2; rw [hi] at this
          cases l with
          | nil => rfl
          | cons => simp at this
        have hone : ∀ r', touched c'.log r' (.mine n) → r' = r := by
          intro r' hr'
          have := hto r' hr'
          rw [hi, hlen] at this
          simpa using this
        unfold resourceCommit
        split
        · refine ⟨?_, ?_, ?_⟩
          · refine htail.add ?_
            exact
              { good := ⟨⟨d, hd⟩, hnc, hnr, hlv, fun r' hr' => ⟨hone r' hr', hend r' hr'⟩⟩
                notCall := by intros; simp
                notReply := by intros; simp
                fresh := by
                  intro m hm
                  simp only [about, commits, rollsBack, leaves, touches, decide_eq_true_eq] at hm
                  obtain hm | hm | hm | ⟨_, hm⟩ := hm
                  · injection hm with hm; rw [← hm]; exact hfr
                  · cases hm
                  · cases hm
                  · cases hm
                dec := by
                  intro x hx
                  simp only [commits, rollsBack, decide_eq_true_eq, Bool.false_eq_true, or_false] at hx
                  subst hx
                  exact ⟨⟨n, d, rfl, hd⟩, hne⟩
                touch := by intro m r hm; simp [touches] at hm
                leave := by intro m hm; simp [leaves] at hm }
          · exact hF.add (by intro _ _ _ he; cases he) (by intro r x hx; simp [touches] at hx)
          · show _ = _
            rw [hev]; rfl
        · refine ⟨htail, hF, ?_⟩
          rw [hev]
    · refine ⟨?_, ?_, ?_⟩
      · refine htail.add ?_
        exact
          { good := ⟨⟨d, hd⟩, hnc, hnr, fun r hr => ⟨hto r hr, hend r hr⟩, fun corr st hc hr => by
              have := hI.st t hmem n corr st hn hc hr
              omega⟩
            notCall := by intros; simp
            notReply := by intros; simp
            fresh := by
              intro m hm
              simp only [about, commits, rollsBack, leaves, touches, decide_eq_true_eq] at hm
              obtain hm | hm | hm | ⟨_, hm⟩ := hm
              · injection hm with hm; rw [← hm]; exact hfr
              · cases hm
              · cases hm
              · cases hm
            dec := by
              intro x hx
              simp only [commits, rollsBack, decide_eq_true_eq, Bool.false_eq_true, or_false] at hx
              subst hx
              exact ⟨⟨n, d, rfl, hd⟩, hne⟩
            touch := by intro m r hm; simp [touches] at hm
            leave := by intro m hm; simp [leaves] at hm }
      · exact hF.add (by intro _ _ _ he; cases he) (by intro r x hx; simp [touches] at hx)
      · show _ = _
        rw [hev]; rfl

/-! ### sorting -/

theorem mem_insertSorted {r s : Rm} {l : List Rm} : r ∈ insertSorted s l ↔ r = s ∨ r ∈ l := by
  induction l with
  | nil => simp [insertSorted]
  | cons a l ih =>
    unfold insertSorted
    split
    · simp
    · rw [List.mem_cons, ih, List.mem_cons]
      constructor
      · rintro (h | h | h)
        · exact Or.inr (Or.inl h)
        · exact Or.inl h
        · exact Or.inr (Or.inr h)
      · rintro (h | h | h)
        · exact Or.inr (Or.inl h)
        · exact Or.inl h
        · exact Or.inr (Or.inr h)

theorem mem_sortRms {r : Rm} {l : List Rm} : r ∈ sortRms l ↔ r ∈ l := by
  induction l with
  | nil => simp [sortRms]
  | cons a l ih => simp [sortRms, mem_insertSorted, ih]

def Sorted : List Rm → Prop
  | [] => True
  | a :: l => (∀ b ∈ l, a ≤ b) ∧ Sorted l

theorem sorted_insert {r : Rm} {l : List Rm} (h : Sorted l) : Sorted (insertSorted r l) := by
  induction l with
  | nil => exact ⟨by simp, trivial⟩
  | cons a l ih =>
    unfold insertSorted
    split
    · rename_i hra
      refine ⟨?_, h⟩
      intro b hb
      rcases List.mem_cons.mp hb with rfl | hb
      · exact hra
      · exact Int.le_trans hra (h.1 b hb)
    · rename_i hra
      refine ⟨?_, ih h.2⟩
      intro b hb
      rcases mem_insertSorted.mp hb with rfl | hb
      · exact Int.le_of_lt (Int.not_le.mp hra)
      · exact h.1 b hb

theorem sorted_sort (l : List Rm) : Sorted (sortRms l) := by
  induction l with
  | nil => trivial
  | cons a l ih => exact sorted_insert ih

theorem mem_uniqueAdj {r : Rm} : ∀ {l : List Rm}, r ∈ uniqueAdj l ↔ r ∈ l
  | [] => by simp [uniqueAdj]
  | [a] => by simp [uniqueAdj]
  | a :: b :: l => by
    unfold uniqueAdj
    split
    · rename_i h
      rw [mem_uniqueAdj, h]; simp
    · rw [List.mem_cons, mem_uniqueAdj]; simp

theorem nodup_uniqueAdj : ∀ {l : List Rm}, Sorted l → (uniqueAdj l).Nodup
  | [], _ => by simp [uniqueAdj]
  | [a], _ => by simp [uniqueAdj]
  | a :: b :: l, h => by
    unfold uniqueAdj
    split
    · exact nodup_uniqueAdj h.2
    · rename_i hab
      refine List.nodup_cons.mpr ⟨?_, nodup_uniqueAdj h.2⟩
      rw [mem_uniqueAdj]
      intro hm
      rcases List.mem_cons.mp hm with hm | hm
      · exact hab hm
      · have h1 := h.2.1 a hm
        have h2 := h.1 b List.mem_cons_self
        exact hab (Int.le_antisymm h2 h1)

/-! ### rollback -/

/-- The loop over the resources in a local rollback. -/
theorem rollbackLoop {e : Env} {ts : List Tran} {n : Nat} {d : Option Time} :
    ∀ (rs : List Rm) (c : Ctx) (k : Tx), rs.Nodup → Inv e ts c →
      n < c.next → Event.began (.mine n) d ∈ c.log → (∀ t ∈ ts, t.trid ≠ some (.mine n)) →
      none? (commits (.mine n)) c.log → (∀ rs, Event.tmRollback (.mine n) rs ∉ c.log) →
      (∀ r ∈ rs, ∀ k, Event.xa (.rollback r (.mine n)) k ∉ c.log) →
      none? (leaves (.mine n)) c.log →
      (∀ r', touched c.log r' (.mine n) → ended c.log r' (.mine n)) →
      let s := accum (resourceRollback e (.mine n)) rs (c, k)
      Inv e ts s.1 ∧ Extends (isRollback (.mine n)) c s.1 ∧
        (∀ r ∈ rs, r ∈ e.all → ∃ k, Event.xa (.rollback r (.mine n)) k ∈ s.1.log) := by
  intro rs
  induction rs with
  | nil =>
    intro c k _ h _ _ _ _ _ _ _ _
    exact ⟨h, Extends.refl c, by simp⟩
  | cons r l ih =>
    intro c k hnd h hfr hb hne hnc hnt hnr hlv hend
    have hnd' := List.nodup_cons.mp hnd
    unfold accum
    dsimp only
    unfold resourceRollback at ih ⊢
    by_cases hr : r ∈ e.all
    · rw [if_pos hr]
      dsimp only [doXa]
      have hadd : Inv e ts (emit (.xa (.rollback r (.mine n)) (e.xa c.log (.rollback r (.mine n)))) c) := by
        refine InvL.add h ?_
        exact
          { good := ⟨⟨d, hb⟩, hnc, hnt, hnr r List.mem_cons_self, hlv, hend⟩
            notCall := by intros; simp
            notReply := by intros; simp
            fresh := by
              intro m hm
              simp only [about, commits, rollsBack, leaves, touches, decide_eq_true_eq] at hm
              obtain hm | hm | hm | ⟨_, hm⟩ := hm
              · cases hm
              · injection hm with hm; rw [← hm]; exact hfr
              · cases hm
              · cases hm
            dec := by
              intro x hx
              simp only [commits, rollsBack, decide_eq_true_eq, Bool.false_eq_true, false_or] at hx
              subst hx
              exact ⟨⟨n, d, rfl, hb⟩, hne⟩
            touch := by intro m r hm; simp [touches] at hm
            leave := by intro m hm; simp [leaves] at hm }
      obtain ⟨i1, i2, i3⟩ := ih (emit (.xa (.rollback r (.mine n)) (e.xa c.log (.rollback r (.mine n)))) c)
        (k.add (toTx (e.xa c.log (.rollback r (.mine n))))) hnd'.2 hadd hfr (List.mem_cons_of_mem _ hb) hne
        (by
          intro ev hev
          rcases List.mem_cons.mp hev with rfl | hev
          · rfl
          · exact hnc ev hev)
        (by
          intro rs hm
          rcases List.mem_cons.mp hm with hm | hm
          · cases hm
          · exact hnt rs hm)
        (by
          intro r' hr' k' hm
          rcases List.mem_cons.mp hm with hm | hm
          · injection hm with hm _; injection hm with hm _
            exact hnd'.1 (hm ▸ hr')
          · exact hnr r' (List.mem_cons_of_mem _ hr') k' hm)
        (by
          intro ev hev
          rcases List.mem_cons.mp hev with rfl | hev
          · rfl
          · exact hlv ev hev)
        (by
          intro r' ht
          rcases touched_cons.mp ht with ht | ht
          · simp [touches] at ht
          · exact ended_mono (hend r' ht) (evs := [_]) (by
              intro ev hev
              rw [List.mem_singleton] at hev
              subst hev; rfl))
      refine ⟨i1, (Extends.emit ⟨r, _, rfl⟩ : Extends (isRollback (.mine n)) c _).trans i2, ?_⟩
      intro r' hr' ha
      rcases List.mem_cons.mp hr' with rfl | hr'
      · obtain ⟨evs, _, he⟩ := i2
        refine ⟨e.xa c.log (.rollback r' (.mine n)), ?_⟩
        have hm : Event.xa (.rollback r' (.mine n)) (e.xa c.log (.rollback r' (.mine n))) ∈
            ({ emit (.xa (.rollback r' (.mine n)) (e.xa c.log (.rollback r' (.mine n)))) c with
              log := evs ++ (emit (.xa (.rollback r' (.mine n)) (e.xa c.log (.rollback r' (.mine n)))) c).log } : Ctx).log :=
          List.mem_append_right _ List.mem_cons_self
        rw [← he] at hm
        exact hm
      · exact i3 r' hr' ha
    · rw [if_neg hr]
      obtain ⟨i1, i2, i3⟩ := ih c (k.add .error) hnd'.2 h hfr hb hne hnc hnt
        (fun r' hr' => hnr r' (List.mem_cons_of_mem _ hr')) hlv hend
      refine ⟨i1, i2, ?_⟩
      intro r' hr' ha
      rcases List.mem_cons.mp hr' with rfl | hr'
      · exact absurd ha hr
      · exact i3 r' hr' ha

theorem rollbackT_inv {e : Env} {ts : List Tran} {t : Tran} {c : Ctx}
    (h : Inv e (t :: ts) c) (hf : Full c.log) (ho : t.own = true) :
    Inv e ts (rollbackT e t c).1 ∧ Full (rollbackT e t c).1.log ∧
    (rollbackT e t c).1 = { c with log := (rollbackT e t c).1.log } := by
  obtain ⟨n, hn⟩ := own_iff.mp ho
  unfold rollbackT
  rw [hn]
  dsimp only
  have hx := stopAll_extends e (.mine n) .success t.involved c
  have hst := extends_neutral h hf hx isStop_neutral
  have hend := @stopAll_ok e (.mine n) t.involved c
  obtain ⟨evs, _, hev⟩ := hx
  generalize stopAll e (.mine n) .success t.involved c = s at hst hend hev ⊢
  obtain ⟨c', k⟩ := s
  dsimp only at hst hend hev ⊢
  obtain ⟨hI, hF⟩ := hst
  have hmem : t ∈ t :: ts := List.mem_cons_self
  obtain ⟨hnc, hnr⟩ := none_of_undec hI hmem hn
  have hto : ∀ r, touched c'.log r (.mine n) → r ∈ t.involved := fun r => hI.invol t hmem n r hn
  have htail : InvL e ts c'.next c'.nextCorr c'.outstanding c'.log :=
    hI.sublist (List.sublist_cons_self t ts)
  obtain ⟨d, hd⟩ := hI.began t hmem n hn
  have hne := hI.head_ne hn
  have hfr : n < c'.next := hI.freshT t hmem n hn
  split
  · refine ⟨htail, hF, ?_⟩
    rw [hev]
  · rename_i hk
    have hk : k = .ok := Classical.not_not.mp hk
    have hend : ∀ r, touched c'.log r (.mine n) → ended c'.log r (.mine n) := fun r hr =>
      hend hk (hto r hr) (hI.sub t hmem r (hto r hr))
    split
    · rename_i hl
      simp only [Bool.and_eq_true, Tran.isLocal, Bool.not_eq_true'] at hl
      have hlv : none? (leaves (.mine n)) c'.log := by
        intro ev hev'
        cases hlv : leaves (.mine n) ev with
        | false => rfl
        | true => have := hI.ext t hmem n hn ev hev' hlv; rw [this] at hl; simp at hl
      obtain ⟨i1, i2, i3⟩ := rollbackLoop (e := e) (ts := ts) (n := n) (d := d)
        (uniqueAdj (sortRms (t.involved ++ e.fixed))) c' .ok
        (nodup_uniqueAdj (sorted_sort _)) htail hfr hd hne hnc
        (fun rs hm => by have := hnr _ hm; simp [rollsBack] at this)
        (fun r _ k hm => by have := hnr _ hm; simp [rollsBack] at this) hlv hend
      refine ⟨i1.add (Addable.neutral rfl), Full.neutral ?_ rfl, ?_⟩
      · obtain ⟨evs', hp', he'⟩ := i2
        rw [he'] at i3 ⊢
        dsimp only at i3 ⊢
        have hnt : ∀ r x, touched (evs' ++ c'.log) r x → touched c'.log r x := by
          rintro r x ⟨ev, hev1, hev2⟩
          rcases List.mem_append.mp hev1 with h1 | h1
          · obtain ⟨_, _, rfl⟩ := hp' ev h1
            simp [touches] at hev2
          · exact ⟨ev, h1, hev2⟩
        intro x r k' hm r' ht
        have ht := hnt r' x ht
        by_cases hxn : x = .mine n
        · subst hxn
          exact i3 r' (mem_uniqueAdj.mpr (mem_sortRms.mpr (List.mem_append_left _ (hto r' ht))))
            (hI.sub t hmem r' (hto r' ht))
        · have hm' : Event.xa (.rollback r x) k' ∈ c'.log := by
            rcases List.mem_append.mp hm with h1 | h1
            · obtain ⟨_, _, he⟩ := hp' _ h1
              injection he with he _; injection he with _ he
              exact absurd he hxn
            · exact h1
          obtain ⟨k'', hk''⟩ := hF x r k' hm' r' ht
          exact ⟨k'', List.mem_append_right _ hk''⟩
      · obtain ⟨evs', _, he'⟩ := i2
        dsimp only [emit]
        rw [he', hev]
    · refine ⟨?_, ?_, ?_⟩
      · refine htail.add ?_
        exact
          { good := ⟨⟨d, hd⟩, hnc, hnr, fun r hr => ⟨hto r hr, hend r hr⟩⟩
            notCall := by intros; simp
            notReply := by intros; simp
            fresh := by
              intro m hm
              simp only [about, commits, rollsBack, leaves, touches, decide_eq_true_eq] at hm
              obtain hm | hm | hm | ⟨_, hm⟩ := hm
              · cases hm
              · injection hm with hm; rw [← hm]; exact hfr
              · cases hm
              · cases hm
            dec := by
              intro x hx
              simp only [commits, rollsBack, decide_eq_true_eq, Bool.false_eq_true, false_or] at hx
              subst hx
              exact ⟨⟨n, d, rfl, hd⟩, hne⟩
            touch := by intro m r hm; simp [touches] at hm
            leave := by intro m hm; simp [leaves] at hm }
      · exact hF.add (by intro _ _ _ he; cases he) (by intro r x hx; simp [touches] at hx)
      · show _ = _
        rw [hev]; rfl

end Casual.Tx
