import Verif.Call.Model
import Verif.Util
/-!
C84, C89: call descriptors. The specification `openCalls` is a function of what the program has seen.
-/
namespace Casual.Call

/-- The calls of which the program has the descriptor, and has neither fetched the reply nor
cancelled (newest event first). -/
def openCalls : List Event → List (Int × Nat)
  | [] => []
  | .called d c :: l => (d, c) :: openCalls l
  | .got d c _ :: l => (openCalls l).filter (· ≠ (d, c))
  | .cancelled d c :: l => (openCalls l).filter (· ≠ (d, c))
  | _ :: l => openCalls l

/-- The call with the correlation is over. -/
def closes (c : Nat) : Event → Bool
  | .got _ c' _ => c' = c
  | .cancelled _ c' => c' = c
  | _ => false

/-- The descriptors are `k + 1`, `k + 2`, ... -/
def numbered : Int → List Desc → Prop
  | _, [] => True
  | k, x :: xs => x.d = k + 1 ∧ numbered (k + 1) xs

theorem numbered_lt {k : Int} {ds : List Desc} (h : numbered k ds) : ∀ x ∈ ds, k < x.d := by
  induction ds generalizing k with
  | nil => simp
  | cons y ys ih =>
    intro x hx
    rcases List.mem_cons.mp hx with rfl | hx
    · have := h.1; omega
    · have := ih h.2 x hx; omega

theorem numbered_inj {k : Int} {ds : List Desc} (h : numbered k ds) :
    ∀ x ∈ ds, ∀ y ∈ ds, x.d = y.d → x = y := by
  induction ds generalizing k with
  | nil => simp
  | cons z zs ih =>
    have hz := numbered_lt h.2
    intro x hx y hy hxy
    rcases List.mem_cons.mp hx with rfl | hx' <;> rcases List.mem_cons.mp hy with rfl | hy'
    · rfl
    · have h1 := hz y hy'; have h2 := h.1; omega
    · have h1 := hz x hx'; have h2 := h.1; omega
    · exact ih h.2 x hx' y hy' hxy

theorem reserve_numbered (c : Nat) {k : Int} {ds : List Desc} (h : numbered k ds) :
    numbered k (reserve c k ds).1 := by
  induction ds generalizing k with
  | nil => exact ⟨rfl, trivial⟩
  | cons x xs ih =>
    unfold reserve
    split
    · rw [h.1]; exact ⟨h.1, ih h.2⟩
    · exact ⟨h.1, h.2⟩

theorem unreserve_numbered (d : Int) {k : Int} {ds : List Desc} (h : numbered k ds) :
    numbered k (unreserve d ds) := by
  induction ds generalizing k with
  | nil => trivial
  | cons x xs ih =>
    unfold unreserve
    split
    · exact ⟨h.1, h.2⟩
    · exact ⟨h.1, ih h.2⟩

/-- What `reserve` does. -/
theorem reserve_spec (c : Nat) {k : Int} {ds : List Desc} (h : numbered k ds) :
    k < (reserve c k ds).2 ∧
    (∀ x ∈ ds, x.d = (reserve c k ds).2 → x.active = false) ∧
    (∀ n, k < n → n < (reserve c k ds).2 → ∃ x ∈ ds, x.d = n ∧ x.active = true) ∧
    (∀ x, x ∈ (reserve c k ds).1 ↔
      (x = ⟨(reserve c k ds).2, true, some c⟩ ∨ (x ∈ ds ∧ x.d ≠ (reserve c k ds).2))) := by
  induction ds generalizing k with
  | nil =>
    refine ⟨by simp [reserve]; omega, by simp, ?_, by simp [reserve]⟩
    intro n h1 h2
    simp [reserve] at h2
    omega
  | cons y ys ih =>
    unfold reserve
    split
    · rename_i ha
      have hy := h.1
      rw [hy]
      obtain ⟨i1, i2, i3, i4⟩ := ih h.2
      have hyk := numbered_lt h.2
      refine ⟨by simp only; omega, ?_, ?_, ?_⟩
      · intro x hx hd
        rcases List.mem_cons.mp hx with rfl | hx
        · simp only at hd; omega
        · exact i2 x hx hd
      · intro n h1 h2
        by_cases hn : n = k + 1
        · exact ⟨y, List.mem_cons_self, by omega, ha⟩
        · obtain ⟨x, hx, hxd⟩ := i3 n (by omega) h2
          exact ⟨x, List.mem_cons_of_mem _ hx, hxd⟩
      · intro x
        simp only [List.mem_cons, i4]
        constructor
        · rintro (rfl | h | ⟨h, h'⟩)
          · exact Or.inr ⟨Or.inl rfl, by omega⟩
          · exact Or.inl h
          · exact Or.inr ⟨Or.inr h, h'⟩
        · rintro (h | ⟨rfl | h, h'⟩)
          · exact Or.inr (Or.inl h)
          · exact Or.inl rfl
          · exact Or.inr (Or.inr ⟨h, h'⟩)
    · rename_i ha
      have hy := h.1
      have hyk := numbered_lt h.2
      refine ⟨by simp only; omega, ?_, ?_, ?_⟩
      · intro x hx hd
        rcases List.mem_cons.mp hx with rfl | hx
        · simpa using ha
        · have := hyk x hx
          simp only at hd; omega
      · intro n h1 h2
        simp only at h2; omega
      · intro x
        simp only [List.mem_cons]
        constructor
        · rintro (rfl | h)
          · exact Or.inl rfl
          · exact Or.inr ⟨Or.inr h, by have := hyk x h; omega⟩
        · rintro (h | ⟨rfl | h, h'⟩)
          · exact Or.inl h
          · exact absurd rfl h'
          · exact Or.inr h

/-- What `unreserve` does. -/
theorem unreserve_spec (d : Int) {k : Int} {ds : List Desc} (h : numbered k ds) (x : Desc) :
    x ∈ unreserve d ds ↔ (x ∈ ds ∧ x.d ≠ d) ∨ (∃ y ∈ ds, y.d = d ∧ x = { y with active := false }) := by
  induction ds generalizing k with
  | nil => simp [unreserve]
  | cons z zs ih =>
    unfold unreserve
    have hzk := numbered_lt h.2
    split
    · rename_i hz
      simp only [List.mem_cons]
      constructor
      · rintro (rfl | hx)
        · exact Or.inr ⟨z, Or.inl rfl, hz, rfl⟩
        · exact Or.inl ⟨Or.inr hx, by have := hzk x hx; have := h.1; omega⟩
      · rintro (⟨rfl | hx, hd⟩ | ⟨y, rfl | hy, hyd, rfl⟩)
        · exact absurd hz hd
        · exact Or.inr hx
        · exact Or.inl rfl
        · have := hzk y hy; have := h.1; omega
    · rename_i hz
      simp only [List.mem_cons, ih h.2]
      constructor
      · rintro (rfl | ⟨hx, hd⟩ | ⟨y, hy, hyd, rfl⟩)
        · exact Or.inl ⟨Or.inl rfl, hz⟩
        · exact Or.inl ⟨Or.inr hx, hd⟩
        · exact Or.inr ⟨y, Or.inr hy, hyd, rfl⟩
      · rintro (⟨rfl | hx, hd⟩ | ⟨y, rfl | hy, hyd, rfl⟩)
        · exact Or.inl rfl
        · exact Or.inr (Or.inl ⟨hx, hd⟩)
        · exact absurd hyd hz
        · exact Or.inr (Or.inr ⟨y, hy, hyd, rfl⟩)

theorem get_some {d : Int} {ds : List Desc} {x : Desc} (h : get d ds = some x) :
    x ∈ ds ∧ x.d = d ∧ x.active = true := by
  unfold get at h
  split at h
  · rename_i y hy
    split at h
    · rename_i ha
      cases h
      exact ⟨List.mem_of_find?_eq_some hy, by simpa using List.find?_some hy, ha⟩
    · cases h
  · cases h

theorem getCorr_some {c : Nat} {ds : List Desc} {x : Desc} (h : getCorr c ds = some x) :
    x ∈ ds ∧ x.corr = some c ∧ x.active = true := by
  unfold getCorr at h
  split at h
  · rename_i y hy
    split at h
    · rename_i ha
      cases h
      exact ⟨List.mem_of_find?_eq_some hy, by simpa using List.find?_some hy, ha⟩
    · cases h
  · cases h

theorem take_mem {c p : Nat} {l r : List (Nat × Nat)} (h : take c l = some (p, r)) :
    (c, p) ∈ l ∧ ∀ m ∈ r, m ∈ l := by
  induction l generalizing r with
  | nil => cases h
  | cons m ms ih =>
    unfold take at h
    split at h
    · rename_i hm
      cases h
      exact ⟨by rw [← hm]; exact List.mem_cons_self, fun m h => List.mem_cons_of_mem _ h⟩
    · split at h
      · cases h
      · rename_i p' ms' hms
        cases h
        obtain ⟨h1, h2⟩ := ih hms
        refine ⟨List.mem_cons_of_mem _ h1, ?_⟩
        intro x hx
        rcases List.mem_cons.mp hx with rfl | hx
        · exact List.mem_cons_self
        · exact List.mem_cons_of_mem _ (h2 x hx)

theorem take_none {c p : Nat} {l : List (Nat × Nat)} (h : take c l = none) : (c, p) ∉ l := by
  induction l with
  | nil => simp
  | cons m ms ih =>
    unfold take at h
    split at h
    · cases h
    · rename_i hm
      split at h
      · rename_i hms
        intro hx
        rcases List.mem_cons.mp hx with rfl | hx
        · exact hm rfl
        · exact ih hms hx
      · cases h

/-- The invariant: the active descriptors are the open calls. -/
structure Inv (s : State) : Prop where
  num : numbered 0 s.descs
  opens : ∀ d c, (d, c) ∈ openCalls s.log ↔ ∃ x ∈ s.descs, x.d = d ∧ x.active = true ∧ x.corr = some c
  act : ∀ x ∈ s.descs, x.active = true → x.corr ≠ none
  fresh : ∀ x ∈ s.descs, ∀ c, x.corr = some c → c < s.next
  uniq : ∀ x ∈ s.descs, ∀ y ∈ s.descs, ∀ c, x.corr = some c → y.corr = some c → x = y
  inb : ∀ m ∈ s.inbox, Event.arrived m.1 m.2 ∈ s.log
  called : ∀ d c, Event.called d c ∈ s.log → c < s.next
  wasCalled : ∀ d c, (d, c) ∈ openCalls s.log → Event.called d c ∈ s.log
  notClosed : ∀ d c, (d, c) ∈ openCalls s.log → ∀ ev ∈ s.log, closes c ev = false
  closedOld : ∀ c, ∀ ev ∈ s.log, closes c ev = true → c < s.next

/-- What is true of an event and what was before it. -/
def Good (ev : Event) (pre : List Event) : Prop :=
  match ev with
  | .called d c =>
    (0 < d ∧ (∀ c', (d, c') ∉ openCalls pre) ∧ ∀ k, 0 < k → k < d → ∃ c', (k, c') ∈ openCalls pre) ∧
    (∀ d', Event.called d' c ∉ pre)
  | .got d c p => (d, c) ∈ openCalls pre ∧ Event.arrived c p ∈ pre ∧ ∀ ev ∈ pre, closes c ev = false
  | .cancelled d c => (d, c) ∈ openCalls pre ∧ ∀ ev ∈ pre, closes c ev = false
  | _ => True

theorem initial_inv : Inv initial where
  num := by simp [initial, numbered]
  opens := by
    intro d c
    constructor
    · intro h; cases h
    · rintro ⟨x, hx, _, ha, _⟩
      have : ∀ x ∈ initial.descs, x.active = false := by decide
      rw [this x hx] at ha; cases ha
  act := by
    have : ∀ x ∈ initial.descs, x.active = false := by decide
    intro x hx ha
    rw [this x hx] at ha; cases ha
  fresh := by
    have : ∀ x ∈ initial.descs, x.corr = none := by decide
    intro x hx c hc
    rw [this x hx] at hc; cases hc
  uniq := by
    have : ∀ x ∈ initial.descs, x.corr = none := by decide
    intro x hx y hy c hc
    rw [this x hx] at hc; cases hc
  inb := by intro m h; cases h
  called := by intro d c h; cases h
  wasCalled := by intro d c h; cases h
  notClosed := by intro d c h; cases h
  closedOld := by intro c ev h; cases h

/-- An event that says nothing about calls, with the descriptors as they were. -/
theorem Inv.neutral {s : State} (h : Inv s) (ev : Event) (ho : openCalls (ev :: s.log) = openCalls s.log)
    (hn : ∀ d c, ev ≠ .called d c) (hc : ∀ c, closes c ev = false) : Inv (emit ev s) where
  num := h.num
  opens := by intro d c; show _ ∈ openCalls (ev :: s.log) ↔ _; rw [ho]; exact h.opens d c
  act := h.act
  fresh := h.fresh
  uniq := h.uniq
  inb := fun m hm => List.mem_cons_of_mem _ (h.inb m hm)
  called := by
    intro d c hm
    rcases List.mem_cons.mp hm with rfl | hm
    · exact absurd rfl (hn d c)
    · exact h.called d c hm
  wasCalled := by
    intro d c hm
    have hm : (d, c) ∈ openCalls (ev :: s.log) := hm
    rw [ho] at hm
    exact List.mem_cons_of_mem _ (h.wasCalled d c hm)
  notClosed := by
    intro d c hm ev' hev'
    have hm : (d, c) ∈ openCalls (ev :: s.log) := hm
    rw [ho] at hm
    rcases List.mem_cons.mp hev' with rfl | hev'
    · exact hc c
    · exact h.notClosed d c hm ev' hev'
  closedOld := by
    intro c ev' hev' hcl
    rcases List.mem_cons.mp hev' with rfl | hev'
    · rw [hc c] at hcl; cases hcl
    · exact h.closedOld c ev' hev' hcl

/-- Changing what is in the inbound device. -/
theorem Inv.inbox {s : State} (h : Inv s) {i : List (Nat × Nat)} {dr : List Nat}
    (hi : ∀ m ∈ i, Event.arrived m.1 m.2 ∈ s.log) : Inv { s with inbox := i, dropped := dr } :=
  { h with inb := hi }

theorem Inv.drop {s : State} (h : Inv s) (c : Nat) : Inv (drop c s) := by
  unfold Call.drop
  split
  · rename_i p rest ht
    exact h.inbox (fun m hm => h.inb m ((take_mem ht).2 m hm))
  · split
    · exact h
    · exact h.inbox h.inb

theorem drop_same (c : Nat) (s : State) : (drop c s).log = s.log ∧ (drop c s).descs = s.descs := by
  unfold drop
  split
  · exact ⟨rfl, rfl⟩
  · split <;> exact ⟨rfl, rfl⟩

/-- The call of an active descriptor is over. -/
theorem Inv.close {s : State} (h : Inv s) {x : Desc} {c : Nat} (hx : x ∈ s.descs) (ha : x.active = true)
    (hc : x.corr = some c) (ev : Event)
    (ho : openCalls (ev :: s.log) = (openCalls s.log).filter (· ≠ (x.d, c)))
    (hn : ∀ d c, ev ≠ .called d c) (hcl : ∀ c', closes c' ev = true ↔ c = c') :
    Inv (emit ev { s with descs := unreserve x.d s.descs }) where
  num := unreserve_numbered _ h.num
  opens := by
    intro d c'
    show (d, c') ∈ openCalls (ev :: s.log) ↔ ∃ y ∈ unreserve x.d s.descs, _
    rw [ho, List.mem_filter, h.opens]
    constructor
    · rintro ⟨⟨y, hy, hyd, hya, hyc⟩, hne⟩
      refine ⟨y, (unreserve_spec _ h.num y).mpr (Or.inl ⟨hy, ?_⟩), hyd, hya, hyc⟩
      intro he
      have := numbered_inj h.num y hy x hx he
      subst this
      rw [hc] at hyc
      cases hyc
      simp [hyd] at hne
    · rintro ⟨y, hy, hyd, hya, hyc⟩
      rcases (unreserve_spec _ h.num y).mp hy with ⟨hy, hne⟩ | ⟨z, _, _, rfl⟩
      · refine ⟨⟨y, hy, hyd, hya, hyc⟩, ?_⟩
        simp only [ne_eq, decide_not, Bool.not_eq_eq_eq_not, Bool.not_true, decide_eq_false_iff_not, Prod.mk.injEq]
        rintro ⟨h1, _⟩
        exact hne (by rw [hyd, h1])
      · cases hya
  act := by
    intro y hy hya
    rcases (unreserve_spec _ h.num y).mp hy with ⟨hy, _⟩ | ⟨z, _, _, rfl⟩
    · exact h.act y hy hya
    · cases hya
  fresh := by
    intro y hy c' hc'
    rcases (unreserve_spec _ h.num y).mp hy with ⟨hy, _⟩ | ⟨z, hz, _, rfl⟩
    · exact h.fresh y hy c' hc'
    · exact h.fresh z hz c' hc'
  uniq := by
    intro y hy z hz c' hyc hzc
    rcases (unreserve_spec _ h.num y).mp hy with ⟨hy, hyne⟩ | ⟨y', hy', hyd, rfl⟩ <;>
      rcases (unreserve_spec _ h.num z).mp hz with ⟨hz, hzne⟩ | ⟨z', hz', hzd, rfl⟩
    · exact h.uniq y hy z hz c' hyc hzc
    · have := h.uniq y hy z' hz' c' hyc hzc
      subst this
      exact absurd hzd hyne
    · have := h.uniq y' hy' z hz c' hyc hzc
      subst this
      exact absurd hyd hzne
    · rw [h.uniq y' hy' z' hz' c' hyc hzc]
  inb := fun m hm => List.mem_cons_of_mem _ (h.inb m hm)
  called := by
    intro d c' hm
    rcases List.mem_cons.mp hm with he | hm
    · exact absurd he.symm (hn d c')
    · exact h.called d c' hm
  wasCalled := by
    intro d c' hm
    have hm : (d, c') ∈ openCalls (ev :: s.log) := hm
    rw [ho] at hm
    exact List.mem_cons_of_mem _ (h.wasCalled d c' ((List.mem_filter.mp hm).1))
  notClosed := by
    intro d c' hm0 ev' hev'
    have hm1 : (d, c') ∈ openCalls (ev :: s.log) := hm0
    rw [ho] at hm1
    have hm := List.mem_filter.mp hm1
    clear hm0 hm1
    rcases List.mem_cons.mp hev' with rfl | hev'
    · cases hb : closes c' ev' with
      | false => rfl
      | true =>
        have := (hcl c').mp hb
        subst this
        obtain ⟨y, hy, hyd, _, hyc⟩ := (h.opens d c).mp hm.1
        have := h.uniq y hy x hx c hyc hc
        subst this
        have := hm.2
        simp [hyd] at this
    · exact h.notClosed d c' hm.1 ev' hev'
  closedOld := by
    intro c' ev' hev' hb
    rcases List.mem_cons.mp hev' with rfl | hev'
    · have := (hcl c').mp hb
      subst this
      exact h.fresh x hx c hc
    · exact h.closedOld c' ev' hev' hb

/-- One step: the invariant is kept, and what it adds to the log is good. -/
theorem step_ok {s : State} (h : Inv s) (a : Act) :
    Inv (step s a) ∧ ((step s a).log = s.log ∨ ∃ ev, (step s a).log = ev :: s.log ∧ Good ev s.log) := by
  cases a with
  | async sent =>
    show Inv (async sent s).1 ∧ ((async sent s).1.log = s.log ∨ ∃ ev, (async sent s).1.log = ev :: s.log ∧ Good ev s.log)
    obtain ⟨r1, r2, r3, r4⟩ := reserve_spec s.next h.num
    have hnum := reserve_numbered s.next h.num
    unfold async
    dsimp only
    generalize hr : reserve s.next 0 s.descs = r at r1 r2 r3 r4 hnum ⊢
    obtain ⟨ds, d⟩ := r
    dsimp only at r1 r2 r3 r4 hnum ⊢
    have hnone : ∀ c', (d, c') ∉ openCalls s.log := by
      intro c' hm
      obtain ⟨x, hx, hxd, hxa, _⟩ := (h.opens d c').mp hm
      rw [r2 x hx hxd] at hxa; cases hxa
    cases sent with
    | true =>
      simp only [if_true]
      refine ⟨?_, Or.inr ⟨_, rfl, ⟨r1, hnone, ?_⟩, ?_⟩⟩
      · constructor
        · exact hnum
        · intro d' c'
          show (d', c') ∈ (d, s.next) :: openCalls s.log ↔ ∃ x ∈ ds, _
          rw [List.mem_cons, h.opens]
          constructor
          · rintro (he | ⟨x, hx, hxd, hxa, hxc⟩)
            · cases he
              exact ⟨_, (r4 _).mpr (Or.inl rfl), rfl, rfl, rfl⟩
            · refine ⟨x, (r4 x).mpr (Or.inr ⟨hx, ?_⟩), hxd, hxa, hxc⟩
              intro he
              rw [r2 x hx he] at hxa; cases hxa
          · rintro ⟨x, hx, hxd, hxa, hxc⟩
            rcases (r4 x).mp hx with rfl | ⟨hx, _⟩
            · simp only at hxd hxc
              cases hxc
              exact Or.inl (by rw [hxd])
            · exact Or.inr ⟨x, hx, hxd, hxa, hxc⟩
        · intro x hx hxa
          rcases (r4 x).mp hx with rfl | ⟨hx, _⟩
          · simp
          · exact h.act x hx hxa
        · intro x hx c hc
          show c < s.next + 1
          rcases (r4 x).mp hx with rfl | ⟨hx, _⟩
          · cases hc; exact Nat.lt_succ_self _
          · exact Nat.lt_succ_of_lt (h.fresh x hx c hc)
        · intro x hx y hy c hxc hyc
          rcases (r4 x).mp hx with rfl | ⟨hx, _⟩ <;> rcases (r4 y).mp hy with rfl | ⟨hy, _⟩
          · rfl
          · cases hxc
            have := h.fresh y hy _ hyc
            omega
          · cases hyc
            have := h.fresh x hx _ hxc
            omega
          · exact h.uniq x hx y hy c hxc hyc
        · exact fun m hm => List.mem_cons_of_mem _ (h.inb m hm)
        · intro d' c' hm
          show c' < s.next + 1
          rcases List.mem_cons.mp hm with he | hm
          · cases he; omega
          · have := h.called d' c' hm; omega
        · intro d' c' hm
          have hm : (d', c') ∈ (d, s.next) :: openCalls s.log := hm
          rcases List.mem_cons.mp hm with he | hm
          · cases he; exact List.mem_cons_self
          · exact List.mem_cons_of_mem _ (h.wasCalled d' c' hm)
        · intro d' c' hm ev hev
          have hm : (d', c') ∈ (d, s.next) :: openCalls s.log := hm
          rcases List.mem_cons.mp hev with rfl | hev
          · rfl
          · rcases List.mem_cons.mp hm with he | hm
            · cases he
              cases hb : closes s.next ev with
              | false => rfl
              | true => have := h.closedOld _ ev hev hb; omega
            · exact h.notClosed d' c' hm ev hev
        · intro c' ev hev hb
          show c' < s.next + 1
          rcases List.mem_cons.mp hev with rfl | hev
          · cases hb
          · have := h.closedOld c' ev hev hb; omega
      · intro k h1 h2
        obtain ⟨x, hx, hxd, hxa⟩ := r3 k h1 h2
        cases hc : x.corr with
        | none => exact absurd hc (h.act x hx hxa)
        | some c => exact ⟨c, (h.opens k c).mpr ⟨x, hx, hxd, hxa, hc⟩⟩
      · intro d' hm
        have := h.called d' _ hm; omega
    | false =>
      simp only [Bool.false_eq_true, if_false]
      refine ⟨?_, Or.inr ⟨_, rfl, trivial⟩⟩
      -- the descriptor is there, inactive, with the correlation of the call that failed
      have hmem : ∀ x, x ∈ unreserve d ds ↔ x = ⟨d, false, some s.next⟩ ∨ (x ∈ s.descs ∧ x.d ≠ d) := by
        intro x
        rw [unreserve_spec d hnum x]
        constructor
        · rintro (⟨hx, hd⟩ | ⟨y, hy, hyd, rfl⟩)
          · rcases (r4 x).mp hx with rfl | hx
            · exact absurd rfl hd
            · exact Or.inr hx
          · rcases (r4 y).mp hy with rfl | hy
            · exact Or.inl rfl
            · exact absurd hyd hy.2
        · rintro (rfl | ⟨hx, hd⟩)
          · exact Or.inr ⟨_, (r4 _).mpr (Or.inl rfl), rfl, rfl⟩
          · exact Or.inl ⟨(r4 x).mpr (Or.inr ⟨hx, hd⟩), hd⟩
      constructor
      · exact unreserve_numbered _ hnum
      · intro d' c'
        show (d', c') ∈ openCalls s.log ↔ ∃ x ∈ unreserve d ds, _
        rw [h.opens]
        constructor
        · rintro ⟨x, hx, hxd, hxa, hxc⟩
          refine ⟨x, (hmem x).mpr (Or.inr ⟨hx, ?_⟩), hxd, hxa, hxc⟩
          intro he
          rw [r2 x hx he] at hxa; cases hxa
        · rintro ⟨x, hx, hxd, hxa, hxc⟩
          rcases (hmem x).mp hx with rfl | ⟨hx, _⟩
          · cases hxa
          · exact ⟨x, hx, hxd, hxa, hxc⟩
      · intro x hx hxa
        rcases (hmem x).mp hx with rfl | ⟨hx, _⟩
        · cases hxa
        · exact h.act x hx hxa
      · intro x hx c hc
        show c < s.next + 1
        rcases (hmem x).mp hx with rfl | ⟨hx, _⟩
        · cases hc; exact Nat.lt_succ_self _
        · exact Nat.lt_succ_of_lt (h.fresh x hx c hc)
      · intro x hx y hy c hxc hyc
        rcases (hmem x).mp hx with rfl | ⟨hx, _⟩ <;> rcases (hmem y).mp hy with rfl | ⟨hy, _⟩
        · rfl
        · cases hxc
          have := h.fresh y hy _ hyc
          omega
        · cases hyc
          have := h.fresh x hx _ hxc
          omega
        · exact h.uniq x hx y hy c hxc hyc
      · exact fun m hm => List.mem_cons_of_mem _ (h.inb m hm)
      · intro d' c' hm
        show c' < s.next + 1
        rcases List.mem_cons.mp hm with he | hm
        · cases he
        · have := h.called d' c' hm; omega
      · intro d' c' hm
        exact List.mem_cons_of_mem _ (h.wasCalled d' c' hm)
      · intro d' c' hm ev hev
        rcases List.mem_cons.mp hev with rfl | hev
        · rfl
        · exact h.notClosed d' c' hm ev hev
      · intro c' ev hev hb
        show c' < s.next + 1
        rcases List.mem_cons.mp hev with rfl | hev
        · cases hb
        · have := h.closedOld c' ev hev hb; omega
  | asyncNoReply sent =>
    show Inv (asyncNoReply sent s).1 ∧ ((asyncNoReply sent s).1.log = s.log ∨
      ∃ ev, (asyncNoReply sent s).1.log = ev :: s.log ∧ Good ev s.log)
    have hnext : Inv { s with next := s.next + 1 } :=
      { h with
        fresh := fun x hx c hc => Nat.lt_succ_of_lt (h.fresh x hx c hc)
        called := fun d c hm => Nat.lt_succ_of_lt (h.called d c hm)
        closedOld := fun c ev hev hb => Nat.lt_succ_of_lt (h.closedOld c ev hev hb) }
    unfold asyncNoReply
    split
    · exact ⟨hnext, Or.inl rfl⟩
    · refine ⟨?_, Or.inr ⟨_, rfl, trivial⟩⟩
      have hu : unreserve 0 s.descs = s.descs := by
        have : ∀ ds : List Desc, (∀ x ∈ ds, x.d ≠ 0) → unreserve 0 ds = ds := by
          intro ds
          induction ds with
          | nil => intro _; rfl
          | cons x xs ih =>
            intro hx
            unfold unreserve
            rw [if_neg (hx x List.mem_cons_self), ih (fun y hy => hx y (List.mem_cons_of_mem _ hy))]
        exact this _ (fun x hx => by have := numbered_lt h.num x hx; omega)
      rw [hu]
      exact hnext.neutral (.failed s.next) rfl (by intro d c he; cases he) (fun _ => rfl)
  | reply d =>
    show Inv (reply d s).1 ∧ ((reply d s).1.log = s.log ∨ ∃ ev, (reply d s).1.log = ev :: s.log ∧ Good ev s.log)
    unfold reply
    split
    · exact ⟨h, Or.inl rfl⟩
    · rename_i x hx
      obtain ⟨hx1, hx2, hx3⟩ := get_some hx
      split
      · exact ⟨h, Or.inl rfl⟩
      · rename_i c hc
        split
        · exact ⟨h, Or.inl rfl⟩
        · rename_i p rest ht
          obtain ⟨t1, t2⟩ := take_mem ht
          have hi : Inv { s with inbox := rest } := h.inbox (fun m hm => h.inb m (t2 m hm))
          have ho := (h.opens x.d c).mpr ⟨x, hx1, rfl, hx3, hc⟩
          exact ⟨hi.close hx1 hx3 hc (.got x.d c p) rfl (by intro d c he; cases he)
              (by intro c'; simp [closes]),
            Or.inr ⟨_, rfl, ho, h.inb _ t1, h.notClosed _ _ ho⟩⟩
  | replyAny =>
    show Inv (replyAny s).1 ∧ ((replyAny s).1.log = s.log ∨ ∃ ev, (replyAny s).1.log = ev :: s.log ∧ Good ev s.log)
    unfold replyAny
    split
    · exact ⟨h, Or.inl rfl⟩
    · rename_i c p rest hib
      have hi : Inv { s with inbox := rest } :=
        h.inbox (fun m hm => h.inb m (by rw [hib]; exact List.mem_cons_of_mem _ hm))
      split
      · exact ⟨hi.neutral (.stray c) rfl (by intro d c he; cases he) (fun _ => rfl), Or.inr ⟨_, rfl, trivial⟩⟩
      · rename_i x hx
        obtain ⟨hx1, hx2, hx3⟩ := getCorr_some hx
        have ho := (h.opens x.d c).mpr ⟨x, hx1, rfl, hx3, hx2⟩
        exact ⟨hi.close hx1 hx3 hx2 (.got x.d c p) rfl (by intro d c he; cases he)
            (by intro c'; simp [closes]),
          Or.inr ⟨_, rfl, ho, h.inb (c, p) (by rw [hib]; exact List.mem_cons_self), h.notClosed _ _ ho⟩⟩
  | cancel assoc d =>
    show Inv (cancel assoc d s).1 ∧ ((cancel assoc d s).1.log = s.log ∨
      ∃ ev, (cancel assoc d s).1.log = ev :: s.log ∧ Good ev s.log)
    unfold cancel
    split
    · exact ⟨h, Or.inl rfl⟩
    · rename_i x hx
      obtain ⟨hx1, hx2, hx3⟩ := get_some hx
      split
      · exact ⟨h, Or.inl rfl⟩
      · split
        · exact ⟨h, Or.inl rfl⟩
        · rename_i c hc
          have hd := h.drop c
          obtain ⟨hl, hds⟩ := drop_same c s
          have ho := (h.opens x.d c).mpr ⟨x, hx1, rfl, hx3, hc⟩
          refine ⟨hd.close (by rw [hds]; exact hx1) hx3 hc (.cancelled x.d c) rfl (by intro d c he; cases he)
              (by intro c'; simp [closes]), Or.inr ⟨.cancelled x.d c, ?_, ho, h.notClosed _ _ ho⟩⟩
          show _ :: (drop c s).log = _
          rw [hl]
  | arrive c p =>
    show Inv (arrive c p s) ∧ ((arrive c p s).log = s.log ∨ ∃ ev, (arrive c p s).log = ev :: s.log ∧ Good ev s.log)
    unfold arrive
    split
    · exact ⟨h.inbox h.inb, Or.inl rfl⟩
    · refine ⟨?_, Or.inr ⟨_, rfl, trivial⟩⟩
      have := h.neutral (.arrived c p) rfl (by intro d c he; cases he) (fun _ => rfl)
      refine this.inbox ?_
      intro m hm
      rcases List.mem_append.mp hm with hm | hm
      · exact List.mem_cons_of_mem _ (h.inb m hm)
      · rw [List.mem_singleton] at hm
        subst hm
        exact List.mem_cons_self
  | finish ps =>
    show Inv (finish ps s) ∧ ((finish ps s).log = s.log ∨ ∃ ev, (finish ps s).log = ev :: s.log ∧ Good ev s.log)
    have hf : Inv (ps.foldl (fun s c => drop c s) s) ∧ (ps.foldl (fun s c => drop c s) s).log = s.log := by
      induction ps generalizing s with
      | nil => exact ⟨h, rfl⟩
      | cons c cs ih =>
        obtain ⟨h1, h2⟩ := ih (h.drop c)
        exact ⟨h1, by rw [← (drop_same c s).1]; exact h2⟩
    unfold finish
    refine ⟨hf.1.neutral .ended rfl (by intro d c he; cases he) (fun _ => rfl), Or.inr ⟨.ended, ?_, trivial⟩⟩
    show Event.ended :: _ = _
    rw [hf.2]

theorem run_ok (as : List Act) :
    Inv (run as) ∧ ∀ post ev pre, (run as).log = post ++ ev :: pre → Good ev pre := by
  unfold run
  suffices ∀ (as : List Act) (s : State), Inv s → (∀ post ev pre, s.log = post ++ ev :: pre → Good ev pre) →
      Inv (as.foldl step s) ∧ ∀ post ev pre, (as.foldl step s).log = post ++ ev :: pre → Good ev pre from
    this as initial initial_inv (by intro post ev pre h; simp [initial] at h)
  intro as
  induction as with
  | nil => intro s h1 h2; exact ⟨h1, h2⟩
  | cons a as ih =>
    intro s h1 h2
    obtain ⟨i1, i2⟩ := step_ok h1 a
    refine ih _ i1 ?_
    intro post ev pre he
    rcases i2 with i2 | ⟨ev', i2, i3⟩
    · rw [i2] at he; exact h2 post ev pre he
    · rw [i2] at he
      cases post with
      | nil =>
        simp only [List.nil_append, List.cons.injEq] at he
        rw [← he.1, ← he.2]; exact i3
      | cons q post =>
        simp only [List.cons_append, List.cons.injEq] at he
        exact h2 post ev pre he.2

/-! ### C84 -/

/-- C84: `tpacall` returns the smallest positive descriptor that is not in use: one of which the
program has fetched the reply, or cancelled the call, since it got it; and the request is a new
one. -/
theorem C84_descriptor (as : List Act) (d : Int) (c : Nat) (post pre : List Event)
    (h : (run as).log = post ++ .called d c :: pre) :
    (0 < d ∧ (∀ c', (d, c') ∉ openCalls pre) ∧ ∀ k, 0 < k → k < d → ∃ c', (k, c') ∈ openCalls pre) ∧
    ∀ d', Event.called d' c ∉ pre :=
  (run_ok as).2 post _ pre h

/-- C84: the reply `tpgetrply` returns for a descriptor - with or without `TPGETANY` - is one that
has arrived, and it is the reply to the call that the program got that descriptor for; neither has
the program got a reply to that call before, nor has it cancelled it. -/
theorem C84_reply (as : List Act) (d : Int) (c p : Nat) (post pre : List Event)
    (h : (run as).log = post ++ .got d c p :: pre) :
    (d, c) ∈ openCalls pre ∧ Event.arrived c p ∈ pre ∧ ∀ ev ∈ pre, closes c ev = false :=
  (run_ok as).2 post _ pre h

/-- C84: a descriptor stands for one call. -/
theorem C84_one_call (as : List Act) (d : Int) (c c' : Nat) (h : (d, c) ∈ openCalls (run as).log)
    (h' : (d, c') ∈ openCalls (run as).log) : c = c' := by
  have hi := (run_ok as).1
  obtain ⟨x, hx, hxd, _, hxc⟩ := (hi.opens d c).mp h
  obtain ⟨y, hy, hyd, _, hyc⟩ := (hi.opens d c').mp h'
  have := numbered_inj hi.num x hx y hy (by rw [hxd, hyd])
  subst this
  rw [hxc] at hyc
  exact Option.some.inj hyc

theorem get_of_mem {k : Int} {ds : List Desc} (h : numbered k ds) {x : Desc} (hx : x ∈ ds) (ha : x.active = true) :
    get x.d ds = some x := by
  unfold get
  cases hf : ds.find? (·.d == x.d) with
  | none =>
    rw [List.find?_eq_none] at hf
    have := hf x hx; simp at this
  | some y =>
    have hy := List.mem_of_find?_eq_some hf
    have hyd : y.d = x.d := by simpa using List.find?_some hf
    have := numbered_inj h y hy x hx hyd
    subst this
    simp [ha]

/-- C84: `tpgetrply` for a descriptor in use whose reply has arrived returns it; for any other
descriptor it fails, and nothing happens. -/
theorem C84_fetch (as : List Act) (d : Int) :
    (∀ c p, (d, c) ∈ openCalls (run as).log → (c, p) ∈ (run as).inbox →
      ∃ q, (reply d (run as)).2 = some (d, q) ∧ (reply d (run as)).1.log = .got d c q :: (run as).log) ∧
    ((∀ c, (d, c) ∉ openCalls (run as).log) → reply d (run as) = (run as, none)) := by
  have hi := (run_ok as).1
  constructor
  · intro c p ho hp
    obtain ⟨x, hx, hxd, hxa, hxc⟩ := (hi.opens d c).mp ho
    subst hxd
    unfold reply
    rw [get_of_mem hi.num hx hxa]
    simp only [hxc]
    cases ht : take c (run as).inbox with
    | none => exact absurd hp (take_none ht)
    | some r => exact ⟨r.1, rfl, rfl⟩
  · intro hno
    unfold reply
    cases hg : get d (run as).descs with
    | none => rfl
    | some x =>
      obtain ⟨hx, hxd, hxa⟩ := get_some hg
      cases hc : x.corr with
      | none => exact absurd hc (hi.act x hx hxa)
      | some c => exact absurd ((hi.opens d c).mpr ⟨x, hx, hxd, hxa, hc⟩) (hno c)

/-- C84: `tpcancel` of a descriptor in use, whose call is not part of an active transaction, is ok
and makes the descriptor free; otherwise it fails, and nothing happens. -/
theorem C84_cancel (as : List Act) (assoc : Bool) (d : Int) :
    (assoc = false → (∃ c, (d, c) ∈ openCalls (run as).log) →
      (cancel assoc d (run as)).2 = true ∧ ∀ c, (d, c) ∉ openCalls (cancel assoc d (run as)).1.log) ∧
    ((assoc = true ∨ ∀ c, (d, c) ∉ openCalls (run as).log) → cancel assoc d (run as) = (run as, false)) := by
  have hi := (run_ok as).1
  constructor
  · rintro rfl ⟨c, ho⟩
    obtain ⟨x, hx, hxd, hxa, hxc⟩ := (hi.opens d c).mp ho
    subst hxd
    unfold cancel
    rw [get_of_mem hi.num hx hxa]
    simp only [hxc, Bool.false_eq_true, if_false]
    refine ⟨trivial, ?_⟩
    intro c' hm
    have hm : (x.d, c') ∈ (openCalls (drop c (run as)).log).filter (· ≠ (x.d, c)) := hm
    rw [(drop_same c (run as)).1, List.mem_filter] at hm
    have := C84_one_call as x.d c c' ho hm.1
    subst this
    simp at hm
  · intro hno
    unfold cancel
    cases hg : get d (run as).descs with
    | none => rfl
    | some x =>
      obtain ⟨hx, hxd, hxa⟩ := get_some hg
      rcases hno with rfl | hno
      · rfl
      · cases hc : x.corr with
        | none => exact absurd hc (hi.act x hx hxa)
        | some c => exact absurd ((hi.opens d c).mpr ⟨x, hx, hxd, hxa, hc⟩) (hno c)

/-- Two calls, the second is answered first and fetched with TPGETANY, its descriptor is used again. -/
example : (run [.async true, .async true, .arrive 1 20, .replyAny, .async true, .arrive 0 10, .reply 1]).log =
    [.got 1 0 10, .arrived 0 10, .called 2 2, .got 2 1 20, .arrived 1 20, .called 2 1, .called 1 0] := by
  decide +kernel

/-- The ninth call makes a new descriptor. -/
example : (async true (run (List.replicate 8 (.async true)))).2 = some 9 := by decide +kernel

/-! ### C89 -/

/-- The events of the service invocation that is going on. -/
def invocation (pre : List Event) : List Event := pre.takeWhile (· ≠ .ended)

/-- The claim: a reply that a service gets is the reply to a call made in the same invocation. -/
def OwnReplies : Prop :=
  ∀ (as : List Act) (d : Int) (c p : Nat) (post pre : List Event),
    (run as).log = post ++ .got d c p :: pre → Event.called d c ∈ invocation pre

/-- C89 does not hold: a service makes a call and returns without fetching the reply; the next
invocation in the same process gets it with `TPGETANY`. -/
theorem C89_refuted : ¬ OwnReplies := by
  intro h
  have := h [.async true, .finish [], .arrive 0 7, .replyAny] 1 0 7 []
    [.arrived 0 7, .ended, .called 1 0] (by decide +kernel)
  revert this
  decide +kernel

theorem openCalls_after {l1 l2 : List Event} (h : openCalls l2 = []) :
    ∀ m ∈ openCalls (l1 ++ l2), Event.called m.1 m.2 ∈ l1 := by
  induction l1 with
  | nil => intro m hm; rw [List.nil_append, h] at hm; cases hm
  | cons ev l ih =>
    intro m hm
    cases ev with
    | called d c =>
      have hm : m ∈ (d, c) :: openCalls (l ++ l2) := hm
      rcases List.mem_cons.mp hm with rfl | hm
      · exact List.mem_cons_self
      · exact List.mem_cons_of_mem _ (ih m hm)
    | got d c p =>
      have hm : m ∈ (openCalls (l ++ l2)).filter _ := hm
      exact List.mem_cons_of_mem _ (ih m ((List.mem_filter.mp hm).1))
    | cancelled d c =>
      have hm : m ∈ (openCalls (l ++ l2)).filter _ := hm
      exact List.mem_cons_of_mem _ (ih m ((List.mem_filter.mp hm).1))
    | failed c => exact List.mem_cons_of_mem _ (ih m hm)
    | stray c => exact List.mem_cons_of_mem _ (ih m hm)
    | arrived c p => exact List.mem_cons_of_mem _ (ih m hm)
    | ended => exact List.mem_cons_of_mem _ (ih m hm)

/-- C89, what holds: if every service invocation so far has ended without a call in flight (it has
fetched the reply of, or cancelled, each of its calls), the claim is true. -/
theorem C89_own_partial (as : List Act) (d : Int) (c p : Nat) (post pre : List Event)
    (h : (run as).log = post ++ .got d c p :: pre)
    (hend : ∀ q r, pre = q ++ .ended :: r → openCalls r = []) : Event.called d c ∈ invocation pre := by
  have ho := (C84_reply as d c p post pre h).1
  unfold invocation
  generalize hd : pre.dropWhile (· ≠ .ended) = rest
  have hsplit := List.takeWhile_append_dropWhile (p := (· ≠ Event.ended)) (l := pre)
  rw [hd] at hsplit
  have hz : openCalls rest = [] := by
    cases rest with
    | nil => rfl
    | cons ev r =>
      have he : ev = .ended := by
        have := List.head?_dropWhile_not (· ≠ Event.ended) pre
        rw [hd] at this
        simpa using this
      subst he
      exact hend _ r hsplit.symm
  rw [← hsplit] at ho
  exact openCalls_after hz _ ho

/-- C89: and a descriptor that has been obtained in this invocation, and not given up since, stands
for the call made in this invocation, whatever earlier invocations left behind. -/
theorem C89_descriptor_partial (as : List Act) (d : Int) (c c' p : Nat) (post pre : List Event)
    (h : (run as).log = post ++ .got d c' p :: pre) (hc : (d, c) ∈ openCalls pre) : c' = c := by
  -- the log before this event is itself the log of a history
  have ho := (C84_reply as d c' p post pre h).1
  have huniq : ∀ (as : List Act) post pre, (run as).log = post ++ pre → ∀ d c c',
      (d, c) ∈ openCalls pre → (d, c') ∈ openCalls pre → c = c' := by
    intro as
    induction as using snocInd with
    | nil =>
      intro post pre hl d c c' h1
      have : pre = [] := by
        have hl : [] = post ++ pre := hl
        exact (List.append_eq_nil_iff.mp hl.symm).2
      subst this; cases h1
    | snoc as a ih =>
      intro post pre hl d c c' h1 h2
      have hs := (step_ok (run_ok as).1 a).2
      have hrun : run (as ++ [a]) = step (run as) a := by simp [run]
      cases post with
      | nil =>
        rw [List.nil_append] at hl
        rw [← hl] at h1 h2
        exact C84_one_call (as ++ [a]) d c c' h1 h2
      | cons q post =>
        rw [hrun] at hl
        rcases hs with hs | ⟨ev, hs, _⟩
        · rw [hs] at hl
          exact ih (q :: post) pre hl d c c' h1 h2
        · rw [hs] at hl
          simp only [List.cons_append, List.cons.injEq] at hl
          exact ih post pre hl.2 d c c' h1 h2
  exact huniq as (post ++ [.got d c' p]) pre (by rw [h]; simp) d c' c ho hc

/-- An invocation that fetches its reply, and one that does after it. -/
example : let as := [Act.async true, .arrive 0 1, .reply 1, .finish [], .async true, .arrive 1 2, .replyAny]
    (run as).log = [.got 1 1 2, .arrived 1 2, .called 1 1, .ended, .got 1 0 1, .arrived 0 1, .called 1 0] ∧
    openCalls [.got 1 0 1, .arrived 0 1, .called 1 0] = [] := by decide +kernel

end Casual.Call
