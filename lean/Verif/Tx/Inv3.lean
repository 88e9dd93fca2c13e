import Verif.Tx.Inv2
/-! Every call on the transaction context keeps the invariant. -/
namespace Casual.Tx
open Casual.Code

theorem mem_addUnique {r s : Rm} {l : List Rm} : r ∈ addUnique l s ↔ r ∈ l ∨ r = s := by
  unfold addUnique
  split
  · rename_i h
    constructor
    · exact Or.inl
    · rintro (h' | h')
      · exact h'
      · exact h' ▸ h
  · simp

theorem mem_foldl_addUnique {r : Rm} : ∀ {rs l : List Rm},
    r ∈ rs.foldl addUnique l ↔ r ∈ l ∨ r ∈ rs
  | [], l => by simp
  | s :: rs, l => by
    rw [List.foldl_cons, mem_foldl_addUnique, mem_addUnique]
    simp [or_assoc]

theorem mem_involve {t : Tran} {r : Rm} {rs : List Rm} :
    r ∈ (t.involve rs).involved ↔ r ∈ t.involved ∨ r ∈ rs := mem_foldl_addUnique

theorem Extends.mono {p q : Event → Prop} {c c' : Ctx} (h : Extends p c c')
    (hpq : ∀ ev, p ev → q ev) : Extends q c c' := by
  obtain ⟨evs, h1, h2⟩ := h
  exact ⟨evs, fun ev hev => hpq ev (h1 ev hev), h2⟩

section
variable {e : Env} {ts : List Tran} {next ncorr : Nat} {out : List Nat} {log : List Event}

theorem InvL.bumpC (h : InvL e ts next ncorr out log) : InvL e ts next (ncorr + 1) out log :=
  { h with
    freshC := fun corr x hm => Nat.lt_succ_of_lt (h.freshC corr x hm)
    freshR := fun corr x hm => Nat.lt_succ_of_lt (h.freshR corr x hm)
    freshP := fun t ht corr hm => Nat.lt_succ_of_lt (h.freshP t ht corr hm)
    freshO := fun corr hm => Nat.lt_succ_of_lt (h.freshO corr hm) }

/-- A new descriptor that is not associated with a transaction. -/
theorem InvL.reserve (h : InvL e ts next ncorr out log) :
    InvL e ts next (ncorr + 1) (out ++ [ncorr]) log :=
  { h.bumpC with
    freshO := by
      intro corr hm
      rcases List.mem_append.mp hm with hm | hm
      · exact Nat.lt_succ_of_lt (h.freshO corr hm)
      · rw [List.mem_singleton] at hm; omega
    pend := by
      intro t ht n corr hn hc ho
      rcases List.mem_append.mp ho with ho | ho
      · exact h.pend t ht n corr hn hc ho
      · rw [List.mem_singleton] at ho
        have := h.freshC corr _ hc
        omega }

/-- Fewer descriptors. -/
theorem InvL.unreserve (h : InvL e ts next ncorr out log) {out' : List Nat}
    (ho : ∀ c ∈ out', c ∈ out) : InvL e ts next ncorr out' log :=
  { h with
    freshO := fun corr hm => h.freshO corr (ho corr hm)
    pend := fun t ht n corr hn hc hm => h.pend t ht n corr hn hc (ho corr hm) }

/-- Associate a fresh correlation without a call. -/
theorem InvL.associate {t : Tran} (h : InvL e (t :: ts) next ncorr out log) :
    InvL e (t.associate ncorr :: ts) next (ncorr + 1) out log := by
  have h0 : InvL e ({ t with external := true } :: ts) next (ncorr + 1) out log :=
    h.bumpC.replace rfl (fun r hr => hr) (h.sub t List.mem_cons_self) (fun _ => rfl)
      (fun _ => Iff.rfl) (Nat.le_refl _)
  have hm : ∀ {P : Tran → Prop}, (P { t with external := true } → P (t.associate ncorr)) →
      (∀ u ∈ { t with external := true } :: ts, P u) → ∀ u ∈ t.associate ncorr :: ts, P u := by
    intro P hP hall u hu
    rcases List.mem_cons.mp hu with rfl | hu
    · exact hP (hall _ List.mem_cons_self)
    · exact hall _ (List.mem_cons_of_mem _ hu)
  have hpm : ∀ corr, corr ∈ (t.associate ncorr).pending ↔ corr ∈ t.pending ∨ corr = ncorr := by
    intro corr; simp [Tran.associate]
  exact
    { h0 with
      freshT := hm (P := fun t => ∀ n, t.trid = some (.mine n) → n < next) id h0.freshT
      nodup := h0.nodup
      undec := hm (P := fun t => ∀ n, t.trid = some (.mine n) → ∀ ev ∈ log, commits (.mine n) ev = false ∧ rollsBack (.mine n) ev = false) id h0.undec
      began := hm (P := fun t => ∀ n, t.trid = some (.mine n) → ∃ d, Event.began (.mine n) d ∈ log) id h0.began
      invol := hm (P := fun t => ∀ n r, t.trid = some (.mine n) → touched log r (.mine n) → r ∈ t.involved) id h0.invol
      sub := hm (P := fun t => ∀ r ∈ t.involved, r ∈ e.all) id h0.sub
      ext := hm (P := fun t => ∀ n, t.trid = some (.mine n) → ∀ ev ∈ log, leaves (.mine n) ev = true → t.external = true) id h0.ext
      freshP := hm (P := fun t => ∀ corr ∈ t.pending, corr < ncorr + 1)
        (fun hh corr hc => by
          rcases (hpm corr).mp hc with hc | hc
          · exact hh corr hc
          · omega) h0.freshP
      pend := hm (P := fun t => ∀ n corr, t.trid = some (.mine n) → Event.call corr (.mine n) ∈ log → corr ∈ out → corr ∈ t.pending)
        (fun hh n corr a b c => (hpm corr).mpr (Or.inl (hh n corr a b c))) h0.pend
      pend' := hm (P := fun t => ∀ n corr, t.trid = some (.mine n) → Event.call corr (.mine n) ∈ log → corr ∈ t.pending ∨ ∃ st, Event.replied corr st ∈ log)
        (fun hh n corr a b => (hh n corr a b).imp (fun h' => (hpm corr).mpr (Or.inl h')) id) h0.pend'
      ownC := hm (P := fun t => ∀ corr x, corr ∈ t.pending → Event.call corr x ∈ log → t.trid = some x)
        (fun hh corr x a b => by
          rcases (hpm corr).mp a with a | a
          · exact hh corr x a b
          · have := h.freshC corr x b; omega) h0.ownC
      st := hm (P := fun t => ∀ n corr s, t.trid = some (.mine n) → Event.call corr (.mine n) ∈ log → Event.replied corr s ∈ log → s ≤ t.state) id h0.st }

/-- A service call within the current transaction. -/
theorem InvL.call {t : Tran} {x : Xid} (h : InvL e (t :: ts) next ncorr out log)
    (hx : t.trid = some x) :
    InvL e (t.associate ncorr :: ts) next (ncorr + 1) (out ++ [ncorr]) (.call ncorr x :: log) := by
  have h0 := h.associate
  have hnew : ∀ y, Event.call ncorr y ∉ log := fun y hy => Nat.lt_irrefl _ (h.freshC _ _ hy)
  have hnewR : ∀ y, Event.replied ncorr y ∉ log := fun y hy => Nat.lt_irrefl _ (h.freshR _ _ hy)
  have hself : ncorr ∈ (t.associate ncorr).pending := by simp [Tran.associate]
  have hmine : ∀ n, x = .mine n → ∀ u ∈ ts, u.trid ≠ some (.mine n) := by
    intro n hn; subst hn; exact h.head_ne hx
  exact
    { good := ⟨trivial, h0.good⟩
      freshT := h0.freshT
      freshL := by
        intro ev hev n hab
        rcases List.mem_cons.mp hev with rfl | hev
        · simp only [about, commits, rollsBack, leaves, touches, decide_eq_true_eq] at hab
          obtain hab | hab | hab | ⟨_, hab⟩ := hab
          · cases hab
          · cases hab
          · exact h.freshT t List.mem_cons_self n (by rw [hx, hab])
          · cases hab
        · exact h0.freshL ev hev n hab
      mineL := by
        intro ev hev y hy
        rcases List.mem_cons.mp hev with rfl | hev
        · simp [commits, rollsBack] at hy
        · obtain ⟨n, d, h1, h2⟩ := h0.mineL ev hev y hy
          exact ⟨n, d, h1, List.mem_cons_of_mem _ h2⟩
      nodup := h0.nodup
      undec := by
        intro u hu n hn ev hev
        rcases List.mem_cons.mp hev with rfl | hev
        · simp [commits, rollsBack]
        · exact h0.undec u hu n hn ev hev
      began := by
        intro u hu n hn
        obtain ⟨d, hd⟩ := h0.began u hu n hn
        exact ⟨d, List.mem_cons_of_mem _ hd⟩
      invol := by
        intro u hu n r hn ht
        rcases touched_cons.mp ht with ht | ht
        · simp [touches] at ht
        · exact h0.invol u hu n r hn ht
      sub := h0.sub
      ext := by
        intro u hu n hn ev hev hl
        rcases List.mem_cons.mp hev with rfl | hev
        · simp only [leaves, decide_eq_true_eq] at hl
          rcases List.mem_cons.mp hu with rfl | hu
          · rfl
          · exact absurd hn (hmine n hl u hu)
        · exact h0.ext u hu n hn ev hev hl
      freshC := by
        intro corr y hm
        rcases List.mem_cons.mp hm with hm | hm
        · injection hm with hm _; omega
        · exact h0.freshC _ _ hm
      freshR := by
        intro corr s hm
        rcases List.mem_cons.mp hm with hm | hm
        · cases hm
        · exact h0.freshR _ _ hm
      freshP := h0.freshP
      freshO := by
        intro corr hm
        rcases List.mem_append.mp hm with hm | hm
        · exact Nat.lt_succ_of_lt (h.freshO corr hm)
        · rw [List.mem_singleton] at hm; omega
      pend := by
        intro u hu n corr hn hc ho
        rcases List.mem_cons.mp hc with hc | hc
        · injection hc with hc hc'
          subst hc
          rcases List.mem_cons.mp hu with rfl | hu
          · exact hself
          · exact absurd hn (hmine n hc'.symm u hu)
        · rcases List.mem_append.mp ho with ho | ho
          · exact h0.pend u hu n corr hn hc ho
          · rw [List.mem_singleton] at ho
            exact absurd (ho ▸ hc) (hnew _)
      pend' := by
        intro u hu n corr hn hc
        rcases List.mem_cons.mp hc with hc | hc
        · injection hc with hc hc'
          subst hc
          rcases List.mem_cons.mp hu with rfl | hu
          · exact Or.inl hself
          · exact absurd hn (hmine n hc'.symm u hu)
        · rcases h0.pend' u hu n corr hn hc with h1 | ⟨s, h1⟩
          · exact Or.inl h1
          · exact Or.inr ⟨s, List.mem_cons_of_mem _ h1⟩
      uniqC := by
        intro corr y y' h1 h2
        rcases List.mem_cons.mp h1 with h1 | h1 <;> rcases List.mem_cons.mp h2 with h2 | h2
        · injection h1 with _ h1; injection h2 with _ h2; rw [h1, h2]
        · injection h1 with h1 _; exact absurd (h1 ▸ h2) (hnew _)
        · injection h2 with h2 _; exact absurd (h2 ▸ h1) (hnew _)
        · exact h0.uniqC _ _ _ h1 h2
      ownC := by
        intro u hu corr y hp hm
        rcases List.mem_cons.mp hm with hm | hm
        · injection hm with hm hm'
          subst hm hm'
          rcases List.mem_cons.mp hu with rfl | hu
          · exact hx
          · exact absurd (h.freshP u (List.mem_cons_of_mem _ hu) _ hp) (Nat.lt_irrefl _)
        · exact h0.ownC u hu corr y hp hm
      st := by
        intro u hu n corr s hn hm hr
        rcases List.mem_cons.mp hr with hr | hr
        · cases hr
        rcases List.mem_cons.mp hm with hm | hm
        · injection hm with hm _
          exact absurd (hm ▸ hr) (hnewR _)
        · exact h0.st u hu n corr s hn hm hr }

/-- The fields that do not care about a reply. -/
theorem InvL.addReply (h : InvL e ts next ncorr out log) {corr s : Nat} (hlt : corr < ncorr)
    (hst : ∀ t ∈ ts, ∀ n, t.trid = some (.mine n) → Event.call corr (.mine n) ∈ log → s ≤ t.state) :
    InvL e ts next ncorr out (.replied corr s :: log) :=
  { good := ⟨trivial, h.good⟩
    freshT := h.freshT
    freshL := by
      intro ev hev n hab
      rcases List.mem_cons.mp hev with rfl | hev
      · simp [about, commits, rollsBack, leaves, touches] at hab
      · exact h.freshL ev hev n hab
    mineL := by
      intro ev hev y hy
      rcases List.mem_cons.mp hev with rfl | hev
      · simp [commits, rollsBack] at hy
      · obtain ⟨n, d, h1, h2⟩ := h.mineL ev hev y hy
        exact ⟨n, d, h1, List.mem_cons_of_mem _ h2⟩
    nodup := h.nodup
    undec := by
      intro u hu n hn ev hev
      rcases List.mem_cons.mp hev with rfl | hev
      · simp [commits, rollsBack]
      · exact h.undec u hu n hn ev hev
    began := by
      intro u hu n hn
      obtain ⟨d, hd⟩ := h.began u hu n hn
      exact ⟨d, List.mem_cons_of_mem _ hd⟩
    invol := by
      intro u hu n r hn ht
      rcases touched_cons.mp ht with ht | ht
      · simp [touches] at ht
      · exact h.invol u hu n r hn ht
    sub := h.sub
    ext := by
      intro u hu n hn ev hev hl
      rcases List.mem_cons.mp hev with rfl | hev
      · simp [leaves] at hl
      · exact h.ext u hu n hn ev hev hl
    freshC := by
      intro corr y hm
      rcases List.mem_cons.mp hm with hm | hm
      · cases hm
      · exact h.freshC _ _ hm
    freshR := by
      intro corr' s' hm
      rcases List.mem_cons.mp hm with hm | hm
      · injection hm with hm _; omega
      · exact h.freshR _ _ hm
    freshP := h.freshP
    freshO := h.freshO
    pend := by
      intro u hu n corr hn hc ho
      rcases List.mem_cons.mp hc with hc | hc
      · cases hc
      · exact h.pend u hu n corr hn hc ho
    pend' := by
      intro u hu n corr hn hc
      rcases List.mem_cons.mp hc with hc | hc
      · cases hc
      · rcases h.pend' u hu n corr hn hc with h1 | ⟨s, h1⟩
        · exact Or.inl h1
        · exact Or.inr ⟨s, List.mem_cons_of_mem _ h1⟩
    uniqC := by
      intro corr y y' h1 h2
      rcases List.mem_cons.mp h1 with h1 | h1
      · cases h1
      rcases List.mem_cons.mp h2 with h2 | h2
      · cases h2
      exact h.uniqC _ _ _ h1 h2
    ownC := by
      intro u hu corr y hp hm
      rcases List.mem_cons.mp hm with hm | hm
      · cases hm
      · exact h.ownC u hu corr y hp hm
    st := by
      intro u hu n corr' s' hn hm hr
      have hm : Event.call corr' (.mine n) ∈ log := by
        rcases List.mem_cons.mp hm with hm | hm
        · cases hm
        · exact hm
      rcases List.mem_cons.mp hr with hr | hr
      · injection hr with hr hr'
        rw [hr'] 
        rw [hr] at hm
        exact hst u hu n hn hm
      · exact h.st u hu n corr' s' hn hm hr }

/-- Remove a replied correlation from a transaction. -/
theorem InvL.dropPending {t : Tran} (h : InvL e (t :: ts) next ncorr out log) {corr s : Nat}
    (ho : corr ∉ out) (hr : Event.replied corr s ∈ log) :
    InvL e (t.replied corr :: ts) next ncorr out log := by
  have hm : ∀ {P : Tran → Prop}, (P t → P (t.replied corr)) →
      (∀ u ∈ t :: ts, P u) → ∀ u ∈ t.replied corr :: ts, P u := by
    intro P hP hall u hu
    rcases List.mem_cons.mp hu with rfl | hu
    · exact hP (hall _ List.mem_cons_self)
    · exact hall _ (List.mem_cons_of_mem _ hu)
  have hpm : ∀ c, c ∈ (t.replied corr).pending ↔ c ∈ t.pending ∧ c ≠ corr := by
    intro c; simp [Tran.replied]
  exact
    { h with
      freshT := hm (P := fun t => ∀ n, t.trid = some (.mine n) → n < next) id h.freshT
      nodup := h.nodup
      undec := hm (P := fun t => ∀ n, t.trid = some (.mine n) → ∀ ev ∈ log, commits (.mine n) ev = false ∧ rollsBack (.mine n) ev = false) id h.undec
      began := hm (P := fun t => ∀ n, t.trid = some (.mine n) → ∃ d, Event.began (.mine n) d ∈ log) id h.began
      invol := hm (P := fun t => ∀ n r, t.trid = some (.mine n) → touched log r (.mine n) → r ∈ t.involved) id h.invol
      sub := hm (P := fun t => ∀ r ∈ t.involved, r ∈ e.all) id h.sub
      ext := hm (P := fun t => ∀ n, t.trid = some (.mine n) → ∀ ev ∈ log, leaves (.mine n) ev = true → t.external = true) id h.ext
      freshP := hm (P := fun t => ∀ corr ∈ t.pending, corr < ncorr) (fun hh c hc => hh c ((hpm c).mp hc).1) h.freshP
      pend := hm (P := fun t => ∀ n corr, t.trid = some (.mine n) → Event.call corr (.mine n) ∈ log → corr ∈ out → corr ∈ t.pending)
        (fun hh n c a b c' => (hpm c).mpr ⟨hh n c a b c', fun he => ho (he ▸ c')⟩) h.pend
      pend' := hm (P := fun t => ∀ n corr, t.trid = some (.mine n) → Event.call corr (.mine n) ∈ log → corr ∈ t.pending ∨ ∃ st, Event.replied corr st ∈ log)
        (fun hh n c a b => by
          by_cases hcc : c = corr
          · subst hcc; exact Or.inr ⟨s, hr⟩
          · exact (hh n c a b).imp (fun h' => (hpm c).mpr ⟨h', hcc⟩) id) h.pend'
      ownC := hm (P := fun t => ∀ corr x, corr ∈ t.pending → Event.call corr x ∈ log → t.trid = some x)
        (fun hh c x a b => hh c x ((hpm c).mp a).1 b) h.ownC
      st := hm (P := fun t => ∀ n corr s, t.trid = some (.mine n) → Event.call corr (.mine n) ∈ log → Event.replied corr s ∈ log → s ≤ t.state) id h.st }

theorem updateFirst_cases (corr st : Nat) : ∀ ts : List Tran,
    ((∀ t ∈ ts, corr ∉ t.pending) ∧ updateFirst corr st ts = ts) ∨
    ∃ a t b, ts = a ++ t :: b ∧ corr ∈ t.pending ∧ updateFirst corr st ts = a ++ t.update corr st :: b
  | [] => Or.inl ⟨by simp, rfl⟩
  | t :: ts => by
    unfold updateFirst
    split
    · rename_i h
      exact Or.inr ⟨[], t, ts, rfl, h, rfl⟩
    · rename_i h
      rcases updateFirst_cases corr st ts with ⟨h1, h2⟩ | ⟨a, u, b, h1, h2, h3⟩
      · left
        refine ⟨?_, by rw [h2]⟩
        intro u hu
        rcases List.mem_cons.mp hu with rfl | hu
        · exact h
        · exact h1 u hu
      · right
        exact ⟨t :: a, u, b, by rw [h1]; rfl, h2, by rw [h3]; rfl⟩

theorem InvL.reply (h : InvL e ts next ncorr out log) {corr s : Nat} (hc : corr ∈ out) :
    InvL e (updateFirst corr s ts) next ncorr (out.filter (· ≠ corr)) (.replied corr s :: log) := by
  have hlt := h.freshO corr hc
  have hsub : ∀ c ∈ out.filter (· ≠ corr), c ∈ out := fun c h => (List.mem_filter.mp h).1
  have hnot : corr ∉ out.filter (· ≠ corr) := by simp
  rcases updateFirst_cases corr s ts with ⟨h1, h2⟩ | ⟨a, t, b, h1, h2, h3⟩
  · rw [h2]
    refine (h.addReply hlt ?_).unreserve hsub
    intro t ht n hn hm
    exact absurd (h.pend t ht n corr hn hm hc) (h1 t ht)
  · rw [h3]
    subst h1
    have hp : InvL e (t :: (a ++ b)) next ncorr out log := h.perm List.perm_middle
    have h4 : InvL e ({ t with state := if t.state < s then s else t.state } :: (a ++ b)) next ncorr out log :=
      hp.replace rfl (fun r hr => hr) (hp.sub t List.mem_cons_self) (fun h => h) (fun _ => Iff.rfl)
        (by dsimp only; split <;> omega)
    have h5 : InvL e ({ t with state := if t.state < s then s else t.state } :: (a ++ b)) next ncorr out
        (.replied corr s :: log) := by
      refine h4.addReply hlt ?_
      intro u hu n hn hm
      rcases List.mem_cons.mp hu with rfl | hu
      · dsimp only; split <;> omega
      · have := hp.ownC t List.mem_cons_self corr _ h2 hm
        exact absurd hn (hp.head_ne this u hu)
    have h6 := (h5.unreserve hsub).dropPending (corr := corr) (s := s) hnot List.mem_cons_self
    exact h6.perm List.perm_middle.symm

end

/-! ### well formed contexts -/

structure W (e : Env) (c : Ctx) : Prop where
  inv : Inv e c.stack c
  full : Full c.log
  emp : c.empty.trid = none

theorem current_some {c : Ctx} (he : c.empty.trid = none) {x : Xid}
    (h : (current c).trid = some x) :
    ∃ t ts, c.stack = t :: ts ∧ t.suspended = false ∧ current c = t ∧ t.trid = some x := by
  unfold current at h ⊢
  cases hs : c.stack with
  | nil => rw [hs] at h; dsimp only at h; rw [he] at h; cases h
  | cons t ts =>
    rw [hs] at h
    dsimp only at h ⊢
    cases hsu : t.suspended with
    | true => rw [hsu] at h; simp only [if_true] at h; rw [he] at h; cases h
    | false =>
      rw [hsu] at h
      simp only [Bool.false_eq_true, if_false] at h ⊢
      exact ⟨t, ts, rfl, hsu, rfl, h⟩

theorem setCurrent_head {f : Tran → Tran} {c : Ctx} {t : Tran} {ts : List Tran}
    (hs : c.stack = t :: ts) (hsu : t.suspended = false) :
    setCurrent f c = { c with stack := f t :: ts } := by
  unfold setCurrent
  rw [hs]
  simp [hsu]

/-- An update of the current transaction that neither changes its id nor what the invariant is
about. -/
theorem W.setCurrent {e : Env} {c : Ctx} (h : W e c) {f : Tran → Tran}
    (h1 : ∀ t, (f t).trid = t.trid) (h2 : ∀ t, ∀ r ∈ t.involved, r ∈ (f t).involved)
    (h3 : ∀ t, (∀ r ∈ t.involved, r ∈ e.all) → ∀ r ∈ (f t).involved, r ∈ e.all)
    (h4 : ∀ t, t.external = true → (f t).external = true)
    (h5 : ∀ t, (f t).pending = t.pending) (h6 : ∀ t, (f t).state = t.state) :
    W e (setCurrent f c) := by
  unfold Tx.setCurrent
  split
  · exact ⟨h.inv, h.full, by rw [← h.emp]; exact h1 _⟩
  · rename_i t ts hs
    split
    · exact ⟨h.inv, h.full, by rw [← h.emp]; exact h1 _⟩
    · have hi := h.inv
      rw [hs] at hi
      refine ⟨hi.replace (h1 t) (h2 t) (h3 t (hi.sub t List.mem_cons_self)) (h4 t) ?_ ?_, h.full, h.emp⟩
      · intro corr; rw [h5]
      · rw [h6]; exact Nat.le_refl _

theorem W.stop {e : Env} {c : Ctx} (h : W e c) (x : Xid) (f : Flag) (rs : List Rm) :
    W e (stopAll e x f rs c).1 := by
  have hx := stopAll_extends e x f rs c
  have hh := extends_neutral h.inv h.full hx isStop_neutral
  obtain ⟨evs, hp, he⟩ := hx
  rw [he] at hh ⊢
  exact ⟨hh.1, hh.2, h.emp⟩

theorem W.ext {e : Env} {c c' : Ctx} (h : W e c) {p : Event → Prop} (hx : Extends p c c')
    (hn : ∀ ev, p ev → neutral ev = true) : W e c' := by
  have hh := extends_neutral h.inv h.full hx hn
  obtain ⟨evs, hp, he⟩ := hx
  rw [he] at hh ⊢
  exact ⟨hh.1, hh.2, h.emp⟩

theorem W.emit {e : Env} {c : Ctx} (h : W e c) {ev : Event} (hn : neutral ev = true) :
    W e (emit ev c) :=
  ⟨h.inv.add (Addable.neutral hn), h.full.neutral hn, h.emp⟩

theorem stack_of_extends {p : Event → Prop} {c c' : Ctx} (h : Extends p c c') :
    c'.stack = c.stack ∧ c'.next = c.next ∧ c'.nextCorr = c.nextCorr ∧
    c'.outstanding = c.outstanding ∧ c'.empty = c.empty ∧ c'.control = c.control ∧
    c'.timeout = c.timeout ∧ c'.logged = c.logged := by
  obtain ⟨evs, _, rfl⟩ := h
  exact ⟨rfl, rfl, rfl, rfl, rfl, rfl, rfl, rfl⟩

/-- Start resources in the current (top) transaction. -/
theorem W.startTop {e : Env} {c : Ctx} (h : W e c) {t : Tran} {ts : List Tran} {x : Xid}
    (hs : c.stack = t :: ts) (hx : t.trid = some x) (f : Flag) (among rs : List Rm)
    (hr : ∀ r ∈ rs, r ∈ t.involved) : W e (startAll e x f among rs c).1 := by
  have hext := startAll_extends e x f among rs c
  have hmem : t ∈ c.stack := by rw [hs]; exact List.mem_cons_self
  have hh := extends_start h.inv h.full hext (by
    intro n hn
    subst hn
    refine ⟨h.inv.freshT t hmem n hx, ?_⟩
    intro u hu hut r hr'
    have := eq_of_trid h.inv hu hmem hut hx
    subst this
    exact hr r hr') (none_live h.inv hmem hx)
  obtain ⟨evs, hp, he⟩ := hext
  rw [he] at hh ⊢
  exact ⟨hh.1, hh.2, h.emp⟩

theorem beginStart_extends (e : Env) (x : Xid) : ∀ (rs : List Rm) (c : Ctx),
    Extends (isStart x rs) c (beginStart e x rs c).1
  | [], c => Extends.refl c
  | r :: rs, c => by
    unfold beginStart
    dsimp only
    have h1 : Extends (isStart x (r :: rs)) c (doXa e (.start r x .none) c).1 :=
      Extends.emit ⟨r, _, _, List.mem_cons_self, rfl⟩
    refine h1.trans ((beginStart_extends e x rs _).mono ?_)
    rintro ev ⟨r', f, k, hr', rfl⟩
    exact ⟨r', f, k, List.mem_cons_of_mem _ hr', rfl⟩

theorem beginStop_extends (e : Env) (x : Xid) : ∀ (rs : List Rm) (c : Ctx),
    Extends (isStop x .success) c (beginStop e x rs c)
  | [], c => Extends.refl c
  | r :: rs, c => by
    unfold beginStop
    exact (Extends.emit ⟨r, _, rfl⟩ : Extends (isStop x .success) c _).trans (beginStop_extends e x rs _)

theorem fixed_sub {e : Env} {r : Rm} (h : r ∈ e.fixed) : r ∈ e.all := List.mem_append_right _ h

/-- Starting resources for a new transaction that may or may not be kept. -/
theorem W.startNew {e : Env} {c c' : Ctx} (h : W e c) (d : Option Time) (tmo : Time)
    {t : Tran} (ht : t = (newTran c.next d).involve e.fixed)
    (hx : Extends (isStart (.mine c.next) e.fixed)
      (Tx.emit (.began (.mine c.next) d) { c with timeout := tmo, next := c.next + 1 }) c') :
    W e { c' with stack := t :: c'.stack } ∧ W e c' := by
  have htr : t.trid = some (.mine c.next) := by subst ht; rfl
  have hinv : ∀ r, r ∈ t.involved ↔ r ∈ e.fixed := by
    intro r; subst ht
    rw [mem_involve]; simp [newTran]
  have hp : InvL e (t :: c.stack) (c.next + 1) c.nextCorr c.outstanding
      (.began (.mine c.next) d :: c.log) :=
    h.inv.pushMine htr (fun r hr => fixed_sub ((hinv r).mp hr)) (by subst ht; rfl)
  have hf : Full (.began (.mine c.next) d :: c.log) := h.full.neutral rfl
  have hh := extends_start (ts := t :: c.stack) (c := Tx.emit (.began (.mine c.next) d) { c with timeout := tmo, next := c.next + 1 })
    hp hf hx (by
      intro n hn
      injection hn with hn
      subst hn
      refine ⟨Nat.lt_succ_self _, ?_⟩
      intro u hu hut r hr
      have := eq_of_trid hp hu List.mem_cons_self hut htr
      subst this
      exact (hinv r).mpr hr) (none_live hp List.mem_cons_self htr)
  obtain ⟨evs, _, he⟩ := hx
  rw [he] at hh ⊢
  exact ⟨⟨hh.1, hh.2, h.emp⟩, ⟨hh.1.sublist (List.sublist_cons_self _ _), hh.2, h.emp⟩⟩

theorem W.beginNew {e : Env} {c : Ctx} (h : W e c) (now : Time) : W e (beginNew e now c).1 := by
  unfold Tx.beginNew
  dsimp only
  have hx := beginStart_extends e (.mine c.next) e.fixed
    (Tx.emit (.began (.mine c.next) ((newTran c.next (deadlineOf now c.timeout)).involve e.fixed).deadline)
      { c with timeout := 0, next := c.next + 1 })
  obtain ⟨h1, h2⟩ := h.startNew (deadlineOf now c.timeout) 0 rfl hx
  split
  · exact h1
  · exact h2.ext (beginStop_extends e _ _ _) isStop_neutral

theorem W.begin {e : Env} {c : Ctx} (h : W e c) (now : Time) : W e (begin e now c).1 := by
  unfold Tx.begin
  split
  · split
    · exact h
    · dsimp only
      split
      · exact h.stop _ _ _
      · exact (h.stop _ _ _).beginNew now
  · split
    · exact h
    · exact h.beginNew now

theorem W.resumeCurrent {e : Env} {c : Ctx} (h : W e c) {among : List Rm}
    (ha : ∀ r ∈ among, r ∈ e.all) : W e (resumeCurrent e among c).1 := by
  unfold Tx.resumeCurrent
  split
  · exact h
  · rename_i x hx
    split
    · exact h
    · obtain ⟨t, ts, hs, hsu, hc, htx⟩ := current_some h.emp hx
      have h' : W e (Tx.setCurrent (·.involve among) c) := by
        refine h.setCurrent (fun _ => rfl) ?_ ?_ (fun _ h => h) (fun _ => rfl) (fun _ => rfl)
        · intro t r hr; exact mem_involve.mpr (Or.inl hr)
        · intro t ht r hr
          rcases mem_involve.mp hr with hr | hr
          · exact ht r hr
          · exact ha r hr
      rw [setCurrent_head hs hsu] at h' ⊢
      have hcur : current { c with stack := t.involve among :: ts } = t.involve among := by
        unfold current
        have : (t.involve among).suspended = false := hsu
        simp [this]
      dsimp only
      rw [hcur]
      exact h'.startTop rfl htx _ _ _ (fun r hr => hr)

theorem W.continuation {e : Env} {s : Ctx × Tx} (h : W e s.1) (now : Time) :
    W e (continuation e now s).1 := by
  unfold Tx.continuation
  split
  · exact h
  · exact h.begin now
  · exact h.resumeCurrent (fun r hr => hr)

theorem commitPre_ok {t : Tran} (h : commitPre t = .ok) :
    t.own = true ∧ t.state = 0 ∧ t.pending = [] ∧ ∃ x, t.trid = some x := by
  unfold commitPre at h
  split at h
  · cases h
  split at h
  · cases h
  split at h
  · cases h
  split at h
  · cases h
  rename_i h1 h2 h3 h4
  refine ⟨by simpa using h2, by simpa using h3, by simpa using h4, ?_⟩
  cases ht : t.trid with
  | none => rw [ht] at h1; simp at h1
  | some x => exact ⟨x, rfl⟩

theorem rollbackPre_ok {t : Tran} (h : rollbackPre t = .ok) :
    t.own = true ∧ ∃ x, t.trid = some x := by
  unfold rollbackPre at h
  split at h
  · cases h
  split at h
  · cases h
  rename_i h1 h2
  refine ⟨by simpa using h2, ?_⟩
  cases ht : t.trid with
  | none => rw [ht] at h1; simp at h1
  | some x => exact ⟨x, rfl⟩

theorem W.commit {e : Env} {c : Ctx} (h : W e c) (now : Time) : W e (commit e now c).1 := by
  unfold Tx.commit
  split
  · exact h
  · rename_i hp
    obtain ⟨ho, hst, _, x, hx⟩ := commitPre_ok (Classical.not_not.mp hp)
    obtain ⟨t, ts, hs, hsu, hc, htx⟩ := current_some h.emp hx
    rw [hc] at ho hst ⊢
    have hi : Inv e (t :: ts) (pop c) := by have := h.inv; rw [hs] at this; exact this
    obtain ⟨h1, h2, h3⟩ := commitT_inv hi h.full ho hst
    refine W.continuation ?_ now
    have hstk : (pop c).stack = ts := by simp [pop, hs]
    refine ⟨?_, h2, ?_⟩
    · have : (commitT e t (pop c)).1.stack = ts := by rw [h3]; exact hstk
      rw [this]; exact h1
    · rw [h3]; exact h.emp

theorem W.rollback {e : Env} {c : Ctx} (h : W e c) (now : Time) : W e (rollback e now c).1 := by
  unfold Tx.rollback
  split
  · exact h
  · rename_i hp
    obtain ⟨ho, x, hx⟩ := rollbackPre_ok (Classical.not_not.mp hp)
    obtain ⟨t, ts, hs, hsu, hc, htx⟩ := current_some h.emp hx
    rw [hc] at ho ⊢
    have hi : Inv e (t :: ts) (pop c) := by have := h.inv; rw [hs] at this; exact this
    obtain ⟨h1, h2, h3⟩ := rollbackT_inv hi h.full ho
    refine W.continuation ?_ now
    have hstk : (pop c).stack = ts := by simp [pop, hs]
    refine ⟨?_, h2, ?_⟩
    · have : (rollbackT e t (pop c)).1.stack = ts := by rw [h3]; exact hstk
      rw [this]; exact h1
    · rw [h3]; exact h.emp

theorem W.suspend {e : Env} {c : Ctx} (h : W e c) : W e (suspend e c).1 := by
  unfold Tx.suspend
  split
  · exact h
  · rename_i x _
    have h' : W e (Tx.setCurrent (fun t => { t with suspended := true }) c) :=
      h.setCurrent (fun _ => rfl) (fun _ _ hr => hr) (fun _ h => h) (fun _ h => h) (fun _ => rfl) (fun _ => rfl)
    dsimp only
    split
    · exact h'.stop _ _ _
    · exact h'.stop _ _ _

theorem splitAt_some {x : Xid} : ∀ {l : List Tran} {a : List Tran} {t : Tran} {b : List Tran},
    splitAt x l = some (a, t, b) → l = a ++ t :: b ∧ t.trid = some x
  | [], a, t, b, h => by cases h
  | u :: l, a, t, b, h => by
    unfold splitAt at h
    split at h
    · rename_i hu
      cases h
      exact ⟨rfl, hu⟩
    · split at h
      · cases h
      · rename_i a' u' b' he
        cases h
        obtain ⟨h1, h2⟩ := splitAt_some he
        exact ⟨by rw [h1]; rfl, h2⟩

theorem W.withStack {e : Env} {c : Ctx} {l : List Tran} (h : Inv e l c) (hf : Full c.log)
    (he : c.empty.trid = none) : W e { c with stack := l } := ⟨h, hf, he⟩

theorem perm_rot (a b : List Tran) (t : Tran) : (t :: (a ++ b)).Perm (b ++ a ++ [t]).reverse := by
  refine List.Perm.trans ?_ (List.reverse_perm _).symm
  refine List.Perm.trans ?_ (List.perm_append_comm (l₁ := [t]) (l₂ := b ++ a))
  exact List.Perm.cons t List.perm_append_comm

theorem perm_mid (a b : List Tran) (t : Tran) : (t :: (a ++ b)).Perm (a ++ t :: b).reverse :=
  List.perm_middle.symm.trans (List.reverse_perm _).symm

theorem W.resume {e : Env} {c : Ctx} (h : W e c) (x : Option Xid) : W e (resume e x c).1 := by
  unfold Tx.resume
  split
  · exact h
  rename_i x
  split
  · exact h
  split
  · exact h
  split
  · exact h
  rename_i pre t post he
  split
  · exact h
  obtain ⟨h1, h2⟩ := splitAt_some he
  have hp : c.stack.Perm (t :: (pre ++ post)) := by
    refine (List.reverse_perm c.stack).symm.trans ?_
    rw [h1]; exact List.perm_middle
  have hi : Inv e (t :: (pre ++ post)) c := h.inv.perm hp
  dsimp only
  split
  · have hi1 : Inv e ({ t with suspended := false } :: (pre ++ post)) c :=
      hi.replace rfl (fun r hr => hr) (hi.sub t List.mem_cons_self) (fun h => h) (fun _ => Iff.rfl) (Nat.le_refl _)
    exact W.withStack (hi1.perm (perm_rot pre post _)) h.full h.emp
  · generalize ht2 : ({ t with suspended := false } : Tran).involve e.fixed = t2
    have htr : t2.trid = some x := by rw [← ht2]; exact h2
    have hi2 : Inv e (t2 :: (pre ++ post)) c := by
      refine hi.replace ?_ ?_ ?_ ?_ ?_ ?_
      · rw [← ht2]; rfl
      · intro r hr; rw [← ht2]; exact mem_involve.mpr (Or.inl hr)
      · intro r hr; rw [← ht2] at hr
        rcases mem_involve.mp hr with hr | hr
        · exact hi.sub t List.mem_cons_self r hr
        · exact fixed_sub hr
      · rw [← ht2]; exact fun h => h
      · rw [← ht2]; exact fun _ => Iff.rfl
      · rw [← ht2]; exact Nat.le_refl _
    have hext := startAll_extends e x .resume e.fixed t2.involved { c with stack := (pre ++ t2 :: post).reverse }
    have hh := extends_start (ts := t2 :: (pre ++ post)) (c := { c with stack := (pre ++ t2 :: post).reverse })
      hi2 h.full hext (by
        intro n hn
        subst hn
        refine ⟨hi2.freshT t2 List.mem_cons_self n htr, ?_⟩
        intro u hu hut r hr
        have := eq_of_trid hi2 hu List.mem_cons_self hut htr
        subst this
        exact hr) (none_live hi2 List.mem_cons_self htr)
    have hst := stack_of_extends hext
    split
    · refine ⟨?_, hh.2, ?_⟩
      · rw [hst.1]
        exact hh.1.perm (perm_mid pre post t2)
      · rw [hst.2.2.2.2.1]; exact h.emp
    · refine ⟨?_, hh.2, ?_⟩
      · exact hh.1.perm (perm_rot pre post t2)
      · exact (congrArg Tran.trid hst.2.2.2.2.1).trans h.emp

theorem W.pushOther {e : Env} {c : Ctx} (h : W e c) {t : Tran} (ht : t.own = false)
    (h3 : ∀ r ∈ t.involved, r ∈ e.all) (h5 : t.pending = []) :
    W e { c with stack := t :: c.stack } :=
  ⟨h.inv.pushOther ht h3 h5, h.full, h.emp⟩

theorem W.join {e : Env} {c : Ctx} (h : W e c) (n : Option Nat) :
    W e (join e (n.map (Xid.other · 0)) c).1 := by
  unfold Tx.join
  cases n with
  | none => exact h.pushOther rfl (by simp) rfl
  | some n =>
    dsimp only [Option.map]
    split
    · exact h.pushOther rfl (by simp) rfl
    · have h1 := (h.emit (ev := .involve (.other n 0) e.fixed) rfl).pushOther
        (t := ({ trid := some (.other n 0) } : Tran).involve e.fixed) rfl
        (by intro r hr; rcases mem_involve.mp hr with hr | hr
            · simp at hr
            · exact fixed_sub hr) rfl
      refine accum_ind (P := W e) ?_ _ _ h1
      intro r _ c hc
      dsimp only
      generalize (if r ∈ e.involved _ _ then Flag.join else Flag.none) = fl
      have := hc.inv.add (ev := .xa (.start r (.other n 0) fl) (e.xa c.log (.start r (.other n 0) fl)))
        (Addable.start (fun m hm => by cases hm))
      refine ⟨this, ?_, hc.emp⟩
      refine hc.full.add (by intro _ _ _ he; cases he) ?_
      intro r' y ht r'' k hm
      simp only [touches, Bool.and_eq_true, decide_eq_true_eq] at ht
      have := none_other hc.inv n 0 _ hm
      rw [ht.2] at this
      simp [rollsBack] at this

theorem W.start {e : Env} {c : Ctx} (h : W e c) : W e (start e c).1 := by
  unfold Tx.start
  dsimp only
  have hx := startAll_extends e (.mine c.next) .none e.fixed ((newTran c.next none).involve e.fixed).involved
    (Tx.emit (.began (.mine c.next) none) { c with next := c.next + 1 })
  have hx' := hx.mono (q := isStart (.mine c.next) e.fixed) (by
    rintro ev ⟨r, f, k, hr, rfl⟩
    refine ⟨r, f, k, ?_, rfl⟩
    rcases mem_involve.mp hr with hr | hr
    · simp [newTran] at hr
    · exact hr)
  obtain ⟨h1, h2⟩ := h.startNew none c.timeout rfl hx'
  split
  · exact h2
  · exact h1

theorem W.branch {e : Env} {c : Ctx} (h : W e c) (n : Nat) : W e (branch e n c).1 := by
  have h0 : W e { c with next := c.next + 1 } := ⟨h.inv.bump, h.full, h.emp⟩
  unfold Tx.branch
  dsimp only
  split
  · exact h0.pushOther rfl (by simp) rfl
  · have h1 := (h0.pushOther
        (t := ({ trid := some (.other n (c.next + 1)) } : Tran).involve e.fixed) rfl
        (by intro r hr; rcases mem_involve.mp hr with hr | hr
            · simp at hr
            · exact fixed_sub hr) rfl).emit (ev := .involve (.other n (c.next + 1)) e.fixed) rfl
    exact h1.startTop rfl rfl _ _ _ (fun r hr => hr)

theorem W.call {e : Env} {c : Ctx} (h : W e c) (b : Bool) : W e (call b c) := by
  unfold Tx.call
  dsimp only
  split
  · rename_i x hx
    split
    · exact ⟨h.inv.reserve, h.full, h.emp⟩
    · obtain ⟨t, ts, hs, hsu, _, htx⟩ := current_some h.emp hx
      rw [setCurrent_head (c := { c with nextCorr := c.nextCorr + 1, outstanding := c.outstanding ++ [c.nextCorr] }) hs hsu]
      have hi := h.inv
      rw [hs] at hi
      exact ⟨hi.call htx, h.full.add (by intro _ _ _ he; cases he) (by intro r x hx; simp [touches] at hx), h.emp⟩
  · exact ⟨h.inv.reserve, h.full, h.emp⟩

theorem W.callFails {e : Env} {c : Ctx} (h : W e c) (b : Bool) : W e (callFails b c) := by
  unfold Tx.callFails
  dsimp only
  split
  · rename_i x hx
    split
    · exact ⟨h.inv.bumpC, h.full, h.emp⟩
    · obtain ⟨t, ts, hs, hsu, _, htx⟩ := current_some h.emp hx
      rw [setCurrent_head (c := { c with nextCorr := c.nextCorr + 1 }) hs hsu]
      have hi := h.inv
      rw [hs] at hi
      exact ⟨hi.associate, h.full, h.emp⟩
  · exact ⟨h.inv.bumpC, h.full, h.emp⟩

theorem W.reply {e : Env} {c : Ctx} (h : W e c) (corr st : Nat) : W e (reply corr st c) := by
  unfold Tx.reply
  split
  · rename_i hc
    have hp := h.inv.perm (List.reverse_perm c.stack).symm
    have := hp.reply (s := st) hc
    exact ⟨this.perm (List.reverse_perm _).symm,
      h.full.add (by intro _ _ _ he; cases he) (by intro r x hx; simp [touches] at hx), h.emp⟩
  · exact h

theorem W.cancel {e : Env} {c : Ctx} (h : W e c) (corr : Nat) : W e (cancel corr c).1 := by
  unfold Tx.cancel
  split
  · exact h
  split
  · exact h
  · have := h.emit (ev := .discard corr) rfl
    exact ⟨this.inv.unreserve (fun c hc => (List.mem_filter.mp hc).1), this.full, this.emp⟩

theorem W.callAndReply {e : Env} {c : Ctx} (h : W e c) (b : Bool) (st : Option Nat) :
    W e (callAndReply b st c) := by
  unfold Tx.callAndReply
  split
  · exact (h.call b).reply _ _
  · exact h.callFails b

theorem W.sync {e : Env} {c : Ctx} (h : W e c) (b : Bool) (st : Option Nat) :
    W e (sync e b st c).1 := by
  unfold Tx.sync
  split
  · rename_i x _
    have h0 : W e (if (current c).involved ≠ [] then Tx.emit (.involve x (current c).involved) c else c) := by
      split
      · exact h.emit rfl
      · exact h
    dsimp only
    generalize (if (current c).involved ≠ [] then Tx.emit (.involve x (current c).involved) c else c) = c0 at h0 ⊢
    split
    · exact h0.stop _ _ _
    · exact ((h0.stop _ _ _).callAndReply false st).resumeCurrent (fun r hr => fixed_sub hr)
  · exact h.callAndReply true st

theorem W.external {e : Env} {c : Ctx} (h : W e c) : W e (external c) := by
  unfold Tx.external
  split
  · rename_i x hx
    obtain ⟨t, ts, hs, hsu, _, htx⟩ := current_some h.emp hx
    have h' : W e (Tx.setCurrent (fun t => { t with external := true }) c) :=
      h.setCurrent (fun _ => rfl) (fun _ _ hr => hr) (fun _ h => h) (fun _ _ => rfl) (fun _ => rfl) (fun _ => rfl)
    rw [setCurrent_head hs hsu] at h' ⊢
    refine ⟨h'.inv.add (Addable.external ?_), h'.full.add (by intro _ _ _ he; cases he) (by intro r x hx; simp [touches] at hx), h.emp⟩
    intro n hn
    subst hn
    refine ⟨h'.inv.freshT _ List.mem_cons_self n htx, ?_⟩
    intro u hu hut
    have := eq_of_trid h'.inv hu List.mem_cons_self hut htx
    subst this; rfl
  · exact h

theorem W.register {e : Env} {c : Ctx} (h : W e c) (r : Rm) : W e (register e r c).1 := by
  unfold Tx.register
  split
  · exact h
  rename_i hdyn
  split
  · exact h
  have hra : r ∈ e.all := List.mem_append_left _ (Classical.not_not.mp hdyn)
  have h1 : W e (Tx.setCurrent (fun t => { t with dynamic := addUnique t.dynamic r }) c) :=
    h.setCurrent (fun _ => rfl) (fun _ _ hr => hr) (fun _ h => h) (fun _ h => h) (fun _ => rfl) (fun _ => rfl)
  dsimp only
  split
  · exact h1
  rename_i x hx
  obtain ⟨t, ts, hs, hsu, hc, htx⟩ := current_some h.emp hx
  rw [setCurrent_head hs hsu] at h1 ⊢
  -- the transaction with `r` involved
  have hreg : ∀ (t' : Tran), t'.trid = some x → W e { c with stack := t' :: ts } → r ∈ t'.involved →
      W e (Tx.emit (.reg r x) { c with stack := t' :: ts }) := by
    intro t' ht' hw hr
    refine ⟨hw.inv.add (Addable.reg ?_), ?_, hw.emp⟩
    · intro n hn
      subst hn
      refine ⟨hw.inv.freshT t' List.mem_cons_self n ht', ?_⟩
      intro u hu hut
      have := eq_of_trid hw.inv hu List.mem_cons_self hut ht'
      subst this; exact hr
    · refine hw.full.add (by intro _ _ _ he; cases he) ?_
      intro r' y ht r'' k hm
      simp only [touches, Bool.and_eq_true, decide_eq_true_eq] at ht
      have := none_live hw.inv List.mem_cons_self ht' _ hm
      rw [ht.2] at this
      simp [rollsBack] at this
  split
  · rename_i hri
    rw [hc] at hri
    exact hreg _ htx h1 hri
  · have hset : Tx.setCurrent (·.involve [r]) (Tx.emit (.reg r x) { c with stack := { t with dynamic := addUnique t.dynamic r } :: ts }) =
        Tx.emit (.reg r x) { c with stack := ({ t with dynamic := addUnique t.dynamic r } : Tran).involve [r] :: ts } := by
      rw [setCurrent_head (t := { t with dynamic := addUnique t.dynamic r }) (ts := ts) rfl hsu]
      rfl
    rw [hset]
    have h2 : W e { c with stack := ({ t with dynamic := addUnique t.dynamic r } : Tran).involve [r] :: ts } := by
      refine ⟨h1.inv.replace rfl ?_ ?_ (fun h => h) (fun _ => Iff.rfl) (Nat.le_refl _), h1.full, h1.emp⟩
      · intro r' hr'; exact mem_involve.mpr (Or.inl hr')
      · intro r' hr'
        rcases mem_involve.mp hr' with hr' | hr'
        · exact h1.inv.sub _ List.mem_cons_self r' hr'
        · rw [List.mem_singleton] at hr'; exact hr' ▸ hra
    have h3 := hreg (({ t with dynamic := addUnique t.dynamic r } : Tran).involve [r]) htx h2 (mem_involve.mpr (Or.inr (List.mem_singleton.mpr rfl)))
    split
    · exact h3
    · exact h3.emit rfl

theorem W.unregister {e : Env} {c : Ctx} (h : W e c) (r : Rm) : W e (unregister r c).1 := by
  unfold Tx.unregister
  split
  · exact h
  split
  · exact h
  · exact h.setCurrent (f := fun t => { t with dynamic := t.dynamic.erase r }) (fun _ => rfl) (fun _ _ hr => hr) (fun _ h => h) (fun _ h => h) (fun _ => rfl) (fun _ => rfl)

/-- The loop over the owned transactions in `finalize`. -/
theorem finalizeLoop {e : Env} (ok : Bool) : ∀ (ts : List Tran) (c : Ctx) (k : Tx),
    Inv e ts c → Full c.log → (∀ t ∈ ts, t.own = true) →
    let s := accum (commitOrRollback e ok) ts (c, k)
    Inv e [] s.1 ∧ Full s.1.log ∧ s.1 = { c with log := s.1.log }
  | [], c, k, h, hf, _ => ⟨h, hf, rfl⟩
  | t :: ts, c, k, h, hf, ho => by
    unfold accum
    have hto := ho t List.mem_cons_self
    have h1 : Inv e ts (commitOrRollback e ok t c).1 ∧ Full (commitOrRollback e ok t c).1.log ∧
        (commitOrRollback e ok t c).1 = { c with log := (commitOrRollback e ok t c).1.log } := by
      unfold commitOrRollback
      split
      · rename_i hs
        simp only [Bool.and_eq_true, beq_iff_eq] at hs
        exact commitT_inv h hf hto hs.2
      · exact rollbackT_inv h hf hto
    obtain ⟨h1, h2, h3⟩ := h1
    obtain ⟨i1, i2, i3⟩ := finalizeLoop ok ts _ (k.add (commitOrRollback e ok t c).2) h1 h2
      (fun u hu => ho u (List.mem_cons_of_mem _ hu))
    refine ⟨i1, i2, ?_⟩
    rw [i3, h3]

theorem W.finalize {e : Env} {c : Ctx} (h : W e c) (ok : Bool) : W e (finalize e ok c).1 := by
  have hd := neutral_many (evs := ((c.stack.reverse.map (·.pending)).flatten.map Event.discard).reverse)
    (h.inv.perm (List.reverse_perm c.stack).symm) h.full (by
      intro ev hev
      rw [List.mem_reverse, List.mem_map] at hev
      obtain ⟨_, _, rfl⟩ := hev
      rfl)
  have hsub : ((c.stack.reverse.filter (fun t => t.trid.isSome)).filter (·.own)).Sublist c.stack.reverse :=
    List.filter_sublist.trans List.filter_sublist
  have hl := finalizeLoop (e := e) ok ((c.stack.reverse.filter (fun t => t.trid.isSome)).filter (·.own))
    (discardAll c.stack.reverse { c with stack := [] }) .ok
    (hd.1.sublist hsub) hd.2 (by
      intro t ht
      exact (List.mem_filter.mp ht).2)
  obtain ⟨l1, l2, l3⟩ := hl
  have hW : W e (accum (commitOrRollback e ok)
      ((c.stack.reverse.filter (fun t => t.trid.isSome)).filter (·.own))
      (discardAll c.stack.reverse { c with stack := [] }, .ok)).1 := by
    refine ⟨?_, l2, ?_⟩
    · have : (accum (commitOrRollback e ok)
        ((c.stack.reverse.filter (fun t => t.trid.isSome)).filter (·.own))
        (discardAll c.stack.reverse { c with stack := [] }, .ok)).1.stack = [] := by rw [l3]; rfl
      rw [this]; exact l1
    · rw [l3]; exact h.emp
  unfold Tx.finalize
  dsimp only
  split
  · exact hW
  · split
    · exact hW
    · exact hW.stop _ _ _

theorem W.step {e : Env} {c : Ctx} (h : W e c) (a : Act) : W e (step e c a) := by
  cases a with
  | begin now => exact h.begin now
  | commit now => exact h.commit now
  | rollback now => exact h.rollback now
  | suspend => exact h.suspend
  | resume x => exact h.resume x
  | setControl k => exact ⟨h.inv, h.full, h.emp⟩
  | setReturn l => exact ⟨h.inv, h.full, h.emp⟩
  | setTimeout t =>
    show W e (Tx.setTimeout t c).1
    unfold Tx.setTimeout
    split
    · exact h
    · exact ⟨h.inv, h.full, h.emp⟩
  | reg r => exact h.register r
  | unreg r => exact h.unregister r
  | join n => exact h.join n
  | start => exact h.start
  | branch n => exact h.branch n
  | call b => exact h.call b
  | reply corr st => exact h.reply corr st
  | cancel corr => exact h.cancel corr
  | callFails b => exact h.callFails b
  | sync b st => exact h.sync b st
  | external => exact h.external
  | finalize ok => exact h.finalize ok

theorem W.init (e : Env) : W e {} := by
  refine ⟨?_, ?_, rfl⟩
  · constructor <;> simp [AllGood]
  · intro x r k h; cases h

theorem W.run (e : Env) (as : List Act) : W e (run e as) := by
  unfold Tx.run
  have : ∀ (as : List Act) (c : Ctx), W e c → W e (as.foldl (Tx.step e) c) := by
    intro as
    induction as with
    | nil => intro c h; exact h
    | cons a as ih => intro c h; exact ih _ (h.step a)
  exact this as _ (W.init e)

end Casual.Tx
