import Verif.TM.WireSpec
import Verif.TM.Life
/-!
# Requests on the wire: proof
-/
namespace Casual.TM
open Casual.Code Casual.FanOut

/-- `X`: instances that are about to be looked at -/
structure IWX (X : Int → Nat → Prop) (s : State) : Prop where
  wire : Always WireOk s.tr
  idle : ∀ p ∈ s.proxies, ∀ i ∈ p.insts, 0 < p.id → i.state = .idle → owes s.tr p.id i.pid = false
  ids : (s.proxies.map (·.id)).Nodup
  pids : ∀ p ∈ s.proxies, (p.insts.map (·.pid)).Nodup
  pend : ∀ r ∈ s.pending, Obs.issued r ∈ s.tr ∧ 0 < r.rm
  corr : ∀ r, Obs.issued r ∈ s.tr → r.corr < s.nextCorr
  corrN : ((s.tr.filterMap issued?).map (·.corr)).Nodup
  gone : s.gone ≠ [] → ∃ i, Obs.ev (.ipcGone i) ∈ s.tr
  fifo : Calm s.tr → ∀ rm, 0 < rm → sentTo rm s.tr ++ s.pending.filter (fun r => decide (r.rm = rm)) = issuedTo rm s.tr
  wait : Calm s.tr → ∀ r ∈ s.pending, ∀ p ∈ s.proxies, p.id = r.rm → ∀ i ∈ p.insts, ¬ X p.id i.pid → i.state ≠ .idle

abbrev IW := IWX (fun _ _ => False)

/-- observations that do not matter here -/
def Off (o : Obs) : Prop :=
  (∀ r p, o ≠ .wire r p) ∧ (∀ r, o ≠ .issued r) ∧ (∀ rm pid b, openStep rm pid b o = true → b = true)

variable {X : Int → Nat → Prop}

theorem owes_append (a b : List Obs) (rm : Int) (pid : Nat) :
    owes (a ++ b) rm pid = b.foldl (openStep rm pid) (owes a rm pid) := by simp [owes]

theorem owes_off {a b : List Obs} (hb : ∀ o ∈ b, Off o) {rm : Int} {pid : Nat} (h : owes a rm pid = false) :
    owes (a ++ b) rm pid = false := by
  rw [owes_append]
  generalize owes a rm pid = x at h
  subst h
  induction b with
  | nil => rfl
  | cons o b ih =>
    rw [List.foldl_cons]
    have : openStep rm pid false o = false := by
      cases hx : openStep rm pid false o
      · rfl
      · exact absurd ((hb o (by simp)).2.2 rm pid false hx) (by simp)
    rw [this]
    exact ih (fun o ho => hb o (by simp [ho]))

theorem issuedTo_append (rm : Int) (a b : List Obs) : issuedTo rm (a ++ b) = issuedTo rm a ++ issuedTo rm b := by
  simp [issuedTo]
theorem sentTo_append (rm : Int) (a b : List Obs) : sentTo rm (a ++ b) = sentTo rm a ++ sentTo rm b := by
  simp [sentTo]

theorem off_issuedTo {b : List Obs} (hb : ∀ o ∈ b, Off o) (rm : Int) : issuedTo rm b = [] := by
  unfold issuedTo
  rw [List.filterMap_eq_nil_iff]
  intro o ho
  have := (hb o ho).2.1
  cases o <;> first | rfl | (rename_i r; exact absurd rfl (this r))

theorem off_sentTo {b : List Obs} (hb : ∀ o ∈ b, Off o) (rm : Int) : sentTo rm b = [] := by
  unfold sentTo
  rw [List.filterMap_eq_nil_iff]
  intro o ho
  have := (hb o ho).1
  cases o <;> first | rfl | (rename_i r p; exact absurd rfl (this r p))

theorem off_issued? {b : List Obs} (hb : ∀ o ∈ b, Off o) : b.filterMap issued? = [] := by
  rw [List.filterMap_eq_nil_iff]
  intro o ho
  have := (hb o ho).2.1
  cases o <;> first | rfl | (rename_i r; exact absurd rfl (this r))

theorem Calm.left {a b : List Obs} (h : Calm (a ++ b)) : Calm a :=
  ⟨fun i hi => h.1 i (by simp [hi]), fun hi => h.2.1 (by simp [hi]), fun hi => h.2.2 (by simp [hi])⟩

theorem always_append {Q : List Obs → Obs → Prop} {tr l : List Obs} (h : Always Q tr)
    (hl : ∀ l1 o l2, l = l1 ++ o :: l2 → Q (tr ++ l1) o) : Always Q (tr ++ l) := by
  intro pre o post he
  rw [List.append_eq_append_iff] at he
  rcases he with ⟨as, h1, h2⟩ | ⟨bs, h1, h2⟩
  · subst h1; exact hl as o post h2
  · cases bs with
    | nil => have := hl [] o post (by simpa using h2.symm); simp at h1 this; rw [← h1]; exact this
    | cons b bs =>
      simp only [List.cons_append, List.cons.injEq] at h2
      obtain ⟨rfl, -⟩ := h2
      exact h pre o bs h1

theorem always_off {tr l : List Obs} (h : Always WireOk tr) (hl : ∀ o ∈ l, Off o) : Always WireOk (tr ++ l) := by
  apply always_append h
  intro l1 o l2 he
  have := (hl o (by rw [he]; simp)).1
  cases o <;> first | trivial | (rename_i r p; exact absurd rfl (this r p))

/-- nothing of interest happens -/
theorem IWX.off {s s' : State} (h : IWX X s) (l : List Obs) (ht : s'.tr = s.tr ++ l) (hl : ∀ o ∈ l, Off o)
    (hp : s'.proxies = s.proxies) (hq : s'.pending = s.pending) (hc : s'.nextCorr = s.nextCorr)
    (hg : s'.gone = s.gone) : IWX X s' := by
  constructor
  · rw [ht]; exact always_off h.wire hl
  · rw [hp, ht]; exact fun p hp i hi h0 hs => owes_off hl (h.idle p hp i hi h0 hs)
  · rw [hp]; exact h.ids
  · rw [hp]; exact h.pids
  · rw [hq, ht]; exact fun r hr => ⟨List.mem_append_left _ (h.pend r hr).1, (h.pend r hr).2⟩
  · rw [hc, ht]
    intro r hr
    rcases List.mem_append.mp hr with hr | hr
    · exact h.corr r hr
    · exact absurd rfl ((hl _ hr).2.1 r)
  · rw [ht, List.filterMap_append, off_issued? hl, List.append_nil]; exact h.corrN
  · rw [hg, ht]
    intro hne
    obtain ⟨i, hi⟩ := h.gone hne
    exact ⟨i, List.mem_append_left _ hi⟩
  · rw [ht, hq]
    intro hcalm rm hrm
    rw [sentTo_append, issuedTo_append, off_issuedTo hl, off_sentTo hl, List.append_nil, List.append_nil]
    exact h.fifo hcalm.left rm hrm
  · rw [ht, hq, hp]
    exact fun hcalm => h.wait hcalm.left

theorem IWX.same {s s' : State} (h : IWX X s) (ht : s'.tr = s.tr)
    (hp : s'.proxies = s.proxies) (hq : s'.pending = s.pending) (hc : s'.nextCorr = s.nextCorr)
    (hg : s'.gone = s.gone) : IWX X s' := h.off [] (by simpa using ht) (by simp) hp hq hc hg

theorem IWX.emit {s : State} (h : IWX X s) {o : Obs} (ho : Off o) : IWX X (s.emit o) :=
  h.off [o] rfl (by simpa using ho) rfl rfl rfl rfl

theorem off_of {o : Obs} (h1 : ∀ r p, o ≠ .wire r p) (h2 : ∀ r, o ≠ .issued r) : Off o := by
  refine ⟨h1, h2, ?_⟩
  intro rm pid b h
  cases o with
  | wire r p => exact absurd rfl (h1 r p)
  | got m => simp only [openStep] at h; split at h <;> simp_all
  | ev e =>
    cases e with
    | ready rm' p => simp only [openStep] at h; split at h <;> simp_all
    | crash => simp [openStep] at h
    | _ => exact h
  | _ => exact h

theorem plain_off {o : Obs} (h : Plain o) : Off o := by
  refine off_of ?_ ?_
  · rintro r p rfl; exact h
  · rintro r rfl; exact h

/-- everything volatile is gone -/
theorem IWX.cleared {s s' : State} (h : IWX X s) (l : List Obs) (ht : s'.tr = s.tr ++ l) (hl : ∀ o ∈ l, Off o)
    (hp : s'.proxies = []) (hq : s'.pending = []) (hc : s'.nextCorr = s.nextCorr)
    (hg : s'.gone = s.gone) (hnc : ¬ Calm s'.tr) : IW s' := by
  constructor
  · rw [ht]; exact always_off h.wire hl
  · rw [hp]; simp
  · rw [hp]; simp
  · rw [hp]; simp
  · rw [hq]; simp
  · rw [hc, ht]
    intro r hr
    rcases List.mem_append.mp hr with hr | hr
    · exact h.corr r hr
    · exact absurd rfl ((hl _ hr).2.1 r)
  · rw [ht, List.filterMap_append, off_issued? hl, List.append_nil]; exact h.corrN
  · rw [hg, ht]
    intro hne
    obtain ⟨i, hi⟩ := h.gone hne
    exact ⟨i, List.mem_append_left _ hi⟩
  · exact fun hcalm => absurd hcalm hnc
  · exact fun hcalm => absurd hcalm hnc

theorem IWX.halt {s : State} (h : IWX X s) : IW s.halt :=
  h.cleared [.halted] rfl (by simpa using off_of (by simp) (by simp)) rfl rfl rfl rfl
    (fun hc => hc.2.1 (by simp [State.halt]))

theorem IWX.rewait {Y : Int → Nat → Prop} {s : State} (h : IWX X s)
    (hw : Calm s.tr → ∀ r ∈ s.pending, ∀ p ∈ s.proxies, p.id = r.rm → ∀ i ∈ p.insts, ¬ Y p.id i.pid → i.state ≠ .idle) :
    IWX Y s :=
  ⟨h.wire, h.idle, h.ids, h.pids, h.pend, h.corr, h.corrN, h.gone, h.fifo, hw⟩

/-! ## instReady -/

theorem takePending_some {rm : Int} {l : List Req} {r : Req} {rest : List Req} (h : takePending rm l = some (r, rest)) :
    r.rm = rm ∧ ∃ a b, l = a ++ r :: b ∧ rest = a ++ b ∧ ∀ x ∈ a, x.rm ≠ rm := by
  induction l generalizing rest with
  | nil => cases h
  | cons x l ih =>
    unfold takePending at h
    split at h
    · rename_i hx
      simp only [Option.some.injEq, Prod.mk.injEq] at h
      obtain ⟨rfl, rfl⟩ := h
      exact ⟨hx, [], l, rfl, rfl, by simp⟩
    · rename_i hx
      simp only [Option.map_eq_some_iff, Prod.mk.injEq] at h
      obtain ⟨⟨r', rest'⟩, h1, h2, h3⟩ := h
      simp only at h2 h3
      subst h2; subst h3
      obtain ⟨h4, a, b, h5, h6, h7⟩ := ih h1
      refine ⟨h4, x :: a, b, by simp [h5], by simp [h6], ?_⟩
      intro y hy
      rcases List.mem_cons.mp hy with rfl | hy
      · exact hx
      · exact h7 y hy

theorem takePending_none {rm : Int} {l : List Req} (h : takePending rm l = none) : ∀ x ∈ l, x.rm ≠ rm := by
  induction l with
  | nil => simp
  | cons x l ih =>
    unfold takePending at h
    split at h
    · cases h
    · rename_i hx
      simp only [Option.map_eq_none_iff] at h
      intro y hy
      rcases List.mem_cons.mp hy with rfl | hy
      · exact hx
      · exact ih h y hy

theorem setInst_mem {rm : Int} {pid : Nat} {f : Inst → Inst} {ps : List Proxy} {p : Proxy}
    (h : p ∈ setInst rm pid f ps) : ∃ q ∈ ps, p.id = q.id ∧
      p.insts = if q.id = rm then q.insts.map (fun i => if i.pid = pid then f i else i) else q.insts := by
  obtain ⟨q, hq, rfl⟩ := List.mem_map.mp h
  refine ⟨q, hq, ?_, ?_⟩
  · split <;> rfl
  · split <;> rfl

theorem setInst_ids (rm : Int) (pid : Nat) (f : Inst → Inst) (ps : List Proxy) :
    (setInst rm pid f ps).map (·.id) = ps.map (·.id) := by
  unfold setInst
  rw [List.map_map]
  apply List.map_congr_left
  intro p _
  simp only [Function.comp]
  split <;> rfl

theorem setInst_pids {rm : Int} {pid : Nat} {f : Inst → Inst} (hf : ∀ i, (f i).pid = i.pid) {ps : List Proxy}
    (h : ∀ p ∈ ps, (p.insts.map (·.pid)).Nodup) : ∀ p ∈ setInst rm pid f ps, (p.insts.map (·.pid)).Nodup := by
  intro p hp
  obtain ⟨q, hq, -, he⟩ := setInst_mem hp
  rw [he]
  split
  · rw [List.map_map]
    have : (q.insts.map ((fun x => x.pid) ∘ fun i => if i.pid = pid then f i else i)) = q.insts.map (·.pid) := by
      apply List.map_congr_left
      intro i _
      simp only [Function.comp]
      split
      · exact hf i
      · rfl
    rw [this]; exact h q hq
  · exact h q hq

theorem owes_wire (tr : List Obs) (r : Req) (p : Proc) (rm : Int) (pid : Nat) :
    owes (tr ++ [.wire r p]) rm pid = if r.rm = rm ∧ p.pid = pid then true else owes tr rm pid := by
  rw [owes_append]; rfl

/-- an instance has been marked idle and owes nothing; `X` is that instance -/
theorem IWX.instReady {s : State} {rm : Int} {pid : Nat} (h : IWX (fun a b => a = rm ∧ b = pid) s)
    (ho : 0 < rm → owes s.tr rm pid = false) : IW (s.instReady rm pid) := by
  unfold State.instReady
  split
  · rename_i hn
    have hn := takePending_none hn
    refine h.rewait (fun hc r hr p hp hid i hi _ => ?_)
    refine h.wait hc r hr p hp hid i hi ?_
    rintro ⟨h1, -⟩
    exact hn r hr (hid.symm.trans h1)
  rename_i r rest htake
  obtain ⟨hrm, a, b, hpd, hrest, ha⟩ := takePending_some htake
  have hr0 : 0 < r.rm := (h.pend r (by rw [hpd]; simp)).2
  split
  · rename_i hg
    refine h.rewait (fun hc r hr p hp hid i hi _ => ?_)
    refine h.wait hc r hr p hp hid i hi ?_
    rintro ⟨h1, h2⟩
    -- the instance would have been found
    unfold State.getInst at hg
    cases hfp : s.proxies.find? (fun p => decide (p.id = rm)) with
    | none =>
      rw [List.find?_eq_none] at hfp
      exact hfp p hp (by simpa using h1)
    | some q =>
      rw [hfp] at hg
      have hq : q = p := by
        have hqm := List.mem_of_find?_eq_some hfp
        have hqi : q.id = rm := by simpa using List.find?_some hfp
        have := h.ids
        exact eq_of_nodup_map this hqm hp (hqi.trans h1.symm)
      subst hq
      simp only [Option.bind_some, List.find?_eq_none] at hg
      exact hg i hi (by simpa using h2)
  rename_i i hgi
  have hi : i.pid = pid := by
    unfold State.getInst at hgi
    cases hfp : s.proxies.find? (fun p => decide (p.id = rm)) with
    | none => rw [hfp] at hgi; cases hgi
    | some q =>
      rw [hfp] at hgi
      simpa using List.find?_some hgi
  dsimp only
  have hrestm : ∀ x ∈ rest, x ∈ s.pending := by
    intro x hx; rw [hrest] at hx; rw [hpd]; simp at hx ⊢; grind
  split
  · rename_i hgone
    have hnc : ¬ Calm s.tr := by
      intro hc
      obtain ⟨j, hj⟩ := h.gone (by intro h0; simp [h0] at hgone)
      exact hc.1 j hj
    have hoff : ∀ o ∈ [Obs.dropped r], Off o := by simpa using off_of (by simp) (by simp)
    constructor
    · exact always_off h.wire hoff
    · exact fun p hp i hi h0 hs => owes_off hoff (h.idle p hp i hi h0 hs)
    · exact h.ids
    · exact h.pids
    · exact fun r hr => ⟨List.mem_append_left _ (h.pend r (hrestm r hr)).1, (h.pend r (hrestm r hr)).2⟩
    · intro x hx
      rcases List.mem_append.mp hx with hx | hx
      · exact h.corr x hx
      · simp at hx
    · show (((s.tr ++ [Obs.dropped r]).filterMap issued?).map _).Nodup
      rw [List.filterMap_append, off_issued? hoff, List.append_nil]; exact h.corrN
    · intro hne
      obtain ⟨i, hi⟩ := h.gone hne
      exact ⟨i, List.mem_append_left _ hi⟩
    · exact fun hc => absurd hc.left hnc
    · exact fun hc => absurd hc.left hnc
  -- sent
  have hwire : Always WireOk (s.tr ++ [.wire r ⟨i.pid, i.ipc⟩]) := by
    apply always_append h.wire
    intro l1 o l2 he
    cases l1 with
    | nil =>
      simp only [List.nil_append, List.cons.injEq] at he
      rw [← he.1]
      refine ⟨by simpa using (h.pend r (by rw [hpd]; simp)).1, fun h0 => ?_⟩
      simp only [List.append_nil]
      rw [hrm, hi]
      exact ho (hrm ▸ h0)
    | cons x l1 => simp at he
  have hcorr : ∀ x, Obs.issued x ∈ s.tr ++ [.wire r ⟨i.pid, i.ipc⟩] → x.corr < s.nextCorr := by
    intro x hx
    rcases List.mem_append.mp hx with hx | hx
    · exact h.corr x hx
    · simp at hx
  have hcorrN : (((s.tr ++ [Obs.wire r ⟨i.pid, i.ipc⟩]).filterMap issued?).map (·.corr)).Nodup := by
    rw [List.filterMap_append]
    have : [Obs.wire r ⟨i.pid, i.ipc⟩].filterMap issued? = [] := rfl
    rw [this, List.append_nil]; exact h.corrN
  split
  · rename_i hidle
    constructor
    · exact hwire
    · intro p hp j hj h0 hs
      obtain ⟨q, hq, hid, hin⟩ := setInst_mem hp
      show owes (s.tr ++ [.wire r ⟨i.pid, i.ipc⟩]) p.id j.pid = false
      rw [hin] at hj
      rw [owes_wire]
      split at hj
      · rename_i hqrm
        obtain ⟨j0, hj0, rfl⟩ := List.mem_map.mp hj
        split at hs
        · cases hs
        · rename_i hne
          rw [if_neg (by rintro ⟨-, h2⟩; rw [if_neg hne] at h2; exact hne (h2.symm.trans hi)), hid]
          rw [if_neg hne]
          exact h.idle q hq j0 hj0 (hid ▸ h0) hs
      · rename_i hqrm
        rw [if_neg (by rintro ⟨h2, -⟩; exact hqrm (hid.symm.trans (h2.symm.trans hrm))), hid]
        exact h.idle q hq j hj (hid ▸ h0) hs
    · show ((setInst _ _ _ _).map _).Nodup
      rw [setInst_ids]; exact h.ids
    · exact setInst_pids (f := fun i => { i with state := .busy }) (fun _ => rfl) h.pids
    · exact fun r hr => ⟨List.mem_append_left _ (h.pend r (hrestm r hr)).1, (h.pend r (hrestm r hr)).2⟩
    · exact hcorr
    · exact hcorrN
    · intro hne
      obtain ⟨i, hi⟩ := h.gone hne
      exact ⟨i, List.mem_append_left _ hi⟩
    · intro hc rm' hrm'
      have := h.fifo hc.left rm' hrm'
      show sentTo rm' (s.tr ++ [.wire r ⟨i.pid, i.ipc⟩]) ++ rest.filter _ = issuedTo rm' (s.tr ++ [.wire r ⟨i.pid, i.ipc⟩])
      rw [sentTo_append, issuedTo_append, ← this, hpd, hrest]
      by_cases he : r.rm = rm'
      · have hea : a.filter (fun r => decide (r.rm = rm')) = [] := by
          rw [List.filter_eq_nil_iff]
          intro x hx
          have := ha x hx
          simp only [decide_eq_true_eq]
          intro h'
          exact this (h'.trans (he.symm.trans hrm))
        simp [sentTo, issuedTo, he, hea]
      · simp [sentTo, issuedTo, he]
    · intro hc x hx p hp hid j hj _
      obtain ⟨q, hq, hid', hin⟩ := setInst_mem hp
      rw [hin] at hj
      split at hj
      · obtain ⟨j0, hj0, rfl⟩ := List.mem_map.mp hj
        split
        · simp
        · rename_i hne
          exact h.wait hc.left x (hrestm x hx) q hq (hid'.symm.trans hid) j0 hj0 (fun h2 => hne h2.2)
      · rename_i hqrm
        exact h.wait hc.left x (hrestm x hx) q hq (hid'.symm.trans hid) j hj (fun h2 => hqrm h2.1)
  · -- halt
    have hoff : ∀ o ∈ [Obs.halted], Off o := by simpa using off_of (by simp) (by simp)
    have htr : (({ s with pending := rest }.emit (.wire r ⟨i.pid, i.ipc⟩)).halt).tr =
      (s.tr ++ [.wire r ⟨i.pid, i.ipc⟩]) ++ [.halted] := rfl
    have hnc : ¬ Calm (({ s with pending := rest }.emit (.wire r ⟨i.pid, i.ipc⟩)).halt).tr :=
      fun hc => hc.2.1 (by simp [State.halt])
    constructor
    · rw [htr]; exact always_off hwire hoff
    · simp [State.halt]
    · simp [State.halt]
    · simp [State.halt]
    · simp [State.halt]
    · rw [htr]
      intro x hx
      rcases List.mem_append.mp hx with hx | hx
      · exact hcorr x hx
      · simp at hx
    · rw [htr, List.filterMap_append, off_issued? hoff, List.append_nil]; exact hcorrN
    · intro hne
      obtain ⟨j, hj⟩ := h.gone hne
      exact ⟨j, by rw [htr]; simp [hj]⟩
    · exact fun hc => absurd hc hnc
    · exact fun hc => absurd hc hnc

/-! ## issue -/

theorem reserveInst_some {is : List Inst} {i : Inst} {is' : List Inst} (h : reserveInst is = some (i, is')) :
    ∃ c i0 d, is = c ++ i0 :: d ∧ i0.state = .idle ∧ i = { i0 with state := .busy } ∧ is' = c ++ i :: d := by
  induction is generalizing is' with
  | nil => cases h
  | cons a is ih =>
    unfold reserveInst at h
    split at h
    · rename_i ha
      simp only [Option.some.injEq, Prod.mk.injEq] at h
      obtain ⟨rfl, rfl⟩ := h
      exact ⟨[], a, is, rfl, ha, rfl, rfl⟩
    · simp only [Option.map_eq_some_iff, Prod.mk.injEq] at h
      obtain ⟨⟨r', rest'⟩, h1, h2, h3⟩ := h
      simp only at h2 h3
      subst h2; subst h3
      obtain ⟨c, i0, d, h4, h5, h6, h7⟩ := ih h1
      exact ⟨a :: c, i0, d, by simp [h4], h5, h6, by simp [h7]⟩

theorem reserveInst_none {is : List Inst} (h : reserveInst is = none) : ∀ i ∈ is, i.state ≠ .idle := by
  induction is with
  | nil => simp
  | cons a is ih =>
    unfold reserveInst at h
    split at h
    · cases h
    · rename_i ha
      simp only [Option.map_eq_none_iff] at h
      intro i hi
      rcases List.mem_cons.mp hi with rfl | hi
      · exact ha
      · exact ih h i hi

theorem reserveProxy_some {rm : Int} {ps : List Proxy} {i : Inst} {ps' : List Proxy} (h : reserveProxy rm ps = some (i, ps')) :
    ∃ a p b is', ps = a ++ p :: b ∧ p.id = rm ∧ reserveInst p.insts = some (i, is') ∧
      ps' = a ++ { p with insts := is' } :: b := by
  induction ps generalizing ps' with
  | nil => cases h
  | cons x ps ih =>
    unfold reserveProxy at h
    split at h
    · rename_i hx
      simp only [Option.map_eq_some_iff, Prod.mk.injEq] at h
      obtain ⟨⟨r', rest'⟩, h1, h2, h3⟩ := h
      simp only at h2 h3
      subst h2; subst h3
      exact ⟨[], x, ps, rest', rfl, hx, h1, rfl⟩
    · simp only [Option.map_eq_some_iff, Prod.mk.injEq] at h
      obtain ⟨⟨r', rest'⟩, h1, h2, h3⟩ := h
      simp only at h2 h3
      subst h2; subst h3
      obtain ⟨a, p, b, is', h4, h5, h6, h7⟩ := ih h1
      exact ⟨x :: a, p, b, is', by simp [h4], h5, h6, by simp [h7]⟩

theorem reserveProxy_none {rm : Int} {ps : List Proxy} (hids : (ps.map (·.id)).Nodup) (h : reserveProxy rm ps = none) :
    ∀ p ∈ ps, p.id = rm → ∀ i ∈ p.insts, i.state ≠ .idle := by
  induction ps with
  | nil => simp
  | cons x ps ih =>
    simp only [List.map_cons, List.nodup_cons, List.mem_map, not_exists, not_and] at hids
    unfold reserveProxy at h
    split at h
    · rename_i hx
      simp only [Option.map_eq_none_iff] at h
      intro p hp hid
      rcases List.mem_cons.mp hp with rfl | hp
      · exact reserveInst_none h
      · exact absurd (hid.trans hx.symm) (hids.1 p hp)
    · rename_i hx
      simp only [Option.map_eq_none_iff] at h
      intro p hp hid
      rcases List.mem_cons.mp hp with rfl | hp
      · exact absurd hid hx
      · exact ih hids.2 h p hp hid

/-- the parts of the invariant about the trace, after a fresh request has been issued -/
theorem issued_parts {s : State} (h : IW s) (r : Req) (hr : r.corr = s.nextCorr) (l : List Obs)
    (hl : ∀ o ∈ l, ∀ x, o ≠ .issued x) :
    (∀ x, Obs.issued x ∈ s.tr ++ .issued r :: l → x.corr < s.nextCorr + 1) ∧
    (((s.tr ++ .issued r :: l).filterMap issued?).map (·.corr)).Nodup := by
  have hli : l.filterMap issued? = [] := by
    rw [List.filterMap_eq_nil_iff]
    intro o ho
    have := hl o ho
    cases o <;> first | rfl | (rename_i x; exact absurd rfl (this x))
  refine ⟨?_, ?_⟩
  · intro x hx
    rcases List.mem_append.mp hx with hx | hx
    · have := h.corr x hx; omega
    · rcases List.mem_cons.mp hx with hx | hx
      · cases hx; omega
      · exact absurd rfl (hl _ hx x)
  · rw [List.filterMap_append, List.filterMap_cons, hli]
    simp only [issued?, List.map_append, List.map_cons, List.map_nil, List.nodup_append]
    refine ⟨h.corrN, by simp, ?_⟩
    intro a ha b hb
    obtain ⟨x, hx, rfl⟩ := List.mem_map.mp ha
    simp at hb; subst hb
    obtain ⟨o, ho, hio⟩ := List.mem_filterMap.mp hx
    have : o = .issued x := by cases o <;> simp_all [issued?]
    subst this
    have := h.corr x ho
    omega

theorem owes_issued (tr : List Obs) (r : Req) (rm : Int) (pid : Nat) : owes (tr ++ [.issued r]) rm pid = owes tr rm pid := by
  rw [owes_append]; rfl

theorem always_issued {tr : List Obs} (h : Always WireOk tr) (r : Req) : Always WireOk (tr ++ [.issued r]) := by
  apply always_append h
  intro l1 o l2 he
  cases l1 with
  | nil => simp only [List.nil_append, List.cons.injEq] at he; rw [← he.1]; trivial
  | cons x l1 => simp at he

theorem Calm.gone {s : State} (h : IWX X s) (hc : Calm s.tr) : s.gone = [] := by
  cases hg : s.gone with
  | nil => rfl
  | cons a l =>
    obtain ⟨i, hi⟩ := h.gone (by simp [hg])
    exact absurd hi (hc.1 i)

theorem IW.issue {s : State} (h : IW s) (kind : Kind) (op : Bool) (t : Trid) (rm : Int) :
    IW ({ s with nextCorr := s.nextCorr + 1 }.issue ⟨kind, s.nextCorr, t, rm, op⟩).1 := by
  generalize hr : (⟨kind, s.nextCorr, t, rm, op⟩ : Req) = r
  have hrc : r.corr = s.nextCorr := by rw [← hr]
  clear hr rm kind op t
  -- a request that could not be sent
  have failed : ∀ s' : State, s'.tr = s.tr ++ [.issued r, .sendFailed r] → s'.proxies = s.proxies → s'.pending = s.pending →
      s'.nextCorr = s.nextCorr + 1 → s'.gone = s.gone → (0 < r.rm → s.gone ≠ []) → IW s' := by
    intro s' ht hp hq hc hg hne
    have htr : s'.tr = (s.tr ++ [.issued r]) ++ [.sendFailed r] := by rw [ht]; simp
    have hoff : ∀ o ∈ [Obs.sendFailed r], Off o := by simpa using off_of (by simp) (by simp)
    have hw : Always WireOk s'.tr := by rw [htr]; exact always_off (always_issued h.wire r) hoff
    have hparts := issued_parts h r hrc [.sendFailed r] (by simp)
    constructor
    · exact hw
    · rw [hp, htr]
      exact fun p hp i hi h0 hs => owes_off hoff (by rw [owes_issued]; exact h.idle p hp i hi h0 hs)
    · rw [hp]; exact h.ids
    · rw [hp]; exact h.pids
    · rw [hq, ht]; exact fun r hr => ⟨List.mem_append_left _ (h.pend r hr).1, (h.pend r hr).2⟩
    · rw [hc, ht]; exact hparts.1
    · rw [ht]; exact hparts.2
    · rw [hg, ht]
      intro hne
      obtain ⟨i, hi⟩ := h.gone hne
      exact ⟨i, List.mem_append_left _ hi⟩
    · intro hcalm rm hrm
      rw [ht] at hcalm
      rw [ht, hq, sentTo_append, issuedTo_append, ← h.fifo hcalm.left rm hrm]
      have : r.rm ≠ rm := by
        rintro rfl
        exact hne hrm (hcalm.left.gone h)
      simp [sentTo, issuedTo, this]
    · rw [ht, hq, hp]; exact fun hc => h.wait hc.left
  unfold State.issue
  dsimp only
  split
  · rename_i h0
    split
    · rename_i i ps hres
      obtain ⟨A, p, B, is', hps, hpid, hri, hps'⟩ := reserveProxy_some hres
      obtain ⟨c, i0, d, hin, hidle, hi, his'⟩ := reserveInst_some hri
      have hps : s.proxies = A ++ p :: B := hps
      have hpm : p ∈ s.proxies := by rw [hps]; simp
      have him : i0 ∈ p.insts := by rw [hin]; simp
      have hipid : i.pid = i0.pid := by rw [hi]
      have hids : (ps.map (·.id)).Nodup := by
        have := h.ids
        rw [hps] at this
        rw [hps']
        simpa using this
      have hpids : ∀ q ∈ ps, (q.insts.map (·.pid)).Nodup := by
        intro q hq
        rw [hps'] at hq
        rcases List.mem_append.mp hq with hq | hq
        · exact h.pids q (by rw [hps]; simp [hq])
        · rcases List.mem_cons.mp hq with rfl | hq
          · have := h.pids p hpm
            rw [hin] at this
            show (is'.map _).Nodup
            rw [his']
            simpa [hipid] using this
          · exact h.pids q (by rw [hps]; simp [hq])
      -- instances that are idle now were idle before, and are not the reserved one
      have hold : ∀ q ∈ ps, ∀ j ∈ q.insts, j.state = .idle →
          ∃ q0 ∈ s.proxies, q0.id = q.id ∧ j ∈ q0.insts ∧ ¬ (q.id = r.rm ∧ j.pid = i0.pid) := by
        intro q hq j hj hs
        have other : q ∈ A ∨ q ∈ B → q.id ≠ r.rm := by
          intro hq' he
          have hn := h.ids
          rw [hps] at hn
          simp only [List.map_append, List.map_cons, List.nodup_append, List.nodup_cons] at hn
          rcases hq' with hq' | hq'
          · exact hn.2.2 q.id (List.mem_map_of_mem hq') p.id (by simp) (he.trans hpid.symm)
          · exact hn.2.1.1 (by rw [hpid, ← he]; exact List.mem_map_of_mem hq')
        rw [hps'] at hq
        rcases List.mem_append.mp hq with hq | hq
        · exact ⟨q, by rw [hps]; simp [hq], rfl, hj, fun h2 => other (.inl hq) h2.1⟩
        · rcases List.mem_cons.mp hq with rfl | hq
          · simp only at hj
            rw [his'] at hj
            have hj0 : j ∈ c ∨ j ∈ d := by
              rcases List.mem_append.mp hj with hj | hj
              · exact .inl hj
              · rcases List.mem_cons.mp hj with rfl | hj
                · rw [hi] at hs; cases hs
                · exact .inr hj
            refine ⟨p, hpm, rfl, by rw [hin]; simp; grind, ?_⟩
            rintro ⟨-, h2⟩
            have hn := h.pids p hpm
            rw [hin] at hn
            simp only [List.map_append, List.map_cons, List.nodup_append, List.nodup_cons] at hn
            rcases hj0 with hj0 | hj0
            · exact hn.2.2 j.pid (List.mem_map_of_mem hj0) i0.pid (by simp) h2
            · exact hn.2.1.1 (by rw [← h2]; exact List.mem_map_of_mem hj0)
          · exact ⟨q, by rw [hps]; simp [hq], rfl, hj, fun h2 => other (.inr hq) h2.1⟩
      unfold State.sendReq
      split
      · rename_i hgone
        have hgone : i.ipc ∈ s.gone := hgone
        have hnc : ¬ Calm s.tr := fun hc => by rw [hc.gone h] at hgone; simp at hgone
        have htr : ∀ x : State, x.tr = s.tr ++ [.issued r] → (x.emit (.sendFailed r)).tr = (s.tr ++ [.issued r]) ++ [.sendFailed r] := by
          intro x hx; simp [State.emit, hx]
        have hoff : ∀ o ∈ [Obs.sendFailed r], Off o := by simpa using off_of (by simp) (by simp)
        have hw : Always WireOk ((s.tr ++ [.issued r]) ++ [.sendFailed r]) := always_off (always_issued h.wire r) hoff
        have hparts := issued_parts h r hrc [.sendFailed r] (by simp)
        rw [show s.tr ++ .issued r :: [.sendFailed r] = (s.tr ++ [.issued r]) ++ [.sendFailed r] by simp] at hparts
        constructor
        · exact hw
        · intro q hq j hj h0' hs
          obtain ⟨q0, hq0, hid, hj0, -⟩ := hold q hq j hj hs
          refine owes_off hoff ?_
          show owes (s.tr ++ [.issued r]) _ _ = _
          rw [owes_issued, ← hid]
          exact h.idle q0 hq0 j hj0 (hid ▸ h0') hs
        · exact hids
        · exact hpids
        · exact fun x hx => ⟨List.mem_append_left _ (List.mem_append_left _ (h.pend x hx).1), (h.pend x hx).2⟩
        · exact hparts.1
        · exact hparts.2
        · intro hne
          obtain ⟨i, hi⟩ := h.gone hne
          exact ⟨i, List.mem_append_left _ (List.mem_append_left _ hi)⟩
        · exact fun hc => absurd hc.left.left hnc
        · exact fun hc => absurd hc.left.left hnc
      · have hw : Always WireOk ((s.tr ++ [.issued r]) ++ [.wire r ⟨i.pid, i.ipc⟩]) := by
          apply always_append (always_issued h.wire r)
          intro l1 o l2 he
          cases l1 with
          | nil =>
            simp only [List.nil_append, List.cons.injEq] at he
            rw [← he.1]
            refine ⟨by simp, fun _ => ?_⟩
            rw [List.append_nil, owes_issued]
            show owes s.tr r.rm i.pid = false
            rw [hipid, ← hpid]
            exact h.idle p hpm i0 him (by rw [hpid]; exact h0) hidle
          | cons x l1 => simp at he
        have hparts := issued_parts h r hrc [.wire r ⟨i.pid, i.ipc⟩] (by simp)
        rw [show s.tr ++ .issued r :: [.wire r ⟨i.pid, i.ipc⟩] = (s.tr ++ [.issued r]) ++ [.wire r ⟨i.pid, i.ipc⟩] by simp] at hparts
        have hnp : Calm s.tr → ∀ x ∈ s.pending, x.rm ≠ r.rm := by
          intro hc x hx he
          exact h.wait hc x hx p hpm (hpid.trans he.symm) i0 him (by simp) hidle
        constructor
        · exact hw
        · intro q hq j hj h0' hs
          obtain ⟨q0, hq0, hid, hj0, hno⟩ := hold q hq j hj hs
          show owes ((s.tr ++ [.issued r]) ++ [.wire r ⟨i.pid, i.ipc⟩]) _ _ = _
          rw [owes_wire, if_neg, owes_issued, ← hid]
          · exact h.idle q0 hq0 j hj0 (hid ▸ h0') hs
          · rintro ⟨h1, h2⟩
            exact hno ⟨h1.symm, h2.symm.trans hipid⟩
        · exact hids
        · exact hpids
        · exact fun x hx => ⟨List.mem_append_left _ (List.mem_append_left _ (h.pend x hx).1), (h.pend x hx).2⟩
        · exact hparts.1
        · exact hparts.2
        · intro hne
          obtain ⟨i, hi⟩ := h.gone hne
          exact ⟨i, List.mem_append_left _ (List.mem_append_left _ hi)⟩
        · intro hc rm' hrm'
          have hc' : Calm s.tr := hc.left.left
          show sentTo rm' ((s.tr ++ [.issued r]) ++ [.wire r ⟨i.pid, i.ipc⟩]) ++ s.pending.filter _ =
            issuedTo rm' ((s.tr ++ [.issued r]) ++ [.wire r ⟨i.pid, i.ipc⟩])
          rw [sentTo_append, sentTo_append, issuedTo_append, issuedTo_append, ← h.fifo hc' rm' hrm']
          by_cases he : r.rm = rm'
          · have : s.pending.filter (fun x => decide (x.rm = rm')) = [] := by
              rw [List.filter_eq_nil_iff]
              intro x hx
              simpa using fun h' => hnp hc' x hx (h'.trans he.symm)
            simp [sentTo, issuedTo, he, this]
          · simp [sentTo, issuedTo, he]
        · intro hc x hx q hq hid j hj _ hs
          obtain ⟨q0, hq0, hid0, hj0, -⟩ := hold q hq j hj hs
          exact h.wait hc.left.left x hx q0 hq0 (hid0.trans hid) j hj0 (by simp) hs
    · -- queued
      rename_i hres
      have hres : reserveProxy r.rm s.proxies = none := hres
      have hnone := reserveProxy_none h.ids hres
      have hparts := issued_parts h r hrc [] (by simp)
      constructor
      · exact always_issued h.wire r
      · intro p hp i hi h0 hs
        show owes (s.tr ++ [.issued r]) _ _ = _
        rw [owes_issued]; exact h.idle p hp i hi h0 hs
      · exact h.ids
      · exact h.pids
      · intro x hx
        rcases List.mem_append.mp hx with hx | hx
        · exact ⟨List.mem_append_left _ (h.pend x hx).1, (h.pend x hx).2⟩
        · simp at hx; subst hx
          exact ⟨by simp [State.emit], h0⟩
      · exact hparts.1
      · exact hparts.2
      · intro hne
        obtain ⟨i, hi⟩ := h.gone hne
        exact ⟨i, List.mem_append_left _ hi⟩
      · intro hc rm' hrm'
        show sentTo rm' (s.tr ++ [.issued r]) ++ (s.pending ++ [r]).filter _ = issuedTo rm' (s.tr ++ [.issued r])
        rw [sentTo_append, issuedTo_append, ← h.fifo hc.left rm' hrm']
        by_cases he : r.rm = rm'
        · simp [sentTo, issuedTo, he]
        · simp [sentTo, issuedTo, he]
      · intro hc x hx p hp hid i hi hX
        rcases List.mem_append.mp hx with hx | hx
        · exact h.wait hc.left x hx p hp hid i hi hX
        · simp at hx; subst hx
          exact hnone p hp hid i hi
  · rename_i h0
    split
    · rename_i e _
      unfold State.sendReq
      split
      · exact failed _ (by simp [State.emit]) rfl rfl rfl rfl (fun h => absurd h h0)
      · have hw : Always WireOk ((s.tr ++ [.issued r]) ++ [.wire r e.proc]) := by
          apply always_append (always_issued h.wire r)
          intro l1 o l2 he
          cases l1 with
          | nil =>
            simp only [List.nil_append, List.cons.injEq] at he
            rw [← he.1]
            exact ⟨by simp, fun h => absurd h h0⟩
          | cons x l1 => simp at he
        have hparts := issued_parts h r hrc [.wire r e.proc] (by simp)
        rw [show s.tr ++ .issued r :: [.wire r e.proc] = (s.tr ++ [.issued r]) ++ [.wire r e.proc] by simp] at hparts
        constructor
        · exact hw
        · intro p hp i hi h0' hs
          show owes ((s.tr ++ [.issued r]) ++ [.wire r e.proc]) _ _ = _
          rw [owes_wire, if_neg, owes_issued]
          · exact h.idle p hp i hi h0' hs
          · rintro ⟨h1, -⟩; rw [h1] at h0; exact h0 h0'
        · exact h.ids
        · exact h.pids
        · exact fun x hx => ⟨List.mem_append_left _ (List.mem_append_left _ (h.pend x hx).1), (h.pend x hx).2⟩
        · exact hparts.1
        · exact hparts.2
        · intro hne
          obtain ⟨i, hi⟩ := h.gone hne
          exact ⟨i, List.mem_append_left _ (List.mem_append_left _ hi)⟩
        · intro hc rm' hrm'
          show sentTo rm' ((s.tr ++ [.issued r]) ++ [.wire r e.proc]) ++ s.pending.filter _ =
            issuedTo rm' ((s.tr ++ [.issued r]) ++ [.wire r e.proc])
          rw [sentTo_append, sentTo_append, issuedTo_append, issuedTo_append, ← h.fifo hc.left.left rm' hrm']
          have : r.rm ≠ rm' := by rintro rfl; exact h0 hrm'
          simp [sentTo, issuedTo, this]
        · exact fun hc => h.wait hc.left.left
    · exact failed _ (by simp [State.emit]) rfl rfl rfl rfl (fun h => absurd h h0)

/-! ## the whole -/

theorem owes_got (tr : List Obs) (m : Rep) : owes (tr ++ [.got m]) m.rm m.pid = false := by
  rw [owes_append]; simp [openStep]

theorem owes_ready (tr : List Obs) (rm : Int) (p : Proc) : owes (tr ++ [.ev (.ready rm p)]) rm p.pid = false := by
  rw [owes_append]; simp [openStep]

/-- instances of (rm, pid), which owes nothing, are changed -/
theorem IW.setInst {s : State} (h : IW s) (rm : Int) (pid : Nat) (f : Inst → Inst) (hf : ∀ i, (f i).pid = i.pid)
    (ho : owes s.tr rm pid = false) :
    IWX (fun a b => a = rm ∧ b = pid) { s with proxies := setInst rm pid f s.proxies } := by
  constructor
  · exact h.wire
  · intro p hp i hi h0 hs
    obtain ⟨q, hq, hid, hin⟩ := setInst_mem hp
    rw [hin] at hi
    show owes s.tr _ _ = _
    split at hi
    · rename_i hqrm
      obtain ⟨j, hj, rfl⟩ := List.mem_map.mp hi
      split
      · rename_i hjp
        rw [hf, hid, hqrm, hjp]; exact ho
      · rename_i hjp
        rw [if_neg hjp] at hs
        rw [hid]; exact h.idle q hq j hj (hid ▸ h0) hs
    · rw [hid]; exact h.idle q hq i hi (hid ▸ h0) hs
  · show ((TM.setInst _ _ _ _).map _).Nodup
    rw [setInst_ids]; exact h.ids
  · exact setInst_pids hf h.pids
  · exact h.pend
  · exact h.corr
  · exact h.corrN
  · exact h.gone
  · exact h.fifo
  · intro hc r hr p hp hid i hi hX
    obtain ⟨q, hq, hid', hin⟩ := setInst_mem hp
    rw [hin] at hi
    split at hi
    · rename_i hqrm
      obtain ⟨j, hj, rfl⟩ := List.mem_map.mp hi
      split
      · rename_i hjp
        rw [if_pos hjp, hf] at hX
        exact absurd ⟨hid'.trans hqrm, hjp⟩ hX
      · exact h.wait hc r hr q hq (hid'.symm.trans hid) j hj (by simp)
    · exact h.wait hc r hr q hq (hid'.symm.trans hid) i hi (by simp)

theorem IW.replied {s : State} (h : IW s) (r : Rep) : IW ((s.emit (.got r)).replied r.rm r.pid) := by
  have h1 : IW (s.emit (.got r)) := h.emit (off_of (by simp) (by simp))
  unfold State.replied
  split
  · split
    · exact h1.halt
    · refine IWX.instReady (h1.setInst r.rm r.pid _ ?_ ?_) ?_
      · intro i; split <;> rfl
      · exact owes_got _ _
      · exact fun _ => owes_got _ _
  · exact h1

theorem IW.proxies {s : State} (h : IW s) (ps : List Proxy) (hids : (ps.map (·.id)).Nodup)
    (hpids : ∀ p ∈ ps, (p.insts.map (·.pid)).Nodup)
    (hold : ∀ p ∈ ps, ∀ i ∈ p.insts, i.state = .idle → ∃ q ∈ s.proxies, q.id = p.id ∧ i ∈ q.insts) :
    IW { s with proxies := ps } := by
  constructor
  · exact h.wire
  · intro p hp i hi h0 hs
    obtain ⟨q, hq, hid, hi'⟩ := hold p hp i hi hs
    have := h.idle q hq i hi' (hid ▸ h0) hs
    rw [hid] at this; exact this
  · exact hids
  · exact hpids
  · exact h.pend
  · exact h.corr
  · exact h.corrN
  · exact h.gone
  · exact h.fifo
  · intro hc r hr p hp hid i hi hX hs
    obtain ⟨q, hq, hid', hi'⟩ := hold p hp i hi hs
    exact h.wait hc r hr q hq (hid'.trans hid) i hi' (by simp) hs

theorem closed_IW' : ClosedS (fun _ => True) IW where
  plain := fun s o ho h => h.emit (plain_off ho)
  prep := fun s _ h => h.same rfl rfl rfl rfl rfl
  com := fun s _ h => h.same rfl rfl rfl rfl rfl
  rol := fun s _ h => h.same rfl rfl rfl rfl rfl
  issue := fun s kind op t rm h => h.issue kind op t rm
  modify := fun s g f hf h => h.same rfl rfl rfl rfl rfl
  ensure := fun s t _ h => by
    unfold State.ensure
    split
    · exact h
    · exact h.same rfl rfl rfl rfl rfl
  remove := fun s g h => by
    unfold State.remove
    dsimp only
    split
    · exact h.off [.removed g, .disassociate (some g)] rfl (by
        intro o ho; simp at ho; rcases ho with rfl | rfl <;> exact off_of (by simp) (by simp)) rfl rfl rfl rfl
    · exact h.off [.removed g] rfl (by simpa using off_of (by simp) (by simp)) rfl rfl rfl rfl
  done := fun s to a g _ h => by
    have h : IW (s.emit (.answer to a)) := h.emit (off_of (by simp) (by simp))
    generalize s.emit (.answer to a) = s at h
    unfold State.remove
    dsimp only
    split
    · exact h.off [.removed g, .disassociate (some g)] rfl (by
        intro o ho; simp at ho; rcases ho with rfl | rfl <;> exact off_of (by simp) (by simp)) rfl rfl rfl rfl
    · exact h.off [.removed g] rfl (by simpa using off_of (by simp) (by simp)) rfl rfl rfl rfl
  doneByRange := fun s to a g _ _ h => by
    have h : IW (s.emit (.answer to a)) := h.emit (off_of (by simp) (by simp))
    generalize s.emit (.answer to a) = s at h
    unfold State.removeByRange
    dsimp only
    split
    · exact h.off [.removed g, .disassociate (nextAfter g s.txs)] rfl (by
        intro o ho; simp at ho; rcases ho with rfl | rfl <;> exact off_of (by simp) (by simp)) rfl rfl rfl rfl
    · exact h.off [.removed g] rfl (by simpa using off_of (by simp) (by simp)) rfl rfl rfl rfl
  queue := fun s _ _ h => h.same rfl rfl rfl rfl rfl
  persist := fun s h => h.off _ rfl (by
    intro o ho
    rcases List.mem_cons.mp ho with rfl | ho
    · exact off_of (by simp) (by simp)
    · obtain ⟨x, hx, rfl⟩ := List.mem_map.mp ho
      exact off_of (by simp) (by simp)) rfl rfl rfl rfl
  logTx := fun s g h => by
    unfold State.logTx
    split
    · unfold State.logPrepare
      dsimp only
      split
      · exact h.halt
      · exact h.off [.logged _ _] rfl (by simpa using off_of (by simp) (by simp)) rfl rfl rfl rfl
    · exact h
  halt := fun s h => h.halt
  ext := fun s _ _ h => h.same rfl rfl rfl rfl rfl
  inbox := fun s _ h => h.same rfl rfl rfl rfl rfl
  replied := fun s r h => h.replied r

theorem closed_IW : Closed (fun _ => True) IW := (closed_IW' ).closed

theorem removeInst_some {pid : Nat} {ps ps' : List Proxy} (h : removeInst pid ps = some ps') :
    ps'.map (·.id) = ps.map (·.id) ∧
    ∀ p ∈ ps', ∃ q ∈ ps, q.id = p.id ∧ p.insts.Sublist q.insts := by
  induction ps generalizing ps' with
  | nil => cases h
  | cons x ps ih =>
    unfold removeInst at h
    split at h
    · simp only [Option.some.injEq] at h
      subst h
      refine ⟨rfl, ?_⟩
      intro p hp
      rcases List.mem_cons.mp hp with rfl | hp
      · exact ⟨x, by simp, rfl, List.filter_sublist⟩
      · exact ⟨p, by simp [hp], rfl, List.Sublist.refl _⟩
    · simp only [Option.map_eq_some_iff] at h
      obtain ⟨ps1, h1, rfl⟩ := h
      obtain ⟨h2, h3⟩ := ih h1
      refine ⟨by simp [h2], ?_⟩
      intro p hp
      rcases List.mem_cons.mp hp with rfl | hp
      · exact ⟨p, by simp, rfl, List.Sublist.refl _⟩
      · obtain ⟨q, hq, h4⟩ := h3 p hp
        exact ⟨q, by simp [hq], h4⟩

theorem env_IW {s : State} (h0 : IW s) (e : Event) (he : e.isEnv) : IW (handle (s.emit (.ev e)) e) := by
  have h : IW (s.emit (.ev e)) := h0.emit (off_of (by simp) (by simp))
  cases e with
  | ready rm p =>
    dsimp only [handle]
    unfold readyHandler
    split
    · exact h.halt
    · refine IWX.instReady (h.setInst rm p.pid _ ?_ ?_) ?_
      · intro i; rfl
      · exact owes_ready _ _ _
      · exact fun _ => owes_ready _ _ _
  | spawn rm pid =>
    dsimp only [handle]
    split
    · exact h
    rename_i hfresh
    simp only [List.any_eq_true, decide_eq_true_eq, not_exists, not_and] at hfresh
    split
    · refine h.proxies _ ?_ ?_ ?_
      · have : ((s.emit (.ev (.spawn rm pid))).proxies.map (fun p => if p.id = rm then
            { p with insts := p.insts ++ [⟨pid, 0, .spawned⟩] } else p)).map (·.id) = (s.emit (.ev (.spawn rm pid))).proxies.map (·.id) := by
          rw [List.map_map]
          apply List.map_congr_left
          intro p _
          simp only [Function.comp]
          split <;> rfl
        rw [this]; exact h.ids
      · intro p hp
        obtain ⟨q, hq, rfl⟩ := List.mem_map.mp hp
        split
        · simp only [List.map_append, List.map_cons, List.map_nil, List.nodup_append]
          refine ⟨h.pids q hq, by simp, ?_⟩
          intro a ha b hb
          obtain ⟨i, hi, rfl⟩ := List.mem_map.mp ha
          simp at hb; subst hb
          exact hfresh q hq i hi
        · exact h.pids q hq
      · intro p hp i hi hs
        obtain ⟨q, hq, rfl⟩ := List.mem_map.mp hp
        refine ⟨q, hq, ?_, ?_⟩
        · split <;> rfl
        · split at hi
          · rcases List.mem_append.mp hi with hi | hi
            · exact hi
            · simp at hi; subst hi; cases hs
          · exact hi
    · rename_i hnew
      simp only [List.any_eq_true, decide_eq_true_eq, not_exists, not_and] at hnew
      refine h.proxies _ ?_ ?_ ?_
      · simp only [List.map_append, List.map_cons, List.map_nil, List.nodup_append]
        refine ⟨h.ids, by simp, ?_⟩
        intro a ha b hb
        obtain ⟨p, hp, rfl⟩ := List.mem_map.mp ha
        simp at hb; subst hb
        exact hnew p hp
      · intro p hp
        rcases List.mem_append.mp hp with hp | hp
        · exact h.pids p hp
        · simp at hp; subst hp; simp
      · intro p hp i hi hs
        rcases List.mem_append.mp hp with hp | hp
        · exact ⟨p, hp, rfl, hi⟩
        · simp at hp; subst hp; simp at hi; subst hi; cases hs
  | scaleIn rm pid =>
    dsimp only [handle]
    refine h.proxies _ ?_ ?_ ?_
    · rw [setInst_ids]; exact h.ids
    · exact setInst_pids (f := fun i => { i with state := .shutdown }) (fun _ => rfl) h.pids
    · intro p hp i hi hs
      obtain ⟨q, hq, hid, hin⟩ := setInst_mem hp
      refine ⟨q, hq, hid.symm, ?_⟩
      rw [hin] at hi
      split at hi
      · obtain ⟨j, hj, rfl⟩ := List.mem_map.mp hi
        split at hs
        · cases hs
        · rename_i hne; rw [if_neg hne]; exact hj
      · exact hi
  | ipcGone i =>
    dsimp only [handle]
    exact ⟨h.wire, h.idle, h.ids, h.pids, h.pend, h.corr, h.corrN, fun _ => ⟨i, by simp [State.emit]⟩,
      h.fifo, h.wait⟩
  | _ => exact he.elim

theorem reach_IW (self : Proc) (es : List Event) : IW (run (init self) es) := by
  refine Closed.run closed_IW (fun s e _ h => h.emit (off_of (by simp) (by simp))) (fun s e he h => env_IW h e he) ?_ ?_ (init_J self) ?_ es
  · intro s pid ps hps h
    have h1 : IW (s.emit (.ev (.exit pid))) := h.emit (off_of (by simp) (by simp))
    obtain ⟨h2, h3⟩ := removeInst_some hps
    refine h1.proxies ps (by rw [h2]; exact h.ids) ?_ ?_
    · intro p hp
      obtain ⟨q, hq, -, hs⟩ := h3 p hp
      exact (h.pids q hq).sublist (hs.map _)
    · intro p hp i hi _
      obtain ⟨q, hq, hid, hs⟩ := h3 p hp
      exact ⟨q, hq, hid, hs.subset hi⟩
  · intro s h
    exact h.cleared [.ev .crash] rfl (by simpa using off_of (by simp) (by simp)) rfl rfl rfl rfl
      (fun hc => hc.2.2 (by simp [handle, State.restart, State.emit]))
  · constructor <;> simp [init, Always, sentTo, issuedTo]

end Casual.TM
