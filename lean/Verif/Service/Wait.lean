import Verif.Service.Serve
/-! Lookups wait only while all instances are in use. -/
namespace Casual.Service

structure WInv (hole : Option Nat) (s : State) : Prop where
  wait : ∀ l ∈ s.lookups, ∀ i, Lists s l.req.name i → hole ≠ some i → ∀ x, Index.get s.seq i = some x → x.reserved.isSome
  svcs : ∀ i x, Index.get s.seq i = some x → ∀ n ∈ x.services, Lists s n i
  busy : ∀ i x, Index.get s.seq i = some x → x.reserved.isSome → ∃ c, inUse x.proc.ipc s.tr = some (x.proc, c)

theorem WInv.change {hole hole' : Option Nat} {s s' : State} (h : WInv hole s) {es : List Ev} (ht : s'.tr = s.tr ++ es) (hl : ∀ l ∈ s'.lookups, l ∈ s.lookups)
    (hs : ∀ l ∈ s'.lookups, ∀ i, hole' ≠ some i → Lists s' l.req.name i → Lists s l.req.name i)
    (hh : ∀ i, hole = some i → hole' = some i)
    (hk : ∀ i x', Index.get s'.seq i = some x' → (∀ n ∈ x'.services, Lists s' n i) ∧ ((∃ x, Index.get s.seq i = some x ∧ x'.proc = x.proc ∧
      (x'.reserved.isSome → x.reserved.isSome ∧ ∀ c, es.foldl (useStep x.proc.ipc) (some (x.proc, c)) = some (x.proc, c)) ∧
      (hole' ≠ some i → x.reserved.isSome → x'.reserved.isSome)) ∨ (x'.reserved = none ∧ hole' = some i))) : WInv hole' s' := by
  obtain ⟨h1, h2, h3⟩ := h
  refine ⟨?_, fun i x hx => (hk i x hx).1, ?_⟩
  · intro l hl' i hli hne x' hx'
    rcases (hk i x' hx').2 with ⟨x, hx, -, -, hr⟩ | ⟨-, he⟩
    · exact hr hne (h1 l (hl l hl') i (hs l hl' i hne hli) (fun e => hne (hh i e)) x hx)
    · exact absurd he hne
  · intro i x' hx' hr
    rcases (hk i x' hx').2 with ⟨x, hx, hp, hr', -⟩ | ⟨hn, -⟩
    · obtain ⟨hr1, hr2⟩ := hr' hr
      obtain ⟨c, hc⟩ := h3 i x hx hr1
      refine ⟨c, ?_⟩
      rw [ht, hp]
      unfold inUse at hc ⊢
      rw [List.foldl_append, hc, hr2 c]
    · rw [hn] at hr; cases hr

theorem foldl_quiet {ipc : Nat} {es : List Ev} (h : ∀ e ∈ es, Quiet e) (b : Option (Proc × Nat)) : es.foldl (useStep ipc) b = b := by
  induction es generalizing b with
  | nil => rfl
  | cons e es ih => rw [List.foldl_cons, (h e List.mem_cons_self).1, ih fun x hx => h x (List.mem_cons_of_mem _ hx)]

/-- The same instances, with the same reservations and services. -/
theorem WInv.same {hole : Option Nat} {s s' : State} (h : WInv hole s) {es : List Ev} (ht : s'.tr = s.tr ++ es) (hq : ∀ e ∈ es, Quiet e) (hl : ∀ l ∈ s'.lookups, l ∈ s.lookups)
    (hs : ∀ n i, Lists s' n i ↔ Lists s n i)
    (hk : ∀ i x', Index.get s'.seq i = some x' → ∃ x, Index.get s.seq i = some x ∧ x'.proc = x.proc ∧ x'.reserved = x.reserved ∧ x'.services = x.services) : WInv hole s' := by
  refine h.change ht hl (fun l _ i _ h => (hs _ i).mp h) (fun _ h => h) ?_
  intro i x' hx'
  obtain ⟨x, hx, h1, h2, h3⟩ := hk i x' hx'
  refine ⟨fun n hn => (hs n i).mpr (h.svcs i x hx n (by rw [← h3]; exact hn)), .inl ⟨x, hx, h1, ?_, ?_⟩⟩
  · rw [h2]; exact fun hr => ⟨hr, fun c => foldl_quiet hq _⟩
  · rw [h2]; exact fun _ h => h

theorem WInv.same' {hole : Option Nat} {s s' : State} (h : WInv hole s) {es : List Ev} (ht : s'.tr = s.tr ++ es) (hq : ∀ e ∈ es, Quiet e) (hl : ∀ l ∈ s'.lookups, l ∈ s.lookups)
    (hs : s'.services = s.services) (hk : s'.seq = s.seq) : WInv hole s' :=
  h.same ht hq hl (fun _ _ => Lists.of_services hs) fun i x' hx' => ⟨x', by rw [← hk]; exact hx', rfl, rfl, rfl⟩

theorem lists_iff {s : State} (hi : Inv s) {v : Svc} {n : Nat} (hv : s.svc? n = some v) (i : Nat) : Lists s n i ↔ i ∈ v.seqs := by
  obtain ⟨h1, h2⟩ := svc?_some hv
  constructor
  · rintro ⟨w, hw, hn, hj⟩
    have := svc?_of_mem hi.names hw
    rw [hn, hv] at this
    cases this; exact hj
  · exact fun h => ⟨v, h1, h2, h⟩

theorem not_lists {s : State} {n : Nat} (hv : s.svc? n = none) (i : Nat) : ¬ Lists s n i := by
  rintro ⟨w, hw, hn, -⟩
  exact svc?_none hv hw hn

theorem WInv.outcome {hole : Option Nat} {s s' : State} (h : WInv hole s) (hi : Inv s) {r : Req} {e : Env} (o : Outcome s r e s') : WInv hole s' := by
  have q1 : ∀ a b c, Quiet (.absent a b c) := fun a b c => ⟨fun _ _ => rfl, fun _ => trivial⟩
  have q2 : ∀ a b, Quiet (.discover a b) := fun a b => ⟨fun _ _ => rfl, fun _ => trivial⟩
  -- a lookup is added
  have add : ∀ {s' : State} {es : List Ev} (t : Time), s'.tr = s.tr ++ es → (∀ e ∈ es, Quiet e) → s'.services = s.services → s'.seq = s.seq →
      s'.lookups = s.lookups ++ [{ req := r, when_ := t }] → (∀ i, Lists s r.name i → ∀ x, Index.get s.seq i = some x → x.reserved.isSome) → WInv hole s' := by
    intro s' es t ht hq hs hk hlk hb
    have h' : WInv hole { s' with lookups := s.lookups } := h.same' ht hq (fun _ h => h) hs hk
    refine ⟨?_, h'.svcs, h'.busy⟩
    intro l hl i hli hne x hx
    rw [hlk] at hl
    rcases List.mem_append.mp hl with hl | hl
    · exact h'.wait l hl i hli hne x hx
    · rw [List.mem_singleton] at hl; subst hl
      exact hb i ((Lists.of_services hs).mp hli) x (by rw [← hk]; exact hx)
  cases o with
  | absent => exact h.same' rfl (by simp [q1]) (fun _ h => h) rfl rfl
  | discover h1 h2 =>
    have hno : ∀ i, ¬ Lists s r.name i := by
      intro i
      cases hv : s.svc? r.name with
      | none => exact not_lists hv i
      | some v => rw [lists_iff hi hv, (h1 v hv).1]; simp
    rw [discover_eq]
    split
    · exact add e.now (es := [.discover r.name r.corr]) rfl (by simp [q2]) rfl rfl rfl (fun i hl => absurd hl (hno i))
    · refine h.same' (es := [.discover r.name r.corr, .absent r.proc.ipc r.corr r.name]) ?_ (by simp [q1, q2]) (fun _ h => h) rfl rfl
      show (s.tr ++ [_]) ++ [_] = _
      simp
  | forward => exact h.same' rfl (by intro e he; rw [List.mem_singleton] at he; subst he; exact ⟨fun _ _ => rfl, fun _ => trivial⟩) (fun _ h => h) rfl rfl
  | pending v h1 h2 h3 h4 => exact add e.now (es := []) (by simp) (by simp) rfl rfl rfl (fun i hl x hx => h3 i ((lists_iff hi h1 i).mp hl) x hx)
  | con => exact h.same' rfl (by intro e he; rw [List.mem_singleton] at he; subst he; exact ⟨fun _ _ => rfl, fun _ => trivial⟩) (fun _ h => h) rfl rfl
  | seq v i x h1 h2 h3 h4 =>
    have hg : ∀ j, Index.get (Index.modify s.seq i (SeqI.reserve r v.name)) j = if j = i then some (SeqI.reserve r v.name x) else Index.get s.seq j := by
      intro j
      rw [Index.get_modify]
      split
      · subst ‹j = i›; rw [h3]; rfl
      · rfl
    refine ⟨?_, ?_, ?_⟩
    · intro l hl j hli hne y hy
      change Index.get (Index.modify s.seq i (SeqI.reserve r v.name)) j = _ at hy
      rw [hg] at hy
      split at hy
      · cases hy; rfl
      · exact h.wait l hl j hli hne y hy
    · intro j y hy n hn
      change Index.get (Index.modify s.seq i (SeqI.reserve r v.name)) j = _ at hy
      rw [hg] at hy
      split at hy
      · cases hy; subst ‹j = i›; exact h.svcs _ x h3 n hn
      · exact h.svcs j y hy n hn
    · intro j y hy hr
      change Index.get (Index.modify s.seq i (SeqI.reserve r v.name)) j = _ at hy
      show ∃ c, inUse y.proc.ipc (s.tr ++ [_]) = _
      rw [inUse_snoc]
      rw [hg] at hy
      split at hy
      · cases hy
        refine ⟨r.corr, ?_⟩
        show useStep x.proc.ipc _ _ = some (x.proc, _)
        simp only [useStep, if_true]
      · rename_i hne
        obtain ⟨c, hc⟩ := h.busy j y hy hr
        refine ⟨c, ?_⟩
        rw [hc]
        simp only [useStep]
        rw [if_neg]
        intro hip
        exact hne (hi.seqIpc j i y x hy h3 hip.symm)

theorem WInv.lookup {hole : Option Nat} {s : State} (h : WInv hole s) (hi : Inv s) (r : Req) (e : Env) : WInv hole (s.lookup r e) := h.outcome hi (lookup_outcome hi r e)

theorem WInv.again {hole : Option Nat} {s : State} (h : WInv hole s) (hi : Inv s) (ls : List Lookup) (e : Env) : WInv hole (s.again ls e) :=
  (again_ind (P := fun s => Inv s ∧ WInv hole s) (fun _ r h => ⟨h.1.lookup r e, h.2.lookup h.1 r e⟩) ls ⟨hi, h⟩).2

/-- No lookup waits for the instance. -/
theorem WInv.fill {i : Nat} {s : State} (h : WInv (some i) s) (hb : ∀ l ∈ s.lookups, Lists s l.req.name i → ∀ x, Index.get s.seq i = some x → x.reserved.isSome) : WInv none s := by
  refine ⟨?_, h.svcs, h.busy⟩
  intro l hl j hli _ x hx
  by_cases hj : j = i
  · subst hj; exact hb l hl hli x hx
  · exact h.wait l hl j hli (by simpa using fun e => hj e.symm) x hx

theorem WInv.takePending {i : Nat} {s : State} (h : WInv (some i) s) (hi : Inv s) (e : Env) : WInv none (s.takePending i e) := by
  rw [takePending_eq]
  split
  · rename_i l hl
    have hm := List.mem_of_find?_eq_some hl
    have ht := List.find?_some hl
    unfold State.takes at ht
    rw [Bool.and_eq_true] at ht
    obtain ⟨v, hv⟩ := Option.isSome_iff_exists.mp ht.1
    obtain ⟨x, hx⟩ : ∃ x, Index.get s.seq i = some x := by
      cases hx : Index.get s.seq i with
      | none => rw [hx] at ht; simp at ht
      | some x => exact ⟨x, rfl⟩
    have hxn : l.req.name ∈ x.services := by rw [hx] at ht; simpa using ht.2
    have hli : Lists s l.req.name i := h.svcs i x hx _ hxn
    have hiv : i ∈ v.seqs := (lists_iff hi hv i).mp hli
    have hi1 : Inv { s with lookups := s.lookups.eraseP (s.takes i) } := hi.same ⟨rfl, rfl, rfl⟩
    have h1 : WInv (some i) { s with lookups := s.lookups.eraseP (s.takes i) } := h.same' (es := []) (by simp) (by simp) (fun l hl => List.mem_of_mem_eraseP hl) rfl rfl
    have ho := lookup_outcome hi1 l.req e
    have h2 := h1.outcome hi1 ho
    have hsv : ∀ w, State.svc? { s with lookups := s.lookups.eraseP (s.takes i) } l.req.name = some w → w = v := by
      intro w hw
      change s.svc? l.req.name = some w at hw
      rw [hv] at hw; cases hw; rfl
    generalize State.lookup { s with lookups := s.lookups.eraseP (s.takes i) } l.req e = s' at ho h2
    -- the instance is in use
    have fillB : (∀ x, Index.get s'.seq i = some x → x.reserved.isSome) → WInv none s' := fun hb => h2.fill fun l hl hli x hx => hb x hx
    cases ho with
    | absent g1 g2 => rw [(g1 v hv).1] at hiv; cases hiv
    | discover g1 g2 => rw [(g1 v hv).1] at hiv; cases hiv
    | forward w g1 g2 g3 g4 => cases hsv w g1; exact fillB (g3 i hiv)
    | pending w g1 g2 g3 g4 => cases hsv w g1; exact fillB (g3 i hiv)
    | con w j y g1 g2 => cases hsv w g1; rw [g2] at hiv; cases hiv
    | seq w j y g1 g2 g3 g4 =>
      cases hsv w g1
      have hji : j = i := by
        apply Classical.byContradiction
        intro hne
        have := h.wait l hm j ((lists_iff hi hv j).mpr g2) (by simpa using fun e => hne e.symm) y g3
        rw [g4] at this; cases this
      subst hji
      refine fillB ?_
      intro z hz
      change Index.get (Index.modify s.seq j _) j = _ at hz
      rw [Index.get_modify, if_pos rfl, hx] at hz
      cases hz; rfl
  · rename_i hl
    refine h.fill ?_
    intro l hm hli x hx
    have := List.find?_eq_none.mp hl l hm
    obtain ⟨w, hw, hn, hj⟩ := hli
    obtain ⟨y, hy, hyn⟩ := hi.seqs w hw i hj
    refine absurd ?_ this
    unfold State.takes
    have hv := svc?_of_mem hi.names hw
    rw [hn] at hv hyn
    simp [hv, hy, hyn]

theorem WInv.without {hole : Option Nat} {s s' : State} (h : WInv hole s) {p : Proc → Bool} {es : List Ev} (ht : s'.tr = s.tr ++ es) (hl : ∀ l ∈ s'.lookups, l ∈ s.lookups)
    (hs : s'.services = (s.without p).services) (hq : s'.seq = (s.without p).seq)
    (hu : ∀ q c, p q = false → es.foldl (useStep q.ipc) (some (q, c)) = some (q, c)) : WInv hole s' := by
  refine h.change ht hl ?_ (fun _ h => h) ?_
  · intro l _ i _ hli
    rw [Lists.of_services hs, lists_without] at hli
    exact hli.1
  · intro i x' hx'
    rw [hq, without_seq] at hx'
    split at hx'
    · cases hx'
    · rename_i hp
      have hpf : p x'.proc = false := by simpa [hx'] using hp
      refine ⟨fun n hn => ?_, .inl ⟨x', hx', rfl, fun hr => ⟨hr, fun c => hu _ c hpf⟩, fun _ h => h⟩⟩
      rw [Lists.of_services hs, lists_without]
      refine ⟨h.svcs i x' hx' n hn, ?_⟩
      intro hc
      obtain ⟨y, hy, hyp⟩ := mem_seqIds.mp hc
      rw [hx'] at hy; cases hy
      rw [hpf] at hyp; cases hyp

theorem addSeqServices_get (i : Nat) (s : State) (add : List Nat) (j : Nat) :
    Index.get (add.foldl (State.addSeqService i) s).seq j = (Index.get s.seq j).map fun x => if j = i then { x with services := x.services ++ add } else x := by
  induction add generalizing s with
  | nil => simp
  | cons n add ih =>
    rw [List.foldl_cons, ih, addSeqService_eq]
    show (Index.get (Index.modify s.seq i _) j).map _ = _
    rw [Index.get_modify]
    by_cases hj : j = i
    · subst hj
      cases Index.get s.seq j with
      | none => simp
      | some x => simp
    · simp [hj]

theorem WInv.step {s : State} (h3 : Inv3 True s) (h : WInv none s) (m : In) (hm : ¬ m.frees) : WInv none (s.step m) := by
  have hi := h3.1
  have hi' : Inv (s.emit (.recv m)) := hi.same ⟨rfl, rfl, rfl⟩
  have hdis : s.disabled = [] := (h3.2.exact trivial).1
  have base : (∀ ipc b, useStep ipc b (.recv m) = b) → WInv none (s.emit (.recv m)) := fun hn =>
    h.same' (es := [.recv m]) rfl (by intro e he; rw [List.mem_singleton] at he; subst he; exact ⟨hn, fun _ => trivial⟩) (fun _ h => h) rfl rfl
  cases m with
  | advertise p alias add remove e =>
    show WInv none ((s.emit _).advertise p alias add remove e)
    rw [advertise_eq]
    split
    · rename_i hc
      rw [remove_eq hi']
      have hc' : add = [] ∧ remove = [] := by simpa using hc
      refine h.without (p := fun q => q.pid == p.pid) (es := [.recv (.advertise p alias add remove e)]) rfl (fun _ h => h) rfl rfl ?_
      intro q c hq
      have hq' : (q.pid != p.pid) = true := by simpa [bne] using hq
      simp [useStep, hc', Option.filter, hq']
    · rename_i hc
      have hc' : ¬ (add = [] ∧ remove = []) := by simpa using hc
      have hb := base (fun ipc b => by simp only [useStep, hc', if_false])
      have hfr := seqFor_eq (s.emit (.recv (.advertise p alias add remove e))) p alias
      have hsi := seqFor_isSome (s.emit (.recv (.advertise p alias add remove e))) p alias
      have hsf := hi'.seqFor p alias
      have hsp := seqFor_spec (s := s.emit (.recv (.advertise p alias add remove e))) p alias
      generalize (s.emit (.recv (.advertise p alias add remove e))).seqFor p alias = r at hfr hsi hsf hsp ⊢
      obtain ⟨i, t⟩ := r
      dsimp only at hfr hsi hsf hsp ⊢
      have ht : WInv (some i) t := by
        have hsv : t.services = s.services := by rw [hfr]; rfl
        refine hb.change (es := []) (by rw [hfr]; simp) (by rw [hfr]; exact fun _ h => h) ?_ (by simp) ?_
        · intro l _ j _ hl
          exact (Lists.of_services hsv).mp hl
        · intro j x' hx'
          rcases hsp with ⟨y, -, hy, -, hg⟩ | ⟨-, hy, hg⟩
          · rw [hg] at hx'
            split at hx'
            · cases hx'; subst ‹j = i›
              exact ⟨fun n hn => (Lists.of_services hsv).mpr (h.svcs _ y hy n hn), .inl ⟨y, hy, rfl, fun hr => ⟨hr, fun _ => rfl⟩, fun _ h => h⟩⟩
            · exact ⟨fun n hn => (Lists.of_services hsv).mpr (h.svcs _ x' hx' n hn), .inl ⟨x', hx', rfl, fun hr => ⟨hr, fun _ => rfl⟩, fun _ h => h⟩⟩
          · rw [hg] at hx'
            split at hx'
            · cases hx'; subst ‹j = i›
              exact ⟨fun n hn => absurd hn (by simp), .inr ⟨rfl, rfl⟩⟩
            · exact ⟨fun n hn => (Lists.of_services hsv).mpr (h.svcs _ x' hx' n hn), .inl ⟨x', hx', rfl, fun hr => ⟨hr, fun _ => rfl⟩, fun _ h => h⟩⟩
      have htd : t.disabled = [] := by rw [hfr]; exact hdis
      rw [if_neg (by rw [htd]; simp)]
      refine WInv.takePending ?_ ((hsf.addSeqServices hsi _).removeSeqServices _ _) e
      generalize hadd : (add.filter fun n => (s.emit (.recv (.advertise p alias add remove e))).allowed alias n) = add'
      have hfr2 := addSeqServices_frame i t add'
      have hlu := lists_addSeqServices i t add'
      have hgu := addSeqServices_get i t add'
      have hiu := hsf.addSeqServices hsi add'
      generalize add'.foldl (State.addSeqService i) t = u at hfr2 hlu hgu hiu ⊢
      have hlr := lists_removeSeqServices u i remove
      refine ht.change (es := []) ?_ ?_ ?_ (fun _ h => h) ?_
      · show u.tr = _; rw [hfr2]; simp
      · show ∀ l ∈ u.lookups, _; rw [hfr2]; exact fun _ h => h
      · intro l _ j hne hl
        rw [hlr, hlu] at hl
        rcases hl.1 with hl | ⟨rfl, -⟩
        · exact hl
        · exact absurd rfl hne
      · intro j x' hx'
        change Index.get (Index.modify u.seq i _) j = _ at hx'
        rw [Index.get_modify, hgu i] at hx'
        have key : ∀ x, Index.get t.seq j = some x → j ≠ i → ∀ n ∈ x.services, Lists (u.removeSeqServices i remove) n j := by
          intro x hx hne n hn
          rw [hlr, hlu]
          exact ⟨.inl (ht.svcs j x hx n hn), fun hc => hne hc.1⟩
        by_cases hj : j = i
        · subst hj
          cases hx : Index.get t.seq j with
          | none => rw [hx] at hx'; simp at hx'
          | some x =>
            simp only [hx, if_true, Option.map_some, Option.some.injEq] at hx'
            subst hx'
            refine ⟨?_, .inl ⟨x, rfl, rfl, fun hr => ⟨hr, fun _ => rfl⟩, fun _ h => h⟩⟩
            intro n hn
            obtain ⟨hn1, hn2⟩ := List.mem_filter.mp hn
            have hlu' : Lists u n j := by
              rw [hlu]
              rcases List.mem_append.mp hn1 with hn1 | hn1
              · exact .inl (ht.svcs j x hx n hn1)
              · exact .inr ⟨rfl, hn1⟩
            rw [hlr]
            refine ⟨hlu', ?_⟩
            rintro ⟨-, hr⟩
            obtain ⟨w, hw, hwn, -⟩ := hlu'
            simp only [decide_eq_true_eq] at hn2
            exact hn2 (List.mem_filter.mpr ⟨List.mem_map.mpr ⟨w, hw, hwn⟩, by simpa using hr⟩)
        · rw [if_neg hj, hgu] at hx'
          cases hx : Index.get t.seq j with
          | none => rw [hx] at hx'; simp at hx'
          | some x =>
            simp only [hx, hj, if_false, Option.map_some, Option.some.injEq] at hx'
            subst hx'
            exact ⟨key x hx hj, .inl ⟨x, rfl, rfl, fun hr => ⟨hr, fun _ => rfl⟩, fun _ h => h⟩⟩
  | cadvertise p alias order add remove e =>
    show WInv none ((s.emit _).cadvertise p alias order add remove e)
    have hb := base (fun _ _ => rfl)
    rw [cadvertise_eq, takeReady_eq]
    have hcf := conFor_eq (s.emit (.recv (.cadvertise p alias order add remove e))) p alias order
    have hinv := hi'.conFor p alias order
    have hsome := conFor_isSome (s.emit (.recv (.cadvertise p alias order add remove e))) p alias order
    generalize (s.emit (.recv (.cadvertise p alias order add remove e))).conFor p alias order = r at hcf hinv hsome ⊢
    obtain ⟨i, t⟩ := r
    dsimp only at hcf hinv hsome ⊢
    have hfr := addConServices_frame i order t (add.filter fun n => (s.emit (.recv (.cadvertise p alias order add remove e))).allowed alias n.1)
    have hls := lists_conServices t i order (add.filter fun n => (s.emit (.recv (.cadvertise p alias order add remove e))).allowed alias n.1)
    have hinv2 := (hinv.addConServices hsome order (add.filter fun n => (s.emit (.recv (.cadvertise p alias order add remove e))).allowed alias n.1)).removeConServices i remove
    generalize (add.filter fun n => (s.emit (.recv (.cadvertise p alias order add remove e))).allowed alias n.1).foldl (State.addConService i order) t = u at hfr hls hinv2 ⊢
    refine WInv.again ?_ ?_ _ _
    · refine hb.same (es := []) ?_ (by simp) ?_ ?_ ?_
      · show u.tr = _; rw [hfr, hcf]; simp
      · intro l hl
        have := (List.mem_filter.mp hl).1
        change l ∈ u.lookups at this
        rw [hfr, hcf] at this; exact this
      · intro n j
        refine Iff.trans (lists_removeConServices u i remove n j) ((hls n j).trans ?_)
        exact Lists.of_services (by rw [hcf])
      · intro j x' hx'
        change Index.get u.seq j = _ at hx'
        rw [hfr, hcf] at hx'
        exact ⟨x', hx', rfl, rfl, rfl⟩
    · exact hinv2.same ⟨rfl, rfl, rfl⟩
  | creset p =>
    show WInv none ((s.emit _).remove _).1
    rw [remove_eq hi']
    refine h.without (p := fun q => q.ipc == p.ipc) (es := [.recv (.creset p)]) rfl (fun _ h => h) rfl rfl ?_
    intro q c hq
    have hq' : ¬ p.ipc = q.ipc := fun h => by simp [h] at hq
    simp [useStep, hq']
  | cinstance p alias order =>
    show WInv none ((s.emit _).cinstance p alias order)
    have hb := base (fun _ _ => rfl)
    have hl := lists_cinstance (s.emit (.recv (.cinstance p alias order))) p alias order
    unfold State.cinstance at hl ⊢
    split
    · exact hb
    · rename_i i hf
      rw [hf] at hl
      exact hb.same (es := []) (by simp) (by simp) (fun _ h => h) hl fun j x' hx' => ⟨x', hx', rfl, rfl, rfl⟩
  | lookup r e => exact (base (fun _ _ => rfl)).lookup hi' r e
  | discard => exact absurd trivial hm
  | prepareShutdown => exact absurd trivial hm
  | undelivered => exact absurd trivial hm
  | ack p corr trid e =>
    show WInv none ((s.emit _).ack p corr trid e)
    rw [ack_eq]
    obtain ⟨es, ht, hq⟩ := ackPrep_tr (s.emit (.recv (.ack p corr trid e))) p corr trid e
    have hs := ackPrep_same (s.emit (.recv (.ack p corr trid e))) p corr trid e
    have hpi := hi'.same hs
    have hlk := (ackPrep_lookups (s.emit (.recv (.ack p corr trid e))) p corr trid e).1
    have hds := (ackPrep_frame (s.emit (.recv (.ack p corr trid e))) p corr trid e).1
    have hq' : ∀ x ∈ es, Quiet x := fun x hx => by obtain ⟨y, rfl⟩ := hq x hx; exact quiet_rollback y
    generalize (s.emit (.recv (.ack p corr trid e))).ackPrep p corr trid e = t at ht hs hpi hlk hds
    have hts : t.seq = s.seq := hs.seq
    have htsv : t.services = s.services := hs.services
    have htr : t.tr = s.tr ++ (.recv (.ack p corr trid e) :: es) := by rw [ht]; show (s.tr ++ [_]) ++ es = _; simp
    have hfold : ∀ (q : Proc) c, q.ipc ≠ p.ipc → (Ev.recv (.ack p corr trid e) :: es).foldl (useStep q.ipc) (some (q, c)) = some (q, c) := by
      intro q c hne
      rw [List.foldl_cons]
      have : useStep q.ipc (some (q, c)) (.recv (.ack p corr trid e)) = some (q, c) := by
        simp only [useStep]; rw [if_neg fun h => hne h.symm]
      rw [this]; exact foldl_quiet hq' _
    split
    · rename_i hf
      refine h.change htr (by rw [hlk]; exact fun _ h => h) (fun _ _ _ _ hl => (Lists.of_services htsv).mp hl) (fun _ h => h) ?_
      intro i x hx
      have hne := seqOf_none hf hx
      rw [hts] at hx
      exact ⟨fun n hn => (Lists.of_services htsv).mpr (h.svcs i x hx n hn), .inl ⟨x, hx, rfl, fun hr => ⟨hr, fun c => hfold _ c hne⟩, fun _ h => h⟩⟩
    · rename_i i hf
      obtain ⟨y, hy, hyp⟩ := seqOf_some hf
      rw [if_neg (by rw [hds]; show i ∉ s.disabled; rw [hdis]; simp)]
      refine WInv.takePending ?_ ?_ e
      · refine h.change (s' := t.modifySeq i SeqI.free) htr (by show ∀ l ∈ t.lookups, _; rw [hlk]; exact fun _ h => h) (fun _ _ _ _ hl => (Lists.of_services htsv).mp hl) (by simp) ?_
        intro j x' hx'
        change Index.get (Index.modify t.seq i _) j = _ at hx'
        rw [Index.get_modify, hts] at hx'
        split at hx'
        · rename_i hj; subst hj
          rw [hts] at hy
          rw [hy] at hx'
          cases hx'
          exact ⟨fun n hn => (Lists.of_services htsv).mpr (h.svcs j y hy n hn), .inr ⟨rfl, rfl⟩⟩
        · rename_i hj
          refine ⟨fun n hn => (Lists.of_services htsv).mpr (h.svcs j x' hx' n hn), .inl ⟨x', hx', rfl, fun hr => ⟨hr, fun c => hfold _ c ?_⟩, fun _ h => h⟩⟩
          intro hip
          rw [hts] at hy
          exact hj (hi.seqIpc j i x' y hx' hy (by rw [hip, hyp]))
      · exact hpi.free _ rfl rfl rfl
  | exit pid e =>
    show WInv none ((s.emit _).exit pid e)
    rw [exit_eq hi']
    refine WInv.again ?_ ?_ _ _
    · refine h.without (p := fun q => q.pid == pid) (es := .recv (.exit pid e) :: ((failShutdown pid s.shutdowns).2 ++ (s.callers (s.seqIds fun q => q.pid == pid)).map fun c => Ev.error c.1.ipc c.2 .serviceError)) ?_ ?_ rfl rfl ?_
      · show ((s.tr ++ [_]) ++ _) ++ _ = _
        simp
        rfl
      · intro l hl; cases hl
      · intro q c hq
        have hq' : (q.pid != pid) = true := by simpa [bne] using hq
        rw [List.foldl_cons]
        have : useStep q.ipc (some (q, c)) (.recv (.exit pid e)) = some (q, c) := by simp [useStep, Option.filter, hq']
        rw [this]
        apply foldl_quiet
        intro x hx
        rcases List.mem_append.mp hx with hx | hx
        · obtain ⟨a, b, c, rfl⟩ := failShutdown_shutdown x hx; exact quiet_shutdown a b c
        · obtain ⟨c, -, rfl⟩ := List.mem_map.mp hx; exact quiet_error _ _ _
    · exact (hi'.without fun q => q.pid == pid).same ⟨rfl, rfl, rfl⟩
  | alarm e =>
    show WInv none ((s.emit _).alarm e)
    have hb := base (fun _ _ => rfl)
    rw [alarm_eq]
    have h1 : WInv none ((s.emit (.recv (.alarm e))).alarmPrep e) := hb.same' (es := []) (by simp [State.alarmPrep]) (by simp) (fun _ h => h) rfl rfl
    have h2 : ∀ ds : List Entry, WInv none (ds.foldl State.expire ((s.emit (.recv (.alarm e))).alarmPrep e)) := by
      intro ds
      refine expire_ind (P := WInv none) ?_ ds h1
      intro t d ht
      have := expire_cases t d
      have hmod : ∀ i j x', Index.get (Index.modify t.seq i fun x => { x with caller := none, corr := none }) j = some x' → ∃ x, Index.get t.seq j = some x ∧ x'.proc = x.proc ∧ x'.reserved = x.reserved ∧ x'.services = x.services := by
        intro i j x' hx'
        rw [Index.get_modify] at hx'
        split at hx'
        · rename_i hj; subst hj
          obtain ⟨x, hx, rfl⟩ := Option.map_eq_some_iff.mp hx'
          exact ⟨x, hx, rfl, rfl, rfl⟩
        · exact ⟨x', hx', rfl, rfl, rfl⟩
      generalize t.expire d = t' at this
      cases this with
      | nothing => exact ht
      | lookup l _ => exact ht.same' rfl (by simp [quiet_timedOut]) (fun l hl => List.mem_of_mem_eraseP hl) rfl rfl
      | noCaller _ i x h1 h2 h3 h4 => exact ht.same (es := []) (by simp) (by simp) (fun _ h => h) (fun _ _ => Iff.rfl) (hmod i)
      | caller _ i x c h1 h2 h3 h4 => exact ht.same rfl (by simp [quiet_error, quiet_assassinate]) (fun _ h => h) (fun _ _ => Iff.rfl) (hmod i)
    split
    · exact (h2 _).same' (es := []) (by simp [State.setTimer]) (by simp) (fun _ h => h) rfl rfl
    · exact h2 _
  | discovered corr e =>
    show WInv none ((s.emit _).discovered corr e)
    have hb := base (fun _ _ => rfl)
    rw [discovered_eq]
    split
    · exact hb
    · split
      · refine WInv.lookup ?_ ?_ _ _
        · exact hb.same' (es := []) (by simp) (by simp) (fun l hl => List.mem_of_mem_eraseP hl) rfl rfl
        · exact hi'.same ⟨rfl, rfl, rfl⟩
      · split
        · exact hb
        · exact hb.same' rfl (by simp [quiet_absent]) (fun l hl => List.mem_of_mem_eraseP hl) rfl rfl
  | disassociate t => exact (base (fun _ _ => rfl)).same' (es := []) (by simp [State.handle, State.step]) (by simp) (fun _ h => h) rfl rfl

theorem WInv.init (c : Config) : WInv none (State.init c) := by
  refine ⟨fun l hl => (by cases hl), fun i x hx => ?_, fun i x hx => ?_⟩ <;> simp [State.init, Index.get] at hx

theorem Inv6.run {s : State} (h3 : Inv3 True s) (h : WInv none s) (is : List In) (hm : ∀ m ∈ is, ¬ m.frees) : Inv3 True (s.run is) ∧ WInv none (s.run is) := by
  unfold State.run
  induction is generalizing s with
  | nil => exact ⟨h3, h⟩
  | cons i is ih =>
    have hp : i.isPrepare = false := by
      have := hm i List.mem_cons_self
      cases i <;> first | rfl | exact absurd trivial this
    exact ih (h3.step i fun _ => hp) (h.step h3 i (hm i List.mem_cons_self)) fun m h' => hm m (List.mem_cons_of_mem _ h')

end Casual.Service
