import Verif.Forward.Props3
/-! What is given up at an update and at a shutdown. -/
namespace Casual.Forward

/-- A message of forward `f` is given up: the group is asked to forget the request, or the service manager to discard the
lookup. -/
def givesUp (l : List Obs) (f : Nat) : Obs → Bool
  | .forget c _ | .dropService c => (askedBy f l).contains c
  | _ => false

/-- What can be given up: a message that has not arrived, or whose service is not found yet. -/
def early : Phase → Bool
  | .asked _ _ | .looking _ _ _ => true
  | _ => false

/-- How many messages of forward `f` can be given up. -/
def earlyOf (f : Nat) (l : List Obs) : Nat := ((askedBy f l).filter fun c => early (walk c l)).length

def canc (f : Nat) (xs : List Flow) : Nat := (xs.filter fun x => x.id == f && (x.stage == .dequeue || isLookup x.stage)).length

theorem early_phaseOf (x : Flow) : early (phaseOf x) = (x.stage == .dequeue || isLookup x.stage) := by
  unfold phaseOf; cases x.stage <;> rfl

theorem asked_flow {s : State} (h : Inv s) {x : Flow} (hx : x ∈ s.flows) (f : Nat) : (askedBy f s.log).contains x.corr = (x.id == f) := by
  have hf := facts x.corr s.log
  rw [h.W.here x hx] at hf
  have hd := deq_of_phase hf
  by_cases e : x.id = f
  · subst e
    simp [mem_askedBy.mpr ⟨_, hd⟩]
  · have : x.corr ∉ askedBy f s.log := by
      intro hm
      obtain ⟨t, ht⟩ := mem_askedBy.mp hm
      exact e (deq_once (good_of_inv h _) hd ht).1
    simp [this, e]

theorem earlyOf_eq {s : State} (h : Inv s) (f : Nat) : earlyOf f s.log = canc f s.flows := by
  unfold earlyOf canc
  rw [← List.length_map (f := fun x : Flow => x.corr)]
  have hn1 : ((askedBy f s.log).filter fun c => early (walk c s.log)).Nodup :=
    List.Nodup.sublist List.filter_sublist (askedBy_nodup (good_of_inv h))
  have hn2 : ((s.flows.filter fun x => x.id == f && (x.stage == .dequeue || isLookup x.stage)).map fun x => x.corr).Nodup :=
    List.Nodup.sublist (List.filter_sublist.map _) h.W.nodup
  have hiff : ∀ c, c ∈ (askedBy f s.log).filter (fun c => early (walk c s.log)) ↔
      c ∈ (s.flows.filter fun x => x.id == f && (x.stage == .dequeue || isLookup x.stage)).map fun x => x.corr := by
    intro c
    rw [List.mem_filter, List.mem_map]
    constructor
    · intro ⟨h1, h2⟩
      by_cases hx : ∃ x ∈ s.flows, x.corr = c
      · obtain ⟨x, hx, rfl⟩ := hx
        rw [h.W.here x hx, early_phaseOf] at h2
        have := asked_flow h hx f
        rw [List.contains_iff_mem.mpr h1] at this
        exact ⟨x, List.mem_filter.mpr ⟨hx, by rw [← this, h2]; rfl⟩, rfl⟩
      · rcases h.W.gone c (fun x hxm e => hx ⟨x, hxm, e⟩) with e | e <;> rw [e] at h2 <;> cases h2
    · intro ⟨x, hx, e⟩
      subst e
      obtain ⟨hx, hi⟩ := List.mem_filter.mp hx
      rw [Bool.and_eq_true] at hi
      refine ⟨List.contains_iff_mem.mp ((asked_flow h hx f).trans hi.1), ?_⟩
      rw [h.W.here x hx, early_phaseOf]; exact hi.2
  exact Nat.le_antisymm (length_le_of_subset hn1 fun c hc => (hiff c).mp hc) (length_le_of_subset hn2 fun c hc => (hiff c).mpr hc)

def Cut (l : List Obs) (f : Nat) (s s' : State) (n : Nat) : Prop := ∃ a, s'.log = a ++ s.log ∧ (a.filter (givesUp l f)).length = n

theorem Cut.refl {l : List Obs} {f : Nat} {s s' : State} (h : s'.log = s.log) : Cut l f s s' 0 := ⟨[], h, rfl⟩

theorem Cut.trans {l : List Obs} {f : Nat} {s s' s'' : State} {n m : Nat} (h : Cut l f s s' n) (h' : Cut l f s' s'' m) : Cut l f s s'' (n + m) := by
  obtain ⟨a, ha, h1⟩ := h
  obtain ⟨b, hb, h2⟩ := h'
  refine ⟨b ++ a, by rw [hb, ha, List.append_assoc], ?_⟩
  rw [List.filter_append, List.length_append]
  omega

theorem cut_emits {α : Type} {g : α → Obs} {l : List Obs} {f : Nat} (hg : ∀ a, givesUp l f (g a) = false) (xs : List α) (s : State) :
    Cut l f s (xs.foldl (fun s a => emit (g a) s) s) 0 := by
  rw [emits_flows]
  refine ⟨_, rfl, ?_⟩
  rw [List.length_eq_zero_iff, List.filter_eq_nil_iff]
  intro o ho
  obtain ⟨a, _, rfl⟩ := List.mem_map.mp (List.mem_reverse.mp ho)
  rw [hg a]; simp

theorem cut_emits_all {α : Type} {g : α → Obs} {l : List Obs} {f : Nat} (xs : List α) (s : State) (hg : ∀ a ∈ xs, givesUp l f (g a) = true) :
    Cut l f s (xs.foldl (fun s a => emit (g a) s) s) xs.length := by
  rw [emits_flows]
  refine ⟨_, rfl, ?_⟩
  rw [List.filter_eq_self.mpr]
  · simp
  intro o ho
  obtain ⟨a, ha, rfl⟩ := List.mem_map.mp (List.mem_reverse.mp ho)
  exact hg a ha

theorem cut_emits_none {α : Type} {g : α → Obs} {l : List Obs} {f : Nat} (xs : List α) (s : State) (hg : ∀ a ∈ xs, givesUp l f (g a) = false) :
    Cut l f s (xs.foldl (fun s a => emit (g a) s) s) 0 := by
  rw [emits_flows]
  refine ⟨_, rfl, ?_⟩
  rw [List.length_eq_zero_iff, List.filter_eq_nil_iff]
  intro o ho
  obtain ⟨a, ha, rfl⟩ := List.mem_map.mp (List.mem_reverse.mp ho)
  rw [hg a ha]; simp

/-- The number of flows that a filter gives. -/
theorem prefer_take_length (pref : List Nat) (xs : List Flow) (n : Nat) : ((prefer pref xs).take n).length = min n xs.length := by
  rw [List.length_take, (prefer_perm pref xs).length_eq]

theorem filter_or_length {α : Type} (p q : α → Bool) (hd : ∀ x, p x = true → q x = false) (xs : List α) :
    (xs.filter fun x => p x || q x).length = (xs.filter p).length + (xs.filter q).length := by
  induction xs with
  | nil => rfl
  | cons x xs ih =>
    simp only [List.filter_cons]
    cases hp : p x
    · cases hq : q x
      · simpa using ih
      · simp [ih]; omega
    · rw [hd x hp]
      simp [ih]; omega

theorem canc_split (f : Nat) (xs : List Flow) :
    canc f xs = (xs.filter fun x => x.id == f && x.stage == .dequeue).length + (xs.filter fun x => x.id == f && isLookup x.stage).length := by
  unfold canc
  rw [← filter_or_length]
  · congr 1
    apply List.filter_congr
    intro x _
    cases x.id == f <;> simp
  · intro x hx
    simp only [Bool.and_eq_true, beq_iff_eq] at hx
    rw [hx.2]; simp [isLookup]

/-- A forward to a queue has no lookups of services. -/
theorem no_lookup {s : State} (h : Inv s) {g : Fwd} (hg : g ∈ s.fwds) (hs : g.service.isSome = false) :
    (s.flows.filter fun x => x.id == g.id && isLookup x.stage) = [] := by
  rw [List.filter_eq_nil_iff]
  intro x hx he
  rw [Bool.and_eq_true, beq_iff_eq] at he
  obtain ⟨g', hg', hi, hv⟩ := h.R.ex x hx
  have : g' = g := eq_of_nodup_map (ids_nodup h.F.ids) hg' hg (hi.trans he.1)
  subst this
  have := hv (by unfold isLookup at he; unfold svcStage; cases hst : x.stage <;> rw [hst] at he <;> simp at he ⊢)
  rw [hs] at this; cases this

theorem cut_cancel {s : State} (h : Inv s) {l : List Obs} {f : Nat} (hl : askedBy f s.log = askedBy f l) (pref : List Nat) {g : Fwd}
    (hg : g ∈ s.fwds) : Cut l f s (cancel pref g s) (if g.id = f then min (surplus g) (canc f s.flows) else 0) := by
  have hu : ∀ x ∈ s.flows, ∀ o, (o = .forget x.corr g.source.process ∨ o = .dropService x.corr) → givesUp l f o = (x.id == f) := by
    intro x hx o ho
    rw [← asked_flow h hx f, hl]
    rcases ho with rfl | rfl <;> rfl
  unfold cancel
  dsimp only
  generalize hds : (prefer pref (s.flows.filter fun x => x.id == g.id && x.stage == .dequeue)).take (surplus g) = ds
  have hdl : ds.length = min (surplus g) (s.flows.filter fun x => x.id == g.id && x.stage == .dequeue).length := by
    rw [← hds, prefer_take_length]
  have hdm : ∀ x ∈ ds, x ∈ s.flows ∧ x.id = g.id := by
    intro x hx
    rw [← hds] at hx
    have := (take_prefer h pref _ _).1 x hx
    simp only [Bool.and_eq_true, beq_iff_eq] at this
    exact ⟨this.1, this.2.1⟩
  have c1 : Cut l f s (ds.foldl (fun s x => emit (.forget x.corr g.source.process) s) s) (if g.id = f then ds.length else 0) := by
    split
    · next e => exact cut_emits_all _ _ fun x hx => by rw [hu x (hdm x hx).1 _ (.inl rfl), (hdm x hx).2]; simp [e]
    · next e => exact cut_emits_none _ _ fun x hx => by rw [hu x (hdm x hx).1 _ (.inl rfl), (hdm x hx).2]; simp [e]
  have hfl : (ds.foldl (fun s x => emit (.forget x.corr g.source.process) s) s).flows = s.flows := by rw [emits_flows]
  by_cases hsv : g.service.isSome = true
  · rw [if_pos hsv, hfl]
    generalize hls : (prefer pref (s.flows.filter fun x => x.id == g.id && isLookup x.stage)).take (surplus g - ds.length) = ls
    have hll : ls.length = min (surplus g - ds.length) (s.flows.filter fun x => x.id == g.id && isLookup x.stage).length := by
      rw [← hls, prefer_take_length]
    have hlm : ∀ x ∈ ls, x ∈ s.flows ∧ x.id = g.id := by
      intro x hx
      rw [← hls] at hx
      have := (take_prefer h pref _ _).1 x hx
      simp only [Bool.and_eq_true, beq_iff_eq] at this
      exact ⟨this.1, this.2.1⟩
    generalize ds.foldl (fun s x => emit (.forget x.corr g.source.process) s) s = s' at c1 ⊢
    have c2 : Cut l f s' (ls.foldl (fun s x => emit (.dropService x.corr) s) s') (if g.id = f then ls.length else 0) := by
      split
      · next e => exact cut_emits_all _ _ fun x hx => by rw [hu x (hlm x hx).1 _ (.inr rfl), (hlm x hx).2]; simp [e]
      · next e => exact cut_emits_none _ _ fun x hx => by rw [hu x (hlm x hx).1 _ (.inr rfl), (hlm x hx).2]; simp [e]
    have c3 := c1.trans c2
    obtain ⟨a, ha, hn⟩ := c3
    refine ⟨a, ha, hn.trans ?_⟩
    split
    · next e => subst e; rw [canc_split]; omega
    · rfl
  · rw [if_neg hsv]
    obtain ⟨a, ha, hn⟩ := c1
    refine ⟨a, ha, hn.trans ?_⟩
    split
    · next e =>
      subst e
      rw [canc_split, no_lookup h hg (by simpa using hsv)]
      simpa using hdl
    · rfl

theorem canc_cancel {s : State} (h : Inv s) {f : Nat} (pref : List Nat) {g : Fwd} (hne : g.id ≠ f) :
    canc f (cancel pref g s).flows = canc f s.flows := by
  unfold cancel
  dsimp only
  split
  · rw [emits_flows, emits_flows]
    dsimp only
    generalize hls : (prefer pref (s.flows.filter fun x => x.id == g.id && isLookup x.stage)).take _ = ls
    have hlm : ∀ x ∈ ls, x.id = g.id := by
      intro x hx
      rw [← hls] at hx
      have := (take_prefer h pref _ _).1 x hx
      simp only [Bool.and_eq_true, beq_iff_eq] at this
      exact this.2.1
    unfold canc
    rw [List.filter_append, List.length_append]
    have h2 : (ls.map fun x => { x with stage := .discard }).filter (fun x => x.id == f && (x.stage == .dequeue || isLookup x.stage)) = [] := by
      rw [List.filter_eq_nil_iff]
      intro y hy
      obtain ⟨x, hx, rfl⟩ := List.mem_map.mp hy
      simp [isLookup]
    rw [h2, List.filter_filter]
    simp only [List.length_nil, Nat.add_zero]
    congr 1
    apply List.filter_congr
    intro x hx
    by_cases e : x.id = f
    · have : x ∉ ls := fun hm => hne ((hlm x hm).symm.trans e)
      simp [this]
    · simp [e]
  · rw [emits_flows]

theorem askedBy_quiet {s s' : State} (h : Quiet s s') (f : Nat) : askedBy f s'.log = askedBy f s.log := by
  obtain ⟨a, ha, hc⟩ := h
  rw [ha]
  clear ha
  induction a with
  | nil => rfl
  | cons o a ih =>
    have := ih fun o ho => hc o (List.mem_cons_of_mem _ ho)
    rw [← this]
    have := hc o (List.mem_cons_self ..)
    cases o <;> first | rfl | (cases this; done)

/-- The forwards, one after the other. -/
theorem cut_others (pref : List Nat) {l : List Obs} {f : Nat} (fs : List Fwd) : ∀ {s : State}, Inv s → askedBy f s.log = askedBy f l →
    (∀ g ∈ fs, g ∈ s.fwds ∧ g.id ≠ f) →
    Cut l f s (fs.foldl (fun s f => cancel pref f s) s) 0 ∧ canc f (fs.foldl (fun s f => cancel pref f s) s).flows = canc f s.flows := by
  induction fs with
  | nil => intro s _ _ _; exact ⟨.refl rfl, rfl⟩
  | cons g fs ih =>
    intro s h hl hm
    obtain ⟨h1, h2⟩ := hm g (List.mem_cons_self ..)
    obtain ⟨c1, c2⟩ := ih (inv_cancel h pref g) ((askedBy_quiet (quiet_cancel pref g s) f).trans hl) fun k hk => by
      rw [cancel_fwds]; exact hm k (List.mem_cons_of_mem _ hk)
    have := (cut_cancel h hl pref h1).trans c1
    rw [if_neg h2] at this
    exact ⟨this, c2.trans (canc_cancel h pref h2)⟩

theorem cut_all (pref : List Nat) {l : List Obs} {f : Fwd} (fs : List Fwd) : ∀ {s : State}, Inv s → askedBy f.id s.log = askedBy f.id l →
    (∀ g ∈ fs, g ∈ s.fwds) → (fs.map (·.id)).Nodup → f ∈ fs →
    Cut l f.id s (fs.foldl (fun s f => cancel pref f s) s) (min (surplus f) (canc f.id s.flows)) := by
  induction fs with
  | nil => intro s _ _ _ _ hf; cases hf
  | cons g fs ih =>
    intro s h hl hm hn hf
    rw [List.map_cons, List.nodup_cons] at hn
    have hm' : ∀ k ∈ fs, k ∈ (cancel pref g s).fwds := fun k hk => by rw [cancel_fwds]; exact hm k (List.mem_cons_of_mem _ hk)
    have hl' := (askedBy_quiet (quiet_cancel pref g s) f.id).trans hl
    have c1 := cut_cancel h hl pref (hm g (List.mem_cons_self ..))
    rcases List.mem_cons.mp hf with rfl | hf
    · rw [if_pos rfl] at c1
      exact c1.trans (cut_others pref fs (inv_cancel h pref f) hl' fun k hk =>
        ⟨hm' k hk, fun e => hn.1 (List.mem_map.mpr ⟨k, hk, e⟩)⟩).1
    · have hne : g.id ≠ f.id := fun e => hn.1 (List.mem_map.mpr ⟨f, hf, e.symm⟩)
      rw [if_neg hne] at c1
      have := c1.trans (ih (inv_cancel h pref g) hl' hm' hn.2 hf)
      rw [canc_cancel h pref hne, Nat.zero_add] at this
      exact this

theorem parts_perm (s : State) : (queues s ++ services s).Perm s.fwds := by
  have : queues s = s.fwds.filter fun f => !f.service.isSome := by
    unfold queues
    apply List.filter_congr
    intro f _
    cases f.service <;> rfl
  rw [this]
  exact List.perm_append_comm.trans (List.filter_append_perm _ s.fwds)

theorem parts_nodup {s : State} (h : Inv s) : ((queues s ++ services s).map (·.id)).Nodup :=
  ((parts_perm s).map _).nodup_iff.mpr (ids_nodup h.F.ids)

theorem cut_lookAgain {l : List Obs} {f : Nat} (fs : List Fwd) : ∀ s : State, Cut l f s (fs.foldl (fun s f => lookAgain f s) s) 0 := by
  induction fs with
  | nil => intro s; exact .refl rfl
  | cons g fs ih =>
    intro s
    refine Cut.trans (m := 0) (n := 0) ?_ (ih _)
    show Cut l f s (lookAgain g s) 0
    unfold lookAgain
    split
    · unfold askQueues
      dsimp only
      split
      · exact ⟨[_], rfl, rfl⟩
      · exact ⟨[_, _], rfl, rfl⟩
    · exact .refl rfl

theorem cut_comply {s : State} (h : Inv s) {l : List Obs} {f : Fwd} (hf : f ∈ s.fwds) (hl : askedBy f.id s.log = askedBy f.id l) (pref : List Nat) :
    Cut l f.id s (comply pref s) (min (surplus f) (canc f.id s.flows)) := by
  unfold comply
  dsimp only
  have hd : dropLookups s = { s with log := (s.lookups.map fun l => Obs.dropQueue l.corr).reverse ++ s.log } := by
    unfold dropLookups; rw [emits_flows]
  have h1 : Inv (dropLookups s) := inv_emits (g := fun l : Look => .dropQueue l.corr) (fun _ => rfl) (fun _ => rfl) _ h
  have c1 : Cut l f.id s (dropLookups s) 0 := cut_emits (g := fun l : Look => .dropQueue l.corr) (fun _ => rfl) _ s
  have q1 : Quiet s (dropLookups s) := quiet_emits (g := fun l : Look => .dropQueue l.corr) (fun _ => rfl) _ s
  have hfw : (dropLookups s).fwds = s.fwds := by rw [hd]
  have c2 := cut_all pref (l := l) (f := f) (queues (dropLookups s) ++ services (dropLookups s)) h1 ((askedBy_quiet q1 f.id).trans hl)
    (fun g hg => (parts_perm _).mem_iff.mp hg) (parts_nodup h1) ((parts_perm _).mem_iff.mpr (by rw [hfw]; exact hf))
  have c3 := c1.trans c2
  rw [Nat.zero_add, show (dropLookups s).flows = s.flows by rw [hd]] at c3
  exact c3.trans (cut_lookAgain (l := l) (f := f.id) _ _)

/-- Of a forward that is there, only the instances are changed. -/
theorem addOrUpdate_flows (x : Conf) (s : State) : (addOrUpdate x s).flows = s.flows := by
  unfold addOrUpdate; split <;> rfl

theorem cut_addOrUpdate {l : List Obs} {f : Nat} (x : Conf) (s : State) : Cut l f s (addOrUpdate x s) 0 := by
  unfold addOrUpdate
  split
  · exact ⟨[_], rfl, rfl⟩
  · exact ⟨[_, _], rfl, rfl⟩

theorem updates (xs : List Conf) : ∀ s : State, (xs.foldl (fun s x => addOrUpdate x s) s).flows = s.flows ∧
    Quiet s (xs.foldl (fun s x => addOrUpdate x s) s) ∧ ∀ l f, Cut l f s (xs.foldl (fun s x => addOrUpdate x s) s) 0 := by
  induction xs with
  | nil => intro s; exact ⟨rfl, .refl rfl, fun _ _ => .refl rfl⟩
  | cons x xs ih =>
    intro s
    obtain ⟨h1, h2, h3⟩ := ih (addOrUpdate x s)
    exact ⟨h1.trans (addOrUpdate_flows x s), (quiet_addOrUpdate x s).trans h2, fun l f => (cut_addOrUpdate x s).trans (h3 l f)⟩

theorem still_quiet {s s' : State} (h : Quiet s s') (f : Nat) : lostOf f s'.log = lostOf f s.log := by
  obtain ⟨a, ha, hc⟩ := h
  rw [ha]
  clear ha
  induction a with
  | nil => rfl
  | cons o a ih =>
    rw [← ih fun o ho => hc o (List.mem_cons_of_mem _ ho)]
    have := hc o (List.mem_cons_self ..)
    unfold calm at this
    rw [Bool.and_eq_true] at this
    exact (still_unheard (Option.isNone_iff_eq_none.mp this.2) f).1

/-- C120. At an update, as many messages of an enabled forward are given up as there are more on their way than the update has
instances: so many if that many can still be given up, and never more. Of a forward that is not enabled, all that can be. -/
theorem forward_update_gives_up_surplus (es : List Event) (xs : List Conf) (pref : List Nat) (f : Nat) (x : Conf)
    (hx : confOf f (run (es ++ [.update xs pref])).log = some x) :
    ∃ a, (run (es ++ [.update xs pref])).log = a ++ (run es).log ∧
      (a.filter (givesUp (run es).log f)).length =
        min (inFlight f (run es).log + lostOf f (run es).log -
            if x.enabled then instancesOf f (run (es ++ [.update xs pref])).log else 0) (earlyOf f (run es).log) := by
  have h := inv_run es
  have h' := inv_run (es ++ [.update xs pref])
  rw [run_step] at hx h' ⊢
  have hap : apply (.update xs pref) (run es) = update xs pref (run es) := rfl
  rw [hap] at hx h' ⊢
  unfold update at hx h' ⊢
  generalize xs.filter (·.target.svc.isSome) ++ xs.filter (·.target.svc.isNone) = ys at hx h' ⊢
  obtain ⟨hfl, hq, hc⟩ := updates ys (run es)
  have hi : Inv (ys.foldl (fun s x => addOrUpdate x s) (run es)) := inv_fold ys h
  generalize ys.foldl (fun s x => addOrUpdate x s) (run es) = s at hfl hq hc hi hx h' ⊢
  obtain ⟨hlt, _⟩ := h'.F.once f x (confOf_mem hx)
  obtain ⟨g, hg, rfl⟩ := fwd_of_lt h' hlt
  rw [comply_fwds hi] at hg
  obtain ⟨y, hy, hm⟩ := h'.F.conf g (by rw [comply_fwds hi]; exact hg)
  rw [hx] at hy
  cases hy
  obtain ⟨a, ha, hn⟩ := (hc (run es).log g.id).trans (cut_comply hi hg (askedBy_quiet hq g.id) pref)
  refine ⟨a, ha, ?_⟩
  rw [hn, Nat.zero_add, earlyOf_eq h, ← hfl, h'.F.inst g (by rw [comply_fwds hi]; exact hg), inFlight_eq h, ← hfl, ← still_quiet hq,
    ← hi.R.run g hg]
  unfold surplus
  rw [hm.2.2.2.2.2]
  cases x.enabled <;> simp

/-- Everything that can be given up is, if there is enough surplus. -/
theorem cancel_all {s : State} (h : Inv s) (pref : List Nat) {g : Fwd} (hg : g ∈ s.fwds) (hs : canc g.id s.flows ≤ surplus g) {x : Flow}
    (hx : x ∈ s.flows) (hi : x.id = g.id) :
    (x.stage = .dequeue → .forget x.corr g.source.process ∈ (cancel pref g s).log) ∧
    (isLookup x.stage = true → .dropService x.corr ∈ (cancel pref g s).log) := by
  rw [canc_split] at hs
  unfold cancel
  dsimp only
  have e1 : (prefer pref (s.flows.filter fun x => x.id == g.id && x.stage == .dequeue)).take (surplus g) =
      prefer pref (s.flows.filter fun x => x.id == g.id && x.stage == .dequeue) :=
    List.take_of_length_le (by rw [(prefer_perm pref _).length_eq]; omega)
  rw [e1]
  have m1 : x.stage = .dequeue → x ∈ prefer pref (s.flows.filter fun x => x.id == g.id && x.stage == .dequeue) := fun e =>
    (prefer_perm pref _).mem_iff.mpr (List.mem_filter.mpr ⟨hx, by simp [hi, e]⟩)
  have hl1 := (prefer_perm pref (s.flows.filter fun x => x.id == g.id && x.stage == .dequeue)).length_eq
  generalize prefer pref (s.flows.filter fun x => x.id == g.id && x.stage == .dequeue) = ds at *
  rw [emits_flows (fun x : Flow => Obs.forget x.corr g.source.process) ds s]
  by_cases hsv : g.service.isSome = true
  · rw [if_pos hsv]
    have e2 : (prefer pref (s.flows.filter fun x => x.id == g.id && isLookup x.stage)).take (surplus g - ds.length) =
        prefer pref (s.flows.filter fun x => x.id == g.id && isLookup x.stage) :=
      List.take_of_length_le (by rw [(prefer_perm pref _).length_eq]; omega)
    have m2 : isLookup x.stage = true → x ∈ prefer pref (s.flows.filter fun x => x.id == g.id && isLookup x.stage) := fun e =>
      (prefer_perm pref _).mem_iff.mpr (List.mem_filter.mpr ⟨hx, by simp [hi, e]⟩)
    dsimp only
    rw [e2, emits_flows]
    constructor
    · intro e
      exact List.mem_append_right _ (List.mem_append_left _ (List.mem_reverse.mpr (List.mem_map.mpr ⟨x, m1 e, rfl⟩)))
    · intro e
      exact List.mem_append_left _ (List.mem_reverse.mpr (List.mem_map.mpr ⟨x, m2 e, rfl⟩))
  · rw [if_neg hsv]
    constructor
    · intro e
      exact List.mem_append_left _ (List.mem_reverse.mpr (List.mem_map.mpr ⟨x, m1 e, rfl⟩))
    · intro e
      have := no_lookup h hg (by simpa using hsv)
      rw [List.filter_eq_nil_iff] at this
      exact absurd (by simp [hi, e]) (this x hx)

/-- The flows of the other forwards stay. -/
theorem cancel_mem {s : State} (h : Inv s) (pref : List Nat) {g : Fwd} {x : Flow} (hx : x ∈ s.flows) (hne : x.id ≠ g.id) :
    x ∈ (cancel pref g s).flows := by
  unfold cancel
  dsimp only
  split
  · rw [emits_flows, emits_flows]
    dsimp only
    refine List.mem_append_left _ (List.mem_filter.mpr ⟨hx, ?_⟩)
    generalize hls : (prefer pref (s.flows.filter fun x => x.id == g.id && isLookup x.stage)).take _ = ls
    have : x ∉ ls := by
      intro hm
      rw [← hls] at hm
      have := (take_prefer h pref _ _).1 x hm
      simp only [Bool.and_eq_true, beq_iff_eq] at this
      exact hne this.2.1
    simp [this]
  · rw [emits_flows]; exact hx

theorem cancels_all (pref : List Nat) {f : Fwd} {x : Flow} (hi : x.id = f.id) (fs : List Fwd) : ∀ {s : State}, Inv s → (∀ g ∈ fs, g ∈ s.fwds) →
    (fs.map (·.id)).Nodup → f ∈ fs → canc f.id s.flows ≤ surplus f → x ∈ s.flows →
    (x.stage = .dequeue → .forget x.corr f.source.process ∈ (fs.foldl (fun s f => cancel pref f s) s).log) ∧
    (isLookup x.stage = true → .dropService x.corr ∈ (fs.foldl (fun s f => cancel pref f s) s).log) := by
  induction fs with
  | nil => intro s _ _ _ hf; cases hf
  | cons g fs ih =>
    intro s h hm hn hf hs hx
    rw [List.map_cons, List.nodup_cons] at hn
    rcases List.mem_cons.mp hf with rfl | hf
    · have := cancel_all h pref (hm f (List.mem_cons_self ..)) hs hx hi
      obtain ⟨a, ha, _⟩ := quiet_fold (fun s f => quiet_cancel pref f s) fs (cancel pref f s)
      rw [List.foldl_cons, ha]
      exact ⟨fun e => List.mem_append_right _ (this.1 e), fun e => List.mem_append_right _ (this.2 e)⟩
    · have hne : g.id ≠ f.id := fun e => hn.1 (List.mem_map.mpr ⟨f, hf, e.symm⟩)
      exact ih (inv_cancel h pref g) (fun k hk => by rw [cancel_fwds]; exact hm k (List.mem_cons_of_mem _ hk)) hn.2 hf
        (by rw [canc_cancel h pref hne]; exact hs) (cancel_mem h pref hx (fun e => hne (e.symm.trans hi)))

/-- C116. At shutdown everything that can still be given up is: the group is asked to forget every request for a message, and
the service manager to discard every lookup. -/
theorem forward_shutdown_gives_up_all (es : List Event) (pref : List Nat) (c f : Nat) (t : Trid) :
    (walk c (run es).log = .asked f t → ∃ p, .forget c p ∈ (run (es ++ [.shutdown pref])).log) ∧
    (∀ m, walk c (run es).log = .looking f t m → .dropService c ∈ (run (es ++ [.shutdown pref])).log) := by
  have h := inv_run es
  have hfl : ∀ ph, walk c (run es).log = ph → waiting ph = true → ∃ x ∈ (run es).flows, x.corr = c ∧ phaseOf x = ph := by
    intro ph hw hwt
    by_cases hx : ∃ x ∈ (run es).flows, x.corr = c
    · obtain ⟨x, hx, rfl⟩ := hx
      exact ⟨x, hx, rfl, (h.W.here x hx).symm.trans hw⟩
    · rcases h.W.gone c (fun x hxm e => hx ⟨x, hxm, e⟩) with e | e <;> rw [hw] at e <;> subst e <;> cases hwt
  rw [run_step]
  have key : ∀ x ∈ (run es).flows, (x.stage = .dequeue → ∃ p, .forget x.corr p ∈ (apply (.shutdown pref) (run es)).log) ∧
      (isLookup x.stage = true → .dropService x.corr ∈ (apply (.shutdown pref) (run es)).log) := by
    intro x hx
    obtain ⟨g, hg, hi, _⟩ := h.R.ex x hx
    have hrun := h.R.run g hg
    have hcn : canc g.id (run es).flows ≤ cnt g.id (run es).flows := by
      unfold canc cnt
      exact filter_length_le fun y _ hy => by rw [Bool.and_eq_true] at hy; exact hy.1
    show (_ → ∃ p, _ ∈ (shutdown pref (emit .shutdown (run es))).log) ∧ (_ → _ ∈ (shutdown pref (emit .shutdown (run es))).log)
    have h1 := inv_down h
    have hx1 : x ∈ ({ emit .shutdown (run es) with down := true, fwds := (emit .shutdown (run es)).fwds.map fun f => { f with configured := 0 } } : State).flows := hx
    have hg1 : ({ g with configured := 0 } : Fwd) ∈ ({ emit .shutdown (run es) with down := true, fwds := (emit .shutdown (run es)).fwds.map fun f => { f with configured := 0 } } : State).fwds :=
      List.mem_map.mpr ⟨g, hg, rfl⟩
    have hsu : canc g.id ({ emit .shutdown (run es) with down := true, fwds := (emit .shutdown (run es)).fwds.map fun f => { f with configured := 0 } } : State).flows ≤ surplus { g with configured := 0 } := by
      have : surplus { g with configured := 0 } = g.running := by unfold surplus; cases g.enabled <;> rfl
      rw [this]
      exact Nat.le_trans hcn (by omega)
    unfold shutdown
    generalize ({ emit .shutdown (run es) with down := true, fwds := (emit .shutdown (run es)).fwds.map fun f => { f with configured := 0 } } : State) = s at h1 hx1 hg1 hsu ⊢
    unfold comply
    dsimp only
    have hd : dropLookups s = { s with log := (s.lookups.map fun l => Obs.dropQueue l.corr).reverse ++ s.log } := by
      unfold dropLookups; rw [emits_flows]
    have h2 : Inv (dropLookups s) := inv_emits (g := fun l : Look => .dropQueue l.corr) (fun _ => rfl) (fun _ => rfl) _ h1
    have := cancels_all pref (f := { g with configured := 0 }) (x := x) hi.symm (queues (dropLookups s) ++ services (dropLookups s)) h2
      (fun g hg => (parts_perm _).mem_iff.mp hg) (parts_nodup h2) ((parts_perm _).mem_iff.mpr (by rw [hd]; exact hg1))
      (by rw [hd]; exact hsu) (by rw [hd]; exact hx1)
    generalize (queues (dropLookups s) ++ services (dropLookups s)).foldl (fun s f => cancel pref f s) (dropLookups s) = s2 at this ⊢
    obtain ⟨a, ha, _⟩ := cut_lookAgain (l := []) (f := 0) (services s2 ++ queues s2) s2
    rw [ha]
    exact ⟨fun e => ⟨_, List.mem_append_right _ (this.1 e)⟩, fun e => List.mem_append_right _ (this.2 e)⟩
  constructor
  · intro hw
    obtain ⟨x, hx, rfl, hp⟩ := hfl _ hw rfl
    exact (key x hx).1 (by unfold phaseOf at hp; cases hst : x.stage <;> rw [hst] at hp <;> first | rfl | (cases hp; done))
  · intro m hw
    obtain ⟨x, hx, rfl, hp⟩ := hfl _ hw rfl
    exact (key x hx).2 (by unfold phaseOf at hp; cases hst : x.stage <;> rw [hst] at hp <;> first | rfl | (cases hp; done))

example : walk 2 (run begun).log = .asked 0 ⟨2⟩ ∧ .forget 2 (some 100) ∈ (run (begun ++ [.shutdown []])).log ∧
    ((run (moved ++ [.update [{ toQueue with instances := 0 }] []])).log.filter (givesUp (run moved).log 0)).length = 0 ∧
    (run (begun ++ [.update [{ toService with instances := 0 }] []])).log.filter (givesUp (run begun).log 0) = [.forget 2 (some 100)] := by
  decide +kernel

end Casual.Forward
