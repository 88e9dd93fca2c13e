import Verif.Discovery.Grow

/-!
  What is kept waits for something: the timer, or a provider that owes an answer (for C144).
-/
namespace Casual.Discovery

theorem owedStep_grows (w : List Sub) (y : Item) (h : y.isInp = false) : ∀ x ∈ w, x ∈ owedStep w y := by
  intro x hx
  cases y with
  | inp i => cases h
  | out o => cases o <;> first | exact hx | exact List.mem_append.mpr (Or.inl hx)
  | lost o => exact hx

theorem owed_grows (log : List Item) : ∀ (ys : List Item), (∀ y ∈ ys, y.isInp = false) → ∀ x ∈ owed log, x ∈ owed (log ++ ys) := by
  intro ys
  unfold owed
  rw [List.foldl_append]
  generalize log.foldl owedStep [] = w
  induction ys generalizing w with
  | nil => exact fun _ x hx => hx
  | cons y ys ih =>
    intro h x hx
    exact ih _ (fun z hz => h z (List.mem_cons_of_mem _ hz)) x (owedStep_grows w y (h y (List.mem_cons_self ..)) x hx)

theorem Grow.owed {s t : State} (h : Grow s t) : ∀ x ∈ owed s.log, x ∈ owed t.log := by
  obtain ⟨ys, e, n⟩ := h
  rw [e]
  exact owed_grows s.log ys n

/-- About all that is waited for of one kind: the correlations are different and have been used; who is waited for owes the answer,
or is one of `b`. -/
structure PW (part : Part) (b : Pend → Prop) (next : Corr) (log : List Item) (L : List Pend) : Prop where
  fresh : ∀ p ∈ L, p.corr < next
  owed : ∀ p ∈ L, p.state = .pending → b p ∨ (⟨part, p.corr, p.process⟩ : Sub) ∈ owed log
  nodup : (L.map (·.corr)).Nodup

theorem PW.mono {part : Part} {b b' : Pend → Prop} {n n' : Corr} {log log' : List Item} {L L' : List Pend} (h : PW part b n log L)
    (hb : ∀ p, b p → b' p) (hn : n ≤ n') (hl : ∀ x ∈ Discovery.owed log, x ∈ Discovery.owed log') (hs : L'.Sublist L) : PW part b' n' log' L' where
  fresh := fun p hp => Nat.lt_of_lt_of_le (h.fresh p (hs.subset hp)) hn
  owed := fun p hp hw => (h.owed p (hs.subset hp) hw).elim (fun x => Or.inl (hb p x)) (fun x => Or.inr (hl _ x))
  nodup := h.nodup.sublist (hs.map _)

/-- The pendings of new requests. -/
structure New (part : Part) (lo hi : Corr) (log : List Item) (q : List Pend) : Prop where
  le : lo ≤ hi
  all : ∀ p ∈ q, lo ≤ p.corr ∧ p.corr < hi ∧ p.state = .pending ∧ (⟨part, p.corr, p.process⟩ : Sub) ∈ owed log
  nodup : (q.map (·.corr)).Nodup

theorem PW.add {part : Part} {b : Pend → Prop} {n n' : Corr} {log log' : List Item} {L q : List Pend} (h : PW part b n log L)
    (hl : ∀ x ∈ Discovery.owed log, x ∈ Discovery.owed log') (hq : New part n n' log' q) : PW part b n' log' (L ++ q) where
  fresh := fun p hp => by
    rcases List.mem_append.mp hp with hp | hp
    · exact Nat.lt_of_lt_of_le (h.fresh p hp) hq.le
    · exact (hq.all p hp).2.1
  owed := fun p hp hw => by
    rcases List.mem_append.mp hp with hp | hp
    · exact (h.owed p hp hw).elim Or.inl (fun x => Or.inr (hl _ x))
    · exact Or.inr (hq.all p hp).2.2.2
  nodup := by
    rw [List.map_append]
    refine List.nodup_append.mpr ⟨h.nodup, hq.nodup, ?_⟩
    intro a ha c hc
    obtain ⟨p, hp, rfl⟩ := List.mem_map.mp ha
    obtain ⟨r, hr, rfl⟩ := List.mem_map.mp hc
    have h1 := h.fresh p hp
    have h2 := (hq.all r hr).1
    exact Nat.ne_of_lt (Nat.lt_of_lt_of_le h1 h2)

theorem failPend_corr (p : Handle → Bool) (L : List Pend) : (failPend p L).map (·.corr) = L.map (·.corr) := by
  unfold failPend
  rw [List.map_map]
  refine List.map_congr_left ?_
  intro x _
  show (if p x.process = true then { x with state := .failed } else x : Pend).corr = x.corr
  split <;> rfl

theorem mem_failPend {p : Handle → Bool} {L : List Pend} {x : Pend} (h : x ∈ failPend p L) :
    ∃ y ∈ L, (p y.process = true ∧ x = { y with state := .failed }) ∨ (p y.process = false ∧ x = y) := by
  obtain ⟨y, hy, e⟩ := List.mem_map.mp h
  refine ⟨y, hy, ?_⟩
  split at e
  · rename_i hp
    exact Or.inl ⟨hp, e.symm⟩
  · rename_i hp
    exact Or.inr ⟨by simpa using hp, e.symm⟩

theorem PW.fail {part : Part} {p : Handle → Bool} {n : Corr} {log : List Item} {L : List Pend}
    (h : PW part (fun x => p x.process = true) n log L) : PW part (fun _ => False) n log (failPend p L) where
  fresh := fun x hx => by
    obtain ⟨y, hy, ⟨_, e⟩ | ⟨_, e⟩⟩ := mem_failPend hx
    · rw [e]; exact h.fresh y hy
    · rw [e]; exact h.fresh y hy
  owed := fun x hx hw => by
    obtain ⟨y, hy, ⟨_, e⟩ | ⟨hp, e⟩⟩ := mem_failPend hx
    · rw [e] at hw; cases hw
    · subst e
      rcases h.owed x hy hw with hb | hb
      · rw [hp] at hb; cases hb
      · exact Or.inr hb
  nodup := by rw [failPend_corr]; exact h.nodup

/-- Nobody of those that may owe nothing is waited for. -/
theorem PW.settle {part : Part} {b : Pend → Prop} {n : Corr} {log : List Item} {L : List Pend} (h : PW part b n log L)
    (hb : ∀ p ∈ L, p.state = .pending → ¬ b p) : PW part (fun _ => False) n log L where
  fresh := h.fresh
  owed := fun p hp hw => (h.owed p hp hw).elim (fun x => absurd x (hb p hp hw)) Or.inr
  nodup := h.nodup

theorem receivePend_corr (c : Corr) : ∀ (q : List Pend), (receivePend c q).map (·.corr) = q.map (·.corr)
  | [] => rfl
  | p :: ps => by
    unfold receivePend
    split
    · rfl
    · rw [List.map_cons, List.map_cons, receivePend_corr c ps]

theorem mem_receivePend {c : Corr} {x : Pend} : ∀ {q : List Pend}, (q.map (·.corr)).Nodup → x ∈ receivePend c q →
    (x.state = .received ∧ ∃ y ∈ q, y.corr = c ∧ x = { y with state := .received }) ∨ (x ∈ q ∧ x.corr ≠ c)
  | [], _, h => by cases h
  | p :: ps, hn, h => by
    unfold receivePend at h
    rw [List.map_cons, List.nodup_cons] at hn
    split at h
    · rename_i hc
      have hc := eq_of_beq hc
      rcases List.mem_cons.mp h with e | h
      · left
        rw [e]
        exact ⟨rfl, p, List.mem_cons_self .., hc, rfl⟩
      · right
        refine ⟨List.mem_cons_of_mem _ h, ?_⟩
        intro e
        apply hn.1
        rw [hc, ← e]
        exact List.mem_map.mpr ⟨x, h, rfl⟩
    · rename_i hc
      rcases List.mem_cons.mp h with e | h
      · right
        rw [e]
        exact ⟨List.mem_cons_self .., by simpa using hc⟩
      · rcases mem_receivePend hn.2 h with ⟨h1, y, hy, h2⟩ | ⟨h1, h2⟩
        · exact Or.inl ⟨h1, y, List.mem_cons_of_mem _ hy, h2⟩
        · exact Or.inr ⟨List.mem_cons_of_mem _ h1, h2⟩

theorem eraseFirst_sublist {α : Type} (f : α → Bool) : ∀ (l : List α), (eraseFirst f l).Sublist l
  | [] => List.Sublist.refl _
  | x :: xs => by
    unfold eraseFirst
    split
    · exact List.sublist_cons_self x xs
    · exact (eraseFirst_sublist f xs).cons_cons x

theorem mem_eraseFirst {c : Corr} {x : Pend} : ∀ {q : List Pend}, (q.map (·.corr)).Nodup → x ∈ eraseFirst (·.corr == c) q →
    x ∈ q ∧ x.corr ≠ c
  | [], _, h => by cases h
  | p :: ps, hn, h => by
    unfold eraseFirst at h
    rw [List.map_cons, List.nodup_cons] at hn
    split at h
    · rename_i hc
      have hc := eq_of_beq hc
      refine ⟨List.mem_cons_of_mem _ h, ?_⟩
      intro e
      apply hn.1
      rw [hc, ← e]
      exact List.mem_map.mpr ⟨x, h, rfl⟩
    · rename_i hc
      rcases List.mem_cons.mp h with e | h
      · rw [e]
        exact ⟨List.mem_cons_self .., by simpa using hc⟩
      · exact ⟨List.mem_cons_of_mem _ (mem_eraseFirst hn.2 h).1, (mem_eraseFirst hn.2 h).2⟩

theorem flatMap_filter_sublist {α β : Type} (f : α → Bool) (g : α → List β) : ∀ (l : List α), ((l.filter f).flatMap g).Sublist (l.flatMap g)
  | [] => List.Sublist.refl _
  | x :: xs => by
    rw [List.flatMap_cons]
    by_cases h : f x = true
    · rw [List.filter_cons_of_pos h, List.flatMap_cons]
      exact (List.Sublist.refl _).append (flatMap_filter_sublist f g xs)
    · rw [List.filter_cons_of_neg h]
      exact (flatMap_filter_sublist f g xs).trans (List.sublist_append_right _ _)

theorem flatMap_failPend {α : Type} (p : Handle → Bool) (pend : α → List Pend) (set : α → List Pend → α) (hs : ∀ e q, pend (set e q) = q) :
    ∀ (l : List α), (l.map fun e => set e (failPend p (pend e))).flatMap pend = failPend p (l.flatMap pend)
  | [] => rfl
  | x :: xs => by
    rw [List.map_cons, List.flatMap_cons, List.flatMap_cons, hs, flatMap_failPend p pend set hs xs]
    unfold failPend
    rw [List.map_append]

/-- Something is accumulated. -/
def Accumulate.some (a : Accumulate) : Bool :=
  !a.discovery.isEmpty || !a.api.isEmpty || !a.direct.isEmpty || !a.implicit.isEmpty

def lp (s : State) : List Pend := s.lookup.flatMap (·.pend)
def dp (s : State) : List Pend := s.discovery.flatMap (·.pend)
def kp (s : State) : List Pend := s.known.flatMap (·.pend)

/-- The invariant; those of `bl`, `bd` and `bk` may owe nothing. -/
structure W (bl bd bk : Pend → Prop) (s : State) : Prop where
  lookups : PW .lookup bl s.nextCorr s.log (lp s)
  requests : PW .request bd s.nextCorr s.log (dp s)
  knowns : PW .known bk s.nextCorr s.log (kp s)
  lwait : ∀ e ∈ s.lookup, noneWaits e.pend = false
  dwait : ∀ e ∈ s.discovery, allFailed e.pend = false
  kwait : ∀ e ∈ s.known, noneWaits e.pend = false
  dstate : ∀ e ∈ s.discovery, ∀ p ∈ e.pend, p.state ≠ .received
  armed : s.accumulate.some = true → s.accumulate.deadline = true

variable {bl bd bk : Pend → Prop}

/-- Nothing that is waited for, and nothing accumulated, changes. -/
theorem W.iff {s t : State} (h : W bl bd bk s) (g : Grow s t) (h1 : t.lookup = s.lookup) (h2 : t.discovery = s.discovery) (h3 : t.known = s.known)
    (h4 : t.accumulate = s.accumulate) (h5 : s.nextCorr ≤ t.nextCorr) : W bl bd bk t where
  lookups := by unfold lp; rw [h1]; exact h.lookups.mono (fun _ x => x) h5 g.owed (List.Sublist.refl _)
  requests := by unfold dp; rw [h2]; exact h.requests.mono (fun _ x => x) h5 g.owed (List.Sublist.refl _)
  knowns := by unfold kp; rw [h3]; exact h.knowns.mono (fun _ x => x) h5 g.owed (List.Sublist.refl _)
  lwait := by rw [h1]; exact h.lwait
  dwait := by rw [h2]; exact h.dwait
  kwait := by rw [h3]; exact h.kwait
  dstate := by rw [h2]; exact h.dstate
  armed := by rw [h4]; exact h.armed

theorem W.send {s : State} (h : W bl bd bk s) (env : Env) (d : Ipc) (o : Out) : W bl bd bk (s.send env d o) :=
  h.iff (Grow.send s env d o) rfl rfl rfl rfl (Nat.le_refl _)

theorem W.foldl {α : Type} (f : State → α → State) (hf : ∀ s x, W bl bd bk s → W bl bd bk (f s x)) : ∀ (l : List α) (s : State), W bl bd bk s → W bl bd bk (l.foldl f s)
  | [], _, h => h
  | x :: xs, s, h => W.foldl f hf xs _ (hf s x h)

theorem requests_new (part : Part) (env : Env) (mk : Handle → Corr → Out)
    (hm : ∀ (w : List Sub) h c, (⟨part, c, h⟩ : Sub) ∈ owedStep w (.out (mk h c))) (s : State) (ps : List Provider) :
    New part s.nextCorr (s.requests env ps mk).1.nextCorr (s.requests env ps mk).1.log (s.requests env ps mk).2 := by
  unfold State.requests
  suffices ∀ r : State × List Pend, New part s.nextCorr r.1.nextCorr r.1.log r.2 →
    New part s.nextCorr (ps.foldl (fun r p =>
    ({ r.1.send env p.process.ipc (mk p.process r.1.nextCorr) with nextCorr := r.1.nextCorr + 1 },
      if env.reach p.process.ipc then r.2 ++ [{ corr := r.1.nextCorr, process := p.process }] else r.2)) r).1.nextCorr
     (ps.foldl (fun r p =>
    ({ r.1.send env p.process.ipc (mk p.process r.1.nextCorr) with nextCorr := r.1.nextCorr + 1 },
      if env.reach p.process.ipc then r.2 ++ [{ corr := r.1.nextCorr, process := p.process }] else r.2)) r).1.log
      (ps.foldl (fun r p =>
    ({ r.1.send env p.process.ipc (mk p.process r.1.nextCorr) with nextCorr := r.1.nextCorr + 1 },
      if env.reach p.process.ipc then r.2 ++ [{ corr := r.1.nextCorr, process := p.process }] else r.2)) r).2 from
    this (s, []) ⟨Nat.le_refl _, fun p hp => (by cases hp), List.nodup_nil⟩
  induction ps with
  | nil => exact fun r h => h
  | cons p ps ih =>
    intro r h
    refine ih _ ?_
    dsimp only
    have g := (Grow.send r.1 env p.process.ipc (mk p.process r.1.nextCorr)).owed
    refine ⟨Nat.le_succ_of_le h.le, ?_, ?_⟩
    · intro x hx
      split at hx
      · rename_i hr
        rcases List.mem_append.mp hx with hx | hx
        · obtain ⟨h1, h2, h3, h4⟩ := h.all x hx
          exact ⟨h1, Nat.lt_succ_of_lt h2, h3, g _ h4⟩
        · rw [List.mem_singleton.mp hx]
          refine ⟨h.le, Nat.lt_succ_self _, rfl, ?_⟩
          show _ ∈ owed (r.1.log ++ [if env.reach p.process.ipc = true then Item.out _ else Item.lost _])
          rw [if_pos hr]
          unfold owed
          rw [List.foldl_append]
          exact hm _ _ _
      · obtain ⟨h1, h2, h3, h4⟩ := h.all x hx
        exact ⟨h1, Nat.lt_succ_of_lt h2, h3, g _ h4⟩
    · split
      · rw [List.map_append]
        refine List.nodup_append.mpr ⟨h.nodup, by simp, ?_⟩
        intro a ha c hc
        obtain ⟨x, hx, rfl⟩ := List.mem_map.mp ha
        have := (h.all x hx).2.1
        simp at hc
        rw [hc]
        exact Nat.ne_of_lt this
      · exact h.nodup

/-- Only the log and the correlations change. -/
theorem requests_fields (env : Env) (mk : Handle → Corr → Out) (s : State) (ps : List Provider) :
    ∃ n log, (s.requests env ps mk).1 = { s with nextCorr := n, log := log } := by
  unfold State.requests
  suffices ∀ r : State × List Pend, ∃ n log, (ps.foldl (fun r p =>
    ({ r.1.send env p.process.ipc (mk p.process r.1.nextCorr) with nextCorr := r.1.nextCorr + 1 },
      if env.reach p.process.ipc then r.2 ++ [{ corr := r.1.nextCorr, process := p.process }] else r.2)) r).1 = { r.1 with nextCorr := n, log := log } from this (s, [])
  induction ps with
  | nil => exact fun r => ⟨_, _, rfl⟩
  | cons p ps ih =>
    intro r
    obtain ⟨n, log, h⟩ := ih ({ r.1.send env p.process.ipc (mk p.process r.1.nextCorr) with nextCorr := r.1.nextCorr + 1 },
      if env.reach p.process.ipc then r.2 ++ [{ corr := r.1.nextCorr, process := p.process }] else r.2)
    exact ⟨n, log, h⟩

theorem W.requests' {s : State} (h : W bl bd bk s) (part : Part) (env : Env) (mk : Handle → Corr → Out)
    (hm : ∀ (w : List Sub) h c, (⟨part, c, h⟩ : Sub) ∈ owedStep w (.out (mk h c))) (ps : List Provider) : W bl bd bk (s.requests env ps mk).1 := by
  have g := Grow.requests s env ps mk
  have n := requests_new part env mk hm s ps
  obtain ⟨k, log, e⟩ := requests_fields env mk s ps
  refine h.iff g ?_ ?_ ?_ ?_ n.le <;> rw [e]

theorem W.discDone {s : State} (h : W bl bd bk s) (env : Env) (cb : DiscCb) : W bl bd bk (s.discDone env cb) := by
  cases cb with
  | aggregated content ds as key => exact W.foldl _ (fun s r h => h.send env _ _) ds _ (W.foldl _ (fun s r h => h.send env _ _) as s h)
  | rediscovery content corr process => exact h.send env _ _

theorem W.discRelease {s : State} (h : W bl bd bk s) (cb : DiscCb) : W bl bd bk (s.discRelease cb) := by
  cases cb <;> exact h.iff (Grow.same rfl) rfl rfl rfl rfl (Nat.le_refl _)

/-- An entry that waits for new requests. -/
theorem W.discAdd {s : State} {n : Corr} {log : List Item} (env : Env) (e : DiscEntry) (h : W bl bd bk { s with nextCorr := n, log := log })
    (hs : ∀ x ∈ owed log, x ∈ owed s.log) (hq : New .request n s.nextCorr s.log e.pend) (hg : W bl bd bk s) :
    W bl bd bk (s.discAdd env e) := by
  unfold State.discAdd
  split
  · exact (hg.discDone env _).discRelease _
  · rename_i hf
    refine ⟨hg.lookups, ?_, hg.knowns, hg.lwait, ?_, hg.kwait, ?_, hg.armed⟩
    · show PW _ _ _ _ ((s.discovery ++ [e]).flatMap _)
      rw [List.flatMap_append]
      have := h.requests.add hs hq
      simpa [dp] using this
    · intro x hx
      rcases List.mem_append.mp hx with hx | hx
      · exact hg.dwait x hx
      · rw [List.mem_singleton.mp hx]
        simpa using hf
    · intro x hx
      rcases List.mem_append.mp hx with hx | hx
      · exact hg.dstate x hx
      · rw [List.mem_singleton.mp hx]
        intro p hp
        rw [(hq.all p hp).2.2.1]
        exact fun h => by cases h

theorem new_nil (part : Part) (n : Corr) (log : List Item) : New part n n log [] := ⟨Nat.le_refl _, fun p hp => (by cases hp), List.nodup_nil⟩

theorem W.aggregated {s : State} (h : W bl bd bk s) (env : Env) (ds as : List Req) (o : Offer) : W bl bd bk (s.aggregated env ds as o) := by
  unfold State.aggregated
  split
  · exact h
  · dsimp only
    split
    · rename_i w hw
      have g := Grow.requests s env (s.providers.filter (·.abilities.discover)) (fun h c => .request h c (s.normalize (((ds ++ as).foldl (fun w r => w.add r.content) ({} : Want)).diff o)))
      have n := requests_new .request env (fun h c => .request h c (s.normalize (((ds ++ as).foldl (fun w r => w.add r.content) ({} : Want)).diff o)))
        (fun w h c => List.mem_append.mpr (Or.inr (List.mem_singleton.mpr rfl))) s (s.providers.filter (·.abilities.discover))
      have hr := h.requests' .request env (fun h c => .request h c (s.normalize (((ds ++ as).foldl (fun w r => w.add r.content) ({} : Want)).diff o)))
        (fun w h c => List.mem_append.mpr (Or.inr (List.mem_singleton.mpr rfl))) (s.providers.filter (·.abilities.discover))
      obtain ⟨k, log, e⟩ := requests_fields env (fun h c => .request h c (s.normalize (((ds ++ as).foldl (fun w r => w.add r.content) ({} : Want)).diff o))) s (s.providers.filter (·.abilities.discover))
      refine W.discAdd (n := s.nextCorr) (log := s.log) env _ ?_ g.owed n ?_
      · refine h.iff (Grow.same rfl) ?_ ?_ ?_ ?_ (Nat.le_refl _) <;> (dsimp only; rw [e])
      · exact hr.iff (Grow.same rfl) rfl rfl rfl rfl (Nat.le_refl _)
    · refine W.discAdd (n := s.nextCorr) (log := s.log) env _ ?_ (fun _ x => x) (new_nil _ _ _) ?_
      · exact h.iff (Grow.same rfl) rfl rfl rfl rfl (Nat.le_refl _)
      · exact h.iff (Grow.same rfl) rfl rfl rfl rfl (Nat.le_refl _)

theorem W.sendIncluded {s : State} (h : W bl bd bk s) (env : Env) (content : Offer) (send : State → Req → State) (hs : ∀ s r, ∃ d o, send s r = s.send env d o)
    (rs : List Req) : W bl bd bk (s.sendIncluded content send rs).1 :=
  W.foldl _ (fun s r h => by obtain ⟨d, o, e⟩ := hs s r; rw [e]; exact h.send env d o) _ s h

theorem W.discMessage {s : State} (h : W bl bd bk s) (env : Env) (o : Offer) (cb : DiscCb) : W bl bd bk (s.discMessage env o cb).1 := by
  cases cb with
  | aggregated content ds as key =>
    unfold State.discMessage
    dsimp only
    exact (h.sendIncluded env _ _ (sendApiReply_is env _) as).sendIncluded env _ _ (sendReply_is env _) ds
  | rediscovery content corr process => exact h

/-- Entries of the short-circuit fan-out are taken away or changed. -/
theorem W.setDisc {s : State} {bd' : Pend → Prop} (h : W bl bd bk s) (l : List DiscEntry) (hp : PW .request bd' s.nextCorr s.log (l.flatMap (·.pend)))
    (hw : ∀ e ∈ l, allFailed e.pend = false) (hst : ∀ e ∈ l, ∀ p ∈ e.pend, p.state ≠ .received) : W bl bd' bk { s with discovery := l } :=
  ⟨h.lookups, hp, h.knowns, h.lwait, hw, h.kwait, hst, h.armed⟩

theorem W.setLookup {s : State} {bl' : Pend → Prop} (h : W bl bd bk s) (l : List (FanEntry Offer LookupCb)) (hp : PW .lookup bl' s.nextCorr s.log (l.flatMap (·.pend)))
    (hw : ∀ e ∈ l, noneWaits e.pend = false) : W bl' bd bk { s with lookup := l } :=
  ⟨hp, h.requests, h.knowns, hw, h.dwait, h.kwait, h.dstate, h.armed⟩

theorem W.setKnown {s : State} {bk' : Pend → Prop} (h : W bl bd bk s) (l : List (FanEntry Want KnownCb)) (hp : PW .known bk' s.nextCorr s.log (l.flatMap (·.pend)))
    (hw : ∀ e ∈ l, noneWaits e.pend = false) : W bl bd bk' { s with known := l } :=
  ⟨h.lookups, h.requests, hp, h.lwait, h.dwait, hw, h.dstate, h.armed⟩

/-- In `B ++ q ++ E` with a `c` in `q`: nothing else has `c`. -/
theorem other_corr {B q E : List Pend} {c : Corr} (hn : ((B ++ (q ++ E)).map (·.corr)).Nodup) {x : Pend} (hx : x ∈ q) (hc : x.corr = c) :
    (∀ p ∈ B, p.corr ≠ c) ∧ (∀ p ∈ E, p.corr ≠ c) ∧ (q.map (·.corr)).Nodup := by
  rw [List.map_append, List.map_append] at hn
  obtain ⟨_, hn2, hn3⟩ := List.nodup_append.mp hn
  obtain ⟨hq, _, hn4⟩ := List.nodup_append.mp hn2
  have hxc : c ∈ q.map (·.corr) := List.mem_map.mpr ⟨x, hx, hc⟩
  refine ⟨?_, ?_, hq⟩
  · intro p hp e
    exact hn3 c (List.mem_map.mpr ⟨p, hp, e⟩) c (List.mem_append.mpr (Or.inl hxc)) rfl
  · intro p hp e
    exact hn4 c hxc c (List.mem_map.mpr ⟨p, hp, e⟩) rfl

/-- The pending with the correlation is taken away. -/
theorem PW.erase {part : Part} {c : Corr} {n : Corr} {log : List Item} {B q E : List Pend} {x : Pend} (h : PW part (fun p => p.corr = c) n log (B ++ (q ++ E)))
    (hx : x ∈ q) (hc : x.corr = c) : PW part (fun _ => False) n log (B ++ (eraseFirst (·.corr == c) q ++ E)) := by
  obtain ⟨h1, h2, h3⟩ := other_corr h.nodup hx hc
  refine (h.mono (fun _ x => x) (Nat.le_refl _) (fun _ x => x) ((List.Sublist.refl B).append ((eraseFirst_sublist _ q).append (List.Sublist.refl E)))).settle ?_
  intro p hp _
  rcases List.mem_append.mp hp with hp | hp
  · exact h1 p hp
  · rcases List.mem_append.mp hp with hp | hp
    · exact (mem_eraseFirst h3 hp).2
    · exact h2 p hp

theorem PW.drop {part : Part} {c : Corr} {n : Corr} {log : List Item} {B q E : List Pend} {x : Pend} (h : PW part (fun p => p.corr = c) n log (B ++ (q ++ E)))
    (hx : x ∈ q) (hc : x.corr = c) : PW part (fun _ => False) n log (B ++ E) := by
  refine (h.erase hx hc).mono (fun _ x => x) (Nat.le_refl _) (fun _ x => x) ((List.Sublist.refl B).append (List.sublist_append_right _ _))

theorem PW.receive {part : Part} {c : Corr} {n : Corr} {log : List Item} {B q E : List Pend} {x : Pend} (h : PW part (fun p => p.corr = c) n log (B ++ (q ++ E)))
    (hx : x ∈ q) (hc : x.corr = c) : PW part (fun _ => False) n log (B ++ (receivePend c q ++ E)) := by
  obtain ⟨h1, h2, h3⟩ := other_corr h.nodup hx hc
  have hB : ∀ p ∈ B, p ∈ B ++ (q ++ E) := fun p hp => List.mem_append.mpr (Or.inl hp)
  have hE : ∀ p ∈ E, p ∈ B ++ (q ++ E) := fun p hp => List.mem_append.mpr (Or.inr (List.mem_append.mpr (Or.inr hp)))
  have hq : ∀ p ∈ q, p ∈ B ++ (q ++ E) := fun p hp => List.mem_append.mpr (Or.inr (List.mem_append.mpr (Or.inl hp)))
  have some : ∀ p, p ∈ B ++ (q ++ E) → p.corr ≠ c → p.state = .pending → False ∨ (⟨part, p.corr, p.process⟩ : Sub) ∈ Discovery.owed log :=
    fun p hp hne hw => (h.owed p hp hw).elim (fun e => absurd e hne) Or.inr
  refine ⟨?_, ?_, ?_⟩
  · intro p hp
    rcases List.mem_append.mp hp with hp | hp
    · exact h.fresh p (hB p hp)
    · rcases List.mem_append.mp hp with hp | hp
      · rcases mem_receivePend h3 hp with ⟨_, y, hy, _, e⟩ | ⟨hp, _⟩
        · rw [e]; exact h.fresh y (hq y hy)
        · exact h.fresh p (hq p hp)
      · exact h.fresh p (hE p hp)
  · intro p hp hw
    rcases List.mem_append.mp hp with hp | hp
    · exact some p (hB p hp) (h1 p hp) hw
    · rcases List.mem_append.mp hp with hp | hp
      · rcases mem_receivePend h3 hp with ⟨e, _⟩ | ⟨hp, hne⟩
        · rw [e] at hw; cases hw
        · exact some p (hq p hp) hne hw
      · exact some p (hE p hp) (h2 p hp) hw
  · have := h.nodup
    simp only [List.map_append, receivePend_corr] at this ⊢
    exact this

theorem W.discMsgIn {s : State} {c : Corr} (env : Env) (o : Offer) (h : W bl (fun p => p.corr = c) bk s) : ∀ (es before : List DiscEntry),
    s.discovery = before ++ es → (∀ e ∈ before, ∀ p ∈ e.pend, p.corr ≠ c) → W bl (fun _ => False) bk (s.discMsgIn env c o before es)
  | [], before, hd, hb => by
    refine ⟨h.lookups, h.requests.settle ?_, h.knowns, h.lwait, h.dwait, h.kwait, h.dstate, h.armed⟩
    intro p hp _
    unfold dp at hp
    rw [hd, List.append_nil] at hp
    obtain ⟨e, he, hp⟩ := List.mem_flatMap.mp hp
    exact hb e he p hp
  | e :: es, before, hd, hb => by
    unfold State.discMsgIn
    split
    · rename_i hc
      obtain ⟨x, hx, hc⟩ := List.any_eq_true.mp hc
      have hc := eq_of_beq hc
      unfold State.discEntryMsg
      dsimp only
      have h1 := h.discMessage env o e.callback
      obtain ⟨log, hf⟩ := discMessage_fields env s o e.callback
      have hd' : (s.discMessage env o e.callback).1.discovery = before ++ e :: es := by rw [hf]; exact hd
      generalize s.discMessage env o e.callback = r at h1 hd'
      have hreq := h1.requests
      unfold dp at hreq
      rw [hd', List.flatMap_append, List.flatMap_cons] at hreq
      have sub : ∀ y ∈ before ++ es, y ∈ r.1.discovery := fun y hy => by
        rw [hd']
        rcases List.mem_append.mp hy with hy | hy
        · exact List.mem_append.mpr (Or.inl hy)
        · exact List.mem_append.mpr (Or.inr (List.mem_cons_of_mem _ hy))
      have hdrop : W bl (fun _ => False) bk { r.1 with discovery := before ++ es } := by
        refine h1.setDisc (before ++ es) ?_ (fun y hy => h1.dwait y (sub y hy)) (fun y hy => h1.dstate y (sub y hy))
        rw [List.flatMap_append]
        exact hreq.drop hx hc
      split
      · exact hdrop.discRelease _
      · split
        · exact (hdrop.discDone env _).discRelease _
        · rename_i hf
          refine h1.setDisc _ ?_ ?_ ?_
          · rw [List.flatMap_append, List.flatMap_cons]
            exact hreq.erase hx hc
          · intro y hy
            rcases List.mem_append.mp hy with hy | hy
            · exact h1.dwait y (sub y (List.mem_append.mpr (Or.inl hy)))
            · rcases List.mem_cons.mp hy with hy | hy
              · rw [hy]; simpa using hf
              · exact h1.dwait y (sub y (List.mem_append.mpr (Or.inr hy)))
          · intro y hy
            rcases List.mem_append.mp hy with hy | hy
            · exact h1.dstate y (sub y (List.mem_append.mpr (Or.inl hy)))
            · rcases List.mem_cons.mp hy with hy | hy
              · rw [hy]
                exact fun p hp => h1.dstate e (by rw [hd']; exact List.mem_append.mpr (Or.inr (List.mem_cons_self ..))) p ((eraseFirst_sublist _ _).subset hp)
              · exact h1.dstate y (sub y (List.mem_append.mpr (Or.inr hy)))
    · rename_i hc
      refine W.discMsgIn env o h es (before ++ [e]) (by rw [hd, List.append_assoc]; rfl) ?_
      intro y hy
      rcases List.mem_append.mp hy with hy | hy
      · exact hb y hy
      · rw [List.mem_singleton.mp hy]
        intro p hp e'
        apply hc
        exact List.any_eq_true.mpr ⟨p, hp, by simp [e']⟩

theorem W.discFailed {s : State} {p : Handle → Bool} (env : Env) (h : W bl (fun x => p x.process = true) bk s) :
    W bl (fun _ => False) bk (s.discFailed env p) := by
  unfold State.discFailed
  dsimp only
  refine W.foldl _ (fun s e h => (h.discDone env _).discRelease _) _ _ ?_
  have hm := flatMap_failPend p (fun e : DiscEntry => e.pend) (fun e q => { e with pend := q }) (fun _ _ => rfl) s.discovery
  refine h.setDisc _ ?_ ?_ ?_
  · refine PW.mono ?_ (fun _ x => x) (Nat.le_refl _) (fun _ x => x) (flatMap_filter_sublist _ _ _)
    rw [hm]
    exact h.requests.fail
  · intro e he
    simpa using (List.mem_filter.mp he).2
  · intro e he x hx
    obtain ⟨e0, he0, rfl⟩ := List.mem_map.mp (List.mem_filter.mp he).1
    obtain ⟨y, hy, ⟨_, e'⟩ | ⟨_, e'⟩⟩ := mem_failPend hx
    · rw [e']; exact fun h => by cases h
    · rw [e']; exact h.dstate e0 he0 y hy

theorem W.accum {s : State} (h : W bl bd bk s) (a : Accumulate) (ha : a.some = true → a.deadline = true) : W bl bd bk { s with accumulate := a } :=
  ⟨h.lookups, h.requests, h.knowns, h.lwait, h.dwait, h.kwait, h.dstate, ha⟩

theorem W.lookupDone {s : State} (h : W bl bd bk s) (env : Env) (replies : List Offer) (cb : LookupCb) : W bl bd bk (s.lookupDone env replies cb) := by
  cases cb with
  | internal r => exact h.send env _ _
  | extended r =>
    unfold State.lookupDone
    dsimp only
    split
    · exact h.send env _ _
    · split
      · exact h.accum _ (fun _ => rfl)
      · exact h.aggregated env _ _ _

theorem W.knownDone {s : State} (h : W bl bd bk s) (env : Env) (replies : List Want) (cb : KnownCb) : W bl bd bk (s.knownDone env replies cb) := by
  cases cb with
  | rediscovery corr process =>
    unfold State.knownDone
    dsimp only
    generalize hw : Want.add (s.normalize (replies.foldl Want.add ({} : Want))) s.pendingContent = w
    have g := Grow.requests s env (s.providers.filter (·.abilities.discover)) (fun h c => .request h c w)
    have n := requests_new .request env (fun h c => .request h c w)
      (fun w h c => List.mem_append.mpr (Or.inr (List.mem_singleton.mpr rfl))) s (s.providers.filter (·.abilities.discover))
    have hr := h.requests' .request env (fun h c => .request h c w)
      (fun w h c => List.mem_append.mpr (Or.inr (List.mem_singleton.mpr rfl))) (s.providers.filter (·.abilities.discover))
    obtain ⟨k, log, e⟩ := requests_fields env (fun h c => .request h c w) s (s.providers.filter (·.abilities.discover))
    refine W.discAdd (n := s.nextCorr) (log := s.log) env _ ?_ g.owed n hr
    refine h.iff (Grow.same rfl) ?_ ?_ ?_ ?_ (Nat.le_refl _) <;> (dsimp only; rw [e])
  | topology direct implicit =>
    unfold State.knownDone
    dsimp only
    refine W.foldl _ (fun s p h => h.send env _ _) _ _ ?_
    split
    · exact W.foldl _ (fun s p h => h.send env _ _) _ _ h
    · exact h

theorem W.lookupAdd {s : State} {n : Corr} {log : List Item} (env : Env) (q : List Pend) (cb : LookupCb) (h : W bl bd bk { s with nextCorr := n, log := log })
    (hs : ∀ x ∈ owed log, x ∈ owed s.log) (hq : New .lookup n s.nextCorr s.log q) (hg : W bl bd bk s) :
    W bl bd bk (s.lookupAdd env q cb) := by
  unfold State.lookupAdd
  split
  · exact hg.lookupDone env _ _
  · rename_i hf
    refine hg.setLookup _ ?_ ?_
    · rw [List.flatMap_append]
      have := h.lookups.add hs hq
      simpa [lp] using this
    · intro x hx
      rcases List.mem_append.mp hx with hx | hx
      · exact hg.lwait x hx
      · rw [List.mem_singleton.mp hx]
        simpa using hf

theorem W.knownAdd {s : State} {n : Corr} {log : List Item} (env : Env) (q : List Pend) (cb : KnownCb) (h : W bl bd bk { s with nextCorr := n, log := log })
    (hs : ∀ x ∈ owed log, x ∈ owed s.log) (hq : New .known n s.nextCorr s.log q) (hg : W bl bd bk s) :
    W bl bd bk (s.knownAdd env q cb) := by
  unfold State.knownAdd
  split
  · exact hg.knownDone env _ _
  · rename_i hf
    refine hg.setKnown _ ?_ ?_
    · rw [List.flatMap_append]
      have := h.knowns.add hs hq
      simpa [kp] using this
    · intro x hx
      rcases List.mem_append.mp hx with hx | hx
      · exact hg.kwait x hx
      · rw [List.mem_singleton.mp hx]
        simpa using hf

theorem W.localLookup {s : State} (h : W bl bd bk s) (env : Env) (scope : Scope) (r : Req) : W bl bd bk (s.localLookup env scope r) := by
  unfold State.localLookup
  dsimp only
  have g := Grow.requests s env (s.providers.filter (·.abilities.lookup)) (fun h c => .lookup h c scope r.content)
  have n := requests_new .lookup env (fun h c => .lookup h c scope r.content)
    (fun w h c => List.mem_append.mpr (Or.inr (List.mem_singleton.mpr rfl))) s (s.providers.filter (·.abilities.lookup))
  have hr := h.requests' .lookup env (fun h c => .lookup h c scope r.content)
    (fun w h c => List.mem_append.mpr (Or.inr (List.mem_singleton.mpr rfl))) (s.providers.filter (·.abilities.lookup))
  obtain ⟨k, log, e⟩ := requests_fields env (fun h c => .lookup h c scope r.content) s (s.providers.filter (·.abilities.lookup))
  refine W.lookupAdd (n := s.nextCorr) (log := s.log) env _ _ ?_ g.owed n hr
  refine h.iff (Grow.same rfl) ?_ ?_ ?_ ?_ (Nat.le_refl _) <;> (dsimp only; rw [e])

theorem W.collect {s : State} (h : W bl bd bk s) (env : Env) (cb : KnownCb) : W bl bd bk ((s.collectKnown env).1.knownAdd env (s.collectKnown env).2 cb) := by
  unfold State.collectKnown
  have g := Grow.requests s env (s.providers.filter (·.abilities.fetchKnown)) (fun h c => .known h c)
  have n := requests_new .known env (fun h c => .known h c)
    (fun w h c => List.mem_append.mpr (Or.inr (List.mem_singleton.mpr rfl))) s (s.providers.filter (·.abilities.fetchKnown))
  have hr := h.requests' .known env (fun h c => .known h c)
    (fun w h c => List.mem_append.mpr (Or.inr (List.mem_singleton.mpr rfl))) (s.providers.filter (·.abilities.fetchKnown))
  obtain ⟨k, log, e⟩ := requests_fields env (fun h c => .known h c) s (s.providers.filter (·.abilities.fetchKnown))
  refine W.knownAdd (n := s.nextCorr) (log := s.log) env _ _ ?_ g.owed n hr
  refine h.iff (Grow.same rfl) ?_ ?_ ?_ ?_ (Nat.le_refl _) <;> (dsimp only; rw [e])

theorem W.lookupMsgIn {s : State} {c : Corr} (env : Env) (o : Offer) (h : W (fun p => p.corr = c) bd bk s) : ∀ (es before : List (FanEntry Offer LookupCb)),
    s.lookup = before ++ es → (∀ e ∈ before, ∀ p ∈ e.pend, p.state = .pending → p.corr ≠ c) → W (fun _ => False) bd bk (s.lookupMsgIn env c o before es)
  | [], before, hd, hb => by
    refine ⟨h.lookups.settle ?_, h.requests, h.knowns, h.lwait, h.dwait, h.kwait, h.dstate, h.armed⟩
    intro p hp
    unfold lp at hp
    rw [hd, List.append_nil] at hp
    obtain ⟨e, he, hp⟩ := List.mem_flatMap.mp hp
    exact hb e he p hp
  | e :: es, before, hd, hb => by
    unfold State.lookupMsgIn
    split
    · rename_i hc
      obtain ⟨x, hx, hc⟩ := List.any_eq_true.mp hc
      have hc := eq_of_beq (Bool.and_eq_true_iff.mp hc).1
      have hl := h.lookups
      unfold lp at hl
      rw [hd, List.flatMap_append, List.flatMap_cons] at hl
      have sub : ∀ y ∈ before ++ es, y ∈ s.lookup := fun y hy => by
        rw [hd]
        rcases List.mem_append.mp hy with hy | hy
        · exact List.mem_append.mpr (Or.inl hy)
        · exact List.mem_append.mpr (Or.inr (List.mem_cons_of_mem _ hy))
      dsimp only
      split
      · refine W.lookupDone ?_ env _ _
        refine h.setLookup _ ?_ (fun y hy => h.lwait y (sub y hy))
        rw [List.flatMap_append]
        exact hl.drop hx hc
      · rename_i hf
        refine h.setLookup _ ?_ ?_
        · rw [List.flatMap_append, List.flatMap_cons]
          exact hl.receive hx hc
        · intro y hy
          rcases List.mem_append.mp hy with hy | hy
          · exact h.lwait y (sub y (List.mem_append.mpr (Or.inl hy)))
          · rcases List.mem_cons.mp hy with hy | hy
            · rw [hy]; simpa using hf
            · exact h.lwait y (sub y (List.mem_append.mpr (Or.inr hy)))
    · rename_i hc
      refine W.lookupMsgIn env o h es (before ++ [e]) (by rw [hd, List.append_assoc]; rfl) ?_
      intro y hy
      rcases List.mem_append.mp hy with hy | hy
      · exact hb y hy
      · rw [List.mem_singleton.mp hy]
        intro p hp hw e'
        apply hc
        exact List.any_eq_true.mpr ⟨p, hp, by simp [e', hw]⟩

theorem W.knownMsgIn {s : State} {c : Corr} (env : Env) (w : Want) (h : W bl bd (fun p => p.corr = c) s) : ∀ (es before : List (FanEntry Want KnownCb)),
    s.known = before ++ es → (∀ e ∈ before, ∀ p ∈ e.pend, p.state = .pending → p.corr ≠ c) → W bl bd (fun _ => False) (s.knownMsgIn env c w before es)
  | [], before, hd, hb => by
    refine ⟨h.lookups, h.requests, h.knowns.settle ?_, h.lwait, h.dwait, h.kwait, h.dstate, h.armed⟩
    intro p hp
    unfold kp at hp
    rw [hd, List.append_nil] at hp
    obtain ⟨e, he, hp⟩ := List.mem_flatMap.mp hp
    exact hb e he p hp
  | e :: es, before, hd, hb => by
    unfold State.knownMsgIn
    split
    · rename_i hc
      obtain ⟨x, hx, hc⟩ := List.any_eq_true.mp hc
      have hc := eq_of_beq (Bool.and_eq_true_iff.mp hc).1
      have hl := h.knowns
      unfold kp at hl
      rw [hd, List.flatMap_append, List.flatMap_cons] at hl
      have sub : ∀ y ∈ before ++ es, y ∈ s.known := fun y hy => by
        rw [hd]
        rcases List.mem_append.mp hy with hy | hy
        · exact List.mem_append.mpr (Or.inl hy)
        · exact List.mem_append.mpr (Or.inr (List.mem_cons_of_mem _ hy))
      dsimp only
      split
      · refine W.knownDone ?_ env _ _
        refine h.setKnown _ ?_ (fun y hy => h.kwait y (sub y hy))
        rw [List.flatMap_append]
        exact hl.drop hx hc
      · rename_i hf
        refine h.setKnown _ ?_ ?_
        · rw [List.flatMap_append, List.flatMap_cons]
          exact hl.receive hx hc
        · intro y hy
          rcases List.mem_append.mp hy with hy | hy
          · exact h.kwait y (sub y (List.mem_append.mpr (Or.inl hy)))
          · rcases List.mem_cons.mp hy with hy | hy
            · rw [hy]; simpa using hf
            · exact h.kwait y (sub y (List.mem_append.mpr (Or.inr hy)))
    · rename_i hc
      refine W.knownMsgIn env w h es (before ++ [e]) (by rw [hd, List.append_assoc]; rfl) ?_
      intro y hy
      rcases List.mem_append.mp hy with hy | hy
      · exact hb y hy
      · rw [List.mem_singleton.mp hy]
        intro p hp hw e'
        apply hc
        exact List.any_eq_true.mpr ⟨p, hp, by simp [e', hw]⟩

/-- An entry that stays waits for somebody else. -/
theorem stays_waits {p : Handle → Bool} {q : List Pend} (h : failDone p q = false) (hw : noneWaits q = false) : noneWaits (failPend p q) = false := by
  unfold failDone at h
  by_cases ha : (q.any fun x => p x.process) = true
  · rw [ha] at h
    simpa using h
  · have : failPend p q = q := by
      unfold failPend
      refine (List.map_congr_left ?_).trans (List.map_id q)
      intro x hx
      have : ¬ p x.process = true := fun hp => ha (List.any_eq_true.mpr ⟨x, hx, hp⟩)
      rw [if_neg this]
      rfl
    rw [this]
    exact hw

theorem W.lookupFailed {s : State} {p : Handle → Bool} (env : Env) (h : W (fun x => p x.process = true) bd bk s) :
    W (fun _ => False) bd bk (s.lookupFailed env p) := by
  unfold State.lookupFailed
  refine W.foldl _ (fun s e h => h.lookupDone env _ _) _ _ ?_
  refine h.setLookup _ ?_ ?_
  · rw [flatMap_failPend p (fun e : FanEntry Offer LookupCb => e.pend) (fun e q => { e with pend := q }) (fun _ _ => rfl)]
    exact (h.lookups.mono (fun _ x => x) (Nat.le_refl _) (fun _ x => x) (flatMap_filter_sublist _ _ _)).fail
  · intro e he
    obtain ⟨e0, he0, rfl⟩ := List.mem_map.mp he
    obtain ⟨he0, hf⟩ := List.mem_filter.mp he0
    exact stays_waits (by simpa using hf) (h.lwait e0 he0)

theorem W.knownFailed {s : State} {p : Handle → Bool} (env : Env) (h : W bl bd (fun x => p x.process = true) s) :
    W bl bd (fun _ => False) (s.knownFailed env p) := by
  unfold State.knownFailed
  refine W.foldl _ (fun s e h => h.knownDone env _ _) _ _ ?_
  refine h.setKnown _ ?_ ?_
  · rw [flatMap_failPend p (fun e : FanEntry Want KnownCb => e.pend) (fun e q => { e with pend := q }) (fun _ _ => rfl)]
    exact (h.knowns.mono (fun _ x => x) (Nat.le_refl _) (fun _ x => x) (flatMap_filter_sublist _ _ _)).fail
  · intro e he
    obtain ⟨e0, he0, rfl⟩ := List.mem_map.mp he
    obtain ⟨he0, hf⟩ := List.mem_filter.mp he0
    exact stays_waits (by simpa using hf) (h.kwait e0 he0)

theorem W.failed {s : State} {p : Handle → Bool} (env : Env)
    (h : W (fun x => p x.process = true) (fun x => p x.process = true) (fun x => p x.process = true) s) :
    W (fun _ => False) (fun _ => False) (fun _ => False) (s.failed env p) := by
  unfold State.failed
  dsimp only
  have h0 : W (fun x => p x.process = true) (fun x => p x.process = true) (fun x => p x.process = true) { s with providers := s.providers.filter fun x => !p x.process } :=
    h.iff (Grow.same rfl) rfl rfl rfl rfl (Nat.le_refl _)
  exact ((h0.discFailed env).lookupFailed env).knownFailed env

abbrev Ok (s : State) : Prop := W (fun _ => False) (fun _ => False) (fun _ => False) s

theorem W.explore {s : State} (h : W bl bd bk s) (env : Env) (direct : List Direct) (implicit : List Implicit) : W bl bd bk (s.explore env direct implicit) := by
  unfold State.explore
  split
  · exact h
  · exact h.collect env _

theorem owed_snoc (log : List Item) (i : Item) : owed (log ++ [i]) = owedStep (owed log) i := by
  unfold owed
  rw [List.foldl_append]
  rfl

/-- The input is recorded: what it settles may owe nothing any more. -/
theorem Ok.logged {s : State} (h : Ok s) (i : Input)
    (hl : ∀ x ∈ owed s.log, x.part = .lookup → bl ⟨x.corr, x.process, .pending⟩ ∨ x ∈ owedStep (owed s.log) (.inp i))
    (hd : ∀ x ∈ owed s.log, x.part = .request → bd ⟨x.corr, x.process, .pending⟩ ∨ x ∈ owedStep (owed s.log) (.inp i))
    (hk : ∀ x ∈ owed s.log, x.part = .known → bk ⟨x.corr, x.process, .pending⟩ ∨ x ∈ owedStep (owed s.log) (.inp i)) :
    W bl bd bk { s with log := s.log ++ [.inp i] } := by
  have key : ∀ (part : Part) (b : Pend → Prop) (L : List Pend), PW part (fun _ => False) s.nextCorr s.log L →
      (∀ x ∈ owed s.log, x.part = part → b ⟨x.corr, x.process, .pending⟩ ∨ x ∈ owedStep (owed s.log) (.inp i)) → PW part b s.nextCorr (s.log ++ [.inp i]) L := by
    intro part b L hp hb
    refine ⟨hp.fresh, ?_, hp.nodup⟩
    intro p hm hw
    rw [owed_snoc]
    rcases hp.owed p hm hw with h | h
    · exact h.elim
    · have := hb _ h rfl
      have e : p = ⟨p.corr, p.process, .pending⟩ := by rw [← hw]
      rw [e]
      exact this
  exact ⟨key _ _ _ h.lookups hl, key _ _ _ h.requests hd, key _ _ _ h.knowns hk, h.lwait, h.dwait, h.kwait, h.dstate, h.armed⟩

theorem Ok.step {s : State} (h : Ok s) (x : Env × Input) : Ok (s.step x) := by
  unfold State.step
  split
  · exact h
  · obtain ⟨env, i⟩ := x
    dsimp only
    have keep : (∀ w, owedStep w (.inp i) = w) → Ok { s with log := s.log ++ [.inp i] } := fun hi =>
      Ok.logged h i (fun x hx _ => Or.inr (by rw [hi]; exact hx)) (fun x hx _ => Or.inr (by rw [hi]; exact hx)) (fun x hx _ => Or.inr (by rw [hi]; exact hx))
    cases i with
    | registration corr process abilities =>
      have h := keep (fun _ => rfl)
      unfold State.handle
      dsimp only
      split
      · unfold State.register
        split
        · exact h.send env _ _
        · exact (h.send env process.ipc (.registrationReply process corr abilities)).iff (Grow.same rfl) rfl rfl rfl rfl (Nat.le_refl _)
      · exact h.send env _ _
    | api r =>
      have h := keep (fun _ => rfl)
      unfold State.handle
      dsimp only
      split
      · exact h.send env _ _
      · split
        · exact h.accum _ (fun _ => rfl)
        · exact h.aggregated env _ _ _
    | request forward r =>
      have h := keep (fun _ => rfl)
      unfold State.handle
      dsimp only
      split
      · exact h.send env _ _
      · split <;> exact h.localLookup env _ _
    | rediscovery corr process => exact (keep (fun _ => rfl)).collect env _
    | lookupReply corr o =>
      refine W.lookupMsgIn env o ?_ _ [] rfl (fun e he => by cases he)
      refine Ok.logged h _ ?_ ?_ ?_
      · intro x hx _
        by_cases hc : x.corr = corr
        · exact Or.inl hc
        · exact Or.inr (List.mem_filter.mpr ⟨hx, by simp [hc]⟩)
      · exact fun x hx hp => Or.inr (List.mem_filter.mpr ⟨hx, by simp [hp]⟩)
      · exact fun x hx hp => Or.inr (List.mem_filter.mpr ⟨hx, by simp [hp]⟩)
    | reply corr o =>
      refine W.discMsgIn env o ?_ _ [] rfl (fun e he => by cases he)
      refine Ok.logged h _ ?_ ?_ ?_
      · exact fun x hx hp => Or.inr (List.mem_filter.mpr ⟨hx, by simp [hp]⟩)
      · intro x hx _
        by_cases hc : x.corr = corr
        · exact Or.inl hc
        · exact Or.inr (List.mem_filter.mpr ⟨hx, by simp [hc]⟩)
      · exact fun x hx hp => Or.inr (List.mem_filter.mpr ⟨hx, by simp [hp]⟩)
    | knownReply corr w =>
      refine W.knownMsgIn env w ?_ _ [] rfl (fun e he => by cases he)
      refine Ok.logged h _ ?_ ?_ ?_
      · exact fun x hx hp => Or.inr (List.mem_filter.mpr ⟨hx, by simp [hp]⟩)
      · exact fun x hx hp => Or.inr (List.mem_filter.mpr ⟨hx, by simp [hp]⟩)
      · intro x hx _
        by_cases hc : x.corr = corr
        · exact Or.inl hc
        · exact Or.inr (List.mem_filter.mpr ⟨hx, by simp [hc]⟩)
    | direct d =>
      have h := keep (fun _ => rfl)
      unfold State.handle
      dsimp only
      split
      · exact h
      · exact h.accum _ (fun _ => rfl)
    | implicit i =>
      have h := keep (fun _ => rfl)
      unfold State.handle
      dsimp only
      split
      · exact h
      · split
        · exact h
        · exact h.accum _ (fun _ => rfl)
    | timeout =>
      have h := keep (fun _ => rfl)
      unfold State.handle
      dsimp only
      exact ((h.accum {} (fun h => by cases h)).explore env _ _).aggregated env _ _ _
    | exit pid =>
      show Ok (State.failed { s with log := s.log ++ [.inp (.exit pid)] } env (·.pid == pid))
      refine W.failed env ?_
      have : ∀ x ∈ owed s.log, x.process.pid = pid ∨ x ∈ owedStep (owed s.log) (.inp (.exit pid)) := by
        intro x hx
        by_cases hc : x.process.pid = pid
        · exact Or.inl hc
        · exact Or.inr (List.mem_filter.mpr ⟨hx, by simp [hc]⟩)
      refine Ok.logged h _ ?_ ?_ ?_ <;> exact fun x hx _ => (this x hx).elim (fun e => Or.inl (by simp [e])) Or.inr
    | ipcDestroyed ipc =>
      show Ok (State.failed { s with log := s.log ++ [.inp (.ipcDestroyed ipc)] } env (·.ipc == ipc))
      refine W.failed env ?_
      have : ∀ x ∈ owed s.log, x.process.ipc = ipc ∨ x ∈ owedStep (owed s.log) (.inp (.ipcDestroyed ipc)) := by
        intro x hx
        by_cases hc : x.process.ipc = ipc
        · exact Or.inl hc
        · exact Or.inr (List.mem_filter.mpr ⟨hx, by simp [hc]⟩)
      refine Ok.logged h _ ?_ ?_ ?_ <;> exact fun x hx _ => (this x hx).elim (fun e => Or.inl (by simp [e])) Or.inr
    | configuration corr process services =>
      have h := keep (fun _ => rfl)
      unfold State.handle
      dsimp only
      refine W.send ?_ env _ _
      obtain ⟨tr, tor, e⟩ := configure_fields { s with log := s.log ++ [Item.inp (Input.configuration corr process services)] } services
      rw [e]
      exact h.iff (Grow.same rfl) rfl rfl rfl rfl (Nat.le_refl _)
    | shutdown =>
      have h := keep (fun _ => rfl)
      exact h.iff (Grow.same rfl) rfl rfl rfl rfl (Nat.le_refl _)

theorem run_ok (domain : Domain) (services : List SvcCfg) (xs : List (Env × Input)) : Ok (State.run domain services xs) := by
  unfold State.run
  suffices ∀ (xs : List (Env × Input)) (s : State), Ok s → Ok (xs.foldl State.step s) by
    refine this xs _ ?_
    obtain ⟨tr, tor, h⟩ := init_fields domain services
    rw [h]
    have pw : ∀ part, PW part (fun _ => False) 0 [] [] := fun part => ⟨fun p hp => (by cases hp), fun p hp => (by cases hp), List.nodup_nil⟩
    exact ⟨pw _, pw _, pw _, fun e he => (by cases he), fun e he => (by cases he), fun e he => (by cases he), fun e he => (by cases he), fun h => (by cases h)⟩
  intro xs
  induction xs with
  | nil => exact fun s h => h
  | cons x xs ih => exact fun s h => ih _ (h.step x)

end Casual.Discovery
