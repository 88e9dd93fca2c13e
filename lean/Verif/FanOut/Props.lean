import Verif.FanOut.Refine
import Verif.Util
/-!
# C02: a fan-out calls its continuation exactly once, when nothing is outstanding

Specification: the status of one request is a function of the operations that follow its
registration, independent of the fan-out's data structures.
-/
namespace Casual.FanOut

section Spec
variable {M ID K : Type} [DecidableEq ID] (corr : M → Nat)

/-- The effect of one operation on the status of a request with correlation `c` sent to `i`:
a reply counts only while the request is pending, a failure of `i` always counts. -/
def statusStep (c : Nat) (i : ID) (s : PState) : Op M ID K → PState
  | .register _ _ => s
  | .reply m => if corr m = c ∧ s = .pending then .received else s
  | .fail j => if j = i then .failed else s

/-- status of a request after the operations `h` following its registration -/
def status (c : Nat) (i : ID) (h : List (Op M ID K)) : PState :=
  h.foldl (statusStep corr c i) .pending

/-- every request of `ps` is answered or failed after `h` -/
def Resolved (ps : List (Nat × ID)) (h : List (Op M ID K)) : Prop :=
  ∀ p ∈ ps, status corr p.1 p.2 h ≠ .pending

/-- the replies of `h` that answered a request of `ps` that was pending at that moment;
`pre` is what happened earlier -/
def acceptedFrom (ps : List (Nat × ID)) (pre : List (Op M ID K)) : List (Op M ID K) → List M
  | [] => []
  | .reply m :: rest =>
    (if ∃ p ∈ ps, p.1 = corr m ∧ status corr p.1 p.2 pre = .pending then [m] else []) ++
      acceptedFrom ps (pre ++ [.reply m]) rest
  | op :: rest => acceptedFrom ps (pre ++ [op]) rest

def accepted (ps : List (Nat × ID)) (h : List (Op M ID K)) : List M := acceptedFrom corr ps [] h

/-- what the callback shall be told -/
def report (ps : List (Nat × ID)) (k : K) (h : List (Op M ID K)) : Fired M ID K :=
  ⟨k, accepted corr ps h, ps.map (fun p => ⟨status corr p.1 p.2 h, p.2, p.1⟩)⟩

def regs : Op M ID K → List Nat
  | .register ps _ => ps.map (·.1)
  | _ => []

def cbs : Op M ID K → List K
  | .register _ k => [k]
  | _ => []

/-- Correlations are unique, and we name each callback differently. -/
structure WF (h : List (Op M ID K)) : Prop where
  corrs : (h.flatMap regs).Nodup
  names : (h.flatMap cbs).Nodup

/-- The invocations of callback `k` in history `h`. -/
def firedOf [DecidableEq K] (k : K) (h : List (Op M ID K)) : List (Fired M ID K) :=
  ((Out.empty.run corr h).2).filter (fun f => f.callback = k)
end Spec

section Proof
variable {M ID K : Type} [DecidableEq ID] [DecidableEq K] (corr : M → Nat)
set_option linter.unusedSectionVars false

theorem run_append (o : Out M ID K) (h1 h2 : List (Op M ID K)) :
    o.run corr (h1 ++ h2) =
      (((o.run corr h1).1.run corr h2).1, (o.run corr h1).2 ++ ((o.run corr h1).1.run corr h2).2) := by
  induction h1 generalizing o with
  | nil => simp [Out.run]
  | cons op ops ih => simp [Out.run, ih, List.append_assoc]

/-- New open entry / callback of an operation. -/
def added (o : Out M ID K) : Op M ID K → List (Entry M ID K)
  | .register ps k => if ps = [] then [] else [newEntry o.next ps k]
  | _ => []
def addedFired (o : Out M ID K) : Op M ID K → List (Fired M ID K)
  | .register ps k => if ps = [] then [(newEntry o.next ps k).fire] else []
  | _ => []

theorem step_spec (o : Out M ID K) (h : Inv o) (op : Op M ID K) :
    (o.step corr op).1.entries = keep (o.entries.map (upd corr op)) ++ added o op ∧
    (o.step corr op).2 = fires (o.entries.map (upd corr op)) ++ addedFired o op := by
  cases op with
  | register ps k =>
    have hm : o.entries.map (upd corr (.register ps k)) = o.entries := by
      conv => rhs; rw [← List.map_id o.entries]
      rfl
    rw [hm, keep_open _ h.open_, fires_open _ h.open_]
    simp only [Out.step, register_spec, added, addedFired]
    split <;> simp
  | reply m => obtain ⟨a, b, -⟩ := reply_spec corr o h m; simp [Out.step, added, addedFired, a, b]
  | fail id => obtain ⟨a, b, -⟩ := fail_spec corr o h id; simp [Out.step, added, addedFired, a, b]

/-- what is known about a state reached by a well formed history -/
structure Reached (h : List (Op M ID K)) (o : Out M ID K) : Prop where
  inv : Inv o
  corrs : ∀ e ∈ o.entries, ∀ c ∈ e.corrs, c ∈ h.flatMap regs
  names : ∀ e ∈ o.entries, e.callback ∈ h.flatMap cbs

theorem callback_upd (op : Op M ID K) (e : Entry M ID K) : (upd corr op e).callback = e.callback := by
  unfold upd; cases op with
  | register => rfl
  | reply m => dsimp; split <;> rfl
  | fail id => rfl

theorem reached_step {h : List (Op M ID K)} {o : Out M ID K} (hr : Reached h o) (op : Op M ID K)
    (hwf : WF (h ++ [op])) : Reached (h ++ [op]) (o.step corr op).1 := by
  have hs := (step_spec corr o hr.inv op).1
  refine ⟨?_, ?_, ?_⟩
  · cases op with
    | register ps k =>
      apply inv_register o hr.inv
      have := hwf.corrs
      simp only [List.flatMap_append, List.flatMap_cons, List.flatMap_nil, List.append_nil,
        List.nodup_append, regs] at this
      exact ⟨this.2.1, fun e he c hc hc' => this.2.2 c (hr.corrs e he c hc) c hc' rfl⟩
    | reply m => exact inv_reply corr o hr.inv m
    | fail id => exact inv_fail corr o hr.inv id
  · rw [hs]
    intro e he c hc
    rw [List.flatMap_append, List.mem_append]
    rcases List.mem_append.mp he with he | he
    · obtain ⟨x, hx, rfl, -⟩ := (mem_keep_upd corr).mp he
      rw [corrs_upd] at hc
      exact .inl (hr.corrs x hx c hc)
    · right
      cases op with
      | register ps k =>
        unfold added at he
        dsimp only at he
        split at he
        · cases he
        · rw [List.mem_singleton.mp he, newEntry_corrs] at hc; simpa [regs] using hc
      | reply m => cases he
      | fail id => cases he
  · rw [hs]
    intro e he
    rw [List.flatMap_append, List.mem_append]
    rcases List.mem_append.mp he with he | he
    · obtain ⟨x, hx, rfl, -⟩ := (mem_keep_upd corr).mp he
      rw [callback_upd]
      exact .inl (hr.names x hx)
    · right
      cases op with
      | register ps k =>
        unfold added at he
        dsimp only at he
        split at he
        · cases he
        · rw [List.mem_singleton.mp he]; simp [cbs, newEntry]
      | reply m => cases he
      | fail id => cases he

theorem WF.prefix {h1 h2 : List (Op M ID K)} (h : WF (h1 ++ h2)) : WF h1 := by
  refine ⟨?_, ?_⟩
  · have := h.corrs; rw [List.flatMap_append] at this; exact (List.nodup_append.mp this).1
  · have := h.names; rw [List.flatMap_append] at this; exact (List.nodup_append.mp this).1

theorem reached_run (h h' : List (Op M ID K)) {o : Out M ID K} (hr : Reached h o)
    (hwf : WF (h ++ h')) : Reached (h ++ h') (o.run corr h').1 := by
  induction h' generalizing h o with
  | nil => simpa [Out.run] using hr
  | cons op ops ih =>
    rw [List.append_cons] at hwf ⊢
    have := ih (h ++ [op]) (reached_step corr hr op hwf.prefix) hwf
    simpa [Out.run] using this

theorem reached (h : List (Op M ID K)) (hwf : WF h) : Reached h (Out.empty.run corr h).1 := by
  simpa using reached_run corr [] h ⟨inv_empty, by simp [Out.empty], by simp [Out.empty]⟩ (by simpa using hwf)

/-! fires of one callback -/

theorem fires_filter (k : K) (es : List (Entry M ID K)) :
    (fires es).filter (fun f => f.callback = k) = fires (es.filter (fun e => e.callback = k)) := by
  unfold fires
  rw [List.filter_map, List.filter_filter, List.filter_filter]
  congr 1
  apply List.filter_congr
  intro e _
  by_cases hk : e.callback = k <;> simp [Entry.fire, hk]

theorem keep_filter (k : K) (es : List (Entry M ID K)) :
    (keep es).filter (fun f => f.callback = k) = keep (es.filter (fun e => e.callback = k)) := by
  unfold keep
  rw [List.filter_filter, List.filter_filter]
  apply List.filter_congr
  intro e _
  simp [Bool.and_comm]

theorem map_upd_filter (k : K) (op : Op M ID K) (es : List (Entry M ID K)) :
    (es.map (upd corr op)).filter (fun e => e.callback = k) =
      (es.filter (fun e => e.callback = k)).map (upd corr op) := by
  rw [List.filter_map]
  congr 1
  apply List.filter_congr
  intro e _
  simp [callback_upd]

def ofK (k : K) (o : Out M ID K) : List (Entry M ID K) := o.entries.filter (fun e => e.callback = k)

/-- one step, seen from callback `k`, when the operation does not register `k` -/
theorem step_ofK {o : Out M ID K} (hi : Inv o) (op : Op M ID K) (k : K) (hk : k ∉ cbs op) :
    ofK k (o.step corr op).1 = keep ((ofK k o).map (upd corr op)) ∧
    (o.step corr op).2.filter (fun f => f.callback = k) = fires ((ofK k o).map (upd corr op)) := by
  obtain ⟨h1, h2⟩ := step_spec corr o hi op
  unfold ofK
  rw [h1, h2, List.filter_append, List.filter_append, keep_filter, fires_filter, map_upd_filter]
  constructor
  · refine (List.append_right_eq_self.mpr ?_)
    cases op with
    | register ps k' =>
      have : ¬ k' = k := by intro h; subst h; simp [cbs] at hk
      simp only [added]; split <;> simp [newEntry, this]
    | reply m => rfl
    | fail id => rfl
  · refine (List.append_right_eq_self.mpr ?_)
    cases op with
    | register ps k' =>
      have : ¬ k' = k := by intro h; subst h; simp [cbs] at hk
      simp only [addedFired]; split <;> simp [newEntry, this, Entry.fire]
    | reply m => rfl
    | fail id => rfl

/-- an entry through a history -/
def updAll (e : Entry M ID K) (h : List (Op M ID K)) : Entry M ID K := h.foldl (fun e op => upd corr op e) e

/-- nothing open for `k`: nothing fires -/
theorem run_none (h h' : List (Op M ID K)) {o : Out M ID K} (hr : Reached h o) (hwf : WF (h ++ h'))
    (k : K) (hk : k ∉ h'.flatMap cbs) (hn : ofK k o = []) :
    ofK k (o.run corr h').1 = [] ∧ (o.run corr h').2.filter (fun f => f.callback = k) = [] := by
  induction h' generalizing h o with
  | nil => simpa [Out.run] using hn
  | cons op ops ih =>
    rw [List.append_cons] at hwf
    rw [List.flatMap_cons, List.mem_append, not_or] at hk
    obtain ⟨a, b⟩ := step_ofK corr hr.inv op k hk.1
    rw [hn] at a b
    obtain ⟨c, d⟩ := ih (h ++ [op]) (reached_step corr hr op hwf.prefix) hwf hk.2 (by rw [a]; rfl)
    exact ⟨c, by simp only [Out.run, List.filter_append]; rw [b, d]; rfl⟩

/-- one open entry for `k`, not done through `h'`: it stays -/
theorem run_open (h h' : List (Op M ID K)) {o : Out M ID K} (hr : Reached h o) (hwf : WF (h ++ h'))
    (k : K) (hk : k ∉ h'.flatMap cbs) (e : Entry M ID K) (hn : ofK k o = [e])
    (hd : ∀ pre post, h' = pre ++ post → (updAll corr e pre).isDone = false) :
    ofK k (o.run corr h').1 = [updAll corr e h'] ∧
      (o.run corr h').2.filter (fun f => f.callback = k) = [] := by
  induction h' generalizing h o e with
  | nil => simpa [Out.run, updAll] using hn
  | cons op ops ih =>
    rw [List.append_cons] at hwf
    rw [List.flatMap_cons, List.mem_append, not_or] at hk
    obtain ⟨a, b⟩ := step_ofK corr hr.inv op k hk.1
    have hopen : (upd corr op e).isDone = false := hd [op] ops rfl
    rw [hn] at a b
    simp only [List.map_cons, List.map_nil] at a b
    rw [keep_open _ (by simpa using hopen)] at a
    rw [fires_open _ (by simpa using hopen)] at b
    obtain ⟨c, d⟩ := ih (h ++ [op]) (reached_step corr hr op hwf.prefix) hwf hk.2 _ a
      (fun pre post hp => hd (op :: pre) post (by rw [hp]; rfl))
    exact ⟨by simpa [Out.run, updAll] using c,
      by simp only [Out.run, List.filter_append]; rw [b, d]; rfl⟩

/-! the entry's content is the specification -/

theorem status_append (c : Nat) (i : ID) (h : List (Op M ID K)) (op : Op M ID K) :
    status corr c i (h ++ [op]) = statusStep corr c i (status corr c i h) op := by
  simp [status]

theorem acceptedFrom_append (ps : List (Nat × ID)) (pre h h' : List (Op M ID K)) :
    acceptedFrom corr ps pre (h ++ h') =
      acceptedFrom corr ps pre h ++ acceptedFrom corr ps (pre ++ h) h' := by
  induction h generalizing pre with
  | nil => simp [acceptedFrom]
  | cons op ops ih =>
    cases op <;> simp [acceptedFrom, ih]

theorem markReceived_map (c : Nat) (ps : List (Nat × ID)) (f : Nat × ID → PState)
    (hn : (ps.map (·.1)).Nodup) :
    markReceived c (ps.map (fun p => (⟨f p, p.2, p.1⟩ : Pending ID))) =
      ps.map (fun p => ⟨if p.1 = c then .received else f p, p.2, p.1⟩) := by
  induction ps with
  | nil => rfl
  | cons p ps ih =>
    rw [List.map_cons, List.nodup_cons] at hn
    simp only [List.map_cons, markReceived]
    split
    · rename_i hc
      congr 1
      apply List.map_congr_left
      intro q hq
      have : ¬ q.1 = c := by
        intro h; apply hn.1; rw [hc, ← h]; exact List.mem_map_of_mem hq
      simp [this]
    · rw [ih hn.2]

theorem updAll_spec (ptr : Nat) (ps : List (Nat × ID)) (k : K) (hn : (ps.map (·.1)).Nodup)
    (h : List (Op M ID K)) :
    updAll corr (newEntry ptr ps k) h =
      ⟨ptr, ps.map (fun p => ⟨status corr p.1 p.2 h, p.2, p.1⟩), accepted corr ps h, k⟩ := by
  induction h using snocInd with
  | nil => simp [updAll, newEntry, status, accepted, acceptedFrom]
  | snoc h op ih =>
    have hu : updAll corr (newEntry ptr ps k) (h ++ [op]) =
        upd corr op (updAll corr (newEntry ptr ps k) h) := by simp [updAll]
    rw [hu, ih]
    simp only [status_append]
    have hacc : accepted corr ps (h ++ [op]) = accepted corr ps h ++ acceptedFrom corr ps h [op] := by
      unfold accepted; rw [acceptedFrom_append]; simp
    rw [hacc]
    cases op with
    | register ps' k' => simp [upd, statusStep, acceptedFrom]
    | fail id =>
      simp only [upd, Entry.failed, acceptedFrom, List.append_nil, List.map_map, statusStep]
      congr 1
      apply List.map_congr_left
      intro p _
      simp only [Function.comp, eq_comm (a := id)]
      split <;> rfl
    | reply m =>
      simp only [upd, acceptedFrom, List.append_nil, statusStep]
      have hw : Entry.waits (⟨ptr, ps.map (fun p => ⟨status corr p.1 p.2 h, p.2, p.1⟩),
          accepted corr ps h, k⟩ : Entry M ID K) (corr m) ↔
          ∃ p ∈ ps, p.1 = corr m ∧ status corr p.1 p.2 h = .pending := by
        unfold Entry.waits
        constructor
        · rintro ⟨p, hp, a, b⟩
          obtain ⟨q, hq, rfl⟩ := List.mem_map.mp hp
          exact ⟨q, hq, a, b⟩
        · rintro ⟨q, hq, a, b⟩
          exact ⟨_, List.mem_map_of_mem hq, a, b⟩
      by_cases hx : ∃ p ∈ ps, p.1 = corr m ∧ status corr p.1 p.2 h = .pending
      · rw [if_pos (hw.mpr hx), if_pos hx]
        unfold Entry.coordinate
        dsimp only
        rw [markReceived_map _ _ _ hn]
        congr 1
        obtain ⟨q, hq, hqc, hqs⟩ := hx
        apply List.map_congr_left
        intro p hp
        by_cases hpc : p.1 = corr m
        · have : p = q := by
            clear hqs hw ih hu hacc
            induction ps with
            | nil => cases hq
            | cons x xs ih =>
              rw [List.map_cons, List.nodup_cons] at hn
              rcases List.mem_cons.mp hp with a | a <;> rcases List.mem_cons.mp hq with b | b
              · rw [a, b]
              · subst a; exact absurd (by rw [hpc, ← hqc]; exact List.mem_map_of_mem b) hn.1
              · subst b; exact absurd (by rw [hqc, ← hpc]; exact List.mem_map_of_mem a) hn.1
              · exact ih hn.2 b a
          subst this
          simp [hpc, hqs] at *
          simp [hqs]
        · have hpc' : ¬ corr m = p.1 := fun h => hpc h.symm
          simp [hpc, hpc']
      · rw [if_neg (fun hh => hx (hw.mp hh)), if_neg hx]
        simp only [List.append_nil]
        congr 1
        apply List.map_congr_left
        intro p hp
        have : ¬ (corr m = p.1 ∧ status corr p.1 p.2 h = .pending) :=
          fun hc => hx ⟨p, hp, hc.1.symm, hc.2⟩
        simp [this]

theorem updAll_done (ptr : Nat) (ps : List (Nat × ID)) (k : K) (hn : (ps.map (·.1)).Nodup)
    (h : List (Op M ID K)) :
    (updAll corr (newEntry ptr ps k) h).isDone = true ↔ Resolved corr ps h := by
  rw [updAll_spec corr ptr ps k hn]
  unfold Resolved Entry.isDone
  simp [List.any_map, Function.comp]

theorem updAll_fire (ptr : Nat) (ps : List (Nat × ID)) (k : K) (hn : (ps.map (·.1)).Nodup)
    (h : List (Op M ID K)) :
    (updAll corr (newEntry ptr ps k) h).fire = report corr ps k h := by
  rw [updAll_spec corr ptr ps k hn]; rfl

/-- once resolved, always resolved -/
theorem resolved_mono (ps : List (Nat × ID)) (h h' : List (Op M ID K)) (hr : Resolved corr ps h) :
    Resolved corr ps (h ++ h') := by
  induction h' using snocInd with
  | nil => simpa using hr
  | snoc h' op ih =>
    intro p hp
    rw [← List.append_assoc, status_append]
    have := ih p hp
    unfold statusStep
    cases op with
    | register => simpa using this
    | reply m => dsimp only; split <;> simp [this]
    | fail id => dsimp only; split <;> simp [this]

end Proof

section Properties
variable {M ID K : Type} [DecidableEq ID] [DecidableEq K] (corr : M → Nat)

/-- After `h1`, the fan-out `k` is registered with requests `ps`, then `h2` happens. -/
theorem fired_before (h1 h2 : List (Op M ID K)) (ps : List (Nat × ID)) (k : K)
    (hwf : WF (h1 ++ .register ps k :: h2)) (hres : ¬ Resolved corr ps h2) :
    firedOf corr k (h1 ++ .register ps k :: h2) = [] ∧
    ofK k (Out.empty.run corr (h1 ++ .register ps k :: h2)).1 =
      [updAll corr (newEntry (Out.empty.run corr h1 : Out M ID K × _).1.next ps k) h2] := by
  have hps : ps ≠ [] := by intro h; subst h; exact hres (by intro p hp; cases hp)
  rw [List.append_cons] at hwf
  have hr := reached corr h1 hwf.prefix.prefix
  have hnd : (ps.map (·.1)).Nodup := by
    have := hwf.prefix.corrs
    rw [List.flatMap_append] at this
    simpa [regs] using (List.nodup_append.mp this).2.1
  have hnames := hwf.names
  simp only [List.flatMap_append, List.flatMap_cons, List.flatMap_nil, cbs, List.append_nil] at hnames
  have hk1 : k ∉ h1.flatMap cbs := by
    have := (List.nodup_append.mp (List.nodup_append.mp hnames).1).2.2
    intro hk; exact this k hk k (by simp) rfl
  have hk2 : k ∉ h2.flatMap cbs := by
    have := (List.nodup_append.mp hnames).2.2
    intro hk; exact this k (by simp) k hk rfl
  obtain ⟨-, f1⟩ := run_none corr [] h1 (o := (Out.empty : Out M ID K))
    ⟨inv_empty, by simp [Out.empty], by simp [Out.empty]⟩
    (by simpa using hwf.prefix.prefix) k hk1 (by simp [ofK, Out.empty])
  have hn1 : ofK k (Out.empty.run corr h1 : Out M ID K × _).1 = [] := by
    unfold ofK
    rw [List.filter_eq_nil_iff]
    intro e he
    have := hr.names e he
    simp only [decide_eq_true_eq]; intro h; exact hk1 (h ▸ this)
  generalize hoo : (Out.empty.run corr h1 : Out M ID K × _) = oo at *
  obtain ⟨o, f⟩ := oo
  dsimp only at *
  obtain ⟨hs1, hs2⟩ := step_spec corr o hr.inv (.register ps k)
  have hm : o.entries.map (upd corr (.register ps k)) = o.entries := by
    conv => rhs; rw [← List.map_id o.entries]
    rfl
  rw [hm] at hs1 hs2
  rw [keep_open _ hr.inv.open_] at hs1
  rw [fires_open _ hr.inv.open_] at hs2
  have hof : ofK k (o.step corr (.register ps k)).1 = [newEntry o.next ps k] := by
    unfold ofK at *
    rw [hs1, List.filter_append, hn1]
    simp [added, hps, newEntry]
  have hr' := reached_step corr hr (.register ps k) hwf.prefix
  obtain ⟨g1, g2⟩ := run_open corr _ h2 hr' hwf k hk2 _ hof (by
    intro pre post hp
    rw [← Bool.not_eq_true, updAll_done corr _ ps k hnd]
    intro hrp; exact hres (hp ▸ resolved_mono corr ps pre post hrp))
  constructor
  · unfold firedOf
    rw [run_append, hoo]
    simp only [List.filter_append, f1, Out.run, g2, hs2, addedFired, if_neg hps]
    rfl
  · rw [run_append, hoo]
    simp only [Out.run]
    exact g1

/-- **C02 (part 1)**: while some request is outstanding the callback is not invoked. -/
theorem not_fired_while_outstanding (h1 h2 : List (Op M ID K)) (ps : List (Nat × ID)) (k : K)
    (hwf : WF (h1 ++ .register ps k :: h2)) (hout : ∃ p ∈ ps, status corr p.1 p.2 h2 = .pending) :
    firedOf corr k (h1 ++ .register ps k :: h2) = [] := by
  refine (fired_before corr h1 h2 ps k hwf ?_).1
  obtain ⟨p, hp, hs⟩ := hout
  exact fun hr => hr p hp hs

/-- **C02 (part 2)**: when the operation `op` resolves the last outstanding request, the callback
is invoked by that operation, with the accepted replies and the outcome of every request; and it is
never invoked again, whatever follows. -/
theorem fired_once_at_completion (h1 pre post : List (Op M ID K)) (op : Op M ID K)
    (ps : List (Nat × ID)) (k : K)
    (hwf : WF (h1 ++ .register ps k :: (pre ++ op :: post)))
    (hout : ∃ p ∈ ps, status corr p.1 p.2 pre = .pending)
    (hres : ∀ p ∈ ps, status corr p.1 p.2 (pre ++ [op]) ≠ .pending) :
    firedOf corr k (h1 ++ .register ps k :: pre) = [] ∧
    firedOf corr k (h1 ++ .register ps k :: (pre ++ [op])) = [report corr ps k (pre ++ [op])] ∧
    firedOf corr k (h1 ++ .register ps k :: (pre ++ op :: post)) =
      [report corr ps k (pre ++ [op])] := by
  have hnr : ¬ Resolved corr ps pre := by
    obtain ⟨p, hp, hs⟩ := hout; exact fun hr => hr p hp hs
  have e1 : h1 ++ .register ps k :: (pre ++ op :: post) =
      (h1 ++ .register ps k :: pre) ++ ([op] ++ post) := by simp
  have e2 : h1 ++ .register ps k :: (pre ++ [op]) =
      (h1 ++ .register ps k :: pre) ++ [op] := by simp
  rw [e1] at hwf ⊢
  rw [e2]
  have hwf1 : WF (h1 ++ .register ps k :: pre) := hwf.prefix
  have hnd : (ps.map (·.1)).Nodup := by
    have := hwf1.corrs
    rw [List.flatMap_append, List.flatMap_cons] at this
    exact (List.nodup_append.mp (List.nodup_append.mp this).2.1).1
  have hk : k ∉ ([op] ++ post).flatMap cbs := by
    have := hwf.names
    rw [List.flatMap_append] at this
    intro hk
    exact (List.nodup_append.mp this).2.2 k (by simp [List.flatMap_append, cbs]) k hk rfl
  rw [List.flatMap_append, List.mem_append, not_or] at hk
  have hk1 : k ∉ cbs op := by simpa using hk.1
  obtain ⟨f1, f2⟩ := fired_before corr h1 pre ps k hwf1 hnr
  have hr := reached corr _ hwf1
  refine ⟨f1, ?_⟩
  unfold firedOf at *
  rw [← List.append_assoc] at hwf
  rw [run_append corr _ (h1 ++ .register ps k :: pre) [op],
    run_append corr _ (h1 ++ .register ps k :: pre) ([op] ++ post)]
  generalize hoo : (Out.empty.run corr (h1 ++ .register ps k :: pre) : Out M ID K × _) = oo at *
  obtain ⟨o, f⟩ := oo
  dsimp only at *
  obtain ⟨s1, s2⟩ := step_ofK corr hr.inv op k hk1
  rw [f2] at s1 s2
  simp only [List.map_cons, List.map_nil] at s1 s2
  have hu : upd corr op (updAll corr (newEntry (Out.empty.run corr h1 : Out M ID K × _).1.next ps k) pre) =
      updAll corr (newEntry (Out.empty.run corr h1 : Out M ID K × _).1.next ps k) (pre ++ [op]) := by
    simp [updAll]
  rw [hu] at s1 s2
  have hdone := (updAll_done corr (Out.empty.run corr h1 : Out M ID K × _).1.next ps k hnd (pre ++ [op])).mpr hres
  have hfire := updAll_fire corr (Out.empty.run corr h1 : Out M ID K × _).1.next ps k hnd (pre ++ [op])
  rw [keep_cons, hdone] at s1
  rw [fires_cons, hdone, hfire] at s2
  have s1 : ofK k (o.step corr op).1 = [] := s1
  have s2 : (o.step corr op).2.filter (fun f => f.callback = k) = [report corr ps k (pre ++ [op])] := s2
  have hr' := reached_step corr hr op hwf.prefix
  obtain ⟨-, g⟩ := run_none corr _ post hr' hwf k hk.2 s1
  constructor
  · simp only [List.filter_append, f1, Out.run, s2, List.append_nil]; rfl
  · rw [run_append]
    simp only [List.filter_append, f1, Out.run, s2, g, List.append_nil]; rfl

/-- **C02 (part 3)**: registering an empty set of requests invokes the callback at once, and only
once. -/
theorem fired_once_empty (h1 h2 : List (Op M ID K)) (k : K)
    (hwf : WF (h1 ++ .register [] k :: h2)) :
    firedOf corr k h1 = [] ∧
    firedOf corr k (h1 ++ .register [] k :: h2) = [⟨k, [], []⟩] := by
  rw [List.append_cons] at hwf ⊢
  have hr := reached corr h1 hwf.prefix.prefix
  have hnames := hwf.names
  simp only [List.flatMap_append, List.flatMap_cons, List.flatMap_nil, cbs, List.append_nil] at hnames
  have hk1 : k ∉ h1.flatMap cbs := by
    have := (List.nodup_append.mp (List.nodup_append.mp hnames).1).2.2
    intro hk; exact this k hk k (by simp) rfl
  have hk2 : k ∉ h2.flatMap cbs := by
    have := (List.nodup_append.mp hnames).2.2
    intro hk; exact this k (by simp) k hk rfl
  obtain ⟨n1, f1⟩ := run_none corr [] h1 (o := (Out.empty : Out M ID K))
    ⟨inv_empty, by simp [Out.empty], by simp [Out.empty]⟩
    (by simpa using hwf.prefix.prefix) k hk1 (by simp [ofK, Out.empty])
  refine ⟨f1, ?_⟩
  unfold firedOf
  rw [List.append_assoc, run_append]
  generalize hoo : (Out.empty.run corr h1 : Out M ID K × _) = oo at *
  obtain ⟨o, f⟩ := oo
  dsimp only at *
  have hstep : o.step corr (.register [] k) = (o, [⟨k, [], []⟩]) := by
    simp [Out.step, register_spec, newEntry, Entry.fire]
  have hr' := reached_step corr hr (.register [] k) hwf.prefix
  rw [hstep] at hr'
  obtain ⟨-, g⟩ := run_none corr _ h2 hr' hwf k hk2 n1
  dsimp only at g
  simp only [List.cons_append, List.nil_append, Out.run, hstep, List.filter_append, f1]
  simpa using g

/-- **C02 (part 4)**: a reply whose correlation is not that of an outstanding request (unknown,
already answered, or failed) has no effect at all: same open fan-outs, no callback. -/
theorem stray_reply_ignored (h : List (Op M ID K)) (m : M) (hwf : WF h)
    (hstray : ∀ pre post ps k, h = pre ++ .register ps k :: post →
      ∀ p ∈ ps, p.1 = corr m → status corr p.1 p.2 post ≠ .pending) :
    ((Out.empty.run corr h).1.reply corr m).1.entries = (Out.empty.run corr h).1.entries ∧
    ((Out.empty.run corr h).1.reply corr m).2 = [] := by
  have hr := reached corr h hwf
  -- every open entry is the entry of some registration
  have hentry : ∀ e ∈ (Out.empty.run corr h).1.entries, ¬ e.waits (corr m) := by
    have gen : ∀ (h0 h' : List (Op M ID K)) (o : Out M ID K), Reached h0 o → WF (h0 ++ h') →
        (∀ e ∈ o.entries, ∃ pre post ps k ptr, h0 = pre ++ .register ps k :: post ∧
          (ps.map (·.1)).Nodup ∧ e = updAll corr (newEntry ptr ps k) post) →
        ∀ e ∈ (o.run corr h').1.entries, ∃ pre post ps k ptr, h0 ++ h' = pre ++ .register ps k :: post ∧
          (ps.map (·.1)).Nodup ∧ e = updAll corr (newEntry ptr ps k) post := by
      intro h0 h'
      induction h' generalizing h0 with
      | nil => intro o _ _ H; simpa [Out.run] using H
      | cons op ops ih =>
        intro o hro hwf H
        rw [List.append_cons] at hwf
        have := ih (h0 ++ [op]) (o.step corr op).1 (reached_step corr hro op hwf.prefix) hwf (by
          rw [(step_spec corr o hro.inv op).1]
          intro e he
          rcases List.mem_append.mp he with he | he
          · obtain ⟨x, hx, rfl, -⟩ := (mem_keep_upd corr).mp he
            obtain ⟨pre, post, ps, k, ptr, rfl, hnd, rfl⟩ := H x hx
            exact ⟨pre, post ++ [op], ps, k, ptr, by simp, hnd, by simp [updAll]⟩
          · cases op with
            | register ps k =>
              unfold added at he
              dsimp only at he
              split at he
              · cases he
              · rw [List.mem_singleton.mp he]
                refine ⟨h0, [], ps, k, o.next, rfl, ?_, rfl⟩
                have := hwf.prefix.corrs
                rw [List.flatMap_append] at this
                simpa [regs] using (List.nodup_append.mp this).2.1
            | reply m => cases he
            | fail id => cases he)
        simpa [Out.run] using this
    intro e he hw
    obtain ⟨pre, post, ps, k, ptr, hh, hnd, rfl⟩ := gen [] h Out.empty
      ⟨inv_empty, by simp [Out.empty], by simp [Out.empty]⟩ (by simpa using hwf)
      (by simp [Out.empty]) e he
    rw [updAll_spec corr ptr ps k hnd] at hw
    obtain ⟨p, hp, hpc, hps⟩ := hw
    obtain ⟨q, hq, rfl⟩ := List.mem_map.mp hp
    exact hstray pre post ps k (by simpa using hh) q hq hpc hps
  obtain ⟨a, b, -⟩ := reply_spec corr _ hr.inv m
  have hm : (Out.empty.run corr h).1.entries.map (upd corr (.reply m)) =
      (Out.empty.run corr h).1.entries := by
    conv => rhs; rw [← List.map_id (Out.empty.run corr h).1.entries]
    apply List.map_congr_left
    intro e he
    simp [upd, hentry e he]
  rw [a, b, hm, keep_open _ hr.inv.open_, fires_open _ hr.inv.open_]
  exact ⟨rfl, rfl⟩

/-- Non-vacuity: two concurrent fan-outs, a failure after a reply, a late reply. -/
example :
    let h : List (Op (Nat × Nat) Nat Nat) :=
      [.register [(1, 7), (2, 8)] 0, .register [(3, 7)] 1, .reply (1, 55), .fail 7, .reply (3, 9), .reply (2, 66)]
    WF h ∧
    (Out.empty.run (·.1) h).2 =
      [⟨1, [], [⟨.failed, 7, 3⟩]⟩, ⟨0, [(1, 55), (2, 66)], [⟨.failed, 7, 1⟩, ⟨.received, 8, 2⟩]⟩] := by
  refine ⟨⟨by decide, by decide⟩, by decide⟩

end Properties
end Casual.FanOut
