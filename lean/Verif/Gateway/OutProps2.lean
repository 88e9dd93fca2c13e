import Verif.Gateway.OutProps
/-!
More about what the outbound group does for discovery (C98): what is asked for on a connection
that is to be closed, what is advertised, and what is withdrawn.
-/
namespace Casual.Gateway.Out

/-- When this process shuts down, or the connection is to be closed, a request for discovery is
answered at once, with nothing, and not sent. -/
theorem c98_refused (es : List Event) (d c ipc : Nat) (ok : Bool) (ha : (run es).dead = false)
    (hl : live d (run es).log = true) (h : (run es).running = false ∨ leaving d (run es).log = true) :
    (run (es ++ [.discover d c ipc ok])).log =
      .reply ipc c .discovery ⟨0, 0⟩ :: .req d c ipc .discovery none :: (run es).log := by
  rw [run_snoc]; unfold step; rw [if_neg (by simp [ha])]
  have hc : connected d (run es) = true := by rw [liveOk_run es]; exact hl
  have hd : (!(run es).running || (run es).disconnecting.any (·.1 == d)) = true := by
    rcases h with h | h
    · simp [h]
    · have := (lv_run es).eq d; rw [this] at h; simp [h]
  simp only [apply, on, hc, if_true, discovery, emit_running, emit_disc, hd, emit_log]

/-- Nor is it asked to explore. -/
theorem c98_not_explored (es : List Event) (d : Nat) (ok : Bool)
    (h : (run es).running = false ∨ leaving d (run es).log = true) :
    run (es ++ [.explore d ok]) = run es := by
  rw [run_snoc]; unfold step; split
  · rfl
  · have hd : (!(run es).running || (run es).disconnecting.any (·.1 == d)) = true := by
      rcases h with h | h
      · simp [h]
      · have := (lv_run es).eq d; rw [this] at h; simp [h]
    simp only [apply, on]
    split
    · simp only [explore, hd, if_true]
    · rfl

/-- Otherwise both are sent to the other domain. -/
theorem c98_asked (es : List Event) (d c ipc : Nat) (ha : (run es).dead = false)
    (hl : live d (run es).log = true) (h1 : (run es).running = true) (h2 : leaving d (run es).log = false) :
    (run (es ++ [.discover d c ipc true])).log =
      .tcp d c .discovery none :: .req d c ipc .discovery none :: (run es).log ∧
    (run (es ++ [.explore d true])).log = .explored d :: (run es).log := by
  rw [run_snoc, run_snoc]; unfold step; rw [if_neg (by simp [ha]), if_neg (by simp [ha])]
  have hc : connected d (run es) = true := by rw [liveOk_run es]; exact hl
  have hd : (!(run es).running || (run es).disconnecting.any (·.1 == d)) = false := by
    have := (lv_run es).eq d; rw [this] at h2; simp [h1, h2]
  constructor
  · simp [apply, on, hc, discovery, hd, send]
  · simp [apply, on, hc, explore, hd, send]

/-- All that the other domain says that it has is advertised, one hop further away, before the one
that asked gets its answer. -/
theorem c98_announced (es : List Event) (d c : Nat) (sv : List (Nat × Nat)) (q : List Nat) (r : Rep)
    (ha : (run es).dead = false) (hl : live d (run es).log = true) :
    ∃ answer, (run (es ++ [.rDiscover d c sv q r])).log =
      answer ++ (if q = [] then [] else [.advertisedQ d q]) ++
        (if sv = [] then [] else [.advertised d (sv.map fun x => (x.1, x.2 + 1))]) ++
        .found d sv q :: .got d c .discovery r :: (run es).log ∧
      (answer = [] ∨ ∃ ipc, answer = [.reply ipc c .discovery r]) := by
  rw [run_snoc]; unfold step; rw [if_neg (by simp [ha])]
  have hc : connected d (run es) = true := by rw [liveOk_run es]; exact hl
  simp only [apply, on, hc, if_true, discoveryReply, resourceReply]
  generalize hs : (if q.isEmpty = true then _ else _ : State) = s
  have hlog : s.log = (if q = [] then [] else [.advertisedQ d q]) ++
        (if sv = [] then [] else [.advertised d (sv.map fun x => (x.1, x.2 + 1))]) ++
        .found d sv q :: .got d c .discovery r :: (run es).log := by
    rw [← hs]
    cases q <;> cases sv <;> simp
  rcases ht : takeDest c s with ⟨s', _ | e⟩
  · refine ⟨[], ?_, Or.inl rfl⟩
    have : s'.log = s.log := by
      unfold takeDest at ht; split at ht
      · simp at ht
      · simp at ht; rw [← ht]
    simp [this, hlog]
  · refine ⟨[.reply e.ipc c .discovery r], ?_, Or.inr ⟨_, rfl⟩⟩
    have : s'.log = s.log := by
      unfold takeDest at ht; split at ht
      · simp at ht; rw [← ht.1]
      · simp at ht
    simp [this, hlog]

/-- The one that asked gets its answer, if nothing else has that correlation. -/
theorem c98_answered (es : List Event) (d c : Nat) (sv : List (Nat × Nat)) (q : List Nat) (r : Rep)
    (ha : (run es).dead = false) (hl : live d (run es).log = true) (e : Entry) (he : e ∈ (run es).dest)
    (hu : ∀ e' ∈ (run es).dest, e'.corr = c → e' = e) (hc : e.corr = c) :
    .reply e.ipc c .discovery r ∈ (run (es ++ [.rDiscover d c sv q r])).log := by
  rw [run_snoc]; unfold step; rw [if_neg (by simp [ha])]
  have hc' : connected d (run es) = true := by rw [liveOk_run es]; exact hl
  simp only [apply, on, hc', if_true, discoveryReply, resourceReply]
  generalize hs : (if q.isEmpty = true then _ else _ : State) = s
  have hd : s.dest = (run es).dest := by
    rw [← hs]; cases q <;> cases sv <;> rfl
  have hf : s.dest.find? (·.corr == c) = some e := by
    rw [hd]
    cases hf : (run es).dest.find? (·.corr == c) with
    | none => have := List.find?_eq_none.mp hf e he; simp [hc] at this
    | some e' =>
      have h1 := List.mem_of_find?_eq_some hf
      have h2 := List.find?_some hf
      rw [hu e' h1 (by simpa using h2)]
  simp [takeDest, hf]

/-- A connection that the other domain wants to close, or that is removed, offers nothing. -/
theorem c98_withdrawn (es : List Event) (d : Nat) (ok : Bool) (ha : (run es).dead = false) :
    offers d (run (es ++ [.rDisconnect d ok])).log = false ∧ offers d (run (es ++ [.remove d])).log = false := by
  have key : connected d (run es) = false → offers d (run es).log = false := by
    intro h
    cases ho : offers d (run es).log with
    | false => rfl
    | true => have := c98_gone es d ho; rw [← liveOk_run es d, h] at this; cases this
  rw [run_snoc, run_snoc]; unfold step; rw [if_neg (by simp [ha]), if_neg (by simp [ha])]
  simp only [apply, on]
  cases hc : connected d (run es) with
  | false => simpa using key hc
  | true =>
    have h1 : ∀ b, (disconnect d b (run es)).log = .unadvertised d :: (run es).log := by
      intro b; simp [disconnect, unadvertise, hc]
    have h2 : ∀ b, connected d (disconnect d b (run es)) = true := by
      intro b; rw [disconnect_connected]; exact hc
    simp only [if_true]
    constructor
    · unfold send
      rw [if_pos (h2 _)]
      split
      · simp [offers, h1]
      · show offers d (_ :: _) = false
        simp only [offers]
        rw [view_lost (offers_neutral d) (h2 _)]
        simp [offers]
    · simp [offers, h1]

/-- Nothing is offered when the process is told to shut down. -/
theorem c98_shutdown (es : List Event) (d : Nat) (ha : (run es).dead = false) :
    offers d (run (es ++ [.shutdown])).log = false := by
  rw [run_snoc]; unfold step; rw [if_neg (by simp [ha])]
  simp only [apply, shutdown]
  rw [view_force (offers_neutral d)]
  have key : ∀ (xs : List Nat) (s : State), (∀ x ∈ xs, connected x s = true) →
      (offers d s.log = false ∨ d ∈ xs) →
      offers d (xs.foldl (fun s d => disconnect d true s) s).log = false := by
    intro xs
    induction xs with
    | nil => intro s _ h; simpa using h
    | cons x xs ih =>
      intro s hx h
      rw [List.foldl_cons]
      have hcx := hx x (List.mem_cons_self ..)
      have e : (disconnect x true s).log = .unadvertised x :: s.log := by simp [disconnect, unadvertise, hcx]
      refine ih _ (fun y hy => by rw [disconnect_connected]; exact hx y (List.mem_cons_of_mem _ hy)) ?_
      rw [e]
      by_cases hd : d = x
      · subst hd; left; simp [offers]
      · rcases h with h | h
        · left; simp [offers, h]
        · right; simpa [hd] using h
  refine key _ _ (fun x hx => conns_connected (s := run es) x hx) ?_
  cases ho : offers d (run es).log with
  | false => exact Or.inl rfl
  | true =>
    right
    have := c98_gone es d ho
    rw [← liveOk_run es d] at this
    obtain ⟨x, hx, hxd⟩ := List.any_eq_true.mp this
    exact List.mem_map.mpr ⟨x, hx, by simpa using hxd⟩

/-- A service that the other domain no longer has is withdrawn when a call to it has been answered so. -/
theorem c98_no_entry_partial (es : List Event) (hb : ∀ e ∈ es, brokenSend e = false) (d c ipc : Nat) (r : Rep)
    (hr : r.code = noEntry) :
    ∃ p, (run (es ++ [.rCall d c r])).log = p ++ (run es).log ∧
      (.reply ipc c .call r ∈ p → ∃ d' sv g, .unadvertisedOne d' sv ∈ p ∧ .req d' c ipc .call g ∈ (run es).log) := by
  rw [run_snoc]; unfold step; split
  · exact ⟨[], rfl, by simp⟩
  simp only [apply, on]
  split
  · have hok := ok_run es hb
    unfold dispatch
    split
    · exact ⟨[.got d c .call r], rfl, by simp⟩
    · rename_i i hi
      split
      · exact ⟨[.got d c .call r], rfl, by simp⟩
      · rename_i t ht
        have htm : t ∈ (run es).tasks := List.mem_of_getElem? ht
        have htc : t.corr = c := by
          obtain ⟨hlt, hp, _⟩ := List.findIdx?_eq_some_iff_getElem.mp hi
          have : (emit (.got d c .call r) (run es)).tasks[i] = t := by
            have := List.getElem?_eq_getElem hlt; rw [this] at ht; exact Option.some.inj ht
          rw [this] at hp; simpa using hp
        have hk := hok.1.keys t htm
        obtain ⟨g, hq, _⟩ := hok.1.asked t htm
        by_cases hkind : t.kind = .call
        · have e : ∃ m, (onReply .call r t (emit (.got d c .call r) (run es))).1.log =
              m ++ [.unadvertisedOne t.key t.service, .reply t.ipc t.corr .call r, .got d c .call r] ++ (run es).log ∧
              ∀ o ∈ m, ∃ x, o = .metrics x := by
            simp only [onReply, hkind, if_true, hr, emit_connected, hk]
            rcases metric_log t.corr .call (emit (.unadvertisedOne t.key t.service)
              (emit (.reply t.ipc t.corr .call r) (emit (.got d c .call r) (run es)))) with h | ⟨m, h⟩
            · exact ⟨[], by rw [h]; rfl, by simp⟩
            · exact ⟨[.metrics m], by rw [h]; rfl, by simp⟩
          obtain ⟨m, e, em⟩ := e
          refine ⟨m ++ [.unadvertisedOne t.key t.service, .reply t.ipc t.corr .call r, .got d c .call r], ?_, ?_⟩
          · dsimp only; split
            · split <;> exact e
            · exact e
          · intro hm
            have hipc : t.ipc = ipc := by
              rw [List.mem_append] at hm
              rcases hm with hm | hm
              · obtain ⟨x, hx⟩ := em _ hm; cases hx
              · simp at hm; exact hm.1.symm
            refine ⟨t.key, t.service, g, by simp, ?_⟩
            rw [hkind, htc, hipc] at hq; exact hq
        · refine ⟨[.got d c .call r], ?_, by simp⟩
          simp [onReply, hkind]
  · exact ⟨[], rfl, by simp⟩

example : leaving 1 (run [.connect 1 true, .rDisconnect 1 true]).log = true ∧
    .reply 9 12 .discovery ⟨0, 0⟩ ∈ (run [.connect 1 true, .rDisconnect 1 true, .discover 1 12 9 true]).log := by decide +kernel

example : .unadvertisedOne 1 3 ∈ (run [.connect 1 true, .call 1 10 7 3 none true, .rCall 1 10 ⟨noEntry, 0⟩]).log := by decide +kernel

example : offers 1 (run [.connect 1 true, .discover 1 12 9 true, .rDiscover 1 12 [(3, 0)] [] ⟨0, 0⟩]).log = true ∧
    offers 1 (run [.connect 1 true, .discover 1 12 9 true, .rDiscover 1 12 [(3, 0)] [] ⟨0, 0⟩, .shutdown]).log = false := by decide +kernel

end Casual.Gateway.Out
