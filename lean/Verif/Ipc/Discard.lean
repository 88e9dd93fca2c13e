import Verif.Ipc.Props
/-! # C66: a message that is discarded is not received -/
namespace Casual.Ipc

/-- What has the correlation has the key `k`. -/
abbrev Sole (k k' : Nat × Nat) : Prop := k'.2 = k.2 → k' = k

/-- Of two messages with the correlation the first is complete. -/
abbrev Follows (k : Nat × Nat) (x y : Complete) : Prop := x.corr = k.2 → y.corr = k.2 → x.complete = true

/-- All keys around. -/
structure Keyed (k : Nat × Nat) (d : Dev) (fut : List Frag) : Prop where
  cache : ∀ x ∈ d.cache, Sole k x.key
  wire : ∀ f ∈ d.wire ++ fut, Sole k f.key
  ord : d.cache.Pairwise (Follows k)

/-- What receiving a datagram changes: one message. -/
theorem recv_shape {cache : List Complete} {f : Frag} {c' : List Complete} {i : Nat} (h : recv cache f = some (c', i)) :
    ∃ y, c'[i]? = some y ∧ y.key = f.key ∧ ∃ a b, c' = a ++ y :: b ∧ a.length = i ∧ (∀ x ∈ a, x ∈ cache) ∧ ∀ x ∈ b, x ∈ cache := by
  rcases takes_cases f cache with hf | ⟨a, x, b, rfl, hf, hx⟩
  · rw [recv_new hf] at h
    cases hs : f.start with
    | none => rw [hs] at h; cases h
    | some y =>
      rw [hs] at h
      simp only [Option.map_some, Option.some.injEq, Prod.mk.injEq] at h
      obtain ⟨rfl, rfl⟩ := h
      exact ⟨y, by simp, start_key hs, cache, [], rfl, rfl, fun x hx => hx, fun x hx => by cases hx⟩
  · rw [recv_mid hf hx] at h
    cases hs : x.add f with
    | none => rw [hs] at h; cases h
    | some y =>
      rw [hs] at h
      simp only [Option.map_some, Option.some.injEq, Prod.mk.injEq] at h
      obtain ⟨rfl, rfl⟩ := h
      refine ⟨y, by simp, ?_, a, b, rfl, rfl, fun z hz => by simp [hz], fun z hz => by simp [hz]⟩
      rw [add_key hs]; exact (takes_iff.mp hx).2

theorem recv_ord {k : Nat × Nat} {cache : List Complete} {f : Frag} {c' : List Complete} {i : Nat} (h : recv cache f = some (c', i))
    (hc : ∀ x ∈ cache, Sole k x.key) (hf : Sole k f.key) (ho : cache.Pairwise (Follows k)) : c'.Pairwise (Follows k) := by
  have hfree : ∀ a : List Complete, Free f.key a → (∀ x ∈ a, x ∈ cache) → ∀ x ∈ a, ∀ y : Complete, y.key = f.key → Follows k x y := by
    intro a ha hsub x hx y hy h1 h2
    cases hxc : x.complete with
    | true => rfl
    | false =>
      refine absurd ?_ (ha x hx hxc)
      rw [hc x (hsub x hx) h1, hf (by rw [← hy]; exact h2)]
  rcases takes_cases f cache with hfr | ⟨a, x, b, rfl, hfr, hx⟩
  · rw [recv_new hfr] at h
    cases hs : f.start with
    | none => rw [hs] at h; cases h
    | some y =>
      rw [hs] at h
      simp only [Option.map_some, Option.some.injEq, Prod.mk.injEq] at h
      obtain ⟨rfl, rfl⟩ := h
      rw [List.pairwise_append]
      refine ⟨ho, by simp, fun u hu v hv => ?_⟩
      simp only [List.mem_singleton] at hv
      subst hv
      exact hfree _ hfr (fun x hx => hx) u hu v (start_key hs)
  · rw [recv_mid hfr hx] at h
    cases hs : x.add f with
    | none => rw [hs] at h; cases h
    | some y =>
      rw [hs] at h
      simp only [Option.map_some, Option.some.injEq, Prod.mk.injEq] at h
      obtain ⟨rfl, rfl⟩ := h
      rw [List.pairwise_append, List.pairwise_cons] at ho ⊢
      obtain ⟨o1, ⟨o2, o3⟩, o4⟩ := ho
      have hyk : y.key = x.key := add_key hs
      refine ⟨o1, ⟨fun u hu h1 h2 => ?_, o3⟩, fun u hu v hv => ?_⟩
      · have := o2 u hu (by rw [← h1]; exact (congrArg Prod.snd hyk).symm) h2
        rw [(takes_iff.mp hx).1] at this; cases this
      · rcases List.mem_cons.mp hv with rfl | hv
        · exact hfree _ hfr (fun x hx => by simp [hx]) u hu v (by rw [hyk]; exact (takes_iff.mp hx).2)
        · exact o4 u hu v (by simp [hv])

theorem Keyed.look {P fut p} : ∀ {w cache disc}, Keyed P ⟨w, cache, disc⟩ fut → Keyed P (Ipc.look p cache disc w).1 fut
  | [], cache, disc, h => h
  | f :: w, cache, disc, h => by
    unfold Ipc.look
    split
    · exact h
    · cases hr : Ipc.recv cache f with
      | none => exact ⟨h.cache, fun f' hf' => h.wire f' (List.mem_cons_of_mem f hf'), h.ord⟩
      | some ci =>
        obtain ⟨c, i⟩ := ci
        dsimp only
        obtain ⟨y, -, hyk, a, b, rfl, -, ha, hb⟩ := recv_shape hr
        have hord := recv_ord hr h.cache (h.wire f (by simp)) h.ord
        have hc : ∀ x ∈ a ++ y :: b, Sole P x.key := by
          intro x hx
          rcases List.mem_append.mp hx with hx | hx
          · exact h.cache x (ha x hx)
          · rcases List.mem_cons.mp hx with rfl | hx
            · rw [hyk]; exact h.wire f (by simp)
            · exact h.cache x (hb x hx)
        have hw : ∀ f' ∈ w ++ fut, Sole P f'.key := fun f' hf' => h.wire f' (List.mem_cons_of_mem f hf')
        rcases dropAt_cases (c := a ++ y :: b) (disc := disc) (i := i) with hd | ⟨a', x, b', hc', hx, hin, hd⟩
        · rw [hd]; exact Keyed.look ⟨hc, hw, hord⟩
        · rw [hd]
          have hord' : (a' ++ b').Pairwise (Follows P) := by
            rw [hc'] at hord
            exact hord.sublist (List.Sublist.append_left (List.sublist_cons_self _ _) _)
          refine Keyed.look ⟨fun z hz => hc z ?_, hw, hord'⟩
          rw [hc']
          rcases List.mem_append.mp hz with hz | hz
          · simp [hz]
          · simp [hz]

theorem Keyed.select {P d fut p} (h : Keyed P d fut) : Keyed P (d.select p).1 fut := by
  have h2 := Keyed.look (p := fun c => c.complete && p c.type c.corr) (h : Keyed P ⟨d.wire, d.cache, d.discarded⟩ fut)
  unfold Dev.select
  dsimp only
  generalize Ipc.look (fun c => c.complete && p c.type c.corr) d.cache d.discarded d.wire = r at h2
  obtain ⟨d', b⟩ := r
  dsimp only at h2
  cases b with
  | false => exact h2
  | true =>
    dsimp only
    cases hf : d'.cache.find? fun c => c.complete && p c.type c.corr with
    | none => exact h2
    | some x => exact ⟨fun y hy => h2.cache y (List.mem_of_mem_eraseP hy), h2.wire, h2.ord.sublist List.eraseP_sublist⟩

theorem Keyed.flush {P fut} : ∀ (n : Nat) {d : Dev}, Keyed P d fut → Keyed P (d.flush n).1 fut
  | 0, d, h => h
  | n + 1, d, h => by
    have h2 := Keyed.select (p := fun t _ => t == flushType) h
    unfold Dev.flush
    generalize d.select (fun t _ => t == flushType) = r at h2
    obtain ⟨d', g⟩ := r
    cases g with
    | exception => exact h2
    | nothing => exact h2
    | message m => exact Keyed.flush n h2

theorem Keyed.op {P d o os} (h : Keyed P d (arrivals (o :: os))) (hp : ∀ m, o = .push m → m.corr ≠ P.2) : Keyed P (d.op o).1 (arrivals os) := by
  cases o with
  | arrive f => exact ⟨h.cache, fun f' hf' => h.wire f' (by simpa [arrivals, Dev.op] using hf'), h.ord⟩
  | select p => exact Keyed.select h
  | discard c =>
    have h2 := Keyed.flush 20 (h : Keyed P d (arrivals os))
    show Keyed P (d.discard c).1 _
    unfold Dev.discard
    generalize d.flush 20 = r at h2
    obtain ⟨d', b⟩ := r
    dsimp only at h2
    cases b with
    | false => exact h2
    | true =>
      dsimp only
      cases hfd : d'.cache.find? fun x => x.corr == c with
      | none => exact ⟨h2.cache, h2.wire, h2.ord⟩
      | some x =>
        dsimp only
        cases hx : x.complete with
        | false => exact ⟨h2.cache, h2.wire, h2.ord⟩
        | true => exact ⟨fun y hy => h2.cache y (List.mem_of_mem_eraseP hy), h2.wire, h2.ord.sublist List.eraseP_sublist⟩
  | push m =>
    have h2 := Keyed.flush 1 (h : Keyed P d (arrivals os))
    show Keyed P (d.push m).1 _
    unfold Dev.push
    generalize d.flush 1 = r at h2
    obtain ⟨d', b⟩ := r
    dsimp only at h2
    cases b with
    | false => exact h2
    | true =>
      refine ⟨fun x hx => ?_, h2.wire, ?_⟩
      · rcases List.mem_append.mp hx with hx | hx
        · exact h2.cache x hx
        · simp only [List.mem_singleton] at hx
          subst hx
          exact fun e => absurd e (hp m rfl)
      · rw [List.pairwise_append]
        refine ⟨h2.ord, by simp, fun u hu v hv _ e => ?_⟩
        simp only [List.mem_singleton] at hv
        subst hv
        exact absurd e (hp m rfl)

theorem arrivals_append (a b : List Op) : arrivals (a ++ b) = arrivals a ++ arrivals b := by
  induction a with
  | nil => rfl
  | cons o a ih => cases o <;> simp [arrivals, ih]

theorem Keyed.run {P} : ∀ {os : List Op} {d fut}, Keyed P d (arrivals os ++ fut) → (∀ m, .push m ∈ os → m.corr ≠ P.2) → Keyed P (d.run os).1 fut
  | [], d, fut, h, _ => h
  | o :: os, d, fut, h, hp => by
    refine Keyed.run (os := os) ?_ (fun m hm => hp m (by simp [hm]))
    have h' : Keyed P d (arrivals (o :: (os ++ fut.map Op.arrive))) := by
      have : arrivals (o :: (os ++ fut.map Op.arrive)) = arrivals (o :: os) ++ fut := by
        rw [← List.cons_append, arrivals_append]
        congr 1
        clear h
        induction fut with
        | nil => rfl
        | cons f fut ih => simp [arrivals, ih]
      rw [this]; exact h
    have := Keyed.op h' (fun m hm => hp m (by simp [hm]))
    have e : arrivals (os ++ fut.map Op.arrive) = arrivals os ++ fut := by
      rw [arrivals_append]
      congr 1
      clear h h' this
      induction fut with
      | nil => rfl
      | cons f fut ih => simp [arrivals, ih]
    rwa [e] at this

/-- After a `discard`. -/
structure DS (S : Nat → Nat × Nat → Bool) (k : Nat × Nat) (d : Dev) (fut : List Frag) : Prop where
  each : ∀ f ∈ d.wire ++ fut, ∃ s, S s f.key = true
  fam : ∀ s, ∃ T, Good (S s) d.cache (d.wire ++ fut) T
  keyed : Keyed k d fut
  none_ : ∀ x ∈ d.cache, x.corr = k.2 → x.complete = false
  one : ∃ T, Good (fun k' => k' == k) d.cache (d.wire ++ fut) T ∧ T.length ≤ 1 ∧ (k.2 ∉ d.discarded → T = [])

/-- A message of another correlation is taken away. -/
theorem DS.remove {S k d fut a x b} (h : DS S k d fut) (hc : d.cache = a ++ x :: b) (hx : x.complete = true) (disc : List Nat) (hd : k.2 ∉ disc → k.2 ∉ d.discarded) :
    DS S k { d with cache := a ++ b, discarded := disc } fut := by
  have hsub : ∀ y ∈ a ++ b, y ∈ d.cache := fun y hy => by
    rw [hc]; rcases List.mem_append.mp hy with hy | hy
    · simp [hy]
    · simp [hy]
  have hxk : (x.key == k) = false := by
    cases hk : x.key == k with
    | false => rfl
    | true =>
      have := h.none_ x (by rw [hc]; simp) (by simp only [beq_iff_eq] at hk; rw [← hk]; rfl)
      rw [hx] at this; cases this
  obtain ⟨T, h1, h2, h3⟩ := h.one
  rw [hc] at h1
  obtain ⟨T', g1, g2, -⟩ := h1.remove hx
  rw [g2 hxk] at g1
  refine ⟨h.each, fun s => ?_, ⟨fun y hy => h.keyed.cache y (hsub y hy), h.keyed.wire, h.keyed.ord.sublist (by rw [hc]; exact List.Sublist.append_left (List.sublist_cons_self _ _) _)⟩, fun y hy => h.none_ y (hsub y hy), T, g1, h2, fun hn => h3 (hd hn)⟩
  obtain ⟨Ts, hs⟩ := h.fam s
  rw [hc] at hs
  obtain ⟨T'', h4, -⟩ := hs.remove hx
  exact ⟨T'', h4⟩

theorem DS.look {S k fut p} : ∀ {w cache disc}, DS S k ⟨w, cache, disc⟩ fut →
    (Ipc.look p cache disc w).2 = true ∧ DS S k (Ipc.look p cache disc w).1 fut
  | [], cache, disc, h => ⟨rfl, h⟩
  | f :: w, cache, disc, h => by
    unfold Ipc.look
    split
    · exact ⟨rfl, h⟩
    · have hok : Ipc.recv cache f ≠ none := by
        obtain ⟨s, hs⟩ := h.each f (by simp)
        obtain ⟨T', hT⟩ := h.fam s
        exact Good.ok (fr := w ++ fut) hT hs
      cases hr : Ipc.recv cache f with
      | none => exact absurd hr hok
      | some ci =>
        obtain ⟨c, i⟩ := ci
        dsimp only
        obtain ⟨y, hy, hyk, a, b, rfl, hai, ha, hb⟩ := recv_shape hr
        have hord := recv_ord hr h.keyed.cache (h.keyed.wire f (by simp)) h.keyed.ord
        obtain ⟨T, h1, h2, h3⟩ := h.one
        have h1' : Good (fun k' => k' == k) (a ++ y :: b) (w ++ fut) T := Good.recv (fr := w ++ fut) h1 hr
        have hfam : ∀ s, ∃ T, Good (S s) (a ++ y :: b) (w ++ fut) T := fun s => by
          obtain ⟨T', hT⟩ := h.fam s
          exact ⟨T', Good.recv (fr := w ++ fut) hT hr⟩
        have heach : ∀ f' ∈ w ++ fut, ∃ s, S s f'.key = true := fun f' hf' => h.each f' (List.mem_cons_of_mem f hf')
        have hkw : ∀ f' ∈ w ++ fut, f'.key.2 = k.2 → f'.key = k := fun f' hf' => h.keyed.wire f' (List.mem_cons_of_mem f hf')
        have hyk' : y.key.2 = k.2 → y.key = k := by rw [hyk]; exact h.keyed.wire f (by simp)
        have hkc : ∀ x ∈ a ++ y :: b, x.key.2 = k.2 → x.key = k := by
          intro x hx
          rcases List.mem_append.mp hx with hx | hx
          · exact h.keyed.cache x (ha x hx)
          · rcases List.mem_cons.mp hx with rfl | hx
            · exact hyk'
            · exact h.keyed.cache x (hb x hx)
        by_cases hcase : y.corr = k.2 ∧ y.complete = true
        · obtain ⟨hyc, hyco⟩ := hcase
          obtain ⟨T', g1, -, g3⟩ := h1'.remove hyco
          have hT : T = y.msg :: T' := g3 (by simp [hyk' hyc]) (fun z hz hzk => by
            refine h.none_ z (ha z hz) ?_
            simp only [beq_iff_eq] at hzk
            rw [← hzk]; rfl)
          have hT' : T' = [] := by
            rw [hT] at h2
            simp only [List.length_cons] at h2
            exact List.length_eq_zero_iff.mp (by omega)
          subst hT'
          have hin : y.corr ∈ disc := by
            refine Classical.byContradiction fun hn => ?_
            rw [hyc] at hn
            have := h3 hn
            rw [hT] at this; cases this
          have hd : dropAt (a ++ y :: b) disc i = (a ++ b, disc.erase y.corr) := by
            unfold dropAt
            rw [hy]
            dsimp only
            rw [if_pos ⟨hin, hyco⟩, ← hai]
            rw [List.eraseIdx_append_of_length_le (Nat.le_refl _)]
            simp
          rw [hd]
          have hsub : ∀ x ∈ a ++ b, x ∈ cache := fun x hx => by
            rcases List.mem_append.mp hx with hx | hx
            · exact ha x hx
            · exact hb x hx
          refine DS.look ⟨heach, fun s => ?_, ⟨fun x hx => h.keyed.cache x (hsub x hx), hkw, hord.sublist (List.Sublist.append_left (List.sublist_cons_self _ _) _)⟩, fun x hx => h.none_ x (hsub x hx), [], g1, by simp, fun _ => rfl⟩
          obtain ⟨Ts, hs⟩ := hfam s
          obtain ⟨T'', h4, -⟩ := hs.remove hyco
          exact ⟨T'', h4⟩
        · have hDS : DS S k ⟨w, a ++ y :: b, disc⟩ fut := by
            refine ⟨heach, hfam, ⟨hkc, hkw, hord⟩, fun x hx hxc => ?_, T, h1', h2, h3⟩
            rcases List.mem_append.mp hx with hx | hx
            · exact h.none_ x (ha x hx) hxc
            · rcases List.mem_cons.mp hx with rfl | hx
              · cases hco : x.complete with
                | false => rfl
                | true => exact absurd ⟨hxc, hco⟩ hcase
              · exact h.none_ x (hb x hx) hxc
          rcases dropAt_cases (c := a ++ y :: b) (disc := disc) (i := i) with hd | ⟨a', x, b', hc', hx, hin, hd⟩
          · rw [hd]; exact DS.look hDS
          · rw [hd]
            refine DS.look (hDS.remove hc' hx (disc.erase x.corr) fun hn hin' => hn ?_)
            refine (List.mem_erase_of_ne fun e => ?_).mpr hin'
            have := hDS.none_ x (by rw [show (Dev.mk w (a ++ y :: b) disc).cache = a ++ y :: b from rfl, hc']; simp) e.symm
            rw [hx] at this; cases this

theorem DS.select {S k d fut p} (h : DS S k d fut) :
    (d.select p).2 ≠ .exception ∧ DS S k (d.select p).1 fut ∧ ∀ m, (d.select p).2 = .message m → m.corr ≠ k.2 := by
  obtain ⟨h1, h2⟩ := DS.look (p := fun c => c.complete && p c.type c.corr) (h : DS S k ⟨d.wire, d.cache, d.discarded⟩ fut)
  unfold Dev.select
  dsimp only
  generalize hl : Ipc.look (fun c => c.complete && p c.type c.corr) d.cache d.discarded d.wire = r at h1 h2
  obtain ⟨d', b⟩ := r
  dsimp only at h1 h2
  subst h1
  dsimp only
  cases hf : d'.cache.find? fun c => c.complete && p c.type c.corr with
  | none => exact ⟨by simp, h2, fun m hm => by cases hm⟩
  | some x =>
    obtain ⟨a, b, hc, hx, ha, he⟩ := eraseP_cases hf
    dsimp only
    rw [he]
    have hx' : x.complete = true := by simp only [Bool.and_eq_true] at hx; exact hx.1
    refine ⟨by simp, h2.remove hc hx' d'.discarded id, fun m hm hmk => ?_⟩
    cases hm
    have := h2.none_ x (by rw [hc]; simp) hmk
    rw [hx'] at this; cases this

theorem DS.flush {S k fut} : ∀ (n : Nat) {d : Dev}, DS S k d fut → (d.flush n).2 = true ∧ DS S k (d.flush n).1 fut
  | 0, d, h => ⟨rfl, h⟩
  | n + 1, d, h => by
    obtain ⟨h1, h2, -⟩ := DS.select (p := fun t _ => t == flushType) h
    unfold Dev.flush
    generalize d.select (fun t _ => t == flushType) = r at h1 h2
    obtain ⟨d', g⟩ := r
    cases g with
    | exception => exact absurd rfl h1
    | nothing => exact ⟨rfl, h2⟩
    | message m => exact DS.flush n h2

theorem DS.op {S k d o os} (h : DS S k d (arrivals (o :: os))) (hp : ∀ m, o = .push m → m.corr ≠ k.2 ∧ ∀ s, S s m.key = false) :
    (d.op o).2 ≠ .exception ∧ DS S k (d.op o).1 (arrivals os) ∧ ∀ m, (d.op o).2 = .message m → m.corr ≠ k.2 := by
  cases o with
  | arrive f =>
    have he : d.wire ++ arrivals (.arrive f :: os) = (d.wire ++ [f]) ++ arrivals os := by simp [arrivals]
    obtain ⟨h1, h2, ⟨h3, h3', h3''⟩, h4, h5⟩ := h
    rw [he] at h1 h3' h5
    refine ⟨by simp [Dev.op], ⟨h1, fun s => ?_, ⟨h3, h3', h3''⟩, h4, h5⟩, fun m hm => by cases hm⟩
    obtain ⟨T', hT⟩ := h2 s; rw [he] at hT; exact ⟨T', hT⟩
  | select p => exact DS.select h
  | discard c =>
    obtain ⟨h1, h2⟩ := DS.flush 20 (h : DS S k d (arrivals os))
    show (d.discard c).2 ≠ .exception ∧ DS S k (d.discard c).1 _ ∧ _
    have hno : ∀ m, (d.discard c).2 = .message m → m.corr ≠ k.2 := by
      intro m hm
      unfold Dev.discard at hm
      split at hm
      · cases hm
      · split at hm
        · split at hm <;> cases hm
        · cases hm
    refine ⟨?_, ?_, hno⟩
    · unfold Dev.discard
      generalize d.flush 20 = r at h1 h2
      obtain ⟨d', b⟩ := r
      dsimp only at h1
      subst h1
      dsimp only
      split
      · split <;> simp
      · simp
    · unfold Dev.discard
      generalize d.flush 20 = r at h1 h2
      obtain ⟨d', b⟩ := r
      dsimp only at h1 h2
      subst h1
      dsimp only
      have hadd : DS S k { d' with discarded := if c ∈ d'.discarded then d'.discarded else d'.discarded ++ [c] } (arrivals os) := by
        obtain ⟨T, g1, g2, g3⟩ := h2.one
        refine ⟨h2.each, h2.fam, ⟨h2.keyed.cache, h2.keyed.wire, h2.keyed.ord⟩, h2.none_, T, g1, g2, fun hn => g3 fun hin => hn ?_⟩
        dsimp only
        split
        · exact hin
        · exact List.mem_append.mpr (.inl hin)
      cases hfd : d'.cache.find? fun x => x.corr == c with
      | none => exact hadd
      | some x =>
        dsimp only
        cases hx : x.complete with
        | false => exact hadd
        | true =>
          obtain ⟨a, b, hc, hxc, -, her⟩ := eraseP_cases hfd
          simp only [if_true]
          rw [her]
          exact h2.remove hc hx d'.discarded id
  | push m =>
    obtain ⟨h1, h2⟩ := DS.flush 1 (h : DS S k d (arrivals os))
    show (d.push m).2 ≠ .exception ∧ DS S k (d.push m).1 _ ∧ _
    unfold Dev.push
    generalize d.flush 1 = r at h1 h2
    obtain ⟨d', b⟩ := r
    dsimp only at h1 h2
    subst h1
    dsimp only
    obtain ⟨hk, hs⟩ := hp m rfl
    obtain ⟨T, g1, g2, g3⟩ := h2.one
    refine ⟨by simp, ⟨h2.each, fun s => ?_, ⟨fun x hx => ?_, h2.keyed.wire, ?_⟩, fun x hx hxc => ?_, T, g1.push ?_, g2, g3⟩, fun m' hm => ?_⟩
    · obtain ⟨T', hT⟩ := h2.fam s
      exact ⟨T', hT.push (hs s)⟩
    · rcases List.mem_append.mp hx with hx | hx
      · exact h2.keyed.cache x hx
      · simp only [List.mem_singleton] at hx
        subst hx
        exact fun e => absurd e hk
    · rw [List.pairwise_append]
      refine ⟨h2.keyed.ord, by simp, fun u hu v hv _ e => ?_⟩
      simp only [List.mem_singleton] at hv
      subst hv
      exact absurd e hk
    · rcases List.mem_append.mp hx with hx | hx
      · exact h2.none_ x hx hxc
      · simp only [List.mem_singleton] at hx
        subst hx
        exact absurd hxc hk
    · cases he : m.key == k with
      | false => rfl
      | true => simp only [beq_iff_eq] at he; exact absurd (by rw [← he]; rfl) hk
    · have hx : (d.push m).2 = .message m' := hm
      unfold Dev.push at hx
      split at hx <;> cases hx

theorem DS.run {S k} : ∀ {os : List Op} {d}, DS S k d (arrivals os) → (∀ m, .push m ∈ os → m.corr ≠ k.2 ∧ ∀ s, S s m.key = false) →
    ∀ m ∈ received (d.run os).2, m.corr ≠ k.2
  | [], d, _, _, m, hm => by cases hm
  | o :: os, d, h, hp, m, hm => by
    obtain ⟨-, h2, h3⟩ := DS.op h (fun m hm => hp m (by simp [hm]))
    have hm : m ∈ received ((d.op o).2 :: ((d.op o).1.run os).2) := hm
    rw [received_cons] at hm
    rcases List.mem_append.mp hm with hm | hm
    · cases hg : (d.op o).2 with
      | nothing => rw [hg] at hm; cases hm
      | exception => rw [hg] at hm; cases hm
      | message m' =>
        rw [hg] at hm
        simp only [received, List.mem_singleton] at hm
        subst hm
        exact h3 m hg
    · exact DS.run h2 (fun m hm => hp m (by simp [hm])) m hm

theorem run_append (d : Dev) (a b : List Op) : (d.run (a ++ b)).2 = (d.run a).2 ++ ((d.run a).1.run b).2 ∧ (d.run (a ++ b)).1 = ((d.run a).1.run b).1 := by
  induction a generalizing d with
  | nil => exact ⟨rfl, rfl⟩
  | cons o a ih =>
    obtain ⟨h1, h2⟩ := ih (d.op o).1
    exact ⟨congrArg (List.cons (d.op o).2) h1, h2⟩

theorem filter_sub {A : Type} {p q : A → Bool} (h : ∀ a, p a = true → q a = true) : ∀ l : List A, (l.filter p).Sublist (l.filter q)
  | [] => List.Sublist.refl _
  | a :: l => by
    cases hp : p a with
    | true => rw [List.filter_cons_of_pos hp, List.filter_cons_of_pos (h a hp)]; exact (filter_sub h l).cons_cons a
    | false =>
      rw [List.filter_cons_of_neg (by simp [hp])]
      cases hq : q a with
      | true => rw [List.filter_cons_of_pos hq]; exact (filter_sub h l).cons a
      | false => rw [List.filter_cons_of_neg (by simp [hq])]; exact filter_sub h l

/-- **C66**, if there is at most one message with the correlation: after `discard` it is not received, whatever is done before and after, and whenever
its datagrams arrive. What is missing: see `C66_discard_refuted`. -/
theorem C66_discard_partial {n : Nat} (hn : 0 < n) {senders : Nat → List Item} {w : List (Nat × Frag)} {os os' : List Op} {c : Nat}
    (hp : ∀ s, Proper n (senders s)) (ha : Apart senders) (hw : Interleaves n senders w) (ho : arrivals (os ++ .discard c :: os') = w.map (·.2))
    (hf : ∀ o ∈ os ++ .discard c :: os', o.foreign senders) (hpush : ∀ m, .push m ∈ os ++ .discard c :: os' → m.corr ≠ c)
    {s : Nat} {i : Item} (hone : (senders s).filter (fun j => j.msg.corr == c) = [i]) (hothers : ∀ t, ∀ j ∈ senders t, j.msg.corr = c → t = s)
    (hs : ∀ o ∈ os, o.spares i.msg.key) (hfl : i.msg.type ≠ flushType) :
    ∀ m ∈ received ((Dev.init.run (os ++ [.discard c])).1.run os').2, m.corr ≠ c := by
  have hi : i ∈ senders s := (List.mem_filter.mp (by rw [hone]; simp)).1
  have hic : i.msg.corr = c := by simpa using (List.mem_filter.mp (by rw [hone]; simp : i ∈ (senders s).filter fun j => j.msg.corr == c)).2
  have hkey : ∀ t, ∀ j ∈ senders t, j.msg.corr = c → j = i := by
    intro t j hj hjc
    have := hothers t j hj hjc
    subst this
    have : j ∈ (senders t).filter fun j => j.msg.corr == c := List.mem_filter.mpr ⟨hj, by simpa using hjc⟩
    rw [hone] at this
    simpa using this
  -- before the discard
  have h := DI.init (K := fun k => k == i.msg.key) hn hp ha hw ho (fun k hk => ⟨i, hi, (by simpa using hk : k = i.msg.key).symm⟩)
  have hsplit : arrivals (os ++ .discard c :: os') = arrivals os ++ arrivals os' := by rw [arrivals_append]; rfl
  have hDIrun : ∀ {os1 : List Op} {d T fut}, DI (fun s => keys (senders s)) (fun k => k == i.msg.key) d (arrivals os1 ++ fut) T → (∀ o ∈ os1, o.even (fun k => k == i.msg.key)) →
      (∀ m, .push m ∈ os1 → (m.key == i.msg.key) = false ∧ ∀ s, keys (senders s) m.key = false) →
      ∃ T', DI (fun s => keys (senders s)) (fun k => k == i.msg.key) (d.run os1).1 fut T' ∧ T'.length ≤ T.length := by
    intro os1
    induction os1 with
    | nil => intro d T fut h _ _; exact ⟨T, h, Nat.le_refl _⟩
    | cons o os1 ih =>
      intro d T fut h he hf
      have earr : ∀ fut : List Frag, arrivals (fut.map Op.arrive) = fut := by
        intro fut
        induction fut with
        | nil => rfl
        | cons f fut ih => simp [arrivals, ih]
      have h' : DI (fun s => keys (senders s)) (fun k => k == i.msg.key) d (arrivals (o :: (os1 ++ fut.map Op.arrive))) T := by
        rw [← List.cons_append, arrivals_append, earr]; exact h
      obtain ⟨-, T1, h2, h3⟩ := DI.op h' (he o (by simp)) (fun m hm => hf m (by simp [hm]))
      rw [arrivals_append, earr] at h2
      obtain ⟨T2, h4, h5⟩ := ih h2 (fun o ho => he o (by simp [ho])) (fun m hm => hf m (by simp [hm]))
      refine ⟨T2, h4, ?_⟩
      rw [h3, List.length_append]; omega
  have hpush' : ∀ m, .push m ∈ os ++ .discard c :: os' → (m.key == i.msg.key) = false ∧ ∀ s, keys (senders s) m.key = false := by
    intro m hm
    have hm := hf _ hm
    refine ⟨?_, fun s => keys_false fun j hj => hm s j hj⟩
    simpa using fun e => hm s i hi e.symm
  rw [hsplit] at h
  obtain ⟨T, h1, h2⟩ := hDIrun h (fun o ho => spares_even (hs o ho)) (fun m hm => hpush' m (by simp [hm]))
  have hT1 : (only (fun k => k == i.msg.key) (whole (senders s))).length ≤ 1 := by
    have : (only (fun k => k == i.msg.key) (whole (senders s))).Sublist ((((senders s).filter fun j => j.msg.corr == c)).map (·.msg)) := by
      unfold only whole
      rw [List.filter_map, List.filter_filter]
      refine List.Sublist.map _ ?_
      apply filter_sub
      intro j hj
      simp only [Function.comp, Bool.and_eq_true, beq_iff_eq] at hj
      simp only [beq_iff_eq]
      rw [← hic]
      exact congrArg Prod.snd hj.1
    have := this.length_le
    rw [hone] at this
    simpa using this
  have hTl : T.length ≤ 1 := Nat.le_trans h2 hT1
  have hkw : Keyed i.msg.key Dev.init (arrivals os ++ arrivals os') := by
    refine ⟨fun x hx => (by cases hx), fun f hff he => ?_, by simp [Dev.init]⟩
    rw [← hsplit, ho] at hff
    obtain ⟨x, hx, rfl⟩ := List.mem_map.mp (hff : f ∈ w.map (·.2))
    obtain ⟨j, hj, hk⟩ := mem_of_interleaves hw hx
    have : j = i := hkey _ j hj (by rw [← hic]; rw [hk] at he; exact he)
    rw [hk, this]
  have hk1 := Keyed.run hkw (fun m hm e => hpush m (by simp [hm]) (by rw [← hic]; exact e))
  -- the discard
  have h3 : DS (fun s => keys (senders s)) i.msg.key (Dev.init.run (os ++ [.discard c])).1 (arrivals os') := by
    rw [(run_append _ _ _).2]
    generalize (Dev.init.run os).1 = d at *
    show DS _ _ (d.discard c).1 _
    obtain ⟨f1, f2⟩ := DI.flush (fun k hk => by simp only [beq_iff_eq] at hk; rw [hk]; exact hfl) 20 h1
    have f3 := Keyed.flush 20 hk1
    unfold Dev.discard
    generalize d.flush 20 = r at f1 f2 f3
    obtain ⟨d', b⟩ := r
    dsimp only at f1 f2 f3
    subst f1
    dsimp only
    have hck : i.msg.key.2 = c := hic
    have hadd : (∀ x ∈ d'.cache, x.corr = c → x.complete = false) →
        DS (fun s => keys (senders s)) i.msg.key { d' with discarded := if c ∈ d'.discarded then d'.discarded else d'.discarded ++ [c] } (arrivals os') := by
      intro hnone
      refine ⟨f2.each, f2.fam, ⟨f3.cache, f3.wire, f3.ord⟩, fun x hx hxc => hnone x hx (by rw [hxc]; exact hck), T, f2.main, hTl, fun hn => absurd ?_ hn⟩
      dsimp only
      rw [hck]
      split
      · assumption
      · simp
    -- a message with the correlation that is complete: it is the only one
    have hlast : ∀ a x b, d'.cache = a ++ x :: b → x.corr = c → (∀ y ∈ a, y.corr ≠ c) → x.complete = true →
        (∀ y ∈ b, y.corr = c → y.complete = false) ∧ Good (fun k' => k' == i.msg.key) (a ++ b) (d'.wire ++ arrivals os') [] := by
      intro a x b hc hxc hay hx
      have hxk : x.key = i.msg.key := f3.cache x (by rw [hc]; simp) (by rw [hck]; exact hxc)
      have hm := f2.main
      rw [hc] at hm
      obtain ⟨T', g1, -, g3⟩ := hm.remove hx
      have hT := g3 (by simp [hxk]) (fun y hy hyk => by
        refine absurd ?_ (hay y hy)
        simp only [beq_iff_eq] at hyk
        rw [← hck, ← hyk]; rfl)
      have hT' : T' = [] := by
        rw [hT] at hTl
        simp only [List.length_cons] at hTl
        exact List.length_eq_zero_iff.mp (by omega)
      subst hT'
      refine ⟨fun y hy hyc => ?_, g1⟩
      cases hyco : y.complete with
      | false => rfl
      | true =>
        exfalso
        -- take away the first complete message of `b`
        have hex : ∃ z ∈ b, (z.corr == c && z.complete) = true := ⟨y, hy, by simp [hyc, hyco]⟩
        cases hfz : b.find? fun z => z.corr == c && z.complete with
        | none => rw [List.find?_eq_none] at hfz; obtain ⟨z, hz, hz'⟩ := hex; exact hfz z hz hz'
        | some z =>
          obtain ⟨b1, b2, hb, hz, hb1, -⟩ := eraseP_cases hfz
          simp only [Bool.and_eq_true, beq_iff_eq] at hz
          rw [hb, ← List.append_assoc] at g1
          obtain ⟨T'', -, -, g4⟩ := g1.remove hz.2
          have hzk : z.key = i.msg.key := f3.cache z (by rw [hc, hb]; simp) (by rw [hck]; exact hz.1)
          have := g4 (by simp [hzk]) (fun u hu huk => by
            simp only [beq_iff_eq] at huk
            have huc : u.corr = c := by rw [← hck, ← huk]; rfl
            rcases List.mem_append.mp hu with hu | hu
            · exact absurd huc (hay u hu)
            · have := hb1 u hu
              simp only [huc, beq_self_eq_true, Bool.true_and] at this
              exact this)
          cases this
    cases hfd : d'.cache.find? fun x => x.corr == c with
    | none =>
      refine hadd fun x hx hxc => ?_
      rw [List.find?_eq_none] at hfd
      exact absurd (by simpa using hxc) (hfd x hx)
    | some x =>
      obtain ⟨a, b, hc, hxc, hay, her⟩ := eraseP_cases hfd
      have hxc : x.corr = c := by simpa using hxc
      have hay : ∀ y ∈ a, y.corr ≠ c := fun y hy => by simpa using hay y hy
      dsimp only
      cases hx : x.complete with
      | true =>
        simp only [if_true]
        rw [her]
        obtain ⟨l1, l2⟩ := hlast a x b hc hxc hay hx
        have hsub : ∀ y ∈ a ++ b, y ∈ d'.cache := fun y hy => by
          rw [hc]; rcases List.mem_append.mp hy with hy | hy
          · simp [hy]
          · simp [hy]
        refine ⟨f2.each, fun s => ?_, ⟨fun y hy => f3.cache y (hsub y hy), f3.wire, f3.ord.sublist (by rw [hc]; exact List.Sublist.append_left (List.sublist_cons_self _ _) _)⟩, fun y hy hyc => ?_, [], l2, by simp, fun _ => rfl⟩
        · obtain ⟨Ts, hs⟩ := f2.fam s
          rw [hc] at hs
          obtain ⟨T'', h4, -⟩ := hs.remove hx
          exact ⟨T'', h4⟩
        · rw [hck] at hyc
          rcases List.mem_append.mp hy with hy | hy
          · exact absurd hyc (hay y hy)
          · exact l1 y hy hyc
      | false =>
        refine hadd fun y hy hyc => ?_
        rw [hc] at hy
        rcases List.mem_append.mp hy with hy | hy
        · exact absurd hyc (hay y hy)
        · rcases List.mem_cons.mp hy with rfl | hy
          · exact hx
          · have ho := f3.ord
            rw [hc, List.pairwise_append, List.pairwise_cons] at ho
            have := ho.2.1.1 y hy (by rw [hck]; exact hxc) (by rw [hck]; exact hyc)
            rw [hx] at this; cases this
  exact fun m hm => by
    have := DS.run h3 (fun m hm => ⟨fun e => hpush m (by simp [hm]) (by rw [e]; exact hic), (hpush' m (by simp [hm])).2⟩) m hm
    rwa [show i.msg.key.2 = c from hic] at this

end Casual.Ipc
