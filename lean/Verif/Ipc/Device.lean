import Verif.Ipc.Reasm
/-! The inbound device: the messages of some keys do not notice the others. -/
namespace Casual.Ipc

theorem Free.mono {k : Nat × Nat} {c d : List Complete} (h : Free k c) (hs : ∀ x ∈ d, x ∈ c) : Free k d := fun x hx => h x (hs x hx)

theorem takes_cases (f : Frag) : ∀ c : List Complete, Free f.key c ∨ ∃ a x b, c = a ++ x :: b ∧ Free f.key a ∧ x.takes f = true
  | [] => .inl (fun x hx => by cases hx)
  | y :: c => by
    cases hy : y.takes f with
    | true => exact .inr ⟨[], y, c, rfl, (fun x hx => by cases hx), hy⟩
    | false =>
      have hny : y.complete = false → y.key ≠ f.key := fun h1 h2 => by rw [takes_iff.mpr ⟨h1, h2⟩] at hy; cases hy
      rcases takes_cases f c with h | ⟨a, x, b, rfl, h2, h3⟩
      · left
        intro x hx
        rcases List.mem_cons.mp hx with rfl | hx
        · exact hny
        · exact h x hx
      · right
        refine ⟨y :: a, x, b, rfl, ?_, h3⟩
        intro x hx
        rcases List.mem_cons.mp hx with rfl | hx
        · exact hny
        · exact h2 x hx

theorem recv_mid {f : Frag} {a b : List Complete} {x : Complete} (h : Free f.key a) (hx : x.takes f = true) :
    recv (a ++ x :: b) f = (x.add f).map fun y => (a ++ y :: b, a.length) := by
  unfold recv
  have : (a ++ x :: b).findIdx? (Complete.takes f) = some a.length := by
    rw [List.findIdx?_append, findIdx_free h]
    simp [List.findIdx?_cons, hx]
  rw [this]
  simp

theorem add_key {c y : Complete} {f : Frag} (h : c.add f = some y) : y.key = c.key := by
  unfold Complete.add at h
  split at h
  · cases h; rfl
  split at h
  · cases h
  split at h
  · cases h
  cases h; rfl

theorem start_key {y : Complete} {f : Frag} (h : f.start = some y) : y.key = f.key := add_key h

/-- The messages with some keys. -/
def sel (K : Nat × Nat → Bool) (c : List Complete) : List Complete := c.filter fun x => K x.key
def fsel (K : Nat × Nat → Bool) (w : List Frag) : List Frag := w.filter fun x => K x.key

theorem sel_append {K} (a b : List Complete) : sel K (a ++ b) = sel K a ++ sel K b := List.filter_append ..
theorem sel_cons_in {K} {x : Complete} (h : K x.key = true) (b : List Complete) : sel K (x :: b) = x :: sel K b := List.filter_cons_of_pos h
theorem sel_cons_out {K} {x : Complete} (h : K x.key = false) (b : List Complete) : sel K (x :: b) = sel K b := List.filter_cons_of_neg (by simp [h])

theorem mem_sel {K} {c : List Complete} {x : Complete} (h : x ∈ sel K c) : x ∈ c := (List.mem_filter.mp h).1

theorem recv_out {K} {c c' : List Complete} {f : Frag} {i : Nat} (h : recv c f = some (c', i)) (hk : K f.key = false) : sel K c' = sel K c := by
  rcases takes_cases f c with hf | ⟨a, x, b, rfl, hf, hx⟩
  · rw [recv_new hf] at h
    cases hs : f.start with
    | none => rw [hs] at h; cases h
    | some y =>
      rw [hs] at h
      simp only [Option.map_some, Option.some.injEq, Prod.mk.injEq] at h
      rw [← h.1, sel_append, sel_cons_out (by rw [start_key hs]; exact hk)]
      simp [sel]
  · rw [recv_mid hf hx] at h
    cases hs : x.add f with
    | none => rw [hs] at h; cases h
    | some y =>
      rw [hs] at h
      simp only [Option.map_some, Option.some.injEq, Prod.mk.injEq] at h
      have hxk : K x.key = false := by rw [(takes_iff.mp hx).2]; exact hk
      rw [← h.1, sel_append, sel_append, sel_cons_out hxk, sel_cons_out (by rw [add_key hs]; exact hxk)]

theorem recv_in {K} {c : List Complete} {f : Frag} (hk : K f.key = true) :
    (recv c f = none → recv (sel K c) f = none) ∧ ∀ c' i, recv c f = some (c', i) → ∃ i', recv (sel K c) f = some (sel K c', i') := by
  rcases takes_cases f c with hf | ⟨a, x, b, rfl, hf, hx⟩
  · rw [recv_new hf, recv_new (hf.mono fun x hx => mem_sel hx)]
    cases hs : f.start with
    | none => simp
    | some y =>
      simp only [Option.map_some, Option.some.injEq, Prod.mk.injEq, reduceCtorEq, false_implies, true_and]
      rintro c' i ⟨rfl, rfl⟩
      refine ⟨_, ?_, rfl⟩
      rw [sel_append, sel_cons_in (by rw [start_key hs]; exact hk)]; rfl
  · have hxk : K x.key = true := by rw [(takes_iff.mp hx).2]; exact hk
    rw [recv_mid hf hx, sel_append, sel_cons_in hxk, recv_mid (hf.mono fun x hx => mem_sel hx) hx]
    cases hs : x.add f with
    | none => simp
    | some y =>
      simp only [Option.map_some, Option.some.injEq, Prod.mk.injEq, reduceCtorEq, false_implies, true_and]
      rintro c' i ⟨rfl, rfl⟩
      refine ⟨_, ?_, rfl⟩
      rw [sel_append, sel_cons_in (by rw [add_key hs]; exact hxk)]

/-- A complete message can be taken away. -/
theorem Last.remove {x : Complete} (hx : x.complete = true) {a : List Complete} : ∀ {w : List Frag} {b c' : List Complete}, Last (a ++ x :: b) w c' →
    ∃ b', c' = a ++ x :: b' ∧ Last (a ++ b) w (a ++ b')
  | [], b, c', h => by cases h; exact ⟨b, rfl, .nil _⟩
  | f :: w, b, c', h => by
    cases h with
    | @cons _ _ c₁ i _ _ hr hi hl =>
      rcases takes_cases f (a ++ x :: b) with hf | ⟨a0, x0, b0, he, hf, hx0⟩
      · rw [recv_new hf] at hr
        have hf' : Free f.key (a ++ b) := hf.mono fun z hz => by
          rcases List.mem_append.mp hz with h | h
          · simp [h]
          · simp [h]
        cases hs : f.start with
        | none => rw [hs] at hr; cases hr
        | some y =>
          rw [hs] at hr
          simp only [Option.map_some, Option.some.injEq, Prod.mk.injEq] at hr
          rw [← hr.1, List.append_assoc, List.cons_append] at hl
          obtain ⟨b', h1, h2⟩ := Last.remove hx hl
          refine ⟨b', h1, .cons (c₁ := a ++ (b ++ [y])) (i := (a ++ b).length) ?_ (by simp [Nat.add_assoc]) h2⟩
          rw [recv_new hf', hs]
          simp
      · rw [he, recv_mid hf hx0] at hr
        cases hs : x0.add f with
        | none => rw [hs] at hr; cases hr
        | some y =>
          rw [hs] at hr
          simp only [Option.map_some, Option.some.injEq, Prod.mk.injEq] at hr
          have hb0 : b0 = [] := by
            rw [← hr.1, ← hr.2] at hi
            simp only [List.length_append, List.length_cons] at hi
            exact List.eq_nil_of_length_eq_zero (by omega)
          subst hb0
          have hne : x0 ≠ x := fun h => by rw [h, takes_iff, hx] at hx0; cases hx0.1
          -- the message is the last one
          obtain ⟨bb, hb, ha0⟩ : ∃ bb, b = bb ++ [x0] ∧ a0 = a ++ x :: bb := by
            rcases b.eq_nil_or_concat with rfl | ⟨bb, z, rfl⟩
            · have := List.append_inj_right' he rfl
              simp only [List.cons.injEq, and_true] at this
              exact absurd this.symm hne
            · rw [List.concat_eq_append] at he ⊢
              have he' : (a ++ x :: bb) ++ [z] = a0 ++ [x0] := by rw [← he]; simp
              have h1 := List.append_inj_right' he' rfl
              have h2 := List.append_inj_left' he' rfl
              simp only [List.cons.injEq, and_true] at h1
              exact ⟨bb, by rw [h1], h2.symm⟩
          subst hb ha0
          rw [← hr.1] at hl
          have hl : Last (a ++ x :: (bb ++ [y])) w c' := by simpa using hl
          obtain ⟨b', h1, h2⟩ := Last.remove hx hl
          refine ⟨b', h1, .cons (c₁ := a ++ (bb ++ [y])) (i := (a ++ bb).length) ?_ (by simp [Nat.add_assoc]) h2⟩
          have hf' : Free f.key (a ++ bb) := hf.mono fun z hz => by
            rcases List.mem_append.mp hz with h | h
            · simp [h]
            · simp [h]
          have := recv_mid (b := []) hf' hx0
          rw [hs] at this
          simpa using this

/-- With the datagrams to come the messages with keys `K` in the cache become `T`. -/
def Good (K : Nat × Nat → Bool) (cache : List Complete) (fr : List Frag) (T : List Msg) : Prop :=
  ∃ c, Last (sel K cache) (fsel K fr) c ∧ completed c = T

theorem Good.recv {K cache f fr T c i} (h : Good K cache (f :: fr) T) (hr : recv cache f = some (c, i)) : Good K c fr T := by
  obtain ⟨cs, hl, hT⟩ := h
  cases hk : K f.key with
  | false =>
    refine ⟨cs, ?_, hT⟩
    rw [recv_out hr hk]
    rwa [fsel, List.filter_cons_of_neg (by simp [hk])] at hl
  | true =>
    rw [fsel, List.filter_cons_of_pos (p := fun x : Frag => K x.key) hk] at hl
    obtain ⟨i', h1⟩ := (recv_in hk).2 c i hr
    cases hl with
    | cons hr' _ hl' =>
      rw [h1] at hr'
      simp only [Option.some.injEq, Prod.mk.injEq] at hr'
      rw [← hr'.1] at hl'
      exact ⟨cs, hl', hT⟩

theorem Good.ok {K cache f fr T} (h : Good K cache (f :: fr) T) (hk : K f.key = true) : Ipc.recv cache f ≠ none := by
  intro hn
  have := (recv_in hk).1 hn
  obtain ⟨cs, hl, -⟩ := h
  rw [fsel, List.filter_cons_of_pos (p := fun x : Frag => K x.key) hk] at hl
  cases hl with
  | cons hr' _ _ => rw [this] at hr'; cases hr'

/-- A complete message is taken away. -/
theorem Good.remove {K a x b fr T} (h : Good K (a ++ x :: b) fr T) (hx : x.complete = true) :
    ∃ T', Good K (a ++ b) fr T' ∧ (K x.key = false → T' = T) ∧ (K x.key = true → (∀ y ∈ a, K y.key = true → y.complete = false) → T = x.msg :: T') := by
  obtain ⟨cs, hl, hT⟩ := h
  rw [sel_append] at hl
  cases hk : K x.key with
  | false =>
    rw [sel_cons_out hk, ← sel_append] at hl
    exact ⟨T, ⟨cs, hl, hT⟩, fun _ => rfl, fun h => by cases h⟩
  | true =>
    rw [sel_cons_in hk] at hl
    obtain ⟨b', h1, h2⟩ := hl.remove hx
    rw [← sel_append] at h2
    refine ⟨_, ⟨_, h2, rfl⟩, fun h => (by cases h), fun _ ha => ?_⟩
    rw [← hT, h1, completed_append, completed_append]
    have : completed (sel K a) = [] := by
      unfold completed
      rw [List.filter_eq_nil_iff.mpr]
      · rfl
      · intro y hy
        rw [ha y (mem_sel hy) (List.mem_filter.mp hy).2]
        simp
    rw [this]
    simp [completed, hx]

theorem Good.push {K cache fr T} {m : Msg} (h : Good K cache fr T) (hm : K m.key = false) : Good K (cache ++ [m.complete]) fr T := by
  obtain ⟨cs, hl, hT⟩ := h
  refine ⟨cs, ?_, hT⟩
  rw [sel_append, sel_cons_out hm]
  simpa [sel] using hl

/-- What remains of a message that is taken away. -/
theorem dropAt_cases {c : List Complete} {disc : List Nat} {i : Nat} :
    (dropAt c disc i = (c, disc)) ∨ ∃ a x b, c = a ++ x :: b ∧ x.complete = true ∧ x.corr ∈ disc ∧ dropAt c disc i = (a ++ b, disc.erase x.corr) := by
  unfold dropAt
  cases h : c[i]? with
  | none => exact .inl rfl
  | some x =>
    dsimp only
    split
    · rename_i hc
      right
      obtain ⟨hi, hx⟩ := List.getElem?_eq_some_iff.mp h
      refine ⟨c.take i, x, c.drop (i + 1), ?_, hc.2, hc.1, ?_⟩
      · rw [← hx, ← List.drop_eq_getElem_cons hi, List.take_append_drop]
      · rw [List.eraseIdx_eq_take_drop_succ]
    · exact .inl rfl

theorem eraseP_cases {p : Complete → Bool} {c : List Complete} {x : Complete} (h : c.find? p = some x) :
    ∃ a b, c = a ++ x :: b ∧ p x = true ∧ (∀ y ∈ a, p y = false) ∧ c.eraseP p = a ++ b := by
  rw [List.find?_eq_some_iff_append] at h
  obtain ⟨h1, a, b, rfl, h3⟩ := h
  refine ⟨a, b, rfl, h1, fun y hy => by simpa using h3 y hy, ?_⟩
  rw [List.eraseP_append_right _ (fun y hy => by simpa using h3 y hy), List.eraseP_cons_of_pos h1]

end Casual.Ipc

namespace Casual.Ipc

/-- The invariant: with `fut`, the datagrams to come. -/
structure DI (S : Nat → Nat × Nat → Bool) (K : Nat × Nat → Bool) (d : Dev) (fut : List Frag) (T : List Msg) : Prop where
  each : ∀ f ∈ d.wire ++ fut, ∃ s, S s f.key = true
  fam : ∀ s, ∃ T, Good (S s) d.cache (d.wire ++ fut) T
  main : Good K d.cache (d.wire ++ fut) T
  disc : ∀ c ∈ d.discarded, ∀ k, K k = true → k.2 ≠ c

theorem DI.remove {S K d fut T a x b} (h : DI S K d fut T) (hc : d.cache = a ++ x :: b) (hx : x.complete = true) (disc : List Nat) (hd : ∀ c ∈ disc, ∀ k, K k = true → k.2 ≠ c) :
    ∃ T', DI S K { d with cache := a ++ b, discarded := disc } fut T' ∧ (K x.key = false → T' = T) ∧
      (K x.key = true → (∀ y ∈ a, K y.key = true → y.complete = false) → T = x.msg :: T') := by
  have hm := h.main
  rw [hc] at hm
  obtain ⟨T', h1, h2, h3⟩ := hm.remove hx
  refine ⟨T', ⟨h.each, fun s => ?_, h1, hd⟩, h2, h3⟩
  obtain ⟨Ts, hs⟩ := h.fam s
  rw [hc] at hs
  obtain ⟨T'', h4, -⟩ := hs.remove hx
  exact ⟨T'', h4⟩

theorem DI.look {S K fut T p} : ∀ {w cache disc}, DI S K ⟨w, cache, disc⟩ fut T →
    (Ipc.look p cache disc w).2 = true ∧ DI S K (Ipc.look p cache disc w).1 fut T ∧ ((Ipc.look p cache disc w).1.cache.any p = false → (Ipc.look p cache disc w).1.wire = [])
  | [], cache, disc, h => ⟨rfl, h, fun _ => rfl⟩
  | f :: w, cache, disc, h => by
    unfold Ipc.look
    split
    · rename_i hp
      exact ⟨rfl, h, fun h' => by rw [hp] at h'; cases h'⟩
    · have hok : Ipc.recv cache f ≠ none := by
        obtain ⟨s, hs⟩ := h.each f (by simp)
        obtain ⟨T', hT⟩ := h.fam s
        exact Good.ok (fr := w ++ fut) hT hs
      cases hr : Ipc.recv cache f with
      | none => exact absurd hr hok
      | some ci =>
        obtain ⟨c, i⟩ := ci
        dsimp only
        have h1 : DI S K ⟨w, c, disc⟩ fut T :=
          ⟨fun f' hf' => h.each f' (List.mem_cons_of_mem f hf'), fun s => by
            obtain ⟨T', hT⟩ := h.fam s
            exact ⟨T', Good.recv (fr := w ++ fut) hT hr⟩, Good.recv (fr := w ++ fut) h.main hr, h.disc⟩
        rcases dropAt_cases (c := c) (disc := disc) (i := i) with hd | ⟨a, x, b, hc, hx, hin, hd⟩
        · rw [hd]; exact DI.look h1
        · rw [hd]
          obtain ⟨T', h2, h3, -⟩ := h1.remove hc hx (disc.erase x.corr) (fun c' hc' => h.disc c' (List.mem_of_mem_erase hc'))
          have hk : K x.key = false := by
            cases hk : K x.key with
            | false => rfl
            | true => exact absurd rfl (h.disc _ hin x.key hk)
          rw [h3 hk] at h2
          exact DI.look h2

theorem DI.select {S K d fut T p} (h : DI S K d fut T) (hp : (∀ k, K k = true → p k.1 k.2 = true) ∨ (∀ k, K k = true → p k.1 k.2 = false)) :
    (d.select p).2 ≠ .exception ∧ ∃ T', DI S K (d.select p).1 fut T' ∧ T = only K (received [(d.select p).2]) ++ T' := by
  obtain ⟨h1, h2, -⟩ := DI.look (p := fun c => c.complete && p c.type c.corr) (h : DI S K ⟨d.wire, d.cache, d.discarded⟩ fut T)
  unfold Dev.select
  dsimp only
  generalize hl : Ipc.look (fun c => c.complete && p c.type c.corr) d.cache d.discarded d.wire = r at h1 h2
  obtain ⟨d', b⟩ := r
  dsimp only at h1 h2
  subst h1
  dsimp only
  cases hf : d'.cache.find? fun c => c.complete && p c.type c.corr with
  | none => exact ⟨by simp, T, h2, rfl⟩
  | some x =>
    refine ⟨by simp, ?_⟩
    obtain ⟨a, b, hc, hx, ha, he⟩ := eraseP_cases hf
    dsimp only
    rw [he]
    obtain ⟨T', h3, h4, h5⟩ := h2.remove hc (by simp at hx; exact hx.1) d'.discarded h2.disc
    refine ⟨T', h3, ?_⟩
    have hkx : x.msg.key = x.key := rfl
    simp only [received, only, List.filter_cons, List.filter_nil, hkx]
    cases hk : K x.key with
    | false => simp [h4 hk]
    | true =>
      have hpt : ∀ k, K k = true → p k.1 k.2 = true := by
        rcases hp with hp | hp
        · exact hp
        · have := hp _ hk
          simp only [Bool.and_eq_true] at hx
          rw [show x.key = (x.type, x.corr) from rfl] at this
          rw [hx.2] at this; cases this
      refine h5 hk fun y hy hky => ?_
      have := ha y hy
      have h6 := hpt _ hky
      simp only [Complete.key] at h6
      rw [h6, Bool.and_true] at this
      exact this

theorem DI.flush {S K fut T} (hK : ∀ k, K k = true → k.1 ≠ flushType) : ∀ (n : Nat) {d : Dev}, DI S K d fut T → (d.flush n).2 = true ∧ DI S K (d.flush n).1 fut T
  | 0, d, h => ⟨rfl, h⟩
  | n + 1, d, h => by
    obtain ⟨h1, T', h2, h3⟩ := DI.select (p := fun t _ => t == flushType) h (.inr fun k hk => by simp [hK k hk])
    unfold Dev.flush
    generalize hr : d.select (fun t _ => t == flushType) = r at h1 h2 h3
    obtain ⟨d', g⟩ := r
    cases g with
    | exception => exact absurd rfl h1
    | nothing => simp only [received, only, List.filter_nil, List.nil_append] at h3; rw [h3]; exact ⟨rfl, h2⟩
    | message m =>
      have hm : m.type = flushType := by
        unfold Dev.select at hr
        dsimp only at hr
        split at hr
        · cases hr
        · split at hr
          · rename_i hf
            have := List.find?_some hf
            simp only [Prod.mk.injEq, Got.message.injEq] at hr
            rw [← hr.2]
            simp only [Bool.and_eq_true, beq_iff_eq] at this
            exact this.2
          · cases hr
      have : K m.key = false := by
        cases hk : K m.key with
        | false => rfl
        | true => exact absurd hm (hK _ hk)
      simp only [received, only, List.filter_cons, this, List.filter_nil] at h3
      dsimp only
      have h3 : T = T' := by simpa using h3
      subst h3
      exact DI.flush hK n h2

theorem DI.op {S K d T o os} (h : DI S K d (arrivals (o :: os)) T) (he : o.even K) (hf : ∀ m, o = .push m → K m.key = false ∧ ∀ s, S s m.key = false) :
    (d.op o).2 ≠ .exception ∧ ∃ T', DI S K (d.op o).1 (arrivals os) T' ∧ T = only K (received [(d.op o).2]) ++ T' := by
  cases o with
  | arrive f =>
    refine ⟨by simp [Dev.op], T, ?_, rfl⟩
    have he : d.wire ++ arrivals (.arrive f :: os) = (d.wire ++ [f]) ++ arrivals os := by simp [arrivals]
    exact ⟨fun f' hf' => h.each f' (by rw [he]; exact hf'), fun s => by obtain ⟨T', hT⟩ := h.fam s; rw [he] at hT; exact ⟨T', hT⟩, by have := h.main; rw [he] at this; exact this, h.disc⟩
  | select p => exact DI.select h he
  | discard c =>
    have he : ∀ k, K k = true → k.2 ≠ c ∧ k.1 ≠ flushType := he
    obtain ⟨h1, h2⟩ := DI.flush (fun k hk => (he k hk).2) 20 (h : DI S K d (arrivals os) T)
    show (d.discard c).2 ≠ .exception ∧ ∃ T', DI S K (d.discard c).1 _ T' ∧ T = only K (received [(d.discard c).2]) ++ T'
    unfold Dev.discard
    generalize d.flush 20 = r at h1 h2
    obtain ⟨d', b⟩ := r
    dsimp only at h1 h2
    subst h1
    dsimp only
    have hdisc : ∀ c' ∈ (if c ∈ d'.discarded then d'.discarded else d'.discarded ++ [c]), ∀ k, K k = true → k.2 ≠ c' := by
      intro c' hc'
      split at hc'
      · exact h2.disc c' hc'
      · rcases List.mem_append.mp hc' with hc' | hc'
        · exact h2.disc c' hc'
        · simp only [List.mem_singleton] at hc'
          subst hc'
          exact fun k hk => (he k hk).1
    cases hfd : d'.cache.find? fun x => x.corr == c with
    | none => exact ⟨by simp, T, ⟨h2.each, h2.fam, h2.main, hdisc⟩, rfl⟩
    | some x =>
      dsimp only
      cases hx : x.complete with
      | false => exact ⟨by simp, T, ⟨h2.each, h2.fam, h2.main, hdisc⟩, rfl⟩
      | true =>
        obtain ⟨a, b, hc, hxc, -, her⟩ := eraseP_cases hfd
        refine ⟨by simp, T, ?_, rfl⟩
        simp only [if_true]
        rw [her]
        obtain ⟨T', h3, h4, -⟩ := h2.remove hc hx d'.discarded h2.disc
        have hk : K x.key = false := by
          cases hk : K x.key with
          | false => rfl
          | true => exact absurd (show x.corr = c by simpa using hxc) (he _ hk).1
        rw [h4 hk] at h3
        exact h3
  | push m =>
    have he : ∀ k, K k = true → k.1 ≠ flushType := he
    obtain ⟨h1, h2⟩ := DI.flush he 1 (h : DI S K d (arrivals os) T)
    show (d.push m).2 ≠ .exception ∧ ∃ T', DI S K (d.push m).1 _ T' ∧ T = only K (received [(d.push m).2]) ++ T'
    unfold Dev.push
    generalize d.flush 1 = r at h1 h2
    obtain ⟨d', b⟩ := r
    dsimp only at h1 h2
    subst h1
    obtain ⟨hk, hs⟩ := hf m rfl
    refine ⟨by simp, T, ⟨h2.each, fun s => ?_, h2.main.push hk, h2.disc⟩, rfl⟩
    obtain ⟨T', hT⟩ := h2.fam s
    exact ⟨T', hT.push (hs s)⟩

theorem received_append (a b : List Got) : received (a ++ b) = received a ++ received b := by
  induction a with
  | nil => rfl
  | cons g a ih => cases g <;> simp [received, ih]

theorem received_cons (g : Got) (l : List Got) : received (g :: l) = received [g] ++ received l := received_append [g] l

theorem only_append {K} (a b : List Msg) : only K (a ++ b) = only K a ++ only K b := List.filter_append ..

theorem DI.run {S K} : ∀ {os : List Op} {d T}, DI S K d (arrivals os) T → (∀ o ∈ os, o.even K) → (∀ m, .push m ∈ os → K m.key = false ∧ ∀ s, S s m.key = false) →
    (.exception ∉ (d.run os).2) ∧ ∃ T', DI S K (d.run os).1 [] T' ∧ T = only K (received (d.run os).2) ++ T'
  | [], d, T, h, _, _ => ⟨by simp [Dev.run], T, h, rfl⟩
  | o :: os, d, T, h, he, hf => by
    obtain ⟨h1, T1, h2, h3⟩ := DI.op h (he o (by simp)) (fun m hm => hf m (by simp [hm]))
    obtain ⟨h4, T2, h5, h6⟩ := DI.run h2 (fun o ho => he o (by simp [ho])) (fun m hm => hf m (by simp [hm]))
    refine ⟨?_, T2, h5, ?_⟩
    · show Got.exception ∉ (d.op o).2 :: ((d.op o).1.run os).2
      intro hx
      rcases List.mem_cons.mp hx with hx | hx
      · exact h1 hx.symm
      · exact h4 hx
    · show T = only K (received ((d.op o).2 :: ((d.op o).1.run os).2)) ++ T2
      rw [received_cons, only_append, List.append_assoc, ← h6]
      exact h3

end Casual.Ipc
