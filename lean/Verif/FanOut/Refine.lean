import Verif.FanOut.Model
/-!
# Fan-out: the lookup table refines a plain list of open fan-outs (helper lemmas for C02)
-/
namespace Casual.FanOut
set_option linter.unusedSectionVars false

variable {M ID K : Type} [DecidableEq ID] (corr : M → Nat)

def Entry.corrs (e : Entry M ID K) : List Nat := e.pending.map (·.corr)

/-- request with correlation `c` of entry `e` is still outstanding -/
def Entry.waits (e : Entry M ID K) (c : Nat) : Prop :=
  ∃ p ∈ e.pending, p.corr = c ∧ p.state = .pending

instance (e : Entry M ID K) (c : Nat) : Decidable (e.waits c) := by
  unfold Entry.waits; infer_instance

/-- What an operation does to an open entry. -/
def upd (op : Op M ID K) (e : Entry M ID K) : Entry M ID K :=
  match op with
  | .register _ _ => e
  | .reply m => if e.waits (corr m) then e.coordinate corr m else e
  | .fail id => (e.failed id).1

structure Inv (o : Out M ID K) : Prop where
  open_ : ∀ e ∈ o.entries, e.isDone = false
  nodup : ∀ e ∈ o.entries, e.corrs.Nodup
  disj : o.entries.Pairwise (fun a b => ∀ c ∈ a.corrs, c ∉ b.corrs)
  ptrs : o.entries.Pairwise (fun a b => a.ptr ≠ b.ptr)
  fresh : ∀ e ∈ o.entries, e.ptr < o.next
  look : ∀ c p, (c, p) ∈ o.lookup ↔ ∃ e ∈ o.entries, e.ptr = p ∧ e.waits c

theorem inv_empty : Inv (Out.empty : Out M ID K) := by
  constructor <;> simp [Out.empty]

omit [DecidableEq ID] in
theorem isDone_iff (e : Entry M ID K) : e.isDone = true ↔ ∀ c, ¬ e.waits c := by
  unfold Entry.isDone Entry.waits
  simp only [Bool.not_eq_true', List.any_eq_false, decide_eq_true_eq]
  constructor
  · rintro h c ⟨p, hp, -, hs⟩; exact h p hp hs
  · intro h p hp hs; exact h p.corr ⟨p, hp, rfl, hs⟩

omit [DecidableEq ID] in
theorem isDone_false (e : Entry M ID K) : e.isDone = false ↔ ∃ c, e.waits c := by
  have h := isDone_iff e
  by_cases hd : e.isDone = true
  · simp only [hd, Bool.true_eq_false, false_iff]
    rintro ⟨c, hc⟩; exact h.mp hd c hc
  · simp only [Bool.not_eq_true] at hd
    simp only [hd, true_iff]
    apply Classical.byContradiction
    intro hn
    have := h.mpr (fun c hc => hn ⟨c, hc⟩)
    rw [hd] at this; cases this

omit [DecidableEq ID] in
theorem corrs_markReceived (c : Nat) (ps : List (Pending ID)) :
    (markReceived c ps).map (·.corr) = ps.map (·.corr) := by
  induction ps with
  | nil => rfl
  | cons p ps ih => unfold markReceived; split <;> simp [*]

theorem corrs_upd (op : Op M ID K) (e : Entry M ID K) : (upd corr op e).corrs = e.corrs := by
  unfold upd Entry.corrs
  cases op with
  | register => rfl
  | reply m => dsimp; split <;> simp [Entry.coordinate, corrs_markReceived]
  | fail id =>
    simp only [Entry.failed, List.map_map]
    apply List.map_congr_left
    intro p _; simp only [Function.comp]; split <;> rfl

theorem ptr_upd (op : Op M ID K) (e : Entry M ID K) : (upd corr op e).ptr = e.ptr := by
  unfold upd
  cases op with
  | register => rfl
  | reply m => dsimp; split <;> rfl
  | fail id => rfl

omit [DecidableEq ID] in
theorem mem_markReceived (c c' : Nat) (ps : List (Pending ID)) (hn : (ps.map (·.corr)).Nodup) :
    (∃ p ∈ markReceived c ps, p.corr = c' ∧ p.state = .pending) ↔
      c' ≠ c ∧ ∃ p ∈ ps, p.corr = c' ∧ p.state = .pending := by
  induction ps with
  | nil => simp [markReceived]
  | cons p ps ih =>
    rw [List.map_cons, List.nodup_cons] at hn
    have ih := ih hn.2
    unfold markReceived
    have hnot : ∀ q ∈ ps, q.corr ≠ p.corr := fun q hq he => hn.1 (he ▸ List.mem_map_of_mem hq)
    split
    · rename_i hc
      constructor
      · rintro ⟨q, hq, h1, h2⟩
        rcases List.mem_cons.mp hq with h | h
        · subst h; cases h2
        · refine ⟨fun he => hnot q h (by omega), q, List.mem_cons_of_mem _ h, h1, h2⟩
      · rintro ⟨hne, q, hq, h1, h2⟩
        rcases List.mem_cons.mp hq with h | h
        · subst h; omega
        · exact ⟨q, List.mem_cons_of_mem _ h, h1, h2⟩
    · rename_i hc
      constructor
      · rintro ⟨q, hq, h1, h2⟩
        rcases List.mem_cons.mp hq with h | h
        · subst h; exact ⟨by omega, q, by simp, h1, h2⟩
        · obtain ⟨a, q', b, c, d⟩ := ih.mp ⟨q, h, h1, h2⟩
          exact ⟨a, q', by simp [b], c, d⟩
      · rintro ⟨hne, q, hq, h1, h2⟩
        rcases List.mem_cons.mp hq with h | h
        · subst h; exact ⟨q, by simp, h1, h2⟩
        · obtain ⟨q', b, c, d⟩ := ih.mpr ⟨hne, q, h, h1, h2⟩
          exact ⟨q', by simp [b], c, d⟩

theorem waits_upd_reply (m : M) (e : Entry M ID K) (hn : e.corrs.Nodup) (c : Nat) :
    (upd corr (.reply m) e).waits c ↔ c ≠ corr m ∧ e.waits c := by
  unfold upd
  dsimp only
  split
  · exact mem_markReceived (corr m) c e.pending hn
  · rename_i h
    constructor
    · intro hw; exact ⟨fun he => h (he ▸ hw), hw⟩
    · exact fun h => h.2

theorem waits_upd_fail (id : ID) (e : Entry M ID K) (c : Nat) :
    (upd corr (.fail id : Op M ID K) e).waits c ↔
      ∃ p ∈ e.pending, p.corr = c ∧ p.state = .pending ∧ p.id ≠ id := by
  unfold upd Entry.waits Entry.failed
  simp only [List.mem_map]
  constructor
  · rintro ⟨p, ⟨q, hq, rfl⟩, h1, h2⟩
    split at h2
    · cases h2
    · rename_i h; simp only [h, if_false] at h1; exact ⟨q, hq, h1, h2, h⟩
  · rintro ⟨p, hp, h1, h2, h3⟩
    exact ⟨p, ⟨p, hp, by simp [h3]⟩, h1, h2⟩

/-- entries still open / callbacks after updating all entries -/
def keep (es : List (Entry M ID K)) : List (Entry M ID K) := es.filter (fun e => ! e.isDone)
def fires (es : List (Entry M ID K)) : List (Fired M ID K) :=
  (es.filter (fun e => e.isDone)).map Entry.fire

omit [DecidableEq ID] in
theorem keep_open (es : List (Entry M ID K)) (h : ∀ e ∈ es, e.isDone = false) : keep es = es := by
  unfold keep; rw [List.filter_eq_self]; intro e he; simp [h e he]

omit [DecidableEq ID] in
theorem fires_open (es : List (Entry M ID K)) (h : ∀ e ∈ es, e.isDone = false) : fires es = [] := by
  unfold fires; rw [List.filter_eq_nil_iff.mpr, List.map_nil]; intro e he; simp [h e he]

omit [DecidableEq ID] in
theorem keep_cons (e : Entry M ID K) (es : List (Entry M ID K)) :
    keep (e :: es) = if e.isDone then keep es else e :: keep es := by
  unfold keep; rw [List.filter_cons]; cases e.isDone <;> simp

omit [DecidableEq ID] in
theorem fires_cons (e : Entry M ID K) (es : List (Entry M ID K)) :
    fires (e :: es) = if e.isDone then e.fire :: fires es else fires es := by
  unfold fires; rw [List.filter_cons]; split <;> simp

/-- entries of the invariant are identified by pointer, and by any of their correlations -/
theorem Inv.eq_of_ptr {o : Out M ID K} (h : Inv o) {a b : Entry M ID K} (ha : a ∈ o.entries)
    (hb : b ∈ o.entries) (he : a.ptr = b.ptr) : a = b := by
  have := h.ptrs
  generalize o.entries = es at *
  induction es with
  | nil => cases ha
  | cons x xs ih =>
    rw [List.pairwise_cons] at this
    rcases List.mem_cons.mp ha with ha' | ha' <;> rcases List.mem_cons.mp hb with hb' | hb'
    · rw [ha', hb']
    · subst ha'; exact absurd he (this.1 b hb')
    · subst hb'; exact absurd he.symm (this.1 a ha')
    · exact ih ha' hb' this.2

theorem Inv.eq_of_corr {o : Out M ID K} (h : Inv o) {a b : Entry M ID K} (ha : a ∈ o.entries)
    (hb : b ∈ o.entries) {c : Nat} (hc : c ∈ a.corrs) (hd : c ∈ b.corrs) : a = b := by
  have := h.disj
  generalize o.entries = es at *
  induction es with
  | nil => cases ha
  | cons x xs ih =>
    rw [List.pairwise_cons] at this
    rcases List.mem_cons.mp ha with ha' | ha' <;> rcases List.mem_cons.mp hb with hb' | hb'
    · rw [ha', hb']
    · subst ha'; exact absurd hd (this.1 b hb' c hc)
    · subst hb'; exact absurd hc (this.1 a ha' c hd)
    · exact ih ha' hb' this.2

theorem waits_mem_corrs {e : Entry M ID K} {c : Nat} (h : e.waits c) : c ∈ e.corrs := by
  obtain ⟨p, hp, rfl, _⟩ := h; exact List.mem_map_of_mem hp

/-- removing/mapping the unique entry with a pointer -/
theorem reply_entries_eq {es : List (Entry M ID K)} (e e' : Entry M ID K)
    (hp : es.Pairwise (fun a b => a.ptr ≠ b.ptr)) (he : e ∈ es) (f : Entry M ID K → Entry M ID K)
    (hopen : ∀ x ∈ es, x.isDone = false)
    (hf : f e = e') (hne : ∀ x ∈ es, x.ptr ≠ e.ptr → f x = x) :
    (if e'.isDone then es.filter (fun x => x.ptr ≠ e.ptr)
      else es.map (fun x => if x.ptr = e.ptr then e' else x)) = keep (es.map f) ∧
    (if e'.isDone then [e'.fire] else []) = fires (es.map f) := by
  induction es with
  | nil => cases he
  | cons x xs ih =>
    rw [List.pairwise_cons] at hp
    rw [show (x :: xs).map f = f x :: xs.map f from rfl, keep_cons, fires_cons]
    rcases List.mem_cons.mp he with h | h
    · subst h
      have hxs : xs.map f = xs := by
        conv => rhs; rw [← List.map_id xs]
        apply List.map_congr_left
        intro y hy
        exact hne y (List.mem_cons_of_mem _ hy) (fun h => hp.1 y hy h.symm)
      have hf1 : xs.filter (fun y => y.ptr ≠ e.ptr) = xs := by
        rw [List.filter_eq_self]; intro y hy
        simpa using fun h => hp.1 y hy h.symm
      have hf2 : xs.map (fun y => if y.ptr = e.ptr then e' else y) = xs := by
        conv => rhs; rw [← List.map_id xs]
        apply List.map_congr_left
        intro y hy
        have : ¬ y.ptr = e.ptr := fun h => hp.1 y hy h.symm
        simp [this]
      have hk := keep_open xs (fun y hy => hopen y (List.mem_cons_of_mem _ hy))
      have hfi := fires_open xs (fun y hy => hopen y (List.mem_cons_of_mem _ hy))
      rw [hf, hxs, hk, hfi]
      simp only [List.filter_cons, ne_eq, not_true_eq_false, decide_false, Bool.false_eq_true,
        if_false, List.map_cons, if_true]
      constructor
      · split
        · exact hf1
        · rw [hf2]
      · trivial
    · have hxe : x.ptr ≠ e.ptr := hp.1 e h
      have hfx : f x = x := hne x (by simp) hxe
      have hox : x.isDone = false := hopen x (by simp)
      obtain ⟨h1, h2⟩ := ih hp.2 h (fun y hy => hopen y (List.mem_cons_of_mem _ hy))
        (fun y hy => hne y (List.mem_cons_of_mem _ hy))
      rw [hfx, hox]
      simp only [List.filter_cons, hxe, ne_eq, not_false_eq_true, decide_true, if_true,
        Bool.false_eq_true, if_false, List.map_cons]
      rw [← h1, ← h2]
      constructor
      · split <;> rfl
      · rfl

/-- `reply` is: update the open entries, fire and drop those that are done. -/
theorem reply_spec (o : Out M ID K) (h : Inv o) (m : M) :
    (o.reply corr m).1.entries = keep (o.entries.map (upd corr (.reply m))) ∧
    (o.reply corr m).2 = fires (o.entries.map (upd corr (.reply m))) ∧
    (o.reply corr m).1.next = o.next ∧
    (∀ x, x ∈ (o.reply corr m).1.lookup ↔ x ∈ o.lookup ∧ x.1 ≠ corr m) := by
  unfold Out.reply
  cases hl : o.lookup.find? (fun p => p.1 = corr m) with
  | none =>
    have hno : ∀ x ∈ o.lookup, x.1 ≠ corr m := by
      simpa using List.find?_eq_none.mp hl
    have hid : o.entries.map (upd corr (.reply m)) = o.entries := by
      conv => rhs; rw [← List.map_id o.entries]
      apply List.map_congr_left
      intro e he
      have : ¬ e.waits (corr m) := fun hw => hno _ ((h.look _ _).mpr ⟨e, he, rfl, hw⟩) rfl
      simp [upd, this]
    refine ⟨?_, ?_, rfl, ?_⟩
    · rw [hid, keep_open _ h.open_]
    · rw [hid, fires_open _ h.open_]
    · intro x; exact ⟨fun hx => ⟨hx, hno x hx⟩, fun hx => hx.1⟩
  | some cp =>
    obtain ⟨c, ptr⟩ := cp
    have hmem := List.mem_of_find?_eq_some hl
    have hc : c = corr m := by simpa using List.find?_some hl
    subst hc
    obtain ⟨e, he, hptr, hw⟩ := (h.look _ _).mp hmem
    have hfind : o.entries.find? (fun e => e.ptr = ptr) = some e := by
      have hs : ∃ x, o.entries.find? (fun e => e.ptr = ptr) = some x := by
        cases hx : o.entries.find? (fun e => e.ptr = ptr) with
        | none => exact absurd hptr (by simpa using List.find?_eq_none.mp hx e he)
        | some x => exact ⟨x, rfl⟩
      obtain ⟨x, hx⟩ := hs
      have h1 : x.ptr = ptr := by simpa using List.find?_some hx
      rw [hx, h.eq_of_ptr (List.mem_of_find?_eq_some hx) he (h1.trans hptr.symm)]
    dsimp only
    rw [hfind]
    dsimp only
    have key := reply_entries_eq e (e.coordinate corr m) h.ptrs he (upd corr (.reply m)) h.open_
      (by simp [upd, hw])
      (by
        intro x hx hne
        have : ¬ x.waits (corr m) := fun hwx =>
          hne (by rw [h.eq_of_corr hx he (waits_mem_corrs hwx) (waits_mem_corrs hw)])
        simp [upd, this])
    rw [hptr] at key
    obtain ⟨k1, k2⟩ := key
    rw [← k1, ← k2]
    split <;> simp [*]

/-- the fail loop is: update the open entries, fire and drop those that are done. -/
theorem failLoop_spec (id : ID) (l : List (Nat × Nat)) (es : List (Entry M ID K))
    (hopen : ∀ e ∈ es, e.isDone = false) :
    (failLoop id l es).2.1 = keep (es.map (upd corr (.fail id))) ∧
    (failLoop id l es).2.2 = fires (es.map (upd corr (.fail id))) ∧
    (∀ x, x ∈ (failLoop id l es).1 ↔
      x ∈ l ∧ ∀ e ∈ es, ∀ p ∈ e.pending, p.id = id → p.corr ≠ x.1) := by
  induction es generalizing l with
  | nil => simp [failLoop, keep, fires]
  | cons e es ih =>
    have hoe : e.isDone = false := hopen e (by simp)
    have hor : ∀ x ∈ es, x.isDone = false := fun x hx => hopen x (List.mem_cons_of_mem _ hx)
    unfold failLoop
    rw [List.map_cons, keep_cons, fires_cons]
    have hu : upd corr (.fail id : Op M ID K) e = (e.failed id).1 := rfl
    rw [hu]
    dsimp only
    split
    · rename_i hcs
      have hnone : ∀ p ∈ e.pending, p.id ≠ id := by
        intro p hp he
        have : p ∈ e.pending.filter (fun p => p.id = id) := by simp [hp, he]
        have hx : p.corr ∈ (e.failed id).2 := List.mem_map_of_mem this
        rw [hcs] at hx; cases hx
      have hsame : (e.failed id).1 = e := by
        have : e.pending.map (fun p => if p.id = id then { p with state := PState.failed } else p)
            = e.pending := by
          conv => rhs; rw [← List.map_id e.pending]
          apply List.map_congr_left
          intro p hp; simp [hnone p hp]
        unfold Entry.failed; dsimp only; rw [this]
      obtain ⟨h1, h2, h3⟩ := ih l hor
      rw [hsame, hoe]
      refine ⟨?_, ?_, ?_⟩
      · simp [h1]
      · simp [h2]
      · intro x
        dsimp only
        rw [h3 x]
        constructor
        · rintro ⟨a, b⟩
          refine ⟨a, ?_⟩
          intro e' he'
          rcases List.mem_cons.mp he' with h | h
          · subst h; intro p hp hi; exact absurd hi (hnone p hp)
          · exact b e' h
        · rintro ⟨a, b⟩
          exact ⟨a, fun e' he' => b e' (List.mem_cons_of_mem _ he')⟩
    · have hfold : ∀ (cs : List Nat) (l : List (Nat × Nat)) (x : Nat × Nat),
          x ∈ cs.foldl (fun l c => l.filter (fun p => p.1 ≠ c)) l ↔ x ∈ l ∧ x.1 ∉ cs := by
        intro cs
        induction cs with
        | nil => simp
        | cons c cs ih => intro l x; rw [List.foldl_cons, ih]; simp [and_assoc]
      obtain ⟨h1, h2, h3⟩ := ih ((e.failed id).2.foldl (fun l c => l.filter (fun p => p.1 ≠ c)) l) hor
      have hl : ∀ x, x ∈ (failLoop id ((e.failed id).2.foldl
            (fun l c => l.filter (fun p => p.1 ≠ c)) l) es).1 ↔
          x ∈ l ∧ ∀ e' ∈ e :: es, ∀ p ∈ e'.pending, p.id = id → p.corr ≠ x.1 := by
        intro x
        rw [h3 x, hfold]
        constructor
        · rintro ⟨⟨a, b⟩, c⟩
          refine ⟨a, ?_⟩
          intro e' he'
          rcases List.mem_cons.mp he' with h | h
          · subst h; intro p hp hi hx
            exact b (by
              unfold Entry.failed
              exact List.mem_map.mpr ⟨p, by simp [hp, hi], hx⟩)
          · exact c e' h
        · rintro ⟨a, b⟩
          refine ⟨⟨a, ?_⟩, fun e' he' => b e' (List.mem_cons_of_mem _ he')⟩
          intro hx
          unfold Entry.failed at hx
          obtain ⟨p, hp, hpx⟩ := List.mem_map.mp hx
          simp only [List.mem_filter, decide_eq_true_eq] at hp
          exact b e (by simp) p hp.1 hp.2 hpx
      split
      · exact ⟨h1, by dsimp only; rw [h2], hl⟩
      · exact ⟨by dsimp only; rw [h1], h2, hl⟩

theorem fail_spec (o : Out M ID K) (h : Inv o) (id : ID) :
    (o.fail id).1.entries = keep (o.entries.map (upd corr (.fail id))) ∧
    (o.fail id).2 = fires (o.entries.map (upd corr (.fail id))) ∧
    (o.fail id).1.next = o.next ∧
    (∀ x, x ∈ (o.fail id).1.lookup ↔
      x ∈ o.lookup ∧ ∀ e ∈ o.entries, ∀ p ∈ e.pending, p.id = id → p.corr ≠ x.1) := by
  obtain ⟨h1, h2, h3⟩ := failLoop_spec corr id o.lookup o.entries h.open_
  unfold Out.fail
  exact ⟨h1, h2, rfl, h3⟩

theorem mem_keep_upd {op : Op M ID K} {es : List (Entry M ID K)} {e' : Entry M ID K} :
    e' ∈ keep (es.map (upd corr op)) ↔
      ∃ e ∈ es, upd corr op e = e' ∧ e'.isDone = false := by
  unfold keep
  simp only [List.mem_filter, List.mem_map, Bool.not_eq_true']
  constructor
  · rintro ⟨⟨e, he, h⟩, hd⟩; exact ⟨e, he, h, hd⟩
  · rintro ⟨e, he, h, hd⟩; exact ⟨⟨e, he, h⟩, hd⟩

theorem inv_of_upd {o o' : Out M ID K} (h : Inv o) (op : Op M ID K)
    (he : o'.entries = keep (o.entries.map (upd corr op))) (hn : o'.next = o.next)
    (hl : ∀ c p, (c, p) ∈ o'.lookup ↔ ∃ e ∈ o.entries, e.ptr = p ∧ (upd corr op e).waits c) :
    Inv o' := by
  have hpw : ∀ {R S : Entry M ID K → Entry M ID K → Prop}, o.entries.Pairwise R →
      (∀ a b, R a b → S (upd corr op a) (upd corr op b)) → o'.entries.Pairwise S := by
    intro R S hR hRS
    rw [he]
    unfold keep
    apply List.Pairwise.filter
    rw [List.pairwise_map]
    exact hR.imp (fun {a b} => hRS a b)
  constructor
  · intro e' hm; rw [he] at hm; obtain ⟨_, _, _, hd⟩ := (mem_keep_upd corr).mp hm; exact hd
  · intro e' hm; rw [he] at hm; obtain ⟨e, hme, rfl, hd⟩ := (mem_keep_upd corr).mp hm
    rw [corrs_upd]; exact h.nodup e hme
  · exact hpw h.disj (fun a b hab c hc => by rw [corrs_upd] at *; exact hab c hc)
  · exact hpw h.ptrs (fun a b hab => by rw [ptr_upd, ptr_upd]; exact hab)
  · intro e' hm; rw [he] at hm; obtain ⟨e, hme, rfl, hd⟩ := (mem_keep_upd corr).mp hm
    rw [ptr_upd, hn]; exact h.fresh e hme
  · intro c p
    rw [hl, he]
    constructor
    · rintro ⟨e, hme, hp, hw⟩
      exact ⟨upd corr op e, (mem_keep_upd corr).mpr ⟨e, hme, rfl, (isDone_false _).mpr ⟨c, hw⟩⟩,
        by rw [ptr_upd]; exact hp, hw⟩
    · rintro ⟨e', hm, hp, hw⟩
      obtain ⟨e, hme, rfl, hd⟩ := (mem_keep_upd corr).mp hm
      exact ⟨e, hme, by rw [ptr_upd] at hp; exact hp, hw⟩

theorem inv_reply (o : Out M ID K) (h : Inv o) (m : M) : Inv (o.reply corr m).1 := by
  obtain ⟨h1, _, h3, h4⟩ := reply_spec corr o h m
  refine inv_of_upd corr h (.reply m) h1 h3 ?_
  intro c p
  rw [h4, h.look]
  constructor
  · rintro ⟨⟨e, he, hp, hw⟩, hne⟩
    exact ⟨e, he, hp, (waits_upd_reply corr m e (h.nodup e he) c).mpr ⟨hne, hw⟩⟩
  · rintro ⟨e, he, hp, hw⟩
    obtain ⟨hne, hw⟩ := (waits_upd_reply corr m e (h.nodup e he) c).mp hw
    exact ⟨⟨e, he, hp, hw⟩, hne⟩

include corr in
theorem inv_fail (o : Out M ID K) (h : Inv o) (id : ID) : Inv (o.fail id).1 := by
  obtain ⟨h1, _, h3, h4⟩ := fail_spec (fun _ => 0) o h id
  have hsame : ∀ e : Entry M ID K, upd (fun _ : M => 0) (.fail id) e = upd corr (.fail id) e :=
    fun _ => rfl
  refine inv_of_upd corr h (.fail id) h1 h3 ?_
  intro c p
  rw [h4, h.look]
  constructor
  · rintro ⟨⟨e, he, hp, hw⟩, hne⟩
    refine ⟨e, he, hp, (waits_upd_fail corr id e c).mpr ?_⟩
    obtain ⟨q, hq, hqc, hqs⟩ := hw
    exact ⟨q, hq, hqc, hqs, fun hi => hne e he q hq hi hqc⟩
  · rintro ⟨e, he, hp, hw⟩
    obtain ⟨q, hq, hqc, hqs, hqi⟩ := (waits_upd_fail corr id e c).mp hw
    refine ⟨⟨e, he, hp, q, hq, hqc, hqs⟩, ?_⟩
    intro e2 he2 q2 hq2 hi2 hc2
    have hc2 : q2.corr = c := hc2
    have hee : e2 = e := h.eq_of_corr he2 he (c := c) (by rw [← hc2]; exact List.mem_map_of_mem hq2)
      (by rw [← hqc]; exact List.mem_map_of_mem hq)
    subst hee
    have hnd := h.nodup e2 he
    have hqq : q2 = q := by
      clear hi2 hqi hqs
      unfold Entry.corrs at hnd
      generalize e2.pending = ps at *
      induction ps with
      | nil => cases hq
      | cons x xs ih =>
        rw [List.map_cons, List.nodup_cons] at hnd
        rcases List.mem_cons.mp hq with a | a <;> rcases List.mem_cons.mp hq2 with b | b
        · rw [a, b]
        · subst a; exact absurd (by rw [hqc, ← hc2]; exact List.mem_map_of_mem b) hnd.1
        · subst b; exact absurd (by rw [hc2, ← hqc]; exact List.mem_map_of_mem a) hnd.1
        · exact ih b a hnd.2
    exact hqi (hqq ▸ hi2)

/-- The freshness a registration needs: its correlations are new. -/
def FreshReg (o : Out M ID K) (ps : List (Nat × ID)) : Prop :=
  (ps.map (·.1)).Nodup ∧ ∀ e ∈ o.entries, ∀ c ∈ e.corrs, c ∉ ps.map (·.1)

/-- The entry made by a registration. -/
def newEntry (ptr : Nat) (ps : List (Nat × ID)) (k : K) : Entry M ID K :=
  ⟨ptr, ps.map (fun p => ⟨.pending, p.2, p.1⟩), [], k⟩

theorem newEntry_corrs (ptr : Nat) (ps : List (Nat × ID)) (k : K) :
    (newEntry ptr ps k : Entry M ID K).corrs = ps.map (·.1) := by
  unfold newEntry Entry.corrs; rw [List.map_map]; rfl

theorem newEntry_done (ptr : Nat) (ps : List (Nat × ID)) (k : K) :
    (newEntry ptr ps k : Entry M ID K).isDone = ps.isEmpty := by
  cases ps <;> simp [newEntry, Entry.isDone]

theorem newEntry_waits (ptr : Nat) (ps : List (Nat × ID)) (k : K) (c : Nat) :
    (newEntry ptr ps k : Entry M ID K).waits c ↔ c ∈ ps.map (·.1) := by
  unfold newEntry Entry.waits
  simp only [List.mem_map]
  constructor
  · rintro ⟨p, ⟨q, hq, rfl⟩, h, _⟩; exact ⟨q, hq, h⟩
  · rintro ⟨q, hq, h⟩; exact ⟨_, ⟨q, hq, rfl⟩, h, rfl⟩

theorem register_spec (o : Out M ID K) (ps : List (Nat × ID)) (k : K) :
    (o.register ps k) = if ps = [] then (o, [(newEntry o.next ps k).fire]) else
      (⟨((newEntry o.next ps k : Entry M ID K).pending).foldl
          (fun l p => emplace l p.corr o.next) o.lookup,
        o.entries ++ [newEntry o.next ps k], o.next + 1⟩, []) := by
  unfold Out.register
  have := newEntry_done (M := M) o.next ps k
  unfold newEntry at *
  dsimp only
  rw [this]
  cases ps <;> simp

theorem emplace_fold (l : List (Nat × Nat)) (v : Nat) (ps : List (Pending ID))
    (hn : (ps.map (·.corr)).Nodup) (hd : ∀ x ∈ l, x.1 ∉ ps.map (·.corr)) :
    ∀ x, x ∈ ps.foldl (fun l p => emplace l p.corr v) l ↔
      x ∈ l ∨ (x.1 ∈ ps.map (·.corr) ∧ x.2 = v) := by
  induction ps generalizing l with
  | nil => simp
  | cons p ps ih =>
    rw [List.map_cons, List.nodup_cons] at hn
    intro x
    have hnot : l.any (fun q => q.1 = p.corr) = false := by
      simp only [List.any_eq_false, decide_eq_true_eq]
      intro q hq he; exact hd q hq (by simp [he])
    have hemp : emplace l p.corr v = l ++ [(p.corr, v)] := by simp [emplace, hnot]
    rw [List.foldl_cons, hemp, ih _ hn.2]
    · simp only [List.mem_append, List.map_cons, List.mem_cons, List.not_mem_nil, or_false]
      constructor
      · rintro ((h | h) | h)
        · exact .inl h
        · exact .inr ⟨.inl (by rw [h]), by rw [h]⟩
        · exact .inr ⟨.inr h.1, h.2⟩
      · rintro (h | ⟨h | h, h'⟩)
        · exact .inl (.inl h)
        · exact .inl (.inr (Prod.ext h h'))
        · exact .inr ⟨h, h'⟩
    · intro y hy hmem
      rcases List.mem_append.mp hy with h | h
      · exact hd y h (by simp [hmem])
      · rw [List.mem_singleton.mp h] at hmem; exact hn.1 hmem

theorem inv_register (o : Out M ID K) (h : Inv o) (ps : List (Nat × ID)) (k : K)
    (hf : FreshReg o ps) : Inv (o.register ps k).1 := by
  rw [register_spec]
  split
  · exact h
  · rename_i hne
    have hc := newEntry_corrs (M := M) o.next ps k
    constructor
    · intro e he
      rcases List.mem_append.mp he with h' | h'
      · exact h.open_ e h'
      · rw [List.mem_singleton.mp h', newEntry_done]; cases ps <;> simp_all
    · intro e he
      rcases List.mem_append.mp he with h' | h'
      · exact h.nodup e h'
      · rw [List.mem_singleton.mp h', hc]; exact hf.1
    · dsimp only
      rw [List.pairwise_append]
      refine ⟨h.disj, by simp, ?_⟩
      intro a ha b hb c hca
      rw [List.mem_singleton.mp hb, hc]; exact hf.2 a ha c hca
    · dsimp only
      rw [List.pairwise_append]
      refine ⟨h.ptrs, by simp, ?_⟩
      intro a ha b hb
      rw [List.mem_singleton.mp hb]
      exact Nat.ne_of_lt (h.fresh a ha)
    · intro e he
      rcases List.mem_append.mp he with h' | h'
      · exact Nat.lt_succ_of_lt (h.fresh e h')
      · rw [List.mem_singleton.mp h']; exact Nat.lt_succ_self _
    · intro c p
      have hcc : ((newEntry o.next ps k : Entry M ID K).pending.map (·.corr)) = ps.map (·.1) := hc
      have := emplace_fold o.lookup o.next (newEntry o.next ps k : Entry M ID K).pending
        (by rw [hcc]; exact hf.1)
        (by
          intro x hx hmem
          rw [hcc] at hmem
          obtain ⟨e, he, hp, hw⟩ := (h.look x.1 x.2).mp hx
          exact hf.2 e he _ (waits_mem_corrs hw) hmem) (c, p)
      dsimp only
      rw [this, hcc]
      simp only [List.mem_append, List.mem_singleton]
      constructor
      · rintro (hx | ⟨h1, h2⟩)
        · obtain ⟨e, he, hp, hw⟩ := (h.look c p).mp hx
          exact ⟨e, .inl he, hp, hw⟩
        · exact ⟨_, .inr rfl, h2.symm, (newEntry_waits o.next ps k c).mpr h1⟩
      · rintro ⟨e, he | he, hp, hw⟩
        · exact .inl ((h.look c p).mpr ⟨e, he, hp, hw⟩)
        · subst he; exact .inr ⟨(newEntry_waits o.next ps k c).mp hw, hp.symm⟩

end Casual.FanOut
