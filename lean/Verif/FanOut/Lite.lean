import Verif.FanOut.Refine
/-!
# Facts about the fan-out that do not need unique correlations

The transaction manager registers null correlations when a send fails at once, so the stronger
invariant of `Refine` is not always available.
-/
namespace Casual.FanOut

variable {M ID K : Type} [DecidableEq ID] (corr : M → Nat)
set_option linter.unusedSectionVars false

structure Lite (o : Out M ID K) : Prop where
  ptrs : (o.entries.map (·.ptr)).Nodup
  ptrLt : ∀ e ∈ o.entries, e.ptr < o.next
  lookLt : ∀ p ∈ o.lookup, p.2 < o.next
  look : ∀ p ∈ o.lookup, ∀ e ∈ o.entries, e.ptr = p.2 → p.1 ∈ e.corrs

theorem lite_empty : Lite (Out.empty : Out M ID K) := by
  constructor <;> simp [Out.empty]

theorem mem_emplace_fold (l : List (Nat × Nat)) (v : Nat) (ps : List (Pending ID)) (x : Nat × Nat)
    (hx : x ∈ ps.foldl (fun l p => emplace l p.corr v) l) :
    x ∈ l ∨ (x.2 = v ∧ x.1 ∈ ps.map (·.corr)) := by
  induction ps generalizing l with
  | nil => exact .inl hx
  | cons p ps ih =>
    rcases ih _ hx with h | h
    · dsimp only [emplace] at h
      split at h
      · exact .inl h
      · rcases List.mem_append.mp h with h | h
        · exact .inl h
        · right; simp at h; simp [h]
    · right; exact ⟨h.1, by simp [h.2]⟩

theorem register_lite (o : Out M ID K) (h : Lite o) (ps : List (Nat × ID)) (k : K) :
    Lite (o.register ps k).1 := by
  unfold Out.register
  dsimp only
  split
  · exact h
  · refine ⟨?_, ?_, ?_, ?_⟩
    · simp only [List.map_append, List.nodup_append]
      refine ⟨h.ptrs, by simp, ?_⟩
      intro a ha b hb
      simp at hb ha
      obtain ⟨e, he, rfl⟩ := ha
      have := h.ptrLt e he
      omega
    · intro e he
      rcases List.mem_append.mp he with he | he
      · have := h.ptrLt e he; dsimp only; omega
      · simp at he; subst he; simp
    · intro p hp
      dsimp only at hp ⊢
      rcases mem_emplace_fold _ _ _ _ hp with hp | hp
      · have := h.lookLt p hp; omega
      · omega
    · intro p hp e he hpe
      dsimp only at hp he
      rcases mem_emplace_fold _ _ _ _ hp with hp | hp
      · rcases List.mem_append.mp he with he | he
        · exact h.look p hp e he hpe
        · simp at he; subst he
          have := h.lookLt p hp
          simp at hpe; omega
      · rcases List.mem_append.mp he with he | he
        · have := h.ptrLt e he; omega
        · simp at he; subst he
          simpa [Entry.corrs] using hp.2

theorem register_entries (o : Out M ID K) (ps : List (Nat × ID)) (k : K) :
    (ps = [] ∧ o.register ps k = (o, [(newEntry o.next ps k).fire])) ∨
    (ps ≠ [] ∧ (o.register ps k).1.entries = o.entries ++ [newEntry o.next ps k] ∧
      (o.register ps k).2 = []) := by
  have hd := newEntry_done (M := M) o.next ps k
  unfold newEntry at hd
  unfold Out.register newEntry
  dsimp only
  by_cases hp : ps = []
  · left; subst hp; exact ⟨rfl, rfl⟩
  · right
    refine ⟨hp, ?_⟩
    rw [if_neg]
    · exact ⟨rfl, rfl⟩
    · rw [hd]; simpa using hp

theorem coordinate_corrs (e : Entry M ID K) (m : M) : (e.coordinate corr m).corrs = e.corrs := by
  unfold Entry.coordinate Entry.corrs
  exact corrs_markReceived _ _

theorem failed_corrs (e : Entry M ID K) (id : ID) : (e.failed id).1.corrs = e.corrs := by
  unfold Entry.failed Entry.corrs
  simp only [List.map_map]
  apply List.map_congr_left
  intro p _
  simp only [Function.comp]; split <;> rfl

/-- What a reply does: at most one entry is touched; either it stays or it is called. -/
theorem reply_cases (o : Out M ID K) (h : Lite o) (m : M) :
    ((o.reply corr m).1.entries = o.entries ∧ (o.reply corr m).2 = []) ∨
    ∃ pre e post, o.entries = pre ++ e :: post ∧ corr m ∈ e.corrs ∧
      (corr m, e.ptr) ∈ o.lookup ∧ (∀ p ∈ (o.reply corr m).1.lookup, p.1 ≠ corr m) ∧
      (((e.coordinate corr m).isDone = true ∧ (o.reply corr m).1.entries = pre ++ post ∧
        (o.reply corr m).2 = [(e.coordinate corr m).fire]) ∨
       ((e.coordinate corr m).isDone = false ∧
        (o.reply corr m).1.entries = pre ++ (e.coordinate corr m) :: post ∧ (o.reply corr m).2 = [])) := by
  unfold Out.reply
  split
  · exact .inl ⟨rfl, rfl⟩
  · rename_i c ptr hf
    dsimp only
    split
    · exact .inl ⟨rfl, rfl⟩
    · rename_i e he
      right
      have hmem := List.mem_of_find?_eq_some he
      have hptr : e.ptr = ptr := by simpa using List.find?_some he
      have hc : c = corr m := by simpa using List.find?_some hf
      have hlk := h.look _ (List.mem_of_find?_eq_some hf) e hmem hptr
      obtain ⟨pre, post, hsplit⟩ := List.append_of_mem hmem
      have hn := h.ptrs
      rw [hsplit, List.map_append, List.map_cons, List.nodup_append] at hn
      obtain ⟨hn1, hn2, hn3⟩ := hn
      rw [List.nodup_cons] at hn2
      have hpre : ∀ x ∈ pre, x.ptr ≠ ptr := by
        intro x hx hxe
        exact hn3 x.ptr (List.mem_map_of_mem hx) e.ptr (by simp) (by rw [hxe, hptr])
      have hpost : ∀ x ∈ post, x.ptr ≠ ptr := by
        intro x hx hxe
        exact hn2.1 (by rw [hptr, ← hxe]; exact List.mem_map_of_mem hx)
      refine ⟨pre, e, post, hsplit, by rw [← hc]; exact hlk,
        by rw [← hc, hptr]; exact List.mem_of_find?_eq_some hf, ?_, ?_⟩
      · split <;> intro p hp <;> simpa using (List.mem_filter.mp hp).2
      have filt : ∀ l : List (Entry M ID K), (∀ x ∈ l, x.ptr ≠ ptr) → l.filter (fun x => decide (x.ptr ≠ ptr)) = l := by
        intro l hl; rw [List.filter_eq_self]; intro x hx; simpa using hl x hx
      have mp : ∀ l : List (Entry M ID K), (∀ x ∈ l, x.ptr ≠ ptr) →
          l.map (fun x => if x.ptr = ptr then e.coordinate corr m else x) = l := by
        intro l hl
        conv => rhs; rw [← List.map_id l]
        apply List.map_congr_left
        intro x hx; simp [hl x hx]
      split
      · rename_i hd
        left
        refine ⟨hd, ?_, rfl⟩
        dsimp only
        rw [hsplit, List.filter_append, List.filter_cons, filt _ hpre, filt _ hpost]
        simp [hptr]
      · rename_i hd
        right
        refine ⟨by simpa using hd, ?_, rfl⟩
        dsimp only
        rw [hsplit, List.map_append, List.map_cons, mp _ hpre, mp _ hpost]
        simp [hptr]

theorem reply_lookup_sub (o : Out M ID K) (m : M) :
    (o.reply corr m).1.next = o.next ∧ ∀ p ∈ (o.reply corr m).1.lookup, p ∈ o.lookup := by
  unfold Out.reply
  split
  · exact ⟨rfl, fun p h => h⟩
  · dsimp only
    split
    · exact ⟨rfl, fun p h => (List.mem_filter.mp h).1⟩
    · split <;> exact ⟨rfl, fun p h => (List.mem_filter.mp h).1⟩

theorem reply_lite (o : Out M ID K) (h : Lite o) (m : M) : Lite (o.reply corr m).1 := by
  obtain ⟨hnx, hlk⟩ := reply_lookup_sub corr o m
  rcases reply_cases corr o h m with ⟨he, -⟩ | ⟨pre, e, post, hs, -, -, -, hr⟩
  · exact ⟨by rw [he]; exact h.ptrs, by rw [he, hnx]; exact h.ptrLt,
      fun p hp => by rw [hnx]; exact h.lookLt p (hlk p hp),
      fun p hp => by rw [he]; exact h.look p (hlk p hp)⟩
  · have hp := h.ptrs
    have hl := h.ptrLt
    have hk := h.look
    rw [hs] at hp hl hk
    rcases hr with ⟨-, hr, -⟩ | ⟨-, hr, -⟩
    · refine ⟨?_, ?_, fun p hp => by rw [hnx]; exact h.lookLt p (hlk p hp), ?_⟩
      · rw [hr]
        refine hp.sublist ?_
        exact (List.Sublist.append_left (List.sublist_cons_self _ _) _).map _
      · rw [hr, hnx]; intro x hx; apply hl; simp at hx ⊢; grind
      · rw [hr]; intro p hpp x hx; apply hk p (hlk p hpp); simp at hx ⊢; grind
    · have hce : (e.coordinate corr m).ptr = e.ptr := rfl
      refine ⟨?_, ?_, fun p hp => by rw [hnx]; exact h.lookLt p (hlk p hp), ?_⟩
      · rw [hr]; simpa [hce] using hp
      · rw [hr, hnx]
        intro x hx
        rcases List.mem_append.mp hx with hx | hx
        · exact hl x (by simp [hx])
        · rcases List.mem_cons.mp hx with rfl | hx
          · rw [hce]; exact hl e (by simp)
          · exact hl x (by simp [hx])
      · rw [hr]
        intro p hpp x hx hxp
        rcases List.mem_append.mp hx with hx | hx
        · exact hk p (hlk p hpp) x (by simp [hx]) hxp
        · rcases List.mem_cons.mp hx with rfl | hx
          · rw [coordinate_corrs]; exact hk p (hlk p hpp) e (by simp) hxp
          · exact hk p (hlk p hpp) x (by simp [hx]) hxp

/-- what `failed` does to the list of entries: each one stays as it is, is updated or is called -/
inductive FailRel (id : ID) : List (Entry M ID K) → List (Entry M ID K) → List (Fired M ID K) → Prop
  | nil : FailRel id [] [] []
  | keep {e es es' fs} : FailRel id es es' fs → FailRel id (e :: es) ((e.failed id).1 :: es') fs
  | fire {e es es' fs} : (e.failed id).1.isDone = true → FailRel id es es' fs →
      FailRel id (e :: es) es' ((e.failed id).1.fire :: fs)

theorem failLoop_rel (id : ID) (l : List (Nat × Nat)) (es : List (Entry M ID K)) :
    FailRel id es (failLoop id l es).2.1 (failLoop id l es).2.2 ∧
    ∀ p ∈ (failLoop id l es).1, p ∈ l := by
  induction es generalizing l with
  | nil => exact ⟨.nil, fun p h => h⟩
  | cons e es ih =>
    unfold failLoop
    dsimp only
    split
    · exact ⟨.keep (ih l).1, (ih l).2⟩
    · have hsub : ∀ (cs : List Nat) (l : List (Nat × Nat)), ∀ p ∈ cs.foldl (fun l c => l.filter (fun p => decide (p.1 ≠ c))) l, p ∈ l := by
        intro cs
        induction cs with
        | nil => intro l p h; exact h
        | cons c cs ihc => intro l p h; exact (List.mem_filter.mp (ihc _ p h)).1
      split
      · rename_i hd
        exact ⟨.fire hd (ih _).1, fun p hp => hsub _ _ _ ((ih _).2 p hp)⟩
      · exact ⟨.keep (ih _).1, fun p hp => hsub _ _ _ ((ih _).2 p hp)⟩

theorem fail_rel (o : Out M ID K) (id : ID) :
    FailRel id o.entries (o.fail id).1.entries (o.fail id).2 ∧
    (∀ p ∈ (o.fail id).1.lookup, p ∈ o.lookup) ∧ (o.fail id).1.next = o.next := by
  have := failLoop_rel id o.lookup o.entries
  unfold Out.fail
  exact ⟨this.1, this.2, rfl⟩

theorem FailRel.mem {id : ID} {es es' : List (Entry M ID K)} {fs} (h : FailRel id es es' fs) :
    (∀ e' ∈ es', ∃ e ∈ es, e' = (e.failed id).1) ∧
    (∀ f ∈ fs, ∃ e ∈ es, (e.failed id).1.isDone = true ∧ f = (e.failed id).1.fire) := by
  induction h with
  | nil => simp
  | keep _ ih =>
    refine ⟨?_, ?_⟩
    · intro e' he'
      rcases List.mem_cons.mp he' with rfl | he'
      · exact ⟨_, by simp, rfl⟩
      · obtain ⟨x, hx, rfl⟩ := ih.1 e' he'; exact ⟨x, by simp [hx], rfl⟩
    · intro f hf; obtain ⟨x, hx, h⟩ := ih.2 f hf; exact ⟨x, by simp [hx], h⟩
  | fire hd _ ih =>
    refine ⟨?_, ?_⟩
    · intro e' he'; obtain ⟨x, hx, rfl⟩ := ih.1 e' he'; exact ⟨x, by simp [hx], rfl⟩
    · intro f hf
      rcases List.mem_cons.mp hf with rfl | hf
      · exact ⟨_, by simp, hd, rfl⟩
      · obtain ⟨x, hx, h⟩ := ih.2 f hf; exact ⟨x, by simp [hx], h⟩

theorem FailRel.ptrs {id : ID} {es es' : List (Entry M ID K)} {fs} (h : FailRel id es es' fs) :
    List.Sublist (es'.map (·.ptr)) (es.map (·.ptr)) := by
  induction h with
  | nil => simp
  | keep _ ih => exact ih.cons_cons _
  | fire _ _ ih => exact ih.cons _

theorem fail_lite (o : Out M ID K) (h : Lite o) (id : ID) : Lite (o.fail id).1 := by
  obtain ⟨hr, hl, hn⟩ := fail_rel o id
  refine ⟨h.ptrs.sublist hr.ptrs, ?_, fun p hp => by rw [hn]; exact h.lookLt p (hl p hp), ?_⟩
  · intro e he
    obtain ⟨x, hx, rfl⟩ := hr.mem.1 e he
    rw [hn]; exact h.ptrLt x hx
  · intro p hp e he hpe
    obtain ⟨x, hx, rfl⟩ := hr.mem.1 e he
    rw [failed_corrs]; exact h.look p (hl p hp) x hx hpe

/-! counting callbacks: an open one is kept or called -/

def openCount (q : K → Bool) (es : List (Entry M ID K)) : Nat := es.countP (fun e => q e.callback)
def firedCount (q : K → Bool) (fs : List (Fired M ID K)) : Nat := fs.countP (fun f => q f.callback)

theorem register_count (q : K → Bool) (o : Out M ID K) (ps : List (Nat × ID)) (k : K) :
    openCount q (o.register ps k).1.entries + firedCount q (o.register ps k).2 =
      openCount q o.entries + (if q k then 1 else 0) := by
  rcases register_entries o ps k with ⟨-, h⟩ | ⟨-, h1, h2⟩
  · rw [h]; simp [openCount, firedCount, newEntry, Entry.fire, List.countP_cons]
  · rw [h1, h2]; simp [openCount, firedCount, newEntry, List.countP_cons, List.countP_append]

theorem reply_count (q : K → Bool) (o : Out M ID K) (h : Lite o) (m : M) :
    openCount q (o.reply corr m).1.entries + firedCount q (o.reply corr m).2 = openCount q o.entries := by
  rcases reply_cases corr o h m with ⟨h1, h2⟩ | ⟨pre, e, post, hs, -, -, -, ⟨-, h1, h2⟩ | ⟨-, h1, h2⟩⟩
  · rw [h1, h2]; simp [firedCount]
  · rw [h1, h2, hs]
    simp [openCount, firedCount, List.countP_append, List.countP_cons, Entry.fire, Entry.coordinate]; omega
  · rw [h1, h2, hs]
    simp [openCount, firedCount, List.countP_append, List.countP_cons, Entry.coordinate]

theorem fail_count (q : K → Bool) (o : Out M ID K) (id : ID) :
    openCount q (o.fail id).1.entries + firedCount q (o.fail id).2 = openCount q o.entries := by
  have h := (fail_rel o id).1
  revert h
  generalize (o.fail id).1.entries = es'
  generalize (o.fail id).2 = fs
  generalize o.entries = es
  intro h
  induction h with
  | nil => rfl
  | keep _ ih =>
    simp only [openCount, firedCount, List.countP_cons] at ih ⊢
    have : ∀ e : Entry M ID K, (e.failed id).1.callback = e.callback := fun _ => rfl
    rw [this]; omega
  | fire _ _ ih =>
    simp only [openCount, firedCount, List.countP_cons] at ih ⊢
    have : ∀ e : Entry M ID K, (e.failed id).1.fire.callback = e.callback := fun _ => rfl
    rw [this]; omega

/-! at most one reply is recorded per correlation -/

structure Once (o : Out M ID K) : Prop where
  nodup : ∀ e ∈ o.entries, (e.received.map corr).Nodup
  gone : ∀ e ∈ o.entries, ∀ m ∈ e.received, (corr m, e.ptr) ∉ o.lookup

theorem once_empty : Once corr (Out.empty : Out M ID K) := by
  constructor <;> simp [Out.empty]

theorem register_once (o : Out M ID K) (hl : Lite o) (h : Once corr o) (ps : List (Nat × ID)) (k : K) :
    Once corr (o.register ps k).1 := by
  rcases register_entries o ps k with ⟨-, he⟩ | ⟨hne, he, -⟩
  · rw [he]; exact h
  · have hlk : ∀ x ∈ (o.register ps k).1.lookup, x ∈ o.lookup ∨ x.2 = o.next := by
      unfold Out.register
      dsimp only
      split
      · intro x hx; exact .inl hx
      · intro x hx
        rcases mem_emplace_fold _ _ _ _ hx with hx | hx
        · exact .inl hx
        · exact .inr hx.1
    constructor
    · intro e hx
      rw [he] at hx
      rcases List.mem_append.mp hx with hx | hx
      · exact h.nodup e hx
      · simp at hx; subst hx; simp [newEntry]
    · intro e hx m hm hc
      rw [he] at hx
      rcases List.mem_append.mp hx with hx | hx
      · rcases hlk _ hc with hc | hc
        · exact h.gone e hx m hm hc
        · have := hl.ptrLt e hx; simp at hc; omega
      · simp at hx; subst hx; simp [newEntry] at hm

theorem reply_once (o : Out M ID K) (hl : Lite o) (h : Once corr o) (m : M) :
    Once corr (o.reply corr m).1 := by
  have hlk := (reply_lookup_sub corr o m).2
  rcases reply_cases corr o hl m with ⟨h1, h2⟩ | ⟨pre, e, post, hs, -, hin, hout, ⟨-, h1, h2⟩ | ⟨-, h1, h2⟩⟩
  · constructor
    · rw [h1]; exact h.nodup
    · rw [h1]; intro e he m' hm hc; exact h.gone e he m' hm (hlk _ hc)
  · have hsub : ∀ x ∈ pre ++ post, x ∈ o.entries := by
      rw [hs]; intro x hx; simp at hx ⊢; grind
    constructor
    · rw [h1]; intro e he; exact h.nodup e (hsub e he)
    · rw [h1]; intro e he m' hm hc; exact h.gone e (hsub e he) m' hm (hlk _ hc)
  · have hmem : e ∈ o.entries := by rw [hs]; simp
    have hnew : ∀ x ∈ pre ++ (e.coordinate corr m) :: post, x ∈ o.entries ∨ x = e.coordinate corr m := by
      rw [hs]; intro x hx; simp at hx ⊢; grind
    constructor
    · rw [h1]
      intro x hx
      rcases hnew x hx with hx | rfl
      · exact h.nodup x hx
      · simp only [Entry.coordinate, List.map_append, List.nodup_append]
        refine ⟨h.nodup e hmem, by simp, ?_⟩
        intro a ha b hb
        simp at hb ha
        obtain ⟨m', hm', rfl⟩ := ha
        subst hb
        intro hEq
        exact h.gone e hmem m' hm' (by rw [hEq]; exact hin)
    · rw [h1]
      intro x hx m' hm hc
      rcases hnew x hx with hx | rfl
      · exact h.gone x hx m' hm (hlk _ hc)
      · simp only [Entry.coordinate] at hm hc
        rcases List.mem_append.mp hm with hm | hm
        · exact h.gone e hmem m' hm (hlk _ hc)
        · simp at hm; subst hm
          exact hout _ hc rfl

theorem fail_once (o : Out M ID K) (h : Once corr o) (id : ID) : Once corr (o.fail id).1 := by
  obtain ⟨hr, hl, -⟩ := fail_rel o id
  constructor
  · intro e he
    obtain ⟨x, hx, rfl⟩ := hr.mem.1 e he
    exact h.nodup x hx
  · intro e he m hm hc
    obtain ⟨x, hx, rfl⟩ := hr.mem.1 e he
    exact h.gone x hx m hm (hl _ hc)

/-! replies recorded for received requests -/

theorem markReceived_state (c : Nat) (ps : List (Pending ID)) (p : Pending ID)
    (hp : p ∈ markReceived c ps) : p ∈ ps ∨ (p.corr = c ∧ p.state = .received) := by
  induction ps with
  | nil => exact absurd hp (by simp [markReceived])
  | cons x xs ih =>
    unfold markReceived at hp
    split at hp
    · rcases List.mem_cons.mp hp with rfl | hp
      · right; rename_i h; exact ⟨h, rfl⟩
      · left; simp [hp]
    · rcases List.mem_cons.mp hp with rfl | hp
      · left; simp
      · rcases ih hp with h | h
        · left; simp [h]
        · exact .inr h

end Casual.FanOut
