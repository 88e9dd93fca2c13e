import Verif.ConfModel.Range
/-
  Lemmas about the operations on lists of configured entities, for comparisons that are the
  equality of a key that an entity may have.
-/
namespace Casual.ConfModel

variable {α κ : Type} [DecidableEq κ]

/-- The comparison is the equality of keys; entities without a key are never equal. -/
structure Keyed (cmp : α → α → Bool) (key : α → Option κ) : Prop where
  iff : ∀ a b, cmp a b = true ↔ key a = key b ∧ key b ≠ none

/-- The key that a name is: none if it is empty. -/
def nameKey (name : α → String) (x : α) : Option String := if name x = "" then none else some (name x)

theorem keyed_name (name : α → String) : Keyed (equalName name) (nameKey name) where
  iff a b := by
    unfold equalName nameKey
    by_cases ha : name a = "" <;> by_cases hb : name b = ""
    · simp [ha, hb]
    · simp only [ha, hb, and_false, ↓reduceIte, decide_eq_true_eq]
      constructor
      · intro h; exact absurd h.symm hb
      · rintro ⟨h, -⟩; cases h
    · simp [ha, hb]
    · simp [ha, hb]

theorem keyed_key (key : α → κ) : Keyed (equalKey key) (fun x => some (key x)) where
  iff a b := by simp [equalKey]

/-- The key that an alias and the way to connect are. -/
def bothKey (name : α → String) (connect : α → κ) (x : α) : Option (String × κ) :=
  if name x = "" then none else some (name x, connect x)

theorem keyed_both (name : α → String) (connect : α → κ) : Keyed (equalBoth name connect) (bothKey name connect) where
  iff a b := by
    unfold equalBoth
    rw [Bool.and_eq_true, (keyed_name name).iff, (keyed_key connect).iff]
    unfold nameKey bothKey
    by_cases ha : name a = "" <;> by_cases hb : name b = ""
    · simp [ha, hb]
    · simp [ha, hb]
    · simp [ha, hb]
    · simp [ha, hb]

section
variable {cmp : α → α → Bool} {key : α → Option κ} {f : α → α → α}

/-- The first entity with the key. -/
def findKey (key : α → Option κ) (k : κ) (l : List α) : Option α := l.find? fun x => decide (key x = some k)

theorem findKey_append (k : κ) (a b : List α) :
    findKey key k (a ++ b) = match findKey key k a with | some x => some x | none => findKey key k b := by
  unfold findKey
  rw [List.find?_append]
  cases List.find? (fun x => decide (key x = some k)) a <;> rfl

theorem findKey_some {k : κ} {l : List α} {x : α} (h : findKey key k l = some x) : x ∈ l ∧ key x = some k :=
  ⟨List.mem_of_find?_eq_some h, by simpa using List.find?_some h⟩

theorem findKey_none {k : κ} {l : List α} (h : findKey key k l = none) : ∀ x ∈ l, key x ≠ some k := by
  intro x hx
  have := List.find?_eq_none.1 h x hx
  simpa using this

theorem findKey_cons (k : κ) (x : α) (l : List α) :
    findKey key k (x :: l) = if key x = some k then some x else findKey key k l := by
  unfold findKey
  rw [List.find?_cons]
  by_cases h : key x = some k
  · simp [h]
  · simp [h]

/-! ### One entity -/

theorem upsert_unnamed (hk : Keyed cmp key) {v : α} (hv : key v = none) (l : List α) : upsert cmp f v l = l ++ [v] := by
  induction l with
  | nil => rfl
  | cons x xs ih =>
    unfold upsert
    rw [if_neg, ih]
    · rfl
    · intro h
      exact ((hk.iff _ _).1 h).2 hv

theorem upsert_absent (hk : Keyed cmp key) {v : α} {l : List α} (h : ∀ x ∈ l, key x ≠ key v) :
    upsert cmp f v l = l ++ [v] := by
  induction l with
  | nil => rfl
  | cons x xs ih =>
    unfold upsert
    rw [if_neg, ih fun y hy => h y (List.mem_cons_of_mem _ hy)]
    · rfl
    · intro hc
      exact h x List.mem_cons_self ((hk.iff _ _).1 hc).1

/-- The key of what is put together is the common key. -/
def KeepsKey (cmp : α → α → Bool) (key : α → Option κ) (f : α → α → α) : Prop := ∀ a b, cmp a b = true → key (f a b) = key b

theorem findKey_upsert (hk : Keyed cmp key) (hf : KeepsKey cmp key f) (k : κ) (v : α) (l : List α) :
    findKey key k (upsert cmp f v l) =
      if key v = some k then some (match findKey key k l with | some x => f x v | none => v) else findKey key k l := by
  induction l with
  | nil => simp only [upsert, findKey_cons]; rfl
  | cons x xs ih =>
    unfold upsert
    by_cases hc : cmp x v = true
    · rw [if_pos hc]
      have hkf := hf _ _ hc
      have hkx := ((hk.iff _ _).1 hc).1
      rw [findKey_cons, findKey_cons, hkf, hkx]
      by_cases hv : key v = some k
      · simp [hv]
      · simp [hv]
    · rw [if_neg hc, findKey_cons, findKey_cons, ih]
      by_cases hv : key v = some k
      · have hx : key x ≠ some k := fun e => hc ((hk.iff _ _).2 ⟨e.trans hv.symm, by rw [hv]; exact Option.some_ne_none k⟩)
        simp [hv, hx]
      · simp [hv]

theorem unnamed_upsert (hk : Keyed cmp key) (hf : KeepsKey cmp key f) (v : α) (l : List α) :
    (upsert cmp f v l).filter (fun x => (key x).isNone) =
      l.filter (fun x => (key x).isNone) ++ (if (key v).isNone then [v] else []) := by
  induction l with
  | nil =>
    simp only [upsert, List.filter_cons, List.filter_nil, List.nil_append]
  | cons x xs ih =>
    unfold upsert
    by_cases hc : cmp x v = true
    · rw [if_pos hc]
      have hkf := hf _ _ hc
      obtain ⟨h1, h2⟩ := (hk.iff _ _).1 hc
      have e : (key v).isNone = false := by
        cases hv : key v with
        | none => exact absurd hv h2
        | some k => rfl
      simp [List.filter_cons, hkf, h1, e]
    · rw [if_neg hc, List.filter_cons, List.filter_cons, ih]
      split <;> simp

theorem mem_upsert_self (hk : Keyed cmp key) (v : α) (l : List α) (f : α → α → α)
    (hf : ∀ x, x ∈ l → key x = key v → key v ≠ none → f x v = v) : v ∈ upsert cmp f v l := by
  induction l with
  | nil => exact List.mem_singleton.2 rfl
  | cons x xs ih =>
    unfold upsert
    split
    · rename_i hc
      obtain ⟨h1, h2⟩ := (hk.iff _ _).1 hc
      rw [hf x List.mem_cons_self h1 h2]
      exact List.mem_cons_self
    · exact List.mem_cons_of_mem _ (ih fun y hy => hf y (List.mem_cons_of_mem _ hy))

theorem mem_upsert_other (hk : Keyed cmp key) {v x : α} {l : List α} (hx : x ∈ l) (hn : key x = key v → key v = none) :
    x ∈ upsert cmp f v l := by
  induction l with
  | nil => cases hx
  | cons y ys ih =>
    unfold upsert
    split
    · rename_i hc
      rcases List.mem_cons.1 hx with rfl | hx
      · obtain ⟨h1, h2⟩ := (hk.iff _ _).1 hc
        exact absurd (hn h1) h2
      · exact List.mem_cons_of_mem _ hx
    · rcases List.mem_cons.1 hx with rfl | hx
      · exact List.mem_cons_self
      · exact List.mem_cons_of_mem _ (ih hx)

/-! ### Lists -/

theorem update_append (a b t : List α) : update cmp f (a ++ b) t = update cmp f b (update cmp f a t) := List.foldl_append

/-- What a key stands for after `update`, if the keys of the source are different. -/
theorem findKey_update (hk : Keyed cmp key) (hf : KeepsKey cmp key f) (k : κ) (s t : List α)
    (hs : (s.filterMap key).Nodup) :
    findKey key k (update cmp f s t) =
      match findKey key k s, findKey key k t with
      | some y, some x => some (f x y)
      | some y, none => some y
      | none, o => o := by
  induction s generalizing t with
  | nil => rfl
  | cons v s ih =>
    have e : update cmp f (v :: s) t = update cmp f s (upsert cmp f v t) := rfl
    have hs' : (s.filterMap key).Nodup := by
      rw [List.filterMap_cons] at hs
      split at hs
      · exact hs
      · exact (List.nodup_cons.1 hs).2
    rw [e, ih _ hs', findKey_upsert hk hf, findKey_cons]
    by_cases hv : key v = some k
    · have hn : findKey key k s = none := by
        unfold findKey
        rw [List.find?_eq_none]
        intro x hx
        rw [List.filterMap_cons, hv] at hs
        have := (List.nodup_cons.1 hs).1
        simpa using fun e => this (List.mem_filterMap.2 ⟨x, hx, e⟩)
      rw [if_pos hv, if_pos hv, hn]
      cases findKey key k t <;> rfl
    · rw [if_neg hv, if_neg hv]

/-- What a key stands for after `replace`: the last in the source, or the one in the target. -/
theorem findKey_replace (hk : Keyed cmp key) (k : κ) (s t : List α) :
    findKey key k (replace cmp s t) =
      match findKey key k s.reverse with | some y => some y | none => findKey key k t := by
  unfold replace
  have hf : KeepsKey cmp key fun _ v => v := fun _ _ _ => rfl
  induction s generalizing t with
  | nil => rfl
  | cons v s ih =>
    have e : update cmp (fun _ v => v) (v :: s) t = update cmp (fun _ v => v) s (upsert cmp (fun _ v => v) v t) := rfl
    rw [e, ih, findKey_upsert hk hf, List.reverse_cons, findKey_append]
    cases findKey key k s.reverse with
    | some y => rfl
    | none =>
      simp only [findKey_cons]
      by_cases hv : key v = some k
      · simp only [hv, ↓reduceIte]
        cases findKey key k t <;> rfl
      · simp only [hv, ↓reduceIte]
        rfl

/-- Entities without a key are kept, all of them. -/
theorem unnamed_update (hk : Keyed cmp key) (hf : KeepsKey cmp key f) (s t : List α) :
    (update cmp f s t).filter (fun x => (key x).isNone) =
      t.filter (fun x => (key x).isNone) ++ s.filter (fun x => (key x).isNone) := by
  induction s generalizing t with
  | nil => simp [update]
  | cons v s ih =>
    have e : update cmp f (v :: s) t = update cmp f s (upsert cmp f v t) := rfl
    rw [e, ih, unnamed_upsert hk hf, List.filter_cons]
    by_cases hv : (key v).isNone = true <;> simp [hv]

theorem mem_update_other (hk : Keyed cmp key) {x : α} {s t : List α} (hx : x ∈ t)
    (hn : ∀ v ∈ s, key x = key v → key v = none) : x ∈ update cmp f s t := by
  induction s generalizing t with
  | nil => exact hx
  | cons v s ih =>
    exact ih (mem_upsert_other hk hx (hn v List.mem_cons_self)) fun w hw => hn w (List.mem_cons_of_mem _ hw)

theorem mem_replace_self (hk : Keyed cmp key) {x : α} {s t : List α} (hs : (s.filterMap key).Nodup) (hx : x ∈ s) :
    x ∈ replace cmp s t := by
  unfold replace
  induction s generalizing t with
  | nil => cases hx
  | cons v s ih =>
    have e : update cmp (fun _ v => v) (v :: s) t = update cmp (fun _ v => v) s (upsert cmp (fun _ v => v) v t) := rfl
    rw [e]
    have hs' : (s.filterMap key).Nodup ∧ ∀ k, key v = some k → k ∉ s.filterMap key := by
      rw [List.filterMap_cons] at hs
      split at hs
      · rename_i h; exact ⟨hs, fun k e => by rw [h] at e; cases e⟩
      · rename_i b h
        exact ⟨(List.nodup_cons.1 hs).2, fun k e => by rw [h] at e; cases e; exact (List.nodup_cons.1 hs).1⟩
    rcases List.mem_cons.1 hx with rfl | hx
    · refine mem_update_other hk (mem_upsert_self hk _ _ _ fun _ _ _ _ => rfl) fun w hw e => ?_
      cases hkw : key w with
      | none => rfl
      | some k => exact absurd (List.mem_filterMap.2 ⟨w, hw, hkw⟩) (hs'.2 k (e.trans hkw))
    · exact ih hs'.1 hx

/-- To put a list together with itself changes nothing, if all have keys and they are different. -/
theorem update_self (hk : Keyed cmp key) (l : List α)
    (hn : (l.map key).Nodup) (hs : ∀ x ∈ l, key x ≠ none) (hf : ∀ x ∈ l, f x x = x) : update cmp f l l = l := by
  -- the part that is done stays the same
  have key' : ∀ pre post : List α, l = pre ++ post → update cmp f post l = l := by
    intro pre post
    induction post generalizing pre with
    | nil => intro _; rfl
    | cons v post ih =>
      intro e
      show update cmp f post (upsert cmp f v l) = l
      have hv : upsert cmp f v l = l := by
        have : ∀ a : List α, (∀ y ∈ a, key y ≠ key v) → upsert cmp f v (a ++ v :: post) = a ++ v :: post := by
          intro a ha
          induction a with
          | nil =>
            show (if cmp v v = true then f v v :: post else _) = _
            rw [if_pos ((hk.iff _ _).2 ⟨rfl, hs v (by rw [e]; simp)⟩), hf v (by rw [e]; simp)]
            rfl
          | cons y ys iha =>
            show (if cmp y v = true then _ else y :: upsert cmp f v (ys ++ v :: post)) = _
            rw [if_neg, iha fun z hz => ha z (List.mem_cons_of_mem _ hz)]
            · rfl
            · intro hc
              exact ha y List.mem_cons_self ((hk.iff _ _).1 hc).1
        rw [e]
        apply this
        intro y hy he
        rw [e, List.map_append, List.map_cons, List.nodup_append] at hn
        exact hn.2.2 _ (List.mem_map.2 ⟨y, hy, rfl⟩) _ List.mem_cons_self he
      rw [hv]
      exact ih (pre ++ [v]) (by rw [e]; simp)
  exact key' [] l rfl

/-! ### Grouping does not matter -/

theorem keys_upsert (hk : Keyed cmp key) (hf : KeepsKey cmp key f) (v : α) (l : List α) (hl : (l.filterMap key).Nodup) :
    ((upsert cmp f v l).filterMap key).Nodup ∧
    ∀ k, k ∈ (upsert cmp f v l).filterMap key → k ∈ l.filterMap key ∨ key v = some k := by
  have hm : ∀ (l : List α) (k : κ), k ∈ (upsert cmp f v l).filterMap key → k ∈ l.filterMap key ∨ key v = some k := by
    intro l k hkk
    induction l with
    | nil =>
      obtain ⟨x, hx, e⟩ := List.mem_filterMap.1 hkk
      cases List.mem_singleton.1 hx
      exact Or.inr e
    | cons x xs ih =>
      unfold upsert at hkk
      by_cases hc : cmp x v = true
      · rw [if_pos hc] at hkk
        obtain ⟨y, hy, e⟩ := List.mem_filterMap.1 hkk
        rcases List.mem_cons.1 hy with rfl | hy
        · rw [hf _ _ hc] at e
          exact Or.inr e
        · exact Or.inl (List.mem_filterMap.2 ⟨y, List.mem_cons_of_mem _ hy, e⟩)
      · rw [if_neg hc] at hkk
        obtain ⟨y, hy, e⟩ := List.mem_filterMap.1 hkk
        rcases List.mem_cons.1 hy with rfl | hy
        · exact Or.inl (List.mem_filterMap.2 ⟨y, List.mem_cons_self, e⟩)
        · rcases ih (List.mem_filterMap.2 ⟨y, hy, e⟩) with h | h
          · obtain ⟨z, hz, ez⟩ := List.mem_filterMap.1 h
            exact Or.inl (List.mem_filterMap.2 ⟨z, List.mem_cons_of_mem _ hz, ez⟩)
          · exact Or.inr h
  refine ⟨?_, hm l⟩
  induction l with
  | nil => simp only [upsert, List.filterMap_cons, List.filterMap_nil]; split <;> simp
  | cons x xs ih =>
    unfold upsert
    by_cases hc : cmp x v = true
    · rw [if_pos hc]
      obtain ⟨h1, -⟩ := (hk.iff _ _).1 hc
      have := hf _ _ hc
      rw [List.filterMap_cons, this, ← h1, ← List.filterMap_cons]
      exact hl
    · rw [if_neg hc, List.filterMap_cons]
      rw [List.filterMap_cons] at hl
      cases hx : key x with
      | none => rw [hx] at hl; exact ih hl
      | some k =>
        rw [hx] at hl
        obtain ⟨h1, h2⟩ := List.nodup_cons.1 hl
        refine List.nodup_cons.2 ⟨fun h => ?_, ih h2⟩
        rcases hm _ _ h with h | h
        · exact h1 h
        · exact hc ((hk.iff _ _).2 ⟨hx.trans h.symm, by rw [h]; exact Option.some_ne_none k⟩)

theorem upsert_comm (hk : Keyed cmp key) (hf : KeepsKey cmp key f) {v w : α} (hvw : key v ≠ key w) (l : List α)
    (hp : ∃ x ∈ l, cmp x v = true) : upsert cmp f v (upsert cmp f w l) = upsert cmp f w (upsert cmp f v l) := by
  induction l with
  | nil => obtain ⟨x, hx, -⟩ := hp; cases hx
  | cons x xs ih =>
    by_cases hv : cmp x v = true
    · have hw : ¬ cmp x w = true := fun h => hvw (((hk.iff _ _).1 hv).1.symm.trans ((hk.iff _ _).1 h).1)
      have hw' : ¬ cmp (f x v) w = true := fun h => hvw ((hf _ _ hv).symm.trans ((hk.iff _ _).1 h).1)
      simp only [upsert, if_pos hv, if_neg hw, if_neg hw']
    · have hp' : ∃ y ∈ xs, cmp y v = true := by
        obtain ⟨y, hy, e⟩ := hp
        rcases List.mem_cons.1 hy with rfl | hy
        · exact absurd e hv
        · exact ⟨y, hy, e⟩
      by_cases hw : cmp x w = true
      · have hv' : ¬ cmp (f x w) v = true := fun h => hvw (((hk.iff _ _).1 h).1.symm.trans (hf _ _ hw))
        simp only [upsert, if_neg hv, if_pos hw, if_neg hv']
      · simp only [upsert, if_neg hv, if_neg hw, ih hp']

theorem present_upsert (hk : Keyed cmp key) (hf : KeepsKey cmp key f) {v : α} (w : α) {l : List α}
    (hp : ∃ x ∈ l, cmp x v = true) : ∃ x ∈ upsert cmp f w l, cmp x v = true := by
  induction l with
  | nil => obtain ⟨x, hx, -⟩ := hp; cases hx
  | cons x xs ih =>
    obtain ⟨y, hy, e⟩ := hp
    unfold upsert
    by_cases hw : cmp x w = true
    · rw [if_pos hw]
      rcases List.mem_cons.1 hy with rfl | hy
      · refine ⟨f y w, List.mem_cons_self, (hk.iff _ _).2 ⟨?_, ((hk.iff _ _).1 e).2⟩⟩
        exact (hf _ _ hw).trans (((hk.iff _ _).1 hw).1.symm.trans ((hk.iff _ _).1 e).1)
      · exact ⟨y, List.mem_cons_of_mem _ hy, e⟩
    · rw [if_neg hw]
      rcases List.mem_cons.1 hy with rfl | hy
      · exact ⟨y, List.mem_cons_self, e⟩
      · obtain ⟨z, hz, e⟩ := ih ⟨y, hy, e⟩
        exact ⟨z, List.mem_cons_of_mem _ hz, e⟩

theorem upsert_update_comm (hk : Keyed cmp key) (hf : KeepsKey cmp key f) {v : α} (b l : List α)
    (hb : ∀ w ∈ b, key w ≠ key v) (hp : ∃ x ∈ l, cmp x v = true) :
    upsert cmp f v (update cmp f b l) = update cmp f b (upsert cmp f v l) := by
  induction b generalizing l with
  | nil => rfl
  | cons w b ih =>
    show upsert cmp f v (update cmp f b (upsert cmp f w l)) = update cmp f b (upsert cmp f w (upsert cmp f v l))
    rw [ih _ (fun z hz => hb z (List.mem_cons_of_mem _ hz)) (present_upsert hk hf w hp),
      upsert_comm hk hf (fun e => hb w List.mem_cons_self e.symm) l hp]

theorem upsert_upsert (hk : Keyed cmp key) (hf : KeepsKey cmp key f) {y c : α} (hc : cmp y c = true)
    (ha : ∀ x, f (f x y) c = f x (f y c)) (l : List α) :
    upsert cmp f c (upsert cmp f y l) = upsert cmp f (f y c) l ∧ ∃ x ∈ upsert cmp f y l, cmp x c = true := by
  have hyc := (hk.iff _ _).1 hc
  have hfy := hf _ _ hc
  induction l with
  | nil =>
    simp only [upsert, if_pos hc, true_and]
    exact ⟨y, List.mem_singleton.2 rfl, hc⟩
  | cons x xs ih =>
    by_cases hx : cmp x y = true
    · have h1 := (hk.iff _ _).1 hx
      have hx' : cmp x (f y c) = true := (hk.iff _ _).2 ⟨h1.1.trans (hyc.1.trans hfy.symm), by rw [hfy]; exact hyc.2⟩
      have hc' : cmp (f x y) c = true := (hk.iff _ _).2 ⟨(hf _ _ hx).trans hyc.1, hyc.2⟩
      simp only [upsert, if_pos hx, if_pos hx', if_pos hc', ha, true_and]
      exact ⟨_, List.mem_cons_self, hc'⟩
    · have hx' : ¬ cmp x (f y c) = true := fun h => hx ((hk.iff _ _).2
        ⟨((hk.iff _ _).1 h).1.trans (hfy.trans hyc.1.symm), by rw [hyc.1]; exact hyc.2⟩)
      have hxc : ¬ cmp x c = true := fun h => hx ((hk.iff _ _).2
        ⟨((hk.iff _ _).1 h).1.trans hyc.1.symm, by rw [hyc.1]; exact hyc.2⟩)
      simp only [upsert, if_neg hx, if_neg hx', if_neg hxc]
      obtain ⟨i1, z, hz, e⟩ := ih
      exact ⟨by rw [i1], z, List.mem_cons_of_mem _ hz, e⟩

/-- One entity: to put it in before or after. -/
theorem upsert_update (hk : Keyed cmp key) (hf : KeepsKey cmp key f) (P : α → Prop)
    (ha : ∀ x y z, P y → f (f x y) z = f x (f y z)) (c : α) (b a : List α)
    (hb : (b.filterMap key).Nodup) (hP : ∀ y ∈ b, P y) :
    upsert cmp f c (update cmp f b a) = update cmp f (upsert cmp f c b) a := by
  induction b generalizing a with
  | nil => rfl
  | cons y b ih =>
    have hb' : (b.filterMap key).Nodup ∧ ∀ k, key y = some k → k ∉ b.filterMap key := by
      rw [List.filterMap_cons] at hb
      split at hb
      · rename_i h; exact ⟨hb, fun k e => by rw [h] at e; cases e⟩
      · rename_i k h
        exact ⟨(List.nodup_cons.1 hb).2, fun k e => by rw [h] at e; cases e; exact (List.nodup_cons.1 hb).1⟩
    by_cases hc : cmp y c = true
    · show upsert cmp f c (update cmp f b (upsert cmp f y a)) = update cmp f (upsert cmp f c (y :: b)) a
      have e : upsert cmp f c (y :: b) = f y c :: b := by simp only [upsert, if_pos hc]
      obtain ⟨h1, h2⟩ := (hk.iff _ _).1 hc
      obtain ⟨i1, i2⟩ := upsert_upsert hk hf hc (fun x => ha x y c (hP y List.mem_cons_self)) a
      rw [e]
      show _ = update cmp f b (upsert cmp f (f y c) a)
      rw [upsert_update_comm hk hf b _ _ i2, i1]
      intro w hw e
      obtain ⟨k, hkk⟩ := Option.ne_none_iff_exists'.1 h2
      exact hb'.2 k (h1.trans hkk) (List.mem_filterMap.2 ⟨w, hw, e.trans hkk⟩)
    · have e : upsert cmp f c (y :: b) = y :: upsert cmp f c b := by simp only [upsert, if_neg hc]
      rw [e]
      exact ih (upsert cmp f y a) hb'.1 fun z hz => hP z (List.mem_cons_of_mem _ hz)

theorem all_upsert {P : α → Prop} (hPf : ∀ y z, P y → P (f y z)) {c : α} (hc : P c) {b : List α} (hb : ∀ y ∈ b, P y) :
    ∀ y ∈ upsert cmp f c b, P y := by
  induction b with
  | nil => intro y hy; cases List.mem_singleton.1 hy; exact hc
  | cons x xs ih =>
    intro y hy
    unfold upsert at hy
    split at hy
    · rcases List.mem_cons.1 hy with rfl | hy
      · exact hPf _ _ (hb x List.mem_cons_self)
      · exact hb y (List.mem_cons_of_mem _ hy)
    · rcases List.mem_cons.1 hy with rfl | hy
      · exact hb y List.mem_cons_self
      · exact ih (fun z hz => hb z (List.mem_cons_of_mem _ hz)) y hy

theorem update_assoc (hk : Keyed cmp key) (hf : KeepsKey cmp key f) (P : α → Prop)
    (ha : ∀ x y z, P y → f (f x y) z = f x (f y z)) (hPf : ∀ y z, P y → P (f y z)) (c b a : List α)
    (hb : (b.filterMap key).Nodup) (hP : ∀ y ∈ b, P y) (hPc : ∀ y ∈ c, P y) :
    update cmp f c (update cmp f b a) = update cmp f (update cmp f c b) a := by
  induction c generalizing b with
  | nil => rfl
  | cons v c ih =>
    show update cmp f c (upsert cmp f v (update cmp f b a)) = update cmp f (update cmp f c (upsert cmp f v b)) a
    rw [upsert_update hk hf P ha v b a hb hP]
    exact ih _ (keys_upsert hk hf v b hb).1 (all_upsert hPf (hPc v List.mem_cons_self) hP)
      fun y hy => hPc y (List.mem_cons_of_mem _ hy)

theorem keys_update (hk : Keyed cmp key) (hf : KeepsKey cmp key f) (s t : List α) (ht : (t.filterMap key).Nodup) :
    ((update cmp f s t).filterMap key).Nodup := by
  induction s generalizing t with
  | nil => exact ht
  | cons v s ih => exact ih _ (keys_upsert hk hf v t ht).1

theorem replace_assoc (hk : Keyed cmp key) (c b a : List α) (hb : (b.filterMap key).Nodup) :
    replace cmp c (replace cmp b a) = replace cmp (replace cmp c b) a :=
  update_assoc hk (fun _ _ _ => rfl) (fun _ => True) (fun _ _ _ _ => rfl) (fun _ _ _ => trivial) c b a hb
    (fun _ _ => trivial) fun _ _ => trivial

end

theorem coalesce_assoc (a b c : String) : coalesce c (coalesce b a) = coalesce (coalesce c b) a := by
  unfold coalesce
  by_cases h : c = "" <;> simp [h]

theorem coalesce_self (a : String) : coalesce a a = a := by
  unfold coalesce
  split <;> rfl

theorem appendUnique_self [DecidableEq α] (l : List α) : appendUnique l l = l := by
  unfold appendUnique
  have : ∀ (s o : List α), (∀ x ∈ s, x ∈ o) → s.foldl (fun out v => if out.any (fun o => decide (o = v)) then out else out ++ [v]) o = o := by
    intro s
    induction s with
    | nil => intro o _; rfl
    | cons x xs ih =>
      intro o h
      rw [List.foldl_cons, if_pos (List.any_eq_true.2 ⟨x, h x List.mem_cons_self, by simp⟩)]
      exact ih o fun y hy => h y (List.mem_cons_of_mem _ hy)
  exact this l l fun _ h => h

/-- `appendUnique` one at a time. -/
def addUnique [DecidableEq α] (v : α) (out : List α) : List α :=
  if out.any (fun o => decide (o = v)) then out else out ++ [v]

theorem appendUnique_cons [DecidableEq α] (v : α) (l o : List α) : appendUnique (v :: l) o = appendUnique l (addUnique v o) := rfl

theorem mem_addUnique [DecidableEq α] (v x : α) (o : List α) : x ∈ addUnique v o ↔ x ∈ o ∨ x = v := by
  unfold addUnique
  split
  · rename_i h
    obtain ⟨y, hy, e⟩ := List.any_eq_true.1 h
    have e : y = v := by simpa using e
    subst e
    exact ⟨Or.inl, fun h => h.elim id fun e => e ▸ hy⟩
  · simp

theorem mem_appendUnique' [DecidableEq α] (l o : List α) (x : α) : x ∈ appendUnique l o ↔ x ∈ o ∨ x ∈ l := by
  induction l generalizing o with
  | nil => simp [appendUnique]
  | cons v l ih =>
    rw [appendUnique_cons, ih, mem_addUnique]
    simp [or_assoc]

theorem appendUnique_assoc [DecidableEq α] (c b a : List α) :
    appendUnique c (appendUnique b a) = appendUnique (appendUnique c b) a := by
  have happ : ∀ (s t o : List α), appendUnique (s ++ t) o = appendUnique t (appendUnique s o) := by
    intro s t o; exact List.foldl_append
  induction c generalizing b with
  | nil => rfl
  | cons v c ih =>
    rw [appendUnique_cons, appendUnique_cons, ← ih]
    congr 1
    unfold addUnique
    by_cases h : v ∈ b
    · rw [if_pos (List.any_eq_true.2 ⟨v, (mem_appendUnique' ..).2 (Or.inr h), by simp⟩),
        if_pos (List.any_eq_true.2 ⟨v, h, by simp⟩)]
    · rw [if_neg (c := (b.any fun o => decide (o = v)) = true), happ]
      · rfl
      · intro k
        obtain ⟨y, hy, e⟩ := List.any_eq_true.1 k
        exact h ((by simpa using e : y = v) ▸ hy)

end Casual.ConfModel
