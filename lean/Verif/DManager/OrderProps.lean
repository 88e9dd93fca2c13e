import Verif.DManager.OrderSpec
import Mathlib.Data.List.NodupEquivFin

/-! The boot order and the shutdown order. -/
namespace Casual.DManager

/-! ### The groups -/

theorem DependenciesFirst.notSeen : ∀ {gs : List Group} {seen : List Gid}, DependenciesFirst gs seen →
    ∀ g ∈ gs, g.id ∉ seen
  | [], _, _, g, hg => by cases hg
  | a :: as, seen, h, g, hg => by
    rcases List.mem_cons.1 hg with rfl | hg
    · exact h.1
    · exact fun hs => h.2.2.notSeen g hg (List.mem_cons_of_mem _ hs)

theorem DependenciesFirst.pairwise : ∀ {gs : List Group} {seen : List Gid}, DependenciesFirst gs seen →
    gs.Pairwise fun a b => b.id ≠ a.id ∧ b.id ∉ a.deps
  | [], _, _ => .nil
  | a :: as, seen, h => by
    refine .cons ?_ h.2.2.pairwise
    intro b hb
    have := h.2.2.notSeen b hb
    exact ⟨fun e => this (by rw [e]; exact List.mem_cons_self), fun hd => this (List.mem_cons_of_mem _ (h.2.1 _ hd))⟩

/-- Dependencies are listed before. -/
theorem DependenciesFirst.before : ∀ {gs : List Group} {seen : List Gid}, DependenciesFirst gs seen →
    ∀ (i : Nat) (g : Group), gs[i]? = some g → ∀ d ∈ g.deps, d ∈ seen ∨ ∃ j < i, ∃ g', gs[j]? = some g' ∧ g'.id = d
  | [], _, _, i, g, hg => by simp at hg
  | a :: as, seen, h, i, g, hg => by
    intro d hd
    cases i with
    | zero =>
      simp at hg; subst hg
      exact Or.inl (h.2.1 d hd)
    | succ i =>
      simp at hg
      rcases h.2.2.before i g hg d hd with h1 | ⟨j, hj, g', h1, h2⟩
      · rcases List.mem_cons.1 h1 with rfl | h1
        · exact Or.inr ⟨0, Nat.succ_pos _, a, rfl, rfl⟩
        · exact Or.inl h1
      · exact Or.inr ⟨j + 1, Nat.succ_lt_succ hj, g', by simpa using h1, h2⟩

theorem posUnique {gs : List Group} (h : gs.Pairwise fun a b => b.id ≠ a.id ∧ b.id ∉ a.deps) {i j : Nat}
    {a b : Group} (ha : gs[i]? = some a) (hb : gs[j]? = some b) (he : a.id = b.id) : i = j := by
  obtain ⟨hi, ha⟩ := List.getElem?_eq_some_iff.1 ha
  obtain ⟨hj, hb⟩ := List.getElem?_eq_some_iff.1 hb
  rcases Nat.lt_trichotomy i j with hlt | h1 | hlt
  · have := (List.pairwise_iff_getElem.1 h i j hi hj hlt).1
    rw [ha, hb] at this; exact absurd he.symm this
  · exact h1
  · have := (List.pairwise_iff_getElem.1 h j i hj hi hlt).1
    rw [ha, hb] at this; exact absurd he this

theorem Needs.before {gs : List Group} (h : DependenciesFirst gs []) {a b : Gid} (hn : Needs gs a b) :
    ∀ {i : Nat} {g : Group}, gs[i]? = some g → g.id = a → ∃ j < i, ∃ g', gs[j]? = some g' ∧ g'.id = b := by
  have step : ∀ {a b : Gid}, DependsOn gs a b → ∀ {i : Nat} {g : Group}, gs[i]? = some g → g.id = a →
      ∃ j < i, ∃ g', gs[j]? = some g' ∧ g'.id = b := by
    rintro a b ⟨g0, hg0, rfl, hb⟩ i g hi he
    obtain ⟨k, hk⟩ := List.mem_iff_getElem?.1 hg0
    have := posUnique h.pairwise hi hk he
    subst this
    rw [hk] at hi
    obtain rfl := Option.some.inj hi
    rcases h.before i _ hk b hb with h1 | h1
    · cases h1
    · exact h1
  induction hn with
  | direct hd => exact step hd
  | through hd _ ih =>
    intro i g hi he
    obtain ⟨j, hj, g', h1, h2⟩ := step hd hi he
    obtain ⟨k, hk, g'', h3, h4⟩ := ih h1 h2
    exact ⟨k, Nat.lt_trans hk hj, g'', h3, h4⟩

/-! ### What consumes what -/

theorem consume_length : ∀ (gs : List Group) (ms : List Member), (consume gs ms).length = gs.length
  | [], _ => rfl
  | _ :: gs, _ => by simp [consume, consume_length gs]

theorem mem_members {ms : List Member} {g : Group} {e : EId} :
    e ∈ (((ms.filter fun m => m.groups.contains g.id).filter fun m => m.id.kind = .server).map (·.id) ++
      ((ms.filter fun m => m.groups.contains g.id).filter fun m => m.id.kind = .executable).map (·.id)) ↔
    ∃ m ∈ ms, m.id = e ∧ g.id ∈ m.groups := by
  simp only [List.mem_append, List.mem_map, List.mem_filter, decide_eq_true_eq, List.contains_iff_mem]
  constructor
  · rintro (⟨m, ⟨⟨h1, h2⟩, _⟩, h3⟩ | ⟨m, ⟨⟨h1, h2⟩, _⟩, h3⟩)
    · exact ⟨m, h1, h3, h2⟩
    · exact ⟨m, h1, h3, h2⟩
  · rintro ⟨m, h1, h3, h2⟩
    cases hk : m.id.kind
    · exact Or.inl ⟨m, ⟨⟨h1, h2⟩, hk⟩, h3⟩
    · exact Or.inr ⟨m, ⟨⟨h1, h2⟩, hk⟩, h3⟩

/-- An entity is taken by the first group it is a member of. -/
theorem consume_at : ∀ (gs : List Group) (ms : List Member) (i : Nat) (e : EId), At (consume gs ms) i e →
    ∃ m ∈ ms, m.id = e ∧ (∃ g, gs[i]? = some g ∧ g.id ∈ m.groups) ∧
      ∀ j < i, ∀ g, gs[j]? = some g → g.id ∉ m.groups
  | [], ms, i, e, ⟨b, hb, _⟩ => by simp [consume] at hb
  | g :: gs, ms, i, e, ⟨b, hb, he⟩ => by
    cases i with
    | zero =>
      simp only [consume, List.getElem?_cons_zero, Option.some.injEq] at hb
      subst hb
      obtain ⟨m, h1, h2, h3⟩ := mem_members.1 he
      exact ⟨m, h1, h2, ⟨g, rfl, h3⟩, fun j hj => by omega⟩
    | succ i =>
      simp only [consume, List.getElem?_cons_succ] at hb
      obtain ⟨m, h1, h2, ⟨g', h3, h4⟩, h5⟩ := consume_at gs _ i e ⟨b, hb, he⟩
      rw [List.mem_filter] at h1
      refine ⟨m, h1.1, h2, ⟨g', by simpa using h3, h4⟩, ?_⟩
      intro j hj g'' hg''
      cases j with
      | zero => simp at hg''; subst hg''; simpa using h1.2
      | succ j => exact h5 j (by omega) g'' (by simpa using hg'')

theorem consume_perm : ∀ (gs : List Group) (ms : List Member),
    ((consume gs ms).flatMap (·.members)).Perm
      ((ms.filter fun m => gs.any fun g => m.groups.contains g.id).map (·.id))
  | [], ms => by simp [consume]
  | g :: gs, ms => by
    have ih := consume_perm gs (ms.filter fun m => !m.groups.contains g.id)
    have hp : ∀ l : List Member, ((l.filter fun m => m.id.kind = .server).map (·.id) ++
        (l.filter fun m => m.id.kind = .executable).map (·.id)).Perm (l.map (·.id)) := by
      intro l
      rw [← List.map_append]
      refine List.Perm.map _ ?_
      have := List.filter_append_perm (fun m : Member => decide (m.id.kind = .server)) l
      refine (List.Perm.append_left _ ?_).trans this
      refine List.Perm.of_eq (List.filter_congr ?_)
      intro m _
      cases m.id.kind <;> rfl
    have hs : ∀ l : List Member, (l.filter fun m => (g :: gs).any fun g => m.groups.contains g.id).Perm
        ((l.filter fun m => m.groups.contains g.id) ++
          ((l.filter fun m => !m.groups.contains g.id).filter fun m => gs.any fun g => m.groups.contains g.id)) := by
      intro l
      have := (List.filter_append_perm (fun m : Member => m.groups.contains g.id)
        (l.filter fun m => (g :: gs).any fun g => m.groups.contains g.id)).symm
      refine this.trans ?_
      rw [List.filter_filter, List.filter_filter, List.filter_filter]
      refine List.Perm.append (List.Perm.of_eq (List.filter_congr ?_)) (List.Perm.of_eq (List.filter_congr ?_))
      · intro m _
        rw [List.any_cons]
        cases m.groups.contains g.id <;> rfl
      · intro m _
        rw [List.any_cons]
        cases m.groups.contains g.id
        · rw [Bool.false_or, Bool.and_comm]
        · rw [Bool.not_true, Bool.false_and, Bool.and_false]
    simp only [consume, List.flatMap_cons]
    refine ((hp _).append ih).trans ?_
    rw [← List.map_append]
    exact ((hs ms).map _).symm

theorem flatMap_filter_members (l : List Batch) :
    (l.filter fun b => !b.members.isEmpty).flatMap (·.members) = l.flatMap (·.members) := by
  induction l with
  | nil => rfl
  | cons b l ih =>
    rw [List.filter_cons]
    split
    · simp [ih]
    · rename_i h
      simp at h
      simp [ih, h]

/-! ### The sorts -/

theorem insertBack_perm (x : Group) : ∀ l, (insertBack x l).Perm (x :: l)
  | [] => .refl _
  | y :: ys => by
    unfold insertBack
    split
    · exact ((insertBack_perm x ys).cons y).trans (.swap x y ys)
    · exact .refl _

theorem insertAll_perm : ∀ (l acc : List Group), (insertAll acc l).Perm (acc ++ l)
  | [], acc => by simpa [insertAll] using List.reverse_perm acc
  | x :: xs, acc => by
    unfold insertAll
    refine (insertAll_perm xs _).trans ?_
    refine ((insertBack_perm x acc).append_right xs).trans ?_
    exact List.perm_middle.symm

theorem mergeG_perm : ∀ (a b : List Group), (mergeG a b).Perm (a ++ b)
  | [], bs => by simp [mergeG]
  | a :: as, [] => by simp [mergeG]
  | a :: as, b :: bs => by
    unfold mergeG
    split
    · exact ((mergeG_perm (a :: as) bs).cons b).trans (List.perm_middle.symm)
    · exact (mergeG_perm as (b :: bs)).cons a
termination_by a b => a.length + b.length

theorem mergePairs_perm : ∀ l : List (List Group), (mergePairs l).flatten.Perm l.flatten
  | [] => .refl _
  | [a] => .refl _
  | a :: b :: rest => by
    simp only [mergePairs, List.flatten_cons]
    rw [← List.append_assoc]
    exact (mergeG_perm a b).append (mergePairs_perm rest)

theorem mergeAll_perm : ∀ (k : Nat) (l : List (List Group)), (mergeAll k l).Perm l.flatten
  | 0, _ => .refl _
  | k + 1, l => (mergeAll_perm k (mergePairs l)).trans (mergePairs_perm l)

theorem chunks_flatten : ∀ (k : Nat) (l : List Group), l.length ≤ k → (chunks 6 k l).flatten = l
  | 0, l, h => by
    have : l = [] := List.length_eq_zero_iff.1 (by omega)
    subst this; rfl
  | k + 1, [], _ => rfl
  | k + 1, x :: xs, h => by
    rw [chunks, List.flatten_cons, chunks_flatten k _ (by simp at h ⊢; omega), List.take_append_drop]
    simp

theorem map_insertAll_perm : ∀ l : List (List Group), (l.map (insertAll [])).flatten.Perm l.flatten
  | [] => .refl _
  | a :: l => by
    simp only [List.map_cons, List.flatten_cons]
    exact (insertAll_perm a []).append (map_insertAll_perm l)

/-- Nothing is less than anything before it. -/
abbrev Sorted (l : List Group) : Prop := l.Pairwise (fun a b => less b a = false)

theorem insertBack_sorted {x : Group} : ∀ {l : List Group}, (∀ y ∈ l, less x y = false) → insertBack x l = x :: l
  | [], _ => rfl
  | y :: ys, h => by
    rw [insertBack, if_neg]
    rw [h y List.mem_cons_self]; exact Bool.false_ne_true

theorem insertAll_sorted : ∀ (l acc : List Group), Sorted (acc.reverse ++ l) → insertAll acc l = acc.reverse ++ l
  | [], acc, _ => by simp [insertAll]
  | x :: xs, acc, h => by
    rw [insertAll, insertBack_sorted, insertAll_sorted xs (x :: acc)]
    · simp
    · simpa using h
    · intro y hy
      exact (List.pairwise_append.1 h).2.2 y (by simpa using hy) x List.mem_cons_self

theorem mergeG_sorted : ∀ (a b : List Group), Sorted (a ++ b) → mergeG a b = a ++ b
  | [], bs, _ => by simp [mergeG]
  | a :: as, [], _ => by simp [mergeG]
  | a :: as, b :: bs, h => by
    have h1 : less b a = false := (List.pairwise_append.1 h).2.2 a List.mem_cons_self b List.mem_cons_self
    rw [mergeG, if_neg (by rw [h1]; exact Bool.false_ne_true), mergeG_sorted as (b :: bs) (List.pairwise_cons.1 h).2]
    rfl
termination_by a b => a.length + b.length

theorem mergePairs_sorted : ∀ l : List (List Group), Sorted l.flatten → (mergePairs l).flatten = l.flatten
  | [], _ => rfl
  | [a], _ => rfl
  | a :: b :: rest, h => by
    simp only [List.flatten_cons] at h
    rw [← List.append_assoc] at h
    have h1 := List.pairwise_append.1 h
    simp only [mergePairs, List.flatten_cons]
    rw [mergeG_sorted a b h1.1, mergePairs_sorted rest h1.2.1, List.append_assoc]

theorem mergeAll_sorted : ∀ (k : Nat) (l : List (List Group)), Sorted l.flatten → mergeAll k l = l.flatten
  | 0, _, _ => rfl
  | k + 1, l, h => by
    have := mergePairs_sorted l h
    rw [mergeAll, mergeAll_sorted k _ (by rw [this]; exact h), this]

theorem map_insertAll_sorted : ∀ l : List (List Group), Sorted l.flatten → l.map (insertAll []) = l
  | [], _ => rfl
  | a :: l, h => by
    have h1 := List.pairwise_append.1 (List.flatten_cons ▸ h)
    rw [List.map_cons, map_insertAll_sorted l h1.2.1, insertAll_sorted a [] (by simpa using h1.1)]
    rfl

/-- The sort of libstdc++ is one of those relied on. -/
theorem libstdcxxSort_stable : StableSort libstdcxxSort where
  perm l := by
    unfold libstdcxxSort
    refine (mergeAll_perm _ _).trans ((map_insertAll_perm _).trans ?_)
    rw [chunks_flatten _ _ (Nat.le_refl _)]
  sorted l h := by
    have hc := chunks_flatten l.length l (Nat.le_refl _)
    unfold libstdcxxSort
    rw [map_insertAll_sorted _ (by rw [hc]; exact h), mergeAll_sorted _ _ (by rw [hc]; exact h), hc]

theorem insertAll_stable : StableSort (insertAll []) where
  perm l := by simpa using insertAll_perm l []
  sorted l h := by simpa using insertAll_sorted l [] (by simpa using h)

/-! ### The properties -/

theorem DependenciesFirst.sorted {gs : List Group} (h : DependenciesFirst gs []) : Sorted gs := by
  refine h.pairwise.imp ?_
  intro a b hab
  unfold less
  rw [Bool.and_eq_false_iff]
  exact Or.inl (by simpa using hab.2)

theorem reverse_at {bs : List Batch} {k : Nat} {e : EId} (h : At bs.reverse k e) :
    k < bs.length ∧ At bs (bs.length - 1 - k) e := by
  obtain ⟨b, hb, he⟩ := h
  have hk : k < bs.length := by
    obtain ⟨h1, _⟩ := List.getElem?_eq_some_iff.1 hb
    simpa using h1
  rw [List.getElem?_reverse hk] at hb
  exact ⟨hk, b, hb, he⟩

/-- The batch of an entity is that of the last of its groups. -/
theorem boot_at {sort : List Group → List Group} (hs : StableSort sort) {groups : List Group} {ms : List Member}
    {manager : EId} (hd : DependenciesFirst groups []) :
    ∃ f : Nat ↪o Nat, ∀ i e, At (bootOrder sort groups ms manager) i e →
      ∃ m ∈ ms, m.id = e ∧ (∃ g, groups[f i]? = some g ∧ g.id ∈ m.groups) ∧
        ∀ j, f i < j → ∀ g, groups[j]? = some g → g.id ∉ m.groups := by
  have hsub : (bootOrder sort groups ms manager).Sublist
      (consume groups.reverse (ms.filter fun m => m.id ≠ manager)).reverse := by
    unfold bootOrder
    rw [hs.sorted _ hd.sorted]
    exact (List.filter_sublist).reverse
  obtain ⟨f, hf⟩ := List.sublist_iff_exists_orderEmbedding_getElem?_eq.1 hsub
  refine ⟨f, ?_⟩
  rintro i e ⟨b, hb, he⟩
  rw [hf i] at hb
  obtain ⟨hk, hat⟩ := reverse_at ⟨b, hb, he⟩
  rw [consume_length, List.length_reverse] at hk hat
  obtain ⟨m, h1, h2, ⟨g, h3, h4⟩, h5⟩ := consume_at _ _ _ _ hat
  refine ⟨m, (List.mem_filter.1 h1).1, h2, ⟨g, ?_, h4⟩, ?_⟩
  · rw [List.getElem?_reverse (by omega)] at h3
    rw [← h3]; congr 1; omega
  · intro j hj g' hg'
    have hjl : j < groups.length := (List.getElem?_eq_some_iff.1 hg').1
    refine h5 (groups.length - 1 - j) (by omega) g' ?_
    rw [List.getElem?_reverse (by omega), ← hg']
    congr 1; omega

/-- Every server and executable but the domain manager that is a member of some group of
the domain is booted, once, in one batch - and nothing else is.  Whatever the
configuration. -/
theorem boot_each_once {sort : List Group → List Group} (hs : StableSort sort) (groups : List Group)
    (ms : List Member) (manager : EId) :
    ((bootOrder sort groups ms manager).flatMap (·.members)).Perm
      ((ms.filter fun m => decide (m.id ≠ manager) && groups.any fun g => m.groups.contains g.id).map (·.id)) := by
  unfold bootOrder
  refine (List.Perm.flatMap_right _ (List.reverse_perm _)).trans ?_
  rw [flatMap_filter_members]
  refine (consume_perm _ _).trans ?_
  rw [List.filter_filter]
  refine List.Perm.map _ (List.Perm.of_eq (List.filter_congr ?_))
  intro m _
  rw [List.any_reverse, Bool.and_comm]
  congr 1
  have := hs.perm groups
  rw [Bool.eq_iff_iff, List.any_eq_true, List.any_eq_true]
  constructor
  · rintro ⟨g, h1, h2⟩; exact ⟨g, this.mem_iff.1 h1, h2⟩
  · rintro ⟨g, h1, h2⟩; exact ⟨g, this.mem_iff.2 h1, h2⟩

/-- The shutdown takes the same batches, the last first. -/
theorem shutdown_each_once {sort : List Group → List Group} (hs : StableSort sort) (groups : List Group)
    (ms : List Member) (manager : EId) :
    ((shutdownOrder sort groups ms manager).flatMap (·.members)).Perm
      ((ms.filter fun m => decide (m.id ≠ manager) && groups.any fun g => m.groups.contains g.id).map (·.id)) :=
  (List.Perm.flatMap_right _ (List.reverse_perm _)).trans (boot_each_once hs groups ms manager)

/-- Partial: only when the configuration lists every group after those it depends on.  If
every group the entity `f` is a member of is needed by a group `e` is a member of, `f`
is booted in an earlier batch. -/
theorem boot_after_dependencies_partial {sort : List Group → List Group} (hs : StableSort sort)
    {groups : List Group} (hd : DependenciesFirst groups []) {ms : List Member} (hm : (ms.map (·.id)).Nodup)
    {manager : EId} {e f : Member} (he : e ∈ ms) (hf : f ∈ ms)
    (hn : ∀ h ∈ f.groups, ∃ g ∈ e.groups, Needs groups g h)
    {i j : Nat} (hi : At (bootOrder sort groups ms manager) i e.id)
    (hj : At (bootOrder sort groups ms manager) j f.id) : j < i := by
  obtain ⟨o, ho⟩ := boot_at hs (ms := ms) (manager := manager) hd
  have huniq : ∀ m ∈ ms, ∀ m' ∈ ms, m.id = m'.id → m = m' := by
    intro m h1 m' h2 h3
    exact List.inj_on_of_nodup_map hm h1 h2 h3
  obtain ⟨me, h1, h2, ⟨ge, h3, h4⟩, h5⟩ := ho i _ hi
  obtain ⟨mf, h6, h7, ⟨gf, h8, h9⟩, _⟩ := ho j _ hj
  obtain rfl := huniq _ h1 _ he h2
  obtain rfl := huniq _ h6 _ hf h7
  obtain ⟨g, hg, hneed⟩ := hn _ h9
  have hex : ∃ (k : Nat) (G : Group), groups[k]? = some G ∧ G.id = g := by
    have : ∃ G ∈ groups, G.id = g := by
      cases hneed with
      | direct h => obtain ⟨G, h1, h2, _⟩ := h; exact ⟨G, h1, h2⟩
      | through h _ => obtain ⟨G, h1, h2, _⟩ := h; exact ⟨G, h1, h2⟩
    obtain ⟨G, h1, h2⟩ := this
    obtain ⟨k, hk⟩ := List.mem_iff_getElem?.1 h1
    exact ⟨k, G, hk, h2⟩
  obtain ⟨k, G, hk, hG⟩ := hex
  obtain ⟨q, hq, g', hg', hg''⟩ := hneed.before hd hk hG
  have hqj := posUnique hd.pairwise hg' h8 hg''
  have hke : k ≤ o i := by
    by_contra hlt
    exact h5 k (by omega) G hk (by rw [hG]; exact hg)
  have : o j < o i := by omega
  exact o.lt_iff_lt.1 this

/-- Partial: as `boot_after_dependencies_partial`.  The shutdown stops `e` in an earlier
batch than `f`. -/
theorem shutdown_before_dependencies_partial {sort : List Group → List Group} (hs : StableSort sort)
    {groups : List Group} (hd : DependenciesFirst groups []) {ms : List Member} (hm : (ms.map (·.id)).Nodup)
    {manager : EId} {e f : Member} (he : e ∈ ms) (hf : f ∈ ms)
    (hn : ∀ h ∈ f.groups, ∃ g ∈ e.groups, Needs groups g h)
    {i j : Nat} (hi : At (shutdownOrder sort groups ms manager) i e.id)
    (hj : At (shutdownOrder sort groups ms manager) j f.id) : i < j := by
  obtain ⟨h1, hi⟩ := reverse_at hi
  obtain ⟨h2, hj⟩ := reverse_at hj
  have := boot_after_dependencies_partial hs hd hm he hf hn hi hj
  omega

/-- What the configuration must be for the groups of the domain to be listed after those
they depend on: the user's groups are. -/
theorem domainGroups_first {user : List Group} (h : DependenciesFirst user [global, queue, transaction, master, core])
    (hg : ∀ g ∈ user, g.id ≠ gateway) : DependenciesFirst (domainGroups user) [] := by
  have key : ∀ (l : List Group) (seen all : List Gid), DependenciesFirst l seen → (∀ g ∈ l, g.id ≠ gateway) →
      gateway ∉ seen → (∀ d ∈ all, d ∈ seen ∨ d ∈ l.map (·.id)) →
      DependenciesFirst (l ++ [⟨gateway, all⟩]) seen := by
    intro l
    induction l with
    | nil =>
      intro seen all _ _ hs ha
      exact ⟨hs, fun d hd => by simpa using ha d hd, trivial⟩
    | cons g l ih =>
      intro seen all hl hne hs ha
      refine ⟨hl.1, hl.2.1, ih _ _ hl.2.2 (fun x hx => hne x (List.mem_cons_of_mem _ hx)) ?_ ?_⟩
      · intro hc
        rcases List.mem_cons.1 hc with hc | hc
        · exact hne g List.mem_cons_self hc.symm
        · exact hs hc
      · intro d hd
        rcases ha d hd with h1 | h1
        · exact Or.inl (List.mem_cons_of_mem _ h1)
        · rcases List.mem_cons.1 h1 with h1 | h1
          · exact Or.inl (by rw [h1]; exact List.mem_cons_self)
          · exact Or.inr h1
  have h2 := key user _ ((firstGroups ++ user).map (·.id)) h hg (by decide) (by
    intro d hd
    rw [List.map_append, List.mem_append] at hd
    rcases hd with hd | hd
    · left; simp [firstGroups] at hd; rcases hd with rfl | rfl | rfl | rfl | rfl <;> decide
    · exact Or.inr hd)
  unfold domainGroups firstGroups
  simp only [List.cons_append, List.nil_append]
  refine ⟨by decide, by decide, by decide, by decide, by decide, by decide, by decide, by decide, by decide, by decide, ?_⟩
  exact h2

/-- The full statement: for every configuration whose groups do not need each other in a circle. -/
def BootAfterDependencies (sort : List Group → List Group) : Prop :=
  ∀ (user : List Group) (ms : List Member) (manager : EId) (e f : Member) (i j : Nat),
    (∀ g, ¬ Needs (domainGroups user) g g) → (ms.map (·.id)).Nodup → e ∈ ms → f ∈ ms →
    (∀ h ∈ f.groups, ∃ g ∈ e.groups, Needs (domainGroups user) g h) →
    At (bootOrder sort (domainGroups user) ms manager) i e.id →
    At (bootOrder sort (domainGroups user) ms manager) j f.id → j < i

/-- The groups of the counter example: the third depends on the fifth. -/
def wrongUser : List Group := [⟨6, [master]⟩, ⟨7, [master]⟩, ⟨8, [10]⟩, ⟨9, [master]⟩, ⟨10, [master]⟩]

/-- The entities of the counter example. -/
def wrongMembers : List Member := [⟨⟨.server, 0⟩, [8]⟩, ⟨⟨.server, 1⟩, [10]⟩]

theorem wrong_needs_rank : ∀ {a b : Gid}, Needs (domainGroups wrongUser) a b →
    ([(0, 0), (1, 1), (2, 2), (3, 3), (4, 4), (6, 5), (7, 5), (10, 5), (8, 6), (9, 5), (5, 9)].lookup b).getD 100 <
      ([(0, 0), (1, 1), (2, 2), (3, 3), (4, 4), (6, 5), (7, 5), (10, 5), (8, 6), (9, 5), (5, 9)].lookup a).getD 100 := by
  have step : ∀ {a b : Gid}, DependsOn (domainGroups wrongUser) a b →
    ([(0, 0), (1, 1), (2, 2), (3, 3), (4, 4), (6, 5), (7, 5), (10, 5), (8, 6), (9, 5), (5, 9)].lookup b).getD 100 <
      ([(0, 0), (1, 1), (2, 2), (3, 3), (4, 4), (6, 5), (7, 5), (10, 5), (8, 6), (9, 5), (5, 9)].lookup a).getD 100 := by
    rintro a b ⟨g, hg, rfl, hb⟩
    revert b
    revert g
    decide +kernel
  intro a b h
  induction h with
  | direct h => exact step h
  | through h _ ih => exact Nat.lt_trans ih (step h)

/-- The order of the groups is not one: a group can be booted before one it depends on, when the
configuration lists it first and not right before. -/
theorem boot_after_dependencies_refuted :
    ¬ BootAfterDependencies libstdcxxSort ∧ ¬ BootAfterDependencies (insertAll []) := by
  constructor
  · intro h
    have := h wrongUser wrongMembers ⟨.server, 99⟩ ⟨⟨.server, 0⟩, [8]⟩ ⟨⟨.server, 1⟩, [10]⟩ 0 1
      (fun g hg => Nat.lt_irrefl _ (wrong_needs_rank hg)) (by decide) (by decide) (by decide)
      (by
        intro x hx
        simp at hx; subst hx
        exact ⟨8, by decide, .direct ⟨⟨8, [10]⟩, by decide, rfl, by decide⟩⟩)
      ⟨⟨8, [⟨.server, 0⟩]⟩, by decide +kernel, by decide⟩ ⟨⟨10, [⟨.server, 1⟩]⟩, by decide +kernel, by decide⟩
    omega
  · intro h
    have := h wrongUser wrongMembers ⟨.server, 99⟩ ⟨⟨.server, 0⟩, [8]⟩ ⟨⟨.server, 1⟩, [10]⟩ 0 1
      (fun g hg => Nat.lt_irrefl _ (wrong_needs_rank hg)) (by decide) (by decide) (by decide)
      (by
        intro x hx
        simp at hx; subst hx
        exact ⟨8, by decide, .direct ⟨⟨8, [10]⟩, by decide, rfl, by decide⟩⟩)
      ⟨⟨8, [⟨.server, 0⟩]⟩, by decide +kernel, by decide⟩ ⟨⟨10, [⟨.server, 1⟩]⟩, by decide +kernel, by decide⟩
    omega

/-- A configuration where the hypotheses of the partial theorems hold: three groups, a server in
two of them. -/
example : DependenciesFirst (domainGroups [⟨6, [master]⟩, ⟨7, [6]⟩, ⟨8, [7, global]⟩]) [] ∧
    bootOrder libstdcxxSort (domainGroups [⟨6, [master]⟩, ⟨7, [6]⟩, ⟨8, [7, global]⟩])
      [⟨⟨.server, 9⟩, [master]⟩, ⟨⟨.server, 0⟩, [8]⟩, ⟨⟨.server, 1⟩, [6]⟩, ⟨⟨.executable, 0⟩, [6, 7]⟩] ⟨.server, 9⟩ =
    [⟨6, [⟨.server, 1⟩]⟩, ⟨7, [⟨.executable, 0⟩]⟩, ⟨8, [⟨.server, 0⟩]⟩] := by
  refine ⟨domainGroups_first ?_ (by decide), by decide +kernel⟩
  simp [DependenciesFirst, master, core, transaction, queue, global]

end Casual.DManager
