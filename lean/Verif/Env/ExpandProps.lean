import Verif.Env.Expand
/-
  Properties of environment variables and of expansion.
-/
namespace Casual.Env

open Casual.ConfModel (Variable)

/-! ### Variables -/

theorem takeWhile_make (name value : List Char) (h : '=' ∉ name) :
    (name ++ '=' :: value).takeWhile (· != '=') = name ∧ (name ++ '=' :: value).dropWhile (· != '=') = '=' :: value := by
  induction name with
  | nil => exact ⟨rfl, rfl⟩
  | cons c cs ih =>
    have hc : (c != '=') = true := by
      simp only [bne_iff_ne]; exact fun e => h (by rw [e]; exact List.mem_cons_self)
    obtain ⟨h1, h2⟩ := ih fun hm => h (List.mem_cons_of_mem _ hm)
    simp only [List.cons_append, List.takeWhile_cons, List.dropWhile_cons, hc, if_true, h1, h2, and_self]

theorem name_make {name value : List Char} (h : '=' ∉ name) : (make name value).name = name ∧ (make name value).value = value := by
  obtain ⟨h1, h2⟩ := takeWhile_make name value h
  unfold make Variable.name Variable.value
  simp only [String.toList_ofList]
  exact ⟨h1, by rw [h2]; rfl⟩

theorem find_assign (name : List Char) (x : Variable) (hx : x.name = name) (k : List Char) (l : List Variable) :
    (Vars.assign name x l).find? (fun y => decide (y.name = k)) =
      if k = name then some x else l.find? (fun y => decide (y.name = k)) := by
  induction l with
  | nil =>
    unfold Vars.assign
    by_cases h : k = name
    · simp [h, hx]
    · rw [List.find?_cons]
      simp [h, hx, Ne.symm h]
  | cons y ys ih =>
    unfold Vars.assign
    by_cases hy : y.name = name
    · rw [if_pos hy, List.find?_cons, List.find?_cons, hx, hy]
      by_cases h : k = name
      · simp [h]
      · simp [h, Ne.symm h]
    · rw [if_neg hy, List.find?_cons, List.find?_cons, ih]
      by_cases h : y.name = k
      · have : k ≠ name := fun e => hy (h.trans e)
        simp [h, this]
      · simp [h]

/-- **C215**: a variable that is set has the value, and the other variables have the values
they had. -/
theorem get_set_partial (v : Vars) (name value k : List Char) (h : '=' ∉ name) :
    (v.set name value).get k = if k = name then some value else v.get k := by
  unfold Vars.set Vars.get
  simp only
  rw [find_assign name _ (name_make h).1]
  by_cases e : k = name
  · simp [e, (name_make (value := value) h).2]
  · simp [e]

/-- **C215** is refuted for names with a `=`: another variable is given a value. -/
theorem get_set_refuted : ¬ ∀ (v : Vars) (name value k : List Char), (v.set name value).get k = if k = name then some value else v.get k := by
  intro h
  exact absurd (h {} "a=b".toList "c".toList "a".toList) (by decide +kernel)

/-- Specification: the variables that casual has set have different names. -/
def Vars.Unique (v : Vars) : Prop := (v.prioritized.map (·.name)).Nodup

theorem names_assign (name : List Char) (x : Variable) (hx : x.name = name) (l : List Variable) :
    ∀ k, k ∈ (Vars.assign name x l).map (·.name) → k ∈ l.map (·.name) ∨ k = name := by
  induction l with
  | nil => intro k hk; simp only [Vars.assign, List.map_cons, List.map_nil, List.mem_singleton, hx] at hk; exact Or.inr hk
  | cons y ys ih =>
    intro k hk
    unfold Vars.assign at hk
    split at hk
    · rw [List.map_cons, List.mem_cons, hx] at hk
      rcases hk with rfl | hk
      · exact Or.inr rfl
      · exact Or.inl (List.mem_cons_of_mem _ hk)
    · rw [List.map_cons, List.mem_cons] at hk
      rcases hk with rfl | hk
      · exact Or.inl List.mem_cons_self
      · exact (ih k hk).imp (List.mem_cons_of_mem _) id

theorem unique_set (v : Vars) (name value : List Char) (h : '=' ∉ name) (hu : v.Unique) : (v.set name value).Unique := by
  unfold Vars.Unique Vars.set at *
  have hx := (name_make (value := value) h).1
  simp only
  generalize v.prioritized = l at hu
  induction l with
  | nil => simp [Vars.assign]
  | cons y ys ih =>
    obtain ⟨h1, h2⟩ := List.nodup_cons.1 hu
    unfold Vars.assign
    by_cases hy : y.name = name
    · rw [if_pos hy, List.map_cons, hx, ← hy]; exact hu
    · rw [if_neg hy]
      refine List.nodup_cons.2 ⟨fun hm => ?_, ih h2⟩
      rcases names_assign name _ hx ys _ hm with h | h
      · exact h1 h
      · exact hy h

theorem find_erase (name k : List Char) (l : List Variable) (hu : (l.map (·.name)).Nodup) :
    (Vars.erase name l).find? (fun y => decide (y.name = k)) =
      if k = name then none else l.find? (fun y => decide (y.name = k)) := by
  induction l with
  | nil => simp [Vars.erase]
  | cons y ys ih =>
    obtain ⟨h1, h2⟩ := List.nodup_cons.1 hu
    unfold Vars.erase
    by_cases hy : y.name = name
    · rw [if_pos hy]
      by_cases h : k = name
      · rw [if_pos h, List.find?_eq_none]
        intro z hz
        have : z.name ≠ k := fun e => h1 (List.mem_map.2 ⟨z, hz, e.trans (h.trans hy.symm)⟩)
        simpa using this
      · rw [if_neg h, List.find?_cons]
        have : y.name ≠ k := fun e => h (e.symm.trans hy)
        simp [this]
    · rw [if_neg hy, List.find?_cons, List.find?_cons, ih h2]
      by_cases h : y.name = k
      · have : k ≠ name := fun e => hy (h.trans e)
        simp [h, this]
      · simp [h]

/-- **C215**: a variable that is unset has no value, wherever it came from, and the others have
theirs. -/
theorem get_unset (v w : Vars) (name k : List Char) (hu : v.Unique) (h : v.unset name = some w) :
    w.get k = if k = name then none else v.get k := by
  unfold Vars.unset at h
  split at h
  · cases h
  · cases h
    unfold Vars.get
    simp only
    rw [find_erase name k _ hu]
    have hg : getenv (v.system.filter fun p => decide (p.1 ≠ name)) k = if k = name then none else getenv v.system k := by
      unfold getenv
      rw [List.find?_filter]
      by_cases e : k = name
      · rw [if_pos e]
        rw [Option.map_eq_none_iff, List.find?_eq_none]
        intro x _
        simp only [decide_eq_true_eq, not_and]
        exact fun h1 h2 => h1 (h2.trans e)
      · rw [if_neg e]
        congr 2
        funext a
        by_cases ha : a.1 = k
        · simp [ha, e]
        · simp [ha]
    by_cases e : k = name
    · simp only [e, if_true]
      rw [e] at hg
      rw [hg, if_pos rfl]
    · simp only [if_neg e]
      rw [hg, if_neg e]

theorem find_current (sys : List Variable) (k : List Char) (out : List Variable) :
    (sys.foldl (fun out s => if out.any (fun o => decide (o.name = s.name)) then out else out ++ [s]) out).find?
      (fun y => decide (y.name = k)) =
    (out.find? fun y => decide (y.name = k)).or (sys.find? fun y => decide (y.name = k)) := by
  induction sys generalizing out with
  | nil => simp
  | cons s sys ih =>
    rw [List.foldl_cons, ih, List.find?_cons]
    by_cases hany : out.any (fun o => decide (o.name = s.name)) = true
    · rw [if_pos hany]
      by_cases hs : s.name = k
      · have : (out.find? fun y => decide (y.name = k)).isSome = true := by
          rw [List.find?_isSome]
          obtain ⟨o, ho, e⟩ := List.any_eq_true.1 hany
          exact ⟨o, ho, by simpa using (by simpa using e : o.name = s.name).trans hs⟩
        cases hf : out.find? fun y => decide (y.name = k) with
        | none => rw [hf] at this; cases this
        | some x => rfl
      · simp [hs]
    · rw [if_neg hany, List.find?_append, List.find?_cons]
      by_cases hs : s.name = k
      · simp [hs]
      · simp [hs]

/-- **C216**: a process that is started is given for every name the value that the process that
starts it has. -/
theorem current_get (v : Vars) (h : ∀ p ∈ v.system, '=' ∉ p.1) (k : List Char) :
    (v.current.find? fun x => decide (x.name = k)).map (·.value) = v.get k := by
  unfold Vars.current Vars.get
  rw [find_current]
  cases hp : v.prioritized.find? fun x => decide (x.name = k) with
  | some x => rfl
  | none =>
    rw [Option.none_or]
    unfold getenv
    generalize v.system = l at h
    simp only
    induction l with
    | nil => rfl
    | cons p ps ih =>
      obtain ⟨h1, h2⟩ := name_make (value := p.2) (h p List.mem_cons_self)
      rw [List.map_cons, List.find?_cons, List.find?_cons, h1]
      by_cases hk : p.1 = k
      · simp [hk]
        rw [← hk, h2]
      · simp only [hk, decide_false]
        exact ih fun q hq => h q (List.mem_cons_of_mem _ hq)

/-- **C216**: and no name is there twice. -/
theorem current_unique (v : Vars) (hu : v.Unique) : (v.current.map (·.name)).Nodup := by
  unfold Vars.current
  generalize (v.system.map fun p => make p.1 p.2) = l
  unfold Vars.Unique at hu
  generalize v.prioritized = out at hu
  induction l generalizing out with
  | nil => exact hu
  | cons s l ih =>
    rw [List.foldl_cons]
    apply ih
    split
    · exact hu
    · rename_i hn
      rw [List.map_append, List.nodup_append]
      refine ⟨hu, by simp, fun a ha b hb e => hn ?_⟩
      obtain ⟨o, ho, eo⟩ := List.mem_map.1 ha
      rcases List.mem_singleton.1 hb with rfl
      exact List.any_eq_true.2 ⟨o, ho, by simpa using eo.trans e⟩

/-- **C215**: whether there is a variable is whether it has a value. -/
theorem has_get (v : Vars) (k : List Char) : v.has k = (v.get k).isSome := by
  unfold Vars.has Vars.get
  cases h : v.prioritized.find? fun x => decide (x.name = k) with
  | some x =>
    rw [if_pos]
    · rfl
    · exact List.any_eq_true.2 ⟨x, List.mem_of_find?_eq_some h, by simpa using List.find?_some h⟩
  | none =>
    rw [if_neg]
    intro hc
    obtain ⟨x, hx, e⟩ := List.any_eq_true.1 hc
    exact absurd e (List.find?_eq_none.1 h x hx)

/-! ### Expansion -/

/-- Specification: there is no `${` in the text. -/
def Plain (l : List Char) : Prop := ¬ ∃ a b, l = a ++ '$' :: '{' :: b

theorem plain_tail {c : Char} {l : List Char} (h : Plain (c :: l)) : Plain l :=
  fun ⟨a, b, e⟩ => h ⟨c :: a, b, by rw [e]; rfl⟩

theorem findOpen_cons {c : Char} {r : List Char} (h : ¬ (c = '$' ∧ ∃ b, r = '{' :: b)) :
    findOpen (c :: r) = (findOpen r).map fun p => (c :: p.1, p.2) := by
  rw [findOpen.eq_def]
  split
  · rename_i e; cases e
  · rename_i e; cases e; exact absurd ⟨rfl, _, rfl⟩ h
  · rename_i e
    cases e
    cases findOpen r with
    | none => rfl
    | some p => rfl

theorem findOpen_plain {l t : List Char} (h : Plain l) (ht : ∀ b, t ≠ '{' :: b) :
    findOpen (l ++ t) = (findOpen t).map fun p => (l ++ p.1, p.2) := by
  induction l with
  | nil => cases h' : findOpen t <;> simp [h']
  | cons c l ih =>
    rw [List.cons_append, findOpen_cons, ih (plain_tail h)]
    · cases findOpen t <;> simp
    · rintro ⟨rfl, b, e⟩
      cases l with
      | nil => exact ht b e
      | cons d l =>
        rw [List.cons_append] at e
        injection e with e1 e2
        exact h ⟨[], l, by rw [e1]; rfl⟩

theorem findOpen_plain_nil {l : List Char} (h : Plain l) : findOpen l = none := by
  have := findOpen_plain (t := []) h (fun b e => by cases e)
  rw [List.append_nil] at this
  rw [this]; rfl

/-- Specification: a text with references: plain text, and after it a number of names, each
with the plain text that follows it. -/
def render (first : List Char) (rest : List (List Char × List Char)) : List Char :=
  first ++ rest.flatMap fun p => '$' :: '{' :: p.1 ++ '}' :: p.2

/-- Specification: the same with the values. -/
def replaced (lookup : List Char → List Char) (first : List Char) (rest : List (List Char × List Char)) : List Char :=
  first ++ rest.flatMap fun p => lookup p.1 ++ p.2

/-- Specification: what can be a name in a reference. -/
def Name (n : List Char) : Prop := n ≠ [] ∧ '}' ∉ n ∧ Plain n

theorem plain_name {n l : List Char} (hn : Plain n) (hl : Plain l) : Plain (n ++ '}' :: l) := by
  rintro ⟨a, b, e⟩
  have : ∀ (n a : List Char), n ++ '}' :: l = a ++ '$' :: '{' :: b → (∃ b', n = a ++ '$' :: '{' :: b') ∨ (∃ a', l = a' ++ '$' :: '{' :: b) := by
    intro n
    induction n with
    | nil =>
      intro a e
      cases a with
      | nil => exact absurd (List.cons.inj e).1 (by decide)
      | cons c a => exact Or.inr ⟨a, (List.cons.inj e).2⟩
    | cons c n ih =>
      intro a e
      cases a with
      | nil =>
        rw [List.cons_append, List.nil_append] at e
        obtain ⟨e1, e2⟩ := List.cons.inj e
        cases n with
        | nil => exact absurd (List.cons.inj e2).1 (by decide)
        | cons d n =>
          obtain ⟨e3, -⟩ := List.cons.inj e2
          exact Or.inl ⟨n, by rw [e1, e3]; rfl⟩
      | cons d a =>
        obtain ⟨e1, e2⟩ := List.cons.inj e
        rcases ih a e2 with ⟨b', h⟩ | h
        · exact Or.inl ⟨b', by rw [e1, h]; rfl⟩
        · exact Or.inr h
  rcases this n a e with ⟨b', h⟩ | ⟨a', h⟩
  · exact hn ⟨a, b', h⟩
  · exact hl ⟨a', b, h⟩

theorem tail_head (rest : List (List Char × List Char)) (b : List Char) :
    (rest.flatMap fun p => '$' :: '{' :: p.1 ++ '}' :: p.2) ≠ '{' :: b := by
  cases rest with
  | nil => intro e; cases e
  | cons p ps => intro e; exact absurd (List.cons.inj e).1 (by decide)

theorem handle_name (lookup : List Char → List Char) {n l : List Char} (hn : Name n) :
    handlePart lookup ('$' :: '{' :: n ++ '}' :: l) = lookup n ++ l := by
  obtain ⟨h0, h1, -⟩ := hn
  unfold handlePart
  have hlen : ¬ (('$' :: '{' :: n ++ '}' :: l).length < 4 ∨ List.take 2 ('$' :: '{' :: n ++ '}' :: l) ≠ ['$', '{']) := by
    cases n with
    | nil => exact absurd rfl h0
    | cons c n => simp; omega
  rw [if_neg hlen, if_pos (by simp)]
  have : ∀ n : List Char, '}' ∉ n → (n ++ '}' :: l).takeWhile (· != '}') = n ∧ (n ++ '}' :: l).dropWhile (· != '}') = '}' :: l := by
    intro n
    induction n with
    | nil => intro _; exact ⟨rfl, rfl⟩
    | cons c n ih =>
      intro h
      have hc : (c != '}') = true := by
        simp only [bne_iff_ne]; exact fun e => h (by rw [e]; exact List.mem_cons_self)
      obtain ⟨i1, i2⟩ := ih fun hm => h (List.mem_cons_of_mem _ hm)
      simp only [List.cons_append, List.takeWhile_cons, List.dropWhile_cons, hc, if_true, i1, i2, and_self]
  obtain ⟨t1, t2⟩ := this ('$' :: '{' :: n) (by simp [h1])
  rw [t1, t2]
  rfl

theorem handle_plain (lookup : List Char → List Char) {l : List Char} (h : Plain l) : handlePart lookup l = l := by
  unfold handlePart
  rw [if_pos]
  by_cases hl : l.length < 4
  · exact Or.inl hl
  · refine Or.inr fun e => h ⟨[], l.drop 2, ?_⟩
    have := List.take_append_drop 2 l
    rw [e] at this
    exact this.symm

theorem expandParts_render (lookup : List Char → List Char) (rest : List (List Char × List Char)) :
    ∀ (first : List Char) (n : Nat), Plain first → (∀ p ∈ rest, Name p.1 ∧ Plain p.2) → (render first rest).length ≤ n →
      expandParts lookup n (render first rest) = replaced lookup first rest := by
  -- the references first
  have step : ∀ (rest : List (List Char × List Char)) (n : Nat), (∀ p ∈ rest, Name p.1 ∧ Plain p.2) → (render [] rest).length ≤ n →
      expandParts lookup n (render [] rest) = replaced lookup [] rest := by
    intro rest
    induction rest with
    | nil => intro n _ _; cases n <;> simp [expandParts, render, replaced]
    | cons p ps ih =>
      intro n hp hn
      obtain ⟨hname, hplain⟩ := hp p List.mem_cons_self
      have e : render [] (p :: ps) = '$' :: '{' :: ((p.1 ++ '}' :: p.2) ++ render [] ps) := by
        simp [render, List.append_assoc]
      have hr : render [] ps = ps.flatMap fun p => '$' :: '{' :: p.1 ++ '}' :: p.2 := by simp [render]
      cases n with
      | zero => rw [e] at hn; simp at hn
      | succ n =>
        have hnp : nextPart (render [] (p :: ps)) = ('$' :: '{' :: p.1 ++ '}' :: p.2, render [] ps) := by
          unfold nextPart
          rw [e, show findOpen ('$' :: '{' :: ((p.1 ++ '}' :: p.2) ++ render [] ps)) = some ([], _) from rfl]
          simp only [List.drop_succ_cons, List.drop_zero]
          rw [findOpen_plain (plain_name hname.2.2 hplain) (by rw [hr]; exact tail_head ps)]
          cases ps with
          | nil => simp [render, findOpen]
          | cons q qs =>
            have : findOpen (render [] (q :: qs)) = some ([], render [] (q :: qs)) := by
              simp [render, findOpen]
            rw [this]
            simp
        show (if render [] (p :: ps) = [] then [] else _) = _
        rw [if_neg (by rw [e]; exact List.cons_ne_nil _ _), hnp]
        simp only
        rw [handle_name lookup hname, ih n (fun q hq => hp q (List.mem_cons_of_mem _ hq))]
        · simp [replaced]
        · rw [e] at hn
          simp only [List.length_cons, List.length_append] at hn
          omega
  intro first n hf hr hn
  cases first with
  | nil => exact step rest n hr hn
  | cons c first =>
    cases n with
    | zero => simp [render] at hn
    | succ n =>
      have hnp : nextPart (render (c :: first) rest) = (c :: first, render [] rest) := by
        unfold nextPart
        have hrr : render (c :: first) rest = (c :: first) ++ render [] rest := by simp [render]
        rw [hrr, findOpen_plain hf (by
          have : render [] rest = rest.flatMap fun p => '$' :: '{' :: p.1 ++ '}' :: p.2 := by simp [render]
          rw [this]; exact tail_head rest)]
        cases rest with
        | nil => simp [render, findOpen]
        | cons q qs =>
          have : findOpen (render [] (q :: qs)) = some ([], render [] (q :: qs)) := by
            simp [render, findOpen]
          rw [this]
          simp
      show (if render (c :: first) rest = [] then [] else _) = _
      rw [if_neg (by simp [render]), hnp]
      simp only
      rw [handle_plain lookup hf, step rest n hr]
      · simp [replaced]
      · simp only [render, List.cons_append, List.length_cons, List.nil_append, List.length_append] at hn ⊢
        omega

/-- **C214**: in a configured text every reference `${name}` is replaced by the value of the
variable, and the rest is left as it is; the values are not looked at again. -/
theorem expand_references (lookup : List Char → List Char) (first : List Char) (rest : List (List Char × List Char))
    (hf : Plain first) (hr : ∀ p ∈ rest, Name p.1 ∧ Plain p.2) :
    expandWith lookup (render first rest) = replaced lookup first rest :=
  expandParts_render lookup rest first _ hf hr (Nat.le_refl _)

/-- **C214**: text without references is left as it is. -/
theorem expand_plain (lookup : List Char → List Char) (l : List Char) (h : Plain l) : expandWith lookup l = l := by
  have := expand_references lookup l [] h (fun p hp => by cases hp)
  simpa [render, replaced] using this

/-- **C214**: and so is text after `${` that does not end with `}`. -/
theorem expand_open (lookup : List Char → List Char) (a l : List Char) (ha : Plain a) (h : Plain l) (hl : '}' ∉ l) :
    expandWith lookup (a ++ '$' :: '{' :: l) = a ++ '$' :: '{' :: l := by
  have key : ∀ n, ('$' :: '{' :: l).length ≤ n → expandParts lookup n ('$' :: '{' :: l) = '$' :: '{' :: l := by
    intro n hn
    cases n with
    | zero => simp at hn
    | succ n =>
      show (if _ then _ else _) = _
      rw [if_neg (List.cons_ne_nil _ _)]
      have hnp : nextPart ('$' :: '{' :: l) = ('$' :: '{' :: l, []) := by
        unfold nextPart
        rw [show findOpen ('$' :: '{' :: l) = some ([], '$' :: '{' :: l) from rfl]
        simp only [List.drop_succ_cons, List.drop_zero]
        rw [findOpen_plain_nil h]
      rw [hnp]
      simp only
      have hh : handlePart lookup ('$' :: '{' :: l) = '$' :: '{' :: l := by
        unfold handlePart
        split
        · rfl
        · rw [if_neg]
          simp [hl]
      rw [hh]
      cases n <;> simp [expandParts]
  unfold expandWith
  cases a with
  | nil => exact key _ (Nat.le_refl _)
  | cons c a =>
    show (if _ then _ else _) = _
    rw [if_neg (by simp)]
    have hnp : nextPart ((c :: a) ++ '$' :: '{' :: l) = (c :: a, '$' :: '{' :: l) := by
      unfold nextPart
      rw [findOpen_plain ha (by intro b e; exact absurd (List.cons.inj e).1 (by decide))]
      rw [show findOpen ('$' :: '{' :: l) = some ([], '$' :: '{' :: l) from rfl]
      simp
    rw [hnp]
    simp only
    rw [handle_plain lookup ha, key]
    show _ ≤ (a ++ '$' :: '{' :: l).length
    simp

/-- **C214**: a variable given locally counts, then that of the process; what is not there is
nothing. -/
theorem expand_local (v : Vars) (loc : List Variable) (n : List Char) (hn : Name n) :
    expandLocal v loc ('$' :: '{' :: n ++ ['}']) =
      match loc.find? (fun x => decide (x.name = n)) with
      | some x => x.value
      | none => (v.get n).getD [] := by
  have := expand_references (fun n => match loc.find? (fun x => decide (x.name = n)) with
    | some x => x.value
    | none => (v.get n).getD []) [] [(n, [])] (by rintro ⟨a, b, e⟩; cases a <;> cases e)
    (by
      intro p hp
      rcases List.mem_singleton.1 hp with rfl
      exact ⟨hn, by rintro ⟨a, b, e⟩; cases a <;> cases e⟩)
  simp only [render, replaced, List.flatMap_cons, List.flatMap_nil, List.append_nil, List.nil_append] at this
  exact this

/-- A text with references, and what becomes of it. -/
example : expand { prioritized := [{ text := "A=${B}" }], system := [("HOME".toList, "/home/x".toList)] }
    "a/${HOME}/$x${A}${NONE}}${${HOME}".toList = "a//home/x/$x${B}}${/home/x".toList := by decide +kernel

/-- An empty name is left as it is, but only at the end. -/
example : expand {} "${}".toList = "${}".toList ∧ expand {} "${}x".toList = "x".toList := by decide +kernel

end Casual.Env
