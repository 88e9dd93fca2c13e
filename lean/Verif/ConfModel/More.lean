import Verif.ConfModel.UserProps
/-
  More about configurations: what the later of two says about inbound connections, which
  strings are placeholders, services, and processes without an alias in several files.
-/
namespace Casual.ConfModel

theorem inj_of_nodup {α κ : Type} {f : α → κ} {l : List α} (h : (l.map f).Nodup) {x y : α} (hx : x ∈ l) (hy : y ∈ l)
    (e : f x = f y) : x = y := by
  induction l with
  | nil => cases hx
  | cons a l ih =>
    rw [List.map_cons, List.nodup_cons] at h
    rcases List.mem_cons.1 hx with rfl | hx' <;> rcases List.mem_cons.1 hy with rfl | hy'
    · rfl
    · exact absurd (e ▸ List.mem_map_of_mem hy') h.1
    · exact absurd (e ▸ List.mem_map_of_mem hx') h.1
    · exact ih h.2 hx' hy'

/-! ### C203: inbound groups -/

/-- **C203** (partial): the limits of an inbound group that both configurations have are those of
the later, and so is whether discovery is forwarded over a connection. -/
theorem union_inbound_partial (l r : InGroup) :
    (l.union r).limitSize = r.limitSize ∧ (l.union r).limitMessages = r.limitMessages ∧ (l.union r).connect = r.connect ∧
    ((r.connections.map InConnection.address).Nodup → ∀ c ∈ r.connections,
      ∃ c' ∈ (l.union r).connections, c'.address = c.address ∧ c'.forward = c.forward) := by
  refine ⟨rfl, rfl, rfl, fun hn c hc => ?_⟩
  have hu := findKey_update (keyed_key InConnection.address) (f := InConnection.union)
    (keeps_key fun _ _ => rfl) c.address r.connections l.connections (by rw [keys_some]; exact hn)
  cases h1 : findKey (fun x => some (InConnection.address x)) c.address r.connections with
  | none => exact absurd rfl (findKey_none h1 c hc)
  | some y =>
    have hy := findKey_some h1
    have hyc : y = c := by
      have e : y.address = c.address := Option.some.inj hy.2
      exact inj_of_nodup hn hy.1 hc e
    subst hyc
    rw [h1] at hu
    cases h2 : findKey (fun x => some (InConnection.address x)) y.address l.connections with
    | none =>
      rw [h2] at hu
      exact ⟨y, (findKey_some hu).1, rfl, rfl⟩
    | some x =>
      rw [h2] at hu
      exact ⟨x.union y, (findKey_some hu).1, Option.some.inj (findKey_some hu).2, rfl⟩

example : ((InGroup.union { alias := "a", limitSize := 3, connections := [{ address := "x" }] }
    { alias := "a", limitSize := 7, connections := [{ address := "x", forward := true }] }).connections.map (·.forward)) = [true] := by
  decide +kernel

/-! ### C202: placeholders -/

/-- **C202**: exactly those strings are placeholders that are made of an identifier, 32
hexadecimal digits. -/
theorem isPlaceholder_iff (s : String) : isPlaceholder s = true ↔
    ∃ id : List Char, id.length = 32 ∧ (∀ c ∈ id, isHex c = true) ∧ s = String.ofList ("alias-placeholder-".toList ++ id) := by
  unfold isPlaceholder
  simp only [Bool.and_eq_true, decide_eq_true_eq, List.all_eq_true]
  constructor
  · rintro ⟨⟨h1, h2⟩, h3⟩
    refine ⟨s.toList.drop 18, h2, h3, ?_⟩
    rw [← h1, List.take_append_drop, String.ofList_toList]
  · rintro ⟨id, h1, h2, rfl⟩
    rw [String.toList_ofList]
    have hl : "alias-placeholder-".toList.length = 18 := by decide +kernel
    have ht : (("alias-placeholder-".toList ++ id).take 18) = "alias-placeholder-".toList := by
      rw [← hl]; exact List.take_left
    have hd : (("alias-placeholder-".toList ++ id).drop 18) = id := by
      rw [← hl]; exact List.drop_left
    rw [ht, hd]
    exact ⟨⟨rfl, h1⟩, h2⟩

example : isPlaceholder "alias-placeholder-0123456789abcdef0123456789abcdef" = true := by decide +kernel

/-! ### C208: services -/

/-- **C208**: a service is offered under the routes that are configured. -/
theorem service_routes (fresh : Nat → String) (n : Nat) (f : UModel) (m : Model)
    (h : transform (f.normalize fresh n).2 = some m) :
    m.service.services.map (fun s => (s.name, s.routes)) = f.services.map (fun s => (s.name, s.routes.getD [])) := by
  obtain ⟨t, s, -, hs, rfl⟩ := transform_some h
  have hl : ∀ x : UService, x.legacy.name = x.name ∧ x.legacy.routes = x.routes := by
    intro x
    unfold UService.legacy
    repeat' split
    all_goals exact ⟨rfl, rfl⟩
  have hw : ∀ (d : UServiceDefault) (x : UService), (x.withDefault d).name = x.name ∧ (x.withDefault d).routes = x.routes := by
    intro d x
    unfold UService.withDefault
    dsimp only
    split <;> exact ⟨rfl, rfl⟩
  unfold transformService at hs
  split at hs
  · cases hs
  · have e := Option.some.inj hs
    rw [← e]
    have hm : (f.normalize fresh n).2.services.map (fun s => (s.name, s.routes.getD [])) =
        f.services.map (fun s => (s.name, s.routes.getD [])) := by
      unfold UModel.normalize
      dsimp only
      split
      · simp only [List.map_map]
        refine List.map_congr_left fun x _ => ?_
        simp only [Function.comp, (hl x).1, (hl x).2]
      · dsimp only
        split
        · simp only [List.map_map]
          refine List.map_congr_left fun x _ => ?_
          simp only [Function.comp, (hl x).1, (hl x).2, (hw _ _).1, (hw _ _).2]
        · simp only [List.map_map]
          refine List.map_congr_left fun x _ => ?_
          simp only [Function.comp, (hl x).1, (hl x).2]
    rw [← hm, List.map_map]
    exact List.map_congr_left fun _ _ => rfl

/-! ### C204: processes without an alias -/

theorem placeholders_le (fresh : Nat → String) (n : Nat) (l : List UEntity) : n ≤ (placeholders fresh n l).1 := by
  induction l generalizing n with
  | nil => exact Nat.le_refl _
  | cons e es ih =>
    unfold placeholders
    split
    · exact Nat.le_trans (Nat.le_succ n) (ih (n + 1))
    · exact ih n

theorem placeholders_unnamed (fresh : Nat → String) (n : Nat) (l : List UEntity) (h : ∀ e ∈ l, e.alias.getD "" = "") :
    (placeholders fresh n l).1 = n + l.length ∧
      (placeholders fresh n l).2.map (fun e => e.alias.getD "") = (List.range' n l.length).map fresh := by
  induction l generalizing n with
  | nil => exact ⟨rfl, rfl⟩
  | cons e es ih =>
    have := ih (n + 1) fun x hx => h x (List.mem_cons_of_mem _ hx)
    unfold placeholders
    rw [if_pos (h e List.mem_cons_self)]
    refine ⟨?_, ?_⟩
    · dsimp only; rw [this.1, List.length_cons]; omega
    · simp only [List.map_cons, this.2, List.length_cons, List.range'_succ, Option.getD_some]

/-- What is seen of a process without its alias: what is started, and how. -/
def seen (e : Entity) : String × String × List String := (e.dir, e.filename, e.arguments)

/-- The same of what is written in a file. -/
def useen (e : UEntity) : String × String × List String := (e.dir, e.filename, e.arguments.getD [])

theorem normalize_servers (fresh : Nat → String) (n : Nat) (f : UModel) :
    ∃ k, n ≤ k ∧ (f.normalize fresh n).1 = (placeholders fresh k f.servers).1 ∧
      ((f.normalize fresh n).2.servers.map UEntity.transform).map (·.alias) =
        (placeholders fresh k f.servers).2.map (fun e => e.alias.getD "") ∧
      ((f.normalize fresh n).2.servers.map UEntity.transform).map seen = f.servers.map useen := by
  refine ⟨(placeholders fresh n f.executables).1, placeholders_le .., ?_⟩
  have hp := placeholders_map useen (fun _ _ => rfl) fresh f.servers (placeholders fresh n f.executables).1
  unfold UModel.normalize
  dsimp only
  split
  · refine ⟨rfl, ?_, ?_⟩
    · simp only [List.map_map]; exact List.map_congr_left fun _ _ => rfl
    · rw [← hp]; simp only [List.map_map]; exact List.map_congr_left fun _ _ => rfl
  · refine ⟨rfl, ?_, ?_⟩
    · dsimp only
      split
      · simp only [List.map_map]; exact List.map_congr_left fun _ _ => rfl
      · simp only [List.map_map]; exact List.map_congr_left fun _ _ => rfl
    · rw [← hp]
      dsimp only
      split
      · simp only [List.map_map]; exact List.map_congr_left fun _ _ => rfl
      · simp only [List.map_map]; exact List.map_congr_left fun _ _ => rfl

theorem accumulate_unnamed (fresh : Nat → String) (hinj : ∀ a b, fresh a = fresh b → a = b) (files : List UModel)
    (hf : ∀ f ∈ files, ∀ e ∈ f.servers, e.alias.getD "" = "") (n : Nat) (m r : Model)
    (hm : ∀ e ∈ m.domain.servers, ∃ k, k < n ∧ e.alias = fresh k) (hd : (m.domain.servers.map (·.alias)).Nodup)
    (h : accumulate fresh n m files = some r) :
    r.domain.servers.map seen = m.domain.servers.map seen ++ (files.flatMap (·.servers)).map useen := by
  induction files generalizing n m with
  | nil =>
    unfold accumulate at h
    cases h
    simp
  | cons f fs ih =>
    unfold accumulate at h
    dsimp only at h
    obtain ⟨k, hk, h1, h2, h3⟩ := normalize_servers fresh n f
    have hp := placeholders_unnamed fresh k f.servers (hf f List.mem_cons_self)
    cases ht : transform (f.normalize fresh n).2 with
    | none => rw [ht] at h; cases h
    | some t =>
      rw [ht] at h
      dsimp only at h
      obtain ⟨x, y, -, -, rfl⟩ := transform_some ht
      have hal : ((f.normalize fresh n).2.servers.map UEntity.transform).map (·.alias) =
        (List.range' k f.servers.length).map fresh := h2.trans hp.2
      have hnd : (((m.domain.servers ++ (f.normalize fresh n).2.servers.map UEntity.transform)).map (·.alias)).Nodup := by
        rw [List.map_append, hal, List.nodup_append]
        refine ⟨hd, ?_, ?_⟩
        · exact List.Pairwise.map fresh (fun a b (hab : a ≠ b) e => hab (hinj a b e)) List.nodup_range'
        · intro a ha b hb e
          obtain ⟨q, hq, rfl⟩ := List.mem_map.1 ha
          obtain ⟨j, hj, rfl⟩ := List.mem_map.1 hb
          obtain ⟨i, hi, hie⟩ := hm q hq
          have := hinj _ _ (hie.symm.trans e)
          have := (List.mem_range'_1.1 hj).1
          omega
      have hu : (m.union { domain := transformDomain (f.normalize fresh n).2, transaction := x, service := y }).domain.servers =
          m.domain.servers ++ (f.normalize fresh n).2.servers.map UEntity.transform :=
        replace_disjoint_name (name := Entity.alias) (distinct_of_nodup hnd)
      have := ih (fun g hg => hf g (List.mem_cons_of_mem _ hg)) _ _ (by
        rw [hu]
        intro e he
        rcases List.mem_append.1 he with he | he
        · obtain ⟨i, hi, hie⟩ := hm e he
          exact ⟨i, by rw [h1, hp.1]; omega, hie⟩
        · have : e.alias ∈ (List.range' k f.servers.length).map fresh := hal ▸ List.mem_map_of_mem he
          obtain ⟨j, hj, hje⟩ := List.mem_map.1 this
          exact ⟨j, by rw [h1, hp.1]; exact (List.mem_range'_1.1 hj).2, hje.symm⟩) (by rw [hu]; exact hnd) h
      rw [this, hu, List.map_append, h3, List.flatMap_cons, List.map_append, List.append_assoc]

/-- **C204**: servers without an alias never replace each other: however many files they are
spread over, all of them are there, in order, as they are written. -/
theorem unnamed_kept (fresh : Nat → String) (hinj : ∀ a b, fresh a = fresh b → a = b) (files : List UModel)
    (hf : ∀ f ∈ files, ∀ e ∈ f.servers, e.alias.getD "" = "") (r : Model)
    (h : accumulate fresh 0 {} files = some r) :
    r.domain.servers.map seen = (files.flatMap (·.servers)).map useen := by
  have := accumulate_unnamed fresh hinj files hf 0 {} r (fun e he => by cases he) List.nodup_nil h
  simpa using this

example : ∃ r, accumulate (fun n => "p" ++ Nat.repr n) 0 {}
    [{ servers := [{ filename := "a" }, { filename := "a" }] }, { servers := [{ filename := "a" }] }] = some r ∧
    r.domain.servers.length = 3 := by
  refine ⟨_, rfl, ?_⟩
  decide +kernel

end Casual.ConfModel
