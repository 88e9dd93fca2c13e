import Verif.Gateway.InKeep
import Verif.Gateway.InCount
import Verif.Util
/-! What a request that is not answered waits for. -/
namespace Casual.Gateway.In

def reqCorr : Obs → Option Nat
  | .req _ c _ _ => some c
  | _ => none

/-- The correlations of the requests are unique. -/
def Distinct (l : List Obs) : Prop := (l.filterMap reqCorr).Nodup

/-- TM does not give a transaction id that is one of the other domain. -/
def Fresh (l : List Obs) : Prop :=
  ∀ c b, .gotBranch c b ∈ l → ∀ d c' k, .req d c' k (some b) ∉ l

/-- SM has been asked, and has not answered since. -/
def waitS (c : Nat) : List Obs → Bool
  | [] => false
  | .askService _ c' :: l => c' == c || waitS c l
  | .gotService c' _ :: l => c' != c && waitS c l
  | _ :: l => waitS c l

/-- TM has been asked for a branch, and has not answered since. -/
def waitB (c : Nat) : List Obs → Bool
  | [] => false
  | .askBranch _ c' _ :: l => c' == c || waitB c l
  | .gotBranch c' _ :: l => c' != c && waitB c l
  | _ :: l => waitB c l

/-- The request has been passed on to a local process or TM, that has not answered since. -/
def waitR (c : Nat) (k : Kind) : List Obs → Bool
  | [] => false
  | .fwd _ c' k' _ _ :: l => (c' == c && k' == k) || waitR c k l
  | .toTM c' k' _ _ :: l => (c' == c && k' == k) || waitR c k l
  | .got _ c' k' _ :: l => !(c' == c && k' == replyKind k) && waitR c k l
  | _ :: l => waitR c k l

theorem Distinct.of {a l : List Obs} (h : Distinct (a ++ l)) : Distinct l := by
  unfold Distinct at *
  rw [List.filterMap_append] at h
  exact (List.nodup_append.mp h).2.1

theorem Fresh.of {a l : List Obs} (h : Fresh (a ++ l)) : Fresh l :=
  fun c b hg d c' k hr => h c b (List.mem_append_right _ hg) d c' k (List.mem_append_right _ hr)

theorem mem_reqs {d c k x} {l : List Obs} (h : .req d c k x ∈ l) : c ∈ l.filterMap reqCorr :=
  List.mem_filterMap.mpr ⟨_, h, rfl⟩

theorem queueSend_log (p t s) : ∃ a, (queueSend p t s).log = a ++ s.log := by
  unfold queueSend; split
  · rcases fake_log t.key t.corr t.kind ⟨0, 0⟩ s with h | h <;> rw [h]
    · exact ⟨[], rfl⟩
    · exact ⟨[_], rfl⟩
  · exact ⟨[_], rfl⟩

theorem grows {s t} (h : Move s t) (hd : t.dead = false) : ∃ a, t.log = a ++ s.log := by
  cases h
  case same h5 h6 _ => exact ⟨[], h5⟩
  case die h => rw [h] at hd; cases hd
  case lost d hc => rw [lost_eq hc]; exact ⟨(discards (s.tasks.filter (·.key = d))).reverse ++ [.closed d], by simp⟩
  case service k d c x hk hc =>
    obtain ⟨t, _, _, _, _, _, h⟩ := service_facts k d c x (emit (.req d c k x) s)
    rcases h with h | ⟨g, h⟩ <;> rw [h]
    · exact ⟨[_, _], rfl⟩
    · exact ⟨[_, _, _], rfl⟩
  case queue k d c x qm hk hc =>
    obtain ⟨t, _, _, _, _, _, a, _, h⟩ := queue_facts k d c x qm (emit (.req d c k x) s)
    rw [h]; exact ⟨a ++ [.req d c k x], by simp⟩
  case resource k d c x hk hc =>
    obtain ⟨t, _, _, _, _, _, a, _, h⟩ := resource_facts k d c x (emit (.req d c k x) s)
    rw [h]; exact ⟨a ++ [.req d c k x], by simp⟩
  case noService t l r _ _ _ =>
    rcases fake_log t.key t.corr (replyKind t.kind) r (emit (.gotService t.corr l) s) with h | h <;> rw [h]
    · exact ⟨[_], rfl⟩
    · exact ⟨[_, _], rfl⟩
  case made d c k r =>
    rcases fake_log d c (replyKind k) r s with h | h <;> rw [h]
    · exact ⟨[], rfl⟩
    · exact ⟨[_], rfl⟩
  case queueSend pre t post p _ _ _ _ =>
    obtain ⟨a, h⟩ := queueSend_log p t (emit (.gotQueue t.corr p) s)
    exact ⟨a ++ [.gotQueue t.corr p], by simp only; rw [h]; simp⟩
  case branchQueueSend pre t post b p _ _ _ _ =>
    obtain ⟨a, h⟩ := queueSend_log p { t with trid := some b, wait := false }
      { emit (.gotBranch t.corr b) s with cache := addTrid b t.key s.cache }
    exact ⟨a ++ [.gotBranch t.corr b], by simp only; rw [h]; simp⟩
  case answered g hg h hf hk he h1 h2 => exact ⟨_ :: g, rfl⟩
  case idleFwd => exact ⟨[_, _], rfl⟩
  case branchFwd => exact ⟨[_, _], rfl⟩
  case pop => exact ⟨[], rfl⟩
  all_goals exact ⟨[_], rfl⟩

def Mine (ib : List Own) (t : Task) : Prop := ∃ m ∈ ib, m.d = t.key ∧ m.c = t.corr ∧ m.k = replyKind t.kind

def calls (k : Kind) : Prop := k = .call ∨ k = .post

structure TStage (l : List Obs) (ib : List Own) (t : Task) : Prop where
  ask : calls t.kind → t.lookup = none → waitS t.corr l = true ∨ Mine ib t
  fwd : calls t.kind → t.lookup ≠ none → (t.origin = none ∨ t.origin ≠ t.trid) → waitR t.corr t.kind l = true
  hold : calls t.kind → t.origin ≠ none → t.origin = t.trid → waitB t.corr l = true
  res : isResource t.kind = true → waitR t.corr t.kind l = true ∨ Mine ib t
  some : isService t.kind = true → t.lookup ≠ some none

structure Stage (s : State) : Prop where
  nodup : (s.tasks.map (·.corr)).Nodup
  asked : ∀ t ∈ s.tasks, .req t.key t.corr t.kind t.origin ∈ s.log
  cached : ∀ a ∈ s.cache, ∃ c, .gotBranch c a.trid ∈ s.log
  keys : ∀ t ∈ s.tasks, connected t.key s = true
  tasks : ∀ t ∈ s.tasks, TStage s.log s.inbox t

theorem calls_service {k} (h : calls k) : isService k = true := by rcases h with h | h <;> rw [h] <;> rfl
theorem calls_once {k} (h : calls k) : once k = true := by rcases h with h | h <;> rw [h] <;> rfl
theorem resource_once {k} (h : isResource k = true) : once k = true := by unfold once; rw [h]; simp

theorem TStage.frame {l l' ib ib' t} (h : TStage l ib t)
    (h1 : isService t.kind = true → waitS t.corr l = true → waitS t.corr l' = true)
    (h2 : once t.kind = true → waitR t.corr t.kind l = true → waitR t.corr t.kind l' = true)
    (h3 : isService t.kind = true → waitB t.corr l = true → waitB t.corr l' = true)
    (h4 : Mine ib t → Mine ib' t) : TStage l' ib' t where
  ask := fun hc hl => (h.ask hc hl).imp (h1 (calls_service hc)) h4
  fwd := fun hc hl ho => h2 (calls_once hc) (h.fwd hc hl ho)
  hold := fun hc ho ht => h3 (calls_service hc) (h.hold hc ho ht)
  res := fun hr => (h.res hr).imp (h2 (resource_once hr)) h4
  some := h.some

/-- Nothing that a request waits for. -/
def aside : Obs → Bool
  | .gotService .. | .gotBranch .. | .got .. => false
  | _ => true

theorem aside_S {o c l} (h : aside o = true) (hw : waitS c l = true) : waitS c (o :: l) = true := by
  cases o <;> simp_all [aside, waitS]
theorem aside_B {o c l} (h : aside o = true) (hw : waitB c l = true) : waitB c (o :: l) = true := by
  cases o <;> simp_all [aside, waitB]
theorem aside_R {o c k l} (h : aside o = true) (hw : waitR c k l = true) : waitR c k (o :: l) = true := by
  cases o <;> simp_all [aside, waitR]

theorem TStage.aside {l ib o t} (h : TStage l ib t) (ho : aside o = true) : TStage (o :: l) ib t :=
  h.frame (fun _ => aside_S ho) (fun _ => aside_R ho) (fun _ => aside_B ho) id

theorem TStage.asides {l ib t} (a : List Obs) (h : TStage l ib t) (ho : ∀ o ∈ a, In.aside o = true) : TStage (a ++ l) ib t := by
  induction a with
  | nil => exact h
  | cons o a ih => exact (ih fun o ho' => ho o (List.mem_cons_of_mem _ ho')).aside (ho o (List.mem_cons_self ..))

theorem TStage.inbox {l ib ib' t} (h : TStage l ib t) (h4 : Mine ib t → Mine ib' t) : TStage l ib' t :=
  h.frame (fun _ => id) (fun _ => id) (fun _ => id) h4

/-- A message about another correlation. -/
theorem TStage.other {l ib t o} (h : TStage l ib t) (c : Nat) (hc : c ≠ t.corr)
    (ho : (∃ x, o = .gotService c x) ∨ (∃ x, o = .gotBranch c x) ∨ ∃ d k r, o = .got d c k r) : TStage (o :: l) ib t := by
  rcases ho with ⟨x, rfl⟩ | ⟨x, rfl⟩ | ⟨d, k, r, rfl⟩
  · exact h.frame (fun _ hw => by simp [waitS, hc, hw]) (fun _ hw => hw) (fun _ hw => hw) id
  · exact h.frame (fun _ hw => hw) (fun _ hw => hw) (fun _ hw => by simp [waitB, hc, hw]) id
  · exact h.frame (fun _ hw => hw) (fun _ hw => by simp [waitR, hc, hw]) (fun _ hw => hw) id

theorem deaf_kind {p : Kind → Bool} {s : State} {t : Task} (hn : (s.tasks.map (·.corr)).Nodup) (ht : t ∈ s.tasks)
    (h : Deaf p t.corr s) : p t.kind = false := by
  rcases h with h | ⟨u, hu, h1, h2⟩
  · exact absurd rfl (h t ht)
  · have : u = t := eq_of_nodup_map hn hu ht h1
    rw [← this]; exact h2

theorem once_reply {k : Kind} (h : once k = true) : (replyKind k == .call || isResource (replyKind k)) = true := by
  cases k <;> first | rfl | (cases h; done)

theorem TStage.note {s o t} (hn : (s.tasks.map (·.corr)).Nodup) (ht : t ∈ s.tasks) (h : TStage s.log s.inbox t) (ho : Harmless s o) :
    TStage (o :: s.log) s.inbox t := by
  by_cases ha : In.aside o = true
  · exact h.aside ha
  · cases o <;> try exact absurd rfl ha
    case gotService c l =>
      by_cases hc : c = t.corr
      · subst hc
        have := deaf_kind hn ht ho
        exact h.frame (fun hs => by rw [this] at hs; cases hs) (fun _ hw => hw) (fun _ hw => hw) id
      · exact h.other c hc (Or.inl ⟨_, rfl⟩)
    case gotBranch c b =>
      by_cases hc : c = t.corr
      · subst hc
        have := deaf_kind (p := fun k => isService k || isQueue k) hn ht ho
        exact h.frame (fun _ hw => hw) (fun _ hw => hw) (fun hs => by simp [hs] at this) id
      · exact h.other c hc (Or.inr (Or.inl ⟨_, rfl⟩))
    case got d c k r =>
      by_cases hc : c = t.corr
      · subst hc
        refine h.frame (fun _ hw => hw) (fun hs hw => ?_) (fun _ hw => hw) id
        by_cases hk : k = replyKind t.kind
        · subst hk
          have := deaf_kind hn ht (ho (once_reply hs))
          simp [ends] at this
        · simp [waitR, hk, hw]
      · exact h.other c hc (Or.inr (Or.inr ⟨_, _, _, rfl⟩))

theorem nodup_change {s : List Task} {pre post : List Task} {t t' : Task} (h : s = pre ++ t :: post) (hc : t'.corr = t.corr)
    (hn : (s.map (·.corr)).Nodup) : ((pre ++ t' :: post).map (·.corr)).Nodup := by
  rw [h] at hn; simpa [hc] using hn

theorem nodup_removed {s : List Task} {pre post : List Task} {t : Task} (h : s = pre ++ t :: post)
    (hn : (s.map (·.corr)).Nodup) : ((pre ++ post).map (·.corr)).Nodup := by
  rw [h] at hn
  refine List.Sublist.nodup (List.Sublist.map _ ?_) hn
  exact List.Sublist.append_left (List.sublist_cons_self ..) _

theorem not_corr {s : List Task} {pre post : List Task} {t u : Task} (h : s = pre ++ t :: post)
    (hn : (s.map (·.corr)).Nodup) (hu : u ∈ pre ++ post) : u ∈ s ∧ t.corr ≠ u.corr := by
  rw [h] at hn ⊢
  refine ⟨by simp at hu ⊢; rcases hu with h | h <;> simp [h], fun e => ?_⟩
  simp only [List.map_append, List.map_cons, List.nodup_append, List.nodup_cons] at hn
  rcases List.mem_append.mp hu with hu | hu
  · exact hn.2.2 u.corr (List.mem_map_of_mem hu) t.corr (List.mem_cons_self ..) e.symm
  · exact hn.2.1.1 (by rw [e]; exact List.mem_map_of_mem hu)

theorem mine_fake {d c k r s t} (h : Mine s.inbox t) : Mine (fake d c k r s).inbox t := by
  obtain ⟨m, hm, h⟩ := h
  unfold fake; split
  · exact ⟨m, List.mem_append_left _ hm, h⟩
  · exact ⟨m, hm, h⟩

theorem fake_asides (d c k r s) : ∃ a, (fake d c k r s).log = a ++ s.log ∧ ∀ o ∈ a, aside o = true := by
  rcases fake_log d c k r s with h | h <;> rw [h]
  · exact ⟨[], rfl, by simp⟩
  · exact ⟨[_], rfl, by simp [aside]⟩

theorem queueSend_asides (p t s) : ∃ a, (queueSend p t s).log = a ++ s.log ∧ ∀ o ∈ a, aside o = true := by
  unfold queueSend; split
  · exact fake_asides ..
  · exact ⟨[_], rfl, by simp [aside]⟩

theorem mine_queueSend {p t s u} (h : Mine s.inbox u) : Mine (queueSend p t s).inbox u := by
  unfold queueSend; split
  · exact mine_fake h
  · exact h

theorem queueSend_conns (p t s) : (queueSend p t s).conns = s.conns := by
  unfold queueSend; split
  · exact fake_conns ..
  · rfl
theorem queueSend_cache (p t s) : (queueSend p t s).cache = s.cache := by
  unfold queueSend; split
  · exact fake_cache ..
  · rfl

/-- The unit `t` is changed to `t'`, and the message was for it. -/
theorem stage_change {s u : State} {pre post : List Task} {t t' : Task} (hs : Stage s) (h : s.tasks = pre ++ t :: post)
    (hu : u.tasks = pre ++ t' :: post) (h1 : t'.corr = t.corr) (h2 : t'.key = t.key) (h3 : t'.kind = t.kind) (h4 : t'.origin = t.origin)
    (hcon : u.conns = s.conns) (hl : ∃ a, u.log = a ++ s.log) (hc : ∀ a ∈ u.cache, ∃ c, .gotBranch c a.trid ∈ u.log)
    (hot : ∀ v, v.corr ≠ t.corr → TStage s.log s.inbox v → TStage u.log u.inbox v)
    (hit : TStage s.log s.inbox t → TStage u.log u.inbox t') : Stage u where
  nodup := by rw [hu]; exact nodup_change h h1 hs.nodup
  asked := fun v hv => by
    obtain ⟨a, e⟩ := hl
    rw [e]; refine List.mem_append_right _ ?_
    rw [hu] at hv
    have ht := hs.asked t (by rw [h]; simp)
    simp only [List.mem_append, List.mem_cons] at hv
    rcases hv with hv | rfl | hv
    · exact hs.asked v (by rw [h]; simp [hv])
    · rw [h1, h2, h3, h4]; exact ht
    · exact hs.asked v (by rw [h]; simp [hv])
  cached := hc
  keys := fun v hv => by
    rw [connected_congr hcon]
    rw [hu] at hv
    simp only [List.mem_append, List.mem_cons] at hv
    rcases hv with hv | rfl | hv
    · exact hs.keys v (by rw [h]; simp [hv])
    · rw [h2]; exact hs.keys t (by rw [h]; simp)
    · exact hs.keys v (by rw [h]; simp [hv])
  tasks := fun v hv => by
    rw [hu] at hv
    by_cases he : v ∈ pre ++ post
    · obtain ⟨h5, h6⟩ := not_corr h hs.nodup he
      exact hot v (fun e => h6 e.symm) (hs.tasks v h5)
    · have : v = t' := by
        simp only [List.mem_append, List.mem_cons, not_or] at hv he
        rcases hv with hv | hv | hv
        · exact absurd hv he.1
        · exact hv
        · exact absurd hv he.2
      rw [this]; exact hit (hs.tasks t (by rw [h]; simp))

/-- Some units are gone. -/
theorem stage_fewer {s u : State} (hs : Stage s) (hu : u.tasks.Sublist s.tasks)
    (hk : ∀ t ∈ u.tasks, connected t.key s = true → connected t.key u = true)
    (hl : ∃ a, u.log = a ++ s.log) (hc : ∀ a ∈ u.cache, ∃ b ∈ s.cache, a.trid = b.trid)
    (hot : ∀ v ∈ u.tasks, TStage s.log s.inbox v → TStage u.log u.inbox v) : Stage u where
  nodup := List.Sublist.nodup (List.Sublist.map _ hu) hs.nodup
  asked := fun v hv => by
    obtain ⟨a, e⟩ := hl
    rw [e]; exact List.mem_append_right _ (hs.asked v (hu.mem hv))
  cached := fun a ha => by
    obtain ⟨b, hb, e⟩ := hc a ha
    obtain ⟨c, h⟩ := hs.cached b hb
    obtain ⟨x, e'⟩ := hl
    rw [e, e']; exact ⟨c, List.mem_append_right _ h⟩
  keys := fun v hv => hk v hv (hs.keys v (hu.mem hv))
  tasks := fun v hv => hot v hv (hs.tasks v (hu.mem hv))

/-- A unit has been added. -/
theorem stage_more {s u : State} {t : Task} {d c k x} (hs : Stage s) (hD : Distinct (.req d c k x :: s.log))
    (ht : u.tasks = s.tasks ++ [t]) (h1 : t.key = d) (h2 : t.corr = c) (h3 : t.kind = k) (h4 : t.origin = x)
    (hcon : u.conns = s.conns) (hk : connected d s = true)
    (hl : ∃ a, u.log = a ++ .req d c k x :: s.log ∧ ∀ o ∈ a, aside o = true) (hc : ∀ a ∈ u.cache, ∃ b ∈ s.cache, a.trid = b.trid)
    (hi : ∀ v, Mine s.inbox v → Mine u.inbox v) (hit : TStage u.log u.inbox t) : Stage u := by
  obtain ⟨a, e, ha⟩ := hl
  refine ⟨?_, ?_, ?_, ?_, ?_⟩
  · rw [ht, List.map_append, List.nodup_append]
    refine ⟨hs.nodup, by simp, ?_⟩
    intro c1 hc1 c2 hc2
    simp only [List.map_cons, List.map_nil, List.mem_singleton] at hc2
    rw [hc2, h2]
    obtain ⟨v, hv, rfl⟩ := List.mem_map.mp hc1
    intro ec
    unfold Distinct at hD
    simp only [List.filterMap_cons, reqCorr, List.nodup_cons] at hD
    exact hD.1 (by rw [← ec]; exact mem_reqs (hs.asked v hv))
  · intro v hv
    rw [ht] at hv
    rw [e]; refine List.mem_append_right _ ?_
    rcases List.mem_append.mp hv with hv | hv
    · exact List.mem_cons_of_mem _ (hs.asked v hv)
    · rw [List.mem_singleton.mp hv, h1, h2, h3, h4]; exact List.mem_cons_self ..
  · intro b hb
    obtain ⟨b', hb', e'⟩ := hc b hb
    obtain ⟨c', h⟩ := hs.cached b' hb'
    rw [e, e']; exact ⟨c', List.mem_append_right _ (List.mem_cons_of_mem _ h)⟩
  · intro v hv
    rw [connected_congr hcon]
    rw [ht] at hv
    rcases List.mem_append.mp hv with hv | hv
    · exact hs.keys v hv
    · rw [List.mem_singleton.mp hv, h1]; exact hk
  · intro v hv
    rw [ht] at hv
    rcases List.mem_append.mp hv with hv | hv
    · rw [e]
      exact (((hs.tasks v hv).aside (o := .req d c k x) rfl).asides a ha).inbox (hi v)
    · rw [List.mem_singleton.mp hv]; exact hit

theorem fresh_cache {s : State} {x t : Trid} {d c k g} (hs : Stage s) (hF : Fresh (.req d c k (some x) :: s.log))
    (h : find g s.cache = some t) : x ≠ t := by
  obtain ⟨a, ha, _, e⟩ := find_some h
  obtain ⟨c', hg⟩ := hs.cached a ha
  intro e'
  refine hF c' a.trid (List.mem_cons_of_mem _ hg) d c k ?_
  rw [e, ← e']; exact List.mem_cons_self ..

theorem join_cached {g d cs} {a : Assoc} (h : a ∈ join g d cs) : ∃ b ∈ cs, a.trid = b.trid := by
  obtain ⟨b, hb, _, e, _⟩ := join_mem h; exact ⟨b, hb, e⟩

theorem stage_service {s : State} {k d c x} (hs : Stage s) (hk : isService k = true) (hc : connected d s = true)
    (hD : Distinct (.req d c k x :: s.log)) (hF : Fresh (.req d c k x :: s.log)) :
    Stage (serviceRequest k d c x (emit (.req d c k x) s)) := by
  have nores : isResource k = false := by cases k <;> first | rfl | (cases hk; done)
  unfold serviceRequest; dsimp only; split
  · refine stage_more hs hD (t := { key := d, corr := c, kind := k }) rfl rfl rfl rfl rfl rfl hc
      ⟨[.askService d c], rfl, by simp [aside]⟩ (fun a ha => ⟨a, ha, rfl⟩) (fun _ h => h) ?_
    exact ⟨fun _ _ => Or.inl (by simp [waitS]), fun _ h => absurd rfl h, fun _ h => absurd rfl h,
      fun h => (by rw [show isResource k = true from h] at nores; cases nores), fun _ h => (by cases h)⟩
  · rename_i x
    split
    · rename_i t ht
      refine stage_more hs hD (t := { key := d, corr := c, kind := k, origin := some x, trid := some t }) rfl rfl rfl rfl rfl rfl hc
        ⟨[.askService d c], rfl, by simp [aside]⟩ (fun a ha => join_cached ha) (fun _ h => h) ?_
      exact ⟨fun _ _ => Or.inl (by simp [waitS]), fun _ h => absurd rfl h,
        fun _ _ h => (by simp only [Option.some.injEq] at h; exact absurd h (fresh_cache hs hF ht)),
        fun h => (by rw [show isResource k = true from h] at nores; cases nores), fun _ h => (by cases h)⟩
    · refine stage_more hs hD (t := { key := d, corr := c, kind := k, origin := some x, trid := some x }) rfl rfl rfl rfl rfl rfl hc
        ⟨[.askBranch d c x.g, .askService d c], rfl, by simp [aside]⟩ (fun a ha => ⟨a, ha, rfl⟩) (fun _ h => h) ?_
      exact ⟨fun _ _ => Or.inl (by simp [waitS]), fun _ h => absurd rfl h, fun _ _ _ => by simp [waitB],
        fun h => (by rw [show isResource k = true from h] at nores; cases nores), fun _ h => (by cases h)⟩

theorem quiet_kind {l ib t} (h : isQueue t.kind = true) : TStage l ib t := by
  constructor
  · rintro (e | e) <;> rw [e] at h <;> cases h
  · rintro (e | e) <;> rw [e] at h <;> cases h
  · rintro (e | e) <;> rw [e] at h <;> cases h
  · intro hr; cases e : t.kind <;> rw [e] at h hr <;> first | (cases h; done) | (cases hr; done)
  · intro hr; cases e : t.kind <;> rw [e] at h hr <;> first | (cases h; done) | (cases hr; done)

theorem stage_queue {s : State} {k d c x qm} (hs : Stage s) (hk : isQueue k = true) (hc : connected d s = true)
    (hD : Distinct (.req d c k x :: s.log)) :
    Stage (queueRequest k d c x qm (emit (.req d c k x) s)) := by
  unfold queueRequest; dsimp only
  cases qm <;> simp only [if_true, Bool.false_eq_true, if_false]
  · split
    · exact stage_more hs hD (t := { key := d, corr := c, kind := k }) rfl rfl rfl rfl rfl rfl hc
        ⟨[], rfl, by simp⟩ (fun a ha => ⟨a, ha, rfl⟩) (fun _ h => h) (quiet_kind hk)
    · rename_i x
      split
      · rename_i t ht
        exact stage_more hs hD (t := { key := d, corr := c, kind := k, origin := some x, trid := some t }) rfl rfl rfl rfl rfl rfl hc
          ⟨[], rfl, by simp⟩ (fun a ha => join_cached ha) (fun _ h => h) (quiet_kind hk)
      · exact stage_more hs hD (t := { key := d, corr := c, kind := k, origin := some x, trid := some x, wait := true }) rfl rfl rfl rfl rfl rfl hc
          ⟨[.askBranch d c x.g], rfl, by simp [aside]⟩ (fun a ha => ⟨a, ha, rfl⟩) (fun _ h => h) (quiet_kind hk)
  · split
    · exact stage_more hs hD (t := { key := d, corr := c, kind := k }) rfl rfl rfl rfl rfl rfl hc
        ⟨[.askQueue d c], rfl, by simp [aside]⟩ (fun a ha => ⟨a, ha, rfl⟩) (fun _ h => h) (quiet_kind hk)
    · rename_i x
      split
      · rename_i t ht
        exact stage_more hs hD (t := { key := d, corr := c, kind := k, origin := some x, trid := some t }) rfl rfl rfl rfl rfl rfl hc
          ⟨[.askQueue d c], rfl, by simp [aside]⟩ (fun a ha => join_cached ha) (fun _ h => h) (quiet_kind hk)
      · exact stage_more hs hD (t := { key := d, corr := c, kind := k, origin := some x, trid := some x, wait := true }) rfl rfl rfl rfl rfl rfl hc
          ⟨[.askBranch d c x.g, .askQueue d c], rfl, by simp [aside]⟩ (fun a ha => ⟨a, ha, rfl⟩) (fun _ h => h) (quiet_kind hk)

theorem resource_stage {l ib t} (hk : isResource t.kind = true) (h : waitR t.corr t.kind l = true ∨ Mine ib t) : TStage l ib t := by
  constructor
  · rintro (e | e) <;> rw [e] at hk <;> cases hk
  · rintro (e | e) <;> rw [e] at hk <;> cases hk
  · rintro (e | e) <;> rw [e] at hk <;> cases hk
  · intro _; exact h
  · intro hr; cases e : t.kind <;> rw [e] at hk hr <;> first | (cases hk; done) | (cases hr; done)

theorem resource_reply {k} (h : isResource k = true) : replyKind k = k := by cases k <;> first | rfl | (cases h; done)

theorem stage_resource {s : State} {k d c x} (hs : Stage s) (hk : isResource k = true) (hc : connected d s = true)
    (hD : Distinct (.req d c k x :: s.log)) :
    Stage (resourceRequest k d c x (emit (.req d c k x) s)) := by
  unfold resourceRequest; split
  · rename_i t _
    exact stage_more hs hD (t := { key := d, corr := c, kind := k, origin := x, trid := some t }) rfl rfl rfl rfl rfl rfl hc
      ⟨[.toTM c k t d], rfl, by simp [aside]⟩ (fun a ha => ⟨a, ha, rfl⟩) (fun _ h => h)
      (resource_stage hk (Or.inl (by simp [waitR])))
  · obtain ⟨a, ha, ha'⟩ := fake_asides d c k ⟨protocolError, 0⟩ (emit (.req d c k x) s)
    refine stage_more hs hD (t := { key := d, corr := c, kind := k, origin := x, trid := x }) ?_ rfl rfl rfl rfl ?_ hc
      ⟨a, by rw [add_log, ha]; rfl, ha'⟩ ?_ (fun v h => by rw [add_inbox]; exact mine_fake (s := emit (.req d c k x) s) h) (resource_stage hk (Or.inr ?_))
    · rw [add_tasks, fake_tasks]; rfl
    · rw [add_conns, fake_conns]; rfl
    · intro a ha; rw [add_cache, fake_cache] at ha; exact ⟨a, ha, rfl⟩
    · refine ⟨⟨d, c, k, ⟨protocolError, 0⟩⟩, ?_, rfl, rfl, (resource_reply hk).symm⟩
      rw [add_inbox]
      unfold fake; rw [if_pos (show connected d (emit (.req d c k x) s) = true from hc)]
      exact List.mem_append_right _ (List.mem_singleton.mpr rfl)

theorem addTrid_cached {b : Trid} {d c} {s : State} {a : List Obs} (hs : Stage s) (hg : .gotBranch c b ∈ a ++ s.log) :
    ∀ x ∈ addTrid b d s.cache, ∃ c, .gotBranch c x.trid ∈ a ++ s.log := by
  intro x hx
  rcases addTrid_mem hx with ⟨y, hy, _, e, _⟩ | rfl
  · obtain ⟨c', h⟩ := hs.cached y hy
    rw [e]; exact ⟨c', List.mem_append_right _ h⟩
  · exact ⟨c, hg⟩

theorem mono_cached {s u : State} (hs : Stage s) (hl : ∃ a, u.log = a ++ s.log) (hc : u.cache = s.cache) :
    ∀ a ∈ u.cache, ∃ c, .gotBranch c a.trid ∈ u.log := by
  intro a ha
  rw [hc] at ha
  obtain ⟨c, h⟩ := hs.cached a ha
  obtain ⟨x, e⟩ := hl
  rw [e]; exact ⟨c, List.mem_append_right _ h⟩

theorem not_call_queue {k} (h : isQueue k = true) : ¬ calls k ∧ isResource k = false ∧ isService k = false := by
  refine ⟨?_, ?_, ?_⟩
  · rintro (e | e) <;> rw [e] at h <;> cases h
  · cases k <;> first | rfl | (cases h; done)
  · cases k <;> first | rfl | (cases h; done)

theorem stage_move (s t : State) (h : Move s t) (hd : t.dead = false) (hs : Distinct s.log → Fresh s.log → Stage s)
    (hD : Distinct t.log) (hF : Fresh t.log) : Stage t := by
  have hs : Stage s := by
    obtain ⟨a, e⟩ := grows h hd
    rw [e] at hD hF
    exact hs hD.of hF.of
  cases h
  case push d _ =>
    exact stage_fewer hs (List.Sublist.refl _) (fun _ _ h => h) ⟨[_], rfl⟩ (fun a ha => ⟨a, ha, rfl⟩)
      (fun v hv h => h.note (o := .closing d) hs.nodup hv trivial)
  case same h1 h2 h3 h4 h5 h6 _ =>
    refine stage_fewer hs (by rw [h2]; exact List.Sublist.refl _) (fun v _ h => by rw [connected_congr h1]; exact h) ⟨[], h5⟩ ?_ ?_
    · intro a ha; rw [h3] at ha; exact ⟨a, ha, rfl⟩
    · intro v _ h; rw [h4, h5]; exact h
  case die h => rw [h] at hd; cases hd
  case connect d m hc =>
    refine stage_fewer hs (List.Sublist.refl _) ?_ ⟨[_], rfl⟩ (fun a ha => ⟨a, ha, rfl⟩) (fun v _ h => h.aside rfl)
    intro v _ h
    rw [connected_iff] at h ⊢
    obtain ⟨x, hx, e⟩ := h
    exact ⟨x, List.mem_append_left _ hx, e⟩
  case lost d hc =>
    have hcon := lost_connected d s
    rw [lost_eq hc] at hcon ⊢
    refine stage_fewer hs List.filter_sublist ?_ ⟨(discards (s.tasks.filter (·.key = d))).reverse ++ [.closed d], by simp⟩ ?_ ?_
    · intro v hv h
      rw [hcon, h]
      have := (List.mem_filter.mp hv).2
      simpa using this
    · intro a ha
      obtain ⟨b, hb, _, e, _⟩ := failedTrids_mem ha
      exact ⟨b, hb, e⟩
    · intro v hv h
      refine ((h.aside (o := .closed d) rfl).asides _ ?_).inbox ?_
      · intro o ho
        rw [List.mem_reverse] at ho
        obtain ⟨t, _, rfl⟩ := List.mem_map.mp ho
        rfl
      · rintro ⟨m, hm, h1, h2⟩
        refine ⟨m, List.mem_filter.mpr ⟨hm, ?_⟩, h1, h2⟩
        have := (List.mem_filter.mp hv).2
        rw [h1]; exact this
  case note o ho =>
    exact stage_fewer hs (List.Sublist.refl _) (fun _ _ h => h) ⟨[_], rfl⟩ (fun a ha => ⟨a, ha, rfl⟩)
      (fun v hv h => h.note hs.nodup hv ho)
  case ended d c data hc =>
    exact stage_fewer hs List.filter_sublist (fun _ _ h => h) ⟨[_], rfl⟩ (fun a ha => ⟨a, ha, rfl⟩) (fun v hv h => h.aside rfl)
  case service k d c x hk hc =>
    obtain ⟨t, _, _, _, _, _, h⟩ := service_facts k d c x (emit (.req d c k x) s)
    refine stage_service hs hk hc ?_ ?_
    · rcases h with h | ⟨g, h⟩ <;> rw [h] at hD
      · exact Distinct.of (a := [_]) hD
      · exact Distinct.of (a := [_, _]) hD
    · rcases h with h | ⟨g, h⟩ <;> rw [h] at hF
      · exact Fresh.of (a := [_]) hF
      · exact Fresh.of (a := [_, _]) hF
  case queue k d c x qm hk hc =>
    obtain ⟨t, _, _, _, _, _, a, _, h⟩ := queue_facts k d c x qm (emit (.req d c k x) s)
    rw [h] at hD
    exact stage_queue hs hk hc hD.of
  case resource k d c x hk hc =>
    obtain ⟨t, _, _, _, _, _, a, _, h⟩ := resource_facts k d c x (emit (.req d c k x) s)
    rw [h] at hD
    exact stage_resource hs hk hc hD.of
  case hangup pre t post ipc h hf hk =>
    refine stage_fewer hs ?_ (fun _ _ h => h) ⟨[_], rfl⟩ (fun a ha => ⟨a, ha, rfl⟩) (fun v hv h => h.aside rfl)
    rw [h]; exact List.Sublist.append_left (List.sublist_cons_self ..) _
  case idleFwd pre t post ipc h hf hk ho' =>
    refine stage_change hs h rfl rfl rfl rfl rfl rfl ⟨[_, _], rfl⟩ (mono_cached hs ⟨[_, _], rfl⟩ rfl) ?_ ?_
    · intro v hv hT
      exact (hT.other t.corr (fun e => hv e.symm) (Or.inl ⟨_, rfl⟩)).aside rfl
    · intro hT
      refine ⟨fun _ h => (by cases h), fun _ _ _ => by simp [waitR], fun a b c => ?_, fun hr => ?_, fun _ h => (by cases h)⟩
      · exact hT.hold a b c
      · exact absurd hr (by have := hk; cases e : t.kind <;> rw [e] at this <;> simp_all [isService, isResource])
  case idleHold pre t post ipc h hf hk ho' =>
    refine stage_change hs h rfl rfl rfl rfl rfl rfl ⟨[_], rfl⟩ (mono_cached hs ⟨[_], rfl⟩ rfl) ?_ ?_
    · intro v hv hT
      exact hT.other t.corr (fun e => hv e.symm) (Or.inl ⟨_, rfl⟩)
    · intro hT
      refine ⟨fun _ h => (by cases h), fun _ _ h => absurd h ho', fun a b c => ?_, fun hr => ?_, fun _ h => (by cases h)⟩
      · exact hT.hold a b c
      · exact absurd hr (by have := hk; cases e : t.kind <;> rw [e] at this <;> simp_all [isService, isResource])
  case noService t l r h hk hl =>
    obtain ⟨a, ha, ha'⟩ := fake_asides t.key t.corr (replyKind t.kind) r (emit (.gotService t.corr l) s)
    refine stage_fewer hs (by rw [fake_tasks]; exact List.Sublist.refl _) ?_ ⟨a ++ [.gotService t.corr l], by rw [ha]; simp⟩ ?_ ?_
    · intro v _ hv; rw [connected_congr (fake_conns ..)]; exact hv
    · intro a ha; rw [fake_cache] at ha; exact ⟨a, ha, rfl⟩
    · intro v hv hT
      rw [fake_tasks] at hv
      rw [ha]
      by_cases hc : t.corr = v.corr
      · have : t = v := eq_of_nodup_map hs.nodup h hv hc
        subst this
        have hm : Mine (fake t.key t.corr (replyKind t.kind) r (emit (.gotService t.corr l) s)).inbox t := by
          refine ⟨⟨t.key, t.corr, replyKind t.kind, r⟩, ?_, rfl, rfl, rfl⟩
          unfold fake
          rw [if_pos (show connected t.key (emit (.gotService t.corr l) s) = true from hs.keys t h)]
          exact List.mem_append_right _ (List.mem_singleton.mpr rfl)
        have hg : TStage (.gotService t.corr l :: s.log) (fake t.key t.corr (replyKind t.kind) r (emit (.gotService t.corr l) s)).inbox t :=
          ⟨fun _ _ => Or.inr hm, hT.fwd, hT.hold, fun hr => Or.inr hm, hT.some⟩
        exact hg.asides a ha'
      · exact ((hT.other t.corr hc (Or.inl ⟨_, rfl⟩)).asides a ha').inbox fun h => mine_fake (s := emit (.gotService t.corr l) s) h
  case queueHold pre t post p h hf hk hw =>
    refine stage_change hs h rfl rfl rfl rfl rfl rfl ⟨[_], rfl⟩ (mono_cached hs ⟨[_], rfl⟩ rfl) ?_ ?_
    · intro v hv hT; exact hT.aside rfl
    · intro hT; exact quiet_kind hk
  case queueSend pre t post p h hf hk hw =>
    obtain ⟨a, ha, ha'⟩ := queueSend_asides p t (emit (.gotQueue t.corr p) s)
    refine stage_fewer hs ?_ ?_ ⟨a ++ [.gotQueue t.corr p], by simp only; rw [ha]; simp⟩ ?_ ?_
    · rw [h]; exact List.Sublist.append_left (List.sublist_cons_self ..) _
    · intro v _ hv; exact (congrArg (fun l : List Conn => l.any (·.d == v.key)) (queueSend_conns ..)).trans hv
    · intro a ha; simp only [queueSend_cache] at ha; exact ⟨a, ha, rfl⟩
    · intro v hv hT
      simp only; rw [ha]
      exact ((hT.aside (o := .gotQueue t.corr p) rfl).asides a ha').inbox fun h => mine_queueSend (s := emit (.gotQueue t.corr p) s) h
  case branchFwd pre t post ipc b h hf hk hl =>
    refine stage_change hs h rfl rfl rfl rfl rfl rfl ⟨[_, _], rfl⟩ ?_ ?_ ?_
    · exact addTrid_cached (c := t.corr) (a := [.fwd ipc t.corr t.kind (some b) t.key, .gotBranch t.corr b]) hs (by simp)
    · intro v hv hT
      exact (hT.other t.corr (fun e => hv e.symm) (Or.inr (Or.inl ⟨_, rfl⟩))).aside rfl
    · intro hT
      refine ⟨fun _ h => (by rw [show t.lookup = none from h] at hl; cases hl), fun _ _ _ => by simp [waitR], fun a b' c => ?_, fun hr => ?_, hT.some⟩
      · exfalso
        refine hF t.corr b (by simp) t.key t.corr t.kind ?_
        have := hs.asked t (by rw [h]; simp)
        rw [show t.origin = some b from c] at this
        exact List.mem_cons_of_mem _ (List.mem_cons_of_mem _ this)
      · exact absurd hr (by have := hk; cases e : t.kind <;> rw [e] at this <;> simp_all [isService, isResource])
  case branchHold pre t post b h hf hk hl =>
    refine stage_change hs h rfl rfl rfl rfl rfl rfl ⟨[_], rfl⟩ ?_ ?_ ?_
    · exact addTrid_cached (c := t.corr) (a := [.gotBranch t.corr b]) hs (by simp)
    · intro v hv hT
      exact hT.other t.corr (fun e => hv e.symm) (Or.inr (Or.inl ⟨_, rfl⟩))
    · intro hT
      refine ⟨hT.ask, fun _ hn => ?_, fun a b' c => ?_, fun hr => ?_, hT.some⟩
      · cases e : t.lookup with
        | none => exact absurd e hn
        | some p => cases p with
          | none => exact absurd e (hT.some hk)
          | some ipc => exact absurd e (hl ipc)
      · exfalso
        refine hF t.corr b (by simp) t.key t.corr t.kind ?_
        have := hs.asked t (by rw [h]; simp)
        rw [show t.origin = some b from c] at this
        exact List.mem_cons_of_mem _ this
      · exact absurd hr (by have := hk; cases e : t.kind <;> rw [e] at this <;> simp_all [isService, isResource])
  case branchQueueHold pre t post b h hf hk hl =>
    refine stage_change hs h rfl rfl rfl rfl rfl rfl ⟨[_], rfl⟩ ?_ ?_ (fun _ => quiet_kind hk)
    · exact addTrid_cached (c := t.corr) (a := [.gotBranch t.corr b]) hs (by simp)
    · intro v hv hT
      exact hT.other t.corr (fun e => hv e.symm) (Or.inr (Or.inl ⟨_, rfl⟩))
  case branchQueueSend pre t post b p h hf hk hl =>
    obtain ⟨a, ha, ha'⟩ := queueSend_asides p { t with trid := some b, wait := false }
      { emit (.gotBranch t.corr b) s with cache := addTrid b t.key s.cache }
    have hmid : Stage { emit (.gotBranch t.corr b) s with cache := addTrid b t.key s.cache, tasks := pre ++ post } := by
      refine ⟨nodup_removed h hs.nodup, ?_, addTrid_cached (c := t.corr) (a := [.gotBranch t.corr b]) hs (by simp), ?_, ?_⟩
      · intro v hv; exact List.mem_cons_of_mem _ (hs.asked v (not_corr h hs.nodup hv).1)
      · intro v hv; exact hs.keys v (not_corr h hs.nodup hv).1
      · intro v hv
        have := not_corr h hs.nodup hv
        exact (hs.tasks v this.1).other t.corr this.2 (Or.inr (Or.inl ⟨_, rfl⟩))
    refine stage_fewer hmid (List.Sublist.refl _) ?_ ⟨a, ha⟩ ?_ ?_
    · intro v _ hv; exact (congrArg (fun l : List Conn => l.any (·.d == v.key)) (queueSend_conns ..)).trans hv
    · intro a ha; simp only [queueSend_cache] at ha; exact ⟨a, ha, rfl⟩
    · intro v hv hT
      simp only; rw [ha]
      exact (hT.asides a ha').inbox fun h => mine_queueSend (s := { emit (.gotBranch t.corr b) s with cache := addTrid b t.key s.cache }) h
  case answered pre t post k r x ib g hg h hf hk he h1 h2 =>
    refine stage_fewer hs ?_ (fun _ _ h => h) ⟨_ :: g, rfl⟩ (fun a ha => ⟨a, ha, rfl⟩) ?_
    · rw [h]; exact List.Sublist.append_left (List.sublist_cons_self ..) _
    · intro v hv hT
      have hne := (not_corr h hs.nodup hv).2
      have : TStage (g ++ s.log) s.inbox v := by
        rcases hg with rfl | ⟨d', rfl⟩
        · exact hT
        · exact hT.other t.corr hne (Or.inr (Or.inr ⟨_, _, _, rfl⟩))
      refine (this.aside rfl).inbox ?_
      rintro ⟨m, hm, e1, e2, e3⟩
      exact ⟨m, h2 m hm (by rw [e2]; exact fun e => hne e.symm), e1, e2, e3⟩
  case pop i m hm hdf =>
    refine stage_fewer hs (List.Sublist.refl _) (fun _ _ h => h) ⟨[], rfl⟩ (fun a ha => ⟨a, ha, rfl⟩) ?_
    intro v hv hT
    by_cases ho : once v.kind = true
    · refine hT.inbox ?_
      rintro ⟨m', hm', e1, e2, e3⟩
      refine ⟨m', ?_, e1, e2, e3⟩
      simp only
      rw [List.mem_eraseIdx_iff_getElem?]
      obtain ⟨j, hj⟩ := List.getElem?_of_mem hm'
      refine ⟨j, ?_, hj⟩
      rintro rfl
      rw [hm] at hj
      simp only [Option.some.injEq] at hj
      subst hj
      have := hdf (by rw [e3]; exact once_reply ho)
      rw [e2] at this
      have := deaf_kind hs.nodup hv this
      rw [e3] at this
      simp [ends] at this
    · refine ⟨fun hc => absurd (calls_once hc) ho, fun hc => absurd (calls_once hc) ho, fun hc => absurd (calls_once hc) ho,
        fun hr => absurd (resource_once hr) ho, hT.some⟩
  case made d c k r =>
    obtain ⟨a, ha, ha'⟩ := fake_asides d c (replyKind k) r s
    refine stage_fewer hs (by rw [fake_tasks]; exact List.Sublist.refl _) ?_ ⟨a, ha⟩ ?_ ?_
    · intro v _ hv; rw [connected_congr (fake_conns ..)]; exact hv
    · intro a ha; rw [fake_cache] at ha; exact ⟨a, ha, rfl⟩
    · intro v hv hT; rw [ha]; exact (hT.asides a ha').inbox mine_fake
  case disassociate g =>
    refine stage_fewer hs (List.Sublist.refl _) (fun _ _ h => h) ⟨[_], rfl⟩ ?_ (fun v hv h => h.aside rfl)
    intro a ha
    exact ⟨a, (List.mem_filter.mp ha).1, rfl⟩

theorem stage_run (es : List Event) (he : ∀ e ∈ es, sound e = true) (ha : (run es).dead = false)
    (hD : Distinct (run es).log) (hF : Fresh (run es).log) : Stage (run es) :=
  inv_alive (P := fun s => Distinct s.log → Fresh s.log → Stage s)
    (fun _ _ => ⟨List.nodup_nil, by simp, by simp, by simp, by simp⟩) stage_move es he ha hD hF

end Casual.Gateway.In
