import Verif.Http.Flow
/-
  What a user of http outbound relies on.
-/
namespace Casual.Http

/-! ### Answers -/

/-- A state that just has been started is what the counts begin with. -/
theorem start_counts (cfg : Cfg) (files : List Model) : (start cfg files).out = [] ∧ (start cfg files).pending = [] ∧ (start cfg files).held = []
    ∧ (start cfg files).wire = [] ∧ (start cfg files).down = false := ⟨rfl, rfl, rfl, rfl, rfl⟩

theorem start_ok (cfg : Cfg) (files : List Model) : RepliesOk (start cfg files) := ⟨rfl, fun _ h => by cases h⟩

/-- Calls that want an answer: each is answered exactly once, or waits for the http server; and the process stays up.
All configurations, all sequences of events; the servers send user codes that are numbers. -/
theorem answered_once_partial (cfg : Cfg) (files : List Model) (es : List Ev) (hw : AllWant es)
    (hu : ∀ h l, Ev.header h l ∈ es → UserOk l) (k : Nat × Nat) :
    (run (start cfg files) es).down = false ∧
    answers (run (start cfg files) es) k + waiting (run (start cfg files) es) k = calls es k := by
  have hd := (run_up _ es (start_ok cfg files) hu).1
  refine ⟨hd, ?_⟩
  have := run_count _ es hw hd k
  have h0 : answers (start cfg files) k = 0 ∧ waiting (start cfg files) k = 0 := ⟨rfl, rfl⟩
  omega

/-- Nobody else gets an answer: a correlation without a call is never answered, and no call is answered twice,
whatever the servers send. -/
theorem never_twice (cfg : Cfg) (files : List Model) (es : List Ev) (hw : AllWant es) (k : Nat × Nat) (hd : (run (start cfg files) es).down = false) :
    answers (run (start cfg files) es) k ≤ calls es k := by
  have := run_count _ es hw hd k
  have h0 : answers (start cfg files) k = 0 ∧ waiting (start cfg files) k = 0 := ⟨rfl, rfl⟩
  omega

/-- A configuration with one service. -/
def oneFile : Model := { services := [{ name := "a".toList, url := "http://x".toList }] }

/-- A call to that service. -/
def oneCall : Call := { dest := 1, corr := 7, exec := "e".toList, name := "a".toList, buffer := { type := ".binary/".toList, data := [1, 2, 3] } }

/-- What a server that is casual answers with. -/
def okHeaders (h : Nat) : List Ev :=
  [.header h "HTTP/1.1 200 OK\r\n".toList, .header h "casual-result-code: OK\r\n".toList, .header h "casual-result-user-code: 42\r\n".toList,
   .header h "\r\n".toList]

/-- A call that does not want an answer gets one. -/
theorem no_reply_refuted : ∃ es, (∀ c, Ev.call c ∈ es → c.noReply = true) ∧ answers (run (start {} [oneFile]) es) (1, 7) = 1 := by
  refine ⟨.call { oneCall with noReply := true } :: .read 0 100 :: okHeaders 0 ++ [.done 0 true 200], ?_, ?_⟩
  · intro c hc
    simp only [okHeaders, List.mem_cons, List.cons_append, List.nil_append, List.append_nil] at hc
    rcases hc with hc | hc | hc | hc | hc | hc | hc | hc <;> first | cases hc; rfl | cases hc
  · decide +kernel

/-- A server that sends a user code that is not a number: the process terminates, with all that is pending. -/
theorem user_code_refuted : ∃ es, AllWant es ∧ (run (start {} [oneFile]) es).down = true ∧
    calls es (2, 8) = 1 ∧ answers (run (start {} [oneFile]) es) (2, 8) = 0 := by
  refine ⟨[.call oneCall, .call { oneCall with dest := 2, corr := 8 }, .read 0 100, .header 0 "casual-result-code: OK\r\n".toList,
    .header 0 "casual-result-user-code: x\r\n".toList, .done 0 true 200], ?_, ?_⟩
  · intro c hc
    simp only [List.mem_cons, List.not_mem_nil, or_false] at hc
    rcases hc with hc | hc | hc | hc | hc | hc <;> cases hc <;> rfl
  · decide +kernel

/-- The hypotheses of `answered_once_partial` are met by a call that is answered. -/
example : answers (run (start {} [oneFile]) (.call oneCall :: .read 0 100 :: okHeaders 0 ++ [.done 0 true 200])) (1, 7) = 1
    ∧ AllWant (.call oneCall :: .read 0 100 :: okHeaders 0 ++ [.done 0 true 200])
    ∧ (∀ h l, Ev.header h l ∈ (.call oneCall :: .read 0 100 :: okHeaders 0 ++ [.done 0 true 200]) → UserOk l) := by
  refine ⟨by decide +kernel, ?_, ?_⟩
  · intro c hc
    simp only [okHeaders, List.mem_cons, List.cons_append, List.nil_append, List.append_nil] at hc
    rcases hc with hc | hc | hc | hc | hc | hc | hc | hc <;> first | cases hc; rfl | cases hc
  · intro h l hc
    simp only [okHeaders, List.mem_cons, List.cons_append, List.nil_append, List.append_nil] at hc
    rcases hc with hc | hc | hc | hc | hc | hc | hc | hc <;> cases hc <;> unfold UserOk <;> decide +kernel

/-! ### Metrics -/

/-- Each call is told about exactly once, when it is answered (or will be, when the batch is sent); never are 100 or more
held back, and nothing when nothing is pending. -/
theorem told_once (cfg : Cfg) (files : List Model) (es : List Ev) (hd : (run (start cfg files) es).down = false) (corr : Nat) :
    told (run (start cfg files) es) corr + untold (run (start cfg files) es) corr + waitingCorr (run (start cfg files) es) corr = callsCorr es corr
    ∧ (run (start cfg files) es).held.length < 100
    ∧ ((run (start cfg files) es).pending = [] → told (run (start cfg files) es) corr = callsCorr es corr) := by
  obtain ⟨h1, h2⟩ := run_told (start cfg files) es ⟨fun _ => rfl, by show 0 < 100; omega⟩ hd corr
  have h0 : told (start cfg files) corr = 0 ∧ untold (start cfg files) corr = 0 ∧ waitingCorr (start cfg files) corr = 0 := ⟨rfl, rfl, rfl⟩
  refine ⟨by omega, h2.2, fun hp => ?_⟩
  have hh := h2.1 hp
  have e1 : untold (run (start cfg files) es) corr = 0 := by unfold untold; rw [hh]; rfl
  have e2 : waitingCorr (run (start cfg files) es) corr = 0 := by unfold waitingCorr; rw [hp]; rfl
  omega

example : told (run (start {} [oneFile]) (.call oneCall :: .call { oneCall with name := "b".toList } :: .read 0 100 :: okHeaders 0 ++ [.done 0 true 200])) 7 = 2 := by
  decide +kernel

/-- What is told about each call, in the order it is told, with what is going to be. -/
def toldAbout (st : State) : List (Nat × Int × Int) :=
  (st.out.flatMap fun m => match m with | .metrics ms => ms.map fun m => (m.corr, m.code, m.user) | _ => []) ++ st.held.map fun m => (m.corr, m.code, m.user)

/-- The results of the answers, in the order they are sent. -/
def answered (st : State) : List (Nat × Int × Int) :=
  st.out.filterMap fun m => match m with | .reply r => some (r.corr, r.code, r.user) | _ => none

theorem metricMaybe_cfg (st : State) : (metricMaybe st).cfg = st.cfg := by
  unfold metricMaybe; split <;> rfl

theorem metricMaybe_about (st : State) : toldAbout (metricMaybe st) = toldAbout st ∧ answered (metricMaybe st) = answered st := by
  unfold metricMaybe
  split
  · unfold toldAbout answered
    simp
  · exact ⟨rfl, rfl⟩

theorem told_push (st : State) (r : Reply) (m : Metric) (h : toldAbout st = answered st) (he : (m.corr, m.code, m.user) = (r.corr, r.code, r.user)) :
    toldAbout { st with out := st.out ++ [.reply r], held := st.held ++ [m] } = answered { st with out := st.out ++ [.reply r], held := st.held ++ [m] } := by
  unfold toldAbout answered at h ⊢
  simp only [List.flatMap_append, List.map_append, List.filterMap_append, List.flatMap_cons, List.flatMap_nil, List.append_nil, List.map_cons, List.map_nil]
  rw [← List.append_assoc, h, he]
  rfl

theorem told_step (st : State) (e : Ev) (hb : st.cfg.base64 = false) (hw : ∀ c, e = .call c → c.noReply = false) (h : toldAbout st = answered st) :
    (step st e).cfg = st.cfg ∧ toldAbout (step st e) = answered (step st e) := by
  unfold step
  split
  · exact ⟨rfl, h⟩
  · cases e with
    | call c =>
      have herr : ∀ code, (errorReply st c code).cfg = st.cfg ∧ toldAbout (errorReply st c code) = answered (errorReply st c code) := by
        intro code
        unfold errorReply
        dsimp only
        rw [hw c rfl]
        refine ⟨?_, ?_⟩
        · exact metricMaybe_cfg _
        · rw [(metricMaybe_about _).1, (metricMaybe_about _).2]
          exact told_push st { dest := c.dest, corr := c.corr, code := code, txn := if c.trid then .rollback else .ok } { corr := c.corr, code := code } h rfl
      show (onCall st c).cfg = st.cfg ∧ toldAbout (onCall st c) = answered (onCall st c)
      unfold onCall
      split
      · exact herr _
      · split
        · exact herr _
        · exact ⟨rfl, h⟩
    | discover d ns =>
      refine ⟨rfl, ?_⟩
      show toldAbout (onDiscover st d ns) = answered (onDiscover st d ns)
      unfold onDiscover
      unfold toldAbout answered at h ⊢
      simpa using h
    | read i n =>
      dsimp only
      split
      · exact ⟨rfl, h⟩
      · exact ⟨rfl, h⟩
    | header i l => exact ⟨rfl, h⟩
    | body i bs => exact ⟨rfl, h⟩
    | done i k s =>
      show (onDone st i k s).cfg = _ ∧ toldAbout (onDone st i k s) = answered (onDone st i k s)
      unfold onDone
      split
      · exact ⟨rfl, h⟩
      · rename_i r hr
        dsimp only
        split
        · exact ⟨rfl, h⟩
        · rename_i c hc
          refine ⟨metricMaybe_cfg _, ?_⟩
          rw [(metricMaybe_about _).1, (metricMaybe_about _).2]
          refine told_push { st with pending := st.pending.eraseP (·.handle == i) } (answer st.cfg r c.1 c.2) { corr := r.corr, code := c.1, user := c.2 } h ?_
          have hp : payloadOf st.cfg r ≠ none := by
            unfold payloadOf
            rw [hb]
            split
            · split
              · simp
              · simp
            · simp
          unfold answer
          dsimp only
          split
          · split
            · rfl
            · rename_i e; exact absurd e hp
          · rfl

/-- What is told about each call is the result that the caller got, in that order (buffers are not base64). -/
theorem told_result_partial (cfg : Cfg) (files : List Model) (es : List Ev) (hb : cfg.base64 = false) (hw : AllWant es) :
    toldAbout (run (start cfg files) es) = answered (run (start cfg files) es) := by
  have : ∀ (es : List Ev) (st : State), st.cfg.base64 = false → AllWant es → toldAbout st = answered st →
      toldAbout (run st es) = answered (run st es) := by
    intro es
    induction es with
    | nil => intro st _ _ h; exact h
    | cons e es ih =>
      intro st hb hw h
      obtain ⟨h1, h2⟩ := told_step st e hb (fun c hc => hw c (by rw [hc]; exact List.mem_cons_self)) h
      exact ih _ (by rw [h1]; exact hb) (fun c hc => hw c (List.mem_cons_of_mem _ hc)) h2
  exact this es _ hb hw rfl

example : answered (run (start {} [oneFile]) (.call oneCall :: .call { oneCall with name := "b".toList } :: .read 0 100 :: okHeaders 0 ++ [.done 0 true 200]))
    = [(7, 6, 0), (7, 0, 42)] := by decide +kernel

/-- With base64: the reply can not be decoded, and the call fails; but it is told that it went well. -/
theorem told_result_refuted : ∃ es, AllWant es ∧ answered (run (start { base64 := true } [oneFile]) es) = [(7, 9, 42)]
    ∧ toldAbout (run (start { base64 := true } [oneFile]) es) = [(7, 0, 42)] := by
  refine ⟨.call oneCall :: .read 0 100 :: okHeaders 0 ++ [.body 0 [33], .done 0 true 200], ?_, by decide +kernel, by decide +kernel⟩
  intro c hc
  simp only [okHeaders, List.mem_cons, List.cons_append, List.nil_append, List.append_nil, List.not_mem_nil, or_false] at hc
  rcases hc with hc | hc | hc | hc | hc | hc | hc | hc <;> first | cases hc; rfl | cases hc

/-! ### What the answer is made of -/

/-- The header lines of a request, as fields, in the order they came. -/
def fieldsOf (h : Nat) (es : List Ev) : List Text :=
  es.filterMap fun e => match e with
    | .header h' l =>
      let t := l.takeWhile fun c => c != '\n' && c != '\r'
      if h' = h ∧ t ≠ [] then some (field t) else none
    | _ => none

/-- The last header with this name. -/
def headerOf (h : Nat) (name : Text) (es : List Ev) : Option Text := (fieldsOf h es).reverse.find? fun f => fname f == name

theorem apply_reply (r : Req) (e : Ev) : (apply r e).reply = (fieldsOf r.handle [e]).foldl fadd r.reply := by
  cases e with
  | read h n =>
    unfold apply
    dsimp only
    split
    · unfold readReq; split <;> rfl
    · rfl
  | header h l =>
    unfold apply fieldsOf
    dsimp only
    by_cases e : h = r.handle
    · rw [if_pos e]
      unfold headerReq
      dsimp only
      by_cases e2 : (l.takeWhile fun c => c != '\n' && c != '\r') = []
      · rw [if_pos e2]; simp [e2]
      · rw [if_neg e2]; simp [e2, e]
    · rw [if_neg e]; simp [e]
  | body h bs => unfold apply; dsimp only; split <;> rfl
  | call c => rfl
  | discover d ns => rfl
  | done h k s => rfl

theorem follow_reply (r : Req) (es : List Ev) : (follow r es).reply = (fieldsOf r.handle es).foldl fadd r.reply := by
  induction es generalizing r with
  | nil => rfl
  | cons e es ih =>
    show (follow (apply r e) es).reply = _
    rw [ih, apply_reply, apply_handle]
    have : fieldsOf r.handle (e :: es) = fieldsOf r.handle [e] ++ fieldsOf r.handle es := by
      unfold fieldsOf; rw [← List.filterMap_append]; rfl
    rw [this, List.foldl_append]

theorem ffind_foldl (fs gs : List Text) (n : Text) :
    ffind (fs.foldl fadd gs) n = (fs.reverse.find? fun f => fname f == n).or (ffind gs n) := by
  induction fs generalizing gs with
  | nil => rfl
  | cons f fs ih =>
    rw [List.foldl_cons, ih, ffind_add, List.reverse_cons, List.find?_append]
    cases fs.reverse.find? fun f => fname f == n with
    | some x => rfl
    | none =>
      by_cases h : fname f = n
      · rw [if_pos h]; simp [h]
      · rw [if_neg h]; simp [h]

theorem follow_header {r : Req} (h0 : r.reply = []) (es : List Ev) (n : Text) : ffind (follow r es).reply n = headerOf r.handle n es := by
  rw [follow_reply, ffind_foldl, h0]
  unfold headerOf
  cases (fieldsOf r.handle es).reverse.find? fun f => fname f == n <;> rfl

theorem apply_trid (r : Req) (e : Ev) : (apply r e).trid = r.trid ∧ (apply r e).dest = r.dest ∧ (apply r e).corr = r.corr := by
  cases e <;> unfold apply <;> dsimp only <;> (try split) <;> try exact ⟨rfl, rfl, rfl⟩
  · unfold readReq; split <;> exact ⟨rfl, rfl, rfl⟩
  · unfold headerReq; dsimp only; split <;> exact ⟨rfl, rfl, rfl⟩

theorem follow_trid (r : Req) (es : List Ev) : (follow r es).trid = r.trid ∧ (follow r es).dest = r.dest ∧ (follow r es).corr = r.corr := by
  induction es generalizing r with
  | nil => exact ⟨rfl, rfl, rfl⟩
  | cons e es ih =>
    obtain ⟨h1, h2, h3⟩ := ih (apply r e)
    obtain ⟨g1, g2, g3⟩ := apply_trid r e
    exact ⟨h1.trans g1, h2.trans g2, h3.trans g3⟩

/-- The result that the http server gives: the casual headers if they are there, otherwise what http (or curl) says. -/
def Result (h : Nat) (mid : List Ev) (curlOk : Bool) (status : Nat) (code user : Int) : Prop :=
  match headerOf h resultName mid with
  | some f => code = parseCode (fvalue f) ∧
    match headerOf h userName mid with
    | some u => parseUser (fvalue u) = some user
    | none => user = 0
  | none => user = 0 ∧ code = if curlOk then statusCode status else serviceError

/-- The type of the buffer of the reply: what the server says, otherwise as in the request. `none`: it says something that is not known. -/
def replyType (h : Nat) (mid : List Ev) (requestType : Text) : Option Text :=
  match headerOf h "content-type".toList mid with
  | some f => if toBuffer (fvalue f) = [] then none else some (toBuffer (fvalue f))
  | none => some requestType

/-- There has been one more message: this answer (and maybe metrics). -/
def AnsweredWith (before after : State) (r : Reply) : Prop :=
  ∃ more, after.out = before.out ++ Msg.reply r :: more ∧ ∀ m ∈ more, ∃ l, m = Msg.metrics l

/-- The handle that the next request gets. -/
def nextHandle (cfg : Cfg) (files : List Model) (pre : List Ev) : Nat := (run (start cfg files) pre).next

theorem prepare_simple (cfg : Cfg) (h : Nat) (node : Node) (c : Call) (hb : cfg.base64 = false) : (prepare cfg h node c).payload = c.buffer := by
  unfold prepare; rw [hb]; rfl

theorem answer_eq {cfg : Cfg} {r : Req} {p : Payload} (hp : payloadOf cfg r = some p) (code user : Int) :
    answer cfg r code user = Reply.mk r.dest r.corr code user (txnOf r code) (if code = 0 ∨ code = 11 then p else {}) := by
  unfold answer
  dsimp only
  by_cases hc : code = 0 ∨ code = 11
  · have hc' : code = ok ∨ code = serviceFail := hc
    rw [if_pos hc', if_pos hc, hp]
  · have hc' : ¬(code = ok ∨ code = serviceFail) := hc
    rw [if_neg hc', if_neg hc]

/-- The answer of a call that is sent on, in all that matters: who gets it, the result, the transaction and the buffer.
All other calls, before and at the same time, are of no importance. The request is sent before the reply comes, and buffers are not base64. -/
theorem replied_partial (cfg : Cfg) (files : List Model) (pre mid : List Ev) (c : Call) (node : Node) (k : Bool) (s : Nat)
    (hb : cfg.base64 = false)
    (ha : Accepted (start cfg files) c node)
    (hn : ∀ e ∈ mid, NotDone (nextHandle cfg files pre) e)
    (hfed : Fed (nextHandle cfg files pre) c.buffer.data.length mid)
    (hd : (run (start cfg files) (pre ++ .call c :: mid ++ [.done (nextHandle cfg files pre) k s])).down = false) :
    ∃ r, AnsweredWith (run (start cfg files) (pre ++ .call c :: mid)) (run (start cfg files) (pre ++ .call c :: mid ++ [.done (nextHandle cfg files pre) k s])) r
      ∧ r.dest = c.dest ∧ r.corr = c.corr
      ∧ Result (nextHandle cfg files pre) mid k s r.code r.user
      ∧ r.txn = (if c.trid = true ∧ r.code ≠ 0 then .rollback else .ok)
      ∧ r.buffer = (if r.code = 0 ∨ r.code = 11 then
          match replyType (nextHandle cfg files pre) mid c.buffer.type with
          | some t => { type := t, data := bodyOf (nextHandle cfg files pre) mid }
          | none => {}
        else {}) := by
  obtain ⟨code, user, hcode, more, hout, hmore⟩ := call_to_answer cfg files pre mid c node k s ha hn hd
  refine ⟨answer cfg (follow (prepare cfg (nextHandle cfg files pre) node c) mid) code user, ⟨more, hout, hmore⟩, ?_⟩
  have hcode : codeOf (follow (prepare cfg (nextHandle cfg files pre) node c) mid) k s = some (code, user) := hcode
  generalize hr : prepare cfg (nextHandle cfg files pre) node c = r at hcode ⊢
  have e1 : r.handle = nextHandle cfg files pre := by rw [← hr]; rfl
  have e2 : r.reply = [] := by rw [← hr]; rfl
  have e3 : r.payload = c.buffer := by rw [← hr]; exact prepare_simple cfg _ node c hb
  have e4 : r.trid = c.trid ∧ r.dest = c.dest ∧ r.corr = c.corr := by rw [← hr]; exact ⟨rfl, rfl, rfl⟩
  have e5 : r.offset = 0 := by rw [← hr]; rfl
  have hdata := follow_data (r := r) e5 (mid := mid) (by rw [e1, e3]; exact hfed)
  have htype : (follow r mid).payload.type = c.buffer.type := by rw [follow_type, e3]
  have hres : Result (nextHandle cfg files pre) mid k s code user := by
    unfold codeOf at hcode
    rw [follow_header e2, follow_header e2, e1] at hcode
    unfold Result
    cases h1 : headerOf (nextHandle cfg files pre) resultName mid with
    | none =>
      rw [h1] at hcode
      cases k <;> · simp only [Bool.false_eq_true, if_false, if_true, Option.some.injEq, Prod.mk.injEq] at hcode ⊢; exact ⟨hcode.2.symm, hcode.1.symm⟩
    | some f =>
      rw [h1] at hcode
      simp only at hcode ⊢
      cases h2 : headerOf (nextHandle cfg files pre) userName mid with
      | none =>
        rw [h2] at hcode
        simp only [Option.some.injEq, Prod.mk.injEq] at hcode ⊢
        exact ⟨hcode.1.symm, hcode.2.symm⟩
      | some u =>
        rw [h2] at hcode
        simp only at hcode ⊢
        cases h3 : parseUser (fvalue u) with
        | none => rw [h3] at hcode; exact absurd hcode (by simp)
        | some n =>
          rw [h3] at hcode
          simp only [Option.map_some, Option.some.injEq, Prod.mk.injEq] at hcode
          exact ⟨hcode.1.symm, by rw [hcode.2]⟩
  have hp : payloadOf cfg (follow r mid) = some (match replyType (nextHandle cfg files pre) mid c.buffer.type with
          | some t => { type := t, data := bodyOf (nextHandle cfg files pre) mid }
          | none => {}) := by
    unfold payloadOf replyType
    rw [follow_header e2, e1, hb]
    cases h1 : headerOf (nextHandle cfg files pre) "content-type".toList mid with
    | none =>
      simp only [Bool.false_eq_true, if_false]
      congr 1
      rw [← htype, ← e1, ← hdata]
    | some f =>
      simp only [Bool.false_eq_true, if_false]
      by_cases h2 : toBuffer (fvalue f) = []
      · rw [if_pos h2, if_pos h2]
      · rw [if_neg h2, if_neg h2, hdata, e1]
  obtain ⟨t1, t2, t3⟩ := follow_trid r mid
  have htxn : txnOf (follow r mid) code = (if c.trid = true ∧ code ≠ 0 then .rollback else .ok) := by
    unfold txnOf
    rw [t1, e4.1]
    cases c.trid
    · simp
    · by_cases hc : code = 0
      · simp [hc, ok]
      · simp [hc, ok]
  rw [answer_eq hp]
  exact ⟨t2.trans e4.2.1, t3.trans e4.2.2, hres, htxn, rfl⟩

/-- The events of one call that meet the hypotheses: the request is read in two parts, the reply comes in two parts. -/
def goodMid : List Ev := [.read 0 2, .read 0 2] ++ okHeaders 0 ++ [.header 0 "content-type: application/json\r\n".toList, .body 0 [9], .body 0 [8, 7]]

example : Accepted (start {} [oneFile]) oneCall { url := "http://x".toList, headers := [], discard := false }
    ∧ (∀ e ∈ goodMid, NotDone 0 e) ∧ Fed 0 oneCall.buffer.data.length goodMid
    ∧ (run (start {} [oneFile]) ([] ++ .call oneCall :: goodMid ++ [.done 0 true 200])).down = false
    ∧ Msg.reply { dest := 1, corr := 7, code := 0, user := 42, buffer := { type := ".json/".toList, data := [9, 8, 7] } }
        ∈ (run (start {} [oneFile]) ([] ++ .call oneCall :: goodMid ++ [.done 0 true 200])).out := by
  refine ⟨⟨("a".toList, { url := "http://x".toList, headers := [], discard := false }), by decide +kernel, rfl, fun h => by cases h⟩, ?_, ⟨[.read 0 2, .read 0 2], okHeaders 0 ++ [.header 0 "content-type: application/json\r\n".toList, .body 0 [9], .body 0 [8, 7]], rfl, rfl, by decide, ?_⟩,
    by decide +kernel, by decide +kernel⟩
  · intro e he k s h
    subst h
    simp [goodMid, okHeaders] at he
  · intro n h
    simp [okHeaders] at h

/-- The http server answers before it has read all of the request: what is left of the request is
in the answer. -/
theorem reply_data_refuted : ∃ es, AllWant es ∧ bodyOf 0 es = [9] ∧
    Msg.reply { dest := 1, corr := 7, code := 0, user := 42, buffer := { type := ".binary/".toList, data := [1, 2, 3, 9] } }
      ∈ (run (start {} [oneFile]) es).out := by
  refine ⟨.call oneCall :: .read 0 2 :: okHeaders 0 ++ [.body 0 [9], .done 0 true 200], ?_, by decide +kernel, by decide +kernel⟩
  intro c hc
  simp only [okHeaders, List.mem_cons, List.cons_append, List.nil_append, List.append_nil, List.not_mem_nil, or_false] at hc
  rcases hc with hc | hc | hc | hc | hc | hc | hc | hc <;> first | cases hc; rfl | cases hc

/-- What the http server gets is what the caller sent: all of it, once, in order
(base64 or not), if the request is sent before the reply comes. -/
theorem request_sent (cfg : Cfg) (files : List Model) (pre mid : List Ev) (c : Call) (node : Node)
    (ha : Accepted (start cfg files) c node)
    (hn : ∀ e ∈ mid, NotDone (nextHandle cfg files pre) e)
    (hfed : Fed (nextHandle cfg files pre) (if cfg.base64 then toWire c.buffer else c.buffer).data.length mid)
    (hd : (run (start cfg files) (pre ++ .call c :: mid)).down = false) :
    wireOf (nextHandle cfg files pre) (run (start cfg files) (pre ++ .call c :: mid)).wire = (if cfg.base64 then toWire c.buffer else c.buffer).data := by
  obtain ⟨a, b, rfl, hb, hs, hr⟩ := hfed
  have hs0 := same_run (start cfg files) pre
  have hcfg : (run (start cfg files) pre).cfg = cfg := hs0.2
  have ha' : Accepted (run (start cfg files) pre) c node := by
    obtain ⟨p, hp, h⟩ := ha
    exact ⟨p, by rw [hs0.1]; exact hp, h⟩
  have e2 : run (start cfg files) (pre ++ .call c :: (a ++ b)) = run (run (step (run (start cfg files) pre) (.call c)) a) b := by
    rw [run_append]
    show run (step (run (start cfg files) pre) (.call c)) (a ++ b) = _
    rw [run_append]
  rw [e2] at hd ⊢
  have hd2 := up_before hd
  have hd1 := up_before hd2
  have hd0 : (run (start cfg files) pre).down = false := up_before (es := [.call c]) hd1
  have hfresh := fresh_run (fresh_start cfg files) pre
  obtain ⟨h1, h1w⟩ := call_pending hfresh hd0 ha'
  rw [hcfg] at h1
  have hna : ∀ e ∈ a, NotDone (nextHandle cfg files pre) e := fun e he => hn e (List.mem_append_left _ he)
  have hnb : ∀ e ∈ b, NotDone (nextHandle cfg files pre) e := fun e he => hn e (List.mem_append_right _ he)
  have h2 := run_find h1 hna hd2
  rw [show nextHandle cfg files pre = (run (start cfg files) pre).next from rfl] at *
  rw [run_wire_none h2 hnb hr hd]
  generalize hp : prepare cfg (run (start cfg files) pre).next node c = r at h1 h2
  have e3 : r.payload = (if cfg.base64 then toWire c.buffer else c.buffer) := by rw [← hp]; rfl
  have e5 : r.offset = 0 := by rw [← hp]; rfl
  have hsent : Sent (if cfg.base64 then toWire c.buffer else c.buffer).data 0 r := by
    by_cases e : (if cfg.base64 then toWire c.buffer else c.buffer).data = []
    · exact Or.inr ⟨by rw [e]; exact Nat.le_refl _, by rw [e3]; exact e, e5⟩
    · exact Or.inl ⟨List.length_pos_iff.2 e, by rw [e3], e5⟩
  rw [run_wire h1 hsent (by rw [h1w, wireOf_none hfresh.2]; rfl) hna hb hd2, Nat.zero_add, List.take_of_length_le hs]

example : wireOf 0 (run (start {} [oneFile]) ([] ++ .call oneCall :: goodMid)).wire = [1, 2, 3] := by decide +kernel

/-! ### Transactions -/

theorem metricMaybe_out (st : State) : ∃ more, (metricMaybe st).out = st.out ++ more ∧ ∀ m ∈ more, ∃ l, m = Msg.metrics l := by
  unfold metricMaybe
  split
  · exact ⟨[Msg.metrics st.held], rfl, fun m hm => ⟨_, List.mem_singleton.1 hm⟩⟩
  · exact ⟨[], (List.append_nil _).symm, (fun m hm => by cases hm)⟩

theorem errorReply_out (st : State) (c : Call) (code : Int) (hr : c.noReply = false) :
    AnsweredWith st (errorReply st c code) { dest := c.dest, corr := c.corr, code := code, txn := if c.trid then .rollback else .ok } := by
  unfold errorReply
  dsimp only
  rw [hr]
  obtain ⟨more, h1, h2⟩ := metricMaybe_out { st with
    out := st.out ++ [Msg.reply { dest := c.dest, corr := c.corr, code := code, txn := if c.trid then .rollback else .ok }]
    held := st.held ++ [{ corr := c.corr, code := code }] }
  refine ⟨more, ?_, h2⟩
  rw [List.append_assoc] at h1
  exact h1

/-- A call within a transaction, to a service that does not discard transactions, is not sent on: it is answered with `TPEPROTO`, and the
transaction can only be rolled back. -/
theorem transaction_refused (st : State) (c : Call) (p : Text × Node) (hd : st.down = false) (hp : st.lookup.find? (·.1 == c.name) = some p)
    (ht : c.trid = true) (hdis : p.2.discard = false) (hr : c.noReply = false) :
    (step st (.call c)).pending = st.pending ∧ AnsweredWith st (step st (.call c)) { dest := c.dest, corr := c.corr, code := 9, txn := .rollback } := by
  unfold step
  rw [if_neg (by simp [hd])]
  simp only
  unfold onCall
  rw [hp]
  simp only [ht, hdis, Bool.not_false, Bool.and_self, if_true]
  refine ⟨errorReply_pending _ _ _, ?_⟩
  have := errorReply_out st c protocol hr
  rw [ht] at this
  exact this

/-- A configuration with one service that discards transactions. -/
def discardFile : Model := { services := [{ name := "a".toList, url := "http://x".toList, discard := some true }] }

/-- The reply can not be decoded: the call fails, with `TPEPROTO`, but the transaction of the caller is said to be fine. -/
theorem transaction_state_refuted : ∃ es, AllWant es ∧
    Msg.reply { dest := 1, corr := 7, code := 9, user := 42, txn := .ok } ∈ (run (start { base64 := true } [discardFile]) es).out
    ∧ ∀ c, Ev.call c ∈ es → c.trid = true := by
  refine ⟨.call { oneCall with trid := true } :: .read 0 100 :: okHeaders 0 ++ [.body 0 [33], .done 0 true 200], ?_, by decide +kernel, ?_⟩ <;>
  · intro c hc
    simp only [okHeaders, List.mem_cons, List.cons_append, List.nil_append, List.append_nil, List.not_mem_nil, or_false] at hc
    rcases hc with hc | hc | hc | hc | hc | hc | hc | hc <;> first | cases hc; rfl | cases hc

/-- A service that is not configured is answered with `TPENOENT`. -/
theorem unknown_refused (st : State) (c : Call) (hd : st.down = false) (hp : st.lookup.find? (·.1 == c.name) = none) (hr : c.noReply = false) :
    (step st (.call c)).pending = st.pending ∧ AnsweredWith st (step st (.call c)) { dest := c.dest, corr := c.corr, code := 6, txn := if c.trid then .rollback else .ok } := by
  unfold step
  rw [if_neg (by simp [hd])]
  simp only
  unfold onCall
  rw [hp]
  simp only
  refine ⟨errorReply_pending _ _ _, ?_⟩
  exact errorReply_out st c noEntry hr

/-! ### Results by status -/

/-- What the http status means, when the server is not casual. -/
theorem status_meaning (n : Nat) :
    ((n = 404 ∨ n = 501 ∨ n = 503) → statusCode n = 6) ∧ ((n = 408 ∨ n = 504) → statusCode n = 13) ∧ (n = 429 → statusCode n = 5)
    ∧ ((200 ≤ n ∧ n < 300) → statusCode n = 9)
    ∧ ((¬(200 ≤ n ∧ n < 300) ∧ n ≠ 404 ∧ n ≠ 501 ∧ n ≠ 503 ∧ n ≠ 408 ∧ n ≠ 504 ∧ n ≠ 429) → statusCode n = 12) := by
  unfold statusCode noEntry timeout limit system protocol
  refine ⟨?_, ?_, ?_, ?_, ?_⟩ <;> intro h
  · rw [if_pos (by omega)]
  · rw [if_neg (by omega), if_pos (by omega)]
  · rw [if_neg (by omega), if_neg (by omega), if_pos (by omega)]
  · rw [if_neg (by omega), if_neg (by omega), if_neg (by omega), if_neg (by omega), if_pos (by omega)]
  · rw [if_neg (by omega), if_neg (by omega), if_neg (by omega)]
    split
    · rfl
    · rw [if_neg (by omega)]

/-- Without casual headers a call never succeeds. -/
theorem never_ok (n : Nat) : statusCode n ≠ 0 ∧ statusCode n ≠ 11 := by
  unfold statusCode noEntry timeout limit system protocol
  split
  · decide
  · split
    · decide
    · split
      · decide
      · split
        · decide
        · split <;> decide

/-! ### Configuration and discovery -/

theorem emplace_find (l : List (Text × Node)) (n : Text) (x : Node) (m : Text) :
    (emplace l n x).find? (·.1 == m) = (l.find? (·.1 == m)).or (if n = m then some (n, x) else none) := by
  unfold emplace
  by_cases h : l.any (·.1 == n) = true
  · rw [if_pos h]
    by_cases e : n = m
    · subst e
      obtain ⟨y, hy, e⟩ := List.any_eq_true.1 h
      cases hf : l.find? (·.1 == n) with
      | none => exact absurd e (by simpa using List.find?_eq_none.1 hf y hy)
      | some z => rfl
    · rw [if_neg e]; cases l.find? (·.1 == m) <;> rfl
  · rw [if_neg h, List.find?_append]
    congr 1
    by_cases e : n = m
    · simp [e]
    · simp [e]

theorem transform_find (m : Model) (n : Text) :
    (transform m).find? (·.1 == n) = (m.services.find? (·.name == n)).map fun s => (s.name, nodeOf m s) := by
  unfold transform
  have : ∀ (ss : List Service) (l : List (Text × Node)),
      (ss.foldl (fun l s => emplace l s.name (nodeOf m s)) l).find? (·.1 == n)
        = (l.find? (·.1 == n)).or ((ss.find? (·.name == n)).map fun s => (s.name, nodeOf m s)) := by
    intro ss
    induction ss with
    | nil => intro l; cases h : l.find? (·.1 == n) <;> simp [h]
    | cons s ss ih =>
      intro l
      rw [List.foldl_cons, ih, emplace_find, List.find?_cons]
      by_cases h : s.name = n
      · rw [if_pos h, show (s.name == n) = true by simpa using h]
        cases l.find? (·.1 == n) <;> rfl
      · rw [if_neg h, show (s.name == n) = false by simpa using h]
        cases l.find? (·.1 == n) <;> rfl
  rw [this]
  rfl

theorem load_services (files : List Model) : (load files).services = files.flatMap (·.services) ∧ (load files).headers = files.flatMap (·.headers) := by
  unfold load
  have : ∀ (fs : List Model) (m : Model), (fs.foldl Model.add m).services = m.services ++ fs.flatMap (·.services)
      ∧ (fs.foldl Model.add m).headers = m.headers ++ fs.flatMap (·.headers) := by
    intro fs
    induction fs with
    | nil => intro m; simp
    | cons f fs ih =>
      intro m
      rw [List.foldl_cons]
      obtain ⟨h1, h2⟩ := ih (m.add f)
      rw [h1, h2]
      unfold Model.add
      simp
  exact this files {}

/-- A call is sent to the first service of that name in the configuration files, in the order they are read; its headers are its own, or the
default ones of all files if it has none. -/
theorem configured (cfg : Cfg) (files : List Model) (n : Text) (s : Service)
    (h : (files.flatMap (·.services)).find? (·.name == n) = some s) :
    ∃ node, (start cfg files).lookup.find? (·.1 == n) = some (n, node) ∧ node.url = s.url
      ∧ node.headers = (if s.headers = [] then files.flatMap (·.headers) else s.headers).map (fun h => mkField h.name h.value)
      ∧ (∀ b, s.discard = some b → node.discard = b) := by
  have hn : s.name = n := by simpa using List.find?_some h
  refine ⟨nodeOf (load files) s, ?_, rfl, ?_, ?_⟩
  · show (transform (load files)).find? _ = _
    rw [transform_find, (load_services files).1, h, ← hn]
    rfl
  · unfold nodeOf headerFields
    dsimp only
    split
    · rw [(load_services files).2]
    · rfl
  · intro b hb
    unfold nodeOf
    rw [hb]
    rfl

/-- A default that says that transactions are discarded has no effect if there is another file, that does not mention it. -/
theorem default_refuted : ∃ a b : Model, a.discard = true ∧ b = { services := b.services } ∧
    ∀ p ∈ (start {} [a, b]).lookup, p.2.discard = false :=
  ⟨{ discard := true, services := [{ name := "a".toList, url := [] }] }, { services := [{ name := "b".toList, url := [] }] }, rfl, rfl, by decide +kernel⟩

/-- With one file, the default is used for the services that do not say anything. -/
theorem default_partial (cfg : Cfg) (m : Model) (n : Text) (s : Service) (h : m.services.find? (·.name == n) = some s) (hd : s.discard = none) :
    ∃ node, (start cfg [m]).lookup.find? (·.1 == n) = some (n, node) ∧ node.discard = m.discard := by
  have hn : s.name = n := by simpa using List.find?_some h
  refine ⟨nodeOf (load [m]) s, ?_, ?_⟩
  · show (transform (load [m])).find? _ = _
    rw [transform_find, (load_services [m]).1]
    simp only [List.flatMap_cons, List.flatMap_nil, List.append_nil]
    rw [h, ← hn]
    rfl
  · unfold nodeOf
    rw [hd]
    rfl

/-- A discovery is answered with what is asked for and is configured, no more and no less, whatever has happened before. -/
theorem discovered (cfg : Cfg) (files : List Model) (pre : List Ev) (d : Nat) (ns : List Text)
    (hd : (run (start cfg files) pre).down = false) :
    ∃ found, (step (run (start cfg files) pre) (.discover d ns)).out = (run (start cfg files) pre).out ++ [.found d found]
      ∧ ∀ n, n ∈ found ↔ n ∈ ns ∧ ∃ f ∈ files, ∃ s ∈ f.services, s.name = n := by
  have hs := (same_run (start cfg files) pre).1
  have e : step (run (start cfg files) pre) (.discover d ns) = onDiscover (run (start cfg files) pre) d ns := by
    unfold step; rw [if_neg (by simp [hd])]
  rw [e]
  refine ⟨_, rfl, fun n => ?_⟩
  rw [List.mem_filter, hs]
  have : (start cfg files).lookup.any (·.1 == n) = true ↔ ∃ f ∈ files, ∃ s ∈ f.services, s.name = n := by
    have h1 : (start cfg files).lookup.find? (·.1 == n) = ((files.flatMap (·.services)).find? (·.name == n)).map fun s => (s.name, nodeOf (load files) s) := by
      show (transform (load files)).find? _ = _
      rw [transform_find, (load_services files).1]
    constructor
    · intro h
      obtain ⟨y, hy, e⟩ := List.any_eq_true.1 h
      cases hf : (files.flatMap (·.services)).find? (·.name == n) with
      | none =>
        rw [hf] at h1
        exact absurd e (by simpa using List.find?_eq_none.1 h1 y hy)
      | some s =>
        obtain ⟨f, hf1, hf2⟩ := List.mem_flatMap.1 (List.mem_of_find?_eq_some hf)
        exact ⟨f, hf1, s, hf2, by simpa using List.find?_some hf⟩
    · rintro ⟨f, hf, s, hs, rfl⟩
      cases hf' : (files.flatMap (·.services)).find? (·.name == s.name) with
      | none =>
        have := List.find?_eq_none.1 hf' s (List.mem_flatMap.2 ⟨f, hf, hs⟩)
        exact absurd this (by simp)
      | some x =>
        rw [hf'] at h1
        exact List.any_eq_true.2 ⟨_, List.mem_of_find?_eq_some h1, by simpa using List.find?_some h1⟩
  rw [this]

example : (step (run (start {} [oneFile]) [.call oneCall]) (.discover 3 ["b".toList, "a".toList])).out = [.found 3 ["a".toList]] := by decide +kernel

end Casual.Http
