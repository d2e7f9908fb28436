import Verif.Lemmas.DemoEnv
import Verif.Lemmas.Guard
import Mathlib.Data.List.Nodup
/-!
# C46, C47, C48, C52, C61: scopes, depth, errors and documents during a parse
-/

namespace Chaff
open Comp

/-! ## C46 -/

/-- C46: parsing a node, with or without an error, leaves the path, the depth and the stack of resolved
references as they were. -/
theorem C46_scope_balanced (c : PEnv) (fuel : Nat) (n : SchemaNode) (s s' : PSt) (g : Gen) (e : Option Err)
    (h : (parseRec c fuel).node n s = .ok (g, e) s') :
    s'.path = s.path ∧ s'.depth = s.depth ∧ s'.resolutions = s.resolutions ∧ s'.parsingId = s.parsingId := by
  have E := (keeps_parseRec (c := c) fuel).node n _ _ _ h
  exact ⟨E.path, E.depth, E.res, E.parsing⟩

/-- C46 for merging: combining schemas, following their references, leaves all three as they were. -/
theorem C46_merge_balanced (c : PEnv) (fuel : Nat) (nodes : List SchemaNode) (m : SchemaNode) (s s' : PSt)
    (h : mergeNodes c fuel nodes s = .ok m s') :
    s'.path = s.path ∧ s'.depth = s.depth ∧ s'.resolutions = s.resolutions := by
  have E := keeps_mergeNodes fuel nodes _ _ _ h
  exact ⟨E.path, E.depth, E.res⟩

/-- C46 for a whole parse: at the end nothing is open. -/
theorem C46_parse_balanced (c : PEnv) (fuel : Nat) (schema : JVal) (r : Gen × Option Err) (s' : PSt)
    (h : parseSchema c fuel schema = .done (.ok r s')) :
    s'.path = "#" ∧ s'.depth = 0 ∧ s'.resolutions = [] := by
  unfold parseSchema at h
  cases hd : decodeNode schema with
  | none => rw [hd] at h; cases h
  | some root =>
    rw [hd] at h
    dsimp only at h
    cases hi : initState c root with
    | error e => rw [hi] at h; cases h
    | ok s =>
      rw [hi] at h
      dsimp only at h
      split at h
      · injection h with h
        have T := (top_parseBody h).1
        obtain ⟨_, _, _, _, _, h1, h2, h3, _⟩ := initState_inv hi
        exact ⟨T.path.trans h1, T.depth.trans h2, T.res.trans h3⟩
      · cases h

/-- A parse that fails half-way inside nested scopes. -/
def brokenSchema : JVal :=
  .obj [("type", .str "object"), ("properties", .obj [("a", .obj [("type", .str "array"),
    ("items", .obj [("type", .str "string"), ("minLength", .num 5), ("maxLength", .num 2)])])])]

example : ((parseSchema demoEnv 20 brokenSchema).state.map (fun s => (s.path, s.depth, s.resolutions))) =
    some ("#", 0, []) := by decide +kernel

example : ((parseSchema demoEnv 20 brokenSchema).state.map (fun s => decide (0 < s.errors.length))) = some true := by
  decide +kernel

/-! ## C47 -/

/-- Specification: the parser with an alarm.  Looking at a schema node at a depth above the limit panics. -/
def guardedRec (c : PEnv) : Nat → PRec
  | 0 => { node := fun _ => Comp.outOfFuel, schema := fun _ => Comp.outOfFuel, fuel := 0 }
  | k + 1 =>
    { node := parseNodeStep c (guardedRec c k).schema
      schema := fun n s =>
        if s.depth > c.maxParseDepth then .panic "parsed too deep" else parseSchemaStep c (guardedRec c k) n s
      fuel := k }

theorem guardedRec_eq (c : PEnv) : ∀ k, (guardedRec c k).node = (parseRec c k).node ∧
    (guardedRec c k).fuel = (parseRec c k).fuel ∧
    ∀ n s, s.depth ≤ c.maxParseDepth → (guardedRec c k).schema n s = (parseRec c k).schema n s := by
  intro k
  induction k with
  | zero => exact ⟨rfl, rfl, fun _ _ _ => rfl⟩
  | succ k ih =>
    refine ⟨?_, rfl, ?_⟩
    · funext n
      exact parseNodeStep_congr c _ _ ih.2.2 n
    · intro n s hd
      show (if s.depth > c.maxParseDepth then _ else parseSchemaStep c (guardedRec c k) n s) = parseSchemaStep c _ n s
      rw [if_neg (by omega)]
      exact parseSchemaStep_congr c _ _ ih.1 ih.2.1 (d := s.depth) (fun n s' h => ih.2.2 n s' (by omega)) n s rfl

/-- C47: the alarm never goes off: parsing a node behaves in every state exactly as with the alarm installed. -/
theorem C47_depth_bounded (c : PEnv) (fuel : Nat) (n : SchemaNode) (s : PSt) :
    (parseRec c fuel).node n s = (guardedRec c fuel).node n s := by
  rw [(guardedRec_eq c fuel).1]

/-- C47 for a whole document: definitions included. -/
theorem C47_root_bounded (c : PEnv) (fuel : Nat) (n : SchemaNode) (s : PSt) :
    parseRoot c (parseRec c fuel) n s = parseRoot c (guardedRec c fuel) n s := by
  have hd : ∀ kw l, parseDefs c (parseRec c fuel) kw l = parseDefs c (guardedRec c fuel) kw l := by
    intro kw l
    induction l with
    | nil => rfl
    | cons x t ih =>
      obtain ⟨k, v⟩ := x
      unfold parseDefs
      rw [parseInScope_congr c _ _ (guardedRec_eq c fuel).1.symm, ih]
  unfold parseRoot
  rw [hd, hd, (guardedRec_eq c fuel).1]

/-- C47: a node below the limit is not looked at: the result is a null generator and an error, and the state is
unchanged. -/
theorem C47_too_deep (c : PEnv) (fuel : Nat) (n : SchemaNode) (s : PSt) (h : c.maxParseDepth ≤ s.depth) :
    (parseRec c (fuel + 1)).node n s = .ok (.null, some "maximum parse depth exceeded") s := by
  show parseNodeStep c (parseRec c fuel).schema n s = _
  unfold parseNodeStep
  simp only [Comp.bind_apply, modS_apply, gets]
  rw [if_pos (by omega)]
  simp only [Comp.bind_apply, modS_apply]
  show Res.ok _ _ = _
  have : s.depth + 1 - 1 = s.depth := by omega
  rw [this]

/-- The guard bites: with a limit of one, looking at the node inside `properties` would trigger it. -/
example : (match (guardedRec { demoEnv with maxParseDepth := 0 } 5).schema emptyNode { depth := 1 } with
    | .panic m => decide (m = "parsed too deep")
    | _ => false) = true := by decide +kernel

/-! ## C61 -/

/-- An object with one integer member. -/
def nestedSchema : JVal := .obj [("type", .str "object"), ("properties", .obj [("a", .obj [("type", .str "integer")])])]

/-- The generators of the properties that are null generators. -/
def nullMembers : Gen → List String
  | .obj o => (o.props.filter (fun p => match p.2 with | .null => true | _ => false)).map (·.1)
  | _ => []

/-- C61 is violated by the code: when the depth limit cuts off a member of an object, the parse reports neither an
error result nor an entry in the error collection, yet the member generates `null` where an integer is required. -/
theorem C61_silent_truncation_violation :
    ((parseSchema { demoEnv with maxParseDepth := 1 } 20 nestedSchema).state.map (fun s => s.errors.length)) = some 0 ∧
    ((parseSchema { demoEnv with maxParseDepth := 1 } 20 nestedSchema).result.map (fun r => (r.2, nullMembers r.1))) =
      some (none, ["a"]) ∧
    ((parseSchema { demoEnv with maxParseDepth := 2 } 20 nestedSchema).result.map (fun r => (r.2, nullMembers r.1))) =
      some (none, []) := by decide +kernel

/-! ## C48 -/

/-- C48: an error recorded before parsing a node is still recorded after it. -/
theorem C48_errors_kept (c : PEnv) (fuel : Nat) (n : SchemaNode) (s s' : PSt) (r : Gen × Option Err)
    (h : (parseRec c fuel).node n s = .ok r s') (loc : String × String) (e : Err) (he : (loc, e) ∈ s.errors) :
    (loc, e) ∈ s'.errors := by
  obtain ⟨l, hl, _⟩ := ((keeps_parseRec (c := c) fuel).node n _ _ _ h).errors
  rw [hl]
  exact List.mem_append_right _ he

/-- C48 for merging schemas. -/
theorem C48_merge_errors_kept (c : PEnv) (fuel : Nat) (nodes : List SchemaNode) (m : SchemaNode) (s s' : PSt)
    (h : mergeNodes c fuel nodes s = .ok m s') (loc : String × String) (e : Err) (he : (loc, e) ∈ s.errors) :
    (loc, e) ∈ s'.errors := by
  obtain ⟨l, hl, _⟩ := (keeps_mergeNodes fuel nodes _ _ _ h).errors
  rw [hl]
  exact List.mem_append_right _ he

/-- C48 for the rest of a parse: the loop over the remaining documents keeps every error. -/
theorem C48_documents_errors_kept (c : PEnv) (fuel k : Nat) (s s' : PSt) (u : Unit)
    (h : parseQueue c (parseRec c fuel) k s = .ok u s') (loc : String × String) (e : Err) (he : (loc, e) ∈ s.errors) :
    (loc, e) ∈ s'.errors := by
  obtain ⟨l, hl⟩ := (top_parseQueue (keeps_parseRec fuel) k h).1.errors
  rw [hl]
  exact List.mem_append_right _ he

/-- C48: what is recorded while parsing a node carries the current document and a path under the current one. -/
theorem C48_errors_located (c : PEnv) (fuel : Nat) (n : SchemaNode) (s s' : PSt) (r : Gen × Option Err)
    (h : (parseRec c fuel).node n s = .ok r s') (loc : String × String) (e : Err) (he : (loc, e) ∈ s'.errors) :
    (loc, e) ∈ s.errors ∨ (loc.1 = s.parsingId ∧ ∃ sub, loc.2 = s.path ++ sub) := by
  obtain ⟨l, hl, hq⟩ := ((keeps_parseRec (c := c) fuel).node n _ _ _ h).errors
  rw [hl] at he
  rcases List.mem_append.1 he with he | he
  · exact Or.inr (hq _ he)
  · exact Or.inl he

/-- C48: an error that a node reports within the depth limit is recorded at the path of the node. -/
theorem C48_reported_is_recorded (c : PEnv) (fuel : Nat) (n : SchemaNode) (s s' : PSt) (g : Gen) (e : Err)
    (hd : s.depth < c.maxParseDepth) (h : (parseRec c fuel).node n s = .ok (g, some e) s') :
    ((s.parsingId, s.path), e) ∈ s'.errors := by
  cases fuel with
  | zero => cases h
  | succ fuel =>
    have h0 : parseNodeStep c (parseRec c fuel).schema n s = .ok (g, some e) s' := h
    unfold parseNodeStep at h0
    obtain ⟨_, s1, h1, h2⟩ := bind_ok.1 h0
    rw [modS_apply] at h1
    injection h1 with _ h1
    subst h1
    obtain ⟨d, s2, h3, h4⟩ := bind_ok.1 h2
    unfold gets at h3
    injection h3 with h3 h3'
    subst h3'
    dsimp only at h3
    rw [if_neg (by rw [← h3]; omega)] at h4
    obtain ⟨r, s4, h5, h6⟩ := bind_ok.1 h4
    obtain ⟨_, s5, h7, h8⟩ := bind_ok.1 h6
    obtain ⟨_, s6, h9, h10⟩ := bind_ok.1 h8
    obtain ⟨_, s7, h11, h12⟩ := bind_ok.1 h10
    rw [modS_apply] at h11
    injection h11 with _ h11
    subst h11
    have E := (keeps_parseRec (c := c) fuel).schema _ _ _ _ h5
    obtain ⟨l, hl, _⟩ := (keeps_registerNode (c := c) _ _ _ _ _ h9).errors
    cases hc : n.constraints with
    | some cc =>
      rw [hc] at h12
      obtain ⟨h12, _⟩ := pure_ok.1 h12
      cases h12
    | none =>
      rw [hc] at h12
      obtain ⟨h13, h14⟩ := pure_ok.1 h12
      subst h14
      injection h13 with _ h13
      rw [h13] at h7
      have h7' : addErrorSub "" e s4 = .ok _ s5 := h7
      clear h7
      have h7 := h7'
      unfold addErrorSub at h7
      rw [modS_apply] at h7
      injection h7 with _ h7
      show _ ∈ s6.errors
      rw [hl, ← h7]
      apply List.mem_append_right
      rw [E.parsing, E.path]
      simp

example : ((parseSchema demoEnv 20 brokenSchema).state.map (fun s => s.errors.map (·.1.2))) =
    some ["#/properties/a", "#/properties/a/items"] := by decide +kernel

/-! ## C52 -/

/-- C52: no document is handed to the parser twice. -/
theorem C52_parsed_once (c : PEnv) (fuel : Nat) (schema : JVal) (r : Gen × Option Err) (s' : PSt)
    (h : parseSchema c fuel schema = .done (.ok r s')) :
    s'.parsedDocs.Nodup ∧ s'.queue = [] ∧ (rootIds c).2 ∉ s'.parsedDocs := by
  unfold parseSchema at h
  cases hd : decodeNode schema with
  | none => rw [hd] at h; cases h
  | some root =>
    rw [hd] at h
    dsimp only at h
    cases hi : initState c root with
    | error e => rw [hi] at h; cases h
    | ok s =>
      rw [hi] at h
      dsimp only at h
      split at h
      · injection h with h
        obtain ⟨T, hq⟩ := top_parseBody h
        obtain ⟨_, ho, _, hpd, _, _, _, _, _, _, _⟩ := initState_inv hi
        have hpar : lookupKV s.parsed (rootIds c).2 = some true := by
          unfold initState at hi
          cases hf : makeFileFetcher c with
          | error e => rw [hf] at hi; cases hi
          | ok ff =>
            rw [hf] at hi
            dsimp only at hi
            injection hi with hi
            subst hi
            simp [lookupKV]
        have ho' : Once { s with resources := [(s.parsingId, schema)] } := ⟨ho.loaded, ho.queueOk, ho.nodup, ho.marked⟩
        refine ⟨(T.once ho').1.nodup, hq, fun hm => ?_⟩
        exact T.fresh ho' s'.parsedDocs (by show _ = _ ++ s.parsedDocs; rw [hpd]; simp) _ hm hpar
      · cases h

/-- Specification: starting the loop over documents in state `s`, it comes to parse the schema `n` in state `s'`. -/
inductive LoopCalls (c : PEnv) (r : PRec) : PSt → SchemaNode → PSt → Prop where
  | now {s s' : PSt} {doc : String} {t : List String} {n : SchemaNode} (hq : s.queue = doc :: t)
      (h : resolveDocument c doc { s with queue := t, parsingId := doc, resolvingId := doc } = .ok (.ok n) s') :
      LoopCalls c r s n { s' with parsed := insertKV s'.parsed doc true, parsedDocs := doc :: s'.parsedDocs }
  | later {s s1 s' : PSt} {doc : String} {t : List String} {n : SchemaNode} (hq : s.queue = doc :: t)
      (h : parseDocument c r doc { s with queue := t } = .ok none s1) (rest : LoopCalls c r s1 n s') :
      LoopCalls c r s n s'
  | laterErr {s s1 s2 s' : PSt} {doc : String} {t : List String} {n : SchemaNode} {e : Err} (hq : s.queue = doc :: t)
      (h : parseDocument c r doc { s with queue := t } = .ok (some e) s1)
      (he : addErrorSub "document_parse_error" e s1 = .ok () s2) (rest : LoopCalls c r s2 n s') :
      LoopCalls c r s n s'

/-- Specification: the documents parsed by the loop only ask for documents in `D`. -/
def AsksOnlyFor (c : PEnv) (r : PRec) (s : PSt) (D : List String) : Prop :=
  ∀ n s1 g s2, LoopCalls c r s n s1 → parseRoot c r n s1 = .ok g s2 → ∀ d ∈ s2.queue, d ∈ s1.queue ∨ d ∈ D

theorem filter_length_lt {α : Type} {p q : α → Bool} {l : List α} (h : ∀ x ∈ l, q x = true → p x = true) {a : α}
    (ha : a ∈ l) (hp : p a = true) (hq : q a = false) : (l.filter q).length < (l.filter p).length := by
  induction l with
  | nil => cases ha
  | cons x t ih =>
    have hle : (t.filter q).length ≤ (t.filter p).length := by
      clear ih ha
      induction t with
      | nil => simp
      | cons y u ih2 =>
        have h' : ∀ z ∈ x :: u, q z = true → p z = true := by
          intro z hz
          apply h
          rcases List.mem_cons.1 hz with rfl | hz
          · simp
          · simp [hz]
        have := ih2 h'
        have hy := h y (by simp)
        by_cases hqy : q y = true
        · simp [List.filter_cons, hqy, hy hqy, this]
        · by_cases hpy : p y = true
          · simp [List.filter_cons, hqy, hpy]; omega
          · simp [List.filter_cons, hqy, hpy, this]
    rcases List.mem_cons.1 ha with rfl | ha
    · simp [List.filter_cons, hp, hq]; omega
    · have := ih (fun y hy => h y (List.mem_cons_of_mem _ hy)) ha
      by_cases hqx : q x = true
      · simp [List.filter_cons, hqx, h x List.mem_cons_self hqx]; omega
      · by_cases hpx : p x = true
        · simp [List.filter_cons, hqx, hpx]; omega
        · simp [List.filter_cons, hqx, hpx, this]

/-- Documents of `D` not yet parsed. -/
def unparsed (D : List String) (s : PSt) : Nat := (D.filter (fun d => decide (lookupKV s.parsed d ≠ some true))).length

/-- The part never runs out of fuel. -/
def NoOom {σ α : Type} (m : Comp σ α) : Prop := ∀ s, m s ≠ .oom

theorem NoOom.bind {σ α β : Type} {m : Comp σ α} {f : α → Comp σ β} (hm : NoOom m) (hf : ∀ a, NoOom (f a)) :
    NoOom (m >>= f) := by
  intro s h
  rw [Comp.bind_apply] at h
  cases hs : m s with
  | ok a s' => rw [hs] at h; exact hf a s' h
  | panic e => rw [hs] at h; cases h
  | oom => exact hm s hs

theorem NoOom.pure {σ α : Type} (a : α) : NoOom (pure a : Comp σ α) := by intro s h; cases h

theorem noOom_resolveDocument (c : PEnv) (doc : String) : NoOom (resolveDocument c doc) := by
  unfold resolveDocument
  refine NoOom.bind ?_ fun m => NoOom.bind ?_ fun s => ?_
  · unfold matchDocumentRegex
    dsimp only
    split
    · intro s h; cases h
    · exact NoOom.pure _
  · intro s h; cases h
  · split
    · exact NoOom.pure _
    · split
      · exact NoOom.pure _
      · refine NoOom.bind ?_ fun d => ?_
        · intro s h
          unfold fetchDocument at h
          dsimp only at h
          split at h
          · split at h
            · cases h
            · split at h <;> cases h
          · split at h
            · cases h
            · split at h <;> cases h
        · split
          · exact NoOom.pure _
          · refine NoOom.bind ?_ fun _ => NoOom.pure _
            intro s h; cases h

theorem noOom_parseDocument {c : PEnv} {r : PRec} {s : PSt} {doc : String} {t : List String} (hq : s.queue = doc :: t)
    (hroot : ∀ n s', LoopCalls c r s n s' → parseRoot c r n s' ≠ .oom) :
    parseDocument c r doc { s with queue := t } ≠ .oom := by
  intro h
  unfold parseDocument at h
  rw [Comp.bind_apply, modS_apply] at h
  dsimp only at h
  rw [Comp.bind_apply] at h
  cases hr : resolveDocument c doc { s with queue := t, parsingId := doc, resolvingId := doc } with
  | oom => exact noOom_resolveDocument c doc _ hr
  | panic m => rw [hr] at h; cases h
  | ok d s2 =>
    rw [hr] at h
    dsimp only at h
    cases d with
    | error e => cases h
    | ok n =>
      dsimp only at h
      rw [Comp.bind_apply, modS_apply] at h
      dsimp only at h
      rw [Comp.bind_apply] at h
      have := hroot n _ (.now hq hr)
      cases hp : parseRoot c r n { s2 with parsed := insertKV s2.parsed doc true, parsedDocs := doc :: s2.parsedDocs } with
      | oom => exact this hp
      | panic m => rw [hp] at h; cases h
      | ok g s3 => rw [hp] at h; cases h

theorem parseQueue_stops {c : PEnv} {r : PRec} (hr : KeepsRec c r) {D : List String} :
    ∀ (k : Nat) (s : PSt), AsksOnlyFor c r s D → (∀ n s', LoopCalls c r s n s' → parseRoot c r n s' ≠ .oom) →
      Once s → (∀ d ∈ s.queue, d ∈ D) →
      unparsed D s * (D.length + 1) + s.queue.length < k → parseQueue c r k s ≠ .oom := by
  intro k
  induction k with
  | zero => intro s _ _ _ _ h; omega
  | succ k ih =>
    intro s hD hroot ho hq hk h
    unfold parseQueue at h
    simp only [Comp.bind_apply, gets] at h
    cases hqs : s.queue with
    | nil => rw [hqs] at h; cases h
    | cons doc t =>
      rw [hqs] at h hk
      dsimp only at h
      rw [Comp.bind_apply, modS_apply] at h
      dsimp only at h
      rw [Comp.bind_apply] at h
      cases hp : parseDocument c r doc { s with queue := t } with
      | panic m => rw [hp] at h; cases h
      | oom => exact noOom_parseDocument hqs hroot hp
      | ok e s3 =>
        rw [hp] at h
        dsimp only at h
        rw [Comp.bind_apply] at h
        obtain ⟨T, _, hcase⟩ := top_parseDocument hr hqs hp
        obtain ⟨ho3, hmono⟩ := T.once ho
        -- recording the error changes neither the queue nor the marks
        have step : ∃ s4 : PSt, parseQueue c r k s4 = .oom ∧ s4.queue = s3.queue ∧ s4.parsed = s3.parsed ∧ Once s4 ∧
            ∀ n s', LoopCalls c r s4 n s' → LoopCalls c r s n s' := by
          cases e with
          | none => exact ⟨s3, h, rfl, rfl, ho3, fun n s' hl => .later hqs hp hl⟩
          | some e => exact ⟨_, h, rfl, rfl, ⟨ho3.loaded, ho3.queueOk, ho3.nodup, ho3.marked⟩,
              fun n s' hl => .laterErr hqs hp rfl hl⟩
        obtain ⟨s4, h4, hq4, hp4, ho4, hcalls⟩ := step
        clear h
        have hdoc : doc ∈ D := hq doc (by rw [hqs]; simp)
        have hnot : lookupKV s.parsed doc ≠ some true := ho.queueOk.2 doc (by rw [hqs]; simp)
        -- either the document failed, or it is now marked
        have key : (∀ d ∈ s3.queue, d ∈ D) ∧ unparsed D s3 ≤ unparsed D s := by
          have hle : unparsed D s3 ≤ unparsed D s := by
            unfold unparsed
            have : ∀ l : List String, (l.filter (fun d => decide (lookupKV s3.parsed d ≠ some true))).length ≤
                (l.filter (fun d => decide (lookupKV s.parsed d ≠ some true))).length := by
              intro l
              induction l with
              | nil => simp
              | cons x u ih =>
                by_cases h1 : lookupKV s.parsed x = some true
                · have h2 := hmono x h1
                  simp [List.filter_cons, h1, h2]
                  simpa using ih
                · by_cases h2 : lookupKV s3.parsed x = some true
                  · simp [List.filter_cons, h1, h2]
                    have := ih
                    simp at this
                    omega
                  · simp [List.filter_cons, h1, h2]
                    simpa using ih
            exact this D
          have hp0 := hp
          unfold parseDocument at hp
          obtain ⟨_, s5, h5, hp⟩ := bind_ok.1 hp
          rw [modS_apply] at h5
          injection h5 with _ h5
          obtain ⟨d, s6, h6, hp⟩ := bind_ok.1 hp
          have hq6 := (resolveDocument_queue (q := []) h6).1
          have hq5 : s5.queue = t := by rw [← h5]
          rw [hq5] at hq6
          cases d with
          | error er =>
            obtain ⟨_, hs⟩ := pure_ok.1 hp
            subst hs
            refine ⟨?_, hle⟩
            intro x hx
            rw [hq6] at hx
            exact hq x (by rw [hqs]; simp [hx])
          | ok n =>
            obtain ⟨_, s7, h7, hp⟩ := bind_ok.1 hp
            rw [modS_apply] at h7
            injection h7 with _ h7
            obtain ⟨g, s8, h8, hp⟩ := bind_ok.1 hp
            obtain ⟨_, hs⟩ := pure_ok.1 hp
            subst hs
            have hq7 : s7.queue = t := by rw [← h7]; exact hq6
            refine ⟨?_, hle⟩
            · intro x hx
              rcases hD _ _ _ _ (by rw [← h7]; rw [← h5] at h6; exact .now hqs h6) h8 x hx with h' | h'
              · rw [hq7] at h'
                exact hq x (by rw [hqs]; simp [h'])
              · exact h'
        obtain ⟨hsub, hle⟩ := key
        have hlen : s3.queue.length ≤ D.length :=
          (List.subperm_of_subset ho3.queueOk.1 (fun x hx => hsub x hx)).length_le
        refine ih s4 (fun n s1 g s2 hl => hD n s1 g s2 (hcalls n s1 hl)) (fun n s' hl => hroot n s' (hcalls n s' hl)) ho4
          (by rw [hq4]; exact hsub) ?_ h4
        have hu : unparsed D s4 = unparsed D s3 := by unfold unparsed; rw [hp4]
        rw [hu, hq4]
        rcases hcase with hc | hc
        · rw [hc]
          have : unparsed D s3 * (D.length + 1) ≤ unparsed D s * (D.length + 1) := Nat.mul_le_mul_right _ hle
          simp only [List.length_cons] at hk
          omega
        · have hm := ho3.marked doc hc
          have hlt : unparsed D s3 < unparsed D s := by
            unfold unparsed
            refine filter_length_lt (a := doc) ?_ hdoc (by simpa using hnot) (by simpa using hm)
            intro x _ hx
            simp only [decide_eq_true_eq] at hx ⊢
            exact fun h' => hx (hmono x h')
          have : (unparsed D s3 + 1) * (D.length + 1) ≤ unparsed D s * (D.length + 1) :=
            Nat.mul_le_mul_right _ hlt
          rw [Nat.add_mul] at this
          simp only [List.length_cons] at hk
          omega

/-- C52: the loop over documents stops.  When parsing each document it comes to ends, and these only ask for the
documents of a finite list, the loop needs at most `(|D| + 1)²` rounds, however the documents refer to one another. -/
theorem C52_loop_stops (c : PEnv) (fuel : Nat) (D : List String) (s : PSt) (hD : AsksOnlyFor c (parseRec c fuel) s D)
    (hroot : ∀ n s', LoopCalls c (parseRec c fuel) s n s' → parseRoot c (parseRec c fuel) n s' ≠ .oom)
    (hs : Once s) (hq : ∀ d ∈ s.queue, d ∈ D)
    (k : Nat) (hk : (D.length + 1) * (D.length + 1) ≤ k) : parseQueue c (parseRec c fuel) k s ≠ .oom := by
  refine parseQueue_stops (keeps_parseRec fuel) k s hD hroot hs hq ?_
  have h1 : unparsed D s ≤ D.length := List.length_filter_le _ _
  have h2 : s.queue.length ≤ D.length := (List.subperm_of_subset hs.queueOk.1 (fun x hx => hq x hx)).length_le
  have h3 : unparsed D s * (D.length + 1) ≤ D.length * (D.length + 1) := Nat.mul_le_mul_right _ h1
  have h4 : (D.length + 1) * (D.length + 1) = D.length * (D.length + 1) + (D.length + 1) := by rw [Nat.add_mul]; simp
  omega

/-- Two documents that refer to each other. -/
def cyclicEnv : PEnv :=
  { demoEnv with httpGet := fun u =>
      if u = "https://a.org/x" then some (.obj [("type", .str "object"), ("properties", .obj [("n", .obj [("$ref", .str "https://a.org/y")])])])
      else if u = "https://a.org/y" then some (.obj [("type", .str "object"), ("properties", .obj [("n", .obj [("$ref", .str "https://a.org/x#")])])])
      else none }

/-- A schema that refers to the first of them, twice, and to a document that does not exist. -/
def cyclicSchema : JVal := .obj [("type", .str "object"), ("properties", .obj [("p", .obj [("$ref", .str "https://a.org/x")]),
  ("q", .obj [("$ref", .str "https://a.org/x")]), ("r", .obj [("$ref", .str "https://a.org/none")])])]

/-- The cycle is parsed once; the missing document is reported. -/
example : ((parseSchema cyclicEnv 20 cyclicSchema).state.map (fun s => (s.parsedDocs, s.queue, s.errors.map (·.1)))) =
    some (["https://a.org/y", "https://a.org/x"], [], [("https://a.org/none", "#document_parse_error")]) := by
  decide +kernel

/-- The hypotheses of `C52_loop_stops` hold of a state with a document waiting that cannot be fetched. -/
example : Once { queue := ["https://a.org/none"], httpFetcher := some { enabled := true } } ∧
    (∀ n s', LoopCalls demoEnv (parseRec demoEnv 9)
      { queue := ["https://a.org/none"], httpFetcher := some { enabled := true } } n s' → False) := by
  refine ⟨⟨?_, ⟨by simp, ?_⟩, by simp, by simp⟩, ?_⟩
  · intro d hd; simp [lookupKV] at hd
  · intro d _; simp [lookupKV]
  · intro n s' h
    generalize hs : ({ queue := ["https://a.org/none"], httpFetcher := some { enabled := true } } : PSt) = s at h
    cases h with
    | now hq h =>
      subst hs
      injection hq with h1 h2
      subst h1; subst h2
      cases h
    | later hq h rest =>
      subst hs
      injection hq with h1 h2
      subst h1; subst h2
      cases h
    | laterErr hq h he rest =>
      subst hs
      injection hq with h1 h2
      subst h1; subst h2
      have : ∃ s1 : PSt, parseDocument demoEnv (parseRec demoEnv 9) "https://a.org/none"
          { queue := [], httpFetcher := some { enabled := true } } = .ok (some "failed to fetch URL") s1 ∧ s1.queue = [] :=
        ⟨_, rfl, rfl⟩
      obtain ⟨s1, hs1, hq1⟩ := this
      rw [hs1] at h
      injection h with h1 h2
      subst h2
      have he' : _ = _ := he
      unfold addErrorSub at he'
      rw [modS_apply] at he'
      injection he' with _ he'
      subst he'
      cases rest with
      | now hq h => rw [show _ = s1.queue from rfl, hq1] at hq; cases hq
      | later hq h rest => rw [show _ = s1.queue from rfl, hq1] at hq; cases hq
      | laterErr hq h he rest => rw [show _ = s1.queue from rfl, hq1] at hq; cases hq

end Chaff
