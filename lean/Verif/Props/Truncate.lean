import Verif.Lemmas.Loud
/-!
# C61: truncation at the depth limit is reported

The full claim is false of the code: the error of a member of an object is dropped (`C61_silent_truncation_violation`,
Props/Parser.lean), and so is the error of an array in a list of types (`C61_type_list_violation`).  What is reported: a
part of an array, of a combination or of a condition that lies at the limit.  Missing from the full statement: the members
of objects, arrays and objects in a list of types, and parts that only appear by merging.
-/

namespace Chaff
open Comp

/-- **C61**, any node. While a node is parsed, `k` levels below which such a part lies, exactly at the limit, a further error
is recorded, at the path of the node or below. -/
theorem C61_node_reported_partial (c : PEnv) (fuel k : Nat) (n : SchemaNode) (hb : PartBelow k n) (s s' : PSt)
    (r : Gen × Option Err) (hd : s.depth + k = c.maxParseDepth) (h : (parseRec c fuel).node n s = .ok r s') :
    ∃ new, new ≠ [] ∧ s'.errors = new ++ s.errors ∧ ∀ e ∈ new, e.1.1 = s.parsingId ∧ ∃ sub, e.1.2 = s.path ++ sub := by
  obtain ⟨l, hl, hq⟩ := ((keeps_parseRec (c := c) fuel).node n _ _ _ h).errors
  refine ⟨l, ?_, hl, hq⟩
  rintro rfl
  rcases loud_below hb fuel s.depth hd s r s' rfl h with hf | hlt
  · exact hf
  · rw [hl] at hlt
    simp at hlt

theorem loud_parseDefs {c : PEnv} {r : PRec} (hr : KeepsRec c r) {d : Int} {m : SchemaNode}
    (h : Loud d (r.node m) (fun _ => False)) (kw : String) : ∀ (l : List (String × SchemaNode)) (k : String), (k, m) ∈ l →
    Loud d (parseDefs c r kw l) (fun _ => False)
  | [], _, hm => by cases hm
  | (k0, x) :: t, k, hm => by
    unfold parseDefs
    rcases List.mem_cons.1 hm with he | hm
    · cases he
      exact Loud.first (keeps_parseInScope hr _ _ _) (loud_parseInScope hr h) (fun _ => keeps_parseDefs hr _ _)
        (fun _ hf => hf.elim)
    · exact Loud.then (keeps_parseInScope hr _ _ _) fun _ => loud_parseDefs hr h kw t k hm

/-- `m` is the document itself or one of its definitions. -/
inductive DocumentPart (root m : SchemaNode) : Prop
  | root (h : m = root)
  | defs (l : List (String × SchemaNode)) (k : String) (h : root.defs = some l) (hm : (k, m) ∈ l)
  | definitions (l : List (String × SchemaNode)) (k : String) (h : root.definitions = some l) (hm : (k, m) ∈ l)

/-- **C61**, a whole parse. If the limit cuts off items of an array or a part of a combination or condition, in the document
or in a definition, the error collection of the parse is not empty. -/
theorem C61_reported_partial (c : PEnv) (fuel k : Nat) (schema : JVal) (root m : SchemaNode)
    (hroot : decodeNode schema = some root) (hm : DocumentPart root m) (hb : PartBelow k m) (hk : c.maxParseDepth = k)
    (r : Gen × Option Err) (s : PSt) (h : parseSchema c fuel schema = .done (.ok r s)) : s.errors ≠ [] := by
  unfold parseSchema at h
  rw [hroot] at h
  dsimp only at h
  cases hi : initState c root with
  | error e => rw [hi] at h; cases h
  | ok s0 =>
    rw [hi] at h
    dsimp only at h
    split at h
    · injection h with h
      have kr := keeps_parseRec (c := c) fuel
      have hd0 : s0.depth = 0 := by
        unfold initState at hi
        split at hi
        · cases hi
        · injection hi with hi
          rw [← hi]
      have hnode : Loud 0 ((parseRec c fuel).node m) (fun _ => False) := loud_below hb fuel 0 (by omega)
      unfold parseBody at h
      obtain ⟨g, s1, h1, h2⟩ := bind_ok.1 h
      obtain ⟨u, s2, h3, h4⟩ := bind_ok.1 h2
      obtain ⟨_, rfl⟩ := pure_ok.1 h4
      have hl : Loud 0 (parseRoot c (parseRec c fuel) root) (fun _ => False) := by
        unfold parseRoot
        cases hm with
        | root he =>
          subst he
          exact Loud.then (keeps_parseDefs kr _ _) fun _ => Loud.then (keeps_parseDefs kr _ _) fun _ => hnode
        | defs l k he hm =>
          refine Loud.first (keeps_parseDefs kr _ _) (loud_parseDefs kr hnode _ _ k ?_)
            (fun _ => Keeps.bind (keeps_parseDefs kr _ _) fun _ => kr.node _) (fun _ hf => hf.elim)
          rw [he]
          exact hm
        | definitions l k he hm =>
          refine Loud.then (keeps_parseDefs kr _ _) fun _ => Loud.first (keeps_parseDefs kr _ _)
            (loud_parseDefs kr hnode _ _ k ?_) (fun _ => kr.node _) (fun _ hf => hf.elim)
          rw [he]
          exact hm
      obtain ⟨l, hl2⟩ := (top_parseQueue kr fuel h3).1.errors
      rcases hl { s0 with resources := [(s0.parsingId, schema)] } g s1 hd0 h1 with hf | hlt
      · exact hf.elim
      · intro he
        rw [he] at hl2
        have : s1.errors = [] := (List.append_eq_nil_iff.1 hl2.symm).2
        rw [this] at hlt
        simp at hlt
    · cases h

/-! ## A case -/

/-- An object with a list of integers. -/
def listInObject : JVal := .obj [("type", .str "object"), ("properties", .obj [("a", .obj [("type", .str "array"),
  ("items", .obj [("type", .str "integer")])])])]

theorem readAs_typeName (n : SchemaNode) (t : MultipleType) (ht : n.type = some t) (hs : t.single ≠ "") (hm : t.multiple = none)
    (h1 : n.dependentRequired = []) (h2 : n.dependentSchemas = []) (h3 : n.ref = none) (h4 : n.allOf = none)
    (h5 : n.oneOf = none) (h6 : n.anyOf = none) (h7 : n.not = none) (h8 : n.mergedNot = []) (h9 : n.ifN = none)
    (h10 : n.mergedIf = []) (h11 : n.enum = none) (h12 : n.const = none) : ReadAs n .typeName := by
  refine ⟨(precedence n).take 9, (∃ t, n.type = some t ∧ t.single ≠ ""), (precedence n).drop 10, rfl, ⟨t, ht, hs⟩, ?_⟩
  simp [precedence, ht, hm, h1, h2, h3, h4, h5, h6, h7, h8, h9, h10, h11, h12]

/-- The integers lie two levels below the document, so a limit of two cuts them off. -/
theorem listInObject_below : ∃ root, decodeNode listInObject = some root ∧ PartBelow 2 root := by
  refine ⟨_, rfl, ?_⟩
  refine .member ?_ (.property _ "a" rfl (List.mem_singleton.2 rfl)) (.item ?_ (.items _ rfl rfl rfl))
  · exact .inr ⟨readAs_typeName _ _ rfl (by decide) rfl rfl rfl rfl rfl rfl rfl rfl rfl rfl rfl rfl rfl, _, rfl, rfl⟩
  · exact .inr ⟨readAs_typeName _ _ rfl (by decide) rfl rfl rfl rfl rfl rfl rfl rfl rfl rfl rfl rfl rfl, _, rfl, rfl⟩

/-- The hypotheses are met: the parse with limit two ends, and the error is there; with limit three there is none. -/
example : (parseSchema { demoEnv with maxParseDepth := 2 } 20 listInObject).state.map (fun s => s.errors.map (·.1.2)) =
      some ["#/properties/a"] ∧
    (parseSchema { demoEnv with maxParseDepth := 3 } 20 listInObject).state.map (fun s => s.errors.length) = some 0 := by
  decide +kernel

example (r : Gen × Option Err) (s : PSt)
    (h : parseSchema { demoEnv with maxParseDepth := 2 } 20 listInObject = .done (.ok r s)) : s.errors ≠ [] := by
  obtain ⟨root, hr, hb⟩ := listInObject_below
  exact C61_reported_partial _ 20 2 _ root root hr (.root rfl) hb rfl r s h

/-- An array, written as a list of types. -/
def listedArray : JVal := .obj [("type", .arr [.str "array"]), ("minItems", .num 1),
  ("items", .obj [("type", .str "integer")])]

/-- C61 is violated by the code: in a list of types the error is dropped, and the schema generates `null`. -/
theorem C61_type_list_violation :
    (parseSchema { demoEnv with maxParseDepth := 1 } 20 listedArray).state.map (fun s => s.errors.length) = some 0 ∧
    (parseSchema { demoEnv with maxParseDepth := 1 } 20 listedArray).result.map (fun r => (r.2,
      match r.1 with | .multi gs => gs.map (fun g => match g with | .null => true | _ => false) | _ => [])) =
      some (none, [true]) ∧
    (parseSchema { demoEnv with maxParseDepth := 2 } 20 listedArray).result.map (fun r => (r.2,
      match r.1 with | .multi gs => gs.map (fun g => match g with | .null => true | _ => false) | _ => [])) =
      some (none, [false]) := by decide +kernel

end Chaff
