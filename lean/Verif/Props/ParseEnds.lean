import Verif.Lemmas.FuelMono
import Verif.Lemmas.EndsLazy
import Verif.Props.Parsed
import Lean.Elab.Tactic.Basic
/-!
# C69: parsing ends

The fuel of the model bounds the depth of the recursion and the number of iterations of each loop.  A run that ends has
finitely many of both, so it has an answer with some fuel; a run that never ends has none with any fuel.
-/

namespace Chaff
open Comp

/-- **C69, one answer.** Once the parser has an answer (a generator, an error or a panic) with some fuel, it has the same
answer with any larger fuel. -/
theorem C69_more_fuel_same_answer (c : PEnv) (schema : JVal) (k k' : Nat) (hk : k ≤ k')
    (h : parseSchema c k schema ≠ .done .oom) : parseSchema c k' schema = parseSchema c k schema := by
  unfold parseSchema at h ⊢
  revert h
  cases decodeNode schema with
  | none => intro _; rfl
  | some root =>
    dsimp only
    cases initState c root with
    | error e => intro _; rfl
    | ok s =>
      dsimp only
      split
      · intro h
        rcases leq_parseBody (c := c) hk root { s with resources := [(s.parsingId, schema)] } with e | e
        · rw [e] at h; exact absurd rfl h
        · rw [e]
      · intro _; rfl

/-- A computation with fuel that has an answer with some fuel has, with any fuel, that answer or none. -/
theorem answer_or_oom {α : Type} {m : Nat → P α} (hm : ∀ k k', k ≤ k' → Leq (m k) (m k')) {j : Nat} {s : PSt} {r : Res PSt α}
    (h : m j s = r) (hr : r ≠ .oom) (k : Nat) : m k s = .oom ∨ m k s = r := by
  rcases Nat.le_total k j with hk | hk
  · rcases hm k j hk s with e | e
    · exact .inl e
    · exact .inr (e.symm.trans h)
  · rcases hm j k hk s with e | e
    · exact absurd (h.symm.trans e) hr
    · exact .inr (e.trans h)

/-- Closes a goal `a = b` by reflexivity and leaves the check that `a` and `b` reduce to the same term to the kernel. -/
elab "kernel_rfl" : tactic => do
  let g ← Lean.Elab.Tactic.getMainGoal
  let t ← Lean.instantiateMVars (← g.getType)
  match t.eq? with
  | some (_, a, _) => g.assign (← Lean.Meta.mkEqRefl a)
  | none => throwError "not an equation"

/-! ## Endless recursion through double negations -/

/-- The example environment without fetchers. -/
def offlineEnv : PEnv := { namedEnv with httpOpts := {}, fileOpts := {} }

/-- `{"not": {"not": {"not": {"$ref": "#"}}}}`. -/
def spinSchema : JVal := .obj [("not", .obj [("not", .obj [("not", .obj [("$ref", .str "#")])])])]

/-- `{"not": n}` as a node. -/
def notN (n : SchemaNode) : SchemaNode := { not := some n }
/-- `{"$ref": r}` as a node. -/
def refN (r : String) : SchemaNode := { ref := some r }

/-- The state while the root is being parsed. -/
def spinSt (depth : Int) : PSt :=
  { parsingId := "https://a.org/root"
    docs := [("https://a.org/root", notN (notN (notN (refN "#"))))]
    parsed := [("https://a.org/root", true)]
    resources := [("https://a.org/root", spinSchema)]
    depth := depth }

/-- One round of `parseNot` in which all negations are double negations. -/
theorem parseNot_round {c : PEnv} {j : Nat} {n n' : SchemaNode} {l : List SchemaNode} {s : PSt}
    (hd : ∀ r, parseSchemaStep c r n = parseNot c r n) (hl : 0 < l.length)
    (h1 : partitionNots c j 0 (collectNots n) s = .ok ([], l) s)
    (h2 : mergeNodes c j ({ n with not := none, mergedNot := [] } :: l) s = .ok n' s) (k : Nat)
    (ih : (parseRec c k).schema n' s = .oom) : (parseRec c (k + 1)).schema n s = .oom := by
  show parseSchemaStep c (parseRec c k) n s = .oom
  rw [hd]
  unfold parseNot
  rcases answer_or_oom (m := fun k => partitionNots c k 0 (collectNots n)) (fun a b h => leq_partitionNots h _ _) h1 (by simp)
    (parseRec c k).fuel with e | e
  · rw [bind_apply, e]
  · rw [bind_apply, e]
    dsimp only
    rw [if_pos hl, bind_apply]
    rcases answer_or_oom (m := fun k => mergeNodes c k ({ n with not := none, mergedNot := [] } :: l))
      (fun a b h => leq_mergeNodes _ _ _ h) h2 (by simp) (parseRec c k).fuel with e | e
    · rw [e]
    · rw [e]
      exact ih

/-- The rounds of the parser on the schema above. -/
theorem spin_rounds : ∀ k : Nat,
    (parseRec offlineEnv k).schema (notN (notN (notN (refN "https://a.org/root#")))) (spinSt 1) = .oom ∧
    (parseRec offlineEnv k).schema (notN (refN "https://a.org/root#")) (spinSt 1) = .oom ∧
    (parseRec offlineEnv k).schema (notN (notN (refN "https://a.org/root#"))) (spinSt 1) = .oom := by
  intro k
  induction k with
  | zero => exact ⟨rfl, rfl, rfl⟩
  | succ k ih =>
    refine ⟨?_, ?_, ?_⟩
    · exact parseNot_round (j := 6) (l := [notN (refN "https://a.org/root#")]) (fun _ => rfl) (by decide) (by kernel_rfl) (by kernel_rfl) k ih.2.1
    · exact parseNot_round (j := 6) (l := [notN (notN (refN "https://a.org/root#"))]) (fun _ => rfl) (by decide) (by kernel_rfl) (by kernel_rfl) k ih.2.2
    · exact parseNot_round (j := 6) (l := [notN (notN (notN (refN "https://a.org/root#")))]) (fun _ => rfl) (by decide) (by kernel_rfl) (by kernel_rfl) k ih.1

theorem spin_root (k : Nat) : (parseRec offlineEnv k).schema (notN (notN (notN (refN "#")))) (spinSt 1) = .oom := by
  cases k with
  | zero => rfl
  | succ k =>
    refine parseNot_round (j := 6) (n' := notN (refN "#")) (l := [notN (refN "#")]) (fun _ => rfl) (by decide) (by kernel_rfl) (by kernel_rfl) k ?_
    cases k with
    | zero => rfl
    | succ k =>
      exact parseNot_round (j := 6) (n' := notN (notN (refN "https://a.org/root#")))
        (l := [notN (notN (refN "https://a.org/root#"))]) (fun _ => rfl) (by decide) (by kernel_rfl) (by kernel_rfl) k (spin_rounds k).2.2

/-- C69 fails for `{"not": {"not": {"not": {"$ref": "#"}}}}`: a schema that negates itself an odd number of times is expanded
again and again, and the nesting limit is never consulted. -/
theorem C69_recursive_double_negation_violation (fuel : Nat) : parseSchema offlineEnv fuel spinSchema = .done .oom := by
  have h : parseSchema offlineEnv fuel spinSchema =
      .done (parseBody offlineEnv fuel (notN (notN (notN (refN "#")))) (spinSt 0)) := by kernel_rfl
  rw [h]
  congr 1
  unfold parseBody
  rw [bind_apply]
  have hr : parseRoot offlineEnv (parseRec offlineEnv fuel) (notN (notN (notN (refN "#")))) (spinSt 0) = .oom := by
    show (parseRec offlineEnv fuel).node (notN (notN (notN (refN "#")))) (spinSt 0) = .oom
    cases fuel with
    | zero => rfl
    | succ k =>
      show parseNodeStep offlineEnv (parseRec offlineEnv k).schema _ _ = .oom
      have e : parseNodeStep offlineEnv (parseRec offlineEnv k).schema (notN (notN (notN (refN "#")))) (spinSt 0) =
          ((parseRec offlineEnv k).schema (notN (notN (notN (refN "#")))) >>= fun r => do
            recordErr r.2
            registerNode (notN (notN (notN (refN "#")))) (nilToNull r.1)
            Comp.modS (fun s => { s with depth := s.depth - 1 })
            pure (nilToNull r.1, r.2) : PR) (spinSt 1) := by kernel_rfl
      rw [e, bind_apply, spin_root]
  rw [hr]

/-! ## An endless loop at the nesting limit -/

/-- The offline environment with a nesting limit of two. -/
def shallowEnv : PEnv := { offlineEnv with maxParseDepth := 2 }

/-- `{"allOf": [{"allOf": [{"$ref": "#"}]}]}`. -/
def loopSchema : JVal := .obj [("allOf", .arr [.obj [("allOf", .arr [.obj [("$ref", .str "#")]])]])]

/-- `{"allOf": [n]}` as a node. -/
def allN (n : SchemaNode) : SchemaNode := { allOf := some [n] }

/-- The state while the root is being parsed. -/
def loopSt (depth : Int) : PSt :=
  { parsingId := "https://a.org/root"
    docs := [("https://a.org/root", allN (allN (refN "#")))]
    parsed := [("https://a.org/root", true)]
    resources := [("https://a.org/root", loopSchema)]
    depth := depth }

/-- Flattening at one level below the limit goes round for ever. -/
theorem residual_loop (rec : MergeRec) (f : Nat) (hrec : ∀ l, rec l = mergeNodes shallowEnv f l) : ∀ k : Nat,
    flattenResidual shallowEnv rec k (allN (refN "https://a.org/root#")) (loopSt 1) = .oom := by
  intro k
  induction k with
  | zero => rfl
  | succ k ih =>
    have e : flattenResidual shallowEnv rec (k + 1) (allN (refN "https://a.org/root#")) (loopSt 1) =
        (rec [refN "https://a.org/root#", {}] >>= fun m' => do
          Comp.modS (fun s => { s with depth := s.depth - 1 })
          flattenResidual shallowEnv rec k m' : P SchemaNode) (loopSt 2) := by kernel_rfl
    rw [e, bind_apply, hrec]
    rcases answer_or_oom (m := fun k => mergeNodes shallowEnv k [refN "https://a.org/root#", {}])
      (fun a b h => leq_mergeNodes _ _ _ h) (j := 8) (s := loopSt 2) (r := .ok (allN (refN "https://a.org/root#")) (loopSt 2))
      (by kernel_rfl) (by simp) f with e | e
    · rw [e]
    · rw [e]
      exact ih

/-- C69 fails for `{"allOf": [{"allOf": [{"$ref": "#"}]}]}` with a nesting limit of two: below the limit the flattening of
`allOf` gives up, one level above it starts again, for ever. -/
theorem C69_allOf_at_depth_limit_violation (fuel : Nat) : parseSchema shallowEnv fuel loopSchema = .done .oom := by
  have h : parseSchema shallowEnv fuel loopSchema =
      .done (parseBody shallowEnv fuel (allN (allN (refN "#"))) (loopSt 0)) := by kernel_rfl
  rw [h]
  congr 1
  unfold parseBody
  rw [bind_apply]
  have hm : ∀ k, mergeNodes shallowEnv k [allN (refN "#"), {}] (loopSt 1) = .oom := by
    intro k
    cases k with
    | zero => rfl
    | succ k =>
      show mergeStep shallowEnv k (mergeNodes shallowEnv k) _ _ = .oom
      unfold mergeStep
      rw [bind_apply]
      rcases answer_or_oom (m := fun k => mergeLoop shallowEnv k (mergeNodes shallowEnv k) emptyNode [allN (refN "#"), {}])
        (fun a b h => leq_mergeLoop h (fun l => leq_mergeNodes a b l h) _ _) (j := 8) (s := loopSt 1)
        (r := .ok (allN (refN "#")) (loopSt 1)) (by kernel_rfl) (by simp) k with e | e
      · rw [e]
      · rw [e]
        dsimp only
        generalize hrec : mergeNodes shallowEnv k = rec
        generalize hk : k = k2
        cases k2 with
        | zero => rfl
        | succ k2 =>
          have e : flattenResidual shallowEnv rec (k2 + 1) (allN (refN "#")) (loopSt 1) =
              (rec [refN "#", {}] >>= fun m' => do
                Comp.modS (fun s => { s with depth := s.depth - 1 })
                flattenResidual shallowEnv rec k2 m' : P SchemaNode) (loopSt 2) := by kernel_rfl
          rw [e, bind_apply, ← hrec]
          rcases answer_or_oom (m := fun k => mergeNodes shallowEnv k [refN "#", {}])
            (fun a b h => leq_mergeNodes _ _ _ h) (j := 8) (s := loopSt 2)
            (r := .ok (allN (refN "https://a.org/root#")) (loopSt 2)) (by kernel_rfl) (by simp) k with e | e
          · rw [e]
          · rw [e]
            exact residual_loop _ k (fun _ => rfl) k2
  have hr : parseRoot shallowEnv (parseRec shallowEnv fuel) (allN (allN (refN "#"))) (loopSt 0) = .oom := by
    show (parseRec shallowEnv fuel).node (allN (allN (refN "#"))) (loopSt 0) = .oom
    cases fuel with
    | zero => rfl
    | succ k =>
      show parseNodeStep shallowEnv (parseRec shallowEnv k).schema _ _ = .oom
      have e : parseNodeStep shallowEnv (parseRec shallowEnv k).schema (allN (allN (refN "#"))) (loopSt 0) =
          ((parseRec shallowEnv k).schema (allN (allN (refN "#"))) >>= fun r => do
            recordErr r.2
            registerNode (allN (allN (refN "#"))) (nilToNull r.1)
            Comp.modS (fun s => { s with depth := s.depth - 1 })
            pure (nilToNull r.1, r.2) : PR) (loopSt 1) := by kernel_rfl
      rw [e, bind_apply]
      have hs : (parseRec shallowEnv k).schema (allN (allN (refN "#"))) (loopSt 1) = .oom := by
        cases k with
        | zero => rfl
        | succ k =>
          show parseAllOf shallowEnv (parseRec shallowEnv k) (allN (allN (refN "#"))) [allN (refN "#")] (loopSt 1) = .oom
          unfold parseAllOf
          rw [bind_apply]
          have hm' : mergeNodes shallowEnv (parseRec shallowEnv k).fuel
            ([allN (refN "#")] ++ [{ allN (allN (refN "#")) with allOf := none }]) (loopSt 1) = .oom := hm _
          rw [hm']
      rw [hs]
  rw [hr]

/-! ## Schemas without references -/

/-- From the state in which parsing starts, a schema is parsed with enough fuel. -/
theorem parseSchema_ends {c : PEnv} {schema : JVal}
    (h : ∀ root s, decodeNode schema = some root → initState c root = .ok s →
      ∃ r, r ≠ .oom ∧ ∃ k0, ∀ k, k0 ≤ k → parseBody c k root { s with resources := [(s.parsingId, schema)] } = r) :
    ∃ k0, ∀ k, k0 ≤ k → parseSchema c k schema ≠ .done .oom := by
  unfold parseSchema
  cases hd : decodeNode schema with
  | none => exact ⟨0, fun _ _ => nofun⟩
  | some root =>
    dsimp only
    cases hi : initState c root with
    | error e => exact ⟨0, fun _ _ => nofun⟩
    | ok s =>
      dsimp only
      obtain ⟨r, hr, k0, hk⟩ := h root s hd hi
      refine ⟨k0, fun k hkk => ?_⟩
      split
      · rw [hk k hkk]
        intro e
        injection e with e
        exact hr e
      · exact nofun

theorem initState_queue {c : PEnv} {root : SchemaNode} {s : PSt} (h : initState c root = .ok s) : s.queue = [] ∧ s.depth = 0 := by
  unfold initState at h
  split at h
  · cases h
  · cases h; exact ⟨rfl, rfl⟩

/-- **C69, schemas without references.** Parsing a schema text in which nothing is called `$ref` always ends, whatever its
keywords and nesting and whatever the options: with enough fuel there is an answer.  Missing for the full claim: schemas with
references (false in general, see the violations above). -/
theorem C69_no_references_ends_partial (c : PEnv) (schema : JVal) (h : refTexts schema = []) :
    ∃ enough, ∀ fuel, enough ≤ fuel → parseSchema c fuel schema ≠ .done .oom := by
  refine parseSchema_ends fun root s hd hi => ?_
  obtain ⟨hq, h0⟩ := initState_queue hi
  have hf : Fine (fun _ => 1) root := by
    have h1 : jw 0 (fun _ => 1) schema = 0 := jw_zero schema (by simp [h])
    have h2 := decode_wt (e := 0) (w := fun _ => 1) hd
    show wt 0 _ root = 0
    omega
  exact parseBody_ends (ends_parseRoot (d := 0) (refWorld_none c) root hf) ⟨hq, h0⟩ fun s hs => .inl hs.1

/-- A reference-free schema with the combinators that the endless ones use. -/
def boundedSchema : JVal := .obj [("not", .obj [("not", .obj [("not", .obj [("type", .str "string")])])]),
  ("allOf", .arr [.obj [("allOf", .arr [.obj [("minLength", .num 2)]])], .obj [("if", .obj [("maxLength", .num 3)]), ("then", .obj [])]])]
example : refTexts boundedSchema = [] := by decide +kernel
example : ∃ enough, ∀ fuel, enough ≤ fuel → parseSchema offlineEnv fuel boundedSchema ≠ .done .oom :=
  C69_no_references_ends_partial _ _ (by decide +kernel)

/-! ## Schemas with acyclic references -/

/-- **C69, acyclic references.** Parsing a schema text ends if its references only name definitions of the same document and
no definition leads back to itself (`AcyclicReferences`), whatever else is in it.  The document may have an identifier but no
schema inside it has one; there are no fetchers; the name of the document has no `#`.  Missing for the full claim: recursive
references (false in general), pointers to other places, identifiers and other documents. -/
theorem C69_acyclic_references_end_partial (c : PEnv) (schema : JVal) (h : AcyclicReferences schema) (hi : NoInnerIds schema)
    (hh : c.httpOpts.enabled = false) (hf : c.fileOpts.enabled = false) (hr : '#' ∉ c.relativeTo.toList)
    (hc : ∀ p, c.fs.cwd = some p → '#' ∉ (pathText p).toList) :
    ∃ enough, ∀ fuel, enough ≤ fuel → parseSchema c fuel schema ≠ .done .oom := by
  refine parseSchema_ends fun root s hd hs => ?_
  obtain ⟨bad, w, R, hF⟩ := ranked_acyclic hd h
  obtain ⟨h1, h2⟩ := initState_oneDoc hd hs hi hh hf hr hc [(s.parsingId, schema)]
  exact parseBody_ends (ends_parseRoot (d := 0) (refWorld_ranked c R) root hF) ⟨h1, h2⟩ fun s hs => .inr hs.1.noFetchers

/-- Definitions that use each other inside the combinators of the endless schemas. -/
def layeredSchema : JVal := .obj [("$id", .str "https://a.org/root"), ("not", .obj [("not", .obj [("$ref", .str "#/$defs/top")])]),
  ("$defs", .obj [
    ("top", .obj [("allOf", .arr [.obj [("$ref", .str "#/definitions/base")], .obj [("not", .obj [("$ref", .str "#/definitions/base")])]])]),
    ("mid", .obj [("anyOf", .arr [.obj [("$ref", .str "#/$defs/top")], .obj [("$ref", .str "#/$defs/top")]])])]),
  ("definitions", .obj [("base", .obj [("type", .str "string")])])]

theorem layered_acyclic : AcyclicReferences layeredSchema := by
  refine ⟨fun r => if r = "#/definitions/base" then 0 else 1, ?_⟩
  intro r hr
  have : r = "#/$defs/top" ∨ r = "#/definitions/base" := by
    have e : refTexts layeredSchema = ["#/$defs/top", "#/definitions/base", "#/definitions/base", "#/$defs/top", "#/$defs/top"] := by
      decide +kernel
    rw [e] at hr
    simp only [List.mem_cons, List.not_mem_nil, or_false] at hr
    tauto
  rcases this with rfl | rfl
  · refine ⟨"$defs", "top", ⟨.inl rfl, by decide +kernel, by decide, by decide⟩, ?_⟩
    intro d hd r' hr'
    have e : definitionTexts "$defs" "top" layeredSchema =
        [.obj [("allOf", .arr [.obj [("$ref", .str "#/definitions/base")], .obj [("not", .obj [("$ref", .str "#/definitions/base")])]])]] := by
      kernel_rfl
    rw [e] at hd
    cases List.mem_singleton.1 hd
    have e : r' = "#/definitions/base" := by
      have : r' ∈ ["#/definitions/base", "#/definitions/base"] := hr'
      simpa using this
    subst e
    decide
  · refine ⟨"definitions", "base", ⟨.inr rfl, by decide +kernel, by decide, by decide⟩, ?_⟩
    intro d hd r' hr'
    have e : definitionTexts "definitions" "base" layeredSchema = [.obj [("type", .str "string")]] := by kernel_rfl
    rw [e] at hd
    cases List.mem_singleton.1 hd
    cases hr'

theorem layered_ids : NoInnerIds layeredSchema := by
  intro p hp hk
  simp only [List.mem_cons, List.not_mem_nil, or_false] at hp
  rcases hp with rfl | rfl | rfl | rfl
  · exact absurd rfl hk
  all_goals decide +kernel

example : ∃ enough, ∀ fuel, enough ≤ fuel → parseSchema offlineEnv fuel layeredSchema ≠ .done .oom :=
  C69_acyclic_references_end_partial _ _ layered_acyclic layered_ids rfl rfl (by decide +kernel)
    fun p h => by have e : some ["w"] = some p := h; cases e; decide +kernel

/-! ## Recursive schemas -/

/-- **C69, recursive references.** References may lead anywhere, also back to the schema they are in, as long as parsing does
not combine schemas with them: below `allOf`, `anyOf`, `oneOf`, `not`, `if` and `contains` there are only references in `S`,
which name definitions and lead on to others of lower rank (`AcyclicFrom`); objects without those keywords may have any other
reference (`FreeOutside`).  Under the conditions of the theorem above about the document, parsing ends.  Missing for the full
claim: recursive references in combinations (false in general), identifiers and other documents. -/
theorem C69_recursive_references_end_partial (c : PEnv) (schema : JVal) (S : String → Prop) (h : AcyclicFrom schema S)
    (hs : FreeOutside S schema) (hi : NoInnerIds schema)
    (hh : c.httpOpts.enabled = false) (hf : c.fileOpts.enabled = false) (hr : '#' ∉ c.relativeTo.toList)
    (hc : ∀ p, c.fs.cwd = some p → '#' ∉ (pathText p).toList) :
    ∃ enough, ∀ fuel, enough ≤ fuel → parseSchema c fuel schema ≠ .done .oom := by
  refine parseSchema_ends fun root s hd hs' => ?_
  obtain ⟨bad, w, R, hF⟩ := ranked_from hd h
  obtain ⟨h1, h2⟩ := initState_oneDoc hd hs' hi hh hf hr hc [(s.parsingId, schema)]
  exact parseBody_ends (lazy_parseRoot (d := 0) (refWorld_ranked c R) defers_offline root (decode_lazy hF hs hd)) ⟨h1, h2⟩
    fun s hs => .inr hs.1.noFetchers

/-- A tree whose values are combined from definitions: the children refer to the whole schema. -/
def treeSchema : JVal := .obj [("type", .str "object"),
  ("properties", .obj [
    ("value", .obj [("allOf", .arr [.obj [("$ref", .str "#/$defs/name")], .obj [("not", .obj [("const", .str "x")])]])]),
    ("first", .obj [("$ref", .str "#")]),
    ("children", .obj [("type", .str "array"), ("items", .obj [("$ref", .str "#")])])]),
  ("$defs", .obj [("name", .obj [("type", .str "string")]), ("self", .obj [("$ref", .str "#/$defs/self")])])]

theorem tree_refs : AcyclicFrom treeSchema (fun r => r = "#/$defs/name") := by
  refine ⟨fun _ => 0, ?_⟩
  rintro r rfl
  refine ⟨"$defs", "name", ⟨.inl rfl, by decide +kernel, by decide, by decide⟩, ?_⟩
  intro d hd r' hr'
  have e : definitionTexts "$defs" "name" treeSchema = [.obj [("type", .str "string")]] := by kernel_rfl
  rw [e] at hd
  cases List.mem_singleton.1 hd
  cases hr'

/-- Members of an object that are all settled or schemas themselves. -/
theorem FreeOutside.object {S : String → Prop} {m : List (String × JVal)}
    (h : ∀ p ∈ m, p.1 ∉ combiningKeywords ∧ FreeOutside S p.2 ∧ ∀ l, p.2 = .arr l → ∀ x ∈ l, FreeOutside S x) :
    FreeOutside S (.obj m) :=
  .plain m (fun p hp => (h p hp).1) (fun p hp => (h p hp).2.1) (fun p hp => (h p hp).2.2)

theorem tree_free : FreeOutside (fun r => r = "#/$defs/name") treeSchema := by
  have text : ∀ {S : String → Prop} (t : String), FreeOutside S (.str t) := fun t => .settled _ nofun
  have whole : ∀ {S : String → Prop} (t : String), FreeOutside S (.obj [("$ref", .str t)]) := fun t => by
    refine .object fun p hp => ?_
    cases List.mem_singleton.1 hp
    exact ⟨show "$ref" ∉ combiningKeywords by decide, text t, nofun⟩
  refine .object fun p hp => ?_
  simp only [List.mem_cons, List.not_mem_nil, or_false] at hp
  rcases hp with rfl | rfl | rfl
  · exact ⟨by decide, text _, nofun⟩
  · refine ⟨by decide, .object fun p hp => ?_, nofun⟩
    simp only [List.mem_cons, List.not_mem_nil, or_false] at hp
    rcases hp with rfl | rfl | rfl
    · refine ⟨by decide, .settled _ fun r hr => ?_, nofun⟩
      exact List.mem_singleton.1 (show r ∈ ["#/$defs/name"] from hr)
    · exact ⟨by decide, whole _, nofun⟩
    · refine ⟨by decide, .object fun p hp => ?_, nofun⟩
      simp only [List.mem_cons, List.not_mem_nil, or_false] at hp
      rcases hp with rfl | rfl
      · exact ⟨by decide, text _, nofun⟩
      · exact ⟨by decide, whole _, nofun⟩
  · refine ⟨by decide, .object fun p hp => ?_, nofun⟩
    simp only [List.mem_cons, List.not_mem_nil, or_false] at hp
    rcases hp with rfl | rfl
    · exact ⟨by decide, .settled _ nofun, nofun⟩
    · exact ⟨by decide, whole _, nofun⟩

theorem tree_ids : NoInnerIds treeSchema := by
  intro p hp hk
  simp only [List.mem_cons, List.not_mem_nil, or_false] at hp
  rcases hp with rfl | rfl | rfl
  all_goals decide +kernel

example : ∃ enough, ∀ fuel, enough ≤ fuel → parseSchema offlineEnv fuel treeSchema ≠ .done .oom :=
  C69_recursive_references_end_partial _ _ _ tree_refs tree_free tree_ids rfl rfl (by decide +kernel)
    fun p h => by have e : some ["w"] = some p := h; cases e; decide +kernel

end Chaff
