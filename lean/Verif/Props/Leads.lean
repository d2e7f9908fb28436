import Verif.Props.Ids
/-!
# C81: where a reference leads
-/

namespace Chaff
open Comp

theorem hasAllOf_iff {l : List Char} : hasAllOfStep l = true ↔ "/allOf/".toList <:+: l := by
  have h := noAllOf_iff (l := l)
  cases e : hasAllOfStep l with
  | false => exact ⟨nofun, fun hh => (h.1 e hh).elim⟩
  | true =>
    refine ⟨fun _ => ?_, fun _ => rfl⟩
    by_contra hn
    rw [h.2 hn] at e
    cases e

/-- The keywords that are refused whatever else a schema says are absent. -/
def NoDependents (n : SchemaNode) : Prop := n.dependentRequired = [] ∧ n.dependentSchemas = []

theorem schema_ref {c : PEnv} {k : Nat} {n : SchemaNode} {ref : String} (href : n.ref = some ref) (hd : NoDependents n) :
    (parseRec c (k + 1)).schema n = parseReference c ref := by
  show parseSchemaStep c (parseRec c k) n = _
  unfold parseSchemaStep checkUnsupported
  rw [hd.1, hd.2, href]
  rfl

/-- **C81, references into a combination.** A schema whose `$ref` has a step through `allOf` is refused: an error is
recorded for its place, it generates null, and no document is asked for. -/
theorem C81_into_allOf_refused (c : PEnv) (k : Nat) (n : SchemaNode) (ref : String) (s : PSt) (href : n.ref = some ref)
    (hin : "/allOf/".toList <:+: ref.toList) (hn : NoDependents n) (hc : n.constraints = none)
    (hd : s.depth + 1 ≤ c.maxParseDepth) :
    ∃ e s', (parseRec c (k + 2)).node n s = .ok (.null, some e) s' ∧ s'.errors = ((s.parsingId, s.path), e) :: s.errors ∧
      s'.queue = s.queue := by
  have hr : ∀ t, (parseRec c (k + 1)).schema n t =
      .ok (.nilGen, some "references to things within allOf are not supported") t := by
    intro t
    rw [schema_ref href hn]
    unfold parseReference
    rw [if_pos (hasAllOf_iff.2 hin)]
    rfl
  show ∃ e s', parseNodeStep c (parseRec c (k + 1)).schema n s = _ ∧ _
  unfold parseNodeStep
  simp only [bind_apply, modS_apply, gets]
  rw [if_neg (by show ¬ s.depth + 1 > c.maxParseDepth; omega)]
  simp only [bind_apply, hr, recordErr, addError, addErrorSub, modS_apply, nilToNull, hc, registerNode, addReference]
  cases hi : n.id with
  | none => exact ⟨_, _, rfl, by simp, rfl⟩
  | some i => exact ⟨_, _, rfl, by simp [addIdReference], by simp [addIdReference]⟩

/-- **C81, local references (partial).** A `$ref` that is a pointer leads to that place of the document that is being
parsed, unless the parser has last looked into another document.  Missing: the other case, see
`C81_other_document_violation`. -/
theorem C81_local_reference_partial (c : PEnv) (k : Nat) (n : SchemaNode) (ts : List String) (s : PSt)
    (href : n.ref = some (pointerText ts)) (hts : PlainTokens ts) (hall : ¬ "/allOf/".toList <:+: (pointerText ts).toList)
    (hn : NoDependents n) (hread : s.resolvingId = "" ∨ s.resolvingId = s.parsingId) :
    (parseRec c (k + 1)).schema n s = .ok (.ref s.parsingId (pointerText ts), none) s := by
  have hsc : currentScope s = .ok s.parsingId s := by
    unfold currentScope gets
    dsimp only
    rcases hread with h | h
    · rw [h]; rfl
    · rw [h]; simp
  have hsp : splitHash (pointerText ts).toList = ([], (pointerText ts).toList) := by
    have : (pointerText ts).toList = '#' :: (trail ts).toList := by
      rw [pointer_trail, String.toList_append, show "#".toList = ['#'] from by decide +kernel]; rfl
    rw [this]
    exact splitHash_at (a := []) (by simp)
  have hm : matchDocumentRegex (pointerText ts) s = .ok ("", pointerText ts) s := by
    unfold matchDocumentRegex
    rw [hsp]
    dsimp only
    rw [if_neg (pointer_no_newline hts), String.ofList_toList]
    rfl
  rw [schema_ref href hn]
  unfold parseReference
  rw [if_neg (by rw [noAllOf_iff.2 hall]; simp)]
  refine bind_ok.2 ⟨.ok (s.parsingId, pointerText ts), s, ?_, rfl⟩
  unfold handleDeferred
  refine bind_ok.2 ⟨_, _, hm, ?_⟩
  rw [if_pos rfl]
  refine bind_ok.2 ⟨_, _, hsc, ?_⟩
  rw [orRoot_pointer]
  rfl

/-- **C81, following.** What a reference generates: a value of the generator that is registered for the place, produced
while the reference is noted as open; or null after the cutoff; or one of three texts that say that nothing is
registered there, that too many references are open, or that this one is open already. -/
theorem C81_following (c : Ctx) (n : Nat) (doc path : String) (s s' : GSt) (v : JVal)
    (h : generate c (n + 1) (.ref doc path) s = .ok v s') :
    (shouldCutoff c.o (s.complexity + 1) = true ∧ v = .null) ∨
    (shouldCutoff c.o (s.complexity + 1) = false ∧
      ((c.env doc path = none ∧ v = .str ("Unresolvable reference: document '" ++ doc ++ "' with path '" ++ path ++ "'")) ∨
      ∃ g, c.env doc path = some g ∧
        ((c.o.maximumReferenceDepth < s.refs.length ∧ ∃ t, v = .str ("Maximum reference resolution depth of " ++ t)) ∨
        (s.refs.length ≤ c.o.maximumReferenceDepth ∧
          ((refKey doc path ∈ s.refs ∧ c.o.bypassCyclicReferenceCheck = false ∧
            ∃ t, v = .str ("Cyclic reference found: " ++ t)) ∨
          ((refKey doc path ∉ s.refs ∨ c.o.bypassCyclicReferenceCheck = true) ∧
            ∃ s2, generate c n g { s with complexity := s.complexity + 1, refs := refKey doc path :: s.refs } = .ok v s2 ∧
              s' = { s2 with refs := s.refs })))))) := by
  change refGenerate c (generate c n) doc path s = _ at h
  unfold refGenerate at h
  simp only [bind_apply, tick, modS_apply, cutoff] at h
  cases hcut : shouldCutoff c.o (s.complexity + 1) with
  | true =>
    rw [hcut] at h
    simp only [if_true, bind_apply, note, modS_apply, pure_apply] at h
    injection h with h1 _
    exact .inl ⟨rfl, h1.symm⟩
  | false =>
    rw [hcut] at h
    refine .inr ⟨rfl, ?_⟩
    rw [if_neg (by simp)] at h
    cases he : c.env doc path with
    | none =>
      rw [he] at h
      simp only [bind_apply, note, modS_apply, pure_apply] at h
      injection h with h1 _
      refine .inl ⟨rfl, ?_⟩
      rw [← h1]
      apply congrArg JVal.str
      apply String.toList_inj.1
      simp [ToString.toString]
    | some g =>
      rw [he] at h
      refine .inr ⟨g, rfl, ?_⟩
      dsimp only at h
      unfold refEnter at h
      dsimp only at h
      split at h
      · rename_i hd
        simp only [bind_apply, note, modS_apply, pure_apply] at h
        injection h with h1 _
        refine .inl ⟨hd, toString c.o.maximumReferenceDepth ++ " exceeded: " ++ formatRefs s.refs, ?_⟩
        rw [← h1]
        apply congrArg JVal.str
        apply String.toList_inj.1
        simp only [ToString.toString, String.toList_append, List.append_assoc]
      · rename_i hd
        refine .inr ⟨by unfold goLen at hd; omega, ?_⟩
        split at h
        · rename_i hc
          simp only [bind_apply, note, modS_apply, pure_apply] at h
          injection h with h1 _
          refine .inl ⟨hc.1, hc.2, formatRefs s.refs ++ " \n " ++ path ++ " ", ?_⟩
          rw [← h1]
          apply congrArg JVal.str
          apply String.toList_inj.1
          simp only [ToString.toString, String.toList_append, List.append_assoc]
        · rename_i hc
          refine .inr ⟨?_, ?_⟩
          · by_cases hm : refKey doc path ∈ s.refs
            · right
              cases hb : c.o.bypassCyclicReferenceCheck with
              | true => rfl
              | false => exact (hc ⟨hm, hb⟩).elim
            · exact .inl hm
          · obtain ⟨_, s1, h1, h⟩ := bind_ok.1 h
            obtain ⟨v1, s2, h2, h⟩ := bind_ok.1 h
            obtain ⟨_, s3, h3, h⟩ := bind_ok.1 h
            obtain ⟨rfl, rfl⟩ := pure_ok.1 h
            unfold pushRef at h1
            rw [modS_apply] at h1
            injection h1 with _ h1
            subst h1
            have hr : s2.refs = refKey doc path :: s.refs := C03_reference_stack_balanced c n g _ _ _ h2
            refine ⟨s2, h2, ?_⟩
            unfold popRef at h3
            rw [hr] at h3
            dsimp only at h3
            injection h3 with _ h3
            exact h3.symm

/-! ## The hypotheses are met, and where the claim fails -/

/-- A reference into a combination, and a local one, at the start of a parse. -/
example : "/allOf/".toList <:+: "#/$defs/a/allOf/1".toList ∧ ¬ "/allOf/".toList <:+: (pointerText ["$defs", "allOf"]).toList ∧
    PlainTokens ["$defs", "allOf"] ∧ NoDependents { ref := some "#/$defs/a/allOf/1" } ∧
    (emptyPSt.depth + 1 ≤ demoEnv.maxParseDepth ∧ emptyPSt.resolvingId = "") := by
  refine ⟨hasAllOf_iff.1 (by decide +kernel), noAllOf_iff.1 (by decide +kernel), ?_, ⟨rfl, rfl⟩, by decide +kernel, by decide +kernel⟩
  intro t ht
  simp only [List.mem_cons, List.not_mem_nil, or_false] at ht
  rcases ht with rfl | rfl <;> exact ⟨by decide +kernel, by decide +kernel, by decide +kernel⟩

/-- A web document with definitions that refer to each other. -/
def leakEnv : PEnv :=
  { demoEnv with httpGet := fun u =>
      if u = "https://a.org/o" then some (.obj [("$defs", .obj [
        ("x", .obj [("type", .str "object"), ("properties", .obj [("a", .obj [("anyOf", .arr [.obj [("$ref", .str "#/$defs/y")]])])])]),
        ("y", .obj [("type", .str "null")]),
        ("z", .obj [("type", .str "null")])])])
      else none }

theorem leakEnv_laws : EnvLaws leakEnv := ⟨demoEnv_laws.url, demoEnv_laws.paths⟩

/-- A schema with a combination that refers to the web document, and a property `q` that refers to a definition of the
schema itself. -/
def leakSchema (ref : String) : JVal := .obj [("type", .str "object"),
  ("$defs", .obj [("z", .obj [("type", .str "boolean")])]),
  ("properties", .obj [("p", .obj [("anyOf", .arr [.obj [("$ref", .str ref)]])]),
    ("q", .obj [("$ref", .str "#/$defs/z")])]), ("required", .arr [.str "p", .str "q"])]

/-- The property of a generated object, if nothing was reported. -/
def propertyOf (c : PEnv) (o : LibOpts) (schema : JVal) (k : String) : Option JVal :=
  match (libParse c 20 schema o).1 with
  | .done (.ok (g, none) s) =>
    if s.errors.length = 0 then
      match rootGenerate demoWorld {} (refEnv s) 20 g with
      | .ok (.obj m) _ => lookupKV m k
      | _ => none
    else none
  | _ => none

def leakOpts : LibOpts := { relativeTo := "https://a.org/root", http := { enabled := true, allowedHosts := ["a.org"] } }

/-- With a simpler definition of the other document, `q` is a boolean. -/
example : (propertyOf leakEnv leakOpts (leakSchema "https://a.org/o#/$defs/y") "q").map JVal.isBool = some true := by
  decide +kernel

/-- C81 is violated: after a combination of the other document that has itself a combination with a reference, the parser
goes on looking local references up in the other document.  Here `q` is no boolean, although its reference denotes a
definition of the schema it is written in, and nothing is reported. -/
theorem C81_other_document_violation : ∃ c o schema x, EnvLaws c ∧ o.relativeTo ≠ "" ∧
    schema = leakSchema "https://a.org/o#/$defs/x" ∧ propertyOf c o schema "q" = some x ∧ x.isBool = false := by
  have h : (propertyOf leakEnv leakOpts (leakSchema "https://a.org/o#/$defs/x") "q").map JVal.isBool = some false := by
    decide +kernel
  cases e : propertyOf leakEnv leakOpts (leakSchema "https://a.org/o#/$defs/x") "q" with
  | none => rw [e] at h; cases h
  | some x =>
    rw [e] at h
    injection h with h
    exact ⟨leakEnv, leakOpts, _, x, leakEnv_laws, by decide, rfl, e, h⟩

/-- An object with one property that has the given reference, beside a definition and a property with a definition of its
own. -/
def pointSchema (ref : String) : JVal := .obj [("type", .str "object"),
  ("properties", .obj [("a", .obj [("$ref", .str ref)]),
    ("b", .obj [("type", .str "boolean"), ("$defs", .obj [("c", .obj [("type", .str "boolean")])])])]),
  ("required", .arr [.str "a"]), ("$defs", .obj [("c", .obj [("type", .str "boolean")])])]

/-- References to the definition and to the other property. -/
example : (propertyOf demoEnv {} (pointSchema "#/$defs/c") "a").map JVal.isBool = some true ∧
    (propertyOf demoEnv {} (pointSchema "#/properties/b") "a").map JVal.isBool = some true := by decide +kernel

/-- C81 is violated: a reference to a place that does not exist is not reported when the schema is parsed.  The generated
value is a text about the reference. -/
theorem C81_dangling_violation : ∃ x, propertyOf demoEnv {} (pointSchema "#/$defs/missing") "a" = some (.str x) := by
  have h : (propertyOf demoEnv {} (pointSchema "#/$defs/missing") "a").map (fun v => match v with
      | .str _ => true
      | _ => false) = some true := by decide +kernel
  cases e : propertyOf demoEnv {} (pointSchema "#/$defs/missing") "a" with
  | none => rw [e] at h; cases h
  | some x =>
    rw [e] at h
    cases x with
    | str t => exact ⟨t, rfl⟩
    | _ => simp at h

/-- C81 is violated: definitions are only known at the top of a document.  A reference to a definition of a property is
neither followed nor reported, although the place exists. -/
theorem C81_nested_definition_violation :
    ∃ x, propertyOf demoEnv {} (pointSchema "#/properties/b/$defs/c") "a" = some (.str x) := by
  have h : (propertyOf demoEnv {} (pointSchema "#/properties/b/$defs/c") "a").map (fun v => match v with
      | .str _ => true
      | _ => false) = some true := by decide +kernel
  cases e : propertyOf demoEnv {} (pointSchema "#/properties/b/$defs/c") "a" with
  | none => rw [e] at h; cases h
  | some x =>
    rw [e] at h
    cases x with
    | str t => exact ⟨t, rfl⟩
    | _ => simp at h

/-- C81 is violated: without fetchers a reference to a place of another document is taken for the same place of the
document at hand, and nothing is reported. -/
theorem C81_other_name_violation :
    (propertyOf demoEnv { relativeTo := "https://a.org/x" } (pointSchema "https://other.org/doc#/$defs/c") "a").map JVal.isBool = some true := by
  decide +kernel

end Chaff
